import Verif.Proofs.FarOffFloat
import Verif.Props.Ieee

/-! # C81: what the defect of `Radix4` does in floating point

C79 says that a composition with a `Radix4` of length 128 or more does not compute the DHT in exact arithmetic.  Here it is the
arithmetic that the crate runs on, and the size of the error.  `RadersExact` leaves out one case: such a `Radix4` inside
`RadersAlgorithm`. -/

namespace RustDHT

/-- In exact arithmetic there is a signal for which the error is at least `√2` times the norm of the DHT. -/
theorem C81_exact (p : Plan) (hp : p.RadersExact) (hn : ¬ p.SmallRadix4) (d : Dht ℝ) (hd : p.build ℝ = .ok d) (hpos : 0 < d.len) :
    ∃ x y, x.length = d.len ∧ 0 < norm2 x ∧ d.process x = .ok y ∧ y.length = d.len ∧
      √2 * norm2 (dht x) ≤ norm2 (List.zipWith (· - ·) y (dht x)) := by
  obtain ⟨f, hf⟩ := (plan_ok p d hd).implements
  obtain ⟨x, hx, h0, h1⟩ := plan_far p hp hn d hd hpos f hf
  have hl : (dht x).length = d.len := by rw [length_dht, hx]
  refine ⟨x, f x, hx, by rwa [norm2_eq hx], process_single hf hx, hf.length x hx, ?_⟩
  rw [norm2_eq hl, nrm_dht hx, norm2_sub (hf.length x hx) hl]
  exact h1

/-- `√2` is the exact value for `Radix4` itself and any unit impulse that C78 says it gets wrong. -/
theorem C81_exact_impulse (m i : ℕ) (hi : i < 2 ^ m) (h : ∃ j < (m - 5) / 2, i / 4 ^ j % 4 = 3) :
    ∃ d y, radix4 ℝ (2 ^ m) = .ok d ∧ d.process ((List.range (2 ^ m)).map fun j => if j = i then 1 else 0) = .ok y ∧
      norm2 (List.zipWith (· - ·) y (dht ((List.range (2 ^ m)).map fun j => if j = i then (1 : ℝ) else 0))) =
        √2 * norm2 (dht ((List.range (2 ^ m)).map fun j => if j = i then (1 : ℝ) else 0)) := by
  have hmove : r4Sigma (r4BaseLen m) (r4Levels m) i ≠ i := by
    rw [Ne, r4Sigma_fixed (r4BaseLen_pos m) _ _ (lt_of_lt_of_eq hi (r4_len m)), r4Levels_sub]
    obtain ⟨j, hj, e⟩ := h
    exact fun h => h j hj e
  have hd := radix4_eq (T := ℝ) m
  have hf := radix4_implements hd
  have hx := length_unitAt (2 ^ m) i
  have hl : (dht (unitAt (2 ^ m) i)).length = 2 ^ m := by rw [length_dht, hx]
  refine ⟨_, _, hd, process_single hf hx, ?_⟩
  have e : (List.range (2 ^ m)).map (fun j => if j = i then (1 : ℝ) else 0) = unitAt (2 ^ m) i := rfl
  rw [e, norm2_sub (hf.length _ hx) hl, norm2_eq hl, nrm_dht hx, nrm_unitAt hi, mul_one]
  exact radix4_impulse hi hmove

section
variable {T : Type} [Zero T] [Add T] [Sub T] [Mul T] [Neg T] [FftNum T]
variable {fin : T → Prop} {val : T → ℝ} {u η Ω : ℝ} {t s : ℕ}

/-- In floating point, as long as roundings, underflow and overflow are kept small: there is a signal of finite numbers for which all
outputs are finite and the error is at least five quarters of the norm of the DHT. -/
theorem C81_float (p : Plan) (hp : p.RadersExact) (hn : ¬ p.SmallRadix4) (hm : FloatModel fin val u η Ω t s)
    (near : ∀ r : ℝ, |r| ≤ 1 → ∃ a, fin a ∧ |val a - r| ≤ u * |r| + η) (d : Dht T) (hd : p.build T = .ok d) (hpos : 0 < d.len)
    (a : Stab) (ha : a = p.stability t s) (h1 : (a.depth + 1 : ℕ) * u ≤ 1 / 64) (h2 : (a.under + 1 : ℕ) * η * √d.len ≤ 1 / 64)
    (h3 : 5 * a.big * √d.len ≤ Ω) :
    ∃ x y, x.length = d.len ∧ (∀ b ∈ x, fin b) ∧ 1 / 2 ≤ norm2 (x.map val) ∧ norm2 (x.map val) ≤ 2 ∧
      d.process x = .ok y ∧ (∀ b ∈ y, fin b) ∧
      5 / 4 * norm2 (dht (x.map val)) ≤ norm2 (List.zipWith (· - ·) (y.map val) (dht (x.map val))) :=
  plan_far_float p hp hn hm near d hd hpos a ha h1 h2 h3

/-- So a composition is accurate in floating point if and only if it has no `Radix4` of length 128 or more: the relative error is at
most an eighth for all signals of moderate norm, or at least five quarters for one of them. -/
theorem C81_dichotomy (p : Plan) (hp : p.RadersExact) (hm : FloatModel fin val u η Ω t s)
    (near : ∀ r : ℝ, |r| ≤ 1 → ∃ a, fin a ∧ |val a - r| ≤ u * |r| + η) (d : Dht T) (hd : p.build T = .ok d) (hpos : 0 < d.len)
    (a : Stab) (ha : a = p.stability t s) (h1 : (a.depth + 1 : ℕ) * u ≤ 1 / 64) (h2 : (a.under + 1 : ℕ) * η * √d.len ≤ 1 / 64)
    (h3 : 5 * a.big * √d.len ≤ Ω) :
    p.SmallRadix4 ↔ ∀ x, x.length = d.len → (∀ b ∈ x, fin b) → 1 / 2 ≤ norm2 (x.map val) → norm2 (x.map val) ≤ 2 →
      ∃ y, d.process x = .ok y ∧ (∀ b ∈ y, fin b) ∧
        norm2 (List.zipWith (· - ·) (y.map val) (dht (x.map val))) ≤ 1 / 8 * norm2 (dht (x.map val)) := by
  constructor
  · intro hs x hx hf n1 n2
    obtain ⟨f, hi, h⟩ := C46_relative_error p hs hm d hd
    have hu0 := hm.u_nonneg
    have hη := hm.η_nonneg
    have hq := Real.sqrt_nonneg (d.len : ℝ)
    have hss : √(d.len : ℝ) * √d.len = d.len := Real.mul_self_sqrt (Nat.cast_nonneg _)
    have hD : a.depth * u ≤ 1 / 64 := le_trans (mul_le_mul_of_nonneg_right (by exact_mod_cast Nat.le_succ _) hu0) h1
    have hU : a.under * η * √d.len ≤ 1 / 64 :=
      le_trans (mul_le_mul_of_nonneg_right (mul_le_mul_of_nonneg_right (by exact_mod_cast Nat.le_succ _) hη) hq) h2
    obtain ⟨k1, k2⟩ := h x hx hf a ha (by linarith) (by
      refine le_trans ?_ h3
      have : max (norm2 (x.map val)) 1 ≤ 2 := max_le n2 (by norm_num)
      calc a.big * (√d.len * (2 * (max (norm2 (x.map val)) 1 + a.under * η * √d.len))) ≤ a.big * (√d.len * (2 * (2 + 1 / 64))) := by gcongr
        _ ≤ a.big * (√d.len * 5) := by gcongr; norm_num
        _ = _ := by ring)
    refine ⟨f x, process_single hi hx, k1, k2.trans ?_⟩
    have hxv : (x.map val).length = d.len := by simp [hx]
    have hX : norm2 (dht (x.map val)) = √d.len * norm2 (x.map val) := by
      rw [norm2_eq (n := d.len) (by rw [length_dht, hxv]), norm2_eq hxv, nrm_dht hxv]
    rw [hX]
    have e1 : 2 * a.under * η * d.len = 2 * (a.under * η * √d.len) * √d.len := by linear_combination (-2 * a.under * η) * hss
    have e2 : (2 * a.depth * u) * (√d.len * norm2 (x.map val)) ≤ 1 / 32 * (√d.len * norm2 (x.map val)) :=
      mul_le_mul_of_nonneg_right (by linarith) (mul_nonneg hq (Real.sqrt_nonneg _))
    have e3 : 2 * (a.under * η * √d.len) * √d.len ≤ 1 / 32 * √d.len := mul_le_mul_of_nonneg_right (by linarith) hq
    have e4 : √d.len * (1 / 2) ≤ √d.len * norm2 (x.map val) := mul_le_mul_of_nonneg_left n1 hq
    rw [e1]
    linarith
  · intro h
    by_contra hn
    obtain ⟨x, y, hx, hf, n1, n2, hy, -, hfar⟩ := plan_far_float p hp hn hm near d hd hpos a ha h1 h2 h3
    obtain ⟨y', hy', -, hnear⟩ := h x hx hf n1 n2
    rw [hy] at hy'
    cases hy'
    have hxv : (x.map val).length = d.len := by simp [hx]
    have hX : norm2 (dht (x.map val)) = √d.len * norm2 (x.map val) := by
      rw [norm2_eq (n := d.len) (by rw [length_dht, hxv]), norm2_eq hxv, nrm_dht hxv]
    have hp : 0 < √(d.len : ℝ) * norm2 (x.map val) := mul_pos (Real.sqrt_pos.2 (by exact_mod_cast hpos)) (by linarith)
    rw [← hX] at hp
    linarith

/-- `Radix4` itself on an impulse of height one at an index that C78 says it gets wrong: the norm of the DHT is the square root of the
length, the error is at least five quarters of it. -/
theorem C81_impulse (m i : ℕ) (hi : i < 2 ^ m) (h : ∃ j < (m - 5) / 2, i / 4 ^ j % 4 = 3) (hm : FloatModel fin val u η Ω t s)
    (d : Dht T) (hd : radix4 T (2 ^ m) = .ok d) (one : T) (o1 : fin one) (o2 : val one = 1)
    (a : Stab) (ha : a = (Plan.radix4 (2 ^ m)).stability t s) (h1 : (a.depth + 1 : ℕ) * u ≤ 1 / 64)
    (h2 : (a.under + 1 : ℕ) * η * √(2 ^ m : ℕ) ≤ 1 / 64) (h3 : 5 * a.big * √(2 ^ m : ℕ) ≤ Ω) :
    ∃ y, d.process ((List.range (2 ^ m)).map fun j => if j = i then one else 0) = .ok y ∧ (∀ b ∈ y, fin b) ∧
      5 / 4 * √(2 ^ m : ℕ) ≤ norm2 (List.zipWith (· - ·) (y.map val)
        (dht ((List.range (2 ^ m)).map fun j => if j = i then (1 : ℝ) else 0))) := by
  refine radix4_impulse_float hm d hd a ha h1 h2 h3 one o1 o2 hi ?_
  rw [Ne, r4Sigma_fixed (r4BaseLen_pos m) _ _ (lt_of_lt_of_eq hi (r4_len m)), r4Levels_sub]
  obtain ⟨j, hj, e⟩ := h
  exact fun h => h j hj e

end

/-! The conditions in `C81_f32` and `C81_f64` are on natural numbers; they imply those above. -/

theorem far_sqrt_le (n : ℕ) : √(n : ℝ) ≤ n := by
  rw [Real.sqrt_le_left (Nat.cast_nonneg _)]
  exact_mod_cast Nat.le_self_pow (by norm_num) n

theorem far_depth {c k : ℕ} (h : c < 2 ^ k) : ((c + 1 : ℕ) : ℝ) * 2⁻¹ ^ (k + 6) ≤ 1 / 64 := by
  have : ((c + 1 : ℕ) : ℝ) ≤ 2 ^ k := by exact_mod_cast h
  calc ((c + 1 : ℕ) : ℝ) * 2⁻¹ ^ (k + 6) ≤ 2 ^ k * 2⁻¹ ^ (k + 6) := by gcongr
    _ = (2 * 2⁻¹) ^ k * 2⁻¹ ^ 6 := by rw [mul_pow, pow_add]; ring
    _ = 1 / 64 := by norm_num

theorem far_under {c n k : ℕ} (h : c * n ≤ 2 ^ k) : (c : ℝ) * 2⁻¹ ^ (k + 6) * √n ≤ 1 / 64 := by
  have : (c : ℝ) * n ≤ 2 ^ k := by exact_mod_cast h
  calc (c : ℝ) * 2⁻¹ ^ (k + 6) * √n ≤ (c : ℝ) * 2⁻¹ ^ (k + 6) * n := mul_le_mul_of_nonneg_left (far_sqrt_le n) (by positivity)
    _ = (c : ℝ) * n * 2⁻¹ ^ (k + 6) := by ring
    _ ≤ 2 ^ k * 2⁻¹ ^ (k + 6) := by gcongr
    _ = (2 * 2⁻¹) ^ k * 2⁻¹ ^ 6 := by rw [mul_pow, pow_add]; ring
    _ = 1 / 64 := by norm_num

theorem far_big {b n k : ℕ} (h : 5 * b * n ≤ 2 ^ k) : 5 * (b : ℝ) * √n ≤ 2 ^ k := by
  have : 5 * (b : ℝ) * n ≤ 2 ^ k := by exact_mod_cast h
  exact (mul_le_mul_of_nonneg_left (far_sqrt_le n) (by positivity)).trans this

theorem far_near (F : Fmt) (hF : F.emin + 2 ≤ F.emax) (he : 1 ≤ F.emax) (k : ℕ) (hk : F.emin - 1 = -(k : ℤ)) (r : ℝ) (hr : |r| ≤ 1) :
    ∃ a : Flt F, a.fin ∧ |a.val - r| ≤ 2⁻¹ ^ F.prec * |r| + 2⁻¹ ^ k := by
  have h := Flt.roundSigned_spec (F := F) hF false r (hr.trans (one_le_zpow₀ (by norm_num) (by omega)))
  refine ⟨_, h.1, h.2.1.trans_eq ?_⟩
  rw [hk, zpow_neg, zpow_natCast, inv_pow, inv_pow]

section
variable [MathLib]

/-- Every composition in `f32`. -/
theorem C81_f32 (hl : MathLib.Accurate) (p : Plan) (hp : p.RadersExact) (d : Dht (Flt binary32)) (hd : p.build (Flt binary32) = .ok d)
    (hpos : 0 < d.len) (a : Stab) (ha : a = p.stability 2 2) (h1 : a.depth < 2 ^ 18) (h2 : (a.under + 1) * d.len ≤ 2 ^ 144)
    (h3 : 5 * a.big * d.len ≤ 2 ^ 127) :
    p.SmallRadix4 ↔ ∀ x, x.length = d.len → (∀ b ∈ x, b.fin) → 1 / 2 ≤ norm2 (x.map Flt.val) → norm2 (x.map Flt.val) ≤ 2 →
      ∃ y, d.process x = .ok y ∧ (∀ b ∈ y, b.fin) ∧
        norm2 (List.zipWith (· - ·) (y.map Flt.val) (dht (x.map Flt.val))) ≤ 1 / 8 * norm2 (dht (x.map Flt.val)) :=
  C81_dichotomy p hp (C48_f32 hl) (far_near binary32 (by decide) (by decide) 150 (by decide)) d hd hpos a ha
    (far_depth h1) (far_under h2) (far_big h3)

/-- A composition with a large `Radix4` in `f32`: a signal with all outputs finite and an error of five quarters of the whole result. -/
theorem C81_f32_wrong (hl : MathLib.Accurate) (p : Plan) (hp : p.RadersExact) (hn : ¬ p.SmallRadix4) (d : Dht (Flt binary32))
    (hd : p.build (Flt binary32) = .ok d) (hpos : 0 < d.len) (a : Stab) (ha : a = p.stability 2 2) (h1 : a.depth < 2 ^ 18)
    (h2 : (a.under + 1) * d.len ≤ 2 ^ 144) (h3 : 5 * a.big * d.len ≤ 2 ^ 127) :
    ∃ x y, x.length = d.len ∧ (∀ b ∈ x, b.fin) ∧ 1 / 2 ≤ norm2 (x.map Flt.val) ∧ norm2 (x.map Flt.val) ≤ 2 ∧
      d.process x = .ok y ∧ (∀ b ∈ y, b.fin) ∧
      5 / 4 * norm2 (dht (x.map Flt.val)) ≤ norm2 (List.zipWith (· - ·) (y.map Flt.val) (dht (x.map Flt.val))) :=
  C81_float p hp hn (C48_f32 hl) (far_near binary32 (by decide) (by decide) 150 (by decide)) d hd hpos a ha
    (far_depth h1) (far_under h2) (far_big h3)

/-- Every composition in `f64`. -/
theorem C81_f64 (hl : MathLib.Accurate) (p : Plan) (hp : p.RadersExact) (d : Dht (Flt binary64)) (hd : p.build (Flt binary64) = .ok d)
    (hpos : 0 < d.len) (a : Stab) (ha : a = p.stability 69 (2 ^ 29)) (h1 : a.depth < 2 ^ 47) (h2 : (a.under + 1) * d.len ≤ 2 ^ 1069)
    (h3 : 5 * a.big * d.len ≤ 2 ^ 1023) :
    p.SmallRadix4 ↔ ∀ x, x.length = d.len → (∀ b ∈ x, b.fin) → 1 / 2 ≤ norm2 (x.map Flt.val) → norm2 (x.map Flt.val) ≤ 2 →
      ∃ y, d.process x = .ok y ∧ (∀ b ∈ y, b.fin) ∧
        norm2 (List.zipWith (· - ·) (y.map Flt.val) (dht (x.map Flt.val))) ≤ 1 / 8 * norm2 (dht (x.map Flt.val)) :=
  C81_dichotomy p hp (C48_f64 hl) (far_near binary64 (by decide) (by decide) 1075 (by decide)) d hd hpos a ha
    (far_depth h1) (far_under h2) (far_big h3)

/-- A composition with a large `Radix4` in `f64`: a signal with all outputs finite and an error of five quarters of the whole result. -/
theorem C81_f64_wrong (hl : MathLib.Accurate) (p : Plan) (hp : p.RadersExact) (hn : ¬ p.SmallRadix4) (d : Dht (Flt binary64))
    (hd : p.build (Flt binary64) = .ok d) (hpos : 0 < d.len) (a : Stab) (ha : a = p.stability 69 (2 ^ 29)) (h1 : a.depth < 2 ^ 47)
    (h2 : (a.under + 1) * d.len ≤ 2 ^ 1069) (h3 : 5 * a.big * d.len ≤ 2 ^ 1023) :
    ∃ x y, x.length = d.len ∧ (∀ b ∈ x, b.fin) ∧ 1 / 2 ≤ norm2 (x.map Flt.val) ∧ norm2 (x.map Flt.val) ≤ 2 ∧
      d.process x = .ok y ∧ (∀ b ∈ y, b.fin) ∧
      5 / 4 * norm2 (dht (x.map Flt.val)) ≤ norm2 (List.zipWith (· - ·) (y.map Flt.val) (dht (x.map Flt.val))) :=
  C81_float p hp hn (C48_f64 hl) (far_near binary64 (by decide) (by decide) 1075 (by decide)) d hd hpos a ha
    (far_depth h1) (far_under h2) (far_big h3)

/-! ## Concrete cases -/

/-- `MixedRadix` of `Butterfly3` and `Radix4` of length 128 in `f32` and in `f64`: all conditions hold. -/
example (hl : MathLib.Accurate) : ∃ (d : Dht (Flt binary32)) (x y : List (Flt binary32)),
    (Plan.mixedRadix .b3 (.radix4 128)).build (Flt binary32) = .ok d ∧ x.length = 384 ∧ d.process x = .ok y ∧ (∀ b ∈ y, b.fin) ∧
      5 / 4 * norm2 (dht (x.map Flt.val)) ≤ norm2 (List.zipWith (· - ·) (y.map Flt.val) (dht (x.map Flt.val))) := by
  let p := Plan.mixedRadix .b3 (.radix4 128)
  have hd : ∃ d, p.build (Flt binary32) = .ok d := ⟨_, by
    simp only [p, Plan.build, show (128 : ℕ) = 2 ^ 7 from rfl, radix4_eq]; rfl⟩
  obtain ⟨d, hd⟩ := hd
  have hl' : d.len = 384 := plan_len p d hd
  obtain ⟨x, y, hx, -, -, -, hy, hf, h⟩ := C81_f32_wrong hl p ⟨trivial, trivial⟩ (fun h => (by decide : ¬ 128 ≤ 64) h.2) d hd (by omega)
    ⟨367, 17, 8⟩ (by decide) (by decide) (by rw [hl']; decide) (by rw [hl']; decide)
  exact ⟨d, x, y, hd, hx.trans hl', hy, hf, h⟩

example (hl : MathLib.Accurate) : ∃ (d : Dht (Flt binary64)) (x y : List (Flt binary64)),
    (Plan.mixedRadix .b3 (.radix4 128)).build (Flt binary64) = .ok d ∧ x.length = 384 ∧ d.process x = .ok y ∧ (∀ b ∈ y, b.fin) ∧
      5 / 4 * norm2 (dht (x.map Flt.val)) ≤ norm2 (List.zipWith (· - ·) (y.map Flt.val) (dht (x.map Flt.val))) := by
  let p := Plan.mixedRadix .b3 (.radix4 128)
  have hd : ∃ d, p.build (Flt binary64) = .ok d := ⟨_, by
    simp only [p, Plan.build, show (128 : ℕ) = 2 ^ 7 from rfl, radix4_eq]; rfl⟩
  obtain ⟨d, hd⟩ := hd
  have hl' : d.len = 384 := plan_len p d hd
  have e1 : (17 + 1) * 384 ≤ 2 ^ 14 := by decide
  obtain ⟨x, y, hx, -, -, -, hy, hf, h⟩ := C81_f64_wrong hl p ⟨trivial, trivial⟩ (fun h => (by decide : ¬ 128 ≤ 64) h.2) d hd (by omega)
    ⟨4294970930, 17, 8⟩ (by decide) (by decide)
    (by rw [hl']; refine e1.trans ?_; exact Nat.pow_le_pow_right Nat.two_pos (by decide))
    (by rw [hl']; exact le_trans (by decide : 5 * 8 * 384 ≤ 2 ^ 14) (Nat.pow_le_pow_right (by norm_num) (by norm_num)))
  exact ⟨d, x, y, hd, hx.trans hl', hy, hf, h⟩

/-- The same composition in exact arithmetic. -/
example : ∃ d x y, (Plan.mixedRadix .b3 (.radix4 128)).build ℝ = .ok d ∧ d.process x = .ok y ∧ 0 < norm2 x ∧
    √2 * norm2 (dht x) ≤ norm2 (List.zipWith (· - ·) y (dht x)) := by
  let p := Plan.mixedRadix .b3 (.radix4 128)
  have hd : ∃ d, p.build ℝ = .ok d := ⟨_, by
    simp only [p, Plan.build, show (128 : ℕ) = 2 ^ 7 from rfl, radix4_eq]; rfl⟩
  obtain ⟨d, hd⟩ := hd
  have hl' : d.len = 384 := plan_len p d hd
  obtain ⟨x, y, -, h0, hy, -, h⟩ := C81_exact p ⟨trivial, trivial⟩ (fun h => (by decide : ¬ 128 ≤ 64) h.2) d hd (by omega)
  exact ⟨d, x, y, hd, hy, h0, h⟩

/-- `Radix4` of length 128 in `f32` on the impulse at index 3. -/
example (hl : MathLib.Accurate) : ∃ (one : Flt binary32) (d : Dht (Flt binary32)) (y : List (Flt binary32)), one.val = 1 ∧
    radix4 (Flt binary32) 128 = .ok d ∧ d.process ((List.range 128).map fun j => if j = 3 then one else 0) = .ok y ∧
      (∀ b ∈ y, b.fin) ∧ 5 / 4 * √(128 : ℕ) ≤ norm2 (List.zipWith (· - ·) (y.map Flt.val)
        (dht ((List.range 128).map fun j => if j = 3 then (1 : ℝ) else 0))) := by
  have hr : binary32.Rep 1 := ⟨1, 0, by decide, by decide, by norm_num, by norm_num; decide⟩
  have ho : (Flt.num false 1 hr).val = 1 := by simp [Flt.val, Flt.value]
  obtain ⟨y, h⟩ := C81_impulse 7 3 (by decide) ⟨0, by decide, by decide⟩ (C48_f32 hl) _ (radix4_eq 7) (Flt.num false 1 hr) trivial ho
    ⟨_, _, _⟩ rfl (far_depth (k := 18) (by decide)) (far_under (k := 144) (by decide)) (far_big (by decide))
  exact ⟨_, _, y, ho, radix4_eq 7, h⟩

/-- Length 128, index 3: the last base-4 digit is 3, and one digit counts. -/
example : 3 < 2 ^ 7 ∧ ∃ j < (7 - 5) / 2, 3 / 4 ^ j % 4 = 3 := ⟨by decide, 0, by decide, by decide⟩

/-- `Butterfly8` in `MixedRadix` with `Radix4` of length 64 is on the other side. -/
example : (Plan.mixedRadix .b8 (.radix4 64)).SmallRadix4 ∧ (Plan.mixedRadix .b8 (.radix4 64)).RadersExact :=
  ⟨⟨trivial, (by decide : 64 ≤ 64)⟩, trivial, trivial⟩

end

end RustDHT
