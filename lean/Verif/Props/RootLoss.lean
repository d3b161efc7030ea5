import Verif.Proofs.RootLossFloat
import Verif.Proofs.RootIeee
import Verif.Props.RootFree
import Verif.Props.FarOff

/-! # C82: with the rounded constant `sqrt(1/2)`, `f64` has the accuracy of `f32`

C80 says which compositions the constant makes wrong in exact arithmetic.  Here it is by how much, and in the `f64` that the crate runs on.
There the roundings make errors as well, which could undo that of the constant.  They do not: there is a signal for which the result is
too small by a part of 2⁻²⁷ or more, while a composition without the constant is right to 2⁻²⁹ or better for every signal of moderate norm.
`RadersFree` leaves out the compositions with the constant inside `RadersAlgorithm`. -/

set_option linter.style.haveILetI false

namespace RustDHT

theorem sqrtHalfRounded_small : sqrtHalfRounded * √2 < 1 - 1 / 2 ^ 26 - 1 / 2 ^ 40 := by
  have h0 : (0 : ℝ) ≤ √2 := Real.sqrt_nonneg 2
  have h2 : √2 * √2 = 2 := Real.mul_self_sqrt (by norm_num)
  unfold sqrtHalfRounded
  by_contra h
  push Not at h
  nlinarith

/-- In exact arithmetic with the rounded constant there is a signal for which the result is too small by the factor that the constant is
too small by, so the error is at least 2⁻²⁶ times the norm of the DHT. -/
theorem C82_exact (p : Plan) (hp : p.RadersFree) (hs : p.SmallRadix4) (hn : ¬ p.RootFree) (d : Dht ℝ)
    (hd : @Plan.build ℝ _ _ _ _ _ (realWithRoot sqrtHalfRounded) p = .ok d) (hpos : 0 < d.len) :
    ∃ x y, x.length = d.len ∧ 0 < norm2 x ∧ d.process x = .ok y ∧ y.length = d.len ∧
      norm2 y ≤ sqrtHalfRounded / √(1 / 2) * norm2 (dht x) ∧
      1 / 2 ^ 26 * norm2 (dht x) ≤ norm2 (List.zipWith (· - ·) y (dht x)) := by
  have hδ0 : 0 ≤ sqrtHalfRounded * √2 := by unfold sqrtHalfRounded; positivity
  have hδ1 := sqrtHalfRounded_small
  obtain ⟨f, hf, -, h⟩ := plan_lossy sqrtHalfRounded (by nlinarith) p hs hp d hd hpos
  obtain ⟨x, hx, h1, h2⟩ := (h hn).unit hδ0 (@plan_linear (realWithRoot sqrtHalfRounded) p d hd f hf)
  have ly := hf.length x hx
  have ld : (dht x).length = d.len := by rw [length_dht, hx]
  have e : sqrtHalfRounded / √(1 / 2) = sqrtHalfRounded * √2 := by
    rw [div_eq_mul_inv, ← Real.sqrt_inv]
    norm_num
  have hX : norm2 (dht x) = √d.len := by rw [norm2_eq ld, nrm_dht hx, h1, mul_one]
  refine ⟨x, f x, hx, by rw [norm2_eq hx, h1]; norm_num, process_single hf hx, ly, ?_, ?_⟩
  · rw [e, hX, norm2_eq ly]
    exact h2
  · rw [norm2_sub ly ld, hX]
    have t := nrm_sub_le d.len (nth (dht x)) (nth (f x)) fun _ => 0
    simp only [sub_zero] at t
    rw [nrm_symm d.len (nth (dht x))] at t
    have eX : nrm d.len (fun i => nth (dht x) i) = √d.len := by rw [← norm2_eq ld, hX]
    have eF : nrm d.len (fun i => nth (f x) i) ≤ sqrtHalfRounded * √2 * √d.len := h2
    have := mul_le_mul_of_nonneg_right hδ1.le (Real.sqrt_nonneg (d.len : ℝ))
    have := Real.sqrt_nonneg (d.len : ℝ)
    linarith

/-- In any floating-point arithmetic, with any constant `r` that is too small by `θ` or more relative to `√(1/2)`, as long as roundings,
underflow and overflow are small next to `θ`. -/
theorem C82_float {T : Type} [Zero T] [Add T] [Sub T] [Mul T] [Neg T] [i : FftNum T] {fin : T → Prop} {val : T → ℝ} {u η Ω : ℝ}
    {t s : ℕ} (p : Plan) (hp : p.RadersFree) (hs : p.SmallRadix4) (hn : ¬ p.RootFree) (hm : FloatModel fin val u η Ω t s)
    (near : ∀ r : ℝ, |r| ≤ 1 → ∃ a, fin a ∧ |val a - r| ≤ u * |r| + η) (r : T) (hr : fin r) (hr0 : 0 ≤ val r) (θ : ℝ)
    (hθ0 : 0 < θ) (hθ : val r ≤ (1 - θ) * √(1 / 2)) (d : Dht T) (hd : @Plan.build T _ _ _ _ _ (i.withRoot r) p = .ok d)
    (hpos : 0 < d.len) (a : Stab) (ha : a = p.stability t s) (h1 : (a.depth + 1 : ℕ) * u ≤ θ / 64)
    (h2 : (a.under + 1 : ℕ) * η * √d.len ≤ θ / 64) (h3 : 5 * a.big * √d.len ≤ Ω) :
    ∃ x y, x.length = d.len ∧ (∀ b ∈ x, fin b) ∧ 1 / 2 ≤ norm2 (x.map val) ∧ norm2 (x.map val) ≤ 2 ∧
      d.process x = .ok y ∧ (∀ b ∈ y, fin b) ∧
      θ / 2 * norm2 (dht (x.map val)) ≤ norm2 (List.zipWith (· - ·) (y.map val) (dht (x.map val))) := by
  refine plan_lossy_float p hp hs hn hm near (r := r) ⟨hr, rfl⟩ hr0 hθ0 ?_ d hd hpos a ha h1 h2 h3
  have e : √(1 / 2) * √2 = 1 := by rw [← Real.sqrt_mul (by norm_num)]; norm_num
  calc val r * √2 ≤ (1 - θ) * √(1 / 2) * √2 := mul_le_mul_of_nonneg_right hθ (Real.sqrt_nonneg _)
    _ = 1 - θ := by rw [mul_assoc, e, mul_one]

/-! The conditions in `C82_f64` are on natural numbers; they imply those above. -/

theorem loss_depth {c k j : ℕ} (h : c < 2 ^ k) : ((c + 1 : ℕ) : ℝ) * 2⁻¹ ^ (k + j) ≤ 2⁻¹ ^ j := by
  have : ((c + 1 : ℕ) : ℝ) ≤ 2 ^ k := by exact_mod_cast h
  calc ((c + 1 : ℕ) : ℝ) * 2⁻¹ ^ (k + j) ≤ 2 ^ k * 2⁻¹ ^ (k + j) := by gcongr
    _ = (2 * 2⁻¹) ^ k * 2⁻¹ ^ j := by rw [mul_pow, pow_add]; ring
    _ = 2⁻¹ ^ j := by norm_num

theorem loss_under {c n k j : ℕ} (h : c * n ≤ 2 ^ k) : (c : ℝ) * 2⁻¹ ^ (k + j) * √n ≤ 2⁻¹ ^ j := by
  have : (c : ℝ) * n ≤ 2 ^ k := by exact_mod_cast h
  calc (c : ℝ) * 2⁻¹ ^ (k + j) * √n ≤ (c : ℝ) * 2⁻¹ ^ (k + j) * n := mul_le_mul_of_nonneg_left (far_sqrt_le n) (by positivity)
    _ = (c : ℝ) * n * 2⁻¹ ^ (k + j) := by ring
    _ ≤ 2 ^ k * 2⁻¹ ^ (k + j) := by gcongr
    _ = (2 * 2⁻¹) ^ k * 2⁻¹ ^ j := by rw [mul_pow, pow_add]; ring
    _ = 2⁻¹ ^ j := by norm_num

theorem loss_range {c k m : ℕ} (h : c ≤ 2 ^ k) (hk : k ≤ m) : c ≤ 2 ^ m := h.trans (Nat.pow_le_pow_right Nat.two_pos hk)

theorem loss_succ {c n b : ℕ} (h : (c + 1) * n ≤ b) : c * n ≤ b := le_trans (Nat.mul_le_mul_right _ (Nat.le_succ _)) h

theorem loss_square (c w : ℝ) (n : ℕ) : 2 * c * w * n = 2 * (c * w * √n) * √n := by
  rw [show 2 * (c * w * √n) * √n = 2 * c * w * (√n * √n) by ring, Real.mul_self_sqrt (Nat.cast_nonneg _)]

section
variable [MathLib]

theorem sqrtHalf64_small : 0 ≤ (FftNum.sqrtHalfF32 (T := Flt binary64)).val ∧
    (FftNum.sqrtHalfF32 (T := Flt binary64)).val ≤ (1 - 1 / 2 ^ 26) * √(1 / 2) := by
  have h := abs_le.1 sqrtHalf64
  have h1 := sqrtHalfRounded_small
  have e : √(1 / 2) * √2 = 1 := by rw [← Real.sqrt_mul (by norm_num)]; norm_num
  have h2 : sqrtHalfRounded ≤ (1 - 1 / 2 ^ 26 - 1 / 2 ^ 40) * √(1 / 2) := by
    have := mul_le_mul_of_nonneg_right h1.le (Real.sqrt_nonneg (1 / 2))
    rwa [mul_assoc, mul_comm √2, e, mul_one] at this
  have h3 : (1 / 2 : ℝ) ≤ √(1 / 2) := by
    rw [Real.le_sqrt' (by norm_num)]
    norm_num
  have h4 : (1 / 2 : ℝ) ≤ sqrtHalfRounded := by unfold sqrtHalfRounded; norm_num
  have h5 : (2⁻¹ : ℝ) ^ 52 ≤ 1 / 2 ^ 40 * (1 / 2) := by norm_num
  have h6 : (2⁻¹ : ℝ) ^ 52 ≤ 1 / 2 := by norm_num
  constructor
  · linarith
  · generalize √(1 / 2 : ℝ) = q at *
    linarith

/-- In `f64`, if the constant occurs: a signal with all outputs finite and a relative error of 2⁻²⁷ or more. -/
theorem C82_f64_wrong (hl : MathLib.Accurate) (p : Plan) (hp : p.RadersFree) (hs : p.SmallRadix4) (hn : ¬ p.RootFree)
    (d : Dht (Flt binary64)) (hd : p.build (Flt binary64) = .ok d) (hpos : 0 < d.len) (a : Stab) (ha : a = p.stability 69 1)
    (h1 : a.depth < 2 ^ 21) (h2 : (a.under + 1) * d.len ≤ 2 ^ 1043) (h3 : 5 * a.big * d.len ≤ 2 ^ 1023) :
    ∃ x y, x.length = d.len ∧ (∀ b ∈ x, b.fin) ∧ 1 / 2 ≤ norm2 (x.map Flt.val) ∧ norm2 (x.map Flt.val) ≤ 2 ∧
      d.process x = .ok y ∧ (∀ b ∈ y, b.fin) ∧
      1 / 2 ^ 27 * norm2 (dht (x.map Flt.val)) ≤ norm2 (List.zipWith (· - ·) (y.map Flt.val) (dht (x.map Flt.val))) := by
  have e : (2⁻¹ : ℝ) ^ 32 = 1 / 2 ^ 26 / 64 := by norm_num
  have e' : (1 : ℝ) / 2 ^ 27 = 1 / 2 ^ 26 / 2 := by norm_num
  have k1 : ((a.depth + 1 : ℕ) : ℝ) * 2⁻¹ ^ 53 ≤ 1 / 2 ^ 26 / 64 := e ▸ loss_depth (j := 32) h1
  have k2 : ((a.under + 1 : ℕ) : ℝ) * 2⁻¹ ^ 1075 * √d.len ≤ 1 / 2 ^ 26 / 64 := e ▸ loss_under (j := 32) h2
  rw [e']
  exact @C82_float (Flt binary64) _ _ _ _ _ (ieeePatched binary64) _ _ _ _ _ _ _ p hp hs hn (C68_constant_f64 hl)
    (far_near binary64 (by decide) (by decide) 1075 (by decide)) (FftNum.sqrtHalfF32 (T := Flt binary64)) (C48_f64 hl).sqrtHalf.1
    sqrtHalf64_small.1 (1 / 2 ^ 26) (by norm_num) sqrtHalf64_small.2 d hd hpos a ha k1 k2 (far_big h3)

/-- In `f64` the error is at most 2⁻²⁹ times the norm of the DHT for all signals of moderate norm if and only if the constant does not
occur. -/
theorem C82_f64 (hl : MathLib.Accurate) (p : Plan) (hp : p.RadersFree) (hs : p.SmallRadix4)
    (d : Dht (Flt binary64)) (hd : p.build (Flt binary64) = .ok d) (hpos : 0 < d.len) (a : Stab) (ha : a = p.stability 69 1)
    (h1 : a.depth < 2 ^ 21) (h2 : (a.under + 1) * d.len ≤ 2 ^ 1043) (h3 : 5 * a.big * d.len ≤ 2 ^ 1023) :
    p.RootFree ↔ ∀ x, x.length = d.len → (∀ b ∈ x, b.fin) → 1 / 2 ≤ norm2 (x.map Flt.val) → norm2 (x.map Flt.val) ≤ 2 →
      ∃ y, d.process x = .ok y ∧ (∀ b ∈ y, b.fin) ∧
        norm2 (List.zipWith (· - ·) (y.map Flt.val) (dht (x.map Flt.val))) ≤ 1 / 2 ^ 29 * norm2 (dht (x.map Flt.val)) := by
  have dl : ∀ x : List (Flt binary64), x.length = d.len → norm2 (dht (x.map Flt.val)) = √d.len * norm2 (x.map Flt.val) := by
    intro x hx
    have hxv : (x.map Flt.val).length = d.len := by simp [hx]
    rw [norm2_eq (n := d.len) (by rw [length_dht, hxv]), norm2_eq hxv, nrm_dht hxv]
  have hq := Real.sqrt_nonneg (d.len : ℝ)
  constructor
  · intro hf x hx hfin n1 n2
    obtain ⟨f, hi, h⟩ := C80_f64 hl p hf hs d hd
    have k1 : (a.depth : ℝ) * 2⁻¹ ^ 52 ≤ 2⁻¹ ^ 31 := by
      have h : (a.depth : ℝ) ≤ 2 ^ 21 := by exact_mod_cast h1.le
      calc (a.depth : ℝ) * 2⁻¹ ^ 52 ≤ 2 ^ 21 * 2⁻¹ ^ 52 := by gcongr
        _ = 2⁻¹ ^ 31 := by norm_num
    have k2 : (a.under : ℝ) * 2⁻¹ ^ 1075 * √d.len ≤ 2⁻¹ ^ 32 :=
      loss_under (j := 32) (loss_succ h2)
    obtain ⟨g1, g2⟩ := h x hx hfin a ha (h1.le.trans (Nat.pow_le_pow_right (by norm_num) (by norm_num))) (by
      refine le_trans ?_ (far_big h3)
      clear h2 h3 h
      have h5 : max (norm2 (x.map Flt.val)) 1 ≤ 2 := max_le n2 (by norm_num)
      have h6 : (a.under : ℝ) * 2⁻¹ ^ 1075 * √d.len ≤ 1 / 2 := k2.trans (by norm_num)
      generalize (a.under : ℝ) * 2⁻¹ ^ 1075 * √d.len = w at *
      calc a.big * (√d.len * (2 * (max (norm2 (x.map Flt.val)) 1 + w))) ≤ a.big * (√d.len * (2 * (2 + 1 / 2))) := by gcongr
        _ = _ := by ring)
    refine ⟨f x, process_single hi hx, g1, g2.trans ?_⟩
    rw [dl x hx]
    have e1 : 2 * a.under * 2⁻¹ ^ 1075 * d.len = 2 * (a.under * 2⁻¹ ^ 1075 * √d.len) * √d.len :=
      loss_square _ _ _
    rw [e1]
    clear e1 h g2 h3
    generalize (a.under : ℝ) * 2⁻¹ ^ 1075 * √d.len = w at *
    have e2 : a.depth * 2⁻¹ ^ 52 * (√d.len * norm2 (x.map Flt.val)) ≤ 2⁻¹ ^ 31 * (√d.len * norm2 (x.map Flt.val)) :=
      mul_le_mul_of_nonneg_right k1 (mul_nonneg hq (Real.sqrt_nonneg _))
    have e3 : 2 * w * √d.len ≤ 2⁻¹ ^ 31 * √d.len := mul_le_mul_of_nonneg_right (by linarith [show (2 : ℝ) * 2⁻¹ ^ 32 = 2⁻¹ ^ 31 by norm_num]) hq
    have e4 : √d.len * (1 / 2) ≤ √d.len * norm2 (x.map Flt.val) := mul_le_mul_of_nonneg_left n1 hq
    norm_num at e2 e3 ⊢
    linarith
  · intro h
    by_contra hn
    obtain ⟨x, y, hx, hf, n1, n2, hy, -, hfar⟩ := C82_f64_wrong hl p hp hs hn d hd hpos a ha h1 h2 h3
    obtain ⟨y', hy', -, hnear⟩ := h x hx hf n1 n2
    rw [hy] at hy'
    cases hy'
    have hp : 0 < √(d.len : ℝ) * norm2 (x.map Flt.val) := mul_pos (Real.sqrt_pos.2 (by exact_mod_cast hpos)) (by linarith)
    rw [← dl x hx] at hp
    norm_num at hfar hnear
    linarith

/-! ## Concrete cases -/

/-- `MixedRadix3xn` around `Butterfly4` in `f64`, length 12. -/
example (hl : MathLib.Accurate) : ∃ (d : Dht (Flt binary64)) (x y : List (Flt binary64)),
    (Plan.mr3 .b4).build (Flt binary64) = .ok d ∧ x.length = 12 ∧ d.process x = .ok y ∧ (∀ b ∈ y, b.fin) ∧ 1 / 2 ≤ norm2 (x.map Flt.val) ∧
      1 / 2 ^ 27 * norm2 (dht (x.map Flt.val)) ≤ norm2 (List.zipWith (· - ·) (y.map Flt.val) (dht (x.map Flt.val))) := by
  obtain ⟨d, hd⟩ : ∃ d, (Plan.mr3 .b4).build (Flt binary64) = .ok d := ⟨_, rfl⟩
  have hl' : d.len = 12 := plan_len _ d hd
  obtain ⟨x, y, hx, -, h5, -, hy, hf, h⟩ := C82_f64_wrong hl (.mr3 .b4) trivial trivial (fun h => (by decide : ¬ 4 ≤ 1) h.1) d hd (by omega)
    _ rfl (by decide) (by rw [hl']; exact loss_range (k := 14) (by decide) (by decide))
    (by rw [hl']; exact loss_range (k := 14) (by decide) (by decide))
  exact ⟨d, x, y, hd, hx.trans hl', hy, hf, h5, h⟩

/-- `MixedRadix` of `Butterfly3` and `SplitRadix`, length 48. -/
example (hl : MathLib.Accurate) : ∃ (d : Dht (Flt binary64)) (x y : List (Flt binary64)),
    (Plan.mixedRadix .b3 (.splitRadix .b4 .b8)).build (Flt binary64) = .ok d ∧ x.length = 48 ∧ d.process x = .ok y ∧ (∀ b ∈ y, b.fin) ∧
      1 / 2 ≤ norm2 (x.map Flt.val) ∧
      1 / 2 ^ 27 * norm2 (dht (x.map Flt.val)) ≤ norm2 (List.zipWith (· - ·) (y.map Flt.val) (dht (x.map Flt.val))) := by
  obtain ⟨d, hd⟩ : ∃ d, (Plan.mixedRadix .b3 (.splitRadix .b4 .b8)).build (Flt binary64) = .ok d := ⟨_, rfl⟩
  have hl' : d.len = 48 := plan_len _ d hd
  obtain ⟨x, y, hx, -, h5, -, hy, hf, h⟩ := C82_f64_wrong hl (.mixedRadix .b3 (.splitRadix .b4 .b8)) ⟨trivial, trivial, trivial⟩ ⟨trivial, trivial, trivial⟩
    (fun h => (by decide : ¬ (3 ≤ 1 ∨ 16 ≤ 1)) h.1) d hd (by omega)
    _ rfl (by decide) (by rw [hl']; exact loss_range (k := 14) (by decide) (by decide))
    (by rw [hl']; exact loss_range (k := 14) (by decide) (by decide))
  exact ⟨d, x, y, hd, hx.trans hl', hy, hf, h5, h⟩

/-- The constant below `SplitRadix`, length 24. -/
example (hl : MathLib.Accurate) : ∃ (d : Dht (Flt binary64)) (x y : List (Flt binary64)),
    (Plan.splitRadix (.mr3 .b2) (.mr2 .b6)).build (Flt binary64) = .ok d ∧ x.length = 24 ∧ d.process x = .ok y ∧ (∀ b ∈ y, b.fin) ∧
      1 / 2 ≤ norm2 (x.map Flt.val) ∧
      1 / 2 ^ 27 * norm2 (dht (x.map Flt.val)) ≤ norm2 (List.zipWith (· - ·) (y.map Flt.val) (dht (x.map Flt.val))) := by
  obtain ⟨d, hd⟩ : ∃ d, (Plan.splitRadix (.mr3 .b2) (.mr2 .b6)).build (Flt binary64) = .ok d := ⟨_, rfl⟩
  have hl' : d.len = 24 := plan_len _ d hd
  obtain ⟨x, y, hx, -, h5, -, hy, hf, h⟩ := C82_f64_wrong hl (.splitRadix (.mr3 .b2) (.mr2 .b6)) ⟨trivial, trivial⟩ ⟨trivial, trivial⟩
    (fun h => (by decide : ¬ 2 ≤ 1) h.1.1) d hd (by omega)
    _ rfl (by decide) (by rw [hl']; exact loss_range (k := 14) (by decide) (by decide))
    (by rw [hl']; exact loss_range (k := 14) (by decide) (by decide))
  exact ⟨d, x, y, hd, hx.trans hl', hy, hf, h5, h⟩

/-- Exact arithmetic: the constant below `MixedRadix2xn`. -/
example : ∃ d x y, @Plan.build ℝ _ _ _ _ _ (realWithRoot sqrtHalfRounded) (.mr2 (.mr3 .b2)) = .ok d ∧ d.process x = .ok y ∧ 0 < norm2 x ∧
    1 / 2 ^ 26 * norm2 (dht x) ≤ norm2 (List.zipWith (· - ·) y (dht x)) := by
  obtain ⟨d, hd⟩ : ∃ d, @Plan.build ℝ _ _ _ _ _ (realWithRoot sqrtHalfRounded) (.mr2 (.mr3 .b2)) = .ok d := ⟨_, rfl⟩
  have hl' : d.len = 12 := @plan_len ℝ _ _ _ _ _ (realWithRoot sqrtHalfRounded) _ d hd
  obtain ⟨x, y, -, h0, hy, -, -, h⟩ := C82_exact (.mr2 (.mr3 .b2)) trivial trivial (fun h => (by decide : ¬ 2 ≤ 1) h.1) d hd (by omega)
  exact ⟨d, x, y, hd, hy, h0, h⟩

/-- `MixedRadix2xn` and `SplitRadix` alone are on the other side. -/
example : (Plan.mr2 (.splitRadix .b4 .b8)).RootFree ∧ (Plan.mr2 (.splitRadix .b4 .b8)).RadersFree ∧ (Plan.mr2 (.splitRadix .b4 .b8)).SmallRadix4 :=
  ⟨⟨trivial, trivial⟩, ⟨trivial, trivial⟩, ⟨trivial, trivial⟩⟩

end

end RustDHT
