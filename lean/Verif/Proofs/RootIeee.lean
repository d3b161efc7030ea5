import Verif.Proofs.IeeeModel
import Verif.Proofs.RootError

/-! # `sqrt(1/2)` in `f64` -/

namespace RustDHT

theorem round_near {r : ℝ} (h1 : (11863282 : ℝ) + 1 / 2 < r * 2 ^ 24) (h2 : r * 2 ^ 24 < (11863283 : ℝ) + 1 / 2) :
    (Flt.roundSigned binary32 false r).fin ∧ (Flt.roundSigned binary32 false r).value = 11863283 / 2 ^ 24 := by
  have h0 : 0 < r := by
    by_contra h
    push Not at h
    linarith
  have hlog : Int.log 2 |r| = -1 := by
    rw [abs_of_pos h0]
    refine le_antisymm ?_ ?_
    · have := (Int.lt_zpow_iff_log_lt (b := 2) (by norm_num) (x := (0 : ℤ)) h0).1 (by norm_num; linarith)
      omega
    · refine (Int.zpow_le_iff_le_log (b := 2) (by norm_num) h0).1 ?_
      norm_num
      linarith
  have hexp : binary32.exponent |r| = -24 := by
    rw [Fmt.exponent, hlog]; rfl
  have hman : binary32.mantissa r = 11863283 := by
    rw [Fmt.mantissa, hexp, abs_of_pos h0]
    have e : r / 2 ^ (-24 : ℤ) = r * 2 ^ 24 := by
      rw [zpow_neg, div_inv_eq_mul]; rfl
    rw [e]
    have := roundEven_err (r * 2 ^ 24)
    generalize roundEven (r * 2 ^ 24) = m at this
    rw [abs_le] at this
    have a : (m : ℝ) < (11863284 : ℤ) := by push_cast; linarith
    have b : ((11863282 : ℤ) : ℝ) < m := by push_cast; linarith
    have a := Int.cast_lt.1 a
    have b := Int.cast_lt.1 b
    omega
  have hlt : (binary32.mantissa r : ℚ) * 2 ^ binary32.exponent |r| < 2 ^ binary32.emax := by
    rw [hman, hexp]
    show _ < (2 : ℚ) ^ (128 : ℤ)
    norm_num
  rw [Flt.roundSigned, if_neg h0.ne', Flt.round, dif_pos hlt]
  refine ⟨trivial, ?_⟩
  simp only [Flt.value, hman, hexp, decide_eq_true_eq, if_neg h0.le.not_gt]
  norm_num

/-- The constant: the `f32` nearest to `sqrt(1/2)`, up to a rounding in `f64`. -/
theorem sqrtHalf64 [MathLib] : |(FftNum.sqrtHalfF32 (T := Flt binary64)).val - sqrtHalfRounded| ≤ 2⁻¹ ^ 52 := by
  obtain ⟨h1, h2⟩ := round_near (r := √(1 / 2))
    (by have : ((11863282 : ℝ) + 1 / 2) / 2 ^ 24 < √(1 / 2) := Real.lt_sqrt_of_sq_lt (by norm_num)
        linarith)
    (by have : √(1 / 2) < ((11863283 : ℝ) + 1 / 2) / 2 ^ 24 := (Real.sqrt_lt' (by norm_num)).2 (by norm_num)
        linarith)
  have e : (Flt.roundSigned binary32 false √(1 / 2)).val = sqrtHalfRounded := by
    rw [Flt.val, h2, sqrtHalfRounded]; norm_num
  obtain ⟨-, h⟩ := Flt.convert_spec (F := binary64) (by decide) _ h1 (by
    rw [e, sqrtHalfRounded, abs_of_pos (by norm_num)]
    exact (by norm_num : (11863283 / 2 ^ 24 : ℝ) ≤ 1).trans (one_le_zpow₀ (by norm_num) (by decide)))
  rw [e] at h
  refine h.trans ?_
  show 2⁻¹ ^ 53 * |sqrtHalfRounded| + 2 ^ (-1075 : ℤ) ≤ _
  have : (2 : ℝ) ^ (-1075 : ℤ) ≤ 2 ^ (-53 : ℤ) := zpow_le_zpow_right₀ (by norm_num) (by norm_num)
  rw [sqrtHalfRounded, abs_of_pos (by norm_num)]
  norm_num at this ⊢
  linarith

section
variable {T : Type} [Zero T] [Add T] [Sub T] [Mul T] [Neg T] [FftNum T]

/-- `MixedRadix` of two `Butterfly2`, written out. -/
theorem mix22 (a b c e : T) (t : Cx T) (ht : t = mrTw T 2 2 1 1) :
    (mixedRadix (butterfly2 T) (butterfly2 T)).process [a, b, c, e]
      = .ok [a + c + (b + e), a - c - (t.re * (b - e + (b - e)) - t.im * (b - e - (b - e))), a + c - (b + e),
          a - c + (t.re * (b - e + (b - e)) - t.im * (b - e - (b - e)))] := by
  subst ht
  have hl : (mixedRadix (butterfly2 T) (butterfly2 T)).len = 4 := rfl
  have h := (mixedRadix_implements (butterfly2_implements (T := T)) butterfly2_implements).process (b := [a, b, c, e])
    (by rw [hl]; exact le_rfl) (by rw [hl]; exact dvd_rfl)
  rw [h, hl, mapChunks_single (n := 4) (by omega) rfl, show (butterfly2 T).len = 2 from rfl]
  have hc : ∀ (f : List T → List T) (a b c e : T), mapChunks 2 f [a, b, c, e] = f [a, b] ++ f [c, e] := by
    intro f a b c e
    rw [mapChunks_of_ge (by omega) (by simp), mapChunks_of_ge (by omega) (by simp), mapChunks_of_lt (by simp)]
    simp
  unfold mrFn
  rw [show mrStep1 2 2 [a, b, c, e] = [a, c, b, e] from rfl, hc]
  have hb : ∀ a b : T, bflyFn contiguous2 [a, b] = [a + b, a - b] := fun _ _ => rfl
  rw [hb, hb]
  show Except.ok _ = _
  simp only
  rw [show (tab (2 * 2) fun p => nth (tab (2 * 2) fun p => mrVal 2 2 ([a + c, a - c] ++ [b + e, b - e]) (p / 2) (p % 2)) (p % 2 * 2 + p / 2))
    = [a + c, b + e, a - c, mrVal 2 2 ([a + c, a - c] ++ [b + e, b - e]) 1 1] from rfl, hc, hb, hb]
  rfl

/-! ## A few operations -/

variable {fin : T → Prop} {val : T → ℝ} {u η Ω : ℝ} {t s : ℕ}

/-- Finite and within `k` units of `p`. -/
def Within (fin : T → Prop) (val : T → ℝ) (u : ℝ) (a : T) (p : ℝ) (k : ℕ) : Prop := fin a ∧ |val a - p| ≤ k * u

theorem Within.add (hm : FloatModel fin val u η Ω t s) (hΩ : 9 ≤ Ω) {a b : T} {p q : ℝ} {k l : ℕ} (ha : Within fin val u a p k)
    (hb : Within fin val u b q l) (h : |p + q| ≤ 6) (hk : k * u ≤ 1) (hl : l * u ≤ 1) : Within fin val u (a + b) (p + q) (k + l + 8) := by
  obtain ⟨a1, a2⟩ := ha
  obtain ⟨b1, b2⟩ := hb
  have h3 : |val a + val b - (p + q)| ≤ k * u + l * u := by
    rw [show val a + val b - (p + q) = (val a - p) + (val b - q) by ring]
    exact (abs_add_le _ _).trans (add_le_add a2 b2)
  have h4 : |val a + val b| ≤ 8 := by
    have := abs_add_le (val a + val b - (p + q)) (p + q)
    rw [sub_add_cancel] at this
    linarith
  obtain ⟨c1, c2⟩ := hm.add a b a1 b1 (by linarith)
  refine ⟨c1, ?_⟩
  have := abs_sub_le (val (a + b)) (val a + val b) (p + q)
  have := mul_le_mul_of_nonneg_left h4 hm.u_nonneg
  push_cast
  linarith

theorem Within.sub (hm : FloatModel fin val u η Ω t s) (hΩ : 9 ≤ Ω) {a b : T} {p q : ℝ} {k l : ℕ} (ha : Within fin val u a p k)
    (hb : Within fin val u b q l) (h : |p - q| ≤ 6) (hk : k * u ≤ 1) (hl : l * u ≤ 1) : Within fin val u (a - b) (p - q) (k + l + 8) := by
  obtain ⟨a1, a2⟩ := ha
  obtain ⟨b1, b2⟩ := hb
  have h3 : |val a - val b - (p - q)| ≤ k * u + l * u := by
    rw [show val a - val b - (p - q) = (val a - p) - (val b - q) by ring]
    exact (abs_sub _ _).trans (add_le_add a2 b2)
  have h4 : |val a - val b| ≤ 8 := by
    have := abs_add_le (val a - val b - (p - q)) (p - q)
    rw [sub_add_cancel] at this
    linarith
  obtain ⟨c1, c2⟩ := hm.sub a b a1 b1 (by linarith)
  refine ⟨c1, ?_⟩
  have := abs_sub_le (val (a - b)) (val a - val b) (p - q)
  have := mul_le_mul_of_nonneg_left h4 hm.u_nonneg
  push_cast
  linarith

theorem Within.mul (hm : FloatModel fin val u η Ω t s) (hΩ : 9 ≤ Ω) {a b : T} {p q : ℝ} {k l : ℕ} (ha : Within fin val u a p k)
    (hb : Within fin val u b q l) (hp : |p| ≤ 2) (hq : |q| ≤ 2) (hk : k * u ≤ 1) (hl : l * u ≤ 1) :
    Within fin val u (a * b) (p * q) (3 * k + 2 * l + 10) := by
  obtain ⟨a1, a2⟩ := ha
  obtain ⟨b1, b2⟩ := hb
  have h1 : |val a| ≤ 3 := by
    have := abs_add_le (val a - p) p
    rw [sub_add_cancel] at this
    linarith
  have h2 : |val b| ≤ 3 := by
    have := abs_add_le (val b - q) q
    rw [sub_add_cancel] at this
    linarith
  have h3 : |val a * val b - p * q| ≤ k * u * 3 + 2 * (l * u) := by
    rw [show val a * val b - p * q = (val a - p) * val b + p * (val b - q) by ring]
    refine (abs_add_le _ _).trans (add_le_add ?_ ?_)
    · rw [abs_mul]; exact mul_le_mul a2 h2 (abs_nonneg _) ((abs_nonneg _).trans a2)
    · rw [abs_mul]; exact mul_le_mul hp b2 (abs_nonneg _) (by norm_num)
  have h4 : |val a * val b| ≤ 9 := by
    rw [abs_mul]
    calc |val a| * |val b| ≤ 3 * 3 := mul_le_mul h1 h2 (abs_nonneg _) (by norm_num)
      _ = 9 := by norm_num
  obtain ⟨c1, c2⟩ := hm.mul a b a1 b1 (by linarith)
  refine ⟨c1, ?_⟩
  have := abs_sub_le (val (a * b)) (val a * val b) (p * q)
  have := mul_le_mul_of_nonneg_left h4 hm.u_nonneg
  have := hm.η_le
  push_cast
  linarith

/-- An impulse through `MixedRadix` of two `Butterfly2`: the constant `ρ` remains. -/
theorem mix22_near (hm : FloatModel fin val u η Ω 69 s) (hΩ : 9 ≤ Ω) (hu : u ≤ 2⁻¹ ^ 53) {ρ : ℝ} (h0 : 0 ≤ ρ) (h1 : ρ ≤ 1)
    (hρ : |val (FftNum.sqrtHalfF32 (T := T)) - ρ| ≤ 2 * u) {o : T} (ho : fin o) (ho' : val o = 1) :
    ∃ y : List T, (mixedRadix (butterfly2 T) (butterfly2 T)).process [0, o, 0, 0] = .ok y ∧ (∀ a ∈ y, fin a) ∧
      |val (y.getD 1 0) - √2 * ρ| ≤ 1418 * u := by
  obtain ⟨t, ht⟩ : ∃ t, t = mrTw T 2 2 1 1 := ⟨_, rfl⟩
  refine ⟨_, mix22 0 o 0 0 t ht, ?_⟩
  obtain ⟨z1, z2⟩ := hm.zero
  have hu0 := hm.u_nonneg
  have sm : ∀ k : ℕ, k ≤ 2 ^ 20 → (k : ℝ) * u ≤ 1 := by
    intro k hk
    have hk : (k : ℝ) ≤ 2 ^ 20 := by exact_mod_cast hk
    calc (k : ℝ) * u ≤ 2 ^ 20 * 2⁻¹ ^ 53 := mul_le_mul hk hu hu0 (by norm_num)
      _ ≤ 1 := by norm_num
  have hz : Within fin val u 0 0 0 := ⟨z1, by simp [z2]⟩
  have hone : Within fin val u o 1 0 := ⟨ho, by simp [ho']⟩
  have hr : Within fin val u FftNum.sqrtHalfF32 ρ 2 := ⟨hm.sqrtHalf.1, by exact_mod_cast hρ⟩
  have h2 : √2 * √2 = (2 : ℝ) := Real.mul_self_sqrt (by norm_num)
  have h20 : 0 ≤ √(2 : ℝ) := Real.sqrt_nonneg _
  have h22 : √(2 : ℝ) ≤ 2 := by nlinarith
  have ang : 2 * Real.pi * (12 : ℕ) / (32 : ℕ) = Real.pi - Real.pi / 4 := by push_cast; ring
  have hc := hm.cos 12 32 (by norm_num)
  have hs := hm.sin 12 32 (by norm_num)
  rw [ang, Real.cos_pi_sub, Real.cos_pi_div_four] at hc
  rw [ang, Real.sin_pi_sub, Real.sin_pi_div_four] at hs
  have hc : Within fin val u (computeDftTwiddleInverse T 12 32).re (-(√2 / 2)) 69 := by exact_mod_cast hc
  have hs : Within fin val u (computeDftTwiddleInverse T 12 32).im (√2 / 2) 69 := by exact_mod_cast hs
  have a1 : |√2 / 2| ≤ (2 : ℝ) := by rw [abs_of_nonneg (by linarith)]; linarith
  have a2 : |ρ| ≤ 2 := by rw [abs_of_nonneg h0]; linarith
  have h3 : 0 ≤ √2 / 2 * ρ := by positivity
  have h4 : √2 / 2 * ρ ≤ 1 := by nlinarith
  have a3 : |√2 / 2 * ρ| ≤ 2 := by rw [abs_of_nonneg h3]; linarith
  have hre : Within fin val u t.re (-(√2 / 2) * ρ) 221 := by
    rw [ht]; exact hc.mul hm hΩ hr (by rwa [abs_neg]) a2 (sm 69 (by norm_num)) (sm 2 (by norm_num))
  have him : Within fin val u t.im (√2 / 2 * ρ) 221 := by
    rw [ht]; exact hs.mul hm hΩ hr a1 a2 (sm 69 (by norm_num)) (sm 2 (by norm_num))
  have hg := hone.sub hm hΩ hz (by norm_num) (sm 0 (by norm_num)) (sm 0 (by norm_num))
  have hG := hg.add hm hΩ hg (by norm_num) (sm _ (by norm_num)) (sm _ (by norm_num))
  have hD : Within fin val u (o - 0 - (o - 0)) 0 0 := by
    obtain ⟨d1, d2⟩ := hm.sub (o - 0) (o - 0) hg.1 hg.1 (by simp; linarith)
    refine ⟨d1, ?_⟩
    simpa using d2
  have p1 := hre.mul hm hΩ hG (by rwa [neg_mul, abs_neg]) (by norm_num) (sm _ (by norm_num)) (sm _ (by norm_num))
  have p2 := him.mul hm hΩ hD a3 (by norm_num) (sm _ (by norm_num)) (sm _ (by norm_num))
  have e : -(√2 / 2) * ρ * (1 - 0 + (1 - 0)) - √2 / 2 * ρ * 0 = -(√2 * ρ) := by ring
  have hv := p1.sub hm hΩ p2 (by rw [e, abs_neg, abs_of_nonneg (by positivity)]; linarith) (sm _ (by norm_num)) (sm _ (by norm_num))
  rw [e] at hv
  have hac := hz.sub hm hΩ hz (by norm_num) (sm _ (by norm_num)) (sm _ (by norm_num))
  have b3 : |√2 * ρ| ≤ 6 := by rw [abs_of_nonneg (by positivity)]; linarith
  have y1 := hac.sub hm hΩ hv (by simpa using b3) (sm _ (by norm_num)) (sm _ (by norm_num))
  have y3 := hac.add hm hΩ hv (by simpa using b3) (sm _ (by norm_num)) (sm _ (by norm_num))
  have s1 := hz.add hm hΩ hz (by norm_num) (sm _ (by norm_num)) (sm _ (by norm_num))
  have s2 := hone.add hm hΩ hz (by norm_num) (sm _ (by norm_num)) (sm _ (by norm_num))
  have y0 := s1.add hm hΩ s2 (by norm_num) (sm _ (by norm_num)) (sm _ (by norm_num))
  have y2 := s1.sub hm hΩ s2 (by norm_num) (sm _ (by norm_num)) (sm _ (by norm_num))
  refine ⟨?_, ?_⟩
  · simp only [List.mem_cons, List.not_mem_nil, or_false]
    rintro a (rfl | rfl | rfl | rfl)
    exacts [y0.1, y1.1, y2.1, y3.1]
  · have := y1.2
    norm_num at this ⊢
    exact this

end

end RustDHT
