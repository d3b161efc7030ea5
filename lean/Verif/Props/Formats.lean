import Verif.Proofs.Formats
import Verif.Props.RootLoss

/-! # C85: other binary formats

The crate is generic, so it can be used with a number type of any precision; `f32` and `f64` are only those that its tests use.  Every
statement about floating point holds of every binary format.  But the tables are computed in `f64` and one constant in `f32`, whatever the
type is: a type wider than `f64` gains no accuracy. -/

set_option linter.style.haveILetI false

namespace RustDHT

section
variable [MathLib]

/-- Any binary format with numbers as small as its unit roundoff is a floating-point arithmetic in which tables are accurate to
68 units of `f64` and two of its own, and the constant `sqrt(1/2)` to one unit of `f32` and two of its own. -/
theorem C85_any_format (hl : MathLib.Accurate) (F : Fmt) (he : F.emin ≤ -F.prec) (hm : 2 ≤ F.emax) :
    FloatModel (T := Flt F) Flt.fin Flt.val (2⁻¹ ^ F.prec) (2 ^ (F.emin - 1)) (2 ^ (F.emax - 1))
      (2 + 68 * 2 ^ (F.prec - 53)) (2 + 2 ^ (F.prec - 24)) := Flt.floatModelAny hl F he hm

/-- A format not wider than `f32`: two units of its own for both. -/
theorem C85_narrow_format (hl : MathLib.Accurate) (F : Fmt) (hp : F.prec ≤ 24) (he : F.emin ≤ -F.prec) (hm : 2 ≤ F.emax) :
    FloatModel (T := Flt F) Flt.fin Flt.val (2⁻¹ ^ F.prec) (2 ^ (F.emin - 1)) (2 ^ (F.emax - 1)) 2 2 :=
  Flt.floatModelNarrow hl F hp he hm

/-- Every composition in every binary format. -/
theorem C85_plan (hl : MathLib.Accurate) (F : Fmt) (he : F.emin ≤ -F.prec) (hm : 2 ≤ F.emax) (p : Plan) (hr : p.SmallRadix4)
    (d : Dht (Flt F)) (hd : p.build (Flt F) = .ok d) :
    ∃ f, Implements d f ∧
      ∀ x, x.length = d.len → (∀ a ∈ x, a.fin) →
        ∀ a : Stab, a = p.stability (2 + 68 * 2 ^ (F.prec - 53)) (2 + 2 ^ (F.prec - 24)) → 2 * a.depth ≤ 2 ^ F.prec →
        a.big * (√d.len * (2 * (max (norm2 (x.map Flt.val)) 1 + a.under * 2 ^ (F.emin - 1) * √d.len))) ≤ 2 ^ (F.emax - 1) →
        (∀ y ∈ f x, y.fin) ∧
        norm2 (List.zipWith (· - ·) ((f x).map Flt.val) (dht (x.map Flt.val)))
          ≤ 2 * a.depth * 2⁻¹ ^ F.prec * norm2 (dht (x.map Flt.val)) + 2 * a.under * 2 ^ (F.emin - 1) * d.len := by
  obtain ⟨f, hi, h⟩ := C46_relative_error p hr (C85_any_format hl F he hm) d hd
  refine ⟨f, hi, fun x hx hf a ha hD hO => h x hx hf a ha ?_ hO⟩
  have hD' : (2 * a.depth : ℝ) ≤ 2 ^ F.prec := by exact_mod_cast hD
  have := mul_le_mul_of_nonneg_right hD' (show (0 : ℝ) ≤ 2⁻¹ ^ F.prec by positivity)
  rw [← mul_pow, mul_inv_cancel₀ (by norm_num), one_pow] at this
  linarith

/-- Half precision. -/
theorem C85_plan_f16 (hl : MathLib.Accurate) (p : Plan) (hr : p.SmallRadix4) (d : Dht (Flt binary16))
    (hd : p.build (Flt binary16) = .ok d) :
    ∃ f, Implements d f ∧
      ∀ x, x.length = d.len → (∀ a ∈ x, a.fin) → ∀ a : Stab, a = p.stability 2 2 → a.depth ≤ 2 ^ 10 →
        a.big * (√d.len * (2 * (max (norm2 (x.map Flt.val)) 1 + a.under * 2⁻¹ ^ 25 * √d.len))) ≤ 2 ^ 15 →
        (∀ y ∈ f x, y.fin) ∧
        norm2 (List.zipWith (· - ·) ((f x).map Flt.val) (dht (x.map Flt.val)))
          ≤ a.depth * 2⁻¹ ^ 10 * norm2 (dht (x.map Flt.val)) + 2 * a.under * 2⁻¹ ^ 25 * d.len := by
  have e1 : (2 : ℝ) ^ (binary16.emin - 1) = 2⁻¹ ^ 25 := by
    show (2 : ℝ) ^ (-25 : ℤ) = _
    norm_num
  have e2 : (2 : ℝ) ^ (binary16.emax - 1) = 2 ^ 15 := by
    show (2 : ℝ) ^ (15 : ℤ) = _
    norm_num
  have hm := C85_narrow_format hl binary16 (by decide) (by decide) (by decide)
  rw [e1, e2] at hm
  obtain ⟨f, hi, h⟩ := C46_relative_error p hr hm d hd
  refine ⟨f, hi, fun x hx hf a ha hD hO => ?_⟩
  have hD' : (a.depth : ℝ) ≤ 2 ^ 10 := by exact_mod_cast hD
  obtain ⟨h1, h2⟩ := h x hx hf a ha (by
    show (a.depth : ℝ) * 2⁻¹ ^ 11 ≤ _
    have := mul_le_mul_of_nonneg_right hD' (show (0 : ℝ) ≤ 2⁻¹ ^ 11 by positivity)
    norm_num at this ⊢
    linarith) hO
  refine ⟨h1, h2.trans_eq ?_⟩
  rw [show (2 : ℝ) * a.depth * 2⁻¹ ^ binary16.prec = a.depth * 2⁻¹ ^ 10 by
    show (2 : ℝ) * a.depth * 2⁻¹ ^ 11 = _
    ring]

/-- In every format wider than `f64`, however wide, `Butterfly8` answers the signal that is one at place 1 and zero elsewhere with a second
output that differs from the exact one, `√2`, by `2^-56` or more. -/
theorem C85_wide_no_gain (hl : MathLib.Accurate) (F : Fmt) (hp : 54 ≤ F.prec) (he : F.emin ≤ -F.prec) (hm : 2 ≤ F.emax) (o : Flt F)
    (ho : o.fin) (ho1 : o.val = 1) :
    ∃ y, (butterfly8 (Flt F)).process [0, o, 0, 0, 0, 0, 0, 0] = .ok y ∧ y.length = 8 ∧ (y.getD 1 0).fin ∧
      (dht [0, 1, 0, 0, 0, 0, 0, 0]).getD 1 0 = √2 ∧ 2⁻¹ ^ 56 ≤ |(y.getD 1 0).val - √2| := by
  have hpp := F.prec_pos
  obtain ⟨k, hk, hk0, ew⟩ := Flt.cas_wide hl F hp he hm
  obtain ⟨y, hy, ly, e⟩ := butterfly8_one (T := Flt F) 0 o 0 0 0 0 0 0
  have eo : o = Flt.one F (by omega) (by omega) := by
    match o, ho with
    | .num s m h, _ =>
      have h0 : (0 : ℝ) ≤ m := by exact_mod_cast Flt.rep_nonneg h
      cases s with
      | true =>
        rw [Flt.val_true] at ho1
        linarith
      | false =>
        rw [Flt.val_false] at ho1
        exact Flt.num_congr (by exact_mod_cast ho1) _ _
  have zz : (0 - 0 + (0 - 0) : Flt F) = .num false 0 (Flt.rep_nought F) := by
    have h : (0 - 0 : Flt F) = .num false 0 (Flt.rep_nought F) := by
      rw [Flt.zero_eq]
      show Flt.roundSigned F (false && true) ((0 : ℚ) + -0) = _
      rw [neg_zero, add_zero]
      exact Flt.roundSigned_zero _
    rw [h]
    show Flt.roundSigned F (false && false) ((0 : ℚ) + 0) = _
    rw [add_zero]
    exact Flt.roundSigned_zero _
  have oz : o - 0 = o := by
    rw [eo, Flt.zero_eq]
    exact Flt.add_nought (a := Flt.one F _ _) (fun h => one_ne_zero (α := ℚ) h.2) true (Flt.rep_nought F)
  have hw : ¬ (Flt.num false (k / 2 ^ 53) hk : Flt F).IsZero := fun h => by
    have h : (k / 2 ^ 53 : ℚ) = 0 := h.2
    have : (0 : ℚ) < k / 2 ^ 53 := by positivity
    exact this.ne' h
  have e1 : y.getD 1 0 = .num false (k / 2 ^ 53) hk := by
    rw [List.getD_eq_getElem?_getD]
    change nth y 1 = _
    rw [e, zz, oz, eo, Flt.one_mul, ew, Flt.nought_add hw]
  have e2 : (dht [0, 1, 0, 0, 0, 0, 0, 0]).getD 1 0 = √2 := by
    show dhtCoeff _ 1 = _
    have c : cas (2 * Real.pi * ((1 : ℕ) : ℝ) * ((1 : ℕ) : ℝ) / ((8 : ℕ) : ℝ)) = √2 := by
      rw [show 2 * Real.pi * ((1 : ℕ) : ℝ) * ((1 : ℕ) : ℝ) / ((8 : ℕ) : ℝ) = Real.pi / 4 by push_cast; ring, cas, Real.cos_pi_div_four,
        Real.sin_pi_div_four]
      ring
    simp [dhtCoeff, Finset.sum_range_succ]
    norm_num at c
    simpa using c
  refine ⟨y, hy, ly, by rw [e1]; trivial, e2, ?_⟩
  rw [e1, Flt.val_false]
  push_cast
  exact sqrt2_grid k

/-- In every format, if the constant does not occur, the accuracy is that of the tables: in the wide formats 68 units of `f64` per
factor. -/
theorem C85_unaffected (hl : MathLib.Accurate) (F : Fmt) (he : F.emin ≤ -F.prec) (hm : 2 ≤ F.emax) (p : Plan) (hp : p.RootFree)
    (hr : p.SmallRadix4) (d : Dht (Flt F)) (hd : p.build (Flt F) = .ok d) :
    ∃ f, Implements d f ∧
      ∀ x, x.length = d.len → (∀ a ∈ x, a.fin) →
        ∀ a : Stab, a = p.stability (2 + 68 * 2 ^ (F.prec - 53)) 2 → 2 * a.depth ≤ 2 ^ F.prec →
        a.big * (√d.len * (2 * (max (norm2 (x.map Flt.val)) 1 + a.under * 2 ^ (F.emin - 1) * √d.len))) ≤ 2 ^ (F.emax - 1) →
        (∀ y ∈ f x, y.fin) ∧
        norm2 (List.zipWith (· - ·) ((f x).map Flt.val) (dht (x.map Flt.val)))
          ≤ 2 * a.depth * 2⁻¹ ^ F.prec * norm2 (dht (x.map Flt.val)) + 2 * a.under * 2 ^ (F.emin - 1) * d.len := by
  have e : @Plan.build (Flt F) _ _ _ _ _ ((ieee F).withRoot (Flt.ownRoot F)) p = .ok d := (C80_unaffected (ieee F) _ p hp).trans hd
  obtain ⟨f, hi, h⟩ := @C46_relative_error (Flt F) _ _ _ _ _ ((ieee F).withRoot (Flt.ownRoot F)) _ _ _ _ _ _ _ p hr
    (Flt.floatModelOwn hl F he hm) d e
  refine ⟨f, hi, fun x hx hf a ha hD hO => h x hx hf a ha ?_ hO⟩
  have hD' : (2 * a.depth : ℝ) ≤ 2 ^ F.prec := by exact_mod_cast hD
  have := mul_le_mul_of_nonneg_right hD' (show (0 : ℝ) ≤ 2⁻¹ ^ F.prec by positivity)
  rw [← mul_pow, mul_inv_cancel₀ (by norm_num), one_pow] at this
  linarith

/-- In every format of 32 bits of precision or more, if the constant occurs: a signal with all outputs finite and a relative error of 2⁻²⁷ or
more. -/
theorem C85_wide_wrong (hl : MathLib.Accurate) (F : Fmt) (hP : 32 ≤ F.prec) (he : F.emin ≤ -F.prec) (hm : 2 ≤ F.emax) (p : Plan)
    (hp : p.RadersFree) (hs : p.SmallRadix4) (hn : ¬ p.RootFree) (d : Dht (Flt F)) (hd : p.build (Flt F) = .ok d) (hpos : 0 < d.len)
    (a : Stab) (ha : a = p.stability (2 + 68 * 2 ^ (F.prec - 53)) 2) (h1 : a.depth < 2 ^ (F.prec - 32))
    (h2 : ((a.under + 1 : ℕ) : ℝ) * 2 ^ (F.emin - 1) * √d.len ≤ 2⁻¹ ^ 32) (h3 : 5 * a.big * √d.len ≤ (2 : ℝ) ^ (F.emax - 1)) :
    ∃ x y, x.length = d.len ∧ (∀ b ∈ x, b.fin) ∧ 1 / 2 ≤ norm2 (x.map Flt.val) ∧ norm2 (x.map Flt.val) ≤ 2 ∧
      d.process x = .ok y ∧ (∀ b ∈ y, b.fin) ∧
      1 / 2 ^ 27 * norm2 (dht (x.map Flt.val)) ≤ norm2 (List.zipWith (· - ·) (y.map Flt.val) (dht (x.map Flt.val))) := by
  obtain ⟨r1, r2⟩ := Flt.sqrtHalf_wide F (by omega) he hm
  have e : (2⁻¹ : ℝ) ^ 32 = 1 / 2 ^ 26 / 64 := by norm_num
  have e' : (1 : ℝ) / 2 ^ 27 = 1 / 2 ^ 26 / 2 := by norm_num
  have k1 : ((a.depth + 1 : ℕ) : ℝ) * 2⁻¹ ^ F.prec ≤ 1 / 2 ^ 26 / 64 := by
    have := loss_depth (j := 32) h1
    rwa [Nat.sub_add_cancel hP, e] at this
  have hpp := F.prec_pos
  obtain ⟨k, hk⟩ : ∃ k : ℕ, F.emin - 1 = -(k : ℤ) := ⟨(1 - F.emin).toNat, by omega⟩
  have ek : (2 : ℝ) ^ (F.emin - 1) = 2⁻¹ ^ k := by rw [hk, zpow_neg, zpow_natCast, inv_pow]
  have near : ∀ r : ℝ, |r| ≤ 1 → ∃ a : Flt F, a.fin ∧ |a.val - r| ≤ 2⁻¹ ^ F.prec * |r| + 2 ^ (F.emin - 1) := by
    rw [ek]
    exact far_near F (by omega) (by omega) k hk
  have hsm : sqrtHalfRounded ≤ (1 - 1 / 2 ^ 26) * √(1 / 2) := by
    have h := sqrtHalfRounded_small
    have e : √2 * √(1 / 2) = 1 := by rw [← Real.sqrt_mul (by norm_num)]; norm_num
    have := mul_le_mul_of_nonneg_right h.le (Real.sqrt_nonneg (1 / 2))
    rw [mul_assoc, e, mul_one] at this
    have h0 := Real.sqrt_nonneg (1 / 2)
    refine this.trans (mul_le_mul_of_nonneg_right ?_ h0)
    norm_num
  rw [e']
  rw [e] at h2
  exact @C82_float (Flt F) _ _ _ _ _ ((ieee F).withRoot (Flt.ownRoot F)) _ _ _ _ _ _ _ p hp hs hn (Flt.floatModelOwn hl F he hm)
    near (FftNum.sqrtHalfF32 (T := Flt F)) r1 (by rw [r2]; unfold sqrtHalfRounded; norm_num) (1 / 2 ^ 26) (by norm_num)
    (by rw [r2]; exact hsm) d hd hpos a ha k1 h2 h3

/-! ## Concrete cases -/

/-- The conditions on a format, in six formats. -/
example : ∀ F ∈ [binary16, bfloat16, binary32, binary64, extended80, binary128], F.emin ≤ -F.prec ∧ 2 ≤ F.emax := by
  simp only [List.forall_mem_cons]
  exact ⟨by decide, by decide, by decide, by decide, by decide, by decide, by simp⟩

/-- `Butterfly16` in half precision: finite outputs and a relative error below a quarter for every signal of norm at most 8, whatever is
lost by underflow. -/
example (hl : MathLib.Accurate) : ∃ f, Implements (butterfly16 (Flt binary16)) f ∧
    ∀ x, x.length = 16 → (∀ a ∈ x, a.fin) → norm2 (x.map Flt.val) ≤ 8 → (∀ y ∈ f x, y.fin) ∧
      norm2 (List.zipWith (· - ·) ((f x).map Flt.val) (dht (x.map Flt.val)))
        ≤ 1 / 4 * norm2 (dht (x.map Flt.val)) + 1 / 2 ^ 17 := by
  obtain ⟨f, hi, h⟩ := C85_plan_f16 hl .b16 trivial _ rfl
  refine ⟨f, hi, fun x hx hf hn => ?_⟩
  have ha : (⟨216, 5, 24⟩ : Stab) = Plan.stability 2 2 .b16 := by decide
  have h16 : √((16 : ℕ) : ℝ) = 4 := by
    rw [show ((16 : ℕ) : ℝ) = 4 ^ 2 by norm_num]
    exact Real.sqrt_sq (by norm_num)
  obtain ⟨h1, h2⟩ := h x hx hf ⟨216, 5, 24⟩ ha (by decide) (by
    show ((24 : ℕ) : ℝ) * (√((16 : ℕ) : ℝ) * (2 * (max (norm2 (x.map Flt.val)) 1 + ((5 : ℕ) : ℝ) * 2⁻¹ ^ 25 * √((16 : ℕ) : ℝ)))) ≤ _
    rw [h16]
    have := max_le hn (by norm_num : (1 : ℝ) ≤ 8)
    generalize max (norm2 (x.map Flt.val)) 1 = w at this ⊢
    norm_num
    linarith)
  refine ⟨h1, h2.trans ?_⟩
  show ((216 : ℕ) : ℝ) * 2⁻¹ ^ 10 * _ + 2 * ((5 : ℕ) : ℝ) * 2⁻¹ ^ 25 * ((16 : ℕ) : ℝ) ≤ _
  have : 0 ≤ norm2 (dht (x.map Flt.val)) := Real.sqrt_nonneg _
  norm_num
  linarith

/-- Quadruple precision: the number one, and `Butterfly8`. -/
example (hl : MathLib.Accurate) : ∃ y, (butterfly8 (Flt binary128)).process [0, Flt.one binary128 (by decide) (by decide), 0, 0, 0, 0, 0, 0]
    = .ok y ∧ (y.getD 1 0).fin ∧ 2⁻¹ ^ 56 ≤ |(y.getD 1 0).val - √2| := by
  obtain ⟨y, hy, -, hf, -, h⟩ := C85_wide_no_gain hl binary128 (by decide) (by decide) (by decide)
    (Flt.one binary128 (by decide) (by decide)) trivial (by rw [Flt.one, Flt.val_false]; norm_num)
  exact ⟨y, hy, hf, h⟩

/-- Quadruple precision: `MixedRadix3xn` around `Butterfly4`, length 12, is no more accurate than in `f32`. -/
example (hl : MathLib.Accurate) : ∃ (d : Dht (Flt binary128)) (x y : List (Flt binary128)),
    (Plan.mr3 .b4).build (Flt binary128) = .ok d ∧ x.length = 12 ∧ d.process x = .ok y ∧ (∀ b ∈ y, b.fin) ∧ 1 / 2 ≤ norm2 (x.map Flt.val) ∧
      1 / 2 ^ 27 * norm2 (dht (x.map Flt.val)) ≤ norm2 (List.zipWith (· - ·) (y.map Flt.val) (dht (x.map Flt.val))) := by
  obtain ⟨d, hd⟩ : ∃ d, (Plan.mr3 .b4).build (Flt binary128) = .ok d := ⟨_, rfl⟩
  have hl' : d.len = 12 := plan_len _ d hd
  have h12 : √((12 : ℕ) : ℝ) ≤ 4 := Real.sqrt_le_iff.2 ⟨by norm_num, by norm_num⟩
  obtain ⟨x, y, hx, -, h5, -, hy, hf, h⟩ := C85_wide_wrong hl binary128 (by decide) (by decide) (by decide) (.mr3 .b4) trivial trivial
    (fun h => (by decide : ¬ 4 ≤ 1) h.1) d hd (by omega) ⟨5331109037302060417610, 26, 17⟩ (by decide +kernel) (by decide +kernel)
    (by
      rw [hl']
      have e : (2 : ℝ) ^ (binary128.emin - 1) ≤ 2 ^ (-40 : ℤ) := zpow_le_zpow_right₀ (by norm_num) (by decide)
      calc ((26 + 1 : ℕ) : ℝ) * 2 ^ (binary128.emin - 1) * √((12 : ℕ) : ℝ) ≤ ((26 + 1 : ℕ) : ℝ) * 2 ^ (-40 : ℤ) * 4 := by gcongr
        _ ≤ _ := by norm_num)
    (by
      rw [hl']
      have e : (2 : ℝ) ^ (9 : ℤ) ≤ 2 ^ (binary128.emax - 1) := zpow_le_zpow_right₀ (by norm_num) (by decide)
      refine le_trans ?_ e
      calc 5 * ((17 : ℕ) : ℝ) * √((12 : ℕ) : ℝ) ≤ 5 * ((17 : ℕ) : ℝ) * 4 := by gcongr
        _ ≤ _ := by norm_num)
  exact ⟨d, x, y, hd, hx.trans hl', hy, hf, h5, h⟩

end

end RustDHT
