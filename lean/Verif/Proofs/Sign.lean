import Verif.Proofs.Ieee
import Verif.Spec.Sign
import Verif.Props.AnyArith

/-! # An arithmetic without signs of zeros

`Val F` is `Flt F` with the two zeros identified.  Identifying them commutes with all operations, and in `Val F` negation commutes
with all operations. -/

namespace RustDHT

/-- A float without the sign of zero. -/
inductive Val (F : Fmt)
  | fin (q : ℚ)
  | inf (neg : Bool)
  | nan

namespace Flt
variable {F : Fmt}

def view : Flt F → Val F
  | num s m h => .fin (num s m h : Flt F).value
  | inf s => .inf s
  | nan => .nan

theorem rep_zero (h : (0 : ℚ) < 2 ^ F.emax := by positivity) : F.Rep 0 :=
  ⟨0, F.emin, by positivity, le_refl _, by simp, h⟩

theorem round_abs (s : Bool) (x : ℚ) : round F s (-x) = round F s x := by
  unfold round Fmt.mantissa
  simp only [abs_neg]

theorem round_zero (s : Bool) : round F s (0 : ℚ) = num s 0 rep_zero := round_rep s rep_zero

theorem view_alike {a b : Flt F} : Alike a b ↔ a.view = b.view := by
  constructor
  · rintro (rfl | ⟨h1, h2, h3, h4⟩)
    · rfl
    · match a, b, h1, h2 with
      | num s m h, num s' m' h', _, _ => simp only [view, h3, h4]
  · intro h
    match a, b with
    | num s m hm, num s' m' hm' =>
      have e : (num s m hm : Flt F).value = (num s' m' hm' : Flt F).value := by simpa [view] using h
      have h0 := rep_nonneg hm
      have h0' := rep_nonneg hm'
      by_cases hz : m = 0
      · refine .inr ⟨trivial, trivial, ?_, ?_⟩
        · subst hz; cases s <;> simp [value]
        · rw [← e]; subst hz; cases s <;> simp [value]
      · have hp : 0 < m := lt_of_le_of_ne h0 (Ne.symm hz)
        refine .inl ?_
        cases s <;> cases s' <;> simp only [value, if_true, if_false, Bool.false_eq_true] at e
        · exact num_congr e _ _
        · exfalso; linarith
        · exfalso; linarith
        · exact num_congr (neg_inj.1 e) _ _
    | inf s, inf s' => simp only [view, Val.inf.injEq] at h; exact .inl (by rw [h])
    | nan, nan => exact .inl rfl
    | num .., inf _ => simp [view] at h
    | num .., nan => simp [view] at h
    | inf _, num .. => simp [view] at h
    | inf _, nan => simp [view] at h
    | nan, num .. => simp [view] at h
    | nan, inf _ => simp [view] at h

end Flt

namespace Val
variable {F : Fmt}

def rnd (F : Fmt) (x : ℚ) : Val F := (Flt.roundSigned F false x).view

instance : Neg (Val F) := ⟨fun | fin q => fin (-q) | inf s => inf (!s) | nan => nan⟩
instance : Zero (Val F) := ⟨fin 0⟩
instance : Add (Val F) := ⟨fun
  | fin a, fin b => rnd F (a + b)
  | fin _, inf s => inf s
  | inf s, fin _ => inf s
  | inf s, inf s' => if s = s' then inf s else nan
  | _, _ => nan⟩
instance : Sub (Val F) := ⟨fun a b => a + -b⟩
instance : Mul (Val F) := ⟨fun
  | fin a, fin b => rnd F (a * b)
  | fin a, inf s => if a = 0 then nan else inf (xor (decide (a < 0)) s)
  | inf s, fin b => if b = 0 then nan else inf (xor s (decide (b < 0)))
  | inf s, inf s' => inf (xor s s')
  | _, _ => nan⟩

theorem add_fin (a b : ℚ) : (fin a + fin b : Val F) = rnd F (a + b) := rfl
theorem mul_fin (a b : ℚ) : (fin a * fin b : Val F) = rnd F (a * b) := rfl
theorem neg_fin (a : ℚ) : (-fin a : Val F) = fin (-a) := rfl
theorem neg_inf (s : Bool) : (-inf s : Val F) = inf (!s) := rfl
theorem neg_nan : (-nan : Val F) = nan := rfl
theorem mul_fin_inf (a : ℚ) (s : Bool) : (fin a * inf s : Val F) = if a = 0 then nan else inf (xor (decide (a < 0)) s) := rfl
theorem mul_inf_fin (a : ℚ) (s : Bool) : (inf s * fin a : Val F) = if a = 0 then nan else inf (xor s (decide (a < 0))) := rfl

theorem view_roundSigned (z : Bool) (x : ℚ) : (Flt.roundSigned F z x).view = rnd F x := by
  unfold rnd Flt.roundSigned
  split_ifs with h
  · subst h
    rw [Flt.round_zero, Flt.round_zero]
    cases z <;> simp [Flt.view, Flt.value]
  · rfl

theorem view_neg (a : Flt F) : (-a).view = -a.view := by
  match a with
  | .num s m h =>
    show fin _ = fin _
    congr 1
    show (if (!s) = true then -m else m) = -(if s = true then -m else m)
    cases s <;> simp
  | .inf s => rfl
  | .nan => rfl

theorem view_round (s : Bool) (x : ℚ) : (Flt.round F (!s) x).view = -(Flt.round F s x).view := by
  rw [← view_neg]
  congr 1
  unfold Flt.round
  split_ifs <;> rfl

theorem rnd_zero : rnd F 0 = fin 0 := by
  unfold rnd Flt.roundSigned
  rw [if_pos rfl, Flt.round_zero]
  simp [Flt.view, Flt.value]

theorem rnd_neg (x : ℚ) : rnd F (-x) = -rnd F x := by
  rcases eq_or_ne x 0 with rfl | h
  · rw [neg_zero, rnd_zero, neg_fin, neg_zero]
  · unfold rnd Flt.roundSigned
    rw [if_neg h, if_neg (neg_ne_zero.2 h), Flt.round_abs, ← view_round]
    congr 2
    rcases lt_or_gt_of_ne h with h | h
    · simp [h, h.le]
    · simp [h, h.le]

theorem view_add (a b : Flt F) : (a + b).view = a.view + b.view := by
  match a, b with
  | .num s m h, .num s' m' h' => exact view_roundSigned _ _
  | .inf s, .inf s' =>
    show Flt.view (if s = s' then _ else _) = if s = s' then _ else _
    split_ifs <;> rfl
  | .num .., .inf _ => rfl
  | .num .., .nan => rfl
  | .inf _, .num .. => rfl
  | .inf _, .nan => rfl
  | .nan, .num .. => rfl
  | .nan, .inf _ => rfl
  | .nan, .nan => rfl

theorem view_sub (a b : Flt F) : (a - b).view = a.view - b.view := by
  show (a + -b).view = a.view + -b.view
  rw [view_add, view_neg]

/-- The sign of the value of a number that is not zero. -/
theorem value_sign (s : Bool) {m : ℚ} (h : F.Rep m) (hm : m ≠ 0) :
    (Flt.num s m h : Flt F).value ≠ 0 ∧ decide ((Flt.num s m h : Flt F).value < 0) = s := by
  have hp : 0 < m := lt_of_le_of_ne (Flt.rep_nonneg h) (Ne.symm hm)
  cases s <;> simp [Flt.value, hm, hp, hp.le]

theorem view_mul_inf (s s' : Bool) {m : ℚ} (h : F.Rep m) :
    (Flt.num s m h * Flt.inf s' : Flt F).view = (Flt.num s m h : Flt F).view * inf s' ∧
    (Flt.inf s' * Flt.num s m h : Flt F).view = inf s' * (Flt.num s m h : Flt F).view := by
  constructor
  · show Flt.view (if m = 0 then _ else _) = if (Flt.num s m h : Flt F).value = 0 then _ else _
    by_cases hm : m = 0
    · rw [if_pos hm, if_pos (by subst hm; cases s <;> simp [Flt.value])]; rfl
    · obtain ⟨h1, h2⟩ := value_sign s h hm
      rw [if_neg hm, if_neg h1, h2]; rfl
  · show Flt.view (if m = 0 then _ else _) = if (Flt.num s m h : Flt F).value = 0 then _ else _
    by_cases hm : m = 0
    · rw [if_pos hm, if_pos (by subst hm; cases s <;> simp [Flt.value])]; rfl
    · obtain ⟨h1, h2⟩ := value_sign s h hm
      rw [if_neg hm, if_neg h1, h2]; rfl

theorem view_mul_num (s s' : Bool) {m m' : ℚ} (h : F.Rep m) (h' : F.Rep m') :
    (Flt.round F (xor s s') (m * m')).view
      = rnd F ((Flt.num s m h : Flt F).value * (Flt.num s' m' h' : Flt F).value) := by
  have h0 : 0 ≤ m * m' := mul_nonneg (Flt.rep_nonneg h) (Flt.rep_nonneg h')
  have pos : (Flt.round F false (m * m')).view = rnd F (m * m') := by
    unfold rnd Flt.roundSigned
    split_ifs
    · rfl
    · rw [decide_eq_false (not_lt.2 h0)]
  have neg : (Flt.round F true (m * m')).view = rnd F (-(m * m')) := by
    rw [rnd_neg, ← pos, ← view_round]; rfl
  cases s <;> cases s' <;> simp only [Flt.value, if_true, if_false, Bool.false_eq_true, Bool.xor_false, Bool.xor_true, Bool.not_false,
    neg_mul, mul_neg, neg_neg, Bool.xor_self, pos, neg]

theorem view_mul (a b : Flt F) : (a * b).view = a.view * b.view := by
  match a, b with
  | .num s m h, .num s' m' h' => exact view_mul_num s s' h h'
  | .num s m h, .inf s' => exact (view_mul_inf s s' h).1
  | .inf s', .num s m h => exact (view_mul_inf s s' h).2
  | .inf _, .inf _ => rfl
  | .num .., .nan => rfl
  | .inf _, .nan => rfl
  | .nan, .num .. => rfl
  | .nan, .inf _ => rfl
  | .nan, .nan => rfl

theorem view_zero : (0 : Flt F).view = 0 := by
  show (Flt.round F false (0 : ℚ)).view = fin 0
  rw [Flt.round_zero]
  simp [Flt.view, Flt.value]

/-! ## Negation in `Val` -/

theorem neg_add (a b : Val F) : -(a + b) = -a + -b := by
  match a, b with
  | fin a, fin b => rw [neg_fin, neg_fin, add_fin, add_fin, ← rnd_neg, _root_.neg_add]
  | inf s, inf s' =>
    show -(if s = s' then inf s else nan : Val F) = if (!s) = (!s') then inf (!s) else nan
    cases s <;> cases s' <;> rfl
  | fin _, inf _ => rfl
  | fin _, nan => rfl
  | inf _, fin _ => rfl
  | inf _, nan => rfl
  | nan, fin _ => rfl
  | nan, inf _ => rfl
  | nan, nan => rfl

theorem neg_sub (a b : Val F) : -(a - b) = -a - -b := neg_add a (-b)

theorem decide_neg_lt {a : ℚ} (h : a ≠ 0) : decide (-a < 0) = !decide (a < 0) := by
  rcases lt_or_gt_of_ne h with h | h
  · simp [h, h.le]
  · simp [h, h.le]

theorem neg_mul (a b : Val F) : -(a * b) = -a * b := by
  match a, b with
  | fin a, fin b => rw [neg_fin, mul_fin, mul_fin, ← rnd_neg, _root_.neg_mul]
  | inf s, inf s' => show inf (!(xor s s')) = inf (xor (!s) s'); cases s <;> cases s' <;> rfl
  | fin a, inf s =>
    rw [neg_fin, mul_fin_inf, mul_fin_inf]
    by_cases h : a = 0
    · rw [if_pos h, if_pos (by rw [h, neg_zero])]; rfl
    · rw [if_neg h, if_neg (neg_ne_zero.2 h), decide_neg_lt h, neg_inf]
      congr 1
      cases decide (a < 0) <;> cases s <;> rfl
  | inf s, fin a =>
    rw [neg_inf, mul_inf_fin, mul_inf_fin]
    by_cases h : a = 0
    · rw [if_pos h, if_pos h]; rfl
    · rw [if_neg h, if_neg h, neg_inf]
      congr 1
      cases decide (a < 0) <;> cases s <;> rfl
  | fin _, nan => rfl
  | inf _, nan => rfl
  | nan, fin _ => rfl
  | nan, inf _ => rfl
  | nan, nan => rfl

theorem mul_neg (a b : Val F) : -(a * b) = a * -b := by
  match a, b with
  | fin a, fin b => rw [neg_fin, mul_fin, mul_fin, ← rnd_neg, _root_.mul_neg]
  | inf s, inf s' => show inf (!(xor s s')) = inf (xor s (!s')); cases s <;> cases s' <;> rfl
  | inf s, fin a =>
    rw [neg_fin, mul_inf_fin, mul_inf_fin]
    by_cases h : a = 0
    · rw [if_pos h, if_pos (by rw [h, neg_zero])]; rfl
    · rw [if_neg h, if_neg (neg_ne_zero.2 h), decide_neg_lt h, neg_inf]
      congr 1
      cases decide (a < 0) <;> cases s <;> rfl
  | fin a, inf s =>
    rw [neg_inf, mul_fin_inf, mul_fin_inf]
    by_cases h : a = 0
    · rw [if_pos h, if_pos h]; rfl
    · rw [if_neg h, if_neg h, neg_inf]
      congr 1
      cases decide (a < 0) <;> cases s <;> rfl
  | fin _, nan => rfl
  | inf _, nan => rfl
  | nan, fin _ => rfl
  | nan, inf _ => rfl
  | nan, nan => rfl

/-- The constants are those of `Flt F`. -/
noncomputable instance [MathLib] : FftNum (Val F) where
  F64 := FftNum.F64 (Flt F)
  f64 := FftNum.f64 (T := Flt F)
  fromF64 a := (FftNum.fromF64 (T := Flt F) a).view
  sqrtHalfF32 := (FftNum.sqrtHalfF32 : Flt F).view
  halfF32 := (FftNum.halfF32 : Flt F).view

theorem arithMap [MathLib] : ArithMap (Flt F) (Val F) Flt.view Flt.view :=
  ⟨view_zero, view_add, view_sub, view_neg, view_mul, view_mul⟩

theorem constMap [MathLib] : ConstMap (Flt F) (Val F) Flt.view :=
  ⟨fun _ _ _ => ⟨rfl, rfl⟩, fun _ _ _ => ⟨rfl, rfl⟩, rfl, rfl, fun _ _ => rfl⟩

/-- Runs of `Flt F` and runs of `Val F`. -/
theorem carries [MathLib] (p : Plan) (d : Dht (Flt F)) (h : p.build (Flt F) = .ok d) :
    ∃ d' : Dht (Val F), p.build (Val F) = .ok d' ∧ Carries Flt.view d d' := by
  have := C38_arith_map p Flt.view Flt.view (arithMap (F := F)) arithMap constMap
  rw [h] at this
  rcases e : p.build (Val F) with er | d'
  · rw [e] at this; exact absurd this id
  · rw [e] at this; exact ⟨d', rfl, this⟩

end Val

/-- Outcomes that are equal after a map to a third type. -/
theorem endsAlike_of_map {α β : Type} {f g : α → β} {P : α → α → Prop} (hP : ∀ a b, f a = g b → P a b) {r r' : Res α}
    (h : r.map f = r'.map g) : EndsAlike P r r' := by
  cases r with
  | ok a => cases r' with
    | ok b => exact hP a b (Except.ok.inj h)
    | error e => cases h
  | error e => cases r' with
    | ok b => cases h
    | error e' => exact Except.error.inj h

end RustDHT
