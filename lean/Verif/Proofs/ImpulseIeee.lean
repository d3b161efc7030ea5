import Verif.Proofs.Impulse
import Verif.Proofs.SumsIeee
import Verif.Proofs.Scaling
import Verif.Proofs.Sign

/-! # Impulses in floating point -/

namespace RustDHT.Flt

variable {F : Fmt}

theorem add_nought {a : Flt F} (ha : ¬a.IsZero) (s : Bool) (h : F.Rep 0) : a + num s 0 h = a := by
  match a, ha with
  | num s' m h', ha =>
    have hv : (num s' m h' : Flt F).value ≠ 0 := fun e => ha ⟨trivial, e⟩
    have e : (num s' m h' : Flt F).value + (num s 0 h : Flt F).value = (num s' m h' : Flt F).value := by
      cases s <;> simp [value]
    show roundSigned F (s' && s) ((num s' m h' : Flt F).value + (num s 0 h : Flt F).value) = _
    rw [e, roundSigned, if_neg hv]
    have hm : 0 ≤ m := by
      obtain ⟨k, e, _, _, rfl, _⟩ := h'
      positivity
    have hm0 : 0 < m := lt_of_le_of_ne hm fun e0 => hv (by cases s' <;> simp [value, e0.symm])
    cases s' with
    | false =>
      have e1 : (num false m h' : Flt F).value = m := rfl
      rw [e1, round_rep _ h', decide_eq_false (by linarith)]
    | true =>
      have e1 : (num true m h' : Flt F).value = -m := rfl
      rw [e1, decide_eq_true (by linarith), round_abs, round_rep _ h']
  | inf s', _ => rfl
  | nan, _ => rfl

theorem nought_add {a : Flt F} (ha : ¬a.IsZero) (s : Bool) (h : F.Rep 0) : num s 0 h + a = a := by
  refine Eq.trans ?_ (add_nought ha s h)
  cases a with
  | num s' m h' =>
    show roundSigned F (s && s') ((num s 0 h : Flt F).value + (num s' m h' : Flt F).value)
      = roundSigned F (s' && s) ((num s' m h' : Flt F).value + (num s 0 h : Flt F).value)
    rw [Bool.and_comm, add_comm]
  | inf s' => rfl
  | nan => rfl

theorem nan_add (a : Flt F) : nan + a = nan := by cases a <;> rfl

theorem add_nan (a : Flt F) : a + nan = nan := by cases a <;> rfl

/-- Zeros of either sign and NaN do to an impulse what a zero does, or make it NaN. -/
theorem absorbs [MathLib] (hz : MathLib.AtZero) (h1 : F.emin ≤ 0) (h2 : 0 < F.emax) {a : Flt F} (ha : ¬a.IsZero) :
    Absorbs ZN fun b : Flt F => b = a ∨ b = nan where
  zero := .inl ⟨_, _, zero_eq⟩
  add _ _ := ZN.add
  sub _ _ := ZN.sub
  neg _ := ZN.neg
  mul_left c _ := ZN.mul_left c
  mul_right c _ := ZN.mul_right c
  add_zero := by
    rintro b c (rfl | rfl) (⟨s, h, rfl⟩ | rfl)
    exacts [.inl (add_nought ha s h), .inr (add_nan _), .inr (nan_add _), .inr (nan_add _)]
  zero_add := by
    rintro b c (⟨s, h, rfl⟩ | rfl) (rfl | rfl)
    exacts [.inl (nought_add ha s h), .inr (add_nan _), .inr (nan_add _), .inr (nan_add _)]
  sub_zero := by
    rintro b c (rfl | rfl) (⟨s, h, rfl⟩ | rfl)
    exacts [.inl (add_nought ha (!s) h), .inr (add_nan _), .inr (nan_add _), .inr (nan_add _)]
  one := by
    rintro n hn b hb
    rwa [twiddle_zero hz h1 h2 hn]

theorem IsZero.zn {a : Flt F} (h : a.IsZero) : ZN a := by
  match a, h with
  | num s m r, h =>
    refine .inl ⟨s, rep_nought F, num_congr ?_ _ _⟩
    have h := h.2
    cases s
    · exact h
    · exact neg_eq_zero.1 h
  | inf s, h => exact h.1.elim
  | nan, h => exact h.1.elim

end RustDHT.Flt
