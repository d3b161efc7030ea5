import Verif.Spec.Sums

/-! # NaN and infinities in sums and products -/

namespace RustDHT

namespace Flt
variable {F : Fmt}

theorem nan_add (a : Flt F) : nan + a = nan := by cases a <;> rfl
theorem add_nan (a : Flt F) : a + nan = nan := by cases a <;> rfl

theorem inf_add {s : Bool} {a : Flt F} : inf s + a = inf s ∨ inf s + a = nan := by
  cases a with
  | num => exact .inl rfl
  | inf s' =>
    show (if s = s' then inf s else nan : Flt F) = _ ∨ (if s = s' then inf s else nan : Flt F) = _
    split_ifs
    · exact .inl rfl
    · exact .inr rfl
  | nan => exact .inr rfl

theorem add_inf {s : Bool} {a : Flt F} : a + inf s = inf s ∨ a + inf s = nan := by
  cases a with
  | num => exact .inl rfl
  | inf s' =>
    show (if s' = s then inf s' else nan : Flt F) = _ ∨ (if s' = s then inf s' else nan : Flt F) = _
    split_ifs with h
    · exact .inl (by rw [h])
    · exact .inr rfl
  | nan => exact .inr rfl

theorem not_fin_add {a b : Flt F} (h : ¬a.fin ∨ ¬b.fin) : ¬(a + b).fin := by
  rcases h with h | h
  · cases a with
    | num => exact absurd trivial h
    | inf s => rcases inf_add (s := s) (a := b) with e | e <;> rw [e] <;> exact id
    | nan => rw [nan_add]; exact id
  · cases b with
    | num => exact absurd trivial h
    | inf s => rcases add_inf (s := s) (a := a) with e | e <;> rw [e] <;> exact id
    | nan => rw [add_nan]; exact id

theorem not_fin_mul {a b : Flt F} (h : ¬b.fin) : ¬(a * b).fin := by
  cases b with
  | num => exact absurd trivial h
  | inf s =>
    cases a with
    | num s' m r =>
      show ¬(if m = 0 then nan else inf (xor s' s) : Flt F).fin
      split_ifs <;> exact id
    | inf => exact id
    | nan => exact id
  | nan => cases a <;> exact id

theorem addsUp_nan {s : Multiset (Flt F)} {a : Flt F} (h : AddsUp s a) (hn : nan ∈ s) : a = nan := by
  induction h with
  | one a => exact (Multiset.mem_singleton.1 hn).symm
  | zero _ ih => rw [ih hn, add_nan]
  | add _ _ ih ih' =>
    rcases Multiset.mem_add.1 hn with h | h
    · rw [ih h, nan_add]
    · rw [ih' h, add_nan]

theorem addsUp_inf {s : Multiset (Flt F)} {a : Flt F} (h : AddsUp s a) (n : Bool) (hn : inf n ∈ s) : a = inf n ∨ a = nan := by
  induction h with
  | one a => exact .inl (Multiset.mem_singleton.1 hn).symm
  | zero _ ih =>
    rcases ih hn with e | e <;> rw [e]
    · exact add_inf
    · exact .inr (add_nan _)
  | add _ _ ih ih' =>
    rcases Multiset.mem_add.1 hn with h | h
    · rcases ih h with e | e <;> rw [e]
      · exact inf_add
      · exact .inr (nan_add _)
    · rcases ih' h with e | e <;> rw [e]
      · exact add_inf
      · exact .inr (add_nan _)

end Flt

end RustDHT
