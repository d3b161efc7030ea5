import Verif.Spec.Ieee

/-! # Negation commutes with products, quotients and conversions, the signs of zeros included -/

namespace RustDHT

theorem Flt.neg_mul_exact {F : Fmt} (a b : Flt F) : -a * b = -(a * b) := by
  rcases a with ⟨s, a, ha⟩ | s | _ <;> rcases b with ⟨s', b, hb⟩ | s' | _
  · change round F (xor (!s) s') (a * b) = -round F (xor s s') (a * b)
    unfold round
    split <;> cases s <;> cases s' <;> rfl
  · change (if a = 0 then nan else inf (xor (!s) s')) = -(if a = 0 then nan else inf (xor s s') : Flt F)
    split <;> cases s <;> cases s' <;> rfl
  · rfl
  · change (if b = 0 then nan else inf (xor (!s) s')) = -(if b = 0 then nan else inf (xor s s') : Flt F)
    split <;> cases s <;> cases s' <;> rfl
  · cases s <;> cases s' <;> rfl
  all_goals rfl

theorem Flt.neg_div_exact {F : Fmt} (a b : Flt F) : -a / b = -(a / b) := by
  have hr : ∀ (s s' : Bool) (x : ℚ), round F (xor (!s) s') x = -round F (xor s s') x := by
    intro s s' x
    unfold round
    split <;> cases s <;> cases s' <;> rfl
  rcases a with ⟨s, a, ha⟩ | s | _ <;> rcases b with ⟨s', b, hb⟩ | s' | _
  · change (if b = 0 then if a = 0 then nan else inf (xor (!s) s') else round F (xor (!s) s') (a / b)) =
      -(if b = 0 then if a = 0 then nan else inf (xor s s') else round F (xor s s') (a / b) : Flt F)
    split
    · split <;> cases s <;> cases s' <;> rfl
    · exact hr _ _ _
  · exact hr _ _ _
  · rfl
  · cases s <;> cases s' <;> rfl
  all_goals rfl

theorem Flt.convert_neg {F G : Fmt} (a : Flt G) : convert F (-a) = -convert F a := by
  rcases a with ⟨s, a, ha⟩ | s | _
  · change round F (!s) a = -round F s a
    unfold round
    split <;> rfl
  all_goals rfl

end RustDHT
