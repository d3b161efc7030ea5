import Verif.Proofs.Boilerplate
import Verif.Spec.User

/-! # Properties of the user-implemented object of `Spec/User.lean` -/

namespace RustDHT

variable {T : Type}

theorem greedy_implements {d : Dht T} {f : List T → List T} (h : Implements d f) (e : Nat) :
    Implements (d.greedy e) f := by
  refine ⟨h.length, ?_, ?_⟩
  · intro b s h1 h2 h3
    have h3' : d.inplaceScratchLen + e ≤ s.length := h3
    obtain ⟨s', e1, l, e2⟩ := h.inplace b s h1 h2 (by omega)
    refine ⟨s', ?_, l, ?_⟩
    · have : inplaceViolation d.len (d.inplaceScratchLen + e) b.length s.length = none :=
        inplaceViolation_eq_none_iff.2 ⟨h1, h2, h3⟩
      simp only [Dht.greedy, this]
      exact e1
    · have := congrArg (List.drop e) e2
      simpa [Dht.greedy, List.drop_drop] using this
  · intro i o s h0 h1 h2 h3
    have h3' : d.oopScratchLen + e ≤ s.length := h3
    obtain ⟨i', s', e1, l1, l2, e2⟩ := h.oop i o s h0 h1 h2 (by omega)
    refine ⟨i', s', ?_, l1, l2, ?_⟩
    · have : oopViolation d.len (d.oopScratchLen + e) i.length o.length s.length = none :=
        oopViolation_eq_none_iff.2 ⟨h0.symm, h1, h2, h3⟩
      simp only [Dht.greedy, this]
      exact e1
    · have := congrArg (List.drop e) e2
      simpa [Dht.greedy, List.drop_drop] using this

theorem greedy_rejects (d : Dht T) (e : Nat) : Rejects (d.greedy e) := by
  refine ⟨fun b s k hk => ?_, fun i o s k hk => ?_⟩
  · have hk' : inplaceViolation d.len (d.inplaceScratchLen + e) b.length s.length = some k := hk
    simp only [Dht.greedy, hk']
    rfl
  · have hk' : oopViolation d.len (d.oopScratchLen + e) i.length o.length s.length = some k := hk
    simp only [Dht.greedy, hk']
    rfl

end RustDHT
