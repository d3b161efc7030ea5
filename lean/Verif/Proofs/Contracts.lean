import Verif.Proofs.Safety
import Verif.Proofs.User
import Verif.Spec.History

/-! # Consequences of the trait contract that the property theorems state -/

set_option linter.unusedSectionVars false

namespace RustDHT

variable {T : Type}

theorem Implements.scratchSuffices {d : Dht T} {f : List T → List T} (h : Implements d f) : ScratchSuffices d := by
  refine ⟨fun b s h1 h2 h3 => ?_, fun i o s h0 h1 h2 h3 => ?_⟩
  · obtain ⟨s', e, _⟩ := h.inplace b s h1 h2 h3.ge
    exact ⟨_, e⟩
  · obtain ⟨i', s', e, _⟩ := h.oop i o s h0 h1 h2 h3.ge
    exact ⟨_, e⟩

/-! ## Objects of length 0 do nothing -/

/-- The object accepts every call and changes nothing. -/
structure Idle (d : Dht T) : Prop where
  inplace : ∀ b s, d.processWithScratch b s = .ok (b, s)
  oop : ∀ i o s, d.processOop i o s = .ok (i, o, s)

theorem boilerplateDht_idle {len a b : Nat} {p q} (h : len = 0) : Idle (T := T) (boilerplateDht len a b p q) := by
  subst h
  exact ⟨fun b s => by simp [boilerplateDht], fun i o s => by simp [boilerplateDht]⟩

section
variable [Add T] [Sub T] [Mul T] [Neg T] [Zero T] [FftNum T]

theorem plan_idle (p : Plan) (d : Dht T) (e : p.build T = .ok d) (h0 : d.len = 0) : Idle d := by
  cases p with
  | naive n =>
    cases e
    have h : (naiveTwiddles T n).length = 0 := h0
    exact ⟨fun b s => by simp [dhtNaive, boilerplateDhtOop, h], fun i o s => by simp [dhtNaive, boilerplateDhtOop, h]⟩
  | b1 | b2 | b3 | b4 | b5 | b6 | b8 | b9 | b16 => cases e; cases h0
  | mixedRadix w h =>
    obtain ⟨wd, ew, e⟩ := bind_eq_ok e
    obtain ⟨hd, eh, e⟩ := bind_eq_ok e
    cases e
    exact boilerplateDht_idle h0
  | mr2 h | mr3 h | mr4 h | mr5 h | mr6 h =>
    obtain ⟨hd, eh, e⟩ := bind_eq_ok e
    cases e
    exact boilerplateDht_idle h0
  | radix4 n =>
    have e' : radix4 T n = .ok d := e
    obtain ⟨m, rfl⟩ := radix4_isPow e'
    rw [radix4_eq] at e'
    cases e'
    have := Nat.two_pow_pos m
    have h0' : 2 ^ m = 0 := h0
    omega
  | splitRadix q h =>
    obtain ⟨qd, eq, e⟩ := bind_eq_ok e
    obtain ⟨hd, eh, e⟩ := bind_eq_ok e
    have h := (splitRadix_eq e).2
    subst h
    exact boilerplateDht_idle h0
  | raders i =>
    obtain ⟨id, ei, e⟩ := bind_eq_ok e
    obtain ⟨f, hf⟩ := (plan_ok i id ei).implements
    obtain ⟨g, gi, hdata⟩ := raders_data hf e
    rw [hdata.eq] at h0
    have : id.len + 1 = 0 := h0
    omega

end

/-! ## Histories -/

theorem runHistory_ok {scratch : List T} (z : T) (cs : List (Call T)) (hc : ∀ c ∈ cs, ∃ f, Implements c.object f)
    (hl : ∀ c ∈ cs, c.Legal ∧ c.scratchLen ≤ scratch.length) :
    ∃ results, runHistory cs scratch = .ok results ∧
      List.Forall₂ (fun c r => ∃ s', c.run (List.replicate c.scratchLen z) = .ok (r, s')) cs results := by
  induction cs generalizing scratch with
  | nil => exact ⟨[], rfl, .nil⟩
  | cons c cs ih =>
    obtain ⟨f, hf⟩ := hc c (by simp)
    obtain ⟨h1, h2⟩ := hl c (by simp)
    have key : ∃ r s' s'', c.run scratch = .ok (r, s') ∧ s'.length = scratch.length ∧
        c.run (List.replicate c.scratchLen z) = .ok (r, s'') := by
      cases c with
      | inplace d b =>
        obtain ⟨s', e, l, _⟩ := hf.inplace b scratch h1.1 h1.2 h2
        obtain ⟨s'', e', _⟩ := hf.inplace b (List.replicate d.inplaceScratchLen z) h1.1 h1.2 (by simp [Call.object])
        exact ⟨_, s', s'', e, l, e'⟩
      | outOfPlace d i o =>
        obtain ⟨i', s', e, _, l, _⟩ := hf.oop i o scratch h1.1 h1.2.1 h1.2.2 h2
        obtain ⟨i'', s'', e', _⟩ := hf.oop i o (List.replicate d.oopScratchLen z) h1.1 h1.2.1 h1.2.2 (by simp [Call.object])
        exact ⟨_, s', s'', by simp only [Call.run]; rw [show d.processOop i o scratch = _ from e], l,
          by simp only [Call.run, Call.scratchLen]; rw [show d.processOop i o (List.replicate d.oopScratchLen z) = _ from e']⟩
    obtain ⟨r, s', s'', e, l, e'⟩ := key
    obtain ⟨rs, ers, hrs⟩ := ih (scratch := s') (fun c h => hc c (by simp [h])) (fun c h => by
      rw [l]; exact hl c (by simp [h]))
    exact ⟨r :: rs, by simp only [runHistory, e, ers], .cons ⟨s'', e'⟩ hrs⟩

end RustDHT
