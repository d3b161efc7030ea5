import Verif.Proofs.Plan
import Verif.Spec.Plan

/-! # The length of a composition -/

set_option linter.unusedSectionVars false

namespace RustDHT

variable {T : Type} [Add T] [Sub T] [Mul T] [Neg T] [Zero T] [FftNum T]

theorem plan_len (p : Plan) (d : Dht T) (h : p.build T = .ok d) : d.len = p.expectedLen := by
  induction p generalizing d with
  | naive n => cases h; exact dhtNaive_len n
  | b1 | b2 | b3 | b4 | b5 | b6 | b8 | b9 | b16 => cases h; rfl
  | mixedRadix w hh iw ih =>
    obtain ⟨wd, ew, h⟩ := bind_eq_ok h
    obtain ⟨hd, eh, h⟩ := bind_eq_ok h
    cases h
    show wd.len * hd.len = _
    rw [iw wd ew, ih hd eh]; rfl
  | mr2 hh ih | mr3 hh ih | mr4 hh ih | mr5 hh ih | mr6 hh ih =>
    obtain ⟨hd, eh, h⟩ := bind_eq_ok h
    cases h
    show _ * hd.len = _
    rw [ih hd eh]; rfl
  | radix4 n =>
    have e' : radix4 T n = .ok d := h
    obtain ⟨m, rfl⟩ := radix4_isPow e'
    rw [radix4_eq] at e'
    cases e'
    rfl
  | splitRadix q hh iq ih =>
    obtain ⟨qd, eq, h⟩ := bind_eq_ok h
    obtain ⟨hd, eh, h⟩ := bind_eq_ok h
    rw [(splitRadix_eq h).2]
    show 4 * qd.len = _
    rw [iq qd eq]; rfl
  | raders i ih =>
    obtain ⟨id, ei, h⟩ := bind_eq_ok h
    obtain ⟨f, hf⟩ := (plan_ok i id ei).implements
    obtain ⟨g, gi, hdata⟩ := raders_data hf h
    rw [hdata.eq]
    show id.len + 1 = _
    rw [ih id ei]; rfl

end RustDHT
