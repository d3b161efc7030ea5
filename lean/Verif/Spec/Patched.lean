import Verif.Spec.Plan

/-! # Which constructor expressions meet the documented requirements -/

namespace RustDHT

/-- The documented requirements of every constructor in the expression: `Radix4` wants a power of two, `SplitRadix` two objects
of which one is twice as long as the other, `RadersAlgorithm` one whose length plus one is prime.  The bound `2^32` is the one
of finding 7. -/
def Plan.Meets : Plan → Prop
  | .mixedRadix w h => w.Meets ∧ h.Meets
  | .mr2 h | .mr3 h | .mr4 h | .mr5 h | .mr6 h => h.Meets
  | .radix4 n => ∃ m, n = 2 ^ m
  | .splitRadix q h => q.Meets ∧ h.Meets ∧ h.expectedLen = 2 * q.expectedLen
  | .raders i => i.Meets ∧ (i.expectedLen + 1).Prime ∧ i.expectedLen + 1 < 2 ^ 32
  | _ => True

/-- No `RadersAlgorithm` of length 2 in the expression. -/
def Plan.NoRaders2 : Plan → Prop
  | .mixedRadix w h | .splitRadix w h => w.NoRaders2 ∧ h.NoRaders2
  | .mr2 h | .mr3 h | .mr4 h | .mr5 h | .mr6 h => h.NoRaders2
  | .raders i => i.NoRaders2 ∧ i.expectedLen ≠ 1
  | _ => True

/-- What `len()` must be. -/
def Tree.expectedLen {T : Type} : Tree T → ℕ
  | .plan p => p.expectedLen
  | .user d => d.len
  | .mixedRadix w h => w.expectedLen * h.expectedLen
  | .mr2 h => 2 * h.expectedLen
  | .mr3 h => 3 * h.expectedLen
  | .mr4 h => 4 * h.expectedLen
  | .mr5 h => 5 * h.expectedLen
  | .mr6 h => 6 * h.expectedLen
  | .splitRadix q _ => 4 * q.expectedLen
  | .raders i => i.expectedLen + 1

/-- As `Plan.Meets`, with objects of the caller. -/
def Tree.Meets {T : Type} : Tree T → Prop
  | .plan p => p.Meets
  | .user _ => True
  | .mixedRadix w h => w.Meets ∧ h.Meets
  | .mr2 h | .mr3 h | .mr4 h | .mr5 h | .mr6 h => h.Meets
  | .splitRadix q h => q.Meets ∧ h.Meets ∧ h.expectedLen = 2 * q.expectedLen
  | .raders i => i.Meets ∧ (i.expectedLen + 1).Prime ∧ i.expectedLen + 1 < 2 ^ 32

end RustDHT
