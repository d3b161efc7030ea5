import Verif.Spec.Plan

/-! # Compositions with `RadersAlgorithm` inside `RadersAlgorithm` -/

namespace RustDHT

/-- A composition in which at most `k` `RadersAlgorithm`s are inside one another, whose `DhtNaive`s have length at most `L`, and in
which both sides of a `MixedRadix` have length at least 2. -/
def Plan.FastNested (L : ℕ) : Plan → ℕ → Prop
  | .naive n, _ => n ≤ L
  | .mixedRadix w h, k => w.FastNested L k ∧ h.FastNested L k ∧ 2 ≤ w.expectedLen ∧ 2 ≤ h.expectedLen
  | .mr2 h, k | .mr3 h, k | .mr4 h, k | .mr5 h, k | .mr6 h, k => h.FastNested L k
  | .splitRadix q h, k => q.FastNested L k ∧ h.FastNested L k
  | .raders _, 0 => False
  | .raders i, k + 1 => i.FastNested L k
  | _, _ => True

/-- Both sides of every `MixedRadix` have length at least 2. -/
def Plan.WideMixed : Plan → Prop
  | .mixedRadix w h => w.WideMixed ∧ h.WideMixed ∧ 2 ≤ w.expectedLen ∧ 2 ≤ h.expectedLen
  | .mr2 h | .mr3 h | .mr4 h | .mr5 h | .mr6 h | .raders h => h.WideMixed
  | .splitRadix q h => q.WideMixed ∧ h.WideMixed
  | _ => True

end RustDHT
