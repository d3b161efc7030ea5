import Verif.Spec.Growth
import Verif.Spec.Plan
import Mathlib.Analysis.SpecialFunctions.Pow.NNReal

/-! # Errors in the Euclidean norm

The worst case for single outputs that `Plan.growth` follows multiplies along a composition.  In the Euclidean norm the
stages of a composition multiply lengths exactly, so that only the numbers of roundings add up.  Here are these numbers, by
recursion on the constructor expression. -/

namespace RustDHT

/-- The Euclidean norm. -/
noncomputable def norm2 (x : List ℝ) : ℝ := √((x.map fun a => a ^ 2).sum)

/-- `depth` counts roundings, weighted by how much a stage can amplify them; `under` counts underflows; `big` says how much
larger than the norms intermediate numbers can be. -/
structure Stab where
  depth : ℕ
  under : ℕ
  big : ℕ
  deriving DecidableEq, Repr

namespace Stab

/-- A transform done in one piece, whose outputs have cost `q`. -/
def leaf (t s : ℕ) (q : Cost) : Stab := ⟨q.g * q.depth t s, q.c, q.g⟩

/-- A step of a larger transform, whose outputs have cost `q`. -/
def step (t s : ℕ) (q : Cost) : Stab := ⟨2 * q.g * q.depth t s, q.c, q.g⟩

/-- One after the other. -/
def seq (a b : Stab) : Stab := ⟨a.depth + b.depth, a.under + b.under, max a.big b.big⟩

/-- Side by side. -/
def sup (a b : Stab) : Stab := ⟨max a.depth b.depth, max a.under b.under, max a.big b.big⟩

/-- `l` times. -/
def times (a : Stab) (l : ℕ) : Stab := ⟨l * a.depth, l * a.under, a.big⟩

/-- Nothing is computed. -/
def none : Stab := ⟨0, 0, 1⟩

end Stab

open Stab

/-- `Radix4` of length `n`: its base butterflies, then a layer for every remaining factor 4. -/
def radix4Stability (t s n : ℕ) : Stab :=
  (if n ≤ 1 then Stab.none
    else if n ≤ 2 then leaf t s ⟨2, 0, 1, 0, 0⟩
    else if n ≤ 4 then leaf t s ⟨4, 0, 2, 0, 0⟩
    else if Nat.log 2 n % 2 = 1 then leaf t s ⟨8, 1, 5, 1, 0⟩
    else leaf t s ⟨24, 5, 7, 1, 0⟩).seq
  ((step t s ⟨7, 4, 5, 1, 0⟩).times (if Nat.log 2 n < 3 then 0
    else if Nat.log 2 n % 2 = 1 then (Nat.log 2 n - 3) / 2 else (Nat.log 2 n - 4) / 2))

/-- `RadersAlgorithm` of length `n + 1`.  The table is the result of an inner transform and has its errors, with `n` more
underflows and roundings; and a relative error of an entry can be amplified by `√(n + 1)`. -/
def radersStability (t : ℕ) (i : Stab) (n : ℕ) : Stab :=
  ⟨i.depth + 13 * (Nat.sqrt (n + 1) + 1) * (i.depth + n * (3 + 2 * t + i.under) + 7) + i.depth,
    i.under + 2 + i.under, max 18 (2 * (Nat.sqrt (n + 1) + 1) * i.big)⟩

/-- The numbers of a composition. -/
def Plan.stability (t s : ℕ) : Plan → Stab
  | .naive n => leaf t s ⟨2 * max 1 n, n, n + 3, 1, 0⟩
  | .b1 => Stab.none
  | .b2 => leaf t s ⟨2, 0, 1, 0, 0⟩
  | .b3 => leaf t s ⟨5, 2, 5, 1, 0⟩
  | .b4 => leaf t s ⟨4, 0, 2, 0, 0⟩
  | .b5 => leaf t s ⟨9, 4, 6, 1, 0⟩
  | .b6 => leaf t s ⟨15, 8, 9, 2, 0⟩
  | .b8 => leaf t s ⟨8, 1, 5, 1, 0⟩
  | .b9 => leaf t s ⟨54, 9, 9, 1, 0⟩
  | .b16 => leaf t s ⟨24, 5, 7, 1, 0⟩
  | .mixedRadix w h => ((h.stability t s).seq (step t s ⟨4, 6, 6, 1, 1⟩)).seq (w.stability t s)
  | .mr2 h => (h.stability t s).seq (step t s ⟨3, 2, 4, 1, 0⟩)
  | .mr3 h => (h.stability t s).seq (step t s ⟨17, 26, 11, 2, 1⟩)
  | .mr4 h => (h.stability t s).seq (step t s ⟨7, 4, 5, 1, 0⟩)
  | .mr5 h => (h.stability t s).seq (step t s ⟨33, 52, 12, 2, 1⟩)
  | .mr6 h => (h.stability t s).seq (step t s ⟨57, 92, 15, 3, 1⟩)
  | .radix4 n => radix4Stability t s n
  | .splitRadix q h => (step t s ⟨8, 2, 5, 1, 0⟩).seq ((q.stability t s).sup (h.stability t s))
  | .raders i => radersStability t (i.stability t s) i.expectedLen

/-- Whatever is inside a `RadersAlgorithm` computes the DHT: its `Radix4`s have length at most 64. -/
def Plan.RadersExact : Plan → Prop
  | .mixedRadix w h => w.RadersExact ∧ h.RadersExact
  | .mr2 h | .mr3 h | .mr4 h | .mr5 h | .mr6 h => h.RadersExact
  | .splitRadix q h => q.RadersExact ∧ h.RadersExact
  | .raders i => i.RadersExact ∧ i.SmallRadix4
  | _ => True

/-- A composition without `RadersAlgorithm` whose `DhtNaive`s have length at most `L` and in which both sides of a `MixedRadix`
have length at least 2. -/
def Plan.Fast (L : ℕ) : Plan → Prop
  | .naive n => n ≤ L
  | .mixedRadix w h => w.Fast L ∧ h.Fast L ∧ 2 ≤ w.expectedLen ∧ 2 ≤ h.expectedLen
  | .mr2 h | .mr3 h | .mr4 h | .mr5 h | .mr6 h => h.Fast L
  | .splitRadix q h => q.Fast L ∧ h.Fast L
  | .raders _ => False
  | _ => True

end RustDHT
