import Verif.Spec.OnlyIf

/-! # Compositions that do not use `sqrt(1/2)`

`0.5f32.sqrt()` is a factor of the tables of `MixedRadix` (src/scalar/mixed_radix.rs:54-61), `MixedRadix3xn` (radix3.rs:33),
`MixedRadix5xn` (radix5.rs:33) and `MixedRadix6xn` (radix6.rs:34).  These have an entry for each row and each column but the first ones. -/

namespace RustDHT

/-- The same arithmetic with another value for `T::from_f32(0.5f32.sqrt())`. -/
@[instance_reducible] def FftNum.withRoot {T : Type} (i : FftNum T) (ρ : T) : FftNum T := { i with sqrtHalfF32 := ρ }

/-- No table with the factor `sqrt(1/2)` has an entry. -/
def Plan.RootFree : Plan → Prop
  | .mixedRadix w h => (w.expectedLen ≤ 1 ∨ h.expectedLen ≤ 1) ∧ w.RootFree ∧ h.RootFree
  | .mr2 h | .mr4 h => h.RootFree
  | .mr3 h | .mr5 h | .mr6 h => h.expectedLen ≤ 1 ∧ h.RootFree
  | .splitRadix q h => q.RootFree ∧ h.RootFree
  | .raders i => i.RootFree
  | _ => True

/-- The factor occurs in mixed-radix algorithms only: not below `SplitRadix` and `RadersAlgorithm`. -/
def Plan.RootMixed : Plan → Prop
  | .mixedRadix w h => w.RootMixed ∧ h.RootMixed
  | .mr2 h | .mr3 h | .mr4 h | .mr5 h | .mr6 h => h.RootMixed
  | .splitRadix q h => q.RootFree ∧ h.RootFree
  | .raders i => i.RootFree
  | _ => True

/-- The factor does not occur inside `RadersAlgorithm`. -/
def Plan.RadersFree : Plan → Prop
  | .mixedRadix w h => w.RadersFree ∧ h.RadersFree
  | .mr2 h | .mr3 h | .mr4 h | .mr5 h | .mr6 h => h.RadersFree
  | .splitRadix q h => q.RadersFree ∧ h.RadersFree
  | .raders i => i.RootFree
  | _ => True

/-- In the inner object of every `RadersAlgorithm` the factor does not occur, or in mixed-radix algorithms only and with no `Radix4` above
64 besides. -/
def Plan.RadersKnown : Plan → Prop
  | .mixedRadix w h => w.RadersKnown ∧ h.RadersKnown
  | .mr2 h | .mr3 h | .mr4 h | .mr5 h | .mr6 h => h.RadersKnown
  | .splitRadix q h => q.RadersKnown ∧ h.RadersKnown
  | .raders i => i.RootFree ∨ i.RootMixed ∧ i.SmallRadix4
  | _ => True

/-- `DhtNaive` of length `n` takes part. -/
def Plan.HasNaive (n : ℕ) : Plan → Prop
  | .naive k => k = n
  | .mixedRadix w h => w.HasNaive n ∨ h.HasNaive n
  | .mr2 h | .mr3 h | .mr4 h | .mr5 h | .mr6 h => h.HasNaive n
  | .splitRadix q h => q.HasNaive n ∨ h.HasNaive n
  | .raders i => i.HasNaive n
  | _ => False

end RustDHT
