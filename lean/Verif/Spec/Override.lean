import Verif.Spec.Stateful
import Verif.Spec.Dht

/-! # An inner object with its own `process`

`process` is a provided method of the trait (src/lib.rs:31-34), which an implementation can override.  The only place of the crate
that calls `process` of an inner object is the constructor of `RadersAlgorithm` (src/scalar/raders_algorithm.rs:61). -/

namespace RustDHT

open Finset

variable {σ T : Type}

/-- The object reports the lengths `n`, `i` and `o` and transforms every chunk with `f` in the two methods that take scratch; nothing
is said about its `process`. -/
def RightButProcess (d : LiveDht σ T) (n i o : Nat) (f : List T → List T) : Prop :=
  LiveImplements { d with process := fun buffer st => .ok (mapChunks n f buffer, st) } n i o f

/-- The numbers `cas (2 pi w^m / (n + 1)) / n`, `m < n`. -/
noncomputable def powerKernel (n w : ℕ) : List ℝ :=
  (List.range n).map fun m => cas (2 * Real.pi * (w ^ m % (n + 1) : ℕ) / (n + 1)) / n

/-- `out` is what comes of `x` when the numbers `cas (2 pi w^m / (n + 1))` in the definition of the DHT of length `n + 1` are replaced
by the coefficients of the DHT of `y`. -/
structure Filtered (n w : ℕ) (y x out : List ℝ) : Prop where
  length : out.length = n + 1
  first : out.getD 0 0 = ∑ i ∈ range (n + 1), x.getD i 0
  rest : ∀ m < n, out.getD (w ^ m % (n + 1)) 0 =
    x.getD 0 0 + ∑ j ∈ range n, x.getD (w ^ j % (n + 1)) 0 * dhtCoeff y ((j + m) % n)

end RustDHT
