import Verif.Props.Circuit
import Verif.Proofs.CircuitNested

/-! # C65: the number of arithmetic operations with `RadersAlgorithm` nested -/

namespace RustDHT

open Circ

section
variable {S : Type} [Zero S] [Add S] [Sub S] [Mul S] [Neg S] [FftNum S]

/-- With at most `k` `RadersAlgorithm`s inside one another and without long `DhtNaive`: at most `2^k (2L + 8) n log₂ n`
operations. -/
theorem C65_nested (L k : ℕ) (p : Plan) (hp : p.FastNested L k) (c : Dht (Circ S)) (hc : p.build (Circ S) = .ok c)
    (h2 : 2 ≤ c.len) (y : List (Circ S)) (hy : c.process (buffer S c.len) = .ok y) :
    ∃ N : ℕ, Size y N ∧ (N : ℝ) ≤ 2 ^ k * (2 * L + 8) * c.len * Real.logb 2 c.len := by
  refine ⟨p.ops, ?_, ?_⟩
  · have := C65_size p c hc c.len le_rfl dvd_rfl y hy
    rwa [Nat.div_self (by omega), Nat.one_mul] at this
  · have := (plan_opsNested p k hp c hc).two h2
    have h5 : (0 : ℝ) ≤ 5 * c.len := by positivity
    rw [nestedL_cast, lg] at this
    linarith

end

/-- Every composition is of this kind for some `L` and `k`, unless one side of a `MixedRadix` has length less than 2. -/
theorem C65_nested_all (p : Plan) (h : p.WideMixed) : ∃ L k, p.FastNested L k :=
  p.fastNested_of_wide h

/-! ## Instances -/

/-- Length 23, by way of 22 = 2 · 11 and 10 = 2 · 5: two `RadersAlgorithm`s, one inside the other. -/
example : (Plan.raders (.mr2 (.raders (.mr2 .b5)))).FastNested 1 2 ∧ ¬ (Plan.raders (.mr2 (.raders (.mr2 .b5)))).FastNested 1 1
    ∧ (Plan.raders (.mr2 (.raders (.mr2 .b5)))).expectedLen = 23 := by
  simp [Plan.FastNested, Plan.expectedLen]

end RustDHT
