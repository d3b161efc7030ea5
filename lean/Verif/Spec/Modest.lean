import Verif.Spec.Circuit
import Verif.Spec.Dht

/-! # Circuits with small factors -/

namespace RustDHT

/-- A linear form in the first `n` entries of the buffer, put together from additions, subtractions, changes of sign and
multiplications by factors of absolute value at most 2.  The factors do not depend on the buffer. -/
inductive Circ.Modest (n : ℕ) : Circ ℝ → Prop
  | zero : Modest n (.num 0)
  | inp {i : ℕ} (h : i < n) : Modest n (.inp i)
  | add {a b : Circ ℝ} : Modest n a → Modest n b → Modest n (.add a b)
  | sub {a b : Circ ℝ} : Modest n a → Modest n b → Modest n (.sub a b)
  | neg {a : Circ ℝ} : Modest n a → Modest n (.neg a)
  | cmul {c a : Circ ℝ} : c.uses = false → |c.eval fun _ => 0| ≤ 2 → Modest n a → Modest n (.mul c a)
  | mulc {a c : Circ ℝ} : Modest n a → c.uses = false → |c.eval fun _ => 0| ≤ 2 → Modest n (.mul a c)

/-- The circuit with outputs `y` computes the DHT of length `n`. -/
def Circ.Computes (n : ℕ) (y : List (Circ ℝ)) : Prop :=
  ∀ x : ℕ → ℝ, y.map (Circ.eval x) = dht ((List.range n).map x)

end RustDHT
