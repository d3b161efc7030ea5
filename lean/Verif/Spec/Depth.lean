import Verif.Spec.Circuit

/-! # The depth of a circuit

The largest number of additions, subtractions and multiplications that have to wait for one another.  Changes of sign are
not counted, nor operations that do not depend on the buffer. -/

namespace RustDHT

namespace Circ

variable {S : Type}

/-- The longest chain of operations from the buffer to the value of the expression. -/
def depth : Circ S → ℕ
  | inp _ | num _ => 0
  | add a b | sub a b | mul a b => if a.uses || b.uses then max a.depth b.depth + 1 else 0
  | neg a => a.depth

end Circ

end RustDHT
