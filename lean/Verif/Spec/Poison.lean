import Mathlib.Logic.Basic
import Mathlib.Algebra.Notation.Defs

/-! # Values that no operation gets rid of

Nothing here refers to an algorithm of the crate. -/

namespace RustDHT

/-- Every operation with a bad operand has a bad result.  In floating point NaN is bad in this sense, and so is "NaN or
infinite". -/
structure Absorbing {T : Type} [Add T] [Sub T] [Mul T] [Neg T] (Bad : T → Prop) : Prop where
  add_left : ∀ a b, Bad a → Bad (a + b)
  add_right : ∀ a b, Bad b → Bad (a + b)
  sub_left : ∀ a b, Bad a → Bad (a - b)
  sub_right : ∀ a b, Bad b → Bad (a - b)
  neg : ∀ a, Bad a → Bad (-a)
  mul_left : ∀ a b, Bad a → Bad (a * b)
  mul_right : ∀ a b, Bad b → Bad (a * b)

/-- Element `i` of the list exists and is bad. -/
def BadAt {T : Type} (Bad : T → Prop) (x : List T) (i : Nat) : Prop := ∃ v, x[i]? = some v ∧ Bad v

end RustDHT
