import Verif.Spec.Contract
import Verif.Model.Twiddles

/-! # Impulses -/

namespace RustDHT

variable {T : Type} [Zero T] [Add T] [Sub T] [Mul T] [Neg T] [FftNum T]

/-- What arithmetic has to do with zeros: `Z` are the numbers that count as zero, `A` those that count as the value of the impulse.
Nothing is asked of the constants of the tables, but that `cos 0 + sin 0` counts as one. -/
structure Absorbs (Z A : T → Prop) : Prop where
  zero : Z 0
  add : ∀ a b, Z a → Z b → Z (a + b)
  sub : ∀ a b, Z a → Z b → Z (a - b)
  neg : ∀ a, Z a → Z (-a)
  mul_left : ∀ c a, Z a → Z (c * a)
  mul_right : ∀ c a, Z a → Z (a * c)
  add_zero : ∀ a b, A a → Z b → A (a + b)
  zero_add : ∀ a b, Z a → A b → A (a + b)
  sub_zero : ∀ a b, A a → Z b → A (a - b)
  one : ∀ n, 0 < n → ∀ a, A a → A (computeDhtTwiddle T 0 n * a)

/-- An object, possibly from outside the crate, that computes a fixed function of its chunks, and gives to an impulse of any height an
answer of that height everywhere. -/
def FlatDht (Z : T → Prop) (d : Dht T) : Prop :=
  ∃ f : List T → List T, Implements d f ∧ ∀ A, Absorbs Z A → ∀ a y, y.length + 1 = d.len → A a → (∀ b ∈ y, Z b) →
    ∀ b ∈ f (a :: y), A b

end RustDHT
