import Verif.Spec.Contract
import Verif.Spec.Ieee
import Mathlib.Algebra.BigOperators.Group.Multiset.Basic

/-! # Sums in some order

A number that is obtained from given numbers by additions alone, in any order and bracketing. -/

namespace RustDHT

variable {T : Type} [Zero T] [Add T]

/-- `a` is obtained by adding up exactly the numbers `s`, each once, in some order and with some brackets, and with nothing added
but zeros on the left. -/
inductive AddsUp : Multiset T → T → Prop
  | one (a : T) : AddsUp {a} a
  | zero {s : Multiset T} {a : T} : AddsUp s a → AddsUp s (0 + a)
  | add {s t : Multiset T} {a b : T} : AddsUp s a → AddsUp t b → AddsUp (s + t) (a + b)

/-- An object, possibly from outside the crate, that computes a fixed function of its chunks whose first value adds up the chunk. -/
def SumsFirst (d : Dht T) : Prop :=
  ∃ f : List T → List T, Implements d f ∧ ∀ x, x.length = d.len → 0 < d.len → ∃ a, (f x)[0]? = some a ∧ AddsUp (x : Multiset T) a

/-- Cosine and sine at `+0` and `-0`, as the C standard (annex F.10.1) has them: one, and the argument itself. -/
structure MathLib.AtZero [MathLib] : Prop where
  cos : ∀ z : Flt binary64, z.fin → z.value = 0 → MathLib.cos z = .ofNat binary64 1
  sin : ∀ z : Flt binary64, z.fin → z.value = 0 → MathLib.sin z = z

end RustDHT
