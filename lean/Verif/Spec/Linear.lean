import Verif.Spec.Circuit
import Verif.Spec.Ieee

/-! # Linear forms, and scaling by powers of two -/

namespace RustDHT

/-- A linear form in the first `n` entries of the buffer, written with sums, differences and products by constants: no product
of two entries, and no constant term but zero. -/
inductive Circ.Linear {S : Type} [Zero S] (n : ℕ) : Circ S → Prop
  | zero : Linear n (.num 0)
  | inp {i : ℕ} (h : i < n) : Linear n (.inp i)
  | add {a b : Circ S} : Linear n a → Linear n b → Linear n (.add a b)
  | sub {a b : Circ S} : Linear n a → Linear n b → Linear n (.sub a b)
  | neg {a : Circ S} : Linear n a → Linear n (.neg a)
  | cmul {c a : Circ S} : c.uses = false → Linear n a → Linear n (.mul c a)
  | mulc {a c : Circ S} : Linear n a → c.uses = false → Linear n (.mul a c)

/-- Zero, or of a size where numbers have full precision, and not among the very largest. -/
def Fmt.Normal (F : Fmt) (r : ℚ) : Prop := r = 0 ∨ 2 ^ (F.emin + F.prec - 1) ≤ |r| ∧ |r| ≤ 2 ^ (F.emax - 1)

/-- `r` and `2^e * r` are in that range. -/
def Fmt.Scales (F : Fmt) (e : ℤ) (r : ℚ) : Prop := F.Normal r ∧ F.Normal (2 ^ e * r)

/-- The number `2^e`. -/
def Flt.pow2 (F : Fmt) (e : ℤ) : Flt F := .round F false (2 ^ e : ℚ)

/-- The operation has finite operands, and the result, before it is rounded, can be scaled by `2^e`. -/
def Circ.ScalesGate {F : Fmt} (e : ℤ) (x : ℕ → Flt F) : Circ (Flt F) → Prop
  | .add a b => (a.eval x).fin ∧ (b.eval x).fin ∧ F.Scales e ((a.eval x).value + (b.eval x).value)
  | .sub a b => (a.eval x).fin ∧ (b.eval x).fin ∧ F.Scales e ((a.eval x).value - (b.eval x).value)
  | .mul a b => (a.eval x).fin ∧ (b.eval x).fin ∧ F.Scales e ((a.eval x).value * (b.eval x).value)
  | _ => True

/-- Zero of either sign. -/
def Flt.IsZero {F : Fmt} (a : Flt F) : Prop := a.fin ∧ a.value = 0

end RustDHT
