import Verif.Spec.Ieee
import Mathlib.Analysis.Complex.Basic

/-! # The complex numbers in the tables -/

namespace RustDHT

/-- A pair of the model as a complex number. -/
def Cx.toComplex (c : Cx ℝ) : ℂ := ⟨c.re, c.im⟩

/-- The conjugate, made by a negation of the second component. -/
def Cx.conj {T : Type} [Neg T] (c : Cx T) : Cx T := ⟨c.re, -c.im⟩

/-- `cos` is even and `sin` is odd, bit for bit, as in all the usual libraries. -/
structure MathLib.Symmetric [MathLib] : Prop where
  cos : ∀ x : Flt binary64, MathLib.cos (-x) = MathLib.cos x
  sin : ∀ x : Flt binary64, MathLib.sin (-x) = -MathLib.sin x

end RustDHT
