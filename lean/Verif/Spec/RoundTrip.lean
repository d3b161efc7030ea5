import Verif.Spec.Stability

/-! # The error bounds of C46, named -/

namespace RustDHT

/-- The relative error that the composition `p` may make, in the Euclidean norm: C46. -/
def Plan.relErr (p : Plan) (t s : ℕ) (u : ℝ) : ℝ := 2 * (p.stability t s).depth * u

/-- The absolute error that underflow may add to it. -/
def Plan.absErr (p : Plan) (t s : ℕ) (η : ℝ) (n : ℕ) : ℝ := 2 * (p.stability t s).under * η * n

/-- An input of norm at most `N` makes nothing overflow in the composition `p` of length `n`. -/
def Plan.NoOverflow (p : Plan) (t s : ℕ) (η Ω : ℝ) (n : ℕ) (N : ℝ) : Prop :=
  (p.stability t s).big * (√n * (2 * (max N 1 + (p.stability t s).under * η * √n))) ≤ Ω

end RustDHT
