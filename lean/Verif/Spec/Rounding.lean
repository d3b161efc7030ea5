import Verif.Spec.Dht

/-! # Floating-point arithmetic

An arithmetic with finite and other values (infinities, NaN), overflow, underflow and rounding.  Nothing here refers to an
algorithm of the crate. -/

namespace RustDHT

variable {T : Type} [Zero T] [Add T] [Sub T] [Mul T] [Neg T] [FftNum T]

/-- The usual axioms of floating-point arithmetic, as IEEE 754 guarantees them.  `fin a` says that `a` is finite, and then
`val a` is its value.  An operation on finite numbers whose exact result does not exceed `Ω` gives a finite number with a
relative error of at most `u`; a product may in addition suffer an underflow error of at most `η`.  Negation is exact.
The cosines and sines in tables, and `1/n`, which the crate computes in `f64` and converts, have an absolute error of
at most `t * u`; the constant for `sqrt(1/2)` one of at most `s * u`; and `1/2` is exact. -/
structure FloatModel (fin : T → Prop) (val : T → ℝ) (u η Ω : ℝ) (t s : ℕ) : Prop where
  u_nonneg : 0 ≤ u
  η_nonneg : 0 ≤ η
  η_le : η ≤ u
  zero : fin 0 ∧ val 0 = 0
  add : ∀ a b, fin a → fin b → |val a + val b| ≤ Ω → fin (a + b) ∧ |val (a + b) - (val a + val b)| ≤ u * |val a + val b|
  sub : ∀ a b, fin a → fin b → |val a - val b| ≤ Ω → fin (a - b) ∧ |val (a - b) - (val a - val b)| ≤ u * |val a - val b|
  mul : ∀ a b, fin a → fin b → |val a * val b| ≤ Ω →
    fin (a * b) ∧ |val (a * b) - val a * val b| ≤ u * |val a * val b| + η
  neg : ∀ a, fin a → fin (-a) ∧ val (-a) = -val a
  cos : ∀ i n : ℕ, i < n → fin (computeDftTwiddleInverse T i n).re ∧
    |val (computeDftTwiddleInverse T i n).re - Real.cos (2 * Real.pi * i / n)| ≤ t * u
  sin : ∀ i n : ℕ, i < n → fin (computeDftTwiddleInverse T i n).im ∧
    |val (computeDftTwiddleInverse T i n).im - Real.sin (2 * Real.pi * i / n)| ≤ t * u
  cosFwd : ∀ i n : ℕ, i < n → fin (computeDftTwiddleForward T i n).re ∧
    |val (computeDftTwiddleForward T i n).re - Real.cos (2 * Real.pi * i / n)| ≤ t * u
  sinFwd : ∀ i n : ℕ, i < n → fin (computeDftTwiddleForward T i n).im ∧
    |val (computeDftTwiddleForward T i n).im - -Real.sin (2 * Real.pi * i / n)| ≤ t * u
  sqrtHalf : fin (FftNum.sqrtHalfF32 (T := T)) ∧ |val (FftNum.sqrtHalfF32 (T := T)) - √(1 / 2)| ≤ s * u
  half : fin (FftNum.halfF32 (T := T)) ∧ val (FftNum.halfF32 (T := T)) = 1 / 2
  norm : ∀ n : ℕ, 0 < n →
    fin (FftNum.fromF64 ((FftNum.f64 (T := T)).div ((FftNum.f64 (T := T)).ofNat 1) ((FftNum.f64 (T := T)).ofNat n)) : T) ∧
    |val (FftNum.fromF64 ((FftNum.f64 (T := T)).div ((FftNum.f64 (T := T)).ofNat 1) ((FftNum.f64 (T := T)).ofNat n)))
      - 1 / n| ≤ t * u

/-! ## Counting roundings -/

/-- How large a number can have become and how often it was rounded: `g` bounds its size in units of the largest input,
`c` counts underflow errors, `d` the roundings on the longest path from an input, `e` and `r` the factors on a path that come
from tables or are `sqrt(1/2)`. -/
structure Cost where
  g : ℕ
  c : ℕ
  d : ℕ
  e : ℕ
  r : ℕ
  deriving DecidableEq, Repr

namespace Cost

instance : Zero Cost := ⟨⟨0, 0, 0, 0, 0⟩⟩
instance : Add Cost := ⟨fun a b => ⟨a.g + b.g, a.c + b.c, max a.d b.d + 1, max a.e b.e, max a.r b.r⟩⟩
instance : Sub Cost := ⟨fun a b => ⟨a.g + b.g, a.c + b.c, max a.d b.d + 1, max a.e b.e, max a.r b.r⟩⟩
instance : Neg Cost := ⟨fun a => a⟩
instance : Mul Cost :=
  ⟨fun a b => ⟨max 1 a.g * max 1 b.g, max 1 a.g * b.c + a.c * max 1 b.g + 1, a.d + b.d + 2, a.e + b.e, a.r + b.r⟩⟩

/-- Constants count as size 1; `1/2` is exact. -/
instance : FftNum Cost where
  F64 := Unit
  f64 := ⟨fun _ => (), (), fun _ => (), fun _ _ => (), fun _ _ => (), fun _ => (), fun _ => ()⟩
  fromF64 _ := ⟨1, 0, 0, 1, 0⟩
  sqrtHalfF32 := ⟨1, 0, 0, 0, 1⟩
  halfF32 := ⟨1, 0, 0, 0, 0⟩

/-- An input. -/
def input : Cost := ⟨1, 0, 0, 0, 0⟩

/-- The number of roundings, where a constant of a table counts `t` times and `sqrt(1/2)` counts `s` times. -/
def depth (t s : ℕ) (q : Cost) : ℕ := q.d + q.e * t + q.r * s

/-- The largest absolute value that can occur in computing a number of cost `q` from inputs of size at most `A`. -/
noncomputable def size (u η : ℝ) (t s : ℕ) (q : Cost) (A : ℝ) : ℝ := (1 + u) ^ q.depth t s * (q.g * max A 1 + η * q.c)

/-- The error bound: the difference between `g * A`, perturbed by `depth` roundings and `c` underflows, and `g * A`. -/
noncomputable def error (u η : ℝ) (t s : ℕ) (q : Cost) (A : ℝ) : ℝ :=
  (1 + u) ^ q.depth t s * (q.g * A + η * q.c) - q.g * A

end Cost

end RustDHT
