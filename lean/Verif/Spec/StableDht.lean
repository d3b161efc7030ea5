import Verif.Spec.Stability
import Verif.Spec.Contract

/-! # Objects that approximate the DHT

What a caller has to know about an inner object from outside the crate to say how accurate a composition around it is. -/

namespace RustDHT

variable {T : Type} [Zero T] [Add T] [Sub T] [Mul T] [Neg T] [FftNum T]

/-- `d` computes a fixed function of its chunks, which is the DHT up to an error with the numbers `a`: if numbers of `a.big`
times the size that the outputs can have do not overflow, then the outputs are finite, and their Euclidean distance to the exact
DHT is at most the growth factor `√n` times what `a.depth` roundings and `a.under` underflows make of the norm of the input. -/
def StableDht (fin : T → Prop) (val : T → ℝ) (u η Ω : ℝ) (a : Stab) (d : Dht T) : Prop :=
  ∃ f : List T → List T, Implements d f ∧
    ∀ x, x.length = d.len → (∀ e ∈ x, fin e) → ∀ N, N = norm2 (x.map val) →
      a.big * (√d.len * ((1 + u) ^ a.depth * (max N 1 + a.under * η * √d.len))) ≤ Ω →
      (∀ y ∈ f x, fin y) ∧
      norm2 (List.zipWith (· - ·) ((f x).map val) (dht (x.map val)))
        ≤ √d.len * ((1 + u) ^ a.depth * (N + a.under * η * √d.len) - N)

end RustDHT
