import Verif.Spec.Rounding
import Verif.Model.Plan
import Mathlib.Data.Nat.Log

/-! # How costs grow along a composition

An explicit bound, by recursion on the constructor expression, for the cost of every output. -/

namespace RustDHT

namespace Cost

/-- No field is larger. -/
instance : LE Cost := ⟨fun a b => a.g ≤ b.g ∧ a.c ≤ b.c ∧ a.d ≤ b.d ∧ a.e ≤ b.e ∧ a.r ≤ b.r⟩

/-- The cost of a step of cost `a` after a step of cost `b`. -/
def after (a b : Cost) : Cost := ⟨a.g * b.g, a.g * b.c + a.c * b.g, a.d + b.d, a.e + b.e, a.r + b.r⟩

/-- The larger of both, in every field. -/
def sup (a b : Cost) : Cost := ⟨max a.g b.g, max a.c b.c, max a.d b.d, max a.e b.e, max a.r b.r⟩

/-- The cost of `l` steps of cost `a`. -/
def times (a : Cost) : ℕ → Cost
  | 0 => input
  | l + 1 => (a.times l).after a

end Cost

/-- Radix4 of length `n`: a butterfly of length 8 or 16 (1, 2 or 4 for the smallest lengths), then a layer of cost
`⟨7, 4, 5, 1, 0⟩` for every remaining factor 4. -/
def radix4Growth (n : ℕ) : Cost :=
  if n ≤ 1 then Cost.input
  else if n ≤ 2 then ⟨2, 0, 1, 0, 0⟩
  else if n ≤ 4 then ⟨4, 0, 2, 0, 0⟩
  else if Nat.log 2 n % 2 = 1 then ((⟨7, 4, 5, 1, 0⟩ : Cost).times ((Nat.log 2 n - 3) / 2)).after ⟨8, 1, 5, 1, 0⟩
  else ((⟨7, 4, 5, 1, 0⟩ : Cost).times ((Nat.log 2 n - 4) / 2)).after ⟨24, 5, 7, 1, 0⟩

/-- The growth of a composition. -/
def Plan.growth : Plan → Cost
  | .naive n => ⟨2 * max 1 n, n, n + 3, 1, 0⟩
  | .b1 => Cost.input
  | .b2 => ⟨2, 0, 1, 0, 0⟩
  | .b3 => ⟨5, 2, 5, 1, 0⟩
  | .b4 => ⟨4, 0, 2, 0, 0⟩
  | .b5 => ⟨9, 4, 6, 1, 0⟩
  | .b6 => ⟨15, 8, 9, 2, 0⟩
  | .b8 => ⟨8, 1, 5, 1, 0⟩
  | .b9 => ⟨54, 9, 9, 1, 0⟩
  | .b16 => ⟨24, 5, 7, 1, 0⟩
  | .mixedRadix w h => w.growth.after ((⟨4, 6, 6, 1, 1⟩ : Cost).after h.growth)
  | .mr2 h => (⟨3, 2, 4, 1, 0⟩ : Cost).after h.growth
  | .mr3 h => (⟨17, 26, 11, 2, 1⟩ : Cost).after h.growth
  | .mr4 h => (⟨7, 4, 5, 1, 0⟩ : Cost).after h.growth
  | .mr5 h => (⟨33, 52, 12, 2, 1⟩ : Cost).after h.growth
  | .mr6 h => (⟨57, 92, 15, 3, 1⟩ : Cost).after h.growth
  | .radix4 n => radix4Growth n
  | .splitRadix q h => (h.growth.after ⟨2, 0, 1, 0, 0⟩).sup (q.growth.after ⟨8, 2, 5, 1, 0⟩)
  | .raders i =>
    -- the table: the inner transform of products of a twiddle and `1/(p-1)`, and then sums, halved
    let k := i.growth.after ⟨2, 1, 3, 2, 0⟩
    let tw := (k + k) * Cost.input
    (Cost.input + i.growth).sup (i.growth.after (tw * i.growth + tw * i.growth + Cost.input))

end RustDHT
