import Verif.Model.Core

/-! # A buffer cut into pieces, and calls one after another -/

namespace RustDHT

variable {T σ : Type}

/-- The complete pieces of `n` elements of a buffer, from left to right. -/
def pieces (n : Nat) (b : List T) : List (List T) :=
  (List.range (b.length / n)).map fun i => (b.drop (i * n)).take n

/-- What is left of the buffer behind its first `k` pieces. -/
def behind (n k : Nat) (b : List T) : List T := b.drop (k * n)

/-- Calls of `f`, one for each element of a list, in order; the first call that fails is the last.  Each call gets what the
previous one left in the captured variables. -/
def inTurn {α β : Type} (f : α → σ → Res (β × σ)) : List α → σ → Res (List β × σ)
  | [], s => .ok ([], s)
  | a :: as, s => do
    let (b, s) ← f a s
    let (bs, s) ← inTurn f as s
    .ok (b :: bs, s)

end RustDHT
