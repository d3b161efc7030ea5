import Verif.Spec.Plan
import Mathlib.Data.Nat.Log

/-! # Arithmetic circuits

The algorithms are generic in the number type, so they can be run on expressions.  The result is the circuit of the
transform: which operations, on which operands, make up every output.  Equal expressions are the same gate. -/

namespace RustDHT

/-- Expressions over the entries of the buffer and numbers of `S`. -/
inductive Circ (S : Type) where
  /-- entry `i` of the buffer -/
  | inp (i : ℕ)
  /-- a number out of a table, or zero -/
  | num (c : S)
  | add (a b : Circ S)
  | sub (a b : Circ S)
  | mul (a b : Circ S)
  | neg (a : Circ S)

namespace Circ

variable {S : Type}

instance [Zero S] : Zero (Circ S) := ⟨num 0⟩
instance : Add (Circ S) := ⟨add⟩
instance : Sub (Circ S) := ⟨sub⟩
instance : Mul (Circ S) := ⟨mul⟩
instance : Neg (Circ S) := ⟨neg⟩

/-- Tables hold the numbers they hold for `S`. -/
instance [FftNum S] : FftNum (Circ S) where
  F64 := FftNum.F64 S
  f64 := FftNum.f64
  fromF64 a := num (FftNum.fromF64 a)
  sqrtHalfF32 := num FftNum.sqrtHalfF32
  halfF32 := num FftNum.halfF32

/-- The value for the buffer `x`. -/
def eval [Add S] [Sub S] [Mul S] [Neg S] (x : ℕ → S) : Circ S → S
  | inp i => x i
  | num c => c
  | add a b => a.eval x + b.eval x
  | sub a b => a.eval x - b.eval x
  | mul a b => a.eval x * b.eval x
  | neg a => -a.eval x

/-- Whether the buffer occurs.  An expression without the buffer can be computed once, before any buffer is there. -/
def uses : Circ S → Bool
  | inp _ => true
  | num _ => false
  | add a b | sub a b | mul a b => a.uses || b.uses
  | neg a => a.uses

/-- The operations in an expression that depend on the buffer. -/
def gates : Circ S → List (Circ S)
  | inp _ | num _ => []
  | add a b => (if a.uses || b.uses then [add a b] else []) ++ (a.gates ++ b.gates)
  | sub a b => (if a.uses || b.uses then [sub a b] else []) ++ (a.gates ++ b.gates)
  | mul a b => (if a.uses || b.uses then [mul a b] else []) ++ (a.gates ++ b.gates)
  | neg a => (if a.uses then [neg a] else []) ++ a.gates

/-- The buffer itself. -/
def buffer (S : Type) (n : ℕ) : List (Circ S) := (List.range n).map inp

/-- `t` is one of the operations of the circuit with outputs `l`. -/
def IsGate (l : List (Circ S)) (t : Circ S) : Prop := ∃ u ∈ l, t ∈ u.gates

/-- The circuit with outputs `l` consists of at most `N` operations. -/
def Size (l : List (Circ S)) (N : ℕ) : Prop := ∃ g : List (Circ S), g.length ≤ N ∧ ∀ t, IsGate l t → t ∈ g

end Circ

/-- Radix4 of length `n`: butterflies of length 8 or 16 (1, 2 or 4 for the smallest lengths), then `9/2` operations per
entry for every remaining factor 4. -/
def radix4Ops (n : ℕ) : ℕ :=
  if n ≤ 1 then 0
  else if n ≤ 2 then 2
  else if n ≤ 4 then 8
  else if Nat.log 2 n % 2 = 1 then n / 8 * 24 + (Nat.log 2 n - 3) / 2 * (9 * (n / 2))
  else n / 16 * 76 + (Nat.log 2 n - 4) / 2 * (9 * (n / 2))

/-- A bound for the number of operations of a composition. -/
def Plan.ops : Plan → ℕ
  | .naive n => 2 * n * n
  | .b1 => 0
  | .b2 => 2
  | .b3 => 8
  | .b4 => 8
  | .b5 => 24
  | .b6 => 28
  | .b8 => 24
  | .b9 => 56
  | .b16 => 76
  | .mixedRadix w h => h.expectedLen * w.ops + w.expectedLen * h.ops + 5 * (w.expectedLen * h.expectedLen)
  | .mr2 h => 2 * h.ops + (2 + h.expectedLen / 2 * 10)
  | .mr3 h => 3 * h.ops + (8 + h.expectedLen / 2 * 32)
  | .mr4 h => 4 * h.ops + (8 + h.expectedLen / 2 * 34)
  | .mr5 h => 5 * h.ops + (24 + h.expectedLen / 2 * 80)
  | .mr6 h => 6 * h.ops + (28 + h.expectedLen / 2 * 96)
  | .radix4 n => radix4Ops n
  | .splitRadix q h => h.ops + 2 * q.ops + 14 * q.expectedLen
  | .raders i => 2 * i.ops + 3 * i.expectedLen + 2

end RustDHT
