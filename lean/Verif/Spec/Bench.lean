import Verif.Model.Bench
import Mathlib.Data.Nat.Prime.Defs

/-! # Which arguments the benchmark functions work for -/

namespace RustDHT

/-- The arguments for which a benchmark function is meant: those that its algorithm can be built for. -/
def Bench.Suitable : Bench → Prop
  | .mixedRadixNoop _ _ | .mr4Noop _ | .butterfly3 | .butterfly6 => True
  /- dividing by four, rounding down, passes through 2, 4, 8 or 16 before 0 or 1: in base four the number starts with 2 or 10 -/
  | .mr4 n => ∃ k, 2 * 4 ^ k ≤ n ∧ n < 3 * 4 ^ k ∨ 4 * 4 ^ k ≤ n ∧ n < 5 * 4 ^ k
  | .radix4 n => ∃ k, n = 2 ^ k
  | .splitRadix n => ∃ k, 4 ≤ k ∧ n = 2 ^ k
  | .mr3 n => ∃ k, 1 ≤ k ∧ n = 3 ^ k
  | .mr5 n => ∃ k, 1 ≤ k ∧ n = 5 ^ k
  | .mr6 n => ∃ k, 1 ≤ k ∧ n = 6 ^ k
  | .radersNoop p => p.Prime ∧ p ≠ 2 ∧ p < 2 ^ 32
  | .radersPower2 p => p.Prime ∧ p < 2 ^ 32 ∧ ∃ k, 1 ≤ k ∧ p = 2 ^ k + 1

/-- How many numbers the buffer of a benchmark holds. -/
def Bench.bufferLen : Bench → Nat → Prop
  | .mixedRadixNoop w h, l => l = w * h
  | .mr4Noop h, l => l = 4 * h
  /- not always `n` -/
  | .mr4 n, l => l ≤ n ∧ n < 2 * l ∧ ∃ k, 1 ≤ k ∧ l = 2 ^ k
  | .radix4 n, l | .splitRadix n, l | .mr3 n, l | .mr5 n, l | .mr6 n, l | .radersNoop n, l | .radersPower2 n, l => l = n
  | .butterfly3, l => l = 300
  | .butterfly6, l => l = 600

/-- Zero behaves as one expects; nothing is asked of the other numbers.  (In floating point it holds up to the sign of zero,
as long as the constants of the tables are finite.) -/
structure ZeroLaws (T : Type) [Zero T] [Add T] [Sub T] [Mul T] [Neg T] : Prop where
  add : (0 : T) + 0 = 0
  sub : (0 : T) - 0 = 0
  neg : -(0 : T) = 0
  mul_zero : ∀ c : T, c * 0 = 0
  zero_mul : ∀ c : T, 0 * c = 0

end RustDHT
