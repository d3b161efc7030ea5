import Verif.Model.Core

/-! # src/math_utils.rs, and the external `extended_gcd`

All integers are `u64`/`usize` in the source; products that reach `2^64` panic with `overflow` here (a debug build
panics, a release build wraps). -/

namespace RustDHT

/-- `a * b` on `u64` / 64-bit `usize`, with the overflow check of a debug build. -/
def mulU64 (a b : Nat) : Res Nat := if a * b < 2 ^ 64 then .ok (a * b) else panic .overflow

/-- `a % b` on unsigned integers. -/
def remU64 (a b : Nat) : Res Nat := if b = 0 then panic .divByZero else .ok (a % b)

/-- The loop of src/math_utils.rs:9-15. -/
def modularExponentLoop (modulo : Nat) (result base exponent : Nat) : Res Nat :=
  if exponent > 0 then do
    let result ← (if exponent % 2 = 1 then do
        let p ← mulU64 result base
        remU64 p modulo
      else Except.ok result)
    let p ← mulU64 base base
    let base ← remU64 p modulo
    modularExponentLoop modulo result base (exponent / 2)
  else .ok result
termination_by exponent
decreasing_by omega

/-- src/math_utils.rs:4-18 `modular_exponent` -/
def modularExponent (base exponent modulo : Nat) : Res Nat := modularExponentLoop modulo 1 base exponent

/-- `n as f32` for a `u64`: the nearest number with a 24-bit significand, ties to even.  The result is an integer. -/
def roundToF32 (n : Nat) : Nat :=
  if n < 2 ^ 24 then n else
    let s := n.log2 - 23
    let q := n / 2 ^ s
    let r := n % 2 ^ s
    if r > 2 ^ (s - 1) ∨ (r = 2 ^ (s - 1) ∧ q % 2 = 1) then (q + 1) * 2 ^ s else q * 2 ^ s

/-- `floor(sqrt(n))`. -/
def isqrt (n : Nat) : Nat :=
  if h : n = 0 then 0 else
    let r := 2 * isqrt (n / 4)
    if (r + 1) * (r + 1) ≤ n then r + 1 else r
termination_by n
decreasing_by omega

/-- `x.sqrt() as u64` for an `f32` that holds the integer `m`: the correctly rounded 24-bit root, truncated.
With `e = log2(m) / 2` the root lies in `[2^e, 2^(e+1))`, where floats are spaced by `2^(e-23)`.  A tie cannot happen. -/
def f32SqrtTrunc (m : Nat) : Nat :=
  if m = 0 then 0 else
    let e := m.log2 / 2
    if e ≤ 23 then
      -- nearest integer to sqrt(m * 4^k), then divided by 2^k
      let k := 23 - e
      let a := isqrt (m * 4 ^ k)
      let rounded := if m * 4 ^ k > a * a + a then a + 1 else a
      rounded / 2 ^ k
    else
      -- nearest multiple of 2^k
      let k := e - 23
      let a := isqrt (m / 4 ^ k)
      let rounded := if m > (a * a + a) * 4 ^ k + 4 ^ (k - 1) then a + 1 else a
      rounded * 2 ^ k

/-- src/math_utils.rs:33 and 43: `(n as f32).sqrt() as u64 + 1` -/
def factorLimit (n : Nat) : Nat := f32SqrtTrunc (roundToF32 n) + 1

/-- `while n % d == 0 { n /= d; }`, src/math_utils.rs:26-28 and 37-39 -/
def stripFactor (d n : Nat) : Res Nat :=
  if _h0 : d = 0 then panic .divByZero
  else if n % d = 0 then
    if _h1 : d = 1 ∨ n = 0 then .error .diverge else stripFactor d (n / d)
  else .ok n
termination_by n
decreasing_by
  exact Nat.div_lt_self (by omega) (by omega)

theorem stripFactor_le (d n m : Nat) (h : stripFactor d n = .ok m) : m ≤ n := by
  induction n using Nat.strongRecOn with
  | ind n ih =>
    rw [stripFactor] at h
    split at h
    · cases h
    · split at h
      · split at h
        · cases h
        · exact Nat.le_trans (ih _ (Nat.div_lt_self (by omega) (by omega)) h) (Nat.div_le_self _ _)
      · cases h; exact Nat.le_refl _

theorem stripFactor_lt (d n m : Nat) (h : stripFactor d n = .ok m) (hd : n % d = 0) : m < n := by
  by_cases h0 : d = 0
  · rw [stripFactor, dif_pos h0] at h
    cases h
  · rw [stripFactor, dif_neg h0, if_pos hd] at h
    split at h
    · cases h
    · exact Nat.lt_of_le_of_lt (stripFactor_le _ _ _ h) (Nat.div_lt_self (by omega) (by omega))

/-- The trial division loop, src/math_utils.rs:34-47.  Returns the final `n` and `result`. -/
def factorLoop (n divisor limit : Nat) (result : List Nat) : Res (Nat × List Nat) :=
  if _h : divisor < limit then
    if hd : n % divisor = 0 then
      match _hs : stripFactor divisor n with
      | .error e => .error e
      | .ok n' => factorLoop n' (divisor + 2) (factorLimit n') (result ++ [divisor])
    else factorLoop n (divisor + 2) limit result
  else .ok (n, result)
termination_by (n, limit - divisor)
decreasing_by
  · exact Prod.Lex.left _ _ (stripFactor_lt _ _ _ _hs hd)
  · exact Prod.Lex.right _ (by omega)

/-- src/math_utils.rs:21-55 `distinct_prime_factors` -/
def distinctPrimeFactors (n : Nat) : Res (List Nat) := do
  let (n, result) ← (if n % 2 = 0 then do
      let n ← stripFactor 2 n
      Except.ok (n, [2])
    else Except.ok (n, []))
  if n > 1 then do
    let (n, result) ← factorLoop n 3 (factorLimit n) result
    if n > 1 then .ok (result ++ [n]) else .ok result
  else .ok result

/-- src/math_utils.rs:64-68: does some test exponent reject the candidate? -/
def rejectRoot (prime root : Nat) : List Nat → Res Bool
  | [] => .ok false
  | e :: es => do
    let r ← modularExponent root e prime
    if r = 1 then .ok true else rejectRoot prime root es

/-- src/math_utils.rs:62-73: the search loop -/
def searchRoot (prime : Nat) (exps : List Nat) : List Nat → Res (Option Nat)
  | [] => .ok none
  | r :: rs => do
    let rejected ← rejectRoot prime r exps
    if rejected then searchRoot prime exps rs else .ok (some r)

/-- src/math_utils.rs:57-74 `primitive_root` -/
def primitiveRoot (prime : Nat) : Res (Option Nat) :=
  if prime = 0 then panic .overflow else do
    let factors ← distinctPrimeFactors (prime - 1)
    let testExponents := factors.map fun factor => (prime - 1) / factor
    searchRoot prime testExponents (List.range' 2 (prime - 2))

/-- One step of the loop of `extended_gcd`: `swap; r.0 = r.0 - q * r.1`. -/
def egcdStep (q : Int) (p : Int × Int) : Int × Int := (p.2 - q * p.1, p.1)

/-- The loop of `num_integer::Integer::extended_gcd` (external crate `num-integer` 0.1), written from its published
source.  `i64` arithmetic is modelled on `Int` without overflow.  Returns `(r, s)`. -/
def egcdLoop (r s : Int × Int) : (Int × Int) × (Int × Int) :=
  if _h : r.1 = 0 then (r, s) else
    let q := r.2.tdiv r.1
    egcdLoop (egcdStep q r) (egcdStep q s)
termination_by r.1.natAbs
decreasing_by
  simp only [egcdStep]
  have : r.2 - r.2.tdiv r.1 * r.1 = r.2.tmod r.1 := by rw [Int.tmod_def, Int.mul_comm]
  rw [this, Int.natAbs_tmod]
  exact Nat.mod_lt _ (by omega)

/-- The coefficient `x` of `i64::extended_gcd(&a, &b)`. -/
def egcdX (a b : Int) : Int :=
  let (r, s) := egcdLoop (b, a) (0, 1)
  if r.2 ≥ 0 then s.2 else 0 - s.2

end RustDHT
