import Verif.Model.Machine.Core
import Verif.Model.Raders
import Verif.Model.Plan

/-! # src/math_utils.rs, src/scalar/raders_algorithm.rs and the constructor expressions, with machine integers -/

namespace RustDHT.Machine

/-! ## src/math_utils.rs (at `T = u64`) -/

/-- src/math_utils.rs:9-15 -/
def modularExponentLoop (m : Mode) (modulo : Nat) (result base exponent : Nat) : Res Nat :=
  if exponent > 0 then do
    let result ← (if exponent % 2 = 1 then do
        let p ← m.u64.mul result base
        remU64 p modulo
      else Except.ok result)
    let p ← m.u64.mul base base
    let base ← remU64 p modulo
    modularExponentLoop m modulo result base (exponent / 2)
  else .ok result
termination_by exponent
decreasing_by omega

/-- src/math_utils.rs:4-18 `modular_exponent` -/
def modularExponent (m : Mode) (base exponent modulo : Nat) : Res Nat := modularExponentLoop m modulo 1 base exponent

/-- src/math_utils.rs:33 and 43: `(n as f32).sqrt() as u64 + 1` -/
def factorLimit (m : Mode) (n : Nat) : Res Nat := m.u64.add (f32SqrtTrunc (roundToF32 n)) 1

/-- The trial division loop, src/math_utils.rs:34-47.  When `divisor += 2` wraps, the loop is taken to run for ever. -/
def factorLoop (m : Mode) (n divisor limit : Nat) (result : List Nat) : Res (Nat × List Nat) :=
  if _h : divisor < limit then
    match m.u64.add divisor 2 with
    | .error e => .error e
    | .ok next =>
      if _hn : divisor < next then
        if hd : n % divisor = 0 then
          match _hs : stripFactor divisor n with
          | .error e => .error e
          | .ok n' => do
            let limit ← factorLimit m n'
            factorLoop m n' next limit (result ++ [divisor])
        else factorLoop m n next limit result
      else .error .diverge
  else .ok (n, result)
termination_by (n, limit - divisor)
decreasing_by
  · exact Prod.Lex.left _ _ (stripFactor_lt _ _ _ _hs hd)
  · exact Prod.Lex.right _ (by omega)

/-- src/math_utils.rs:21-55 `distinct_prime_factors` -/
def distinctPrimeFactors (m : Mode) (n : Nat) : Res (List Nat) := do
  let (n, result) ← (if n % 2 = 0 then do
      let n ← stripFactor 2 n
      Except.ok (n, [2])
    else Except.ok (n, []))
  if n > 1 then do
    let limit ← factorLimit m n
    let (n, result) ← factorLoop m n 3 limit result
    if n > 1 then .ok (result ++ [n]) else .ok result
  else .ok result

/-- src/math_utils.rs:64-68 -/
def rejectRoot (m : Mode) (prime root : Nat) : List Nat → Res Bool
  | [] => .ok false
  | e :: es => do
    let r ← modularExponent m root e prime
    if r = 1 then .ok true else rejectRoot m prime root es

/-- src/math_utils.rs:62-73 -/
def searchRoot (m : Mode) (prime : Nat) (exps : List Nat) : List Nat → Res (Option Nat)
  | [] => .ok none
  | r :: rs => do
    let rejected ← rejectRoot m prime r exps
    if rejected then searchRoot m prime exps rs else .ok (some r)

/-- src/math_utils.rs:57-74 `primitive_root` -/
def primitiveRoot (m : Mode) (prime : Nat) : Res (Option Nat) := do
  let p1 ← m.u64.sub prime 1
  let factors ← distinctPrimeFactors m p1
  let testExponents ← factors.mapM fun factor => do
    if factor = 0 then panic .divByZero
    let p1 ← m.u64.sub prime 1
    Except.ok (p1 / factor)
  searchRoot m prime testExponents (List.range' 2 (prime - 2))

/-! ## `i64` arithmetic and the external `extended_gcd` -/

/-- A result on `i64`. -/
def Mode.i64 (m : Mode) (x : Int) : Res Int :=
  if -2 ^ 63 ≤ x ∧ x < 2 ^ 63 then .ok x else
    if m.checked then panic .overflow else .ok ((x + 2 ^ 63) % 2 ^ 64 - 2 ^ 63)

/-- `n as i64` for a `usize` -/
def asI64 (n : Nat) : Int := if n < 2 ^ 63 then n else n - 2 ^ 64

/-- `x as usize` for an `i64` -/
def asUsize (m : Mode) (x : Int) : Nat := (x % 2 ^ m.bits).toNat

/-- `swap; r.0 = r.0 - q * r.1` -/
def egcdStep (m : Mode) (q : Int) (p : Int × Int) : Res (Int × Int) := do
  let x ← m.i64 (q * p.1)
  let y ← m.i64 (p.2 - x)
  .ok (y, p.1)

/-- The loop of `num_integer::Integer::extended_gcd` on `i64` (external crate), with all three pairs.  A division that overflows panics
in every build.  `fuel` makes it total; the theorem about it shows that it does not run out. -/
def egcdLoop (m : Mode) : (fuel : Nat) → (r s t : Int × Int) → Res ((Int × Int) × (Int × Int))
  | 0, _, _, _ => .error .diverge
  | fuel + 1, r, s, t =>
    if r.1 = 0 then .ok (r, s) else do
      let q ← Mode.i64 .debug (r.2.tdiv r.1)
      let r ← egcdStep m q r
      let s ← egcdStep m q s
      let t ← egcdStep m q t
      egcdLoop m fuel r s t

/-- The coefficient `x` of `i64::extended_gcd(&a, &b)`. -/
def egcdX (m : Mode) (a b : Int) : Res Int := do
  let (r, s) ← egcdLoop m (b.natAbs + 1) (b, a) (0, 1) (1, 0)
  if r.2 ≥ 0 then .ok s.2 else m.i64 (0 - s.2)

/-! ## src/scalar/raders_algorithm.rs -/

section Raders

variable {T : Type} [Add T] [Sub T] [Mul T] [Zero T] [FftNum T]

/-- `(index * factor) % self.reduced_len` -/
def stepIndex (m : Mode) (index factor len : Nat) : Res Nat := do
  let p ← m.mul index factor
  remU64 p len

/-- src/scalar/raders_algorithm.rs:42-47 -/
def rootInverse (m : Mode) (primitiveRoot len : Nat) : Res Nat := do
  let x ← egcdX m (asI64 primitiveRoot) (asI64 len)
  if x ≥ 0 then .ok (asUsize m x) else do
    let y ← m.i64 (x + asI64 len)
    .ok (asUsize m y)

/-- src/scalar/raders_algorithm.rs:50-58 -/
def radersKernelInput (m : Mode) (T : Type) [Add T] [Mul T] [Zero T] [FftNum T] (innerLen len rootInv : Nat) :
    Res (List T) := do
  let f := FftNum.f64 (T := T)
  let normalizationScale : T := FftNum.fromF64 (f.div (f.ofNat 1) (f.ofNat innerLen))
  let (input, _) ← forRange 0 innerLen (List.replicate innerLen (0 : T), 1) fun i (input, twiddleInput) => do
    let twiddle := computeDhtTwiddle T twiddleInput len
    let input ← setI input i (twiddle * normalizationScale)
    let twiddleInput ← stepIndex m twiddleInput rootInv len
    .ok (input, twiddleInput)
  .ok input

/-- src/scalar/raders_algorithm.rs:63-75 -/
def radersTwiddles (m : Mode) (x : List T) : Res (List (Cx T)) := do
  let n := x.length
  let size ← m.add (n / 2) 1
  let tw := List.replicate size ({ re := 0, im := 0 } : Cx T)
  let x0 ← getI x 0
  let tw ← setI tw 0 { re := x0, im := 0 }
  let tw ← forRange 1 (n / 2) tw fun i tw => do
    let iRev ← m.sub n i
    let a ← getI x i
    let b ← getI x iRev
    setI tw i { re := (a + b) * FftNum.halfF32, im := (a - b) * FftNum.halfF32 }
  let v ← getI x (n / 2)
  setI tw (n / 2) { re := v, im := 0 }

/-- src/scalar/raders_algorithm.rs:108-114 and 172-178 -/
def radersGather (m : Mode) (root len : Nat) (src dst : List T) : Res (List T) := do
  let (dst, _) ← forRange 0 dst.length (dst, 1) fun j (dst, inputIndex) => do
    let p ← m.sub inputIndex 1
    let v ← getI src p
    let dst ← setI dst j v
    let inputIndex ← stepIndex m inputIndex root len
    .ok (dst, inputIndex)
  .ok dst

/-- src/scalar/raders_algorithm.rs:153-158 and 221-226 -/
def radersScatter (m : Mode) (rootInv len : Nat) (src dst : List T) : Res (List T) := do
  let (dst, _) ← forList src (dst, 1) fun v (dst, outputIndex) => do
    let p ← m.sub outputIndex 1
    let dst ← setI dst p v
    let outputIndex ← stepIndex m outputIndex rootInv len
    .ok (dst, outputIndex)
  .ok dst

/-- src/scalar/raders_algorithm.rs:128-144 -/
def radersMulInplace (m : Mode) (twiddles : List (Cx T)) (b : List T) : Res (List T) := do
  let n := b.length
  let b0 ← getI b 0
  let t0 ← getI twiddles 0
  let b ← setI b 0 (b0 * t0.re)
  let b ← forRange 1 (n / 2) b fun i b => do
    let iRev ← m.sub n i
    let inputFwd ← getI b i
    let inputRev ← getI b iRev
    let twiddle ← getI twiddles i
    let b ← setI b i (twiddle.re * inputFwd + twiddle.im * inputRev)
    setI b iRev (twiddle.re * inputRev - twiddle.im * inputFwd)
  if n % 2 = 0 then do
    let mid := n / 2
    let v ← getI b mid
    let t ← getI twiddles mid
    setI b mid (v * t.re)
  else .ok b

/-- src/scalar/raders_algorithm.rs:191-207 -/
def radersMulOop (m : Mode) (twiddles : List (Cx T)) (output input : List T) : Res (List T) := do
  let n := output.length
  let o0 ← getI output 0
  let t0 ← getI twiddles 0
  let input ← setI input 0 (o0 * t0.re)
  let input ← forRange 1 (n / 2) input fun i input => do
    let iRev ← m.sub n i
    let inputFwd ← getI output i
    let inputRev ← getI output iRev
    let twiddle ← getI twiddles i
    let input ← setI input i (twiddle.re * inputFwd + twiddle.im * inputRev)
    setI input iRev (twiddle.re * inputRev - twiddle.im * inputFwd)
  if input.length % 2 = 0 then do
    let mid := input.length / 2
    let v ← getI output mid
    let t ← getI twiddles mid
    setI input mid (v * t.re)
  else .ok input

/-- src/scalar/raders_algorithm.rs:100-159 `perform_dht_inplace` -/
def radersPerformInplace (m : Mode) (innerDht : Dht T) (len root rootInv : Nat) (twiddles : List (Cx T))
    (buffer scratch : List T) : Res (List T × List T) :=
  match buffer with
  | [] => panic .unwrapNone
  | bufferFirst :: buffer => do
    let bufferFirstVal := bufferFirst
    let len1 ← m.sub len 1
    let (innerBuf, extra) ← splitAt scratch len1
    let innerBuf ← radersGather m root len buffer innerBuf
    let useExtra := extra.length > 0
    let (innerBuf, innerScratch) ← innerDht.processWithScratch innerBuf (if useExtra then extra else buffer)
    let (extra, buffer) := if useExtra then (innerScratch, buffer) else (extra, innerScratch)
    let b0 ← getI innerBuf 0
    let bufferFirst := bufferFirst + b0
    let innerBuf ← radersMulInplace m twiddles innerBuf
    let b0 ← getI innerBuf 0
    let innerBuf ← setI innerBuf 0 (b0 + bufferFirstVal)
    let (innerBuf, innerScratch) ← innerDht.processWithScratch innerBuf (if useExtra then extra else buffer)
    let (extra, buffer) := if useExtra then (innerScratch, buffer) else (extra, innerScratch)
    let buffer ← radersScatter m rootInv len innerBuf buffer
    .ok (bufferFirst :: buffer, innerBuf ++ extra)

/-- src/scalar/raders_algorithm.rs:161-227 `perform_dht_out_of_place` -/
def radersPerformOop (m : Mode) (innerDht : Dht T) (len root rootInv : Nat) (twiddles : List (Cx T))
    (input output scratch : List T) : Res (List T × List T × List T) :=
  match output, input with
  | [], _ => panic .unwrapNone
  | _, [] => panic .unwrapNone
  | _ :: output, inputFirst :: input => do
    let output ← radersGather m root len input output
    let useScratch := scratch.length > 0
    let (output, innerScratch) ← innerDht.processWithScratch output (if useScratch then scratch else input)
    let (scratch, input) := if useScratch then (innerScratch, input) else (scratch, innerScratch)
    let o0 ← getI output 0
    let outputFirst := inputFirst + o0
    let input ← radersMulOop m twiddles output input
    let i0 ← getI input 0
    let input ← setI input 0 (i0 + inputFirst)
    let useScratch := scratch.length > 0
    let (input, innerScratch) ← innerDht.processWithScratch input (if useScratch then scratch else output)
    let (scratch, output) := if useScratch then (innerScratch, output) else (scratch, innerScratch)
    let output ← radersScatter m rootInv len input output
    .ok (inputFirst :: input, outputFirst :: output, scratch)

/-- `RadersAlgorithm::new(inner_dht)`, src/scalar/raders_algorithm.rs:29-98 -/
def raders (m : Mode) (innerDht : Dht T) : Res (Dht T) := do
  let innerLen := innerDht.len
  let len ← m.add innerLen 1
  assert (millerRabin len) .assertFailed
  let root ← primitiveRoot m len
  match root with
  | none => panic .unwrapNone
  | some root => do
    let rootInv ← rootInverse m root len
    let kernel ← radersKernelInput m T innerLen len rootInv
    let kernel ← innerDht.process kernel
    let twiddles ← radersTwiddles m kernel
    let required := innerDht.inplaceScratchLen
    let extra := if required ≤ innerLen then 0 else required
    let inplaceScratchLen ← m.add innerLen extra
    .ok (boilerplateDht len inplaceScratchLen extra
      (radersPerformInplace m innerDht len root rootInv twiddles)
      (radersPerformOop m innerDht len root rootInv twiddles))

end Raders

/-- The constructor expressions of `RustDHT.Plan`, with machine integers. -/
def build (m : Mode) (T : Type) [Zero T] [Add T] [Sub T] [Mul T] [Neg T] [FftNum T] : Plan → Res (Dht T)
  | .naive len => .ok (dhtNaive m T len)
  | .b1 => .ok (butterfly1 T)
  | .b2 => .ok (butterfly2 T)
  | .b3 => .ok (butterfly3 T)
  | .b4 => .ok (butterfly4 T)
  | .b5 => .ok (butterfly5 T)
  | .b6 => .ok (butterfly6 T)
  | .b8 => .ok (butterfly8 T)
  | .b9 => .ok (butterfly9 T)
  | .b16 => .ok (butterfly16 T)
  | .mixedRadix w h => do
    let w ← build m T w
    let h ← build m T h
    mixedRadix m w h
  | .mr2 h => do let h ← build m T h; mixedRadix2xn m h
  | .mr3 h => do let h ← build m T h; mixedRadix3xn m h
  | .mr4 h => do let h ← build m T h; mixedRadix4xn m h
  | .mr5 h => do let h ← build m T h; mixedRadix5xn m h
  | .mr6 h => do let h ← build m T h; mixedRadix6xn m h
  | .radix4 len => radix4 m T len
  | .splitRadix q h => do
    let q ← build m T q
    let h ← build m T h
    splitRadix m q h
  | .raders inner => do
    let inner ← build m T inner
    raders m inner

/-- The constructor expressions of `RustDHT.Tree`, around objects of the caller, with machine integers. -/
def buildTree (m : Mode) {T : Type} [Zero T] [Add T] [Sub T] [Mul T] [Neg T] [FftNum T] : Tree T → Res (Dht T)
  | .plan p => build m T p
  | .user d => .ok d
  | .mixedRadix w h => do
    let w ← buildTree m w
    let h ← buildTree m h
    mixedRadix m w h
  | .mr2 h => do let h ← buildTree m h; mixedRadix2xn m h
  | .mr3 h => do let h ← buildTree m h; mixedRadix3xn m h
  | .mr4 h => do let h ← buildTree m h; mixedRadix4xn m h
  | .mr5 h => do let h ← buildTree m h; mixedRadix5xn m h
  | .mr6 h => do let h ← buildTree m h; mixedRadix6xn m h
  | .splitRadix q h => do
    let q ← buildTree m q
    let h ← buildTree m h
    splitRadix m q h
  | .raders inner => do
    let inner ← buildTree m inner
    raders m inner

end RustDHT.Machine
