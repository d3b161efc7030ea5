import Verif.Model.Trait
import Verif.Model.Twiddles
import Verif.Model.MathUtils
import Mathlib.Data.Nat.Prime.Basic

/-! # src/scalar/raders_algorithm.rs -/

namespace RustDHT

variable {T : Type} [Add T] [Sub T] [Mul T] [Zero T] [FftNum T]

/-- The external `primal_check::miller_rabin`, modelled by its contract: it decides primality of a `u64`. -/
def millerRabin (n : Nat) : Bool := decide n.Prime

/-- `i - 1` on `usize`. -/
def pred (i : Nat) : Res Nat := if i = 0 then panic .overflow else .ok (i - 1)

/-- `(index * factor) % self.reduced_len` (`StrengthReducedUsize` computes the remainder) -/
def stepIndex (index factor len : Nat) : Res Nat := do
  let p ← mulU64 index factor
  remU64 p len

/-- src/scalar/raders_algorithm.rs:42-47 -/
def rootInverse (primitiveRoot len : Nat) : Nat :=
  let x := egcdX primitiveRoot len
  if x ≥ 0 then x.toNat else (x + len).toNat

/-- src/scalar/raders_algorithm.rs:50-58: the input of the constructor's inner DHT -/
def radersKernelInput (T : Type) [Add T] [Mul T] [Zero T] [FftNum T] (innerLen len rootInv : Nat) :
    Res (List T) := do
  let f := FftNum.f64 (T := T)
  let normalizationScale : T := FftNum.fromF64 (f.div (f.ofNat 1) (f.ofNat innerLen))
  let (input, _) ← forRange 0 innerLen (List.replicate innerLen (0 : T), 1) fun i (input, twiddleInput) => do
    let twiddle := computeDhtTwiddle T twiddleInput len
    let input ← setI input i (twiddle * normalizationScale)
    let twiddleInput ← stepIndex twiddleInput rootInv len
    .ok (input, twiddleInput)
  .ok input

/-- src/scalar/raders_algorithm.rs:63-75: the table built from the transformed kernel -/
def radersTwiddles (x : List T) : Res (List (Cx T)) := do
  let n := x.length
  let tw := List.replicate (n / 2 + 1) ({ re := 0, im := 0 } : Cx T)
  let x0 ← getI x 0
  let tw ← setI tw 0 { re := x0, im := 0 }
  let tw ← forRange 1 (n / 2) tw fun i tw => do
    let iRev := n - i
    let a ← getI x i
    let b ← getI x iRev
    setI tw i { re := (a + b) * FftNum.halfF32, im := (a - b) * FftNum.halfF32 }
  let m ← getI x (n / 2)
  setI tw (n / 2) { re := m, im := 0 }

/-- The reordering loops src/scalar/raders_algorithm.rs:108-114 and 172-178:
`dst[j] = src[root^j - 1]`. -/
def radersGather (root len : Nat) (src dst : List T) : Res (List T) := do
  let (dst, _) ← forRange 0 dst.length (dst, 1) fun j (dst, inputIndex) => do
    let p ← pred inputIndex
    let v ← getI src p
    let dst ← setI dst j v
    let inputIndex ← stepIndex inputIndex root len
    .ok (dst, inputIndex)
  .ok dst

/-- The reordering loops src/scalar/raders_algorithm.rs:153-158 and 221-226:
`dst[inverse^j - 1] = src[j]`. -/
def radersScatter (rootInv len : Nat) (src dst : List T) : Res (List T) := do
  let (dst, _) ← forList src (dst, 1) fun v (dst, outputIndex) => do
    let p ← pred outputIndex
    let dst ← setI dst p v
    let outputIndex ← stepIndex outputIndex rootInv len
    .ok (dst, outputIndex)
  .ok dst

/-- src/scalar/raders_algorithm.rs:128-144: the multiplication by the twiddles, in place -/
def radersMulInplace (twiddles : List (Cx T)) (b : List T) : Res (List T) := do
  let n := b.length
  let b0 ← getI b 0
  let t0 ← getI twiddles 0
  let b ← setI b 0 (b0 * t0.re)
  let b ← forRange 1 (n / 2) b fun i b => do
    let iRev := n - i
    let inputFwd ← getI b i
    let inputRev ← getI b iRev
    let twiddle ← getI twiddles i
    let b ← setI b i (twiddle.re * inputFwd + twiddle.im * inputRev)
    setI b iRev (twiddle.re * inputRev - twiddle.im * inputFwd)
  if n % 2 = 0 then do
    let mid := n / 2
    let v ← getI b mid
    let t ← getI twiddles mid
    setI b mid (v * t.re)
  else .ok b

/-- src/scalar/raders_algorithm.rs:191-207: the multiplication by the twiddles, from `output` to `input` -/
def radersMulOop (twiddles : List (Cx T)) (output input : List T) : Res (List T) := do
  let n := output.length
  let o0 ← getI output 0
  let t0 ← getI twiddles 0
  let input ← setI input 0 (o0 * t0.re)
  let input ← forRange 1 (n / 2) input fun i input => do
    let iRev := n - i
    let inputFwd ← getI output i
    let inputRev ← getI output iRev
    let twiddle ← getI twiddles i
    let input ← setI input i (twiddle.re * inputFwd + twiddle.im * inputRev)
    setI input iRev (twiddle.re * inputRev - twiddle.im * inputFwd)
  if input.length % 2 = 0 then do
    let mid := input.length / 2
    let v ← getI output mid
    let t ← getI twiddles mid
    setI input mid (v * t.re)
  else .ok input

/-- src/scalar/raders_algorithm.rs:100-159 `perform_dht_inplace` -/
def radersPerformInplace (innerDht : Dht T) (len root rootInv : Nat) (twiddles : List (Cx T))
    (buffer scratch : List T) : Res (List T × List T) :=
  match buffer with
  | [] => panic .unwrapNone
  | bufferFirst :: buffer => do
    let bufferFirstVal := bufferFirst
    let (innerBuf, extra) ← splitAt scratch (len - 1)
    let innerBuf ← radersGather root len buffer innerBuf
    -- `inner_scratch` borrows `extra_scratch` or `buffer`
    let useExtra := extra.length > 0
    let (innerBuf, innerScratch) ← innerDht.processWithScratch innerBuf (if useExtra then extra else buffer)
    let (extra, buffer) := if useExtra then (innerScratch, buffer) else (extra, innerScratch)
    let b0 ← getI innerBuf 0
    let bufferFirst := bufferFirst + b0
    let innerBuf ← radersMulInplace twiddles innerBuf
    let b0 ← getI innerBuf 0
    let innerBuf ← setI innerBuf 0 (b0 + bufferFirstVal)
    let (innerBuf, innerScratch) ← innerDht.processWithScratch innerBuf (if useExtra then extra else buffer)
    let (extra, buffer) := if useExtra then (innerScratch, buffer) else (extra, innerScratch)
    let buffer ← radersScatter rootInv len innerBuf buffer
    .ok (bufferFirst :: buffer, innerBuf ++ extra)

/-- src/scalar/raders_algorithm.rs:161-227 `perform_dht_out_of_place` -/
def radersPerformOop (innerDht : Dht T) (len root rootInv : Nat) (twiddles : List (Cx T))
    (input output scratch : List T) : Res (List T × List T × List T) :=
  match output, input with
  | [], _ => panic .unwrapNone
  | _, [] => panic .unwrapNone
  | _ :: output, inputFirst :: input => do
    let output ← radersGather root len input output
    let useScratch := scratch.length > 0
    let (output, innerScratch) ← innerDht.processWithScratch output (if useScratch then scratch else input)
    let (scratch, input) := if useScratch then (innerScratch, input) else (scratch, innerScratch)
    let o0 ← getI output 0
    let outputFirst := inputFirst + o0
    let input ← radersMulOop twiddles output input
    let i0 ← getI input 0
    let input ← setI input 0 (i0 + inputFirst)
    let useScratch := scratch.length > 0
    let (input, innerScratch) ← innerDht.processWithScratch input (if useScratch then scratch else output)
    let (scratch, output) := if useScratch then (innerScratch, output) else (scratch, innerScratch)
    let output ← radersScatter rootInv len input output
    .ok (inputFirst :: input, outputFirst :: output, scratch)

/-- `RadersAlgorithm::new(inner_dht)`, src/scalar/raders_algorithm.rs:29-98 and 26 -/
def raders (innerDht : Dht T) : Res (Dht T) := do
  let innerLen := innerDht.len
  let len := innerLen + 1
  assert (millerRabin len) .assertFailed
  let root ← primitiveRoot len
  match root with
  | none => panic .unwrapNone
  | some root => do
    let rootInv := rootInverse root len
    let kernel ← radersKernelInput T innerLen len rootInv
    let kernel ← innerDht.process kernel
    let twiddles ← radersTwiddles kernel
    let required := innerDht.inplaceScratchLen
    let extra := if required ≤ innerLen then 0 else required
    .ok (boilerplateDht len (innerLen + extra) extra
      (radersPerformInplace innerDht len root rootInv twiddles)
      (radersPerformOop innerDht len root rootInv twiddles))

end RustDHT
