import Verif.Model.TestUtils
import Verif.Model.MixedRadix

/-! # The unit tests that do not consist of calls of `check_dht_algorithm`

src/scalar/dht_naive.rs:69-179, src/scalar/radix5.rs:225-307 and src/scalar/mixed_radix.rs:306-345, as programs.  They are
functions of `signal`, which stands for `random_real_signal` (a function of the length alone: the generator is seeded with a
constant).  `assert!` and `assert_eq!` raise `assertFailed`; messages are not modelled. -/

namespace RustDHT

/-- What the reference transform of src/scalar/dht_naive.rs:69-81 uses of `f32` beyond `+` and `*`. -/
class TestTrig (T : Type) where
  /-- `n as f32`, and the literal `2f32` -/
  ofNat : Nat → T
  /-- `f32::consts::PI` -/
  pi : T
  div : T → T → T
  cos : T → T
  sin : T → T

variable {T : Type} [Add T] [Sub T] [Mul T] [Neg T] [Zero T] [FftNum T] [TestNum T]

/-- src/scalar/dht_naive.rs:69-81 `dht`: the reference transform.  `spectrum` is overwritten. -/
def referenceDht [TestTrig T] (signal spectrum : List T) : List T :=
  (List.range spectrum.length).map fun k =>
    signal.zipIdx.foldl (fun sum (x, i) =>
      let angle := TestTrig.div (TestTrig.ofNat 2 * TestTrig.ofNat (i * k) * TestTrig.pi) (TestTrig.ofNat signal.length)
      let twiddle := TestTrig.cos angle + TestTrig.sin angle
      sum + twiddle * x) 0

/-- The chunks of `l.chunks(n)` for `n > 0`, with a shorter one at the end if `n` does not divide the length. -/
def chunksAux (n : Nat) (l : List T) : List (List T) :=
  if n = 0 ∨ l.length = 0 then [] else l.take n :: chunksAux n (l.drop n)
termination_by l.length
decreasing_by simp; omega

/-- `l.chunks(n)` and `l.chunks_mut(n)`: panics when `n == 0`. -/
def chunks (n : Nat) (l : List T) : Res (List (List T)) :=
  if n = 0 then panic .chunkSizeZero else .ok (chunksAux n l)

/-- The body of the loop of `test_matches_dht`, src/scalar/dht_naive.rs:87-162, with `n = 4`.  The dirty value is `100.0`. -/
def testMatchesDhtLen [TestTrig T] (len : Nat) (input : List T) : Res Unit := do
  let dhtInstance := dhtNaive T len
  assert (dhtInstance.len == len) .assertFailed
  -- Compute the control data
  let inputChunks ← chunks len input
  let outputChunks ← chunks len input
  let expectedOutput := ((inputChunks.zip outputChunks).map fun (i, o) => referenceDht i o).flatten
  -- test process()
  let inplaceBuffer ← dhtInstance.process input
  let same ← compareRealVectors expectedOutput inplaceBuffer
  assert same .assertFailed
  -- test process_with_scratch()
  let (buffer, scratch) ← dhtInstance.processWithScratch input (List.replicate dhtInstance.inplaceScratchLen 0)
  let same ← compareRealVectors expectedOutput buffer
  assert same .assertFailed
  let scratch := List.replicate scratch.length TestNum.dirty
  let buffer ← copyFromSlice buffer input
  let (buffer, _) ← dhtInstance.processWithScratch buffer scratch
  let same ← compareRealVectors expectedOutput buffer
  assert same .assertFailed
  -- test process_outofplace_with_scratch
  let (_, output, _) ← dhtInstance.processOop input expectedOutput []
  let same ← compareRealVectors expectedOutput output
  assert same .assertFailed

/-- The end of `test_matches_dht`, src/scalar/dht_naive.rs:164-178: length 0. -/
def testZeroLength (T : Type) [Add T] [Mul T] [Zero T] [FftNum T] : Res Unit := do
  let zeroDht := dhtNaive T 0
  let zeroInput ← zeroDht.process []
  let (zeroInput, zeroScratch) ← zeroDht.processWithScratch zeroInput []
  let _ ← zeroDht.processOop zeroInput [] zeroScratch

/-- src/scalar/dht_naive.rs:82-179 `test_matches_dht` -/
def testMatchesDht [TestTrig T] (signal : Nat → List T) : Res Unit := do
  forRange 1 20 () fun len _ => testMatchesDhtLen len (signal (len * 4))
  testZeroLength T

/-- The loops of src/scalar/radix5.rs:235-241 and 262-268: `twiddled_buffer` and `twiddled_output`. -/
def reversalTwiddles (len : Nat) (input : List T) : Res (List T) :=
  forRange 0 len (List.replicate len 0) fun i buffer => do
    let iRev := (len - i) % len
    let twiddle := computeDftTwiddleForward T i len
    let a ← getI input i
    let b ← getI input iRev
    setI buffer i (twiddle.im * a + twiddle.re * b)

/-- The loop of src/scalar/radix5.rs:271-278: `twiddled_output2`. -/
def reversalTwiddles2 (len : Nat) (input : List T) : Res (List T) :=
  forRange 0 (len / 2 + 1) (List.replicate len 0) fun i buffer => do
    let iRev := (len - i) % len
    let twiddle := computeDftTwiddleForward T i len
    let a ← getI input i
    let b ← getI input iRev
    let buffer ← setI buffer i (twiddle.im * a + twiddle.re * b)
    setI buffer iRev (-twiddle.im * b + twiddle.re * a)

/-- The body of the loop of `test_reversal_property`, src/scalar/radix5.rs:228-288. -/
def testReversalLen (len : Nat) (input : List T) : Res Unit := do
  let dht := dhtNaive T len
  -- Test twiddles before DHT
  let twiddledBuffer ← reversalTwiddles len input
  let twiddledBuffer ← dht.process twiddledBuffer
  let reversedBuffer ← dht.process input
  let reversedBuffer := reversedBuffer.reverse
  let same ← compareRealVectors twiddledBuffer reversedBuffer
  assert same .assertFailed
  -- Test twiddles after DHT
  let twiddledInput ← dht.process input
  let twiddledOutput ← reversalTwiddles len twiddledInput
  let twiddledOutput2 ← reversalTwiddles2 len twiddledInput
  let reversedBuffer := input.reverse
  let reversedBuffer ← dht.process reversedBuffer
  let same ← compareRealVectors twiddledOutput reversedBuffer
  assert same .assertFailed
  let same ← compareRealVectors twiddledOutput2 reversedBuffer
  assert same .assertFailed

/-- src/scalar/radix5.rs:225-290 `test_reversal_property` -/
def testReversal (signal : Nat → List T) : Res Unit :=
  forRange 1 20 () fun len _ => testReversalLen len (signal len)

/-- `buffer[1..].reverse()`: panics when the buffer is empty. -/
def reverseTail (buffer : List T) : Res (List T) := do
  let (head, tail) ← splitAt buffer 1
  .ok (head ++ tail.reverse)

/-- The body of the loop of `test_double_reversal_property`, src/scalar/radix5.rs:293-306. -/
def testDoubleReversalLen (len : Nat) (input : List T) : Res Unit := do
  let dht := dhtNaive T len
  let controlBuffer ← dht.process input
  let testBuffer ← reverseTail input
  let testBuffer ← dht.process testBuffer
  let testBuffer ← reverseTail testBuffer
  let same ← compareRealVectors controlBuffer testBuffer
  assert same .assertFailed

/-- src/scalar/radix5.rs:291-307 `test_double_reversal_property` -/
def testDoubleReversal (signal : Nat → List T) : Res Unit :=
  forRange 2 10 () fun len _ => testDoubleReversalLen len (signal len)

/-- The body of the loops of `test_mixed_radix_inner_scratch`, src/scalar/mixed_radix.rs:326-343. -/
def testInnerScratchPair (widthDht heightDht : Dht T) : Res Unit := do
  let dht := mixedRadix widthDht heightDht
  let _ ← dht.processWithScratch (List.replicate dht.len 0) (List.replicate dht.inplaceScratchLen 0)
  let _ ← dht.processOop (List.replicate dht.len 0) (List.replicate dht.len 0) (List.replicate dht.oopScratchLen 0)

/-- src/scalar/mixed_radix.rs:306-345 `test_mixed_radix_inner_scratch` -/
def testInnerScratch (T : Type) [Add T] [Sub T] [Mul T] [Neg T] [Zero T] [FftNum T] : Res Unit := do
  let scratchLengths := [1, 5, 25]
  let innerDhts ← forList scratchLengths [] fun len innerDhts =>
    forList scratchLengths innerDhts fun inplaceScratch innerDhts =>
      forList scratchLengths innerDhts fun outofplaceScratch innerDhts =>
        .ok (innerDhts ++ [bigScratchAlgorithm T len inplaceScratch outofplaceScratch])
  forList innerDhts () fun widthDht _ => forList innerDhts () fun heightDht _ => testInnerScratchPair widthDht heightDht

/-- The example in the documentation of `DhtNaive`, src/scalar/dht_naive.rs:12-20 (there with `T = f32`); returns `buffer`. -/
def docNaive (T : Type) [Add T] [Mul T] [Zero T] [FftNum T] : Res (List T) :=
  (dhtNaive T 123).process (List.replicate 123 0)

/-- The example in the documentation of `MixedRadix`, src/scalar/mixed_radix.rs:13-28 (there with `T = f32`); returns
`buffer`. -/
def docMixedRadix (T : Type) [Add T] [Sub T] [Mul T] [Neg T] [Zero T] [FftNum T] : Res (List T) :=
  let innerFftN1 := dhtNaive T 10
  let innerFftN2 := dhtNaive T 12
  (mixedRadix innerFftN1 innerFftN2).process (List.replicate 120 0)

end RustDHT
