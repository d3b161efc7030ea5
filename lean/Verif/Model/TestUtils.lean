import Verif.Model.Naive

/-! # src/test_utils.rs: the checker used by the unit tests, and the fake algorithm `BigScratchAlgorithm`

`random_real_signal` (16-24) is not modelled: the signal is an argument.  `_transpose_diagnostic_real` (35-48) is dead code. -/

namespace RustDHT

/-- What src/test_utils.rs uses of `num_traits::Float` and of the conversions, beyond the arithmetic of `T`. -/
class TestNum (T : Type) where
  /-- `Float::abs` -/
  abs : T → T
  /-- `T::one() * T::from_i32(100).unwrap()` (line 68) -/
  dirty : T
  /-- `error.to_f64().unwrap() / len as f64 < 0.1f64` (line 32) -/
  meanBelow : T → Nat → Bool

variable {T : Type} [Add T] [Sub T] [Mul T] [Zero T] [FftNum T] [TestNum T]

/-- src/test_utils.rs:26-33 `compare_real_vectors` -/
def compareRealVectors (vec1 vec2 : List T) : Res Bool := do
  assert (vec1.length == vec2.length) .assertFailed
  let error := (vec1.zip vec2).foldl (fun error (a, b) => error + TestNum.abs (a - b)) 0
  .ok (TestNum.meanBelow error vec1.length)

/-- `buffer.copy_from_slice(src)` -/
def copyFromSlice (buffer src : List T) : Res (List T) :=
  if buffer.length = src.length then .ok src else panic .copyLength

/-- src/test_utils.rs:51-139 `check_dht_algorithm`.  `signal` stands for `random_real_signal(len * n)` with `n = 1`.
The assertion messages are not modelled. -/
def checkDhtAlgorithm (signal : List T) (fft : Dht T) (len : Nat) : Res Unit := do
  assert (fft.len == len) .assertFailed
  let dht := dhtNaive T len
  -- set up buffers
  let referenceInput := signal
  let (expectedOutput, _) ← dht.processWithScratch referenceInput (List.replicate dht.inplaceScratchLen 0)
  -- test process()
  let buffer ← fft.process referenceInput
  let same ← compareRealVectors expectedOutput buffer
  assert same .assertFailed
  -- test process_with_scratch()
  let (buffer, scratch) ← fft.processWithScratch referenceInput (List.replicate fft.inplaceScratchLen 0)
  let same ← compareRealVectors expectedOutput buffer
  assert same .assertFailed
  if scratch.length > 0 then
    let scratch := List.replicate scratch.length TestNum.dirty
    let buffer ← copyFromSlice buffer referenceInput
    let (buffer, _) ← fft.processWithScratch buffer scratch
    let same ← compareRealVectors expectedOutput buffer
    assert same .assertFailed
  -- test process_outofplace_with_scratch()
  let (input, output, scratch) ←
    fft.processOop referenceInput expectedOutput (List.replicate fft.oopScratchLen 0)
  let same ← compareRealVectors expectedOutput output
  assert same .assertFailed
  if scratch.length > 0 then
    let scratch := List.replicate scratch.length TestNum.dirty
    let input ← copyFromSlice input referenceInput
    let (_, output, _) ← fft.processOop input output scratch
    let same ← compareRealVectors expectedOutput output
    assert same .assertFailed

/-- src/test_utils.rs:142-181 `BigScratchAlgorithm { len, inplace_scratch, outofplace_scratch }` -/
def bigScratchAlgorithm (T : Type) (len inplaceScratch outofplaceScratch : Nat) : Dht T where
  len := len
  inplaceScratchLen := inplaceScratch
  oopScratchLen := outofplaceScratch
  processWithScratch := fun buffer scratch => do
    assert (scratch.length ≥ inplaceScratch) .assertFailed
    .ok (buffer, scratch)
  processOop := fun input output scratch => do
    assert (scratch.length ≥ outofplaceScratch) .assertFailed
    .ok (input, output, scratch)

end RustDHT
