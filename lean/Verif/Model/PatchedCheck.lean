import Verif.Model.TestUtils

/-! # The patch for the checker of the unit tests

This is not code of the crate: `check_dht_algorithm` (src/test_utils.rs:51-139) with `output` set to zeros, instead of a copy of
`expected_output`, before each of the two calls of `process_outofplace_with_scratch` (lines 118 and 135). -/

namespace RustDHT

variable {T : Type} [Add T] [Sub T] [Mul T] [Neg T] [Zero T] [FftNum T] [TestNum T]

/-- src/test_utils.rs:51-139 `check_dht_algorithm`, patched at lines 118 and 135 -/
def checkDhtAlgorithmPatched (signal : List T) (fft : Dht T) (len : Nat) : Res Unit := do
  assert (fft.len == len) .assertFailed
  let dht := dhtNaive T len
  -- set up buffers
  let referenceInput := signal
  let (expectedOutput, _) ← dht.processWithScratch referenceInput (List.replicate dht.inplaceScratchLen 0)
  -- test process()
  let buffer ← fft.process referenceInput
  let same ← compareRealVectors expectedOutput buffer
  assert same .assertFailed
  -- test process_with_scratch()
  let (buffer, scratch) ← fft.processWithScratch referenceInput (List.replicate fft.inplaceScratchLen 0)
  let same ← compareRealVectors expectedOutput buffer
  assert same .assertFailed
  if scratch.length > 0 then
    let scratch := List.replicate scratch.length TestNum.dirty
    let buffer ← copyFromSlice buffer referenceInput
    let (buffer, _) ← fft.processWithScratch buffer scratch
    let same ← compareRealVectors expectedOutput buffer
    assert same .assertFailed
  -- test process_outofplace_with_scratch()
  let (input, output, scratch) ←
    fft.processOop referenceInput (List.replicate expectedOutput.length 0) (List.replicate fft.oopScratchLen 0)
  let same ← compareRealVectors expectedOutput output
  assert same .assertFailed
  if scratch.length > 0 then
    let scratch := List.replicate scratch.length TestNum.dirty
    let input ← copyFromSlice input referenceInput
    let (_, output, _) ← fft.processOop input (List.replicate output.length 0) scratch
    let same ← compareRealVectors expectedOutput output
    assert same .assertFailed

end RustDHT
