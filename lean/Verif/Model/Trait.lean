import Verif.Model.ArrayUtils

/-! # The trait `Dht` (src/lib.rs), the error functions and the boilerplate macros (src/macros.rs) -/

namespace RustDHT

/-- A value of type `Arc<dyn Dht<T>>`: src/lib.rs:21-87.  The methods take `&self` and there is no interior
mutability in the crate, so an object is a record of functions.  A mutable slice argument is returned with its new
contents, in argument order. -/
structure Dht (T : Type) where
  /-- `Length::len` -/
  len : Nat
  /-- `get_inplace_scratch_len` -/
  inplaceScratchLen : Nat
  /-- `get_outofplace_scratch_len` -/
  oopScratchLen : Nat
  /-- `process_with_scratch(buffer, scratch)`; returns `(buffer, scratch)` -/
  processWithScratch : (buffer scratch : List T) → Res (List T × List T)
  /-- `process_outofplace_with_scratch(input, output, scratch)`; returns `(input, output, scratch)` -/
  processOop : (input output scratch : List T) → Res (List T × List T × List T)

variable {T : Type}

/-- src/lib.rs:31-34 `Dht::process` -/
def Dht.process [Zero T] (d : Dht T) (buffer : List T) : Res (List T) := do
  let scratch := List.replicate d.inplaceScratchLen 0
  let (buffer, _) ← d.processWithScratch buffer scratch
  .ok buffer

/-- src/lib.rs:93-118 `dht_error_inplace`.  Returns normally when no assertion fails. -/
def dhtErrorInplace (expectedLen actualLen expectedScratch actualScratch : Nat) : Res Unit := do
  assert (actualLen ≥ expectedLen) .bufferTooSmall
  assert (expectedLen != 0) .divByZero
  assert (actualLen % expectedLen == 0) .notMultiple
  assert (actualScratch ≥ expectedScratch) .scratchTooSmall

/-- src/lib.rs:124-151 `dht_error_outofplace`.  Returns normally when no assertion fails. -/
def dhtErrorOutofplace (expectedLen actualInput actualOutput expectedScratch actualScratch : Nat) :
    Res Unit := do
  assert (actualInput == actualOutput) .lengthMismatch
  assert (actualInput ≥ expectedLen) .bufferTooSmall
  assert (expectedLen != 0) .divByZero
  assert (actualInput % expectedLen == 0) .notMultiple
  assert (actualScratch ≥ expectedScratch) .scratchTooSmall

/-- src/macros.rs:88-187 `boilerplate_dht!`: the trait implementation shared by all combinators and `Radix4`.
`performInplace chunk scratch` models `perform_dht_inplace`, `performOop input output scratch` models
`perform_dht_out_of_place`; both return their slices. -/
def boilerplateDht (len inplaceScratchLen oopScratchLen : Nat)
    (performInplace : List T → List T → Res (List T × List T))
    (performOop : List T → List T → List T → Res (List T × List T × List T)) : Dht T where
  len := len
  inplaceScratchLen := inplaceScratchLen
  oopScratchLen := oopScratchLen
  processOop := fun input output scratch =>
    -- src/macros.rs:91-138
    if len = 0 then .ok (input, output, scratch) else
    let requiredScratch := oopScratchLen
    if scratch.length < requiredScratch ∨ input.length < len ∨ output.length ≠ input.length then do
      dhtErrorOutofplace len input.length output.length oopScratchLen scratch.length
      .ok (input, output, scratch)
    else do
      let (ok, input', output', scratch') ←
        iterChunksZipped len performOop input output (scratch.take requiredScratch)
      if !ok then
        dhtErrorOutofplace len input.length output.length oopScratchLen requiredScratch
      .ok (input', output', scratch' ++ scratch.drop requiredScratch)
  processWithScratch := fun buffer scratch =>
    -- src/macros.rs:139-171
    if len = 0 then .ok (buffer, scratch) else
    let requiredScratch := inplaceScratchLen
    if scratch.length < requiredScratch ∨ buffer.length < len then do
      dhtErrorInplace len buffer.length inplaceScratchLen scratch.length
      .ok (buffer, scratch)
    else do
      let (ok, buffer', scratch') ← iterChunks len performInplace buffer (scratch.take requiredScratch)
      if !ok then
        dhtErrorInplace len buffer.length inplaceScratchLen requiredScratch
      .ok (buffer', scratch' ++ scratch.drop requiredScratch)

/-- src/macros.rs:1-85 `boilerplate_dht_oop!`: the trait implementation of `DhtNaive`.
`perform input output` models `perform_dht_out_of_place(&input, &mut output, &mut [])` and returns the output. -/
def boilerplateDhtOop (len : Nat) (perform : List T → List T → Res (List T)) : Dht T where
  len := len
  inplaceScratchLen := len
  oopScratchLen := 0
  processOop := fun input output scratch =>
    -- src/macros.rs:4-34
    if len = 0 then .ok (input, output, scratch) else
    if input.length < len ∨ output.length ≠ input.length then do
      dhtErrorOutofplace len input.length output.length 0 0
      .ok (input, output, scratch)
    else do
      let (ok, input', output', _) ← iterChunksZipped len
        (fun inChunk outChunk (_ : Unit) => do
          let outChunk ← perform inChunk outChunk
          .ok (inChunk, outChunk, ())) input output ()
      if !ok then
        dhtErrorOutofplace len input.length output.length 0 0
      .ok (input', output', scratch)
  processWithScratch := fun buffer scratch =>
    -- src/macros.rs:35-68
    if len = 0 then .ok (buffer, scratch) else
    let requiredScratch := len
    if scratch.length < requiredScratch ∨ buffer.length < len then do
      dhtErrorInplace len buffer.length len scratch.length
      .ok (buffer, scratch)
    else do
      let (ok, buffer', scratch') ← iterChunks len
        (fun chunk scratch => do
          let scratch ← perform chunk scratch
          -- chunk.copy_from_slice(scratch)
          if chunk.length = scratch.length then .ok (scratch, scratch) else panic .copyLength)
        buffer (scratch.take requiredScratch)
      if !ok then
        dhtErrorInplace len buffer.length len requiredScratch
      .ok (buffer', scratch' ++ scratch.drop requiredScratch)

/-- `perform_dht_butterfly` / `perform_dht_array`, src/scalar/butterflies.rs:15-22: both raw slices point to
the same buffer. -/
def performInPlace (contiguous : RawIO T → Res (RawIO T)) (buffer : List T) : Res (List T) := do
  let m ← contiguous { inp := [], out := buffer, aliased := true }
  .ok m.out

/-- src/scalar/butterflies.rs:11-90 `boilerplate_fft_butterfly!`.  `contiguous` models `perform_dht_contiguous`. -/
def boilerplateFftButterfly (len : Nat) (contiguous : RawIO T → Res (RawIO T)) : Dht T where
  len := len
  inplaceScratchLen := 0
  oopScratchLen := 0
  processOop := fun input output scratch =>
    -- src/scalar/butterflies.rs:25-56
    if input.length < len ∨ output.length ≠ input.length then do
      dhtErrorOutofplace len input.length output.length 0 0
      .ok (input, output, scratch)
    else do
      let (ok, input', output', _) ← iterChunksZipped len
        (fun inChunk outChunk (_ : Unit) => do
          let m ← contiguous { inp := inChunk, out := outChunk, aliased := false }
          .ok (m.inp, m.out, ())) input output ()
      if !ok then
        dhtErrorOutofplace len input.length output.length 0 0
      .ok (input', output', scratch)
  processWithScratch := fun buffer scratch =>
    -- src/scalar/butterflies.rs:57-73
    if buffer.length < len then do
      dhtErrorInplace len buffer.length 0 0
      .ok (buffer, scratch)
    else do
      let (ok, buffer', _) ← iterChunks len
        (fun chunk (_ : Unit) => do
          let chunk ← performInPlace contiguous chunk
          .ok (chunk, ())) buffer ()
      if !ok then
        dhtErrorInplace len buffer.length 0 0
      .ok (buffer', scratch)

end RustDHT
