import Verif.Model.Core

/-! # src/array_utils.rs and the external crate `transpose` -/

namespace RustDHT

variable {T σ : Type}

/-- src/array_utils.rs:5-24 `iter_chunks`.  The `FnMut` closure is a function that gets the chunk and the state it
captures (`σ`, e.g. the scratch slice) and returns both.  The returned `Bool` is `result.is_ok()`.
The `while` loop spins for ever when `chunk_size == 0`. -/
def iterChunks (chunkSize : Nat) (f : List T → σ → Res (List T × σ)) (buffer : List T) (s : σ) :
    Res (Bool × List T × σ) :=
  if buffer.length ≥ chunkSize then
    if chunkSize = 0 then .error .diverge else do
      let (head, s) ← f (buffer.take chunkSize) s
      let (r, tail, s) ← iterChunks chunkSize f (buffer.drop chunkSize) s
      .ok (r, head ++ tail, s)
  else .ok (buffer.length == 0, buffer, s)
termination_by buffer.length
decreasing_by simp; omega

/-- The `while` loop of `iter_chunks_zipped`, src/array_utils.rs:46-54.  Returns the number of elements of
`buffer1` that were left over, and all the buffers. -/
def iterChunksZippedLoop (chunkSize : Nat)
    (f : List T → List T → σ → Res (List T × List T × σ)) (b1 b2 : List T) (s : σ) :
    Res (Nat × List T × List T × σ) :=
  if b1.length ≥ chunkSize ∧ b2.length ≥ chunkSize then
    if chunkSize = 0 then .error .diverge else do
      let (h1, h2, s) ← f (b1.take chunkSize) (b2.take chunkSize) s
      let (r, t1, t2, s) ← iterChunksZippedLoop chunkSize f (b1.drop chunkSize) (b2.drop chunkSize) s
      .ok (r, h1 ++ t1, h2 ++ t2, s)
  else .ok (b1.length, b1, b2, s)
termination_by b1.length
decreasing_by simp; omega

/-- src/array_utils.rs:28-62 `iter_chunks_zipped`.  The second branch of the length comparison repeats
the first condition with its operands exchanged (line 38), so it is dead code; it is modelled as written. -/
def iterChunksZipped (chunkSize : Nat)
    (f : List T → List T → σ → Res (List T × List T × σ)) (buffer1 buffer2 : List T) (s : σ) :
    Res (Bool × List T × List T × σ) :=
  if buffer1.length > buffer2.length then do
    let (_, b1, b2, s) ← iterChunksZippedLoop chunkSize f (buffer1.take buffer2.length) buffer2 s
    .ok (false, b1 ++ buffer1.drop buffer2.length, b2, s)
  else if buffer2.length < buffer1.length then do
    let (_, b1, b2, s) ← iterChunksZippedLoop chunkSize f buffer1 (buffer2.take buffer1.length) s
    .ok (false, b1, b2 ++ buffer2.drop buffer1.length, s)
  else do
    let (left, b1, b2, s) ← iterChunksZippedLoop chunkSize f buffer1 buffer2 s
    .ok (left == 0, b1, b2, s)

/-- The two raw slices a butterfly works on: src/array_utils.rs:64-141, `RawSlice` and `RawSliceMut`.
`aliased` says that both point to the same memory (`perform_dht_butterfly` and `perform_dht_array`,
src/scalar/butterflies.rs:15-22): then loads read what earlier stores wrote. -/
structure RawIO (T : Type) where
  inp : List T
  out : List T
  aliased : Bool

/-- src/array_utils.rs:98-101 `RawSlice::load`: no bounds check in a release build, so an
out-of-bounds index is undefined behaviour. -/
def RawIO.load (m : RawIO T) (i : Nat) : Res T :=
  getU (if m.aliased then m.out else m.inp) i

/-- src/array_utils.rs:137-140 `RawSliceMut::store`: as `load`. -/
def RawIO.store (m : RawIO T) (v : T) (i : Nat) : Res (RawIO T) := do
  let o ← setU m.out i v
  .ok { m with out := o }

/-- src/array_utils.rs:146-159 `transpose_half_rev_out`. -/
def transposeHalfRevOut (input output : List T) (width height : Nat) : Res (List T) := do
  assert (input.length == output.length) .assertFailed
  assert (input.length == width * height) .assertFailed
  let reversalRowBegin := width / 2 + 1
  forRange 0 height output fun outRow output => do
    let outRowRev := height - outRow - 1
    let output ← forRange 0 reversalRowBegin output fun outColumn output => do
      let v ← getU input (outRow * width + outColumn)
      setU output (outColumn * height + outRow) v
    forRange reversalRowBegin width output fun outColumn output => do
      let v ← getU input (outRow * width + outColumn)
      setU output (outColumn * height + outRowRev) v

/-- The external function `transpose::transpose(input, output, input_width, input_height)` of the crate
`transpose` 0.2.  Not part of the repository: modelled by its contract (both lengths are asserted; the output holds
the transposed matrix).  The old contents of `output` matter for the length assertion only. -/
def transpose (input output : List T) (width height : Nat) : Res (List T) := do
  assert (width * height == input.length) .assertFailed
  assert (width * height == output.length) .assertFailed
  (List.range (width * height)).mapM fun i => getI input ((i % height) * width + i / height)

/-- `for chunk in buf[start..].chunks_exact_mut(n) { chunk.reverse(); }`, as used at
src/scalar/mixed_radix.rs:195-198, 215-218, 243-246, 268-271. -/
def reverseChunksFrom (start n : Nat) (buf : List T) : Res (List T) := do
  let (front, second) ← splitAt buf start
  let chunks ← chunksExact n second
  .ok (front ++ (chunks.map List.reverse).flatten ++ second.drop (chunks.length * n))

end RustDHT
