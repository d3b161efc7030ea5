import Verif.Model.Radix4
import Verif.Model.MixedRadix
import Verif.Model.SplitRadix
import Verif.Model.Naive

/-! # The crate with machine integers

In `Verif/Model` lengths and indices are unbounded natural numbers.  The definitions of this directory are the same functions
with the integer arithmetic of a 64-bit or 32-bit target: every `+`, `-` and `*` on `usize`, `u64` or `i64` is a call that can
overflow.  A debug build panics then and a release build wraps around.  Functions of the crate without such operations (the
butterflies and kernels, the chunk iterators, the boilerplate macros) are those of `Verif/Model`.  An expression that the source
repeats with the same operands is computed once. -/

namespace RustDHT.Machine

/-- How the crate was compiled. -/
structure Mode where
  /-- with overflow checks, as in a debug build, or with wrapping arithmetic, as in a release build -/
  checked : Bool
  /-- for a target with a `usize` of 32 bits; otherwise `usize` has 64 bits -/
  short : Bool

/-- A debug build for a 64-bit target. -/
def Mode.debug : Mode := ⟨true, false⟩

/-- A release build for a 64-bit target. -/
def Mode.release : Mode := ⟨false, false⟩

/-- `usize::BITS` -/
def Mode.bits (m : Mode) : Nat := if m.short then 32 else 64

/-- The operations on `u64`, which are those on `usize` of a 64-bit target. -/
def Mode.u64 (m : Mode) : Mode := ⟨m.checked, false⟩

/-- The result of an operation on unsigned integers whose exact result is not representable. -/
def Mode.overflow (m : Mode) (wrapped : Nat) : Res Nat :=
  if m.checked then panic .overflow else .ok wrapped

/-- `a + b` on `usize` -/
def Mode.add (m : Mode) (a b : Nat) : Res Nat :=
  if a + b < 2 ^ m.bits then .ok (a + b) else m.overflow ((a + b) % 2 ^ m.bits)

/-- `a - b` on `usize` -/
def Mode.sub (m : Mode) (a b : Nat) : Res Nat :=
  if b ≤ a then .ok (a - b) else m.overflow ((a + 2 ^ m.bits - b) % 2 ^ m.bits)

/-- `a * b` on `usize` -/
def Mode.mul (m : Mode) (a b : Nat) : Res Nat :=
  if a * b < 2 ^ m.bits then .ok (a * b) else m.overflow (a * b % 2 ^ m.bits)

/-- `a * b + c` -/
def Mode.mulAdd (m : Mode) (a b c : Nat) : Res Nat := do
  let p ← m.mul a b
  m.add p c

/-- The length from which on a `Vec<Complex<f32>>` would occupy more than `isize::MAX` bytes. -/
def Mode.cap (m : Mode) : Nat := 2 ^ (m.bits - 4)

variable {T : Type}

/-- `Vec::with_capacity(n)` for a table of `Complex<T>`, and the growth of such a table to `n` elements.  `Vec` panics when the elements
would occupy more than `isize::MAX` bytes.  The growth is spelled out where the requested capacity can wrap around.  Elements of
8 bytes (`T = f32`) are the smallest ones; larger ones panic even earlier. -/
def allocate (m : Mode) (n : Nat) : Res Unit := assert (decide (n < m.cap)) .capacityOverflow

/-! ## src/array_utils.rs -/

/-- src/array_utils.rs:146-159 `transpose_half_rev_out` -/
def transposeHalfRevOut (m : Mode) (input output : List T) (width height : Nat) : Res (List T) := do
  assert (input.length == output.length) .assertFailed
  let size ← m.mul width height
  assert (input.length == size) .assertFailed
  let reversalRowBegin ← m.add (width / 2) 1
  forRange 0 height output fun outRow output => do
    let d ← m.sub height outRow
    let outRowRev ← m.sub d 1
    let output ← forRange 0 reversalRowBegin output fun outColumn output => do
      let i ← m.mulAdd outRow width outColumn
      let v ← getU input i
      let o ← m.mulAdd outColumn height outRow
      setU output o v
    forRange reversalRowBegin width output fun outColumn output => do
      let i ← m.mulAdd outRow width outColumn
      let v ← getU input i
      let o ← m.mulAdd outColumn height outRowRev
      setU output o v

/-- The external function `transpose::transpose` (see `RustDHT.transpose`).  Its assertions multiply machine integers, and it reads the
`width * height` elements without bounds checks. -/
def transpose (m : Mode) (input output : List T) (width height : Nat) : Res (List T) := do
  let size ← m.mul width height
  assert (size == input.length) .assertFailed
  assert (size == output.length) .assertFailed
  (List.range (width * height)).mapM fun i => getU input ((i % height) * width + i / height)

/-! ## src/scalar/dht_naive.rs -/

section Naive

variable [Add T] [Mul T] [Zero T] [FftNum T]

/-- src/scalar/dht_naive.rs:43-54 -/
def naiveInner (m : Mode) (twiddles input : List T) (k : Nat) : Res T := do
  let (outputValue, _) ← forList input ((0 : T), 0) fun inputCell (outputValue, twiddleIndex) => do
    let twiddle ← getI twiddles twiddleIndex
    let outputValue := outputValue + twiddle * inputCell
    let twiddleIndex ← m.add twiddleIndex k
    let twiddleIndex ← (if twiddleIndex ≥ twiddles.length then m.sub twiddleIndex twiddles.length else .ok twiddleIndex)
    .ok (outputValue, twiddleIndex)
  .ok outputValue

/-- src/scalar/dht_naive.rs:36-58 `perform_dht_out_of_place` -/
def naivePerform (m : Mode) (twiddles input output : List T) : Res (List T) :=
  forRange 0 output.length output fun k output => do
    let outputValue ← naiveInner m twiddles input k
    setI output k outputValue

/-- `DhtNaive::new(len)`, src/scalar/dht_naive.rs:27-34 and 60 -/
def dhtNaive (m : Mode) (T : Type) [Add T] [Mul T] [Zero T] [FftNum T] (len : Nat) : Dht T :=
  let twiddles := naiveTwiddles T len
  boilerplateDhtOop twiddles.length (naivePerform m twiddles)

end Naive

/-! ## src/scalar/radix2.rs, radix3.rs, radix4.rs:1-182, radix5.rs, radix6.rs -/

section MixedRadixN

variable [Add T] [Sub T] [Mul T] [Neg T] [FftNum T]

/-- The common shape of `apply_twiddles` of the five types and of `butterfly_4` (citations at `RustDHT.applyColumns`). -/
def applyColumns (m : Mode) (k h : Nat) (col0 : List T → Res (List T))
    (kernel : List (Cx T) → List T → List T → Res (List T × List T))
    (twChunks : List (List (Cx T))) (buf : List T) : Res (List T) := do
  if h = 0 then panic .chunkSizeZero
  if buf.length / h < k then panic .unwrapNone
  let c ← getCol k h buf 0
  let c ← col0 c
  let buf ← setCol h 0 0 c buf
  let columnLimit ← m.add (h / 2) 1
  forList ((List.range' 1 (columnLimit - 1)).zip twChunks) buf fun (column, tw) buf => do
    let fwd ← getCol k h buf column
    let columnRev ← m.sub h column
    let rev ← getCol k h buf columnRev
    let (outFwd, outRev) ← kernel tw fwd rev
    let buf ← setCol h column 0 outFwd buf
    setCol h columnRev 0 outRev buf

/-- `perform_dht_inplace` of the five types (citations at `RustDHT.mrnPerformInplace`). -/
def mrnPerformInplace (m : Mode) (k : Nat) (heightDht : Dht T) (height : Nat) (applyTwiddles : List T → Res (List T))
    (buffer scratch : List T) : Res (List T × List T) := do
  let scratch ← transposeHalfRevOut m buffer scratch k height
  let (scratch, buffer, _) ← heightDht.processOop scratch buffer []
  let buffer ← applyTwiddles buffer
  .ok (buffer, scratch)

/-- `perform_dht_out_of_place` of the five types (citations at `RustDHT.mrnPerformOop`). -/
def mrnPerformOop (m : Mode) (k : Nat) (heightDht : Dht T) (height : Nat) (applyTwiddles : List T → Res (List T))
    (input output scratch : List T) : Res (List T × List T × List T) := do
  let output ← transposeHalfRevOut m input output k height
  let (output, input) ← heightDht.processWithScratch output input
  let output ← applyTwiddles output
  .ok (input, output, scratch)

/-- The constructor shared by the five types, given the `apply_twiddles` of the type, the length and the table length of the
allocation.  `inplace_scratch_len` is radix2.rs:56-63, radix3.rs:62-69, radix4.rs:57-64, radix5.rs:63-70, radix6.rs:64-71. -/
def mixedRadixN (m : Mode) (k len : Nat) (heightDht : Dht T) (applyTwiddles : List T → Res (List T)) : Res (Dht T) := do
  let height := heightDht.len
  let inplaceScratchLen ← m.add len (if heightDht.inplaceScratchLen > len then heightDht.inplaceScratchLen else 0)
  .ok (boilerplateDht len inplaceScratchLen (mrnOopScratch len heightDht)
    (mrnPerformInplace m k heightDht height applyTwiddles)
    (mrnPerformOop m k heightDht height applyTwiddles))

/-- `compute_dft_twiddle_inverse(column * r * 8 + len, len * 8) * root2` (radix3.rs:36, radix5.rs:36-37 and, with the first two
factors exchanged, radix6.rs:36-38). -/
def eighthTwiddle (m : Mode) (T : Type) [Mul T] [FftNum T] (column r len : Nat) : Res (Cx T) := do
  let p ← m.mul column r
  let index ← m.mulAdd p 8 len
  let fftLen ← m.mul len 8
  .ok ((computeDftTwiddleInverse T index fftLen).scale FftNum.sqrtHalfF32)

/-- `MixedRadix2xn::new(height_dht)`, src/scalar/radix2.rs:22-74 -/
def mixedRadix2xn (m : Mode) (heightDht : Dht T) : Res (Dht T) := do
  let height := heightDht.len
  let len ← m.mul 2 height
  let twiddleLimit ← m.add (height / 2) 1
  let capacity ← m.sub twiddleLimit 1
  allocate m capacity
  let twiddles := (List.range' 1 (twiddleLimit - 1)).map fun column => computeDftTwiddleInverse T column len
  mixedRadixN m 2 len heightDht
    (applyColumns m 2 height (performInPlace contiguous2) mr2Kernel (twiddles.map fun t => [t]))

/-- `MixedRadix3xn::new(height_dht)`, src/scalar/radix3.rs:25-80 -/
def mixedRadix3xn (m : Mode) (heightDht : Dht T) : Res (Dht T) := do
  let height := heightDht.len
  let len ← m.mul 3 height
  let twiddleLimit ← m.add (height / 2) 1
  let d ← m.sub twiddleLimit 1
  let capacity ← m.mul d 2
  allocate m capacity
  let twiddles ← (List.range' 1 (twiddleLimit - 1)).mapM fun column => eighthTwiddle m T column 1 len
  mixedRadixN m 3 len heightDht
    (applyColumns m 3 height (performInPlace contiguous3) mr3Kernel (twiddles.map fun t => [t]))

/-- `MixedRadix4xn::new(height_dht)`, src/scalar/radix4.rs:22-75 -/
def mixedRadix4xn (m : Mode) (heightDht : Dht T) : Res (Dht T) := do
  let height := heightDht.len
  let len ← m.mul 4 height
  let twiddleLimit ← m.add (height / 2) 1
  let capacity ← m.mul twiddleLimit 2
  allocate m capacity
  let twiddles ← (List.range' 1 (twiddleLimit - 1)).mapM fun column => do
    let i1 ← m.mul 1 column
    let i2 ← m.mul 2 column
    Except.ok [computeDftTwiddleInverse T i1 len, computeDftTwiddleInverse T i2 len]
  allocate m twiddles.flatten.length
  mixedRadixN m 4 len heightDht
    (applyColumns m 4 height (performInPlace contiguous4) mr4Kernel (chunksExactAux 2 twiddles.flatten))

/-- `MixedRadix5xn::new(height_dht)`, src/scalar/radix5.rs:25-81 -/
def mixedRadix5xn (m : Mode) (heightDht : Dht T) : Res (Dht T) := do
  let height := heightDht.len
  let len ← m.mul 5 height
  let twiddleLimit ← m.add (height / 2) 1
  let d ← m.sub twiddleLimit 1
  let capacity ← m.mul d 2
  allocate m capacity
  let twiddles ← (List.range' 1 (twiddleLimit - 1)).mapM fun column => do
    let t1 ← eighthTwiddle m T column 1 len
    let t2 ← eighthTwiddle m T column 2 len
    Except.ok [t1, t2]
  mixedRadixN m 5 len heightDht
    (applyColumns m 5 height (performInPlace contiguous5) mr5Kernel (chunksExactAux 2 twiddles.flatten))

/-- `MixedRadix6xn::new(height_dht)`, src/scalar/radix6.rs:25-82 -/
def mixedRadix6xn (m : Mode) (heightDht : Dht T) : Res (Dht T) := do
  let height := heightDht.len
  let len ← m.mul 6 height
  let columnLimit ← m.add (height / 2) 1
  let d ← m.sub columnLimit 1
  let capacity ← m.mul 3 d
  allocate m capacity
  let twiddles ← (List.range' 1 (columnLimit - 1)).mapM fun column => do
    let t1 ← eighthTwiddle m T 1 column len
    let t2 ← eighthTwiddle m T 2 column len
    let t3 ← eighthTwiddle m T 3 column len
    Except.ok [t1, t2, t3]
  allocate m twiddles.flatten.length
  mixedRadixN m 6 len heightDht
    (applyColumns m 6 height (performInPlace contiguous6) mr6Kernel (chunksExactAux 3 twiddles.flatten))

end MixedRadixN

/-! ## src/scalar/mixed_radix.rs -/

section MixedRadix

variable [Add T] [Sub T] [Mul T] [FftNum T]

/-- src/scalar/mixed_radix.rs:142-159 -/
def mrCell (m : Mode) (width height row column : Nat) (twiddle : Cx T) (buffer : List T) : Res (List T) := do
  let rowRev ← m.sub width row
  let columnRev ← m.sub height column
  let topFwd ← m.mulAdd height row column
  let inputTopFwd ← getI buffer topFwd
  let topRev ← m.mulAdd height row columnRev
  let inputTopRev ← getI buffer topRev
  let botFwd ← m.mulAdd height rowRev column
  let inputBotFwd ← getI buffer botFwd
  let botRev ← m.mulAdd height rowRev columnRev
  let inputBotRev ← getI buffer botRev
  let outTopFwd := inputTopFwd + inputBotRev
  let outTopRev := inputBotFwd + inputTopRev
  let outBotFwd := inputBotFwd - inputTopRev
  let outBotRev := inputTopFwd - inputBotRev
  let buffer ← setI buffer topFwd (twiddle.re * outTopFwd - twiddle.im * outBotFwd)
  let buffer ← setI buffer topRev (twiddle.re * outTopRev - twiddle.im * outBotRev)
  let buffer ← setI buffer botFwd (twiddle.re * outBotFwd + twiddle.im * outTopFwd)
  setI buffer botRev (twiddle.re * outBotRev + twiddle.im * outTopRev)

/-- src/scalar/mixed_radix.rs:165-176 -/
def mrMidCell (m : Mode) (height row column : Nat) (twiddle : Cx T) (buffer : List T) : Res (List T) := do
  let columnRev ← m.sub height column
  let topFwd ← m.mulAdd height row column
  let inputTopFwd ← getI buffer topFwd
  let topRev ← m.mulAdd height row columnRev
  let inputTopRev ← getI buffer topRev
  let outTopFwd := inputTopFwd - inputTopRev
  let outBotFwd := inputTopFwd + inputTopRev
  let buffer ← setI buffer topFwd (twiddle.re * outTopFwd + twiddle.im * outBotFwd)
  setI buffer topRev (twiddle.re * outBotFwd - twiddle.im * outTopFwd)

/-- src/scalar/mixed_radix.rs:116-178 `apply_twiddles` -/
def mrApplyTwiddles (m : Mode) (width height : Nat) (twiddles : List (Cx T)) (buffer : List T) : Res (List T) := do
  let w1 ← m.add width 1
  let rowLimit := w1 / 2
  let columnLimit ← m.add (height / 2) 1
  let twiddleStride ← m.sub columnLimit 1
  if width < 2 ∨ height < 2 then .ok buffer else do
    let chunks ← chunksExact twiddleStride twiddles
    let rows := (List.range' 1 (rowLimit - 1)).zip chunks
    let buffer ← forList rows buffer fun (row, twiddleChunk) buffer =>
      forList ((List.range' 1 (columnLimit - 1)).zip twiddleChunk) buffer fun (column, twiddle) buffer =>
        mrCell m width height row column twiddle buffer
    if width % 2 = 0 then
      let row := width / 2
      match (chunks.drop rows.length).head? with
      | none => panic .unwrapNone
      | some mainTwiddleChunk =>
        forList ((List.range' 1 (columnLimit - 1)).zip mainTwiddleChunk) buffer fun (column, twiddle) buffer =>
          mrMidCell m height row column twiddle buffer
    else .ok buffer

/-- `reversal_row_begin * self.height`, src/scalar/mixed_radix.rs:194-195 and 242-243 -/
def mrFirstReversal (m : Mode) (width height : Nat) : Res Nat := do
  let begin ← (if width % 2 = 0 then m.add (width / 2) 1 else do
    let w1 ← m.add width 1
    Except.ok (w1 / 2))
  m.mul begin height

/-- `reversal_row_begin * self.width`, src/scalar/mixed_radix.rs:214-215 and 267-268 -/
def mrSecondReversal (m : Mode) (width height : Nat) : Res Nat := do
  let h1 ← m.add height 1
  m.mul (h1 / 2) width

/-- src/scalar/mixed_radix.rs:180-222 `perform_dht_inplace` -/
def mrPerformInplace (m : Mode) (widthDht heightDht : Dht T) (width height len : Nat) (twiddles : List (Cx T))
    (buffer scratch : List T) : Res (List T × List T) := do
  let (scratch, innerScratch) ← splitAt scratch len
  let scratch ← transpose m buffer scratch width height
  let start ← mrFirstReversal m width height
  let scratch ← reverseChunksFrom start height scratch
  let (scratch, buffer, innerScratch) ←
    if innerScratch.length > buffer.length then do
      let (scratch, innerScratch) ← heightDht.processWithScratch scratch innerScratch
      Except.ok (scratch, buffer, innerScratch)
    else do
      let (scratch, buffer) ← heightDht.processWithScratch scratch buffer
      Except.ok (scratch, buffer, innerScratch)
  let scratch ← mrApplyTwiddles m width height twiddles scratch
  let buffer ← transpose m scratch buffer height width
  let (buffer, scratch, innerScratch) ← widthDht.processOop buffer scratch innerScratch
  let start ← mrSecondReversal m width height
  let scratch ← reverseChunksFrom start width scratch
  let buffer ← transpose m scratch buffer width height
  .ok (buffer, scratch ++ innerScratch)

/-- src/scalar/mixed_radix.rs:224-275 `perform_dht_out_of_place` -/
def mrPerformOop (m : Mode) (widthDht heightDht : Dht T) (width height : Nat) (twiddles : List (Cx T))
    (input output scratch : List T) : Res (List T × List T × List T) := do
  let output ← transpose m input output width height
  let start ← mrFirstReversal m width height
  let output ← reverseChunksFrom start height output
  let (input, output, scratch) ←
    if scratch.length > input.length then do
      let (output, scratch) ← heightDht.processWithScratch output scratch
      Except.ok (input, output, scratch)
    else do
      let (output, input) ← heightDht.processWithScratch output input
      Except.ok (input, output, scratch)
  let output ← mrApplyTwiddles m width height twiddles output
  let input ← transpose m output input height width
  let (input, output, scratch) ←
    if scratch.length > output.length then do
      let (input, scratch) ← widthDht.processWithScratch input scratch
      Except.ok (input, output, scratch)
    else do
      let (input, output) ← widthDht.processWithScratch input output
      Except.ok (input, output, scratch)
  let start ← mrSecondReversal m width height
  let input ← reverseChunksFrom start width input
  let output ← transpose m input output width height
  .ok (input, output, scratch)

/-- `MixedRadix::new(width_dht, height_dht)`, src/scalar/mixed_radix.rs:45-113 -/
def mixedRadix (m : Mode) (widthDht heightDht : Dht T) : Res (Dht T) := do
  let width := widthDht.len
  let height := heightDht.len
  let len ← m.mul width height
  let rowLimit ← m.add (width / 2) 1
  let columnLimit ← m.add (height / 2) 1
  let capacity ← m.mul rowLimit columnLimit
  allocate m capacity
  let twiddles ← (List.range' 1 (rowLimit - 1)).mapM fun row =>
    (List.range' 1 (columnLimit - 1)).mapM fun column => eighthTwiddle m T row column len
  allocate m twiddles.flatten.length
  let inplaceScratchLen ← m.add len
    (max (if heightDht.inplaceScratchLen > len then heightDht.inplaceScratchLen else 0) widthDht.oopScratchLen)
  .ok (boilerplateDht len inplaceScratchLen (mrOopScratch len widthDht heightDht)
    (mrPerformInplace m widthDht heightDht width height len twiddles.flatten)
    (mrPerformOop m widthDht heightDht width height twiddles.flatten))

end MixedRadix

/-! ## src/scalar/radix4.rs:184-441 -/

section Radix4

variable [Add T] [Sub T] [Mul T] [Neg T] [FftNum T]

/-- src/scalar/radix4.rs:291-362 `prepare_radix4` and `prepare_radix4_reversed` -/
def prepareRadix4 (m : Mode) (rev : Bool) (size baseLen : Nat) (input output : List T) (stride : Nat) : Res (List T) :=
  if size = baseLen then
    forRange 0 size output fun i output => do
      let j ← (if rev then do
          let d ← m.sub size i
          m.sub d 1
        else Except.ok i)
      let j ← m.mul j stride
      let v ← getU input j
      setU output i v
  else if _h : size = 0 then .error .diverge
  else
    let child (i : Nat) (childRev : Bool) (output : List T) : Res (List T) := do
      let start ← m.mul i stride
      let outStart ← m.mul i (size / 4)
      let stride' ← m.mul stride 4
      if start ≤ input.length then
        if outStart ≤ output.length then do
          let tail ← prepareRadix4 m childRev (size / 4) baseLen (input.drop start) (output.drop outStart) stride'
          .ok (output.take outStart ++ tail)
        else panic .index
      else panic .index
    do
      let output ← child 0 false output
      let output ← child 1 rev output
      let output ← child 2 rev output
      child 3 true output
termination_by size
decreasing_by omega

/-- src/scalar/radix4.rs:224-233 -/
def radix4Twiddles (m : Mode) (T : Type) [FftNum T] (len twiddleStride : Nat) : Res (List (Cx T)) :=
  if _h : twiddleStride > 0 then do
    let s4 ← m.mul twiddleStride 4
    if s4 = 0 then panic .divByZero
    let numRows := len / s4
    let rows ← (List.range' 1 (numRows - 1)).mapM fun i =>
      (List.range' 1 2).mapM fun k => do
        let p ← m.mul i k
        let index ← m.mul p twiddleStride
        Except.ok (computeDftTwiddleInverse T index len)
    let rest ← radix4Twiddles m T len (twiddleStride / 4)
    .ok (rows.flatten ++ rest)
  else .ok []
termination_by twiddleStride
decreasing_by omega

/-- src/scalar/radix4.rs:364-441 `butterfly_4` -/
def radix4Butterfly4 (m : Mode) (data : List T) (twiddles : List (Cx T)) (numFfts : Nat) : Res (List T) :=
  applyColumns m 4 numFfts (performInPlace contiguous4) mr4Kernel (chunksExactAux 2 twiddles) data

/-- src/scalar/radix4.rs:265-286.  In a release build `current_size *= 4` can wrap to a smaller number; then the loop is taken to run
for ever, the worst that can happen. -/
def radix4Layers (m : Mode) (len currentSize : Nat) (layerTwiddles : List (Cx T)) (output : List T) : Res (List T) :=
  if _h : currentSize ≤ len then
    if _h0 : currentSize = 0 then panic .divByZero else do
      let numRows := len / currentSize
      let output ← forRange 0 numRows output fun i output => do
        let start ← m.mul i currentSize
        let (front, data) ← splitAt output start
        let data ← radix4Butterfly4 m data layerTwiddles (currentSize / 4)
        .ok (front ++ data)
      let c2 ← m.mul currentSize 2
      let twiddleOffset ← m.sub (c2 / 4) 2
      let (_, layerTwiddles) ← splitAt layerTwiddles twiddleOffset
      match m.mul currentSize 4 with
      | .error e => .error e
      | .ok next =>
        if _hn : currentSize < next then radix4Layers m len next layerTwiddles output else .error .diverge
  else .ok output
termination_by len + 1 - currentSize
decreasing_by omega

/-- src/scalar/radix4.rs:252-287 `perform_dht_out_of_place` -/
def radix4PerformOop (m : Mode) (baseDht : Dht T) (baseLen len : Nat) (twiddles : List (Cx T))
    (input output scratch : List T) : Res (List T × List T × List T) := do
  let output ← prepareRadix4 m false len baseLen input output 1
  let (output, _) ← baseDht.processWithScratch output []
  let currentSize ← m.mul baseLen 4
  let output ← radix4Layers m len currentSize twiddles output
  .ok (input, output, scratch)

/-- src/scalar/radix4.rs:247-250 `perform_dht_inplace` -/
def radix4PerformInplace (m : Mode) (baseDht : Dht T) (baseLen len : Nat) (twiddles : List (Cx T))
    (buffer scratch : List T) : Res (List T × List T) := do
  let scratch ← (if scratch.length = buffer.length then Except.ok buffer else panic .copyLength)
  let (scratch, buffer, _) ← radix4PerformOop m baseDht baseLen len twiddles scratch buffer []
  .ok (buffer, scratch)

/-- `Radix4::new(len)`, src/scalar/radix4.rs:196-245 -/
def radix4 (m : Mode) (T : Type) [Add T] [Sub T] [Mul T] [Neg T] [FftNum T] (len : Nat) : Res (Dht T) := do
  assert (isPowerOfTwo len) .assertFailed
  let (baseLen, baseDht) := radix4Base T len
  let b4 ← m.mul baseLen 4
  if b4 = 0 then panic .divByZero
  allocate m len
  let twiddles ← radix4Twiddles m T len (len / b4)
  .ok (boilerplateDht len len 0
    (radix4PerformInplace m baseDht baseLen len twiddles)
    (radix4PerformOop m baseDht baseLen len twiddles))

end Radix4

/-! ## src/scalar/split_radix.rs -/

section SplitRadix

variable [Add T] [Sub T] [Mul T] [FftNum T]

/-- src/scalar/split_radix.rs:73-112 -/
def srColumn (m : Mode) (quarterLen : Nat) (twiddles : List (Cx T)) (i : Nat) (b : SrBuf T) : Res (SrBuf T) := do
  let i2 ← m.mul 2 i
  let twiddle1 ← getU twiddles i2
  let i21 ← m.add i2 1
  let twiddle3 ← getU twiddles i21
  let fwd0 ← getU b.half0 i
  let fwd1 ← getU b.half1 i
  let fwd2 ← getU b.quarter1 i
  let fwd3 ← getU b.quarter3 i
  let r ← m.sub quarterLen i
  let rev0 ← getU b.half0 r
  let rev1 ← getU b.half1 r
  let rev2 ← getU b.quarter1 r
  let rev3 ← getU b.quarter3 r
  let diff0Fwd := fwd0 - fwd2
  let diff0Rev := rev0 - rev2
  let diff1Fwd := fwd1 - fwd3
  let diff1Rev := rev1 - rev3
  let diff0Sum := diff0Fwd + diff0Rev
  let diff0Dif := diff0Fwd - diff0Rev
  let diff1Sum := diff1Fwd + diff1Rev
  let diff1Dif := diff1Fwd - diff1Rev
  let half0 ← setU b.half0 i (fwd0 + fwd2)
  let half1 ← setU b.half1 i (fwd1 + fwd3)
  let half0 ← setU half0 r (rev0 + rev2)
  let half1 ← setU half1 r (rev1 + rev3)
  let quarter1 ← setU b.quarter1 i (diff0Sum * twiddle1.re - diff1Dif * twiddle1.im)
  let quarter3 ← setU b.quarter3 i (diff0Dif * twiddle3.re + diff1Sum * twiddle3.im)
  let quarter1 ← setU quarter1 r (diff0Sum * twiddle1.im + diff1Dif * twiddle1.re)
  let quarter3 ← setU quarter3 r (diff0Dif * twiddle3.im - diff1Sum * twiddle3.re)
  .ok { half0, half1, quarter1, quarter3 }

/-- src/scalar/split_radix.rs:48-113 `apply_twiddles` -/
def srApplyTwiddles (m : Mode) (len : Nat) (twiddles : List (Cx T)) (buffer : List T) : Res (List T) := do
  let halfLen := len / 2
  let quarterLen := len / 4
  let eigthLen := len / 8
  let (evens, odds) ← splitAt buffer halfLen
  let (half0, half1) ← splitAt evens quarterLen
  let (quarter1, quarter3) ← splitAt odds quarterLen
  let b ← srColumn0 { half0, half1, quarter1, quarter3 }
  let limit ← m.add eigthLen 1
  let b ← forRange 1 limit b (srColumn m quarterLen twiddles)
  .ok (b.half0 ++ b.half1 ++ (b.quarter1 ++ b.quarter3))

/-- src/scalar/split_radix.rs:115-134 `perform_dht_inplace` -/
def srPerformInplace (m : Mode) (quarterDht halfDht : Dht T) (len : Nat) (twiddles : List (Cx T))
    (buffer scratch : List T) : Res (List T × List T) := do
  let buffer ← srApplyTwiddles m len twiddles buffer
  let halfLen := len / 2
  let quarterLen := len / 4
  let (evens, odds) ← splitAt buffer halfLen
  let (evens, scratch) ← halfDht.processWithScratch evens scratch
  let (odds, scratch, _) ← quarterDht.processOop odds scratch []
  let buffer := evens ++ odds
  let (scratchQuarter1, scratchQuarter3) ← splitAt scratch quarterLen
  let buffer ← forList (List.range quarterLen).reverse buffer fun i buffer => do
    let i2 ← m.mul i 2
    let v ← getU buffer i2
    let o ← m.mulAdd 4 i 0
    let buffer ← setU buffer o v
    let i21 ← m.add i2 1
    let v ← getU buffer i21
    let o ← m.mulAdd 4 i 2
    let buffer ← setU buffer o v
    let v ← getU scratchQuarter1 i
    let o ← m.mulAdd 4 i 1
    let buffer ← setU buffer o v
    let v ← getU scratchQuarter3 i
    let o ← m.mulAdd 4 i 3
    setU buffer o v
  .ok (buffer, scratch)

/-- src/scalar/split_radix.rs:136-160 `perform_dht_out_of_place`.  The offsets into `output` are not computed by the source, which walks
through `output.chunks_exact_mut(4)`. -/
def srPerformOop (m : Mode) (quarterDht halfDht : Dht T) (len : Nat) (twiddles : List (Cx T))
    (input output scratch : List T) : Res (List T × List T × List T) := do
  let input ← srApplyTwiddles m len twiddles input
  let halfLen := len / 2
  let quarterLen := len / 4
  let (evens, odds) ← splitAt input halfLen
  let (evens, output) ← halfDht.processWithScratch evens output
  let (odds, output) ← quarterDht.processWithScratch odds output
  let (quarter1, quarter3) ← splitAt odds quarterLen
  let output ← forRange 0 (output.length / 4) output fun i output => do
    let i2 ← m.mul i 2
    let v ← getU evens i2
    let output ← setU output (4 * i + 0) v
    let v ← getU quarter1 i
    let output ← setU output (4 * i + 1) v
    let i21 ← m.add i2 1
    let v ← getU evens i21
    let output ← setU output (4 * i + 2) v
    let v ← getU quarter3 i
    setU output (4 * i + 3) v
  .ok (evens ++ odds, output, scratch)

/-- `SplitRadix::new(quarter_dht, half_dht)`, src/scalar/split_radix.rs:21-46 -/
def splitRadix (m : Mode) (quarterDht halfDht : Dht T) : Res (Dht T) := do
  let quarterLen := quarterDht.len
  let halfLen := halfDht.len
  let q2 ← m.mul quarterLen 2
  assert (halfLen == q2) .assertFailed
  let len ← m.mul quarterLen 4
  let twiddleLimit ← m.add (len / 8) 1
  let capacity ← m.mul twiddleLimit 2
  allocate m capacity
  let twiddles ← (List.range twiddleLimit).mapM fun x => do
    let i1 ← m.mul x 1
    let i3 ← m.mul x 3
    Except.ok [computeDftTwiddleInverse T i1 len, computeDftTwiddleInverse T i3 len]
  .ok (boilerplateDht len halfLen 0
    (srPerformInplace m quarterDht halfDht len twiddles.flatten)
    (srPerformOop m quarterDht halfDht len twiddles.flatten))

end SplitRadix

end RustDHT.Machine
