import Verif.Model.Trait
import Verif.Model.Twiddles

/-! # src/scalar/mixed_radix.rs -/

namespace RustDHT

variable {T : Type} [Add T] [Sub T] [Mul T] [FftNum T]

/-- The twiddle table of src/scalar/mixed_radix.rs:51-65. -/
def mrTwiddles (T : Type) [Mul T] [FftNum T] (width height : Nat) : List (Cx T) :=
  let len := width * height
  let rowLimit := width / 2 + 1
  let columnLimit := height / 2 + 1
  (List.range' 1 (rowLimit - 1)).flatMap fun row =>
    (List.range' 1 (columnLimit - 1)).map fun column =>
      (computeDftTwiddleInverse T (row * column * 8 + len) (len * 8)).scale FftNum.sqrtHalfF32

/-- One iteration of the inner loop, src/scalar/mixed_radix.rs:142-159. -/
def mrCell (width height row column : Nat) (twiddle : Cx T) (buffer : List T) : Res (List T) := do
  let rowRev := width - row
  let columnRev := height - column
  let inputTopFwd ← getI buffer (height * row + column)
  let inputTopRev ← getI buffer (height * row + columnRev)
  let inputBotFwd ← getI buffer (height * rowRev + column)
  let inputBotRev ← getI buffer (height * rowRev + columnRev)
  let outTopFwd := inputTopFwd + inputBotRev
  let outTopRev := inputBotFwd + inputTopRev
  let outBotFwd := inputBotFwd - inputTopRev
  let outBotRev := inputTopFwd - inputBotRev
  let buffer ← setI buffer (height * row + column) (twiddle.re * outTopFwd - twiddle.im * outBotFwd)
  let buffer ← setI buffer (height * row + columnRev) (twiddle.re * outTopRev - twiddle.im * outBotRev)
  let buffer ← setI buffer (height * rowRev + column) (twiddle.re * outBotFwd + twiddle.im * outTopFwd)
  setI buffer (height * rowRev + columnRev) (twiddle.re * outBotRev + twiddle.im * outTopRev)

/-- One iteration of the middle-row loop, src/scalar/mixed_radix.rs:165-176. -/
def mrMidCell (height row column : Nat) (twiddle : Cx T) (buffer : List T) : Res (List T) := do
  let columnRev := height - column
  let inputTopFwd ← getI buffer (height * row + column)
  let inputTopRev ← getI buffer (height * row + columnRev)
  let outTopFwd := inputTopFwd - inputTopRev
  let outBotFwd := inputTopFwd + inputTopRev
  let buffer ← setI buffer (height * row + column) (twiddle.re * outTopFwd + twiddle.im * outBotFwd)
  setI buffer (height * row + columnRev) (twiddle.re * outBotFwd - twiddle.im * outTopFwd)

/-- src/scalar/mixed_radix.rs:116-178 `apply_twiddles`.  `(1..row_limit).zip(twiddles_iter.by_ref())` asks the range first, so
after the loop the iterator has given one chunk per completed iteration and no more. -/
def mrApplyTwiddles (width height : Nat) (twiddles : List (Cx T)) (buffer : List T) : Res (List T) := do
  let rowLimit := (width + 1) / 2
  let columnLimit := height / 2 + 1
  let twiddleStride := columnLimit - 1
  if width < 2 ∨ height < 2 then .ok buffer else do
    let chunks ← chunksExact twiddleStride twiddles
    let rows := (List.range' 1 (rowLimit - 1)).zip chunks
    let buffer ← forList rows buffer fun (row, twiddleChunk) buffer =>
      forList ((List.range' 1 (columnLimit - 1)).zip twiddleChunk) buffer fun (column, twiddle) buffer =>
        mrCell width height row column twiddle buffer
    if width % 2 = 0 then
      let row := width / 2
      match (chunks.drop rows.length).head? with
      | none => panic .unwrapNone
      | some mainTwiddleChunk =>
        forList ((List.range' 1 (columnLimit - 1)).zip mainTwiddleChunk) buffer fun (column, twiddle) buffer =>
          mrMidCell height row column twiddle buffer
    else .ok buffer

/-- src/scalar/mixed_radix.rs:194 and 242 -/
def mrReversalRowBegin (width : Nat) : Nat :=
  if width % 2 = 0 then width / 2 + 1 else (width + 1) / 2

/-- src/scalar/mixed_radix.rs:180-222 `perform_dht_inplace` -/
def mrPerformInplace (widthDht heightDht : Dht T) (width height len : Nat) (twiddles : List (Cx T))
    (buffer scratch : List T) : Res (List T × List T) := do
  let (scratch, innerScratch) ← splitAt scratch len
  -- STEP 1
  let scratch ← transpose buffer scratch width height
  -- STEP 2: `height_scratch` borrows `inner_scratch` or `buffer`
  let scratch ← reverseChunksFrom (mrReversalRowBegin width * height) height scratch
  let (scratch, buffer, innerScratch) ←
    if innerScratch.length > buffer.length then do
      let (scratch, innerScratch) ← heightDht.processWithScratch scratch innerScratch
      Except.ok (scratch, buffer, innerScratch)
    else do
      let (scratch, buffer) ← heightDht.processWithScratch scratch buffer
      Except.ok (scratch, buffer, innerScratch)
  -- STEP 3
  let scratch ← mrApplyTwiddles width height twiddles scratch
  -- STEP 4
  let buffer ← transpose scratch buffer height width
  -- STEP 5
  let (buffer, scratch, innerScratch) ← widthDht.processOop buffer scratch innerScratch
  let scratch ← reverseChunksFrom ((height + 1) / 2 * width) width scratch
  -- STEP 6
  let buffer ← transpose scratch buffer width height
  .ok (buffer, scratch ++ innerScratch)

/-- src/scalar/mixed_radix.rs:224-275 `perform_dht_out_of_place` -/
def mrPerformOop (widthDht heightDht : Dht T) (width height : Nat) (twiddles : List (Cx T))
    (input output scratch : List T) : Res (List T × List T × List T) := do
  -- STEP 1
  let output ← transpose input output width height
  -- STEP 2
  let output ← reverseChunksFrom (mrReversalRowBegin width * height) height output
  let (input, output, scratch) ←
    if scratch.length > input.length then do
      let (output, scratch) ← heightDht.processWithScratch output scratch
      Except.ok (input, output, scratch)
    else do
      let (output, input) ← heightDht.processWithScratch output input
      Except.ok (input, output, scratch)
  -- STEP 3
  let output ← mrApplyTwiddles width height twiddles output
  -- STEP 4
  let input ← transpose output input height width
  -- STEP 5
  let (input, output, scratch) ←
    if scratch.length > output.length then do
      let (input, scratch) ← widthDht.processWithScratch input scratch
      Except.ok (input, output, scratch)
    else do
      let (input, output) ← widthDht.processWithScratch input output
      Except.ok (input, output, scratch)
  let input ← reverseChunksFrom ((height + 1) / 2 * width) width input
  -- STEP 6
  let output ← transpose input output width height
  .ok (input, output, scratch)

/-- src/scalar/mixed_radix.rs:79-84 -/
def mrOopScratch (len : Nat) (widthDht heightDht : Dht T) : Nat :=
  let maxInner := max heightDht.inplaceScratchLen widthDht.inplaceScratchLen
  if maxInner > len then maxInner else 0

/-- src/scalar/mixed_radix.rs:90-98 -/
def mrInplaceScratch (len : Nat) (widthDht heightDht : Dht T) : Nat :=
  len + max (if heightDht.inplaceScratchLen > len then heightDht.inplaceScratchLen else 0)
    widthDht.oopScratchLen

/-- `MixedRadix::new(width_dht, height_dht)`, src/scalar/mixed_radix.rs:45-113 and 277 -/
def mixedRadix (widthDht heightDht : Dht T) : Dht T :=
  let width := widthDht.len
  let height := heightDht.len
  let len := width * height
  let twiddles := mrTwiddles T width height
  boilerplateDht len (mrInplaceScratch len widthDht heightDht) (mrOopScratch len widthDht heightDht)
    (mrPerformInplace widthDht heightDht width height len twiddles)
    (mrPerformOop widthDht heightDht width height twiddles)

end RustDHT
