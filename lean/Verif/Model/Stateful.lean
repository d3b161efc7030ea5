import Verif.Model.Plan

/-! # Objects with memory

In `Verif.Model.Trait` an object is a record of functions, which is right for the crate itself: none of its types has interior
mutability.  But a caller of the public trait may pass an object with interior mutability: a cache, a counter, a lock, a source of
random numbers.  Such an object may answer the same call differently each time, even `len`, and may override the provided method
`process`.  Here the methods of an object read and change a state `σ`, which stands for the memory of all objects of the caller
(and, with a stream of future events in it, for what other threads do in between).  The combinators are those of the other files,
with the state passed through their calls in source order. -/

namespace RustDHT

variable {σ T : Type}

/-- An `Arc<dyn Dht<T>>` of the caller: src/lib.rs:9-87.  A method gets the state and returns the new one, at the end. -/
structure LiveDht (σ T : Type) where
  /-- `Length::len` -/
  len : σ → Res (Nat × σ)
  /-- `get_inplace_scratch_len` -/
  inplaceScratchLen : σ → Res (Nat × σ)
  /-- `get_outofplace_scratch_len` -/
  oopScratchLen : σ → Res (Nat × σ)
  /-- `process`, a provided method that can be overridden -/
  process : (buffer : List T) → σ → Res (List T × σ)
  /-- `process_with_scratch` -/
  processWithScratch : (buffer scratch : List T) → σ → Res (List T × List T × σ)
  /-- `process_outofplace_with_scratch` -/
  processOop : (input output scratch : List T) → σ → Res (List T × List T × List T × σ)

/-- An object without memory. -/
def Dht.live [Zero T] (d : Dht T) : LiveDht σ T where
  len := fun st => .ok (d.len, st)
  inplaceScratchLen := fun st => .ok (d.inplaceScratchLen, st)
  oopScratchLen := fun st => .ok (d.oopScratchLen, st)
  process := fun buffer st => do
    let buffer ← d.process buffer
    .ok (buffer, st)
  processWithScratch := fun buffer scratch st => do
    let (buffer, scratch) ← d.processWithScratch buffer scratch
    .ok (buffer, scratch, st)
  processOop := fun input output scratch st => do
    let (input, output, scratch) ← d.processOop input output scratch
    .ok (input, output, scratch, st)

/-- src/macros.rs:88-187 `boilerplate_dht!`, and src/lib.rs:31-34 for `process` -/
def liveBoilerplate [Zero T] (len inplaceScratchLen oopScratchLen : Nat)
    (performInplace : List T → List T → σ → Res (List T × List T × σ))
    (performOop : List T → List T → List T → σ → Res (List T × List T × List T × σ)) : LiveDht σ T :=
  let processWithScratch := fun (buffer scratch : List T) (st : σ) =>
    -- src/macros.rs:139-171
    if len = 0 then Except.ok (buffer, scratch, st) else
    let requiredScratch := inplaceScratchLen
    if scratch.length < requiredScratch ∨ buffer.length < len then do
      dhtErrorInplace len buffer.length inplaceScratchLen scratch.length
      .ok (buffer, scratch, st)
    else do
      let (ok, buffer', scratch', st) ← iterChunks len (fun chunk (scratch, st) => performInplace chunk scratch st) buffer
        (scratch.take requiredScratch, st)
      if !ok then
        dhtErrorInplace len buffer.length inplaceScratchLen requiredScratch
      .ok (buffer', scratch' ++ scratch.drop requiredScratch, st)
  { len := fun st => .ok (len, st)
    inplaceScratchLen := fun st => .ok (inplaceScratchLen, st)
    oopScratchLen := fun st => .ok (oopScratchLen, st)
    process := fun buffer st => do
      let scratch := List.replicate inplaceScratchLen 0
      let (buffer, _, st) ← processWithScratch buffer scratch st
      .ok (buffer, st)
    processWithScratch
    processOop := fun input output scratch st =>
      -- src/macros.rs:91-138
      if len = 0 then .ok (input, output, scratch, st) else
      let requiredScratch := oopScratchLen
      if scratch.length < requiredScratch ∨ input.length < len ∨ output.length ≠ input.length then do
        dhtErrorOutofplace len input.length output.length oopScratchLen scratch.length
        .ok (input, output, scratch, st)
      else do
        let (ok, input', output', scratch', st) ← iterChunksZipped len
          (fun inChunk outChunk (scratch, st) => performOop inChunk outChunk scratch st) input output
          (scratch.take requiredScratch, st)
        if !ok then
          dhtErrorOutofplace len input.length output.length oopScratchLen requiredScratch
        .ok (input', output', scratch' ++ scratch.drop requiredScratch, st) }

/-! ## src/scalar/mixed_radix.rs -/

section MixedRadix

variable [Add T] [Sub T] [Mul T] [FftNum T]

/-- src/scalar/mixed_radix.rs:180-222 `perform_dht_inplace` -/
def liveMrPerformInplace (widthDht heightDht : LiveDht σ T) (width height len : Nat) (twiddles : List (Cx T))
    (buffer scratch : List T) (st : σ) : Res (List T × List T × σ) := do
  let (scratch, innerScratch) ← splitAt scratch len
  -- STEP 1
  let scratch ← transpose buffer scratch width height
  -- STEP 2
  let scratch ← reverseChunksFrom (mrReversalRowBegin width * height) height scratch
  let (scratch, buffer, innerScratch, st) ←
    if innerScratch.length > buffer.length then do
      let (scratch, innerScratch, st) ← heightDht.processWithScratch scratch innerScratch st
      Except.ok (scratch, buffer, innerScratch, st)
    else do
      let (scratch, buffer, st) ← heightDht.processWithScratch scratch buffer st
      Except.ok (scratch, buffer, innerScratch, st)
  -- STEP 3
  let scratch ← mrApplyTwiddles width height twiddles scratch
  -- STEP 4
  let buffer ← transpose scratch buffer height width
  -- STEP 5
  let (buffer, scratch, innerScratch, st) ← widthDht.processOop buffer scratch innerScratch st
  let scratch ← reverseChunksFrom ((height + 1) / 2 * width) width scratch
  -- STEP 6
  let buffer ← transpose scratch buffer width height
  .ok (buffer, scratch ++ innerScratch, st)

/-- src/scalar/mixed_radix.rs:224-275 `perform_dht_out_of_place` -/
def liveMrPerformOop (widthDht heightDht : LiveDht σ T) (width height : Nat) (twiddles : List (Cx T))
    (input output scratch : List T) (st : σ) : Res (List T × List T × List T × σ) := do
  -- STEP 1
  let output ← transpose input output width height
  -- STEP 2
  let output ← reverseChunksFrom (mrReversalRowBegin width * height) height output
  let (input, output, scratch, st) ←
    if scratch.length > input.length then do
      let (output, scratch, st) ← heightDht.processWithScratch output scratch st
      Except.ok (input, output, scratch, st)
    else do
      let (output, input, st) ← heightDht.processWithScratch output input st
      Except.ok (input, output, scratch, st)
  -- STEP 3
  let output ← mrApplyTwiddles width height twiddles output
  -- STEP 4
  let input ← transpose output input height width
  -- STEP 5
  let (input, output, scratch, st) ←
    if scratch.length > output.length then do
      let (input, scratch, st) ← widthDht.processWithScratch input scratch st
      Except.ok (input, output, scratch, st)
    else do
      let (input, output, st) ← widthDht.processWithScratch input output st
      Except.ok (input, output, scratch, st)
  let input ← reverseChunksFrom ((height + 1) / 2 * width) width input
  -- STEP 6
  let output ← transpose input output width height
  .ok (input, output, scratch, st)

/-- `MixedRadix::new(width_dht, height_dht)`, src/scalar/mixed_radix.rs:45-113 and 277 -/
def liveMixedRadix [Zero T] (widthDht heightDht : LiveDht σ T) (st : σ) : Res (LiveDht σ T × σ) := do
  let (width, st) ← widthDht.len st
  let (height, st) ← heightDht.len st
  let len := width * height
  let twiddles := mrTwiddles T width height
  let (heightInplaceScratch, st) ← heightDht.inplaceScratchLen st
  let (widthInplaceScratch, st) ← widthDht.inplaceScratchLen st
  let (widthOutofplaceScratch, st) ← widthDht.oopScratchLen st
  let maxInnerInplaceScratch := max heightInplaceScratch widthInplaceScratch
  let outofplaceScratchLen := if maxInnerInplaceScratch > len then maxInnerInplaceScratch else 0
  let inplaceScratchLen := len + max (if heightInplaceScratch > len then heightInplaceScratch else 0) widthOutofplaceScratch
  .ok (liveBoilerplate len inplaceScratchLen outofplaceScratchLen
    (liveMrPerformInplace widthDht heightDht width height len twiddles)
    (liveMrPerformOop widthDht heightDht width height twiddles), st)

end MixedRadix

/-! ## src/scalar/radix2.rs, radix3.rs, radix4.rs:1-182, radix5.rs, radix6.rs -/

section MixedRadixN

variable [Add T] [Sub T] [Mul T] [Neg T] [FftNum T]

/-- `perform_dht_inplace` of the five types (citations at `mrnPerformInplace`) -/
def liveMrnPerformInplace (k : Nat) (heightDht : LiveDht σ T) (height : Nat) (applyTwiddles : List T → Res (List T))
    (buffer scratch : List T) (st : σ) : Res (List T × List T × σ) := do
  let scratch ← transposeHalfRevOut buffer scratch k height
  let (scratch, buffer, _, st) ← heightDht.processOop scratch buffer [] st
  let buffer ← applyTwiddles buffer
  .ok (buffer, scratch, st)

/-- `perform_dht_out_of_place` of the five types (citations at `mrnPerformOop`) -/
def liveMrnPerformOop (k : Nat) (heightDht : LiveDht σ T) (height : Nat) (applyTwiddles : List T → Res (List T))
    (input output scratch : List T) (st : σ) : Res (List T × List T × List T × σ) := do
  let output ← transposeHalfRevOut input output k height
  let (output, input, st) ← heightDht.processWithScratch output input st
  let output ← applyTwiddles output
  .ok (input, output, scratch, st)

/-- The constructor shared by the five types: radix2.rs:22-74, radix3.rs:25-80, radix4.rs:22-75, radix5.rs:25-81,
radix6.rs:25-82.  `applyTwiddles` depends on the height that the inner object reports. -/
def liveMixedRadixN [Zero T] (k : Nat) (applyTwiddles : Nat → List T → Res (List T)) (heightDht : LiveDht σ T) (st : σ) :
    Res (LiveDht σ T × σ) := do
  let (height, st) ← heightDht.len st
  let len := k * height
  let (heightInplaceScratch, st) ← heightDht.inplaceScratchLen st
  let outofplaceScratchLen := if heightInplaceScratch > len then heightInplaceScratch else 0
  let inplaceScratchLen := len + (if heightInplaceScratch > len then heightInplaceScratch else 0)
  .ok (liveBoilerplate len inplaceScratchLen outofplaceScratchLen
    (liveMrnPerformInplace k heightDht height (applyTwiddles height))
    (liveMrnPerformOop k heightDht height (applyTwiddles height)), st)

variable [Zero T]

/-- `MixedRadix2xn::new(height_dht)`, src/scalar/radix2.rs:22-74 -/
def liveMixedRadix2xn : LiveDht σ T → σ → Res (LiveDht σ T × σ) :=
  liveMixedRadixN 2 fun height =>
    applyColumns 2 height (performInPlace contiguous2) mr2Kernel ((mr2Twiddles T height).map fun t => [t])

/-- `MixedRadix3xn::new(height_dht)`, src/scalar/radix3.rs:25-80 -/
def liveMixedRadix3xn : LiveDht σ T → σ → Res (LiveDht σ T × σ) :=
  liveMixedRadixN 3 fun height =>
    applyColumns 3 height (performInPlace contiguous3) mr3Kernel ((mr3Twiddles T height).map fun t => [t])

/-- `MixedRadix4xn::new(height_dht)`, src/scalar/radix4.rs:22-75 -/
def liveMixedRadix4xn : LiveDht σ T → σ → Res (LiveDht σ T × σ) :=
  liveMixedRadixN 4 fun height =>
    applyColumns 4 height (performInPlace contiguous4) mr4Kernel (chunksExactAux 2 (mr4Twiddles T height))

/-- `MixedRadix5xn::new(height_dht)`, src/scalar/radix5.rs:25-81 -/
def liveMixedRadix5xn : LiveDht σ T → σ → Res (LiveDht σ T × σ) :=
  liveMixedRadixN 5 fun height =>
    applyColumns 5 height (performInPlace contiguous5) mr5Kernel (chunksExactAux 2 (mr5Twiddles T height))

/-- `MixedRadix6xn::new(height_dht)`, src/scalar/radix6.rs:25-82 -/
def liveMixedRadix6xn : LiveDht σ T → σ → Res (LiveDht σ T × σ) :=
  liveMixedRadixN 6 fun height =>
    applyColumns 6 height (performInPlace contiguous6) mr6Kernel (chunksExactAux 3 (mr6Twiddles T height))

end MixedRadixN

/-! ## src/scalar/split_radix.rs -/

section SplitRadix

variable [Add T] [Sub T] [Mul T] [FftNum T]

/-- src/scalar/split_radix.rs:115-134 `perform_dht_inplace` -/
def liveSrPerformInplace (quarterDht halfDht : LiveDht σ T) (len : Nat) (twiddles : List (Cx T))
    (buffer scratch : List T) (st : σ) : Res (List T × List T × σ) := do
  let buffer ← srApplyTwiddles len twiddles buffer
  let halfLen := len / 2
  let quarterLen := len / 4
  let (evens, odds) ← splitAt buffer halfLen
  let (evens, scratch, st) ← halfDht.processWithScratch evens scratch st
  let (odds, scratch, _, st) ← quarterDht.processOop odds scratch [] st
  let buffer := evens ++ odds
  let (scratchQuarter1, scratchQuarter3) ← splitAt scratch quarterLen
  let buffer ← forList (List.range quarterLen).reverse buffer fun i buffer => do
    let v ← getU buffer (i * 2)
    let buffer ← setU buffer (4 * i + 0) v
    let v ← getU buffer (i * 2 + 1)
    let buffer ← setU buffer (4 * i + 2) v
    let v ← getU scratchQuarter1 i
    let buffer ← setU buffer (4 * i + 1) v
    let v ← getU scratchQuarter3 i
    setU buffer (4 * i + 3) v
  .ok (buffer, scratch, st)

/-- src/scalar/split_radix.rs:136-160 `perform_dht_out_of_place` -/
def liveSrPerformOop (quarterDht halfDht : LiveDht σ T) (len : Nat) (twiddles : List (Cx T))
    (input output scratch : List T) (st : σ) : Res (List T × List T × List T × σ) := do
  let input ← srApplyTwiddles len twiddles input
  let halfLen := len / 2
  let quarterLen := len / 4
  let (evens, odds) ← splitAt input halfLen
  let (evens, output, st) ← halfDht.processWithScratch evens output st
  let (odds, output, st) ← quarterDht.processWithScratch odds output st
  let (quarter1, quarter3) ← splitAt odds quarterLen
  let output ← forRange 0 (output.length / 4) output fun i output => do
    let v ← getU evens (i * 2)
    let output ← setU output (4 * i + 0) v
    let v ← getU quarter1 i
    let output ← setU output (4 * i + 1) v
    let v ← getU evens (i * 2 + 1)
    let output ← setU output (4 * i + 2) v
    let v ← getU quarter3 i
    setU output (4 * i + 3) v
  .ok (evens ++ odds, output, scratch, st)

/-- `SplitRadix::new(quarter_dht, half_dht)`, src/scalar/split_radix.rs:21-46 -/
def liveSplitRadix [Zero T] (quarterDht halfDht : LiveDht σ T) (st : σ) : Res (LiveDht σ T × σ) := do
  let (quarterLen, st) ← quarterDht.len st
  let (halfLen, st) ← halfDht.len st
  assert (halfLen == quarterLen * 2) .assertFailed
  let len := quarterLen * 4
  let twiddles := srTwiddles T len
  .ok (liveBoilerplate len halfLen 0
    (liveSrPerformInplace quarterDht halfDht len twiddles)
    (liveSrPerformOop quarterDht halfDht len twiddles), st)

end SplitRadix

/-! ## src/scalar/raders_algorithm.rs -/

section Raders

variable [Add T] [Sub T] [Mul T] [Zero T] [FftNum T]

/-- src/scalar/raders_algorithm.rs:100-159 `perform_dht_inplace` -/
def liveRadersPerformInplace (innerDht : LiveDht σ T) (len root rootInv : Nat) (twiddles : List (Cx T))
    (buffer scratch : List T) (st : σ) : Res (List T × List T × σ) :=
  match buffer with
  | [] => panic .unwrapNone
  | bufferFirst :: buffer => do
    let bufferFirstVal := bufferFirst
    let (innerBuf, extra) ← splitAt scratch (len - 1)
    let innerBuf ← radersGather root len buffer innerBuf
    let useExtra := extra.length > 0
    let (innerBuf, innerScratch, st) ← innerDht.processWithScratch innerBuf (if useExtra then extra else buffer) st
    let (extra, buffer) := if useExtra then (innerScratch, buffer) else (extra, innerScratch)
    let b0 ← getI innerBuf 0
    let bufferFirst := bufferFirst + b0
    let innerBuf ← radersMulInplace twiddles innerBuf
    let b0 ← getI innerBuf 0
    let innerBuf ← setI innerBuf 0 (b0 + bufferFirstVal)
    let (innerBuf, innerScratch, st) ← innerDht.processWithScratch innerBuf (if useExtra then extra else buffer) st
    let (extra, buffer) := if useExtra then (innerScratch, buffer) else (extra, innerScratch)
    let buffer ← radersScatter rootInv len innerBuf buffer
    .ok (bufferFirst :: buffer, innerBuf ++ extra, st)

/-- src/scalar/raders_algorithm.rs:161-227 `perform_dht_out_of_place` -/
def liveRadersPerformOop (innerDht : LiveDht σ T) (len root rootInv : Nat) (twiddles : List (Cx T))
    (input output scratch : List T) (st : σ) : Res (List T × List T × List T × σ) :=
  match output, input with
  | [], _ => panic .unwrapNone
  | _, [] => panic .unwrapNone
  | _ :: output, inputFirst :: input => do
    let output ← radersGather root len input output
    let useScratch := scratch.length > 0
    let (output, innerScratch, st) ← innerDht.processWithScratch output (if useScratch then scratch else input) st
    let (scratch, input) := if useScratch then (innerScratch, input) else (scratch, innerScratch)
    let o0 ← getI output 0
    let outputFirst := inputFirst + o0
    let input ← radersMulOop twiddles output input
    let i0 ← getI input 0
    let input ← setI input 0 (i0 + inputFirst)
    let useScratch := scratch.length > 0
    let (input, innerScratch, st) ← innerDht.processWithScratch input (if useScratch then scratch else output) st
    let (scratch, output) := if useScratch then (innerScratch, output) else (scratch, innerScratch)
    let output ← radersScatter rootInv len input output
    .ok (inputFirst :: input, outputFirst :: output, scratch, st)

/-- `RadersAlgorithm::new(inner_dht)`, src/scalar/raders_algorithm.rs:29-98 -/
def liveRaders (innerDht : LiveDht σ T) (st : σ) : Res (LiveDht σ T × σ) := do
  let (innerLen, st) ← innerDht.len st
  let len := innerLen + 1
  assert (millerRabin len) .assertFailed
  let root ← primitiveRoot len
  match root with
  | none => panic .unwrapNone
  | some root => do
    let rootInv := rootInverse root len
    let kernel ← radersKernelInput T innerLen len rootInv
    let (kernel, st) ← innerDht.process kernel st
    let twiddles ← radersTwiddles kernel
    let (required, st) ← innerDht.inplaceScratchLen st
    let extra := if required ≤ innerLen then 0 else required
    .ok (liveBoilerplate len (innerLen + extra) extra
      (liveRadersPerformInplace innerDht len root rootInv twiddles)
      (liveRadersPerformOop innerDht len root rootInv twiddles), st)

end Raders

/-! ## Constructor expressions -/

/-- An expression of constructors around objects with memory. -/
inductive LiveTree (σ T : Type) where
  | plan (p : Plan)
  | user (d : LiveDht σ T)
  | mixedRadix (width height : LiveTree σ T)
  | mr2 (height : LiveTree σ T)
  | mr3 (height : LiveTree σ T)
  | mr4 (height : LiveTree σ T)
  | mr5 (height : LiveTree σ T)
  | mr6 (height : LiveTree σ T)
  | splitRadix (quarter half : LiveTree σ T)
  | raders (inner : LiveTree σ T)

/-- The objects of the caller that occur in the expression. -/
def LiveTree.users : LiveTree σ T → List (LiveDht σ T)
  | .plan _ => []
  | .user d => [d]
  | .mixedRadix w h => w.users ++ h.users
  | .mr2 h | .mr3 h | .mr4 h | .mr5 h | .mr6 h => h.users
  | .splitRadix q h => q.users ++ h.users
  | .raders i => i.users

/-- Evaluates the constructor expression. -/
def LiveTree.build [Add T] [Sub T] [Mul T] [Neg T] [Zero T] [FftNum T] : LiveTree σ T → σ → Res (LiveDht σ T × σ)
  | .plan p, st => do
    let d ← p.build T
    .ok (d.live, st)
  | .user d, st => .ok (d, st)
  | .mixedRadix w h, st => do
    let (w, st) ← w.build st
    let (h, st) ← h.build st
    liveMixedRadix w h st
  | .mr2 h, st => do let (h, st) ← h.build st; liveMixedRadix2xn h st
  | .mr3 h, st => do let (h, st) ← h.build st; liveMixedRadix3xn h st
  | .mr4 h, st => do let (h, st) ← h.build st; liveMixedRadix4xn h st
  | .mr5 h, st => do let (h, st) ← h.build st; liveMixedRadix5xn h st
  | .mr6 h, st => do let (h, st) ← h.build st; liveMixedRadix6xn h st
  | .splitRadix q h, st => do
    let (q, st) ← q.build st
    let (h, st) ← h.build st
    liveSplitRadix q h st
  | .raders inner, st => do
    let (inner, st) ← inner.build st
    liveRaders inner st

end RustDHT
