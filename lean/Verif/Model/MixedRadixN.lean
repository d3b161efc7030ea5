import Verif.Model.Butterflies

/-! # src/scalar/radix2.rs, radix3.rs, radix4.rs:1-182, radix5.rs, radix6.rs: `MixedRadix2xn` .. `MixedRadix6xn`

The five files repeat the same text with different constants, kernels and numbers of rows.  The shared parts are
modelled once, with the number of rows `k` as a parameter. -/

namespace RustDHT

variable {T : Type} [Add T] [Sub T] [Mul T] [Neg T] [FftNum T]

/-- `split_buffer[r][c]` where `split_buffer` holds the first chunks of `chunks_exact_mut(height)`.
Simplification: the disjoint sub-slices are addressed by offsets into the whole buffer. -/
def rowGet (h : Nat) (buf : List T) (r c : Nat) : Res T :=
  if c < h then getI buf (r * h + c) else panic .index

/-- `split_buffer[r][c] = v` -/
def rowSet (h : Nat) (buf : List T) (r c : Nat) (v : T) : Res (List T) :=
  if c < h then setI buf (r * h + c) v else panic .index

/-- Reads column `c` of the first `k` rows. -/
def getCol (k h : Nat) (buf : List T) (c : Nat) : Res (List T) :=
  (List.range k).mapM fun r => rowGet h buf r c

/-- `split_buffer[r][c] = vals[0]; split_buffer[r+1][c] = vals[1]; ...` -/
def setCol (h c : Nat) (r : Nat) (vals : List T) (buf : List T) : Res (List T) :=
  match vals with
  | [] => .ok buf
  | v :: vs => do
    let buf ← rowSet h buf r c v
    setCol h c (r + 1) vs buf

/-- The common shape of `apply_twiddles` of the five types (radix2.rs:77-123, radix3.rs:83-147, radix4.rs:78-153,
radix5.rs:84-170, radix6.rs:85-185) and of `butterfly_4` (radix4.rs:364-441):
split into `k` rows of length `h`; transform column 0 with a butterfly; then for every column `1..h/2+1` and its
twiddle chunk read the columns `column` and `h - column`, run the kernel and store the two result columns, the
forward column first. -/
def applyColumns (k h : Nat) (col0 : List T → Res (List T))
    (kernel : List (Cx T) → List T → List T → Res (List T × List T))
    (twChunks : List (List (Cx T))) (buf : List T) : Res (List T) := do
  -- chunks_exact_mut(height), and `next().unwrap()` k times
  if h = 0 then panic .chunkSizeZero
  if buf.length / h < k then panic .unwrapNone
  let c ← getCol k h buf 0
  let c ← col0 c
  let buf ← setCol h 0 0 c buf
  forList ((List.range' 1 (h / 2)).zip twChunks) buf fun (column, tw) buf => do
    let fwd ← getCol k h buf column
    let rev ← getCol k h buf (h - column)
    let (outFwd, outRev) ← kernel tw fwd rev
    let buf ← setCol h column 0 outFwd buf
    setCol h (h - column) 0 outRev buf

/-- Steps shared by `perform_dht_inplace` of the five types (radix2.rs:125-134, radix3.rs:149-158, radix4.rs:155-164,
radix5.rs:172-181, radix6.rs:188-197). -/
def mrnPerformInplace (k : Nat) (heightDht : Dht T) (height : Nat) (applyTwiddles : List T → Res (List T))
    (buffer scratch : List T) : Res (List T × List T) := do
  let scratch ← transposeHalfRevOut buffer scratch k height
  let (scratch, buffer, _) ← heightDht.processOop scratch buffer []
  let buffer ← applyTwiddles buffer
  .ok (buffer, scratch)

/-- Steps shared by `perform_dht_out_of_place` of the five types (radix2.rs:136-150, radix3.rs:160-174, radix4.rs:166-180,
radix5.rs:183-197, radix6.rs:199-213). -/
def mrnPerformOop (k : Nat) (heightDht : Dht T) (height : Nat) (applyTwiddles : List T → Res (List T))
    (input output scratch : List T) : Res (List T × List T × List T) := do
  let output ← transposeHalfRevOut input output k height
  let (output, input) ← heightDht.processWithScratch output input
  let output ← applyTwiddles output
  .ok (input, output, scratch)

/-- `outofplace_scratch_len` (radix2.rs:45-50, radix3.rs:51-56, radix4.rs:46-51, radix5.rs:52-57, radix6.rs:53-58) -/
def mrnOopScratch (len : Nat) (heightDht : Dht T) : Nat :=
  if heightDht.inplaceScratchLen > len then heightDht.inplaceScratchLen else 0

/-- `inplace_scratch_len` (radix2.rs:56-63, radix3.rs:62-69, radix4.rs:57-64, radix5.rs:63-70, radix6.rs:64-71) -/
def mrnInplaceScratch (len : Nat) (heightDht : Dht T) : Nat :=
  len + (if heightDht.inplaceScratchLen > len then heightDht.inplaceScratchLen else 0)

/-- The constructor shared by the five types, given the `apply_twiddles` of the type. -/
def mixedRadixN (k : Nat) (heightDht : Dht T) (applyTwiddles : List T → Res (List T)) : Dht T :=
  let height := heightDht.len
  let len := k * height
  boilerplateDht len (mrnInplaceScratch len heightDht) (mrnOopScratch len heightDht)
    (mrnPerformInplace k heightDht height applyTwiddles)
    (mrnPerformOop k heightDht height applyTwiddles)

/-! ## MixedRadix2xn -/

/-- radix2.rs:28-33 -/
def mr2Twiddles (T : Type) [FftNum T] (height : Nat) : List (Cx T) :=
  let len := 2 * height
  let twiddleLimit := height / 2 + 1
  (List.range' 1 (twiddleLimit - 1)).map fun column => computeDftTwiddleInverse T column len

/-- radix2.rs:107-121: the loop body, on the values of the two columns. -/
def mr2Kernel (tw : List (Cx T)) (fwd rev : List T) : Res (List T × List T) := do
  let twiddle ← getI tw 0
  let fwd0 ← getI fwd 0
  let rev0 ← getI rev 0
  let inputTopFwd ← getI fwd 1
  let inputTopRev ← getI rev 1
  let fwd1 := twiddle.re * inputTopFwd + twiddle.im * inputTopRev
  let rev1 := twiddle.re * inputTopRev - twiddle.im * inputTopFwd
  let (fwd0, fwd1) := strided2 fwd0 fwd1
  let (rev0, rev1) := strided2 rev0 rev1
  .ok ([fwd0, fwd1], [rev1, rev0])

/-- `MixedRadix2xn::new(height_dht)`, src/scalar/radix2.rs:22-74 and 19 -/
def mixedRadix2xn (heightDht : Dht T) : Dht T :=
  let height := heightDht.len
  let twiddles := mr2Twiddles T height
  mixedRadixN 2 heightDht
    (applyColumns 2 height (performInPlace contiguous2) mr2Kernel (twiddles.map fun t => [t]))

/-! ## MixedRadix3xn -/

/-- radix3.rs:31-37 -/
def mr3Twiddles (T : Type) [Mul T] [FftNum T] (height : Nat) : List (Cx T) :=
  let len := 3 * height
  let twiddleLimit := height / 2 + 1
  (List.range' 1 (twiddleLimit - 1)).map fun column =>
    (computeDftTwiddleInverse T (column * 1 * 8 + len) (len * 8)).scale FftNum.sqrtHalfF32

/-- radix3.rs:114-145 -/
def mr3Kernel (tw : List (Cx T)) (fwd rev : List T) : Res (List T × List T) := do
  let twiddle ← getI tw 0
  let input1fwd ← getI fwd 1
  let input1rev ← getI rev 1
  let input2fwd ← getI fwd 2
  let input2rev ← getI rev 2
  let out1fwd := input1fwd + input2rev
  let out1rev := input2fwd + input1rev
  let out2fwd := input2fwd - input1rev
  let out2rev := input1fwd - input2rev
  let fwd0 ← getI fwd 0
  let rev0 ← getI rev 0
  let tmpFwd := [fwd0,
    twiddle.re * out1fwd - twiddle.im * out2fwd,
    twiddle.re * out2fwd + twiddle.im * out1fwd]
  let tmpRev := [rev0,
    twiddle.re * out1rev - twiddle.im * out2rev,
    twiddle.re * out2rev + twiddle.im * out1rev]
  let tmpFwd ← performInPlace contiguous3 tmpFwd
  let tmpRev ← performInPlace contiguous3 tmpRev
  .ok ([← getI tmpFwd 0, ← getI tmpFwd 1, ← getI tmpFwd 2],
       [← getI tmpRev 2, ← getI tmpRev 1, ← getI tmpRev 0])

/-- `MixedRadix3xn::new(height_dht)`, src/scalar/radix3.rs:25-80 and 176 -/
def mixedRadix3xn (heightDht : Dht T) : Dht T :=
  let height := heightDht.len
  let twiddles := mr3Twiddles T height
  mixedRadixN 3 heightDht
    (applyColumns 3 height (performInPlace contiguous3) mr3Kernel (twiddles.map fun t => [t]))

/-! ## MixedRadix4xn -/

/-- radix4.rs:28-34 -/
def mr4Twiddles (T : Type) [FftNum T] (height : Nat) : List (Cx T) :=
  let len := 4 * height
  let twiddleLimit := height / 2 + 1
  (List.range' 1 (twiddleLimit - 1)).flatMap fun column =>
    [computeDftTwiddleInverse T (1 * column) len, computeDftTwiddleInverse T (2 * column) len]

/-- radix4.rs:113-151, and the identical text of `butterfly_4`, radix4.rs:401-439. -/
def mr4Kernel (tw : List (Cx T)) (fwd rev : List T) : Res (List T × List T) := do
  let tw0 ← getI tw 0
  let tw1 ← getI tw 1
  let input0fwd ← getI fwd 0
  let input0rev ← getI rev 0
  let input1fwd ← getI fwd 1
  let input1rev ← getI rev 1
  let input2fwd ← getI fwd 2
  let input2rev ← getI rev 2
  let input3fwd ← getI fwd 3
  let input3rev ← getI rev 3
  let out1fwd := input1fwd + input3rev
  let out3fwd := input1rev - input3fwd
  let out1rev := input3fwd + input1rev
  let out3rev := input3rev - input1fwd
  let fwd0 := input0fwd
  let rev0 := input0rev
  let fwd2 := tw1.re * input2fwd + tw1.im * input2rev
  let rev2 := tw1.re * input2rev - tw1.im * input2fwd
  let fwd1 := tw0.re * out1fwd + tw0.im * out3fwd
  let rev1 := tw0.re * out1rev + tw0.im * out3rev
  let fwd3 := tw0.re * out3fwd - tw0.im * out1fwd
  let rev3 := tw0.re * out3rev - tw0.im * out1rev
  let (fwd0, fwd2) := strided2 fwd0 fwd2
  let (fwd0, fwd1) := strided2 fwd0 fwd1
  let (fwd2, fwd3) := strided2 fwd2 fwd3
  let (rev0, rev2) := strided2 rev0 rev2
  let (rev0, rev1) := strided2 rev0 rev1
  let (rev2, rev3) := strided2 rev2 rev3
  .ok ([fwd0, fwd2, fwd1, fwd3], [rev3, rev1, rev2, rev0])

/-- `MixedRadix4xn::new(height_dht)`, src/scalar/radix4.rs:22-75 and 182 -/
def mixedRadix4xn (heightDht : Dht T) : Dht T :=
  let height := heightDht.len
  let twiddles := mr4Twiddles T height
  mixedRadixN 4 heightDht
    (applyColumns 4 height (performInPlace contiguous4) mr4Kernel (chunksExactAux 2 twiddles))

/-! ## MixedRadix5xn -/

/-- radix5.rs:31-38 -/
def mr5Twiddles (T : Type) [Mul T] [FftNum T] (height : Nat) : List (Cx T) :=
  let len := 5 * height
  let twiddleLimit := height / 2 + 1
  (List.range' 1 (twiddleLimit - 1)).flatMap fun column =>
    [(computeDftTwiddleInverse T (column * 1 * 8 + len) (len * 8)).scale FftNum.sqrtHalfF32,
     (computeDftTwiddleInverse T (column * 2 * 8 + len) (len * 8)).scale FftNum.sqrtHalfF32]

/-- radix5.rs:121-168 -/
def mr5Kernel (tw : List (Cx T)) (fwd rev : List T) : Res (List T × List T) := do
  let tw0 ← getI tw 0
  let tw1 ← getI tw 1
  let input1fwd ← getI fwd 1
  let input1rev ← getI rev 1
  let input4fwd ← getI fwd 4
  let input4rev ← getI rev 4
  let input2fwd ← getI fwd 2
  let input2rev ← getI rev 2
  let input3fwd ← getI fwd 3
  let input3rev ← getI rev 3
  let out1fwd := input1fwd + input4rev
  let out1rev := input4fwd + input1rev
  let out4fwd := input4fwd - input1rev
  let out4rev := input1fwd - input4rev
  let out2fwd := input2fwd + input3rev
  let out2rev := input3fwd + input2rev
  let out3fwd := input3fwd - input2rev
  let out3rev := input2fwd - input3rev
  let fwd0 ← getI fwd 0
  let rev0 ← getI rev 0
  let tmpFwd := [fwd0,
    tw0.re * out1fwd - tw0.im * out4fwd,
    tw1.re * out2fwd - tw1.im * out3fwd,
    tw1.re * out3fwd + tw1.im * out2fwd,
    tw0.re * out4fwd + tw0.im * out1fwd]
  let tmpRev := [rev0,
    tw0.re * out1rev - tw0.im * out4rev,
    tw1.re * out2rev - tw1.im * out3rev,
    tw1.re * out3rev + tw1.im * out2rev,
    tw0.re * out4rev + tw0.im * out1rev]
  let tmpFwd ← performInPlace contiguous5 tmpFwd
  let tmpRev ← performInPlace contiguous5 tmpRev
  .ok ([← getI tmpFwd 0, ← getI tmpFwd 1, ← getI tmpFwd 2, ← getI tmpFwd 3, ← getI tmpFwd 4],
       [← getI tmpRev 4, ← getI tmpRev 3, ← getI tmpRev 2, ← getI tmpRev 1, ← getI tmpRev 0])

/-- `MixedRadix5xn::new(height_dht)`, src/scalar/radix5.rs:25-81 and 22 -/
def mixedRadix5xn (heightDht : Dht T) : Dht T :=
  let height := heightDht.len
  let twiddles := mr5Twiddles T height
  mixedRadixN 5 heightDht
    (applyColumns 5 height (performInPlace contiguous5) mr5Kernel (chunksExactAux 2 twiddles))

/-! ## MixedRadix6xn -/

/-- radix6.rs:31-39 -/
def mr6Twiddles (T : Type) [Mul T] [FftNum T] (height : Nat) : List (Cx T) :=
  let len := 6 * height
  let columnLimit := height / 2 + 1
  (List.range' 1 (columnLimit - 1)).flatMap fun column =>
    [(computeDftTwiddleInverse T (1 * column * 8 + len) (len * 8)).scale FftNum.sqrtHalfF32,
     (computeDftTwiddleInverse T (2 * column * 8 + len) (len * 8)).scale FftNum.sqrtHalfF32,
     (computeDftTwiddleInverse T (3 * column * 8 + len) (len * 8)).scale FftNum.sqrtHalfF32]

/-- radix6.rs:124-183 -/
def mr6Kernel (tw : List (Cx T)) (fwd rev : List T) : Res (List T × List T) := do
  let tw0 ← getI tw 0
  let tw1 ← getI tw 1
  let tw2 ← getI tw 2
  let input0_fwd ← getI fwd 0
  let input0_rev ← getI rev 0
  let input1_fwd ← getI fwd 1
  let input1_rev ← getI rev 1
  let input5_fwd ← getI fwd 5
  let input5_rev ← getI rev 5
  let input2_fwd ← getI fwd 2
  let input2_rev ← getI rev 2
  let input4_fwd ← getI fwd 4
  let input4_rev ← getI rev 4
  let input3_fwd ← getI fwd 3
  let input3_rev ← getI rev 3
  let out1_fwd := input1_fwd + input5_rev
  let out1_rev := input5_fwd + input1_rev
  let out5_fwd := input5_fwd - input1_rev
  let out5_rev := input1_fwd - input5_rev
  let out2_fwd := input2_fwd + input4_rev
  let out2_rev := input4_fwd + input2_rev
  let out4_fwd := input4_fwd - input2_rev
  let out4_rev := input2_fwd - input4_rev
  let out3_fwd := input3_fwd - input3_rev
  let out3_rev := input3_fwd + input3_rev
  let tmpFwd := [input0_fwd,
    tw0.re * out1_fwd - tw0.im * out5_fwd,
    tw1.re * out2_fwd - tw1.im * out4_fwd,
    tw2.re * out3_fwd + tw2.im * out3_rev,
    tw1.re * out4_fwd + tw1.im * out2_fwd,
    tw0.re * out5_fwd + tw0.im * out1_fwd]
  let tmpRev := [input0_rev,
    tw0.re * out1_rev - tw0.im * out5_rev,
    tw1.re * out2_rev - tw1.im * out4_rev,
    tw2.re * out3_rev - tw2.im * out3_fwd,
    tw1.re * out4_rev + tw1.im * out2_rev,
    tw0.re * out5_rev + tw0.im * out1_rev]
  let tmpFwd ← performInPlace contiguous6 tmpFwd
  let tmpRev ← performInPlace contiguous6 tmpRev
  .ok ([← getI tmpFwd 0, ← getI tmpFwd 1, ← getI tmpFwd 2, ← getI tmpFwd 3, ← getI tmpFwd 4, ← getI tmpFwd 5],
       [← getI tmpRev 5, ← getI tmpRev 4, ← getI tmpRev 3, ← getI tmpRev 2, ← getI tmpRev 1, ← getI tmpRev 0])

/-- `MixedRadix6xn::new(height_dht)`, src/scalar/radix6.rs:25-82 and 22 -/
def mixedRadix6xn (heightDht : Dht T) : Dht T :=
  let height := heightDht.len
  let twiddles := mr6Twiddles T height
  mixedRadixN 6 heightDht
    (applyColumns 6 height (performInPlace contiguous6) mr6Kernel (chunksExactAux 3 twiddles))

end RustDHT
