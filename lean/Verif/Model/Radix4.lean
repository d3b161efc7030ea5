import Verif.Model.MixedRadixN

/-! # src/scalar/radix4.rs:184-441: `Radix4` -/

namespace RustDHT

variable {T : Type} [Add T] [Sub T] [Mul T] [Neg T] [FftNum T]

/-- src/scalar/radix4.rs:291-326 `prepare_radix4` (`rev = false`) and 328-362 `prepare_radix4_reversed`
(`rev = true`).  The two functions call each other; they are one definition with a flag.  The children are, in
order, plain, plain, plain, reversed for `prepare_radix4` and plain, reversed, reversed, reversed for
`prepare_radix4_reversed`.  When `size` reaches 0 without meeting `base_len` the recursion never ends. -/
def prepareRadix4 (rev : Bool) (size baseLen : Nat) (input output : List T) (stride : Nat) : Res (List T) :=
  if size = baseLen then
    forRange 0 size output fun i output => do
      let v ← getU input ((if rev then size - i - 1 else i) * stride)
      setU output i v
  else if _h : size = 0 then .error .diverge
  else
    let child (i : Nat) (childRev : Bool) (output : List T) : Res (List T) :=
      -- `&input[i * stride..]` and `&mut output[i * (size / 4)..]`
      if i * stride ≤ input.length then
        if i * (size / 4) ≤ output.length then do
          let tail ← prepareRadix4 childRev (size / 4) baseLen (input.drop (i * stride))
            (output.drop (i * (size / 4))) (stride * 4)
          .ok (output.take (i * (size / 4)) ++ tail)
        else panic .index
      else panic .index
    do
      let output ← child 0 false output
      let output ← child 1 rev output
      let output ← child 2 rev output
      child 3 true output
termination_by size
decreasing_by omega

/-- The twiddle table of `Radix4::new`, src/scalar/radix4.rs:224-233.  The loop variable is `twiddle_stride`. -/
def radix4Twiddles (T : Type) [FftNum T] (len twiddleStride : Nat) : List (Cx T) :=
  if _h : twiddleStride > 0 then
    let numRows := len / (twiddleStride * 4)
    ((List.range' 1 (numRows - 1)).flatMap fun i =>
      (List.range' 1 2).map fun k => computeDftTwiddleInverse T (i * k * twiddleStride) len)
      ++ radix4Twiddles T len (twiddleStride / 4)
  else []
termination_by twiddleStride
decreasing_by omega

/-- src/scalar/radix4.rs:364-441 `butterfly_4`.  Its text after the split into rows is that of
`MixedRadix4xn::apply_twiddles`. -/
def radix4Butterfly4 (data : List T) (twiddles : List (Cx T)) (numFfts : Nat) : Res (List T) :=
  applyColumns 4 numFfts (performInPlace contiguous4) mr4Kernel (chunksExactAux 2 twiddles) data

/-- The cross-FFT loop, src/scalar/radix4.rs:265-286. -/
def radix4Layers (len currentSize : Nat) (layerTwiddles : List (Cx T)) (output : List T) : Res (List T) :=
  if _h : currentSize ≤ len then
    if _h0 : currentSize = 0 then .error .diverge else do
      let numRows := len / currentSize
      let output ← forRange 0 numRows output fun i output => do
        let (front, data) ← splitAt output (i * currentSize)
        let data ← radix4Butterfly4 data layerTwiddles (currentSize / 4)
        .ok (front ++ data)
      if currentSize * 2 / 4 < 2 then panic .overflow
      let twiddleOffset := currentSize * 2 / 4 - 2
      let (_, layerTwiddles) ← splitAt layerTwiddles twiddleOffset
      radix4Layers len (currentSize * 4) layerTwiddles output
  else .ok output
termination_by len + 1 - currentSize
decreasing_by omega

/-- src/scalar/radix4.rs:252-287 `perform_dht_out_of_place` -/
def radix4PerformOop (baseDht : Dht T) (baseLen len : Nat) (twiddles : List (Cx T))
    (input output scratch : List T) : Res (List T × List T × List T) := do
  let output ← prepareRadix4 false len baseLen input output 1
  let (output, _) ← baseDht.processWithScratch output []
  let output ← radix4Layers len (baseLen * 4) twiddles output
  .ok (input, output, scratch)

/-- src/scalar/radix4.rs:247-250 `perform_dht_inplace` -/
def radix4PerformInplace (baseDht : Dht T) (baseLen len : Nat) (twiddles : List (Cx T))
    (buffer scratch : List T) : Res (List T × List T) := do
  -- scratch.copy_from_slice(buffer)
  let scratch ← (if scratch.length = buffer.length then Except.ok buffer else panic .copyLength)
  let (scratch, buffer, _) ← radix4PerformOop baseDht baseLen len twiddles scratch buffer []
  .ok (buffer, scratch)

/-- `usize::trailing_zeros` for a non-zero argument. -/
def trailingZeros (n : Nat) : Nat :=
  if h : n = 0 ∨ n % 2 = 1 then 0 else trailingZeros (n / 2) + 1
termination_by n
decreasing_by omega

/-- `usize::is_power_of_two` -/
def isPowerOfTwo (n : Nat) : Bool := n != 0 && n == 2 ^ trailingZeros n

/-- The base case choice of src/scalar/radix4.rs:204-216. -/
def radix4Base (T : Type) [Add T] [Sub T] [Mul T] [FftNum T] (len : Nat) : Nat × Dht T :=
  match trailingZeros len with
  | 0 => (len, butterfly1 T)
  | 1 => (len, butterfly2 T)
  | 2 => (len, butterfly4 T)
  | numBits => if numBits % 2 = 1 then (8, butterfly8 T) else (16, butterfly16 T)

/-- `Radix4::new(len)`, src/scalar/radix4.rs:196-245 and 289 -/
def radix4 (T : Type) [Add T] [Sub T] [Mul T] [Neg T] [FftNum T] (len : Nat) : Res (Dht T) := do
  assert (isPowerOfTwo len) .assertFailed
  let (baseLen, baseDht) := radix4Base T len
  let twiddles := radix4Twiddles T len (len / (baseLen * 4))
  .ok (boilerplateDht len len 0
    (radix4PerformInplace baseDht baseLen len twiddles)
    (radix4PerformOop baseDht baseLen len twiddles))

end RustDHT
