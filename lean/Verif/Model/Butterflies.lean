import Verif.Model.Trait
import Verif.Model.Twiddles

/-! # src/scalar/butterflies.rs -/

namespace RustDHT

variable {T : Type} [Add T] [Sub T] [Mul T] [Neg T] [FftNum T]

/-- `Butterfly1`, src/scalar/butterflies.rs:92-117.  Its hand-written trait implementation has no length checks
except the one inside `copy_from_slice`. -/
def butterfly1 (T : Type) : Dht T where
  len := 1
  inplaceScratchLen := 0
  oopScratchLen := 0
  processOop := fun input output scratch =>
    if output.length = input.length then .ok (input, input, scratch) else panic .copyLength
  processWithScratch := fun buffer scratch => .ok (buffer, scratch)

/-- `Butterfly2::perform_dht_strided(&mut left, &mut right)`, src/scalar/butterflies.rs:129-134; also
`perform_dht_butterfly` of `Butterfly2` on a local two-element array (lines 15-17 and 144-153), which performs the same
operations.  Returns the new `(left, right)`. -/
def strided2 (left right : T) : T × T :=
  let temp := left + right
  let right := left - right
  (temp, right)

/-- `Butterfly2::perform_dht_contiguous`, src/scalar/butterflies.rs:144-153 -/
def contiguous2 (m : RawIO T) : Res (RawIO T) := do
  let value0 ← m.load 0
  let value1 ← m.load 1
  let m ← m.store (value0 + value1) 0
  m.store (value0 - value1) 1

/-- `Butterfly2::new()` -/
def butterfly2 (T : Type) [Add T] [Sub T] : Dht T := boilerplateFftButterfly 2 contiguous2

/-- `Butterfly3::perform_dht_contiguous`, src/scalar/butterflies.rs:167-188, with the field `twiddle` of `new()`
(line 164). -/
def contiguous3 (m : RawIO T) : Res (RawIO T) := do
  let twiddle := computeDftTwiddleInverse T 1 3
  let input0 ← m.load 0
  let input1 ← m.load 1
  let input2 ← m.load 2
  let (input1, input2) := strided2 input1 input2
  let output0 := input0 + input1
  let input1 := input1 * twiddle.re + input0
  let input2 := input2 * twiddle.im
  let output1 := input1 + input2
  let output2 := input1 - input2
  let m ← m.store output0 0
  let m ← m.store output1 1
  m.store output2 2

/-- `Butterfly3::new()` -/
def butterfly3 (T : Type) [Add T] [Sub T] [Mul T] [FftNum T] : Dht T :=
  boilerplateFftButterfly 3 contiguous3

/-- `Butterfly4::perform_dht_contiguous`, src/scalar/butterflies.rs:202-228 -/
def contiguous4 (m : RawIO T) : Res (RawIO T) := do
  let a0 ← m.load 0
  let a1 ← m.load 2
  let b0 ← m.load 1
  let b1 ← m.load 3
  -- butterfly2 on tmp0 and on tmp1
  let (a0, a1) := strided2 a0 a1
  let (b0, b1) := strided2 b0 b1
  -- across tmp0 and tmp1
  let (a0, b0) := strided2 a0 b0
  let (a1, b1) := strided2 a1 b1
  let m ← m.store a0 0
  let m ← m.store a1 1
  let m ← m.store b0 2
  m.store b1 3

/-- `Butterfly4::new()` -/
def butterfly4 (T : Type) [Add T] [Sub T] : Dht T := boilerplateFftButterfly 4 contiguous4

/-- `Butterfly5::perform_dht_contiguous`, src/scalar/butterflies.rs:245-289, fields from lines 240-241 -/
def contiguous5 (m : RawIO T) : Res (RawIO T) := do
  let twiddle1 := computeDftTwiddleInverse T 1 5
  let twiddle2 := computeDftTwiddleInverse T 2 5
  let input0 ← m.load 0
  let input1 ← m.load 1
  let input2 ← m.load 2
  let input3 ← m.load 3
  let input4 ← m.load 4
  let a_0 := input1 + input4
  let a_1 := input1 - input4
  let a_2 := input2 + input3
  let a_3 := input2 - input3
  let a01 := a_0 * twiddle1.re
  let a02 := a_0 * twiddle2.re
  let a11 := a_1 * twiddle1.im
  let a12 := a_1 * twiddle2.im
  let a21 := a_2 * twiddle1.re
  let a22 := a_2 * twiddle2.re
  let a31 := a_3 * twiddle1.im
  let a32 := a_3 * twiddle2.im
  let a01a22 := a01 + a22
  let a02a21 := a02 + a21
  let a11a32 := a11 + a32
  let a12a31 := a12 - a31
  let out0 := input0 + a_0 + a_2
  let out1 := input0 + a01a22 + a11a32
  let out2 := input0 + a02a21 + a12a31
  let out3 := input0 + a02a21 - a12a31
  let out4 := input0 + a01a22 - a11a32
  let m ← m.store out0 0
  let m ← m.store out1 1
  let m ← m.store out2 2
  let m ← m.store out3 3
  m.store out4 4

/-- `Butterfly5::new()` -/
def butterfly5 (T : Type) [Add T] [Sub T] [Mul T] [FftNum T] : Dht T :=
  boilerplateFftButterfly 5 contiguous5

/-- `Butterfly6::perform_dht_contiguous`, src/scalar/butterflies.rs:304-340.  `perform_dht_array` of the inner
`Butterfly3` on a local array runs `contiguous3` on it in place. -/
def contiguous6 (m : RawIO T) : Res (RawIO T) := do
  let twiddle := computeDftTwiddleInverse T 1 3
  let a0 ← m.load 0
  let a1 ← m.load 2
  let a2 ← m.load 4
  let b0 ← m.load 1
  let b1 ← m.load 3
  let b2 ← m.load 5
  let chunk0 ← performInPlace contiguous3 [a0, a1, a2]
  let chunk1 ← performInPlace contiguous3 [b0, b1, b2]
  let a0 ← getI chunk0 0
  let a1 ← getI chunk0 1
  let a2 ← getI chunk0 2
  let b0 ← getI chunk1 0
  let inputTopFwd ← getI chunk1 1
  let inputTopRev ← getI chunk1 2
  let b1 := twiddle.im * inputTopRev - twiddle.re * inputTopFwd
  let b2 := -twiddle.re * inputTopRev - twiddle.im * inputTopFwd
  let (a0, b0) := strided2 a0 b0
  let (a1, b1) := strided2 a1 b1
  let (a2, b2) := strided2 a2 b2
  let m ← m.store a0 0
  let m ← m.store a1 1
  let m ← m.store b2 2
  let m ← m.store b0 3
  let m ← m.store b1 4
  m.store a2 5

/-- `Butterfly6::new()` -/
def butterfly6 (T : Type) [Add T] [Sub T] [Mul T] [Neg T] [FftNum T] : Dht T :=
  boilerplateFftButterfly 6 contiguous6

/-- `Butterfly8::perform_dht_contiguous`, src/scalar/butterflies.rs:353-402, field from line 350.  The arrays `chunk0` and
`chunk1` are the variables `c0..c3` and `d0..d3`. -/
def contiguous8 (m : RawIO T) : Res (RawIO T) := do
  let twiddle := computeDhtTwiddle T 1 8
  let c0 ← m.load 0
  let c1 ← m.load 4
  let c2 ← m.load 2
  let c3 ← m.load 6
  let d0 ← m.load 1
  let d1 ← m.load 5
  let d2 ← m.load 3
  let d3 ← m.load 7
  -- butterfly2.perform_dht_butterfly on the four pairs
  let (c0, c1) := strided2 c0 c1
  let (c2, c3) := strided2 c2 c3
  let (d0, d1) := strided2 d0 d1
  let (d2, d3) := strided2 d2 d3
  -- split0/split1 and split2/split3
  let (c0, c2) := strided2 c0 c2
  let (c1, c3) := strided2 c1 c3
  let (d0, d2) := strided2 d0 d2
  let d1 := d1 * twiddle
  let d3 := d3 * twiddle
  let (c0, d0) := strided2 c0 d0
  let (c1, d1) := strided2 c1 d1
  let (c2, d2) := strided2 c2 d2
  let (c3, d3) := strided2 c3 d3
  let m ← m.store c0 0
  let m ← m.store c1 1
  let m ← m.store c2 2
  let m ← m.store c3 3
  let m ← m.store d0 4
  let m ← m.store d1 5
  let m ← m.store d2 6
  m.store d3 7

/-- `Butterfly8::new()` -/
def butterfly8 (T : Type) [Add T] [Sub T] [Mul T] [FftNum T] : Dht T :=
  boilerplateFftButterfly 8 contiguous8

/-- `Butterfly9::perform_dht_contiguous`, src/scalar/butterflies.rs:425-490, fields from lines 416-421.  Shadowed
variables of the source are shadowed here in the same order; every value is loaded once up front, which is the same
because no store precedes a load. -/
def contiguous9 (m : RawIO T) : Res (RawIO T) := do
  let butterflyTwiddle := computeDftTwiddleForward T 1 3
  let butterfly3Twiddle := butterflyTwiddle.re - butterflyTwiddle.im
  let twiddle1 := computeDftTwiddleInverse T 1 9
  let twiddle2 := computeDftTwiddleInverse T 2 9
  let twiddle4 := computeDftTwiddleInverse T 4 9
  let i0 ← m.load 0
  let i1 ← m.load 1
  let i2 ← m.load 2
  let i3 ← m.load 3
  let i4 ← m.load 4
  let i5 ← m.load 5
  let i6 ← m.load 6
  let i7 ← m.load 7
  let i8 ← m.load 8
  let t1 := (i3 - i6) * butterfly3Twiddle
  let t2 := i0 - i6
  let t3 := i0 - i3
  let w1 := t2 + t1
  let w2 := t3 - t1
  --
  let x0 := i0 + i3 + i6
  let x3 := i1 + i4 + i7
  let x6 := i2 + i5 + i8
  let t1 := (x3 - x6) * butterfly3Twiddle
  let t2 := x0 + x3 + x6
  let t3 := x0 - x6 + t1
  let x6 := x0 - x3 - t1
  let x3 := t3
  let x0 := t2
  --
  let t1 := i7 - i4
  let t2 := i8 - i5
  let t3 := i1 - i4
  let t4 := i2 - i5
  let v1 := t1 + t4
  let t4 := t1 - t4
  let t1 := v1
  let v2 := t2 + t3
  let t3 := t2 - t3
  let t2 := v2
  let v1 := (t1 - t2) * twiddle4.re
  let v2 := t1 * twiddle2.re
  let v3 := t2 * twiddle1.re
  let t1 := v1 - v3
  let t2 := -v1 - v2
  let v1 := (t3 + t4) * twiddle4.im
  let v2 := t3 * twiddle1.im
  let v3 := t4 * twiddle2.im
  let t3 := -v1 - v2
  let t4 := v3 - v1
  let x2 := t1 + t3
  let x4 := t2 + t4
  let x7 := t1 - t3
  let x5 := t2 - t4
  let x1 := -x7 - x4 + w1
  let x8 := -x5 - x2 + w2
  let x2 := x2 + w2
  let x4 := x4 + w1
  let x7 := x7 + w1
  let x5 := x5 + w2
  let m ← m.store x0 0
  let m ← m.store x1 1
  let m ← m.store x2 2
  let m ← m.store x3 3
  let m ← m.store x4 4
  let m ← m.store x5 5
  let m ← m.store x6 6
  let m ← m.store x7 7
  m.store x8 8

/-- `Butterfly9::new()` -/
def butterfly9 (T : Type) [Add T] [Sub T] [Mul T] [Neg T] [FftNum T] : Dht T :=
  boilerplateFftButterfly 9 contiguous9

/-- `Butterfly16::perform_dht_contiguous`, src/scalar/butterflies.rs:508-573, fields from lines 502-505.  `chunk0` and `chunk1` are
`c0..c7` and `d0..d7`; `perform_dht_indexed` (lines 136-142) on constant indices is `strided2` on two variables. -/
def contiguous16 (m : RawIO T) : Res (RawIO T) := do
  let b8twiddle := computeDhtTwiddle T 1 8
  let twiddle := computeDftTwiddleInverse T 1 16
  let c0 ← m.load 0
  let c1 ← m.load 1
  let c2 ← m.load 2
  let c3 ← m.load 3
  let c4 ← m.load 4
  let c5 ← m.load 5
  let c6 ← m.load 6
  let c7 ← m.load 7
  let d0 ← m.load 8
  let d1 ← m.load 9
  let d2 ← m.load 10
  let d3 ← m.load 11
  let d4 ← m.load 12
  let d5 ← m.load 13
  let d6 ← m.load 14
  let d7 ← m.load 15
  -- lines 537-539
  let (c0, d0) := strided2 c0 d0
  let (c1, d1) := strided2 c1 d1
  let (c2, d2) := strided2 c2 d2
  let (c3, d3) := strided2 c3 d3
  let (c4, d4) := strided2 c4 d4
  let (c5, d5) := strided2 c5 d5
  let (c6, d6) := strided2 c6 d6
  let (c7, d7) := strided2 c7 d7
  -- lines 543-546: butterfly8 in place, results stored at the even indices
  let chunk0 ← performInPlace contiguous8 [c0, c1, c2, c3, c4, c5, c6, c7]
  let m ← forRange 0 8 m fun i m => do
    let v ← getI chunk0 i
    m.store v (i * 2)
  -- lines 549-551
  let (d0, d4) := strided2 d0 d4
  let (d1, d3) := strided2 d1 d3
  let (d7, d5) := strided2 d7 d5
  -- lines 553-562
  let p0 := d0
  let p1 := d1 * twiddle.re + d5 * twiddle.im
  let p2 := d2 * b8twiddle
  let p3 := d1 * twiddle.im - d5 * twiddle.re
  let p4 := d4
  let p5 := d3 * twiddle.im + d7 * twiddle.re
  let p6 := d6 * b8twiddle
  let p7 := d3 * twiddle.re - d7 * twiddle.im
  -- lines 565-567
  let postTwiddle1 ← performInPlace contiguous4 [p0, p1, p2, p3]
  let postTwiddle3 ← performInPlace contiguous4 [p4, p5, p6, p7]
  -- lines 569-572
  forRange 0 4 m fun i m => do
    let v ← getI postTwiddle1 i
    let m ← m.store v (i * 4 + 1)
    let v ← getI postTwiddle3 i
    m.store v (i * 4 + 3)

/-- `Butterfly16::new()` -/
def butterfly16 (T : Type) [Add T] [Sub T] [Mul T] [FftNum T] : Dht T :=
  boilerplateFftButterfly 16 contiguous16

end RustDHT
