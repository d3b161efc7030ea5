import Verif.Model.Butterflies
import Verif.Spec.Aliasing

/-! # The butterflies with their pointers

`Verif.Model.Butterflies` runs the loads and stores of the butterflies on lists.  Here the same code is a program with loads and
stores as instructions, in the order of the source, so that it can be run with aliasing rules too.  `Verif.Props.Aliasing` proves
that without these rules the programs compute what the functions of `Verif.Model.Butterflies` compute. -/

namespace RustDHT

/-- A program with one `RawSlice` to load from and one `RawSliceMut` to store to. -/
inductive Raw (T : Type) where
  | ret
  | fail (f : Fault)
  /-- `input.load(i)` -/
  | load (i : Nat) (k : T → Raw T)
  /-- `output.store(v, i)` -/
  | store (v : T) (i : Nat) (k : Raw T)
  /-- `perform_dht_butterfly` or `perform_dht_array` of another butterfly on a local array -/
  | loc (p : Raw T) (array : List T) (k : List T → Raw T)

namespace Raw

variable {T : Type}

/-- `array[i]` of a local array -/
def idx (l : List T) (i : Nat) (k : T → Raw T) : Raw T :=
  match l[i]? with
  | some v => k v
  | none => fail (.panic .index)

/-- The program without aliasing rules. -/
def run : Raw T → RawIO T → Res (RawIO T)
  | ret, m => .ok m
  | fail f, _ => .error f
  | load i k, m => m.load i >>= fun v => (k v).run m
  | store v i k, m => m.store v i >>= fun m => k.run m
  | loc p l k, m => (p.run { inp := [], out := l, aliased := true } >>= fun r => .ok r.out) >>= fun l => (k l).run m

/-- Memory of values with the state of the aliasing rules for every location. -/
abbrev Cells (A : AliasRules) (T : Type) := List (T × A.State)

/-- The memory that a butterfly works on: one buffer, or two. -/
structure Mem (A : AliasRules) (T : Type) where
  inp : Cells A T
  out : Cells A T
  aliased : Bool
  /-- the tag of the `RawSlice` -/
  inTag : Nat
  /-- the tag of the `RawSliceMut` -/
  outTag : Nat

/-- A load through a raw pointer. -/
def loadCell (A : AliasRules) (t : Nat) (c : Cells A T) (i : Nat) : Res (T × Cells A T) :=
  match c[i]? with
  | none => .error .ub
  | some (v, s) =>
    match A.read t s with
    | none => .error .ub
    | some s => .ok (v, c.set i (v, s))

/-- A store through a raw pointer. -/
def storeCell (A : AliasRules) (t : Nat) (c : Cells A T) (i : Nat) (v : T) : Res (Cells A T) :=
  match c[i]? with
  | none => .error .ub
  | some (_, s) =>
    match A.write t s with
    | none => .error .ub
    | some s => .ok (c.set i (v, s))

/-- src/array_utils.rs:98-101 `RawSlice::load` -/
def Mem.load {A : AliasRules} (m : Mem A T) (i : Nat) : Res (T × Mem A T) :=
  if m.aliased then do
    let (v, c) ← loadCell A m.inTag m.out i
    .ok (v, { m with out := c })
  else do
    let (v, c) ← loadCell A m.inTag m.inp i
    .ok (v, { m with inp := c })

/-- src/array_utils.rs:137-140 `RawSliceMut::store` -/
def Mem.store {A : AliasRules} (m : Mem A T) (v : T) (i : Nat) : Res (Mem A T) := do
  let c ← storeCell A m.outTag m.out i v
  .ok { m with out := c }

/-- `RawSlice::new(buffer)`, src/array_utils.rs:71-76: reborrows the buffer, and `as_ptr` makes a raw pointer. -/
def rawSlice (A : AliasRules) (s : A.State) : Option (A.State × Nat) := do
  let s ← A.shared 0 1 s
  A.rawConst 1 2 s

/-- `RawSliceMut::new(buffer)`, src/array_utils.rs:112-117 -/
def rawSliceMut (A : AliasRules) (s : A.State) : Option (A.State × Nat) := do
  let s ← A.unique 0 3 s
  A.rawMut 3 4 s

/-- The arguments `RawSlice::new(buffer), RawSliceMut::new(buffer)` of src/scalar/butterflies.rs:16 and 21, for a buffer that is
borrowed mutably. -/
def inPlace (A : AliasRules) (l : List T) : Res (Mem A T) :=
  match (do
    let (s, i) ← rawSlice A A.owned
    let (s, o) ← rawSliceMut A s
    some (s, i, o)) with
  | some (s, i, o) => .ok { inp := [], out := l.map (·, s), aliased := true, inTag := i, outTag := o }
  | none => .error .ub

/-- The arguments `RawSlice::new(in_chunk), RawSliceMut::new(out_chunk)` of src/scalar/butterflies.rs:44-45. -/
def outOfPlace (A : AliasRules) (input output : List T) : Res (Mem A T) :=
  match rawSlice A A.owned, rawSliceMut A A.owned with
  | some (s, i), some (s', o) =>
    .ok { inp := input.map (·, s), out := output.map (·, s'), aliased := false, inTag := i, outTag := o }
  | _, _ => .error .ub

/-- The program with aliasing rules. -/
def exec (A : AliasRules) : Raw T → Mem A T → Res (Mem A T)
  | ret, m => .ok m
  | fail f, _ => .error f
  | load i k, m => m.load i >>= fun (v, m) => (k v).exec A m
  | store v i k, m => m.store v i >>= fun m => k.exec A m
  | loc p l k, m => inPlace A l >>= fun m' => p.exec A m' >>= fun r => (k (r.out.map (·.1))).exec A m

/-- `perform_dht_butterfly`, src/scalar/butterflies.rs:15-17 -/
def performInPlace (A : AliasRules) (p : Raw T) (buffer : List T) : Res (List T) := do
  let m ← inPlace A buffer
  let m ← p.exec A m
  .ok (m.out.map (·.1))

/-- The closure of `process_outofplace_with_scratch`, src/scalar/butterflies.rs:41-48 -/
def performOop (A : AliasRules) (p : Raw T) (input output : List T) : Res (List T × List T) := do
  let m ← outOfPlace A input output
  let m ← p.exec A m
  .ok (m.inp.map (·.1), m.out.map (·.1))

/-- `perform_dht_contiguous` with the pointers that its callers make. -/
def contiguous (A : AliasRules) (p : Raw T) (m : RawIO T) : Res (RawIO T) :=
  if m.aliased then do
    let out ← performInPlace A p m.out
    .ok { m with out := out }
  else do
    let (inp, out) ← performOop A p m.inp m.out
    .ok { m with inp := inp, out := out }

/-- A butterfly with checked accesses: `boilerplate_fft_butterfly!`, src/scalar/butterflies.rs:11-90 -/
def butterfly (A : AliasRules) (len : Nat) (p : Raw T) : Dht T := boilerplateFftButterfly len (p.contiguous A)

/-! ## The butterflies -/

variable [Add T] [Sub T] [Mul T] [Neg T] [FftNum T]

/-- src/scalar/butterflies.rs:144-153 -/
def raw2 : Raw T :=
  load 0 fun value0 => load 1 fun value1 => store (value0 + value1) 0 <| store (value0 - value1) 1 ret

/-- src/scalar/butterflies.rs:167-188 -/
def raw3 : Raw T :=
  let twiddle := computeDftTwiddleInverse T 1 3
  load 0 fun input0 => load 1 fun input1 => load 2 fun input2 =>
  let (input1, input2) := strided2 input1 input2
  let output0 := input0 + input1
  let input1 := input1 * twiddle.re + input0
  let input2 := input2 * twiddle.im
  let output1 := input1 + input2
  let output2 := input1 - input2
  store output0 0 <| store output1 1 <| store output2 2 ret

/-- src/scalar/butterflies.rs:202-228 -/
def raw4 : Raw T :=
  load 0 fun a0 => load 2 fun a1 => load 1 fun b0 => load 3 fun b1 =>
  loc raw2 [a0, a1] fun tmp0 => loc raw2 [b0, b1] fun tmp1 =>
  idx tmp0 0 fun a0 => idx tmp1 0 fun b0 =>
  let (a0, b0) := strided2 a0 b0
  idx tmp0 1 fun a1 => idx tmp1 1 fun b1 =>
  let (a1, b1) := strided2 a1 b1
  store a0 0 <| store a1 1 <| store b0 2 <| store b1 3 ret

/-- src/scalar/butterflies.rs:245-289 -/
def raw5 : Raw T :=
  let twiddle1 := computeDftTwiddleInverse T 1 5
  let twiddle2 := computeDftTwiddleInverse T 2 5
  load 0 fun input0 => load 1 fun input1 => load 2 fun input2 => load 3 fun input3 => load 4 fun input4 =>
  let a_0 := input1 + input4
  let a_1 := input1 - input4
  let a_2 := input2 + input3
  let a_3 := input2 - input3
  let a01 := a_0 * twiddle1.re
  let a02 := a_0 * twiddle2.re
  let a11 := a_1 * twiddle1.im
  let a12 := a_1 * twiddle2.im
  let a21 := a_2 * twiddle1.re
  let a22 := a_2 * twiddle2.re
  let a31 := a_3 * twiddle1.im
  let a32 := a_3 * twiddle2.im
  let a01a22 := a01 + a22
  let a02a21 := a02 + a21
  let a11a32 := a11 + a32
  let a12a31 := a12 - a31
  let out0 := input0 + a_0 + a_2
  let out1 := input0 + a01a22 + a11a32
  let out2 := input0 + a02a21 + a12a31
  let out3 := input0 + a02a21 - a12a31
  let out4 := input0 + a01a22 - a11a32
  store out0 0 <| store out1 1 <| store out2 2 <| store out3 3 <| store out4 4 ret

/-- src/scalar/butterflies.rs:304-340 -/
def raw6 : Raw T :=
  let twiddle := computeDftTwiddleInverse T 1 3
  load 0 fun a0 => load 2 fun a1 => load 4 fun a2 => load 1 fun b0 => load 3 fun b1 => load 5 fun b2 =>
  loc raw3 [a0, a1, a2] fun chunk0 => loc raw3 [b0, b1, b2] fun chunk1 =>
  idx chunk0 0 fun a0 => idx chunk0 1 fun a1 => idx chunk0 2 fun a2 =>
  idx chunk1 0 fun b0 => idx chunk1 1 fun inputTopFwd => idx chunk1 2 fun inputTopRev =>
  let b1 := twiddle.im * inputTopRev - twiddle.re * inputTopFwd
  let b2 := -twiddle.re * inputTopRev - twiddle.im * inputTopFwd
  let (a0, b0) := strided2 a0 b0
  let (a1, b1) := strided2 a1 b1
  let (a2, b2) := strided2 a2 b2
  store a0 0 <| store a1 1 <| store b2 2 <| store b0 3 <| store b1 4 <| store a2 5 ret

/-- src/scalar/butterflies.rs:353-402.  The four calls of `butterfly2` are on halves of two local arrays. -/
def raw8 : Raw T :=
  let twiddle := computeDhtTwiddle T 1 8
  load 0 fun c0 => load 4 fun c1 => load 2 fun c2 => load 6 fun c3 =>
  load 1 fun d0 => load 5 fun d1 => load 3 fun d2 => load 7 fun d3 =>
  loc raw2 [c0, c1] fun c01 => loc raw2 [c2, c3] fun c23 => loc raw2 [d0, d1] fun d01 => loc raw2 [d2, d3] fun d23 =>
  idx c01 0 fun c0 => idx c01 1 fun c1 => idx c23 0 fun c2 => idx c23 1 fun c3 =>
  idx d01 0 fun d0 => idx d01 1 fun d1 => idx d23 0 fun d2 => idx d23 1 fun d3 =>
  let (c0, c2) := strided2 c0 c2
  let (c1, c3) := strided2 c1 c3
  let (d0, d2) := strided2 d0 d2
  let d1 := d1 * twiddle
  let d3 := d3 * twiddle
  let (c0, d0) := strided2 c0 d0
  let (c1, d1) := strided2 c1 d1
  let (c2, d2) := strided2 c2 d2
  let (c3, d3) := strided2 c3 d3
  store c0 0 <| store c1 1 <| store c2 2 <| store c3 3 <| store d0 4 <| store d1 5 <| store d2 6 <| store d3 7 ret

/-- The end of `Butterfly9::perform_dht_contiguous` after its last load, src/scalar/butterflies.rs:454-490.  The computation of lines
443-448 uses none of the values loaded after it and is included. -/
def raw9Tail (butterfly3Twiddle w1 w2 x0 x3 x6 t1' t2' t3' t4' : T) : Raw T :=
  let twiddle1 := computeDftTwiddleInverse T 1 9
  let twiddle2 := computeDftTwiddleInverse T 2 9
  let twiddle4 := computeDftTwiddleInverse T 4 9
  let t1 := (x3 - x6) * butterfly3Twiddle
  let t2 := x0 + x3 + x6
  let t3 := x0 - x6 + t1
  let x6 := x0 - x3 - t1
  let x3 := t3
  let x0 := t2
  let t1 := t1'
  let t2 := t2'
  let t3 := t3'
  let t4 := t4'
  let v1 := t1 + t4
  let t4 := t1 - t4
  let t1 := v1
  let v2 := t2 + t3
  let t3 := t2 - t3
  let t2 := v2
  let v1 := (t1 - t2) * twiddle4.re
  let v2 := t1 * twiddle2.re
  let v3 := t2 * twiddle1.re
  let t1 := v1 - v3
  let t2 := -v1 - v2
  let v1 := (t3 + t4) * twiddle4.im
  let v2 := t3 * twiddle1.im
  let v3 := t4 * twiddle2.im
  let t3 := -v1 - v2
  let t4 := v3 - v1
  let x2 := t1 + t3
  let x4 := t2 + t4
  let x7 := t1 - t3
  let x5 := t2 - t4
  let x1 := -x7 - x4 + w1
  let x8 := -x5 - x2 + w2
  let x2 := x2 + w2
  let x4 := x4 + w1
  let x7 := x7 + w1
  let x5 := x5 + w2
  store x0 0 <| store x1 1 <| store x2 2 <| store x3 3 <| store x4 4 <| store x5 5 <| store x6 6 <| store x7 7 <| store x8 8 ret

/-- src/scalar/butterflies.rs:425-490, with every repeated load of the source -/
def raw9 : Raw T :=
  let butterflyTwiddle := computeDftTwiddleForward T 1 3
  let butterfly3Twiddle := butterflyTwiddle.re - butterflyTwiddle.im
  load 3 fun l3 => load 6 fun l6 =>
  let t1 := (l3 - l6) * butterfly3Twiddle
  load 0 fun l0 => load 6 fun l6 =>
  let t2 := l0 - l6
  load 0 fun l0 => load 3 fun l3 =>
  let t3 := l0 - l3
  let w1 := t2 + t1
  let w2 := t3 - t1
  load 0 fun l0 => load 3 fun l3 => load 6 fun l6 =>
  let x0 := l0 + l3 + l6
  load 1 fun l1 => load 4 fun l4 => load 7 fun l7 =>
  let x3 := l1 + l4 + l7
  load 2 fun l2 => load 5 fun l5 => load 8 fun l8 =>
  let x6 := l2 + l5 + l8
  load 7 fun l7 => load 4 fun l4 =>
  let t1 := l7 - l4
  load 8 fun l8 => load 5 fun l5 =>
  let t2 := l8 - l5
  load 1 fun l1 => load 4 fun l4 =>
  let t3 := l1 - l4
  load 2 fun l2 => load 5 fun l5 =>
  let t4 := l2 - l5
  raw9Tail butterfly3Twiddle w1 w2 x0 x3 x6 t1 t2 t3 t4

/-- src/scalar/butterflies.rs:508-573, with the loops unrolled -/
def raw16 : Raw T :=
  let b8twiddle := computeDhtTwiddle T 1 8
  let twiddle := computeDftTwiddleInverse T 1 16
  load 0 fun c0 => load 1 fun c1 => load 2 fun c2 => load 3 fun c3 =>
  load 4 fun c4 => load 5 fun c5 => load 6 fun c6 => load 7 fun c7 =>
  load 8 fun d0 => load 9 fun d1 => load 10 fun d2 => load 11 fun d3 =>
  load 12 fun d4 => load 13 fun d5 => load 14 fun d6 => load 15 fun d7 =>
  let (c0, d0) := strided2 c0 d0
  let (c1, d1) := strided2 c1 d1
  let (c2, d2) := strided2 c2 d2
  let (c3, d3) := strided2 c3 d3
  let (c4, d4) := strided2 c4 d4
  let (c5, d5) := strided2 c5 d5
  let (c6, d6) := strided2 c6 d6
  let (c7, d7) := strided2 c7 d7
  loc raw8 [c0, c1, c2, c3, c4, c5, c6, c7] fun chunk0 =>
  idx chunk0 0 fun v => store v 0 <| idx chunk0 1 fun v => store v 2 <| idx chunk0 2 fun v => store v 4 <|
  idx chunk0 3 fun v => store v 6 <| idx chunk0 4 fun v => store v 8 <| idx chunk0 5 fun v => store v 10 <|
  idx chunk0 6 fun v => store v 12 <| idx chunk0 7 fun v => store v 14 <|
  let (d0, d4) := strided2 d0 d4
  let (d1, d3) := strided2 d1 d3
  let (d7, d5) := strided2 d7 d5
  let p0 := d0
  let p1 := d1 * twiddle.re + d5 * twiddle.im
  let p2 := d2 * b8twiddle
  let p3 := d1 * twiddle.im - d5 * twiddle.re
  let p4 := d4
  let p5 := d3 * twiddle.im + d7 * twiddle.re
  let p6 := d6 * b8twiddle
  let p7 := d3 * twiddle.re - d7 * twiddle.im
  loc raw4 [p0, p1, p2, p3] fun post1 => loc raw4 [p4, p5, p6, p7] fun post3 =>
  idx post1 0 fun v => store v 1 <| idx post3 0 fun w => store w 3 <|
  idx post1 1 fun v => store v 5 <| idx post3 1 fun w => store w 7 <|
  idx post1 2 fun v => store v 9 <| idx post3 2 fun w => store w 11 <|
  idx post1 3 fun v => store v 13 <| idx post3 3 fun w => store w 15 ret

end Raw

end RustDHT
