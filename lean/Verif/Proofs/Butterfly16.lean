import Verif.Proofs.Boilerplate
import Verif.Model.Butterflies

/-! # Symbolic execution of `Butterfly16` -/

set_option linter.unusedSectionVars false

namespace RustDHT

variable {T : Type}
variable [Add T] [Sub T] [Mul T] [Neg T] [FftNum T]

/-- What `Butterfly8` stores. -/
def b8List (x0 x1 x2 x3 x4 x5 x6 x7 : T) : List T :=
  let t := computeDhtTwiddle T 1 8
  let c0 := x0 + x4 + (x2 + x6)
  let c2 := x0 + x4 - (x2 + x6)
  let c1 := x0 - x4 + (x2 - x6)
  let c3 := x0 - x4 - (x2 - x6)
  let d0 := x1 + x5 + (x3 + x7)
  let d2 := x1 + x5 - (x3 + x7)
  let d1 := (x1 - x5) * t
  let d3 := (x3 - x7) * t
  [c0 + d0, c1 + d1, c2 + d2, c3 + d3, c0 - d0, c1 - d1, c2 - d2, c3 - d3]

/-- What `Butterfly4` stores. -/
def b4List (x0 x1 x2 x3 : T) : List T :=
  [x0 + x2 + (x1 + x3), x0 - x2 + (x1 - x3), x0 + x2 - (x1 + x3), x0 - x2 - (x1 - x3)]

theorem b8_eval (x0 x1 x2 x3 x4 x5 x6 x7 : T) :
    performInPlace contiguous8 [x0, x1, x2, x3, x4, x5, x6, x7] = .ok (b8List x0 x1 x2 x3 x4 x5 x6 x7) := rfl
theorem b4_eval (x0 x1 x2 x3 : T) :
    performInPlace contiguous4 [x0, x1, x2, x3] = .ok (b4List x0 x1 x2 x3) := rfl

/-- The three inner butterflies of `Butterfly16`. -/
def b16Pure (c0 c1 c2 c3 c4 c5 c6 c7 d0 d1 d2 d3 d4 d5 d6 d7 : T) : List T × List T × List T :=
  let b := computeDhtTwiddle T 1 8
  let tw := computeDftTwiddleInverse T 1 16
  let e0 := c0 - d0
  let e1 := c1 - d1
  let e2 := c2 - d2
  let e3 := c3 - d3
  let e4 := c4 - d4
  let e5 := c5 - d5
  let e6 := c6 - d6
  let e7 := c7 - d7
  (b8List (c0 + d0) (c1 + d1) (c2 + d2) (c3 + d3) (c4 + d4) (c5 + d5) (c6 + d6) (c7 + d7),
   b4List (e0 + e4) ((e1 + e3) * tw.re + (e7 - e5) * tw.im) (e2 * b) ((e1 + e3) * tw.im - (e7 - e5) * tw.re),
   b4List (e0 - e4) ((e1 - e3) * tw.im + (e7 + e5) * tw.re) (e6 * b) ((e1 - e3) * tw.re - (e7 + e5) * tw.im))

/-- What `Butterfly16` stores. -/
def b16List (c0 c1 c2 c3 c4 c5 c6 c7 d0 d1 d2 d3 d4 d5 d6 d7 : T) : List T :=
  match b16Pure c0 c1 c2 c3 c4 c5 c6 c7 d0 d1 d2 d3 d4 d5 d6 d7 with
  | ([a0, a1, a2, a3, a4, a5, a6, a7], [p0, p1, p2, p3], [q0, q1, q2, q3]) =>
    [a0, p0, a1, q0, a2, p1, a3, q1, a4, p2, a5, q2, a6, p3, a7, q3]
  | _ => []

theorem b16_eval (al : Bool) (inp : List T) (o0 o1 o2 o3 o4 o5 o6 o7 o8 o9 o10 o11 o12 o13 o14 o15
    c0 c1 c2 c3 c4 c5 c6 c7 d0 d1 d2 d3 d4 d5 d6 d7 : T)
    (h : (if al then [o0, o1, o2, o3, o4, o5, o6, o7, o8, o9, o10, o11, o12, o13, o14, o15] else inp)
      = [c0, c1, c2, c3, c4, c5, c6, c7, d0, d1, d2, d3, d4, d5, d6, d7]) :
    contiguous16 ⟨inp, [o0, o1, o2, o3, o4, o5, o6, o7, o8, o9, o10, o11, o12, o13, o14, o15], al⟩
      = .ok ⟨inp, b16List c0 c1 c2 c3 c4 c5 c6 c7 d0 d1 d2 d3 d4 d5 d6 d7, al⟩ := by
  unfold contiguous16
  simp only [RawIO.load, h]
  simp only [getU, List.getElem?_cons_zero, List.getElem?_cons_succ, ok_bind, strided2, b8_eval, b4_eval]
  rfl
end RustDHT
