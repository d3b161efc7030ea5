import Verif.Model.Plan

/-! # `Radix4` with a repaired order of blocks

This is not code of the crate.  It is src/scalar/radix4.rs:184-362 as modelled in `Model/Radix4.lean` with one change, in
`prepare_radix4_reversed`: both recursive calls (radix4.rs:342-360) write to `&mut output[(3 - i) * (size / 4)..]` instead of
`&mut output[i * (size / 4)..]`. -/

namespace RustDHT

variable {T : Type} [Add T] [Sub T] [Mul T] [Neg T] [FftNum T]

/-- `prepare_radix4` (`rev = false`), src/scalar/radix4.rs:291-326, unchanged, and `prepare_radix4_reversed` (`rev = true`),
src/scalar/radix4.rs:328-362, with the blocks in the other order. -/
def prepareRepaired (rev : Bool) (size baseLen : Nat) (input output : List T) (stride : Nat) : Res (List T) :=
  if size = baseLen then
    forRange 0 size output fun i output => do
      let v ← getU input ((if rev then size - i - 1 else i) * stride)
      setU output i v
  else if _h : size = 0 then .error .diverge
  else
    let child (i : Nat) (childRev : Bool) (output : List T) : Res (List T) :=
      let block := if rev then 3 - i else i
      if i * stride ≤ input.length then
        if block * (size / 4) ≤ output.length then do
          let tail ← prepareRepaired childRev (size / 4) baseLen (input.drop (i * stride))
            (output.drop (block * (size / 4))) (stride * 4)
          .ok (output.take (block * (size / 4)) ++ tail)
        else panic .index
      else panic .index
    do
      let output ← child 0 false output
      let output ← child 1 rev output
      let output ← child 2 rev output
      child 3 true output
termination_by size
decreasing_by omega

/-- src/scalar/radix4.rs:252-287, with the repaired order -/
def repairedPerformOop (baseDht : Dht T) (baseLen len : Nat) (twiddles : List (Cx T))
    (input output scratch : List T) : Res (List T × List T × List T) := do
  let output ← prepareRepaired false len baseLen input output 1
  let (output, _) ← baseDht.processWithScratch output []
  let output ← radix4Layers len (baseLen * 4) twiddles output
  .ok (input, output, scratch)

/-- src/scalar/radix4.rs:247-250, with the repaired order -/
def repairedPerformInplace (baseDht : Dht T) (baseLen len : Nat) (twiddles : List (Cx T))
    (buffer scratch : List T) : Res (List T × List T) := do
  let scratch ← (if scratch.length = buffer.length then Except.ok buffer else panic .copyLength)
  let (scratch, buffer, _) ← repairedPerformOop baseDht baseLen len twiddles scratch buffer []
  .ok (buffer, scratch)

/-- `Radix4::new(len)`, src/scalar/radix4.rs:196-245 and 289, with the repaired order -/
def radix4Repaired (T : Type) [Add T] [Sub T] [Mul T] [Neg T] [FftNum T] (len : Nat) : Res (Dht T) := do
  assert (isPowerOfTwo len) .assertFailed
  let (baseLen, baseDht) := radix4Base T len
  let twiddles := radix4Twiddles T len (len / (baseLen * 4))
  .ok (boilerplateDht len len 0
    (repairedPerformInplace baseDht baseLen len twiddles)
    (repairedPerformOop baseDht baseLen len twiddles))

/-- The constructor expressions of src/scalar/mod.rs with the repaired `Radix4` in place of `Radix4`. -/
def Plan.buildRepaired (T : Type) [Add T] [Sub T] [Mul T] [Neg T] [Zero T] [FftNum T] : Plan → Res (Dht T)
  | .naive len => .ok (dhtNaive T len)
  | .b1 => .ok (butterfly1 T)
  | .b2 => .ok (butterfly2 T)
  | .b3 => .ok (butterfly3 T)
  | .b4 => .ok (butterfly4 T)
  | .b5 => .ok (butterfly5 T)
  | .b6 => .ok (butterfly6 T)
  | .b8 => .ok (butterfly8 T)
  | .b9 => .ok (butterfly9 T)
  | .b16 => .ok (butterfly16 T)
  | .mixedRadix w h => do
    let w ← w.buildRepaired T
    let h ← h.buildRepaired T
    .ok (RustDHT.mixedRadix w h)
  | .mr2 h => do let h ← h.buildRepaired T; .ok (mixedRadix2xn h)
  | .mr3 h => do let h ← h.buildRepaired T; .ok (mixedRadix3xn h)
  | .mr4 h => do let h ← h.buildRepaired T; .ok (mixedRadix4xn h)
  | .mr5 h => do let h ← h.buildRepaired T; .ok (mixedRadix5xn h)
  | .mr6 h => do let h ← h.buildRepaired T; .ok (mixedRadix6xn h)
  | .radix4 len => radix4Repaired T len
  | .splitRadix q h => do
    let q ← q.buildRepaired T
    let h ← h.buildRepaired T
    RustDHT.splitRadix q h
  | .raders inner => do
    let inner ← inner.buildRepaired T
    RustDHT.raders inner

end RustDHT
