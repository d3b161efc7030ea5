import Verif.Model.Radix4

/-! # Recursion with a limited stack

`prepare_radix4` and `prepare_radix4_reversed` are the only recursive functions of the crate. -/

namespace RustDHT

variable {T : Type}

/-- src/scalar/radix4.rs:291-326 `prepare_radix4` and 328-362 `prepare_radix4_reversed`, as `prepareRadix4`, on a stack with room
for `frames` activations of them.  `none` is the abort when the stack overflows.  There is no case for an endless recursion. -/
def prepareRadix4Within (frames : Nat) (rev : Bool) (size baseLen : Nat) (input output : List T) (stride : Nat) :
    Option (Res (List T)) :=
  match frames with
  | 0 => none
  | frames + 1 =>
    if size = baseLen then
      some (forRange 0 size output fun i output => do
        let v ← getU input ((if rev then size - i - 1 else i) * stride)
        setU output i v)
    else
      let child (i : Nat) (childRev : Bool) (output : List T) : ExceptT Fault Option (List T) :=
        -- `&input[i * stride..]` and `&mut output[i * (size / 4)..]`
        if i * stride ≤ input.length then
          if i * (size / 4) ≤ output.length then do
            let tail ← ExceptT.mk (prepareRadix4Within frames childRev (size / 4) baseLen (input.drop (i * stride))
              (output.drop (i * (size / 4))) (stride * 4))
            pure (output.take (i * (size / 4)) ++ tail)
          else throw (.panic .index)
        else throw (.panic .index)
      ExceptT.run do
        let output ← child 0 false output
        let output ← child 1 rev output
        let output ← child 2 rev output
        child 3 true output

end RustDHT
