import Verif.Spec.Contract

/-! # A user-implemented `Dht` with extra scratch requirements

The trait `Dht` (src/lib.rs:21-87) is public, so the inner object of a combinator may come from outside the crate and may
request any amount of scratch.  This is such an object: it behaves like `d`, but demands `extra` more scratch elements, and
panics with the documented message when it does not get them. -/

namespace RustDHT

variable {T : Type}

/-- `d` with scratch requirements raised by `extra`. -/
def Dht.greedy (d : Dht T) (extra : Nat) : Dht T where
  len := d.len
  inplaceScratchLen := d.inplaceScratchLen + extra
  oopScratchLen := d.oopScratchLen + extra
  processWithScratch := fun buffer scratch =>
    match inplaceViolation d.len (d.inplaceScratchLen + extra) buffer.length scratch.length with
    | some k => panic k
    | none => d.processWithScratch buffer scratch
  processOop := fun input output scratch =>
    match oopViolation d.len (d.oopScratchLen + extra) input.length output.length scratch.length with
    | some k => panic k
    | none => d.processOop input output scratch

end RustDHT
