import Verif.Spec.Ieee

/-! # Other binary formats

The crate is generic over `T: FftNum` (src/lib.rs:20, src/twiddles.rs:5-43), a trait of rustfft that every type with the operations of
numbers and conversions from the primitive types has.  These are formats in which such types exist. -/

namespace RustDHT

/-- Half precision (`f16`). -/
def binary16 : Fmt := ⟨11, -24, 16, by decide⟩
/-- `bfloat16` -/
def bfloat16 : Fmt := ⟨8, -133, 128, by decide⟩
/-- The 80-bit format of the x87. -/
def extended80 : Fmt := ⟨64, -16445, 16384, by decide⟩
/-- Quadruple precision (`f128`). -/
def binary128 : Fmt := ⟨113, -16494, 16384, by decide⟩

end RustDHT
