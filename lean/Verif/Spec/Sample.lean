import Verif.Spec.Ieee

/-! # Random signals for the unit tests -/

namespace RustDHT

/-- Random entries of the kind that src/test_utils.rs:16-24 asks for in `f32`: 23 random bits as a fraction, times 10.  (The crate `rand` is
not modelled, and the seed is fixed.) -/
def sample32 (k : Fin (2 ^ 23)) : Flt binary32 := .round binary32 false (10 * k / 2 ^ 23 : ℚ)

end RustDHT
