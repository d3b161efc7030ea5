import Mathlib.Data.Real.Basic

/-! # Signals repeated and signals spread out -/

namespace RustDHT

/-- The signal `y`, `e` times one after the other. -/
def repeated (e : ℕ) (y : List ℝ) : List ℝ := (List.replicate e y).flatten

/-- The signal `y` with `e - 1` zeros after every entry. -/
def interspersed (e : ℕ) (y : List ℝ) : List ℝ := y.flatMap fun v => v :: List.replicate (e - 1) 0

end RustDHT
