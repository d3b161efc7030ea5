import Verif.Spec.Plan
import Verif.Spec.Dht

/-! # Inner objects that do not compute the DHT -/

namespace RustDHT

open Finset

/-- The DHT with the other sign: `cos - sin` instead of `cos + sin`. -/
noncomputable def flippedDht (x : List ℝ) : List ℝ :=
  (List.range x.length).map fun k : ℕ => ∑ i ∈ range x.length,
    x.getD i 0 * (Real.cos (2 * Real.pi * i * k / x.length) - Real.sin (2 * Real.pi * i * k / x.length))

/-- The DHT with its coefficients in another order: number `k` is the coefficient of frequency `u k`. -/
noncomputable def reorderedDht (u : ℕ) (x : List ℝ) : List ℝ :=
  (List.range x.length).map fun k : ℕ => ∑ i ∈ range x.length,
    x.getD i 0 * (Real.cos (2 * Real.pi * i * (u * k) / x.length) + Real.sin (2 * Real.pi * i * (u * k) / x.length))

/-- An object from outside the crate: it runs `d` and then replaces the numbers of each output slice. -/
def Dht.after {T : Type} (d : Dht T) (g : List T → List T) : Dht T where
  len := d.len
  inplaceScratchLen := d.inplaceScratchLen
  oopScratchLen := d.oopScratchLen
  processWithScratch buffer scratch := do
    let (buffer, scratch) ← d.processWithScratch buffer scratch
    .ok (mapChunks d.len g buffer, scratch)
  processOop input output scratch := do
    let (input, output, scratch) ← d.processOop input output scratch
    .ok (input, mapChunks d.len g output, scratch)

end RustDHT
