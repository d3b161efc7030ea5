import Verif.Spec.Contract
import Verif.Model.Unwind

/-! # What a call that panics leaves in the slices -/

namespace RustDHT

variable {T : Type}

/-- The number of elements of `l` that lie in a complete chunk. -/
def wholeLength (n : Nat) (l : List T) : Nat := n * (l.length / n)

/-- The calls `inplace` and `oop` of an object like `d` that applies `f` to every chunk.

* A buffer or a scratch that is too short, or an output of another length than the input, is found before anything is written:
  the slices are as they were.
* A remainder is found after the fact: every complete chunk has been transformed by then, only the remainder is as it was, and
  the scratch beyond the reported length. -/
structure LeavesBehind (d : Dht T) (f : List T → List T) (inplace : List T → List T → Seen (List T × List T))
    (oop : List T → List T → List T → Seen (List T × List T × List T)) : Prop where
  inplace_early : ∀ (buffer scratch : List T) k,
    inplaceViolation d.len d.inplaceScratchLen buffer.length scratch.length = some k →
    buffer.length < d.len ∨ scratch.length < d.inplaceScratchLen →
    inplace buffer scratch = .unwound k (buffer, scratch)
  inplace_late : ∀ buffer scratch : List T,
    d.len ≤ buffer.length → ¬ d.len ∣ buffer.length → d.inplaceScratchLen ≤ scratch.length →
    ∃ scratch', inplace buffer scratch = .unwound .notMultiple
        (mapChunks d.len f (buffer.take (wholeLength d.len buffer)) ++ buffer.drop (wholeLength d.len buffer), scratch') ∧
      scratch'.length = scratch.length ∧
      scratch'.drop d.inplaceScratchLen = scratch.drop d.inplaceScratchLen
  oop_early : ∀ (input output scratch : List T) k,
    oopViolation d.len d.oopScratchLen input.length output.length scratch.length = some k →
    input.length ≠ output.length ∨ input.length < d.len ∨ scratch.length < d.oopScratchLen →
    oop input output scratch = .unwound k (input, output, scratch)
  oop_late : ∀ input output scratch : List T, output.length = input.length →
    d.len ≤ input.length → ¬ d.len ∣ input.length → d.oopScratchLen ≤ scratch.length →
    ∃ input' scratch', oop input output scratch = .unwound .notMultiple
        (input' ++ input.drop (wholeLength d.len input),
          mapChunks d.len f (input.take (wholeLength d.len input)) ++ output.drop (wholeLength d.len input), scratch') ∧
      input'.length = wholeLength d.len input ∧ scratch'.length = scratch.length ∧
      scratch'.drop d.oopScratchLen = scratch.drop d.oopScratchLen

end RustDHT
