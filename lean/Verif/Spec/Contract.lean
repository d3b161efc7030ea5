import Verif.Model.Trait

/-! # What a caller of the `Dht` trait may rely on

These definitions restate the documentation of the trait (src/lib.rs:15-87) and use nothing of the model but the record
`Dht` (the trait itself) and the result type. -/

namespace RustDHT

variable {T : Type}

/-- Apply `f` to every complete chunk of length `n`; a remainder stays as it is. -/
def mapChunks (n : Nat) (f : List T → List T) (l : List T) : List T :=
  if n = 0 ∨ l.length < n then l else f (l.take n) ++ mapChunks n f (l.drop n)
termination_by l.length
decreasing_by simp; omega

/-- The object `d` transforms every chunk with `f`: whenever the documented requirements on the slices are met,
both entry points succeed, the buffer (output) receives `f` of every chunk, whatever the scratch and the output held
before, no slice changes its length, and scratch beyond the reported length is not touched. -/
structure Implements (d : Dht T) (f : List T → List T) : Prop where
  length : ∀ x, x.length = d.len → (f x).length = d.len
  inplace : ∀ buffer scratch : List T,
    d.len ≤ buffer.length → d.len ∣ buffer.length → d.inplaceScratchLen ≤ scratch.length →
    ∃ scratch', d.processWithScratch buffer scratch = .ok (mapChunks d.len f buffer, scratch') ∧
      scratch'.length = scratch.length ∧
      scratch'.drop d.inplaceScratchLen = scratch.drop d.inplaceScratchLen
  oop : ∀ input output scratch : List T, output.length = input.length →
    d.len ≤ input.length → d.len ∣ input.length → d.oopScratchLen ≤ scratch.length →
    ∃ input' scratch',
      d.processOop input output scratch = .ok (input', mapChunks d.len f input, scratch') ∧
      input'.length = input.length ∧ scratch'.length = scratch.length ∧
      scratch'.drop d.oopScratchLen = scratch.drop d.oopScratchLen

/-- The panic message of the first violated requirement of `process_with_scratch`, in the order of
the documentation; `none` when all are met. -/
def inplaceViolation (len inplaceScratchLen bufferLen scratchLen : Nat) : Option PanicKind :=
  if bufferLen < len then some .bufferTooSmall
  else if ¬ len ∣ bufferLen then some .notMultiple
  else if scratchLen < inplaceScratchLen then some .scratchTooSmall
  else none

/-- The panic message of the first violated requirement of `process_outofplace_with_scratch`; `none` when all are met. -/
def oopViolation (len oopScratchLen inputLen outputLen scratchLen : Nat) : Option PanicKind :=
  if inputLen ≠ outputLen then some .lengthMismatch
  else if inputLen < len then some .bufferTooSmall
  else if ¬ len ∣ inputLen then some .notMultiple
  else if scratchLen < oopScratchLen then some .scratchTooSmall
  else none

/-- The object panics when a documented requirement is violated, with the message of the first violated one. -/
structure Rejects (d : Dht T) : Prop where
  inplace : ∀ (buffer scratch : List T) k,
    inplaceViolation d.len d.inplaceScratchLen buffer.length scratch.length = some k →
    d.processWithScratch buffer scratch = .error (.panic k)
  oop : ∀ (input output scratch : List T) k,
    oopViolation d.len d.oopScratchLen input.length output.length scratch.length = some k →
    d.processOop input output scratch = .error (.panic k)

/-- Scratch of exactly the reported length is enough: every call that meets the other requirements returns normally. -/
structure ScratchSuffices (d : Dht T) : Prop where
  inplace : ∀ buffer scratch : List T, d.len ≤ buffer.length → d.len ∣ buffer.length →
    scratch.length = d.inplaceScratchLen → ∃ r, d.processWithScratch buffer scratch = .ok r
  oop : ∀ input output scratch : List T, output.length = input.length → d.len ≤ input.length → d.len ∣ input.length →
    scratch.length = d.oopScratchLen → ∃ r, d.processOop input output scratch = .ok r

/-- Every call that meets the documented requirements returns normally, and the slices keep their lengths.  Nothing is said
about the values: they may be wrong, and they may depend on what the scratch and the output held before. -/
structure Accepts (d : Dht T) : Prop where
  inplace : ∀ buffer scratch : List T,
    d.len ≤ buffer.length → d.len ∣ buffer.length → d.inplaceScratchLen ≤ scratch.length →
    ∃ buffer' scratch', d.processWithScratch buffer scratch = .ok (buffer', scratch') ∧
      buffer'.length = buffer.length ∧ scratch'.length = scratch.length
  oop : ∀ input output scratch : List T, output.length = input.length →
    d.len ≤ input.length → d.len ∣ input.length → d.oopScratchLen ≤ scratch.length →
    ∃ input' output' scratch', d.processOop input output scratch = .ok (input', output', scratch') ∧
      input'.length = input.length ∧ output'.length = output.length ∧ scratch'.length = scratch.length

/-- What Rust's type system and safe code guarantee of any `Dht` object, however badly it behaves: a call returns or panics
(it has no undefined behaviour), and a slice keeps its length.  With `mayDiverge := True` a call may also run for ever;
with `mayDiverge := False` it may not. -/
structure SafeDht (mayDiverge : Prop) (d : Dht T) : Prop where
  inplace : ∀ buffer scratch : List T,
    match d.processWithScratch buffer scratch with
    | .ok (buffer', scratch') => buffer'.length = buffer.length ∧ scratch'.length = scratch.length
    | .error (.panic _) => True
    | .error .ub => False
    | .error .diverge => mayDiverge
  oop : ∀ input output scratch : List T,
    match d.processOop input output scratch with
    | .ok (input', output', scratch') =>
      input'.length = input.length ∧ output'.length = output.length ∧ scratch'.length = scratch.length
    | .error (.panic _) => True
    | .error .ub => False
    | .error .diverge => mayDiverge

end RustDHT
