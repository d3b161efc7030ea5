import Verif.Model.Stateful
import Verif.Spec.Contract

/-! # What may be assumed of an object with memory -/

namespace RustDHT

variable {σ T : Type}

/-- What Rust's type system and safe code guarantee of any `Dht` object with memory, however badly it behaves: in every state, a
call returns or panics (it has no undefined behaviour), and a slice keeps its length.  Nothing is said about the numbers that it
reports: they may change from call to call.  With `mayDiverge := True` a call may also run for ever. -/
structure LiveSafe (mayDiverge : Prop) (d : LiveDht σ T) : Prop where
  len : ∀ st, match d.len st with
    | .ok _ | .error (.panic _) => True
    | .error .ub => False
    | .error .diverge => mayDiverge
  inplaceScratchLen : ∀ st, match d.inplaceScratchLen st with
    | .ok _ | .error (.panic _) => True
    | .error .ub => False
    | .error .diverge => mayDiverge
  oopScratchLen : ∀ st, match d.oopScratchLen st with
    | .ok _ | .error (.panic _) => True
    | .error .ub => False
    | .error .diverge => mayDiverge
  process : ∀ (buffer : List T) st, match d.process buffer st with
    | .ok (buffer', _) => buffer'.length = buffer.length
    | .error (.panic _) => True
    | .error .ub => False
    | .error .diverge => mayDiverge
  inplace : ∀ (buffer scratch : List T) st, match d.processWithScratch buffer scratch st with
    | .ok (buffer', scratch', _) => buffer'.length = buffer.length ∧ scratch'.length = scratch.length
    | .error (.panic _) => True
    | .error .ub => False
    | .error .diverge => mayDiverge
  oop : ∀ (input output scratch : List T) st, match d.processOop input output scratch st with
    | .ok (input', output', scratch', _) =>
      input'.length = input.length ∧ output'.length = output.length ∧ scratch'.length = scratch.length
    | .error (.panic _) => True
    | .error .ub => False
    | .error .diverge => mayDiverge

/-- The memory of the object does not show: in every state it answers like the object `d` without memory. -/
structure ActsLike (l : LiveDht σ T) (d : Dht T) [Zero T] : Prop where
  len : ∀ st, ∃ st', l.len st = .ok (d.len, st')
  inplaceScratchLen : ∀ st, ∃ st', l.inplaceScratchLen st = .ok (d.inplaceScratchLen, st')
  oopScratchLen : ∀ st, ∃ st', l.oopScratchLen st = .ok (d.oopScratchLen, st')
  process : ∀ (buffer : List T) st, match d.process buffer with
    | .ok buffer' => ∃ st', l.process buffer st = .ok (buffer', st')
    | .error e => l.process buffer st = .error e
  inplace : ∀ (buffer scratch : List T) st, match d.processWithScratch buffer scratch with
    | .ok (buffer', scratch') => ∃ st', l.processWithScratch buffer scratch st = .ok (buffer', scratch', st')
    | .error e => l.processWithScratch buffer scratch st = .error e
  oop : ∀ (input output scratch : List T) st, match d.processOop input output scratch with
    | .ok (input', output', scratch') =>
      ∃ st', l.processOop input output scratch st = .ok (input', output', scratch', st')
    | .error e => l.processOop input output scratch st = .error e

/-- The same constructors around objects whose memory does not show. -/
inductive LiveTree.ActsLike [Zero T] : LiveTree σ T → Tree T → Prop
  | plan (p : Plan) : LiveTree.ActsLike (.plan p) (.plan p)
  | user {l : LiveDht σ T} {d : Dht T} (h : RustDHT.ActsLike l d) : LiveTree.ActsLike (.user l) (.user d)
  | mixedRadix {w h : LiveTree σ T} {w' h' : Tree T} : w.ActsLike w' → h.ActsLike h' →
      LiveTree.ActsLike (.mixedRadix w h) (.mixedRadix w' h')
  | mr2 {h : LiveTree σ T} {h' : Tree T} : h.ActsLike h' → LiveTree.ActsLike (.mr2 h) (.mr2 h')
  | mr3 {h : LiveTree σ T} {h' : Tree T} : h.ActsLike h' → LiveTree.ActsLike (.mr3 h) (.mr3 h')
  | mr4 {h : LiveTree σ T} {h' : Tree T} : h.ActsLike h' → LiveTree.ActsLike (.mr4 h) (.mr4 h')
  | mr5 {h : LiveTree σ T} {h' : Tree T} : h.ActsLike h' → LiveTree.ActsLike (.mr5 h) (.mr5 h')
  | mr6 {h : LiveTree σ T} {h' : Tree T} : h.ActsLike h' → LiveTree.ActsLike (.mr6 h) (.mr6 h')
  | splitRadix {q h : LiveTree σ T} {q' h' : Tree T} : q.ActsLike q' → h.ActsLike h' →
      LiveTree.ActsLike (.splitRadix q h) (.splitRadix q' h')
  | raders {i : LiveTree σ T} {i' : Tree T} : i.ActsLike i' → LiveTree.ActsLike (.raders i) (.raders i')

/-- In every state the object reports the lengths `n`, `i` and `o` and transforms every chunk with `f`, as in `Implements`.  What
it leaves in the scratch, and in the input of `process_outofplace_with_scratch`, may depend on the state. -/
structure LiveImplements (d : LiveDht σ T) (n i o : Nat) (f : List T → List T) : Prop where
  len : ∀ st, ∃ st', d.len st = .ok (n, st')
  inplaceScratchLen : ∀ st, ∃ st', d.inplaceScratchLen st = .ok (i, st')
  oopScratchLen : ∀ st, ∃ st', d.oopScratchLen st = .ok (o, st')
  length : ∀ x, x.length = n → (f x).length = n
  process : ∀ (buffer : List T) st, n ≤ buffer.length → n ∣ buffer.length →
    ∃ st', d.process buffer st = .ok (mapChunks n f buffer, st')
  inplace : ∀ (buffer scratch : List T) st, n ≤ buffer.length → n ∣ buffer.length → i ≤ scratch.length →
    ∃ scratch' st', d.processWithScratch buffer scratch st = .ok (mapChunks n f buffer, scratch', st') ∧
      scratch'.length = scratch.length ∧ scratch'.drop i = scratch.drop i
  oop : ∀ (input output scratch : List T) st, output.length = input.length → n ≤ input.length → n ∣ input.length →
    o ≤ scratch.length →
    ∃ input' scratch' st', d.processOop input output scratch st = .ok (input', mapChunks n f input, scratch', st') ∧
      input'.length = input.length ∧ scratch'.length = scratch.length ∧ scratch'.drop o = scratch.drop o

end RustDHT
