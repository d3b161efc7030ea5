import Verif.Spec.Stateful

/-! # Relations between, and invariants of, the memory of objects -/

namespace RustDHT

variable {σ τ T : Type}

/-- Two calls end in the same way: both return, with related results, or both fail with the same error. -/
def Agree {α β : Type} (R : α → β → Prop) : Res α → Res β → Prop
  | .ok a, .ok b => R a b
  | .error e, .error e' => e = e'
  | .ok _, .error _ => False
  | .error _, .ok _ => False

/-- Two objects with different memories that cannot be told apart by calls: as long as the memories are related by `R`, the same
call gives the same answer and leaves related memories behind. -/
structure SameUpTo (R : σ → τ → Prop) (l : LiveDht σ T) (m : LiveDht τ T) : Prop where
  len : ∀ st st', R st st' → Agree (fun a b => a.1 = b.1 ∧ R a.2 b.2) (l.len st) (m.len st')
  inplaceScratchLen : ∀ st st', R st st' →
    Agree (fun a b => a.1 = b.1 ∧ R a.2 b.2) (l.inplaceScratchLen st) (m.inplaceScratchLen st')
  oopScratchLen : ∀ st st', R st st' → Agree (fun a b => a.1 = b.1 ∧ R a.2 b.2) (l.oopScratchLen st) (m.oopScratchLen st')
  process : ∀ (buffer : List T) st st', R st st' →
    Agree (fun a b => a.1 = b.1 ∧ R a.2 b.2) (l.process buffer st) (m.process buffer st')
  inplace : ∀ (buffer scratch : List T) st st', R st st' →
    Agree (fun a b => a.1 = b.1 ∧ a.2.1 = b.2.1 ∧ R a.2.2 b.2.2) (l.processWithScratch buffer scratch st)
      (m.processWithScratch buffer scratch st')
  oop : ∀ (input output scratch : List T) st st', R st st' →
    Agree (fun a b => a.1 = b.1 ∧ a.2.1 = b.2.1 ∧ a.2.2.1 = b.2.2.1 ∧ R a.2.2.2 b.2.2.2)
      (l.processOop input output scratch st) (m.processOop input output scratch st')

/-- The same constructors around objects related by `Q`. -/
inductive LiveTree.Rel (Q : LiveDht σ T → LiveDht τ T → Prop) : LiveTree σ T → LiveTree τ T → Prop
  | plan (p : Plan) : LiveTree.Rel Q (.plan p) (.plan p)
  | user {l : LiveDht σ T} {m : LiveDht τ T} (h : Q l m) : LiveTree.Rel Q (.user l) (.user m)
  | mixedRadix {w h : LiveTree σ T} {w' h' : LiveTree τ T} : LiveTree.Rel Q w w' → LiveTree.Rel Q h h' →
      LiveTree.Rel Q (.mixedRadix w h) (.mixedRadix w' h')
  | mr2 {h : LiveTree σ T} {h' : LiveTree τ T} : LiveTree.Rel Q h h' → LiveTree.Rel Q (.mr2 h) (.mr2 h')
  | mr3 {h : LiveTree σ T} {h' : LiveTree τ T} : LiveTree.Rel Q h h' → LiveTree.Rel Q (.mr3 h) (.mr3 h')
  | mr4 {h : LiveTree σ T} {h' : LiveTree τ T} : LiveTree.Rel Q h h' → LiveTree.Rel Q (.mr4 h) (.mr4 h')
  | mr5 {h : LiveTree σ T} {h' : LiveTree τ T} : LiveTree.Rel Q h h' → LiveTree.Rel Q (.mr5 h) (.mr5 h')
  | mr6 {h : LiveTree σ T} {h' : LiveTree τ T} : LiveTree.Rel Q h h' → LiveTree.Rel Q (.mr6 h) (.mr6 h')
  | splitRadix {q h : LiveTree σ T} {q' h' : LiveTree τ T} : LiveTree.Rel Q q q' → LiveTree.Rel Q h h' →
      LiveTree.Rel Q (.splitRadix q h) (.splitRadix q' h')
  | raders {i : LiveTree σ T} {i' : LiveTree τ T} : LiveTree.Rel Q i i' → LiveTree.Rel Q (.raders i) (.raders i')

/-- Every call that returns changes the memory as `G` allows, if the memory before the call is in `I`. -/
structure Moves (I : σ → Prop) (G : σ → σ → Prop) (d : LiveDht σ T) : Prop where
  len : ∀ st n st', I st → d.len st = .ok (n, st') → G st st'
  inplaceScratchLen : ∀ st n st', I st → d.inplaceScratchLen st = .ok (n, st') → G st st'
  oopScratchLen : ∀ st n st', I st → d.oopScratchLen st = .ok (n, st') → G st st'
  process : ∀ buffer st buffer' st', I st → d.process buffer st = .ok (buffer', st') → G st st'
  inplace : ∀ buffer scratch st buffer' scratch' st', I st →
    d.processWithScratch buffer scratch st = .ok (buffer', scratch', st') → G st st'
  oop : ∀ input output scratch st input' output' scratch' st', I st →
    d.processOop input output scratch st = .ok (input', output', scratch', st') → G st st'

/-- `I` is an invariant of the memory. -/
abbrev Keeps (I : σ → Prop) (d : LiveDht σ T) : Prop := Moves I (fun _ st' => I st') d

/-- The object does what `LiveImplements` says as long as the memory is in `I`, and valid calls leave it there.  In other states
it may do anything. -/
structure LiveImplementsOn (I : σ → Prop) (d : LiveDht σ T) (n i o : Nat) (f : List T → List T) : Prop where
  keeps : Keeps I d
  len : ∀ st, I st → ∃ st', d.len st = .ok (n, st')
  inplaceScratchLen : ∀ st, I st → ∃ st', d.inplaceScratchLen st = .ok (i, st')
  oopScratchLen : ∀ st, I st → ∃ st', d.oopScratchLen st = .ok (o, st')
  length : ∀ x, x.length = n → (f x).length = n
  process : ∀ (buffer : List T) st, I st → n ≤ buffer.length → n ∣ buffer.length →
    ∃ st', d.process buffer st = .ok (mapChunks n f buffer, st')
  inplace : ∀ (buffer scratch : List T) st, I st → n ≤ buffer.length → n ∣ buffer.length → i ≤ scratch.length →
    ∃ scratch' st', d.processWithScratch buffer scratch st = .ok (mapChunks n f buffer, scratch', st') ∧
      scratch'.length = scratch.length ∧ scratch'.drop i = scratch.drop i
  oop : ∀ (input output scratch : List T) st, I st → output.length = input.length → n ≤ input.length → n ∣ input.length →
    o ≤ scratch.length →
    ∃ input' scratch' st', d.processOop input output scratch st = .ok (input', mapChunks n f input, scratch', st') ∧
      input'.length = input.length ∧ scratch'.length = scratch.length ∧ scratch'.drop o = scratch.drop o

end RustDHT
