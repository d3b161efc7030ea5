import Verif.Spec.Stateful

/-! # Which methods of an inner object are called -/

namespace RustDHT

variable {σ T ι : Type}

/-- A finished call of a method of the object `who`: for the length methods with the number that was returned, for the others with
the lengths of the slices that were passed. -/
inductive InnerCall (ι : Type) where
  | len (who : ι) (answer : Nat)
  | inplaceScratchLen (who : ι) (answer : Nat)
  | oopScratchLen (who : ι) (answer : Nat)
  | process (who : ι) (buffer : Nat)
  | inplace (who : ι) (buffer scratch : Nat)
  | oop (who : ι) (input output scratch : Nat)
deriving DecidableEq

/-- The object writes down every call of its methods that returns, and changes the log in no other way. -/
structure Logs (log : σ → List (InnerCall ι)) (who : ι) (d : LiveDht σ T) : Prop where
  len : ∀ {st n st'}, d.len st = .ok (n, st') → log st' = log st ++ [.len who n]
  inplaceScratchLen : ∀ {st n st'}, d.inplaceScratchLen st = .ok (n, st') → log st' = log st ++ [.inplaceScratchLen who n]
  oopScratchLen : ∀ {st n st'}, d.oopScratchLen st = .ok (n, st') → log st' = log st ++ [.oopScratchLen who n]
  process : ∀ {b st b' st'}, d.process b st = .ok (b', st') → log st' = log st ++ [.process who b.length]
  inplace : ∀ {b s st b' s' st'}, d.processWithScratch b s st = .ok (b', s', st') →
    log st' = log st ++ [.inplace who b.length s.length]
  oop : ∀ {i o s st i' o' s' st'}, d.processOop i o s st = .ok (i', o', s', st') →
    log st' = log st ++ [.oop who i.length o.length s.length]

/-- Whenever a call of a method of `d` returns, it has made the calls `inplace` (or `oop`) for each chunk of length `n`, in this
order, and no others; the length methods make none. -/
structure MakesCalls (log : σ → List (InnerCall ι)) (d : LiveDht σ T) (n : Nat) (inplaceCalls oopCalls : List (InnerCall ι)) : Prop where
  len : ∀ {st k st'}, d.len st = .ok (k, st') → k = n ∧ log st' = log st
  inplaceScratchLen : ∀ {st k st'}, d.inplaceScratchLen st = .ok (k, st') → log st' = log st
  oopScratchLen : ∀ {st k st'}, d.oopScratchLen st = .ok (k, st') → log st' = log st
  process : ∀ {b st b' st'}, d.process b st = .ok (b', st') →
    log st' = log st ++ (List.replicate (b.length / n) inplaceCalls).flatten
  inplace : ∀ {b s st b' s' st'}, d.processWithScratch b s st = .ok (b', s', st') →
    log st' = log st ++ (List.replicate (b.length / n) inplaceCalls).flatten
  oop : ∀ {i o s st i' o' s' st'}, d.processOop i o s st = .ok (i', o', s', st') →
    log st' = log st ++ (List.replicate (i.length / n) oopCalls).flatten

end RustDHT
