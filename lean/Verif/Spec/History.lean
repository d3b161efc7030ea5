import Verif.Spec.Contract

/-! # Sequences of calls that share one scratch buffer -/

namespace RustDHT

variable {T : Type}

/-- A call of one of the two entry points with scratch, without its scratch argument. -/
inductive Call (T : Type) where
  | inplace (d : Dht T) (buffer : List T)
  | outOfPlace (d : Dht T) (input output : List T)

/-- The object that is called. -/
def Call.object : Call T → Dht T
  | .inplace d _ => d
  | .outOfPlace d _ _ => d

/-- The reported scratch length for this call. -/
def Call.scratchLen : Call T → Nat
  | .inplace d _ => d.inplaceScratchLen
  | .outOfPlace d _ _ => d.oopScratchLen

/-- The documented requirements of the call, the one on scratch excepted. -/
def Call.Legal : Call T → Prop
  | .inplace d buffer => d.len ≤ buffer.length ∧ d.len ∣ buffer.length
  | .outOfPlace d input output => output.length = input.length ∧ d.len ≤ input.length ∧ d.len ∣ input.length

/-- Runs the call; returns the transformed buffer (the output) and the scratch. -/
def Call.run : Call T → List T → Res (List T × List T)
  | .inplace d buffer, scratch => d.processWithScratch buffer scratch
  | .outOfPlace d input output, scratch =>
    match d.processOop input output scratch with
    | .ok (_, output', scratch') => .ok (output', scratch')
    | .error e => .error e

/-- Runs the calls in order; each receives the scratch as the previous one left it. -/
def runHistory : List (Call T) → List T → Res (List (List T))
  | [], _ => .ok []
  | c :: cs, scratch =>
    match c.run scratch with
    | .ok (result, scratch') =>
      match runHistory cs scratch' with
      | .ok results => .ok (result :: results)
      | .error e => .error e
    | .error e => .error e

end RustDHT
