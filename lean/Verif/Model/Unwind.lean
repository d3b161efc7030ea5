import Verif.Model.Plan

/-! # The slices after a call that panics

A result of type `Res` forgets the slices when a call panics.  In Rust they are still there: the caller lent them, and sees
them again when the panic is caught (`std::panic::catch_unwind`), or from a destructor that runs while the stack unwinds.
Here the macros that implement the trait are modelled once more, statement by statement as in Verif/Model/Trait.lean, and
this time a failed check of the macros keeps the slices.  A panic inside the transform of one chunk is not followed
further: for it the model still forgets the slices. -/

namespace RustDHT

variable {T α : Type}

/-- What the caller sees when a call is over. -/
inductive Seen (α : Type) where
  /-- The call returned; the slices hold this. -/
  | returned (left : α)
  /-- A check of the macros panicked with this message; the slices hold this. -/
  | unwound (k : PanicKind) (left : α)
  /-- Something went wrong while one chunk was transformed; nothing is said about the slices. -/
  | inside (f : Fault)

/-- Forgets the slices of a call that panicked. -/
def Seen.forget : Seen α → Res α
  | .returned a => .ok a
  | .unwound k _ => .error (.panic k)
  | .inside f => .error f

/-- A call of `dht_error_inplace` or `dht_error_outofplace` (src/lib.rs:93-151) as the last statement, while the slices
hold `left`. -/
def Seen.check (r : Res Unit) (left : α) : Seen α :=
  match r with
  | .ok () => .returned left
  | .error (.panic k) => .unwound k left
  | .error f => .inside f

/-- The end of a method after the loop over the chunks: `if result.is_err() { dht_error_…(…) }`. -/
def Seen.afterLoop (ok : Bool) (err : Res Unit) (left : α) : Seen α :=
  if ok then .returned left else Seen.check err left

/-- The types that implement the trait, by the macro that writes the implementation: src/macros.rs:88-187, src/macros.rs:1-85,
src/scalar/butterflies.rs:11-90, and `Butterfly1`, which has none (src/scalar/butterflies.rs:92-117). -/
inductive Macro (T : Type) where
  | dht (len inplaceScratchLen oopScratchLen : Nat)
      (performInplace : List T → List T → Res (List T × List T))
      (performOop : List T → List T → List T → Res (List T × List T × List T))
  | oop (len : Nat) (perform : List T → List T → Res (List T))
  | butterfly (len : Nat) (contiguous : RawIO T → Res (RawIO T))
  | butterfly1

/-- The object the macro makes, as everywhere else in the model. -/
def Macro.object : Macro T → Dht T
  | .dht len is os pin poop => boilerplateDht len is os pin poop
  | .oop len p => boilerplateDhtOop len p
  | .butterfly len c => boilerplateFftButterfly len c
  | .butterfly1 => RustDHT.butterfly1 T

/-- `process_with_scratch` as seen by the caller: src/macros.rs:139-171, src/macros.rs:35-68,
src/scalar/butterflies.rs:57-73 and 107-109. -/
def Macro.seenInplace (m : Macro T) (buffer scratch : List T) : Seen (List T × List T) :=
  match m with
  | .dht len inplaceScratchLen _ performInplace _ =>
    if len = 0 then .returned (buffer, scratch) else
    let requiredScratch := inplaceScratchLen
    if scratch.length < requiredScratch ∨ buffer.length < len then
      Seen.check (dhtErrorInplace len buffer.length inplaceScratchLen scratch.length) (buffer, scratch)
    else
      match iterChunks len performInplace buffer (scratch.take requiredScratch) with
      | .error f => .inside f
      | .ok (ok, buffer', scratch') =>
        Seen.afterLoop ok (dhtErrorInplace len buffer.length inplaceScratchLen requiredScratch)
          (buffer', scratch' ++ scratch.drop requiredScratch)
  | .oop len perform =>
    if len = 0 then .returned (buffer, scratch) else
    let requiredScratch := len
    if scratch.length < requiredScratch ∨ buffer.length < len then
      Seen.check (dhtErrorInplace len buffer.length len scratch.length) (buffer, scratch)
    else
      match iterChunks len
        (fun chunk scratch => do
          let scratch ← perform chunk scratch
          if chunk.length = scratch.length then .ok (scratch, scratch) else panic .copyLength)
        buffer (scratch.take requiredScratch) with
      | .error f => .inside f
      | .ok (ok, buffer', scratch') =>
        Seen.afterLoop ok (dhtErrorInplace len buffer.length len requiredScratch)
          (buffer', scratch' ++ scratch.drop requiredScratch)
  | .butterfly len contiguous =>
    if buffer.length < len then
      Seen.check (dhtErrorInplace len buffer.length 0 0) (buffer, scratch)
    else
      match iterChunks len
        (fun chunk (_ : Unit) => do
          let chunk ← performInPlace contiguous chunk
          .ok (chunk, ())) buffer () with
      | .error f => .inside f
      | .ok (ok, buffer', _) =>
        Seen.afterLoop ok (dhtErrorInplace len buffer.length 0 0) (buffer', scratch)
  | .butterfly1 => .returned (buffer, scratch)

/-- `process_outofplace_with_scratch` as seen by the caller: src/macros.rs:91-138, src/macros.rs:4-34,
src/scalar/butterflies.rs:25-56 and 98-105. -/
def Macro.seenOop (m : Macro T) (input output scratch : List T) : Seen (List T × List T × List T) :=
  match m with
  | .dht len _ oopScratchLen _ performOop =>
    if len = 0 then .returned (input, output, scratch) else
    let requiredScratch := oopScratchLen
    if scratch.length < requiredScratch ∨ input.length < len ∨ output.length ≠ input.length then
      Seen.check (dhtErrorOutofplace len input.length output.length oopScratchLen scratch.length)
        (input, output, scratch)
    else
      match iterChunksZipped len performOop input output (scratch.take requiredScratch) with
      | .error f => .inside f
      | .ok (ok, input', output', scratch') =>
        Seen.afterLoop ok (dhtErrorOutofplace len input.length output.length oopScratchLen requiredScratch)
          (input', output', scratch' ++ scratch.drop requiredScratch)
  | .oop len perform =>
    if len = 0 then .returned (input, output, scratch) else
    if input.length < len ∨ output.length ≠ input.length then
      Seen.check (dhtErrorOutofplace len input.length output.length 0 0) (input, output, scratch)
    else
      match iterChunksZipped len
        (fun inChunk outChunk (_ : Unit) => do
          let outChunk ← perform inChunk outChunk
          .ok (inChunk, outChunk, ())) input output () with
      | .error f => .inside f
      | .ok (ok, input', output', _) =>
        Seen.afterLoop ok (dhtErrorOutofplace len input.length output.length 0 0) (input', output', scratch)
  | .butterfly len contiguous =>
    if input.length < len ∨ output.length ≠ input.length then
      Seen.check (dhtErrorOutofplace len input.length output.length 0 0) (input, output, scratch)
    else
      match iterChunksZipped len
        (fun inChunk outChunk (_ : Unit) => do
          let m ← contiguous { inp := inChunk, out := outChunk, aliased := false }
          .ok (m.inp, m.out, ())) input output () with
      | .error f => .inside f
      | .ok (ok, input', output', _) =>
        Seen.afterLoop ok (dhtErrorOutofplace len input.length output.length 0 0) (input', output', scratch)
  | .butterfly1 =>
    -- `output.copy_from_slice(&input)` compares the lengths before it copies
    if output.length = input.length then .returned (input, input, scratch)
    else .unwound .copyLength (input, output, scratch)

end RustDHT
