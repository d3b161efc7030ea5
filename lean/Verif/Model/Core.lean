/-!
# Core of the model: faults, slices, loops

The model is written in plain Lean (no Mathlib).  A Rust slice is a `List`, a function that
mutates a slice returns the new list, and everything that can go wrong is an explicit `Fault`.
-/

namespace RustDHT

/-- Which Rust panic was raised.  The first four are the documented panics of the `Dht` trait
(assertion messages in src/lib.rs:99-118 and src/lib.rs:131-150); the others are raised by the
standard library or by other assertions. -/
inductive PanicKind where
  /-- "Provided DHT buffer was too small" (src/lib.rs:99-104, 132-137) -/
  | bufferTooSmall
  /-- "Input DHT buffer must be a multiple of DHT length" (src/lib.rs:105-111, 138-144) -/
  | notMultiple
  /-- "Not enough scratch space was provided" (src/lib.rs:112-117, 145-150) -/
  | scratchTooSmall
  /-- "Provided DHT input buffer and output buffer must have the same length" (src/lib.rs:131) -/
  | lengthMismatch
  /-- a bounds-checked index or slice range was out of range -/
  | index
  /-- `unwrap()` of `None` -/
  | unwrapNone
  /-- any other `assert!`/`assert_eq!` -/
  | assertFailed
  /-- `copy_from_slice` with different lengths -/
  | copyLength
  /-- `chunks_exact(0)` -/
  | chunkSizeZero
  /-- arithmetic overflow (reported by a debug build; a release build wraps) -/
  | overflow
  /-- division or remainder by zero -/
  | divByZero
  /-- "capacity overflow" of `Vec` -/
  | capacityOverflow
  deriving DecidableEq, Repr

/-- Everything that can prevent a call from returning normally. -/
inductive Fault where
  /-- a Rust panic -/
  | panic (k : PanicKind)
  /-- undefined behaviour: an out-of-bounds unchecked access -/
  | ub
  /-- the call never returns -/
  | diverge
  deriving DecidableEq, Repr

/-- Result of a modelled call. -/
abbrev Res (α : Type) := Except Fault α

/-- `panic!` with the given kind. -/
def panic {α : Type} (k : PanicKind) : Res α := .error (.panic k)

/-- Rust's `assert!`. -/
def assert (b : Bool) (k : PanicKind) : Res Unit := if b then .ok () else panic k

variable {α σ : Type}

/-- Bounds-checked read `l[i]`. -/
def getI (l : List α) (i : Nat) : Res α :=
  match l[i]? with
  | some v => .ok v
  | none => panic .index

/-- Bounds-checked write `l[i] = v`. -/
def setI (l : List α) (i : Nat) (v : α) : Res (List α) :=
  if i < l.length then .ok (l.set i v) else panic .index

/-- `*l.get_unchecked(i)`: undefined behaviour when out of bounds. -/
def getU (l : List α) (i : Nat) : Res α :=
  match l[i]? with
  | some v => .ok v
  | none => .error .ub

/-- `*l.get_unchecked_mut(i) = v`: undefined behaviour when out of bounds. -/
def setU (l : List α) (i : Nat) (v : α) : Res (List α) :=
  if i < l.length then .ok (l.set i v) else .error .ub

/-- `for i in lo..hi { s = body(i, s) }`. -/
def forRange (lo hi : Nat) (s : σ) (body : Nat → σ → Res σ) : Res σ :=
  (List.range' lo (hi - lo)).foldlM (fun s i => body i s) s

/-- `for x in xs { s = body(x, s) }`. -/
def forList (xs : List α) (s : σ) (body : α → σ → Res σ) : Res σ :=
  xs.foldlM (fun s x => body x s) s

/-- `l.split_at_mut(n)`: panics when `n > l.len()`. -/
def splitAt (l : List α) (n : Nat) : Res (List α × List α) :=
  if n ≤ l.length then .ok (l.take n, l.drop n) else panic .index

/-- The chunks of `l.chunks_exact(n)` for `n > 0` (the remainder is not visited). -/
def chunksExactAux (n : Nat) (l : List α) : List (List α) :=
  if n = 0 then [] else
  if n ≤ l.length then l.take n :: chunksExactAux n (l.drop n) else []
termination_by l.length
decreasing_by simp; omega

/-- `l.chunks_exact(n)`: panics when `n == 0`. -/
def chunksExact (n : Nat) (l : List α) : Res (List (List α)) :=
  if n = 0 then panic .chunkSizeZero else .ok (chunksExactAux n l)

end RustDHT
