import Verif.Model.Core

/-! # Aliasing rules for one memory location

Rust has no official aliasing rules yet.  The two candidates are Stacked Borrows (Jung et al., POPL 2020) and Tree Borrows
(Villani et al., PLDI 2025).  Both keep for every location a state that says which pointers (tags) may still be used, and an access
through another pointer is undefined behaviour.  Protectors and interior mutability are left out: no pointer of the crate to which
they would matter is used while another one is live. -/

namespace RustDHT

/-- A set of aliasing rules.  `none` is undefined behaviour. -/
structure AliasRules where
  /-- the state of a location -/
  State : Type
  /-- A location whose only pointer is a mutable reference with tag 0. -/
  owned : State
  /-- reading through a tag -/
  read : Nat → State → Option State
  /-- writing through a tag -/
  write : Nat → State → Option State
  /-- `&*p`: makes a shared reference with a new tag from the tag of its parent -/
  shared : (parent new : Nat) → State → Option State
  /-- `&mut *p` -/
  unique : (parent new : Nat) → State → Option State
  /-- `p as *const T` of a shared reference, with the tag of the raw pointer -/
  rawConst : (parent new : Nat) → State → Option (State × Nat)
  /-- `p as *mut T` of a mutable reference -/
  rawMut : (parent new : Nat) → State → Option (State × Nat)

/-! ## Stacked Borrows -/

namespace StackedBorrows

inductive Perm
  | unique
  | sharedRW
  | sharedRO
  | disabled
  deriving DecidableEq

/-- The borrow stack, the top first. -/
abbrev Stack := List (Nat × Perm)

/-- The topmost item of the tag grants the read.  Unique items above it are disabled. -/
def read (t : Nat) : Stack → Option Stack
  | [] => none
  | (t', p) :: s =>
    if t' = t ∧ p ≠ .disabled then some ((t', p) :: s)
    else (read t s).map fun s' => (t', if p = .unique then .disabled else p) :: s'

/-- The topmost item of the tag that allows writing grants the write.  The items above it are removed, except shared read-write items
directly above a granting item of the same kind.  The Boolean says that such items are still kept. -/
def writeAux (t : Nat) : Stack → Option (Stack × Bool)
  | [] => none
  | (t', p) :: s =>
    if t' = t ∧ (p = .unique ∨ p = .sharedRW) then some ((t', p) :: s, p = .sharedRW)
    else (writeAux t s).map fun (s', keep) => if keep ∧ p = .sharedRW then ((t', p) :: s', true) else (s', false)

def write (t : Nat) (s : Stack) : Option Stack := (writeAux t s).map (·.1)

end StackedBorrows

/-- Stacked Borrows.  A shared reference is made by a read, a mutable reference by a write through the parent.  Raw pointers have
items of their own. -/
def stackedBorrows : AliasRules where
  State := StackedBorrows.Stack
  owned := [(0, .unique)]
  read := StackedBorrows.read
  write := StackedBorrows.write
  shared := fun p t s => (StackedBorrows.read p s).map ((t, .sharedRO) :: ·)
  unique := fun p t s => (StackedBorrows.write p s).map ((t, .unique) :: ·)
  rawConst := fun p t s => (StackedBorrows.read p s).map fun s => ((t, .sharedRO) :: s, t)
  rawMut := fun p t s => (StackedBorrows.write p s).map fun s => ((t, .sharedRW) :: s, t)

/-! ## Tree Borrows -/

namespace TreeBorrows

inductive Perm
  | reserved
  | active
  | frozen
  | disabled
  deriving DecidableEq

/-- Reading through a pointer or one of its descendants. -/
def Perm.localRead : Perm → Option Perm
  | .disabled => none
  | p => some p

/-- Writing through a pointer or one of its descendants. -/
def Perm.localWrite : Perm → Option Perm
  | .reserved | .active => some .active
  | .frozen | .disabled => none

/-- Reading through any other pointer. -/
def Perm.foreignRead : Perm → Perm
  | .active => .frozen
  | p => p

/-- Writing through any other pointer. -/
def Perm.foreignWrite : Perm → Perm
  | _ => .disabled

/-- A pointer: its tag, its permission, and the tags of its ancestors including itself. -/
structure Node where
  tag : Nat
  perm : Perm
  path : List Nat

abbrev Forest := List Node

/-- The tag and its ancestors. -/
def path (t : Nat) : Forest → Option (List Nat)
  | [] => none
  | n :: f => if n.tag = t then some n.path else path t f

/-- An access through `t` is local for `t` and its ancestors. -/
def access (own : Perm → Option Perm) (foreign : Perm → Perm) (t : Nat) (f : Forest) : Option Forest := do
  let path ← path t f
  f.mapM fun n => if n.tag ∈ path then (own n.perm).map fun p => { n with perm := p } else some { n with perm := foreign n.perm }

def read := access Perm.localRead Perm.foreignRead

def write := access Perm.localWrite Perm.foreignWrite

/-- A new pointer, made by a read through its parent. -/
def child (perm : Perm) (parent new : Nat) (f : Forest) : Option Forest := do
  let f ← read parent f
  let path ← path parent f
  some ({ tag := new, perm := perm, path := new :: path } :: f)

end TreeBorrows

/-- Tree Borrows.  A mutable reference is reserved until the first write and active from then on; `buffer` is the permission of the
reference with tag 0.  Raw pointers have the tag of the reference they are made from. -/
def treeBorrows (buffer : TreeBorrows.Perm) : AliasRules where
  State := TreeBorrows.Forest
  owned := [{ tag := 0, perm := buffer, path := [0] }]
  read := TreeBorrows.read
  write := TreeBorrows.write
  shared := TreeBorrows.child .frozen
  unique := TreeBorrows.child .reserved
  rawConst := fun p _ f => some (f, p)
  rawMut := fun p _ f => some (f, p)

end RustDHT
