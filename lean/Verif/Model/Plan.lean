import Verif.Model.Naive
import Verif.Model.MixedRadix
import Verif.Model.Radix4
import Verif.Model.SplitRadix
import Verif.Model.Raders

/-! # Compositions of the crate's public constructors

The public API (src/scalar/mod.rs) lets a caller nest constructors in any way.  A `Plan` is such an expression and
`Plan.build` runs the constructors, innermost first. -/

namespace RustDHT

/-- An expression built from the public constructors of src/scalar/mod.rs. -/
inductive Plan where
  | naive (len : Nat)
  | b1 | b2 | b3 | b4 | b5 | b6 | b8 | b9 | b16
  | mixedRadix (width height : Plan)
  | mr2 (height : Plan)
  | mr3 (height : Plan)
  | mr4 (height : Plan)
  | mr5 (height : Plan)
  | mr6 (height : Plan)
  | radix4 (len : Nat)
  | splitRadix (quarter half : Plan)
  | raders (inner : Plan)

variable (T : Type) [Add T] [Sub T] [Mul T] [Neg T] [Zero T] [FftNum T]

/-- Evaluates the constructor expression. -/
def Plan.build : Plan → Res (Dht T)
  | .naive len => .ok (dhtNaive T len)
  | .b1 => .ok (butterfly1 T)
  | .b2 => .ok (butterfly2 T)
  | .b3 => .ok (butterfly3 T)
  | .b4 => .ok (butterfly4 T)
  | .b5 => .ok (butterfly5 T)
  | .b6 => .ok (butterfly6 T)
  | .b8 => .ok (butterfly8 T)
  | .b9 => .ok (butterfly9 T)
  | .b16 => .ok (butterfly16 T)
  | .mixedRadix w h => do
    let w ← w.build
    let h ← h.build
    .ok (RustDHT.mixedRadix w h)
  | .mr2 h => do let h ← h.build; .ok (mixedRadix2xn h)
  | .mr3 h => do let h ← h.build; .ok (mixedRadix3xn h)
  | .mr4 h => do let h ← h.build; .ok (mixedRadix4xn h)
  | .mr5 h => do let h ← h.build; .ok (mixedRadix5xn h)
  | .mr6 h => do let h ← h.build; .ok (mixedRadix6xn h)
  | .radix4 len => RustDHT.radix4 T len
  | .splitRadix q h => do
    let q ← q.build
    let h ← h.build
    RustDHT.splitRadix q h
  | .raders inner => do
    let inner ← inner.build
    RustDHT.raders inner

/-- An expression of constructors in which some inner objects come from outside the crate: the trait is public
(src/lib.rs:21-87), so a caller may pass an own implementation wherever an `Arc<dyn Dht<T>>` is expected. -/
inductive Tree (T : Type) where
  | plan (p : Plan)
  | user (d : Dht T)
  | mixedRadix (width height : Tree T)
  | mr2 (height : Tree T)
  | mr3 (height : Tree T)
  | mr4 (height : Tree T)
  | mr5 (height : Tree T)
  | mr6 (height : Tree T)
  | splitRadix (quarter half : Tree T)
  | raders (inner : Tree T)

/-- The objects of the caller that occur in the expression. -/
def Tree.users {T : Type} : Tree T → List (Dht T)
  | .plan _ => []
  | .user d => [d]
  | .mixedRadix w h => w.users ++ h.users
  | .mr2 h | .mr3 h | .mr4 h | .mr5 h | .mr6 h => h.users
  | .splitRadix q h => q.users ++ h.users
  | .raders i => i.users

/-- Evaluates the constructor expression. -/
def Tree.build {T : Type} [Add T] [Sub T] [Mul T] [Neg T] [Zero T] [FftNum T] : Tree T → Res (Dht T)
  | .plan p => p.build T
  | .user d => .ok d
  | .mixedRadix w h => do
    let w ← w.build
    let h ← h.build
    .ok (RustDHT.mixedRadix w h)
  | .mr2 h => do let h ← h.build; .ok (mixedRadix2xn h)
  | .mr3 h => do let h ← h.build; .ok (mixedRadix3xn h)
  | .mr4 h => do let h ← h.build; .ok (mixedRadix4xn h)
  | .mr5 h => do let h ← h.build; .ok (mixedRadix5xn h)
  | .mr6 h => do let h ← h.build; .ok (mixedRadix6xn h)
  | .splitRadix q h => do
    let q ← q.build
    let h ← h.build
    RustDHT.splitRadix q h
  | .raders inner => do
    let inner ← inner.build
    RustDHT.raders inner

end RustDHT
