import Verif.Model.Radix4Repaired

/-! # Patches for the other defects

This is not code of the crate.  It is the code as modelled elsewhere with these changes:

* `Butterfly1` (src/scalar/butterflies.rs:92-117) uses the macro of the other butterflies, so that it checks its slices.
* `MixedRadix2xn` to `MixedRadix6xn` hand scratch to the inner object: in place a part of their own scratch beyond the first
  `len` elements, out of place the scratch if it is longer than the input, else the input, as `MixedRadix` does
  (src/scalar/mixed_radix.rs:180-182 and 228-234).  The reported lengths follow.
* `SplitRadix` (src/scalar/split_radix.rs:40-41 and 115-160) likewise.
* `primitive_root` (src/math_utils.rs:62) searches `1..prime` instead of `2..prime`.
* `Radix4` as in `Model/Radix4Repaired.lean`. -/

namespace RustDHT

variable {T : Type} [Zero T] [Add T] [Sub T] [Mul T] [Neg T] [FftNum T]

/-- `perform_dht_contiguous` for one element. -/
def contiguous1 (m : RawIO T) : Res (RawIO T) := do
  let value0 ← m.load 0
  m.store value0 0

/-- `Butterfly1` (src/scalar/butterflies.rs:92-117) by the macro of src/scalar/butterflies.rs:9-89. -/
def butterfly1Patched (T : Type) : Dht T := boilerplateFftButterfly 1 contiguous1

/-- In place (radix2.rs:125-134 and its copies): the inner object gets the scratch after the first `len` elements. -/
def mrnPatchedInplace (k : Nat) (heightDht : Dht T) (height : Nat) (applyTwiddles : List T → Res (List T))
    (buffer scratch : List T) : Res (List T × List T) := do
  let (scratch, innerScratch) ← splitAt scratch (k * height)
  let scratch ← transposeHalfRevOut buffer scratch k height
  let (scratch, buffer, innerScratch) ← heightDht.processOop scratch buffer innerScratch
  let buffer ← applyTwiddles buffer
  .ok (buffer, scratch ++ innerScratch)

/-- Out of place (radix2.rs:136-150 and its copies): the inner object gets the longer of scratch and input. -/
def mrnPatchedOop (k : Nat) (heightDht : Dht T) (height : Nat) (applyTwiddles : List T → Res (List T))
    (input output scratch : List T) : Res (List T × List T × List T) := do
  let output ← transposeHalfRevOut input output k height
  let (output, input, scratch) ←
    if scratch.length > input.length then do
      let (output, scratch) ← heightDht.processWithScratch output scratch
      Except.ok (output, input, scratch)
    else do
      let (output, input) ← heightDht.processWithScratch output input
      Except.ok (output, input, scratch)
  let output ← applyTwiddles output
  .ok (input, output, scratch)

/-- The constructor shared by the five types (radix2.rs:45-63 and its copies). -/
def mixedRadixNPatched (k : Nat) (heightDht : Dht T) (applyTwiddles : List T → Res (List T)) : Dht T :=
  let height := heightDht.len
  let len := k * height
  boilerplateDht len (len + heightDht.oopScratchLen) (mrnOopScratch len heightDht)
    (mrnPatchedInplace k heightDht height applyTwiddles)
    (mrnPatchedOop k heightDht height applyTwiddles)

/-- `MixedRadix2xn::new(height_dht)`, patched at radix2.rs:45-63, 125-150. -/
def mixedRadix2xnPatched (heightDht : Dht T) : Dht T :=
  let height := heightDht.len
  mixedRadixNPatched 2 heightDht
    (applyColumns 2 height (performInPlace contiguous2) mr2Kernel ((mr2Twiddles T height).map fun t => [t]))

/-- `MixedRadix3xn::new(height_dht)`, patched at radix3.rs:51-69, 149-174. -/
def mixedRadix3xnPatched (heightDht : Dht T) : Dht T :=
  let height := heightDht.len
  mixedRadixNPatched 3 heightDht
    (applyColumns 3 height (performInPlace contiguous3) mr3Kernel ((mr3Twiddles T height).map fun t => [t]))

/-- `MixedRadix4xn::new(height_dht)`, patched at radix4.rs:46-64, 155-180. -/
def mixedRadix4xnPatched (heightDht : Dht T) : Dht T :=
  let height := heightDht.len
  mixedRadixNPatched 4 heightDht
    (applyColumns 4 height (performInPlace contiguous4) mr4Kernel (chunksExactAux 2 (mr4Twiddles T height)))

/-- `MixedRadix5xn::new(height_dht)`, patched at radix5.rs:52-70, 172-197. -/
def mixedRadix5xnPatched (heightDht : Dht T) : Dht T :=
  let height := heightDht.len
  mixedRadixNPatched 5 heightDht
    (applyColumns 5 height (performInPlace contiguous5) mr5Kernel (chunksExactAux 2 (mr5Twiddles T height)))

/-- `MixedRadix6xn::new(height_dht)`, patched at radix6.rs:53-71, 188-213. -/
def mixedRadix6xnPatched (heightDht : Dht T) : Dht T :=
  let height := heightDht.len
  mixedRadixNPatched 6 heightDht
    (applyColumns 6 height (performInPlace contiguous6) mr6Kernel (chunksExactAux 3 (mr6Twiddles T height)))

/-- src/scalar/split_radix.rs:115-134: the half object gets the whole scratch, the quarter object what lies after the first
half length. -/
def srPatchedInplace (quarterDht halfDht : Dht T) (len : Nat) (twiddles : List (Cx T))
    (buffer scratch : List T) : Res (List T × List T) := do
  let buffer ← srApplyTwiddles len twiddles buffer
  let halfLen := len / 2
  let quarterLen := len / 4
  let (evens, odds) ← splitAt buffer halfLen
  let (evens, scratch) ← halfDht.processWithScratch evens scratch
  let (scratch, innerScratch) ← splitAt scratch halfLen
  let (odds, scratch, innerScratch) ← quarterDht.processOop odds scratch innerScratch
  let buffer := evens ++ odds
  let (scratchQuarter1, scratchQuarter3) ← splitAt scratch quarterLen
  let buffer ← forList (List.range quarterLen).reverse buffer fun i buffer => do
    let v ← getU buffer (i * 2)
    let buffer ← setU buffer (4 * i + 0) v
    let v ← getU buffer (i * 2 + 1)
    let buffer ← setU buffer (4 * i + 2) v
    let v ← getU scratchQuarter1 i
    let buffer ← setU buffer (4 * i + 1) v
    let v ← getU scratchQuarter3 i
    setU buffer (4 * i + 3) v
  .ok (buffer, scratch ++ innerScratch)

/-- src/scalar/split_radix.rs:136-160: both inner objects get the longer of scratch and output. -/
def srPatchedOop (quarterDht halfDht : Dht T) (len : Nat) (twiddles : List (Cx T))
    (input output scratch : List T) : Res (List T × List T × List T) := do
  let input ← srApplyTwiddles len twiddles input
  let halfLen := len / 2
  let quarterLen := len / 4
  let (evens, odds) ← splitAt input halfLen
  let (evens, odds, output, scratch) ←
    if scratch.length > output.length then do
      let (evens, scratch) ← halfDht.processWithScratch evens scratch
      let (odds, scratch) ← quarterDht.processWithScratch odds scratch
      Except.ok (evens, odds, output, scratch)
    else do
      let (evens, output) ← halfDht.processWithScratch evens output
      let (odds, output) ← quarterDht.processWithScratch odds output
      Except.ok (evens, odds, output, scratch)
  let (quarter1, quarter3) ← splitAt odds quarterLen
  let output ← forRange 0 (output.length / 4) output fun i output => do
    let v ← getU evens (i * 2)
    let output ← setU output (4 * i + 0) v
    let v ← getU quarter1 i
    let output ← setU output (4 * i + 1) v
    let v ← getU evens (i * 2 + 1)
    let output ← setU output (4 * i + 2) v
    let v ← getU quarter3 i
    setU output (4 * i + 3) v
  .ok (evens ++ odds, output, scratch)

/-- `SplitRadix::new(quarter_dht, half_dht)`, src/scalar/split_radix.rs:21-46, with other scratch lengths. -/
def splitRadixPatched (quarterDht halfDht : Dht T) : Res (Dht T) := do
  let quarterLen := quarterDht.len
  let halfLen := halfDht.len
  assert (halfLen == quarterLen * 2) .assertFailed
  let len := quarterLen * 4
  let twiddles := srTwiddles T len
  let inner := max halfDht.inplaceScratchLen quarterDht.inplaceScratchLen
  .ok (boilerplateDht len (max halfDht.inplaceScratchLen (halfLen + quarterDht.oopScratchLen)) (if inner > len then inner else 0)
    (srPatchedInplace quarterDht halfDht len twiddles)
    (srPatchedOop quarterDht halfDht len twiddles))

/-- src/math_utils.rs:57-74 with `1..prime` in line 62 -/
def primitiveRootPatched (prime : Nat) : Res (Option Nat) :=
  if prime = 0 then panic .overflow else do
    let factors ← distinctPrimeFactors (prime - 1)
    let testExponents := factors.map fun factor => (prime - 1) / factor
    searchRoot prime testExponents (List.range' 1 (prime - 1))

/-- `RadersAlgorithm::new(inner_dht)`, src/scalar/raders_algorithm.rs:29-98, with the patched `primitive_root` -/
def radersPatched (innerDht : Dht T) : Res (Dht T) := do
  let innerLen := innerDht.len
  let len := innerLen + 1
  assert (millerRabin len) .assertFailed
  let root ← primitiveRootPatched len
  match root with
  | none => panic .unwrapNone
  | some root => do
    let rootInv := rootInverse root len
    let kernel ← radersKernelInput T innerLen len rootInv
    let kernel ← innerDht.process kernel
    let twiddles ← radersTwiddles kernel
    let required := innerDht.inplaceScratchLen
    let extra := if required ≤ innerLen then 0 else required
    .ok (boilerplateDht len (innerLen + extra) extra
      (radersPerformInplace innerDht len root rootInv twiddles)
      (radersPerformOop innerDht len root rootInv twiddles))

/-- The constructor expressions of src/scalar/mod.rs with all patches. -/
def Plan.patched (T : Type) [Zero T] [Add T] [Sub T] [Mul T] [Neg T] [FftNum T] : Plan → Res (Dht T)
  | .naive len => .ok (dhtNaive T len)
  | .b1 => .ok (butterfly1Patched T)
  | .b2 => .ok (butterfly2 T)
  | .b3 => .ok (butterfly3 T)
  | .b4 => .ok (butterfly4 T)
  | .b5 => .ok (butterfly5 T)
  | .b6 => .ok (butterfly6 T)
  | .b8 => .ok (butterfly8 T)
  | .b9 => .ok (butterfly9 T)
  | .b16 => .ok (butterfly16 T)
  | .mixedRadix w h => do
    let w ← w.patched T
    let h ← h.patched T
    .ok (RustDHT.mixedRadix w h)
  | .mr2 h => do let h ← h.patched T; .ok (mixedRadix2xnPatched h)
  | .mr3 h => do let h ← h.patched T; .ok (mixedRadix3xnPatched h)
  | .mr4 h => do let h ← h.patched T; .ok (mixedRadix4xnPatched h)
  | .mr5 h => do let h ← h.patched T; .ok (mixedRadix5xnPatched h)
  | .mr6 h => do let h ← h.patched T; .ok (mixedRadix6xnPatched h)
  | .radix4 len => radix4Repaired T len
  | .splitRadix q h => do
    let q ← q.patched T
    let h ← h.patched T
    splitRadixPatched q h
  | .raders inner => do
    let inner ← inner.patched T
    radersPatched inner

/-- The same with objects from outside the crate. -/
def Tree.patched : Tree T → Res (Dht T)
  | .plan p => p.patched T
  | .user d => .ok d
  | .mixedRadix w h => do
    let w ← w.patched
    let h ← h.patched
    .ok (RustDHT.mixedRadix w h)
  | .mr2 h => do let h ← h.patched; .ok (mixedRadix2xnPatched h)
  | .mr3 h => do let h ← h.patched; .ok (mixedRadix3xnPatched h)
  | .mr4 h => do let h ← h.patched; .ok (mixedRadix4xnPatched h)
  | .mr5 h => do let h ← h.patched; .ok (mixedRadix5xnPatched h)
  | .mr6 h => do let h ← h.patched; .ok (mixedRadix6xnPatched h)
  | .splitRadix q h => do
    let q ← q.patched
    let h ← h.patched
    splitRadixPatched q h
  | .raders inner => do
    let inner ← inner.patched
    radersPatched inner

end RustDHT
