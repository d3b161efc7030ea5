import Verif.Model.Plan

/-! # benches/bench_dht.rs: the no-op object, the functions that build nested algorithms, and the benchmarks

`Bencher::iter` (crate `test`) calls its closure some number of times that depends on the clock: here `iters`, an argument.
The time it measures is not modelled.  The benchmarks run at `f32`; here at any type. -/

namespace RustDHT

/-- benches/bench_dht.rs:13-24 `Noop { len }` -/
def noop (T : Type) (len : Nat) : Dht T where
  len := len
  inplaceScratchLen := len
  oopScratchLen := 0
  processWithScratch := fun buffer scratch => .ok (buffer, scratch)
  processOop := fun input output scratch => .ok (input, output, scratch)

variable (T : Type) [Add T] [Sub T] [Mul T] [Neg T] [Zero T] [FftNum T]

/-- benches/bench_dht.rs:81-90 `make_4xn_radix4`.  `panic!()` in the first arm. -/
def make4xnRadix4 (len : Nat) : Res (Dht T) :=
  if _h : len = 0 ∨ len = 1 then panic .assertFailed
  else if len = 2 then .ok (butterfly2 T)
  else if len = 4 then .ok (butterfly4 T)
  else if len = 8 then .ok (butterfly8 T)
  else if len = 16 then .ok (butterfly16 T)
  else do
    let inner ← make4xnRadix4 (len / 4)
    .ok (mixedRadix4xn inner)
termination_by len
decreasing_by omega

/-- benches/bench_dht.rs:179-186 `make_3xn_radix3` -/
def make3xnRadix3 (len : Nat) : Res (Dht T) :=
  if _h : len = 0 ∨ len = 1 then panic .assertFailed
  else if len = 3 then .ok (butterfly3 T)
  else if len = 9 then .ok (butterfly9 T)
  else do
    let inner ← make3xnRadix3 (len / 3)
    .ok (mixedRadix3xn inner)
termination_by len
decreasing_by omega

/-- benches/bench_dht.rs:208-214 `make_5xn_radix5` -/
def make5xnRadix5 (len : Nat) : Res (Dht T) :=
  if _h : len = 0 ∨ len = 1 then panic .assertFailed
  else if len = 5 then .ok (butterfly5 T)
  else do
    let inner ← make5xnRadix5 (len / 5)
    .ok (mixedRadix5xn inner)
termination_by len
decreasing_by omega

/-- benches/bench_dht.rs:234-240 `make_6xn_radix6` -/
def make6xnRadix6 (len : Nat) : Res (Dht T) :=
  if _h : len = 0 ∨ len = 1 then panic .assertFailed
  else if len = 6 then .ok (butterfly6 T)
  else do
    let inner ← make6xnRadix6 (len / 6)
    .ok (mixedRadix6xn inner)
termination_by len
decreasing_by omega

variable {T} in
/-- The loop of `make_splitradix`, benches/bench_dht.rs:146-151. -/
def splitradixLoop (index : Nat) (transforms : List (Dht T)) : Res (List (Dht T)) :=
  if _h : transforms.length ≤ index then do
    -- `transforms.len() - 2` does not underflow: the loop starts with five entries
    let quarter ← getI transforms (transforms.length - 2)
    let half ← getI transforms (transforms.length - 1)
    let next ← RustDHT.splitRadix quarter half
    splitradixLoop index (transforms ++ [next])
  else .ok transforms
termination_by index + 1 - transforms.length
decreasing_by simp; omega

/-- benches/bench_dht.rs:136-154 `make_splitradix`.  `trailing_zeros` of 0 is the width of `usize`. -/
def makeSplitradix (len : Nat) : Res (Dht T) := do
  let transforms := [butterfly1 T, butterfly2 T, butterfly4 T, butterfly8 T, butterfly16 T]
  let index := if len = 0 then 64 else trailingZeros len
  let transforms ← splitradixLoop index transforms
  match transforms.getLast? with
  | none => panic .unwrapNone
  | some d => .ok d

/-! ## The benchmark functions -/

variable {T} in
/-- `b.iter(|| { dht.process_with_scratch(&mut buffer, &mut scratch); })`: every run of the closure works on what the one
before left. -/
def benchLoop (dht : Dht T) : Nat → List T → List T → Res (List T × List T)
  | 0, buffer, scratch => .ok (buffer, scratch)
  | iters + 1, buffer, scratch => do
    let (buffer, scratch) ← dht.processWithScratch buffer scratch
    benchLoop dht iters buffer scratch

variable {T} in
/-- The last three lines that all benchmark functions but two share (e.g. benches/bench_dht.rs:33-35). -/
def benchProcess (dht : Dht T) (iters : Nat) : Res (List T × List T) :=
  let buffer := List.replicate dht.len 0
  let scratch := List.replicate dht.inplaceScratchLen 0
  benchLoop dht iters buffer scratch

/-- benches/bench_dht.rs:26-36 `bench_mixed_radix_noop` -/
def benchMixedRadixNoop (width height iters : Nat) : Res (List T × List T) :=
  benchProcess (mixedRadix (noop T width) (noop T height)) iters

/-- benches/bench_dht.rs:60-69 `bench_4xn_noop` -/
def bench4xnNoop (height iters : Nat) : Res (List T × List T) :=
  benchProcess (mixedRadix4xn (noop T height)) iters

/-- benches/bench_dht.rs:92-99 `bench_4xn_radix4`: the only one of the recursive families that does not check the length. -/
def bench4xnRadix4 (len iters : Nat) : Res (List T × List T) := do
  let dht ← make4xnRadix4 T len
  benchProcess dht iters

/-- benches/bench_dht.rs:114-121 `bench_direct_radix4` -/
def benchDirectRadix4 (len iters : Nat) : Res (List T × List T) := do
  let dht ← radix4 T len
  benchProcess dht iters

/-- benches/bench_dht.rs:157-165 `bench_splitradix` -/
def benchSplitradix (len iters : Nat) : Res (List T × List T) := do
  let dht ← makeSplitradix T len
  assert (dht.len == len) .assertFailed
  benchProcess dht iters

/-- benches/bench_dht.rs:188-196 `bench_3xn_radix3` -/
def bench3xnRadix3 (len iters : Nat) : Res (List T × List T) := do
  let dht ← make3xnRadix3 T len
  assert (dht.len == len) .assertFailed
  benchProcess dht iters

/-- benches/bench_dht.rs:216-224 `bench_5xn_radix5` -/
def bench5xnRadix5 (len iters : Nat) : Res (List T × List T) := do
  let dht ← make5xnRadix5 T len
  assert (dht.len == len) .assertFailed
  benchProcess dht iters

/-- benches/bench_dht.rs:242-250 `bench_6xn_radix6` -/
def bench6xnRadix6 (len iters : Nat) : Res (List T × List T) := do
  let dht ← make6xnRadix6 T len
  assert (dht.len == len) .assertFailed
  benchProcess dht iters

/-- benches/bench_dht.rs:259-268 `bench_raders_noop`.  `len - 1` overflows for 0; a release build wraps to `usize::MAX`, and then
`RadersAlgorithm::new` panics because `usize::MAX + 1`, wrapped to 0, is not prime. -/
def benchRadersNoop (len iters : Nat) : Res (List T × List T) := do
  assert (len != 0) .overflow
  let dht ← raders (noop T (len - 1))
  benchProcess dht iters

/-- benches/bench_dht.rs:278-287 `bench_raders_power2`.  In a release build `len = 0` wraps to `usize::MAX`, which `Radix4::new`
rejects with a panic. -/
def benchRadersPower2 (len iters : Nat) : Res (List T × List T) := do
  assert (len != 0) .overflow
  let innerDht ← radix4 T (len - 1)
  let dht ← raders innerDht
  benchProcess dht iters

/-- benches/bench_dht.rs:293-298 `bench_butterfly3` -/
def benchButterfly3 (iters : Nat) : Res (List T × List T) :=
  let dht := butterfly3 T
  benchLoop dht iters (List.replicate (dht.len * 100) 0) []

/-- benches/bench_dht.rs:299-304 `bench_butterfly6` -/
def benchButterfly6 (iters : Nat) : Res (List T × List T) :=
  let dht := butterfly6 T
  benchLoop dht iters (List.replicate (dht.len * 100) 0) []

/-- A call of one of the benchmark functions. -/
inductive Bench where
  | mixedRadixNoop (width height : Nat)
  | mr4Noop (height : Nat)
  | mr4 (len : Nat)
  | radix4 (len : Nat)
  | splitRadix (len : Nat)
  | mr3 (len : Nat)
  | mr5 (len : Nat)
  | mr6 (len : Nat)
  | radersNoop (len : Nat)
  | radersPower2 (len : Nat)
  | butterfly3
  | butterfly6

/-- What the call does when the closure runs `iters` times: the buffer and the scratch at the end. -/
def Bench.run (b : Bench) (iters : Nat) : Res (List T × List T) :=
  match b with
  | .mixedRadixNoop w h => benchMixedRadixNoop T w h iters
  | .mr4Noop h => bench4xnNoop T h iters
  | .mr4 n => bench4xnRadix4 T n iters
  | .radix4 n => benchDirectRadix4 T n iters
  | .splitRadix n => benchSplitradix T n iters
  | .mr3 n => bench3xnRadix3 T n iters
  | .mr5 n => bench5xnRadix5 T n iters
  | .mr6 n => bench6xnRadix6 T n iters
  | .radersNoop n => benchRadersNoop T n iters
  | .radersPower2 n => benchRadersPower2 T n iters
  | .butterfly3 => benchButterfly3 T iters
  | .butterfly6 => benchButterfly6 T iters

/-- The functions marked `#[bench]`, in the order of the file: benches/bench_dht.rs:38-48, 50-57, 71-78, 101-112, 123-134, 167-177,
198-206, 226-232, 252-257, 270-276, 289-291, 293 and 299. -/
def benchList : List Bench :=
  [.mixedRadixNoop 2 3, .mixedRadixNoop 3 4, .mixedRadixNoop 4 5, .mixedRadixNoop 7 32, .mixedRadixNoop 32 27,
   .mixedRadixNoop 256 243, .mixedRadixNoop 2048 3, .mixedRadixNoop 3 2048, .mixedRadixNoop 2048 2048,
   .mixedRadixNoop 2048 2187, .mixedRadixNoop 2187 2187,
   .mixedRadixNoop 4 3, .mixedRadixNoop 4 4, .mixedRadixNoop 4 5, .mixedRadixNoop 4 27, .mixedRadixNoop 4 32,
   .mixedRadixNoop 4 243, .mixedRadixNoop 4 2048, .mixedRadixNoop 4 2187,
   .mr4Noop 3, .mr4Noop 4, .mr4Noop 5, .mr4Noop 27, .mr4Noop 32, .mr4Noop 243, .mr4Noop 2048, .mr4Noop 2187,
   .mr4 16, .mr4 32, .mr4 64, .mr4 128, .mr4 256, .mr4 512, .mr4 1024, .mr4 2048, .mr4 16384, .mr4 32768, .mr4 65536,
   .mr4 1048576,
   .radix4 16, .radix4 32, .radix4 64, .radix4 128, .radix4 256, .radix4 512, .radix4 1024, .radix4 2048, .radix4 16384,
   .radix4 32768, .radix4 65536, .radix4 1048576,
   .splitRadix 16, .splitRadix 32, .splitRadix 64, .splitRadix 128, .splitRadix 256, .splitRadix 512, .splitRadix 1024,
   .splitRadix 2048, .splitRadix 16384, .splitRadix 32768, .splitRadix 65536,
   .mr3 3, .mr3 9, .mr3 27, .mr3 81, .mr3 243, .mr3 2187, .mr3 6561, .mr3 19683, .mr3 59049,
   .mr5 5, .mr5 25, .mr5 125, .mr5 625, .mr5 3125, .mr5 15625, .mr5 78125,
   .mr6 6, .mr6 36, .mr6 216, .mr6 1296, .mr6 7776, .mr6 46656,
   .radersNoop 31, .radersNoop 97, .radersNoop 257, .radersNoop 1031, .radersNoop 4099, .radersNoop 16411, .radersNoop 65537,
   .radersPower2 17, .radersPower2 257, .radersPower2 65537,
   .butterfly3, .butterfly6]

end RustDHT
