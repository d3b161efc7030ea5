import Verif.Model.Trait
import Verif.Model.Twiddles

/-! # src/scalar/split_radix.rs -/

namespace RustDHT

variable {T : Type} [Add T] [Sub T] [Mul T] [FftNum T]

/-- src/scalar/split_radix.rs:30-34 -/
def srTwiddles (T : Type) [FftNum T] (len : Nat) : List (Cx T) :=
  let twiddleLimit := len / 8 + 1
  (List.range twiddleLimit).flatMap fun x =>
    [computeDftTwiddleInverse T (x * 1) len, computeDftTwiddleInverse T (x * 3) len]

/-- The four sub-slices `buffer_half0`, `buffer_half1`, `buffer_quarter1`, `buffer_quarter3` of
src/scalar/split_radix.rs:53-55. -/
structure SrBuf (T : Type) where
  half0 : List T
  half1 : List T
  quarter1 : List T
  quarter3 : List T

/-- src/scalar/split_radix.rs:58-71 -/
def srColumn0 (b : SrBuf T) : Res (SrBuf T) := do
  let inputQ0 ← getI b.half0 0
  let inputQ1 ← getI b.half1 0
  let inputQ2 ← getI b.quarter1 0
  let inputQ3 ← getI b.quarter3 0
  let diff0Fwd := inputQ0 - inputQ2
  let diff0Rev := inputQ1 - inputQ3
  let half0 ← setI b.half0 0 (inputQ0 + inputQ2)
  let half1 ← setI b.half1 0 (inputQ1 + inputQ3)
  let quarter1 ← setI b.quarter1 0 (diff0Fwd + diff0Rev)
  let quarter3 ← setI b.quarter3 0 (diff0Fwd - diff0Rev)
  .ok { half0, half1, quarter1, quarter3 }

/-- src/scalar/split_radix.rs:73-112: the body of the loop -/
def srColumn (quarterLen : Nat) (twiddles : List (Cx T)) (i : Nat) (b : SrBuf T) : Res (SrBuf T) := do
  let twiddle1 ← getU twiddles (2 * i)
  let twiddle3 ← getU twiddles (2 * i + 1)
  let fwd0 ← getU b.half0 i
  let fwd1 ← getU b.half1 i
  let fwd2 ← getU b.quarter1 i
  let fwd3 ← getU b.quarter3 i
  let rev0 ← getU b.half0 (quarterLen - i)
  let rev1 ← getU b.half1 (quarterLen - i)
  let rev2 ← getU b.quarter1 (quarterLen - i)
  let rev3 ← getU b.quarter3 (quarterLen - i)
  let diff0Fwd := fwd0 - fwd2
  let diff0Rev := rev0 - rev2
  let diff1Fwd := fwd1 - fwd3
  let diff1Rev := rev1 - rev3
  let diff0Sum := diff0Fwd + diff0Rev
  let diff0Dif := diff0Fwd - diff0Rev
  let diff1Sum := diff1Fwd + diff1Rev
  let diff1Dif := diff1Fwd - diff1Rev
  let half0 ← setU b.half0 i (fwd0 + fwd2)
  let half1 ← setU b.half1 i (fwd1 + fwd3)
  let half0 ← setU half0 (quarterLen - i) (rev0 + rev2)
  let half1 ← setU half1 (quarterLen - i) (rev1 + rev3)
  let quarter1 ← setU b.quarter1 i (diff0Sum * twiddle1.re - diff1Dif * twiddle1.im)
  let quarter3 ← setU b.quarter3 i (diff0Dif * twiddle3.re + diff1Sum * twiddle3.im)
  let quarter1 ← setU quarter1 (quarterLen - i) (diff0Sum * twiddle1.im + diff1Dif * twiddle1.re)
  let quarter3 ← setU quarter3 (quarterLen - i) (diff0Dif * twiddle3.im - diff1Sum * twiddle3.re)
  .ok { half0, half1, quarter1, quarter3 }

/-- src/scalar/split_radix.rs:48-113 `apply_twiddles` -/
def srApplyTwiddles (len : Nat) (twiddles : List (Cx T)) (buffer : List T) : Res (List T) := do
  let halfLen := len / 2
  let quarterLen := len / 4
  let eigthLen := len / 8
  let (evens, odds) ← splitAt buffer halfLen
  let (half0, half1) ← splitAt evens quarterLen
  let (quarter1, quarter3) ← splitAt odds quarterLen
  let b ← srColumn0 { half0, half1, quarter1, quarter3 }
  let b ← forRange 1 (eigthLen + 1) b (srColumn quarterLen twiddles)
  .ok (b.half0 ++ b.half1 ++ (b.quarter1 ++ b.quarter3))

/-- src/scalar/split_radix.rs:115-134 `perform_dht_inplace` -/
def srPerformInplace (quarterDht halfDht : Dht T) (len : Nat) (twiddles : List (Cx T))
    (buffer scratch : List T) : Res (List T × List T) := do
  let buffer ← srApplyTwiddles len twiddles buffer
  let halfLen := len / 2
  let quarterLen := len / 4
  let (evens, odds) ← splitAt buffer halfLen
  let (evens, scratch) ← halfDht.processWithScratch evens scratch
  let (odds, scratch, _) ← quarterDht.processOop odds scratch []
  let buffer := evens ++ odds
  let (scratchQuarter1, scratchQuarter3) ← splitAt scratch quarterLen
  let buffer ← forList (List.range quarterLen).reverse buffer fun i buffer => do
    let v ← getU buffer (i * 2)
    let buffer ← setU buffer (4 * i + 0) v
    let v ← getU buffer (i * 2 + 1)
    let buffer ← setU buffer (4 * i + 2) v
    let v ← getU scratchQuarter1 i
    let buffer ← setU buffer (4 * i + 1) v
    let v ← getU scratchQuarter3 i
    setU buffer (4 * i + 3) v
  .ok (buffer, scratch)

/-- src/scalar/split_radix.rs:136-160 `perform_dht_out_of_place`.  Chunk `i` of `output.chunks_exact_mut(4)` is
`output[4*i .. 4*i + 4]`. -/
def srPerformOop (quarterDht halfDht : Dht T) (len : Nat) (twiddles : List (Cx T))
    (input output scratch : List T) : Res (List T × List T × List T) := do
  let input ← srApplyTwiddles len twiddles input
  let halfLen := len / 2
  let quarterLen := len / 4
  let (evens, odds) ← splitAt input halfLen
  let (evens, output) ← halfDht.processWithScratch evens output
  let (odds, output) ← quarterDht.processWithScratch odds output
  let (quarter1, quarter3) ← splitAt odds quarterLen
  let output ← forRange 0 (output.length / 4) output fun i output => do
    let v ← getU evens (i * 2)
    let output ← setU output (4 * i + 0) v
    let v ← getU quarter1 i
    let output ← setU output (4 * i + 1) v
    let v ← getU evens (i * 2 + 1)
    let output ← setU output (4 * i + 2) v
    let v ← getU quarter3 i
    setU output (4 * i + 3) v
  .ok (evens ++ odds, output, scratch)

/-- `SplitRadix::new(quarter_dht, half_dht)`, src/scalar/split_radix.rs:21-46 and 18 -/
def splitRadix (quarterDht halfDht : Dht T) : Res (Dht T) := do
  let quarterLen := quarterDht.len
  let halfLen := halfDht.len
  assert (halfLen == quarterLen * 2) .assertFailed
  let len := quarterLen * 4
  let twiddles := srTwiddles T len
  .ok (boilerplateDht len halfLen 0
    (srPerformInplace quarterDht halfDht len twiddles)
    (srPerformOop quarterDht halfDht len twiddles))

end RustDHT
