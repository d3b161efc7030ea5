import Verif.Model.Trait
import Verif.Model.Twiddles

/-! # src/scalar/dht_naive.rs -/

namespace RustDHT

variable {T : Type} [Add T] [Mul T] [Zero T] [FftNum T]

/-- The table of src/scalar/dht_naive.rs:28-30. -/
def naiveTwiddles (T : Type) [Add T] [FftNum T] (len : Nat) : List T :=
  (List.range len).map fun i => computeDhtTwiddle T i len

/-- Inner loop, src/scalar/dht_naive.rs:43-54: returns `output_value`. -/
def naiveInner (twiddles input : List T) (k : Nat) : Res T := do
  let (outputValue, _) ← forList input ((0 : T), 0) fun inputCell (outputValue, twiddleIndex) => do
    let twiddle ← getI twiddles twiddleIndex
    let outputValue := outputValue + twiddle * inputCell
    let twiddleIndex := twiddleIndex + k
    let twiddleIndex := if twiddleIndex ≥ twiddles.length then twiddleIndex - twiddles.length else twiddleIndex
    .ok (outputValue, twiddleIndex)
  .ok outputValue

/-- src/scalar/dht_naive.rs:36-58 `perform_dht_out_of_place` -/
def naivePerform (twiddles input output : List T) : Res (List T) :=
  forRange 0 output.length output fun k output => do
    let outputValue ← naiveInner twiddles input k
    setI output k outputValue

/-- `DhtNaive::new(len)`, src/scalar/dht_naive.rs:27-34 and 60 -/
def dhtNaive (T : Type) [Add T] [Mul T] [Zero T] [FftNum T] (len : Nat) : Dht T :=
  let twiddles := naiveTwiddles T len
  boilerplateDhtOop twiddles.length (naivePerform twiddles)

end RustDHT
