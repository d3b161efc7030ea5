import Verif.Model.Trait
import Verif.Model.Twiddles

/-! # Comparing runs in two arithmetics

Nothing here refers to an algorithm of the crate. -/

namespace RustDHT

variable {α β T T' : Type}

/-- Two calls end alike: both return, with values related by `P`, or both fail, with the same fault. -/
def EndsAlike (P : α → β → Prop) : Res α → Res β → Prop
  | .ok a, .ok b => P a b
  | .error e, .error e' => e = e'
  | _, _ => False

/-- How two objects over different number types treat slices of equal lengths: everything that can be observed apart from
the stored numbers agrees.  The faults of the model (`Fault`) tell apart a normal return, every kind of panic, undefined
behaviour and divergence. -/
structure SameShape (d : Dht T) (d' : Dht T') : Prop where
  len : d.len = d'.len
  inplaceScratchLen : d.inplaceScratchLen = d'.inplaceScratchLen
  oopScratchLen : d.oopScratchLen = d'.oopScratchLen
  inplace : ∀ (b s : List T) (b' s' : List T'), b.length = b'.length → s.length = s'.length →
    EndsAlike (fun r r' => r.1.length = r'.1.length ∧ r.2.length = r'.2.length)
      (d.processWithScratch b s) (d'.processWithScratch b' s')
  oop : ∀ (i o s : List T) (i' o' s' : List T'), i.length = i'.length → o.length = o'.length → s.length = s'.length →
    EndsAlike (fun r r' => r.1.length = r'.1.length ∧ r.2.1.length = r'.2.1.length ∧ r.2.2.length = r'.2.2.length)
      (d.processOop i o s) (d'.processOop i' o' s')

/-- `σ` on data and `κ` on constants carry the arithmetic of `T` to that of `T'`.  Products are asked for only with one
constant factor: the crate never multiplies two data values. -/
structure ArithMap (T T' : Type) [Zero T] [Add T] [Sub T] [Mul T] [Neg T] [Zero T'] [Add T'] [Sub T'] [Mul T'] [Neg T']
    (κ σ : T → T') : Prop where
  zero : σ 0 = 0
  add : ∀ a b, σ (a + b) = σ a + σ b
  sub : ∀ a b, σ (a - b) = σ a - σ b
  neg : ∀ a, σ (-a) = -σ a
  cmul : ∀ c a, σ (c * a) = κ c * σ a
  mulc : ∀ a c, σ (a * c) = σ a * κ c

/-- `κ` carries the constants of `T` (the tables of cosines and sines, `sqrt(1/2)`, `1/2` and `1/n`) to those of `T'`. -/
structure ConstMap (T T' : Type) [FftNum T] [FftNum T'] (κ : T → T') : Prop where
  inv : ∀ i n, i < n → κ (computeDftTwiddleInverse T i n).re = (computeDftTwiddleInverse T' i n).re ∧
    κ (computeDftTwiddleInverse T i n).im = (computeDftTwiddleInverse T' i n).im
  fwd : ∀ i n, i < n → κ (computeDftTwiddleForward T i n).re = (computeDftTwiddleForward T' i n).re ∧
    κ (computeDftTwiddleForward T i n).im = (computeDftTwiddleForward T' i n).im
  sqrtHalf : κ FftNum.sqrtHalfF32 = FftNum.sqrtHalfF32
  half : κ FftNum.halfF32 = FftNum.halfF32
  norm : ∀ n, 0 < n → κ (FftNum.fromF64 ((FftNum.f64 (T := T)).div ((FftNum.f64 (T := T)).ofNat 1) ((FftNum.f64 (T := T)).ofNat n)))
    = FftNum.fromF64 ((FftNum.f64 (T := T')).div ((FftNum.f64 (T := T')).ofNat 1) ((FftNum.f64 (T := T')).ofNat n))

/-- Every entry point of `d'` on data carried over by `σ` does what `d` does, carried over by `σ`. -/
structure Carries [Zero T] [Zero T'] (σ : T → T') (d : Dht T) (d' : Dht T') : Prop where
  len : d'.len = d.len
  process : ∀ x : List T, d'.process (x.map σ) = (d.process x).map fun X => X.map σ
  inplace : ∀ b s : List T, d'.processWithScratch (b.map σ) (s.map σ)
    = (d.processWithScratch b s).map fun r => (r.1.map σ, r.2.map σ)
  oop : ∀ i o s : List T, d'.processOop (i.map σ) (o.map σ) (s.map σ)
    = (d.processOop i o s).map fun r => (r.1.map σ, r.2.1.map σ, r.2.2.map σ)

end RustDHT
