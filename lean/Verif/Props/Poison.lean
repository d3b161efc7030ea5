import Verif.Proofs.Poison
import Verif.Props.AnyArith

/-! # C59: NaN and infinities do not vanish -/

set_option linter.unusedSectionVars false

namespace RustDHT

section
variable {S T : Type} [Zero S] [Add S] [Sub S] [Mul S] [Neg S] [FftNum S]
  [Zero T] [Add T] [Sub T] [Mul T] [Neg T] [FftNum T]

/-- If in some arithmetic `S`, whatever it is, a change of element `j` of the input can change element `k` of the output, then in
every arithmetic a bad element `j` of the input makes element `k` of the output bad. -/
theorem C59_poison_flows (p : Plan) (dS : Dht S) (dT : Dht T) (hS : p.build S = .ok dS) (hT : p.build T = .ok dT)
    (Bad : T → Prop) (hB : Absorbing Bad) (j k : ℕ) (x₁ x₂ X₁ X₂ : List S) (hl : x₁.length = x₂.length)
    (hx : ∀ i, i ≠ j → x₁[i]? = x₂[i]?) (h₁ : dS.process x₁ = .ok X₁) (h₂ : dS.process x₂ = .ok X₂) (hk : X₁[k]? ≠ X₂[k]?)
    (x X : List T) (hlx : x.length = x₁.length) (hj : BadAt Bad x j) (h : dT.process x = .ok X) : BadAt Bad X k :=
  poison_flows p hS hT hB hl hx h₁ h₂ hk hlx hj h

end

section
variable {T : Type} [Zero T] [Add T] [Sub T] [Mul T] [Neg T] [FftNum T]

/-- The same composition in exact arithmetic. -/
theorem exact_twin (p : Plan) {d : Dht T} (h : p.build T = .ok d) : ∃ dR, p.build ℝ = .ok dR ∧ dR.len = d.len := by
  have := C37_data_oblivious p T ℝ
  rw [h] at this
  rcases e : p.build ℝ with er | dR
  · rw [e] at this; exact absurd this id
  · rw [e] at this
    exact ⟨dR, rfl, this.len.symm⟩

/-- Every composition without a long `Radix4`, in every arithmetic: a bad element `j` of a chunk makes every coefficient bad whose
weight for that element, `cas (2πjk/n)`, is not zero.  (All entry points; all chunks, independently.) -/
theorem C59_poison_dht (p : Plan) (hr : p.SmallRadix4) (d : Dht T) (h : p.build T = .ok d) (Bad : T → Prop)
    (hB : Absorbing Bad) : ∃ f : List T → List T, Implements d f ∧
      ∀ x : List T, x.length = d.len → ∀ j k, BadAt Bad x j → k < d.len → cas (2 * Real.pi * j * k / d.len) ≠ 0 →
        BadAt Bad (f x) k := by
  obtain ⟨f, hf⟩ := (plan_ok p d h).implements
  refine ⟨f, hf, fun x hx j k hj hk hc => ?_⟩
  obtain ⟨dR, hR, lR⟩ := exact_twin p h
  have hpos : 0 < d.len := by omega
  have hjn : j < d.len := by
    obtain ⟨v, hv, _⟩ := hj
    obtain ⟨h, _⟩ := List.getElem?_eq_some_iff.1 hv
    omega
  have run : ∀ y : List ℝ, y.length = d.len → dR.process y = .ok (dht y) := fun y hy => by
    rw [(C12_plan_dht p hr dR hR).2 y (by omega) (by rw [lR, hy]), mapChunks_single (by omega) (by omega)]
  refine poison_flows p hR h hB (j := j) (k := k) (x₁ := List.replicate d.len 0) (x₂ := (List.replicate d.len 0).set j 1) (by simp)
    (fun i hi => ?_) (run _ (by simp)) (run _ (by simp)) ?_ (by simpa using hx) hj ?_
  · rw [List.getElem?_set_ne hi.symm]
  · have e : ∀ y : List ℝ, y.length = d.len → (dht y)[k]? = some (dhtCoeff y k) := fun y hy => by
      simp [dht, hy, hk]
    rw [e _ (by simp), e _ (by simp), dhtCoeff_zero, dhtCoeff_single hjn]
    exact fun he => hc (Option.some.inj he).symm
  · rw [hf.process (by omega) (by rw [hx]), mapChunks_single hpos hx]

/-- The first coefficient is bad whenever an element of the chunk is; and all are, unless the length is a multiple of 8. -/
theorem C59_poison_everywhere (p : Plan) (hr : p.SmallRadix4) (d : Dht T) (h : p.build T = .ok d) (Bad : T → Prop)
    (hB : Absorbing Bad) : ∃ f : List T → List T, Implements d f ∧
      ∀ x : List T, x.length = d.len → (∃ j, BadAt Bad x j) →
        BadAt Bad (f x) 0 ∧ (¬ 8 ∣ d.len → ∀ k < d.len, BadAt Bad (f x) k) := by
  obtain ⟨f, hf, key⟩ := C59_poison_dht p hr d h Bad hB
  refine ⟨f, hf, fun x hx ⟨j, hj⟩ => ?_⟩
  have hpos : 0 < d.len := by
    obtain ⟨v, hv, _⟩ := hj
    obtain ⟨h, _⟩ := List.getElem?_eq_some_iff.1 hv
    omega
  refine ⟨key x hx j 0 hj hpos ?_, fun h8 k hk => key x hx j k hj hk fun hc => h8 (cas_zero_dvd hpos hc)⟩
  simp [cas]

/-- `Radix4` of any length, also where it is wrong: the first coefficient is bad whenever an element of the chunk is. -/
theorem C59_poison_radix4 (m : ℕ) (d : Dht T) (h : radix4 T (2 ^ m) = .ok d) (Bad : T → Prop) (hB : Absorbing Bad)
    (x X : List T) (hx : x.length = 2 ^ m) (j : ℕ) (hj : BadAt Bad x j) (hX : d.process x = .ok X) : BadAt Bad X 0 := by
  obtain ⟨σ, dR, hR, lR, hi⟩ := C09_radix4_permuted_partial m
  have h2 := Nat.two_pow_pos m
  have hjn : j < 2 ^ m := by
    obtain ⟨v, hv, _⟩ := hj
    obtain ⟨h, _⟩ := List.getElem?_eq_some_iff.1 hv
    omega
  have run : ∀ y : List ℝ, y.length = 2 ^ m → dR.process y = .ok (dht (List.ofFn fun i : Fin (2 ^ m) => y.getD (σ i) 0)) :=
    fun y hy => by rw [hi.process (by omega) (by rw [lR, hy]), mapChunks_single (by omega) (by omega)]
  refine poison_flows (.radix4 (2 ^ m)) hR h hB (j := j) (k := 0) (x₁ := List.replicate (2 ^ m) 0)
    (x₂ := (List.replicate (2 ^ m) 0).set j 1) (by simp)
    (fun i hi => ?_) (run _ (by simp)) (run _ (by simp)) ?_ (by simpa using hx) hj hX
  · rw [List.getElem?_set_ne hi.symm]
  · have e : ∀ y : List ℝ, y.length = 2 ^ m → (dht y)[0]? = some (dhtCoeff y 0) := fun y hy => by
      simp [dht, hy]
    rw [e _ (by simp), e _ (by simp)]
    have z : (List.ofFn fun i : Fin (2 ^ m) => (List.replicate (2 ^ m) (0 : ℝ)).getD (σ i) 0) = List.replicate (2 ^ m) 0 := by
      refine List.ext_getElem (by simp) fun i h1 h2 => ?_
      simp
    have u : (List.ofFn fun i : Fin (2 ^ m) => ((List.replicate (2 ^ m) (0 : ℝ)).set j 1).getD (σ i) 0)
        = (List.replicate (2 ^ m) 0).set (σ.symm ⟨j, hjn⟩) 1 := by
      refine List.ext_getElem (by simp) fun i h1 h2 => ?_
      have hi : i < 2 ^ m := by simpa using h1
      have key : (σ ⟨i, hi⟩ : ℕ) = j ↔ (σ.symm ⟨j, hjn⟩ : ℕ) = i := by
        constructor
        · intro e
          have : σ ⟨i, hi⟩ = ⟨j, hjn⟩ := Fin.ext e
          rw [← this, Equiv.symm_apply_apply]
        · intro e
          have : σ.symm ⟨j, hjn⟩ = ⟨i, hi⟩ := Fin.ext e
          rw [← this, Equiv.apply_symm_apply]
      simp only [List.getElem_ofFn, List.getD_eq_getElem?_getD, List.getElem_set, List.getElem_replicate]
      by_cases e : (σ ⟨i, hi⟩ : ℕ) = j
      · rw [if_pos (key.1 e), List.getElem?_eq_getElem (by simp), Option.getD_some, List.getElem_set, if_pos e.symm]
      · rw [if_neg (fun h => e (key.2 h)), List.getElem?_eq_getElem (by simp), Option.getD_some, List.getElem_set,
          if_neg (fun h => e h.symm), List.getElem_replicate]
    rw [z, u, dhtCoeff_zero, dhtCoeff_single (σ.symm ⟨j, hjn⟩).2]
    intro he
    have := Option.some.inj he
    simp [cas] at this

end

/-! ## In `f32` and `f64` -/

section
variable (F : Fmt) [MathLib]

/-- NaN: no assumption about `cos` and `sin` is needed, so that the tables may hold anything. -/
theorem C59_nan (p : Plan) (hr : p.SmallRadix4) (d : Dht (Flt F)) (h : p.build (Flt F) = .ok d) :
    ∃ f : List (Flt F) → List (Flt F), Implements d f ∧
      ∀ x : List (Flt F), x.length = d.len → .nan ∈ x →
        (f x)[0]? = some .nan ∧ (¬ 8 ∣ d.len → f x = List.replicate d.len .nan) := by
  obtain ⟨f, hf, key⟩ := C59_poison_everywhere p hr d h _ (nan_absorbing F)
  refine ⟨f, hf, fun x hx hn => ?_⟩
  obtain ⟨j, hj, e⟩ := List.getElem_of_mem hn
  obtain ⟨⟨v, e0, rfl⟩, h8⟩ := key x hx ⟨j, .nan, by rw [List.getElem?_eq_getElem hj, e], rfl⟩
  refine ⟨e0, fun hd => List.ext_getElem (by rw [hf.length x hx]; simp) fun k h1 h2 => ?_⟩
  obtain ⟨v, e, rfl⟩ := h8 hd k (by simpa using h2)
  rw [List.getElem?_eq_getElem h1] at e
  rw [Option.some.inj e, List.getElem_replicate]

/-- If the first coefficient is finite, all elements of the chunk are. -/
theorem C59_finite (p : Plan) (hr : p.SmallRadix4) (d : Dht (Flt F)) (h : p.build (Flt F) = .ok d) :
    ∃ f : List (Flt F) → List (Flt F), Implements d f ∧
      ∀ x : List (Flt F), x.length = d.len →
        (∀ v, (f x)[0]? = some v → v.fin) → ∀ v ∈ x, v.fin := by
  obtain ⟨f, hf, key⟩ := C59_poison_everywhere p hr d h _ (nonfinite_absorbing F)
  refine ⟨f, hf, fun x hx hv v hm => ?_⟩
  by_contra hb
  obtain ⟨j, hj, e⟩ := List.getElem_of_mem hm
  obtain ⟨⟨w, e0, hw⟩, -⟩ := key x hx ⟨j, v, by rw [List.getElem?_eq_getElem hj, e], hb⟩
  exact hw (hv w e0)

/-- If an element is infinite or NaN, then so is every coefficient whose weight for it is not zero. -/
theorem C59_nonfinite (p : Plan) (hr : p.SmallRadix4) (d : Dht (Flt F)) (h : p.build (Flt F) = .ok d) :
    ∃ f : List (Flt F) → List (Flt F), Implements d f ∧
      ∀ x : List (Flt F), x.length = d.len → ∀ j k, BadAt (fun v => ¬ v.fin) x j → k < d.len →
        cas (2 * Real.pi * j * k / d.len) ≠ 0 → BadAt (fun v => ¬ v.fin) (f x) k :=
  C59_poison_dht p hr d h _ (nonfinite_absorbing F)

end

/-! ## The exception is real: in length 8 it depends on the algorithm -/

/-- Truth values: an operation is true if an operand is. -/
structure Flag where
  set : Bool
  deriving DecidableEq, Repr

namespace Flag

instance : Zero Flag := ⟨⟨false⟩⟩
instance : Add Flag := ⟨fun a b => ⟨a.set || b.set⟩⟩
instance : Sub Flag := ⟨fun a b => ⟨a.set || b.set⟩⟩
instance : Mul Flag := ⟨fun a b => ⟨a.set || b.set⟩⟩
instance : Neg Flag := ⟨fun a => a⟩

instance : FftNum Flag where
  F64 := Unit
  f64 := { ofNat := fun _ => (), pi := (), neg := fun a => a, mul := fun a _ => a, div := fun a _ => a
           cos := fun a => a, sin := fun a => a }
  fromF64 := fun _ => ⟨false⟩
  sqrtHalfF32 := ⟨false⟩
  halfF32 := ⟨false⟩

theorem absorbing : Absorbing (T := Flag) (fun a => a.set = true) := by
  refine ⟨?_, ?_, ?_, ?_, ?_, ?_, ?_⟩
  all_goals
    first
    | (rintro ⟨a⟩ ⟨b⟩ h; revert h; cases a <;> cases b <;> decide)
    | (rintro ⟨a⟩ h; exact h)

end Flag

/-- The chunk with a bad element 3. -/
def badThird : List Flag := [⟨false⟩, ⟨false⟩, ⟨false⟩, ⟨true⟩, ⟨false⟩, ⟨false⟩, ⟨false⟩, ⟨false⟩]

/-- `cas (2π·3·1/8) = 0`, and `Butterfly8` leaves coefficient 1 alone when element 3 is bad; `DhtNaive` does not. -/
example : (∃ X, (butterfly8 Flag).process badThird = .ok X ∧ X.map Flag.set = [true, false, true, true, true, false, true, true]) ∧
    ∃ X, (dhtNaive Flag 8).process badThird = .ok X ∧ X.map Flag.set = List.replicate 8 true := by
  refine ⟨⟨bflyFn contiguous8 badThird, ?_, by decide⟩, ⟨naiveFn Flag 8 badThird, ?_, by decide⟩⟩
  · rw [butterfly8_implements.process (by decide) (by decide), mapChunks_single (by decide) (by decide)]
  · rw [(dhtNaive_implements 8).process (by rw [dhtNaive_len]; decide) (by rw [dhtNaive_len]; decide), dhtNaive_len,
      mapChunks_single (by decide) (by decide)]

example : Absorbing (T := Flt binary32) (fun a => a = .nan) := nan_absorbing _

/-- The hypotheses are met: a signal of length 6 with a NaN. -/
example [MathLib] : ∃ f : List (Flt binary32) → List (Flt binary32), Implements (mixedRadix2xn (dhtNaive (Flt binary32) 3)) f ∧
    f [0, 0, .nan, 0, 0, 0] = List.replicate 6 .nan := by
  obtain ⟨f, hf, key⟩ := C59_nan binary32 (.mr2 (.naive 3)) trivial (mixedRadix2xn (dhtNaive (Flt binary32) 3)) rfl
  have hl : (mixedRadix2xn (dhtNaive (Flt binary32) 3)).len = 6 := by
    show 2 * (dhtNaive (Flt binary32) 3).len = 6
    rw [dhtNaive_len]
  rw [hl] at key
  exact ⟨f, hf, (key _ rfl (by simp)).2 (by decide)⟩

end RustDHT
