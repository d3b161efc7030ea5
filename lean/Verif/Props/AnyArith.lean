import Verif.Spec.Arith
import Verif.Proofs.ParamPlan
import Verif.Props.Exact
import Mathlib.Data.ZMod.Basic

/-! # C37 - C39: properties in any arithmetic

`p` is any composition of the constructors, Radix4 of any length included; the number type and its operations are arbitrary
(C37), or have only the laws named in the statement. -/

set_option linter.unusedSectionVars false

namespace RustDHT

section
variable {T T' : Type}

theorem ResRel.endsAlike {α β : Type} {P Q : α → β → Prop} {r : Res α} {r' : Res β} (h : ResRel P r r')
    (hq : ∀ a b, P a b → Q a b) : EndsAlike Q r r' := by
  cases h with
  | ok h => exact hq _ _ h
  | error e => exact rfl

theorem LR.true {l : List T} {l' : List T'} (h : l.length = l'.length) : LR (fun _ _ => True) l l' := by
  induction l generalizing l' with
  | nil => cases l' with
    | nil => exact .nil
    | cons => simp at h
  | cons a l ih => cases l' with
    | nil => simp at h
    | cons b l' => exact .cons trivial (ih (by simpa using h))

theorem LR.map_iff {σ : T → T'} {l : List T} {l' : List T'} : LR (fun a b => b = σ a) l l' ↔ l' = l.map σ := by
  induction l generalizing l' with
  | nil => constructor
           · rintro ⟨⟩; rfl
           · rintro rfl; exact .nil
  | cons a l ih => constructor
                   · rintro (_ | ⟨rfl, h⟩); rw [ih.1 h]; rfl
                   · rintro rfl; exact .cons rfl (ih.2 rfl)

end

section
variable {T T' : Type} [Zero T] [Add T] [Sub T] [Mul T] [Neg T] [FftNum T] [Zero T'] [Add T'] [Sub T'] [Mul T'] [Neg T'] [FftNum T']

theorem respects_true : Respects (fun (_ : T) (_ : T') => True) (fun _ _ => True) := by
  constructor <;> intros <;> first | trivial | exact ⟨trivial, trivial⟩

theorem respects_map {κ σ : T → T'} (hκ : ArithMap T T' κ κ) (hσ : ArithMap T T' κ σ) (hc : ConstMap T T' κ) :
    Respects (fun a b => b = κ a) (fun a b => b = σ a) where
  zero := hσ.zero.symm
  add := by rintro a _ b _ rfl rfl; exact (hσ.add _ _).symm
  sub := by rintro a _ b _ rfl rfl; exact (hσ.sub _ _).symm
  neg := by rintro a _ rfl; exact (hσ.neg _).symm
  cmul := by rintro a _ b _ rfl rfl; exact (hσ.cmul _ _).symm
  mulc := by rintro a _ b _ rfl rfl; exact (hσ.mulc _ _).symm
  zeroC := hκ.zero.symm
  addC := by rintro a _ b _ rfl rfl; exact (hκ.add _ _).symm
  subC := by rintro a _ b _ rfl rfl; exact (hκ.sub _ _).symm
  negC := by rintro a _ rfl; exact (hκ.neg _).symm
  mulC := by rintro a _ b _ rfl rfl; exact (hκ.cmul _ _).symm
  inv i n h := ⟨(hc.inv i n h).1.symm, (hc.inv i n h).2.symm⟩
  fwd i n h := ⟨(hc.fwd i n h).1.symm, (hc.fwd i n h).2.symm⟩
  sqrtHalf := hc.sqrtHalf.symm
  half := hc.half.symm
  norm n h := (hc.norm n h).symm

theorem eq_map_of_resRel {α β : Type} {f : α → β} {r : Res α} {r' : Res β} (h : ResRel (fun a b => b = f a) r r') : r' = r.map f := by
  cases h with
  | ok h => rw [h]; rfl
  | error e => rfl

end

/-! ## C37 -/

/-- Neither building a composition nor running it looks at the numbers: for any two number types, with any arithmetic, the
constructors accept or reject alike, the objects report the same lengths, and on slices of the same lengths every entry
point ends alike. -/
theorem C37_data_oblivious (p : Plan) (T T' : Type) [Zero T] [Add T] [Sub T] [Mul T] [Neg T] [FftNum T]
    [Zero T'] [Add T'] [Sub T'] [Mul T'] [Neg T'] [FftNum T'] :
    EndsAlike SameShape (p.build T) (p.build T') := by
  refine (plan_rel p respects_true).endsAlike fun d d' h => ⟨h.len, h.inplaceScratchLen, h.oopScratchLen, ?_, ?_⟩
  · intro b s b' s' hb hs
    exact (h.inplace _ _ _ _ (.true hb) (.true hs)).endsAlike fun r r' hr => ⟨hr.1.length, hr.2.length⟩
  · intro i o s i' o' s' hi ho hs
    exact (h.oop _ _ _ _ _ _ (.true hi) (.true ho) (.true hs)).endsAlike fun r r' hr =>
      ⟨hr.1.length, hr.2.1.length, hr.2.2.length⟩

/-- Integers that saturate at -100 and 100: an arithmetic with hardly any laws. -/
structure Sat where
  val : Int
  deriving DecidableEq, Repr

namespace Sat

/-- Clamp to the range. -/
def clamp (a : Int) : Sat := ⟨max (-100) (min 100 a)⟩

instance : Zero Sat := ⟨⟨0⟩⟩
instance : Add Sat := ⟨fun a b => clamp (a.val + b.val)⟩
instance : Sub Sat := ⟨fun a b => clamp (a.val - b.val)⟩
instance : Mul Sat := ⟨fun a b => clamp (a.val * b.val)⟩
instance : Neg Sat := ⟨fun a => ⟨-a.val⟩⟩

/-- Meaningless but varied constants. -/
instance : FftNum Sat where
  F64 := Int
  f64 := { ofNat := fun n => n, pi := 3, neg := fun a => -a, mul := fun a b => a * b, div := fun a b => a / b
           cos := fun a => a + 1, sin := fun a => a - 1 }
  fromF64 := clamp
  sqrtHalfF32 := ⟨1⟩
  halfF32 := ⟨2⟩

theorem clamp_neg (a : Int) : -clamp a = clamp (-a) := by
  show Sat.mk _ = Sat.mk _
  congr 1
  simp only [clamp]
  omega

end Sat

/-- Saturating integers and reals run `Radix4::new(256)` alike; both reject `Radix4::new(12)`. -/
example : EndsAlike SameShape ((Plan.radix4 256).build Sat) ((Plan.radix4 256).build ℝ) := C37_data_oblivious _ _ _

example : ∃ d : Dht Sat, (Plan.radix4 256).build Sat = .ok d := ⟨_, radix4_eq 8⟩

example : (Plan.radix4 12).build Sat = .error (.panic .assertFailed) := by
  show radix4 Sat 12 = _
  unfold radix4
  have : isPowerOfTwo 12 = false := by
    rw [← Bool.not_eq_true, isPowerOfTwo_iff]
    rintro ⟨m, hm⟩
    have h : m < 4 := (Nat.pow_lt_pow_iff_right (by omega : 1 < 2)).1 (by omega : 2 ^ m < 2 ^ 4)
    interval_cases m <;> omega
  rw [this]
  rfl

/-! ## C38 -/

/-- A map that carries one arithmetic to another carries the transforms of every composition along, in every entry point,
panics included. -/
theorem C38_arith_map (p : Plan) {T T' : Type} [Zero T] [Add T] [Sub T] [Mul T] [Neg T] [FftNum T]
    [Zero T'] [Add T'] [Sub T'] [Mul T'] [Neg T'] [FftNum T'] (κ σ : T → T') (hκ : ArithMap T T' κ κ) (hσ : ArithMap T T' κ σ)
    (hc : ConstMap T T' κ) : EndsAlike (Carries σ) (p.build T) (p.build T') := by
  have hr := respects_map hκ hσ hc
  refine (plan_rel p hr).endsAlike fun d d' h => ⟨h.len.symm, fun x => ?_, fun b s => ?_, fun i o s => ?_⟩
  · exact eq_map_of_resRel ((dht_process_rel h hr.zero (LR.map_iff.2 rfl)).mono fun a b => LR.map_iff.1)
  · refine eq_map_of_resRel ((h.inplace _ _ _ _ (LR.map_iff.2 rfl) (LR.map_iff.2 rfl)).mono ?_)
    rintro ⟨a, b⟩ ⟨a', b'⟩ ⟨h1, h2⟩
    exact congrArg₂ Prod.mk (LR.map_iff.1 h1) (LR.map_iff.1 h2)
  · refine eq_map_of_resRel ((h.oop _ _ _ _ _ _ (LR.map_iff.2 rfl) (LR.map_iff.2 rfl) (LR.map_iff.2 rfl)).mono ?_)
    rintro ⟨a, b, c⟩ ⟨a', b', c'⟩ ⟨h1, h2, h3⟩
    exact congrArg₂ Prod.mk (LR.map_iff.1 h1) (congrArg₂ Prod.mk (LR.map_iff.1 h2) (LR.map_iff.1 h3))

theorem arithMap_id {T : Type} [Zero T] [Add T] [Sub T] [Mul T] [Neg T] : ArithMap T T id id :=
  ⟨rfl, fun _ _ => rfl, fun _ _ => rfl, fun _ => rfl, fun _ _ => rfl, fun _ _ => rfl⟩

theorem constMap_id {T : Type} [FftNum T] : ConstMap T T id :=
  ⟨fun _ _ _ => ⟨rfl, rfl⟩, fun _ _ _ => ⟨rfl, rfl⟩, rfl, rfl, fun _ _ => rfl⟩

/-- A map `σ` of the number type that commutes with sums, differences and products by a constant commutes with every
composition, bit for bit. -/
theorem C38_commutes (p : Plan) {T : Type} [Zero T] [Add T] [Sub T] [Mul T] [Neg T] [FftNum T] (σ : T → T)
    (hσ : ArithMap T T id σ) (d : Dht T) (h : p.build T = .ok d) : Carries σ d d := by
  have := C38_arith_map p id σ arithMap_id hσ constMap_id
  rw [h] at this
  exact this

/-- Negating the input negates the output exactly, in any arithmetic that treats positive and negative numbers alike (as
IEEE arithmetic does when it rounds to nearest, with the two zeros identified). -/
theorem C38_odd (p : Plan) {T : Type} [Zero T] [Add T] [Sub T] [Mul T] [Neg T] [FftNum T]
    (h0 : -(0 : T) = 0) (hadd : ∀ a b : T, -(a + b) = -a + -b) (hsub : ∀ a b : T, -(a - b) = -a - -b)
    (hcmul : ∀ c a : T, -(c * a) = c * -a) (hmulc : ∀ a c : T, -(a * c) = -a * c)
    (d : Dht T) (h : p.build T = .ok d) (x : List T) :
    d.process (x.map fun a => -a) = (d.process x).map fun X => X.map fun a => -a :=
  (C38_commutes p (fun a => -a) ⟨h0, hadd, hsub, fun _ => rfl, hcmul, hmulc⟩ d h).process x

/-- Saturating integers meet the hypotheses, although their addition is not even associative. -/
example (p : Plan) (d : Dht Sat) (h : p.build Sat = .ok d) (x : List Sat) :
    d.process (x.map fun a => -a) = (d.process x).map fun X => X.map fun a => -a :=
  C38_odd p rfl
    (fun a b => by show -Sat.clamp (a.val + b.val) = Sat.clamp (-a.val + -b.val); rw [Sat.clamp_neg]; congr 1; omega)
    (fun a b => by show -Sat.clamp (a.val - b.val) = Sat.clamp (-a.val - -b.val); rw [Sat.clamp_neg]; congr 1; omega)
    (fun a b => by show -Sat.clamp (a.val * b.val) = Sat.clamp (a.val * -b.val); rw [Sat.clamp_neg, Int.mul_neg])
    (fun a b => by show -Sat.clamp (a.val * b.val) = Sat.clamp (-a.val * b.val); rw [Sat.clamp_neg, Int.neg_mul]) d h x

example : (⟨100⟩ + ⟨100⟩ + -⟨100⟩ : Sat) ≠ ⟨100⟩ + (⟨100⟩ + -⟨100⟩) := by decide

/-! ## C39 -/

section
variable {K : Type} [CommRing K] [FftNum K]

/-- Pairs, with the constants of `K` on both sides. -/
@[instance_reducible] def pairNum : FftNum (K × K) where
  F64 := FftNum.F64 K
  f64 := FftNum.f64 (T := K)
  fromF64 a := (FftNum.fromF64 a, FftNum.fromF64 a)
  sqrtHalfF32 := (FftNum.sqrtHalfF32, FftNum.sqrtHalfF32)
  halfF32 := (FftNum.halfF32, FftNum.halfF32)

attribute [local instance] pairNum

theorem respects_comb (a b : K) : Respects (T := K) (T' := K × K) (fun c q => q = (c, c)) (fun z q => z = a * q.1 + b * q.2) where
  zero := by simp
  add := by rintro _ q _ r rfl rfl; simp only [Prod.fst_add, Prod.snd_add]; ring
  sub := by rintro _ q _ r rfl rfl; simp only [Prod.fst_sub, Prod.snd_sub]; ring
  neg := by rintro _ q rfl; simp only [Prod.fst_neg, Prod.snd_neg]; ring
  cmul := by rintro c _ _ q rfl rfl; simp only [Prod.fst_mul, Prod.snd_mul]; ring
  mulc := by rintro c _ _ q rfl rfl; simp only [Prod.fst_mul, Prod.snd_mul]; ring
  zeroC := rfl
  addC := by rintro a _ b _ rfl rfl; rfl
  subC := by rintro a _ b _ rfl rfl; rfl
  negC := by rintro a _ rfl; rfl
  mulC := by rintro a _ b _ rfl rfl; rfl
  inv i n h := ⟨rfl, rfl⟩
  fwd i n h := ⟨rfl, rfl⟩
  sqrtHalf := rfl
  half := rfl
  norm n h := rfl

theorem LR.comb_zip {a b : K} {x y : List K} (h : x.length = y.length) :
    LR (fun z (q : K × K) => z = a * q.1 + b * q.2) (List.zipWith (fun u v => a * u + b * v) x y) (x.zip y) := by
  induction x generalizing y with
  | nil => exact .nil
  | cons u x ih => cases y with
    | nil => simp at h
    | cons v y => exact .cons rfl (ih (by simpa using h))

theorem LR.comb_eq {a b : K} {z : List K} {q : List (K × K)} (h : LR (fun z (q : K × K) => z = a * q.1 + b * q.2) z q) :
    z = q.map fun r => a * r.1 + b * r.2 := by
  induction h with
  | nil => rfl
  | cons h _ ih => rw [h, ih]; rfl

/-- In exact arithmetic over any commutative ring, with any values whatsoever in the tables, every composition is linear;
in particular so are Radix4 of length 128 and more, and transforms with an inexact `sqrt(1/2)`. -/
theorem C39_linear_any_tables (p : Plan) (d : Dht K) (h : p.build K = .ok d) (a b : K) (x y : List K)
    (hxy : x.length = y.length) (h1 : d.len ≤ x.length) (h2 : d.len ∣ x.length) :
    ∃ X Y, d.process x = .ok X ∧ d.process y = .ok Y ∧ X.length = Y.length ∧
      d.process (List.zipWith (fun u v => a * u + b * v) x y) = .ok (List.zipWith (fun u v => a * u + b * v) X Y) := by
  obtain ⟨f, hf⟩ := (plan_ok p d h).implements
  have rel : ∀ a b : K, ResRel (LR fun z (q : K × K) => z = a * q.1 + b * q.2)
      (d.process (List.zipWith (fun u v => a * u + b * v) x y))
      (p.build (K × K) >>= fun e => e.process (x.zip y)) := by
    intro a b
    have := plan_rel p (respects_comb a b)
    rw [h] at this
    generalize p.build (K × K) = r at this
    cases this with
    | ok hd => exact dht_process_rel hd (respects_comb a b).zero (LR.comb_zip hxy)
  have hx : List.zipWith (fun u v => (1 : K) * u + 0 * v) x y = x := by
    simp only [one_mul, zero_mul, add_zero, ← List.map_uncurry_zip_eq_zipWith, Function.uncurry_def]
    exact List.map_fst_zip (by omega)
  have hy : List.zipWith (fun u v => (0 : K) * u + 1 * v) x y = y := by
    simp only [one_mul, zero_mul, zero_add, ← List.map_uncurry_zip_eq_zipWith, Function.uncurry_def]
    exact List.map_snd_zip (by omega)
  have r1 := rel 1 0
  have r2 := rel 0 1
  have r3 := rel a b
  rw [hx] at r1
  rw [hy] at r2
  revert r1 r2 r3
  generalize (p.build (K × K) >>= fun e => e.process (x.zip y)) = r
  rw [hf.process h1 h2]
  intro r1 r2 r3
  cases r1 with
  | ok r1 =>
    rename_i Q
    revert r2 r3
    generalize d.process y = ry
    generalize d.process (List.zipWith _ x y) = rz
    intro r2 r3
    cases r2 with
    | ok r2 =>
      cases r3 with
      | ok r3 =>
        refine ⟨_, _, rfl, rfl, ?_, ?_⟩
        · rw [r1.length, r2.length]
        · rw [LR.comb_eq r1, LR.comb_eq r2, LR.comb_eq r3]
          simp [List.zipWith_map, List.zipWith_self]

end

/-- `Radix4::new(256)` over the integers modulo 17, the tables filled with arbitrary values. -/
example [FftNum (ZMod 17)] (x y : List (ZMod 17)) (hx : x.length = 512) (hy : y.length = 512) :
    ∃ d X Y, (Plan.radix4 256).build (ZMod 17) = .ok d ∧ d.process x = .ok X ∧ d.process y = .ok Y ∧
      d.process (List.zipWith (fun u v => 2 * u + 3 * v) x y) = .ok (List.zipWith (fun u v => 2 * u + 3 * v) X Y) := by
  have e := radix4_eq (T := ZMod 17) 8
  obtain ⟨X, Y, h1, h2, _, h3⟩ := C39_linear_any_tables (.radix4 256) _ e 2 3 x y (by omega)
    (by rw [hx]; show 256 ≤ 512; omega) (by rw [hx]; exact ⟨2, rfl⟩)
  exact ⟨_, X, Y, e, h1, h2, h3⟩

end RustDHT
