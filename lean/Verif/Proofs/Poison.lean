import Verif.Spec.Poison
import Verif.Spec.Ieee
import Verif.Proofs.ParamPlan
import Verif.Props.Contract
import Verif.Props.Exact

/-! # Helper lemmas about values that no operation gets rid of

A third arithmetic stands between the two that are compared: that of `S` with an additional bad value. -/

set_option linter.unusedSectionVars false

namespace RustDHT

section
variable {S : Type} [Zero S] [Add S] [Sub S] [Mul S] [Neg S] [FftNum S]

/-- The numbers of `S`, or bad. -/
structure OrBad (S : Type) where
  get : Option S

namespace OrBad

instance : Zero (OrBad S) := ⟨⟨some 0⟩⟩
instance : Add (OrBad S) := ⟨fun a b => ⟨a.get.bind fun u => b.get.map fun v => u + v⟩⟩
instance : Sub (OrBad S) := ⟨fun a b => ⟨a.get.bind fun u => b.get.map fun v => u - v⟩⟩
instance : Mul (OrBad S) := ⟨fun a b => ⟨a.get.bind fun u => b.get.map fun v => u * v⟩⟩
instance : Neg (OrBad S) := ⟨fun a => ⟨a.get.map fun u => -u⟩⟩

instance : FftNum (OrBad S) where
  F64 := FftNum.F64 S
  f64 := FftNum.f64 (T := S)
  fromF64 a := ⟨some (FftNum.fromF64 a)⟩
  sqrtHalfF32 := ⟨some FftNum.sqrtHalfF32⟩
  halfF32 := ⟨some FftNum.halfF32⟩

theorem get_add (a b : OrBad S) : (a + b).get = a.get.bind fun u => b.get.map fun v => u + v := rfl
theorem get_sub (a b : OrBad S) : (a - b).get = a.get.bind fun u => b.get.map fun v => u - v := rfl
theorem get_mul (a b : OrBad S) : (a * b).get = a.get.bind fun u => b.get.map fun v => u * v := rfl
theorem get_neg (a : OrBad S) : (-a).get = a.get.map fun u => -u := rfl

/-- A good number is the right one. -/
def Agrees (s : S) (o : OrBad S) : Prop := ∀ v, o.get = some v → s = v
/-- The constants are good. -/
def Same (s : S) (o : OrBad S) : Prop := o.get = some s

theorem Same.agrees {s : S} {o : OrBad S} (h : Same s o) : Agrees s o := fun v e => by
  rw [h] at e; exact Option.some.inj e

theorem bind_map {a b : Option S} {f : S → S → S} {v : S} (h : (a.bind fun u => b.map fun w => f u w) = some v) :
    ∃ u w, a = some u ∧ b = some w ∧ f u w = v := by
  cases a with
  | none => cases h
  | some u => cases b with
    | none => cases h
    | some w => exact ⟨u, w, rfl, rfl, Option.some.inj h⟩

theorem same_op {f : S → S → S} {a b : S} {o q : OrBad S} (ha : Same a o) (hb : Same b q) :
    (o.get.bind fun u => q.get.map fun w => f u w) = some (f a b) := by rw [ha, hb]; rfl

theorem agrees_op {f : S → S → S} {a b : S} {o q : OrBad S} (ha : Agrees a o) (hb : Agrees b q) (v : S)
    (h : (o.get.bind fun u => q.get.map fun w => f u w) = some v) : f a b = v := by
  obtain ⟨u, w, hu, hw, e⟩ := bind_map h
  rw [ha u hu, hb w hw, e]

theorem respects_agrees : Respects (T := S) (T' := OrBad S) Same Agrees where
  zero := fun _ e => Option.some.inj e
  add := fun ha hb => agrees_op ha hb
  sub := fun ha hb => agrees_op ha hb
  neg := by
    intro a o ha v h
    rw [get_neg, Option.map_eq_some_iff] at h
    obtain ⟨u, hu, e⟩ := h
    rw [ha u hu, e]
  cmul := fun ha hb => agrees_op ha.agrees hb
  mulc := fun ha hb => agrees_op ha hb.agrees
  zeroC := rfl
  addC := fun ha hb => same_op ha hb
  subC := fun ha hb => same_op ha hb
  negC := by intro a o ha; show (-o).get = _; rw [get_neg, ha]; rfl
  mulC := fun ha hb => same_op ha hb
  inv := fun _ _ _ => ⟨rfl, rfl⟩
  fwd := fun _ _ _ => ⟨rfl, rfl⟩
  sqrtHalf := rfl
  half := rfl
  norm := fun _ _ => rfl

variable {T : Type} [Zero T] [Add T] [Sub T] [Mul T] [Neg T] [FftNum T]

/-- Bad there means bad here. -/
def Warns (Bad : T → Prop) (t : T) (o : OrBad S) : Prop := o.get = none → Bad t
def Good (_ : T) (o : OrBad S) : Prop := ∃ s, o.get = some s

theorem bind_map_none {a b : Option S} {f : S → S → S} (h : (a.bind fun u => b.map fun w => f u w) = none) :
    a = none ∨ b = none := by
  cases a with
  | none => exact .inl rfl
  | some u => cases b with
    | none => exact .inr rfl
    | some w => cases h

theorem good_op {f : S → S → S} {a b : T} {o q : OrBad S} (ha : Good a o) (hb : Good b q) :
    ∃ s, (o.get.bind fun u => q.get.map fun w => f u w) = some s := by
  obtain ⟨u, hu⟩ := ha
  obtain ⟨w, hw⟩ := hb
  exact ⟨f u w, by rw [hu, hw]; rfl⟩

theorem respects_warns {Bad : T → Prop} (h : Absorbing Bad) : Respects (T := T) (T' := OrBad S) Good (Warns Bad) where
  zero := fun e => nomatch e
  add := fun ha hb e => (bind_map_none e).elim (fun e => h.add_left _ _ (ha e)) (fun e => h.add_right _ _ (hb e))
  sub := fun ha hb e => (bind_map_none e).elim (fun e => h.sub_left _ _ (ha e)) (fun e => h.sub_right _ _ (hb e))
  neg := by
    intro a o ha e
    rw [get_neg, Option.map_eq_none_iff] at e
    exact h.neg _ (ha e)
  cmul := by
    rintro c o a q ⟨s, hs⟩ ha e
    rcases bind_map_none e with e | e
    · rw [hs] at e; cases e
    · exact h.mul_right _ _ (ha e)
  mulc := by
    rintro c o a q ha ⟨s, hs⟩ e
    rcases bind_map_none e with e | e
    · exact h.mul_left _ _ (ha e)
    · rw [hs] at e; cases e
  zeroC := ⟨0, rfl⟩
  addC := fun ha hb => good_op ha hb
  subC := fun ha hb => good_op ha hb
  negC := by rintro a o ⟨s, hs⟩; exact ⟨-s, by rw [get_neg, hs]; rfl⟩
  mulC := fun ha hb => good_op ha hb
  inv := fun _ _ _ => ⟨⟨_, rfl⟩, ⟨_, rfl⟩⟩
  fwd := fun _ _ _ => ⟨⟨_, rfl⟩, ⟨_, rfl⟩⟩
  sqrtHalf := ⟨_, rfl⟩
  half := ⟨_, rfl⟩
  norm := fun _ _ => ⟨_, rfl⟩

end OrBad

open OrBad

variable {T : Type} [Zero T] [Add T] [Sub T] [Mul T] [Neg T] [FftNum T]

theorem poison_flows (p : Plan) {dS : Dht S} {dT : Dht T} (hS : p.build S = .ok dS) (hT : p.build T = .ok dT)
    {Bad : T → Prop} (hB : Absorbing Bad) {j k : ℕ} {x₁ x₂ X₁ X₂ : List S} (hl : x₁.length = x₂.length)
    (hx : ∀ i, i ≠ j → x₁[i]? = x₂[i]?) (h₁ : dS.process x₁ = .ok X₁) (h₂ : dS.process x₂ = .ok X₂) (hk : X₁[k]? ≠ X₂[k]?)
    {x X : List T} (hlx : x.length = x₁.length) (hj : BadAt Bad x j) (h : dT.process x = .ok X) : BadAt Bad X k := by
  have r1 := plan_rel p (respects_agrees (S := S))
  have r2 := plan_rel p (respects_warns (S := S) hB)
  rw [hS] at r1
  rw [hT] at r2
  rcases eO : p.build (OrBad S) with er | dO
  · rw [eO] at r1; cases r1
  rw [eO] at r1 r2
  cases r1 with | ok r1 => ?_
  cases r2 with | ok r2 => ?_
  -- the input with a bad element
  let o : List (OrBad S) := List.ofFn fun i : Fin x₁.length => if i.1 = j then ⟨none⟩ else ⟨some x₁[i]⟩
  have lo : o.length = x₁.length := List.length_ofFn
  have ho : ∀ i (hi : i < o.length), o[i] = if i = j then ⟨none⟩ else ⟨some (x₁[i]'(by omega))⟩ := by
    intro i hi
    simp only [o, List.getElem_ofFn]
    rfl
  have a1 : LR Agrees x₁ o := by
    refine List.forall₂_iff_get.2 ⟨lo.symm, fun i h1 h2 v hv => ?_⟩
    simp only [List.get_eq_getElem, ho] at hv ⊢
    split at hv
    · cases hv
    · exact Option.some.inj hv
  have a2 : LR Agrees x₂ o := by
    refine List.forall₂_iff_get.2 ⟨by omega, fun i h1 h2 v hv => ?_⟩
    simp only [List.get_eq_getElem, ho] at hv ⊢
    split at hv
    · cases hv
    · rename_i hij
      have := hx i hij
      rw [List.getElem?_eq_getElem (by omega), List.getElem?_eq_getElem h1] at this
      rw [← Option.some.inj this]
      exact Option.some.inj hv
  have aT : LR (Warns Bad) x o := by
    refine List.forall₂_iff_get.2 ⟨by omega, fun i h1 h2 hv => ?_⟩
    simp only [List.get_eq_getElem, ho] at hv ⊢
    split at hv
    · rename_i hij
      obtain ⟨v, ev, hv⟩ := hj
      rw [← hij, List.getElem?_eq_getElem h1] at ev
      rw [Option.some.inj ev]
      exact hv
    · cases hv
  have q1 := dht_process_rel r1 (respects_agrees (S := S)).zero a1
  have q2 := dht_process_rel r1 (respects_agrees (S := S)).zero a2
  have qT := dht_process_rel r2 (respects_warns (S := S) hB).zero aT
  rw [h₁] at q1
  rw [h₂] at q2
  rw [h] at qT
  rcases eP : dO.process o with er | O
  · rw [eP] at q1; cases q1
  rw [eP] at q1 q2 qT
  cases q1 with | ok q1 => ?_
  cases q2 with | ok q2 => ?_
  cases qT with | ok qT => ?_
  have l1 := q1.length_eq
  have l2 := q2.length_eq
  have lT := qT.length_eq
  have hkO : k < O.length := by
    by_contra hc
    apply hk
    rw [List.getElem?_eq_none (by omega), List.getElem?_eq_none (by omega)]
  refine ⟨X[k], List.getElem?_eq_getElem _, ?_⟩
  refine (List.forall₂_iff_get.1 qT).2 k (by omega) hkO ?_
  rcases e : O[k].get with _ | v
  · rfl
  · exfalso
    apply hk
    have e1 : X₁[k]'(by omega) = v := (List.forall₂_iff_get.1 q1).2 k (by omega) hkO v e
    have e2 : X₂[k]'(by omega) = v := (List.forall₂_iff_get.1 q2).2 k (by omega) hkO v e
    rw [List.getElem?_eq_getElem (by omega), List.getElem?_eq_getElem (by omega), e1, e2]

end

/-! ## Where the transform does not vanish -/

theorem dhtCoeff_single {n j k : ℕ} (hj : j < n) : dhtCoeff ((List.replicate n (0 : ℝ)).set j 1) k = cas (2 * Real.pi * j * k / n) := by
  unfold dhtCoeff
  rw [List.length_set, List.length_replicate, Finset.sum_eq_single j]
  · simp [hj]
  · intro i hi hij
    simp [List.getElem_set, hij.symm, Finset.mem_range.1 hi]
  · intro h
    exact absurd (Finset.mem_range.2 hj) h

theorem dhtCoeff_zero {n k : ℕ} : dhtCoeff (List.replicate n (0 : ℝ)) k = 0 := by
  unfold dhtCoeff
  refine Finset.sum_eq_zero fun i hi => ?_
  have hi' : i < n := by simpa using hi
  simp [hi']

theorem cas_zero_dvd {n j k : ℕ} (hn : 0 < n) (h : cas (2 * Real.pi * j * k / n) = 0) : 8 ∣ n := by
  have hs : Real.sin (2 * Real.pi * j * k / n + Real.pi / 4) = 0 := by
    rw [Real.sin_add, Real.sin_pi_div_four, Real.cos_pi_div_four, ← add_mul]
    unfold cas at h
    rw [add_comm, h, zero_mul]
  obtain ⟨m, hm⟩ := Real.sin_eq_zero_iff.1 hs
  have hn' : (n : ℝ) ≠ 0 := by exact_mod_cast hn.ne'
  have e : (m : ℝ) * 4 * n = 8 * j * k + n := by
    have := Real.pi_pos.ne'
    field_simp at hm
    linarith
  have e' : (4 * m - 1) * (n : ℤ) = 8 * (j * k) := by
    have : (m : ℤ) * 4 * n = 8 * j * k + n := by exact_mod_cast e
    linarith
  have hc : IsCoprime (8 : ℤ) (4 * m - 1) := by
    refine ⟨2 * m ^ 2, -(4 * m + 1), ?_⟩
    ring
  have : (8 : ℤ) ∣ n := hc.dvd_of_dvd_mul_left ⟨j * k, e'⟩
  exact_mod_cast this

/-! ## IEEE -/

theorem nan_absorbing (F : Fmt) : Absorbing (T := Flt F) (fun a => a = .nan) where
  add_left := by rintro _ b rfl; cases b <;> rfl
  add_right := by rintro a _ rfl; cases a <;> rfl
  sub_left := by rintro _ b rfl; cases b <;> rfl
  sub_right := by rintro a _ rfl; cases a <;> rfl
  neg := by rintro _ rfl; rfl
  mul_left := by rintro _ b rfl; cases b <;> rfl
  mul_right := by rintro a _ rfl; cases a <;> rfl

theorem nonfinite_absorbing (F : Fmt) : Absorbing (T := Flt F) (fun a => ¬ a.fin) := by
  have add : ∀ a b : Flt F, ¬ a.fin ∨ ¬ b.fin → ¬ (a + b).fin := by
    intro a b h
    rcases a with ⟨s, u, hu⟩ | s | _ <;> rcases b with ⟨s', v, hv⟩ | s' | _
    · exact absurd h (by simp [Flt.fin])
    · exact id
    · exact id
    · exact id
    · show ¬ (if s = s' then Flt.inf s else .nan : Flt F).fin
      split <;> exact id
    all_goals exact id
  have neg : ∀ a : Flt F, ¬ a.fin → ¬ (-a).fin := by
    intro a h
    rcases a with ⟨s, u, hu⟩ | s | _
    · exact absurd trivial h
    · exact id
    · exact id
  have mul : ∀ a b : Flt F, ¬ a.fin ∨ ¬ b.fin → ¬ (a * b).fin := by
    intro a b h
    rcases a with ⟨s, u, hu⟩ | s | _ <;> rcases b with ⟨s', v, hv⟩ | s' | _
    · exact absurd h (by simp [Flt.fin])
    · show ¬ (if u = 0 then Flt.nan else .inf (xor s s') : Flt F).fin
      split <;> exact id
    · exact id
    · show ¬ (if v = 0 then Flt.nan else .inf (xor s s') : Flt F).fin
      split <;> exact id
    all_goals exact id
  exact
    { add_left := fun a b h => add a b (.inl h)
      add_right := fun a b h => add a b (.inr h)
      sub_left := fun a b h => add a (-b) (.inl h)
      sub_right := fun a b h => add a (-b) (.inr (neg b h))
      neg := neg
      mul_left := fun a b h => mul a b (.inl h)
      mul_right := fun a b h => mul a b (.inr h) }

end RustDHT
