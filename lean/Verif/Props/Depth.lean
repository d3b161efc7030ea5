import Verif.Proofs.Depth
import Verif.Props.Circuit
import Verif.Props.Exact
import Verif.Proofs.PlanRounding

/-! # C91: the longest chain of operations

How long the operations of a transform have to wait for one another, if everything that is ready is done at once. -/

set_option linter.unusedSectionVars false

namespace RustDHT

open Circ

section
variable {S : Type} [Zero S] [Add S] [_root_.Sub S] [Mul S] [Neg S] [FftNum S]

/-- The depth is at most the number of roundings on a path that C41 counts, whatever the composition and the number of chunks. -/
theorem C91_depth (p : Plan) (c : Dht (Circ S)) (hc : p.build (Circ S) = .ok c) (n : ℕ) (h1 : c.len ≤ n) (h2 : c.len ∣ n)
    (y : List (Circ S)) (hy : c.process (buffer S n) = .ok y) : ∀ t ∈ y, t.depth ≤ p.growth.d :=
  plan_depth p hc h1 h2 hy

/-- Without `RadersAlgorithm` and without long `DhtNaive`: depth at most `(L + 14) log₂ n`. -/
theorem C91_fast (L : ℕ) (p : Plan) (hp : p.Fast L) (c : Dht (Circ S)) (hc : p.build (Circ S) = .ok c) (h2 : 2 ≤ c.len)
    (y : List (Circ S)) (hy : c.process (buffer S c.len) = .ok y) :
    ∀ t ∈ y, (t.depth : ℝ) ≤ (L + 14) * Real.logb 2 c.len := by
  intro t ht
  have h1 : (t.depth : ℝ) ≤ p.growth.d := by exact_mod_cast plan_depth p hc le_rfl dvd_rfl hy t ht
  have h3 := (plan_depthLog p hp c hc).two h2
  rw [lg] at h3
  linarith

/-- The outputs of `DhtNaive` have depth at most `n + 3`, and one of them at least `n`. -/
theorem C91_naive (n : ℕ) (hn : 0 < n) (y : List (Circ S)) (hy : (dhtNaive (Circ S) n).process (buffer S n) = .ok y) :
    (∀ t ∈ y, t.depth ≤ n + 3) ∧ ∃ t ∈ y, n ≤ t.depth := by
  refine ⟨plan_depth (.naive n) (c := dhtNaive (Circ S) n) rfl (by rw [dhtNaive_len]) (by rw [dhtNaive_len]) hy, ?_⟩
  have hl : (buffer S n).length = n := by simp [buffer]
  have e := (dhtNaive_implements (T := Circ S) n).process (b := buffer S n) (by rw [dhtNaive_len]; omega) (by rw [dhtNaive_len, hl])
  rw [dhtNaive_len, mapChunks_single hn hl] at e
  rw [e] at hy
  cases hy
  obtain ⟨m, rfl⟩ : ∃ m, n = m + 1 := ⟨n - 1, by omega⟩
  exact ⟨_, naiveFn_buffer hn, depth_chain _ _ _⟩

end

/-- No circuit of whatever form can do with less than `log₂ n`: coefficient 0 is the sum of all `n` entries. -/
theorem C91_lower (n : ℕ) (t : Circ ℝ) (h : ∀ x : ℕ → ℝ, t.eval x = ∑ i ∈ Finset.range n, x i) : n ≤ 2 ^ t.depth := by
  have hsub : Finset.range n ⊆ t.inputs := by
    intro i hi
    by_contra hn
    have h1 := eval_congr (t := t) (x := fun _ => 0) (y := fun j => if j = i then 1 else 0) fun j hj => by
      rw [if_neg]; rintro rfl; exact hn hj
    rw [h, h] at h1
    simp only [Finset.sum_const_zero, Finset.sum_ite_eq', if_pos hi] at h1
    exact zero_ne_one h1
  simpa using (Finset.card_le_card hsub).trans (card_inputs t)

/-- So every composition that computes the transform has an output of depth at least `log₂ n`. -/
theorem C91_lower_plan (p : Plan) (hr : p.SmallRadix4) (c : Dht (Circ ℝ)) (hc : p.build (Circ ℝ) = .ok c) (h0 : 0 < c.len)
    (y : List (Circ ℝ)) (hy : c.process (buffer ℝ c.len) = .ok y) : ∃ t ∈ y, c.len ≤ 2 ^ t.depth := by
  have hbr : ResRel _ (p.build (Circ ℝ)) (p.build ℝ) := plan_rel p (eval_respects fun _ => 0)
  obtain ⟨d, hd⟩ : ∃ d, p.build ℝ = .ok d := by
    rcases e : p.build ℝ with er | d
    · rw [hc, e] at hbr; cases hbr
    · exact ⟨d, rfl⟩
  obtain ⟨c', hc', hl, hv⟩ := C65_circuit p d hd
  rw [hc] at hc'
  cases hc'
  obtain ⟨f, hi⟩ := (plan_ok p c hc).implements
  have hbl : (buffer ℝ c.len).length = c.len := by simp [buffer]
  have e := hi.process (b := buffer ℝ c.len) (by rw [hbl]) (by rw [hbl])
  rw [mapChunks_single h0 hbl] at e
  have hyl : y.length = c.len := by
    rw [e] at hy
    cases hy
    exact hi.length _ hbl
  refine ⟨y[0], List.getElem_mem _, C91_lower _ _ fun x => ?_⟩
  have h1 := hv c.len x
  rw [hy] at h1
  have hxl : ((List.range c.len).map x).length = d.len := by simp [hl]
  have h2 := process_single (C12_plan_dht p hr d hd).1 hxl
  rw [h2] at h1
  have h3 : dht ((List.range c.len).map x) = y.map (eval x) := Except.ok.inj h1
  have h4 : (y.map (eval x)).getD 0 0 = y[0].eval x := by simp [hyl, h0]
  rw [← h4, ← h3]
  have h5 : ∀ i ∈ Finset.range c.len, ((List.range c.len).map x).getD i 0 = x i := fun i hi => by
    simp [Finset.mem_range.1 hi]
  rw [dht, List.length_map, List.length_range]
  simp only [List.getD_eq_getElem?_getD, List.getElem?_map, List.getElem?_range h0, Option.map_some, Option.getD_some]
  rw [dhtCoeff, List.length_map, List.length_range]
  refine Finset.sum_congr rfl fun i hi => ?_
  rw [h5 i hi]
  simp [cas]

/-! ## Instances -/

/-- `Radix4` of length 1024 has depth at most 22, `DhtNaive` at least 1024. -/
example : (Plan.radix4 1024).growth.d = 22 := by
  have h : Nat.log 2 1024 = 10 := Nat.log_pow (b := 2) (by norm_num) 10
  show (radix4Growth 1024).d = 22
  rw [radix4Growth, h]
  rfl

/-- The sum of four entries has depth 2 or more. -/
example : (Circ.add (.add (.inp 0) (.inp 1)) (.add (.inp 2) (.inp 3)) : Circ ℝ).depth = 2 := rfl

end RustDHT
