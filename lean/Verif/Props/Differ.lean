import Verif.Spec.Differ
import Verif.Proofs.PlanDht
import Verif.Proofs.DhtLaws
import Verif.Proofs.PlanRounding
import Verif.Props.Laws
import Verif.Proofs.Norm
import Mathlib.Algebra.Order.BigOperators.Ring.Finset
import Mathlib.Data.List.GetD

/-! # C93: a small change of the signal cannot hide in the spectrum

In exact arithmetic, for every composition: signals that differ in few entries have transforms that differ in many. -/

namespace RustDHT

open Finset

theorem cas_sq_le (t : ℝ) : cas t ^ 2 ≤ 2 := by
  have := Real.sin_sq_add_cos_sq t
  have := sq_nonneg (Real.cos t - Real.sin t)
  unfold cas
  nlinarith

open Classical in
/-- The number of nonzero entries times the number of nonzero coefficients. -/
theorem nonzero_mul {n : ℕ} (f : ℕ → ℝ) (F : ℕ → ℝ) (hF : ∀ k < n, F k = ∑ i ∈ range n, f i * cas (2 * Real.pi * i * k / n))
    (hp : ∑ k ∈ range n, F k ^ 2 = n * ∑ i ∈ range n, f i ^ 2) (h0 : ∃ i < n, f i ≠ 0) :
    n ≤ 2 * ((range n).filter (f · ≠ 0)).card * ((range n).filter (F · ≠ 0)).card := by
  set s := (range n).filter (f · ≠ 0)
  set S := (range n).filter (F · ≠ 0)
  set E := ∑ i ∈ range n, f i ^ 2
  have hE : 0 < E := by
    obtain ⟨i, hi, hf⟩ := h0
    exact sum_pos' (fun _ _ => sq_nonneg _) ⟨i, mem_range.2 hi, by positivity⟩
  have hs : ∑ i ∈ s, f i ^ 2 = E :=
    sum_subset (filter_subset _ _) fun i hi h => by
      have : f i = 0 := by by_contra h'; exact h (mem_filter.2 ⟨hi, h'⟩)
      simp [this]
  have h1 : ∀ k ∈ S, F k ^ 2 ≤ 2 * s.card * E := by
    intro k hk
    have hk' : k < n := mem_range.1 (mem_filter.1 hk).1
    have e : F k = ∑ i ∈ s, f i * cas (2 * Real.pi * i * k / n) := by
      rw [hF k hk']
      refine (sum_subset (filter_subset _ _) fun i hi h => ?_).symm
      have : f i = 0 := by by_contra h'; exact h (mem_filter.2 ⟨hi, h'⟩)
      simp [this]
    rw [e]
    refine (sum_mul_sq_le_sq_mul_sq s _ _).trans ?_
    rw [hs, mul_comm]
    refine mul_le_mul_of_nonneg_right ?_ hE.le
    refine (sum_le_sum fun i _ => cas_sq_le _).trans (le_of_eq ?_)
    rw [sum_const, nsmul_eq_mul, mul_comm]
  have hS : ∑ k ∈ S, F k ^ 2 = n * E := by
    rw [← hp]
    refine sum_subset (filter_subset _ _) fun i hi h => ?_
    have : F i = 0 := by by_contra h'; exact h (mem_filter.2 ⟨hi, h'⟩)
    simp [this]
  have h2 := sum_le_sum h1
  rw [hS, sum_const, nsmul_eq_mul] at h2
  have h3 : (n : ℝ) ≤ 2 * s.card * S.card := by
    by_contra hc
    push Not at hc
    have := mul_lt_mul_of_pos_right hc hE
    nlinarith
  exact_mod_cast h3

theorem dht_sub {x y : List ℝ} {n : ℕ} (hx : x.length = n) (hy : y.length = n) : ∀ k < n, (dht x).getD k 0 - (dht y).getD k 0 =
    ∑ i ∈ range n, (x.getD i 0 - y.getD i 0) * cas (2 * Real.pi * i * k / n) := by
  intro k hk
  have e : ∀ z : List ℝ, z.length = n → (dht z).getD k 0 = dhtCoeff z k := fun z hz => by
    rw [List.getD_eq_getElem _ _ (by simp [dht, hz, hk])]; simp [dht]
  rw [e x hx, e y hy, dhtCoeff, dhtCoeff, hx, hy, ← sum_sub_distrib]
  exact sum_congr rfl fun i _ => by ring

theorem dht_set {x : List ℝ} {n : ℕ} (hx : x.length = n) {i : ℕ} (hi : i < n) (v : ℝ) : ∀ k < n,
    (dht x).getD k 0 - (dht (x.set i v)).getD k 0 = (x.getD i 0 - v) * cas (2 * Real.pi * i * k / n) := by
  intro k hk
  rw [dht_sub hx (by simpa using hx) k hk, sum_eq_single_of_mem i (mem_range.2 hi) fun j hj hji => ?_]
  · rw [List.getD_eq_getElem (x.set i v) _ (by simp; omega), List.getElem_set_self]
  · have hj' := mem_range.1 hj
    rw [List.getD_eq_getElem x _ (by omega), List.getD_eq_getElem (x.set i v) _ (by simp; omega),
      List.getElem_set_ne (Ne.symm hji), sub_self, zero_mul]

/-- Where the cas function vanishes. -/
theorem cas_eq_zero {n i k : ℕ} (hn : 0 < n) :
    cas (2 * Real.pi * i * k / n) = 0 ↔ ∃ m : ℤ, 8 * (i * k : ℤ) = (4 * m - 1) * n := by
  have hn' : (n : ℝ) ≠ 0 := by positivity
  have hs : √2 ≠ 0 := by positivity
  have e : ∀ t : ℝ, cas t = √2 * Real.sin (t + Real.pi / 4) := fun t => by
    rw [Real.sin_add, Real.cos_pi_div_four, Real.sin_pi_div_four, cas]
    have := Real.mul_self_sqrt (show (0 : ℝ) ≤ 2 by norm_num)
    linear_combination (-(Real.cos t + Real.sin t) / 2) * this
  rw [e, mul_eq_zero, or_iff_right hs, Real.sin_eq_zero_iff]
  refine exists_congr fun m => ?_
  have h1 : (m : ℝ) * Real.pi = 2 * Real.pi * i * k / n + Real.pi / 4 ↔ (8 * (i * k) : ℝ) = (4 * m - 1) * n := by
    have hp := Real.pi_ne_zero
    constructor
    · intro h
      field_simp at h
      linarith
    · intro h
      field_simp
      linarith
  rw [h1]
  exact_mod_cast Iff.rfl

/-- It vanishes only if 8 divides the length. -/
theorem eight_dvd {n i k : ℕ} {m : ℤ} (h : 8 * (i * k : ℤ) = (4 * m - 1) * n) : 8 ∣ n := by
  have h1 : (8 : ℤ) ∣ (4 * m - 1) * n := ⟨_, h.symm⟩
  have h2 : IsCoprime (8 : ℤ) (4 * m - 1) := ⟨2 * m ^ 2 , -(4 * m + 1), by ring⟩
  exact_mod_cast h2.dvd_of_dvd_mul_left h1

open Classical in
/-- And at no more than a quarter of the indices. -/
theorem card_zero {n : ℕ} (hn : 0 < n) (i : ℕ) : 4 * ((range n).filter fun k : ℕ => cas (2 * Real.pi * i * k / n) = 0).card ≤ n := by
  set Z := (range n).filter fun k => cas (2 * Real.pi * i * (k : ℕ) / n) = 0 with hZ
  rcases Z.eq_empty_or_nonempty with h0 | ⟨k0, hk0⟩
  · simp [h0]
  obtain ⟨q, rfl⟩ : 8 ∣ n := by
    obtain ⟨m, hm⟩ := (cas_eq_zero hn).1 (mem_filter.1 hk0).2
    exact eight_dvd hm
  have hz : ∀ k ∈ Z, ∃ m : ℤ, (i * k : ℤ) = (4 * m - 1) * q := by
    intro k hk
    obtain ⟨m, hm⟩ := (cas_eq_zero hn).1 (mem_filter.1 hk).2
    refine ⟨m, ?_⟩
    push_cast at hm
    linarith
  have hq : (q : ℤ) ≠ 0 := by
    rintro h
    have : q = 0 := by exact_mod_cast h
    omega
  have : (Z ×ˢ range 4).card ≤ (range (8 * q)).card := by
    refine card_le_card_of_injOn (fun p => (p.1 + p.2 * k0) % (8 * q)) (fun p _ => by simpa using Nat.mod_lt _ hn) ?_
    rintro ⟨k, c⟩ hp ⟨k', c'⟩ hp' he
    simp only [coe_product, Set.mem_prod, mem_coe, mem_range] at hp hp' he
    obtain ⟨m, hm⟩ := hz k hp.1
    obtain ⟨m', hm'⟩ := hz k' hp'.1
    obtain ⟨m0, hm0⟩ := hz k0 hk0
    obtain ⟨u, hu⟩ := (Nat.modEq_iff_dvd.1 he)
    push_cast at hu
    have h1 : ((4 * m' - 1) + c' * (4 * m0 - 1) - (4 * m - 1) - c * (4 * m0 - 1) : ℤ) * q = (8 * i * u) * q := by
      linear_combination (-1 : ℤ) * hm' - c' * hm0 + hm + c * hm0 + i * hu
    have h2 := mul_right_cancel₀ hq h1
    have h3 : ((c : ℤ) - c') = 4 * (2 * i * u - m' - c' * m0 + m + c * m0) := by linear_combination h2
    have hc : c = c' := by
      obtain ⟨-, h4⟩ := hp
      obtain ⟨-, h5⟩ := hp'
      generalize (2 * i * u - m' - c' * m0 + m + c * m0 : ℤ) = w at h3
      omega
    subst hc
    have hk := mem_range.1 (mem_filter.1 hp.1).1
    have hk' := mem_range.1 (mem_filter.1 hp'.1).1
    have h6 : k ≡ k' [MOD 8 * q] := Nat.ModEq.add_right_cancel' _ he
    rw [Nat.ModEq, Nat.mod_eq_of_lt hk, Nat.mod_eq_of_lt hk'] at h6
    rw [h6]
  rw [card_product, card_range, card_range] at this
  omega

/-- If two signals differ in `s > 0` entries, their transforms differ in at least `n / (2s)` coefficients. -/
theorem C93_differ (p : Plan) (hr : p.SmallRadix4) (d : Dht ℝ) (h : p.build ℝ = .ok d) (x y : List ℝ) (hx : x.length = d.len)
    (hy : y.length = d.len) (hxy : x ≠ y) :
    ∃ X Y, d.process x = .ok X ∧ d.process y = .ok Y ∧ d.len ≤ 2 * differ x y * differ X Y := by
  have hi := plan_dht p hr d h
  refine ⟨_, _, process_single hi hx, process_single hi hy, ?_⟩
  have hdx : (dht x).length = d.len := by simp [dht, hx]
  have hF := dht_sub hx hy
  have hp : ∑ k ∈ range d.len, ((dht x).getD k 0 - (dht y).getD k 0) ^ 2 =
      d.len * ∑ i ∈ range d.len, (x.getD i 0 - y.getD i 0) ^ 2 := by
    have e := nrm_dht_sub hx hy
    have e2 : nrm d.len (fun i => nth (dht x) i - nth (dht y) i) ^ 2 = d.len * nrm d.len (fun i => nth x i - nth y i) ^ 2 := by
      rw [e, mul_pow, Real.sq_sqrt (Nat.cast_nonneg _)]
    rwa [nrm_sq, nrm_sq] at e2
  have h0 : ∃ i < d.len, x.getD i 0 - y.getD i 0 ≠ 0 := by
    by_contra hc
    push Not at hc
    refine hxy (List.ext_getElem (by omega) fun i h1 h2 => ?_)
    have := hc i (by omega)
    rw [List.getD_eq_getElem _ _ h1, List.getD_eq_getElem _ _ h2] at this
    linarith
  have := nonzero_mul _ _ hF hp h0
  simp only [sub_ne_zero] at this
  unfold differ
  rw [hx, hdx]
  convert this

open Classical in
theorem differ_set {x : List ℝ} {n : ℕ} (hx : x.length = n) {i : ℕ} (hi : i < n) {v : ℝ} (hv : v ≠ x.getD i 0) :
    differ (dht x) (dht (x.set i v)) + ((range n).filter fun k : ℕ => cas (2 * Real.pi * i * k / n) = 0).card = n := by
  have e : differ (dht x) (dht (x.set i v)) = ((range n).filter fun k : ℕ => ¬ cas (2 * Real.pi * i * k / n) = 0).card := by
    unfold differ
    rw [show (dht x).length = n by simp [dht, hx]]
    congr 1
    refine filter_congr fun k hk => ?_
    rw [← sub_ne_zero, dht_set hx hi v k (mem_range.1 hk), mul_ne_zero_iff, and_iff_right (sub_ne_zero.2 (Ne.symm hv))]
  rw [e, add_comm, card_filter_add_card_filter_not, card_range]

/-- One changed entry, however small the change, shows in at least three quarters of the coefficients, and in all of them if
8 does not divide the length. -/
theorem C93_one (p : Plan) (hr : p.SmallRadix4) (d : Dht ℝ) (h : p.build ℝ = .ok d) (x : List ℝ) (hx : x.length = d.len)
    (i : ℕ) (hi : i < d.len) (v : ℝ) (hv : v ≠ x.getD i 0) :
    ∃ X Y, d.process x = .ok X ∧ d.process (x.set i v) = .ok Y ∧ 3 * d.len ≤ 4 * differ X Y ∧
      (¬ 8 ∣ d.len → differ X Y = d.len) := by
  classical
  have hc := plan_dht p hr d h
  have e := differ_set hx hi hv
  have hz := card_zero (show 0 < d.len by omega) i
  refine ⟨_, _, process_single hc hx, process_single hc (by simpa using hx), by omega, fun h8 => ?_⟩
  have : ((range d.len).filter fun k => cas (2 * Real.pi * i * (k : ℕ) / d.len) = 0) = ∅ := by
    refine filter_eq_empty_iff.2 fun k _ h0 => h8 ?_
    obtain ⟨m, hm⟩ := (cas_eq_zero (by omega)).1 h0
    exact eight_dvd hm
  rw [this, card_empty] at e
  omega

/-- Three quarters is the best bound: entry `n/8` shows in no more. -/
theorem C93_one_sharp (p : Plan) (hr : p.SmallRadix4) (d : Dht ℝ) (h : p.build ℝ = .ok d) (q : ℕ) (hq : 0 < q) (hl : d.len = 8 * q)
    (x : List ℝ) (hx : x.length = d.len) (v : ℝ) (hv : v ≠ x.getD q 0) :
    ∃ X Y, d.process x = .ok X ∧ d.process (x.set q v) = .ok Y ∧ differ X Y = 6 * q := by
  classical
  have hc := plan_dht p hr d h
  have e := differ_set hx (show q < d.len by omega) hv
  have hz := card_zero (show 0 < d.len by omega) q
  refine ⟨_, _, process_single hc hx, process_single hc (by simpa using hx), ?_⟩
  have h1 : ((range (2 * q)).image fun c => 4 * c + 3) ⊆ (range d.len).filter fun k => cas (2 * Real.pi * q * (k : ℕ) / d.len) = 0 := by
    intro k hk
    obtain ⟨c, hc, rfl⟩ := mem_image.1 hk
    have := mem_range.1 hc
    refine mem_filter.2 ⟨mem_range.2 (by omega), (cas_eq_zero (by omega)).2 ⟨c + 1, ?_⟩⟩
    rw [hl]
    push_cast
    ring
  have h2 := card_le_card h1
  rw [card_image_of_injective _ (fun a b (hab : 4 * a + 3 = 4 * b + 3) => by omega), card_range] at h2
  omega

/-- Two signals with the same transform are the same. -/
theorem C93_injective (p : Plan) (hr : p.SmallRadix4) (d : Dht ℝ) (h : p.build ℝ = .ok d) (h0 : 0 < d.len) (x y : List ℝ)
    (hx : x.length = d.len) (hy : y.length = d.len) (he : d.process x = d.process y) : x = y := by
  by_contra hne
  obtain ⟨X, Y, h1, h2, h3⟩ := C93_differ p hr d h x y hx hy hne
  rw [h1, h2] at he
  cases he
  simp [differ] at h3
  omega

/-! ## Instances -/

/-- Length 24: if one entry is changed, at least 18 coefficients change. -/
example : ∃ d, lawPlan.build ℝ = .ok d ∧ ∀ x : List ℝ, x.length = 24 → ∃ X Y, d.process x = .ok X ∧
    d.process (x.set 5 (x.getD 5 0 + 1)) = .ok Y ∧ 18 ≤ differ X Y := by
  obtain ⟨d, e, hr, hl⟩ := lawPlan_build
  refine ⟨d, e, fun x hx => ?_⟩
  obtain ⟨X, Y, h1, h2, h3, -⟩ := C93_one lawPlan hr d e x (by omega) 5 (by omega) (x.getD 5 0 + 1) (by simp)
  exact ⟨X, Y, h1, h2, by omega⟩

/-- If it is entry 3, just 18. -/
example : ∃ d, lawPlan.build ℝ = .ok d ∧ ∀ x : List ℝ, x.length = 24 → ∃ X Y, d.process x = .ok X ∧
    d.process (x.set 3 (x.getD 3 0 + 1)) = .ok Y ∧ differ X Y = 18 := by
  obtain ⟨d, e, hr, hl⟩ := lawPlan_build
  exact ⟨d, e, fun x hx => C93_one_sharp lawPlan hr d e 3 (by omega) (by omega) x (by omega) (x.getD 3 0 + 1) (by simp)⟩

/-- The count: two signals that differ in one of three entries. -/
example : differ [1, 2, 3] [1, 5, 3] = 1 := by
  classical
  unfold differ
  rw [card_eq_one]
  refine ⟨1, ?_⟩
  ext j
  rcases j with _ | _ | _ | j <;> simp

end RustDHT
