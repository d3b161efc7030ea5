import Verif.Spec.Modest
import Verif.Proofs.Circuit
import Verif.Proofs.Scaling
import Verif.Proofs.Orthogonality
import Mathlib.LinearAlgebra.Matrix.Determinant.Basic

/-! # Determinants and the size of circuits

Every operation of a circuit with small factors at most doubles the largest determinant of `n` of its values, as linear
forms of `n` entries (Morgenstern's argument). -/

set_option linter.unusedSectionVars false

namespace RustDHT

namespace Circ

variable {n : ℕ}

/-- The coefficients of a linear form. -/
def form (n : ℕ) (t : Circ ℝ) : Fin n → ℝ := fun j => t.eval fun i => if i = j then 1 else 0

/-- The number of operations in the expression, as a tree. -/
def nodes {S : Type} : Circ S → ℕ
  | inp _ | num _ => 0
  | add a b | sub a b | mul a b => a.nodes + b.nodes + 1
  | neg a => a.nodes + 1

theorem gates_nodes {S : Type} {t u : Circ S} (h : t ∈ u.gates) : t = u ∨ t.nodes < u.nodes := by
  induction u with
  | inp i => cases h
  | num c => cases h
  | add a b iha ihb | sub a b iha ihb | mul a b iha ihb =>
    simp only [gates, List.mem_append] at h
    simp only [nodes]
    rcases h with h | h | h
    · left
      split at h
      · simpa using h
      · cases h
    · right
      rcases iha h with rfl | h <;> omega
    · right
      rcases ihb h with rfl | h <;> omega
  | neg a iha =>
    simp only [gates, List.mem_append] at h
    simp only [nodes]
    rcases h with h | h
    · left
      split at h
      · simpa using h
      · cases h
    · right
      rcases iha h with rfl | h <;> omega

theorem form_pure {t : Circ ℝ} (h : t.Modest n) (hu : t.uses = false) : form n t = 0 := by
  have : ∀ x : ℕ → ℝ, t.eval x = 0 := by
    intro x
    induction h with
    | zero => rfl
    | inp h => cases hu
    | add _ _ iha ihb =>
      rw [uses, Bool.or_eq_false_iff] at hu
      rw [eval, iha hu.1, ihb hu.2, add_zero]
    | sub _ _ iha ihb =>
      rw [uses, Bool.or_eq_false_iff] at hu
      rw [eval, iha hu.1, ihb hu.2, sub_zero]
    | neg _ ih => rw [uses] at hu; rw [eval, ih hu, neg_zero]
    | cmul _ _ _ ih =>
      rw [uses, Bool.or_eq_false_iff] at hu
      rw [eval, ih hu.2, mul_zero]
    | mulc _ _ _ ih =>
      rw [uses, Bool.or_eq_false_iff] at hu
      rw [eval, ih hu.1, zero_mul]
  funext j
  exact this _

/-- The matrix with these linear forms as rows. -/
def rows (v : Fin n → Circ ℝ) : Matrix (Fin n) (Fin n) ℝ := fun i => form n (v i)

theorem rows_update (v : Fin n → Circ ℝ) (i : Fin n) (a : Circ ℝ) : rows (Function.update v i a) = (rows v).updateRow i (form n a) := by
  funext k
  by_cases h : k = i
  · subst h; simp [rows]
  · simp [rows, h]

theorem det_row_zero {v : Fin n → Circ ℝ} {i : Fin n} (h : form n (v i) = 0) : (rows v).det = 0 :=
  Matrix.det_eq_zero_of_row_eq_zero i fun j => congrFun h j

theorem det_leaves {v : Fin n → Circ ℝ} (hv : ∀ i, (v i).Modest n) (h0 : ∀ i, (v i).nodes = 0) : |(rows v).det| ≤ 1 := by
  by_cases hz : ∃ i, (v i).uses = false
  · obtain ⟨i, hi⟩ := hz
    rw [det_row_zero (form_pure (hv i) hi)]
    simp
  · push Not at hz
    have : ∀ i, ∃ k : Fin n, v i = inp k := by
      intro i
      have h1 := hv i
      have h2 := h0 i
      have h3 := hz i
      generalize v i = t at h1 h2 h3
      cases h1 with
      | zero => exact absurd rfl h3
      | inp h => exact ⟨⟨_, h⟩, rfl⟩
      | add | sub | neg | cmul | mulc => simp [nodes] at h2
    choose s hs using this
    have e : rows v = (1 : Matrix (Fin n) (Fin n) ℝ).submatrix s id := by
      funext i j
      simp [rows, form, hs, eval, Matrix.one_apply, Fin.ext_iff]
    by_cases hi : Function.Injective s
    · have hb := Finite.injective_iff_bijective.1 hi
      have := Matrix.det_permute (R := ℝ) (Equiv.ofBijective s hb) 1
      rw [show ((Equiv.ofBijective s hb : Equiv.Perm (Fin n)) : Fin n → Fin n) = s from rfl, ← e] at this
      rw [this, Matrix.det_one, mul_one]
      rcases Int.units_eq_one_or (Equiv.Perm.sign (Equiv.ofBijective s hb)) with h | h <;> rw [h] <;> simp
    · rw [Function.not_injective_iff] at hi
      obtain ⟨a, b, hab, hne⟩ := hi
      rw [Matrix.det_zero_of_row_eq hne (M := rows v) (by simp only [rows, hs, hab])]
      simp

theorem self_mem_gates {t : Circ ℝ} (h0 : t.nodes ≠ 0) (hu : t.uses = true) : t ∈ t.gates := by
  cases t with
  | inp i => exact absurd rfl h0
  | num c => exact absurd rfl h0
  | add a b | sub a b | mul a b =>
    rw [uses] at hu
    simp [gates, hu]
  | neg a =>
    rw [uses] at hu
    simp [gates, hu]

/-- Every operation at most doubles the determinant. -/
theorem det_le (N : ℕ) : ∀ (G : Finset (Circ ℝ)), G.card = N → ∀ v : Fin n → Circ ℝ, (∀ i, (v i).Modest n) →
    (∀ i, ∀ t ∈ (v i).gates, t ∈ G) → |(rows v).det| ≤ 2 ^ N := by
  classical
  induction N with
  | zero =>
    intro G hG v hv hg
    rw [Finset.card_eq_zero] at hG
    subst hG
    rw [pow_zero]
    by_cases h0 : ∀ i, (v i).nodes = 0
    · exact det_leaves hv h0
    · push Not at h0
      obtain ⟨i, hi⟩ := h0
      rcases hu : (v i).uses with _ | _
      · rw [det_row_zero (form_pure (hv i) hu)]; simp
      · exact absurd (hg i _ (self_mem_gates hi hu)) (by simp)
  | succ N ih =>
    intro G hG v hv hg
    by_cases h0 : ∀ i, (v i).nodes = 0
    · exact (det_leaves hv h0).trans (one_le_pow₀ (by norm_num))
    push Not at h0
    obtain ⟨i', hi'⟩ := h0
    obtain ⟨i, -, hmax⟩ := Finset.exists_max_image Finset.univ (fun i => (v i).nodes) ⟨i', Finset.mem_univ _⟩
    have hi : (v i).nodes ≠ 0 := by
      have := hmax i' (Finset.mem_univ _)
      omega
    rcases hu : (v i).uses with _ | _
    · rw [det_row_zero (form_pure (hv i) hu), abs_zero]; positivity
    have hmem := hg i _ (self_mem_gates hi hu)
    by_cases hrep : ∃ j, j ≠ i ∧ v j = v i
    · obtain ⟨j, hj, e⟩ := hrep
      rw [Matrix.det_zero_of_row_eq hj (M := rows v) (by simp only [rows, e]), abs_zero]
      positivity
    push Not at hrep
    have step : ∀ a : Circ ℝ, a.Modest n → (∀ t ∈ a.gates, t ∈ (v i).gates) → a.nodes < (v i).nodes →
        |((rows v).updateRow i (form n a)).det| ≤ 2 ^ N := by
      intro a ha hga hlt
      rw [← rows_update]
      refine ih (G.erase (v i)) (by rw [Finset.card_erase_of_mem hmem, hG]; rfl) _ (fun k => ?_) (fun k t ht => ?_)
      · by_cases hk : k = i
        · subst hk; rwa [Function.update_self]
        · rw [Function.update_of_ne hk]; exact hv k
      · by_cases hk : k = i
        · subst hk
          rw [Function.update_self] at ht
          refine Finset.mem_erase.2 ⟨?_, hg k _ (hga t ht)⟩
          rintro rfl
          rcases gates_nodes ht with h | h
          · rw [h] at hlt; omega
          · omega
        · rw [Function.update_of_ne hk] at ht
          refine Finset.mem_erase.2 ⟨?_, hg k _ ht⟩
          rintro rfl
          rcases gates_nodes ht with h | h
          · exact hrep k hk h.symm
          · have := hmax k (Finset.mem_univ _)
            omega
    have hrow : rows v = (rows v).updateRow i (form n (v i)) := (Matrix.updateRow_eq_self (rows v) i).symm
    have hp : (2 : ℝ) ^ (N + 1) = 2 ^ N + 2 ^ N := by ring
    have hp0 : (0 : ℝ) ≤ 2 ^ N := by positivity
    have h1 := hv i
    generalize v i = t at *
    cases h1 with
    | zero => exact absurd rfl hi
    | inp h => exact absurd rfl hi
    | @add a b ha hb =>
      have sa := step a ha (fun t ht => by simp [gates, ht]) (by simp only [nodes]; omega)
      have sb := step b hb (fun t ht => by simp [gates, ht]) (by simp only [nodes]; omega)
      rw [hrow, show form n (add a b) = form n a + form n b from rfl, Matrix.det_updateRow_add, hp]
      exact (abs_add_le _ _).trans (add_le_add sa sb)
    | @sub a b ha hb =>
      have sa := step a ha (fun t ht => by simp [gates, ht]) (by simp only [nodes]; omega)
      have sb := step b hb (fun t ht => by simp [gates, ht]) (by simp only [nodes]; omega)
      have e : form n (sub a b) = form n a + (-1 : ℝ) • form n b := by
        funext j
        simp [form, eval, sub_eq_add_neg]
      rw [hrow, e, Matrix.det_updateRow_add, Matrix.det_updateRow_smul, hp]
      refine (abs_add_le _ _).trans (add_le_add sa ?_)
      rwa [abs_mul, abs_neg, abs_one, one_mul]
    | @neg a ha =>
      have sa := step a ha (fun t ht => by simp [gates, ht]) (by simp only [nodes]; omega)
      have e : form n (neg a) = (-1 : ℝ) • form n a := by
        funext j
        simp [form, eval]
      rw [hrow, e, Matrix.det_updateRow_smul, abs_mul, abs_neg, abs_one, one_mul]
      linarith
    | @cmul c a hc hb ha =>
      have sa := step a ha (fun t ht => by simp [gates, ht]) (by simp only [nodes]; omega)
      have e : form n (mul c a) = (c.eval fun _ => 0) • form n a := by
        funext j
        simp only [form, eval, Pi.smul_apply, smul_eq_mul]
        rw [eval_pure _ (fun _ => 0) hc]
      rw [hrow, e, Matrix.det_updateRow_smul, abs_mul, pow_succ, mul_comm]
      exact mul_le_mul sa hb (abs_nonneg _) hp0
    | @mulc a c ha hc hb =>
      have sa := step a ha (fun t ht => by simp [gates, ht]) (by simp only [nodes]; omega)
      have e : form n (mul a c) = (c.eval fun _ => 0) • form n a := by
        funext j
        simp only [form, eval, Pi.smul_apply, smul_eq_mul]
        rw [eval_pure _ (fun _ => 0) hc, mul_comm]
      rw [hrow, e, Matrix.det_updateRow_smul, abs_mul, pow_succ, mul_comm]
      exact mul_le_mul sa hb (abs_nonneg _) hp0

/-- The determinant of the transform. -/
theorem det_dht {v : Fin n → Circ ℝ} (h : ∀ i j : Fin n, form n (v i) j = ca n (i * j)) : (rows v).det ^ 2 = (n : ℝ) ^ n := by
  rcases Nat.eq_zero_or_pos n with rfl | hn
  · simp
  have : rows v * (rows v).transpose = (n : ℝ) • (1 : Matrix (Fin n) (Fin n) ℝ) := by
    funext i j
    rw [Matrix.mul_apply]
    simp only [Matrix.transpose_apply, rows, h]
    rw [Fin.sum_univ_eq_sum_range (fun k => ca n (((i : ℕ) : ℤ) * k) * ca n (((j : ℕ) : ℤ) * k)), sum_ca_mul hn]
    simp only [dvd_sub_iff i.2 j.2, Matrix.smul_apply, Matrix.one_apply, Fin.ext_iff, smul_eq_mul, mul_ite, mul_one, mul_zero]
  have e := congrArg Matrix.det this
  rw [Matrix.det_mul, Matrix.det_transpose, Matrix.det_smul, Matrix.det_one, mul_one, Fintype.card_fin] at e
  rw [pow_two, e]

/-- A circuit for the transform, with small factors, has at least `n/2 log₂ n` operations. -/
theorem size_of_computes {y : List (Circ ℝ)} (hm : ∀ t ∈ y, t.Modest n) (hc : Computes n y) {N : ℕ} (hN : Size y N) :
    (n : ℝ) ^ n ≤ 4 ^ N := by
  classical
  have hl : y.length = n := by
    have := congrArg List.length (hc fun _ => 0)
    simpa [dht] using this
  obtain ⟨g, hg, hall⟩ := hN
  let v : Fin n → Circ ℝ := fun i => y[i]'(by rw [hl]; exact i.2)
  have hv : ∀ i, v i ∈ y := fun i => List.getElem_mem _
  have hd := det_le (n := n) g.toFinset.card g.toFinset rfl v (fun i => hm _ (hv i))
    (fun i t ht => List.mem_toFinset.2 (hall t ⟨_, hv i, ht⟩))
  have hcard : g.toFinset.card ≤ N := (List.toFinset_card_le g).trans hg
  have hd2 : |(rows v).det| ≤ 2 ^ N := hd.trans (pow_le_pow_right₀ (by norm_num) hcard)
  have e := det_dht (v := v) fun i j => by
    have h1 := hc fun k => if k = (j : ℕ) then 1 else 0
    have h2 := congrArg (fun l : List ℝ => nth l i) h1
    simp only [dht_eq, List.length_map, List.length_range, nth_tab i.2] at h2
    have h3 : nth (y.map (eval fun k => if k = (j : ℕ) then 1 else 0)) i = form n (v i) j := by
      simp [nth, hl, v, form]
    rw [← h3, h2, hart, Finset.sum_eq_single (j : ℕ)]
    · rw [show nth ((List.range n).map fun k => if k = (j : ℕ) then (1 : ℝ) else 0) j = 1 by simp [nth], one_mul, mul_comm]
    · intro k hk hne
      rw [show nth ((List.range n).map fun k => if k = (j : ℕ) then (1 : ℝ) else 0) k = 0 by
        simp [nth, Finset.mem_range.1 hk, hne], zero_mul]
    · intro h
      exact absurd (Finset.mem_range.2 j.2) h
  rw [← e, ← sq_abs, show (4 : ℝ) ^ N = (2 ^ N) ^ 2 by rw [← pow_mul, mul_comm, pow_mul]; norm_num]
  exact pow_le_pow_left₀ (abs_nonneg _) hd2 2

end Circ

end RustDHT
