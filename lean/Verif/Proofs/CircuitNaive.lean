import Verif.Proofs.CircuitLog
import Verif.Spec.Dht

/-! # The circuit of `DhtNaive` from below -/

set_option linter.unusedSectionVars false

namespace RustDHT

namespace Circ

variable {S : Type} [Zero S] [FftNum S]

/-- The partial sum of `j` products for output `k`. -/
def chain (S : Type) [Zero S] [FftNum S] (n k j : ℕ) : Circ S :=
  (List.range j).foldl (fun acc i => acc + nth (naiveTwiddles (Circ S) n) (i * k % n) * inp i) 0

theorem chain_succ (n k j : ℕ) : chain S n k (j + 1)
    = .add (chain S n k j) (.mul (nth (naiveTwiddles (Circ S) n) (j * k % n)) (inp j)) := by
  rw [chain, List.range_succ, List.foldl_append, List.foldl_cons, List.foldl_nil]; rfl

theorem chain_mem (n k j i : ℕ) (h : j + 1 ≤ i) : chain S n k (j + 1) ∈ (chain S n k i).gates := by
  induction i, h using Nat.le_induction with
  | base => rw [chain_succ, gates]; simp [uses]
  | succ i _ ih => rw [chain_succ n k i, gates]; simp [ih]

theorem naiveFn_buffer {n k : ℕ} (hk : k < n) : chain S n k n ∈ naiveFn (Circ S) n (buffer S n) := by
  refine List.mem_map.2 ⟨k, List.mem_range.2 hk, ?_⟩
  rw [naiveVal, chain, show (buffer S n).length = n by simp [buffer], length_naiveTwiddles]
  have : ∀ (l : List ℕ) (a : Circ S), (∀ i ∈ l, i < n) →
      l.foldl (fun acc i => acc + nth (naiveTwiddles (Circ S) n) (i * k % n) * nth (buffer S n) i) a
        = l.foldl (fun acc i => acc + nth (naiveTwiddles (Circ S) n) (i * k % n) * inp i) a := by
    intro l
    induction l with
    | nil => intro a _; rfl
    | cons b l ih =>
      intro a h
      have hb := h b (by simp)
      rw [List.foldl_cons, List.foldl_cons, ih _ fun i hi => h i (by simp [hi])]
      have : nth (buffer S n) b = inp b := by simp [nth, buffer, hb]
      rw [this]
  exact this _ _ fun i hi => List.mem_range.1 hi

/-- The numbers in the table of `DhtNaive` are pairwise different. -/
def TableInj (S : Type) [Zero S] [FftNum S] (n : ℕ) : Prop :=
  ∀ i < n, ∀ j < n, (computeDftTwiddleInverse S i n).re = (computeDftTwiddleInverse S j n).re →
    (computeDftTwiddleInverse S i n).im = (computeDftTwiddleInverse S j n).im → i = j

theorem nth_twiddles {n i : ℕ} (h : i < n) : nth (naiveTwiddles (Circ S) n) i
    = .add (.num (computeDftTwiddleInverse S i n).re) (.num (computeDftTwiddleInverse S i n).im) := by
  rw [show naiveTwiddles (Circ S) n = tab n fun i => computeDhtTwiddle (Circ S) i n from rfl, nth_tab h]; rfl

theorem chain_inj {n : ℕ} (hS : TableInj S n) {k k' : ℕ} (hk : k < n) (hk' : k' < n) : ∀ j j', 
    chain S n k (j + 2) = chain S n k' (j' + 2) → k = k' ∧ j = j' := by
  intro j j' h
  have hj : j = j' := by
    rw [chain_succ, chain_succ n k'] at h
    injection h with _ h
    injection h with _ h
    injection h with h
    omega
  subst hj
  refine ⟨?_, rfl⟩
  induction j with
  | zero =>
    rw [chain_succ, chain_succ n k'] at h
    injection h with _ h
    injection h with h _
    rw [Nat.one_mul, Nat.one_mul, Nat.mod_eq_of_lt hk, Nat.mod_eq_of_lt hk', nth_twiddles hk, nth_twiddles hk'] at h
    injection h with h1 h2
    injection h1 with h1
    injection h2 with h2
    exact hS k hk k' hk' h1 h2
  | succ j ih =>
    rw [chain_succ, chain_succ n k'] at h
    injection h with h _
    exact ih h

theorem naive_size {n : ℕ} (hS : TableInj S n) {N : ℕ} (h : Size (naiveFn (Circ S) n (buffer S n)) N) :
    n * (n - 1) ≤ N := by
  obtain ⟨g, h1, h2⟩ := h
  let l : List (Circ S) := (List.range n).flatMap fun k => (List.range (n - 1)).map fun j => chain S n k (j + 2)
  have hl : l.length = n * (n - 1) := by simp [l]
  have hnd : l.Nodup := by
    refine List.nodup_flatMap.2 ⟨fun k hk => ?_, ?_⟩
    · have hk := List.mem_range.1 hk
      exact (List.nodup_range).map_on fun a _ b _ e => (chain_inj hS hk hk a b e).2
    · refine List.Pairwise.imp_of_mem ?_ (List.nodup_range (n := n))
      intro k k' hk hk' hne
      have hk := List.mem_range.1 hk
      have hk' := List.mem_range.1 hk'
      rw [Function.onFun, List.disjoint_left]
      intro t h1 h2
      obtain ⟨j, _, rfl⟩ := List.mem_map.1 h1
      obtain ⟨j', _, e⟩ := List.mem_map.1 h2
      exact hne (chain_inj hS hk hk' _ _ e.symm).1
  have hsub : l ⊆ g := by
    intro t ht
    obtain ⟨k, hk, ht⟩ := List.mem_flatMap.1 ht
    obtain ⟨j, hj, rfl⟩ := List.mem_map.1 ht
    have hk := List.mem_range.1 hk
    have hj := List.mem_range.1 hj
    exact h2 _ ⟨_, naiveFn_buffer hk, chain_mem n k (j + 1) n (by omega)⟩
  rw [← hl]
  exact (hnd.subperm hsub).length_le.trans h1

theorem tableInj_real (n : ℕ) : TableInj ℝ n := by
  intro i hi j hj h1 h2
  have hn : (0 : ℝ) < n := by exact_mod_cast (by omega : 0 < n)
  have h1 : Real.cos (2 * Real.pi / n * i) = Real.cos (2 * Real.pi / n * j) := h1
  have h2 : Real.sin (2 * Real.pi / n * i) = Real.sin (2 * Real.pi / n * j) := h2
  have hc : Real.cos (2 * Real.pi / n * i - 2 * Real.pi / n * j) = 1 := by
    rw [Real.cos_sub, h1, h2, ← pow_two, ← pow_two]
    exact Real.cos_sq_add_sin_sq _
  have hi' : (i : ℝ) < n := by exact_mod_cast hi
  have hj' : (j : ℝ) < n := by exact_mod_cast hj
  have hi0 : (0 : ℝ) ≤ i := by positivity
  have hj0 : (0 : ℝ) ≤ j := by positivity
  have hpi := Real.pi_pos
  have hd : (0 : ℝ) < 2 * Real.pi / n := by positivity
  have hdn : 2 * Real.pi / n * n = 2 * Real.pi := by field_simp
  have e := (Real.cos_eq_one_iff_of_lt_of_lt (by nlinarith [mul_nonneg hd.le hi0, mul_lt_mul_of_pos_left hj' hd])
    (by nlinarith [mul_nonneg hd.le hj0, mul_lt_mul_of_pos_left hi' hd])).1 hc
  have : (i : ℝ) = j := by
    have : 2 * Real.pi / n * ((i : ℝ) - j) = 0 := by linarith
    rcases mul_eq_zero.1 this with h | h
    · exact absurd h hd.ne'
    · linarith
  exact_mod_cast this

end Circ

end RustDHT
