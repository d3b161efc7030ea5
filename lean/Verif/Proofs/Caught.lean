import Verif.Proofs.Pairs
import Mathlib.GroupTheory.Perm.Basic
import Mathlib.Algebra.Order.BigOperators.Ring.Finset
import Mathlib.Data.Set.Card
import Mathlib.Data.Real.Basic
import Mathlib.Tactic.Positivity

/-! # Counting signals that meet several conditions -/

namespace RustDHT

open Finset Classical

variable {κ ι : Type} [Fintype κ] [Fintype ι]

omit [Fintype κ] in
/-- A condition that, whatever the other coordinates are, at most one in `q` values of the coordinate `a` meets. -/
theorem card_coordinate (S : Finset (κ → ι)) (a : κ) (hS : ∀ x c, x ∈ S → Function.update x a c ∈ S) {Q : (κ → ι) → Prop} {q : ℕ}
    (hQ : ∀ x, q * (univ.filter fun c => Q (Function.update x a c)).card ≤ Fintype.card ι) :
    q * (S.filter Q).card ≤ S.card := by
  rcases isEmpty_or_nonempty ι with hι | hι
  · have : S.filter Q = ∅ := eq_empty_of_forall_notMem fun x _ => hι.false (x a)
    rw [this]
    simp
  have hpos : 0 < Fintype.card ι := Fintype.card_pos
  have h := sum_update S a hS fun x => if Q x then 1 else 0
  rw [← card_filter] at h
  refine Nat.le_of_mul_le_mul_left ?_ hpos
  calc Fintype.card ι * (q * (S.filter Q).card) = q * (Fintype.card ι * (S.filter Q).card) := by ring
    _ = ∑ x ∈ S, q * (univ.filter fun c => Q (Function.update x a c)).card := by
      rw [h, mul_sum]
      refine sum_congr rfl fun x _ => ?_
      rw [card_filter]
    _ ≤ ∑ x ∈ S, Fintype.card ι := sum_le_sum fun x _ => hQ _
    _ = Fintype.card ι * S.card := by rw [sum_const, nsmul_eq_mul, Nat.cast_id, mul_comm]

/-- Several such conditions, none of which looks at the coordinates of those after it. -/
theorem card_triangular {q : ℕ} (r : ℕ) (J : Fin r → κ) (Q : Fin r → (κ → ι) → Prop)
    (hind : ∀ a b, a < b → ∀ x c, Q a x → Q a (Function.update x (J b) c))
    (hQ : ∀ a x, q * (univ.filter fun c => Q a (Function.update x (J a) c)).card ≤ Fintype.card ι) :
    q ^ r * (univ.filter fun x : κ → ι => ∀ a, Q a x).card ≤ Fintype.card ι ^ Fintype.card κ := by
  induction r with
  | zero => simp [Fintype.card_pi, card_univ]
  | succ r ih =>
    have h1 := ih (fun a => J a.castSucc) (fun a => Q a.castSucc) (fun a b hab => hind _ _ (by simpa using hab)) (fun a => hQ _)
    refine le_trans ?_ h1
    rw [pow_succ, mul_assoc]
    refine Nat.mul_le_mul_left _ ?_
    have e : (univ.filter fun x : κ → ι => ∀ a, Q a x)
        = (univ.filter fun x : κ → ι => ∀ a : Fin r, Q a.castSucc x).filter (Q (Fin.last r)) := by
      ext x
      simp only [mem_filter, mem_univ, true_and, Fin.forall_fin_succ']
    rw [e]
    refine card_coordinate _ (J (Fin.last r)) (fun x c hx => ?_) (hQ _)
    rw [mem_filter] at hx ⊢
    exact ⟨mem_univ _, fun a => hind _ _ (Fin.castSucc_lt_last a) _ _ (hx.2 a)⟩

/-- Linear conditions. -/
theorem card_linear {q r : ℕ} {v : ι → ℝ} {E : Fin r → κ → ℝ} {J : Fin r → κ} {B δ : ℝ} (hδ : 0 < δ)
    (hd : ∀ a, δ ≤ |E a (J a)|) (h0 : ∀ a b, a < b → E a (J b) = 0)
    (far : ∀ c, q * {a | |v a - v c| ≤ 2 * B / δ}.ncard ≤ Fintype.card ι) {P : (κ → ι) → Prop}
    (hP : ∀ x, P x → ∀ a, |∑ j, E a j * v (x j)| ≤ B) :
    q ^ r * {x | P x}.ncard ≤ Fintype.card ι ^ Fintype.card κ := by
  have upd : ∀ a x j c, ∑ i, E a i * v (Function.update x j c i) = E a j * v c + ∑ i ∈ univ.erase j, E a i * v (x i) := by
    intro a x j c
    rw [← add_sum_erase _ _ (mem_univ j), Function.update_self]
    congr 1
    exact sum_congr rfl fun i hi => by rw [Function.update_of_ne (mem_erase.1 hi).1]
  have h := card_triangular (ι := ι) (q := q) r J (fun a x => |∑ j, E a j * v (x j)| ≤ B) (fun a b hab x c hx => by
    rw [upd, h0 a b hab, zero_mul, zero_add]
    rwa [← add_sum_erase _ _ (mem_univ (J b)), h0 a b hab, zero_mul, zero_add] at hx) (fun a x => by
    rcases eq_empty_or_nonempty (univ.filter fun c => |∑ j, E a j * v (Function.update x (J a) c j)| ≤ B) with he | ⟨c, hc⟩
    · rw [he]; simp
    refine le_trans (Nat.mul_le_mul_left _ ?_) (far c)
    rw [← Set.ncard_coe_finset]
    refine Set.ncard_le_ncard (fun d hd' => ?_) (Set.toFinite _)
    have h1 : |∑ j, E a j * v (Function.update x (J a) d j)| ≤ B := by simpa using hd'
    have h2 : |∑ j, E a j * v (Function.update x (J a) c j)| ≤ B := (mem_filter.1 hc).2
    rw [upd] at h1 h2
    show |v d - v c| ≤ 2 * B / δ
    rw [le_div_iff₀ hδ]
    have h3 : |E a (J a) * (v d - v c)| ≤ 2 * B := by
      rw [abs_le] at h1 h2 ⊢
      constructor <;> linarith [h1.1, h1.2, h2.1, h2.2]
    rw [abs_mul] at h3
    calc |v d - v c| * δ ≤ |v d - v c| * |E a (J a)| := mul_le_mul_of_nonneg_left (hd a) (abs_nonneg _)
      _ ≤ 2 * B := by rwa [mul_comm])
  refine le_trans (Nat.mul_le_mul_left _ ?_) h
  rw [← Set.ncard_coe_finset]
  refine Set.ncard_le_ncard (fun x hx => ?_) (Set.toFinite _)
  simpa using hP x hx

/-- At most `f` of the pairs are not close. -/
theorem card_most_pairs (A : Finset κ) (τ : κ → κ) (hτ : ∀ a ∈ A, τ a ∉ A) {R : ι → ι → Prop} {q : ℕ} (hq : 0 < q)
    (hR : ∀ c, q * (univ.filter fun d => R c d).card ≤ Fintype.card ι) (f : ℕ) :
    q ^ (A.card - f) * (univ.filter fun x : κ → ι => (A.filter fun a => ¬ R (x (τ a)) (x a)).card ≤ f).card
      ≤ 2 ^ A.card * Fintype.card ι ^ Fintype.card κ := by
  have sub : (univ.filter fun x : κ → ι => (A.filter fun a => ¬ R (x (τ a)) (x a)).card ≤ f)
      ⊆ (A.powerset.filter fun B => A.card - f ≤ B.card).biUnion
        fun B => univ.filter fun x : κ → ι => ∀ a ∈ B, R (x (τ a)) (x a) := by
    intro x hx
    rw [mem_biUnion]
    refine ⟨A.filter fun a => R (x (τ a)) (x a), ?_, ?_⟩
    · rw [mem_filter, mem_powerset]
      refine ⟨filter_subset _ _, ?_⟩
      have h1 := card_filter_add_card_filter_not (s := A) (fun a => R (x (τ a)) (x a))
      have h2 := (mem_filter.1 hx).2
      omega
    · simp
  calc q ^ (A.card - f) * (univ.filter fun x : κ → ι => (A.filter fun a => ¬ R (x (τ a)) (x a)).card ≤ f).card
      ≤ q ^ (A.card - f) * ∑ B ∈ A.powerset.filter (fun B => A.card - f ≤ B.card),
          (univ.filter fun x : κ → ι => ∀ a ∈ B, R (x (τ a)) (x a)).card :=
        Nat.mul_le_mul_left _ ((card_le_card sub).trans card_biUnion_le)
    _ ≤ ∑ _B ∈ A.powerset.filter (fun B => A.card - f ≤ B.card), Fintype.card ι ^ Fintype.card κ := by
      rw [mul_sum]
      refine sum_le_sum fun B hB => ?_
      rw [mem_filter, mem_powerset] at hB
      refine le_trans (Nat.mul_le_mul_right _ (Nat.pow_le_pow_right hq hB.2)) ?_
      exact card_pairs B τ (fun a ha h => hτ a (hB.1 ha) (hB.1 h)) hR
    _ ≤ _ := by
      rw [sum_const, nsmul_eq_mul, Nat.cast_id]
      refine Nat.mul_le_mul_right _ ?_
      rw [← card_powerset]
      exact card_le_card (filter_subset _ _)

/-- A third of the points that a permutation moves can be chosen such that none is the image of another. -/
theorem exists_pairs (σ : Equiv.Perm κ) : ∃ A : Finset κ, (∀ a ∈ A, σ a ∉ A) ∧ (univ.filter fun a => σ a ≠ a).card ≤ 3 * A.card := by
  obtain ⟨A, hA, hmax⟩ := exists_max_image (univ.filter fun A : Finset κ => ∀ a ∈ A, σ a ∉ A) card ⟨∅, by simp⟩
  rw [mem_filter] at hA
  refine ⟨A, hA.2, ?_⟩
  have sub : (univ.filter fun a => σ a ≠ a) ⊆ A ∪ A.image σ ∪ A.image σ.symm := by
    intro a ha
    by_contra hn
    rw [mem_union, mem_union, not_or, not_or] at hn
    obtain ⟨⟨n1, n2⟩, n3⟩ := hn
    have n2' : ∀ b ∈ A, σ b ≠ a := fun b hb e => n2 (mem_image.2 ⟨b, hb, e⟩)
    have n3' : σ a ∉ A := fun h => n3 (mem_image.2 ⟨_, h, σ.symm_apply_apply a⟩)
    have hm := hmax (insert a A) (by
      rw [mem_filter]
      refine ⟨mem_univ _, fun b hb h => ?_⟩
      rcases mem_insert.1 hb with rfl | hb
      · rcases mem_insert.1 h with h | h
        · exact (mem_filter.1 ha).2 h
        · exact n3' h
      · rcases mem_insert.1 h with h | h
        · exact n2' b hb h
        · exact hA.2 b hb h)
    rw [card_insert_of_notMem n1] at hm
    omega
  have h1 := card_le_card sub
  have h2 := card_union_le (A ∪ A.image σ) (A.image σ.symm)
  have h3 := card_union_le A (A.image σ)
  have h4 := card_image_le (s := A) (f := σ)
  have h5 := card_image_le (s := A) (f := σ.symm)
  omega

end RustDHT
