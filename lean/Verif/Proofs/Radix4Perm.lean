import Verif.Proofs.Radix4Dht

/-! # The order in which `Radix4` takes its input is a permutation -/

namespace RustDHT

theorem r4Index_inj {base : ℕ} (hb : 0 < base) (l : ℕ) (rev : Bool) {p q : ℕ} (hp : p < base * 4 ^ l)
    (hq : q < base * 4 ^ l) (h : r4Index base l rev p = r4Index base l rev q) : p = q := by
  induction l generalizing rev p q with
  | zero =>
    simp only [r4Index, pow_zero, Nat.mul_one] at *
    split at h <;> omega
  | succ l ih =>
    have hs : 0 < base * 4 ^ l := by positivity
    have e : base * 4 ^ (l + 1) = 4 * (base * 4 ^ l) := by ring
    rw [e] at hp hq
    simp only [r4Index] at h
    generalize hse : base * 4 ^ l = s at *
    have h1 : p / s < 4 := Nat.div_lt_of_lt_mul (by linarith)
    have h2 : q / s < 4 := Nat.div_lt_of_lt_mul (by linarith)
    have hi : p / s = q / s := by
      generalize p / s = a at *
      generalize q / s = b at *
      omega
    rw [hi] at h
    have hm := ih _ (Nat.mod_lt p hs) (Nat.mod_lt q hs) (Nat.eq_of_mul_eq_mul_left (by norm_num) (Nat.add_left_cancel h))
    rw [← Nat.div_add_mod p s, ← Nat.div_add_mod q s, hi, hm]

theorem r4Perm_inj {h i j : ℕ} (hi : i < 4 * h) (hj : j < 4 * h) (e : r4Perm h i = r4Perm h j) : i = j := by
  have hh : 0 < h := by omega
  have l1 : revRow 4 h (i % 4) (i / 4) < h := by unfold revRow; split <;> omega
  have l2 : revRow 4 h (j % 4) (j / 4) < h := by unfold revRow; split <;> omega
  unfold r4Perm at e
  have e1 := congrArg (· / h) e
  have e2 := congrArg (· % h) e
  simp only [Nat.mul_comm _ h, Nat.mul_add_div hh, Nat.mul_add_mod, Nat.div_eq_of_lt l1, Nat.div_eq_of_lt l2,
    Nat.mod_eq_of_lt l1, Nat.mod_eq_of_lt l2] at e1 e2
  unfold revRow at e2
  have : i % 4 = j % 4 := by omega
  rw [this] at e2
  split at e2 <;> omega

theorem r4Undo_inj {h l i j : ℕ} (hh : 0 < h) (hi : i < h * 4 ^ l) (hj : j < h * 4 ^ l)
    (e : r4Undo h l i = r4Undo h l j) : i = j := by
  induction l generalizing h with
  | zero => exact e
  | succ l ih =>
    have hl : h * 4 ^ (l + 1) = 4 * h * 4 ^ l := by ring
    rw [hl] at hi hj
    refine ih (h := 4 * h) (by omega) hi hj ?_
    simp only [r4Undo] at e
    have l1 := r4Perm_lt (Nat.mod_lt (r4Undo (4 * h) l i) (show 4 * h > 0 by omega))
    have l2 := r4Perm_lt (Nat.mod_lt (r4Undo (4 * h) l j) (show 4 * h > 0 by omega))
    generalize r4Undo (4 * h) l i = p at *
    generalize r4Undo (4 * h) l j = q at *
    have e1 := congrArg (· / (4 * h)) e
    have e2 := congrArg (· % (4 * h)) e
    simp only [Nat.mul_comm _ (4 * h), Nat.mul_add_div (show 4 * h > 0 by omega), Nat.mul_add_mod, Nat.div_eq_of_lt l1,
      Nat.div_eq_of_lt l2, Nat.mod_eq_of_lt l1, Nat.mod_eq_of_lt l2] at e1 e2
    have hm := r4Perm_inj (Nat.mod_lt _ (by omega)) (Nat.mod_lt _ (by omega)) e2
    rw [← Nat.div_add_mod p (4 * h), ← Nat.div_add_mod q (4 * h), hm]
    simp only [Nat.add_zero] at e1
    rw [e1]

theorem r4Sigma_lt {base l i : ℕ} (hb : 0 < base) (hi : i < base * 4 ^ l) : r4Sigma base l i < base * 4 ^ l :=
  r4Index_lt hb _ _ _ (r4Undo_lt hb hi)

theorem r4Sigma_inj {base l i j : ℕ} (hb : 0 < base) (hi : i < base * 4 ^ l) (hj : j < base * 4 ^ l)
    (e : r4Sigma base l i = r4Sigma base l j) : i = j :=
  r4Undo_inj hb hi hj (r4Index_inj hb l false (r4Undo_lt hb hi) (r4Undo_lt hb hj) e)

/-- `r4Sigma` of length `2^m` as a permutation. -/
noncomputable def r4SigmaPerm (m : ℕ) : Equiv.Perm (Fin (2 ^ m)) :=
  Equiv.ofBijective
    (fun i => ⟨r4Sigma (r4BaseLen m) (r4Levels m) i, 
      lt_of_lt_of_eq (r4Sigma_lt (r4BaseLen_pos m) (lt_of_lt_of_eq i.2 (r4_len m))) (r4_len m).symm⟩)
    (Finite.injective_iff_bijective.1 fun i j h => by
      have h' := congrArg Fin.val h
      simp only at h'
      exact Fin.ext (r4Sigma_inj (r4BaseLen_pos m) (lt_of_lt_of_eq i.2 (r4_len m)) (lt_of_lt_of_eq j.2 (r4_len m)) h'))

theorem radix4_permuted {m : ℕ} {d : Dht ℝ} (h : radix4 ℝ (2 ^ m) = .ok d) :
    Implements d fun x => dht (List.ofFn fun i : Fin (2 ^ m) => x.getD (r4SigmaPerm m i) 0) := by
  refine (radix4_implements h).congr fun x hx => ?_
  rw [radix4Fn_dht]
  congr 1
  refine List.ext_getElem (by simp) fun i h1 h2 => ?_
  simp [tab, nth, r4SigmaPerm]

end RustDHT
