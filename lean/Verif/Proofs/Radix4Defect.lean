import Verif.Proofs.Radix4Repaired
import Verif.Proofs.Radix4Perm
import Verif.Proofs.DhtLaws
import Verif.Proofs.LeavesDht2
import Mathlib.Analysis.SpecialFunctions.Trigonometric.Complex

/-! # Which elements `Radix4` misplaces -/

namespace RustDHT

open Finset

section
variable {base : ℕ}

theorem r4Undo_split (hb : 0 < base) (l i : ℕ) (hi : i < 4 * (base * 4 ^ l)) :
    r4Undo base (l + 1) i / (base * 4 ^ l) = i % 4 ∧
      r4Undo base (l + 1) i % (base * 4 ^ l) = r4Undo base l (revRow 4 (base * 4 ^ l) (i % 4) (i / 4)) := by
  have hrow : revRow 4 (base * 4 ^ l) (i % 4) (i / 4) < base * 4 ^ l := by unfold revRow; split <;> omega
  have hund := r4Undo_lt (h := base) (l := l) hb hrow
  have e1 : r4Perm (base * 4 ^ l) i / (base * 4 ^ l) = i % 4 := div_of_lt hrow
  have e2 : r4Perm (base * 4 ^ l) i % (base * 4 ^ l) = revRow 4 (base * 4 ^ l) (i % 4) (i / 4) := mod_of_lt hrow
  rw [r4Undo_top hb l i hi, e1, e2]
  exact ⟨div_of_lt hund, mod_of_lt hund⟩

theorem r4Sigma_succ (hb : 0 < base) (l i : ℕ) (hi : i < 4 * (base * 4 ^ l)) (h3 : i % 4 ≠ 3) :
    r4Sigma base (l + 1) i = i % 4 + 4 * r4Sigma base l (i / 4) := by
  obtain ⟨e1, e2⟩ := r4Undo_split hb l i hi
  unfold r4Sigma
  simp only [r4Index, e1, e2, h3, if_false, ite_self]
  rw [revRow, if_pos (by omega)]

theorem r4Sigma_succ3 (hb : 0 < base) (l i : ℕ) (hi : i < 4 * (base * 4 ^ l)) (h3 : i % 4 = 3) :
    r4Sigma base (l + 1) i = 3 + 4 * r4Index base l true (r4Undo base l (base * 4 ^ l - 1 - i / 4)) := by
  obtain ⟨e1, e2⟩ := r4Undo_split hb l i hi
  unfold r4Sigma
  simp only [r4Index, e1, e2, h3, revRow]
  norm_num

theorem r4Sigma_mod_four (hb : 0 < base) (l i : ℕ) (hi : i < base * 4 ^ l) (hl : 0 < l) : r4Sigma base l i % 4 = i % 4 := by
  obtain ⟨l, rfl⟩ := Nat.exists_eq_succ_of_ne_zero hl.ne'
  have hi' : i < 4 * (base * 4 ^ l) := by rw [Nat.succ_eq_add_one, pow_succ] at hi; linarith
  by_cases h3 : i % 4 = 3
  · rw [Nat.succ_eq_add_one, r4Sigma_succ3 hb l i hi' h3]; omega
  · rw [Nat.succ_eq_add_one, r4Sigma_succ hb l i hi' h3]; omega

theorem r4Sigma_mod_eight (hb : 0 < base) (l i : ℕ) (hi : i < base * 4 ^ l) (h3 : i % 4 ≠ 3) :
    r4Sigma base l i % 8 = i % 8 := by
  match l with
  | 0 => rw [r4Sigma_zero]
  | l + 1 =>
    have hi' : i < 4 * (base * 4 ^ l) := by rw [pow_succ] at hi; linarith
    rw [r4Sigma_succ hb l i hi' h3]
    match l with
    | 0 => rw [r4Sigma_zero]; omega
    | l + 1 =>
      have := r4Sigma_mod_four hb (l + 1) (i / 4) (by omega) (by omega)
      omega

/-- An element keeps its place if and only if none of the last digits of its index is 3. -/
theorem r4Sigma_fixed (hb : 0 < base) (l : ℕ) : ∀ i < base * 4 ^ l, r4Sigma base l i = i ↔ ∀ j < l - 1, i / 4 ^ j % 4 ≠ 3 := by
  induction l with
  | zero => intro i _; simp [r4Sigma_zero]
  | succ l ih =>
    intro i hi
    have hi' : i < 4 * (base * 4 ^ l) := by rw [pow_succ] at hi; linarith
    rw [Nat.add_sub_cancel]
    rcases Nat.eq_zero_or_pos l with rfl | hl
    · simp only [Nat.not_lt_zero, false_imp_iff, implies_true, iff_true]
      exact r4Sigma_one (by simpa using hi)
    by_cases h3 : i % 4 = 3
    · refine iff_of_false ?_ fun h => h 0 hl (by simpa using h3)
      rw [r4Sigma_succ3 hb l i hi' h3]
      obtain ⟨l, rfl⟩ := Nat.exists_eq_succ_of_ne_zero hl.ne'
      simp only [Nat.succ_eq_add_one] at *
      obtain ⟨s, hs⟩ : ∃ s, base * 4 ^ l = s := ⟨_, rfl⟩
      have hs4 : base * 4 ^ (l + 1) = 4 * s := by rw [pow_succ, ← hs]; ring
      obtain ⟨e1, -⟩ := r4Undo_split hb l (base * 4 ^ (l + 1) - 1 - i / 4) (by rw [hs, hs4]; omega)
      simp only [r4Index, e1]
      rw [hs4]
      omega
    · rw [r4Sigma_succ hb l i hi' h3]
      have h1 : i % 4 + 4 * r4Sigma base l (i / 4) = i ↔ r4Sigma base l (i / 4) = i / 4 := by omega
      rw [h1, ih (i / 4) (by omega)]
      constructor
      · intro h j hj
        match j with
        | 0 => simpa using h3
        | j + 1 =>
          have := h j (by omega)
          rwa [Nat.div_div_eq_div_mul, ← pow_succ'] at this
      · intro h j hj
        have := h (j + 1) (by omega)
        rwa [pow_succ', ← Nat.div_div_eq_div_mul] at this

/-- How many elements keep their places. -/
theorem count_no_three (b k : ℕ) :
    ((range (b * 4 ^ k)).filter fun i => ∀ j < k, i / 4 ^ j % 4 ≠ 3).card = b * 3 ^ k := by
  induction k with
  | zero => simp
  | succ k ih =>
    have e4 : b * 4 ^ (k + 1) = 4 * (b * 4 ^ k) := by ring
    have e : ((range (b * 4 ^ (k + 1))).filter fun i => ∀ j < k + 1, i / 4 ^ j % 4 ≠ 3)
        = ((range (b * 4 ^ k)).filter (fun i => ∀ j < k, i / 4 ^ j % 4 ≠ 3) ×ˢ range 3).image fun p => 4 * p.1 + p.2 := by
      ext i
      simp only [mem_filter, mem_range, mem_image, mem_product, Prod.exists]
      constructor
      · rintro ⟨h1, h2⟩
        refine ⟨i / 4, i % 4, ⟨⟨by omega, fun j hj => ?_⟩, ?_⟩, by omega⟩
        · have := h2 (j + 1) (by omega)
          rwa [pow_succ', ← Nat.div_div_eq_div_mul] at this
        · have := h2 0 (by omega)
          simp at this
          omega
      · rintro ⟨q, r, ⟨⟨h1, h2⟩, h3⟩, rfl⟩
        refine ⟨by omega, fun j hj => ?_⟩
        match j with
        | 0 => simp; omega
        | j + 1 =>
          rw [pow_succ', ← Nat.div_div_eq_div_mul, show (4 * q + r) / 4 = q by omega]
          exact h2 j (by omega)
    rw [e, card_image_of_injOn, card_product, ih, card_range, pow_succ]
    · ring
    · rintro ⟨q, r⟩ h1 ⟨q', r'⟩ h2 h
      simp only [coe_product, Set.mem_prod, mem_coe, mem_range] at h1 h2
      simp only at h
      have : q = q' := by omega
      subst this
      have : r = r' := by omega
      subst this
      rfl

/-- From two layers on, index 3 is replaced by 15 or by the last index. -/
theorem r4Sigma_at_three (hb : 2 ≤ base) (l : ℕ) :
    r4Sigma base (l + 2) 3 = 15 ∨ r4Sigma base (l + 2) 3 = base * 4 ^ (l + 2) - 1 := by
  have hs : 0 < base * 4 ^ l := by positivity
  have e : base * 4 ^ (l + 1) = 4 * (base * 4 ^ l) := by ring
  have e0 : r4Sigma base (l + 2) 3 = 15 + 16 * r4Index base l true 0 := by
    unfold r4Sigma
    rw [r4Undo_three (by omega)]
    simp only [r4Index, e]
    generalize base * 4 ^ l = s at hs
    have e1 : 15 * s / (4 * s) = 3 := by rw [Nat.div_eq_iff (by omega)]; omega
    have e2 : 15 * s % (4 * s) = 3 * s := by
      have := Nat.div_add_mod (15 * s) (4 * s)
      rw [e1] at this; omega
    have e3 : 3 * s / s = 3 := Nat.mul_div_cancel _ hs
    simp only [e1, e2, e3, Nat.mul_mod_left]
    norm_num
    ring
  match l with
  | 0 => right; rw [e0]; simp only [r4Index, if_true]; omega
  | l + 1 => left; rw [e0]; simp [r4Index, r4Index_zero_false]

end

/-- When two multiples of the angle `2 pi / (4 q)` have the same `cas`. -/
theorem ca_eq_cases {q : ℕ} (hq : 0 < q) {a b : ℤ} (h : ca (4 * q) a = ca (4 * q) b) :
    ((4 * q : ℕ) : ℤ) ∣ a - b ∨ ((4 * q : ℕ) : ℤ) ∣ a + b - q := by
  have hp : (q : ℝ) ≠ 0 := by positivity
  have hpi := Real.pi_ne_zero
  have e : ∀ c : ℤ, ca (4 * q) c = √2 * Real.cos (2 * Real.pi * c / (4 * q : ℕ) - Real.pi / 4) := fun c => by
    rw [Real.cos_sub, Real.cos_pi_div_four, Real.sin_pi_div_four, ca, cs, sn]
    have : √2 * √2 = (2 : ℝ) := Real.mul_self_sqrt (by norm_num)
    linear_combination (-(Real.cos (2 * Real.pi * c / (4 * q : ℕ)) + Real.sin (2 * Real.pi * c / (4 * q : ℕ))) / 2) * this
  rw [e, e] at h
  have h := mul_left_cancel₀ (show √2 ≠ 0 by positivity) h
  push_cast at h
  obtain ⟨k, hk | hk⟩ := Real.cos_eq_cos_iff.1 h
  · left
    refine ⟨-k, ?_⟩
    have : (a : ℝ) - b = 4 * q * -k := by
      field_simp at hk
      linarith
    exact_mod_cast this
  · right
    refine ⟨k, ?_⟩
    have : (a : ℝ) + b - q = 4 * q * k := by
      field_simp at hk
      linarith
    exact_mod_cast this

/-! ## Signals -/

theorem r4Levels_sub (m : ℕ) : r4Levels m - 1 = (m - 5) / 2 := by
  unfold r4Levels
  split
  · omega
  · split <;> omega

theorem r4BaseLen_two {m : ℕ} (hm : 1 ≤ m) : 2 ≤ r4BaseLen m := by
  match m with
  | 1 => simp [r4BaseLen]
  | 2 => simp [r4BaseLen]
  | m + 3 => simp only [r4BaseLen]; split <;> omega

theorem r4SigmaPerm_val (m : ℕ) (i : Fin (2 ^ m)) : (r4SigmaPerm m i : ℕ) = r4Sigma (r4BaseLen m) (r4Levels m) i := rfl

theorem r4SigmaPerm_fixed (m : ℕ) (i : Fin (2 ^ m)) : r4SigmaPerm m i = i ↔ ∀ j < (m - 5) / 2, (i : ℕ) / 4 ^ j % 4 ≠ 3 := by
  rw [← r4Levels_sub, ← r4Sigma_fixed (r4BaseLen_pos m) _ _ (lt_of_lt_of_eq i.2 (r4_len m)), Fin.ext_iff, r4SigmaPerm_val]

theorem radix4Fn_perm (m : ℕ) (x : List ℝ) :
    radix4Fn ℝ m x = dht (List.ofFn fun i : Fin (2 ^ m) => x.getD (r4SigmaPerm m i) 0) := by
  rw [radix4Fn_dht]
  congr 1
  refine List.ext_getElem (by simp) fun i h1 h2 => ?_
  simp [tab, nth, r4SigmaPerm]

theorem radix4_process (m : ℕ) {d : Dht ℝ} (hd : radix4 ℝ (2 ^ m) = .ok d) {x : List ℝ} (hx : x.length = 2 ^ m) :
    d.process x = .ok (dht (List.ofFn fun i : Fin (2 ^ m) => x.getD (r4SigmaPerm m i) 0)) := by
  have hi := radix4_implements hd
  have hlen : d.len = 2 ^ m := by rw [radix4_eq] at hd; cases hd; rfl
  rw [hi.process (by rw [hlen, hx]) (by rw [hlen, hx]), hlen, mapChunks_single (by positivity) hx, radix4Fn_perm]

theorem ofFn_perm_eq {n : ℕ} (σ : Equiv.Perm (Fin n)) {x : List ℝ} (hx : x.length = n) :
    (List.ofFn fun i : Fin n => x.getD (σ i) 0) = x ↔ ∀ i, x.getD (σ i) 0 = x.getD i 0 := by
  constructor
  · intro h i
    have h1 : (i : ℕ) < x.length := by rw [hx]; exact i.2
    conv_rhs => rw [← h]
    simp
  · intro h
    refine List.ext_getElem (by simp [hx]) fun i h1 h2 => ?_
    rw [List.getElem_ofFn, h ⟨i, by simpa using h1⟩]
    simp [h2]

theorem radix4_right_iff (m : ℕ) {d : Dht ℝ} (hd : radix4 ℝ (2 ^ m) = .ok d) {x : List ℝ} (hx : x.length = 2 ^ m) :
    d.process x = .ok (dht x) ↔ ∀ i, x.getD (r4SigmaPerm m i) 0 = x.getD i 0 := by
  rw [radix4_process m hd hx, ← ofFn_perm_eq _ hx]
  constructor
  · intro h
    injection h with h
    exact dht_injective (by simp [hx]) h
  · intro h
    rw [h]

theorem ofFn_perm_impulse {n : ℕ} (σ : Equiv.Perm (Fin n)) (a : Fin n) :
    (List.ofFn fun i : Fin n => ((List.range n).map fun i => if i = (σ a : ℕ) then (1 : ℝ) else 0).getD (σ i) 0)
      = (List.range n).map fun i => if i = (a : ℕ) then (1 : ℝ) else 0 := by
  refine List.ext_getElem (by simp) fun i h1 h2 => ?_
  have hi : i < n := by simpa using h1
  have e : ((σ ⟨i, hi⟩ : ℕ) = (σ a : ℕ)) ↔ i = a := by
    rw [← Fin.ext_iff, σ.injective.eq_iff, Fin.ext_iff]
  simp [e]

theorem impulse_right_iff (m : ℕ) {d : Dht ℝ} (hd : radix4 ℝ (2 ^ m) = .ok d) (a : Fin (2 ^ m)) :
    d.process ((List.range (2 ^ m)).map fun i => if i = (a : ℕ) then 1 else 0)
        = .ok (dht ((List.range (2 ^ m)).map fun i => if i = (a : ℕ) then 1 else 0)) ↔ r4SigmaPerm m a = a := by
  rw [radix4_right_iff m hd (by simp)]
  constructor
  · intro h
    have := h a
    by_contra hc
    rw [Fin.ext_iff] at hc
    simp [hc] at this
  · intro h i
    have e : ((r4SigmaPerm m i : ℕ) = a) ↔ (i : ℕ) = a := by
      rw [← Fin.ext_iff, ← Fin.ext_iff]
      conv_lhs => rw [← h]
      exact (r4SigmaPerm m).injective.eq_iff
    simp [e]

theorem dhtCoeff_impulse {n k a : ℕ} (ha : a < n) :
    dhtCoeff ((List.range n).map fun i => if i = a then (1 : ℝ) else 0) k = ca n (a * k) := by
  rw [dhtCoeff_eq, hart, List.length_map, List.length_range, sum_eq_single_of_mem a (mem_range.2 ha)]
  · simp [nth, ha]
  · intro b hb hba
    simp [nth, mem_range.1 hb, hba]

/-- The image of index 3. -/
theorem r4Sigma_level {m : ℕ} (hm : 7 ≤ m) : r4Sigma (r4BaseLen m) (r4Levels m) 3 = 15 ∨
    r4Sigma (r4BaseLen m) (r4Levels m) 3 = 2 ^ m - 1 := by
  obtain ⟨l, hl⟩ : ∃ l, r4Levels m = l + 2 := ⟨r4Levels m - 2, by
    unfold r4Levels; split <;> (try split) <;> omega⟩
  have h := r4Sigma_at_three (r4BaseLen_two (m := m) (by omega)) l
  rw [r4_len m, hl]
  exact h

/-- The places in which equality of `cas` at index 3 and its image is possible. -/
theorem three_cases {w k : ℕ} (hw : 0 < w) (h3 : w % 3 ≠ 0) {s : ℕ} (hs : s = 15 ∨ s = 8 * w - 1) (hk : k < 8 * w)
    (h : ca (8 * w) (3 * k) = ca (8 * w) (s * k)) :
    k = 0 ∨ k = w ∨ k = 2 * w ∨ k = 4 * w ∨ k = 5 * w ∨ k = 6 * w := by
  have hc3 : Nat.Coprime w 3 := ((Nat.prime_three.coprime_iff_not_dvd).2 fun hd => h3 (Nat.mod_eq_zero_of_dvd hd)).symm
  have even : 2 * w ∣ k → k = 0 ∨ k = w ∨ k = 2 * w ∨ k = 4 * w ∨ k = 5 * w ∨ k = 6 * w := by
    rintro ⟨t, rfl⟩
    have : t < 4 := by by_contra hc; push Not at hc; nlinarith
    have : t = 0 ∨ t = 1 ∨ t = 2 ∨ t = 3 := by omega
    rcases this with rfl | rfl | rfl | rfl <;> omega
  have odd : ∀ t, k = w * t → t % 4 = 1 → k = 0 ∨ k = w ∨ k = 2 * w ∨ k = 4 * w ∨ k = 5 * w ∨ k = 6 * w := by
    rintro t rfl ht
    have : t < 8 := by by_contra hc; push Not at hc; nlinarith
    have : t = 1 ∨ t = 5 := by omega
    rcases this with rfl | rfl <;> omega
  have hwz : (w : ℤ) ≠ 0 := by positivity
  rw [show 8 * w = 4 * (2 * w) by ring] at h
  rcases hs with rfl | hs
  · rcases ca_eq_cases (by omega) h with ⟨c, hc⟩ | ⟨c, hc⟩
    · push_cast at hc
      refine even ?_
      have h1 : ((2 * w : ℕ) : ℤ) ∣ (k * 3 : ℕ) := ⟨-c, by push_cast; linarith⟩
      exact (Nat.Coprime.mul_left (by norm_num) hc3).dvd_of_dvd_mul_right (Int.natCast_dvd_natCast.1 h1)
    · push_cast at hc
      have h1 : ((w : ℕ) : ℤ) ∣ (k * 9 : ℕ) := ⟨1 + 4 * c, by push_cast; linarith⟩
      have h2 : w ∣ k := (hc3.pow_right 2).dvd_of_dvd_mul_right (Int.natCast_dvd_natCast.1 h1)
      obtain ⟨t, rfl⟩ := h2
      refine odd t rfl ?_
      push_cast at hc
      have : (w : ℤ) * (9 * t) = w * (1 + 4 * c) := by linarith
      have := mul_left_cancel₀ hwz this
      omega
  · have hs' : (s : ℤ) = 8 * w - 1 := by omega
    rw [hs'] at h
    rcases ca_eq_cases (by omega) h with ⟨c, hc⟩ | ⟨c, hc⟩
    · push_cast at hc
      refine even ?_
      have h1 : ((2 * w : ℕ) : ℤ) ∣ (k : ℕ) := ⟨c + k, by push_cast; linarith⟩
      exact Int.natCast_dvd_natCast.1 h1
    · push_cast at hc
      have h1 : ((w : ℕ) : ℤ) ∣ (k : ℕ) := ⟨1 + 4 * c - 4 * k, by linarith⟩
      obtain ⟨t, rfl⟩ := Int.natCast_dvd_natCast.1 h1
      refine odd t rfl ?_
      push_cast at hc
      have : (w : ℤ) * t = w * (1 + 4 * c - 4 * (w * t)) := by linarith
      have := mul_left_cancel₀ hwz this
      generalize (w : ℤ) * t = z at this
      omega

theorem ca_eight_seven : ca 8 7 = 0 := by
  have := ca_half 4 (by norm_num) 3
  norm_num at this
  rw [this, ca_eight_three, neg_zero]

/-- Six coefficients do not notice. -/
theorem good_place {w k : ℕ} (hw : 0 < w) (hk : k = 0 ∨ k = w ∨ k = 2 * w ∨ k = 4 * w ∨ k = 5 * w ∨ k = 6 * w) {i j : ℕ}
    (h4 : j % 4 = i % 4) (h8 : i % 4 ≠ 3 → j % 8 = i % 8) : ca (8 * w) (i * k) = ca (8 * w) (j * k) := by
  have hm : ∀ i t : ℕ, ca (8 * w) (i * (t * w : ℕ)) = ca 8 (i * t) := fun i t => by
    rw [← ca_mul (n := 8) (m := w) hw]
    push_cast
    ring_nf
  have h8' : ∀ i j t : ℕ, i * t % 8 = j * t % 8 → ca 8 (i * t) = ca 8 (j * t) := fun i j t h => ca_congr (by
    have : (((i * t : ℕ) : ℤ) - ((j * t : ℕ) : ℤ)) % 8 = 0 := by omega
    push_cast at this
    exact Int.dvd_of_emod_eq_zero this)
  obtain ⟨t, rfl, ht⟩ : ∃ t, k = t * w ∧ (t % 2 = 0 ∨ t = 1 ∨ t = 5) := by
    rcases hk with h | h | h | h | h | h
    exacts [⟨0, by omega⟩, ⟨1, by omega⟩, ⟨2, by omega⟩, ⟨4, by omega⟩, ⟨5, by omega⟩, ⟨6, by omega⟩]
  rw [hm, hm]
  rcases ht with ht | ht
  · refine h8' _ _ _ ?_
    obtain ⟨c, rfl⟩ : ∃ c, t = 2 * c := ⟨t / 2, by omega⟩
    obtain ⟨a, ha⟩ : ∃ a, i = i % 4 + 4 * a := ⟨i / 4, by omega⟩
    obtain ⟨b, hb⟩ : ∃ b, j = i % 4 + 4 * b := ⟨j / 4, by omega⟩
    generalize i % 4 = r at ha hb
    subst ha hb
    rw [show (r + 4 * a) * (2 * c) = r * (2 * c) + 8 * (a * c) by ring, show (r + 4 * b) * (2 * c) = r * (2 * c) + 8 * (b * c) by ring,
      Nat.add_mul_mod_self_left, Nat.add_mul_mod_self_left]
  · by_cases hi : i % 4 = 3
    · have z : ∀ i : ℕ, i % 4 = 3 → ca 8 (i * t) = 0 := fun i hi => by
        have : i * t % 8 = 3 ∨ i * t % 8 = 7 := by
          rcases ht with rfl | rfl <;> omega
        rcases this with h | h
        · rw [← ca_eight_three]
          exact ca_congr (by
            have : (((i * t : ℕ) : ℤ) - 3) % 8 = 0 := by omega
            push_cast at this
            exact Int.dvd_of_emod_eq_zero this)
        · rw [← ca_eight_seven]
          exact ca_congr (by
            have : (((i * t : ℕ) : ℤ) - 7) % 8 = 0 := by omega
            push_cast at this
            exact Int.dvd_of_emod_eq_zero this)
      rw [z i hi, z j (h4.trans hi)]
    · refine h8' _ _ _ ?_
      rw [Nat.mul_mod, Nat.mul_mod j, h8 hi]

theorem dhtCoeff_ofFn {n : ℕ} (f : Fin n → ℝ) (k : ℕ) : dhtCoeff (List.ofFn f) k = ∑ i : Fin n, f i * ca n (i * k) := by
  rw [dhtCoeff_eq, hart, List.length_ofFn, ← Fin.sum_univ_eq_sum_range (fun i => nth (List.ofFn f) i * ca n (i * k))]
  exact sum_congr rfl fun i _ => by simp [nth]

theorem dhtCoeff_self {n : ℕ} {x : List ℝ} (hx : x.length = n) (k : ℕ) :
    dhtCoeff x k = ∑ i : Fin n, x.getD i 0 * ca n (i * k) := by
  rw [← dhtCoeff_ofFn (fun i : Fin n => x.getD i 0) k]
  congr 1
  refine List.ext_getElem (by simp [hx]) fun i h1 h2 => ?_
  simp [h1]

/-- The coefficients that are right for every signal. -/
theorem coeff_right_iff {m : ℕ} (hm : 7 ≤ m) {k : ℕ} (hk : k < 2 ^ m) :
    (∀ x : List ℝ, x.length = 2 ^ m → dhtCoeff (List.ofFn fun i : Fin (2 ^ m) => x.getD (r4SigmaPerm m i) 0) k = dhtCoeff x k) ↔
      k = 0 ∨ k = 2 ^ (m - 3) ∨ k = 2 * 2 ^ (m - 3) ∨ k = 4 * 2 ^ (m - 3) ∨ k = 5 * 2 ^ (m - 3) ∨ k = 6 * 2 ^ (m - 3) := by
  have hn : 2 ^ m = 8 * 2 ^ (m - 3) := by
    conv_lhs => rw [show m = 3 + (m - 3) by omega, pow_add]
    norm_num
  have hca : ∀ z, ca (2 ^ m) z = ca (8 * 2 ^ (m - 3)) z := fun z => by rw [hn]
  have hw : 0 < 2 ^ (m - 3) := by positivity
  have h3 : 2 ^ (m - 3) % 3 ≠ 0 := fun h => by
    have := (Nat.prime_three.dvd_of_dvd_pow (Nat.dvd_of_mod_eq_zero h))
    omega
  have h128 : 2 ^ 7 ≤ 2 ^ m := Nat.pow_le_pow_right (by norm_num) hm
  have hl := r4_len m
  have hlev : 0 < r4Levels m := by unfold r4Levels; split <;> (try split) <;> omega
  constructor
  · intro h
    have h1 := h ((List.range (2 ^ m)).map fun i => if i = (r4SigmaPerm m ⟨3, by omega⟩ : ℕ) then 1 else 0) (by simp)
    rw [ofFn_perm_impulse, dhtCoeff_impulse (by simp only; omega), dhtCoeff_impulse (r4SigmaPerm m _).2, hca, hca] at h1
    refine three_cases hw h3 (s := (r4SigmaPerm m ⟨3, by omega⟩ : ℕ)) ?_ (by omega) (by exact_mod_cast h1)
    rw [r4SigmaPerm_val, ← hn]
    exact r4Sigma_level hm
  · intro h x hx
    rw [dhtCoeff_ofFn, dhtCoeff_self hx, ← Equiv.sum_comp (r4SigmaPerm m) fun i : Fin (2 ^ m) => x.getD i 0 * ca (2 ^ m) (i * k)]
    refine sum_congr rfl fun i _ => ?_
    congr 1
    have hi : (i : ℕ) < r4BaseLen m * 4 ^ r4Levels m := lt_of_lt_of_eq i.2 hl
    rw [hca, hca]
    exact good_place hw h (by rw [r4SigmaPerm_val]; exact r4Sigma_mod_four (r4BaseLen_pos m) _ _ hi hlev)
      (by rw [r4SigmaPerm_val]; exact r4Sigma_mod_eight (r4BaseLen_pos m) _ _ hi)

/-- Transforming twice does not give back the impulse at index 1. -/
theorem round_trip_wrong {m : ℕ} (hm : 7 ≤ m) {d : Dht ℝ} (hd : radix4 ℝ (2 ^ m) = .ok d) :
    ∃ y z, d.process ((List.range (2 ^ m)).map fun i => if i = 1 then 1 else 0) = .ok y ∧ d.process y = .ok z ∧
      z ≠ ((List.range (2 ^ m)).map fun i => if i = 1 then 1 else 0).map fun v => (2 : ℝ) ^ m * v := by
  have h128 : 2 ^ 7 ≤ 2 ^ m := Nat.pow_le_pow_right (by norm_num) hm
  have hfix : r4SigmaPerm m ⟨1, by omega⟩ = ⟨1, by omega⟩ := by
    rw [r4SigmaPerm_fixed]
    intro j _
    match j with
    | 0 => norm_num
    | j + 1 => rw [show 1 / 4 ^ (j + 1) = 0 from Nat.div_eq_of_lt (Nat.one_lt_pow (by omega) (by norm_num))]; norm_num
  set e1 : List ℝ := (List.range (2 ^ m)).map fun i => if i = 1 then 1 else 0 with he1
  have h1 : d.process e1 = .ok (dht e1) := (impulse_right_iff m hd ⟨1, by omega⟩).2 hfix
  have hl : e1.length = 2 ^ m := by simp [he1]
  have hl' : (dht e1).length = 2 ^ m := by rw [length_dht, hl]
  refine ⟨_, _, h1, radix4_process m hd hl', fun h => ?_⟩
  have h2 := dht_dht e1
  rw [hl] at h2
  push_cast at h2
  rw [← h2] at h
  have h3 := dht_injective (by simp [hl']) h
  have h4 := (ofFn_perm_eq _ hl').1 h3 ⟨3, by omega⟩
  have hc : ∀ i < 2 ^ m, (dht e1).getD i 0 = ca (2 ^ m) i := fun i hi => by
    have : (dht e1).getD i 0 = dhtCoeff e1 i := by simp [dht, hl, hi]
    rw [this, he1, dhtCoeff_impulse (by omega)]
    simp
  rw [hc _ (r4SigmaPerm m _).2, hc 3 (by omega)] at h4
  have hn : 2 ^ m = 8 * 2 ^ (m - 3) := by
    conv_lhs => rw [show m = 3 + (m - 3) by omega, pow_add]
    norm_num
  have h16 : 2 ^ 4 ≤ 2 ^ (m - 3) := Nat.pow_le_pow_right (by norm_num) (by omega)
  have hm3 : 2 ^ (m - 3) % 3 ≠ 0 := fun h => by
    have := (Nat.prime_three.dvd_of_dvd_pow (Nat.dvd_of_mod_eq_zero h))
    omega
  have := three_cases (w := 2 ^ (m - 3)) (k := 1) (s := (r4SigmaPerm m ⟨3, by omega⟩ : ℕ)) (by positivity) hm3
    (by rw [r4SigmaPerm_val, ← hn]; exact r4Sigma_level hm) (by omega) (by
      rw [← hn]
      simpa using h4.symm)
  omega

/-- The energy is right. -/
theorem perm_energy {n : ℕ} (σ : Equiv.Perm (Fin n)) {x : List ℝ} (hx : x.length = n) :
    ((List.ofFn fun i : Fin n => x.getD (σ i) 0).map fun v : ℝ => v ^ 2).sum = (x.map fun v : ℝ => v ^ 2).sum := by
  have e : x = List.ofFn fun i : Fin n => x.getD i 0 := List.ext_getElem (by simp [hx]) fun i h1 h2 => by simp [h1]
  conv_rhs => rw [e]
  rw [List.map_ofFn, List.map_ofFn, List.sum_ofFn, List.sum_ofFn]
  exact Equiv.sum_comp σ fun i : Fin n => x.getD i 0 ^ 2

end RustDHT
