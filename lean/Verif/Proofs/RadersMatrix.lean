import Verif.Proofs.Cyclotomic
import Mathlib.Data.ZMod.Basic

/-! # Matrices that turn cyclic convolutions into the products of Rader's algorithm

`RadersAlgorithm` multiplies the transforms of two signals number by number, in a way that is right if they are Hartley transforms, and
transforms the product again.  A matrix with which this makes a cyclic convolution (possibly shifted) is the matrix of the Hartley transform,
up to the order of the coefficients. -/

open Finset

namespace RustDHT

variable {n : ℕ}

theorem sum_zmod [NeZero n] (F : ℕ → ℝ) : ∑ i : ZMod n, F i.val = ∑ i ∈ range n, F i := by
  refine sum_nbij (fun i => i.val) (fun i _ => mem_range.2 (ZMod.val_lt i)) (fun i _ j _ h => ZMod.val_injective n h)
    (fun i hi => ⟨(i : ZMod n), by simp, ?_⟩) (fun _ _ => rfl)
  exact ZMod.val_cast_of_lt (mem_range.1 (by simpa using hi))

theorem ca_zmod [NeZero n] {a b : ℤ} (h : (a : ZMod n) = b) : ca n a = ca n b := by
  rw [ZMod.intCast_eq_intCast_iff_dvd_sub] at h
  exact (ca_congr h).symm

/-- The rule for products of transforms. -/
noncomputable def rdRule (A : ZMod n → ZMod n → ℝ) (i l j : ZMod n) : ℝ :=
  ((A i l + A (-i) l) * A i j + (A i l - A (-i) l) * A (-i) j) / 2

/-- A row as a complex number. -/
noncomputable def rdChar (A : ZMod n → ZMod n → ℝ) (i l : ZMod n) : ℂ :=
  ((A i l + A (-i) l) / 2 : ℝ) + ((A i l - A (-i) l) / 2 : ℝ) * Complex.I

theorem rdChar_parts (A : ZMod n → ZMod n → ℝ) (i l : ZMod n) :
    (rdChar A i l).re = (A i l + A (-i) l) / 2 ∧ (rdChar A i l).im = (A i l - A (-i) l) / 2 := by
  constructor <;> simp only [rdChar, Complex.add_re, Complex.add_im, Complex.mul_re, Complex.mul_im, Complex.ofReal_re, Complex.ofReal_im,
    Complex.I_re, Complex.I_im] <;> ring

theorem convolver_unique [NeZero n] {A : ZMod n → ZMod n → ℝ} {s : ZMod n} (h0 : ∀ i, A i 0 = 1)
    (h : ∀ m l j, ∑ i, A m i * rdRule A i l j = if l + j = m + s then (n : ℝ) else 0) :
    ∃ u : ℕ, u.Coprime n ∧ ∀ i l : ZMod n, A i l = ca n (u * (i.val * l.val)) := by
  have hn : 0 < n := Nat.pos_of_ne_zero (NeZero.ne n)
  have hn' : (n : ℝ) ≠ 0 := by exact_mod_cast hn.ne'
  have sq : ∀ m l, ∑ i, A m i * A i l = if l = m + s then (n : ℝ) else 0 := by
    intro m l
    have := h m l 0
    rw [add_zero] at this
    rw [← this]
    refine sum_congr rfl fun i _ => ?_
    rw [rdRule, h0, h0]
    ring
  have inj : ∀ c : ZMod n → ℝ, (∀ m, ∑ i, A m i * c i = 0) → ∀ i, c i = 0 := by
    intro c hc i
    have h1 : ∑ m, A (i - s) m * ∑ j, A m j * c j = n * c i := by
      simp only [mul_sum, ← mul_assoc]
      rw [sum_comm]
      simp only [← sum_mul, sq, sub_add_cancel, ite_mul, zero_mul]
      rw [sum_ite_eq' univ i, if_pos (mem_univ _)]
    simp only [hc, mul_zero, sum_const_zero] at h1
    exact (mul_eq_zero.1 h1.symm).resolve_left hn'
  have rule : ∀ i l j, A i (l + j) = rdRule A i l j := by
    intro i l j
    have := inj (fun i => rdRule A i l j - A i (l + j)) (fun m => by
      simp only [mul_sub, sum_sub_distrib, h, sq, sub_self]) i
    linarith
  have mul : ∀ i l j, rdChar A i (l + j) = rdChar A i l * rdChar A i j := by
    intro i l j
    have e1 := rule i l j
    have e2 := rule (-i) l j
    rw [rdRule, neg_neg] at e2
    rw [rdRule] at e1
    obtain ⟨a1, a2⟩ := rdChar_parts A i l
    obtain ⟨b1, b2⟩ := rdChar_parts A i j
    obtain ⟨c1, c2⟩ := rdChar_parts A i (l + j)
    apply Complex.ext
    · rw [Complex.mul_re, a1, a2, b1, b2, c1, e1, e2]; ring
    · rw [Complex.mul_im, a1, a2, b1, b2, c2, e1, e2]; ring
  have one : ∀ i, rdChar A i 0 = 1 := by
    intro i
    rw [rdChar, h0, h0]
    norm_num
  have pow : ∀ i (k : ℕ), rdChar A i (k : ZMod n) = rdChar A i 1 ^ k := by
    intro i k
    induction k with
    | zero => rw [Nat.cast_zero, one, pow_zero]
    | succ k ih => rw [Nat.cast_succ, mul, ih, pow_succ]
  have hroot : ∀ i, ∃ t : ℕ, rdChar A i 1 = rootOf n ^ t := by
    intro i
    have : rdChar A i 1 ^ n = 1 := by rw [← pow, ZMod.natCast_self, one]
    obtain ⟨t, -, ht⟩ := (rootOf_primitive hn).eq_pow_of_pow_eq_one this
    exact ⟨t, ht.symm⟩
  choose t ht using hroot
  have parts : ∀ i (k : ℕ), rdChar A i (k : ZMod n) = cs n (t i * k) + sn n (t i * k) * Complex.I := by
    intro i k
    rw [pow, ht, ← pow_mul, ← zpow_natCast, rootOf_zpow]
    push_cast
    rfl
  have entry : ∀ i (k : ℕ), A i (k : ZMod n) = ca n (t i * k) ∧ A (-i) (k : ZMod n) = ca n (-(t i * k)) := by
    intro i k
    obtain ⟨e1, e2⟩ := rdChar_parts A i k
    rw [parts i k] at e1 e2
    simp only [Complex.add_re, Complex.add_im, Complex.mul_re, Complex.mul_im, Complex.ofReal_re, Complex.ofReal_im,
      Complex.I_re, Complex.I_im] at e1 e2
    constructor
    · rw [ca]; linarith
    · rw [ca_neg]; linarith
  have entry' : ∀ i l : ZMod n, A i l = ca n (t i * l.val) := by
    intro i l
    have := (entry i l.val).1
    rwa [ZMod.natCast_zmod_val] at this
  have same : ∀ a b : ℕ, (∀ i : ZMod n, ca n (a * i.val) = ca n (b * i.val)) → (a : ZMod n) = b := by
    intro a b hab
    have h1 := sum_ca_mul hn a a
    have h2 := sum_ca_mul hn a b
    rw [sub_self, if_pos (dvd_zero _), ← sum_zmod fun k => ca n (a * k) * ca n (a * k)] at h1
    rw [← sum_zmod fun k => ca n (a * k) * ca n (b * k)] at h2
    simp only [← hab] at h2
    rw [h1] at h2
    by_cases hd : (n : ℤ) ∣ a - b
    · rw [← Int.cast_natCast a, ← Int.cast_natCast b]
      exact ((ZMod.intCast_eq_intCast_iff_dvd_sub _ _ _).2 hd).symm
    · rw [if_neg hd] at h2
      exact absurd h2 hn'
  have tinj : ∀ m m', (t m : ZMod n) = t m' → m = m' := by
    intro m m' hm
    have hrow : ∀ l, A m l = A m' l := by
      intro l
      rw [entry', entry']
      apply ca_zmod
      push_cast
      rw [hm]
    have h1 := sq m (m + s)
    have h2 := sq m' (m + s)
    simp only [hrow] at h1
    rw [h2, if_pos trivial] at h1
    by_contra hne
    rw [if_neg fun h => hne (add_right_cancel h)] at h1
    exact hn' h1.symm
  have sym : ∀ i m : ZMod n, ca n (t m * i.val) = A i (m + s) := by
    intro i m
    have := inj (fun i => ca n (t m * i.val) - A i (m + s)) (fun m' => by
      simp only [mul_sub, sum_sub_distrib, sq]
      rw [sub_eq_zero]
      have h1 := sum_ca_mul hn (t m' : ℤ) (t m)
      rw [← sum_zmod fun k => ca n (t m' * k) * ca n (t m * k)] at h1
      simp only [entry']
      rw [h1]
      by_cases hm : m' = m
      · rw [hm, sub_self, if_pos (dvd_zero _), if_pos rfl]
      · rw [if_neg, if_neg fun h => hm (add_right_cancel h).symm]
        intro hd
        refine hm (tinj _ _ ?_)
        rw [← Int.cast_natCast (t m'), ← Int.cast_natCast (t m)]
        exact ((ZMod.intCast_eq_intCast_iff_dvd_sub _ _ _).2 hd).symm) i
    linarith
  have ts : (t (-s) : ZMod n) = (0 : ℕ) := same _ _ fun i => by
    rw [sym, neg_add_cancel, h0, Nat.cast_zero, zero_mul, ca_zero]
  have t0 : (t 0 : ZMod n) = (0 : ℕ) := same _ _ fun i => by
    have h1 := sym 0 (i - s)
    rw [sub_add_cancel, ZMod.val_zero, Nat.cast_zero, mul_zero, ca_zero, entry'] at h1
    rw [← h1, Nat.cast_zero, zero_mul, ca_zero]
  have s0 : s = 0 := by
    have := tinj _ _ (ts.trans t0.symm)
    rwa [neg_eq_zero] at this
  subst s0
  -- the number of the row determines the frequency
  have tmul : ∀ i : ZMod n, (t i : ZMod n) = i * t 1 := by
    intro i
    have e1 := sym i 1
    have e2 := sym (-i) 1
    rw [add_zero] at e1 e2
    obtain ⟨f1, f2⟩ := entry i 1
    rw [Nat.cast_one] at f1 f2
    rw [f1] at e1
    rw [f2] at e2
    have e3 : ca n (t 1 * (-i).val) = ca n (-(t 1 * i.val)) := by
      apply ca_zmod
      push_cast
      rw [ZMod.natCast_zmod_val, ZMod.natCast_zmod_val]
      ring
    rw [e3, ca_neg, ca_neg] at e2
    rw [ca, ca] at e1
    have hc : cs n (t 1 * i.val - t i) = 1 := by
      rw [cs_sub]
      rw [Nat.cast_one, mul_one] at e1 e2
      have g1 : cs n (t 1 * i.val) = cs n (t i) := by linarith
      have g2 : sn n (t 1 * i.val) = sn n (t i) := by linarith
      rw [g1, g2]
      have := cs_sq_add n (t i)
      linarith
    have hd := (cs_eq_one_iff hn _).1 hc
    have := (ZMod.intCast_eq_intCast_iff_dvd_sub _ _ n).2 hd
    push_cast at this
    rw [ZMod.natCast_zmod_val] at this
    rw [this, mul_comm]
  refine ⟨t 1, ?_, fun i l => ?_⟩
  · have hg : 0 < Nat.gcd (t 1) n := Nat.gcd_pos_of_pos_right _ hn
    have h1 : (((n / Nat.gcd (t 1) n : ℕ)) : ZMod n) = 0 := by
      refine tinj _ _ ?_
      rw [tmul, t0]
      obtain ⟨a, ha⟩ := Nat.gcd_dvd_left (t 1) n
      obtain ⟨b, hb⟩ := Nat.gcd_dvd_right (t 1) n
      have hb' : n / Nat.gcd (t 1) n = b := Nat.div_eq_of_eq_mul_right hg hb
      rw [hb', ← Nat.cast_mul, Nat.cast_zero, ZMod.natCast_eq_zero_iff]
      refine ⟨a, ?_⟩
      calc b * t 1 = b * (Nat.gcd (t 1) n * a) := by rw [← ha]
        _ = Nat.gcd (t 1) n * b * a := by ring
        _ = n * a := by rw [← hb]
    rw [ZMod.natCast_eq_zero_iff] at h1
    have h2 : n / Nat.gcd (t 1) n = n := le_antisymm (Nat.div_le_self _ _)
      (Nat.le_of_dvd (Nat.div_pos (Nat.gcd_le_right _ hn) hg) h1)
    have h3 := Nat.div_mul_cancel (Nat.gcd_dvd_right (t 1) n)
    rw [h2] at h3
    exact Nat.eq_of_mul_eq_mul_left hn (h3.trans (Nat.mul_one n).symm)
  · rw [entry']
    apply ca_zmod
    push_cast
    rw [tmul, ZMod.natCast_zmod_val, ZMod.natCast_zmod_val]
    ring

end RustDHT
