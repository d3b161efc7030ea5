import Verif.Proofs.Orthogonality
import Verif.Spec.Laws
import Mathlib.Analysis.Fourier.ZMod

/-! # Laws of the discrete Hartley transform -/

namespace RustDHT

open Finset

/-! ## Linearity -/

theorem hart_add_smul (n : ℕ) (f g : ℕ → ℝ) (a b : ℝ) (k : ℤ) :
    hart n (fun i => a * f i + b * g i) k = a * hart n f k + b * hart n g k := by
  unfold hart
  rw [mul_sum, mul_sum, ← sum_add_distrib]
  exact sum_congr rfl fun i _ => by ring

theorem nth_zipWith {f : ℝ → ℝ → ℝ} {x y : List ℝ} {i : ℕ} (h1 : i < x.length) (h2 : i < y.length) :
    nth (List.zipWith f x y) i = f (nth x i) (nth y i) := by
  rw [nth_eq_getElem (by simp; omega), nth_eq_getElem h1, nth_eq_getElem h2, List.getElem_zipWith]

theorem dht_linear {x y : List ℝ} (hl : x.length = y.length) (a b : ℝ) :
    dht (List.zipWith (fun u v => a * u + b * v) x y) = List.zipWith (fun u v => a * u + b * v) (dht x) (dht y) := by
  have hz : (List.zipWith (fun u v => a * u + b * v) x y).length = y.length := by simp [hl]
  rw [dht_eq' hz]
  symm
  refine eq_tab (by simp [hl]) fun k hk => ?_
  rw [nth_zipWith (by simp; omega) (by simpa using hk), nth_dht hl hk, nth_dht rfl hk, ← hart_add_smul]
  refine hart_congr (fun i hi => ?_) _
  rw [nth_zipWith (by omega) hi]

theorem mapChunks_zipWith {n : ℕ} (hn : 0 < n) {f : List ℝ → List ℝ} {c : ℝ → ℝ → ℝ}
    (hf : ∀ x y : List ℝ, x.length = n → y.length = n →
      f (List.zipWith c x y) = List.zipWith c (f x) (f y) ∧ (f x).length = n) (x y : List ℝ) (hl : x.length = y.length) :
    mapChunks n f (List.zipWith c x y) = List.zipWith c (mapChunks n f x) (mapChunks n f y) := by
  induction x using chunk_induction hn generalizing y with
  | hlt l h =>
    rw [mapChunks_of_lt h, mapChunks_of_lt (l := y) (by omega), mapChunks_of_lt (by simp; omega)]
  | hge l h ih =>
    rw [mapChunks_of_ge hn h, mapChunks_of_ge (l := y) hn (by omega), mapChunks_of_ge hn (by simp; omega)]
    have hx : (l.take n).length = n := by simp; omega
    have hy : (y.take n).length = n := by simp; omega
    rw [List.zipWith_append (by rw [(hf _ _ hx hx).2, (hf _ _ hy hy).2]), ← ih (y.drop n) (by simp; omega),
      ← (hf _ _ hx hy).1, List.take_zipWith, List.drop_zipWith]

/-! ## Parseval -/

theorem sum_map_eq (x : List ℝ) (g : ℝ → ℝ) : (x.map g).sum = ∑ i ∈ range x.length, g (nth x i) := by
  induction x with
  | nil => simp
  | cons a x ih =>
    rw [List.map_cons, List.sum_cons, List.length_cons, sum_range_succ', ih, add_comm]
    simp [nth]

theorem dht_parseval (x : List ℝ) : ((dht x).map fun v : ℝ => v ^ 2).sum = (x.length : ℝ) * (x.map fun v : ℝ => v ^ 2).sum := by
  rw [sum_map_eq, sum_map_eq, length_dht]
  have := hart_parseval x.length (nth x) (nth x)
  simp only [← pow_two] at this
  rw [← this]
  exact sum_congr rfl fun k hk => by rw [nth_dht rfl (mem_range.1 hk)]

theorem mapChunks_sum {n : ℕ} (hn : 0 < n) {f : List ℝ → List ℝ} {g : ℝ → ℝ} {c : ℝ}
    (hf : ∀ x : List ℝ, x.length = n → ((f x).map g).sum = c * (x.map g).sum) (x : List ℝ) (hd : n ∣ x.length) :
    ((mapChunks n f x).map g).sum = c * (x.map g).sum := by
  induction x using chunk_induction hn with
  | hlt l h =>
    have : l = [] := List.length_eq_zero_iff.1 (Nat.eq_zero_of_dvd_of_lt hd h)
    rw [this, mapChunks_nil]; simp
  | hge l h ih =>
    rw [mapChunks_of_ge hn h, List.map_append, List.sum_append, hf _ (by simp; omega),
      ih (by rw [List.length_drop]; exact Nat.dvd_sub hd (dvd_refl n)), ← mul_add, ← List.sum_append, ← List.map_append,
      List.take_append_drop]

/-! ## Reversals -/

@[simp] theorem length_revTail (x : List ℝ) : (revTail x).length = x.length := by
  simp [revTail]; omega

theorem nth_revTail {x : List ℝ} {n i : ℕ} (hx : x.length = n) (hi : i < n) :
    nth (revTail x) i = nth x ((n - i) % n) := by
  unfold revTail
  rcases Nat.eq_zero_or_pos i with rfl | hi0
  · rw [nth_append_left (by simp; omega), nth_take (by omega)]
    simp
  · rw [nth_append_right (by simp; omega), nth_reverse (by simp; omega), nth_drop, Nat.mod_eq_of_lt (by omega)]
    congr 1
    simp; omega

theorem sum_rev_mod {n : ℕ} (f : ℕ → ℝ) : ∑ i ∈ range n, f ((n - i) % n) = ∑ i ∈ range n, f i := by
  rcases Nat.eq_zero_or_pos n with rfl | hn
  · simp
  obtain ⟨m, rfl⟩ : ∃ m, n = m + 1 := ⟨n - 1, by omega⟩
  rw [sum_range_succ', sum_range_succ', ← sum_range_reflect]
  congr 1
  · refine sum_congr rfl fun i hi => ?_
    have := mem_range.1 hi
    rw [Nat.mod_eq_of_lt (by omega)]
    congr 1; omega
  · simp

theorem hart_rev_mod {n : ℕ} (f : ℕ → ℝ) (k : ℤ) : hart n (fun i => f ((n - i) % n)) k = hart n f (-k) := by
  unfold hart
  rw [← sum_rev_mod (fun i : ℕ => f i * ca n (i * -k))]
  refine sum_congr rfl fun i hi => ?_
  have := mem_range.1 hi
  congr 1
  apply ca_congr
  rcases Nat.eq_zero_or_pos i with rfl | hi0
  · simp
  · rw [Nat.mod_eq_of_lt (by omega), Nat.cast_sub (by omega)]
    exact ⟨k, by ring⟩

theorem dht_revTail (x : List ℝ) : revTail (dht (revTail x)) = dht x := by
  obtain ⟨n, hn⟩ : ∃ n, x.length = n := ⟨_, rfl⟩
  rw [dht_eq' hn]
  refine eq_tab (by simpa using hn) fun k hk => ?_
  rw [nth_revTail (n := n) (by simpa using hn) hk, nth_dht (n := n) (by simpa using hn) (Nat.mod_lt _ (by omega)),
    hart_congr (fun i hi => nth_revTail hn hi), hart_rev_mod]
  apply hart_mod
  rcases Nat.eq_zero_or_pos k with rfl | hk0
  · simp
  · rw [Nat.mod_eq_of_lt (by omega), Nat.cast_sub (by omega)]
    exact ⟨-1, by ring⟩

theorem revTwiddle_eq {x : List ℝ} {n : ℕ} (hx : x.length = n) :
    revTwiddle x = tab n fun i => -sn n i * nth x i + cs n i * nth x ((n - i) % n) := by
  subst hx
  unfold revTwiddle tab
  refine List.map_congr_left fun i _ => ?_
  rw [List.getD_eq_getElem?_getD, List.getD_eq_getElem?_getD, ← sn_neg, ← cs_neg, sn, cs]
  push_cast
  simp only [nth, mul_neg, neg_mul]

/-- Reversing the output is twiddling the input. -/
theorem dht_reverse_output (x : List ℝ) : (dht x).reverse = dht (revTwiddle x) := by
  obtain ⟨n, hn⟩ : ∃ n, x.length = n := ⟨_, rfl⟩
  rw [revTwiddle_eq hn, dht_tab]
  refine eq_tab (by simpa using hn) fun k hk => ?_
  rw [nth_reverse (by simp; omega), length_dht, hn, nth_dht hn (by omega)]
  unfold hart
  simp only [add_mul, sum_add_distrib]
  rw [← sum_rev_mod (fun i : ℕ => cs n i * nth x ((n - i) % n) * ca n (i * k)), ← sum_add_distrib]
  refine sum_congr rfl fun i hi => ?_
  have hi := mem_range.1 hi
  have e1 : nth x ((n - (n - i) % n) % n) = nth x i := by
    congr 1
    rcases Nat.eq_zero_or_pos i with rfl | hi0
    · simp
    · rw [Nat.mod_eq_of_lt (show n - i < n by omega), Nat.mod_eq_of_lt (by omega)]; omega
  have hd : (n : ℤ) ∣ (((n - i) % n : ℕ) : ℤ) - (-i) := by
    rcases Nat.eq_zero_or_pos i with rfl | hi0
    · simp
    · rw [Nat.mod_eq_of_lt (by omega), Nat.cast_sub (by omega)]
      exact ⟨1, by ring⟩
  have e2 : cs n (((n - i) % n : ℕ) : ℤ) = cs n i := by
    rw [← cs_neg n i]; exact cs_congr hd
  have e3 : ca n ((((n - i) % n : ℕ) : ℤ) * k) = ca n (-(i * k)) := by
    apply ca_congr
    obtain ⟨c, hc⟩ := hd
    exact ⟨c * k, by linear_combination k * hc⟩
  have e4 : ca n ((i : ℤ) * ((n - 1 - k : ℕ) : ℤ)) = ca n (-(i * k) + -i) := by
    apply ca_congr
    rw [Nat.sub_sub, Nat.cast_sub (by omega)]
    exact ⟨i, by push_cast; ring⟩
  rw [e1, e2, e3, e4, ca_add, cs_neg, sn_neg, neg_neg]
  ring

/-- Reversing the input is twiddling the output. -/
theorem dht_reverse_input (x : List ℝ) : dht x.reverse = revTwiddle (dht x) := by
  obtain ⟨n, hn⟩ : ∃ n, x.length = n := ⟨_, rfl⟩
  rw [dht_eq' (n := n) (by simpa using hn), revTwiddle_eq (n := n) (by simpa using hn)]
  refine tab_congr fun k hk => ?_
  rw [hart_congr (g := fun i => nth x (n - 1 - i)) (fun i hi => by rw [nth_reverse (by omega), hn]), hart_reverse,
    nth_dht hn hk, nth_dht hn (Nat.mod_lt _ (by omega))]
  have : hart n (nth x) (((n - k) % n : ℕ) : ℤ) = hart n (nth x) (-k) := by
    apply hart_mod
    rcases Nat.eq_zero_or_pos k with rfl | hk0
    · simp
    · rw [Nat.mod_eq_of_lt (by omega), Nat.cast_sub (by omega)]
      exact ⟨1, by ring⟩
  rw [this]; ring

/-! ## The discrete Fourier transform -/

theorem dhtCoeff_eq_dft (x : List ℝ) (k : ℕ) : dhtCoeff x k = (dftCoeff x k).re - (dftCoeff x k).im := by
  unfold dhtCoeff dftCoeff
  rw [Complex.re_sum, Complex.im_sum, ← sum_sub_distrib]
  refine sum_congr rfl fun j _ => ?_
  have e : (-2 * Real.pi * Complex.I * j * k / x.length : ℂ)
      = ((-(2 * Real.pi * j * k / x.length) : ℝ) : ℂ) * Complex.I := by
    push_cast; ring
  rw [e, Complex.re_ofReal_mul, Complex.im_ofReal_mul, Complex.exp_ofReal_mul_I_re, Complex.exp_ofReal_mul_I_im,
    Real.cos_neg, Real.sin_neg, cas]
  ring

/-- The same with Mathlib's discrete Fourier transform on `ZMod n`. -/
theorem dhtCoeff_eq_zmodDft (x : List ℝ) [NeZero x.length] (k : ℕ) :
    dhtCoeff x k = (ZMod.dft (fun j : ZMod x.length => ((x.getD j.val 0 : ℝ) : ℂ)) (k : ZMod x.length)).re
      - (ZMod.dft (fun j : ZMod x.length => ((x.getD j.val 0 : ℝ) : ℂ)) (k : ZMod x.length)).im := by
  have key : ZMod.dft (fun j : ZMod x.length => ((x.getD j.val 0 : ℝ) : ℂ)) (k : ZMod x.length) = dftCoeff x k := by
    generalize hn : x.length = n at *
    rw [ZMod.dft_apply, dftCoeff, hn]
    refine sum_bij' (fun j _ => j.val) (fun j _ => (j : ZMod n)) (fun j _ => mem_range.2 (ZMod.val_lt j))
      (fun _ _ => mem_univ _) (fun j _ => ZMod.natCast_zmod_val j)
      (fun j hj => ZMod.val_natCast_of_lt (mem_range.1 hj)) (fun j _ => ?_)
    have e : (-(j * (k : ZMod n))) = ((-(j.val * k : ℤ) : ℤ) : ZMod n) := by
      push_cast; rw [ZMod.natCast_zmod_val]
    rw [e, ZMod.stdAddChar_coe, smul_eq_mul, mul_comm]
    congr 2
    push_cast; ring
  rw [key, dhtCoeff_eq_dft]

end RustDHT
