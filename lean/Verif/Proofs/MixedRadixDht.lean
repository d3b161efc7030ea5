import Verif.Proofs.MixCore
import Verif.Proofs.MixedRadix

/-! # `MixedRadix` computes the DHT -/

namespace RustDHT

open Finset

theorem inverse_re (i n : ℕ) : (computeDftTwiddleInverse ℝ i n).re = cs n i := by
  change Real.cos (2 * Real.pi / n * i) = cs n i
  rw [cs]; congr 1; push_cast; ring
theorem inverse_im (i n : ℕ) : (computeDftTwiddleInverse ℝ i n).im = sn n i := by
  change Real.sin (2 * Real.pi / n * i) = sn n i
  rw [sn]; congr 1; push_cast; ring

theorem sqrt_half_mul : √2 / 2 * √(1 / 2 : ℝ) = 1 / 2 := by
  have h : √(1 / 2 : ℝ) = √2 / 2 := by
    rw [Real.sqrt_div (by norm_num), Real.sqrt_one]
    have : √2 * √2 = (2 : ℝ) := Real.mul_self_sqrt (by norm_num)
    have h2 : √(2 : ℝ) ≠ 0 := by positivity
    field_simp
    linarith
  rw [h]
  have : √2 * √2 = (2 : ℝ) := Real.mul_self_sqrt (by norm_num)
  linarith

theorem eighth_angle {n i : ℕ} (hn : 0 < n) :
    2 * Real.pi / ((n * 8 : ℕ) : ℝ) * ((i * 8 + n : ℕ) : ℝ) = 2 * Real.pi * i / n + Real.pi / 4 := by
  have : (n : ℝ) ≠ 0 := by positivity
  push_cast; field_simp; ring

/-- The twiddle shifted by an eighth of a turn and scaled by `sqrt(1/2)`. -/
theorem eighth_re {n i : ℕ} (hn : 0 < n) :
    ((computeDftTwiddleInverse ℝ (i * 8 + n) (n * 8)).scale FftNum.sqrtHalfF32).re = (cs n i - sn n i) / 2 := by
  change Real.cos (2 * Real.pi / ((n * 8 : ℕ) : ℝ) * ((i * 8 + n : ℕ) : ℝ)) * √(1 / 2) = _
  rw [eighth_angle hn, Real.cos_add, Real.cos_pi_div_four, Real.sin_pi_div_four, cs, sn]
  have := sqrt_half_mul
  push_cast
  linear_combination (Real.cos (2 * Real.pi * i / n) - Real.sin (2 * Real.pi * i / n)) * this
theorem eighth_im {n i : ℕ} (hn : 0 < n) :
    ((computeDftTwiddleInverse ℝ (i * 8 + n) (n * 8)).scale FftNum.sqrtHalfF32).im = (cs n i + sn n i) / 2 := by
  change Real.sin (2 * Real.pi / ((n * 8 : ℕ) : ℝ) * ((i * 8 + n : ℕ) : ℝ)) * √(1 / 2) = _
  rw [eighth_angle hn, Real.sin_add, Real.cos_pi_div_four, Real.sin_pi_div_four, cs, sn]
  have := sqrt_half_mul
  push_cast
  linear_combination (Real.cos (2 * Real.pi * i / n) + Real.sin (2 * Real.pi * i / n)) * this

/-- Rows of the half-reversed transpose, transformed. -/
theorem nth_rows {w h : ℕ} (x : List ℝ) {r c : ℕ} (hr : r < w) (hc : c < h) :
    nth (mapChunks h dht (tab (w * h) fun p => nth x (revRow w h (p / h) (p % h) * w + p / h))) (r * h + c)
      = hart h (rowSeq w h (nth x) r) c := by
  rw [nth_mapChunks (fun x hx => by rw [length_dht, hx]) hc (by
    rw [length_tab]; exact Nat.mul_le_mul_right h hr)]
  have hl : ((tab (w * h) fun p => nth x (revRow w h (p / h) (p % h) * w + p / h)).drop (r * h)).length ≥ h := by
    rw [List.length_drop, length_tab]
    have := Nat.mul_le_mul_right h (show r + 1 ≤ w from hr)
    rw [Nat.add_mul] at this; omega
  rw [nth_dht (List.length_take_of_le hl) hc]
  refine hart_congr (fun m hm => ?_) _
  rw [nth_take hm, nth_drop, nth_tab (pos_lt hr hm), div_of_lt hm, mod_of_lt hm, rowSeq]

theorem nth_rows_rev {w h : ℕ} (x : List ℝ) {r c : ℕ} (hr : r < w) (hc0 : 0 < c) (hc : c < h) :
    nth (mapChunks h dht (tab (w * h) fun p => nth x (revRow w h (p / h) (p % h) * w + p / h))) (r * h + (h - c))
      = hart h (rowSeq w h (nth x) r) (-c) := by
  rw [nth_rows x hr (by omega)]
  apply hart_mod
  rw [Nat.cast_sub (by omega)]
  exact ⟨1, by ring⟩

theorem mixB_col_zero (w h : ℕ) (A : ℕ → ℤ → ℝ) {r : ℕ} (hr : r < w) : mixB w h A r 0 = A r 0 := by
  unfold mixB
  split
  · next h => rw [h]
  · split
    · simp; ring
    · split
      · simp
      · simp; ring

section
variable {w h : ℕ} {buf : List ℝ} {A : ℕ → ℤ → ℝ}

/-- Columns before the middle hold the combination for column `c`. -/
theorem mrVal_fwd (hfwd : ∀ r c, r < w → c < h → nth buf (r * h + c) = A r c)
    (hrev : ∀ r c, r < w → 0 < c → c < h → nth buf (r * h + (h - c)) = A r (-c))
    {r c : ℕ} (hr : r < w) (hc : c < h) (hc2 : c = 0 ∨ 2 * c < h) : mrVal w h buf r c = mixB w h A r c := by
  have hn : 0 < w * h := Nat.mul_pos (by omega) (by omega)
  rcases Nat.eq_zero_or_pos c with rfl | hc0
  · unfold mrVal
    simp only [or_true, if_true]
    rw [hfwd r 0 hr hc]
    exact (mixB_col_zero w h A hr).symm
  have hc2 : 2 * c < h := by omega
  unfold mrVal mixB
  simp only
  rcases Nat.eq_zero_or_pos r with rfl | hr0
  · rw [if_pos (Or.inl rfl), if_pos rfl, hfwd 0 c hr hc]
  rw [if_neg (by omega), if_neg (by omega : ¬ r = 0)]
  by_cases h1 : 2 * r < w
  · rw [if_pos h1, if_pos hc2, if_pos h1, hfwd r c hr hc, hfwd (w - r) c (by omega) hc, hrev r c hr hc0 hc,
      hrev (w - r) c (by omega) hc0 hc, mrTw, eighth_re hn, eighth_im hn]
    push_cast; rfl
  · rw [if_neg h1, if_neg h1]
    by_cases h2 : w < 2 * r
    · have h3 : w - (w - r) = r := by omega
      rw [if_pos h2, if_pos hc2, if_neg (by omega), h3, hfwd r c hr hc, hfwd (w - r) c (by omega) hc, hrev r c hr hc0 hc,
        hrev (w - r) c (by omega) hc0 hc, mrTw, eighth_re hn, eighth_im hn]
      push_cast; rfl
    · rw [if_neg h2, if_pos hc2, if_pos (by omega), hfwd r c hr hc, hrev r c hr hc0 hc, mrTw, eighth_re hn, eighth_im hn]
      push_cast; ring

/-- The other columns hold the combination for column `c - h`, with negated row index. -/
theorem mrVal_rev (hfwd : ∀ r c, r < w → c < h → nth buf (r * h + c) = A r c)
    (hrev : ∀ r c, r < w → 0 < c → c < h → nth buf (r * h + (h - c)) = A r (-c))
    {r c : ℕ} (hr : r < w) (hc : c < h) (hc0 : 0 < c) (hc2 : ¬ 2 * c < h) :
    mrVal w h buf r c = mixB w h A ((w - r) % w) (c - h) := by
  have hn : 0 < w * h := Nat.mul_pos (by omega) (by omega)
  obtain ⟨e, he⟩ : ∃ e, h - c = e := ⟨_, rfl⟩
  have he0 : 0 < e := by omega
  have heh : e < h := by omega
  have hce : c = h - e := by omega
  have hcz : (c : ℤ) - h = -e := by omega
  rw [hcz]
  unfold mrVal mixB
  simp only [he]
  rcases Nat.eq_zero_or_pos r with rfl | hr0
  · rw [if_pos (Or.inl rfl), Nat.sub_zero, Nat.mod_self, if_pos rfl, hce, hrev 0 e hr he0 heh]
  rw [if_neg (by omega), Nat.mod_eq_of_lt (show w - r < w by omega), if_neg (show ¬ w - r = 0 by omega)]
  have h3 : w - (w - r) = r := by omega
  rw [h3]
  by_cases h1 : 2 * r < w
  · rw [if_pos h1, if_neg hc2, if_neg (show ¬ 2 * (w - r) < w by omega), if_neg (show ¬ 2 * (w - r) = w by omega), hfwd r e hr heh,
      hfwd (w - r) e (by omega) heh, hrev r e hr he0 heh,
      hrev (w - r) e (by omega) he0 heh, mrTw, eighth_re hn, eighth_im hn]
    rw [mul_neg, cs_neg, sn_neg, neg_neg]
    push_cast; ring
  · rw [if_neg h1]
    by_cases h2 : w < 2 * r
    · rw [if_pos h2, if_neg hc2, if_pos (show 2 * (w - r) < w by omega), hfwd r e hr heh,
        hfwd (w - r) e (by omega) heh, hrev r e hr he0 heh,
        hrev (w - r) e (by omega) he0 heh, mrTw, eighth_re hn, eighth_im hn]
      rw [mul_neg, cs_neg, sn_neg, neg_neg]
      push_cast; ring
    · have h4 : w - r = r := by omega
      rw [if_neg h2, if_neg hc2, if_neg (show ¬ 2 * (w - r) < w by omega), if_pos (show 2 * (w - r) = w by omega), h4, hfwd r e hr heh,
        hrev r e hr he0 heh, mrTw, eighth_re hn, eighth_im hn]
      rw [mul_neg, cs_neg, sn_neg, neg_neg]
      push_cast; ring

end

theorem mrFn_dht {w h : ℕ} {fw fh : List ℝ → List ℝ} (hw : ∀ x, x.length = w → fw x = dht x)
    (hh : ∀ x, x.length = h → fh x = dht x) {x : List ℝ} (hx : x.length = w * h) : mrFn w h fw fh x = dht x := by
  unfold mrFn mrStep1
  simp only
  rw [mapChunks_congr hh, mapChunks_congr hw, dht_eq' hx]
  apply tab_congr
  intro p hp
  have hc := mod_lt_of_lt_mul hp
  have hj := div_lt_of_lt_mul' hp
  obtain ⟨c, hce⟩ : ∃ c, p % h = c := ⟨_, rfl⟩
  obtain ⟨j, hje⟩ : ∃ j, p / h = j := ⟨_, rfl⟩
  have hpe : p = j * h + c := by rw [← hce, ← hje, div_mod_eq]
  rw [hce] at hc; rw [hje] at hj
  have hw0 : 0 < w := by omega
  have hh0 : 0 < h := by omega
  rw [hce, hje, nth_tab (pos_lt hc hj), div_of_lt hj, mod_of_lt hj]
  set A : ℕ → ℤ → ℝ := fun r => hart h (rowSeq w h (nth x) r) with hA
  set buf := mapChunks h dht (tab (w * h) fun p => nth x (revRow w h (p / h) (p % h) * w + p / h)) with hbuf
  have hfwd : ∀ r c, r < w → c < h → nth buf (r * h + c) = A r c := fun r c hr hc => nth_rows x hr hc
  have hrev : ∀ r c, r < w → 0 < c → c < h → nth buf (r * h + (h - c)) = A r (-c) :=
    fun r c hr hc0 hc => nth_rows_rev x hr hc0 hc
  have hcol : ∀ {i}, i < w → nth (mapChunks w dht (tab (h * w) fun p =>
      nth (tab (w * h) fun p => mrVal w h buf (p / h) (p % h)) (p % w * h + p / w))) (c * w + i)
      = ∑ r ∈ range w, mrVal w h buf r c * ca w (r * i) := by
    intro i hi
    rw [nth_mapChunks (fun x hx => by rw [length_dht, hx]) hi (by
      rw [length_tab]; exact Nat.mul_le_mul_right w hc)]
    have hl : ((tab (h * w) fun p =>
        nth (tab (w * h) fun p => mrVal w h buf (p / h) (p % h)) (p % w * h + p / w)).drop (c * w)).length ≥ w := by
      rw [List.length_drop, length_tab]
      have := Nat.mul_le_mul_right w (show c + 1 ≤ h from hc)
      rw [Nat.add_mul] at this; omega
    rw [nth_dht (List.length_take_of_le hl) hi, hart]
    refine sum_congr rfl fun r hr => ?_
    have hr := mem_range.1 hr
    rw [nth_take hr, nth_drop, nth_tab (pos_lt hc hr), div_of_lt hr, mod_of_lt hr, nth_tab (pos_lt hr hc), div_of_lt hc,
      mod_of_lt hc]
  by_cases h1 : c < (h + 1) / 2
  · rw [if_pos h1, hcol hj]
    have : ∀ r ∈ range w, mrVal w h buf r c * ca w (r * j) = mixB w h A r c * ca w (r * j) := by
      intro r hr
      rw [mrVal_fwd hfwd hrev (mem_range.1 hr) hc (by omega)]
    rw [sum_congr rfl this, hA, mix_sum hw0 hh0]
    congr 1; rw [hpe]; push_cast; ring
  · rw [if_neg h1, hcol (by omega)]
    have : ∀ r ∈ range w, mrVal w h buf r c * ca w (r * (w - 1 - j : ℕ))
        = mixB w h A ((w - r) % w) (c - h) * ca w (r * (w - 1 - j : ℕ)) := by
      intro r hr
      rw [mrVal_rev hfwd hrev (mem_range.1 hr) hc (by omega) (by omega)]
    rw [sum_congr rfl this, hA, mix_sum_neg hw0 hh0]
    apply hart_mod
    rw [hpe, Nat.sub_sub, Nat.cast_sub (by omega)]
    exact ⟨-1, by push_cast; ring⟩

theorem mixedRadix_dht {wd hd : Dht ℝ} (iw : ComputesDht wd) (ih : ComputesDht hd) : ComputesDht (mixedRadix wd hd) :=
  (mixedRadix_implements iw ih).congr fun _ hx => mrFn_dht (fun _ _ => rfl) (fun _ _ => rfl) hx

end RustDHT
