import Verif.Proofs.RootAffected

/-! # How much a composition with another constant loses -/

set_option linter.style.haveILetI false

namespace RustDHT

open Finset

/-- For one signal the sum of the squares is too small by the factor `κ`. -/
def Lossy (κ : ℝ) (n : ℕ) (f : List ℝ → List ℝ) : Prop := ∃ x, x.length = n ∧ 0 < en n x ∧ en n (f x) ≤ κ * (n * en n x)

/-- `s` as row `a`, zeros elsewhere. -/
noncomputable def rowAt (w h a : ℕ) (s : List ℝ) : List ℝ := tab (w * h) fun p => if p / h = a then nth s (p % h) else 0

theorem rowOf_rowAt {w h a r : ℕ} {s : List ℝ} (hs : s.length = h) (hr : r < w) :
    rowOf h r (rowAt w h a s) = if r = a then s else tab h fun _ => 0 := by
  have hy : (rowAt w h a s).length = w * h := length_tab _ _
  have hlr := length_rowOf (r := r) hy hr
  have key : ∀ j < h, nth (rowOf h r (rowAt w h a s)) j = if r = a then nth s j else 0 := fun j hj => by
    rw [nth_rowOf hj, rowAt, nth_tab (pos_lt hr hj), div_of_lt hj, mod_of_lt hj]
  split_ifs with h0
  · refine list_ext_nth (by rw [hlr, hs]) fun j hj => ?_
    rw [key j (by omega), if_pos h0]
  · refine eq_tab hlr fun j hj => ?_
    rw [key j hj, if_neg h0]

theorem en_zeros (h : ℕ) : en h (tab h fun _ => 0) = 0 := by
  rw [en]
  exact sum_eq_zero fun i hi => by rw [nth_tab (mem_range.1 hi)]; norm_num

theorem en_nonneg (n : ℕ) (x : List ℝ) : 0 ≤ en n x := sum_nonneg fun _ _ => sq_nonneg _

theorem length_rowAt (w h a : ℕ) (s : List ℝ) : (rowAt w h a s).length = w * h := length_tab _ _

theorem en_rowAt {w h a : ℕ} {s : List ℝ} (hs : s.length = h) (ha : a < w) : en (w * h) (rowAt w h a s) = en h s := by
  rw [en_rows, sum_eq_single a, rowOf_rowAt hs ha, if_pos rfl]
  · intro r hr hn
    rw [rowOf_rowAt hs (mem_range.1 hr), if_neg hn, en_zeros]
  · intro hn
    exact absurd (mem_range.2 ha) hn

theorem gains_neg {n : ℕ} {f : List ℝ → List ℝ} (h : Gains (-1) n f) {x : List ℝ} (hx : x.length = n) : en n (f x) ≤ n * en n x := by
  have := h x hx
  linarith

theorem gains_zeros {h : ℕ} {f : List ℝ → List ℝ} (g : Gains (-1) h f) : en h (f (tab h fun _ => 0)) = 0 := by
  have := gains_neg g (x := tab h fun _ => 0) (length_tab _ _)
  rw [en_zeros, mul_zero] at this
  exact le_antisymm this (en_nonneg _ _)

theorem en_chunks_rowAt {w h a : ℕ} {f : List ℝ → List ℝ} (hl : ∀ x, x.length = h → (f x).length = h) (g : Gains (-1) h f) {s : List ℝ}
    (hs : s.length = h) (ha : a < w) : en (w * h) (mapChunks h f (rowAt w h a s)) = en h (f s) := by
  rw [en_chunks hl (length_rowAt _ _ _ _), sum_eq_single a, rowOf_rowAt hs ha, if_pos rfl]
  · intro r hr hn
    rw [rowOf_rowAt hs (mem_range.1 hr), if_neg hn, gains_zeros g]
  · intro hn
    exact absurd (mem_range.2 ha) hn

theorem en_eq_zero {h : ℕ} {x : List ℝ} (e : en h x = 0) {c : ℕ} (hc : c < h) : nth x c = 0 := by
  have := (sum_eq_zero_iff_of_nonneg fun i _ => sq_nonneg _).1 e c (mem_range.2 hc)
  exact pow_eq_zero_iff (two_ne_zero) |>.1 this

/-- One entry `1`, the next `-1`. -/
noncomputable def pairAt (h : ℕ) : List ℝ := tab h fun p => if p = 0 then 1 else if p = 1 then -1 else 0

theorem pairAt_sum {h : ℕ} (hh : 2 ≤ h) : (pairAt h).sum = 0 := by
  obtain ⟨m, rfl⟩ : ∃ m, h = m + 2 := ⟨h - 2, by omega⟩
  rw [list_sum, pairAt, length_tab, sum_range_succ', sum_range_succ', nth_tab (by omega), nth_tab (by omega)]
  rw [sum_eq_zero]
  · norm_num
  · intro i hi
    have := mem_range.1 hi
    rw [nth_tab (by omega), if_neg (by omega), if_neg (by omega)]

theorem pairAt_en {h : ℕ} (hh : 2 ≤ h) : 0 < en h (pairAt h) := by
  refine sum_pos' (fun _ _ => sq_nonneg _) ⟨0, mem_range.2 (by omega), ?_⟩
  rw [pairAt, nth_tab (by omega)]
  norm_num

/-- The rows transformed and scaled. -/
theorem lossy_scl {w h : ℕ} {κ δ : ℝ} (hw : 0 < w) (hh : 0 < h) (hδ : δ ^ 2 ≤ 1) {f : List ℝ → List ℝ}
    (hl : ∀ x, x.length = h → (f x).length = h) (hg : Gains (-1) h f)
    (hm : Lossy κ h f ∨ 2 ≤ w ∧ 2 ≤ h ∧ δ ^ 2 ≤ κ ∧ ∀ x, x.length = h → nth (f x) 0 = x.sum) :
    ∃ x, x.length = w * h ∧ 0 < en (w * h) x ∧ en (w * h) (scl w h δ (mapChunks h f (mrStep1 w h x))) ≤ κ * (h * en (w * h) x) := by
  rcases hm with ⟨s, hs, h1, h2⟩ | ⟨hw2, hh2, hκ, hsum⟩
  · obtain ⟨x, hx, e⟩ := step1_onto (k := w) hh (rowAt w h 0 s) (length_tab _ _)
    have e' : mrStep1 w h x = rowAt w h 0 s := e
    have ex : en (w * h) x = en h s := by rw [← en_step1 hh hx, e', en_rowAt hs hw]
    refine ⟨x, hx, by rw [ex]; exact h1, ?_⟩
    rw [e', ex, en_scl]
    have h3 : 0 ≤ ∑ p ∈ range (w * h), if p / h = 0 ∨ p % h = 0 then 0 else nth (mapChunks h f (rowAt w h 0 s)) p ^ 2 :=
      sum_nonneg fun p _ => by split_ifs <;> positivity
    rw [en_chunks_rowAt hl hg hs hw]
    nlinarith [mul_nonneg (sub_nonneg.2 hδ) h3]
  · have hs : (pairAt h).length = h := length_tab _ _
    obtain ⟨x, hx, e⟩ := step1_onto (k := w) hh (rowAt w h 1 (pairAt h)) (length_tab _ _)
    have e' : mrStep1 w h x = rowAt w h 1 (pairAt h) := e
    have ex : en (w * h) x = en h (pairAt h) := by rw [← en_step1 hh hx, e', en_rowAt hs hw2]
    refine ⟨x, hx, by rw [ex]; exact pairAt_en hh2, ?_⟩
    rw [e', ex]
    have hz : en (w * h) (scl w h δ (mapChunks h f (rowAt w h 1 (pairAt h)))) = δ ^ 2 * en (w * h) (mapChunks h f (rowAt w h 1 (pairAt h))) := by
      rw [en, en, mul_sum]
      refine sum_congr rfl fun p hp => ?_
      have hp := mem_range.1 hp
      have hr := div_lt_of_lt_mul' hp
      have hc := mod_lt_of_lt_mul hp
      rw [scl, nth_tab hp]
      split_ifs with h0
      · have : nth (mapChunks h f (rowAt w h 1 (pairAt h))) p = 0 := by
          have e2 := nth_chunkRow (f := f) hl (length_rowAt w h 1 (pairAt h)) hr hc
          rw [div_mod_eq] at e2
          rw [e2, rowOf_rowAt hs hr]
          split_ifs with h1
          · have h2 : p % h = 0 := by omega
            rw [h2, hsum _ hs, pairAt_sum hh2]
          · exact en_eq_zero (gains_zeros hg) hc
        rw [this]
        ring
      · ring
    rw [hz, en_chunks_rowAt hl hg hs hw2]
    have h3 := gains_neg hg hs
    have h4 := en_nonneg h (f (pairAt h))
    nlinarith [mul_le_mul_of_nonneg_left h3 (sq_nonneg δ), mul_le_mul_of_nonneg_right hκ (h4.trans h3)]

theorem lossy_columns {w h : ℕ} {κ δ : ℝ} (hw : 0 < w) (hh : 0 < h) (hδ : δ ^ 2 ≤ 1) {f L : List ℝ → List ℝ}
    (hl : ∀ x, x.length = h → (f x).length = h)
    (hL : ∀ x, x.length = w * h → L (mapChunks h dht (mrStep1 w h x)) = rootDht w δ x) (hg : Gains (-1) h f)
    (hm : Lossy κ h f ∨ 2 ≤ w ∧ 2 ≤ h ∧ δ ^ 2 ≤ κ ∧ ∀ x, x.length = h → nth (f x) 0 = x.sum) :
    Lossy κ (w * h) (fun x => L (mapChunks h f (mrStep1 w h x))) := by
  obtain ⟨x, hx, h1, h2⟩ := lossy_scl hw hh hδ hl hg hm
  refine ⟨x, hx, h1, ?_⟩
  rw [stage_en hh hL (by rw [length_mapChunks hh hl, length_step1])]
  have h3 : (0 : ℝ) ≤ w := Nat.cast_nonneg _
  push_cast
  nlinarith [mul_le_mul_of_nonneg_left h2 h3]

theorem lossy_mr (ρ : ℝ) {w h : ℕ} {κ : ℝ} (hw : 0 < w) (hh : 0 < h) (hδ : (ρ * √2) ^ 2 ≤ 1) {fw fh : List ℝ → List ℝ}
    (lw : ∀ x, x.length = w → (fw x).length = w) (lh : ∀ x, x.length = h → (fh x).length = h) (gw : Gains (-1) w fw) (gh : Gains (-1) h fh)
    (hsum : ∀ x, x.length = h → nth (fh x) 0 = x.sum)
    (hm : Lossy κ h fh ∨ (2 ≤ w ∧ 2 ≤ h ∧ (ρ * √2) ^ 2 ≤ κ) ∨ h = 1 ∧ Lossy κ w fw) :
    Lossy κ (w * h) (letI := realWithRoot ρ; mrFn w h fw fh) := by
  let := realWithRoot ρ
  have h3 : (0 : ℝ) ≤ w := Nat.cast_nonneg _
  have key : (Lossy κ h fh ∨ 2 ≤ w ∧ 2 ≤ h ∧ (ρ * √2) ^ 2 ≤ κ ∧ ∀ x, x.length = h → nth (fh x) 0 = x.sum) →
      Lossy κ (w * h) (letI := realWithRoot ρ; mrFn w h fw fh) := by
    intro hm
    obtain ⟨x, hx, h1, h2⟩ := lossy_scl hw hh hδ lh gh hm
    refine ⟨x, hx, h1, ?_⟩
    rw [mrFn_eq]
    have h4 := gains_tail hw hh lw gw (u := mrTwist w h ℝ (mapChunks h fh (mrStep1 w h x))) (length_tab _ _)
    rw [← en_twist ρ hw hh] at h2
    push_cast
    nlinarith [mul_le_mul_of_nonneg_left h2 h3]
  rcases hm with hm | hm | ⟨rfl, x, hx, h1, h2⟩
  · exact key (Or.inl hm)
  · exact key (Or.inr ⟨hm.1, hm.2.1, hm.2.2, hsum⟩)
  · refine ⟨x, by rw [hx, Nat.mul_one], by rw [Nat.mul_one]; exact h1, ?_⟩
    rw [mrFn_eq]
    have hx' : x.length = w * 1 := by rw [hx, Nat.mul_one]
    have hu : mrTwist w 1 ℝ (mapChunks 1 fh (mrStep1 w 1 x)) = x := by
      symm
      refine eq_tab hx' fun p hp => ?_
      have hp' : p < w := by omega
      rw [Nat.mod_one, Nat.div_one, mrVal, if_pos (Or.inr rfl)]
      dsimp only
      rw [nth_chunkRow lh (length_step1 w 1 x) hp' (by norm_num), hsum _ (length_rowOf (length_step1 w 1 x) hp'), list_sum,
        length_rowOf (length_step1 w 1 x) hp', sum_range_one, nth_rowOf (by norm_num), mrStep1, nth_tab (by omega), Nat.add_zero, Nat.mul_one,
        Nat.div_one, Nat.mod_one]
      congr 1
      have : revRow w 1 p 0 = 0 := by unfold revRow; split <;> omega
      rw [this]
      omega
    rw [hu, en_tail hw hh lw]
    have ht : (tab (1 * w) fun p => nth x (p % w * 1 + p / w)) = x := by
      symm
      refine eq_tab (by rw [hx, Nat.one_mul]) fun p hp => ?_
      have hp' : p < w := by omega
      rw [Nat.mod_eq_of_lt hp', Nat.div_eq_of_lt hp', Nat.mul_one, Nat.add_zero]
    rw [ht]
    rw [Nat.mul_one, Nat.one_mul]
    have e1 : en (1 * w) (mapChunks w fw x) = en w (fw x) := by
      rw [en_chunks lw (by rw [hx, Nat.one_mul]), sum_range_one]
      congr 2
      refine list_ext_nth (by rw [length_rowOf (k := 1) (by rw [hx, Nat.one_mul]) one_pos, hx]) fun j hj => ?_
      rw [length_rowOf (k := 1) (by rw [hx, Nat.one_mul]) one_pos] at hj
      rw [nth_rowOf hj, Nat.zero_mul, Nat.zero_add]
    rw [Nat.one_mul] at e1
    rw [e1]
    exact h2

end RustDHT
