import Verif.Proofs.Hartley
import Verif.Proofs.ArrayUtils
import Mathlib.Algebra.BigOperators.Group.Finset.Basic

/-! # The identity behind every mixed-radix step

Rows above the middle hold a reversed sub-sequence.  Rows `r` and `w - r` are combined by one twiddle. -/

namespace RustDHT

open Finset

/-- The `r`-th of `w` interleaved sub-sequences, reversed when `r` is above the middle. -/
def rowSeq (w h : ℕ) (f : ℕ → ℝ) (r m : ℕ) : ℝ := f (revRow w h r m * w + r)

/-- The combination of the row transforms `A` at column `k`, which the outer transform of length `w` is applied to. -/
noncomputable def mixB (w h : ℕ) (A : ℕ → ℤ → ℝ) (r : ℕ) (k : ℤ) : ℝ :=
  if r = 0 then A 0 k
  else if 2 * r < w then
    (cs (w * h) (r * k) - sn (w * h) (r * k)) / 2 * (A r k + A (w - r) (-k))
      - (cs (w * h) (r * k) + sn (w * h) (r * k)) / 2 * (A (w - r) k - A r (-k))
  else if 2 * r = w then cs (w * h) (r * k) * A r k + sn (w * h) (r * k) * A r (-k)
  else
    (cs (w * h) ((w - r : ℕ) * k) - sn (w * h) ((w - r : ℕ) * k)) / 2 * (A r k - A (w - r) (-k))
      + (cs (w * h) ((w - r : ℕ) * k) + sn (w * h) ((w - r : ℕ) * k)) / 2 * (A (w - r) k + A r (-k))

/-- Contribution of row `r` to the transform at `k + h * j`. -/
noncomputable def mixD (w h : ℕ) (f : ℕ → ℝ) (k j : ℤ) (r : ℕ) : ℝ :=
  cs (w * h) (r * (k + h * j)) * hart h (fun m => f (m * w + r)) k
    + sn (w * h) (r * (k + h * j)) * hart h (fun m => f (m * w + r)) (-k)

theorem cs_beta {w h : ℕ} (hh : 0 < h) (r k j : ℤ) :
    cs (w * h) (r * (k + h * j)) = cs (w * h) (r * k) * cs w (r * j) - sn (w * h) (r * k) * sn w (r * j) := by
  rw [show r * (k + h * j) = r * k + (r * j) * h by ring, cs_add, cs_mul hh, sn_mul hh]
theorem sn_beta {w h : ℕ} (hh : 0 < h) (r k j : ℤ) :
    sn (w * h) (r * (k + h * j)) = sn (w * h) (r * k) * cs w (r * j) + cs (w * h) (r * k) * sn w (r * j) := by
  rw [show r * (k + h * j) = r * k + (r * j) * h by ring, sn_add, cs_mul hh, sn_mul hh]

theorem hart_rowSeq_low {w h : ℕ} (f : ℕ → ℝ) {r : ℕ} (hr : r < w / 2 + 1) (k : ℤ) :
    hart h (rowSeq w h f r) k = hart h (fun m => f (m * w + r)) k :=
  hart_congr (fun i _ => by rw [rowSeq, revRow, if_pos hr]) k

theorem hart_rowSeq_high {w h : ℕ} (f : ℕ → ℝ) {r : ℕ} (hr : ¬ r < w / 2 + 1) (k : ℤ) :
    hart h (rowSeq w h f r) k
      = cs h k * hart h (fun m => f (m * w + r)) (-k) - sn h k * hart h (fun m => f (m * w + r)) k := by
  rw [← hart_reverse]
  exact hart_congr (fun i _ => by rw [rowSeq, revRow, if_neg hr]) k

theorem mix_zero (w h : ℕ) (f : ℕ → ℝ) (k j : ℤ) :
    mixB w h (fun r => hart h (rowSeq w h f r)) 0 k * ca w ((0 : ℕ) * j) = mixD w h f k j 0 := by
  rw [mixB, if_pos rfl, mixD, hart_rowSeq_low f (by omega)]
  simp

theorem mix_mid {w h : ℕ} (hh : 0 < h) (f : ℕ → ℝ) (k j : ℤ) {r : ℕ} (hr0 : 0 < r) (hr : 2 * r = w) :
    mixB w h (fun r => hart h (rowSeq w h f r)) r k * ca w (r * j) = mixD w h f k j r := by
  rw [mixB, if_neg (by omega), if_neg (by omega), if_pos hr, mixD, hart_rowSeq_low f (show r < w / 2 + 1 by omega),
    hart_rowSeq_low f (show r < w / 2 + 1 by omega), cs_beta hh, sn_beta hh, ca]
  have hs : sn w (r * j) = 0 := by
    rw [sn, show (2 : ℝ) * Real.pi * ((r * j : ℤ) : ℝ) / w = j * Real.pi by
      have : (r : ℝ) ≠ 0 := by positivity
      rw [← hr]; push_cast; field_simp]
    exact Real.sin_int_mul_pi _
  rw [hs]; ring

theorem mix_pair {w h : ℕ} (hh : 0 < h) (f : ℕ → ℝ) (k j : ℤ) {r : ℕ} (hr0 : 0 < r) (hr : 2 * r < w) :
    mixB w h (fun r => hart h (rowSeq w h f r)) r k * ca w (r * j)
      + mixB w h (fun r => hart h (rowSeq w h f r)) (w - r) k * ca w ((w - r : ℕ) * j)
      = mixD w h f k j r + mixD w h f k j (w - r) := by
  have hss : w - (w - r) = r := by omega
  have e1 : cs (w * h) ((w - r : ℕ) * (k + h * j))
      = cs h k * cs (w * h) (r * (k + h * j)) + sn h k * sn (w * h) (r * (k + h * j)) := by
    rw [cs_congr (b := k * w - r * (k + h * j)) ⟨j, by rw [Nat.cast_sub (by omega)]; push_cast; ring⟩, cs_sub]
    rw [show w * h = h * w from Nat.mul_comm w h, cs_mul (by omega), sn_mul (by omega)]
  have e2 : sn (w * h) ((w - r : ℕ) * (k + h * j))
      = sn h k * cs (w * h) (r * (k + h * j)) - cs h k * sn (w * h) (r * (k + h * j)) := by
    rw [sn_congr (b := k * w - r * (k + h * j)) ⟨j, by rw [Nat.cast_sub (by omega)]; push_cast; ring⟩, sn_sub]
    rw [show w * h = h * w from Nat.mul_comm w h, cs_mul (by omega), sn_mul (by omega)]
  have e3 : ca w ((w - r : ℕ) * j) = cs w (r * j) - sn w (r * j) := by
    rw [← ca_neg]
    exact ca_congr ⟨j, by rw [Nat.cast_sub (by omega)]; ring⟩
  rw [mixB, if_neg (by omega), if_pos hr, mixB, if_neg (by omega), if_neg (by omega), if_neg (by omega), hss,
    mixD, mixD, e1, e2, e3, ca]
  simp only [hart_rowSeq_low f (show r < w / 2 + 1 by omega), hart_rowSeq_high f (show ¬ w - r < w / 2 + 1 by omega),
    neg_neg, cs_neg, sn_neg, cs_beta hh, sn_beta hh]
  ring

/-- The outer transform of the combined rows is the transform of the whole sequence. -/
theorem mix_sum {w h : ℕ} (hw : 0 < w) (hh : 0 < h) (f : ℕ → ℝ) (k j : ℤ) :
    ∑ r ∈ range w, mixB w h (fun r => hart h (rowSeq w h f r)) r k * ca w (r * j)
      = hart (w * h) f (k + h * j) := by
  rw [hart_split hw, ← sub_eq_zero, ← sum_sub_distrib]
  change ∑ r ∈ range w, (_ - mixD w h f k j r) = 0
  have key : ∀ r, 0 < r → r < w →
      (mixB w h (fun r => hart h (rowSeq w h f r)) r k * ca w (r * j) - mixD w h f k j r)
      + (mixB w h (fun r => hart h (rowSeq w h f r)) (w - r) k * ca w ((w - r : ℕ) * j)
        - mixD w h f k j (w - r)) = 0 := by
    intro r hr0 hr
    rcases Nat.lt_trichotomy (2 * r) w with h1 | h1 | h1
    · have := mix_pair hh f k j hr0 h1
      linear_combination this
    · have h2 : w - r = r := by omega
      have := mix_mid hh f k j hr0 h1
      rw [h2]; linear_combination 2 * this
    · have := mix_pair (w := w) hh f k j (r := w - r) (by omega) (by omega)
      have h2 : w - (w - r) = r := by omega
      rw [h2] at this
      linear_combination this
  refine sum_involution (fun r _ => (w - r) % w) ?_ ?_ ?_ ?_
  · intro r hr
    have hr := mem_range.1 hr
    rcases Nat.eq_zero_or_pos r with rfl | hr0
    · rw [Nat.sub_zero, Nat.mod_self, mix_zero]; ring
    · rw [Nat.mod_eq_of_lt (by omega)]; exact key r hr0 hr
  · intro r hr hne
    have hr := mem_range.1 hr
    intro he
    apply hne
    rcases Nat.eq_zero_or_pos r with rfl | hr0
    · rw [mix_zero]; ring
    · rw [Nat.mod_eq_of_lt (by omega)] at he
      have := key r hr0 hr
      rw [he] at this
      linarith
  · intro r hr
    exact mem_range.2 (Nat.mod_lt _ hw)
  · intro r hr
    have hr := mem_range.1 hr
    rcases Nat.eq_zero_or_pos r with rfl | hr0
    · simp
    · rw [Nat.mod_eq_of_lt (show w - r < w by omega), Nat.mod_eq_of_lt (by omega)]; omega

/-- The same with negated row indices. -/
theorem mix_sum_neg {w h : ℕ} (hw : 0 < w) (hh : 0 < h) (f : ℕ → ℝ) (k j : ℤ) :
    ∑ r ∈ range w, mixB w h (fun r => hart h (rowSeq w h f r)) ((w - r) % w) k * ca w (r * j)
      = hart (w * h) f (k - h * j) := by
  have := mix_sum hw hh f k (-j)
  rw [show k + (h : ℤ) * -j = k - h * j by ring] at this
  rw [← this]
  refine sum_bij' (fun r _ => (w - r) % w) (fun r _ => (w - r) % w) ?_ ?_ ?_ ?_ ?_
  · intro r hr; exact mem_range.2 (Nat.mod_lt _ hw)
  · intro r hr; exact mem_range.2 (Nat.mod_lt _ hw)
  · intro r hr
    have hr := mem_range.1 hr
    rcases Nat.eq_zero_or_pos r with rfl | hr0
    · simp
    · rw [Nat.mod_eq_of_lt (show w - r < w by omega), Nat.mod_eq_of_lt (by omega)]; omega
  · intro r hr
    have hr := mem_range.1 hr
    rcases Nat.eq_zero_or_pos r with rfl | hr0
    · simp
    · rw [Nat.mod_eq_of_lt (show w - r < w by omega), Nat.mod_eq_of_lt (by omega)]; omega
  · intro r hr
    have hr := mem_range.1 hr
    congr 1
    apply ca_congr
    rcases Nat.eq_zero_or_pos r with rfl | hr0
    · simp
    · rw [Nat.mod_eq_of_lt (show w - r < w by omega), Nat.cast_sub (by omega)]
      exact ⟨j, by ring⟩

end RustDHT
