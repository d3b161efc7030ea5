import Verif.Spec.Root
import Verif.Proofs.ColumnsDht

/-! # Mixed-radix steps with an inexact `sqrt(1/2)` -/

namespace RustDHT

open Finset

theorem root_delta (ρ : ℝ) : ρ = ρ * √2 * √(1 / 2) := by
  have h : √2 * √(1 / 2 : ℝ) = 1 := by
    rw [← Real.sqrt_mul (by norm_num)]; norm_num
  rw [mul_assoc, h, mul_one]

theorem eighth_re' {n i : ℕ} (hn : 0 < n) (ρ : ℝ) :
    ((computeDftTwiddleInverse ℝ (i * 8 + n) (n * 8)).scale (realWithRoot ρ).sqrtHalfF32).re
      = ρ * √2 * ((cs n i - sn n i) / 2) := by
  rw [← eighth_re hn]
  change _ * ρ = ρ * √2 * (_ * √(1 / 2))
  conv_lhs => rw [root_delta ρ]
  ring

theorem eighth_im' {n i : ℕ} (hn : 0 < n) (ρ : ℝ) :
    ((computeDftTwiddleInverse ℝ (i * 8 + n) (n * 8)).scale (realWithRoot ρ).sqrtHalfF32).im
      = ρ * √2 * ((cs n i + sn n i) / 2) := by
  rw [← eighth_im hn]
  change _ * ρ = ρ * √2 * (_ * √(1 / 2))
  conv_lhs => rw [root_delta ρ]
  ring

/-- The DHT part, as a transform of length `h`. -/
theorem dhtPart_eq {w h : ℕ} {x : List ℝ} (hx : x.length = w * h) (hw : 0 < w) (hh : 0 < h) {k : ℕ} :
    dhtPart w x k = hart h (fun m => nth x (m * w)) k := by
  rw [dhtPart, ← sum_filter, hart]
  refine (sum_bij (fun m _ => m * w) ?_ ?_ ?_ ?_).symm
  · intro m hm
    rw [mem_filter, mem_range, hx, Nat.mul_comm w h]
    exact ⟨(Nat.mul_lt_mul_right hw).2 (mem_range.1 hm), Nat.dvd_mul_left _ _⟩
  · intro a _ b _ hab
    exact Nat.eq_of_mul_eq_mul_right hw hab
  · intro i hi
    rw [mem_filter, mem_range, hx] at hi
    obtain ⟨hi, m, rfl⟩ := hi
    exact ⟨m, mem_range.2 (Nat.lt_of_mul_lt_mul_left hi), Nat.mul_comm _ _⟩
  · intro m _
    have h1 : (w : ℝ) ≠ 0 := by positivity
    have h2 : (h : ℝ) ≠ 0 := by positivity
    rw [hx, ca, cs, sn, cas]
    have : 2 * Real.pi * ((m * w : ℕ) : ℝ) * k / ((w * h : ℕ) : ℝ) = 2 * Real.pi * (((m : ℤ) * (k : ℤ) : ℤ) : ℝ) / h := by
      push_cast; field_simp
    rw [this]
    rfl

/-- Row scales. -/
theorem sum_scaled {w : ℕ} (hw : 0 < w) (δ : ℝ) (g : ℕ → ℝ) (v : ℕ → ℝ) (hv : v 0 = 1) :
    ∑ r ∈ range w, (if r = 0 then 1 else δ) * g r * v r = δ * ∑ r ∈ range w, g r * v r + (1 - δ) * g 0 := by
  have : ∀ r ∈ range w, (if r = 0 then 1 else δ) * g r * v r = δ * (g r * v r) + (if r = 0 then (1 - δ) * g 0 else 0) := by
    intro r _
    split
    · next h => rw [h, hv]; ring
    · ring
  rw [sum_congr rfl this, sum_add_distrib, mul_sum]
  congr 1
  rw [sum_ite_eq' (range w) 0, if_pos (mem_range.2 hw)]

/-- The transform with scaled rows. -/
theorem mix_sum_root {w h : ℕ} (hw : 0 < w) (hh : 0 < h) (f : ℕ → ℝ) (δ : ℝ) (k j : ℤ) :
    ∑ r ∈ range w, (if r = 0 then 1 else δ) * mixB w h (fun r => hart h (rowSeq w h f r)) r k * ca w (r * j)
      = δ * hart (w * h) f (k + h * j) + (1 - δ) * hart h (fun m => f (m * w)) (k + h * j) := by
  rw [sum_scaled hw δ _ (fun r => ca w (r * j)) (by simp), mix_sum hw hh]
  congr 2
  rw [mixB, if_pos rfl, hart_rowSeq_low f (by omega)]
  exact hart_mod _ ⟨-j, by ring⟩

theorem mix_sum_neg_root {w h : ℕ} (hw : 0 < w) (hh : 0 < h) (f : ℕ → ℝ) (δ : ℝ) (k j : ℤ) :
    ∑ r ∈ range w, (if r = 0 then 1 else δ) * mixB w h (fun r => hart h (rowSeq w h f r)) ((w - r) % w) k * ca w (r * j)
      = δ * hart (w * h) f (k - h * j) + (1 - δ) * hart h (fun m => f (m * w)) (k - h * j) := by
  rw [sum_scaled hw δ _ (fun r => ca w (r * j)) (by simp), mix_sum_neg hw hh]
  congr 2
  rw [Nat.sub_zero, Nat.mod_self, mixB, if_pos rfl, hart_rowSeq_low f (by omega)]
  exact hart_mod _ ⟨j, by ring⟩

theorem rootDht_eq {w h : ℕ} {x : List ℝ} (hx : x.length = w * h) (δ : ℝ) : rootDht w δ x
    = tab (w * h) fun k => if k % h = 0 then hart (w * h) (nth x) k
      else δ * hart (w * h) (nth x) k + (1 - δ) * hart h (fun m => nth x (m * w)) k := by
  refine eq_tab (by simp [rootDht, hx]) fun k hk => ?_
  have hw : 0 < w := Nat.pos_of_mul_pos_right (by omega : 0 < w * h)
  have hh : 0 < h := Nat.pos_of_mul_pos_left (by omega : 0 < w * h)
  have hk' : k < x.length := by omega
  have : nth (rootDht w δ x) k
      = if k % (x.length / w) = 0 then dhtCoeff x k else δ * dhtCoeff x k + (1 - δ) * dhtPart w x k := by
    simp [rootDht, nth, hk']
  rw [this, hx, Nat.mul_div_cancel_left h hw, dhtCoeff_eq, hx, dhtPart_eq hx hw hh]

/-! ## MixedRadix -/

theorem mrVal_root (ρ : ℝ) (w h : ℕ) (buf : List ℝ) (r c : ℕ) (hn : 0 < w * h) :
    (letI := realWithRoot ρ; mrVal w h buf r c)
      = (if r = 0 ∨ c = 0 then 1 else ρ * √2) * mrVal w h buf r c := by
  have e1 : ∀ r c, (letI := realWithRoot ρ; (mrTw ℝ w h r c).re) = ρ * √2 * (mrTw ℝ w h r c).re := by
    intro r c
    refine (eighth_re' (i := r * c) hn ρ).trans ?_
    rw [mrTw, eighth_re hn]
  have e2 : ∀ r c, (letI := realWithRoot ρ; (mrTw ℝ w h r c).im) = ρ * √2 * (mrTw ℝ w h r c).im := by
    intro r c
    refine (eighth_im' (i := r * c) hn ρ).trans ?_
    rw [mrTw, eighth_im hn]
  unfold mrVal
  simp only [e1, e2]
  split
  · ring
  · split
    · split <;> ring
    · split
      · split <;> ring
      · split <;> ring

theorem mrFn_root (ρ : ℝ) {w h : ℕ} {fw fh : List ℝ → List ℝ} (hw : ∀ x, x.length = w → fw x = dht x)
    (hh : ∀ x, x.length = h → fh x = dht x) {x : List ℝ} (hx : x.length = w * h) :
    (letI := realWithRoot ρ; mrFn w h fw fh x) = rootDht w (ρ * √2) x := by
  unfold mrFn mrStep1
  simp only
  rw [mapChunks_congr hh, mapChunks_congr hw, rootDht_eq hx]
  apply tab_congr
  intro p hp
  have hc := mod_lt_of_lt_mul hp
  have hj := div_lt_of_lt_mul' hp
  obtain ⟨c, hce⟩ : ∃ c, p % h = c := ⟨_, rfl⟩
  obtain ⟨j, hje⟩ : ∃ j, p / h = j := ⟨_, rfl⟩
  have hpe : p = j * h + c := by rw [← hce, ← hje, div_mod_eq]
  rw [hce] at hc; rw [hje] at hj
  have hw0 : 0 < w := by omega
  have hh0 : 0 < h := by omega
  have hn : 0 < w * h := by omega
  rw [hce, hje, nth_tab (pos_lt hc hj), div_of_lt hj, mod_of_lt hj]
  set A : ℕ → ℤ → ℝ := fun r => hart h (rowSeq w h (nth x) r) with hA
  set buf := mapChunks h dht (tab (w * h) fun p => nth x (revRow w h (p / h) (p % h) * w + p / h)) with hbuf
  have hfwd : ∀ r c, r < w → c < h → nth buf (r * h + c) = A r c := fun r c hr hc => nth_rows x hr hc
  have hrev : ∀ r c, r < w → 0 < c → c < h → nth buf (r * h + (h - c)) = A r (-c) :=
    fun r c hr hc0 hc => nth_rows_rev x hr hc0 hc
  have hval : ∀ r c, (letI := realWithRoot ρ; mrVal w h buf r c)
      = (if r = 0 ∨ c = 0 then 1 else ρ * √2) * mrVal w h buf r c := fun r c => mrVal_root ρ w h buf r c hn
  simp only [hval]
  have hcol : ∀ {i}, i < w → nth (mapChunks w dht (tab (h * w) fun p =>
      nth (tab (w * h) fun p => (if p / h = 0 ∨ p % h = 0 then 1 else ρ * √2) * mrVal w h buf (p / h) (p % h))
        (p % w * h + p / w))) (c * w + i)
      = ∑ r ∈ range w, (if r = 0 ∨ c = 0 then 1 else ρ * √2) * mrVal w h buf r c * ca w (r * i) := by
    intro i hi
    rw [nth_mapChunks (fun x hx => by rw [length_dht, hx]) hi (by
      rw [length_tab]; exact Nat.mul_le_mul_right w hc)]
    have hl : ((tab (h * w) fun p =>
        nth (tab (w * h) fun p => (if p / h = 0 ∨ p % h = 0 then 1 else ρ * √2) * mrVal w h buf (p / h) (p % h))
        (p % w * h + p / w)).drop (c * w)).length ≥ w := by
      rw [List.length_drop, length_tab]
      have := Nat.mul_le_mul_right w (show c + 1 ≤ h from hc)
      rw [Nat.add_mul] at this; omega
    rw [nth_dht (List.length_take_of_le hl) hi, hart]
    refine sum_congr rfl fun r hr => ?_
    have hr := mem_range.1 hr
    rw [nth_take hr, nth_drop, nth_tab (pos_lt hc hr), div_of_lt hr, mod_of_lt hr, nth_tab (pos_lt hr hc), div_of_lt hc,
      mod_of_lt hc]
  by_cases h0 : c = 0
  · subst h0
    rw [if_pos rfl, if_pos (by omega), hcol hj]
    have : ∀ r ∈ range w, (if r = 0 ∨ (0 : ℕ) = 0 then 1 else ρ * √2) * mrVal w h buf r 0 * ca w (r * j)
        = mixB w h A r (0 : ℕ) * ca w (r * j) := by
      intro r hr
      rw [mrVal_fwd hfwd hrev (mem_range.1 hr) hc (by omega), if_pos (Or.inr rfl), one_mul]
    rw [sum_congr rfl this, hA, mix_sum hw0 hh0]
    congr 1; rw [hpe]; push_cast; ring
  rw [if_neg h0]
  have hif : ∀ r, (if r = 0 ∨ c = 0 then 1 else ρ * √2) = (if r = 0 then 1 else ρ * √2) := by
    intro r; simp [h0]
  by_cases h1 : c < (h + 1) / 2
  · rw [if_pos h1, hcol hj]
    have : ∀ r ∈ range w, (if r = 0 ∨ c = 0 then 1 else ρ * √2) * mrVal w h buf r c * ca w (r * j)
        = (if r = 0 then 1 else ρ * √2) * mixB w h A r c * ca w (r * j) := by
      intro r hr
      rw [mrVal_fwd hfwd hrev (mem_range.1 hr) hc (by omega), hif]
    rw [sum_congr rfl this, hA, mix_sum_root hw0 hh0]
    have e : (c : ℤ) + h * j = (p : ℕ) := by rw [hpe]; push_cast; ring
    rw [e]
  · rw [if_neg h1, hcol (by omega)]
    have : ∀ r ∈ range w, (if r = 0 ∨ c = 0 then 1 else ρ * √2) * mrVal w h buf r c * ca w (r * (w - 1 - j : ℕ))
        = (if r = 0 then 1 else ρ * √2) * mixB w h A ((w - r) % w) (c - h) * ca w (r * (w - 1 - j : ℕ)) := by
      intro r hr
      rw [mrVal_rev hfwd hrev (mem_range.1 hr) hc (by omega) (by omega), hif]
    rw [sum_congr rfl this, hA, mix_sum_neg_root hw0 hh0]
    have e : (c : ℤ) - h - h * ((w - 1 - j : ℕ) : ℤ) - (p : ℕ) = -(w * h) := by
      rw [hpe, Nat.sub_sub, Nat.cast_sub (by omega)]
      push_cast; ring
    congr 2
    · apply hart_mod
      rw [e]
      exact ⟨-1, by push_cast; ring⟩
    · apply hart_mod
      rw [e]
      exact ⟨-w, by ring⟩

/-! ## MixedRadix3xn, 5xn and 6xn -/

/-- As `KernelDht`, with the rows but the first scaled. -/
def KernelRoot (δ : ℝ) (k h : ℕ) (kernel : List (Cx ℝ) → List ℝ → List ℝ → Res (List ℝ × List ℝ)) (tw : List (Cx ℝ))
    (c : ℕ) : Prop :=
  ∀ A : ℕ → ℤ → ℝ, runK kernel tw (tab k fun r => A r c) (tab k fun r => A r (-c))
    = (dht (tab k fun r => (if r = 0 then 1 else δ) * mixB k h A r c),
       (dht (tab k fun r => (if r = 0 then 1 else δ) * mixB k h A ((k - r) % k) (-c))).reverse)

theorem mrnFn_root (δ : ℝ) {k h : ℕ} {f : List ℝ → List ℝ} {col0 : List ℝ → Res (List ℝ)}
    {kernel : List (Cx ℝ) → List ℝ → List ℝ → Res (List ℝ × List ℝ)} {g : ℕ → List (Cx ℝ)}
    (hf : ∀ x, x.length = h → f x = dht x) (hk : 0 < k) (ht0 : Total k col0)
    (h0 : ∀ x : List ℝ, x.length = k → run col0 x = dht x)
    (hkt : ∀ c, KernelTotal k kernel (g c))
    (hker : ∀ c, 0 < c → 2 * c ≤ h → KernelRoot δ k h kernel (g c) c)
    {x : List ℝ} (hx : x.length = k * h) :
    mrnFn k h f (applyColumns k h col0 kernel ((List.range' 1 (h / 2)).map g)) x = rootDht k δ x := by
  rcases Nat.eq_zero_or_pos h with rfl | hh
  · rw [Nat.mul_zero] at hx
    obtain rfl : x = [] := List.length_eq_zero_iff.1 hx
    simp [mrnFn, tab, mapChunks_zero, applyColumns, run, rootDht, panic]
  have htot := applyColumns_total hh ht0 (twChunks := (List.range' 1 (h / 2)).map g) (by simp)
    (mem_map_range (P := KernelTotal k kernel) hkt)
  unfold mrnFn
  rw [mapChunks_congr hf, rootDht_eq hx]
  have hlen : (mapChunks h dht (tab (k * h) fun p => nth x (revRow k h (p / h) (p % h) * k + p / h))).length
      = k * h := by
    rw [length_mapChunks hh (fun x hx => by rw [length_dht, hx]), length_tab]
  refine eq_tab (htot.length hlen) fun p hp => ?_
  rw [nth_run_applyColumns hh ht0 (by simp) (mem_map_range (P := KernelTotal k kernel) hkt) hlen hp]
  have hc := mod_lt_of_lt_mul hp
  have hj := div_lt_of_lt_mul' hp
  obtain ⟨c, hce⟩ : ∃ c, p % h = c := ⟨_, rfl⟩
  obtain ⟨j, hje⟩ : ∃ j, p / h = j := ⟨_, rfl⟩
  have hpe : p = j * h + c := by rw [← hce, ← hje, div_mod_eq]
  rw [hce] at hc; rw [hje] at hj
  rw [hce, hje]
  set A : ℕ → ℤ → ℝ := fun r => hart h (rowSeq k h (nth x) r) with hA
  set buf := mapChunks h dht (tab (k * h) fun p => nth x (revRow k h (p / h) (p % h) * k + p / h)) with hbuf
  have hcol : ∀ {c}, c < h → col k h buf c = tab k fun r => A r c := by
    intro c hc
    exact tab_congr fun r hr => nth_rows x hr hc
  have hcolr : ∀ {c}, 0 < c → c < h → col k h buf (h - c) = tab k fun r => A r (-c) := by
    intro c hc0 hc
    exact tab_congr fun r hr => nth_rows_rev x hr hc0 hc
  unfold columnVal
  by_cases h1 : c = 0
  · rw [if_pos h1, if_pos h1, h0 _ length_col, hcol hh, dht_tab, nth_tab hj]
    have := mix_sum hk hh (nth x) 0 j
    rw [hpe, h1]
    push_cast
    rw [show (j : ℤ) * h + 0 = 0 + h * j by ring, ← this, hart]
    refine sum_congr rfl fun r hr => ?_
    rw [mixB_col_zero k h _ (mem_range.1 hr)]
  · rw [if_neg h1, if_neg h1]
    by_cases h2 : 2 * c < h
    · rw [if_pos h2, chunk_get (by omega) (by omega), hcol hc, hcolr (by omega) hc,
        hker c (by omega) (by omega), dht_tab, nth_tab hj, hart, hA, mix_sum_root hk hh]
      have e : (c : ℤ) + h * j = (p : ℕ) := by rw [hpe]; push_cast; ring
      rw [e]
    · obtain ⟨e, he⟩ : ∃ e, h - c = e := ⟨_, rfl⟩
      have hce' : c = h - e := by omega
      rw [if_neg h2, he, chunk_get (by omega) (by omega), hcol (by omega), hce', hcolr (by omega) (by omega),
        hker e (by omega) (by omega)]
      rw [nth_reverse (by simpa using hj), length_dht, length_tab, dht_tab, nth_tab (by omega), hart, hA,
        mix_sum_neg_root hk hh]
      have h3 : ((h - e : ℕ) : ℤ) = h - e := by omega
      have h4 : ((k - 1 - j : ℕ) : ℤ) = k - 1 - j := by omega
      have e5 : -(e : ℤ) - h * ((k - 1 - j : ℕ) : ℤ) - (p : ℕ) = -(k * h) := by
        rw [hpe, hce', h4, Nat.cast_add, h3]
        push_cast; ring
      congr 2
      · apply hart_mod
        rw [e5]
        exact ⟨-1, by push_cast; ring⟩
      · apply hart_mod
        rw [e5]
        exact ⟨-k, by ring⟩

section
variable (ρ : ℝ)

theorem kernel3_root {h c : ℕ} (hh : 0 < h) :
    letI := realWithRoot ρ
    KernelRoot (ρ * √2) 3 h mr3Kernel
      [(computeDftTwiddleInverse ℝ (c * 1 * 8 + 3 * h) (3 * h * 8)).scale FftNum.sqrtHalfF32] c := by
  intro A
  have key : ∀ (t : Cx ℝ) (a0 a1 a2 b0 b1 b2 : ℝ), (letI := realWithRoot ρ; runK mr3Kernel [t] [a0, a1, a2] [b0, b1, b2])
      = (bflyFn (@contiguous3 ℝ _ _ _ exactReal) [a0, t.re * (a1 + b2) - t.im * (a2 - b1), t.re * (a2 - b1) + t.im * (a1 + b2)],
         (bflyFn (@contiguous3 ℝ _ _ _ exactReal) [b0, t.re * (a2 + b1) - t.im * (a1 - b2), t.re * (a1 - b2) + t.im * (a2 + b1)]).reverse) :=
    fun _ _ _ _ _ _ _ => rfl
  change runK mr3Kernel _ [A 0 c, A 1 c, A 2 c] [A 0 (-c), A 1 (-c), A 2 (-c)] = _
  refine (key _ _ _ _ _ _ _).trans ?_
  rw [bfly3_dht rfl, bfly3_dht rfl]
  have e1 := eighth_re' (i := c * 1) (show 0 < 3 * h by omega) ρ
  have e2 := eighth_im' (i := c * 1) (show 0 < 3 * h by omega) ρ
  rw [show ((@computeDftTwiddleInverse ℝ (realWithRoot ρ) (c * 1 * 8 + 3 * h) (3 * h * 8)).scale (@FftNum.sqrtHalfF32 ℝ (realWithRoot ρ))).re = _ from e1,
    show ((@computeDftTwiddleInverse ℝ (realWithRoot ρ) (c * 1 * 8 + 3 * h) (3 * h * 8)).scale (@FftNum.sqrtHalfF32 ℝ (realWithRoot ρ))).im = _ from e2]
  change _ = (dht [1 * mixB 3 h A 0 c, ρ * √2 * mixB 3 h A 1 c, ρ * √2 * mixB 3 h A 2 c],
    (dht [1 * mixB 3 h A 0 (-c), ρ * √2 * mixB 3 h A 2 (-c), ρ * √2 * mixB 3 h A 1 (-c)]).reverse)
  generalize ρ * √2 = δ
  norm_num [mixB, cs_neg, sn_neg, -neg_neg]
  constructor
  · congr 1
    simp only [List.cons.injEq, true_and, and_true]
    constructor <;> ring
  · congr 1
    simp only [List.cons.injEq, true_and, and_true]
    constructor <;> ring

theorem kernel5_root {h c : ℕ} (hh : 0 < h) :
    letI := realWithRoot ρ
    KernelRoot (ρ * √2) 5 h mr5Kernel
      [(computeDftTwiddleInverse ℝ (c * 1 * 8 + 5 * h) (5 * h * 8)).scale FftNum.sqrtHalfF32,
       (computeDftTwiddleInverse ℝ (c * 2 * 8 + 5 * h) (5 * h * 8)).scale FftNum.sqrtHalfF32] c := by
  intro A
  have key : ∀ (t u : Cx ℝ) (a0 a1 a2 a3 a4 b0 b1 b2 b3 b4 : ℝ),
      (letI := realWithRoot ρ; runK mr5Kernel [t, u] [a0, a1, a2, a3, a4] [b0, b1, b2, b3, b4])
      = (bflyFn (@contiguous5 ℝ _ _ _ exactReal) [a0, t.re * (a1 + b4) - t.im * (a4 - b1), u.re * (a2 + b3) - u.im * (a3 - b2),
           u.re * (a3 - b2) + u.im * (a2 + b3), t.re * (a4 - b1) + t.im * (a1 + b4)],
         (bflyFn (@contiguous5 ℝ _ _ _ exactReal) [b0, t.re * (a4 + b1) - t.im * (a1 - b4), u.re * (a3 + b2) - u.im * (a2 - b3),
           u.re * (a2 - b3) + u.im * (a3 + b2), t.re * (a1 - b4) + t.im * (a4 + b1)]).reverse) :=
    fun _ _ _ _ _ _ _ _ _ _ _ _ => rfl
  change runK mr5Kernel _ [A 0 c, A 1 c, A 2 c, A 3 c, A 4 c] [A 0 (-c), A 1 (-c), A 2 (-c), A 3 (-c), A 4 (-c)] = _
  refine (key _ _ _ _ _ _ _ _ _ _ _ _).trans ?_
  rw [bfly5_dht rfl, bfly5_dht rfl]
  have e1 := fun i => eighth_re' (i := i) (show 0 < 5 * h by omega) ρ
  have e2 := fun i => eighth_im' (i := i) (show 0 < 5 * h by omega) ρ
  have e3 : ∀ i, ((@computeDftTwiddleInverse ℝ (realWithRoot ρ) (i * 8 + 5 * h) (5 * h * 8)).scale (@FftNum.sqrtHalfF32 ℝ (realWithRoot ρ))).re = _ := e1
  have e4 : ∀ i, ((@computeDftTwiddleInverse ℝ (realWithRoot ρ) (i * 8 + 5 * h) (5 * h * 8)).scale (@FftNum.sqrtHalfF32 ℝ (realWithRoot ρ))).im = _ := e2
  simp only [e3, e4]
  change _ = (dht [1 * mixB 5 h A 0 c, ρ * √2 * mixB 5 h A 1 c, ρ * √2 * mixB 5 h A 2 c, ρ * √2 * mixB 5 h A 3 c,
      ρ * √2 * mixB 5 h A 4 c],
    (dht [1 * mixB 5 h A 0 (-c), ρ * √2 * mixB 5 h A 4 (-c), ρ * √2 * mixB 5 h A 3 (-c), ρ * √2 * mixB 5 h A 2 (-c),
      ρ * √2 * mixB 5 h A 1 (-c)]).reverse)
  generalize ρ * √2 = δ
  norm_num [mixB, cs_neg, sn_neg, mul_comm (c : ℤ)]
  constructor
  · congr 1
    simp only [List.cons.injEq, true_and, and_true]
    refine ⟨?_, ?_, ?_, ?_⟩ <;> ring
  · congr 1
    simp only [List.cons.injEq, true_and, and_true]
    refine ⟨?_, ?_, ?_, ?_⟩ <;> ring

theorem kernel6_root {h c : ℕ} (hh : 0 < h) :
    letI := realWithRoot ρ
    KernelRoot (ρ * √2) 6 h mr6Kernel
      [(computeDftTwiddleInverse ℝ (1 * c * 8 + 6 * h) (6 * h * 8)).scale FftNum.sqrtHalfF32,
       (computeDftTwiddleInverse ℝ (2 * c * 8 + 6 * h) (6 * h * 8)).scale FftNum.sqrtHalfF32,
       (computeDftTwiddleInverse ℝ (3 * c * 8 + 6 * h) (6 * h * 8)).scale FftNum.sqrtHalfF32] c := by
  intro A
  have key : ∀ (t u v : Cx ℝ) (a0 a1 a2 a3 a4 a5 b0 b1 b2 b3 b4 b5 : ℝ),
      (letI := realWithRoot ρ; runK mr6Kernel [t, u, v] [a0, a1, a2, a3, a4, a5] [b0, b1, b2, b3, b4, b5])
      = (bflyFn (@contiguous6 ℝ _ _ _ _ exactReal) [a0, t.re * (a1 + b5) - t.im * (a5 - b1), u.re * (a2 + b4) - u.im * (a4 - b2),
           v.re * (a3 - b3) + v.im * (a3 + b3),
           u.re * (a4 - b2) + u.im * (a2 + b4), t.re * (a5 - b1) + t.im * (a1 + b5)],
         (bflyFn (@contiguous6 ℝ _ _ _ _ exactReal) [b0, t.re * (a5 + b1) - t.im * (a1 - b5), u.re * (a4 + b2) - u.im * (a2 - b4),
           v.re * (a3 + b3) - v.im * (a3 - b3),
           u.re * (a2 - b4) + u.im * (a4 + b2), t.re * (a1 - b5) + t.im * (a5 + b1)]).reverse) :=
    fun _ _ _ _ _ _ _ _ _ _ _ _ _ _ _ => rfl
  change runK mr6Kernel _ [A 0 c, A 1 c, A 2 c, A 3 c, A 4 c, A 5 c]
    [A 0 (-c), A 1 (-c), A 2 (-c), A 3 (-c), A 4 (-c), A 5 (-c)] = _
  refine (key _ _ _ _ _ _ _ _ _ _ _ _ _ _ _).trans ?_
  rw [bfly6_dht rfl, bfly6_dht rfl]
  have e1 := fun i => eighth_re' (i := i) (show 0 < 6 * h by omega) ρ
  have e2 := fun i => eighth_im' (i := i) (show 0 < 6 * h by omega) ρ
  have e3 : ∀ i, ((@computeDftTwiddleInverse ℝ (realWithRoot ρ) (i * 8 + 6 * h) (6 * h * 8)).scale (@FftNum.sqrtHalfF32 ℝ (realWithRoot ρ))).re = _ := e1
  have e4 : ∀ i, ((@computeDftTwiddleInverse ℝ (realWithRoot ρ) (i * 8 + 6 * h) (6 * h * 8)).scale (@FftNum.sqrtHalfF32 ℝ (realWithRoot ρ))).im = _ := e2
  simp only [e3, e4]
  change _ = (dht [1 * mixB 6 h A 0 c, ρ * √2 * mixB 6 h A 1 c, ρ * √2 * mixB 6 h A 2 c, ρ * √2 * mixB 6 h A 3 c,
      ρ * √2 * mixB 6 h A 4 c, ρ * √2 * mixB 6 h A 5 c],
    (dht [1 * mixB 6 h A 0 (-c), ρ * √2 * mixB 6 h A 5 (-c), ρ * √2 * mixB 6 h A 4 (-c), ρ * √2 * mixB 6 h A 3 (-c),
      ρ * √2 * mixB 6 h A 2 (-c), ρ * √2 * mixB 6 h A 1 (-c)]).reverse)
  generalize ρ * √2 = δ
  norm_num [mixB, cs_neg, sn_neg]
  constructor
  · congr 1
    simp only [List.cons.injEq, true_and, and_true]
    refine ⟨?_, ?_, ?_, ?_, ?_⟩ <;> ring
  · congr 1
    simp only [List.cons.injEq, true_and, and_true]
    refine ⟨?_, ?_, ?_, ?_, ?_⟩ <;> ring

theorem mr3Fn_root {h : ℕ} {x : List ℝ} (hx : x.length = 3 * h) :
    (letI := realWithRoot ρ; mrnFn 3 h dht (mr3Apply ℝ h) x) = rootDht 3 (ρ * √2) x :=
  letI := realWithRoot ρ
  mrnFn_root _ (fun _ _ => rfl) (by omega) (total_of_performs performs3) (fun _ => bfly3_dht)
    (fun _ => mr3Kernel_total _) (fun c h0 h1 => kernel3_root ρ (by omega)) hx

theorem mr5Fn_root {h : ℕ} {x : List ℝ} (hx : x.length = 5 * h) :
    (letI := realWithRoot ρ; mrnFn 5 h dht (mr5Apply ℝ h) x) = rootDht 5 (ρ * √2) x :=
  letI := realWithRoot ρ
  mrnFn_root _ (fun _ _ => rfl) (by omega) (total_of_performs performs5) (fun _ => bfly5_dht)
    (fun _ => mr5Kernel_total _ _) (fun c h0 h1 => kernel5_root ρ (by omega)) hx

theorem mr6Fn_root {h : ℕ} {x : List ℝ} (hx : x.length = 6 * h) :
    (letI := realWithRoot ρ; mrnFn 6 h dht (mr6Apply ℝ h) x) = rootDht 6 (ρ * √2) x :=
  letI := realWithRoot ρ
  mrnFn_root _ (fun _ _ => rfl) (by omega) (total_of_performs performs6) (fun _ => bfly6_dht)
    (fun _ => mr6Kernel_total _ _ _) (fun c h0 h1 => kernel6_root ρ (by omega)) hx

end

end RustDHT
