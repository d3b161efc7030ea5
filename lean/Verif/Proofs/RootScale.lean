import Verif.Proofs.RootError
import Verif.Proofs.OnlyIf
import Verif.Spec.RootFree

/-! # Mixed-radix steps with another constant: what they do to norms -/

namespace RustDHT

open Finset

/-- The sum of the squares. -/
noncomputable def en (n : ℕ) (x : List ℝ) : ℝ := ∑ i ∈ range n, nth x i ^ 2

theorem Scales.en {n : ℕ} {a : ℝ} {E : List ℝ → List ℝ} (s : Scales n a E) {x : List ℝ} (hx : x.length = n) :
    en n (E x) = a ^ 2 * en n x := by
  have := congrArg (· ^ 2) (s.norm x hx)
  simp only [mul_pow, nrm_sq] at this
  exact this

theorem en_dht {n : ℕ} {x : List ℝ} (hx : x.length = n) : en n (dht x) = n * en n x := by
  rw [(scales_dht n).en hx, Real.sq_sqrt (Nat.cast_nonneg _)]

/-- Row `r`. -/
def rowOf (h r : ℕ) (x : List ℝ) : List ℝ := (x.drop (r * h)).take h

theorem length_rowOf {k h r : ℕ} {x : List ℝ} (hx : x.length = k * h) (hr : r < k) : (rowOf h r x).length = h := by
  have := Nat.mul_le_mul_right h (show r + 1 ≤ k from hr)
  rw [Nat.add_mul] at this
  rw [rowOf, List.length_take, List.length_drop, hx]
  omega

theorem nth_rowOf {h r c : ℕ} (hc : c < h) (x : List ℝ) : nth (rowOf h r x) c = nth x (r * h + c) := by
  rw [rowOf, nth_take hc, nth_drop]

theorem nth_chunkRow {k h r c : ℕ} {f : List ℝ → List ℝ} (hl : ∀ x, x.length = h → (f x).length = h) {x : List ℝ} (hx : x.length = k * h)
    (hr : r < k) (hc : c < h) : nth (mapChunks h f x) (r * h + c) = nth (f (rowOf h r x)) c :=
  nth_mapChunks hl hc (by rw [hx]; exact Nat.mul_le_mul_right h hr)

theorem en_rows (k h : ℕ) (x : List ℝ) : en (k * h) x = ∑ r ∈ range k, en h (rowOf h r x) := by
  rw [en, sum_range_mul]
  exact sum_congr rfl fun r _ => sum_congr rfl fun c hc => by rw [nth_rowOf (mem_range.1 hc)]

theorem en_chunks {k h : ℕ} {f : List ℝ → List ℝ} (hl : ∀ x, x.length = h → (f x).length = h) {x : List ℝ} (hx : x.length = k * h) :
    en (k * h) (mapChunks h f x) = ∑ r ∈ range k, en h (f (rowOf h r x)) := by
  rw [en, sum_range_mul]
  exact sum_congr rfl fun r hr => sum_congr rfl fun c hc => by rw [nth_chunkRow hl hx (mem_range.1 hr) (mem_range.1 hc)]

/-- All but the first row and the first column multiplied by `δ`. -/
noncomputable def scl (w h : ℕ) (δ : ℝ) (z : List ℝ) : List ℝ :=
  tab (w * h) fun p => (if p / h = 0 ∨ p % h = 0 then 1 else δ) * nth z p

theorem nth_scl {w h r c : ℕ} (δ : ℝ) (z : List ℝ) (hr : r < w) (hc : c < h) :
    nth (scl w h δ z) (r * h + c) = (if r = 0 ∨ c = 0 then 1 else δ) * nth z (r * h + c) := by
  rw [scl, nth_tab (pos_lt hr hc), div_of_lt hc, mod_of_lt hc]

theorem mrVal_scl {w h r c : ℕ} (δ : ℝ) (z : List ℝ) (hr : r < w) (hc : c < h) :
    mrVal w h (scl w h δ z) r c = (if r = 0 ∨ c = 0 then 1 else δ) * mrVal w h z r c := by
  by_cases h0 : r = 0 ∨ c = 0
  · rw [if_pos h0, mrVal, mrVal, if_pos h0, if_pos h0]
    dsimp only
    rw [nth_scl δ z hr hc, if_pos h0]
  · have G : ∀ r' c', 0 < r' → r' < w → 0 < c' → c' < h → nth (scl w h δ z) (r' * h + c') = δ * nth z (r' * h + c') := by
      intro r' c' h1 h2 h3 h4
      rw [nth_scl δ z h2 h4, if_neg (by omega)]
    rw [if_neg h0, mrVal, mrVal, if_neg h0, if_neg h0]
    dsimp only
    split_ifs <;> simp (disch := omega) only [G] <;> ring

theorem twist_root (ρ : ℝ) {w h : ℕ} (z : List ℝ) :
    (letI := realWithRoot ρ; mrTwist w h ℝ z) = mrTwist w h ℝ (scl w h (ρ * √2) z) := by
  refine tab_congr fun p hp => ?_
  have hn : 0 < w * h := by omega
  rw [mrVal_scl _ _ (div_lt_of_lt_mul' hp) (mod_lt_of_lt_mul hp)]
  exact mrVal_root ρ w h z _ _ hn

theorem rows_onto {w h : ℕ} (hh : 0 < h) : Onto (w * h) (fun x => mapChunks h dht (mrStep1 w h x)) :=
  (onto_chunks (onto_dht hh) (fun x hx => by rw [length_dht, hx]) hh).comp (step1_onto hh)

theorem delta_root (δ : ℝ) : δ * √(1 / 2) * √2 = δ := by
  rw [mul_assoc, ← Real.sqrt_mul (by norm_num)]
  norm_num

/-- A mixed-radix step with another constant is the right one on scaled numbers. -/
theorem root_scaled {w h : ℕ} {δ : ℝ} (hh : 0 < h) {x : List ℝ} (hx : x.length = w * h) :
    ∃ x1, x1.length = w * h ∧ mapChunks h dht (mrStep1 w h x1) = scl w h δ (mapChunks h dht (mrStep1 w h x)) ∧ rootDht w δ x = dht x1 := by
  obtain ⟨x1, h1, e1⟩ := rows_onto hh (scl w h δ (mapChunks h dht (mrStep1 w h x))) (length_tab _ _)
  have e1 : mapChunks h dht (mrStep1 w h x1) = scl w h δ (mapChunks h dht (mrStep1 w h x)) := e1
  refine ⟨x1, h1, e1, ?_⟩
  have e2 := mrFn_root (δ * √(1 / 2)) (fw := dht) (fh := dht) (fun _ _ => rfl) (fun _ _ => rfl) hx
  rw [delta_root] at e2
  rw [← e2, ← mrFn_dht (fw := dht) (fh := dht) (fun _ _ => rfl) (fun _ _ => rfl) h1]
  have e3 := twist_root (δ * √(1 / 2)) (w := w) (h := h) (mapChunks h dht (mrStep1 w h x))
  rw [delta_root, ← e1] at e3
  exact congrArg (mrTail w h dht) e3

/-- The same for the step as a function of the transformed rows. -/
theorem stage_scaled {w h : ℕ} {δ : ℝ} (hh : 0 < h) {L : List ℝ → List ℝ}
    (hL : ∀ x, x.length = w * h → L (mapChunks h dht (mrStep1 w h x)) = rootDht w δ x) {z : List ℝ} (hz : z.length = w * h) :
    ∃ x1, x1.length = w * h ∧ mapChunks h dht (mrStep1 w h x1) = scl w h δ z ∧ L z = dht x1 := by
  obtain ⟨x0, h0, rfl⟩ := rows_onto hh z hz
  obtain ⟨x1, h1, e1, e2⟩ := root_scaled (δ := δ) hh h0
  exact ⟨x1, h1, e1, (hL x0 h0).trans e2⟩

theorem length_step1 (w h : ℕ) (x : List ℝ) : (mrStep1 w h x).length = w * h := length_tab _ _

theorem en_step1 {w h : ℕ} (hh : 0 < h) {x : List ℝ} (hx : x.length = w * h) : en (w * h) (mrStep1 w h x) = en (w * h) x := by
  have s1 : Scales (w * h) 1 (mrStep1 w h) :=
    scales_perm (fun p hp => revRow_lt hh hp) (fun p hp p' hp' e => revRow_inj hh hp hp' e)
  rw [s1.en hx, one_pow, one_mul]

theorem stage_en {w h : ℕ} {δ : ℝ} (hh : 0 < h) {L : List ℝ → List ℝ}
    (hL : ∀ x, x.length = w * h → L (mapChunks h dht (mrStep1 w h x)) = rootDht w δ x) {z : List ℝ} (hz : z.length = w * h) :
    en (w * h) (L z) = w * en (w * h) (scl w h δ z) := by
  obtain ⟨x1, h1, e1, e2⟩ := stage_scaled hh hL hz
  rw [e2, ← e1, en_dht h1, (scales_chunks (scales_dht h) hh (Real.sqrt_nonneg _)).en (length_step1 w h x1), en_step1 hh h1,
    Real.sq_sqrt (Nat.cast_nonneg _)]
  push_cast
  ring

/-- If the step makes the transform, the rows are transformed rightly, and the constant is right if it is used. -/
theorem stage_only {w h : ℕ} {δ : ℝ} (hw : 0 < w) (hh : 0 < h) {f L : List ℝ → List ℝ} (hl : ∀ x, x.length = h → (f x).length = h)
    (hL : ∀ x, x.length = w * h → L (mapChunks h dht (mrStep1 w h x)) = rootDht w δ x)
    (hF : ∀ x, x.length = w * h → L (mapChunks h f (mrStep1 w h x)) = dht x) : IsDht h f ∧ (w ≤ 1 ∨ h ≤ 1 ∨ δ = 1) := by
  have ld : ∀ x : List ℝ, x.length = h → (dht x).length = h := fun x hx => by rw [length_dht, hx]
  have key : ∀ y, y.length = w * h → scl w h δ (mapChunks h f y) = mapChunks h dht y := by
    intro y hy
    obtain ⟨x, hx, rfl⟩ := step1_onto (k := w) hh y hy
    obtain ⟨x1, h1, e1, e2⟩ := stage_scaled hh hL (z := mapChunks h f (mrStep1 w h x))
      (by rw [length_mapChunks hh hl, length_step1])
    have e3 := dht_injective (by rw [h1, hx]) (e2.symm.trans (hF x hx))
    rw [e3] at e1
    exact e1.symm
  have entry : ∀ y, y.length = w * h → ∀ r < w, ∀ c < h,
      (if r = 0 ∨ c = 0 then 1 else δ) * nth (f (rowOf h r y)) c = nth (dht (rowOf h r y)) c := by
    intro y hy r hr c hc
    have e := congrArg (nth · (r * h + c)) (key y hy)
    simp only [nth_scl δ _ hr hc, nth_chunkRow hl hy hr hc, nth_chunkRow ld hy hr hc] at e
    exact e
  have right : IsDht h f := by
    intro s hs
    refine list_ext_nth (by rw [hl s hs, length_dht, hs]) fun c hc => ?_
    rw [hl s hs] at hc
    have hy : (tab (w * h) fun p => nth s p).length = w * h := length_tab _ _
    have hrow : rowOf h 0 (tab (w * h) fun p => nth s p) = s := by
      refine list_ext_nth (by rw [length_rowOf hy hw, hs]) fun j hj => ?_
      rw [length_rowOf hy hw] at hj
      have : 0 * h + j < w * h := pos_lt hw hj
      rw [nth_rowOf hj, nth_tab this, Nat.zero_mul, Nat.zero_add]
    have e := entry _ hy 0 hw c hc
    rwa [hrow, if_pos (Or.inl rfl), one_mul] at e
  refine ⟨right, ?_⟩
  by_contra hno
  push Not at hno
  obtain ⟨h1, h2, h3⟩ := hno
  have hy : (tab (w * h) fun p => if p = h then (1 : ℝ) else 0).length = w * h := length_tab _ _
  have hlr := length_rowOf (r := 1) hy h1
  have e := entry _ hy 1 h1 1 h2
  rw [if_neg (by omega), right _ hlr] at e
  have hrow : rowOf h 1 (tab (w * h) fun p => if p = h then (1 : ℝ) else 0) = tab h fun p => if p = 0 then 1 else 0 := by
    refine eq_tab hlr fun j hj => ?_
    rw [nth_rowOf hj, nth_tab (pos_lt h1 hj)]
    exact if_congr (by omega) rfl rfl
  have e1 : nth (dht (tab h fun p => if p = 0 then (1 : ℝ) else 0)) 1 = 1 := by
    rw [dht_tab, nth_tab (show 1 < h by omega), hart]
    simp [show 0 < h by omega]
  rw [hrow, e1, mul_one] at e
  exact h3 e

/-! ## Norms -/

/-- `f` changes the norm in one direction at most; `c` says which. -/
def Gains (c : ℝ) (n : ℕ) (f : List ℝ → List ℝ) : Prop := ∀ x, x.length = n → 0 ≤ c * (en n (f x) - n * en n x)

/-- No two of the numbers are the same. -/
def Distinct (n : ℕ) (x : List ℝ) : Prop := ∀ i < n, ∀ j < n, nth x i = nth x j → i = j

def GainsMore (c : ℝ) (n : ℕ) (f : List ℝ → List ℝ) : Prop :=
  ∀ x, x.length = n → Distinct n x → 0 < c * (en n (f x) - n * en n x)

theorem gains_of_dht (c : ℝ) {n : ℕ} {f : List ℝ → List ℝ} (h : IsDht n f) : Gains c n f := by
  intro x hx
  rw [h x hx, en_dht hx, sub_self, mul_zero]

theorem chunks_sum {k h : ℕ} {f : List ℝ → List ℝ} (c : ℝ) (hl : ∀ x, x.length = h → (f x).length = h) {x : List ℝ} (hx : x.length = k * h) :
    c * (en (k * h) (mapChunks h f x) - h * en (k * h) x)
      = ∑ r ∈ range k, c * (en h (f (rowOf h r x)) - h * en h (rowOf h r x)) := by
  rw [en_chunks hl hx, en_rows, mul_sum, ← sum_sub_distrib, mul_sum]

theorem gains_chunks {k h : ℕ} {f : List ℝ → List ℝ} {c : ℝ} (hl : ∀ x, x.length = h → (f x).length = h) (hg : Gains c h f)
    {x : List ℝ} (hx : x.length = k * h) : 0 ≤ c * (en (k * h) (mapChunks h f x) - h * en (k * h) x) := by
  rw [chunks_sum c hl hx]
  exact sum_nonneg fun r hr => hg _ (length_rowOf hx (mem_range.1 hr))

theorem gainsMore_chunks {k h : ℕ} {f : List ℝ → List ℝ} {c : ℝ} (hk : 0 < k) (hl : ∀ x, x.length = h → (f x).length = h)
    (hg : GainsMore c h f) {x : List ℝ} (hx : x.length = k * h) (hd : Distinct (k * h) x) :
    0 < c * (en (k * h) (mapChunks h f x) - h * en (k * h) x) := by
  rw [chunks_sum c hl hx]
  refine sum_pos (fun r hr => ?_) ⟨0, mem_range.2 hk⟩
  have hr := mem_range.1 hr
  refine hg _ (length_rowOf hx hr) fun i hi j hj e => ?_
  rw [nth_rowOf hi, nth_rowOf hj] at e
  have := hd _ (pos_lt hr hi) _ (pos_lt hr hj) e
  omega

theorem distinct_perm {n : ℕ} {σ : ℕ → ℕ} (h : ∀ i < n, σ i < n) (hi : ∀ i < n, ∀ j < n, σ i = σ j → i = j) {x : List ℝ}
    (hd : Distinct n x) : Distinct n (tab n fun i => nth x (σ i)) := by
  intro i hi' j hj' e
  rw [nth_tab hi', nth_tab hj'] at e
  exact hi i hi' j hj' (hd _ (h i hi') _ (h j hj') e)

theorem distinct_step1 {w h : ℕ} (hh : 0 < h) {x : List ℝ} (hd : Distinct (w * h) x) : Distinct (w * h) (mrStep1 w h x) :=
  distinct_perm (fun _ hp => revRow_lt hh hp) (fun _ hp _ hp' e => revRow_inj hh hp hp' e) hd

theorem en_scl (w h : ℕ) (δ : ℝ) (z : List ℝ) :
    en (w * h) (scl w h δ z) = en (w * h) z + (δ ^ 2 - 1) * ∑ p ∈ range (w * h), if p / h = 0 ∨ p % h = 0 then 0 else nth z p ^ 2 := by
  rw [en, en, mul_sum, ← sum_add_distrib]
  refine sum_congr rfl fun p hp => ?_
  rw [scl, nth_tab (mem_range.1 hp)]
  split_ifs <;> ring

/-- Numbers whose sum of squares is as small as their sum allows are all the same. -/
theorem cauchy_strict {h : ℕ} (hh : 2 ≤ h) {y : List ℝ} (hd : Distinct h y) :
    (∑ i ∈ range h, nth y i) ^ 2 ≠ h * en h y := by
  intro e
  set S := ∑ i ∈ range h, nth y i with hS
  have h0 : ∑ i ∈ range h, (h * nth y i - S) ^ 2 = 0 := by
    have : ∀ i ∈ range h, (h * nth y i - S) ^ 2 = (h : ℝ) ^ 2 * nth y i ^ 2 - 2 * h * S * nth y i + S ^ 2 := fun i _ => by ring
    rw [sum_congr rfl this, sum_add_distrib, sum_sub_distrib, ← mul_sum, ← mul_sum, ← hS, sum_const, card_range, nsmul_eq_mul]
    rw [en] at e
    linear_combination (-(h : ℝ)) * e
  have h1 := (sum_eq_zero_iff_of_nonneg fun i _ => sq_nonneg _).1 h0
  have h2 : ∀ i < h, h * nth y i = S := fun i hi => by
    have := pow_eq_zero_iff (two_ne_zero) |>.1 (h1 i (mem_range.2 hi))
    linarith
  have h3 : (h : ℝ) ≠ 0 := by positivity
  have := hd 0 (by omega) 1 (by omega) (mul_left_cancel₀ h3 ((h2 0 (by omega)).trans (h2 1 (by omega)).symm))
  omega

/-- The rows transformed and scaled. -/
theorem gains_scl {w h : ℕ} {c δ : ℝ} (hh : 0 < h) (hc : 0 ≤ c * (δ ^ 2 - 1)) {f : List ℝ → List ℝ}
    (hl : ∀ x, x.length = h → (f x).length = h) (hg : Gains c h f) {x : List ℝ} (hx : x.length = w * h) :
    0 ≤ c * (en (w * h) (scl w h δ (mapChunks h f (mrStep1 w h x))) - h * en (w * h) x) := by
  have h1 := gains_chunks hl hg (length_step1 w h x)
  rw [en_step1 hh hx] at h1
  rw [en_scl]
  have h2 : 0 ≤ ∑ p ∈ range (w * h), if p / h = 0 ∨ p % h = 0 then 0 else nth (mapChunks h f (mrStep1 w h x)) p ^ 2 :=
    sum_nonneg fun p _ => by split_ifs <;> positivity
  nlinarith [mul_nonneg hc h2]

theorem gainsMore_scl {w h : ℕ} {c δ : ℝ} (hw : 0 < w) (hh : 0 < h) (hc : 0 ≤ c * (δ ^ 2 - 1)) {f : List ℝ → List ℝ}
    (hl : ∀ x, x.length = h → (f x).length = h) (hg : Gains c h f)
    (hm : GainsMore c h f ∨ 2 ≤ w ∧ 2 ≤ h ∧ 0 < c * (δ ^ 2 - 1) ∧ ∀ x, x.length = h → nth (f x) 0 = x.sum)
    {x : List ℝ} (hx : x.length = w * h) (hd : Distinct (w * h) x) :
    0 < c * (en (w * h) (scl w h δ (mapChunks h f (mrStep1 w h x))) - h * en (w * h) x) := by
  have hy := length_step1 w h x
  have h2 : 0 ≤ ∑ p ∈ range (w * h), if p / h = 0 ∨ p % h = 0 then 0 else nth (mapChunks h f (mrStep1 w h x)) p ^ 2 :=
    sum_nonneg fun p _ => by split_ifs <;> positivity
  rcases hm with hm | ⟨hw2, hh2, hc', hsum⟩
  · have h1 := gainsMore_chunks hw hl hm hy (distinct_step1 hh hd)
    rw [en_step1 hh hx] at h1
    rw [en_scl]
    nlinarith [mul_nonneg hc h2]
  · refine lt_of_le_of_ne (gains_scl hh hc hl hg hx) fun e => ?_
    have h1 := gains_chunks hl hg hy
    have h1' := chunks_sum c hl hy
    rw [en_step1 hh hx] at h1 h1'
    rw [en_scl] at e
    have h3 := mul_nonneg hc h2
    have e1 : c * (en (w * h) (mapChunks h f (mrStep1 w h x)) - h * en (w * h) x) = 0 := by nlinarith
    have e2 : ∑ p ∈ range (w * h), (if p / h = 0 ∨ p % h = 0 then 0 else nth (mapChunks h f (mrStep1 w h x)) p ^ 2) = 0 := by
      have : c * (δ ^ 2 - 1) * ∑ p ∈ range (w * h), (if p / h = 0 ∨ p % h = 0 then 0 else nth (mapChunks h f (mrStep1 w h x)) p ^ 2) = 0 := by
        nlinarith
      exact (mul_eq_zero.1 this).resolve_left hc'.ne'
    rw [e1] at h1'
    have hlr := length_rowOf (r := 1) hy (by omega)
    have e3 := (sum_eq_zero_iff_of_nonneg fun r hr => hg _ (length_rowOf hy (mem_range.1 hr))).1 h1'.symm 1 (mem_range.2 (by omega))
    have e4 := (sum_eq_zero_iff_of_nonneg fun p _ => by split_ifs <;> positivity).1 e2
    set y := rowOf h 1 (mrStep1 w h x) with hyd
    have hz : ∀ j, 0 < j → j < h → nth (f y) j = 0 := by
      intro j hj0 hj
      have := e4 (1 * h + j) (mem_range.2 (pos_lt hw2 hj))
      rw [div_of_lt hj, mod_of_lt hj, if_neg (by omega), nth_chunkRow hl hy hw2 hj] at this
      exact pow_eq_zero_iff (two_ne_zero) |>.1 this
    have hen : en h (f y) = (∑ i ∈ range h, nth y i) ^ 2 := by
      rw [en, sum_eq_single 0 (fun j hj hj0 => by rw [hz j (by omega) (mem_range.1 hj)]; ring)
        (fun h => absurd (mem_range.2 (by omega)) h), hsum y hlr, list_sum, hlr]
    have hc0 : c ≠ 0 := by rintro rfl; simp at hc'
    have e5 := (mul_eq_zero.1 e3).resolve_left hc0
    rw [hen] at e5
    refine cauchy_strict hh2 (y := y) (fun i hi j hj e => ?_) (by linarith)
    rw [hyd, nth_rowOf hi, nth_rowOf hj] at e
    have := distinct_step1 hh hd _ (pos_lt hw2 hi) _ (pos_lt hw2 hj) e
    omega

/-- Mixed-radix algorithms with a fixed radix. -/
theorem gains_columns {k h : ℕ} {c δ : ℝ} (hk : 0 < k) (hh : 0 < h) (hc : 0 ≤ c * (δ ^ 2 - 1)) {f L : List ℝ → List ℝ}
    (hl : ∀ x, x.length = h → (f x).length = h) (hL : ∀ x, x.length = k * h → L (mapChunks h dht (mrStep1 k h x)) = rootDht k δ x)
    (hg : Gains c h f) : Gains c (k * h) (fun x => L (mapChunks h f (mrStep1 k h x))) := by
  intro x hx
  rw [stage_en hh hL (by rw [length_mapChunks hh hl, length_step1])]
  have h1 := gains_scl hh hc hl hg hx
  have h2 : (0 : ℝ) < k := by exact_mod_cast hk
  have := mul_nonneg h2.le h1
  push_cast
  linarith

theorem gainsMore_columns {k h : ℕ} {c δ : ℝ} (hk : 0 < k) (hh : 0 < h) (hc : 0 ≤ c * (δ ^ 2 - 1)) {f L : List ℝ → List ℝ}
    (hl : ∀ x, x.length = h → (f x).length = h) (hL : ∀ x, x.length = k * h → L (mapChunks h dht (mrStep1 k h x)) = rootDht k δ x)
    (hg : Gains c h f)
    (hm : GainsMore c h f ∨ 2 ≤ k ∧ 2 ≤ h ∧ 0 < c * (δ ^ 2 - 1) ∧ ∀ x, x.length = h → nth (f x) 0 = x.sum) :
    GainsMore c (k * h) (fun x => L (mapChunks h f (mrStep1 k h x))) := by
  intro x hx hd
  rw [stage_en hh hL (by rw [length_mapChunks hh hl, length_step1])]
  have h1 := gainsMore_scl hk hh hc hl hg hm hx hd
  have h2 : (0 : ℝ) < k := by exact_mod_cast hk
  have := mul_pos h2 h1
  push_cast
  linarith

end RustDHT
