import Verif.Proofs.RadersLoss
import Verif.Spec.RadersOnce

/-! # Compositions around Rader's algorithm with an object that loses -/

set_option linter.style.haveILetI false

open Finset

namespace RustDHT

theorem Lossy.mono {κ κ' : ℝ} {n : ℕ} {f : List ℝ → List ℝ} (h : Lossy κ n f) (hk : κ ≤ κ') : Lossy κ' n f := by
  obtain ⟨x, hx, h0, h1⟩ := h
  exact ⟨x, hx, h0, h1.trans (mul_le_mul_of_nonneg_right hk (by positivity))⟩

/-- A linear map sends zero to zero. -/
theorem LinearFn.en_zero {n : ℕ} {f : List ℝ → List ℝ} (hlin : LinearFn n f) {x : List ℝ} (hx : x.length = n) (h : en n x = 0) :
    en n (f x) = 0 := by
  rw [en]
  refine sum_eq_zero fun k hk => ?_
  rw [hlin x hx k (mem_range.1 hk), sum_eq_zero fun j hj => by rw [en_eq_zero h (mem_range.1 hj), zero_mul]]
  norm_num

/-- A multiple. -/
theorem LinearFn.en_smul {n : ℕ} {f : List ℝ → List ℝ} (hlin : LinearFn n f) {x s : List ℝ} (hx : x.length = n) (hs : s.length = n) (c : ℝ)
    (e : ∀ j < n, nth x j = c * nth s j) : en n (f x) = c ^ 2 * en n (f s) := by
  rw [en, en, mul_sum]
  refine sum_congr rfl fun k hk => ?_
  rw [hlin x hx k (mem_range.1 hk), hlin s hs k (mem_range.1 hk), ← mul_pow, mul_sum]
  congr 1
  exact sum_congr rfl fun j hj => by rw [e j (mem_range.1 hj), mul_assoc]

/-- Numbers in the first row and the first column only. -/
def Cross (w h : ℕ) (z : List ℝ) : Prop := ∀ r < w, ∀ c < h, r ≠ 0 → c ≠ 0 → nth z (r * h + c) = 0

theorem Cross.scl {w h : ℕ} {z : List ℝ} (hz : Cross w h z) (lz : z.length = w * h) (δ : ℝ) : scl w h δ z = z := by
  symm
  refine eq_tab lz fun p hp => ?_
  split_ifs with h0
  · rw [one_mul]
  · push Not at h0
    have := hz _ (div_lt_of_lt_mul' hp) _ (mod_lt_of_lt_mul hp) h0.1 h0.2
    rw [div_mod_eq] at this
    rw [this, mul_zero]

/-- The twiddle factors leave them alone. -/
theorem Cross.twist {w h : ℕ} {z : List ℝ} (hz : Cross w h z) (lz : z.length = w * h) (ρ : ℝ) :
    (letI := realWithRoot ρ; mrTwist w h ℝ z) = z := by
  rw [twist_root, hz.scl lz]
  symm
  refine eq_tab lz fun p hp => ?_
  have hr := div_lt_of_lt_mul' hp
  have hc := mod_lt_of_lt_mul hp
  conv_rhs => rw [← hz.scl lz 0]
  rw [mrVal_scl 0 z hr hc]
  split_ifs with h0
  · rw [one_mul, mrVal, if_pos h0]
    dsimp only
    rw [div_mod_eq]
  · push Not at h0
    have := hz _ hr _ hc h0.1 h0.2
    rw [div_mod_eq] at this
    rw [this, zero_mul]

theorem en_chunks_row {w h a : ℕ} {f : List ℝ → List ℝ} (hl : ∀ x, x.length = h → (f x).length = h) (hlin : LinearFn h f) {s : List ℝ}
    (hs : s.length = h) (ha : a < w) : en (w * h) (mapChunks h f (rowAt w h a s)) = en h (f s) := by
  rw [en_chunks hl (length_rowAt _ _ _ _), sum_eq_single a, rowOf_rowAt hs ha, if_pos rfl]
  · intro r hr hn
    rw [rowOf_rowAt hs (mem_range.1 hr), if_neg hn, hlin.en_zero (length_tab _ _) (en_zeros h)]
  · intro hn
    exact absurd (mem_range.2 ha) hn

/-- The algorithms with a fixed radix. -/
theorem lossy_columns_inner {w h : ℕ} {κ δ : ℝ} (hw : 0 < w) (hh : 0 < h) (hδ : δ ^ 2 ≤ 1) {f L : List ℝ → List ℝ}
    (hl : ∀ x, x.length = h → (f x).length = h)
    (hL : ∀ x, x.length = w * h → L (mapChunks h dht (mrStep1 w h x)) = rootDht w δ x) (hlin : LinearFn h f) (hm : Lossy κ h f) :
    Lossy κ (w * h) (fun x => L (mapChunks h f (mrStep1 w h x))) := by
  obtain ⟨s, hs, h1, h2⟩ := hm
  obtain ⟨x, hx, e⟩ := step1_onto (k := w) hh (rowAt w h 0 s) (length_tab _ _)
  have e' : mrStep1 w h x = rowAt w h 0 s := e
  have ex : en (w * h) x = en h s := by rw [← en_step1 hh hx, e', en_rowAt hs hw]
  refine ⟨x, hx, by rw [ex]; exact h1, ?_⟩
  rw [stage_en hh hL (by rw [length_mapChunks hh hl, length_step1]), e', ex, en_scl]
  have h3 : 0 ≤ ∑ p ∈ range (w * h), if p / h = 0 ∨ p % h = 0 then 0 else nth (mapChunks h f (rowAt w h 0 s)) p ^ 2 :=
    sum_nonneg fun p _ => by split_ifs <;> positivity
  rw [en_chunks_row hl hlin hs hw]
  have h4 : (0 : ℝ) ≤ w := Nat.cast_nonneg _
  have h5 := mul_nonneg (sub_nonneg.2 hδ) h3
  push_cast
  nlinarith [mul_le_mul_of_nonneg_left h2 h4, mul_nonneg h4 h5]

/-- `MixedRadix`, around an object for the rows that loses: the other one gets impulses. -/
theorem lossy_mr_rows (ρ : ℝ) {w h : ℕ} {κ : ℝ} (hw : 0 < w) (hh : 0 < h) {fw fh : List ℝ → List ℝ}
    (lw : ∀ x, x.length = w → (fw x).length = w) (lh : ∀ x, x.length = h → (fh x).length = h) (linw : LinearFn w fw) (linh : LinearFn h fh)
    (flat : fw (unitAt w 0) = tab w fun _ => 1) (hm : Lossy κ h fh) : Lossy κ (w * h) (letI := realWithRoot ρ; mrFn w h fw fh) := by
  let := realWithRoot ρ
  obtain ⟨s, hs, h1, h2⟩ := hm
  obtain ⟨x, hx, e⟩ := step1_onto (k := w) hh (rowAt w h 0 s) (length_tab _ _)
  have e' : mrStep1 w h x = rowAt w h 0 s := e
  have ex : en (w * h) x = en h s := by rw [← en_step1 hh hx, e', en_rowAt hs hw]
  refine ⟨x, hx, by rw [ex]; exact h1, ?_⟩
  set z := mapChunks h fh (rowAt w h 0 s) with hz
  have lz : z.length = w * h := by rw [hz, length_mapChunks hh lh, length_rowAt]
  have rows : ∀ r < w, ∀ c < h, nth z (r * h + c) = if r = 0 then nth (fh s) c else 0 := by
    intro r hr c hc
    rw [hz, nth_chunkRow lh (length_rowAt _ _ _ _) hr hc, rowOf_rowAt hs hr]
    split_ifs with h0
    · rfl
    · exact en_eq_zero (linh.en_zero (length_tab _ _) (en_zeros h)) hc
  have cz : Cross w h z := fun r hr c hc h0 _ => by rw [rows r hr c hc, if_neg h0]
  rw [mrFn_eq, e', cz.twist lz ρ, en_tail hw hh lw, en_chunks lw (length_tab _ _), ex]
  have col : ∀ c < h, en w (fw (rowOf w c (tab (h * w) fun p => nth z (p % w * h + p / w)))) = w * nth (fh s) c ^ 2 := by
    intro c hc
    have hl : (rowOf w c (tab (h * w) fun p => nth z (p % w * h + p / w))).length = w := length_rowOf (k := h) (length_tab _ _) hc
    rw [linw.en_smul hl (length_unitAt w 0) (nth (fh s) c) fun r hr => ?_, flat]
    · have : en w (tab w fun _ => (1 : ℝ)) = w := by
        rw [en, sum_congr rfl fun i hi => by rw [nth_tab (mem_range.1 hi)]]
        simp
      rw [this, mul_comm]
    · rw [nth_rowOf hr, nth_tab (pos_lt hc hr), div_of_lt hr, mod_of_lt hr, rows r hr c hc, unitAt, nth_tab hr]
      split_ifs <;> simp
  rw [sum_congr rfl fun c hc => col c (mem_range.1 hc), ← mul_sum]
  have h4 : (0 : ℝ) ≤ w := Nat.cast_nonneg _
  have := mul_le_mul_of_nonneg_left h2 h4
  rw [en] at this
  push_cast
  linarith

/-- `MixedRadix`, around an object for the columns that loses: the other one gets signals from which it makes impulses. -/
theorem lossy_mr_columns (ρ : ℝ) {w h : ℕ} {κ : ℝ} (hκ : 0 ≤ κ) (hw : 0 < w) (hh : 0 < h) {fw fh : List ℝ → List ℝ}
    (lw : ∀ x, x.length = w → (fw x).length = w) (lh : ∀ x, x.length = h → (fh x).length = h) (linw : LinearFn w fw) (linh : LinearFn h fh)
    (flat : fw (unitAt w 0) = tab w fun _ => 1) (hsum : ∀ x, x.length = h → nth (fh x) 0 = x.sum) (hm : Lossy κ w fw) :
    Lossy κ (w * h) (letI := realWithRoot ρ; mrFn w h fw fh) := by
  let := realWithRoot ρ
  rcases linear_zero_or_onto linh with ⟨v, hv, hv0, hvz⟩ | honto
  · refine lossy_mr_rows ρ hw hh lw lh linw linh flat ⟨v, hv, hv0, ?_⟩
    rw [en, sum_eq_zero fun i hi => by rw [hvz i (mem_range.1 hi)]; norm_num]
    positivity
  obtain ⟨v, hv, hve⟩ := honto fun i => if i = 0 then 1 else 0
  -- the energy of that signal
  have hvn : 1 ≤ (h : ℝ) * en h v := by
    have h1 := hsum v hv
    rw [hve 0 hh, if_pos rfl, list_sum, hv] at h1
    have h2 := sum_mul_sq_le_sq_mul_sq (range h) (fun _ => (1 : ℝ)) (nth v)
    simp only [one_mul, one_pow, sum_const, card_range, nsmul_eq_mul, mul_one] at h2
    rw [← h1, one_pow] at h2
    exact h2
  obtain ⟨s, hs, h1, h2⟩ := hm
  set y : List ℝ := tab (w * h) fun p => nth s (p / h) * nth v (p % h) with hy
  have ly : y.length = w * h := length_tab _ _
  obtain ⟨x, hx, e⟩ := step1_onto (k := w) hh y ly
  have e' : mrStep1 w h x = y := e
  have rowy : ∀ r < w, ∀ c < h, nth (rowOf h r y) c = nth s r * nth v c := by
    intro r hr c hc
    rw [nth_rowOf hc, hy, nth_tab (pos_lt hr hc), div_of_lt hc, mod_of_lt hc]
  have ex : en (w * h) x = en w s * en h v := by
    rw [← en_step1 hh hx, e', en_rows, en, sum_mul]
    refine sum_congr rfl fun r hr => ?_
    rw [en, en, mul_sum]
    refine sum_congr rfl fun c hc => ?_
    rw [rowy r (mem_range.1 hr) c (mem_range.1 hc), mul_pow]
  have hv0 : 0 < en h v := by
    by_contra hc
    have : (0 : ℝ) ≤ h := Nat.cast_nonneg _
    nlinarith
  refine ⟨x, hx, by rw [ex]; positivity, ?_⟩
  set z := mapChunks h fh y with hz
  have lz : z.length = w * h := by rw [hz, length_mapChunks hh lh, ly]
  have rows : ∀ r < w, ∀ c < h, nth z (r * h + c) = if c = 0 then nth s r else 0 := by
    intro r hr c hc
    rw [hz, nth_chunkRow lh ly hr hc, linh _ (length_rowOf ly hr) c hc,
      sum_congr rfl fun j hj => by rw [rowy r hr j (mem_range.1 hj), mul_assoc], ← mul_sum, ← linh v hv c hc, hve c hc]
    split_ifs <;> simp
  have cz : Cross w h z := fun r hr c hc _ h0 => by rw [rows r hr c hc, if_neg h0]
  rw [mrFn_eq, e', cz.twist lz ρ, en_tail hw hh lw, en_chunks lw (length_tab _ _), ex]
  have ent : ∀ c < h, ∀ r < w, nth (rowOf w c (tab (h * w) fun p => nth z (p % w * h + p / w))) r = if c = 0 then nth s r else 0 := by
    intro c hc r hr
    rw [nth_rowOf hr, nth_tab (pos_lt hc hr), div_of_lt hr, mod_of_lt hr, rows r hr c hc]
  have lc : ∀ c < h, (rowOf w c (tab (h * w) fun p => nth z (p % w * h + p / w))).length = w := fun c hc =>
    length_rowOf (k := h) (length_tab _ _) hc
  rw [sum_eq_single 0]
  · have : rowOf w 0 (tab (h * w) fun p => nth z (p % w * h + p / w)) = s := list_ext_nth (by rw [lc 0 hh, hs]) fun r hr => by
      rw [lc 0 hh] at hr
      rw [ent 0 hh r hr, if_pos rfl]
    rw [this]
    have h3 : 0 ≤ κ * (w * en w s) := mul_nonneg hκ (mul_nonneg (Nat.cast_nonneg _) h1.le)
    push_cast
    calc en w (fw s) ≤ κ * (w * en w s) := h2
      _ ≤ κ * (w * en w s) * (h * en h v) := le_mul_of_one_le_right h3 hvn
      _ = _ := by ring
  · intro c hc h0
    refine linw.en_zero (lc c (mem_range.1 hc)) ?_
    rw [en]
    exact sum_eq_zero fun r hr => by rw [ent c (mem_range.1 hc) r (mem_range.1 hr), if_neg h0]; norm_num
  · intro hn
    exact absurd (mem_range.2 hh) hn

/-- `SplitRadix`. -/
theorem lossy_sr_part {q : ℕ} {κ : ℝ} (hq : 0 < q) {fq fh : List ℝ → List ℝ} (linq : LinearFn q fq) (linh : LinearFn (2 * q) fh)
    (hm : Lossy κ q fq ∨ Lossy κ (2 * q) fh) : Lossy κ (4 * q) (srFn q fq fh) := by
  have hq' : (0 : ℝ) < q := by exact_mod_cast hq
  have hq2 : (0 : ℝ) < (2 * q : ℕ) := by exact_mod_cast (by omega : 0 < 2 * q)
  have pos : ∀ {m : ℕ} {x s : List ℝ}, 0 < m → 0 < en m s → ((4 * q : ℕ) : ℝ) * en (4 * q) x = m * en m s → 0 < en (4 * q) x := by
    intro m x s hm h0 e
    have hm' : (0 : ℝ) < m := by exact_mod_cast hm
    exact pos_of_mul_pos_right (lt_of_lt_of_eq (mul_pos hm' h0) e.symm) (Nat.cast_nonneg _)
  rcases hm with ⟨s, hs, h0, h1⟩ | ⟨s, hs, h0, h1⟩
  · obtain ⟨x, hx, e, nx⟩ := sparse_part (n := 4 * q) (q := q) (a := 4) (b := 1) (S := fun x => tab q (srQ1 q x)) (fun j hj => by omega)
      (by norm_num) hq (fun _ _ => length_tab _ _) (fun x hx j hj => by
        rw [← srFn_dht hx, srFn, nth_tab (by omega), if_neg (by omega), if_pos (by omega), show (4 * j + 1) / 4 = j by omega]) hs
    refine ⟨x, hx, pos hq h0 nx, ?_⟩
    have h4 := en_sr_parts hx
    have e : tab q (srQ1 q x) = s := e
    rw [e, nx] at h4
    have n2 := en_nonneg (2 * q) (tab (2 * q) (srEven q x))
    have n3 := en_nonneg q (tab q (srQ3 q x))
    have z2 : en (2 * q) (tab (2 * q) (srEven q x)) = 0 := by nlinarith [mul_nonneg hq2.le n2, mul_nonneg hq'.le n3]
    have z3 : en q (tab q (srQ3 q x)) = 0 := by nlinarith [mul_nonneg hq2.le n2, mul_nonneg hq'.le n3]
    rw [en_sr, e, nx, linh.en_zero (length_tab _ _) z2, linq.en_zero (length_tab _ _) z3]
    linarith
  · obtain ⟨x, hx, e, nx⟩ := sparse_part (n := 4 * q) (q := 2 * q) (a := 2) (b := 0) (S := fun x => tab (2 * q) (srEven q x))
      (fun j hj => by omega) (by norm_num) (by omega) (fun _ _ => length_tab _ _) (fun x hx j hj => by
        rw [← srFn_dht hx, srFn, nth_tab (by omega), if_pos (by omega), show (2 * j + 0) / 2 = j by omega]) hs
    refine ⟨x, hx, pos (by omega) h0 nx, ?_⟩
    have h4 := en_sr_parts hx
    have e : tab (2 * q) (srEven q x) = s := e
    rw [e, nx] at h4
    have n2 := en_nonneg q (tab q (srQ1 q x))
    have n3 := en_nonneg q (tab q (srQ3 q x))
    have z2 : en q (tab q (srQ1 q x)) = 0 := by nlinarith [mul_nonneg hq'.le n2, mul_nonneg hq'.le n3]
    have z3 : en q (tab q (srQ3 q x)) = 0 := by nlinarith [mul_nonneg hq'.le n2, mul_nonneg hq'.le n3]
    rw [en_sr, e, nx, linq.en_zero (length_tab _ _) z2, linq.en_zero (length_tab _ _) z3]
    linarith

theorem rootFree_radersFree (p : Plan) (h : p.RootFree) : p.RadersFree := by
  induction p with
  | mixedRadix w h ihw ihh => exact ⟨ihw h.2.1, ihh h.2.2⟩
  | mr2 h ih | mr4 h ih => exact ih h
  | mr3 h ih | mr5 h ih | mr6 h ih => exact ih h.2
  | splitRadix q h ihq ihh => exact ⟨ihq h.1, ihh h.2⟩
  | raders i => exact h
  | _ => trivial

/-- Signals for which a composition is too small, the constant being inside `RadersAlgorithm` perhaps. -/
theorem plan_lossy_once (ρ : ℝ) (hδ : (ρ * √2) ^ 2 < 1) (p : Plan) : p.SmallRadix4 → p.RadersOnce → ¬ p.RootFree → ∀ d : Dht ℝ,
    @Plan.build ℝ _ _ _ _ _ (realWithRoot ρ) p = .ok d → 0 < d.len → ∀ f, Implements d f →
    Lossy (1 - (1 - (ρ * √2) ^ 2) / (2 * d.len)) d.len f := by
  have h0 : 0 ≤ (ρ * √2) ^ 2 := sq_nonneg _
  generalize hκ : (ρ * √2) ^ 2 = κ at *
  have mono : ∀ {m n : ℕ}, 0 < m → m ≤ n → 1 - (1 - κ) / (2 * (m : ℝ)) ≤ 1 - (1 - κ) / (2 * (n : ℝ)) := by
    intro m n hm hmn
    have h1 : (0 : ℝ) < m := by exact_mod_cast hm
    have h2 : (m : ℝ) ≤ n := by exact_mod_cast hmn
    have : (1 - κ) / (2 * (n : ℝ)) ≤ (1 - κ) / (2 * (m : ℝ)) := div_le_div_of_nonneg_left (by linarith) (by linarith) (by linarith)
    linarith
  have nonneg : ∀ {m : ℕ}, 0 < m → 0 ≤ 1 - (1 - κ) / (2 * (m : ℝ)) := by
    intro m hm
    have h1 : (1 : ℝ) ≤ m := by exact_mod_cast hm
    have : (1 - κ) / (2 * (m : ℝ)) ≤ 1 := by rw [div_le_one (by linarith)]; linarith
    linarith
  -- nothing affected inside `RadersAlgorithm`
  have free : ∀ p : Plan, p.RadersFree → p.SmallRadix4 → ¬ p.RootFree → ∀ d : Dht ℝ, @Plan.build ℝ _ _ _ _ _ (realWithRoot ρ) p = .ok d →
      0 < d.len → ∀ f, Implements d f → Lossy (1 - (1 - κ) / (2 * d.len)) d.len f := by
    intro p hp hs hn d e hpos f hf
    obtain ⟨g, hg, -, hl⟩ := plan_lossy ρ (by rw [hκ]; exact hδ) p hs hp d e hpos
    obtain ⟨x, hx, h1, h2⟩ := hl hn
    rw [hκ] at h2
    refine Lossy.mono (κ := κ) ⟨x, hx, h1, by rwa [hf.unique hg hx hpos]⟩ ?_
    have h1 : (1 : ℝ) ≤ d.len := by exact_mod_cast hpos
    have : (1 - κ) / (2 * (d.len : ℝ)) ≤ 1 - κ := div_le_self (by linarith) (by linarith)
    linarith
  have unique : ∀ {d : Dht ℝ} {f g : List ℝ → List ℝ} {κ : ℝ}, 0 < d.len → Implements d f → Implements d g → Lossy κ d.len g → Lossy κ d.len f := by
    rintro d f g κ hpos hf hg ⟨x, hx, h1, h2⟩
    exact ⟨x, hx, h1, by rwa [hf.unique hg hx hpos]⟩
  have fixed : ∀ (k : ℕ) (δ : ℝ) (h : Plan) (hd d : Dht ℝ) (ap : List ℝ → Res (List ℝ)), 0 < k → 0 < hd.len → d.len = k * hd.len →
      @Plan.build ℝ _ _ _ _ _ (realWithRoot ρ) h = .ok hd →
      (∀ f, Implements hd f → Implements d (mrnFn k hd.len f ap)) →
      (∀ x, x.length = k * hd.len → mrnFn k hd.len dht ap x = rootDht k δ x) → δ = 1 ∨ δ = ρ * √2 →
      (∀ f, Implements hd f → Lossy (1 - (1 - κ) / (2 * hd.len)) hd.len f) →
      ∀ f, Implements d f → Lossy (1 - (1 - κ) / (2 * d.len)) d.len f := by
    intro k δ h hd d ap hk hh hlen e himp hL hδ' ih f hf
    obtain ⟨fh, hfh⟩ := (@plan_ok ℝ _ _ _ _ _ (realWithRoot ρ) h hd e).implements
    have hc' : δ ^ 2 ≤ 1 := by
      rcases hδ' with rfl | rfl
      · norm_num
      · rw [hκ]; exact hδ.le
    refine unique (by rw [hlen]; positivity) hf (himp fh hfh) ?_
    have hl := lossy_columns_inner (L := run ap) hk hh hc' hfh.length hL (@plan_linear (realWithRoot ρ) h hd e fh hfh) (ih fh hfh)
    rw [hlen]
    exact hl.mono (mono hh (Nat.le_mul_of_pos_left _ hk))
  let := realWithRoot ρ
  induction p with
  | mixedRadix w h ihw ihh =>
    rintro ⟨sw, sh⟩ ⟨mw, mh⟩ hn d e hpos f hf
    by_cases hfree : (Plan.mixedRadix w h).RadersFree
    · exact free _ hfree ⟨sw, sh⟩ hn d e hpos f hf
    obtain ⟨wd, ew, e⟩ := bind_eq_ok e
    obtain ⟨hd, eh, e⟩ := bind_eq_ok e
    cases e
    have hpos' : 0 < wd.len * hd.len := hpos
    have pw : 0 < wd.len := Nat.pos_of_mul_pos_right hpos'
    have ph : 0 < hd.len := Nat.pos_of_mul_pos_left hpos'
    obtain ⟨fw, iw⟩ := (plan_ok w wd ew).implements
    obtain ⟨fh, ih⟩ := (plan_ok h hd eh).implements
    have linw := plan_linear w wd ew iw
    have linh := plan_linear h hd eh ih
    have flat := build_flat ρ ew pw iw
    refine unique hpos hf (mixedRadix_implements iw ih) ?_
    by_cases hh : h.RadersFree
    · have hw : ¬ w.RadersFree := fun hw => hfree ⟨hw, hh⟩
      have lw := ihw sw mw (fun h => hw (rootFree_radersFree w h)) wd ew pw fw iw
      exact (lossy_mr_columns ρ (nonneg pw) pw ph iw.length ih.length linw linh flat (root_sums ρ eh ih ph) lw).mono
        (mono pw (Nat.le_mul_of_pos_right _ ph))
    · have lh := ihh sh mh (fun h' => hh (rootFree_radersFree h h')) hd eh ph fh ih
      exact (lossy_mr_rows ρ pw ph iw.length ih.length linw linh flat lh).mono (mono ph (Nat.le_mul_of_pos_left _ pw))
  | mr2 h ihh =>
    intro s m hn d e hpos
    obtain ⟨hd, eh, e⟩ := bind_eq_ok e
    cases e
    have ph : 0 < hd.len := Nat.pos_of_mul_pos_left (show 0 < 2 * hd.len from hpos)
    exact fixed 2 1 h hd _ _ (by norm_num) ph rfl eh
      (fun f hf => mr2_implements hf (root_small ρ 2 (by norm_num) eh).1 (root_small ρ 2 (by norm_num) eh).2)
      (fun x hx => (@mr2Fn_dht hd.len x hx).trans (rootDht_one 2 x).symm) (Or.inl rfl) (ihh s m hn hd eh ph)
  | mr3 h ihh =>
    intro s m hn d e hpos
    by_cases hfree : h.RadersFree
    · exact free (.mr3 h) hfree s hn d e hpos
    obtain ⟨hd, eh, e⟩ := bind_eq_ok e
    cases e
    have ph : 0 < hd.len := Nat.pos_of_mul_pos_left (show 0 < 3 * hd.len from hpos)
    exact fixed 3 _ h hd _ _ (by norm_num) ph rfl eh
      (fun f hf => mr3_implements hf (root_small ρ 3 (by norm_num) eh).1 (root_small ρ 3 (by norm_num) eh).2)
      (fun x hx => mr3Fn_root ρ hx) (Or.inr rfl) (ihh s m (fun h' => hfree (rootFree_radersFree h h')) hd eh ph)
  | mr4 h ihh =>
    intro s m hn d e hpos
    obtain ⟨hd, eh, e⟩ := bind_eq_ok e
    cases e
    have ph : 0 < hd.len := Nat.pos_of_mul_pos_left (show 0 < 4 * hd.len from hpos)
    exact fixed 4 1 h hd _ _ (by norm_num) ph rfl eh
      (fun f hf => mr4_implements hf (root_small ρ 4 (by norm_num) eh).1 (root_small ρ 4 (by norm_num) eh).2)
      (fun x hx => (@mr4Fn_dht hd.len x hx).trans (rootDht_one 4 x).symm) (Or.inl rfl) (ihh s m hn hd eh ph)
  | mr5 h ihh =>
    intro s m hn d e hpos
    by_cases hfree : h.RadersFree
    · exact free (.mr5 h) hfree s hn d e hpos
    obtain ⟨hd, eh, e⟩ := bind_eq_ok e
    cases e
    have ph : 0 < hd.len := Nat.pos_of_mul_pos_left (show 0 < 5 * hd.len from hpos)
    exact fixed 5 _ h hd _ _ (by norm_num) ph rfl eh
      (fun f hf => mr5_implements hf (root_small ρ 5 (by norm_num) eh).1 (root_small ρ 5 (by norm_num) eh).2)
      (fun x hx => mr5Fn_root ρ hx) (Or.inr rfl) (ihh s m (fun h' => hfree (rootFree_radersFree h h')) hd eh ph)
  | mr6 h ihh =>
    intro s m hn d e hpos
    by_cases hfree : h.RadersFree
    · exact free (.mr6 h) hfree s hn d e hpos
    obtain ⟨hd, eh, e⟩ := bind_eq_ok e
    cases e
    have ph : 0 < hd.len := Nat.pos_of_mul_pos_left (show 0 < 6 * hd.len from hpos)
    exact fixed 6 _ h hd _ _ (by norm_num) ph rfl eh
      (fun f hf => mr6_implements hf (root_small ρ 6 (by norm_num) eh).1 (root_small ρ 6 (by norm_num) eh).2)
      (fun x hx => mr6Fn_root ρ hx) (Or.inr rfl) (ihh s m (fun h' => hfree (rootFree_radersFree h h')) hd eh ph)
  | splitRadix q h ihq ihh =>
    rintro ⟨sq, sh⟩ ⟨mq, mh⟩ hn d e hpos f hf
    obtain ⟨qd, eq, e⟩ := bind_eq_ok e
    obtain ⟨hd, eh, e⟩ := bind_eq_ok e
    have hlen := (splitRadix_eq e).1
    have hs : 0 < qd.len → qd.oopScratchLen = 0 ∧ qd.inplaceScratchLen ≤ 4 * qd.len ∧ hd.inplaceScratchLen ≤ 2 * qd.len := by
      intro hq
      have h1 := (plan_ok q qd eq).small hq
      have h2 := (plan_ok h hd eh).small (by omega)
      omega
    have hdl : d.len = 4 * qd.len := by rw [(splitRadix_eq e).2]; rfl
    have hq0 : 0 < qd.len := by omega
    have hhl : hd.len = 2 * qd.len := by omega
    obtain ⟨fq, iq⟩ := (plan_ok q qd eq).implements
    obtain ⟨fh, ih⟩ := (plan_ok h hd eh).implements
    have linq := plan_linear q qd eq iq
    have linh := plan_linear h hd eh ih
    refine unique hpos hf (splitRadix_implements iq ih e hs) ?_
    have lq := fun hq => (ihq sq mq hq qd eq hq0 fq iq).mono (mono hq0 (show qd.len ≤ d.len by omega))
    have lh := fun hh => (ihh sh mh hh hd eh (by omega) fh ih).mono (mono (show 0 < hd.len by omega) (show hd.len ≤ d.len by omega))
    rw [hhl] at linh lh
    rw [hdl] at lq lh ⊢
    refine lossy_sr_part hq0 linq linh ?_
    by_cases hqf : q.RootFree
    · exact Or.inr (lh fun hhf => hn ⟨hqf, hhf⟩)
    · exact Or.inl (lq hqf)
  | raders i =>
    intro s m hn d e hpos f hf
    obtain ⟨id, eid, e⟩ := bind_eq_ok e
    obtain ⟨fi, hfi, g, gi, hg, himp, hdl, hl⟩ := raders_once ρ (by rw [hκ]; exact hδ) i m s hn id d eid e
    rw [hκ] at hl
    refine unique hpos hf himp ?_
    rw [hdl]
    exact hl.mono (mono (by have := hg.two_le; omega) (Nat.le_succ _))
  | _ =>
    intro _ _ hn
    exact absurd trivial hn

end RustDHT
