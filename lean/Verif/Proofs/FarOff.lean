import Verif.Proofs.OnlyIfAll

/-! # How far off a composition with a large `Radix4` is -/

namespace RustDHT

open Finset

/-- For some signal the error is at least `√2` times the norm of the DHT. -/
def FarOff (n : ℕ) (f : List ℝ → List ℝ) : Prop :=
  ∃ x, x.length = n ∧ 0 < nrm n (nth x) ∧ √2 * (√n * nrm n (nth x)) ≤ nrm n fun k => nth (f x) k - nth (dht x) k

theorem FarOff.congr {n : ℕ} {f g : List ℝ → List ℝ} (h : FarOff n f) (e : ∀ x, x.length = n → g x = f x) : FarOff n g := by
  obtain ⟨x, hx, h0, h1⟩ := h
  exact ⟨x, hx, h0, by rw [e x hx]; exact h1⟩

theorem sqrt_cast_mul (a b : ℕ) : √((a * b : ℕ) : ℝ) = √a * √b := by
  rw [Nat.cast_mul, Real.sqrt_mul (Nat.cast_nonneg a)]

/-- A step after which the DHT comes out if `f` is the DHT. -/
theorem middle_far {k h : ℕ} (hk : 0 < k) (hh : 0 < h) {f : List ℝ → List ℝ} (hl : ∀ x, x.length = h → (f x).length = h)
    {L : List ℝ → List ℝ} (h1 : ∀ x, x.length = k * h → L (mapChunks h dht (mrStep1 k h x)) = dht x) (hf : FarOff h f) :
    FarOff (k * h) fun x => L (mapChunks h f (mrStep1 k h x)) := by
  obtain ⟨s, hs, h0, hfar⟩ := hf
  have ld : ∀ x : List ℝ, x.length = h → (dht x).length = h := fun x hx => by rw [length_dht, hx]
  have sR : Scales (k * h) 1 (mrStep1 k h) := scales_perm (fun _ hp => revRow_lt hh hp) fun _ hp _ hp' e => revRow_inj hh hp hp' e
  have sJ := (scales_chunks (k := k) (scales_dht h) hh (Real.sqrt_nonneg _)).comp sR
  rw [mul_one] at sJ
  have oJ : Onto (k * h) fun x => mapChunks h dht (mrStep1 k h x) := rows_onto hh
  have sL : Scales (k * h) √k L := by
    refine Scales.of_comp_right (b := √h) (J := fun x => mapChunks h dht (mrStep1 k h x)) ?_ sJ oJ
    rw [← sqrt_cast_mul]
    exact (scales_dht (k * h)).congr h1
  have hz : (tab (k * h) fun p => nth s (p % h)).length = k * h := length_tab _ _
  obtain ⟨x, hx, ex⟩ := step1_onto (k := k) hh (tab (k * h) fun p => nth s (p % h)) hz
  have ex : mrStep1 k h x = tab (k * h) fun p => nth s (p % h) := ex
  have rows : ∀ r < k, rowOf h r (tab (k * h) fun p => nth s (p % h)) = s := by
    intro r hr
    refine list_ext_nth (by rw [length_rowOf hz hr, hs]) fun c hc => ?_
    rw [length_rowOf hz hr] at hc
    rw [nth_rowOf hc, nth_tab (pos_lt hr hc), mod_of_lt hc]
  have nx : nrm (k * h) (nth x) = √k * nrm h (nth s) := by
    have := sR.norm x hx
    rw [one_mul] at this
    rw [← this, ex, nrm_blocks, ← nrm_const k (nrm_nonneg _ _)]
    refine nrm_congr fun r hr => nrm_congr fun c hc => ?_
    rw [nth_tab (pos_lt hr hc), mod_of_lt hc]
  have hk' : 0 < √(k : ℝ) := Real.sqrt_pos.2 (by exact_mod_cast hk)
  refine ⟨x, hx, by rw [nx]; positivity, ?_⟩
  rw [← h1 x hx]
  simp only [ex]
  rw [sL.dist _ _ (by rw [length_mapChunks hh hl, hz]) (by rw [length_mapChunks hh ld, hz]), nx, nrm_blocks]
  have e : nrm k (fun r => nrm h fun c => nth (mapChunks h f (tab (k * h) fun p => nth s (p % h))) (r * h + c)
      - nth (mapChunks h dht (tab (k * h) fun p => nth s (p % h))) (r * h + c)) = √k * nrm h fun c => nth (f s) c - nth (dht s) c := by
    rw [← nrm_const k (nrm_nonneg _ _)]
    refine nrm_congr fun r hr => nrm_congr fun c hc => ?_
    rw [nth_chunkRow hl hz hr hc, nth_chunkRow ld hz hr hc, rows r hr]
  rw [e, sqrt_cast_mul]
  calc √2 * (√k * √h * (√k * nrm h (nth s))) = √k * (√k * (√2 * (√h * nrm h (nth s)))) := by ring
    _ ≤ _ := by gcongr

/-- The width of `MixedRadix`. -/
theorem mr_width_far {w h : ℕ} (hw : 0 < w) (hh : 0 < h) {fw fh : List ℝ → List ℝ} (lw : ∀ x, x.length = w → (fw x).length = w)
    (lh : ∀ x, x.length = h → (fh x).length = h) (gh : ∀ x, x.length = h → nth (fh x) 0 = x.sum) (hf : FarOff w fw) :
    FarOff (w * h) (mrFn w h fw fh) := by
  obtain ⟨s, hs, h0, hfar⟩ := hf
  have hh' : (0 : ℝ) < h := by exact_mod_cast hh
  have ld : ∀ {n : ℕ} (x : List ℝ), x.length = n → (dht x).length = n := fun x hx => by rw [length_dht, hx]
  set x := tab (w * h) fun p => nth s (p % w) / h with hxdef
  have hx : x.length = w * h := length_tab _ _
  have hc : w * h = h * w := Nat.mul_comm w h
  have hsum : (tab w fun r => ∑ i ∈ range h, nth x (revRow w h r i * w + r)) = s := by
    refine (eq_tab hs fun r hr => ?_).symm
    have hv : ∀ i ∈ range h, nth x (revRow w h r i * w + r) = nth s r / h := by
      intro i hi
      have hi := mem_range.1 hi
      have hrow : revRow w h r i < h := by unfold revRow; split <;> omega
      rw [hxdef, nth_tab (by rw [hc]; exact pos_lt hrow hr), mod_of_lt hr]
    rw [sum_congr rfl hv, sum_const, card_range, nsmul_eq_mul, mul_div_cancel₀ _ hh'.ne']
  have e1 : ∀ j < w, nth (mrFn w h fw fh x) (j * h) = nth (fw s) j := fun j hj => by
    rw [mr_column_zero hw hh lw lh gh hj, hsum]
  have e2 : ∀ j < w, nth (dht x) (j * h) = nth (dht s) j := fun j hj => by
    rw [← mrFn_dht (fun _ _ => rfl) (fun _ _ => rfl) hx, mr_column_zero hw hh ld ld (fun x hx => dht_first (by omega)) hj, hsum]
  have nx : nrm (w * h) (nth x) = √h * (nrm w (nth s) / h) := by
    have : nrm w (fun r => nth s r / h) = nrm w (nth s) / h := by
      rw [div_eq_inv_mul, ← nrm_mul _ (inv_nonneg.2 hh'.le)]
      exact nrm_congr fun r _ => div_eq_inv_mul _ _
    rw [hc, nrm_blocks, ← this, ← nrm_const h (nrm_nonneg _ _)]
    refine nrm_congr fun i hi => nrm_congr fun r hr => ?_
    rw [hxdef, nth_tab (by rw [hc]; exact pos_lt hi hr), mod_of_lt hr]
  have hsq : √(h : ℝ) * √h = h := Real.mul_self_sqrt hh'.le
  refine ⟨x, hx, by rw [nx]; positivity, ?_⟩
  have hle : nrm w (fun j => nth (fw s) j - nth (dht s) j) ≤ nrm (w * h) fun k => nth (mrFn w h fw fh x) k - nth (dht x) k := by
    refine Eq.trans_le ?_ (nrm_perm_le (m := w) (σ := fun j => j * h) (fun j hj => Nat.mul_lt_mul_of_pos_right hj hh)
      (fun i _ j _ e => Nat.eq_of_mul_eq_mul_right hh e) _)
    exact nrm_congr fun j hj => by rw [e1 j hj, e2 j hj]
  refine le_trans ?_ (hfar.trans hle)
  rw [nx, sqrt_cast_mul]
  apply le_of_eq
  calc √2 * (√w * √h * (√h * (nrm w (nth s) / h))) = √2 * (√w * (√h * √h * (nrm w (nth s) / h))) := by ring
    _ = _ := by rw [hsq, mul_div_cancel₀ _ hh'.ne']

/-- The width and the height of `MixedRadix`. -/
theorem mr_height_far {w h : ℕ} (hw : 0 < w) (hh : 0 < h) {fw fh : List ℝ → List ℝ} (hfw : IsDht w fw)
    (lh : ∀ x, x.length = h → (fh x).length = h) (hf : FarOff h fh) : FarOff (w * h) (mrFn w h fw fh) := by
  exact middle_far hw hh lh (L := fun y => mrTail w h fw (mrTwist w h ℝ y))
    (fun x hx => mrFn_dht hfw (fun _ _ => rfl) hx) hf

/-- A signal with given coefficients in some places and no others. -/
theorem sparse_signal {n q a b : ℕ} (hn : 0 < n) (hq : ∀ j < q, a * j + b < n) (ha : 0 < a) {s : List ℝ} (hs : s.length = q) :
    ∃ x, x.length = n ∧ (∀ j < q, nth (dht x) (a * j + b) = nth (dht s) j) ∧ √n * nrm n (nth x) = √q * nrm q (nth s) := by
  classical
  obtain ⟨x, hx, ex⟩ := onto_dht hn (tab n fun p => ∑ j ∈ range q, if p = a * j + b then nth (dht s) j else 0) (length_tab _ _)
  have inj : ∀ i j, a * i + b = a * j + b ↔ i = j := fun i j =>
    ⟨fun e => Nat.eq_of_mul_eq_mul_left ha (by omega), fun e => by rw [e]⟩
  have at' : ∀ j < q, nth (dht x) (a * j + b) = nth (dht s) j := by
    intro j hj
    rw [ex, nth_tab (hq j hj), sum_eq_single_of_mem j (mem_range.2 hj) fun i _ hne => if_neg fun e => hne ((inj _ _).1 e).symm, if_pos rfl]
  refine ⟨x, hx, at', ?_⟩
  rw [← nrm_dht hx, ← nrm_dht hs]
  have h1 : ∑ p ∈ range n, nth (dht x) p ^ 2 = ∑ j ∈ range q, nth (dht s) j ^ 2 := by
    symm
    have e : ∀ j ∈ range q, nth (dht s) j ^ 2 = nth (dht x) (a * j + b) ^ 2 := fun j hj => by rw [at' j (mem_range.1 hj)]
    rw [sum_congr rfl e, ← sum_image (s := range q) (g := fun j => a * j + b) (f := fun p => nth (dht x) p ^ 2)
      fun i _ j _ e => (inj _ _).1 e]
    refine sum_subset (fun p hp => ?_) fun p hp hne => ?_
    · obtain ⟨j, hj, rfl⟩ := mem_image.1 hp
      exact mem_range.2 (hq j (mem_range.1 hj))
    · rw [ex, nth_tab (mem_range.1 hp), sum_eq_zero, zero_pow (by norm_num)]
      intro j hj
      refine if_neg fun e => hne (mem_image.2 ⟨j, hj, e.symm⟩)
  rw [nrm, nrm, h1]

/-- A step in which the outputs of `g` appear at some places. -/
theorem part_far {n q a b : ℕ} (hq : ∀ j < q, a * j + b < n) (ha : 0 < a) (hq0 : 0 < q) {F g : List ℝ → List ℝ} {S : List ℝ → List ℝ}
    (hS : ∀ x, x.length = n → (S x).length = q) (h1 : ∀ x, x.length = n → ∀ j < q, nth (F x) (a * j + b) = nth (g (S x)) j)
    (h2 : ∀ x, x.length = n → ∀ j < q, nth (dht x) (a * j + b) = nth (dht (S x)) j) (hg : FarOff q g) : FarOff n F := by
  obtain ⟨s, hs, h0, hfar⟩ := hg
  have hn : 0 < n := by have := hq 0 hq0; omega
  obtain ⟨x, hx, ex, nx⟩ := sparse_signal hn hq ha hs
  have e : S x = s := by
    refine dht_injective (by rw [hS x hx, hs]) (list_ext_nth (by rw [length_dht, length_dht, hS x hx, hs]) fun j hj => ?_)
    rw [length_dht, hS x hx] at hj
    rw [← h2 x hx j hj, ex j hj]
  refine ⟨x, hx, ?_, ?_⟩
  · have hp : 0 < √(q : ℝ) := Real.sqrt_pos.2 (by exact_mod_cast hq0)
    have : 0 < √(n : ℝ) * nrm n (nth x) := by rw [nx]; positivity
    exact pos_of_mul_pos_right this (Real.sqrt_nonneg _)
  rw [nx]
  refine hfar.trans ?_
  refine Eq.trans_le ?_ (nrm_perm_le (m := q) (σ := fun j => a * j + b) hq
    (fun i _ j _ e => Nat.eq_of_mul_eq_mul_left ha (by omega)) _)
  exact nrm_congr fun j hj => by rw [h1 x hx j hj, ex j hj, e]

theorem sr_quarter_far {q : ℕ} (hq : 0 < q) {fq fh : List ℝ → List ℝ} (hf : FarOff q fq) : FarOff (4 * q) (srFn q fq fh) := by
  refine part_far (a := 4) (b := 1) (S := fun x => tab q (srQ1 q x)) (fun j hj => by omega) (by norm_num) hq (fun _ _ => length_tab _ _)
    (fun x hx j hj => ?_) (fun x hx j hj => ?_) hf
  · rw [srFn, nth_tab (by omega), if_neg (by omega), if_pos (by omega), show (4 * j + 1) / 4 = j by omega]
  · rw [← srFn_dht hx, srFn, nth_tab (by omega), if_neg (by omega), if_pos (by omega), show (4 * j + 1) / 4 = j by omega]

theorem sr_half_far {q : ℕ} (hq : 0 < q) {fq fh : List ℝ → List ℝ} (hf : FarOff (2 * q) fh) : FarOff (4 * q) (srFn q fq fh) := by
  refine part_far (a := 2) (b := 0) (S := fun x => tab (2 * q) (srEven q x)) (fun j hj => by omega) (by norm_num) (by omega)
    (fun _ _ => length_tab _ _) (fun x hx j hj => ?_) (fun x hx j hj => ?_) hf
  · rw [srFn, nth_tab (by omega), if_pos (by omega), show (2 * j + 0) / 2 = j by omega]
  · rw [← srFn_dht hx, srFn, nth_tab (by omega), if_pos (by omega), show (2 * j + 0) / 2 = j by omega]

theorem nrm_unitAt {n a : ℕ} (ha : a < n) : nrm n (nth (unitAt n a)) = 1 := by
  rw [nrm, sum_eq_single_of_mem a (mem_range.2 ha), unitAt, nth_tab ha, if_pos rfl, one_pow, Real.sqrt_one]
  intro i hi hne
  rw [unitAt, nth_tab (mem_range.1 hi), if_neg hne, zero_pow (by norm_num)]

/-- The error of `Radix4` for an impulse that it moves. -/
theorem radix4_impulse {m i : ℕ} (hi : i < 2 ^ m) (hmove : r4Sigma (r4BaseLen m) (r4Levels m) i ≠ i) :
    (nrm (2 ^ m) fun k => nth (radix4Fn ℝ m (unitAt (2 ^ m) i)) k - nth (dht (unitAt (2 ^ m) i)) k) = √2 * √(2 ^ m : ℕ) := by
  have hl : (2 : ℕ) ^ m = r4BaseLen m * 4 ^ r4Levels m := r4_len m
  have hσlt : ∀ i < 2 ^ m, r4Sigma (r4BaseLen m) (r4Levels m) i < 2 ^ m := fun i hi =>
    lt_of_lt_of_eq (r4Sigma_lt (r4BaseLen_pos m) (lt_of_lt_of_eq hi hl)) hl.symm
  have hinj : ∀ i < 2 ^ m, ∀ j < 2 ^ m, r4Sigma (r4BaseLen m) (r4Levels m) i = r4Sigma (r4BaseLen m) (r4Levels m) j → i = j :=
    fun i hi j hj e => r4Sigma_inj (r4BaseLen_pos m) (lt_of_lt_of_eq hi hl) (lt_of_lt_of_eq hj hl) e
  set σ := r4Sigma (r4BaseLen m) (r4Levels m) with hσ
  -- the place that the impulse comes from
  obtain ⟨j, hj, ej⟩ : ∃ j < 2 ^ m, σ j = i := by
    have himg : (range (2 ^ m)).image σ = range (2 ^ m) := by
      refine eq_of_subset_of_card_le (fun j hj => ?_) ?_
      · obtain ⟨k, hk, rfl⟩ := mem_image.1 hj
        exact mem_range.2 (hσlt k (mem_range.1 hk))
      · rw [card_image_of_injOn fun k h1 j h2 e => hinj k (mem_range.1 (mem_coe.1 h1)) j (mem_range.1 (mem_coe.1 h2)) e]
    have := mem_range.2 hi
    rw [← himg] at this
    obtain ⟨j, hj, e⟩ := mem_image.1 this
    exact ⟨j, mem_range.1 hj, e⟩
  have hne : j ≠ i := by rintro rfl; exact hmove ej
  have hy : (tab (2 ^ m) fun k => nth (unitAt (2 ^ m) i) (σ k)) = unitAt (2 ^ m) j := by
    rw [unitAt, unitAt]
    refine tab_congr fun k hk => ?_
    rw [nth_tab (hσlt k hk)]
    exact if_congr ⟨fun e => hinj k hk j hj (e.trans ej.symm), fun e => by rw [e, ej]⟩ rfl rfl
  rw [radix4Fn_dht, hy, nrm_dht_sub (length_unitAt _ _) (length_unitAt _ _), mul_comm]
  congr 1
  rw [nrm]
  congr 1
  have hv : ∀ k ∈ range (2 ^ m), (nth (unitAt (2 ^ m) j) k - nth (unitAt (2 ^ m) i) k) ^ 2
      = (if k = j then 1 else 0) + if k = i then 1 else 0 := by
    intro k hk
    rw [unitAt, unitAt, nth_tab (mem_range.1 hk), nth_tab (mem_range.1 hk)]
    by_cases h : k = j
    · subst h
      rw [if_pos rfl, if_neg hne]; norm_num
    · rw [if_neg h]
      split_ifs <;> norm_num
  rw [sum_congr rfl hv, sum_add_distrib, sum_ite_eq', sum_ite_eq', if_pos (mem_range.2 hj), if_pos (mem_range.2 hi)]
  norm_num

/-- The unit impulse at 3. -/
theorem radix4_far {m : ℕ} (hm : 7 ≤ m) : FarOff (2 ^ m) (radix4Fn ℝ m) := by
  have h128 : 2 ^ 7 ≤ 2 ^ m := Nat.pow_le_pow_right (by norm_num) hm
  have h3 : 3 < 2 ^ m := by omega
  have hmove : r4Sigma (r4BaseLen m) (r4Levels m) 3 ≠ 3 := by
    rcases r4Sigma_level hm with h | h <;> omega
  refine ⟨unitAt (2 ^ m) 3, length_unitAt _ _, by rw [nrm_unitAt h3]; exact one_pos, ?_⟩
  rw [radix4_impulse h3 hmove, nrm_unitAt h3, mul_one]

/-- Every composition with a `Radix4` of length 128 or more that is not inside `RadersAlgorithm`. -/
theorem plan_far (p : Plan) : p.RadersExact → ¬ p.SmallRadix4 → ∀ d : Dht ℝ, p.build ℝ = .ok d → 0 < d.len → ∀ f, Implements d f →
    FarOff d.len f := by
  have small : ∀ {p : Plan} {d : Dht ℝ} {k : ℕ}, 1 ≤ k → p.build ℝ = .ok d →
      (0 < d.len → d.inplaceScratchLen ≤ k * d.len) ∧ (0 < d.len → d.oopScratchLen = 0) := by
    intro p d k hk e
    have h := (plan_ok p d e).small
    exact ⟨fun hpos => le_trans (h hpos).2 (Nat.le_mul_of_pos_left _ hk), fun hpos => (h hpos).1⟩
  have sums : ∀ {p : Plan} {d : Dht ℝ} {f}, p.build ℝ = .ok d → Implements d f → 0 < d.len → ∀ x, x.length = d.len → nth (f x) 0 = x.sum :=
    fun e hf hpos => root_sums √(1 / 2) e hf hpos
  have fixed : ∀ (k : ℕ) (h : Plan) (hd d : Dht ℝ) (ap : List ℝ → Res (List ℝ)), 0 < k → d.len = k * hd.len →
      h.build ℝ = .ok hd → (∀ f, Implements hd f → Implements d (mrnFn k hd.len f ap)) →
      (∀ x, x.length = k * hd.len → mrnFn k hd.len dht ap x = dht x) → 0 < d.len →
      (0 < hd.len → ∀ f, Implements hd f → FarOff hd.len f) → ∀ f, Implements d f → FarOff d.len f := by
    intro k h hd d ap hk hlen e himp hL hpos ihh f hf
    have hh : 0 < hd.len := Nat.pos_of_ne_zero fun h0 => by rw [hlen, h0] at hpos; omega
    obtain ⟨fh, hfh⟩ := (plan_ok h hd e).implements
    have := middle_far (L := run ap) hk hh hfh.length hL (ihh hh fh hfh)
    rw [← hlen] at this
    exact this.congr fun x hx => hf.unique (himp fh hfh) hx hpos
  induction p with
  | mixedRadix w h ihw ihh =>
    rintro ⟨xw, xh⟩ hn d e hpos f hf
    obtain ⟨wd, ew, e⟩ := bind_eq_ok e
    obtain ⟨hd, eh, e⟩ := bind_eq_ok e
    cases e
    have hpos' : 0 < wd.len * hd.len := hpos
    have pw : 0 < wd.len := Nat.pos_of_mul_pos_right hpos'
    have ph : 0 < hd.len := Nat.pos_of_mul_pos_left hpos'
    obtain ⟨fw, iw⟩ := (plan_ok w wd ew).implements
    obtain ⟨fh, ih⟩ := (plan_ok h hd eh).implements
    have : FarOff (wd.len * hd.len) (mrFn wd.len hd.len fw fh) := by
      by_cases sw : w.SmallRadix4
      · exact mr_height_far pw ph ((only_of_fn iw pw).1 (plan_dht w sw wd ew)) ih.length
          (ihh xh (fun sh => hn ⟨sw, sh⟩) hd eh ph fh ih)
      · exact mr_width_far pw ph iw.length ih.length (sums eh ih ph) (ihw xw sw wd ew pw fw iw)
    exact this.congr fun x hx => hf.unique (mixedRadix_implements iw ih) hx hpos
  | mr2 h ihh =>
    intro x hn d e hpos
    obtain ⟨hd, eh, e⟩ := bind_eq_ok e
    cases e
    exact fixed 2 h hd _ _ (by norm_num) rfl eh (fun f i => mr2_implements i (small (by norm_num) eh).1 (small (k := 1) (by norm_num) eh).2)
      (fun _ => mr2Fn_dht) hpos (ihh x hn hd eh)
  | mr3 h ihh =>
    intro x hn d e hpos
    obtain ⟨hd, eh, e⟩ := bind_eq_ok e
    cases e
    exact fixed 3 h hd _ _ (by norm_num) rfl eh (fun f i => mr3_implements i (small (by norm_num) eh).1 (small (k := 1) (by norm_num) eh).2)
      (fun _ => mr3Fn_dht) hpos (ihh x hn hd eh)
  | mr4 h ihh =>
    intro x hn d e hpos
    obtain ⟨hd, eh, e⟩ := bind_eq_ok e
    cases e
    exact fixed 4 h hd _ _ (by norm_num) rfl eh (fun f i => mr4_implements i (small (by norm_num) eh).1 (small (k := 1) (by norm_num) eh).2)
      (fun _ => mr4Fn_dht) hpos (ihh x hn hd eh)
  | mr5 h ihh =>
    intro x hn d e hpos
    obtain ⟨hd, eh, e⟩ := bind_eq_ok e
    cases e
    exact fixed 5 h hd _ _ (by norm_num) rfl eh (fun f i => mr5_implements i (small (by norm_num) eh).1 (small (k := 1) (by norm_num) eh).2)
      (fun _ => mr5Fn_dht) hpos (ihh x hn hd eh)
  | mr6 h ihh =>
    intro x hn d e hpos
    obtain ⟨hd, eh, e⟩ := bind_eq_ok e
    cases e
    exact fixed 6 h hd _ _ (by norm_num) rfl eh (fun f i => mr6_implements i (small (by norm_num) eh).1 (small (k := 1) (by norm_num) eh).2)
      (fun _ => mr6Fn_dht) hpos (ihh x hn hd eh)
  | radix4 n =>
    intro _ hn d e hpos f hf
    have e : radix4 ℝ n = .ok d := e
    obtain ⟨m, rfl⟩ := radix4_isPow e
    have hdl : d.len = 2 ^ m := by rw [radix4_eq] at e; cases e; rfl
    have hm : 7 ≤ m := by
      by_contra h7
      exact hn (show 2 ^ m ≤ 2 ^ 6 from Nat.pow_le_pow_right (by norm_num) (by omega))
    have h := radix4_far hm
    rw [← hdl] at h
    exact h.congr fun x hx => hf.unique (radix4_implements e) hx hpos
  | splitRadix q h ihq ihh =>
    rintro ⟨xq, xh⟩ hn d e hpos f hf
    obtain ⟨qd, eq, e⟩ := bind_eq_ok e
    obtain ⟨hd, eh, e⟩ := bind_eq_ok e
    have hlen := (splitRadix_eq e).1
    have hdl : d.len = 4 * qd.len := by rw [(splitRadix_eq e).2]; rfl
    have hq : 0 < qd.len := by omega
    obtain ⟨fq, iq⟩ := (plan_ok q qd eq).implements
    obtain ⟨fh, ih⟩ := (plan_ok h hd eh).implements
    have h1 := (plan_ok q qd eq).small hq
    have h2 := (plan_ok h hd eh).small (by omega)
    have himp := splitRadix_implements iq ih e fun _ => ⟨h1.1, by omega, by omega⟩
    have : FarOff (4 * qd.len) (srFn qd.len fq fh) := by
      by_cases sq : q.SmallRadix4
      · have hh := ihh xh (fun sh => hn ⟨sq, sh⟩) hd eh (by omega) fh ih
        rw [hlen] at hh
        exact sr_half_far hq hh
      · exact sr_quarter_far hq (ihq xq sq qd eq hq fq iq)
    rw [← hdl] at this
    exact this.congr fun x hx => hf.unique himp hx hpos
  | raders i ihi =>
    rintro ⟨_, h⟩ hn
    exact absurd h hn
  | _ => exact fun _ hn => absurd trivial hn

end RustDHT
