import Verif.Proofs.RadersInner
import Verif.Proofs.RootScale
import Verif.Props.AnyArith

/-! # Steps that make the transform up to the order of its coefficients -/

open Finset

namespace RustDHT

/-! ## The transform with its coefficients in another order -/

theorem nth_reordered {n u k : ℕ} {x : List ℝ} (hx : x.length = n) (hk : k < n) : nth (reorderedDht u x) k = nth (dht x) (u * k % n) := by
  rw [reorderedDht_eq, hx, nth_tab hk, nth_dht hx (Nat.mod_lt _ (by omega))]
  apply hart_mod
  rw [Int.natCast_mod]
  push_cast
  exact Int.dvd_self_sub_emod

theorem en_reordered {n u : ℕ} (hn : 0 < n) (hu : u.Coprime n) {x : List ℝ} (hx : x.length = n) : en n (reorderedDht u x) = n * en n x := by
  rw [← en_dht hx, en, en, ← sum_unit hn hu fun k => nth (dht x) k ^ 2]
  exact sum_congr rfl fun k hk => by rw [nth_reordered hx (mem_range.1 hk)]

theorem reordered_eq_dht {n u : ℕ} (hu : u % n = 1 % n) {x : List ℝ} (hx : x.length = n) : reorderedDht u x = dht x := by
  refine list_ext_nth (by rw [length_reorderedDht, length_dht]) fun k hk => ?_
  rw [length_reorderedDht, hx] at hk
  rw [nth_reordered hx hk, Nat.mul_mod, hu, ← Nat.mul_mod, one_mul, Nat.mod_eq_of_lt hk]

/-- The coefficient number 1 tells the order. -/
theorem reordered_first {n u : ℕ} (hn : 0 < n) (h : ∀ x, x.length = n → nth (reorderedDht u x) 1 = nth (dht x) 1) : u % n = 1 % n := by
  rcases Nat.eq_or_lt_of_le (show 1 ≤ n from hn) with h1 | h1
  · rw [← h1, Nat.mod_one, Nat.mod_one]
  obtain ⟨x, hx, ex⟩ := onto_dht hn (tab n fun k => if k = 1 then (1 : ℝ) else 0) (length_tab _ _)
  have e := h x hx
  rw [nth_reordered hx h1, ex, nth_tab h1, if_pos rfl, nth_tab (Nat.mod_lt _ hn), mul_one] at e
  by_contra hne
  rw [Nat.mod_eq_of_lt h1] at hne
  rw [if_neg hne] at e
  exact zero_ne_one e

/-- The transform of the impulse at 1 tells the order. -/
theorem reordered_impulse {n u : ℕ} (h1 : 1 < n) (h : reorderedDht u (unitAt n 1) = dht (unitAt n 1)) : u % n = 1 % n := by
  have hn : 0 < n := by omega
  have e : dht (unitAt n (u % n)) = dht (unitAt n 1) := by
    rw [← h]
    refine list_ext_nth (by rw [length_reorderedDht, length_dht, length_unitAt, length_unitAt]) fun k hk => ?_
    rw [length_dht, length_unitAt] at hk
    rw [nth_reordered (length_unitAt n 1) hk, unitAt, unitAt, dht_tab, dht_tab, nth_tab hk, nth_tab (Nat.mod_lt _ hn),
      hart_unit (Nat.mod_lt _ hn), hart_unit h1]
    apply ca_congr
    rw [Int.natCast_mod, Int.natCast_mod, ← ZMod.intCast_eq_intCast_iff_dvd_sub]
    push_cast
    simp
  have e2 := congrArg (nth · 1) (dht_injective (by rw [length_unitAt, length_unitAt]) e)
  simp only [unitAt] at e2
  rw [nth_tab h1, nth_tab h1, if_pos rfl] at e2
  by_contra hne
  rw [Nat.mod_eq_of_lt h1] at hne
  rw [if_neg (fun h => hne h.symm)] at e2
  exact zero_ne_one e2

/-! ## Mixed-radix steps -/

/-- `s` at the multiples of `w`, with zeros in between. -/
noncomputable def spread (w h : ℕ) (s : List ℝ) : List ℝ := tab (w * h) fun p => if p % w = 0 then nth s (p / w) else 0

theorem length_spread (w h : ℕ) (s : List ℝ) : (spread w h s).length = w * h := length_tab _ _

theorem hart_spread {w h : ℕ} (hw : 0 < w) (s : List ℝ) (k : ℤ) : hart (w * h) (nth (spread w h s)) k = hart h (nth s) k := by
  have hc : w * h = h * w := Nat.mul_comm w h
  rw [hart, hart, hc, sum_range_mul]
  refine sum_congr rfl fun m hm => ?_
  rw [sum_eq_single 0]
  · have hp : m * w < w * h := by rw [hc]; exact Nat.mul_lt_mul_of_pos_right (mem_range.1 hm) hw
    rw [Nat.add_zero, spread, nth_tab hp, Nat.mul_mod_left, if_pos rfl, Nat.mul_div_cancel _ hw, ← ca_mul (n := h) hw]
    congr 2
    push_cast
    ring
  · intro r hr h0
    have hr := mem_range.1 hr
    have hp : m * w + r < w * h := by rw [hc]; exact pos_lt (mem_range.1 hm) hr
    rw [spread, nth_tab hp, mod_of_lt hr, if_neg h0, zero_mul]
  · intro h0
    exact absurd (mem_range.2 hw) h0

theorem row_spread {w h : ℕ} (hw : 0 < w) {s : List ℝ} (hs : s.length = h) : rowOf h 0 (mrStep1 w h (spread w h s)) = s := by
  refine list_ext_nth (by rw [length_rowOf (length_step1 w h _) hw, hs]) fun j hj => ?_
  rw [length_rowOf (length_step1 w h _) hw] at hj
  have h1 : 0 * h + j < w * h := pos_lt hw hj
  have h2 : j * w < w * h := by rw [Nat.mul_comm w h]; exact Nat.mul_lt_mul_of_pos_right hj hw
  have h3 : revRow w h 0 j = j := by unfold revRow; split <;> omega
  rw [nth_rowOf hj, mrStep1, nth_tab h1, div_of_lt hj, mod_of_lt hj, h3, Nat.add_zero, spread, nth_tab h2, Nat.mul_mod_left, if_pos rfl,
    Nat.mul_div_cancel _ hw]

/-- If the step makes the transform up to the order of the coefficients, so does the object for the rows, and the constant is right, up to
its sign, if it is used. -/
theorem stage_reordered {w h u : ℕ} {δ : ℝ} (hw : 0 < w) (hh : 0 < h) {f L : List ℝ → List ℝ} (hl : ∀ x, x.length = h → (f x).length = h)
    (hL : ∀ x, x.length = w * h → L (mapChunks h dht (mrStep1 w h x)) = rootDht w δ x) (hu : u.Coprime (w * h))
    (hF : ∀ x, x.length = w * h → L (mapChunks h f (mrStep1 w h x)) = reorderedDht u x) :
    (∀ x, x.length = h → f x = reorderedDht u x) ∧ (w ≤ 1 ∨ h ≤ 1 ∨ δ ^ 2 = 1) := by
  have ld : ∀ x : List ℝ, x.length = h → (dht x).length = h := fun x hx => by rw [length_dht, hx]
  have hwh : 0 < w * h := Nat.mul_pos hw hh
  have right : ∀ x, x.length = h → f x = reorderedDht u x := by
    intro s hs
    obtain ⟨s1, hs1, es⟩ := onto_dht hh (reorderedDht u s) (by rw [length_reorderedDht, hs])
    obtain ⟨x1, h1, e1, e2⟩ := stage_scaled hh hL (z := mapChunks h f (mrStep1 w h (spread w h s)))
      (by rw [length_mapChunks hh hl, length_step1])
    rw [hF _ (length_spread w h s)] at e2
    have e3 : reorderedDht u (spread w h s) = dht (spread w h s1) := by
      refine list_ext_nth (by rw [length_reorderedDht, length_dht, length_spread, length_spread]) fun k hk => ?_
      rw [length_reorderedDht, length_spread] at hk
      have e4 := congrArg (nth · (k % h)) es
      simp only [reorderedDht_eq, hs] at e4
      rw [nth_tab (Nat.mod_lt _ hh), nth_dht hs1 (Nat.mod_lt _ hh)] at e4
      rw [reorderedDht_eq, length_spread, nth_tab hk, nth_dht (length_spread w h s1) hk, hart_spread hw, hart_spread hw]
      have m1 : hart h (nth s1) (k : ℤ) = hart h (nth s1) ((k % h : ℕ) : ℤ) := by
        apply hart_mod
        rw [Int.natCast_mod]
        exact Int.dvd_self_sub_emod
      have m2 : hart h (nth s) (u * k : ℤ) = hart h (nth s) (u * ((k % h : ℕ) : ℤ)) := by
        apply hart_mod
        rw [Int.natCast_mod, ← mul_sub]
        exact Dvd.dvd.mul_left Int.dvd_self_sub_emod _
      rw [m1, m2, e4]
    have e5 : x1 = spread w h s1 := dht_injective (by rw [h1, length_spread]) (e2.symm.trans e3)
    rw [e5] at e1
    rw [← es]
    refine list_ext_nth (by rw [hl s hs, length_dht, hs1]) fun c hc => ?_
    rw [hl s hs] at hc
    have e := congrArg (nth · (0 * h + c)) e1
    simp only [nth_scl δ _ hw hc, nth_chunkRow hl (length_step1 w h _) hw hc, nth_chunkRow ld (length_step1 w h _) hw hc,
      row_spread hw hs, row_spread hw hs1] at e
    rw [if_pos (Or.inl trivial), one_mul] at e
    exact e.symm
  refine ⟨right, ?_⟩
  by_contra hno
  push Not at hno
  obtain ⟨h1, h2, h3⟩ := hno
  obtain ⟨x, hx, ex⟩ := step1_onto (k := w) hh (tab (w * h) fun p => if p = h then (1 : ℝ) else 0) (length_tab _ _)
  have ex : mrStep1 w h x = tab (w * h) fun p => if p = h then (1 : ℝ) else 0 := ex
  have hy : (tab (w * h) fun p => if p = h then (1 : ℝ) else 0).length = w * h := length_tab _ _
  have hen := stage_en hh hL (z := mapChunks h f (mrStep1 w h x)) (by rw [length_mapChunks hh hl, length_step1])
  have enx : en (w * h) x = 1 := by
    rw [← en_step1 hh hx, ex, en, sum_eq_single h]
    · rw [nth_tab (by nlinarith), if_pos rfl, one_pow]
    · intro p hp hne
      rw [nth_tab (mem_range.1 hp), if_neg hne, zero_pow (by norm_num)]
    · intro h0
      exact absurd (mem_range.2 (by nlinarith)) h0
  have rows : ∀ r < w, rowOf h r (tab (w * h) fun p => if p = h then (1 : ℝ) else 0) = tab h fun c => if r = 1 ∧ c = 0 then 1 else 0 := by
    intro r hr
    refine eq_tab (length_rowOf hy hr) fun c hc => ?_
    rw [nth_rowOf hc, nth_tab (pos_lt hr hc)]
    refine if_congr ⟨fun e => ?_, ?_⟩ rfl rfl
    · have d1 := div_of_lt (c := r) hc
      have d2 := mod_of_lt (c := r) hc
      rw [e, Nat.div_self hh] at d1
      rw [e, Nat.mod_self] at d2
      exact ⟨d1.symm, d2.symm⟩
    · rintro ⟨rfl, rfl⟩
      omega
  have ens : en (w * h) (scl w h δ (mapChunks h f (mrStep1 w h x))) = 1 + (h - 1) * δ ^ 2 := by
    rw [ex, en_rows, sum_eq_single 1]
    · rw [en]
      have v : ∀ c ∈ range h, nth (rowOf h 1 (scl w h δ (mapChunks h f (tab (w * h) fun p => if p = h then (1 : ℝ) else 0)))) c ^ 2
          = δ ^ 2 + if c = 0 then 1 - δ ^ 2 else 0 := by
        intro c hc
        have hc := mem_range.1 hc
        rw [nth_rowOf hc, nth_scl δ _ h1 hc, nth_chunkRow hl hy h1 hc, rows 1 h1, right _ (length_tab _ _), reorderedDht_eq, length_tab,
          nth_tab hc, hart]
        rw [sum_eq_single 0]
        · rw [nth_tab hh, if_pos (⟨rfl, rfl⟩ : 1 = 1 ∧ 0 = 0), Nat.cast_zero, zero_mul, ca_zero]
          by_cases h0 : c = 0
          · rw [if_pos (Or.inr h0), if_pos h0]; ring
          · rw [if_neg (by omega), if_neg h0]; ring
        · intro i hi h0
          rw [nth_tab (mem_range.1 hi), if_neg (fun e => h0 e.2), zero_mul]
        · intro h0
          exact absurd (mem_range.2 hh) h0
      rw [sum_congr rfl v, sum_add_distrib, sum_const, card_range, sum_ite_eq', if_pos (mem_range.2 hh), nsmul_eq_mul]
      ring
    · intro r hr hne
      have hr := mem_range.1 hr
      rw [en]
      refine sum_eq_zero fun c hc => ?_
      have hc := mem_range.1 hc
      rw [nth_rowOf hc, nth_scl δ _ hr hc, nth_chunkRow hl hy hr hc, rows r hr, right _ (length_tab _ _), reorderedDht_eq, length_tab,
        nth_tab hc, hart, sum_eq_zero, mul_zero, zero_pow (by norm_num)]
      intro i hi
      rw [nth_tab (mem_range.1 hi), if_neg (fun e => hne e.1), zero_mul]
    · intro h0
      exact absurd (mem_range.2 h1) h0
  rw [hF x hx, en_reordered hwh hu hx, enx, ens] at hen
  push_cast at hen
  have hw' : (w : ℝ) ≠ 0 := by exact_mod_cast hw.ne'
  have hh' : (h : ℝ) - 1 ≠ 0 := sub_ne_zero.2 (by exact_mod_cast (show h ≠ 1 by omega))
  have e1 : (h : ℝ) - 1 = (h - 1) * δ ^ 2 := by
    have := mul_left_cancel₀ hw' (show (w : ℝ) * h = w * (1 + (h - 1) * δ ^ 2) by linarith)
    linarith
  exact h3 (mul_left_cancel₀ hh' (e1.symm.trans (mul_one _).symm))

theorem mr_width_reordered [FftNum ℝ] {w h u : ℕ} (hw : 0 < w) (hh : 0 < h) {fw fh : List ℝ → List ℝ}
    (lw : ∀ x, x.length = w → (fw x).length = w) (lh : ∀ x, x.length = h → (fh x).length = h)
    (gh : ∀ x, x.length = h → nth (fh x) 0 = x.sum)
    (e : ∀ x, x.length = w * h → mrFn w h fw fh x = reorderedDht u x) : ∀ x, x.length = w → fw x = reorderedDht u x := by
  intro s hs
  have hle : w ≤ w * h := Nat.le_mul_of_pos_right _ hh
  refine list_ext_nth (by rw [lw s hs, length_reorderedDht, hs]) fun j hj => ?_
  rw [lw s hs] at hj
  have hx : (tab (w * h) fun p => if p < w then nth s p else 0).length = w * h := length_tab _ _
  have hsum : (tab w fun r => ∑ i ∈ range h, nth (tab (w * h) fun p => if p < w then nth s p else 0) (revRow w h r i * w + r)) = s := by
    refine (eq_tab hs fun r hr => ?_).symm
    have hv : ∀ i < h, nth (tab (w * h) fun p => if p < w then nth s p else 0) (revRow w h r i * w + r)
        = if i = revRow w h r 0 then nth s r else 0 := by
      intro i hi
      have hrow : revRow w h r i < h := by unfold revRow; split <;> omega
      have hz : revRow w h r i = 0 ↔ i = revRow w h r 0 := by unfold revRow; split <;> omega
      rw [nth_tab (by rw [Nat.mul_comm w h]; exact pos_lt hrow hr)]
      by_cases h0 : i = revRow w h r 0
      · rw [if_pos h0, hz.2 h0, Nat.zero_mul, Nat.zero_add, if_pos hr]
      · have h1 : 1 * w ≤ revRow w h r i * w := Nat.mul_le_mul_right _ (Nat.pos_of_ne_zero (mt hz.1 h0))
        rw [if_neg h0, if_neg (by omega)]
    have hrow : revRow w h r 0 < h := by unfold revRow; split <;> omega
    rw [Finset.sum_congr rfl fun i hi => hv i (Finset.mem_range.1 hi), Finset.sum_ite_eq', if_pos (Finset.mem_range.2 hrow)]
  have e1 := mr_column_zero hw hh lw lh gh (x := tab (w * h) fun p => if p < w then nth s p else 0) hj
  rw [hsum, e _ hx, reorderedDht_eq, hx, nth_tab (Nat.mul_lt_mul_of_pos_right hj hh)] at e1
  rw [← e1, reorderedDht_eq, hs, nth_tab hj, hart, hart]
  refine (sum_subset_zero_on_sdiff (range_subset_range.2 hle) (fun p hp => ?_) fun p hp => ?_).symm
  · rw [mem_sdiff, mem_range, mem_range] at hp
    rw [nth_tab hp.1, if_neg hp.2, zero_mul]
  · have hp := mem_range.1 hp
    rw [nth_tab (by omega), if_pos hp, ← ca_mul (n := w) hh]
    congr 2
    push_cast
    ring

/-! ## SplitRadix -/

theorem sr_order {q u : ℕ} (hq : 0 < q) {fq fh : List ℝ → List ℝ} (gq : ∀ x, x.length = q → nth (fq x) 0 = x.sum)
    (e : ∀ x, x.length = 4 * q → srFn q fq fh x = reorderedDht u x) : u % (4 * q) = 1 % (4 * q) := by
  refine reordered_first (by omega) fun x hx => ?_
  have e1 := congrArg (nth · 1) (e x hx)
  have e2 := congrArg (nth · 1) (srFn_dht hx)
  simp only [srFn] at e1 e2
  rw [nth_tab (by omega), if_neg (by omega), if_pos (by omega), gq _ (length_tab _ _)] at e1
  rw [nth_tab (by omega), if_neg (by omega), if_pos (by omega), dht_first (by rw [length_tab]; omega)] at e2
  rw [← e1, ← e2]

/-! ## Radix4 -/

theorem radix4_order {m u : ℕ} (hm : 7 ≤ m) (h : ∀ x, x.length = 2 ^ m → radix4Fn ℝ m x = reorderedDht u x) : False := by
  have h128 : 2 ^ 7 ≤ 2 ^ m := Nat.pow_le_pow_right (by norm_num) hm
  have hfix : r4Sigma (r4BaseLen m) (r4Levels m) 1 = 1 := by
    rw [r4Sigma_fixed (r4BaseLen_pos m) _ _ (lt_of_lt_of_eq (by omega) (r4_len m))]
    intro j _
    rcases j with _ | j
    · norm_num
    · rw [Nat.div_eq_of_lt (Nat.one_lt_pow (by omega) (by norm_num))]
      norm_num
  have hs : (tab (2 ^ m) fun i => nth (unitAt (2 ^ m) 1) (r4Sigma (r4BaseLen m) (r4Levels m) i)) = unitAt (2 ^ m) 1 := by
    rw [unitAt]
    refine tab_congr fun i hi => ?_
    rw [nth_tab (lt_of_lt_of_eq (r4Sigma_lt (r4BaseLen_pos m) (lt_of_lt_of_eq hi (r4_len m))) (r4_len m).symm)]
    refine if_congr ⟨fun e => ?_, ?_⟩ rfl rfl
    · exact r4Sigma_inj (r4BaseLen_pos m) (lt_of_lt_of_eq hi (r4_len m)) (lt_of_lt_of_eq (show 1 < 2 ^ m by omega) (r4_len m))
        (e.trans hfix.symm)
    · rintro rfl
      exact hfix
  have e := h (unitAt (2 ^ m) 1) (length_unitAt _ _)
  rw [radix4Fn_dht, hs] at e
  have hu := reordered_impulse (show 1 < 2 ^ m by omega) e.symm
  exact radix4Fn_wrong hm ((h _ (length_tab _ _)).trans (reordered_eq_dht hu (length_tab _ _)))

/-! ## Linearity -/

theorem linear_of_comb {n : ℕ} {f : List ℝ → List ℝ} (lf : ∀ x, x.length = n → (f x).length = n)
    (h : ∀ (a b : ℝ) (x y : List ℝ), x.length = n → y.length = n →
      f (List.zipWith (fun u v => a * u + b * v) x y) = List.zipWith (fun u v => a * u + b * v) (f x) (f y)) : LinearFn n f := by
  have zip : ∀ (a b : ℝ) (x y : List ℝ), x.length = n → y.length = n → ∀ k < n,
      nth (List.zipWith (fun u v => a * u + b * v) x y) k = a * nth x k + b * nth y k := by
    intro a b x y hx hy k hk
    simp only [nth, List.getElem?_zipWith, List.getElem?_eq_getElem (show k < x.length by omega),
      List.getElem?_eq_getElem (show k < y.length by omega), Option.getD_some]
  intro x hx k hk
  have key : ∀ m ≤ n, nth (f (tab n fun i => if i < m then nth x i else 0)) k = ∑ j ∈ range m, nth x j * nth (f (unitAt n j)) k := by
    intro m
    induction m with
    | zero =>
      intro _
      have e1 : (tab n fun i => if i < 0 then nth x i else 0) = List.zipWith (fun u v => (0 : ℝ) * u + 0 * v) x x := by
        symm
        refine eq_tab (by rw [List.length_zipWith, hx, min_self]) fun i hi => ?_
        rw [zip _ _ _ _ hx hx i hi, if_neg (by omega)]
        ring
      rw [e1, h _ _ _ _ hx hx, zip _ _ _ _ (lf _ hx) (lf _ hx) k hk, sum_range_zero]
      ring
    | succ m ih =>
      intro hm
      have l1 : (tab n fun i => if i < m then nth x i else 0).length = n := length_tab _ _
      have l2 := length_unitAt n m
      have e1 : (tab n fun i => if i < m + 1 then nth x i else 0)
          = List.zipWith (fun u v => (1 : ℝ) * u + nth x m * v) (tab n fun i => if i < m then nth x i else 0) (unitAt n m) := by
        symm
        refine eq_tab (by rw [List.length_zipWith, l1, l2, min_self]) fun i hi => ?_
        rw [zip _ _ _ _ l1 l2 i hi, nth_tab hi, unitAt, nth_tab hi]
        rcases lt_trichotomy i m with h0 | h0 | h0
        · rw [if_pos h0, if_neg (by omega), if_pos (by omega)]; ring
        · subst h0
          rw [if_neg (by omega), if_pos rfl, if_pos (by omega)]; ring
        · rw [if_neg (by omega), if_neg (by omega), if_neg (by omega)]; ring
      rw [e1, h _ _ _ _ l1 l2, zip _ _ _ _ (lf _ l1) (lf _ l2) k hk, ih (by omega), sum_range_succ, one_mul]
  rw [← key n le_rfl]
  congr 2
  exact eq_tab hx fun i hi => by rw [if_pos hi]

theorem plan_linear [FftNum ℝ] (p : Plan) (d : Dht ℝ) (e : p.build ℝ = .ok d) {f : List ℝ → List ℝ} (hf : Implements d f) :
    LinearFn d.len f := by
  refine linear_of_comb hf.length fun a b x y hx hy => ?_
  obtain ⟨X, Y, e1, e2, -, e3⟩ := C39_linear_any_tables p d e a b x y (by rw [hx, hy]) hx.ge (by rw [hx])
  rw [process_single hf hx] at e1
  rw [process_single hf hy] at e2
  rw [process_single hf (by rw [List.length_zipWith, hx, hy, min_self])] at e3
  cases e1
  cases e2
  exact Except.ok.inj e3

end RustDHT
