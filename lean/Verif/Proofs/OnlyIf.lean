import Verif.Proofs.MixStage
import Verif.Proofs.SplitStage
import Verif.Proofs.FirstCoefficient
import Verif.Proofs.Radix4Defect
import Verif.Proofs.Override
import Verif.Proofs.SumsIeee
import Verif.Spec.OnlyIf
import Verif.Proofs.RadersStage

/-! # A composition is right only if its parts are -/

namespace RustDHT

open Finset

/-- `f` is the transform on lists of length `n`. -/
def IsDht (n : ℕ) (f : List ℝ → List ℝ) : Prop := ∀ x, x.length = n → f x = dht x

theorem chunks_only {k h : ℕ} (hk : 0 < k) (hh : 0 < h) {f : List ℝ → List ℝ} (hl : ∀ x, x.length = h → (f x).length = h)
    (e : ∀ z, z.length = k * h → mapChunks h f z = mapChunks h dht z) : IsDht h f := by
  intro x hx
  obtain ⟨k, rfl⟩ := Nat.exists_eq_succ_of_ne_zero hk.ne'
  have hz : (x ++ List.replicate (k * h) (0 : ℝ)).length = (k + 1) * h := by
    rw [List.length_append, hx, List.length_replicate, Nat.add_mul, Nat.one_mul, Nat.add_comm]
  have e1 := e _ hz
  have hz' : h ≤ (x ++ List.replicate (k * h) (0 : ℝ)).length := by rw [List.length_append]; omega
  rw [mapChunks_of_ge (f := f) hh hz', mapChunks_of_ge (f := dht) hh hz', List.take_left' hx] at e1
  exact (List.append_inj e1 (by rw [hl x hx, length_dht, hx])).1

/-- If the part before and the whole are onto and one to one, the middle can be read off. -/
theorem middle_only {k h : ℕ} (hk : 0 < k) (hh : 0 < h) {f : List ℝ → List ℝ} (hl : ∀ x, x.length = h → (f x).length = h)
    {R L : List ℝ → List ℝ} (hR : Onto (k * h) R) (hRl : ∀ x, x.length = k * h → (R x).length = k * h)
    (h1 : ∀ x, x.length = k * h → L (mapChunks h dht (R x)) = dht x)
    (h2 : ∀ x, x.length = k * h → L (mapChunks h f (R x)) = dht x) : IsDht h f := by
  refine chunks_only hk hh hl fun z hz => ?_
  obtain ⟨x, hx, rfl⟩ := hR z hz
  have o2 := (onto_chunks (k := k) (onto_dht hh) (fun x hx => by rw [length_dht, hx]) hh).comp hR
  obtain ⟨y, hy, e⟩ := o2 (mapChunks h f (R x)) (by rw [length_mapChunks hh hl, hRl x hx])
  have e2 := h2 x hx
  rw [← e] at e2
  have e3 := dht_injective (by rw [hy, hx]) ((h1 y hy).symm.trans e2)
  rw [← e, e3]

theorem step1_onto {k h : ℕ} (hh : 0 < h) :
    Onto (k * h) (fun x => tab (k * h) fun p => nth x (revRow k h (p / h) (p % h) * k + p / h)) :=
  onto_perm (fun _ hp => revRow_lt hh hp) (fun _ hp _ hp' e => revRow_inj hh hp hp' e)

theorem mrn_only {k h : ℕ} (hk : 0 < k) (hh : 0 < h) {f : List ℝ → List ℝ} (hl : ∀ x, x.length = h → (f x).length = h)
    {ap : List ℝ → Res (List ℝ)} (h1 : IsDht (k * h) (mrnFn k h dht ap)) (h2 : IsDht (k * h) (mrnFn k h f ap)) : IsDht h f :=
  middle_only hk hh hl (L := run ap) (step1_onto hh) (fun _ _ => length_tab _ _) h1 h2

theorem list_sum (x : List ℝ) : x.sum = ∑ i ∈ range x.length, nth x i := by
  simpa using sum_map_eq x id

/-- The outputs `0, h, 2 h, …` of `MixedRadix` are the transform of width on the sums of the columns. -/
theorem mr_column_zero [FftNum ℝ] {w h : ℕ} (hw : 0 < w) (hh : 0 < h) {fw fh : List ℝ → List ℝ} (lw : ∀ x, x.length = w → (fw x).length = w)
    (lh : ∀ x, x.length = h → (fh x).length = h) (gh : ∀ x, x.length = h → nth (fh x) 0 = x.sum) {x : List ℝ}
    {j : ℕ} (hj : j < w) :
    nth (mrFn w h fw fh x) (j * h) = nth (fw (tab w fun r => ∑ i ∈ range h, nth x (revRow w h r i * w + r))) j := by
  have hwh : 0 < w * h := Nat.mul_pos hw hh
  have hle : w ≤ h * w := Nat.le_mul_of_pos_left _ hh
  have hj' : j * h < w * h := Nat.mul_lt_mul_of_pos_right hj hh
  have h1 : (mrStep1 w h x).length = w * h := by simp [mrStep1]
  simp only [mrFn]
  rw [nth_tab hj', Nat.mul_mod_left, Nat.mul_div_cancel _ hh, Nat.zero_mul, Nat.zero_add, nth_tab (by omega),
    Nat.div_eq_of_lt hj, Nat.mod_eq_of_lt hj, if_pos (by omega), nth_mapChunks lw hj (by simpa using hle)]
  congr 2
  refine eq_tab (by simp [hle]) fun r hr => ?_
  have hr' : r * h < w * h := Nat.mul_lt_mul_of_pos_right hr hh
  rw [nth_take hr, nth_drop, Nat.zero_mul, Nat.zero_add, nth_tab (by omega), Nat.mod_eq_of_lt hr, Nat.div_eq_of_lt hr, Nat.add_zero,
    nth_tab hr', Nat.mul_div_cancel _ hh, Nat.mul_mod_left, mrVal, if_pos (Or.inr rfl)]
  have hc : (r + 1) * h ≤ (mrStep1 w h x).length := by rw [h1]; exact Nat.mul_le_mul_right _ hr
  have hlen : (((mrStep1 w h x).drop (r * h)).take h).length = h := by
    rw [Nat.add_mul] at hc
    rw [List.length_take, List.length_drop]; omega
  refine (nth_mapChunks lh hh hc).trans ?_
  rw [gh _ hlen]
  have : ((mrStep1 w h x).drop (r * h)).take h = tab h fun i => nth x (revRow w h r i * w + r) := by
    refine eq_tab hlen fun i hi => ?_
    rw [nth_take hi, nth_drop, mrStep1, nth_tab (pos_lt hr hi), div_of_lt hi, mod_of_lt hi]
  rw [this, list_sum, length_tab]
  exact Finset.sum_congr rfl fun i hi => nth_tab (Finset.mem_range.1 hi)

theorem dht_first {x : List ℝ} (hx : 0 < x.length) : nth (dht x) 0 = x.sum := by
  rw [list_sum, nth_dht rfl hx]
  simp [hart, ca]


theorem mr_width_only [FftNum ℝ] {w h : ℕ} (hw : 0 < w) (hh : 0 < h) {fw fh : List ℝ → List ℝ} (lw : ∀ x, x.length = w → (fw x).length = w)
    (lh : ∀ x, x.length = h → (fh x).length = h) (gh : ∀ x, x.length = h → nth (fh x) 0 = x.sum)
    (e : IsDht (w * h) (mrFn w h fw fh)) : IsDht w fw := by
  intro s hs
  have hle : w ≤ w * h := Nat.le_mul_of_pos_right _ hh
  refine list_ext_nth (by rw [lw s hs, length_dht, hs]) fun j hj => ?_
  rw [lw s hs] at hj
  have hx : (tab (w * h) fun p => if p < w then nth s p else 0).length = w * h := length_tab _ _
  have hsum : (tab w fun r => ∑ i ∈ range h, nth (tab (w * h) fun p => if p < w then nth s p else 0) (revRow w h r i * w + r)) = s := by
    refine (eq_tab hs fun r hr => ?_).symm
    have hv : ∀ i < h, nth (tab (w * h) fun p => if p < w then nth s p else 0) (revRow w h r i * w + r)
        = if i = revRow w h r 0 then nth s r else 0 := by
      intro i hi
      have hrow : revRow w h r i < h := by unfold revRow; split <;> omega
      have hz : revRow w h r i = 0 ↔ i = revRow w h r 0 := by unfold revRow; split <;> omega
      rw [nth_tab (by rw [Nat.mul_comm w h]; exact pos_lt hrow hr)]
      by_cases h0 : i = revRow w h r 0
      · rw [if_pos h0, hz.2 h0, Nat.zero_mul, Nat.zero_add, if_pos hr]
      · have h1 : 1 * w ≤ revRow w h r i * w := Nat.mul_le_mul_right _ (Nat.pos_of_ne_zero (mt hz.1 h0))
        rw [if_neg h0, if_neg (by omega)]
    have hrow : revRow w h r 0 < h := by unfold revRow; split <;> omega
    rw [Finset.sum_congr rfl fun i hi => hv i (Finset.mem_range.1 hi), Finset.sum_ite_eq', if_pos (Finset.mem_range.2 hrow)]
  have e1 := mr_column_zero hw hh lw lh gh (x := tab (w * h) fun p => if p < w then nth s p else 0) hj
  have e2 := @mr_column_zero exactReal _ _ hw hh (fw := dht) (fh := dht) (fun x hx => by rw [length_dht, hx]) (fun x hx => by rw [length_dht, hx])
    (fun x hx' => dht_first (by omega)) (x := tab (w * h) fun p => if p < w then nth s p else 0) _ hj
  rw [hsum] at e1 e2
  rw [← e1, ← e2, e _ hx, mrFn_dht (fun _ _ => rfl) (fun _ _ => rfl) hx]

theorem mr_only {w h : ℕ} (hw : 0 < w) (hh : 0 < h) {fw fh : List ℝ → List ℝ} (lw : ∀ x, x.length = w → (fw x).length = w)
    (lh : ∀ x, x.length = h → (fh x).length = h) (gh : ∀ x, x.length = h → nth (fh x) 0 = x.sum)
    (e : IsDht (w * h) (mrFn w h fw fh)) : IsDht w fw ∧ IsDht h fh := by
  have h1 : IsDht w fw := mr_width_only hw hh lw lh gh e
  refine ⟨h1, ?_⟩
  have e' : ∀ x, x.length = w * h → mrFn w h dht fh x = dht x := by
    intro x hx
    rw [← e x hx]
    simp only [mrFn]
    rw [mapChunks_congr h1]
  exact middle_only hw hh lh (R := mrStep1 w h) (L := fun y => mrTail w h dht (mrTwist w h ℝ y)) (step1_onto hh)
    (fun _ _ => length_tab _ _) (fun x hx => mrFn_dht (fun _ _ => rfl) (fun _ _ => rfl) hx) e'

theorem sr_only {q : ℕ} (hq : 0 < q) {fq fh : List ℝ → List ℝ} (lq : ∀ x, x.length = q → (fq x).length = q)
    (lh : ∀ x, x.length = 2 * q → (fh x).length = 2 * q) (e : IsDht (4 * q) (srFn q fq fh)) : IsDht q fq ∧ IsDht (2 * q) fh := by
  constructor
  · intro s hs
    obtain ⟨x, hx, ex⟩ := onto_dht (n := 4 * q) (by omega) (tab (4 * q) fun p => nth (dht s) (p / 4)) (length_tab _ _)
    have e1 : tab q (srQ1 q x) = s := by
      refine dht_injective (by rw [length_tab, hs]) (list_ext_nth (by simp [length_dht, hs]) fun j hj => ?_)
      rw [length_dht, length_tab] at hj
      have e2 := congrArg (nth · (4 * j + 1)) (srFn_dht hx)
      simp only [srFn, ex] at e2
      rw [nth_tab (by omega), if_neg (by omega), if_pos (by omega), nth_tab (by omega), show (4 * j + 1) / 4 = j by omega] at e2
      exact e2
    refine list_ext_nth (by rw [lq s hs, length_dht, hs]) fun j hj => ?_
    rw [lq s hs] at hj
    have e2 := congrArg (nth · (4 * j + 1)) (e x hx)
    simp only [srFn, ex] at e2
    rw [nth_tab (by omega), if_neg (by omega), if_pos (by omega), nth_tab (by omega), show (4 * j + 1) / 4 = j by omega, e1] at e2
    exact e2
  · intro s hs
    obtain ⟨x, hx, ex⟩ := onto_dht (n := 4 * q) (by omega) (tab (4 * q) fun p => nth (dht s) (p / 2)) (length_tab _ _)
    have e1 : tab (2 * q) (srEven q x) = s := by
      refine dht_injective (by rw [length_tab, hs]) (list_ext_nth (by simp [length_dht, hs]) fun j hj => ?_)
      rw [length_dht, length_tab] at hj
      have e2 := congrArg (nth · (2 * j)) (srFn_dht hx)
      simp only [srFn, ex] at e2
      rw [nth_tab (by omega), if_pos (by omega), nth_tab (by omega), show (2 * j) / 2 = j by omega] at e2
      exact e2
    refine list_ext_nth (by rw [lh s hs, length_dht, hs]) fun j hj => ?_
    rw [lh s hs] at hj
    have e2 := congrArg (nth · (2 * j)) (e x hx)
    simp only [srFn, ex] at e2
    rw [nth_tab (by omega), if_pos (by omega), nth_tab (by omega), show (2 * j) / 2 = j by omega, e1] at e2
    exact e2

/-! ## Rader's algorithm -/

theorem rdIn_onto {n g gi : ℕ} (hg : RadersGen n g gi) {u : List ℝ} (hu : u.length = n) :
    ∃ x : List ℝ, x.length = n + 1 ∧ nth x 0 = 0 ∧ rdIn (n + 1) g x = u := by
  obtain ⟨X, hX, e2⟩ := onto_perm (fun i _ => hg.pow_lt i) (fun i hi j hj e => hg.pow_inj hi hj e) u hu
  refine ⟨0 :: X, by simp [hX], rfl, ?_⟩
  rw [← e2, rdIn]
  refine tab_congr fun j _ => ?_
  have := pow_mod_pos hg.prime hg.g0 hg.glt j
  rw [show g ^ j % (n + 1) = g ^ j % (n + 1) - 1 + 1 by omega, nth_cons_succ, Nat.add_sub_cancel]

/-- The second inner transforms agree if the results do. -/
theorem rd_same {n g gi : ℕ} (hg : RadersGen n g gi) {tw tw' : ℕ → Cx ℝ} {f f' : List ℝ → List ℝ}
    (lf : ∀ x, x.length = n → (f x).length = n) (lf' : ∀ x, x.length = n → (f' x).length = n) {x : List ℝ}
    (e : rdFn (n + 1) g gi tw f x = rdFn (n + 1) g gi tw' f' x) :
    f (rdMid (n + 1) tw (nth x 0) (f (rdIn (n + 1) g x))) = f' (rdMid (n + 1) tw' (nth x 0) (f' (rdIn (n + 1) g x))) := by
  have lm : ∀ (tw : ℕ → Cx ℝ) a y, (rdMid (n + 1) tw a y).length = n := fun _ _ _ => length_tab _ _
  refine list_ext_nth (by rw [lf _ (lm _ _ _), lf' _ (lm _ _ _)]) fun m hm => ?_
  rw [lf _ (lm _ _ _)] at hm
  have hdl := dlog_pow hg.prime hg.gi0 hg.gilt (by simpa using hg.giord) m
  obtain ⟨q, hq⟩ : ∃ q, gi ^ m % (n + 1) = q + 1 := ⟨gi ^ m % (n + 1) - 1, by have := pow_mod_pos hg.prime hg.gi0 hg.gilt m; omega⟩
  have hq1 : q < n := by have := Nat.mod_lt (gi ^ m) (show 0 < n + 1 by omega); omega
  rw [hq, Nat.mod_eq_of_lt hm] at hdl
  have e1 := congrArg (nth · (q + 1)) e
  simp only [rdFn, nth_cons_succ, Nat.add_sub_cancel] at e1
  rwa [nth_tab hq1, nth_tab hq1, hdl] at e1

/-! ## Compositions -/

theorem only_of_fn {d : Dht ℝ} {f : List ℝ → List ℝ} (hi : Implements d f) (hpos : 0 < d.len) : ComputesDht d ↔ IsDht d.len f :=
  ⟨fun h _ hx => hi.unique h hx hpos, fun h => hi.congr h⟩

theorem mrn_only_object {k : ℕ} {hd d : Dht ℝ} {f : List ℝ → List ℝ} {ap : List ℝ → Res (List ℝ)} (hk : 0 < k)
    (hlen : d.len = k * hd.len) (hpos : 0 < hd.len) (hf : Implements hd f) (hi : Implements d (mrnFn k hd.len f ap))
    (h1 : IsDht (k * hd.len) (mrnFn k hd.len dht ap)) (hc : ComputesDht d) : ComputesDht hd := by
  have hpos' : 0 < d.len := by rw [hlen]; exact Nat.mul_pos hk hpos
  refine (only_of_fn hf hpos).2 (mrn_only hk hpos hf.length h1 ?_)
  rw [← hlen]
  exact (only_of_fn hi hpos').1 hc

theorem mixedRadix_only {wd hd : Dht ℝ} {fw : List ℝ → List ℝ} (hw : Implements wd fw) (hh : SumsFirst hd)
    (pw : 0 < wd.len) (ph : 0 < hd.len) (hc : ComputesDht (mixedRadix wd hd)) : ComputesDht wd ∧ ComputesDht hd := by
  obtain ⟨fh, ih, gh⟩ := hh
  have hi := mixedRadix_implements hw ih
  have hpos : 0 < (mixedRadix wd hd).len := Nat.mul_pos pw ph
  have h := mr_only pw ph hw.length ih.length (fun x hx => ?_) ((only_of_fn hi hpos).1 hc)
  · exact ⟨(only_of_fn hw pw).2 h.1, (only_of_fn ih ph).2 h.2⟩
  · obtain ⟨a, ea, ha⟩ := gh x hx ph
    rw [nth, ea, Option.getD_some, ha.eq_sum, Multiset.sum_coe]

theorem splitRadix_only {qd hd d : Dht ℝ} {fq fh : List ℝ → List ℝ} (iq : Implements qd fq) (ih : Implements hd fh)
    (e : splitRadix qd hd = .ok d) (hpos : 0 < qd.len) (h1 : qd.oopScratchLen = 0) (h2 : qd.inplaceScratchLen ≤ 4 * qd.len)
    (h3 : hd.inplaceScratchLen ≤ 2 * qd.len) (hc : ComputesDht d) : ComputesDht qd ∧ ComputesDht hd := by
  have hi := splitRadix_implements iq ih e fun _ => ⟨h1, h2, h3⟩
  have hlen := (splitRadix_eq e).1
  have hdl : d.len = 4 * qd.len := by rw [(splitRadix_eq e).2]; rfl
  have lh := ih.length
  rw [hlen] at lh
  have hc' := (only_of_fn hi (by omega)).1 hc
  rw [hdl] at hc'
  have h := sr_only hpos iq.length lh hc'
  refine ⟨(only_of_fn iq hpos).2 h.1, (only_of_fn ih (by omega)).2 ?_⟩
  rw [hlen]
  exact h.2

/-! ## Wrong inner objects in a right whole -/

theorem after_implements {T : Type} {d : Dht T} {f g : List T → List T} (hf : Implements d f)
    (hg : ∀ x, x.length = d.len → (g x).length = d.len) : Implements (d.after g) (fun x => g (f x)) := by
  refine ⟨fun x hx => hg _ (hf.length x hx), fun b s h1 h2 h3 => ?_, fun i o s h0 h1 h2 h3 => ?_⟩
  · obtain ⟨s', e, l1, l2⟩ := hf.inplace b s h1 h2 h3
    refine ⟨s', ?_, l1, l2⟩
    simp only [Dht.after, e, ok_bind]
    rw [mapChunks_mapChunks hf.length]
  · obtain ⟨i', s', e, l0, l1, l2⟩ := hf.oop i o s h0 h1 h2 h3
    refine ⟨i', s', ?_, l0, l1, l2⟩
    simp only [Dht.after, e, ok_bind]
    rw [mapChunks_mapChunks hf.length]

theorem nth_neg (l : List ℝ) (i : ℕ) : nth (l.map (-·)) i = -nth l i := by
  simp only [nth, List.getElem?_map]
  cases l[i]? <;> simp

theorem dht_neg (x : List ℝ) : dht (x.map (-·)) = (dht x).map (-·) := by
  refine list_ext_nth (by simp [length_dht]) fun k hk => ?_
  rw [length_dht, List.length_map] at hk
  rw [nth_neg, nth_dht (by simp) hk, nth_dht rfl hk, hart, hart, ← Finset.sum_neg_distrib]
  exact Finset.sum_congr rfl fun i _ => by rw [nth_neg]; ring

theorem mapChunks_neg {n : ℕ} (hn : 0 < n) {l : List ℝ} (hl : n ∣ l.length) : mapChunks n (fun x => x.map (-·)) l = l.map (-·) := by
  induction l using chunk_induction hn with
  | hlt l h =>
    have : l = [] := List.length_eq_zero_iff.1 (Nat.eq_zero_of_dvd_of_lt hl h)
    rw [this, mapChunks_nil, List.map_nil]
  | hge l h ih =>
    rw [mapChunks_of_ge hn h, ih (by rw [List.length_drop]; exact Nat.dvd_sub hl (dvd_refl n)), ← List.map_append,
      List.take_append_drop]

theorem chunks_neg_dht {n : ℕ} (hn : 0 < n) {l : List ℝ} (hl : n ∣ l.length) :
    mapChunks n (fun x => (dht x).map (-·)) l = (mapChunks n dht l).map (-·) := by
  have h1 : ∀ x : List ℝ, x.length = n → (dht x).length = n := fun x hx => by rw [length_dht, hx]
  rw [← mapChunks_mapChunks (g := fun x => x.map (-·)) h1, mapChunks_neg hn (by rw [length_mapChunks hn h1]; exact hl)]

theorem mrVal_neg (w h : ℕ) (l : List ℝ) (r c : ℕ) : mrVal w h (l.map (-·)) r c = -mrVal w h l r c := by
  unfold mrVal
  simp only [nth_neg]
  split_ifs <;> ring

theorem tab_neg (n : ℕ) (f : ℕ → ℝ) : (tab n fun i => -f i) = (tab n f).map (-·) := by
  simp [tab, Function.comp_def]

theorem mrFn_neg {w h : ℕ} (hw : 0 < w) (hh : 0 < h) {x : List ℝ} (hx : x.length = w * h) :
    mrFn w h (fun x => (dht x).map (-·)) (fun x => (dht x).map (-·)) x = dht x := by
  rw [← mrFn_dht (fun _ _ => rfl) (fun _ _ => rfl) hx]
  simp only [mrFn]
  rw [chunks_neg_dht hh (by simp [mrStep1])]
  simp only [mrVal_neg, tab_neg, nth_neg]
  have h2 : ∀ l : List ℝ, l.length = h * w → mapChunks w (fun x => (dht x).map (-·)) (l.map (-·)) = mapChunks w dht l := by
    intro l hl
    rw [← mapChunks_neg hw (by rw [hl]; exact dvd_mul_left _ _), mapChunks_mapChunks (fun x hx => by simp [hx])]
    refine congrArg (fun f => mapChunks w f l) (funext fun x => ?_)
    rw [dht_neg]
    simp
  rw [h2 _ (length_tab _ _)]

theorem neg_dht_wrong {n : ℕ} (hn : 0 < n) : ¬ IsDht n fun x => (dht x).map (-·) := by
  intro h
  have hx : (tab n fun _ => (1 : ℝ)).length = n := length_tab _ _
  have e := congrArg (nth · 0) (h _ hx)
  simp only [nth_neg] at e
  rw [dht_first (by omega), list_sum, hx, Finset.sum_congr rfl fun i hi => nth_tab (mem_range.1 hi)] at e
  simp only [sum_const, card_range, nsmul_eq_mul, mul_one] at e
  have : (0 : ℝ) < n := by exact_mod_cast hn
  linarith

theorem flippedDht_eq (x : List ℝ) : flippedDht x = revTail (dht x) := by
  obtain ⟨n, hn⟩ : ∃ n, x.length = n := ⟨_, rfl⟩
  have hl : (dht x).length = n := by rw [length_dht, hn]
  symm
  rw [flippedDht, hn]
  refine eq_tab (by simpa using hl) fun k hk => ?_
  rw [nth_revTail hl hk, nth_dht hn (Nat.mod_lt _ (by omega))]
  have e1 : hart n (nth x) ((n - k) % n : ℕ) = hart n (nth x) (-k) := by
    apply hart_mod
    rcases Nat.eq_zero_or_pos k with rfl | hk0
    · simp
    · rw [Nat.mod_eq_of_lt (by omega), Nat.cast_sub (by omega)]
      exact ⟨1, by ring⟩
  rw [e1, hart]
  refine sum_congr rfl fun i _ => ?_
  rw [List.getD_eq_getElem?_getD, ca, mul_neg, cs_neg, sn_neg, cs, sn]
  push_cast
  rw [nth]
  ring_nf

theorem rdTw_flip {t : List ℝ} {n : ℕ} (ht : t.length = n) (he : n % 2 = 0) {i : ℕ} (hi : i ≤ n / 2) (hn : 0 < n) :
    (rdTw (revTail t) n i).re = (rdTw t n i).re ∧ (rdTw (revTail t) n i).im = -(rdTw t n i).im := by
  unfold rdTw
  by_cases h0 : i = 0
  · subst h0
    simp only [true_or, if_true, neg_zero, and_true]
    rw [nth_revTail ht hn, Nat.sub_zero, Nat.mod_self]
  by_cases h1 : i = n / 2
  · rw [if_pos (Or.inr h1), if_pos (Or.inr h1)]
    simp only [neg_zero, and_true]
    rw [nth_revTail ht (by omega), Nat.mod_eq_of_lt (by omega), show n - i = i by omega]
  · rw [if_neg (by omega), if_neg (by omega)]
    simp only
    rw [nth_revTail ht (by omega), nth_revTail ht (by omega), Nat.mod_eq_of_lt (by omega), Nat.mod_eq_of_lt (by omega),
      show n - (n - i) = i by omega]
    constructor <;> ring

theorem rdMul_flip {t y : List ℝ} {n : ℕ} (ht : t.length = n) (hy : y.length = n) (he : n % 2 = 0) (hn : 0 < n) {i : ℕ} (hi : i < n) :
    rdMul (revTail y) (rdTw (revTail t) n) n i = rdMul y (rdTw t n) n ((n - i) % n) := by
  by_cases h0 : i = 0
  · subst h0
    rw [Nat.sub_zero, Nat.mod_self, rdMul, rdMul, if_pos rfl, if_pos rfl, nth_revTail hy hn, Nat.sub_zero, Nat.mod_self,
      (rdTw_flip ht he (Nat.zero_le _) hn).1]
  rw [Nat.mod_eq_of_lt (by omega), rdMul, rdMul, if_neg h0, if_neg (show ¬ n - i = 0 by omega), nth_revTail hy hi,
    nth_revTail hy (by omega), Nat.mod_eq_of_lt (show n - i < n by omega), Nat.mod_eq_of_lt (show n - (n - i) < n by omega),
    show n - (n - i) = i by omega]
  rcases lt_trichotomy i (n / 2) with h | h | h
  · rw [if_pos h, if_neg (by omega), if_neg (by omega), (rdTw_flip ht he h.le hn).1, (rdTw_flip ht he h.le hn).2]
    ring
  · rw [if_neg (by omega), if_pos h, if_neg (by omega), if_pos (by omega), show n - i = i by omega, (rdTw_flip ht he h.le hn).1]
  · rw [if_neg (by omega), if_neg (by omega), if_pos (by omega), (rdTw_flip ht he (by omega) hn).1, (rdTw_flip ht he (by omega) hn).2]
    ring

theorem rd_flip {n g gi : ℕ} (hn : 0 < n) (he : n % 2 = 0) {κ : List ℝ} (hκ : κ.length = n) (x : List ℝ) :
    rdFn (n + 1) g gi (rdTw (revTail (dht κ)) n) (fun x => revTail (dht x)) x = rdFn (n + 1) g gi (rdTw (dht κ) n) dht x := by
  have hy : (dht (rdIn (n + 1) g x)).length = n := by rw [length_dht]; exact length_tab _ _
  have ht : (dht κ).length = n := by rw [length_dht, hκ]
  have hmid : rdMid (n + 1) (rdTw (revTail (dht κ)) n) (nth x 0) (revTail (dht (rdIn (n + 1) g x)))
      = revTail (rdMid (n + 1) (rdTw (dht κ) n) (nth x 0) (dht (rdIn (n + 1) g x))) := by
    have hl : (rdMid (n + 1) (rdTw (dht κ) n) (nth x 0) (dht (rdIn (n + 1) g x))).length = n := length_tab _ _
    symm
    conv_rhs => rw [rdMid, Nat.add_sub_cancel]
    refine eq_tab (by rw [length_revTail, hl]) fun i hi => ?_
    rw [nth_revTail hl hi, rdMid, Nat.add_sub_cancel, nth_tab (Nat.mod_lt _ hn)]
    by_cases h0 : i = 0
    · subst h0
      rw [Nat.sub_zero, Nat.mod_self, if_pos rfl, if_pos rfl, rdMul_flip ht hy he hn hn, Nat.sub_zero, Nat.mod_self]
    · rw [if_neg h0, if_neg (by rw [Nat.mod_eq_of_lt (by omega)]; omega), rdMul_flip ht hy he hn hi]
  unfold rdFn
  simp only
  rw [hmid, dht_revTail, nth_revTail hy hn, Nat.sub_zero, Nat.mod_self]

theorem flippedDht_wrong {n : ℕ} (hn : 3 ≤ n) : ¬ IsDht n flippedDht := by
  intro h
  have hx : (tab n fun i => if i = 1 then (1 : ℝ) else 0).length = n := length_tab _ _
  have e := h _ hx
  rw [flippedDht_eq] at e
  have e1 : ∀ k < n, nth (dht (tab n fun i => if i = 1 then (1 : ℝ) else 0)) k = ca n k := by
    intro k hk
    rw [dht_tab, nth_tab hk, hart]
    simp [show 1 < n by omega]
  have e2 := congrArg (nth · 1) e
  rw [nth_revTail (by rw [length_dht, hx]) (by omega), Nat.mod_eq_of_lt (by omega), e1 _ (by omega), e1 _ (by omega)] at e2
  have e3 : ca n ((n - 1 : ℕ) : ℤ) = ca n (-1) := ca_congr (by rw [Nat.cast_sub (by omega)]; exact ⟨1, by ring⟩)
  rw [e3, ca, ca, cs_neg, sn_neg] at e2
  have e4 : sn n 1 = 0 := by
    have : ((1 : ℕ) : ℤ) = 1 := rfl
    rw [this] at e2
    linarith
  have hn' : (3 : ℝ) ≤ n := by exact_mod_cast hn
  have h0 : (0 : ℝ) < n := by linarith
  have : 0 < sn n 1 := by
    rw [sn]
    refine Real.sin_pos_of_pos_of_lt_pi (by have := Real.pi_pos; positivity) ?_
    rw [div_lt_iff₀ h0]
    have := Real.pi_pos
    push_cast
    nlinarith
  linarith

end RustDHT
