import Verif.Proofs.RootLoss
import Verif.Proofs.FarOff

/-! # `SplitRadix` around objects that lose energy -/

set_option linter.style.haveILetI false

namespace RustDHT

open Finset

/-- The outputs of `SplitRadix` are those of its parts in another order. -/
theorem en_sr (q : ℕ) (fq fh : List ℝ → List ℝ) (x : List ℝ) :
    en (4 * q) (srFn q fq fh x) = en (2 * q) (fh (tab (2 * q) (srEven q x))) + (en q (fq (tab q (srQ1 q x))) + en q (fq (tab q (srQ3 q x)))) := by
  have e1 : ∀ m < q, ∑ r ∈ range 4, nth (srFn q fq fh x) (m * 4 + r) ^ 2
      = ∑ r ∈ range 2, nth (fh (tab (2 * q) (srEven q x))) (m * 2 + r) ^ 2
        + (nth (fq (tab q (srQ1 q x))) m ^ 2 + nth (fq (tab q (srQ3 q x))) m ^ 2) := by
    intro m hm
    simp only [sum_range_succ, sum_range_zero, zero_add]
    rw [srFn, nth_tab (by omega), nth_tab (by omega), nth_tab (by omega), nth_tab (by omega), if_pos (by omega), if_neg (by omega),
      if_pos (by omega), if_pos (by omega), if_neg (by omega), if_neg (by omega), show (m * 4 + 0) / 2 = m * 2 + 0 by omega,
      show (m * 4 + 1) / 4 = m by omega, show (m * 4 + 2) / 2 = m * 2 + 1 by omega, show (m * 4 + 3) / 4 = m by omega]
    ring
  rw [en, en, en, en, Nat.mul_comm 4 q, Nat.mul_comm 2 q, sum_range_mul, sum_range_mul, sum_congr rfl fun m hm => e1 m (mem_range.1 hm),
    sum_add_distrib, sum_add_distrib, Nat.mul_comm q 2]

/-- The energy of the parts. -/
theorem en_sr_parts {q : ℕ} {x : List ℝ} (hx : x.length = 4 * q) :
    ((4 * q : ℕ) : ℝ) * en (4 * q) x = ((2 * q : ℕ) : ℝ) * en (2 * q) (tab (2 * q) (srEven q x))
      + (q * en q (tab q (srQ1 q x)) + q * en q (tab q (srQ3 q x))) := by
  rw [← en_dht hx, ← srFn_dht hx, en_sr, en_dht (length_tab _ _), en_dht (length_tab _ _), en_dht (length_tab _ _)]

theorem gains_sr {q : ℕ} {fq fh : List ℝ → List ℝ} (gq : Gains (-1) q fq) (gh : Gains (-1) (2 * q) fh) :
    Gains (-1) (4 * q) (srFn q fq fh) := by
  intro x hx
  rw [en_sr, en_sr_parts hx]
  have h1 := gains_neg gh (x := tab (2 * q) (srEven q x)) (length_tab _ _)
  have h2 := gains_neg gq (x := tab q (srQ1 q x)) (length_tab _ _)
  have h3 := gains_neg gq (x := tab q (srQ3 q x)) (length_tab _ _)
  linarith

/-- A signal for one part only. -/
theorem sparse_part {n q a b : ℕ} (hq : ∀ j < q, a * j + b < n) (ha : 0 < a) (hq0 : 0 < q) {S : List ℝ → List ℝ}
    (hS : ∀ x, x.length = n → (S x).length = q) (h2 : ∀ x, x.length = n → ∀ j < q, nth (dht x) (a * j + b) = nth (dht (S x)) j)
    {s : List ℝ} (hs : s.length = q) : ∃ x, x.length = n ∧ S x = s ∧ (n : ℝ) * en n x = q * en q s := by
  have hn : 0 < n := by have := hq 0 hq0; omega
  obtain ⟨x, hx, ex, nx⟩ := sparse_signal hn hq ha hs
  refine ⟨x, hx, ?_, ?_⟩
  · refine dht_injective (by rw [hS x hx, hs]) (list_ext_nth (by rw [length_dht, length_dht, hS x hx, hs]) fun j hj => ?_)
    rw [length_dht, hS x hx] at hj
    rw [← h2 x hx j hj, ex j hj]
  · have h := congrArg (· ^ 2) nx
    simp only [mul_pow] at h
    rwa [Real.sq_sqrt (Nat.cast_nonneg _), Real.sq_sqrt (Nat.cast_nonneg _), nrm_sq, nrm_sq] at h

theorem lossy_sr {q : ℕ} {κ : ℝ} (hq : 0 < q) {fq fh : List ℝ → List ℝ} (gq : Gains (-1) q fq) (gh : Gains (-1) (2 * q) fh)
    (hm : Lossy κ q fq ∨ Lossy κ (2 * q) fh) : Lossy κ (4 * q) (srFn q fq fh) := by
  have hq' : (0 : ℝ) < q := by exact_mod_cast hq
  have pos : ∀ {m : ℕ} {x s : List ℝ}, 0 < m → 0 < en m s → ((4 * q : ℕ) : ℝ) * en (4 * q) x = m * en m s → 0 < en (4 * q) x := by
    intro m x s hm h0 e
    have hm' : (0 : ℝ) < m := by exact_mod_cast hm
    exact pos_of_mul_pos_right (lt_of_lt_of_eq (mul_pos hm' h0) e.symm) (Nat.cast_nonneg _)
  rcases hm with ⟨s, hs, h0, h1⟩ | ⟨s, hs, h0, h1⟩
  · obtain ⟨x, hx, e, nx⟩ := sparse_part (n := 4 * q) (q := q) (a := 4) (b := 1) (S := fun x => tab q (srQ1 q x)) (fun j hj => by omega)
      (by norm_num) hq (fun _ _ => length_tab _ _) (fun x hx j hj => by
        rw [← srFn_dht hx, srFn, nth_tab (by omega), if_neg (by omega), if_pos (by omega), show (4 * j + 1) / 4 = j by omega]) hs
    refine ⟨x, hx, pos hq h0 nx, ?_⟩
    have h2 := gains_neg gh (x := tab (2 * q) (srEven q x)) (length_tab _ _)
    have h3 := gains_neg gq (x := tab q (srQ3 q x)) (length_tab _ _)
    have h4 := en_sr_parts hx
    have e : tab q (srQ1 q x) = s := e
    rw [en_sr, e, nx]
    rw [e, nx] at h4
    linarith
  · obtain ⟨x, hx, e, nx⟩ := sparse_part (n := 4 * q) (q := 2 * q) (a := 2) (b := 0) (S := fun x => tab (2 * q) (srEven q x))
      (fun j hj => by omega) (by norm_num) (by omega) (fun _ _ => length_tab _ _) (fun x hx j hj => by
        rw [← srFn_dht hx, srFn, nth_tab (by omega), if_pos (by omega), show (2 * j + 0) / 2 = j by omega]) hs
    refine ⟨x, hx, pos (by omega) h0 nx, ?_⟩
    have h2 := gains_neg gq (x := tab q (srQ1 q x)) (length_tab _ _)
    have h3 := gains_neg gq (x := tab q (srQ3 q x)) (length_tab _ _)
    have h4 := en_sr_parts hx
    have e : tab (2 * q) (srEven q x) = s := e
    rw [en_sr, e, nx]
    rw [e, nx] at h4
    linarith

section
variable (ρ : ℝ)

/-- Signals for which a composition is too small by the factor. -/
theorem plan_lossy (hδ : (ρ * √2) ^ 2 < 1) (p : Plan) : p.SmallRadix4 → p.RadersFree → ∀ d : Dht ℝ,
    @Plan.build ℝ _ _ _ _ _ (realWithRoot ρ) p = .ok d → 0 < d.len →
    ∃ f, Implements d f ∧ Gains (-1) d.len f ∧ (¬ p.RootFree → Lossy ((ρ * √2) ^ 2) d.len f) := by
  have hc : (0 : ℝ) < -1 * ((ρ * √2) ^ 2 - 1) := by linarith
  have h0 : 0 ≤ (ρ * √2) ^ 2 := sq_nonneg _
  have free : ∀ p : Plan, p.RootFree → p.SmallRadix4 → ∀ d : Dht ℝ, @Plan.build ℝ _ _ _ _ _ (realWithRoot ρ) p = .ok d →
      ∃ f, Implements d f ∧ Gains (-1) d.len f ∧ (¬ p.RootFree → Lossy ((ρ * √2) ^ 2) d.len f) := by
    intro p hp hs d e
    rw [build_eq ρ hp] at e
    exact ⟨dht, plan_dht p hs d e, gains_of_dht (-1) fun _ _ => rfl, fun h => absurd hp h⟩
  -- the algorithms with a fixed radix
  have fixed : ∀ (k : ℕ) (δ : ℝ) (h : Plan) (hd d : Dht ℝ) (ap : List ℝ → Res (List ℝ)), 0 < k → 0 < hd.len → d.len = k * hd.len →
      @Plan.build ℝ _ _ _ _ _ (realWithRoot ρ) h = .ok hd →
      (∀ f, Implements hd f → Implements d (mrnFn k hd.len f ap)) →
      (∀ x, x.length = k * hd.len → mrnFn k hd.len dht ap x = rootDht k δ x) → δ = 1 ∨ δ = ρ * √2 →
      (∃ f, Implements hd f ∧ Gains (-1) hd.len f ∧ (¬ h.RootFree → Lossy ((ρ * √2) ^ 2) hd.len f)) →
      ∀ p : Plan, (¬ p.RootFree → ¬ h.RootFree ∨ 2 ≤ k ∧ 2 ≤ hd.len ∧ δ = ρ * √2) →
      ∃ f, Implements d f ∧ Gains (-1) d.len f ∧ (¬ p.RootFree → Lossy ((ρ * √2) ^ 2) d.len f) := by
    rintro k δ h hd d ap hk hh hlen e himp hL hδ ⟨f, hf, g1, g2⟩ p hp
    have hc' : (0 : ℝ) ≤ -1 * (δ ^ 2 - 1) := by
      rcases hδ with rfl | rfl
      · norm_num
      · exact hc.le
    refine ⟨_, himp f hf, ?_, fun hn => ?_⟩
    · rw [hlen]
      exact gains_columns (L := run ap) hk hh hc' hf.length hL g1
    · rw [hlen]
      refine lossy_columns (L := run ap) hk hh (by linarith) hf.length hL g1 ?_
      rcases hp hn with h1 | ⟨h1, h2, rfl⟩
      · exact Or.inl (g2 h1)
      · exact Or.inr ⟨h1, h2, le_rfl, root_sums ρ e hf hh⟩
  let := realWithRoot ρ
  induction p with
  | mixedRadix w h ihw ihh =>
    rintro ⟨sw, sh⟩ ⟨mw, mh⟩ d e hpos
    obtain ⟨wd, ew, e⟩ := bind_eq_ok e
    obtain ⟨hd, eh, e⟩ := bind_eq_ok e
    cases e
    have hpos' : 0 < wd.len * hd.len := hpos
    have pw : 0 < wd.len := Nat.pos_of_mul_pos_right hpos'
    have ph : 0 < hd.len := Nat.pos_of_mul_pos_left hpos'
    obtain ⟨fw, iw, gw, gw'⟩ := ihw sw mw wd ew pw
    obtain ⟨fh, ih, gh, gh'⟩ := ihh sh mh hd eh ph
    refine ⟨_, mixedRadix_implements iw ih, gains_mr ρ pw ph hc.le iw.length ih.length gw gh, fun hn => ?_⟩
    refine lossy_mr ρ pw ph hδ.le iw.length ih.length gw gh (root_sums ρ eh ih ph) ?_
    by_cases hh : h.RootFree
    · have lw := plan_len w wd ew
      have lh := plan_len h hd eh
      by_cases h2 : 2 ≤ wd.len ∧ 2 ≤ hd.len
      · exact Or.inr (Or.inl ⟨h2.1, h2.2, le_rfl⟩)
      · have hs : w.expectedLen ≤ 1 ∨ h.expectedLen ≤ 1 := by omega
        have hw : ¬ w.RootFree := fun hw => hn ⟨hs, hw, hh⟩
        have hw1 : w.expectedLen ≠ 1 := fun h1 => hw (len_one_rootFree w wd ew h1)
        exact Or.inr (Or.inr ⟨by omega, gw' hw⟩)
    · exact Or.inl (gh' hh)
  | mr2 h ihh =>
    intro s m d e hpos
    obtain ⟨hd, eh, e⟩ := bind_eq_ok e
    cases e
    have ph : 0 < hd.len := Nat.pos_of_mul_pos_left (show 0 < 2 * hd.len from hpos)
    exact fixed 2 1 h hd _ _ (by norm_num) ph rfl eh
      (fun f hf => mr2_implements hf (root_small ρ 2 (by norm_num) eh).1 (root_small ρ 2 (by norm_num) eh).2)
      (fun x hx => (@mr2Fn_dht hd.len x hx).trans (rootDht_one 2 x).symm) (Or.inl rfl) (ihh s m hd eh ph) _ fun hn => Or.inl hn
  | mr3 h ihh =>
    intro s m d e hpos
    obtain ⟨hd, eh, e⟩ := bind_eq_ok e
    cases e
    have ph : 0 < hd.len := Nat.pos_of_mul_pos_left (show 0 < 3 * hd.len from hpos)
    have lh := plan_len h hd eh
    refine fixed 3 _ h hd _ _ (by norm_num) ph rfl eh
      (fun f hf => mr3_implements hf (root_small ρ 3 (by norm_num) eh).1 (root_small ρ 3 (by norm_num) eh).2)
      (fun x hx => mr3Fn_root ρ hx) (Or.inr rfl) (ihh s m hd eh ph) _ fun hn => ?_
    by_cases hh : h.RootFree
    · have : ¬ h.expectedLen ≤ 1 := fun h1 => hn ⟨h1, hh⟩
      exact Or.inr ⟨by norm_num, by omega, rfl⟩
    · exact Or.inl hh
  | mr4 h ihh =>
    intro s m d e hpos
    obtain ⟨hd, eh, e⟩ := bind_eq_ok e
    cases e
    have ph : 0 < hd.len := Nat.pos_of_mul_pos_left (show 0 < 4 * hd.len from hpos)
    exact fixed 4 1 h hd _ _ (by norm_num) ph rfl eh
      (fun f hf => mr4_implements hf (root_small ρ 4 (by norm_num) eh).1 (root_small ρ 4 (by norm_num) eh).2)
      (fun x hx => (@mr4Fn_dht hd.len x hx).trans (rootDht_one 4 x).symm) (Or.inl rfl) (ihh s m hd eh ph) _ fun hn => Or.inl hn
  | mr5 h ihh =>
    intro s m d e hpos
    obtain ⟨hd, eh, e⟩ := bind_eq_ok e
    cases e
    have ph : 0 < hd.len := Nat.pos_of_mul_pos_left (show 0 < 5 * hd.len from hpos)
    have lh := plan_len h hd eh
    refine fixed 5 _ h hd _ _ (by norm_num) ph rfl eh
      (fun f hf => mr5_implements hf (root_small ρ 5 (by norm_num) eh).1 (root_small ρ 5 (by norm_num) eh).2)
      (fun x hx => mr5Fn_root ρ hx) (Or.inr rfl) (ihh s m hd eh ph) _ fun hn => ?_
    by_cases hh : h.RootFree
    · have : ¬ h.expectedLen ≤ 1 := fun h1 => hn ⟨h1, hh⟩
      exact Or.inr ⟨by norm_num, by omega, rfl⟩
    · exact Or.inl hh
  | mr6 h ihh =>
    intro s m d e hpos
    obtain ⟨hd, eh, e⟩ := bind_eq_ok e
    cases e
    have ph : 0 < hd.len := Nat.pos_of_mul_pos_left (show 0 < 6 * hd.len from hpos)
    have lh := plan_len h hd eh
    refine fixed 6 _ h hd _ _ (by norm_num) ph rfl eh
      (fun f hf => mr6_implements hf (root_small ρ 6 (by norm_num) eh).1 (root_small ρ 6 (by norm_num) eh).2)
      (fun x hx => mr6Fn_root ρ hx) (Or.inr rfl) (ihh s m hd eh ph) _ fun hn => ?_
    by_cases hh : h.RootFree
    · have : ¬ h.expectedLen ≤ 1 := fun h1 => hn ⟨h1, hh⟩
      exact Or.inr ⟨by norm_num, by omega, rfl⟩
    · exact Or.inl hh
  | splitRadix q h ihq ihh =>
    rintro ⟨sq, sh⟩ ⟨mq, mh⟩ d e hpos
    obtain ⟨qd, eq, e⟩ := bind_eq_ok e
    obtain ⟨hd, eh, e⟩ := bind_eq_ok e
    have hlen := (splitRadix_eq e).1
    have hs : 0 < qd.len → qd.oopScratchLen = 0 ∧ qd.inplaceScratchLen ≤ 4 * qd.len ∧ hd.inplaceScratchLen ≤ 2 * qd.len := by
      intro hq
      have h1 := (plan_ok q qd eq).small hq
      have h2 := (plan_ok h hd eh).small (by omega)
      omega
    have hdl : d.len = 4 * qd.len := by rw [(splitRadix_eq e).2]; rfl
    have hq0 : 0 < qd.len := by omega
    have hhl : hd.len = 2 * qd.len := by omega
    obtain ⟨fq, iq, gq, gq'⟩ := ihq sq mq qd eq hq0
    obtain ⟨fh, ih, gh, gh'⟩ := ihh sh mh hd eh (by omega)
    rw [hhl] at gh gh'
    refine ⟨_, splitRadix_implements iq ih e hs, ?_, fun hn => ?_⟩
    · rw [hdl]
      exact gains_sr gq gh
    · rw [hdl]
      refine lossy_sr hq0 gq gh ?_
      by_cases hqf : q.RootFree
      · exact Or.inr (gh' fun hhf => hn ⟨hqf, hhf⟩)
      · exact Or.inl (gq' hqf)
  | raders i => exact fun s m d e _ => free (.raders i) m s d e
  | _ =>
    intro s _ d e _
    refine free _ ?_ s d e
    trivial

end

end RustDHT
