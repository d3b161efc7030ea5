import Verif.Proofs.RootScale
import Verif.Proofs.RootFree
import Verif.Proofs.Reordered
import Verif.Proofs.MachineWrap
import Verif.Props.Impulse

/-! # Compositions with another constant -/

namespace RustDHT

open Finset

/-! ## MixedRadix -/

theorem en_tail {w h : ℕ} (hw : 0 < w) (hh : 0 < h) {fw : List ℝ → List ℝ} (lw : ∀ x, x.length = w → (fw x).length = w) (u : List ℝ) :
    en (w * h) (mrTail w h fw u) = en (h * w) (mapChunks w fw (tab (h * w) fun p => nth u (p % w * h + p / w))) := by
  have hc : w * h = h * w := Nat.mul_comm w h
  have s7 : Scales (h * w) 1 _ := scales_perm (fun p hp => revr_lt (h := h) hw hp) (fun p _ p' _ e => revr_inj hw e)
  have s8 : Scales (w * h) 1 _ := scales_perm (fun p hp => transp_lt hh hp) (fun p hp p' hp' e => transp_inj hh hp hp' e)
  have e8 := s8.en (x := tab (h * w) fun p => nth (mapChunks w fw (tab (h * w) fun p => nth u (p % w * h + p / w)))
    (p / w * w + (if p / w < (h + 1) / 2 then p % w else w - 1 - p % w))) (by rw [length_tab, hc])
  have e7 := s7.en (x := mapChunks w fw (tab (h * w) fun p => nth u (p % w * h + p / w))) (by rw [length_mapChunks hw lw, length_tab])
  rw [one_pow, one_mul] at e7 e8
  rw [mrTail, e8, hc, e7]

theorem en_transp {w h : ℕ} (hw : 0 < w) {u : List ℝ} (hu : u.length = w * h) :
    en (h * w) (tab (h * w) fun p => nth u (p % w * h + p / w)) = en (w * h) u := by
  have s5 : Scales (h * w) 1 _ := scales_perm (fun p hp => by have := transp_lt hw hp; exact this) (fun p hp p' hp' e => transp_inj hw hp hp' e)
  rw [s5.en (x := u) (by rw [hu, Nat.mul_comm]), one_pow, one_mul, Nat.mul_comm]

theorem en_twist (ρ : ℝ) {w h : ℕ} (hw : 0 < w) (hh : 0 < h) (z : List ℝ) :
    en (w * h) (letI := realWithRoot ρ; mrTwist w h ℝ z) = en (w * h) (scl w h (ρ * √2) z) := by
  rw [twist_root, (mrTwist_scales hw hh).en (x := scl w h (ρ * √2) z) (length_tab _ _), one_pow, one_mul]

theorem gains_tail {w h : ℕ} {c : ℝ} (hw : 0 < w) (hh : 0 < h) {fw : List ℝ → List ℝ} (lw : ∀ x, x.length = w → (fw x).length = w)
    (gw : Gains c w fw) {u : List ℝ} (hu : u.length = w * h) : 0 ≤ c * (en (w * h) (mrTail w h fw u) - w * en (w * h) u) := by
  rw [en_tail hw hh lw, ← en_transp hw hu]
  exact gains_chunks lw gw (length_tab _ _)

theorem gains_mr (ρ : ℝ) {w h : ℕ} {c : ℝ} (hw : 0 < w) (hh : 0 < h) (hc : 0 ≤ c * ((ρ * √2) ^ 2 - 1)) {fw fh : List ℝ → List ℝ}
    (lw : ∀ x, x.length = w → (fw x).length = w) (lh : ∀ x, x.length = h → (fh x).length = h) (gw : Gains c w fw) (gh : Gains c h fh) :
    Gains c (w * h) (letI := realWithRoot ρ; mrFn w h fw fh) := by
  intro x hx
  let := realWithRoot ρ
  rw [mrFn_eq]
  have h1 := gains_tail hw hh lw gw (u := mrTwist w h ℝ (mapChunks h fh (mrStep1 w h x))) (length_tab _ _)
  have h2 := gains_scl hh hc lh gh hx
  rw [← en_twist ρ hw hh] at h2
  have h3 : (0 : ℝ) < w := by exact_mod_cast hw
  have := mul_nonneg h3.le h2
  push_cast
  linarith

theorem gainsMore_mr (ρ : ℝ) {w h : ℕ} {c : ℝ} (hw : 0 < w) (hh : 0 < h) (hc : 0 < c * ((ρ * √2) ^ 2 - 1)) {fw fh : List ℝ → List ℝ}
    (lw : ∀ x, x.length = w → (fw x).length = w) (lh : ∀ x, x.length = h → (fh x).length = h) (gw : Gains c w fw) (gh : Gains c h fh)
    (hsum : ∀ x, x.length = h → nth (fh x) 0 = x.sum)
    (hm : GainsMore c h fh ∨ 2 ≤ w ∧ 2 ≤ h ∨ h = 1 ∧ GainsMore c w fw) :
    GainsMore c (w * h) (letI := realWithRoot ρ; mrFn w h fw fh) := by
  intro x hx hd
  let := realWithRoot ρ
  rw [mrFn_eq]
  have h3 : (0 : ℝ) < w := by exact_mod_cast hw
  have key : 0 < c * (en (w * h) (scl w h (ρ * √2) (mapChunks h fh (mrStep1 w h x))) - h * en (w * h) x) →
      0 < c * (en (w * h) (mrTail w h fw (mrTwist w h ℝ (mapChunks h fh (mrStep1 w h x)))) - (w * h : ℕ) * en (w * h) x) := by
    intro h2
    have h1 := gains_tail hw hh lw gw (u := mrTwist w h ℝ (mapChunks h fh (mrStep1 w h x))) (length_tab _ _)
    rw [← en_twist ρ hw hh] at h2
    have := mul_pos h3 h2
    push_cast
    linarith
  rcases hm with hm | hm | ⟨rfl, hm⟩
  · exact key (gainsMore_scl hw hh hc.le lh gh (Or.inl hm) hx hd)
  · exact key (gainsMore_scl hw hh hc.le lh gh (Or.inr ⟨hm.1, hm.2, hc, hsum⟩) hx hd)
  · have hu : mrTwist w 1 ℝ (mapChunks 1 fh (mrStep1 w 1 x)) = x := by
      symm
      refine eq_tab hx fun p hp => ?_
      have hp' : p < w := by omega
      rw [Nat.mod_one, Nat.div_one, mrVal, if_pos (Or.inr rfl)]
      dsimp only
      rw [nth_chunkRow lh (length_step1 w 1 x) hp' (by norm_num), hsum _ (length_rowOf (length_step1 w 1 x) hp'), list_sum,
        length_rowOf (length_step1 w 1 x) hp', sum_range_one, nth_rowOf (by norm_num), mrStep1, nth_tab (by omega), Nat.add_zero, Nat.mul_one,
        Nat.div_one, Nat.mod_one]
      congr 1
      have : revRow w 1 p 0 = 0 := by unfold revRow; split <;> omega
      rw [this]
      omega
    rw [hu, en_tail hw hh lw]
    have ht : (tab (1 * w) fun p => nth x (p % w * 1 + p / w)) = x := by
      symm
      refine eq_tab (by rw [hx, Nat.mul_comm]) fun p hp => ?_
      have hp' : p < w := by omega
      rw [Nat.mod_eq_of_lt hp', Nat.div_eq_of_lt hp', Nat.mul_one, Nat.add_zero]
    rw [ht]
    have := gainsMore_chunks (k := 1) one_pos lw hm (x := x) (by rw [hx, Nat.mul_comm]) (by rwa [Nat.mul_comm 1 w])
    rw [Nat.mul_comm 1 w] at this
    simpa [Nat.mul_comm] using this

/-! ## Compositions -/

theorem rootDht_one (w : ℕ) (x : List ℝ) : rootDht w 1 x = dht x := by
  rw [rootDht, dht]
  refine List.map_congr_left fun k _ => ?_
  split_ifs
  · rfl
  · ring

theorem len_one_rootFree {T : Type} [Zero T] [Add T] [Sub T] [Mul T] [Neg T] [FftNum T] (p : Plan) :
    ∀ d : Dht T, p.build T = .ok d → p.expectedLen = 1 → p.RootFree := by
  induction p with
  | mixedRadix w h ihw ihh =>
    intro d e hl
    obtain ⟨wd, ew, e⟩ := bind_eq_ok e
    obtain ⟨hd, eh, e⟩ := bind_eq_ok e
    have hl' : w.expectedLen * h.expectedLen = 1 := hl
    have h1 := Nat.eq_one_of_mul_eq_one_right hl'
    have h2 := Nat.eq_one_of_mul_eq_one_left hl'
    exact ⟨Or.inl h1.le, ihw wd ew h1, ihh hd eh h2⟩
  | mr2 h => intro _ _ (hl : 2 * _ = 1); omega
  | mr3 h => intro _ _ (hl : 3 * _ = 1); omega
  | mr4 h => intro _ _ (hl : 4 * _ = 1); omega
  | mr5 h => intro _ _ (hl : 5 * _ = 1); omega
  | mr6 h => intro _ _ (hl : 6 * _ = 1); omega
  | splitRadix q h => intro _ _ (hl : 4 * _ = 1); omega
  | raders i ihi =>
    intro d e (hl : i.expectedLen + 1 = 1)
    obtain ⟨id, ei, e⟩ := bind_eq_ok e
    obtain ⟨f, hf⟩ := (plan_ok i id ei).implements
    obtain ⟨g, gi, hdata⟩ := raders_data hf e
    have := hdata.prime.two_le
    have := plan_len i id ei
    omega
  | _ => intros; trivial

section
variable (ρ : ℝ)

theorem build_eq {p : Plan} (h : p.RootFree) : @Plan.build ℝ _ _ _ _ _ (realWithRoot ρ) p = p.build ℝ :=
  build_rootFree (i := exactReal) ρ p h

theorem root_small {p : Plan} {d : Dht ℝ} (k : ℕ) (hk : 1 ≤ k) (e : @Plan.build ℝ _ _ _ _ _ (realWithRoot ρ) p = .ok d) :
    (0 < d.len → d.inplaceScratchLen ≤ k * d.len) ∧ (0 < d.len → d.oopScratchLen = 0) := by
  have h := (@plan_ok ℝ _ _ _ _ _ (realWithRoot ρ) p d e).small
  exact ⟨fun hpos => le_trans (h hpos).2 (Nat.le_mul_of_pos_left _ hk), fun hpos => (h hpos).1⟩

theorem root_sums {p : Plan} {d : Dht ℝ} (e : @Plan.build ℝ _ _ _ _ _ (realWithRoot ρ) p = .ok d) {f : List ℝ → List ℝ}
    (hf : Implements d f) (hpos : 0 < d.len) : ∀ x, x.length = d.len → nth (f x) 0 = x.sum := by
  obtain ⟨f', hf', h⟩ := @plan_dc ℝ _ _ _ _ _ (realWithRoot ρ) (fun n _ a => twiddle_zero_real ρ n a) p d e hpos
  intro x hx
  obtain ⟨a, ea, ha⟩ := (sumsFirst_iff hf').2 (fun _ => h) x hx hpos
  rw [hf.unique hf' hx hpos, nth, ea, Option.getD_some, ha.eq_sum, Multiset.sum_coe]

/-- Norms of compositions. -/
theorem plan_gains {c : ℝ} (hc : 0 < c * ((ρ * √2) ^ 2 - 1)) (p : Plan) : p.SmallRadix4 → p.RootMixed → ∀ d : Dht ℝ,
    @Plan.build ℝ _ _ _ _ _ (realWithRoot ρ) p = .ok d → 0 < d.len →
    ∃ f, Implements d f ∧ Gains c d.len f ∧ (¬ p.RootFree → GainsMore c d.len f) := by
  have free : ∀ p : Plan, p.RootFree → p.SmallRadix4 → ∀ d : Dht ℝ, @Plan.build ℝ _ _ _ _ _ (realWithRoot ρ) p = .ok d →
      ∃ f, Implements d f ∧ Gains c d.len f ∧ (¬ p.RootFree → GainsMore c d.len f) := by
    intro p hp hs d e
    rw [build_eq ρ hp] at e
    exact ⟨dht, plan_dht p hs d e, gains_of_dht c fun _ _ => rfl, fun h => absurd hp h⟩
  -- the algorithms with a fixed radix
  have fixed : ∀ (k : ℕ) (δ : ℝ) (h : Plan) (hd d : Dht ℝ) (ap : List ℝ → Res (List ℝ)), 0 < k → 0 < hd.len → d.len = k * hd.len →
      @Plan.build ℝ _ _ _ _ _ (realWithRoot ρ) h = .ok hd →
      (∀ f, Implements hd f → Implements d (mrnFn k hd.len f ap)) →
      (∀ x, x.length = k * hd.len → mrnFn k hd.len dht ap x = rootDht k δ x) → δ = 1 ∨ δ = ρ * √2 →
      (∃ f, Implements hd f ∧ Gains c hd.len f ∧ (¬ h.RootFree → GainsMore c hd.len f)) →
      ∀ p : Plan, (¬ p.RootFree → ¬ h.RootFree ∨ 2 ≤ k ∧ 2 ≤ hd.len ∧ δ = ρ * √2) →
      ∃ f, Implements d f ∧ Gains c d.len f ∧ (¬ p.RootFree → GainsMore c d.len f) := by
    rintro k δ h hd d ap hk hh hlen e himp hL hδ ⟨f, hf, g1, g2⟩ p hp
    have hc' : 0 ≤ c * (δ ^ 2 - 1) := by
      rcases hδ with rfl | rfl
      · norm_num
      · exact hc.le
    refine ⟨_, himp f hf, ?_, fun hn => ?_⟩
    · rw [hlen]
      exact gains_columns (L := run ap) hk hh hc' hf.length hL g1
    · rw [hlen]
      refine gainsMore_columns (L := run ap) hk hh hc' hf.length hL g1 ?_
      rcases hp hn with h1 | ⟨h1, h2, rfl⟩
      · exact Or.inl (g2 h1)
      · exact Or.inr ⟨h1, h2, hc, root_sums ρ e hf hh⟩
  let := realWithRoot ρ
  induction p with
  | mixedRadix w h ihw ihh =>
    rintro ⟨sw, sh⟩ ⟨mw, mh⟩ d e hpos
    obtain ⟨wd, ew, e⟩ := bind_eq_ok e
    obtain ⟨hd, eh, e⟩ := bind_eq_ok e
    cases e
    have hpos' : 0 < wd.len * hd.len := hpos
    have pw : 0 < wd.len := Nat.pos_of_mul_pos_right hpos'
    have ph : 0 < hd.len := Nat.pos_of_mul_pos_left hpos'
    obtain ⟨fw, iw, gw, gw'⟩ := ihw sw mw wd ew pw
    obtain ⟨fh, ih, gh, gh'⟩ := ihh sh mh hd eh ph
    refine ⟨_, mixedRadix_implements iw ih, gains_mr ρ pw ph hc.le iw.length ih.length gw gh, fun hn => ?_⟩
    refine gainsMore_mr ρ pw ph hc iw.length ih.length gw gh (root_sums ρ eh ih ph) ?_
    by_cases hh : h.RootFree
    · have lw := plan_len w wd ew
      have lh := plan_len h hd eh
      by_cases h2 : 2 ≤ wd.len ∧ 2 ≤ hd.len
      · exact Or.inr (Or.inl h2)
      · have hs : w.expectedLen ≤ 1 ∨ h.expectedLen ≤ 1 := by omega
        have hw : ¬ w.RootFree := fun hw => hn ⟨hs, hw, hh⟩
        have hw1 : w.expectedLen ≠ 1 := fun h1 => hw (len_one_rootFree w wd ew h1)
        exact Or.inr (Or.inr ⟨by omega, gw' hw⟩)
    · exact Or.inl (gh' hh)
  | mr2 h ihh =>
    intro s m d e hpos
    obtain ⟨hd, eh, e⟩ := bind_eq_ok e
    cases e
    have ph : 0 < hd.len := Nat.pos_of_mul_pos_left (show 0 < 2 * hd.len from hpos)
    exact fixed 2 1 h hd _ _ (by norm_num) ph rfl eh
      (fun f hf => mr2_implements hf (root_small ρ 2 (by norm_num) eh).1 (root_small ρ 2 (by norm_num) eh).2)
      (fun x hx => (@mr2Fn_dht hd.len x hx).trans (rootDht_one 2 x).symm) (Or.inl rfl) (ihh s m hd eh ph) _ fun hn => Or.inl hn
  | mr3 h ihh =>
    intro s m d e hpos
    obtain ⟨hd, eh, e⟩ := bind_eq_ok e
    cases e
    have ph : 0 < hd.len := Nat.pos_of_mul_pos_left (show 0 < 3 * hd.len from hpos)
    have lh := plan_len h hd eh
    refine fixed 3 _ h hd _ _ (by norm_num) ph rfl eh
      (fun f hf => mr3_implements hf (root_small ρ 3 (by norm_num) eh).1 (root_small ρ 3 (by norm_num) eh).2)
      (fun x hx => mr3Fn_root ρ hx) (Or.inr rfl) (ihh s m hd eh ph) _ fun hn => ?_
    by_cases hh : h.RootFree
    · have : ¬ h.expectedLen ≤ 1 := fun h1 => hn ⟨h1, hh⟩
      exact Or.inr ⟨by norm_num, by omega, rfl⟩
    · exact Or.inl hh
  | mr4 h ihh =>
    intro s m d e hpos
    obtain ⟨hd, eh, e⟩ := bind_eq_ok e
    cases e
    have ph : 0 < hd.len := Nat.pos_of_mul_pos_left (show 0 < 4 * hd.len from hpos)
    exact fixed 4 1 h hd _ _ (by norm_num) ph rfl eh
      (fun f hf => mr4_implements hf (root_small ρ 4 (by norm_num) eh).1 (root_small ρ 4 (by norm_num) eh).2)
      (fun x hx => (@mr4Fn_dht hd.len x hx).trans (rootDht_one 4 x).symm) (Or.inl rfl) (ihh s m hd eh ph) _ fun hn => Or.inl hn
  | mr5 h ihh =>
    intro s m d e hpos
    obtain ⟨hd, eh, e⟩ := bind_eq_ok e
    cases e
    have ph : 0 < hd.len := Nat.pos_of_mul_pos_left (show 0 < 5 * hd.len from hpos)
    have lh := plan_len h hd eh
    refine fixed 5 _ h hd _ _ (by norm_num) ph rfl eh
      (fun f hf => mr5_implements hf (root_small ρ 5 (by norm_num) eh).1 (root_small ρ 5 (by norm_num) eh).2)
      (fun x hx => mr5Fn_root ρ hx) (Or.inr rfl) (ihh s m hd eh ph) _ fun hn => ?_
    by_cases hh : h.RootFree
    · have : ¬ h.expectedLen ≤ 1 := fun h1 => hn ⟨h1, hh⟩
      exact Or.inr ⟨by norm_num, by omega, rfl⟩
    · exact Or.inl hh
  | mr6 h ihh =>
    intro s m d e hpos
    obtain ⟨hd, eh, e⟩ := bind_eq_ok e
    cases e
    have ph : 0 < hd.len := Nat.pos_of_mul_pos_left (show 0 < 6 * hd.len from hpos)
    have lh := plan_len h hd eh
    refine fixed 6 _ h hd _ _ (by norm_num) ph rfl eh
      (fun f hf => mr6_implements hf (root_small ρ 6 (by norm_num) eh).1 (root_small ρ 6 (by norm_num) eh).2)
      (fun x hx => mr6Fn_root ρ hx) (Or.inr rfl) (ihh s m hd eh ph) _ fun hn => ?_
    by_cases hh : h.RootFree
    · have : ¬ h.expectedLen ≤ 1 := fun h1 => hn ⟨h1, hh⟩
      exact Or.inr ⟨by norm_num, by omega, rfl⟩
    · exact Or.inl hh
  | splitRadix q h => exact fun s m d e _ => free (.splitRadix q h) m s d e
  | raders i => exact fun s m d e _ => free (.raders i) m s d e
  | _ =>
    intro s _ d e _
    refine free _ ?_ s d e
    trivial

end

/-! ## Rader's algorithm -/

theorem rdMid_ones {n : ℕ} (he : n % 2 = 0) {t : List ℝ} (ht : t.length = n) :
    rdMid (n + 1) (rdTw t n) 0 (tab n fun _ => 1) = t := by
  symm
  refine eq_tab (by simpa using ht) fun i hi => ?_
  rw [Nat.add_sub_cancel] at hi
  have hhalf : (FftNum.halfF32 : ℝ) = 1 / 2 := rfl
  rw [Nat.add_sub_cancel]
  by_cases h0 : i = 0
  · subst h0
    rw [if_pos rfl, rdMul, if_pos rfl, nth_tab hi, rdTw, if_pos (Or.inl rfl)]
    ring
  rw [if_neg h0, rdMul, if_neg h0, nth_tab hi, nth_tab (show n - i < n by omega)]
  rcases lt_trichotomy i (n / 2) with h | h | h
  · rw [if_pos h, rdTw, if_neg (by omega)]
    simp only [hhalf]
    ring
  · rw [if_neg (by omega), if_pos h, rdTw, if_pos (Or.inr h)]
    ring
  · rw [if_neg (by omega), if_neg (by omega), rdTw, if_neg (by omega)]
    simp only [hhalf]
    rw [show n - (n - i) = i by omega]
    ring

theorem kernel_distinct {n g gi : ℕ} (hg : RadersGen n g gi) : Distinct n (rdKernel ℝ (n + 1) gi) := by
  intro i hi j hj e
  have h2 := hg.prime.two_le
  have hn : (n : ℝ) ≠ 0 := by exact_mod_cast (show n ≠ 0 by omega)
  have hodd : (n + 1) % 2 = 1 := by
    rcases hg.prime.eq_two_or_odd with h | h
    · exact absurd h hg.odd
    · exact h
  rw [rdKernel, Nat.add_sub_cancel, nth_tab hi, nth_tab hj] at e
  have hc : (FftNum.fromF64 ((FftNum.f64 (T := ℝ)).div ((FftNum.f64 (T := ℝ)).ofNat 1) ((FftNum.f64 (T := ℝ)).ofNat n)) : ℝ) ≠ 0 := by
    change ((1 : ℕ) : ℝ) / (n : ℝ) ≠ 0
    rw [Nat.cast_one]
    exact one_div_ne_zero hn
  have e1 := mul_right_cancel₀ hc e
  rw [dht_twiddle, dht_twiddle] at e1
  have e2 := Machine.ca_inj hodd e1
  refine pow_mod_inj hg.giord (by omega) (by omega) ?_
  have l1 := Nat.mod_lt (gi ^ i) (show 0 < n + 1 by omega)
  have l2 := Nat.mod_lt (gi ^ j) (show 0 < n + 1 by omega)
  have := Int.eq_zero_of_abs_lt_dvd e2 (by rw [abs_lt]; constructor <;> omega)
  omega

/-- Rader's algorithm around an object that changes norms. -/
theorem raders_gains_wrong {id d : Dht ℝ} {f : List ℝ → List ℝ} {c : ℝ} (hf : Implements id f)
    (flat : f (tab id.len fun i => if i = 0 then 1 else 0) = tab id.len fun _ => 1) (g1 : Gains c id.len f) (g2 : GainsMore c id.len f)
    (hd : raders id = .ok d) : ¬ ComputesDht d := by
  intro hc
  obtain ⟨g, gi, hdata⟩ := raders_data hf hd
  have hdl : d.len = id.len + 1 := by rw [hdata.eq]; rfl
  have lf := hf.length
  obtain ⟨n, hn⟩ : ∃ n, id.len = n := ⟨_, rfl⟩
  have hF : ∀ x, x.length = n + 1 → rdFn (n + 1) g gi (rdTw (f (rdKernel ℝ (n + 1) gi)) n) f x = dht x := by
    intro x hx
    have := (hdata.implements hf).unique hc (show x.length = d.len by omega) (by omega)
    rw [hn, Nat.add_sub_cancel] at this
    exact this
  have hg : RadersGen n g gi := by
    rw [← hn]
    exact ⟨hdata.prime, hdata.odd, by have := hdata.g_gt; omega, hdata.g_lt, hdata.g_order, hdata.gi_pos, hdata.gi_lt, hdata.g_mul,
      hdata.gi_order⟩
  rw [hn] at flat g1 g2 lf
  have h2 := hg.prime.two_le
  have hodd : (n + 1) % 2 = 1 := by
    rcases hg.prime.eq_two_or_odd with h | h
    · exact absurd h hg.odd
    · exact h
  have hdht : ∀ x, x.length = n + 1 → rdFn (n + 1) g gi (rdTw (dht (rdKernel ℝ (n + 1) gi)) n) dht x = dht x := fun x hx => by
    have := rdFn_dht hg.prime hg.odd hg.g0 hg.glt hg.gord hg.gi0 hg.gilt hg.gmul hg.giord hx
    rwa [Nat.add_sub_cancel] at this
  have lκ : (rdKernel ℝ (n + 1) gi).length = n := length_tab _ _
  have ld : ∀ x : List ℝ, x.length = n → (dht x).length = n := fun x hx => by rw [length_dht, hx]
  obtain ⟨x, hx, x0, ex⟩ := rdIn_onto hg (u := tab n fun i => if i = 0 then (1 : ℝ) else 0) (length_tab _ _)
  have e := rd_same hg lf ld ((hF x hx).trans (hdht x hx).symm)
  have flat' : dht (tab n fun i => if i = 0 then (1 : ℝ) else 0) = tab n fun _ => 1 := by
    rw [dht_tab]
    refine tab_congr fun k _ => ?_
    rw [hart]
    simp [show 0 < n by omega, ca_zero]
  rw [x0, ex, flat, flat', rdMid_ones (by omega) (lf _ lκ), rdMid_ones (by omega) (ld _ lκ)] at e
  have e1 := congrArg (en n) e
  rw [en_dht (ld _ lκ), en_dht lκ] at e1
  have k1 := g1 _ (lf _ lκ)
  have k2 := g2 _ lκ (kernel_distinct hg)
  rw [e1] at k1
  have h3 : (0 : ℝ) < n := by exact_mod_cast (show 0 < n by omega)
  nlinarith [mul_pos h3 k2]

theorem build_flat (ρ : ℝ) {p : Plan} {d : Dht ℝ} (e : @Plan.build ℝ _ _ _ _ _ (realWithRoot ρ) p = .ok d) (hpos : 0 < d.len)
    {f : List ℝ → List ℝ} (hf : Implements d f) : f (tab d.len fun i => if i = 0 then 1 else 0) = tab d.len fun _ => 1 := by
  have h1 := C73_exact ρ p d e hpos 1
  have hl : ((1 : ℝ) :: List.replicate (d.len - 1) 0).length = d.len := by
    rw [List.length_cons, List.length_replicate]
    omega
  rw [process_single hf hl] at h1
  have h2 : (tab d.len fun i => if i = 0 then (1 : ℝ) else 0) = 1 :: List.replicate (d.len - 1) 0 := by
    symm
    refine eq_tab hl fun i hi => ?_
    rcases i with _ | i
    · rfl
    · rw [if_neg (by omega), nth_cons_succ, nth, List.getElem?_replicate, if_pos (by omega)]
      rfl
  rw [h2]
  refine (Except.ok.inj h1).trans ?_
  refine eq_tab List.length_replicate fun i hi => ?_
  rw [nth, List.getElem?_replicate, if_pos hi]
  rfl

end RustDHT
