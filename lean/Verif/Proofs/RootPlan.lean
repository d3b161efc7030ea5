import Verif.Proofs.RootStage
import Verif.Proofs.RootAffected

/-! # Compositions as stages, with another value for `sqrt(1/2)` -/

set_option linter.unusedSectionVars false
set_option linter.style.haveILetI false

namespace RustDHT

open Finset Stab

theorem length_scl (w h : ℕ) (δ : ℝ) (z : List ℝ) : (scl w h δ z).length = w * h := length_tab _ _

theorem nrm_le_of_abs {n : ℕ} {f g : ℕ → ℝ} (h : ∀ i < n, |f i| ≤ |g i|) : nrm n f ≤ nrm n g :=
  (nrm_mono (g := fun i => |g i|) h).trans (by rw [nrm, nrm]; simp only [sq_abs]; exact le_rfl)

theorem abs_scl_le {δ a : ℝ} (hδ : |δ| ≤ 1) (P : Prop) [Decidable P] : |(if P then 1 else δ) * a| ≤ |a| := by
  rw [abs_mul]
  refine mul_le_of_le_one_left (abs_nonneg _) ?_
  split_ifs
  · exact abs_one.le
  · exact hδ

theorem scl_dist {w h : ℕ} {δ : ℝ} (hδ : |δ| ≤ 1) (X Y : List ℝ) :
    nrm (w * h) (fun i => nth (scl w h δ X) i - nth (scl w h δ Y) i) ≤ nrm (w * h) (fun i => nth X i - nth Y i) := by
  refine nrm_le_of_abs fun i hi => ?_
  rw [scl, scl, nth_tab hi, nth_tab hi, ← mul_sub]
  exact abs_scl_le hδ _

theorem scl_grow {w h : ℕ} {δ : ℝ} (hδ : |δ| ≤ 1) (X : List ℝ) : nrm (w * h) (nth (scl w h δ X)) ≤ nrm (w * h) (nth X) := by
  refine nrm_le_of_abs fun i hi => ?_
  rw [scl, nth_tab hi]
  exact abs_scl_le hδ _

/-- The step with another constant is the right one on scaled numbers. -/
theorem root_apply {k h : ℕ} {δ : ℝ} (hh : 0 < h) {apρ ap : List ℝ → Res (List ℝ)}
    (hL : ∀ x, x.length = k * h → mrnFn k h dht apρ x = rootDht k δ x) (hd : ∀ x, x.length = k * h → mrnFn k h dht ap x = dht x)
    {z : List ℝ} (hz : z.length = k * h) : run apρ z = run ap (scl k h δ z) := by
  obtain ⟨x1, h1, e1, e2⟩ := stage_scaled (L := run apρ) hh hL hz
  rw [e2, ← e1]
  exact (hd x1 h1).symm

section
variable {T : Type} [Zero T] [Add T] [Sub T] [Mul T] [Neg T] [iT : FftNum T]
variable {fin : T → Prop} {val : T → ℝ} {u η Ω : ℝ} {t s : ℕ}
variable (hm : FloatModel fin val u η Ω t s) {r : T} {ρ : ℝ} (hr : fin r ∧ val r = ρ) (hρ : |ρ| ≤ 1)
include hm hr hρ

theorem mrk_stab_root {k h : ℕ} {δ : ℝ} (hδ : |δ| ≤ 1) (hk : 0 < k) (hh : 0 < h) {q : Cost} {ap : PolyRes} {f : List T → List T}
    {fr : List ℝ → List ℝ} {a : Stab}
    (hl : Local (k * h) (k * h) (2 * k) (colσ k h) q (fun U => run (ap U))) (hg : 1 ≤ q.g)
    (hd : ∀ x, x.length = k * h → mrnFn k h dht (ap ℝ) x = dht x)
    (hL : ∀ x, x.length = k * h → mrnFn k h dht (@ap ℝ _ _ _ _ _ (realWithRoot ρ)) x = rootDht k δ x)
    (st : StabStage fin val u η Ω h f fr a) :
    StabStage fin val u η Ω (k * h) (mrnFn k h f (@ap T _ _ _ _ _ (iT.withRoot r))) (mrnFn k h fr (@ap ℝ _ _ _ _ _ (realWithRoot ρ)))
      (a.seq (step t s q)) := by
  have sc := columns_scales hh hd
  have lip : ∀ X Y : List ℝ, X.length = k * h → Y.length = k * h →
      nrm (k * h) (fun i => nth (run (@ap ℝ _ _ _ _ _ (realWithRoot ρ)) X) i - nth (run (@ap ℝ _ _ _ _ _ (realWithRoot ρ)) Y) i)
        ≤ √k * nrm (k * h) (fun i => nth X i - nth Y i) := fun X Y hX hY => by
    rw [root_apply hh hL hd hX, root_apply hh hL hd hY, sc.dist _ _ (length_scl _ _ _ _) (length_scl _ _ _ _)]
    exact mul_le_mul_of_nonneg_left (scl_dist hδ X Y) (Real.sqrt_nonneg _)
  have grow : ∀ X : List ℝ, X.length = k * h → nrm (k * h) (nth (run (@ap ℝ _ _ _ _ _ (realWithRoot ρ)) X)) ≤ √k * nrm (k * h) (nth X) :=
    fun X hX => by
    rw [root_apply hh hL hd hX, sc.norm _ (length_scl _ _ _ _)]
    exact mul_le_mul_of_nonneg_left (scl_grow hδ X) (Real.sqrt_nonneg _)
  have s1 := hl.stage_root hm hr hρ (Nat.mul_pos hk hh) (Ω := Ω) (G := max a.big q.g) (K := 2 * q.g) (a := √k) (one_le_sqrt_nat hm hk)
    (by omega) (col_const le_rfl) (le_max_right _ _) (le_trans hg (le_max_right _ _)) lip grow
  have s2 := st.mono hm (b := ⟨a.depth, a.under, max a.big q.g⟩) le_rfl le_rfl (le_max_left _ _)
  exact mrn_stage hm hk hh s2 s1

/-- `MixedRadix`. -/
theorem mr_stage_root (hδ : |ρ * √2| ≤ 1) {w h : ℕ} (hw : 0 < w) (hh : 0 < h) {fw fh : List T → List T} {ew eh : List ℝ → List ℝ}
    {G D C D' C' : ℕ}
    (sw : Stage fin val u η Ω G √w (nrm w) (nrm w) w w fw ew √w D C)
    (sh : Stage fin val u η Ω G √h (nrm h) (nrm h) h h fh eh √h D' C') (hG : 4 ≤ G) :
    Stage fin val u η Ω G √(w * h : ℕ) (nrm (w * h)) (nrm (w * h)) (w * h) (w * h) (@mrFn T _ _ _ _ (iT.withRoot r) w h fw fh)
      (@mrFn ℝ _ _ _ _ (realWithRoot ρ) w h ew eh) √(w * h : ℕ) (D' + 8 * (6 + t + s) + D) (C' + 6 + C) := by
  have hc : h * w = w * h := Nat.mul_comm h w
  have hM := Real.sqrt_nonneg ((w * h : ℕ) : ℝ)
  have n0 := nrm_isNrm (w * h)
  have w1 := one_le_sqrt_nat hm hw
  have h1 := one_le_sqrt_nat hm hh
  have s1 : Stage fin val u η Ω G √(w * h : ℕ) (nrm (w * h)) (nrm (w * h)) (w * h) (w * h) (mrStep1 w h) (mrStep1 w h) 1 0 0 :=
    perm_stage hm (fun p hp => revRow_lt hh hp) (fun p hp p' hp' e => revRow_inj hh hp hp' e) hM
  have s3 := sh.chunks hm (k := w) hh (Real.sqrt_nonneg _)
  have sc := mrTwist_scales hw hh
  have tw : ∀ X, @mrTwist w h ℝ _ _ _ _ _ (realWithRoot ρ) X = mrTwist w h ℝ (scl w h (ρ * √2) X) := fun X => twist_root ρ X
  have s4 := (mrTwist_local hw hh).stage_root (Ω := Ω) (G := G) (a := 1) (K := 8) hm hr hρ (Nat.mul_pos hw hh) le_rfl (by omega) (by
      have : √(4 : ℕ) = (2 : ℝ) := by
        rw [show ((4 : ℕ) : ℝ) = 2 ^ 2 by norm_num]; exact Real.sqrt_sq (by norm_num)
      rw [this]; norm_num) hG (by omega)
    (fun X Y hX hY => by
      rw [tw, tw, sc.dist _ _ (length_scl _ _ _ _) (length_scl _ _ _ _)]
      exact mul_le_mul_of_nonneg_left (scl_dist hδ X Y) zero_le_one)
    (fun X hX => by
      rw [tw, sc.norm _ (length_scl _ _ _ _)]
      exact mul_le_mul_of_nonneg_left (scl_grow hδ X) zero_le_one)
  have s5 : Stage fin val u η Ω G √(h * w : ℕ) (nrm (h * w)) (nrm (h * w)) (h * w) (h * w) _ _ 1 0 0 :=
    perm_stage hm (fun p hp => by have := transp_lt hw hp; exact this) (fun p hp p' hp' e => transp_inj hw hp hp' e) (Real.sqrt_nonneg _)
  have s6 := sw.chunks hm (k := h) hw (Real.sqrt_nonneg _)
  have s7 : Stage fin val u η Ω G √(h * w : ℕ) (nrm (h * w)) (nrm (h * w)) (h * w) (h * w) _ _ 1 0 0 :=
    perm_stage hm (fun p hp => revr_lt hw hp) (fun p _ p' _ e => revr_inj hw e) (Real.sqrt_nonneg _)
  have s8 : Stage fin val u η Ω G √(w * h : ℕ) (nrm (w * h)) (nrm (w * h)) (w * h) (w * h) _ _ 1 0 0 :=
    perm_stage hm (fun p hp => transp_lt hh hp) (fun p hp p' hp' e => transp_inj hh hp hp' e) hM
  have n1 := nrm_isNrm (h * w)
  have hM1 := Real.sqrt_nonneg ((h * w : ℕ) : ℝ)
  have s56 := s5.comp hm s6 n1 n1 n1 hM1 le_rfl w1
  have s567 := s56.comp hm s7 n1 n1 n1 hM1 (by rw [one_mul]; exact w1) le_rfl
  rw [hc] at s567
  have s58 := s567.comp hm s8 n0 n0 n0 hM (by rw [one_mul, mul_one]; exact w1) le_rfl
  have s13 := s1.comp hm s3 n0 n0 n0 hM le_rfl h1
  have s14 := s13.comp hm s4 n0 n0 n0 hM (by rw [one_mul]; exact h1) le_rfl
  have st := s14.comp hm s58 n0 n0 n0 hM (by rw [one_mul, mul_one]; exact h1) (by rw [one_mul, mul_one, mul_one]; exact w1)
  have e : 1 * √(h : ℝ) * 1 * (1 * √w * 1 * 1) = √(w * h : ℕ) := by push_cast; rw [Real.sqrt_mul (Nat.cast_nonneg _)]; ring
  have eD : 0 + D' + 8 * Cost.depth t s ⟨4, 6, 6, 1, 1⟩ + (0 + D + 0 + 0) = D' + 8 * (6 + t + s) + D := by
    simp only [Cost.depth, one_mul]; ring
  have eC : 0 + C' + 6 + (0 + C + 0 + 0) = C' + 6 + C := by omega
  rw [e] at st
  simp only [eD, eC] at st
  refine st.congr hm (fun x _ => ?_) (fun x _ => ?_)
  · rw [@mrFn_eq T _ _ _ _ _ (iT.withRoot r)]; unfold mrTail; rw [hc]
  · rw [@mrFn_eq ℝ _ _ _ _ _ (realWithRoot ρ)]; unfold mrTail; rw [hc]

/-- Compositions without the factor inside `RadersAlgorithm`: the same numbers bound the distance to the exact computation with the
same constant. -/
theorem plan_root_stability (hδ : |ρ * √2| ≤ 1) (p : Plan) : p.RadersExact → p.RadersFree → ∀ (d : Dht T) (dr : Dht ℝ),
    @Plan.build T _ _ _ _ _ (iT.withRoot r) p = .ok d → @Plan.build ℝ _ _ _ _ _ (realWithRoot ρ) p = .ok dr →
    StabOk fin val u η Ω (p.stability t s) d dr := by
  have small : ∀ {U : Type} [Zero U] [Add U] [Sub U] [Mul U] [Neg U] [FftNum U] {p : Plan} {d : Dht U} (k : ℕ), 1 ≤ k →
      p.build U = .ok d → (0 < d.len → d.inplaceScratchLen ≤ k * d.len) ∧ (0 < d.len → d.oopScratchLen = 0) := by
    intro U _ _ _ _ _ _ p d k hk e
    have h := (plan_ok p d e).small
    exact ⟨fun hpos => le_trans (h hpos).2 (Nat.le_mul_of_pos_left _ hk), fun hpos => (h hpos).1⟩
  have free : ∀ p : Plan, p.RootFree → p.RadersExact → ∀ (d : Dht T) (dr : Dht ℝ),
      @Plan.build T _ _ _ _ _ (iT.withRoot r) p = .ok d → @Plan.build ℝ _ _ _ _ _ (realWithRoot ρ) p = .ok dr →
      StabOk fin val u η Ω (p.stability t s) d dr := by
    intro p hp hx d dr e e'
    rw [build_rootFree r p hp] at e
    rw [build_eq ρ hp] at e'
    exact plan_stability hm p hx d dr e e'
  have mrk : ∀ {k : ℕ} {a : Stab} {q : Cost} {ap : ℕ → PolyRes} {hd d : Dht T} {hr dr : Dht ℝ} (δ : ℝ), |δ| ≤ 1 → 0 < k → 1 ≤ q.g →
      (∀ {h}, 0 < h → Local (k * h) (k * h) (2 * k) (colσ k h) q (fun U => run (ap h U))) →
      (∀ {h} x, x.length = k * h → mrnFn k h dht (ap h ℝ) x = dht x) →
      (∀ {h} x, x.length = k * h → mrnFn k h dht (@ap h ℝ _ _ _ _ _ (realWithRoot ρ)) x = rootDht k δ x) →
      d.len = k * hd.len → dr.len = k * hr.len →
      (∀ f, Implements hd f → Implements d (mrnFn k hd.len f (@ap hd.len T _ _ _ _ _ (iT.withRoot r)))) →
      (∀ f, Implements hr f → Implements dr (mrnFn k hr.len f (@ap hr.len ℝ _ _ _ _ _ (realWithRoot ρ)))) →
      StabOk fin val u η Ω a hd hr → StabOk fin val u η Ω (a.seq (step t s q)) d dr := by
    intro k a q ap hd d hr dr δ hδ hk hq hl hx hL l1 l2 i1 i2 ⟨e, hb, f, fr, j1, j2, st⟩
    refine ⟨by rw [l1, l2, e], le_trans hb (le_max_left _ _), _, _, i1 f j1, i2 fr j2, fun hpos => ?_⟩
    have hh : 0 < hd.len := Nat.pos_of_ne_zero fun h0 => by rw [l1, h0] at hpos; omega
    rw [l1, e]
    exact mrk_stab_root hm ‹_› hρ hδ hk hh (hl hh) hq hx hL (st hh)
  induction p with
  | mixedRadix w h ihw ihh =>
    rintro ⟨xw, xh⟩ ⟨mw, mh⟩ d dr e e'
    obtain ⟨wd, ew, e⟩ := bind_eq_ok e
    obtain ⟨hd, eh, e⟩ := bind_eq_ok e
    cases e
    obtain ⟨wr, ewr, e'⟩ := bind_eq_ok e'
    obtain ⟨hr', ehr, e'⟩ := bind_eq_ok e'
    cases e'
    obtain ⟨lw, bw, fw, gw, iw, jw, sw⟩ := ihw xw mw wd wr ew ewr
    obtain ⟨lh, bh, fh, gh, ih, jh, sh⟩ := ihh xh mh hd hr' eh ehr
    have hl : (@mixedRadix T _ _ _ (iT.withRoot r) wd hd).len = wd.len * hd.len := rfl
    have hlr : (@mixedRadix ℝ _ _ _ (realWithRoot ρ) wr hr').len = wr.len * hr'.len := rfl
    refine ⟨by rw [hl, hlr, lw, lh], le_trans bw (le_max_right _ _), _, _, @mixedRadix_implements T _ _ _ _ (iT.withRoot r) _ _ _ _ iw ih,
      @mixedRadix_implements ℝ _ _ _ _ (realWithRoot ρ) _ _ _ _ jw jh, fun hpos => ?_⟩
    rw [hl] at hpos
    have hw0 : 0 < wd.len := Nat.pos_of_ne_zero fun h0 => by simp [h0] at hpos
    have hh0 : 0 < hd.len := Nat.pos_of_ne_zero fun h0 => by simp [h0] at hpos
    rw [hl, lw, lh]
    set A := Plan.stability t s w with hA
    set B := Plan.stability t s h with hB
    have s1 := (sw hw0).mono hm (b := ⟨A.depth, A.under, max (max B.big 4) A.big⟩) le_rfl le_rfl (le_max_right _ _)
    have s2 := (sh hh0).mono hm (b := ⟨B.depth, B.under, max (max B.big 4) A.big⟩) le_rfl le_rfl
      ((le_max_left _ _).trans (le_max_left _ _))
    have s3 := mr_stage_root hm hr hρ hδ hw0 hh0 s1 s2 ((le_max_right _ _).trans (le_max_left _ _))
    refine Stage.mono hm s3 (nrm_isNrm _) (Real.sqrt_nonneg _) (Real.sqrt_nonneg _) le_rfl ?_ le_rfl
    show _ ≤ B.depth + 2 * 4 * Cost.depth t s ⟨4, 6, 6, 1, 1⟩ + A.depth
    simp only [Cost.depth]
    omega
  | mr2 h ihh =>
    intro x m d dr e e'
    obtain ⟨hd, eh, e⟩ := bind_eq_ok e
    cases e
    obtain ⟨hr', ehr, e'⟩ := bind_eq_ok e'
    cases e'
    exact mrk (ap := fun h U => mr2Apply U h) 1 abs_one.le (by omega) (by decide) mr2_local (fun _ => mr2Fn_dht)
      (fun x hx => (mr2Fn_dht hx).trans (rootDht_one 2 x).symm) rfl rfl
      (fun f i => @mr2_implements T _ _ _ _ _ (iT.withRoot r) _ _ i (@small T _ _ _ _ _ (iT.withRoot r) _ _ 2 (by omega) eh).1
        (@small T _ _ _ _ _ (iT.withRoot r) _ _ 2 (by omega) eh).2)
      (fun f i => @mr2_implements ℝ _ _ _ _ _ (realWithRoot ρ) _ _ i (@small ℝ _ _ _ _ _ (realWithRoot ρ) _ _ 2 (by omega) ehr).1
        (@small ℝ _ _ _ _ _ (realWithRoot ρ) _ _ 2 (by omega) ehr).2) (ihh x m hd hr' eh ehr)
  | mr3 h ihh =>
    intro x m d dr e e'
    obtain ⟨hd, eh, e⟩ := bind_eq_ok e
    cases e
    obtain ⟨hr', ehr, e'⟩ := bind_eq_ok e'
    cases e'
    exact mrk (ap := fun h U => mr3Apply U h) _ hδ (by omega) (by decide) mr3_local (fun _ => mr3Fn_dht)
      (fun x hx => mr3Fn_root ρ hx) rfl rfl
      (fun f i => @mr3_implements T _ _ _ _ _ (iT.withRoot r) _ _ i (@small T _ _ _ _ _ (iT.withRoot r) _ _ 3 (by omega) eh).1
        (@small T _ _ _ _ _ (iT.withRoot r) _ _ 3 (by omega) eh).2)
      (fun f i => @mr3_implements ℝ _ _ _ _ _ (realWithRoot ρ) _ _ i (@small ℝ _ _ _ _ _ (realWithRoot ρ) _ _ 3 (by omega) ehr).1
        (@small ℝ _ _ _ _ _ (realWithRoot ρ) _ _ 3 (by omega) ehr).2) (ihh x m hd hr' eh ehr)
  | mr4 h ihh =>
    intro x m d dr e e'
    obtain ⟨hd, eh, e⟩ := bind_eq_ok e
    cases e
    obtain ⟨hr', ehr, e'⟩ := bind_eq_ok e'
    cases e'
    exact mrk (ap := fun h U => mr4Apply U h) 1 abs_one.le (by omega) (by decide) mr4_local (fun _ => mr4Fn_dht)
      (fun x hx => (mr4Fn_dht hx).trans (rootDht_one 4 x).symm) rfl rfl
      (fun f i => @mr4_implements T _ _ _ _ _ (iT.withRoot r) _ _ i (@small T _ _ _ _ _ (iT.withRoot r) _ _ 4 (by omega) eh).1
        (@small T _ _ _ _ _ (iT.withRoot r) _ _ 4 (by omega) eh).2)
      (fun f i => @mr4_implements ℝ _ _ _ _ _ (realWithRoot ρ) _ _ i (@small ℝ _ _ _ _ _ (realWithRoot ρ) _ _ 4 (by omega) ehr).1
        (@small ℝ _ _ _ _ _ (realWithRoot ρ) _ _ 4 (by omega) ehr).2) (ihh x m hd hr' eh ehr)
  | mr5 h ihh =>
    intro x m d dr e e'
    obtain ⟨hd, eh, e⟩ := bind_eq_ok e
    cases e
    obtain ⟨hr', ehr, e'⟩ := bind_eq_ok e'
    cases e'
    exact mrk (ap := fun h U => mr5Apply U h) _ hδ (by omega) (by decide) mr5_local (fun _ => mr5Fn_dht)
      (fun x hx => mr5Fn_root ρ hx) rfl rfl
      (fun f i => @mr5_implements T _ _ _ _ _ (iT.withRoot r) _ _ i (@small T _ _ _ _ _ (iT.withRoot r) _ _ 5 (by omega) eh).1
        (@small T _ _ _ _ _ (iT.withRoot r) _ _ 5 (by omega) eh).2)
      (fun f i => @mr5_implements ℝ _ _ _ _ _ (realWithRoot ρ) _ _ i (@small ℝ _ _ _ _ _ (realWithRoot ρ) _ _ 5 (by omega) ehr).1
        (@small ℝ _ _ _ _ _ (realWithRoot ρ) _ _ 5 (by omega) ehr).2) (ihh x m hd hr' eh ehr)
  | mr6 h ihh =>
    intro x m d dr e e'
    obtain ⟨hd, eh, e⟩ := bind_eq_ok e
    cases e
    obtain ⟨hr', ehr, e'⟩ := bind_eq_ok e'
    cases e'
    exact mrk (ap := fun h U => mr6Apply U h) _ hδ (by omega) (by decide) mr6_local (fun _ => mr6Fn_dht)
      (fun x hx => mr6Fn_root ρ hx) rfl rfl
      (fun f i => @mr6_implements T _ _ _ _ _ (iT.withRoot r) _ _ i (@small T _ _ _ _ _ (iT.withRoot r) _ _ 6 (by omega) eh).1
        (@small T _ _ _ _ _ (iT.withRoot r) _ _ 6 (by omega) eh).2)
      (fun f i => @mr6_implements ℝ _ _ _ _ _ (realWithRoot ρ) _ _ i (@small ℝ _ _ _ _ _ (realWithRoot ρ) _ _ 6 (by omega) ehr).1
        (@small ℝ _ _ _ _ _ (realWithRoot ρ) _ _ 6 (by omega) ehr).2) (ihh x m hd hr' eh ehr)
  | splitRadix q h ihq ihh =>
    rintro ⟨xq, xh⟩ ⟨mq, mh⟩ d dr e e'
    obtain ⟨qd, eq, e⟩ := bind_eq_ok e
    obtain ⟨hd, eh, e⟩ := bind_eq_ok e
    obtain ⟨qr, eqr, e'⟩ := bind_eq_ok e'
    obtain ⟨hr', ehr, e'⟩ := bind_eq_ok e'
    obtain ⟨lq, bq, fq, gq, iq, jq, sq⟩ := ihq xq mq qd qr eq eqr
    obtain ⟨lh, bh, fh, gh, ih, jh, sh⟩ := ihh xh mh hd hr' eh ehr
    have q1 := @splitRadix_eq T _ _ _ _ (iT.withRoot r) _ _ _ e
    have q2 := @splitRadix_eq ℝ _ _ _ _ (realWithRoot ρ) _ _ _ e'
    have hlen := q1.1
    have hlenr := q2.1
    have hs : 0 < qd.len → qd.oopScratchLen = 0 ∧ qd.inplaceScratchLen ≤ 4 * qd.len ∧ hd.inplaceScratchLen ≤ 2 * qd.len := by
      intro hq
      have h1 := (@plan_ok T _ _ _ _ _ (iT.withRoot r) q qd eq).small hq
      have h2 := (@plan_ok T _ _ _ _ _ (iT.withRoot r) h hd eh).small (by omega)
      omega
    have hsr : 0 < qr.len → qr.oopScratchLen = 0 ∧ qr.inplaceScratchLen ≤ 4 * qr.len ∧ hr'.inplaceScratchLen ≤ 2 * qr.len := by
      intro hq
      have h1 := (@plan_ok ℝ _ _ _ _ _ (realWithRoot ρ) q qr eqr).small hq
      have h2 := (@plan_ok ℝ _ _ _ _ _ (realWithRoot ρ) h hr' ehr).small (by omega)
      omega
    have hdl : d.len = 4 * qd.len := by rw [q1.2]; rfl
    have hdlr : dr.len = 4 * qr.len := by rw [q2.2]; rfl
    have i1 := @splitRadix_implements T _ _ _ _ (iT.withRoot r) _ _ _ _ _ iq ih e hs
    have i2 := @splitRadix_implements ℝ _ _ _ _ (realWithRoot ρ) _ _ _ _ _ jq jh e' hsr
    refine ⟨by rw [hdl, hdlr, lq], le_trans (by decide : 1 ≤ 8) (le_max_left _ _), _, _, i1, i2, fun hpos => ?_⟩
    have hq0 : 0 < qd.len := by omega
    rw [hdl, lq]
    set A := Plan.stability t s q with hA
    set B := Plan.stability t s h with hB
    have s1 := (sq hq0).mono hm (b := ⟨A.depth, A.under, max 8 (max A.big B.big)⟩) le_rfl le_rfl
      ((le_max_left _ _).trans (le_max_right _ _))
    have s2 := (sh (by omega)).mono hm (b := ⟨B.depth, B.under, max 8 (max A.big B.big)⟩) le_rfl le_rfl
      ((le_max_right _ _).trans (le_max_right _ _))
    rw [show hd.len = 2 * qd.len by omega] at s2
    have s3 := sr_stage hm hq0 (le_max_left _ _) s1 s2
    refine Stage.mono hm s3 (nrm_isNrm _) (Real.sqrt_nonneg _) (Real.sqrt_nonneg _) le_rfl ?_ le_rfl
    show _ ≤ 2 * 8 * Cost.depth t s ⟨8, 2, 5, 1, 0⟩ + max A.depth B.depth
    simp only [Cost.depth]
    omega
  | raders i => exact fun x m => free (.raders i) m x
  | _ => exact fun x _ => free _ trivial x

end

end RustDHT
