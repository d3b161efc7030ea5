import Verif.Proofs.RadersStage
import Verif.Proofs.SplitStage
import Verif.Proofs.PlanDht
import Verif.Proofs.Length
import Verif.Spec.Stability

/-! # Compositions as stages -/

set_option linter.unusedSectionVars false

namespace RustDHT

open Stab

section
variable {T : Type} [Zero T] [Add T] [Sub T] [Mul T] [Neg T] [FftNum T]
variable {fin : T → Prop} {val : T → ℝ} {u η Ω : ℝ} {t s : ℕ}
variable (hm : FloatModel fin val u η Ω t s)
include hm

theorem bfly8_dht' {x : List ℝ} (hx : x.length = 8) : bflyFn contiguous8 x = dht x :=
  butterfly8_implements.unique butterfly8_dht hx (by decide)

theorem bfly9_dht' {x : List ℝ} (hx : x.length = 9) : bflyFn contiguous9 x = dht x :=
  butterfly9_implements.unique butterfly9_dht hx (by decide)

theorem bfly16_dht' {x : List ℝ} (hx : x.length = 16) : bflyFn contiguous16 x = dht x :=
  butterfly16_implements.unique butterfly16_dht hx (by decide)

/-- A transform of length `n` as a stage with the numbers `a`. -/
def StabStage (fin : T → Prop) (val : T → ℝ) (u η Ω : ℝ) (n : ℕ) (f : List T → List T) (fr : List ℝ → List ℝ) (a : Stab) : Prop :=
  Stage fin val u η Ω a.big √n (nrm n) (nrm n) n n f fr √n a.depth a.under

theorem StabStage.mono {n : ℕ} {f : List T → List T} {fr : List ℝ → List ℝ} {a b : Stab} (h : StabStage fin val u η Ω n f fr a)
    (hd : a.depth ≤ b.depth) (hu : a.under ≤ b.under) (hb : a.big ≤ b.big) : StabStage fin val u η Ω n f fr b :=
  Stage.mono hm h (nrm_isNrm n) (Real.sqrt_nonneg _) (Real.sqrt_nonneg _) hb hd hu

theorem id_stab : StabStage fin val u η Ω 1 (fun x => x) (fun x => x) Stab.none := by
  have := id_stage hm (Ω := Ω) (G := 1) (n := 1) (M := √(1 : ℕ)) (Real.sqrt_nonneg _)
  unfold StabStage
  rw [show √((1 : ℕ) : ℝ) = 1 by simp] at this ⊢
  exact this

theorem leaf_stab {n : ℕ} {q : Cost} {Φ : Poly} (hn : 0 < n) (hl : Local n n n (fun j i => (i + j) % n) q Φ)
    (hd : ∀ X, X.length = n → Φ ℝ X = dht X) (hq : 1 ≤ q.g) :
    StabStage fin val u η Ω n (Φ T) (Φ ℝ) (leaf t s q) :=
  leaf_stage hm hn hl hd hq le_rfl

theorem radix4_stab (m : ℕ) :
    StabStage fin val u η Ω (2 ^ m) (radix4Fn T m) (radix4Fn ℝ m) (radix4Stability t s (2 ^ m)) := by
  have main : ∀ a : Stab, StabStage fin val u η Ω (r4BaseLen m) (r4BaseFn T m) (r4BaseFn ℝ m) a →
      StabStage fin val u η Ω (2 ^ m) (radix4Fn T m) (radix4Fn ℝ m) (a.seq ((step t s ⟨7, 4, 5, 1, 0⟩).times (r4Levels m))) := by
    intro a ha
    have h1 := ha.mono hm (b := ⟨a.depth, a.under, max a.big 7⟩) le_rfl le_rfl (le_max_left _ _)
    have h2 := radix4_stage hm (le_max_right _ _) h1
    refine Stage.mono hm h2 (nrm_isNrm _) (Real.sqrt_nonneg _) (Real.sqrt_nonneg _) le_rfl ?_ le_rfl
    simp [seq, times, step, Cost.depth]
  have hlev : r4Levels m = if Nat.log 2 (2 ^ m) < 3 then 0
      else if Nat.log 2 (2 ^ m) % 2 = 1 then (Nat.log 2 (2 ^ m) - 3) / 2 else (Nat.log 2 (2 ^ m) - 4) / 2 := by
    rw [Nat.log_pow (by norm_num)]; rfl
  unfold radix4Stability
  rw [← hlev]
  apply main
  match m with
  | 0 => exact id_stab hm
  | 1 => exact leaf_stab hm (by omega) b2_local (fun _ => bfly2_dht) (by decide)
  | 2 => exact leaf_stab hm (by omega) b4_local (fun _ => bfly4_dht) (by decide)
  | m + 3 =>
    have h8 : 8 * 2 ^ m = 2 ^ (m + 3) := by ring
    have hp : 1 ≤ 2 ^ m := Nat.one_le_two_pow
    rw [if_neg (by omega), if_neg (by omega), if_neg (by omega), Nat.log_pow (by norm_num)]
    by_cases hm' : (m + 3) % 2 = 1
    · simp only [r4BaseLen, r4BaseFn, if_pos hm']
      exact leaf_stab hm (by omega) b8_local (fun _ => bfly8_dht' hm) (by decide)
    · simp only [r4BaseLen, r4BaseFn, if_neg hm']
      exact leaf_stab hm (by omega) b16_local (fun _ => bfly16_dht' hm) (by decide)

/-- What is shown of every composition. -/
structure StabOk (fin : T → Prop) (val : T → ℝ) (u η Ω : ℝ) (a : Stab) (d : Dht T) (dr : Dht ℝ) : Prop where
  len : dr.len = d.len
  big : 1 ≤ a.big
  fns : ∃ f fr, Implements d f ∧ Implements dr fr ∧ (0 < d.len → StabStage fin val u η Ω d.len f fr a)

theorem mrk_stab {k h : ℕ} (hk : 0 < k) (hh : 0 < h) {q : Cost} {ap : PolyRes} {f : List T → List T} {fr : List ℝ → List ℝ} {a : Stab}
    (hl : Local (k * h) (k * h) (2 * k) (colσ k h) q (fun U => run (ap U))) (hg : 1 ≤ q.g)
    (hd : ∀ x, x.length = k * h → mrnFn k h dht (ap ℝ) x = dht x) (st : StabStage fin val u η Ω h f fr a) :
    StabStage fin val u η Ω (k * h) (mrnFn k h f (ap T)) (mrnFn k h fr (ap ℝ)) (a.seq (step t s q)) := by
  have s1 := columns_stage hm hk hh hl hg (columns_scales hh hd) (Ω := Ω) (G := max a.big q.g) (le_max_right _ _)
  have s2 := st.mono hm (b := ⟨a.depth, a.under, max a.big q.g⟩) le_rfl le_rfl (le_max_left _ _)
  exact mrn_stage hm hk hh s2 s1

theorem plan_stability (p : Plan) : p.RadersExact → ∀ (d : Dht T) (dr : Dht ℝ), p.build T = .ok d → p.build ℝ = .ok dr →
    StabOk fin val u η Ω (p.stability t s) d dr := by
  have small : ∀ {U : Type} [Zero U] [Add U] [Sub U] [Mul U] [Neg U] [FftNum U] {p : Plan} {d : Dht U} (k : ℕ), 1 ≤ k →
      p.build U = .ok d → (0 < d.len → d.inplaceScratchLen ≤ k * d.len) ∧ (0 < d.len → d.oopScratchLen = 0) := by
    intro U _ _ _ _ _ _ p d k hk e
    have h := (plan_ok p d e).small
    exact ⟨fun hpos => le_trans (h hpos).2 (Nat.le_mul_of_pos_left _ hk), fun hpos => (h hpos).1⟩
  have mrk : ∀ {k : ℕ} {a : Stab} {q : Cost} {ap : ℕ → PolyRes} {hd d : Dht T} {hr dr : Dht ℝ}, 0 < k → 1 ≤ q.g →
      (∀ {h}, 0 < h → Local (k * h) (k * h) (2 * k) (colσ k h) q (fun U => run (ap h U))) →
      (∀ {h} x, x.length = k * h → mrnFn k h dht (ap h ℝ) x = dht x) →
      d.len = k * hd.len → dr.len = k * hr.len →
      (∀ f, Implements hd f → Implements d (mrnFn k hd.len f (ap hd.len T))) →
      (∀ f, Implements hr f → Implements dr (mrnFn k hr.len f (ap hr.len ℝ))) →
      StabOk fin val u η Ω a hd hr → StabOk fin val u η Ω (a.seq (step t s q)) d dr := by
    intro k a q ap hd d hr dr hk hq hl hx l1 l2 i1 i2 ⟨e, hb, f, fr, j1, j2, st⟩
    refine ⟨by rw [l1, l2, e], le_trans hb (le_max_left _ _), _, _, i1 f j1, i2 fr j2, fun hpos => ?_⟩
    have hh : 0 < hd.len := Nat.pos_of_ne_zero fun h0 => by rw [l1, h0] at hpos; omega
    rw [l1, e]
    exact mrk_stab hm hk hh (hl hh) hq hx (st hh)
  have lf : ∀ {n : ℕ} {q : Cost} {Φ : Poly} {d : Dht T} {dr : Dht ℝ}, 1 ≤ q.g →
      (0 < n → Local n n n (fun j i => (i + j) % n) q Φ) → (∀ X, X.length = n → Φ ℝ X = dht X) →
      d.len = n → dr.len = n → Implements d (Φ T) → Implements dr (Φ ℝ) → StabOk fin val u η Ω (leaf t s q) d dr := by
    intro n q Φ d dr hq hl hd e1 e2 i1 i2
    exact ⟨by rw [e1, e2], hq, _, _, i1, i2, fun hpos => by rw [e1] at hpos ⊢; exact leaf_stab hm hpos (hl hpos) hd hq⟩
  induction p with
  | naive n =>
    rintro - d dr ⟨⟩ ⟨⟩
    exact lf (Φ := fun U => naiveFn U n) (by show 1 ≤ 2 * max 1 n; omega) naive_local (fun _ => naiveFn_dht) (dhtNaive_len n) (dhtNaive_len n)
      (dhtNaive_implements n) (dhtNaive_implements n)
  | b1 =>
    rintro - d dr ⟨⟩ ⟨⟩
    exact ⟨rfl, le_refl 1, _, _, butterfly1_implements, butterfly1_implements, fun _ => id_stab hm⟩
  | b2 =>
    rintro - d dr ⟨⟩ ⟨⟩
    exact lf (Φ := fun _ => bflyFn contiguous2) (by decide) (fun _ => b2_local) (fun _ => bfly2_dht) rfl rfl
      (boilerplateFftButterfly_implements (by omega) performs2) (boilerplateFftButterfly_implements (by omega) performs2)
  | b3 =>
    rintro - d dr ⟨⟩ ⟨⟩
    exact lf (Φ := fun _ => bflyFn contiguous3) (by decide) (fun _ => b3_local) (fun _ => bfly3_dht) rfl rfl
      (boilerplateFftButterfly_implements (by omega) performs3) (boilerplateFftButterfly_implements (by omega) performs3)
  | b4 =>
    rintro - d dr ⟨⟩ ⟨⟩
    exact lf (Φ := fun _ => bflyFn contiguous4) (by decide) (fun _ => b4_local) (fun _ => bfly4_dht) rfl rfl
      (boilerplateFftButterfly_implements (by omega) performs4) (boilerplateFftButterfly_implements (by omega) performs4)
  | b5 =>
    rintro - d dr ⟨⟩ ⟨⟩
    exact lf (Φ := fun _ => bflyFn contiguous5) (by decide) (fun _ => b5_local) (fun _ => bfly5_dht) rfl rfl
      (boilerplateFftButterfly_implements (by omega) performs5) (boilerplateFftButterfly_implements (by omega) performs5)
  | b6 =>
    rintro - d dr ⟨⟩ ⟨⟩
    exact lf (Φ := fun _ => bflyFn contiguous6) (by decide) (fun _ => b6_local) (fun _ => bfly6_dht) rfl rfl
      (boilerplateFftButterfly_implements (by omega) performs6) (boilerplateFftButterfly_implements (by omega) performs6)
  | b8 =>
    rintro - d dr ⟨⟩ ⟨⟩
    exact lf (Φ := fun _ => bflyFn contiguous8) (by decide) (fun _ => b8_local) (fun _ => bfly8_dht' hm) rfl rfl
      (boilerplateFftButterfly_implements (by omega) performs8) (boilerplateFftButterfly_implements (by omega) performs8)
  | b9 =>
    rintro - d dr ⟨⟩ ⟨⟩
    exact lf (Φ := fun _ => bflyFn contiguous9) (by decide) (fun _ => b9_local) (fun _ => bfly9_dht' hm) rfl rfl
      (boilerplateFftButterfly_implements (by omega) performs9) (boilerplateFftButterfly_implements (by omega) performs9)
  | b16 =>
    rintro - d dr ⟨⟩ ⟨⟩
    exact lf (Φ := fun _ => bflyFn contiguous16) (by decide) (fun _ => b16_local) (fun _ => bfly16_dht' hm) rfl rfl
      (boilerplateFftButterfly_implements (by omega) performs16) (boilerplateFftButterfly_implements (by omega) performs16)
  | mixedRadix w h ihw ihh =>
    rintro ⟨xw, xh⟩ d dr e e'
    obtain ⟨wd, ew, e⟩ := bind_eq_ok e
    obtain ⟨hd, eh, e⟩ := bind_eq_ok e
    cases e
    obtain ⟨wr, ewr, e'⟩ := bind_eq_ok e'
    obtain ⟨hr, ehr, e'⟩ := bind_eq_ok e'
    cases e'
    obtain ⟨lw, bw, fw, gw, iw, jw, sw⟩ := ihw xw wd wr ew ewr
    obtain ⟨lh, bh, fh, gh, ih, jh, sh⟩ := ihh xh hd hr eh ehr
    have hl : (mixedRadix wd hd).len = wd.len * hd.len := rfl
    have hlr : (mixedRadix wr hr).len = wr.len * hr.len := rfl
    refine ⟨by rw [hl, hlr, lw, lh], le_trans bw (le_max_right _ _), _, _, mixedRadix_implements iw ih, mixedRadix_implements jw jh,
      fun hpos => ?_⟩
    rw [hl] at hpos
    have hw0 : 0 < wd.len := Nat.pos_of_ne_zero fun h0 => by simp [h0] at hpos
    have hh0 : 0 < hd.len := Nat.pos_of_ne_zero fun h0 => by simp [h0] at hpos
    rw [hl, lw, lh]
    set A := Plan.stability t s w with hA
    set B := Plan.stability t s h with hB
    have s1 := (sw hw0).mono hm (b := ⟨A.depth, A.under, max (max B.big 4) A.big⟩) le_rfl le_rfl (le_max_right _ _)
    have s2 := (sh hh0).mono hm (b := ⟨B.depth, B.under, max (max B.big 4) A.big⟩) le_rfl le_rfl
      ((le_max_left _ _).trans (le_max_left _ _))
    have s3 := mr_stage hm hw0 hh0 s1 s2 ((le_max_right _ _).trans (le_max_left _ _))
    refine Stage.mono hm s3 (nrm_isNrm _) (Real.sqrt_nonneg _) (Real.sqrt_nonneg _) le_rfl ?_ le_rfl
    show _ ≤ B.depth + 2 * 4 * Cost.depth t s ⟨4, 6, 6, 1, 1⟩ + A.depth
    simp only [Cost.depth]
    omega
  | mr2 h ihh =>
    intro x d dr e e'
    obtain ⟨hd, eh, e⟩ := bind_eq_ok e
    cases e
    obtain ⟨hr, ehr, e'⟩ := bind_eq_ok e'
    cases e'
    exact mrk (ap := fun h U => mr2Apply U h) (by omega) (by decide) mr2_local (fun _ => mr2Fn_dht) rfl rfl
      (fun f i => mr2_implements i (small 2 (by omega) eh).1 (small 2 (by omega) eh).2)
      (fun f i => mr2_implements i (small 2 (by omega) ehr).1 (small 2 (by omega) ehr).2) (ihh x hd hr eh ehr)
  | mr3 h ihh =>
    intro x d dr e e'
    obtain ⟨hd, eh, e⟩ := bind_eq_ok e
    cases e
    obtain ⟨hr, ehr, e'⟩ := bind_eq_ok e'
    cases e'
    exact mrk (ap := fun h U => mr3Apply U h) (by omega) (by decide) mr3_local (fun _ => mr3Fn_dht) rfl rfl
      (fun f i => mr3_implements i (small 3 (by omega) eh).1 (small 2 (by omega) eh).2)
      (fun f i => mr3_implements i (small 3 (by omega) ehr).1 (small 2 (by omega) ehr).2) (ihh x hd hr eh ehr)
  | mr4 h ihh =>
    intro x d dr e e'
    obtain ⟨hd, eh, e⟩ := bind_eq_ok e
    cases e
    obtain ⟨hr, ehr, e'⟩ := bind_eq_ok e'
    cases e'
    exact mrk (ap := fun h U => mr4Apply U h) (by omega) (by decide) mr4_local (fun _ => mr4Fn_dht) rfl rfl
      (fun f i => mr4_implements i (small 4 (by omega) eh).1 (small 2 (by omega) eh).2)
      (fun f i => mr4_implements i (small 4 (by omega) ehr).1 (small 2 (by omega) ehr).2) (ihh x hd hr eh ehr)
  | mr5 h ihh =>
    intro x d dr e e'
    obtain ⟨hd, eh, e⟩ := bind_eq_ok e
    cases e
    obtain ⟨hr, ehr, e'⟩ := bind_eq_ok e'
    cases e'
    exact mrk (ap := fun h U => mr5Apply U h) (by omega) (by decide) mr5_local (fun _ => mr5Fn_dht) rfl rfl
      (fun f i => mr5_implements i (small 5 (by omega) eh).1 (small 2 (by omega) eh).2)
      (fun f i => mr5_implements i (small 5 (by omega) ehr).1 (small 2 (by omega) ehr).2) (ihh x hd hr eh ehr)
  | mr6 h ihh =>
    intro x d dr e e'
    obtain ⟨hd, eh, e⟩ := bind_eq_ok e
    cases e
    obtain ⟨hr, ehr, e'⟩ := bind_eq_ok e'
    cases e'
    exact mrk (ap := fun h U => mr6Apply U h) (by omega) (by decide) mr6_local (fun _ => mr6Fn_dht) rfl rfl
      (fun f i => mr6_implements i (small 6 (by omega) eh).1 (small 2 (by omega) eh).2)
      (fun f i => mr6_implements i (small 6 (by omega) ehr).1 (small 2 (by omega) ehr).2) (ihh x hd hr eh ehr)
  | radix4 n =>
    intro x d dr e e'
    obtain ⟨m, rfl⟩ := radix4_isPow e
    have h1 : RustDHT.radix4 T (2 ^ m) = .ok d := e
    have h2 : RustDHT.radix4 ℝ (2 ^ m) = .ok dr := e'
    have l1 := plan_len _ _ e
    have l2 := plan_len _ _ e'
    refine ⟨by rw [l1, l2], ?_, _, _, radix4_implements h1, radix4_implements h2, fun _ => ?_⟩
    · exact le_trans (by decide : 1 ≤ 7) (le_max_right _ _)
    · rw [l1]
      exact radix4_stab hm m
  | splitRadix q h ihq ihh =>
    rintro ⟨xq, xh⟩ d dr e e'
    obtain ⟨qd, eq, e⟩ := bind_eq_ok e
    obtain ⟨hd, eh, e⟩ := bind_eq_ok e
    obtain ⟨qr, eqr, e'⟩ := bind_eq_ok e'
    obtain ⟨hr, ehr, e'⟩ := bind_eq_ok e'
    obtain ⟨lq, bq, fq, gq, iq, jq, sq⟩ := ihq xq qd qr eq eqr
    obtain ⟨lh, bh, fh, gh, ih, jh, sh⟩ := ihh xh hd hr eh ehr
    have hlen := (splitRadix_eq e).1
    have hlenr := (splitRadix_eq e').1
    have hs : 0 < qd.len → qd.oopScratchLen = 0 ∧ qd.inplaceScratchLen ≤ 4 * qd.len ∧ hd.inplaceScratchLen ≤ 2 * qd.len := by
      intro hq
      have h1 := (plan_ok q qd eq).small hq
      have h2 := (plan_ok h hd eh).small (by omega)
      omega
    have hsr : 0 < qr.len → qr.oopScratchLen = 0 ∧ qr.inplaceScratchLen ≤ 4 * qr.len ∧ hr.inplaceScratchLen ≤ 2 * qr.len := by
      intro hq
      have h1 := (plan_ok q qr eqr).small hq
      have h2 := (plan_ok h hr ehr).small (by omega)
      omega
    have hdl : d.len = 4 * qd.len := by rw [(splitRadix_eq e).2]; rfl
    have hdlr : dr.len = 4 * qr.len := by rw [(splitRadix_eq e').2]; rfl
    refine ⟨by rw [hdl, hdlr, lq], le_trans (by decide : 1 ≤ 8) (le_max_left _ _), _, _, splitRadix_implements iq ih e hs,
      splitRadix_implements jq jh e' hsr, fun hpos => ?_⟩
    have hq0 : 0 < qd.len := by omega
    rw [hdl, lq]
    set A := Plan.stability t s q with hA
    set B := Plan.stability t s h with hB
    have s1 := (sq hq0).mono hm (b := ⟨A.depth, A.under, max 8 (max A.big B.big)⟩) le_rfl le_rfl
      ((le_max_left _ _).trans (le_max_right _ _))
    have s2 := (sh (by omega)).mono hm (b := ⟨B.depth, B.under, max 8 (max A.big B.big)⟩) le_rfl le_rfl
      ((le_max_right _ _).trans (le_max_right _ _))
    rw [show hd.len = 2 * qd.len by omega] at s2
    have s3 := sr_stage hm hq0 (le_max_left _ _) s1 s2
    refine Stage.mono hm s3 (nrm_isNrm _) (Real.sqrt_nonneg _) (Real.sqrt_nonneg _) le_rfl ?_ le_rfl
    show _ ≤ 2 * 8 * Cost.depth t s ⟨8, 2, 5, 1, 0⟩ + max A.depth B.depth
    simp only [Cost.depth]
    omega
  | raders i ihi =>
    rintro ⟨x, sm⟩ d dr e e'
    have e0 := e'
    obtain ⟨id, ei, e⟩ := bind_eq_ok e
    obtain ⟨ir, eir, e'⟩ := bind_eq_ok e'
    obtain ⟨li, bi, f, fr, hf, hfr, st⟩ := ihi x id ir ei eir
    obtain ⟨g, eg, hdata⟩ := raders_data_root hf e
    obtain ⟨g', eg', hdata'⟩ := raders_data_root hfr e'
    rw [li, eg] at eg'
    cases eg'
    have hdl : d.len = id.len + 1 := by rw [hdata.eq]; rfl
    have hdlr : dr.len = ir.len + 1 := by rw [hdata'.eq]; rfl
    have hp2 := hdata.prime.two_le
    have hlen := plan_len i id ei
    have hgen : RadersGen id.len g (rootInverse g (id.len + 1)) :=
      ⟨hdata.prime, hdata.odd, by have := hdata.g_gt; omega, hdata.g_lt, hdata.g_order, hdata.gi_pos, hdata.gi_lt, hdata.g_mul,
        hdata.gi_order⟩
    have hdht : ∀ X, X.length = id.len → fr X = dht X := fun X hX =>
      hfr.unique (plan_dht i sm ir eir) (by rw [hX, li]) (by omega)
    have s1 := rd_stage hm hgen bi (st (by omega)) hdht
    have i2 := plan_dht (.raders i) sm dr e0
    refine ⟨by rw [hdl, hdlr, li], le_trans (by decide : 1 ≤ 18) (le_max_left _ _), _, _, hdata.implements hf, i2, fun _ => ?_⟩
    rw [hdl]
    unfold StabStage Plan.stability radersStability
    rw [← hlen]
    exact s1

end

/-! ## The norm of the specification -/

theorem norm2_eq {x : List ℝ} {n : ℕ} (hx : x.length = n) : norm2 x = nrm n (nth x) := by
  unfold norm2 nrm
  congr 1
  subst hx
  induction x with
  | nil => simp
  | cons a l ih =>
    rw [List.map_cons, List.sum_cons, List.length_cons, Finset.sum_range_succ', ih, add_comm]
    rfl

theorem norm2_sub {x y : List ℝ} {n : ℕ} (hx : x.length = n) (hy : y.length = n) :
    norm2 (List.zipWith (· - ·) x y) = nrm n fun i => nth x i - nth y i := by
  rw [norm2_eq (n := n) (by simp [hx, hy])]
  refine nrm_congr fun i hi => ?_
  simp only [nth, List.getD_eq_getElem?_getD, List.getElem?_zipWith]
  rw [List.getElem?_eq_getElem (by omega), List.getElem?_eq_getElem (by omega)]
  rfl

theorem smallRadix4_radersExact (p : Plan) : p.SmallRadix4 → p.RadersExact := by
  induction p with
  | mixedRadix w h iw ih | splitRadix w h iw ih => exact fun h => ⟨iw h.1, ih h.2⟩
  | mr2 h ih | mr3 h ih | mr4 h ih | mr5 h ih | mr6 h ih => exact ih
  | raders i ih => exact fun h => ⟨ih h, h⟩
  | _ => exact fun _ => trivial

end RustDHT
