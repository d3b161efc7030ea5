import Verif.Proofs.PatchedPlan

/-! # Compositions of the patched algorithms as stages -/

set_option linter.unusedSectionVars false

namespace RustDHT

open Stab

section
variable {T : Type} [Zero T] [Add T] [Sub T] [Mul T] [Neg T] [FftNum T]
variable {fin : T → Prop} {val : T → ℝ} {u η Ω : ℝ} {t s : ℕ}
variable (hm : FloatModel fin val u η Ω t s)
include hm

theorem repaired_stab (m : ℕ) :
    StabStage fin val u η Ω (2 ^ m) (repairedFn T m) (repairedFn ℝ m) (radix4Stability t s (2 ^ m)) := by
  set σ : ℕ → ℕ := fun i => if h : i < 2 ^ m then rearrange m ⟨i, h⟩ else 0 with hσ
  have es (i : ℕ) (h : i < 2 ^ m) : σ i = rearrange m ⟨i, h⟩ := dif_pos h
  have e : ∀ {U : Type} [Zero U] (x : List U), (List.ofFn fun i : Fin (2 ^ m) => x.getD (rearrange m i) 0) = tab (2 ^ m) fun i => nth x (σ i) := by
    intro U _ x
    refine List.ext_getElem (by simp) fun i h1 h2 => ?_
    have hi : i < 2 ^ m := by simpa using h1
    rw [← nth_eq_getElem h2, nth_tab hi, es i hi, List.getElem_ofFn]
    rfl
  have s1 := perm_stage hm (Ω := Ω) (G := (radix4Stability t s (2 ^ m)).big) (n := 2 ^ m) (M := √((2 ^ m : ℕ) : ℝ)) (σ := σ)
    (fun i hi => by rw [es i hi]; exact (rearrange m ⟨i, hi⟩).2)
    (fun i hi j hj h => by
      rw [es i hi, es j hj] at h
      have := (rearrange m).injective (Fin.ext h)
      exact congrArg Fin.val this) (Real.sqrt_nonneg _)
  have h1 : 1 ≤ √((2 ^ m : ℕ) : ℝ) := Real.one_le_sqrt.2 (by exact_mod_cast Nat.one_le_two_pow)
  have s2 := s1.comp hm (radix4_stab hm m) (nrm_isNrm _) (nrm_isNrm _) (nrm_isNrm _) (Real.sqrt_nonneg _) le_rfl h1
  unfold StabStage
  rw [one_mul, zero_add, zero_add] at s2
  have f1 : repairedFn T m = fun x => radix4Fn T m (tab (2 ^ m) fun i => nth x (σ i)) := by
    funext x; rw [repairedFn_eq, e]
  have f2 : repairedFn ℝ m = fun x => radix4Fn ℝ m (tab (2 ^ m) fun i => nth x (σ i)) := by
    funext x; rw [repairedFn_eq, e]
  rw [f1, f2]
  exact s2

theorem plan_patched_stability (p : Plan) : p.NoRaders2 → ∀ (d : Dht T) (dr : Dht ℝ), p.patched T = .ok d → p.patched ℝ = .ok dr →
    StabOk fin val u η Ω (p.stability t s) d dr := by
  have mrk : ∀ {k : ℕ} {a : Stab} {q : Cost} {ap : ℕ → PolyRes} {hd d : Dht T} {hr dr : Dht ℝ}, 0 < k → 1 ≤ q.g →
      (∀ {h}, 0 < h → Local (k * h) (k * h) (2 * k) (colσ k h) q (fun U => run (ap h U))) →
      (∀ {h} x, x.length = k * h → mrnFn k h dht (ap h ℝ) x = dht x) →
      d.len = k * hd.len → dr.len = k * hr.len →
      (∀ f, Implements hd f → Implements d (mrnFn k hd.len f (ap hd.len T))) →
      (∀ f, Implements hr f → Implements dr (mrnFn k hr.len f (ap hr.len ℝ))) →
      StabOk fin val u η Ω a hd hr → StabOk fin val u η Ω (a.seq (step t s q)) d dr := by
    intro k a q ap hd d hr dr hk hq hl hx l1 l2 i1 i2 ⟨e, hb, f, fr, j1, j2, st⟩
    refine ⟨by rw [l1, l2, e], le_trans hb (le_max_left _ _), _, _, i1 f j1, i2 fr j2, fun hpos => ?_⟩
    have hh : 0 < hd.len := Nat.pos_of_ne_zero fun h0 => by rw [l1, h0] at hpos; omega
    rw [l1, e]
    exact mrk_stab hm hk hh (hl hh) hq hx (st hh)
  have lf : ∀ {n : ℕ} {q : Cost} {Φ : Poly} {d : Dht T} {dr : Dht ℝ}, 1 ≤ q.g →
      (0 < n → Local n n n (fun j i => (i + j) % n) q Φ) → (∀ X, X.length = n → Φ ℝ X = dht X) →
      d.len = n → dr.len = n → Implements d (Φ T) → Implements dr (Φ ℝ) → StabOk fin val u η Ω (leaf t s q) d dr := by
    intro n q Φ d dr hq hl hd e1 e2 i1 i2
    exact ⟨by rw [e1, e2], hq, _, _, i1, i2, fun hpos => by rw [e1] at hpos ⊢; exact leaf_stab hm hpos (hl hpos) hd hq⟩
  induction p with
  | naive n =>
    rintro - d dr ⟨⟩ ⟨⟩
    exact lf (Φ := fun U => naiveFn U n) (by show 1 ≤ 2 * max 1 n; omega) naive_local (fun _ => naiveFn_dht) (dhtNaive_len n) (dhtNaive_len n)
      (dhtNaive_implements n) (dhtNaive_implements n)
  | b1 =>
    rintro - d dr ⟨⟩ ⟨⟩
    exact ⟨rfl, le_refl 1, _, _, butterfly1Patched_implements, butterfly1Patched_implements, fun _ => id_stab hm⟩
  | b2 =>
    rintro - d dr ⟨⟩ ⟨⟩
    exact lf (Φ := fun _ => bflyFn contiguous2) (by decide) (fun _ => b2_local) (fun _ => bfly2_dht) rfl rfl
      (boilerplateFftButterfly_implements (by omega) performs2) (boilerplateFftButterfly_implements (by omega) performs2)
  | b3 =>
    rintro - d dr ⟨⟩ ⟨⟩
    exact lf (Φ := fun _ => bflyFn contiguous3) (by decide) (fun _ => b3_local) (fun _ => bfly3_dht) rfl rfl
      (boilerplateFftButterfly_implements (by omega) performs3) (boilerplateFftButterfly_implements (by omega) performs3)
  | b4 =>
    rintro - d dr ⟨⟩ ⟨⟩
    exact lf (Φ := fun _ => bflyFn contiguous4) (by decide) (fun _ => b4_local) (fun _ => bfly4_dht) rfl rfl
      (boilerplateFftButterfly_implements (by omega) performs4) (boilerplateFftButterfly_implements (by omega) performs4)
  | b5 =>
    rintro - d dr ⟨⟩ ⟨⟩
    exact lf (Φ := fun _ => bflyFn contiguous5) (by decide) (fun _ => b5_local) (fun _ => bfly5_dht) rfl rfl
      (boilerplateFftButterfly_implements (by omega) performs5) (boilerplateFftButterfly_implements (by omega) performs5)
  | b6 =>
    rintro - d dr ⟨⟩ ⟨⟩
    exact lf (Φ := fun _ => bflyFn contiguous6) (by decide) (fun _ => b6_local) (fun _ => bfly6_dht) rfl rfl
      (boilerplateFftButterfly_implements (by omega) performs6) (boilerplateFftButterfly_implements (by omega) performs6)
  | b8 =>
    rintro - d dr ⟨⟩ ⟨⟩
    exact lf (Φ := fun _ => bflyFn contiguous8) (by decide) (fun _ => b8_local) (fun _ => bfly8_dht' hm) rfl rfl
      (boilerplateFftButterfly_implements (by omega) performs8) (boilerplateFftButterfly_implements (by omega) performs8)
  | b9 =>
    rintro - d dr ⟨⟩ ⟨⟩
    exact lf (Φ := fun _ => bflyFn contiguous9) (by decide) (fun _ => b9_local) (fun _ => bfly9_dht' hm) rfl rfl
      (boilerplateFftButterfly_implements (by omega) performs9) (boilerplateFftButterfly_implements (by omega) performs9)
  | b16 =>
    rintro - d dr ⟨⟩ ⟨⟩
    exact lf (Φ := fun _ => bflyFn contiguous16) (by decide) (fun _ => b16_local) (fun _ => bfly16_dht' hm) rfl rfl
      (boilerplateFftButterfly_implements (by omega) performs16) (boilerplateFftButterfly_implements (by omega) performs16)
  | mixedRadix w h ihw ihh =>
    rintro ⟨xw, xh⟩ d dr e e'
    obtain ⟨wd, ew, e⟩ := bind_eq_ok e
    obtain ⟨hd, eh, e⟩ := bind_eq_ok e
    cases e
    obtain ⟨wr, ewr, e'⟩ := bind_eq_ok e'
    obtain ⟨hr, ehr, e'⟩ := bind_eq_ok e'
    cases e'
    obtain ⟨lw, bw, fw, gw, iw, jw, sw⟩ := ihw xw wd wr ew ewr
    obtain ⟨lh, bh, fh, gh, ih, jh, sh⟩ := ihh xh hd hr eh ehr
    have hl : (mixedRadix wd hd).len = wd.len * hd.len := rfl
    have hlr : (mixedRadix wr hr).len = wr.len * hr.len := rfl
    refine ⟨by rw [hl, hlr, lw, lh], le_trans bw (le_max_right _ _), _, _, mixedRadix_implements iw ih, mixedRadix_implements jw jh,
      fun hpos => ?_⟩
    rw [hl] at hpos
    have hw0 : 0 < wd.len := Nat.pos_of_ne_zero fun h0 => by simp [h0] at hpos
    have hh0 : 0 < hd.len := Nat.pos_of_ne_zero fun h0 => by simp [h0] at hpos
    rw [hl, lw, lh]
    set A := Plan.stability t s w with hA
    set B := Plan.stability t s h with hB
    have s1 := (sw hw0).mono hm (b := ⟨A.depth, A.under, max (max B.big 4) A.big⟩) le_rfl le_rfl (le_max_right _ _)
    have s2 := (sh hh0).mono hm (b := ⟨B.depth, B.under, max (max B.big 4) A.big⟩) le_rfl le_rfl
      ((le_max_left _ _).trans (le_max_left _ _))
    have s3 := mr_stage hm hw0 hh0 s1 s2 ((le_max_right _ _).trans (le_max_left _ _))
    refine Stage.mono hm s3 (nrm_isNrm _) (Real.sqrt_nonneg _) (Real.sqrt_nonneg _) le_rfl ?_ le_rfl
    show _ ≤ B.depth + 2 * 4 * Cost.depth t s ⟨4, 6, 6, 1, 1⟩ + A.depth
    simp only [Cost.depth]
    omega
  | mr2 h ihh =>
    intro x d dr e e'
    obtain ⟨hd, eh, e⟩ := bind_eq_ok e
    cases e
    obtain ⟨hr, ehr, e'⟩ := bind_eq_ok e'
    cases e'
    exact mrk (ap := fun h U => mr2Apply U h) (by omega) (by decide) mr2_local (fun _ => mr2Fn_dht)
      (by rw [mixedRadix2xnPatched_eq]; rfl) (by rw [mixedRadix2xnPatched_eq]; rfl)
      (fun f i => mr2Patched_implements i) (fun f i => mr2Patched_implements i) (ihh x hd hr eh ehr)
  | mr3 h ihh =>
    intro x d dr e e'
    obtain ⟨hd, eh, e⟩ := bind_eq_ok e
    cases e
    obtain ⟨hr, ehr, e'⟩ := bind_eq_ok e'
    cases e'
    exact mrk (ap := fun h U => mr3Apply U h) (by omega) (by decide) mr3_local (fun _ => mr3Fn_dht)
      (by rw [mixedRadix3xnPatched_eq]; rfl) (by rw [mixedRadix3xnPatched_eq]; rfl)
      (fun f i => mr3Patched_implements i) (fun f i => mr3Patched_implements i) (ihh x hd hr eh ehr)
  | mr4 h ihh =>
    intro x d dr e e'
    obtain ⟨hd, eh, e⟩ := bind_eq_ok e
    cases e
    obtain ⟨hr, ehr, e'⟩ := bind_eq_ok e'
    cases e'
    exact mrk (ap := fun h U => mr4Apply U h) (by omega) (by decide) mr4_local (fun _ => mr4Fn_dht)
      (by rw [mixedRadix4xnPatched_eq]; rfl) (by rw [mixedRadix4xnPatched_eq]; rfl)
      (fun f i => mr4Patched_implements i) (fun f i => mr4Patched_implements i) (ihh x hd hr eh ehr)
  | mr5 h ihh =>
    intro x d dr e e'
    obtain ⟨hd, eh, e⟩ := bind_eq_ok e
    cases e
    obtain ⟨hr, ehr, e'⟩ := bind_eq_ok e'
    cases e'
    exact mrk (ap := fun h U => mr5Apply U h) (by omega) (by decide) mr5_local (fun _ => mr5Fn_dht)
      (by rw [mixedRadix5xnPatched_eq]; rfl) (by rw [mixedRadix5xnPatched_eq]; rfl)
      (fun f i => mr5Patched_implements i) (fun f i => mr5Patched_implements i) (ihh x hd hr eh ehr)
  | mr6 h ihh =>
    intro x d dr e e'
    obtain ⟨hd, eh, e⟩ := bind_eq_ok e
    cases e
    obtain ⟨hr, ehr, e'⟩ := bind_eq_ok e'
    cases e'
    exact mrk (ap := fun h U => mr6Apply U h) (by omega) (by decide) mr6_local (fun _ => mr6Fn_dht)
      (by rw [mixedRadix6xnPatched_eq]; rfl) (by rw [mixedRadix6xnPatched_eq]; rfl)
      (fun f i => mr6Patched_implements i) (fun f i => mr6Patched_implements i) (ihh x hd hr eh ehr)
  | radix4 n =>
    intro x d dr e e'
    obtain ⟨m, rfl⟩ := radix4Repaired_isPow e
    have l1 := ((plan_patched_good (T := T) (.radix4 (2 ^ m))).2 d e).1
    have l2 := ((plan_patched_good (T := ℝ) (.radix4 (2 ^ m))).2 dr e').1
    refine ⟨by rw [l1, l2], ?_, _, _, radix4Repaired_implements e, radix4Repaired_implements e', fun _ => ?_⟩
    · exact le_trans (by decide : 1 ≤ 7) (le_max_right _ _)
    · rw [l1]
      exact repaired_stab hm m
  | splitRadix q h ihq ihh =>
    rintro ⟨xq, xh⟩ d dr e e'
    obtain ⟨qd, eq, e⟩ := bind_eq_ok e
    obtain ⟨hd, eh, e⟩ := bind_eq_ok e
    obtain ⟨qr, eqr, e'⟩ := bind_eq_ok e'
    obtain ⟨hr, ehr, e'⟩ := bind_eq_ok e'
    obtain ⟨lq, bq, fq, gq, iq, jq, sq⟩ := ihq xq qd qr eq eqr
    obtain ⟨lh, bh, fh, gh, ih, jh, sh⟩ := ihh xh hd hr eh ehr
    have hlen := (splitRadixPatched_eq e).1
    have hlenr := (splitRadixPatched_eq e').1
    have hdl : d.len = 4 * qd.len := splitRadixPatched_len e
    have hdlr : dr.len = 4 * qr.len := splitRadixPatched_len e'
    refine ⟨by rw [hdl, hdlr, lq], le_trans (by decide : 1 ≤ 8) (le_max_left _ _), _, _, splitRadixPatched_implements iq ih e,
      splitRadixPatched_implements jq jh e', fun hpos => ?_⟩
    have hq0 : 0 < qd.len := by omega
    rw [hdl, lq]
    set A := Plan.stability t s q with hA
    set B := Plan.stability t s h with hB
    have s1 := (sq hq0).mono hm (b := ⟨A.depth, A.under, max 8 (max A.big B.big)⟩) le_rfl le_rfl
      ((le_max_left _ _).trans (le_max_right _ _))
    have s2 := (sh (by omega)).mono hm (b := ⟨B.depth, B.under, max 8 (max A.big B.big)⟩) le_rfl le_rfl
      ((le_max_right _ _).trans (le_max_right _ _))
    rw [show hd.len = 2 * qd.len by omega] at s2
    have s3 := sr_stage hm hq0 (le_max_left _ _) s1 s2
    refine Stage.mono hm s3 (nrm_isNrm _) (Real.sqrt_nonneg _) (Real.sqrt_nonneg _) le_rfl ?_ le_rfl
    show _ ≤ 2 * 8 * Cost.depth t s ⟨8, 2, 5, 1, 0⟩ + max A.depth B.depth
    simp only [Cost.depth]
    omega
  | raders i ihi =>
    rintro ⟨x, h2⟩ d dr e e'
    have e0 := e'
    obtain ⟨id, ei, e⟩ := bind_eq_ok e
    obtain ⟨ir, eir, e'⟩ := bind_eq_ok e'
    obtain ⟨li, bi, f, fr, hf, hfr, st⟩ := ihi x id ir ei eir
    have hlen := ((plan_patched_good (T := T) i).2 id ei).1
    rw [radersPatched_eq (by omega)] at e
    rw [radersPatched_eq (by omega)] at e'
    obtain ⟨g, eg, hdata⟩ := raders_data_root hf e
    obtain ⟨g', eg', hdata'⟩ := raders_data_root hfr e'
    rw [li, eg] at eg'
    cases eg'
    have hdl : d.len = id.len + 1 := by rw [hdata.eq]; rfl
    have hdlr : dr.len = ir.len + 1 := by rw [hdata'.eq]; rfl
    have hp2 := hdata.prime.two_le
    have hgen : RadersGen id.len g (rootInverse g (id.len + 1)) :=
      ⟨hdata.prime, hdata.odd, by have := hdata.g_gt; omega, hdata.g_lt, hdata.g_order, hdata.gi_pos, hdata.gi_lt, hdata.g_mul,
        hdata.gi_order⟩
    have hdht : ∀ X, X.length = id.len → fr X = dht X := fun X hX =>
      hfr.unique (plan_patched_dht i ir eir) (by rw [hX, li]) (by omega)
    have s1 := rd_stage hm hgen bi (st (by omega)) hdht
    have i2 := plan_patched_dht (.raders i) dr e0
    refine ⟨by rw [hdl, hdlr, li], le_trans (by decide : 1 ≤ 18) (le_max_left _ _), _, _, hdata.implements hf, i2, fun _ => ?_⟩
    rw [hdl]
    unfold StabStage Plan.stability radersStability
    rw [← hlen]
    exact s1

end

end RustDHT
