import Verif.Proofs.Radix4Repaired
import Verif.Proofs.PlanDht
import Verif.Props.Exact
import Verif.Props.Contract
import Verif.Proofs.Radix4Perm
import Verif.Proofs.Norm

/-! # Compositions with the repaired `Radix4` -/

namespace RustDHT

private theorem big {d : Dht ℝ} (h : SmallScratch d) {k : ℕ} (hk : 1 ≤ k) :
    (0 < d.len → d.inplaceScratchLen ≤ k * d.len) ∧ (0 < d.len → d.oopScratchLen = 0) :=
  ⟨fun hpos => le_trans (h hpos).2 (Nat.le_mul_of_pos_left _ hk), fun hpos => (h hpos).1⟩

theorem repaired_plan (p : Plan) : ∀ d : Dht ℝ, p.build ℝ = .ok d →
    ∃ e, p.buildRepaired ℝ = .ok e ∧ e.len = d.len ∧ ComputesDht e ∧ SmallScratch e := by
  have leaf (p : Plan) (hs : p.SmallRadix4) (d : Dht ℝ) (h : p.build ℝ = .ok d) (h' : p.buildRepaired ℝ = .ok d) :
      ∃ e, p.buildRepaired ℝ = .ok e ∧ e.len = d.len ∧ ComputesDht e ∧ SmallScratch e :=
    ⟨d, h', rfl, plan_dht p hs d h, (plan_ok p d h).small⟩
  induction p with
  | naive | b1 | b2 | b3 | b4 | b5 | b6 | b8 | b9 | b16 => rintro d ⟨⟩; refine leaf _ ?_ _ rfl rfl; trivial
  | mixedRadix w h ihw ihh =>
    intro d e
    obtain ⟨wd, ew, e⟩ := bind_eq_ok e
    obtain ⟨hd, eh, e⟩ := bind_eq_ok e
    cases e
    obtain ⟨rw', erw, hlw, hcw, hsw⟩ := ihw wd ew
    obtain ⟨rh, erh, hlh, hch, hsh⟩ := ihh hd eh
    refine ⟨mixedRadix rw' rh, by rw [Plan.buildRepaired, erw, ok_bind, erh]; rfl, ?_, mixedRadix_dht hcw hch, mixedRadix_small hsw hsh⟩
    show rw'.len * rh.len = wd.len * hd.len
    rw [hlw, hlh]
  | mr2 h ihh =>
    intro d e
    obtain ⟨hd, eh, e⟩ := bind_eq_ok e
    cases e
    obtain ⟨r, er, hl, hc, hs⟩ := ihh hd eh
    refine ⟨_, by rw [Plan.buildRepaired, er]; rfl, ?_, mixedRadix2xn_dht hc (big hs (by norm_num)).1 (big hs (k := 1) (by norm_num)).2, ?_⟩
    · show 2 * r.len = 2 * hd.len
      rw [hl]
    · rw [mixedRadix2xn_eq]
      exact mixedRadixN_small (by norm_num) hs
  | mr3 h ihh =>
    intro d e
    obtain ⟨hd, eh, e⟩ := bind_eq_ok e
    cases e
    obtain ⟨r, er, hl, hc, hs⟩ := ihh hd eh
    refine ⟨_, by rw [Plan.buildRepaired, er]; rfl, ?_, mixedRadix3xn_dht hc (big hs (by norm_num)).1 (big hs (k := 1) (by norm_num)).2, ?_⟩
    · show 3 * r.len = 3 * hd.len
      rw [hl]
    · rw [mixedRadix3xn_eq]
      exact mixedRadixN_small (by norm_num) hs
  | mr4 h ihh =>
    intro d e
    obtain ⟨hd, eh, e⟩ := bind_eq_ok e
    cases e
    obtain ⟨r, er, hl, hc, hs⟩ := ihh hd eh
    refine ⟨_, by rw [Plan.buildRepaired, er]; rfl, ?_, mixedRadix4xn_dht hc (big hs (by norm_num)).1 (big hs (k := 1) (by norm_num)).2, ?_⟩
    · show 4 * r.len = 4 * hd.len
      rw [hl]
    · rw [mixedRadix4xn_eq]
      exact mixedRadixN_small (by norm_num) hs
  | mr5 h ihh =>
    intro d e
    obtain ⟨hd, eh, e⟩ := bind_eq_ok e
    cases e
    obtain ⟨r, er, hl, hc, hs⟩ := ihh hd eh
    refine ⟨_, by rw [Plan.buildRepaired, er]; rfl, ?_, mixedRadix5xn_dht hc (big hs (by norm_num)).1 (big hs (k := 1) (by norm_num)).2, ?_⟩
    · show 5 * r.len = 5 * hd.len
      rw [hl]
    · rw [mixedRadix5xn_eq]
      exact mixedRadixN_small (by norm_num) hs
  | mr6 h ihh =>
    intro d e
    obtain ⟨hd, eh, e⟩ := bind_eq_ok e
    cases e
    obtain ⟨r, er, hl, hc, hs⟩ := ihh hd eh
    refine ⟨_, by rw [Plan.buildRepaired, er]; rfl, ?_, mixedRadix6xn_dht hc (big hs (by norm_num)).1 (big hs (k := 1) (by norm_num)).2, ?_⟩
    · show 6 * r.len = 6 * hd.len
      rw [hl]
    · rw [mixedRadix6xn_eq]
      exact mixedRadixN_small (by norm_num) hs
  | radix4 n =>
    intro d e
    have e' : radix4 ℝ n = .ok d := e
    obtain ⟨m, rfl⟩ := radix4_isPow e'
    have hr := radix4Repaired_eq (T := ℝ) m
    refine ⟨_, hr, ?_, (radix4Repaired_implements hr).congr fun x hx => repairedFn_dht (m := m) hx, fun _ => ⟨rfl, le_rfl⟩⟩
    rw [radix4_eq] at e'
    cases e'
    rfl
  | splitRadix q h ihq ihh =>
    intro d e
    obtain ⟨qd, eq, e⟩ := bind_eq_ok e
    obtain ⟨hd, eh, e⟩ := bind_eq_ok e
    obtain ⟨rq, erq, hlq, hcq, hsq⟩ := ihq qd eq
    obtain ⟨rh, erh, hlh, hch, hsh⟩ := ihh hd eh
    have hlen := splitRadix_eq e
    obtain ⟨s, es⟩ := splitRadix_new (qd := rq) (hd := rh) (by rw [hlq, hlh]; exact hlen.1)
    refine ⟨s, by rw [Plan.buildRepaired, erq, ok_bind, erh, ok_bind]; exact es, ?_, splitRadix_dht hcq hch es fun hq => ?_, splitRadix_small es⟩
    · rw [(splitRadix_eq es).2, hlen.2]
      show 4 * rq.len = 4 * qd.len
      rw [hlq]
    · have h1 := hsq hq
      have h2 := hsh (by omega)
      omega
  | raders i ihi =>
    intro d e
    obtain ⟨id, ei, e⟩ := bind_eq_ok e
    obtain ⟨ri, eri, hl, hc, hs⟩ := ihi id ei
    obtain ⟨f, hf⟩ := (plan_ok i id ei).implements
    have h32 : id.len + 1 < 2 ^ 32 := by
      by_contra h
      exact C25_raders_large id (by omega) ⟨d, e⟩
    obtain ⟨g, gi, hdata⟩ := raders_data hf e
    obtain ⟨r, er, hlr, hcr, -⟩ := C11_raders_dht ri hc (by rw [hl]; exact hdata.prime)
      (by have := hdata.odd; rw [hl]; omega) (by rw [hl]; exact h32)
    refine ⟨r, by rw [Plan.buildRepaired, eri, ok_bind]; exact er, ?_, hcr, raders_small hc hs er⟩
    rw [hlr, hl, hdata.eq]
    rfl

/-! ## The crate's `Radix4` on rearranged input -/

theorem rIndex_lt {base : ℕ} (hb : 0 < base) (l : ℕ) (rev : Bool) (p : ℕ) (hp : p < base * 4 ^ l) :
    rIndex base l rev p < base * 4 ^ l := by
  induction l generalizing rev p with
  | zero =>
    simp only [rIndex]
    split
    · simp at hp ⊢; omega
    · exact hp
  | succ l ih =>
    have hs : 0 < base * 4 ^ l := by positivity
    have hp' : p < 4 * (base * 4 ^ l) := by rw [pow_succ] at hp; linarith
    have h1 := fun r => ih r (p % (base * 4 ^ l)) (Nat.mod_lt _ hs)
    have h2 : p / (base * 4 ^ l) < 4 := (Nat.div_lt_iff_lt_mul hs).2 hp'
    simp only [rIndex]
    generalize hi : (if rev then 3 - p / (base * 4 ^ l) else p / (base * 4 ^ l)) = i
    have hi4 : i < 4 := by
      generalize p / (base * 4 ^ l) = y at hi h2
      rw [← hi]; split <;> omega
    have h3 := h1 (if i = 0 then false else if i = 3 then true else rev)
    rw [pow_succ]
    generalize rIndex base l _ _ = z at h3 ⊢
    have : base * (4 ^ l * 4) = 4 * (base * 4 ^ l) := by ring
    rw [this]
    omega

/-- The order in which `Radix4` reads its input. -/
noncomputable def readCrate (m : ℕ) : Equiv.Perm (Fin (2 ^ m)) :=
  Equiv.ofBijective (fun p => ⟨r4Index (r4BaseLen m) (r4Levels m) false p,
      (r4Index_lt (r4BaseLen_pos m) (r4Levels m) false p (p.2.trans_eq (r4_len m))).trans_eq (r4_len m).symm⟩)
    (Finite.injective_iff_bijective.1 fun p q h =>
      Fin.ext (r4Index_inj (r4BaseLen_pos m) (r4Levels m) false (p.2.trans_eq (r4_len m))
        (q.2.trans_eq (r4_len m)) (Fin.mk.inj h)))

/-- The order in which the repaired `Radix4` reads its input. -/
noncomputable def readRepaired (m : ℕ) : Equiv.Perm (Fin (2 ^ m)) :=
  Equiv.ofBijective (fun p => ⟨rIndex (r4BaseLen m) (r4Levels m) false p,
      (rIndex_lt (r4BaseLen_pos m) (r4Levels m) false p (p.2.trans_eq (r4_len m))).trans_eq (r4_len m).symm⟩)
    (Finite.surjective_iff_bijective.1 fun i => by
      have hi := i.2.trans_eq (r4_len m)
      refine ⟨⟨r4Undo (r4BaseLen m) (r4Levels m) i, (r4Undo_lt (r4BaseLen_pos m) hi).trans_eq (r4_len m).symm⟩, Fin.ext ?_⟩
      exact rIndex_undo (r4BaseLen_pos m) _ false i hi)

/-- What the input has to be rearranged by. -/
noncomputable def rearrange (m : ℕ) : Equiv.Perm (Fin (2 ^ m)) := (readCrate m).symm.trans (readRepaired m)

theorem repairedFn_eq (T : Type) [Zero T] [Add T] [Sub T] [Mul T] [Neg T] [FftNum T] (m : ℕ) (x : List T) :
    repairedFn T m x = radix4Fn T m (List.ofFn fun i : Fin (2 ^ m) => x.getD (rearrange m i) 0) := by
  unfold repairedFn radix4Fn r4Fn
  rw [← r4_len m]
  congr 2
  refine tab_congr fun p hp => ?_
  have e := (readCrate m).symm_apply_apply ⟨p, hp⟩
  have hr : r4Index (r4BaseLen m) (r4Levels m) false p = (readCrate m ⟨p, hp⟩ : ℕ) := rfl
  rw [hr, nth_eq_getElem (l := List.ofFn _) (by simp)]
  simp only [List.getElem_ofFn, Fin.eta]
  rw [rearrange, Equiv.trans_apply, e, List.getD_eq_getElem?_getD]
  rfl

end RustDHT
