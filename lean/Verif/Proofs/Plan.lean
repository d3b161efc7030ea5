import Verif.Proofs.Radix4
import Verif.Proofs.Raders
import Verif.Model.Plan

/-! # Every composition of the public constructors honours the trait contract -/

set_option linter.unusedSectionVars false

namespace RustDHT

variable {T : Type} [Zero T] [Add T] [Sub T] [Mul T] [Neg T] [FftNum T]

/-- Scratch requirements of the built-in algorithms. -/
def SmallScratch (d : Dht T) : Prop := 0 < d.len → d.oopScratchLen = 0 ∧ d.inplaceScratchLen ≤ d.len

theorem mixedRadixN_small {k : Nat} {hd : Dht T} {ap : List T → Res (List T)} (hk : 2 ≤ k) (h : SmallScratch hd) :
    SmallScratch (mixedRadixN k hd ap) := by
  intro hpos
  have hpos' : 0 < k * hd.len := hpos
  have hh : 0 < hd.len := Nat.pos_of_mul_pos_left hpos'
  obtain ⟨h1, h2⟩ := h hh
  have hle : hd.len ≤ k * hd.len := Nat.le_mul_of_pos_left _ (by omega)
  constructor
  · show mrnOopScratch (k * hd.len) hd = 0
    rw [mrnOopScratch, if_neg (by omega)]
  · show mrnInplaceScratch (k * hd.len) hd ≤ k * hd.len
    rw [mrnInplaceScratch, if_neg (by omega), Nat.add_zero]

theorem mixedRadix_small {wd hd : Dht T} (h1 : SmallScratch wd) (h2 : SmallScratch hd) :
    SmallScratch (mixedRadix wd hd) := by
  intro hpos
  have hpos' : 0 < wd.len * hd.len := hpos
  have hw : 0 < wd.len := Nat.pos_of_mul_pos_right hpos'
  have hh : 0 < hd.len := Nat.pos_of_mul_pos_left hpos'
  obtain ⟨a1, a2⟩ := h1 hw
  obtain ⟨b1, b2⟩ := h2 hh
  have hle1 : hd.len ≤ wd.len * hd.len := Nat.le_mul_of_pos_left _ hw
  have hle2 : wd.len ≤ wd.len * hd.len := Nat.le_mul_of_pos_right _ hh
  constructor
  · show mrOopScratch (wd.len * hd.len) wd hd = 0
    unfold mrOopScratch
    simp only [gt_iff_lt]
    split <;> omega
  · show mrInplaceScratch (wd.len * hd.len) wd hd ≤ wd.len * hd.len
    unfold mrInplaceScratch
    simp only [gt_iff_lt]
    split <;> omega

theorem splitRadix_small {qd hd d : Dht T} (h : splitRadix qd hd = .ok d) : SmallScratch d := by
  obtain ⟨hlen, rfl⟩ := splitRadix_eq h
  intro hpos
  exact ⟨rfl, by show 2 * qd.len ≤ 4 * qd.len; omega⟩

theorem radix4_small {n : Nat} {d : Dht T} (h : radix4 T n = .ok d) : SmallScratch d := by
  obtain ⟨m, rfl⟩ := radix4_isPow h
  rw [radix4_eq] at h
  cases h
  intro _
  exact ⟨rfl, le_refl (2 ^ m)⟩

theorem raders_small {d d' : Dht T} {f : List T → List T} (hd : Implements d f) (hs : SmallScratch d)
    (h : raders d = .ok d') : SmallScratch d' := by
  obtain ⟨g, gi, hdata⟩ := raders_data hd h
  have h1 := hdata.prime.two_le
  obtain ⟨s1, s2⟩ := hs (by omega)
  rw [hdata.eq]
  intro _
  constructor
  · show (if d.inplaceScratchLen ≤ d.len + 1 - 1 then 0 else d.inplaceScratchLen) = 0
    rw [if_pos (by omega)]
  · show d.len + 1 - 1 + (if d.inplaceScratchLen ≤ d.len + 1 - 1 then 0 else d.inplaceScratchLen) ≤ d.len + 1
    rw [if_pos (by omega)]; omega

theorem mr2_implements {hd : Dht T} {f : List T → List T} (hi : Implements hd f)
    (hin : 0 < hd.len → hd.inplaceScratchLen ≤ 2 * hd.len) (hoop : 0 < hd.len → hd.oopScratchLen = 0) :
    Implements (mixedRadix2xn hd) (mrnFn 2 hd.len f (mr2Apply T hd.len)) := by
  rw [mixedRadix2xn_eq]
  exact mrn_implements (by omega) hi hin hoop mr2Apply_total (fun h => by rw [h]; simp [mr2Apply, run_applyColumns_zero])

theorem mr3_implements {hd : Dht T} {f : List T → List T} (hi : Implements hd f)
    (hin : 0 < hd.len → hd.inplaceScratchLen ≤ 3 * hd.len) (hoop : 0 < hd.len → hd.oopScratchLen = 0) :
    Implements (mixedRadix3xn hd) (mrnFn 3 hd.len f (mr3Apply T hd.len)) := by
  rw [mixedRadix3xn_eq]
  exact mrn_implements (by omega) hi hin hoop mr3Apply_total (fun h => by rw [h]; simp [mr3Apply, run_applyColumns_zero])

theorem mr4_implements {hd : Dht T} {f : List T → List T} (hi : Implements hd f)
    (hin : 0 < hd.len → hd.inplaceScratchLen ≤ 4 * hd.len) (hoop : 0 < hd.len → hd.oopScratchLen = 0) :
    Implements (mixedRadix4xn hd) (mrnFn 4 hd.len f (mr4Apply T hd.len)) := by
  rw [mixedRadix4xn_eq]
  exact mrn_implements (by omega) hi hin hoop mr4Apply_total (fun h => by rw [h]; simp [mr4Apply, run_applyColumns_zero])

theorem mr5_implements {hd : Dht T} {f : List T → List T} (hi : Implements hd f)
    (hin : 0 < hd.len → hd.inplaceScratchLen ≤ 5 * hd.len) (hoop : 0 < hd.len → hd.oopScratchLen = 0) :
    Implements (mixedRadix5xn hd) (mrnFn 5 hd.len f (mr5Apply T hd.len)) := by
  rw [mixedRadix5xn_eq]
  exact mrn_implements (by omega) hi hin hoop mr5Apply_total (fun h => by rw [h]; simp [mr5Apply, run_applyColumns_zero])

theorem mr6_implements {hd : Dht T} {f : List T → List T} (hi : Implements hd f)
    (hin : 0 < hd.len → hd.inplaceScratchLen ≤ 6 * hd.len) (hoop : 0 < hd.len → hd.oopScratchLen = 0) :
    Implements (mixedRadix6xn hd) (mrnFn 6 hd.len f (mr6Apply T hd.len)) := by
  rw [mixedRadix6xn_eq]
  exact mrn_implements (by omega) hi hin hoop mr6Apply_total (fun h => by rw [h]; simp [mr6Apply, run_applyColumns_zero])

/-- Result of the induction over compositions. -/
structure PlanOk (p : Plan) (d : Dht T) : Prop where
  implements : ∃ f, Implements d f
  small : SmallScratch d
  rejects : p ≠ .b1 → 0 < d.len → Rejects d

theorem mrn_planOk {k : Nat} {q p : Plan} {hd : Dht T} {ap : Nat → List T → Res (List T)} (hk : 2 ≤ k)
    (h : PlanOk q hd) (hap : ∀ {h}, 0 < h → Total (k * h) (ap h)) (hap0 : (run (ap 0) []).length = 0) :
    PlanOk p (mixedRadixN k hd (ap hd.len)) := by
  obtain ⟨⟨f, hf⟩, hs, _⟩ := h
  have hle : hd.len ≤ k * hd.len := Nat.le_mul_of_pos_left _ (by omega)
  refine ⟨⟨_, mrn_implements hk hf (fun hh => le_trans (hs hh).2 hle) (fun hh => (hs hh).1) (fun hh => hap hh)
    (fun h => by rw [h]; exact hap0)⟩, mixedRadixN_small hk hs, fun _ hpos => ?_⟩
  have hpos' : 0 < k * hd.len := hpos
  have hh : 0 < hd.len := Nat.pos_of_mul_pos_left hpos'
  exact mrn_rejects hk hf hh (le_trans (hs hh).2 hle) (hs hh).1 (hap hh)

theorem plan_ok (p : Plan) : ∀ d : Dht T, p.build T = .ok d → PlanOk p d := by
  have bfly : ∀ {n : Nat} {g : List T → List T} {c : RawIO T → Res (RawIO T)} (p : Plan), 0 < n → PerformsBfly n g c →
      PlanOk p (boilerplateFftButterfly n c) := by
    intro n g c p hn hp
    exact ⟨⟨_, boilerplateFftButterfly_implements hn hp⟩, fun _ => ⟨rfl, Nat.zero_le _⟩,
      fun _ _ => boilerplateFftButterfly_rejects hn hp⟩
  induction p with
  | naive n =>
    rintro d ⟨⟩
    refine ⟨⟨_, dhtNaive_implements n⟩, fun _ => ⟨rfl, le_refl _⟩, fun _ hpos => dhtNaive_rejects ?_⟩
    rw [dhtNaive_len] at hpos; exact hpos
  | b1 =>
    rintro d ⟨⟩
    exact ⟨⟨_, butterfly1_implements⟩, fun _ => ⟨rfl, Nat.zero_le _⟩, fun h => absurd rfl h⟩
  | b2 => rintro d ⟨⟩; exact bfly _ (by omega) performs2
  | b3 => rintro d ⟨⟩; exact bfly _ (by omega) performs3
  | b4 => rintro d ⟨⟩; exact bfly _ (by omega) performs4
  | b5 => rintro d ⟨⟩; exact bfly _ (by omega) performs5
  | b6 => rintro d ⟨⟩; exact bfly _ (by omega) performs6
  | b8 => rintro d ⟨⟩; exact bfly _ (by omega) performs8
  | b9 => rintro d ⟨⟩; exact bfly _ (by omega) performs9
  | b16 => rintro d ⟨⟩; exact bfly _ (by omega) performs16
  | mixedRadix w h ihw ihh =>
    intro d e
    obtain ⟨wd, ew, e⟩ := bind_eq_ok e
    obtain ⟨hd, eh, e⟩ := bind_eq_ok e
    cases e
    obtain ⟨⟨fw, iw⟩, sw, _⟩ := ihw wd ew
    obtain ⟨⟨fh, ih⟩, sh, _⟩ := ihh hd eh
    exact ⟨⟨_, mixedRadix_implements iw ih⟩, mixedRadix_small sw sh, fun _ => mixedRadix_rejects iw ih⟩
  | mr2 h ihh =>
    intro d e
    obtain ⟨hd, eh, e⟩ := bind_eq_ok e
    cases e
    rw [mixedRadix2xn_eq]
    exact mrn_planOk (ap := mr2Apply T) (by omega) (ihh hd eh) mr2Apply_total (by simp [mr2Apply, run_applyColumns_zero])
  | mr3 h ihh =>
    intro d e
    obtain ⟨hd, eh, e⟩ := bind_eq_ok e
    cases e
    rw [mixedRadix3xn_eq]
    exact mrn_planOk (ap := mr3Apply T) (by omega) (ihh hd eh) mr3Apply_total (by simp [mr3Apply, run_applyColumns_zero])
  | mr4 h ihh =>
    intro d e
    obtain ⟨hd, eh, e⟩ := bind_eq_ok e
    cases e
    rw [mixedRadix4xn_eq]
    exact mrn_planOk (ap := mr4Apply T) (by omega) (ihh hd eh) mr4Apply_total (by simp [mr4Apply, run_applyColumns_zero])
  | mr5 h ihh =>
    intro d e
    obtain ⟨hd, eh, e⟩ := bind_eq_ok e
    cases e
    rw [mixedRadix5xn_eq]
    exact mrn_planOk (ap := mr5Apply T) (by omega) (ihh hd eh) mr5Apply_total (by simp [mr5Apply, run_applyColumns_zero])
  | mr6 h ihh =>
    intro d e
    obtain ⟨hd, eh, e⟩ := bind_eq_ok e
    cases e
    rw [mixedRadix6xn_eq]
    exact mrn_planOk (ap := mr6Apply T) (by omega) (ihh hd eh) mr6Apply_total (by simp [mr6Apply, run_applyColumns_zero])
  | radix4 n =>
    intro d e
    have hs := radix4_small e
    obtain ⟨m, rfl⟩ := radix4_isPow e
    exact ⟨⟨_, radix4_implements e⟩, hs, fun _ _ => radix4_rejects e⟩
  | splitRadix q h ihq ihh =>
    intro d e
    obtain ⟨qd, eq, e⟩ := bind_eq_ok e
    obtain ⟨hd, eh, e⟩ := bind_eq_ok e
    obtain ⟨⟨fq, iq⟩, sq, _⟩ := ihq qd eq
    obtain ⟨⟨fh, ih⟩, sh, _⟩ := ihh hd eh
    have hlen := (splitRadix_eq e).1
    have hs : 0 < qd.len → qd.oopScratchLen = 0 ∧ qd.inplaceScratchLen ≤ 4 * qd.len ∧
        hd.inplaceScratchLen ≤ 2 * qd.len := by
      intro hq
      have h1 := sq hq
      have h2 := sh (by omega)
      omega
    refine ⟨⟨_, splitRadix_implements iq ih e hs⟩, splitRadix_small e, fun _ hpos => ?_⟩
    refine splitRadix_rejects iq ih e hpos (hs ?_)
    have h4 : 0 < 4 * qd.len := by rw [(splitRadix_eq e).2] at hpos; exact hpos
    omega
  | raders i ihi =>
    intro d e
    obtain ⟨id, ei, e⟩ := bind_eq_ok e
    obtain ⟨⟨f, hf⟩, hs, _⟩ := ihi id ei
    obtain ⟨g, gi, hdata⟩ := raders_data hf e
    exact ⟨⟨_, hdata.implements hf⟩, raders_small hf hs e, fun _ _ => hdata.rejects hf⟩

end RustDHT
