import Verif.Proofs.PlanStability
import Verif.Spec.StableDht

/-! # Stages from objects that approximate the DHT, and back -/

namespace RustDHT

open Stab

section
variable {T : Type} [Zero T] [Add T] [Sub T] [Mul T] [Neg T] [FftNum T]
variable {fin : T → Prop} {val : T → ℝ} {u η Ω : ℝ} {t s : ℕ}
variable (hm : FloatModel fin val u η Ω t s)
include hm

theorem FloatModel.norm2_map {x : List T} {n : ℕ} (hx : x.length = n) :
    norm2 (x.map val) = nrm n fun i => val (nth x i) := by
  rw [norm2_eq (n := n) (by simp [hx])]
  exact nrm_congr fun i _ => hm.nth_map x i

theorem StableDht.stage {a : Stab} {d : Dht T} (h : StableDht fin val u η Ω a d) :
    ∃ f, Implements d f ∧ (0 < d.len → StabStage fin val u η Ω d.len f dht a) := by
  obtain ⟨f, hi, h⟩ := h
  refine ⟨f, hi, fun _ => ⟨fun x hx => hi.length x hx, (scales_dht d.len).len, fun X Y hX hY => ((scales_dht d.len).dist X Y hX hY).le,
    fun X hX => ((scales_dht d.len).norm X hX).le, fun x hx hf hO => ?_⟩⟩
  obtain ⟨h1, h2⟩ := h x hx (fun e he => by
    obtain ⟨i, hi, rfl⟩ := List.getElem_of_mem he
    have := hf i (by omega)
    rwa [nth_eq_getElem hi] at this) _ (hm.norm2_map hx).symm hO
  refine ⟨fun i hi' => ?_, ?_⟩
  · have hl : i < (f x).length := by rw [hi.length x hx]; exact hi'
    rw [nth_eq_getElem hl]
    exact h1 _ (List.getElem_mem _)
  · rw [norm2_sub (n := d.len) (by rw [List.length_map, hi.length x hx]) (by rw [length_dht, List.length_map, hx])] at h2
    simp only [hm.nth_map] at h2
    exact h2

theorem StableDht.of_stage {a : Stab} {d : Dht T} {f : List T → List T} (hi : Implements d f)
    (h : 0 < d.len → StabStage fin val u η Ω d.len f dht a) : StableDht fin val u η Ω a d := by
  refine ⟨f, hi, ?_⟩
  rintro x hx hf N rfl hO
  rcases Nat.eq_zero_or_pos d.len with h0 | hpos
  · have e : f x = [] := List.length_eq_zero_iff.1 (by rw [hi.length x hx, h0])
    simp [e, h0, norm2]
  · rw [hm.norm2_map hx] at hO ⊢
    obtain ⟨h1, h2⟩ := (h hpos).err x hx (fun i hi => by
      rw [nth_eq_getElem (by omega)]; exact hf _ (List.getElem_mem _)) hO
    refine ⟨fun y hy => ?_, ?_⟩
    · obtain ⟨i, hi', rfl⟩ := List.getElem_of_mem hy
      have := h1 i (by rw [← hi.length x hx]; exact hi')
      rwa [nth_eq_getElem hi'] at this
    · rw [norm2_sub (n := d.len) (by rw [List.length_map, hi.length x hx]) (by rw [length_dht, List.length_map, hx])]
      simp only [hm.nth_map]
      exact h2

theorem mixedRadix_stable {a b : Stab} {wd hd : Dht T} (hw : StableDht fin val u η Ω a wd) (hh : StableDht fin val u η Ω b hd) :
    StableDht fin val u η Ω ((b.seq (step t s ⟨4, 6, 6, 1, 1⟩)).seq a) (mixedRadix wd hd) := by
  obtain ⟨fw, iw, sw⟩ := hw.stage hm
  obtain ⟨fh, ih, sh⟩ := hh.stage hm
  refine StableDht.of_stage hm (mixedRadix_implements iw ih) fun hpos => ?_
  have hl : (mixedRadix wd hd).len = wd.len * hd.len := rfl
  rw [hl] at hpos
  have hw0 : 0 < wd.len := Nat.pos_of_ne_zero fun h0 => by simp [h0] at hpos
  have hh0 : 0 < hd.len := Nat.pos_of_ne_zero fun h0 => by simp [h0] at hpos
  rw [hl]
  have s1 := (sw hw0).mono hm (b := ⟨a.depth, a.under, max (max b.big 4) a.big⟩) le_rfl le_rfl (le_max_right _ _)
  have s2 := (sh hh0).mono hm (b := ⟨b.depth, b.under, max (max b.big 4) a.big⟩) le_rfl le_rfl
    ((le_max_left _ _).trans (le_max_left _ _))
  have s3 := (mr_stage hm hw0 hh0 s1 s2 ((le_max_right _ _).trans (le_max_left _ _))).congr hm (E' := dht) (fun _ _ => rfl)
    (fun x hx => (mrFn_dht (fun _ _ => rfl) (fun _ _ => rfl) hx).symm)
  refine Stage.mono hm s3 (nrm_isNrm _) (Real.sqrt_nonneg _) (Real.sqrt_nonneg _) le_rfl ?_ le_rfl
  show _ ≤ b.depth + 2 * 4 * Cost.depth t s ⟨4, 6, 6, 1, 1⟩ + a.depth
  simp only [Cost.depth]
  omega

theorem columns_stable {k : ℕ} {q : Cost} {ap : ℕ → PolyRes} {a : Stab} {hd d : Dht T} (hk : 0 < k) (hq : 1 ≤ q.g)
    (hl : ∀ {h}, 0 < h → Local (k * h) (k * h) (2 * k) (colσ k h) q (fun U => run (ap h U)))
    (hx : ∀ {h} x, x.length = k * h → mrnFn k h dht (ap h ℝ) x = dht x) (l1 : d.len = k * hd.len)
    (i1 : ∀ f, Implements hd f → Implements d (mrnFn k hd.len f (ap hd.len T)))
    (h : StableDht fin val u η Ω a hd) : StableDht fin val u η Ω (a.seq (step t s q)) d := by
  obtain ⟨f, hi, st⟩ := h.stage hm
  refine StableDht.of_stage hm (i1 f hi) fun hpos => ?_
  have hh : 0 < hd.len := Nat.pos_of_ne_zero fun h0 => by rw [l1, h0] at hpos; omega
  rw [l1]
  exact (mrk_stab hm hk hh (hl hh) hq hx (st hh)).congr hm (fun _ _ => rfl) (fun x hx' => (hx x hx').symm)

theorem splitRadix_stable {a b : Stab} {qd hd d : Dht T} (hq : StableDht fin val u η Ω a qd) (hh : StableDht fin val u η Ω b hd)
    (e : splitRadix qd hd = .ok d)
    (hs : 0 < qd.len → qd.oopScratchLen = 0 ∧ qd.inplaceScratchLen ≤ 4 * qd.len ∧ hd.inplaceScratchLen ≤ 2 * qd.len) :
    StableDht fin val u η Ω ((step t s ⟨8, 2, 5, 1, 0⟩).seq (a.sup b)) d := by
  obtain ⟨fq, iq, sq⟩ := hq.stage hm
  obtain ⟨fh, ih, sh⟩ := hh.stage hm
  refine StableDht.of_stage hm (splitRadix_implements iq ih e hs) fun hpos => ?_
  have hlen := (splitRadix_eq e).1
  have hdl : d.len = 4 * qd.len := by rw [(splitRadix_eq e).2]; rfl
  have hq0 : 0 < qd.len := by omega
  rw [hdl]
  have s1 := (sq hq0).mono hm (b := ⟨a.depth, a.under, max 8 (max a.big b.big)⟩) le_rfl le_rfl
    ((le_max_left _ _).trans (le_max_right _ _))
  have s2 := (sh (by omega)).mono hm (b := ⟨b.depth, b.under, max 8 (max a.big b.big)⟩) le_rfl le_rfl
    ((le_max_right _ _).trans (le_max_right _ _))
  rw [show hd.len = 2 * qd.len by omega] at s2
  have s3 := (sr_stage hm hq0 (le_max_left _ _) s1 s2).congr hm (E' := dht) (fun _ _ => rfl) (fun x hx => (srFn_dht hx).symm)
  refine Stage.mono hm s3 (nrm_isNrm _) (Real.sqrt_nonneg _) (Real.sqrt_nonneg _) le_rfl ?_ le_rfl
  show _ ≤ 2 * 8 * Cost.depth t s ⟨8, 2, 5, 1, 0⟩ + max a.depth b.depth
  simp only [Cost.depth]
  omega

theorem raders_stable {a : Stab} {id d : Dht T} (hi : StableDht fin val u η Ω a id) (hb : 1 ≤ a.big) (e : raders id = .ok d) :
    StableDht fin val u η Ω (radersStability t a id.len) d := by
  obtain ⟨f, hf, st⟩ := hi.stage hm
  obtain ⟨g, eg, hdata⟩ := raders_data_root hf e
  have hdl : d.len = id.len + 1 := by rw [hdata.eq]; rfl
  have hp2 := hdata.prime.two_le
  have hgen : RadersGen id.len g (rootInverse g (id.len + 1)) :=
    ⟨hdata.prime, hdata.odd, by have := hdata.g_gt; omega, hdata.g_lt, hdata.g_order, hdata.gi_pos, hdata.gi_lt, hdata.g_mul,
      hdata.gi_order⟩
  refine StableDht.of_stage hm (hdata.implements hf) fun _ => ?_
  rw [hdl]
  exact rd_stage hm hgen hb (st (by omega)) (fun _ _ => rfl)

end

end RustDHT
