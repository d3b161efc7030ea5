import Verif.Model.Patched
import Verif.Proofs.Accepts
import Verif.Proofs.RepairedPlan

/-! # The patched algorithms -/

set_option linter.unusedSectionVars false

namespace RustDHT

variable {T : Type} [Zero T] [Add T] [Sub T] [Mul T] [Neg T] [FftNum T]

/-! ## Butterfly1 -/

theorem performs1 : PerformsBfly 1 id (contiguous1 : RawIO T → _) := by
  have h1 : ∀ {x : List T}, x.length = 1 → ∃ a, x = [a] := fun h => List.length_eq_one_iff.1 h
  refine ⟨?_, ?_, ?_⟩
  · intro x hx; exact hx
  · intro x hx; obtain ⟨a, rfl⟩ := h1 hx; rfl
  · intro x y hx hy; obtain ⟨a, rfl⟩ := h1 hx; obtain ⟨b, rfl⟩ := h1 hy; rfl

theorem butterfly1Patched_implements : Implements (butterfly1Patched T) id :=
  boilerplateFftButterfly_implements (by omega) performs1

theorem butterfly1Patched_rejects : Rejects (butterfly1Patched T) :=
  boilerplateFftButterfly_rejects (by omega) performs1

/-! ## MixedRadixNxn -/

theorem mrnOop_room {n : Nat} {hd : Dht T} {i s : List T} (hs : s.length = mrnOopScratch n hd) (hi : i.length = n) :
    (s.length > i.length → hd.inplaceScratchLen ≤ s.length) ∧ (¬ s.length > i.length → hd.inplaceScratchLen ≤ i.length) := by
  unfold mrnOopScratch at hs
  split at hs <;> constructor <;> intro _ <;> omega

theorem mrnPatched_performs {k : Nat} {hd : Dht T} {f : List T → List T} {ap : List T → Res (List T)}
    (hk : 2 ≤ k) (hi : Implements hd f) (hh : 0 < hd.len) (hap : Total (k * hd.len) ap) :
    Performs (k * hd.len) (k * hd.len + hd.oopScratchLen) (mrnOopScratch (k * hd.len) hd)
      (mrnFn k hd.len f ap) (mrnPatchedInplace k hd hd.len ap) (mrnPatchedOop k hd hd.len ap) := by
  have hle : hd.len ≤ k * hd.len := Nat.le_mul_of_pos_left _ (by omega)
  have hdv : hd.len ∣ k * hd.len := dvd_mul_left _ _
  refine ⟨?_, ?_, ?_⟩
  · intro x hx
    exact hap.length (by rw [length_mapChunks hh hi.length, length_tab])
  · intro c s hc hs
    obtain ⟨i', s', e, hi', hs', _⟩ := hi.oop
      (tab (k * hd.len) fun p => nth c (revRow k hd.len (p / hd.len) (p % hd.len) * k + p / hd.len)) c (s.drop (k * hd.len))
      (by rw [length_tab, hc]) (by rw [length_tab]; exact hle) (by rw [length_tab]; exact hdv) (by simp; omega)
    refine ⟨i' ++ s', ?_, by rw [List.length_append, hi', hs', length_tab, List.length_drop]; omega⟩
    unfold mrnPatchedInplace
    rw [splitAt_ok (by omega), ok_bind]
    simp only
    rw [transposeHalfRevOut_ok hk hc (by simp; omega), ok_bind, e, ok_bind]
    simp only
    rw [hap.eq (by rw [length_mapChunks hh hi.length, length_tab]), ok_bind]
    rfl
  · intro i o s hil hol hs
    unfold mrnPatchedOop
    rw [transposeHalfRevOut_ok hk hil hol, ok_bind]
    by_cases hc : s.length > i.length
    · obtain ⟨s', e, hs', _⟩ := hi.inplace
        (tab (k * hd.len) fun p => nth i (revRow k hd.len (p / hd.len) (p % hd.len) * k + p / hd.len)) s
        (by rw [length_tab]; exact hle) (by rw [length_tab]; exact hdv) ((mrnOop_room hs hil).1 hc)
      refine ⟨i, s', ?_, hil, by omega⟩
      rw [if_pos hc, e, ok_bind]
      simp only [ok_bind]
      rw [hap.eq (by rw [length_mapChunks hh hi.length, length_tab]), ok_bind]
      rfl
    · obtain ⟨i', e, hi', _⟩ := hi.inplace
        (tab (k * hd.len) fun p => nth i (revRow k hd.len (p / hd.len) (p % hd.len) * k + p / hd.len)) i
        (by rw [length_tab]; exact hle) (by rw [length_tab]; exact hdv) ((mrnOop_room hs hil).2 hc)
      refine ⟨i', s, ?_, by omega, hs⟩
      rw [if_neg hc, e, ok_bind]
      simp only [ok_bind]
      rw [hap.eq (by rw [length_mapChunks hh hi.length, length_tab]), ok_bind]
      rfl

theorem mrnPatched_implements {k : Nat} {hd : Dht T} {f : List T → List T} {ap : List T → Res (List T)}
    (hk : 2 ≤ k) (hi : Implements hd f) (hap : 0 < hd.len → Total (k * hd.len) ap)
    (hap0 : hd.len = 0 → (run ap []).length = 0) :
    Implements (mixedRadixNPatched k hd ap) (mrnFn k hd.len f ap) := by
  refine boilerplateDht_implements (fun h => ?_) (fun h => ?_)
  · have hh : 0 < hd.len := Nat.pos_of_mul_pos_left h
    exact mrnPatched_performs hk hi hh (hap hh)
  · have hh : hd.len = 0 := by
      rcases Nat.mul_eq_zero.1 h with h | h
      · omega
      · exact h
    rw [mrnFn, hh, mapChunks_zero]
    simpa [tab] using hap0 hh

theorem mrnPatched_solid {k : Nat} {hd : Dht T} {ap : List T → Res (List T)} (hk : 2 ≤ k) (hi : Accepts hd)
    (hap : 0 < hd.len → Total (k * hd.len) ap) : Solid (mixedRadixNPatched k hd ap) := by
  refine boilerplateDht_solid fun h => ?_
  have hh : 0 < hd.len := Nat.pos_of_mul_pos_left h
  have hap := hap hh
  have hle : hd.len ≤ k * hd.len := Nat.le_mul_of_pos_left _ (by omega)
  have hdv : hd.len ∣ k * hd.len := dvd_mul_left _ _
  refine ⟨?_, ?_⟩
  · intro c s hc hs
    obtain ⟨i', o', s', e, hi', ho', hs'⟩ := hi.oop
      (tab (k * hd.len) fun p => nth c (revRow k hd.len (p / hd.len) (p % hd.len) * k + p / hd.len)) c (s.drop (k * hd.len))
      (by rw [length_tab, hc]) (by rw [length_tab]; exact hle) (by rw [length_tab]; exact hdv) (by simp; omega)
    obtain ⟨r, er, lr⟩ := hap o' (by omega)
    refine ⟨r, i' ++ s', ?_, lr, by rw [List.length_append, hi', hs', length_tab, List.length_drop]; omega⟩
    unfold mrnPatchedInplace
    rw [splitAt_ok (by omega), ok_bind]
    simp only
    rw [transposeHalfRevOut_ok hk hc (by simp; omega), ok_bind, e, ok_bind]
    simp only
    rw [er, ok_bind]
  · intro i o s hil hol hs
    unfold mrnPatchedOop
    rw [transposeHalfRevOut_ok hk hil hol, ok_bind]
    by_cases hc : s.length > i.length
    · obtain ⟨o', s', e, ho', hs'⟩ := hi.inplace
        (tab (k * hd.len) fun p => nth i (revRow k hd.len (p / hd.len) (p % hd.len) * k + p / hd.len)) s
        (by rw [length_tab]; exact hle) (by rw [length_tab]; exact hdv) ((mrnOop_room hs hil).1 hc)
      rw [length_tab] at ho'
      obtain ⟨r, er, lr⟩ := hap o' ho'
      refine ⟨i, r, s', ?_, hil, lr, by omega⟩
      rw [if_pos hc, e, ok_bind]
      simp only [ok_bind]
      rw [er, ok_bind]
    · obtain ⟨o', i', e, ho', hi'⟩ := hi.inplace
        (tab (k * hd.len) fun p => nth i (revRow k hd.len (p / hd.len) (p % hd.len) * k + p / hd.len)) i
        (by rw [length_tab]; exact hle) (by rw [length_tab]; exact hdv) ((mrnOop_room hs hil).2 hc)
      rw [length_tab] at ho'
      obtain ⟨r, er, lr⟩ := hap o' ho'
      refine ⟨i', r, s, ?_, by omega, lr, hs⟩
      rw [if_neg hc, e, ok_bind]
      simp only [ok_bind]
      rw [er, ok_bind]

theorem mixedRadix2xnPatched_eq (d : Dht T) : mixedRadix2xnPatched d = mixedRadixNPatched 2 d (mr2Apply T d.len) := by
  simp only [mixedRadix2xnPatched, mr2Apply, mr2_chunks]
theorem mixedRadix3xnPatched_eq (d : Dht T) : mixedRadix3xnPatched d = mixedRadixNPatched 3 d (mr3Apply T d.len) := by
  simp only [mixedRadix3xnPatched, mr3Apply, mr3_chunks]
theorem mixedRadix4xnPatched_eq (d : Dht T) : mixedRadix4xnPatched d = mixedRadixNPatched 4 d (mr4Apply T d.len) := by
  simp only [mixedRadix4xnPatched, mr4Apply, mr4_chunks]
theorem mixedRadix5xnPatched_eq (d : Dht T) : mixedRadix5xnPatched d = mixedRadixNPatched 5 d (mr5Apply T d.len) := by
  simp only [mixedRadix5xnPatched, mr5Apply, mr5_chunks]
theorem mixedRadix6xnPatched_eq (d : Dht T) : mixedRadix6xnPatched d = mixedRadixNPatched 6 d (mr6Apply T d.len) := by
  simp only [mixedRadix6xnPatched, mr6Apply, mr6_chunks]

/-! ## SplitRadix -/

theorem splitRadixPatched_eq {qd hd d : Dht T} (h : splitRadixPatched qd hd = .ok d) :
    hd.len = 2 * qd.len ∧ d = boilerplateDht (4 * qd.len) (max hd.inplaceScratchLen (2 * qd.len + qd.oopScratchLen))
      (if max hd.inplaceScratchLen qd.inplaceScratchLen > 4 * qd.len then max hd.inplaceScratchLen qd.inplaceScratchLen else 0)
      (srPatchedInplace qd hd (4 * qd.len) (srTwiddles T (4 * qd.len)))
      (srPatchedOop qd hd (4 * qd.len) (srTwiddles T (4 * qd.len))) := by
  unfold splitRadixPatched at h
  simp only at h
  by_cases hl : hd.len = qd.len * 2
  · simp only [hl, BEq.rfl, assert_true, ok_bind, Except.ok.injEq] at h
    rw [← h, hl, Nat.mul_comm qd.len 4, Nat.mul_comm qd.len 2]
    exact ⟨rfl, rfl⟩
  · rw [beq_false_of_ne hl, assert_false, panic_bind] at h
    cases h

theorem splitRadixPatched_new {qd hd : Dht T} (h : hd.len = 2 * qd.len) : ∃ d, splitRadixPatched qd hd = .ok d := by
  have hl : hd.len = qd.len * 2 := by omega
  unfold splitRadixPatched
  simp [hl]

theorem srPatched_performs {qd hd : Dht T} {fq fh : List T → List T} (iq : Implements qd fq) (ih : Implements hd fh)
    {q : Nat} (hq : qd.len = q) (hh : hd.len = 2 * q) (hpos : 0 < q) :
    Performs (4 * q) (max hd.inplaceScratchLen (2 * q + qd.oopScratchLen))
      (if max hd.inplaceScratchLen qd.inplaceScratchLen > 4 * q then max hd.inplaceScratchLen qd.inplaceScratchLen else 0)
      (srFn q fq fh) (srPatchedInplace qd hd (4 * q) (srTwiddles T (4 * q)))
      (srPatchedOop qd hd (4 * q) (srTwiddles T (4 * q))) := by
  have lq := iq.length
  have lh := ih.length
  rw [hq] at lq
  rw [hh] at lh
  have hE : ∀ x : List T, (tab (2 * q) (srEven q x)).length = 2 * q := fun x => length_tab _ _
  have hO : ∀ x : List T, (tab q (srQ1 q x) ++ tab q (srQ3 q x)).length = 2 * q := fun x => by simp; omega
  have hmap : ∀ x : List T, mapChunks q fq (tab q (srQ1 q x) ++ tab q (srQ3 q x))
      = fq (tab q (srQ1 q x)) ++ fq (tab q (srQ3 q x)) := fun x => by
    rw [mapChunks_append (by simp), mapChunks_single hpos (by simp), mapChunks_single hpos (by simp)]
  have l1 : ∀ x : List T, (fq (tab q (srQ1 q x))).length = q := fun x => lq _ (by simp)
  have l3 : ∀ x : List T, (fq (tab q (srQ3 q x))).length = q := fun x => lq _ (by simp)
  have l0 : ∀ x : List T, (fh (tab (2 * q) (srEven q x))).length = 2 * q := fun x => lh _ (by simp)
  refine ⟨fun x _ => by simp [srFn], ?_, ?_⟩
  · intro x s hx hs
    obtain ⟨s1, e1, ls1, _⟩ := ih.inplace (tab (2 * q) (srEven q x)) s (by simp [hh]) (by simp [hh]) (by omega)
    obtain ⟨i2, s2, e2, li2, ls2, _⟩ := iq.oop (tab q (srQ1 q x) ++ tab q (srQ3 q x)) (s1.take (2 * q)) (s1.drop (2 * q))
      (by rw [hO]; simp; omega) (by rw [hO, hq]; omega) (by rw [hO, hq]; exact dvd_mul_left _ _) (by simp; omega)
    rw [hh, mapChunks_single (by omega) (hE x)] at e1
    rw [hq, hmap] at e2
    refine ⟨fq (tab q (srQ1 q x)) ++ fq (tab q (srQ3 q x)) ++ s2, ?_, by simp [l1, l3, ls2]; omega⟩
    unfold srPatchedInplace
    rw [srApplyTwiddles_ok hpos hx, ok_bind]
    simp only [show 4 * q / 2 = 2 * q by omega, show 4 * q / 4 = q by omega]
    rw [splitAt_ok (by simp), ok_bind, List.take_left' (hE x), List.drop_left' (hE x)]
    simp only [e1, ok_bind]
    rw [splitAt_ok (by omega), ok_bind]
    simp only [e2, ok_bind]
    rw [splitAt_ok (by simp [l1, l3]), ok_bind, List.take_left' (l1 x), List.drop_left' (l1 x)]
    simp only
    rw [sr_interleave_inplace (l0 x) (l1 x) (l3 x).ge (by rw [li2, hO]), ok_bind]
    rfl
  · intro x o s hx ho hs
    unfold srPatchedOop
    rw [srApplyTwiddles_ok hpos hx, ok_bind]
    simp only [show 4 * q / 2 = 2 * q by omega, show 4 * q / 4 = q by omega]
    rw [splitAt_ok (by simp), ok_bind, List.take_left' (hE x), List.drop_left' (hE x)]
    simp only
    by_cases hc : s.length > o.length
    · have hc' : max hd.inplaceScratchLen qd.inplaceScratchLen ≤ s.length := by rw [hs] at hc ⊢; split at hc <;> simp_all
      obtain ⟨s1, e1, ls1, _⟩ := ih.inplace (tab (2 * q) (srEven q x)) s (by simp [hh]) (by simp [hh]) (by omega)
      obtain ⟨s2, e2, ls2, _⟩ := iq.inplace (tab q (srQ1 q x) ++ tab q (srQ3 q x)) s1
        (by rw [hO, hq]; omega) (by rw [hO, hq]; exact dvd_mul_left _ _) (by omega)
      rw [hh, mapChunks_single (by omega) (hE x)] at e1
      rw [hq, hmap] at e2
      refine ⟨fh (tab (2 * q) (srEven q x)) ++ (fq (tab q (srQ1 q x)) ++ fq (tab q (srQ3 q x))), s2, ?_,
        by simp [l0, l1, l3]; omega, by omega⟩
      rw [if_pos hc]
      simp only [e1, e2, ok_bind]
      rw [splitAt_ok (by simp [l1, l3]), ok_bind, List.take_left' (l1 x), List.drop_left' (l1 x)]
      simp only
      rw [sr_interleave_oop (l0 x) (l1 x) (l3 x) (by omega), ok_bind]
      rfl
    · have hc' : max hd.inplaceScratchLen qd.inplaceScratchLen ≤ o.length := by rw [hs] at hc; split at hc <;> omega
      obtain ⟨o1, e1, lo1, _⟩ := ih.inplace (tab (2 * q) (srEven q x)) o (by simp [hh]) (by simp [hh]) (by omega)
      obtain ⟨o2, e2, lo2, _⟩ := iq.inplace (tab q (srQ1 q x) ++ tab q (srQ3 q x)) o1
        (by rw [hO, hq]; omega) (by rw [hO, hq]; exact dvd_mul_left _ _) (by omega)
      rw [hh, mapChunks_single (by omega) (hE x)] at e1
      rw [hq, hmap] at e2
      refine ⟨fh (tab (2 * q) (srEven q x)) ++ (fq (tab q (srQ1 q x)) ++ fq (tab q (srQ3 q x))), s, ?_,
        by simp [l0, l1, l3]; omega, hs⟩
      rw [if_neg hc]
      simp only [e1, e2, ok_bind]
      rw [splitAt_ok (by simp [l1, l3]), ok_bind, List.take_left' (l1 x), List.drop_left' (l1 x)]
      simp only
      rw [sr_interleave_oop (l0 x) (l1 x) (l3 x) (by omega), ok_bind]
      rfl

theorem splitRadixPatched_implements {qd hd d : Dht T} {fq fh : List T → List T} (iq : Implements qd fq)
    (ih : Implements hd fh) (hd' : splitRadixPatched qd hd = .ok d) : Implements d (srFn qd.len fq fh) := by
  obtain ⟨hlen, rfl⟩ := splitRadixPatched_eq hd'
  refine boilerplateDht_implements (fun h => ?_) (fun h => ?_)
  · exact srPatched_performs iq ih rfl hlen (by omega)
  · simp [srFn]; omega

theorem splitRadixPatched_solid {qd hd d : Dht T} (iq : Accepts qd) (ih : Accepts hd) (hd' : splitRadixPatched qd hd = .ok d) :
    Solid d := by
  obtain ⟨hh, rfl⟩ := splitRadixPatched_eq hd'
  refine boilerplateDht_solid fun hpos => ?_
  obtain ⟨q, hq⟩ : ∃ q, qd.len = q := ⟨_, rfl⟩
  rw [hq] at hh hpos ⊢
  have hE : ∀ x : List T, (tab (2 * q) (srEven q x)).length = 2 * q := fun x => length_tab _ _
  have hO : ∀ x : List T, (tab q (srQ1 q x) ++ tab q (srQ3 q x)).length = 2 * q := fun x => by simp; omega
  have dq : q ∣ 2 * q := dvd_mul_left _ _
  refine ⟨?_, ?_⟩
  · intro x s hx hs
    obtain ⟨y, s1, e1, ly, ls1⟩ := ih.inplace (tab (2 * q) (srEven q x)) s (by simp [hh]) (by simp [hh]) (by omega)
    obtain ⟨i2, o2, s2, e2, li2, lo2, ls2⟩ := iq.oop (tab q (srQ1 q x) ++ tab q (srQ3 q x)) (s1.take (2 * q)) (s1.drop (2 * q))
      (by rw [hO]; simp; omega) (by rw [hO, hq]; omega) (by rw [hO, hq]; exact dq) (by simp; omega)
    rw [hE] at ly
    rw [hO] at li2
    rw [List.length_take] at lo2
    rw [List.length_drop] at ls2
    refine ⟨?b, ?s, ?e, ?lb, ?ls⟩
    case e =>
      unfold srPatchedInplace
      rw [srApplyTwiddles_ok (by omega) hx, ok_bind]
      simp only [show 4 * q / 2 = 2 * q by omega, show 4 * q / 4 = q by omega]
      rw [splitAt_ok (by simp), ok_bind, List.take_left' (hE x), List.drop_left' (hE x)]
      simp only [e1, ok_bind]
      rw [splitAt_ok (by omega), ok_bind]
      simp only [e2, ok_bind]
      rw [splitAt_ok (by omega), ok_bind]
      simp only
      rw [sr_interleave_inplace ly (by simp; omega) (by simp; omega) li2, ok_bind]
    case lb => rw [length_tab]
    case ls => simp; omega
  · intro x o s hx ho hs
    unfold srPatchedOop
    rw [srApplyTwiddles_ok (by omega) hx, ok_bind]
    simp only [show 4 * q / 2 = 2 * q by omega, show 4 * q / 4 = q by omega]
    rw [splitAt_ok (by simp), ok_bind, List.take_left' (hE x), List.drop_left' (hE x)]
    simp only
    by_cases hc : s.length > o.length
    · have hc' : max hd.inplaceScratchLen qd.inplaceScratchLen ≤ s.length := by rw [hs] at hc ⊢; split at hc <;> simp_all
      obtain ⟨y, s1, e1, ly, ls1⟩ := ih.inplace (tab (2 * q) (srEven q x)) s (by simp [hh]) (by simp [hh]) (by omega)
      obtain ⟨z, s2, e2, lz, ls2⟩ := iq.inplace (tab q (srQ1 q x) ++ tab q (srQ3 q x)) s1
        (by rw [hO, hq]; omega) (by rw [hO, hq]; exact dq) (by omega)
      rw [hE] at ly
      rw [hO] at lz
      refine ⟨y ++ z, ?b2, s2, ?e2, by simp [ly, lz]; omega, ?lb2, by omega⟩
      case e2 =>
        rw [if_pos hc]
        simp only [e1, e2, ok_bind]
        rw [splitAt_ok (by omega), ok_bind]
        simp only
        rw [sr_interleave_oop ly (by simp; omega) (by simp; omega) (by omega), ok_bind]
      case lb2 => rw [length_tab]
    · have hc' : max hd.inplaceScratchLen qd.inplaceScratchLen ≤ o.length := by rw [hs] at hc; split at hc <;> omega
      obtain ⟨y, o1, e1, ly, lo1⟩ := ih.inplace (tab (2 * q) (srEven q x)) o (by simp [hh]) (by simp [hh]) (by omega)
      obtain ⟨z, o2, e2, lz, lo2⟩ := iq.inplace (tab q (srQ1 q x) ++ tab q (srQ3 q x)) o1
        (by rw [hO, hq]; omega) (by rw [hO, hq]; exact dq) (by omega)
      rw [hE] at ly
      rw [hO] at lz
      refine ⟨y ++ z, ?b3, s, ?e3, by simp [ly, lz]; omega, ?lb3, hs⟩
      case e3 =>
        rw [if_neg hc]
        simp only [e1, e2, ok_bind]
        rw [splitAt_ok (by omega), ok_bind]
        simp only
        rw [sr_interleave_oop ly (by simp; omega) (by simp; omega) (by omega), ok_bind]
      case lb3 => rw [length_tab]

/-! ## RadersAlgorithm -/

theorem primitiveRootPatched_two : primitiveRootPatched 2 = .ok (some 1) := by
  unfold primitiveRootPatched
  rw [if_neg (by omega)]
  have : distinctPrimeFactors (2 - 1) = .ok [] := by
    rw [distinctPrimeFactors, if_neg (by omega), ok_bind]
    simp
  rw [this, ok_bind]
  rfl

theorem modularExponentLoop_one {p : Nat} (hp : 1 < p) (e : Nat) : modularExponentLoop p 1 1 e = .ok 1 := by
  induction e using Nat.strongRecOn with
  | ind e ih =>
    rw [modularExponentLoop]
    by_cases he : e > 0
    · rw [if_pos he]
      have h1 : mulU64 1 1 = .ok 1 := rfl
      have h2 : remU64 1 p = .ok 1 := by rw [remU64_ok (by omega), Nat.mod_eq_of_lt hp]
      simp only [h1, h2, ok_bind, ite_self]
      exact ih _ (by omega)
    · rw [if_neg he]

/-- The patch changes nothing for other primes: the candidate 1 is rejected. -/
theorem primitiveRootPatched_odd {p : Nat} (hp : p.Prime) (h2 : p ≠ 2) : primitiveRootPatched p = primitiveRoot p := by
  have hp2 := hp.two_le
  have hodd : p % 2 = 1 := hp.eq_two_or_odd.resolve_left h2
  obtain ⟨l, ef⟩ := distinctPrimeFactors_even (n := p - 1) (by omega) (by omega)
  unfold primitiveRootPatched primitiveRoot
  rw [if_neg (by omega), if_neg (by omega), ef, ok_bind, ok_bind]
  simp only [List.map_cons]
  rw [show List.range' 1 (p - 1) = 1 :: List.range' 2 (p - 2) by
    rw [show p - 1 = (p - 2) + 1 by omega, List.range'_succ]]
  rw [searchRoot, rejectRoot, modularExponent, modularExponentLoop_one (by omega)]
  rfl

/-- For a length other than 2 the patched constructor is the crate's. -/
theorem radersPatched_eq {d : Dht T} (h : d.len ≠ 1) : radersPatched d = raders d := by
  unfold radersPatched raders
  simp only
  by_cases hp : (d.len + 1).Prime
  · rw [primitiveRootPatched_odd hp (by omega)]
    rfl
  · rw [millerRabin, decide_eq_false hp]
    rfl

theorem radersGather_two (x c : T) : radersGather 1 2 [x] [c] = .ok [x] := rfl
theorem radersScatter_two (x c : T) : radersScatter 1 2 [x] [c] = .ok [x] := rfl
theorem radersTwiddles_one (y : T) : radersTwiddles [y] = .ok [{ re := y, im := 0 }] := by
  simp [radersTwiddles, forRange, getI, setI]
theorem radersMulInplace_one (y b : T) : radersMulInplace [{ re := y, im := 0 }] [b] = .ok [b * y] := by
  simp [radersMulInplace, forRange, getI, setI]
theorem radersMulOop_one (y b c : T) : radersMulOop [{ re := y, im := 0 }] [b] [c] = .ok [b * y] := by
  simp [radersMulOop, forRange, getI, setI]

/-- The kernel of length one. -/
def rd2Kernel (T : Type) [Add T] [Mul T] [FftNum T] : T :=
  computeDhtTwiddle T 1 2 * FftNum.fromF64 ((FftNum.f64 (T := T)).div ((FftNum.f64 (T := T)).ofNat 1) ((FftNum.f64 (T := T)).ofNat 1))

theorem radersKernel_two : radersKernelInput T 1 2 1 = .ok [rd2Kernel T] := rfl
theorem rootInverse_two : rootInverse 1 2 = 1 := by
  obtain ⟨h1, h2, _⟩ := rootInverse_ok Nat.prime_two (g := 1) (by omega) (by omega)
  omega

/-- What Rader's algorithm computes for the length 2. -/
def rd2Fn (y : T) (f : List T → List T) (x : List T) : List T :=
  [nth x 0 + nth (f [nth x 1]) 0, nth (f [nth (f [nth x 1]) 0 * y + nth x 0]) 0]

private theorem one_of_len {x : List T} (h : x.length = 1) : x = [nth x 0] := by
  obtain ⟨a, rfl⟩ := List.length_eq_one_iff.1 h; rfl

private theorem two_of_len {x : List T} (h : x.length = 2) : ∃ a b, x = [a, b] := List.length_eq_two.1 h

theorem radersPatched_two {d : Dht T} (h : d.len = 1) {y : T} (hy : d.process [rd2Kernel T] = .ok [y]) :
    radersPatched d = .ok (boilerplateDht 2 (1 + if d.inplaceScratchLen ≤ 1 then 0 else d.inplaceScratchLen)
      (if d.inplaceScratchLen ≤ 1 then 0 else d.inplaceScratchLen)
      (radersPerformInplace d 2 1 1 [{ re := y, im := 0 }])
      (radersPerformOop d 2 1 1 [{ re := y, im := 0 }])) := by
  unfold radersPatched
  simp only
  rw [h, millerRabin, decide_eq_true Nat.prime_two, assert_true, ok_bind, primitiveRootPatched_two, ok_bind]
  simp only
  rw [rootInverse_two, radersKernel_two, ok_bind, hy, ok_bind, radersTwiddles_one, ok_bind]

private theorem room {n extra : Nat} (he : extra = if n ≤ 1 then 0 else n) (e b : List T) (h : e.length = extra)
    (hb : b.length = 1) : n ≤ (if e.length > 0 then e else b).length := by
  split at he <;> split <;> omega

/-- One call of an inner object of length 1, with either of two buffers as scratch. -/
def OneCall (d : Dht T) (P : T → T → Prop) (extra : Nat) : Prop :=
  ∀ (b : T) (e c : List T), e.length = extra → c.length = 1 →
    ∃ b' s', d.processWithScratch [b] (if e.length > 0 then e else c) = .ok ([b'], s') ∧ P b b' ∧
      (if e.length > 0 then (s', c) else (e, s')).1.length = extra ∧ (if e.length > 0 then (s', c) else (e, s')).2.length = 1

theorem oneCall_of {d : Dht T} {P : T → T → Prop} {extra : Nat}
    (he : extra = if d.inplaceScratchLen ≤ 1 then 0 else d.inplaceScratchLen)
    (h : ∀ b s, d.inplaceScratchLen ≤ s.length → ∃ b' s', d.processWithScratch [b] s = .ok ([b'], s') ∧ P b b' ∧ s'.length = s.length) :
    OneCall d P extra := by
  intro b e c h1 h2
  obtain ⟨b', s', eq, hP, ls⟩ := h b (if e.length > 0 then e else c) (room he e c h1 h2)
  refine ⟨b', s', eq, hP, ?_⟩
  by_cases hc : e.length > 0
  · simp only [if_pos hc] at ls ⊢
    omega
  · simp only [if_neg hc] at ls ⊢
    omega

theorem raders2_inplace {d : Dht T} {P : T → T → Prop} {extra : Nat} (one : OneCall d P extra) (y a b : T) (s : List T)
    (hs : s.length = 1 + extra) : ∃ z w s', radersPerformInplace d 2 1 1 [{ re := y, im := 0 }] [a, b] s = .ok ([a + z, w], s') ∧
      P b z ∧ P (z * y + a) w ∧ s'.length = 1 + extra := by
  obtain ⟨s0, ss, rfl⟩ : ∃ s0 ss, s = s0 :: ss := by
    cases s with
    | nil => simp at hs; omega
    | cons a l => exact ⟨a, l, rfl⟩
  have hss : ss.length = extra := by simp at hs; omega
  unfold radersPerformInplace
  simp only
  rw [splitAt_ok (by simp), ok_bind]
  simp only [show 2 - 1 = 1 from rfl, List.take_succ_cons, List.take_zero, List.drop_succ_cons, List.drop_zero]
  rw [radersGather_two, ok_bind]
  obtain ⟨z, s1, e1, hz, l1, l2⟩ := one b ss [b] hss rfl
  rw [e1, ok_bind]
  simp only
  generalize hq : (if ss.length > 0 then (s1, [b]) else (ss, s1)) = q at l1 l2
  have hcond : (ss.length > 0) = (q.1.length > 0) := by rw [hss, l1]
  rw [getI_nth (by simp), ok_bind, radersMulInplace_one, ok_bind, getI_nth (by simp), ok_bind, setI_ok (by simp), ok_bind]
  simp only [hcond]
  obtain ⟨w, s2, e2, hw, l3, l4⟩ := one (z * y + a) q.1 q.2 l1 l2
  rw [show ([z * y].set 0 (nth [z * y] 0 + a)) = [z * y + a] from rfl, e2, ok_bind]
  simp only
  generalize hr : (if q.1.length > 0 then (s2, q.2) else (q.1, s2)) = r at l3 l4
  obtain ⟨r1, r2⟩ := r
  obtain ⟨c, rfl⟩ := List.length_eq_one_iff.1 l4
  simp only
  rw [radersScatter_two, ok_bind]
  exact ⟨z, w, _, rfl, hz, hw, by simp at l3 ⊢; omega⟩

theorem raders2_oop {d : Dht T} {P : T → T → Prop} {extra : Nat} (one : OneCall d P extra) (y a b : T) (o s : List T)
    (ho : o.length = 2) (hs : s.length = extra) : ∃ i' z w s',
      radersPerformOop d 2 1 1 [{ re := y, im := 0 }] [a, b] o s = .ok (i', [a + z, w], s') ∧ i'.length = 2 ∧
      P b z ∧ P (z * y + a) w ∧ s'.length = extra := by
  obtain ⟨o0, o1, rfl⟩ := two_of_len ho
  unfold radersPerformOop
  simp only
  rw [radersGather_two, ok_bind]
  obtain ⟨z, s1, e1, hz, l1, l2⟩ := one b s [b] hs rfl
  rw [e1, ok_bind]
  simp only
  generalize hq : (if s.length > 0 then (s1, [b]) else (s, s1)) = q at l1 l2
  obtain ⟨q1, q2⟩ := q
  obtain ⟨c, rfl⟩ := List.length_eq_one_iff.1 l2
  simp only at l1 ⊢
  rw [getI_nth (by simp), ok_bind, radersMulOop_one, ok_bind, getI_nth (by simp), ok_bind, setI_ok (by simp), ok_bind]
  obtain ⟨w, s2, e2, hw, l3, l4⟩ := one (z * y + a) q1 [z] l1 rfl
  rw [show ([z * y].set 0 (nth [z * y] 0 + a)) = [z * y + a] from rfl, e2, ok_bind]
  simp only
  generalize hr : (if q1.length > 0 then (s2, [z]) else (q1, s2)) = r at l3 l4
  obtain ⟨r1, r2⟩ := r
  obtain ⟨c', rfl⟩ := List.length_eq_one_iff.1 l4
  simp only
  rw [radersScatter_two, ok_bind]
  exact ⟨_, z, w, _, rfl, rfl, hz, hw, l3⟩

theorem raders2_completes {d : Dht T} (hd : Accepts d) (hl : d.len = 1) (y : T) {extra : Nat}
    (he : extra = if d.inplaceScratchLen ≤ 1 then 0 else d.inplaceScratchLen) :
    Completes 2 (1 + extra) extra (radersPerformInplace d 2 1 1 [{ re := y, im := 0 }])
      (radersPerformOop d 2 1 1 [{ re := y, im := 0 }]) := by
  have one : OneCall d (fun _ _ => True) extra := oneCall_of he fun b s hs => by
    obtain ⟨b', s', e, lb, ls⟩ := hd.inplace [b] s (by simp [hl]) (by simp [hl]) hs
    obtain ⟨b0, rfl⟩ := List.length_eq_one_iff.1 lb
    exact ⟨b0, s', e, trivial, ls⟩
  refine ⟨?_, ?_⟩
  · intro c s hc hs
    obtain ⟨a, b, rfl⟩ := two_of_len hc
    obtain ⟨z, w, s', e, -, -, ls⟩ := raders2_inplace one y a b s hs
    exact ⟨_, s', e, rfl, ls⟩
  · intro c o s hc ho hs
    obtain ⟨a, b, rfl⟩ := two_of_len hc
    obtain ⟨i', z, w, s', e, li, -, -, ls⟩ := raders2_oop one y a b o s ho hs
    exact ⟨_, _, s', e, li, rfl, ls⟩

theorem raders2_performs {d : Dht T} {f : List T → List T} (hd : Implements d f) (hl : d.len = 1) (y : T) {extra : Nat}
    (he : extra = if d.inplaceScratchLen ≤ 1 then 0 else d.inplaceScratchLen) :
    Performs 2 (1 + extra) extra (rd2Fn y f) (radersPerformInplace d 2 1 1 [{ re := y, im := 0 }])
      (radersPerformOop d 2 1 1 [{ re := y, im := 0 }]) := by
  have one : OneCall d (fun b b' => f [b] = [b']) extra := oneCall_of he fun b s hs => by
    obtain ⟨s', e, ls, _⟩ := hd.inplace [b] s (by simp [hl]) (by simp [hl]) hs
    have hfl : (f [b]).length = 1 := by rw [hd.length _ (by simp [hl]), hl]
    obtain ⟨b0, hb⟩ := List.length_eq_one_iff.1 hfl
    rw [hl, mapChunks_single (n := 1) (by omega) rfl, hb] at e
    exact ⟨b0, s', e, hb, ls⟩
  have key : ∀ {a b z w : T}, f [b] = [z] → f [z * y + a] = [w] → rd2Fn y f [a, b] = [a + z, w] := by
    intro a b z w hz hw
    unfold rd2Fn
    rw [show nth [a, b] 1 = b from rfl, show nth [a, b] 0 = a from rfl, hz, show nth [z] 0 = z from rfl, hw]
    rfl
  refine ⟨fun _ _ => rfl, ?_, ?_⟩
  · intro c s hc hs
    obtain ⟨a, b, rfl⟩ := two_of_len hc
    obtain ⟨z, w, s', e, hz, hw, ls⟩ := raders2_inplace one y a b s hs
    exact ⟨s', by rw [e, key hz hw], ls⟩
  · intro c o s hc ho hs
    obtain ⟨a, b, rfl⟩ := two_of_len hc
    obtain ⟨i', z, w, s', e, li, hz, hw, ls⟩ := raders2_oop one y a b o s ho hs
    exact ⟨i', s', by rw [e, key hz hw], li, ls⟩

theorem radersPatched_two_solid {d : Dht T} (hd : Accepts d) (h : d.len = 1) :
    ∃ d', radersPatched d = .ok d' ∧ d'.len = 2 ∧ Solid d' := by
  obtain ⟨y, s', e, ly, _⟩ := hd.inplace [rd2Kernel T] (List.replicate d.inplaceScratchLen 0) (by simp [h]) (by simp [h]) (by simp)
  obtain ⟨y, rfl⟩ := List.length_eq_one_iff.1 ly
  have hproc : d.process [rd2Kernel T] = .ok [y] := by unfold Dht.process; simp only [e, ok_bind]
  exact ⟨_, radersPatched_two h hproc, rfl, boilerplateDht_solid fun _ => raders2_completes hd h y rfl⟩

theorem radersPatched_two_implements {d : Dht T} {f : List T → List T} (hd : Implements d f) (h : d.len = 1) :
    ∃ d' y, radersPatched d = .ok d' ∧ d'.len = 2 ∧ f [rd2Kernel T] = [y] ∧ Implements d' (rd2Fn y f) := by
  have hfl : (f [rd2Kernel T]).length = 1 := by rw [hd.length _ (by simp [h]), h]
  obtain ⟨y, hy⟩ := List.length_eq_one_iff.1 hfl
  have hproc : d.process [rd2Kernel T] = .ok [y] := by
    rw [hd.process (by simp [h]) (by simp [h]), h, mapChunks_single (n := 1) (by omega) rfl, hy]
  exact ⟨_, y, radersPatched_two h hproc, rfl, hy,
    boilerplateDht_implements (fun _ => raders2_performs hd h y rfl) (fun h => by omega)⟩

/-- The patched constructor returns only for primes up to `2^32`. -/
theorem radersPatched_new_only {d d' : Dht T} (h : radersPatched d = .ok d') : (d.len + 1).Prime ∧ d.len + 1 < 2 ^ 32 := by
  by_cases h1 : d.len = 1
  · rw [h1]; exact ⟨Nat.prime_two, by norm_num⟩
  · rw [radersPatched_eq h1] at h
    have := raders_new_only h
    exact ⟨this.1, this.2.2⟩

theorem radersPatched_solid_new {d : Dht T} (hd : Accepts d) (hp : (d.len + 1).Prime) (h32 : d.len + 1 < 2 ^ 32) :
    ∃ d', radersPatched d = .ok d' ∧ d'.len = d.len + 1 ∧ Solid d' := by
  by_cases h1 : d.len = 1
  · rw [h1]; exact radersPatched_two_solid hd h1
  · rw [radersPatched_eq h1]; exact raders_solid_new hd hp (by omega) h32

theorem radersPatched_solid {d d' : Dht T} (hd : Accepts d) (h : radersPatched d = .ok d') : Solid d' := by
  obtain ⟨hp, h32⟩ := radersPatched_new_only h
  obtain ⟨d'', e, _, hs⟩ := radersPatched_solid_new hd hp h32
  rw [h] at e
  cases e
  exact hs

end RustDHT
