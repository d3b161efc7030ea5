import Verif.Proofs.Contracts

/-! # `MixedRadixNxn` and `SplitRadix` panic when the inner object needs too much scratch -/

set_option linter.unusedSectionVars false

namespace RustDHT

variable {T : Type}

theorem boilerplateDht_inplace_error {len a b : Nat} {pin} {poop} {e : Fault} {c s : List T} (hlen : 0 < len)
    (hc : c.length = len) (hs : s.length = a) (h : pin c s = .error e) :
    (boilerplateDht len a b pin poop).processWithScratch c s = .error e := by
  simp only [boilerplateDht]
  rw [if_neg (by omega), if_neg (by omega), List.take_of_length_le (by omega), iterChunks, if_pos (by omega),
    if_neg (by omega), List.take_of_length_le (by omega), h]
  rfl

theorem boilerplateDht_oop_error {len a b : Nat} {pin} {poop} {e : Fault} {i o s : List T} (hlen : 0 < len)
    (hi : i.length = len) (ho : o.length = len) (hs : s.length = b) (h : poop i o s = .error e) :
    (boilerplateDht len a b pin poop).processOop i o s = .error e := by
  simp only [boilerplateDht]
  rw [if_neg (by omega), if_neg (by omega), List.take_of_length_le (by omega), iterChunksZipped, if_neg (by omega),
    if_neg (by omega), iterChunksZippedLoop, if_pos (by omega), if_neg (by omega), List.take_of_length_le (by omega),
    List.take_of_length_le (by omega), h]
  rfl

theorem Rejects.inplace_scratch {d : Dht T} (h : Rejects d) {b s : List T} (h1 : d.len ≤ b.length)
    (h2 : d.len ∣ b.length) (h3 : s.length < d.inplaceScratchLen) :
    d.processWithScratch b s = .error (.panic .scratchTooSmall) := by
  refine h.inplace b s _ ?_
  rw [inplaceViolation, if_neg (by omega), if_neg (by simpa using h2), if_pos h3]

theorem Rejects.oop_scratch {d : Dht T} (h : Rejects d) {i o s : List T} (h0 : o.length = i.length)
    (h1 : d.len ≤ i.length) (h2 : d.len ∣ i.length) (h3 : s.length < d.oopScratchLen) :
    d.processOop i o s = .error (.panic .scratchTooSmall) := by
  refine h.oop i o s _ ?_
  rw [oopViolation, if_neg (by omega), if_neg (by omega), if_neg (by simpa using h2), if_pos h3]

variable [Zero T]

theorem mrn_needs {k : Nat} (hk : 2 ≤ k) {hd : Dht T} (hr : Rejects hd) (hh : 0 < hd.len)
    {ap : List T → Res (List T)} (h : ScratchSuffices (mixedRadixN k hd ap)) :
    hd.inplaceScratchLen ≤ k * hd.len ∧ hd.oopScratchLen = 0 := by
  have hpos : 0 < k * hd.len := Nat.mul_pos (by omega) hh
  have hle : hd.len ≤ k * hd.len := Nat.le_mul_of_pos_left _ (by omega)
  have hz : (List.replicate (k * hd.len) (0 : T)).length = k * hd.len := by simp
  have hin : hd.inplaceScratchLen ≤ k * hd.len := by
    by_contra hc
    obtain ⟨r, e⟩ := h.oop (List.replicate (k * hd.len) 0) (List.replicate (k * hd.len) 0)
      (List.replicate (mrnOopScratch (k * hd.len) hd) 0) rfl (by rw [hz]; exact le_refl _) (by rw [hz]; exact dvd_refl _)
      (by simp; rfl)
    rw [mixedRadixN] at e
    rw [boilerplateDht_oop_error (e := .panic .scratchTooSmall) hpos hz hz (by simp)] at e
    · cases e
    · rw [mrnPerformOop, transposeHalfRevOut_ok hk hz hz, ok_bind,
        hr.inplace_scratch (by simpa using hle) (by simp) (by simpa using hc)]
      rfl
  refine ⟨hin, ?_⟩
  by_contra hc
  have hs : mrnInplaceScratch (k * hd.len) hd = k * hd.len := by
    rw [mrnInplaceScratch, if_neg (by omega), Nat.add_zero]
  obtain ⟨r, e⟩ := h.inplace (List.replicate (k * hd.len) 0) (List.replicate (k * hd.len) 0) (by rw [hz]; exact le_refl _)
    (by rw [hz]; exact dvd_refl _) (by rw [hz]; exact hs.symm)
  rw [mixedRadixN] at e
  rw [boilerplateDht_inplace_error (e := .panic .scratchTooSmall) hpos hz (by rw [hz, hs])] at e
  · cases e
  · rw [mrnPerformInplace, transposeHalfRevOut_ok hk hz hz, ok_bind,
      hr.oop_scratch (by simp) (by simpa using hle) (by simp) (by simp; omega)]
    rfl

variable [Add T] [Sub T] [Mul T] [Neg T] [FftNum T]

theorem sr_needs {qd hd d : Dht T} (ih : Accepts hd) (hrq : Rejects qd) (hrh : Rejects hd)
    (hd' : splitRadix qd hd = .ok d) (hpos : 0 < qd.len) (h : ScratchSuffices d) :
    qd.oopScratchLen = 0 ∧ qd.inplaceScratchLen ≤ 4 * qd.len ∧ hd.inplaceScratchLen ≤ 2 * qd.len := by
  obtain ⟨hh, rfl⟩ := splitRadix_eq hd'
  generalize hq : qd.len = q at *
  have z4 : (List.replicate (4 * q) (0 : T)).length = 4 * q := by simp
  have z2 : (List.replicate (2 * q) (0 : T)).length = 2 * q := by simp
  set x := List.replicate (4 * q) (0 : T) with hx
  have hE : (tab (2 * q) (srEven q x)).length = 2 * q := length_tab _ _
  have hO : (tab q (srQ1 q x) ++ tab q (srQ3 q x)).length = 2 * q := by simp; omega
  have h3 : hd.inplaceScratchLen ≤ 2 * q := by
    by_contra hc
    obtain ⟨r, e⟩ := h.inplace x (List.replicate (2 * q) 0) (by rw [z4]; exact le_refl _)
      (by rw [z4]; exact dvd_refl _) z2
    rw [boilerplateDht_inplace_error (e := .panic .scratchTooSmall) (by omega) z4 z2] at e
    · cases e
    · unfold srPerformInplace
      rw [srApplyTwiddles_ok hpos z4, ok_bind]
      simp only [show 4 * q / 2 = 2 * q by omega, show 4 * q / 4 = q by omega]
      rw [splitAt_ok (by simp), ok_bind, List.take_left' hE, List.drop_left' hE]
      simp only
      rw [hrh.inplace_scratch (by rw [hE, hh]) (by rw [hE, hh]) (by rw [z2]; omega)]
      rfl
  refine ⟨?_, ?_, h3⟩
  · by_contra hc
    obtain ⟨r, e⟩ := h.inplace x (List.replicate (2 * q) 0) (by rw [z4]; exact le_refl _)
      (by rw [z4]; exact dvd_refl _) z2
    rw [boilerplateDht_inplace_error (e := .panic .scratchTooSmall) (by omega) z4 z2] at e
    · cases e
    · obtain ⟨y, s1, e1, _, ls1⟩ := ih.inplace (tab (2 * q) (srEven q x)) (List.replicate (2 * q) 0) (by simp [hh])
        (by simp [hh]) (by rw [z2]; omega)
      unfold srPerformInplace
      rw [srApplyTwiddles_ok hpos z4, ok_bind]
      simp only [show 4 * q / 2 = 2 * q by omega, show 4 * q / 4 = q by omega]
      rw [splitAt_ok (by simp), ok_bind, List.take_left' hE, List.drop_left' hE]
      simp only [e1, ok_bind]
      rw [hrq.oop_scratch (by rw [hO, ls1, z2]) (by rw [hO, hq]; omega) (by rw [hO, hq]; exact dvd_mul_left _ _)
        (by simp; omega)]
      rfl
  · by_contra hc
    obtain ⟨r, e⟩ := h.oop x x [] rfl (by rw [z4]; exact le_refl _) (by rw [z4]; exact dvd_refl _) rfl
    rw [boilerplateDht_oop_error (e := .panic .scratchTooSmall) (by omega) z4 z4 (s := []) (b := 0) rfl] at e
    · cases e
    · obtain ⟨y, s1, e1, _, ls1⟩ := ih.inplace (tab (2 * q) (srEven q x)) x (by simp [hh]) (by simp [hh]) (by rw [z4]; omega)
      unfold srPerformOop
      rw [srApplyTwiddles_ok hpos z4, ok_bind]
      simp only [show 4 * q / 2 = 2 * q by omega, show 4 * q / 4 = q by omega]
      rw [splitAt_ok (by simp), ok_bind, List.take_left' hE, List.drop_left' hE]
      simp only [e1, ok_bind]
      rw [hrq.inplace_scratch (by rw [hO, hq]; omega) (by rw [hO, hq]; exact dvd_mul_left _ _) (by rw [ls1, z4]; omega)]
      rfl

end RustDHT
