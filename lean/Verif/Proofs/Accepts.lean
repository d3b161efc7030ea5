import Verif.Proofs.Contracts
import Verif.Proofs.ScratchNeeds

/-! # Objects that accept every valid call

The combinators only move slices around and call their inner objects; if these accept every valid call then so does the
combinator, whatever values the inner objects produce. -/

set_option linter.unusedSectionVars false

namespace RustDHT

variable {T σ : Type}

theorem Accepts.scratchSuffices {d : Dht T} (h : Accepts d) : ScratchSuffices d := by
  refine ⟨fun b s h1 h2 h3 => ?_, fun i o s h0 h1 h2 h3 => ?_⟩
  · obtain ⟨b', s', e, _⟩ := h.inplace b s h1 h2 (by omega)
    exact ⟨_, e⟩
  · obtain ⟨i', o', s', e, _⟩ := h.oop i o s h0 h1 h2 (by omega)
    exact ⟨_, e⟩

theorem length_mapChunks_any {n : Nat} {f : List T → List T} (hf : ∀ x, x.length = n → (f x).length = n) (l : List T) :
    (mapChunks n f l).length = l.length := by
  rcases Nat.eq_zero_or_pos n with rfl | hn
  · rw [mapChunks_zero]
  · exact length_mapChunks hn hf l

theorem Implements.accepts {d : Dht T} {f : List T → List T} (h : Implements d f) : Accepts d := by
  refine ⟨fun b s h1 h2 h3 => ?_, fun i o s h0 h1 h2 h3 => ?_⟩
  · obtain ⟨s', e, ls, _⟩ := h.inplace b s h1 h2 h3
    exact ⟨_, s', e, length_mapChunks_any h.length _, ls⟩
  · obtain ⟨i', s', e, li, ls, _⟩ := h.oop i o s h0 h1 h2 h3
    exact ⟨i', _, s', e, li, by rw [length_mapChunks_any h.length, h0], ls⟩

theorem iterChunks_accepts {n : Nat} (hn : 0 < n) {f : List T → σ → Res (List T × σ)} (I : σ → Prop)
    (hf : ∀ chunk s, chunk.length = n → I s → ∃ c' s', f chunk s = .ok (c', s') ∧ c'.length = n ∧ I s')
    (buffer : List T) (s : σ) (hs : I s) :
    ∃ b' s', iterChunks n f buffer s = .ok (decide (n ∣ buffer.length), b', s') ∧ b'.length = buffer.length ∧ I s' := by
  induction buffer using chunk_induction hn generalizing s with
  | hlt l hl =>
    refine ⟨l, s, ?_, rfl, hs⟩
    rw [iterChunks, if_neg (by omega)]
    have : (l.length == 0) = decide (n ∣ l.length) := by
      rw [Bool.eq_iff_iff]
      simp only [beq_iff_eq, decide_eq_true_eq]
      exact ⟨fun h => by rw [h]; exact dvd_zero _, fun h => Nat.eq_zero_of_dvd_of_lt h hl⟩
    rw [this]
  | hge l hl ih =>
    obtain ⟨c1, s1, e1, hc, h1⟩ := hf (l.take n) s (by simp; omega) hs
    obtain ⟨b2, s2, e2, hb, h2⟩ := ih s1 h1
    refine ⟨c1 ++ b2, s2, ?_, by simp [hc, hb]; omega, h2⟩
    rw [iterChunks, if_pos hl, if_neg (by omega), e1, ok_bind]
    simp only [e2, ok_bind, dvd_drop_iff hl]

theorem iterChunksZippedLoop_accepts {n : Nat} (hn : 0 < n) {f : List T → List T → σ → Res (List T × List T × σ)}
    (I : σ → Prop)
    (hf : ∀ c1 c2 s, c1.length = n → c2.length = n → I s →
      ∃ c1' c2' s', f c1 c2 s = .ok (c1', c2', s') ∧ c1'.length = n ∧ c2'.length = n ∧ I s')
    (b1 b2 : List T) (s : σ) (hs : I s) (hlen : b2.length = b1.length) :
    ∃ left b1' b2' s', iterChunksZippedLoop n f b1 b2 s = .ok (left, b1', b2', s') ∧ (left = 0 ↔ n ∣ b1.length) ∧
      b1'.length = b1.length ∧ b2'.length = b1.length ∧ I s' := by
  induction b1 using chunk_induction hn generalizing b2 s with
  | hlt l hl =>
    refine ⟨l.length, l, b2, s, ?_, ?_, rfl, hlen, hs⟩
    · rw [iterChunksZippedLoop, if_neg (by omega)]
    · exact ⟨fun h => by rw [h]; exact dvd_zero _, fun h => Nat.eq_zero_of_dvd_of_lt h hl⟩
  | hge l hl ih =>
    obtain ⟨c1, c2, s1, e1, hc1, hc2, h1⟩ := hf (l.take n) (b2.take n) s (by simp; omega) (by simp; omega) hs
    obtain ⟨left, t1, t2, s2, e2, hz, hl1, hl2, h2⟩ := ih (b2.drop n) s1 h1 (by simp; omega)
    refine ⟨left, c1 ++ t1, c2 ++ t2, s2, ?_, by rw [hz, dvd_drop_iff hl], by simp [hc1, hl1]; omega, by simp [hc2, hl2]; omega, h2⟩
    rw [iterChunksZippedLoop, if_pos (by omega), if_neg (by omega), e1, ok_bind]
    simp only [e2, ok_bind]

theorem iterChunksZipped_accepts {n : Nat} (hn : 0 < n) {f : List T → List T → σ → Res (List T × List T × σ)}
    (I : σ → Prop)
    (hf : ∀ c1 c2 s, c1.length = n → c2.length = n → I s →
      ∃ c1' c2' s', f c1 c2 s = .ok (c1', c2', s') ∧ c1'.length = n ∧ c2'.length = n ∧ I s')
    (b1 b2 : List T) (s : σ) (hs : I s) (hlen : b2.length = b1.length) :
    ∃ b1' b2' s', iterChunksZipped n f b1 b2 s = .ok (decide (n ∣ b1.length), b1', b2', s') ∧
      b1'.length = b1.length ∧ b2'.length = b1.length ∧ I s' := by
  obtain ⟨left, b1', b2', s', e, hz, h1, h2, h3⟩ := iterChunksZippedLoop_accepts hn I hf b1 b2 s hs hlen
  refine ⟨b1', b2', s', ?_, h1, h2, h3⟩
  rw [iterChunksZipped, if_neg (by omega), if_neg (by omega), e, ok_bind]
  have : (left == 0) = decide (n ∣ b1.length) := by
    rw [Bool.eq_iff_iff]; simp only [beq_iff_eq, decide_eq_true_eq]; exact hz
  simp only [this]

/-- Hypotheses about the `perform` functions: they return for every scratch of exactly the reported length. -/
structure Completes (len inpScr oopScr : Nat) (pin : List T → List T → Res (List T × List T))
    (poop : List T → List T → List T → Res (List T × List T × List T)) : Prop where
  inplace : ∀ chunk scr, chunk.length = len → scr.length = inpScr →
    ∃ chunk' scr', pin chunk scr = .ok (chunk', scr') ∧ chunk'.length = len ∧ scr'.length = inpScr
  oop : ∀ inp out scr, inp.length = len → out.length = len → scr.length = oopScr →
    ∃ inp' out' scr', poop inp out scr = .ok (inp', out', scr') ∧ inp'.length = len ∧ out'.length = len ∧
      scr'.length = oopScr

theorem boilerplateDht_accepts {len inpScr oopScr : Nat} {pin : List T → List T → Res (List T × List T)}
    {poop : List T → List T → List T → Res (List T × List T × List T)}
    (h : 0 < len → Completes len inpScr oopScr pin poop) : Accepts (boilerplateDht len inpScr oopScr pin poop) := by
  rcases Nat.eq_zero_or_pos len with rfl | hlen
  · exact ⟨fun b s _ _ _ => ⟨b, s, by simp [boilerplateDht], rfl, rfl⟩,
      fun i o s _ _ _ _ => ⟨i, o, s, by simp [boilerplateDht], rfl, rfl, rfl⟩⟩
  · have hp := h hlen
    refine ⟨?_, ?_⟩
    · intro b s h1 h2 h3
      simp only [boilerplateDht] at h1 h2 h3 ⊢
      obtain ⟨b', s', e, hb', hs'⟩ := iterChunks_accepts hlen (fun s => s.length = inpScr)
        (fun c s hc hs => hp.inplace c s hc hs) b (s.take inpScr) (by simp; omega)
      refine ⟨b', s' ++ s.drop inpScr, ?_, hb', by simp [hs']; omega⟩
      rw [if_neg (by omega), if_neg (by omega), e, ok_bind]
      simp [h2]
    · intro i o s hio h1 h2 h3
      simp only [boilerplateDht] at h1 h2 h3 ⊢
      obtain ⟨i', o', s', e, hi', ho', hs'⟩ := iterChunksZipped_accepts hlen (fun s => s.length = oopScr)
        (fun c1 c2 s hc1 hc2 hs => hp.oop c1 c2 s hc1 hc2 hs) i o (s.take oopScr) (by simp; omega) hio
      refine ⟨i', o', s' ++ s.drop oopScr, ?_, hi', by omega, by simp [hs']; omega⟩
      rw [if_neg (by omega), if_neg (by omega), e, ok_bind]
      simp [h2]

theorem boilerplateDht_rejects_of_completes {len inpScr oopScr : Nat} {pin : List T → List T → Res (List T × List T)}
    {poop : List T → List T → List T → Res (List T × List T × List T)} (hlen : 0 < len)
    (hp : Completes len inpScr oopScr pin poop) : Rejects (boilerplateDht len inpScr oopScr pin poop) := by
  refine ⟨?_, ?_⟩
  · intro b s k hk
    simp only [boilerplateDht] at hk ⊢
    rw [if_neg (by omega)]
    by_cases hc : s.length < inpScr ∨ b.length < len
    · rw [if_pos hc, dhtErrorInplace_violation hlen hk]; rfl
    · rw [if_neg hc]
      obtain ⟨b', s', e, _⟩ := iterChunks_accepts hlen (fun s => s.length = inpScr)
        (fun c s hc hs => hp.inplace c s hc hs) b (s.take inpScr) (by simp; omega)
      have hnd : ¬ len ∣ b.length := by
        intro hd
        rw [inplaceViolation_none (by omega) hd (by omega)] at hk; cases hk
      rw [e, ok_bind]
      have hk' : inplaceViolation len inpScr b.length inpScr = some k := by
        unfold inplaceViolation at hk ⊢
        rw [if_neg (by omega), if_pos hnd] at hk ⊢
        exact hk
      simp [hnd, dhtErrorInplace_violation hlen hk', RustDHT.panic]
  · intro i o s k hk
    simp only [boilerplateDht] at hk ⊢
    rw [if_neg (by omega)]
    by_cases hc : s.length < oopScr ∨ i.length < len ∨ o.length ≠ i.length
    · rw [if_pos hc, dhtErrorOutofplace_violation hlen hk]; rfl
    · rw [if_neg hc]
      obtain ⟨i', o', s', e, _⟩ := iterChunksZipped_accepts hlen (fun s => s.length = oopScr)
        (fun c1 c2 s hc1 hc2 hs => hp.oop c1 c2 s hc1 hc2 hs) i o (s.take oopScr) (by simp; omega) (by omega)
      have hnd : ¬ len ∣ i.length := by
        intro hd
        have := (oopViolation_eq_none_iff (len := len) (oopScr := oopScr) (i := i.length) (o := o.length)
          (s := s.length)).2 ⟨by omega, by omega, hd, by omega⟩
        rw [this] at hk; cases hk
      rw [e, ok_bind]
      have hk' : oopViolation len oopScr i.length o.length oopScr = some k := by
        unfold oopViolation at hk ⊢
        rw [if_neg (by omega), if_neg (by omega), if_pos hnd] at hk ⊢
        exact hk
      simp [hnd, dhtErrorOutofplace_violation hlen hk', RustDHT.panic]

/-- Valid calls return; if the length is positive then invalid ones panic as documented. -/
structure Solid (d : Dht T) : Prop where
  accepts : Accepts d
  rejects : 0 < d.len → Rejects d

theorem boilerplateDht_solid {len inpScr oopScr : Nat} {pin : List T → List T → Res (List T × List T)}
    {poop : List T → List T → List T → Res (List T × List T × List T)}
    (h : 0 < len → Completes len inpScr oopScr pin poop) : Solid (boilerplateDht len inpScr oopScr pin poop) :=
  ⟨boilerplateDht_accepts h, fun hl => boilerplateDht_rejects_of_completes hl (h hl)⟩

variable [Add T] [Sub T] [Mul T] [Neg T] [Zero T] [FftNum T]

/-! ## MixedRadix -/

theorem mr_completes {wd hd : Dht T} (iw : Accepts wd) (ih : Accepts hd) (hw : 0 < wd.len) (hh : 0 < hd.len) :
    Completes (wd.len * hd.len) (mrInplaceScratch (wd.len * hd.len) wd hd) (mrOopScratch (wd.len * hd.len) wd hd)
      (mrPerformInplace wd hd wd.len hd.len (wd.len * hd.len) (mrTwiddles T wd.len hd.len))
      (mrPerformOop wd hd wd.len hd.len (mrTwiddles T wd.len hd.len)) := by
  obtain ⟨w, hwe⟩ : ∃ w, wd.len = w := ⟨_, rfl⟩
  obtain ⟨h, hhe⟩ : ∃ h, hd.len = h := ⟨_, rfl⟩
  rw [hwe] at hw ⊢
  rw [hhe] at hh ⊢
  have hcomm : h * w = w * h := Nat.mul_comm h w
  have hleh : h ≤ w * h := Nat.le_mul_of_pos_left _ hw
  have hlew : w ≤ w * h := Nat.le_mul_of_pos_right _ hh
  have dh : h ∣ w * h := dvd_mul_left _ _
  have dw : w ∣ w * h := dvd_mul_right _ _
  have h1 : ∀ x, (mrStep1 w h x : List T).length = w * h := fun x => length_tab _ _
  refine ⟨?_, ?_⟩
  · intro x s hx hs
    have hcase : ∃ L, mrInplaceScratch (w * h) wd hd = w * h + L ∧ wd.oopScratchLen ≤ L ∧
        (L > w * h → hd.inplaceScratchLen ≤ L) ∧ (¬ L > w * h → hd.inplaceScratchLen ≤ w * h) := by
      refine ⟨max (if hd.inplaceScratchLen > w * h then hd.inplaceScratchLen else 0) wd.oopScratchLen, rfl,
        le_max_right _ _, ?_, ?_⟩
      · intro hL
        by_cases hg : hd.inplaceScratchLen > w * h
        · simp only [if_pos hg]; omega
        · omega
      · intro hL; by_contra hc
        exact hL (lt_of_lt_of_le (show w * h < hd.inplaceScratchLen by omega)
          (le_trans (le_of_eq (if_pos (by omega)).symm) (le_max_left _ _)))
    obtain ⟨L, hL, hL1, hL2, hL3⟩ := hcase
    rw [hL] at hs ⊢
    have hs1 : (s.take (w * h)).length = w * h := by rw [List.length_take]; omega
    have hs2 : (s.drop (w * h)).length = L := by rw [List.length_drop]; omega
    have step12 := mrStep12_ok hw hh hx hs1
    have tail : ∀ y b inner : List T, y.length = w * h → b.length = w * h → inner.length = L → ∃ b' s', (do
        let scratch ← mrApplyTwiddles w h (mrTwiddles T w h) y
        let buffer ← transpose scratch b h w
        let (buffer, scratch, innerScratch) ← wd.processOop buffer scratch inner
        let scratch ← reverseChunksFrom ((h + 1) / 2 * w) w scratch
        let buffer ← transpose scratch buffer w h
        Except.ok (buffer, scratch ++ innerScratch) : Res (List T × List T))
          = .ok (b', s') ∧ b'.length = w * h ∧ s'.length = w * h + L := by
      intro y b inner ly lb li
      rw [mrApplyTwiddles_ok hw hh ly, ok_bind, transpose_ok (by simp [hcomm]) (by omega), ok_bind]
      obtain ⟨i', o', s', e5, l5, lo5, ls5⟩ := iw.oop
        (tab (h * w) fun p => nth (tab (w * h) fun p => mrVal w h y (p / h) (p % h)) (p % w * h + p / w))
        (tab (w * h) fun p => mrVal w h y (p / h) (p % h)) inner (by simp [hcomm])
        (by rw [length_tab, hwe]; omega) (by rw [length_tab, hwe, hcomm]; exact dw) (by omega)
      rw [length_tab] at l5 lo5
      refine ⟨?b, ?s, ?e, ?lb, ?ls⟩
      case e =>
        simp only [e5, ok_bind]
        rw [reverseChunksFrom_tab (m := h) hw (by omega) (by omega), ok_bind,
          transpose_ok (by simp [hcomm]) (by omega), ok_bind]
      case lb => rw [length_tab]
      case ls => rw [List.length_append, length_tab, ls5, li, hcomm]
    unfold mrPerformInplace
    rw [splitAt_ok (by omega), ok_bind]
    simp only
    rw [← bind_assoc (x := transpose x _ w h), step12, ok_bind]
    by_cases hgt : (s.drop (w * h)).length > x.length
    · rw [if_pos hgt]
      rw [hs2, hx] at hgt
      obtain ⟨y, s', e, ly, ls⟩ := ih.inplace (mrStep1 w h x) (s.drop (w * h)) (by rw [h1, hhe]; exact hleh)
        (by rw [h1, hhe]; exact dh) (by rw [hs2]; exact hL2 hgt)
      rw [e, ok_bind]
      exact tail y x s' (by rw [ly, h1]) hx (by rw [ls, hs2])
    · rw [if_neg hgt]
      rw [hs2, hx] at hgt
      obtain ⟨y, s', e, ly, ls⟩ := ih.inplace (mrStep1 w h x) x (by rw [h1, hhe]; exact hleh)
        (by rw [h1, hhe]; exact dh) (by rw [hx]; exact hL3 hgt)
      rw [e, ok_bind]
      exact tail y s' _ (by rw [ly, h1]) (by rw [ls, hx]) hs2
  · intro x o s hx ho hs
    have hcase : (s.length > w * h → hd.inplaceScratchLen ≤ s.length ∧ wd.inplaceScratchLen ≤ s.length) ∧
        (¬ s.length > w * h → hd.inplaceScratchLen ≤ w * h ∧ wd.inplaceScratchLen ≤ w * h) := by
      rw [hs, mrOopScratch]
      split <;> omega
    have step12 := mrStep12_ok hw hh hx ho
    have tail2 : ∀ a o s1 : List T, a.length = h * w → o.length = w * h → s1.length = s.length →
        ∃ i' o' s', (do
          let (input, output, scratch) ← if s1.length > o.length then do
              let (input, scratch) ← wd.processWithScratch a s1
              Except.ok (input, o, scratch)
            else do
              let (input, output) ← wd.processWithScratch a o
              Except.ok (input, output, s1)
          let input ← reverseChunksFrom ((h + 1) / 2 * w) w input
          let output ← transpose input output w h
          Except.ok (input, output, scratch) : Res (List T × List T × List T)) = .ok (i', o', s') ∧
          i'.length = w * h ∧ o'.length = w * h ∧ s'.length = s.length := by
      intro a o s1 ha ho ls1
      by_cases hgt : s1.length > o.length
      · rw [if_pos hgt]
        rw [ho, ls1] at hgt
        obtain ⟨a', s', e, la, ls⟩ := iw.inplace a s1 (by rw [ha, hwe, hcomm]; exact hlew)
          (by rw [ha, hwe, hcomm]; exact dw) (by rw [ls1]; exact (hcase.1 hgt).2)
        refine ⟨?i, ?o, s', ?e, ?l, ?lo, by rw [ls, ls1]⟩
        case e =>
          rw [e, ok_bind]
          simp only [ok_bind]
          rw [reverseChunksFrom_tab (m := h) hw (by omega) (by omega), ok_bind, transpose_ok (by simp [hcomm]) ho, ok_bind]
        case l => simp [hcomm]
        case lo => simp
      · rw [if_neg hgt]
        rw [ho, ls1] at hgt
        obtain ⟨a', o', e, la, ls⟩ := iw.inplace a o (by rw [ha, hwe, hcomm]; exact hlew)
          (by rw [ha, hwe, hcomm]; exact dw) (by rw [ho]; exact (hcase.2 hgt).2)
        refine ⟨?i2, ?o2, s1, ?e2, ?l2, ?lo2, ls1⟩
        case e2 =>
          rw [e, ok_bind]
          simp only [ok_bind]
          rw [reverseChunksFrom_tab (m := h) hw (by omega) (by omega), ok_bind,
            transpose_ok (by simp [hcomm]) (by omega), ok_bind]
        case l2 => simp [hcomm]
        case lo2 => simp
    have tail1 : ∀ y i s1 : List T, y.length = w * h → i.length = w * h → s1.length = s.length →
        ∃ i' o' s', (do
          let output ← mrApplyTwiddles w h (mrTwiddles T w h) y
          let input ← transpose output i h w
          let (input, output, scratch) ← if s1.length > output.length then do
              let (input, scratch) ← wd.processWithScratch input s1
              Except.ok (input, output, scratch)
            else do
              let (input, output) ← wd.processWithScratch input output
              Except.ok (input, output, s1)
          let input ← reverseChunksFrom ((h + 1) / 2 * w) w input
          let output ← transpose input output w h
          Except.ok (input, output, scratch) : Res (List T × List T × List T)) = .ok (i', o', s') ∧
          i'.length = w * h ∧ o'.length = w * h ∧ s'.length = s.length := by
      intro y i s1 ly li ls1
      rw [mrApplyTwiddles_ok hw hh ly, ok_bind, transpose_ok (by simp [hcomm]) (by omega), ok_bind]
      exact tail2 _ _ _ (by simp) (by simp) ls1
    rw [← hs]
    unfold mrPerformOop
    rw [← bind_assoc (x := transpose x _ w h), step12, ok_bind]
    by_cases hgt : s.length > x.length
    · rw [if_pos hgt]
      rw [hx] at hgt
      obtain ⟨y, s', e, ly, ls⟩ := ih.inplace (mrStep1 w h x) s (by rw [h1, hhe]; exact hleh)
        (by rw [h1, hhe]; exact dh) (hcase.1 hgt).1
      rw [e, ok_bind]
      exact tail1 y x s' (by rw [ly, h1]) hx ls
    · rw [if_neg hgt]
      rw [hx] at hgt
      obtain ⟨y, s', e, ly, ls⟩ := ih.inplace (mrStep1 w h x) x (by rw [h1, hhe]; exact hleh)
        (by rw [h1, hhe]; exact dh) (by rw [hx]; exact (hcase.2 hgt).1)
      rw [e, ok_bind]
      exact tail1 y s' s (by rw [ly, h1]) (by rw [ls, hx]) rfl

theorem mixedRadix_solid {wd hd : Dht T} (iw : Accepts wd) (ih : Accepts hd) : Solid (mixedRadix wd hd) :=
  boilerplateDht_solid fun h => mr_completes iw ih (Nat.pos_of_mul_pos_right h) (Nat.pos_of_mul_pos_left h)

theorem mixedRadix_accepts {wd hd : Dht T} (iw : Accepts wd) (ih : Accepts hd) : Accepts (mixedRadix wd hd) :=
  (mixedRadix_solid iw ih).accepts

/-! ## MixedRadixNxn -/

theorem mrn_solid {k : Nat} {hd : Dht T} {ap : List T → Res (List T)} (hk : 2 ≤ k) (hi : Accepts hd)
    (hin : 0 < hd.len → hd.inplaceScratchLen ≤ k * hd.len) (hoop : 0 < hd.len → hd.oopScratchLen = 0)
    (hap : 0 < hd.len → Total (k * hd.len) ap) : Solid (mixedRadixN k hd ap) := by
  refine boilerplateDht_solid fun h => ?_
  have hh : 0 < hd.len := Nat.pos_of_mul_pos_left h
  have hin := hin hh
  have hoop := hoop hh
  have hap := hap hh
  have hle : hd.len ≤ k * hd.len := Nat.le_mul_of_pos_left _ (by omega)
  have hdv : hd.len ∣ k * hd.len := dvd_mul_left _ _
  have hs1 : mrnInplaceScratch (k * hd.len) hd = k * hd.len := by
    rw [mrnInplaceScratch, if_neg (by omega), Nat.add_zero]
  have hs2 : mrnOopScratch (k * hd.len) hd = 0 := by
    rw [mrnOopScratch, if_neg (by omega)]
  refine ⟨?_, ?_⟩
  · intro c s hc hs
    rw [hs1] at hs ⊢
    obtain ⟨i', o', s', e, hi', ho', _⟩ := hi.oop
      (tab (k * hd.len) fun p => nth c (revRow k hd.len (p / hd.len) (p % hd.len) * k + p / hd.len)) c []
      (by rw [length_tab, hc]) (by rw [length_tab]; exact hle) (by rw [length_tab]; exact hdv) (by simp [hoop])
    obtain ⟨r, er, lr⟩ := hap o' (by omega)
    refine ⟨r, i', ?_, lr, by rw [hi', length_tab]⟩
    unfold mrnPerformInplace
    rw [transposeHalfRevOut_ok hk hc hs, ok_bind, e, ok_bind]
    simp only
    rw [er, ok_bind]
  · intro i o s hil hol hs
    obtain ⟨o', i', e, ho', hi'⟩ := hi.inplace
      (tab (k * hd.len) fun p => nth i (revRow k hd.len (p / hd.len) (p % hd.len) * k + p / hd.len)) i
      (by rw [length_tab]; exact hle) (by rw [length_tab]; exact hdv) (by omega)
    rw [length_tab] at ho'
    obtain ⟨r, er, lr⟩ := hap o' ho'
    refine ⟨i', r, s, ?_, by omega, lr, hs⟩
    unfold mrnPerformOop
    rw [transposeHalfRevOut_ok hk hil hol, ok_bind, e, ok_bind]
    simp only
    rw [er, ok_bind]

theorem mrn_accepts {k : Nat} {hd : Dht T} {ap : List T → Res (List T)} (hk : 2 ≤ k) (hi : Accepts hd)
    (hin : 0 < hd.len → hd.inplaceScratchLen ≤ k * hd.len) (hoop : 0 < hd.len → hd.oopScratchLen = 0)
    (hap : 0 < hd.len → Total (k * hd.len) ap) : Accepts (mixedRadixN k hd ap) :=
  (mrn_solid hk hi hin hoop hap).accepts

/-! ## SplitRadix -/

theorem splitRadix_solid {qd hd d : Dht T} (iq : Accepts qd) (ih : Accepts hd) (hd' : splitRadix qd hd = .ok d)
    (hs : 0 < qd.len → qd.oopScratchLen = 0 ∧ qd.inplaceScratchLen ≤ 4 * qd.len ∧
      hd.inplaceScratchLen ≤ 2 * qd.len) : Solid d := by
  obtain ⟨hh, rfl⟩ := splitRadix_eq hd'
  refine boilerplateDht_solid fun hpos => ?_
  obtain ⟨q, hq⟩ : ∃ q, qd.len = q := ⟨_, rfl⟩
  rw [hq] at hs hh hpos ⊢
  obtain ⟨hs1, hs2, hs3⟩ := hs (by omega)
  have hE : ∀ x : List T, (tab (2 * q) (srEven q x)).length = 2 * q := fun x => length_tab _ _
  have hO : ∀ x : List T, (tab q (srQ1 q x) ++ tab q (srQ3 q x)).length = 2 * q := fun x => by simp; omega
  have dq : q ∣ 2 * q := dvd_mul_left _ _
  refine ⟨?_, ?_⟩
  · intro x s hx hs
    obtain ⟨y, s1, e1, ly, ls1⟩ := ih.inplace (tab (2 * q) (srEven q x)) s (by simp [hh]) (by simp [hh]) (by omega)
    obtain ⟨i2, o2, s2, e2, li2, lo2, ls2⟩ := iq.oop (tab q (srQ1 q x) ++ tab q (srQ3 q x)) s1 [] (by rw [hO]; omega)
      (by rw [hO, hq]; omega) (by rw [hO, hq]; exact dq) (by omega)
    rw [hE] at ly
    rw [hO] at li2
    refine ⟨?b, ?s, ?e, ?lb, ?ls⟩
    case e =>
      unfold srPerformInplace
      rw [srApplyTwiddles_ok (by omega) hx, ok_bind]
      simp only [show 4 * q / 2 = 2 * q by omega, show 4 * q / 4 = q by omega]
      rw [splitAt_ok (by simp), ok_bind, List.take_left' (hE x), List.drop_left' (hE x)]
      simp only [e1, e2, ok_bind]
      rw [splitAt_ok (by omega), ok_bind]
      simp only
      rw [sr_interleave_inplace ly (by simp; omega) (by simp; omega) li2, ok_bind]
    case lb => rw [length_tab]
    case ls => omega
  · intro x o s hx ho hs
    obtain ⟨y, o1, e1, ly, lo1⟩ := ih.inplace (tab (2 * q) (srEven q x)) o (by simp [hh]) (by simp [hh]) (by omega)
    obtain ⟨z, o2, e2, lz, lo2⟩ := iq.inplace (tab q (srQ1 q x) ++ tab q (srQ3 q x)) o1
      (by rw [hO, hq]; omega) (by rw [hO, hq]; exact dq) (by omega)
    rw [hE] at ly
    rw [hO] at lz
    refine ⟨?i2, ?b2, s, ?e2, ?li2, ?lb2, hs⟩
    case e2 =>
      unfold srPerformOop
      rw [srApplyTwiddles_ok (by omega) hx, ok_bind]
      simp only [show 4 * q / 2 = 2 * q by omega, show 4 * q / 4 = q by omega]
      rw [splitAt_ok (by simp), ok_bind, List.take_left' (hE x), List.drop_left' (hE x)]
      simp only [e1, e2, ok_bind]
      rw [splitAt_ok (by omega), ok_bind]
      simp only
      rw [sr_interleave_oop ly (by simp; omega) (by simp; omega) (by omega), ok_bind]
    case li2 => simp [ly, lz]; omega
    case lb2 => rw [length_tab]

theorem splitRadix_accepts {qd hd d : Dht T} (iq : Accepts qd) (ih : Accepts hd) (hd' : splitRadix qd hd = .ok d)
    (hs : 0 < qd.len → qd.oopScratchLen = 0 ∧ qd.inplaceScratchLen ≤ 4 * qd.len ∧
      hd.inplaceScratchLen ≤ 2 * qd.len) : Accepts d :=
  (splitRadix_solid iq ih hd' hs).accepts

/-! ## RadersAlgorithm -/

theorem raders_completes {d : Dht T} (hd : Accepts d) {p g gi : Nat} (hlen : d.len = p - 1)
    (hp : p.Prime) (h2 : p ≠ 2) (h32 : p ≤ 2 ^ 32) (hg0 : 0 < g) (hg : g < p) (hgi0 : 0 < gi) (hgi : gi < p)
    (hgio : orderOf (gi : ZMod p) = p - 1) (tw : Nat → Cx T) {extra : Nat}
    (hextra : extra = if d.inplaceScratchLen ≤ p - 1 then 0 else d.inplaceScratchLen) :
    Completes p (p - 1 + extra) extra
      (radersPerformInplace d p g gi (tab ((p - 1) / 2 + 1) tw))
      (radersPerformOop d p g gi (tab ((p - 1) / 2 + 1) tw)) := by
  have hp2 := hp.two_le
  have hodd : p % 2 = 1 := hp.eq_two_or_odd.resolve_left h2
  have hpos : 0 < d.len := by omega
  have one : ∀ b s : List T, b.length = p - 1 → d.inplaceScratchLen ≤ s.length →
      ∃ b' s', d.processWithScratch b s = .ok (b', s') ∧ b'.length = p - 1 ∧ s'.length = s.length := by
    intro b s hb hs
    obtain ⟨b', s', e, lb, ls⟩ := hd.inplace b s (by omega) (by rw [hb, hlen]) hs
    exact ⟨b', s', e, by omega, ls⟩
  have hsc : ∀ e b : List T, e.length = extra → b.length = p - 1 →
      d.inplaceScratchLen ≤ (if e.length > 0 then e else b).length := by
    intro e b he hb
    split
    · rename_i h
      rw [he, hextra] at *
      split at h
      · omega
      · rw [if_neg (by assumption)]
    · rename_i h
      rw [he, hextra] at h
      split at h
      · omega
      · omega
  refine ⟨?_, ?_⟩
  · intro c s hc hs
    obtain ⟨x0, x, rfl⟩ : ∃ x0 x, c = x0 :: x := by
      cases c with
      | nil => simp at hc; omega
      | cons a l => exact ⟨a, l, rfl⟩
    have hx : x.length = p - 1 := by simp at hc; omega
    unfold radersPerformInplace
    simp only
    have hse : (s.drop (p - 1)).length = extra := by simp; omega
    rw [splitAt_ok (by omega), ok_bind]
    simp only
    rw [radersGather_ok hp (steps_lt h32 hg) hg0 hg hx (by simp; omega), ok_bind]
    obtain ⟨y, s1, e1, hyl, hs1⟩ := one (tab (p - 1) fun j => nth x (g ^ j % p - 1))
      (if (s.drop (p - 1)).length > 0 then s.drop (p - 1) else x) (length_tab _ _) (hsc _ _ hse hx)
    rw [e1, ok_bind]
    simp only
    obtain ⟨e2, b2, he2, hb2, heq⟩ : ∃ e2 b2 : List T, e2.length = extra ∧ b2.length = p - 1 ∧
        (if (s.drop (p - 1)).length > 0 then (s1, x) else (s.drop (p - 1), s1)) = (e2, b2) := by
      by_cases h : (s.drop (p - 1)).length > 0
      · rw [if_pos h] at hs1 ⊢
        exact ⟨s1, x, by omega, hx, rfl⟩
      · rw [if_neg h] at hs1 ⊢
        exact ⟨_, s1, hse, by omega, rfl⟩
    rw [heq]
    simp only
    rw [getI_nth (by omega), ok_bind, radersMulInplace_ok hyl (by omega) (by omega), ok_bind,
      getI_nth (by simp; omega), ok_bind, setI_ok (by simp; omega), ok_bind]
    have hcond : ((s.drop (p - 1)).length > 0) = (e2.length > 0) := by rw [hse, he2]
    simp only [hcond]
    obtain ⟨z, s3, e3, hzl, hs3⟩ := one ((tab (p - 1) (rdMul y tw (p - 1))).set 0
      (nth (tab (p - 1) (rdMul y tw (p - 1))) 0 + x0)) (if e2.length > 0 then e2 else b2)
      (by simp) (hsc _ _ he2 hb2)
    rw [e3, ok_bind]
    simp only
    obtain ⟨e4, b4, he4, hb4, heq4⟩ : ∃ e4 b4 : List T, e4.length = extra ∧ b4.length = p - 1 ∧
        (if e2.length > 0 then (s3, b2) else (e2, s3)) = (e4, b4) := by
      by_cases h : e2.length > 0
      · rw [if_pos h] at hs3 ⊢
        exact ⟨s3, b2, by omega, hb2, rfl⟩
      · rw [if_neg h] at hs3 ⊢
        exact ⟨_, s3, he2, by omega, rfl⟩
    rw [heq4]
    simp only
    rw [radersScatter_ok hp (steps_lt h32 hgi) hgi0 hgi hgio hzl hb4, ok_bind]
    refine ⟨_, _, rfl, by simp; omega, ?_⟩
    rw [List.length_append, hzl, he4]
  · intro inp out s hi ho hs
    obtain ⟨x0, x, rfl⟩ : ∃ x0 x, inp = x0 :: x := by
      cases inp with
      | nil => simp at hi; omega
      | cons a l => exact ⟨a, l, rfl⟩
    obtain ⟨o0, o, rfl⟩ : ∃ x0 x, out = x0 :: x := by
      cases out with
      | nil => simp at ho; omega
      | cons a l => exact ⟨a, l, rfl⟩
    have hx : x.length = p - 1 := by simp at hi; omega
    have hol : o.length = p - 1 := by simp at ho; omega
    unfold radersPerformOop
    simp only
    rw [radersGather_ok hp (steps_lt h32 hg) hg0 hg hx hol, ok_bind]
    obtain ⟨y, s1, e1, hyl, hs1⟩ := one (tab (p - 1) fun j => nth x (g ^ j % p - 1))
      (if s.length > 0 then s else x) (length_tab _ _) (hsc _ _ hs hx)
    rw [e1, ok_bind]
    simp only
    obtain ⟨e2, b2, he2, hb2, heq⟩ : ∃ e2 b2 : List T, e2.length = extra ∧ b2.length = p - 1 ∧
        (if s.length > 0 then (s1, x) else (s, s1)) = (e2, b2) := by
      by_cases h : s.length > 0
      · rw [if_pos h] at hs1 ⊢
        exact ⟨s1, x, by omega, hx, rfl⟩
      · rw [if_neg h] at hs1 ⊢
        exact ⟨_, s1, hs, by omega, rfl⟩
    rw [heq]
    simp only
    rw [getI_nth (by omega), ok_bind, radersMulOop_ok hyl (by omega) (by omega) hb2, ok_bind,
      getI_nth (by simp; omega), ok_bind, setI_ok (by simp; omega), ok_bind]
    obtain ⟨z, s3, e3, hzl, hs3⟩ := one ((tab (p - 1) (rdMul y tw (p - 1))).set 0
      (nth (tab (p - 1) (rdMul y tw (p - 1))) 0 + x0)) (if e2.length > 0 then e2 else y)
      (by simp) (hsc _ _ he2 hyl)
    rw [e3, ok_bind]
    simp only
    obtain ⟨e4, b4, he4, hb4, heq4⟩ : ∃ e4 b4 : List T, e4.length = extra ∧ b4.length = p - 1 ∧
        (if e2.length > 0 then (s3, y) else (e2, s3)) = (e4, b4) := by
      by_cases h : e2.length > 0
      · rw [if_pos h] at hs3 ⊢
        exact ⟨s3, y, by omega, hyl, rfl⟩
      · rw [if_neg h] at hs3 ⊢
        exact ⟨_, s3, he2, by omega, rfl⟩
    rw [heq4]
    simp only
    rw [radersScatter_ok hp (steps_lt h32 hgi) hgi0 hgi hgio hzl hb4, ok_bind]
    exact ⟨_, _, _, rfl, by simp [hzl]; omega, by simp; omega, he4⟩

theorem raders_solid_new {d : Dht T} (hd : Accepts d) (hp : (d.len + 1).Prime) (h2 : d.len + 1 ≠ 2)
    (h32 : d.len + 1 < 2 ^ 32) : ∃ d', raders d = .ok d' ∧ d'.len = d.len + 1 ∧ Solid d' := by
  obtain ⟨g, eg, hg1, hg, ho, _⟩ := primitiveRoot_ok hp h2 h32
  obtain ⟨hi0, hi, him⟩ := rootInverse_ok hp (by omega) hg
  have hio := (orderOf_inverse him).trans ho
  have hp2 := hp.two_le
  have hk := radersKernelInput_ok (T := T) (p := d.len + 1) (steps_lt (by omega) hi) (by omega) hi
  have hkl : (rdKernel T (d.len + 1) (rootInverse g (d.len + 1))).length = d.len := by simp [rdKernel]
  obtain ⟨y, s', e, ly, _⟩ := hd.inplace (rdKernel T (d.len + 1) (rootInverse g (d.len + 1)))
    (List.replicate d.inplaceScratchLen 0) (by omega) (by rw [hkl]) (by simp)
  have hproc : d.process (rdKernel T (d.len + 1) (rootInverse g (d.len + 1))) = .ok y := by
    unfold Dht.process; simp only [e, ok_bind]
  have hkey : raders d = .ok (boilerplateDht (d.len + 1)
      (d.len + if d.inplaceScratchLen ≤ d.len then 0 else d.inplaceScratchLen)
      (if d.inplaceScratchLen ≤ d.len then 0 else d.inplaceScratchLen)
      (radersPerformInplace d (d.len + 1) g (rootInverse g (d.len + 1)) (tab (d.len / 2 + 1) (rdTw y d.len)))
      (radersPerformOop d (d.len + 1) g (rootInverse g (d.len + 1)) (tab (d.len / 2 + 1) (rdTw y d.len)))) := by
    unfold raders
    simp only
    rw [millerRabin, decide_eq_true hp, assert_true, ok_bind, eg, ok_bind]
    simp only
    rw [Nat.add_sub_cancel] at hk
    rw [hk, ok_bind, hproc, ok_bind, radersTwiddles_ok (ly.trans hkl) (by omega), ok_bind]
  refine ⟨_, hkey, rfl, boilerplateDht_solid fun _ => ?_⟩
  exact raders_completes hd (p := d.len + 1) (by omega) hp h2 (by omega) (by omega) hg hi0 hi hio _ rfl

theorem raders_solid {d d' : Dht T} (hd : Accepts d) (h : raders d = .ok d') : Solid d' := by
  obtain ⟨h1, h2, h3⟩ := raders_new_only h
  obtain ⟨d'', e, _, ha⟩ := raders_solid_new hd h1 h2 h3
  rw [h] at e
  cases e
  exact ha

theorem raders_accepts_new {d : Dht T} (hd : Accepts d) (hp : (d.len + 1).Prime) (h2 : d.len + 1 ≠ 2)
    (h32 : d.len + 1 < 2 ^ 32) : ∃ d', raders d = .ok d' ∧ d'.len = d.len + 1 ∧ Accepts d' := by
  obtain ⟨d', e, hl, hs⟩ := raders_solid_new hd hp h2 h32
  exact ⟨d', e, hl, hs.accepts⟩

theorem raders_accepts {d d' : Dht T} (hd : Accepts d) (h : raders d = .ok d') : Accepts d' :=
  (raders_solid hd h).accepts

end RustDHT
