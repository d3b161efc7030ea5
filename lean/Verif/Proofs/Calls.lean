import Verif.Spec.Calls
import Verif.Proofs.Stateful

/-! # Which methods of an inner object are called -/

namespace RustDHT

variable {σ T ι : Type} {log : σ → List (InnerCall ι)} {who : ι} {d : LiveDht σ T}

theorem Post.and_ok {α : Type} {D : Prop} {P Q : α → Prop} {r : Res α} (h : Post D P r) (hq : ∀ a, r = .ok a → Q a) :
    Post D (fun a => P a ∧ Q a) r := by
  cases r with
  | ok a => exact ⟨h, hq a rfl⟩
  | error e => cases e <;> exact h

theorem Logs.post_len (h : Logs log who d) (hs : LiveSafe True d) (st : σ) :
    Post True (fun r => log r.2 = log st ++ [.len who r.1]) (d.len st) :=
  ((hs.post_len st).and_ok fun _ e => h.len e).mono fun _ => And.right
theorem Logs.post_inplaceScratchLen (h : Logs log who d) (hs : LiveSafe True d) (st : σ) :
    Post True (fun r => log r.2 = log st ++ [.inplaceScratchLen who r.1]) (d.inplaceScratchLen st) :=
  ((hs.post_inplaceScratchLen st).and_ok fun _ e => h.inplaceScratchLen e).mono fun _ => And.right
theorem Logs.post_oopScratchLen (h : Logs log who d) (hs : LiveSafe True d) (st : σ) :
    Post True (fun r => log r.2 = log st ++ [.oopScratchLen who r.1]) (d.oopScratchLen st) :=
  ((hs.post_oopScratchLen st).and_ok fun _ e => h.oopScratchLen e).mono fun _ => And.right
theorem Logs.post_process (h : Logs log who d) (hs : LiveSafe True d) (b : List T) (st : σ) :
    Post True (fun r => r.1.length = b.length ∧ log r.2 = log st ++ [.process who b.length]) (d.process b st) :=
  (hs.post_process b st).and_ok fun _ e => h.process e
theorem Logs.post_inplace (h : Logs log who d) (hs : LiveSafe True d) (b s : List T) (st : σ) :
    Post True (fun r => (r.1.length = b.length ∧ r.2.1.length = s.length) ∧
      log r.2.2 = log st ++ [.inplace who b.length s.length]) (d.processWithScratch b s st) :=
  (hs.post_inplace b s st).and_ok fun _ e => h.inplace e
theorem Logs.post_oop (h : Logs log who d) (hs : LiveSafe True d) (i o s : List T) (st : σ) :
    Post True (fun r => (r.1.length = i.length ∧ r.2.1.length = o.length ∧ r.2.2.1.length = s.length) ∧
      log r.2.2.2 = log st ++ [.oop who i.length o.length s.length]) (d.processOop i o s st) :=
  (hs.post_oop i o s st).and_ok fun _ e => h.oop e

/-! ## The boilerplate -/

theorem iterChunks_log {n m : Nat} (hn : 0 < n) {calls : List (InnerCall ι)} {f : List T → List T × σ → Res (List T × List T × σ)}
    (hf : ∀ c s st, c.length = n → s.length = m →
      Post True (fun r => r.1.length = n ∧ r.2.1.length = m ∧ log r.2.2 = log st ++ calls) (f c (s, st)))
    (b s : List T) (st : σ) (hs : s.length = m) :
    Post True (fun r => log r.2.2.2 = log st ++ (List.replicate (b.length / n) calls).flatten) (iterChunks n f b (s, st)) := by
  induction b using chunk_induction hn generalizing s st with
  | hlt l hl =>
    rw [iterChunks, if_neg (by omega), Nat.div_eq_of_lt hl]
    simp [Post]
  | hge l hl ih =>
    rw [iterChunks, if_pos hl, if_neg (by omega)]
    refine Post.bind (hf _ s st (by simp; omega) hs) ?_
    rintro ⟨c, s2, st2⟩ ⟨h1, h2, h3⟩
    refine Post.bind (ih s2 st2 h2) ?_
    rintro ⟨k, t, s3, st3⟩ h4
    simp only at h3 h4
    show log st3 = _
    have : l.length / n = (l.drop n).length / n + 1 := by
      rw [List.length_drop, ← Nat.sub_add_cancel hl, Nat.add_div_right _ hn, Nat.add_sub_cancel]
    rw [h4, h3, this, List.replicate_succ, List.flatten_cons, List.append_assoc]

theorem iterChunksZippedLoop_log {n m : Nat} (hn : 0 < n) {calls : List (InnerCall ι)}
    {f : List T → List T → List T × σ → Res (List T × List T × List T × σ)}
    (hf : ∀ c1 c2 s st, c1.length = n → c2.length = n → s.length = m →
      Post True (fun r => r.1.length = n ∧ r.2.1.length = n ∧ r.2.2.1.length = m ∧ log r.2.2.2 = log st ++ calls) (f c1 c2 (s, st)))
    (b1 b2 s : List T) (st : σ) (hb : b2.length = b1.length) (hs : s.length = m) :
    Post True (fun r => log r.2.2.2.2 = log st ++ (List.replicate (b1.length / n) calls).flatten)
      (iterChunksZippedLoop n f b1 b2 (s, st)) := by
  induction b1 using chunk_induction hn generalizing b2 s st with
  | hlt l hl =>
    rw [iterChunksZippedLoop, if_neg (by omega), Nat.div_eq_of_lt hl]
    simp [Post]
  | hge l hl ih =>
    rw [iterChunksZippedLoop, if_pos (by omega), if_neg (by omega)]
    refine Post.bind (hf _ _ s st (by simp; omega) (by simp; omega) hs) ?_
    rintro ⟨c, c2, s2, st2⟩ ⟨h1, h1', h2, h3⟩
    refine Post.bind (ih (b2.drop n) s2 st2 (by simp; omega) h2) ?_
    rintro ⟨k, t, t2, s3, st3⟩ h4
    simp only at h3 h4
    show log st3 = _
    have : l.length / n = (l.drop n).length / n + 1 := by
      rw [List.length_drop, ← Nat.sub_add_cancel hl, Nat.add_div_right _ hn, Nat.add_sub_cancel]
    rw [h4, h3, this, List.replicate_succ, List.flatten_cons, List.append_assoc]

theorem iterChunksZipped_log {n m : Nat} (hn : 0 < n) {calls : List (InnerCall ι)}
    {f : List T → List T → List T × σ → Res (List T × List T × List T × σ)}
    (hf : ∀ c1 c2 s st, c1.length = n → c2.length = n → s.length = m →
      Post True (fun r => r.1.length = n ∧ r.2.1.length = n ∧ r.2.2.1.length = m ∧ log r.2.2.2 = log st ++ calls) (f c1 c2 (s, st)))
    (b1 b2 s : List T) (st : σ) (hb : b2.length = b1.length) (hs : s.length = m) :
    Post True (fun r => log r.2.2.2.2 = log st ++ (List.replicate (b1.length / n) calls).flatten)
      (iterChunksZipped n f b1 b2 (s, st)) := by
  unfold iterChunksZipped
  rw [if_neg (by omega), if_neg (by omega)]
  exact Post.bind (iterChunksZippedLoop_log hn hf b1 b2 s st hb hs) fun r hr => hr

theorem dhtErrorInplace_returns (a b c d : Nat) : Post True (fun _ => b ≥ a ∧ d ≥ c) (dhtErrorInplace a b c d) := by
  unfold dhtErrorInplace
  refine Post.bind Post.assert fun _ h1 => Post.bind Post.assert fun _ _ => Post.bind Post.assert fun _ _ => ?_
  exact Post.assert.mono fun _ h2 => ⟨by simpa using h1, by simpa using h2⟩

theorem dhtErrorOutofplace_returns (a b c d e : Nat) :
    Post True (fun _ => b = c ∧ b ≥ a ∧ e ≥ d) (dhtErrorOutofplace a b c d e) := by
  unfold dhtErrorOutofplace
  refine Post.bind Post.assert fun _ h0 => Post.bind Post.assert fun _ h1 => Post.bind Post.assert fun _ _ =>
    Post.bind Post.assert fun _ _ => ?_
  exact Post.assert.mono fun _ h2 => ⟨by simpa using h0, by simpa using h1, by simpa using h2⟩

theorem boilerplate_calls [Zero T] {n i o : Nat} {cin coop : List (InnerCall ι)}
    {pin : List T → List T → σ → Res (List T × List T × σ)}
    {poop : List T → List T → List T → σ → Res (List T × List T × List T × σ)}
    (hin : 0 < n → ∀ c s st, c.length = n → s.length = i →
      Post True (fun r => r.1.length = n ∧ r.2.1.length = i ∧ log r.2.2 = log st ++ cin) (pin c s st))
    (hoop : 0 < n → ∀ a b s st, a.length = n → b.length = n → s.length = o →
      Post True (fun r => r.1.length = n ∧ r.2.1.length = n ∧ r.2.2.1.length = o ∧ log r.2.2.2 = log st ++ coop)
        (poop a b s st)) :
    MakesCalls log (liveBoilerplate n i o pin poop) n cin coop := by
  have key : ∀ b s st, Post True (fun r => log r.2.2 = log st ++ (List.replicate (b.length / n) cin).flatten)
      ((liveBoilerplate n i o pin poop).processWithScratch b s st) := by
    intro b s st
    simp only [liveBoilerplate]
    rcases Nat.eq_zero_or_pos n with h0 | hn
    · rw [if_pos h0, h0]; simp [Post]
    rw [if_neg (by omega)]
    by_cases hc : s.length < i ∨ b.length < n
    · rw [if_pos hc]
      refine Post.bind (dhtErrorInplace_returns _ _ _ _) fun _ h => ?_
      omega
    · rw [if_neg hc]
      refine Post.bind (iterChunks_log hn (fun c s st => hin hn c s st) b (s.take i) st (by simp; omega)) ?_
      rintro ⟨k, b', s', st'⟩ h
      cases k
      · exact Post.bind (dhtErrorInplace_post _ _ _ _) fun _ _ => h
      · exact h
  have key2 : ∀ a b s st, Post True (fun r => log r.2.2.2 = log st ++ (List.replicate (a.length / n) coop).flatten)
      ((liveBoilerplate n i o pin poop).processOop a b s st) := by
    intro a b s st
    simp only [liveBoilerplate]
    rcases Nat.eq_zero_or_pos n with h0 | hn
    · rw [if_pos h0, h0]; simp [Post]
    rw [if_neg (by omega)]
    by_cases hc : s.length < o ∨ a.length < n ∨ b.length ≠ a.length
    · rw [if_pos hc]
      refine Post.bind (dhtErrorOutofplace_returns _ _ _ _ _) fun _ h => ?_
      omega
    · rw [if_neg hc]
      refine Post.bind (iterChunksZipped_log hn (fun c c' s st => hoop hn c c' s st) a b (s.take o) st (by omega)
        (by simp; omega)) ?_
      rintro ⟨k, a', b', s', st'⟩ h
      cases k
      · exact Post.bind (dhtErrorOutofplace_post _ _ _ _ _) fun _ _ => h
      · exact h
  refine ⟨?_, ?_, ?_, ?_, fun e => (key _ _ _).of_ok e, fun e => (key2 _ _ _ _).of_ok e⟩
  · rintro st k st' e
    cases e; exact ⟨rfl, rfl⟩
  · rintro st k st' e
    cases e; rfl
  · rintro st k st' e
    cases e; rfl
  · intro b st b' st' e
    have : Post True (fun r => log r.2 = log st ++ (List.replicate (b.length / n) cin).flatten)
        ((liveBoilerplate n i o pin poop).process b st) :=
      Post.bind (key b (List.replicate i 0) st) fun r hr => hr
    exact this.of_ok e

/-! ## The combinators -/

section Combinators
variable [Zero T] [Add T] [Sub T] [Mul T] [Neg T] [FftNum T] {who2 : ι} {d2 : LiveDht σ T}

theorem liveMixedRadix_calls (l1 : Logs log who d) (s1 : LiveSafe True d) (l2 : Logs log who2 d2) (s2 : LiveSafe True d2)
    (st : σ) : Post True (fun r => ∃ n1 n2 i1 i2 o1,
      log r.2 = log st ++ [.len who n1, .len who2 n2, .inplaceScratchLen who2 i2, .inplaceScratchLen who i1,
        .oopScratchLen who o1] ∧
      MakesCalls log r.1 (n1 * n2)
        [.inplace who2 (n1 * n2) (max (n1 * n2) (max (if i2 > n1 * n2 then i2 else 0) o1)),
          .oop who (n1 * n2) (n1 * n2) (max (if i2 > n1 * n2 then i2 else 0) o1)]
        [.inplace who2 (n1 * n2) (max (n1 * n2) (max i2 i1)), .inplace who (n1 * n2) (max (n1 * n2) (max i2 i1))])
      (liveMixedRadix d d2 st) := by
  unfold liveMixedRadix
  refine Post.bind (l1.post_len s1 st) ?_
  rintro ⟨n1, st1⟩ e1
  refine Post.bind (l2.post_len s2 st1) ?_
  rintro ⟨n2, st2⟩ e2
  refine Post.bind (l2.post_inplaceScratchLen s2 st2) ?_
  rintro ⟨i2, st3⟩ e3
  refine Post.bind (l1.post_inplaceScratchLen s1 st3) ?_
  rintro ⟨i1, st4⟩ e4
  refine Post.bind (l1.post_oopScratchLen s1 st4) ?_
  rintro ⟨o1, st5⟩ e5
  refine ⟨n1, n2, i1, i2, o1, ?_, boilerplate_calls (fun _ c s st hc hs => ?_) fun _ a b s st ha hb hs => ?_⟩
  · simp only at e1 e2 e3 e4 e5 ⊢
    rw [e5, e4, e3, e2, e1]; simp
  · generalize hm : max (if i2 > n1 * n2 then i2 else 0) o1 = m at hs ⊢
    generalize n1 * n2 = n at *
    unfold liveMrPerformInplace
    refine Post.splitAt_bind fun sc inner h1 h2 h3 => ?_
    have hi : inner.length = m := by omega
    refine Post.bind transpose_post fun sc1 l1' => Post.bind reverseChunksFrom_post fun sc2 l2' => ?_
    have tail : ∀ (sc3 b3 in3 : List T) (st3 : σ), sc3.length = n → b3.length = n → in3.length = m →
        log st3 = log st ++ [.inplace who2 n (max n m)] →
        Post True (fun r : List T × List T × σ => r.1.length = n ∧ r.2.1.length = n + m ∧
          log r.2.2 = log st ++ [.inplace who2 n (max n m), .oop who n n m])
          (do
            let sc4 ← mrApplyTwiddles n1 n2 (mrTwiddles T n1 n2) sc3
            let b5 ← transpose sc4 b3 n2 n1
            let (b6, sc6, in6, st6) ← d.processOop b5 sc4 in3 st3
            let sc7 ← reverseChunksFrom ((n2 + 1) / 2 * n1) n1 sc6
            let b8 ← transpose sc7 b6 n1 n2
            .ok (b8, sc7 ++ in6, st6)) := by
      intro sc3 b3 in3 st3 k1 k2 k3 g3
      refine Post.bind mrApplyTwiddles_post fun sc4 k4 => Post.bind transpose_post fun b5 k5 => ?_
      refine Post.bind (l1.post_oop s1 _ _ _ _) ?_
      rintro ⟨b6, sc6, in6, st6⟩ ⟨⟨k6, k7, k8⟩, g6⟩
      simp only at k6 k7 k8 g6
      refine Post.bind reverseChunksFrom_post fun sc7 k9 => Post.bind transpose_post fun b8 k10 => ?_
      refine ⟨by simp only; omega, by simp only [List.length_append]; omega, ?_⟩
      simp only [g6, g3, List.append_assoc, k4, k5, k1, k2, k3]
      rfl
    split
    · refine Post.bind (l2.post_inplace s2 _ _ _) ?_
      rintro ⟨sc3, in3, st3⟩ ⟨⟨l3, m3⟩, g3⟩
      simp only at l3 m3 g3
      refine tail sc3 c in3 st3 (by omega) hc (by omega) ?_
      rw [g3, l2', l1', h1, hi]
      congr 3; omega
    · refine Post.bind (l2.post_inplace s2 _ _ _) ?_
      rintro ⟨sc3, b3, st3⟩ ⟨⟨l3, m3⟩, g3⟩
      simp only at l3 m3 g3
      refine tail sc3 b3 inner st3 (by omega) (by omega) hi ?_
      rw [g3, l2', l1', h1, hc]
      congr 3; omega
  · generalize hm : (if max i2 i1 > n1 * n2 then max i2 i1 else 0) = m at hs ⊢
    have hm' : max (n1 * n2) (max i2 i1) = max (n1 * n2) m := by rw [← hm]; split <;> omega
    rw [hm']
    generalize n1 * n2 = n at *
    unfold liveMrPerformOop
    refine Post.bind transpose_post fun o1 l1' => Post.bind reverseChunksFrom_post fun o2 l2' => ?_
    have tail2 : ∀ (i3 o3 in3 : List T) (st3 : σ), i3.length = n → o3.length = n → in3.length = m →
        log st3 = log st ++ [.inplace who2 n (max n m), .inplace who n (max n m)] →
        Post True (fun r : List T × List T × List T × σ => r.1.length = n ∧ r.2.1.length = n ∧ r.2.2.1.length = m ∧
          log r.2.2.2 = log st ++ [.inplace who2 n (max n m), .inplace who n (max n m)])
          (do
            let i7 ← reverseChunksFrom ((n2 + 1) / 2 * n1) n1 i3
            let o8 ← transpose i7 o3 n1 n2
            .ok (i7, o8, in3, st3)) := by
      intro i3 o3 in3 st3 k1 k2 k3 g3
      refine Post.bind reverseChunksFrom_post fun sc7 k9 => Post.bind transpose_post fun b8 k10 => ?_
      exact ⟨by simp only; omega, by simp only; omega, k3, g3⟩
    have tail : ∀ (i3 o3 in3 : List T) (st3 : σ), i3.length = n → o3.length = n → in3.length = m →
        log st3 = log st ++ [.inplace who2 n (max n m)] →
        Post True (fun r : List T × List T × List T × σ => r.1.length = n ∧ r.2.1.length = n ∧ r.2.2.1.length = m ∧
          log r.2.2.2 = log st ++ [.inplace who2 n (max n m), .inplace who n (max n m)])
          (do
            let output ← mrApplyTwiddles n1 n2 (mrTwiddles T n1 n2) o3
            let input ← transpose output i3 n2 n1
            let (input, output, scratch, st) ←
              if in3.length > output.length then do
                let (input, scratch, st) ← d.processWithScratch input in3 st3
                Except.ok (input, output, scratch, st)
              else do
                let (input, output, st) ← d.processWithScratch input output st3
                Except.ok (input, output, in3, st)
            let input ← reverseChunksFrom ((n2 + 1) / 2 * n1) n1 input
            let output ← transpose input output n1 n2
            .ok (input, output, scratch, st)) := by
      intro i3 o3 in3 st3 k1 k2 k3 g3
      refine Post.bind mrApplyTwiddles_post fun o4 k4 => Post.bind transpose_post fun i5 k5 => ?_
      split
      · refine Post.bind (l1.post_inplace s1 _ _ _) ?_
        rintro ⟨i6, in6, st6⟩ ⟨⟨l3, m3⟩, g6⟩
        simp only at l3 m3 g6
        refine tail2 i6 o4 in6 st6 (by omega) (by omega) (by omega) ?_
        rw [g6, g3, k5, k1, k3, List.append_assoc, show max n m = m by omega]
        rfl
      · refine Post.bind (l1.post_inplace s1 _ _ _) ?_
        rintro ⟨i6, o6, st6⟩ ⟨⟨l3, m3⟩, g6⟩
        simp only at l3 m3 g6
        refine tail2 i6 o6 in3 st6 (by omega) (by omega) (by omega) ?_
        rw [g6, g3, k5, k4, k1, k2, List.append_assoc, show max n m = n by omega]
        rfl
    split
    · refine Post.bind (l2.post_inplace s2 _ _ _) ?_
      rintro ⟨o3, s3, st3⟩ ⟨⟨l3, m3⟩, g3⟩
      simp only at l3 m3 g3
      refine tail a o3 s3 st3 ha (by omega) (by omega) ?_
      rw [g3, l2', l1', hb, hs]
      congr 3; omega
    · refine Post.bind (l2.post_inplace s2 _ _ _) ?_
      rintro ⟨o3, i3, st3⟩ ⟨⟨l3, m3⟩, g3⟩
      simp only at l3 m3 g3
      refine tail i3 o3 s st3 (by omega) (by omega) hs ?_
      rw [g3, l2', l1', hb, ha]
      congr 3; omega

theorem transposeHalfRevOut_post' {input output : List T} {w h : Nat} (hw : 2 ≤ w) (hi : input.length = w * h) :
    Post True (fun l => l.length = output.length ∧ output.length = input.length) (transposeHalfRevOut input output w h) := by
  by_cases ho : output.length = w * h
  · exact Post.of_eq (transposeHalfRevOut_ok hw hi ho) ⟨by rw [length_tab, ho], by rw [ho, hi]⟩
  · unfold transposeHalfRevOut
    have : (input.length == output.length) = false := by rw [beq_eq_false_iff_ne, hi]; exact Ne.symm ho
    rw [this, assert_false, panic_bind]
    trivial

theorem liveMixedRadixN_calls {k : Nat} (hk : 2 ≤ k) {ap : Nat → List T → Res (List T)}
    (hap : ∀ n, 0 < n → Total (k * n) (ap n)) (l1 : Logs log who d) (s1 : LiveSafe True d) (st : σ) :
    Post True (fun r => ∃ n i, log r.2 = log st ++ [.len who n, .inplaceScratchLen who i] ∧
      MakesCalls log r.1 (k * n) [.oop who (k * n) (k * n) 0] [.inplace who (k * n) (k * n)]) (liveMixedRadixN k ap d st) := by
  unfold liveMixedRadixN
  refine Post.bind (l1.post_len s1 st) ?_
  rintro ⟨n1, st1⟩ e1
  refine Post.bind (l1.post_inplaceScratchLen s1 st1) ?_
  rintro ⟨i1, st2⟩ e2
  refine ⟨n1, i1, ?_, boilerplate_calls (fun hp c s st hc hs => ?_) fun hp a b s st ha hb hs => ?_⟩
  · simp only at e1 e2 ⊢
    rw [e2, e1]; simp
  · unfold liveMrnPerformInplace
    refine Post.bind (transposeHalfRevOut_post' hk hc) fun s1' h1 => ?_
    refine Post.bind (l1.post_oop s1 _ _ _ _) ?_
    rintro ⟨s2, b2, e, st2⟩ ⟨⟨h2, h3, _⟩, g⟩
    simp only at h2 h3 g ⊢
    obtain ⟨b3, e3, m3⟩ := hap n1 (Nat.pos_of_mul_pos_left hp) b2 (by omega)
    rw [e3]
    refine ⟨m3, by simp only; omega, ?_⟩
    simp only [g, h1.1, h1.2, hc, List.length_nil]
  · unfold liveMrnPerformOop
    refine Post.bind (transposeHalfRevOut_post' hk ha) fun o1 h1 => ?_
    refine Post.bind (l1.post_inplace s1 _ _ _) ?_
    rintro ⟨o2, i2, st2⟩ ⟨⟨h2, h3⟩, g⟩
    simp only at h2 h3 g ⊢
    obtain ⟨o3, e3, m3⟩ := hap n1 (Nat.pos_of_mul_pos_left hp) o2 (by omega)
    rw [e3]
    refine ⟨by simp only; omega, m3, hs, ?_⟩
    simp only [g, h1.1, hb, ha]

theorem liveSplitRadix_calls (l1 : Logs log who d) (s1 : LiveSafe True d) (l2 : Logs log who2 d2) (s2 : LiveSafe True d2)
    (st : σ) : Post True (fun r => ∃ q,
      log r.2 = log st ++ [.len who q, .len who2 (2 * q)] ∧
      MakesCalls log r.1 (4 * q) [.inplace who2 (2 * q) (2 * q), .oop who (2 * q) (2 * q) 0]
        [.inplace who2 (2 * q) (4 * q), .inplace who (2 * q) (4 * q)])
      (liveSplitRadix d d2 st) := by
  unfold liveSplitRadix
  refine Post.bind (l1.post_len s1 st) ?_
  rintro ⟨q, st1⟩ e1
  refine Post.bind (l2.post_len s2 st1) ?_
  rintro ⟨m, st2⟩ e2
  refine Post.bind Post.assert fun _ hm => ?_
  have hm : m = 2 * q := by rw [Nat.mul_comm]; simpa using hm
  subst hm
  simp only [Nat.mul_comm q 4]
  refine ⟨q, ?_, boilerplate_calls (fun hp c s st hc hs => ?_) fun hp a b s st ha hb hs => ?_⟩
  · simp only at e1 e2 ⊢
    rw [e2, e1]; simp
  · unfold liveSrPerformInplace
    rw [srApplyTwiddles_ok (by omega) hc, ok_bind, show 4 * q / 2 = 2 * q by omega, show 4 * q / 4 = q by omega]
    simp only
    refine Post.splitAt_bind fun ev od h1 h2 h3 => ?_
    refine Post.bind (l2.post_inplace s2 _ _ _) ?_
    rintro ⟨ev2, s2', st2⟩ ⟨⟨l2', m2⟩, g2⟩
    refine Post.bind (l1.post_oop s1 _ _ _ _) ?_
    rintro ⟨od3, s3, _, st3⟩ ⟨⟨l3, m3, _⟩, g3⟩
    simp only at l2' m2 l3 m3 h2 g2 g3 ⊢
    refine Post.splitAt_bind fun s4 s5 h4 h5 h6 => ?_
    simp at h2
    have e := sr_interleave_inplace (q := q) (e := ev2) (a := s4) (b := s5) (tail := od3)
      (by omega) h4 (by omega) (by omega)
    refine Post.bind (Post.of_eq e (P := fun l => l.length = 4 * q) (by simp)) fun l hl => ?_
    refine ⟨hl, by simp only; omega, ?_⟩
    simp only [g3, g2, List.append_assoc, h1, m2, hs, List.length_nil]
    rw [show od.length = 2 * q by omega]
    rfl
  · unfold liveSrPerformOop
    rw [srApplyTwiddles_ok (by omega) ha, ok_bind, show 4 * q / 2 = 2 * q by omega, show 4 * q / 4 = q by omega]
    simp only
    refine Post.splitAt_bind fun ev od h1 h2 h3 => ?_
    refine Post.bind (l2.post_inplace s2 _ _ _) ?_
    rintro ⟨ev2, o2, st2⟩ ⟨⟨l2', m2⟩, g2⟩
    refine Post.bind (l1.post_inplace s1 _ _ _) ?_
    rintro ⟨od3, o3, st3⟩ ⟨⟨l3, m3⟩, g3⟩
    simp only at l2' m2 l3 m3 h2 g2 g3 ⊢
    refine Post.splitAt_bind fun s4 s5 h4 h5 h6 => ?_
    simp at h2
    have e := sr_interleave_oop (q := q) (e := ev2) (a := s4) (b := s5) (out := o3)
      (by omega) h4 (by omega) (by omega)
    refine Post.bind (Post.of_eq e (P := fun l => l.length = 4 * q) (by simp)) fun l hl => ?_
    refine ⟨by simp only [List.length_append]; omega, hl, hs, ?_⟩
    simp only [g3, g2, List.append_assoc, h1, m2, hb]
    rw [show od.length = 2 * q by omega]
    rfl

theorem liveRaders_calls (l1 : Logs log who d) (s1 : LiveSafe True d) (st : σ) :
    Post True (fun r => ∃ n i, log r.2 = log st ++ [.len who n, .process who n, .inplaceScratchLen who i] ∧
      MakesCalls log r.1 (n + 1) (List.replicate 2 (.inplace who n (max n i))) (List.replicate 2 (.inplace who n (max n i))))
      (liveRaders d st) := by
  unfold liveRaders
  refine Post.bind (l1.post_len s1 st) ?_
  rintro ⟨n, st1⟩ e1
  refine Post.bind Post.assert fun _ hp => ?_
  have hp : (n + 1).Prime := by simpa [millerRabin] using hp
  have hp2 := hp.two_le
  refine Post.bind (primitiveRoot_post hp.two_le) fun root _ => ?_
  match root with
  | none => trivial
  | some root =>
    refine Post.bind radersKernelInput_post fun k hk => Post.bind (l1.post_process s1 k st1) ?_
    rintro ⟨k2, st2⟩ ⟨_, e2⟩
    refine Post.bind radersTwiddles_post fun tw _ => Post.bind (l1.post_inplaceScratchLen s1 st2) ?_
    rintro ⟨i, st3⟩ e3
    have hx : ∀ m, (if i ≤ n then 0 else i) = m → (if m > 0 then m else n) = max n i := by
      rintro m rfl
      split <;> split <;> omega
    refine ⟨n, i, ?_, boilerplate_calls (fun _ c s st hc hs => ?_) fun _ a b s st ha hb hs => ?_⟩
    · simp only at e1 e2 e3 ⊢
      rw [e3, e2, e1, hk]; simp
    · have hx := hx _ rfl
      generalize (if i ≤ n then 0 else i) = m at *
      unfold liveRadersPerformInplace
      match c with
      | [] => trivial
      | b0 :: b =>
        simp only [List.length_cons] at hc
        refine Post.splitAt_bind fun ib ex h1 h2 h3 => ?_
        have he : ex.length = m := by omega
        refine Post.bind radersGather_post fun ib1 e1 => ?_
        refine Post.bind (l1.post_inplace s1 _ _ _) ?_
        rintro ⟨ib2, sc2, st4⟩ ⟨⟨e2, f2⟩, g2⟩
        simp only at e2 f2 g2 ⊢
        refine Post.getI_bind fun _ => Post.bind radersMulInplace_post fun ib3 e3 => ?_
        refine Post.getI_bind fun _ => Post.setI_bind fun ib4 e4 => ?_
        refine Post.bind (l1.post_inplace s1 _ _ _) ?_
        rintro ⟨ib5, sc5, st5⟩ ⟨⟨e5, f5⟩, g5⟩
        simp only at e5 f5 g5 ⊢
        refine Post.bind radersScatter_post fun b6 e6 => ?_
        rw [Nat.add_sub_cancel] at h1
        by_cases hx' : ex.length > 0
        · simp only [hx', if_true] at f2 f5 e6 g2 g5 ⊢
          rw [if_pos (by omega)] at hx
          refine ⟨by simp [e6]; omega, by simp only [List.length_append]; omega, ?_⟩
          simp only [g5, g2, List.append_assoc, List.replicate, List.singleton_append]
          congr 4 <;> omega
        · simp only [hx', if_false] at f2 f5 e6 g2 g5 ⊢
          rw [if_neg (by omega)] at hx
          refine ⟨by simp [e6, f5, f2]; omega, by simp only [List.length_append]; omega, ?_⟩
          simp only [g5, g2, List.append_assoc, List.replicate, List.singleton_append]
          congr 4 <;> omega
    · have hx := hx _ rfl
      generalize (if i ≤ n then 0 else i) = m at *
      unfold liveRadersPerformOop
      match b, a with
      | [], _ => trivial
      | _ :: _, [] => trivial
      | o0 :: o, i0 :: i' =>
        simp only [List.length_cons] at ha hb
        refine Post.bind radersGather_post fun o1 e1 => ?_
        refine Post.bind (l1.post_inplace s1 _ _ _) ?_
        rintro ⟨o2, sc2, st4⟩ ⟨⟨e2, f2⟩, g2⟩
        simp only at e2 f2 g2 ⊢
        refine Post.getI_bind fun _ => Post.bind radersMulOop_post fun i3 e3 => ?_
        refine Post.getI_bind fun _ => Post.setI_bind fun i4 e4 => ?_
        by_cases hx' : s.length > 0
        · simp only [hx', if_true] at f2 e3 g2 ⊢
          have hx2 : sc2.length > 0 := by omega
          simp only [hx2, if_true]
          rw [if_pos (by omega)] at hx
          refine Post.bind (l1.post_inplace s1 _ _ _) ?_
          rintro ⟨i5, sc5, st5⟩ ⟨⟨e5, f5⟩, g5⟩
          simp only at e5 f5 g5 ⊢
          refine Post.bind radersScatter_post fun o6 e6 => ?_
          refine ⟨by simp only [List.length_cons]; omega, by simp only [List.length_cons]; omega, by simp only; omega, ?_⟩
          simp only [g5, g2, List.append_assoc, List.replicate, List.singleton_append]
          congr 4 <;> omega
        · simp only [hx', if_false] at f2 e3 g2 ⊢
          rw [if_neg (by omega)] at hx
          refine Post.bind (l1.post_inplace s1 _ _ _) ?_
          rintro ⟨i5, sc5, st5⟩ ⟨⟨e5, f5⟩, g5⟩
          simp only at e5 f5 g5 ⊢
          refine Post.bind radersScatter_post fun o6 e6 => ?_
          refine ⟨by simp only [List.length_cons]; omega, by simp only [List.length_cons]; omega, by simp only; omega, ?_⟩
          simp only [g5, g2, List.append_assoc, List.replicate, List.singleton_append]
          congr 4 <;> omega

end Combinators

end RustDHT
