import Verif.Proofs.Plan

/-! # No call has undefined behaviour or fails to terminate, whatever the inner objects do -/

set_option linter.unusedSectionVars false

namespace RustDHT

variable {T : Type} {D : Prop}

/-! ## Rules for `Post` -/

theorem Post.getI_bind {α β : Type} {l : List α} {i : Nat} {Q : β → Prop} {f : α → Res β}
    (h : ∀ v, Post D Q (f v)) : Post D Q (RustDHT.getI l i >>= f) := Post.bind Post.getI fun v _ => h v

theorem Post.setI_bind {α β : Type} {l : List α} {i : Nat} {v : α} {Q : β → Prop} {f : List α → Res β}
    (h : ∀ l', l'.length = l.length → Post D Q (f l')) : Post D Q (RustDHT.setI l i v >>= f) := Post.bind Post.setI h

theorem Post.splitAt_bind {α β : Type} {l : List α} {n : Nat} {Q : β → Prop} {f : List α × List α → Res β}
    (h : ∀ a b, a.length = n → b.length = l.length - n → n ≤ l.length → Post D Q (f (a, b))) :
    Post D Q (RustDHT.splitAt l n >>= f) := Post.bind Post.splitAt fun p hp => h p.1 p.2 hp.1 hp.2.1 hp.2.2

theorem Post.mapM {α β : Type} {xs : List α} {f : α → Res β} (h : ∀ x ∈ xs, Post D (fun _ => True) (f x)) :
    Post D (fun l => l.length = xs.length) (xs.mapM f) := by
  induction xs with
  | nil => rw [List.mapM_nil]; exact rfl
  | cons x xs ih =>
    rw [List.mapM_cons]
    refine Post.bind (h x (by simp)) fun a _ => ?_
    refine Post.bind (ih fun y hy => h y (by simp [hy])) fun l hl => ?_
    show (a :: l).length = (x :: xs).length
    simp [hl]

theorem Post.of_eq {α : Type} {P : α → Prop} {r : Res α} {a : α} (e : r = .ok a) (h : P a) : Post D P r := by
  rw [e]; exact h

theorem Post.true_of {α : Type} {P : α → Prop} {r : Res α} (h : Post D P r) : Post D (fun _ => True) r :=
  h.mono fun _ _ => trivial

/-! ## `SafeDht` in terms of `Post` -/

theorem SafeDht.mk' {d : Dht T}
    (h1 : ∀ b s, Post D (fun r => r.1.length = b.length ∧ r.2.length = s.length) (d.processWithScratch b s))
    (h2 : ∀ i o s, Post D (fun r => r.1.length = i.length ∧ r.2.1.length = o.length ∧ r.2.2.length = s.length)
      (d.processOop i o s)) : SafeDht D d := by
  refine ⟨fun b s => ?_, fun i o s => ?_⟩
  · have := h1 b s
    generalize d.processWithScratch b s = r at this
    match r with
    | .ok (_, _) => exact this
    | .error (.panic _) => trivial
    | .error .ub => exact this
    | .error .diverge => exact this
  · have := h2 i o s
    generalize d.processOop i o s = r at this
    match r with
    | .ok (_, _, _) => exact this
    | .error (.panic _) => trivial
    | .error .ub => exact this
    | .error .diverge => exact this

theorem SafeDht.postInplace {d : Dht T} (h : SafeDht D d) (b s : List T) :
    Post D (fun r => r.1.length = b.length ∧ r.2.length = s.length) (d.processWithScratch b s) := by
  have := h.inplace b s
  generalize d.processWithScratch b s = r at this
  match r with
  | .ok (_, _) => exact this
  | .error (.panic _) => trivial
  | .error .ub => exact this
  | .error .diverge => exact this

theorem SafeDht.postOop {d : Dht T} (h : SafeDht D d) (i o s : List T) :
    Post D (fun r => r.1.length = i.length ∧ r.2.1.length = o.length ∧ r.2.2.length = s.length)
      (d.processOop i o s) := by
  have := h.oop i o s
  generalize d.processOop i o s = r at this
  match r with
  | .ok (_, _, _) => exact this
  | .error (.panic _) => trivial
  | .error .ub => exact this
  | .error .diverge => exact this

theorem SafeDht.process [Zero T] {d : Dht T} (h : SafeDht D d) (b : List T) :
    Post D (fun b' => b'.length = b.length) (d.process b) := by
  unfold Dht.process
  exact Post.bind (h.postInplace b _) fun r hr => hr.1

/-- An object that honours the contract and rejects everything else is safe. -/
theorem safe_of_implements {d : Dht T} {f : List T → List T} (hpos : 0 < d.len) (hi : Implements d f)
    (hr : Rejects d) : SafeDht D d := by
  refine SafeDht.mk' (fun b s => ?_) (fun i o s => ?_)
  · rcases hv : inplaceViolation d.len d.inplaceScratchLen b.length s.length with _ | k
    · obtain ⟨h1, h2, h3⟩ := inplaceViolation_eq_none_iff.1 hv
      obtain ⟨s', e, h4, _⟩ := hi.inplace b s h1 h2 h3
      exact Post.of_eq e ⟨length_mapChunks hpos hi.length b, h4⟩
    · rw [hr.inplace b s k hv]; exact Post.panic k
  · rcases hv : oopViolation d.len d.oopScratchLen i.length o.length s.length with _ | k
    · obtain ⟨h0, h1, h2, h3⟩ := oopViolation_eq_none_iff.1 hv
      obtain ⟨i', s', e, h4, h5, _⟩ := hi.oop i o s h0.symm h1 h2 h3
      exact Post.of_eq e ⟨h4, by rw [length_mapChunks hpos hi.length i, h0], h5⟩
    · rw [hr.oop i o s k hv]; exact Post.panic k

/-! ## The boilerplate -/

theorem dhtErrorInplace_post (a b c d : Nat) : Post D (fun _ => True) (dhtErrorInplace a b c d) := by
  unfold dhtErrorInplace
  exact Post.bind Post.assert fun _ _ => Post.bind Post.assert fun _ _ => Post.bind Post.assert fun _ _ =>
    Post.true_of Post.assert

theorem dhtErrorOutofplace_post (a b c d e : Nat) : Post D (fun _ => True) (dhtErrorOutofplace a b c d e) := by
  unfold dhtErrorOutofplace
  exact Post.bind Post.assert fun _ _ => Post.bind Post.assert fun _ _ => Post.bind Post.assert fun _ _ =>
    Post.bind Post.assert fun _ _ => Post.true_of Post.assert

theorem iterChunks_post {σ : Type} {n : Nat} (hn : 0 < n) (P : σ → Prop) {f : List T → σ → Res (List T × σ)}
    (hf : ∀ c s, c.length = n → P s → Post D (fun r => r.1.length = n ∧ P r.2) (f c s)) (b : List T) (s : σ) (hs : P s) :
    Post D (fun r => r.2.1.length = b.length ∧ P r.2.2) (iterChunks n f b s) := by
  induction b using chunk_induction hn generalizing s with
  | hlt l hl =>
    rw [iterChunks, if_neg (by omega)]
    exact ⟨rfl, hs⟩
  | hge l hl ih =>
    rw [iterChunks, if_pos hl, if_neg (by omega)]
    refine Post.bind (hf _ s (by simp; omega) hs) fun r hr => ?_
    refine Post.bind (ih r.2 hr.2) fun r2 hr2 => ?_
    refine ⟨?_, hr2.2⟩
    rw [List.length_append, hr.1, hr2.1, List.length_drop]; omega

theorem iterChunksZippedLoop_post {σ : Type} {n : Nat} (hn : 0 < n) (P : σ → Prop)
    {f : List T → List T → σ → Res (List T × List T × σ)}
    (hf : ∀ c1 c2 s, c1.length = n → c2.length = n → P s →
      Post D (fun r => r.1.length = n ∧ r.2.1.length = n ∧ P r.2.2) (f c1 c2 s)) (b1 b2 : List T) (s : σ) (hs : P s) :
    Post D (fun r => r.2.1.length = b1.length ∧ r.2.2.1.length = b2.length ∧ P r.2.2.2)
      (iterChunksZippedLoop n f b1 b2 s) := by
  induction b1 using chunk_induction hn generalizing b2 s with
  | hlt l hl =>
    rw [iterChunksZippedLoop, if_neg (by omega)]
    exact ⟨rfl, rfl, hs⟩
  | hge l hl ih =>
    rw [iterChunksZippedLoop]
    by_cases h2 : n ≤ b2.length
    · rw [if_pos ⟨hl, h2⟩, if_neg (by omega)]
      refine Post.bind (hf _ _ s (by simp; omega) (by simp; omega) hs) fun r hr => ?_
      refine Post.bind (ih _ r.2.2 hr.2.2) fun r2 hr2 => ?_
      refine ⟨?_, ?_, hr2.2.2⟩
      · rw [List.length_append, hr.1, hr2.1, List.length_drop]; omega
      · rw [List.length_append, hr.2.1, hr2.2.1, List.length_drop]; omega
    · rw [if_neg (by omega)]
      exact ⟨rfl, rfl, hs⟩

theorem iterChunksZipped_post {σ : Type} {n : Nat} (hn : 0 < n) (P : σ → Prop)
    {f : List T → List T → σ → Res (List T × List T × σ)}
    (hf : ∀ c1 c2 s, c1.length = n → c2.length = n → P s →
      Post D (fun r => r.1.length = n ∧ r.2.1.length = n ∧ P r.2.2) (f c1 c2 s)) (b1 b2 : List T) (s : σ) (hs : P s) :
    Post D (fun r => r.2.1.length = b1.length ∧ r.2.2.1.length = b2.length ∧ P r.2.2.2)
      (iterChunksZipped n f b1 b2 s) := by
  have hloop := iterChunksZippedLoop_post hn P hf
  unfold iterChunksZipped
  split
  · next h =>
    refine Post.bind (hloop _ _ s hs) fun r hr => ?_
    refine ⟨?_, hr.2.1, hr.2.2⟩
    rw [List.length_append, hr.1, List.length_take, List.length_drop]; omega
  · next h =>
    exact Post.bind (hloop _ _ s hs) fun r hr => hr

/-- The perform functions are safe on chunks and scratch of the announced lengths. -/
structure SafePerforms (D : Prop) (len inpScr oopScr : Nat) (pin : List T → List T → Res (List T × List T))
    (poop : List T → List T → List T → Res (List T × List T × List T)) : Prop where
  inplace : ∀ c s, c.length = len → s.length = inpScr →
    Post D (fun r => r.1.length = len ∧ r.2.length = inpScr) (pin c s)
  oop : ∀ i o s, i.length = len → o.length = len → s.length = oopScr →
    Post D (fun r => r.1.length = len ∧ r.2.1.length = len ∧ r.2.2.length = oopScr) (poop i o s)

theorem boilerplateDht_safe {len inpScr oopScr : Nat} {pin : List T → List T → Res (List T × List T)}
    {poop : List T → List T → List T → Res (List T × List T × List T)}
    (h : 0 < len → SafePerforms D len inpScr oopScr pin poop) :
    SafeDht D (boilerplateDht len inpScr oopScr pin poop) := by
  refine SafeDht.mk' (fun b s => ?_) (fun i o s => ?_)
  · simp only [boilerplateDht]
    rcases Nat.eq_zero_or_pos len with h0 | hlen
    · rw [if_pos h0]; exact ⟨rfl, rfl⟩
    rw [if_neg (by omega)]
    split
    · exact Post.bind (dhtErrorInplace_post _ _ _ _) fun _ _ => ⟨rfl, rfl⟩
    · next hc =>
      refine Post.bind (iterChunks_post hlen (fun s => s.length = inpScr) (fun c s hc hs => (h hlen).inplace c s hc hs)
        b (s.take inpScr) (by simp; omega)) fun r hr => ?_
      have key : r.2.1.length = b.length ∧ (r.2.2 ++ s.drop inpScr).length = s.length :=
        ⟨hr.1, by rw [List.length_append, hr.2, List.length_drop]; omega⟩
      split
      · exact Post.bind (dhtErrorInplace_post _ _ _ _) fun _ _ => key
      · exact key
  · simp only [boilerplateDht]
    rcases Nat.eq_zero_or_pos len with h0 | hlen
    · rw [if_pos h0]; exact ⟨rfl, rfl, rfl⟩
    rw [if_neg (by omega)]
    split
    · exact Post.bind (dhtErrorOutofplace_post _ _ _ _ _) fun _ _ => ⟨rfl, rfl, rfl⟩
    · next hc =>
      refine Post.bind (iterChunksZipped_post hlen (fun s => s.length = oopScr)
        (fun c1 c2 s h1 h2 hs => (h hlen).oop c1 c2 s h1 h2 hs)
        i o (s.take oopScr) (by simp; omega)) fun r hr => ?_
      have key : r.2.1.length = i.length ∧ r.2.2.1.length = o.length ∧
          (r.2.2.2 ++ s.drop oopScr).length = s.length :=
        ⟨hr.1, hr.2.1, by rw [List.length_append, hr.2.2, List.length_drop]; omega⟩
      split
      · exact Post.bind (dhtErrorOutofplace_post _ _ _ _ _) fun _ _ => key
      · exact key

/-! ## Array helpers -/

theorem transpose_post {input output : List T} {w h : Nat} :
    Post D (fun l => l.length = output.length) (transpose input output w h) := by
  unfold transpose
  refine Post.bind Post.assert fun _ _ => Post.bind Post.assert fun _ h2 => ?_
  have h2 : w * h = output.length := by simpa using h2
  exact (Post.mapM fun x _ => Post.true_of Post.getI).mono fun l hl => by rw [hl]; simp [h2]

theorem chunksExactAux_flatten {n : Nat} (hn : 0 < n) (l : List T) :
    ((chunksExactAux n l).map List.reverse).flatten.length = (chunksExactAux n l).length * n ∧
      (chunksExactAux n l).length * n ≤ l.length := by
  induction l using chunk_induction hn with
  | hlt l hl =>
    rw [chunksExactAux, if_neg (by omega), if_neg (by omega)]; simp
  | hge l hl ih =>
    rw [chunksExactAux, if_neg (by omega), if_pos hl]
    obtain ⟨i1, i2⟩ := ih
    rw [List.length_drop] at i2
    constructor
    · rw [List.map_cons, List.flatten_cons, List.length_append, i1, List.length_cons, Nat.add_mul]
      simp; omega
    · rw [List.length_cons, Nat.add_mul]; omega

theorem reverseChunksFrom_post {s n : Nat} {buf : List T} :
    Post D (fun l => l.length = buf.length) (reverseChunksFrom s n buf) := by
  unfold reverseChunksFrom
  refine Post.splitAt_bind fun a b ha hb hs => ?_
  simp only [chunksExact]
  split
  · trivial
  · next hn =>
    have := chunksExactAux_flatten (n := n) (by omega) b
    show List.length (_ ++ _ ++ _) = _
    rw [List.length_append, List.length_append, ha, this.1, List.length_drop]
    omega

/-! ## MixedRadix -/

section MixedRadix
variable [Add T] [Sub T] [Mul T] [FftNum T]

theorem mrCell_post {w h r c : Nat} {tw : Cx T} {buf : List T} :
    Post D (fun l => l.length = buf.length) (mrCell w h r c tw buf) := by
  unfold mrCell
  refine Post.getI_bind fun _ => Post.getI_bind fun _ => Post.getI_bind fun _ => Post.getI_bind fun _ => ?_
  refine Post.setI_bind fun _ h1 => Post.setI_bind fun _ h2 => Post.setI_bind fun _ h3 => ?_
  exact Post.setI.mono fun _ h4 => by rw [h4, h3, h2, h1]

theorem mrMidCell_post {h r c : Nat} {tw : Cx T} {buf : List T} :
    Post D (fun l => l.length = buf.length) (mrMidCell h r c tw buf) := by
  unfold mrMidCell
  refine Post.getI_bind fun _ => Post.getI_bind fun _ => Post.setI_bind fun _ h1 => ?_
  exact Post.setI.mono fun _ h4 => by rw [h4, h1]

theorem mrApplyTwiddles_post {w h : Nat} {tw : List (Cx T)} {buf : List T} :
    Post D (fun l => l.length = buf.length) (mrApplyTwiddles w h tw buf) := by
  unfold mrApplyTwiddles
  simp only
  split
  · exact rfl
  · unfold chunksExact
    split
    · trivial
    · rw [ok_bind]
      refine Post.bind (Post.forList (fun l : List T => l.length = buf.length) rfl ?_) ?_
      · rintro ⟨row, chunk⟩ _ l hl
        refine Post.forList (fun l : List T => l.length = buf.length) hl ?_
        rintro ⟨c, t⟩ _ l hl
        exact mrCell_post.mono fun _ h => by rw [h, hl]
      · intro l hl
        split
        · split
          · trivial
          · refine Post.forList (fun l : List T => l.length = buf.length) hl ?_
            rintro ⟨c, t⟩ _ l hl
            exact mrMidCell_post.mono fun _ h => by rw [h, hl]
        · exact hl

theorem mr_tail_inplace_post {wd : Dht T} (hw : SafeDht D wd) {w h rb : Nat} {tw : List (Cx T)} {sc b inner : List T} :
    Post D (fun r : List T × List T => r.1.length = b.length ∧ r.2.length = sc.length + inner.length) (do
      let scratch ← mrApplyTwiddles w h tw sc
      let buffer ← transpose scratch b h w
      let (buffer, scratch, innerScratch) ← wd.processOop buffer scratch inner
      let scratch ← reverseChunksFrom rb w scratch
      let buffer ← transpose scratch buffer w h
      Except.ok (buffer, scratch ++ innerScratch)) := by
  refine Post.bind mrApplyTwiddles_post fun sc4 l4 => Post.bind transpose_post fun b4 m4 => ?_
  refine Post.bind (hw.postOop _ _ _) ?_
  rintro ⟨b5, sc5, in5⟩ ⟨m5, l5, n5⟩
  simp only at l5 m5 n5 ⊢
  refine Post.bind reverseChunksFrom_post fun sc6 l6 => Post.bind transpose_post fun b6 m6 => ?_
  refine ⟨by rw [m6, m5, m4], ?_⟩
  show (sc6 ++ in5).length = _
  rw [List.length_append, l6, l5, l4, n5]

theorem mr_tail2_oop_post {w h rb : Nat} {i o s : List T} :
    Post D (fun r : List T × List T × List T => r.1.length = i.length ∧ r.2.1.length = o.length ∧ r.2.2.length = s.length)
     (do
      let input ← reverseChunksFrom rb w i
      let output ← transpose input o w h
      Except.ok (input, output, s)) := by
  refine Post.bind reverseChunksFrom_post fun i6 k6 => Post.bind transpose_post fun o6 l6 => ?_
  exact ⟨k6, l6, rfl⟩

theorem mr_tail_oop_post {wd : Dht T} (hw : SafeDht D wd) {w h rb : Nat} {tw : List (Cx T)} {i o s : List T} :
    Post D (fun r : List T × List T × List T => r.1.length = i.length ∧ r.2.1.length = o.length ∧ r.2.2.length = s.length)
     (do
      let output ← mrApplyTwiddles w h tw o
      let input ← transpose output i h w
      let (input, output, scratch) ←
        if s.length > output.length then do
          let (input, scratch) ← wd.processWithScratch input s
          Except.ok (input, output, scratch)
        else do
          let (input, output) ← wd.processWithScratch input output
          Except.ok (input, output, s)
      let input ← reverseChunksFrom rb w input
      let output ← transpose input output w h
      Except.ok (input, output, scratch)) := by
  refine Post.bind mrApplyTwiddles_post fun o4 l4 => Post.bind transpose_post fun i4 k4 => ?_
  split
  · refine Post.bind (hw.postInplace _ _) ?_
    rintro ⟨i5, s5⟩ ⟨k5, m5⟩
    refine mr_tail2_oop_post.mono fun r hr => ?_
    exact ⟨by rw [hr.1, k5, k4], by rw [hr.2.1, l4], by rw [hr.2.2, m5]⟩
  · refine Post.bind (hw.postInplace _ _) ?_
    rintro ⟨i5, o5⟩ ⟨k5, m5⟩
    refine mr_tail2_oop_post.mono fun r hr => ?_
    exact ⟨by rw [hr.1, k5, k4], by rw [hr.2.1, m5, l4], by rw [hr.2.2]⟩

theorem mr_safePerforms {wd hd : Dht T} (hw : SafeDht D wd) (hh : SafeDht D hd) {n n1 n2 w h : Nat} {tw : List (Cx T)} :
    SafePerforms D n n1 n2 (mrPerformInplace wd hd w h n tw) (mrPerformOop wd hd w h tw) := by
  refine ⟨fun b s hb hs => ?_, fun i o s hi ho hs => ?_⟩
  · unfold mrPerformInplace
    refine Post.splitAt_bind fun sc inner h1 h2 h3 => ?_
    refine Post.bind transpose_post fun sc1 l1 => Post.bind reverseChunksFrom_post fun sc2 l2 => ?_
    split
    · refine Post.bind (hh.postInplace _ _) ?_
      rintro ⟨sc3, in3⟩ ⟨l3, m3⟩
      refine (mr_tail_inplace_post hw).mono fun r hr => ⟨by rw [hr.1, hb], ?_⟩
      simp only at l3 m3
      rw [hr.2, l3, l2, l1, m3, h1, h2]; omega
    · refine Post.bind (hh.postInplace _ _) ?_
      rintro ⟨sc3, b3⟩ ⟨l3, m3⟩
      refine (mr_tail_inplace_post hw).mono fun r hr => ⟨by rw [hr.1, m3, hb], ?_⟩
      simp only at l3 m3
      rw [hr.2, l3, l2, l1, h1, h2]; omega
  · unfold mrPerformOop
    refine Post.bind transpose_post fun o1 l1 => Post.bind reverseChunksFrom_post fun o2 l2 => ?_
    split
    · refine Post.bind (hh.postInplace _ _) ?_
      rintro ⟨o3, s3⟩ ⟨l3, m3⟩
      refine (mr_tail_oop_post hw).mono fun r hr => ⟨by rw [hr.1, hi], ?_, by rw [hr.2.2, m3, hs]⟩
      rw [hr.2.1, l3, l2, l1, ho]
    · refine Post.bind (hh.postInplace _ _) ?_
      rintro ⟨o3, i3⟩ ⟨l3, m3⟩
      refine (mr_tail_oop_post hw).mono fun r hr => ⟨by rw [hr.1, m3, hi], ?_, by rw [hr.2.2, hs]⟩
      rw [hr.2.1, l3, l2, l1, ho]

theorem mixedRadix_safe {wd hd : Dht T} (hw : SafeDht D wd) (hh : SafeDht D hd) : SafeDht D (mixedRadix wd hd) :=
  boilerplateDht_safe fun _ => mr_safePerforms hw hh

end MixedRadix

/-! ## MixedRadix2xn to 6xn -/

section MixedRadixN
variable [Zero T] [Add T] [Sub T] [Mul T] [Neg T] [FftNum T]

theorem transposeHalfRevOut_post {input output : List T} {w h : Nat} (hw : 2 ≤ w) (hi : input.length = w * h) :
    Post D (fun l => l.length = output.length) (transposeHalfRevOut input output w h) := by
  by_cases ho : output.length = w * h
  · exact Post.of_eq (transposeHalfRevOut_ok hw hi ho) (by rw [length_tab, ho])
  · unfold transposeHalfRevOut
    have : (input.length == output.length) = false := by rw [beq_eq_false_iff_ne, hi]; exact Ne.symm ho
    rw [this, assert_false, panic_bind]
    trivial

theorem mrn_safePerforms {k n1 n2 : Nat} (hk : 2 ≤ k) {hd : Dht T} (hh : SafeDht D hd) {ap : List T → Res (List T)}
    (hap : Total (k * hd.len) ap) :
    SafePerforms D (k * hd.len) n1 n2 (mrnPerformInplace k hd hd.len ap) (mrnPerformOop k hd hd.len ap) := by
  refine ⟨fun b s hb hs => ?_, fun i o s hi ho hs => ?_⟩
  · unfold mrnPerformInplace
    refine Post.bind (transposeHalfRevOut_post hk hb) fun s1 l1 => ?_
    refine Post.bind (hh.postOop _ _ _) ?_
    rintro ⟨s2, b2, e⟩ ⟨l2, m2, _⟩
    simp only at l2 m2 ⊢
    obtain ⟨b3, e3, m3⟩ := hap b2 (by rw [m2, hb])
    rw [e3]
    exact ⟨m3, by rw [l2, l1, hs]⟩
  · unfold mrnPerformOop
    refine Post.bind (transposeHalfRevOut_post hk hi) fun o1 l1 => ?_
    refine Post.bind (hh.postInplace _ _) ?_
    rintro ⟨o2, i2⟩ ⟨l2, m2⟩
    simp only at l2 m2 ⊢
    obtain ⟨o3, e3, l3⟩ := hap o2 (by rw [l2, l1, ho])
    rw [e3]
    exact ⟨by rw [m2, hi], l3, hs⟩

theorem mixedRadixN_safe {k : Nat} (hk : 2 ≤ k) {hd : Dht T} (hh : SafeDht D hd) {ap : List T → Res (List T)}
    (hap : 0 < hd.len → Total (k * hd.len) ap) : SafeDht D (mixedRadixN k hd ap) :=
  boilerplateDht_safe fun hpos => mrn_safePerforms hk hh (hap (Nat.pos_of_mul_pos_left hpos))

theorem mixedRadix2xn_safe {hd : Dht T} (hh : SafeDht D hd) : SafeDht D (mixedRadix2xn hd) := by
  rw [mixedRadix2xn_eq]; exact mixedRadixN_safe (by omega) hh mr2Apply_total
theorem mixedRadix3xn_safe {hd : Dht T} (hh : SafeDht D hd) : SafeDht D (mixedRadix3xn hd) := by
  rw [mixedRadix3xn_eq]; exact mixedRadixN_safe (by omega) hh mr3Apply_total
theorem mixedRadix4xn_safe {hd : Dht T} (hh : SafeDht D hd) : SafeDht D (mixedRadix4xn hd) := by
  rw [mixedRadix4xn_eq]; exact mixedRadixN_safe (by omega) hh mr4Apply_total
theorem mixedRadix5xn_safe {hd : Dht T} (hh : SafeDht D hd) : SafeDht D (mixedRadix5xn hd) := by
  rw [mixedRadix5xn_eq]; exact mixedRadixN_safe (by omega) hh mr5Apply_total
theorem mixedRadix6xn_safe {hd : Dht T} (hh : SafeDht D hd) : SafeDht D (mixedRadix6xn hd) := by
  rw [mixedRadix6xn_eq]; exact mixedRadixN_safe (by omega) hh mr6Apply_total

/-! ## SplitRadix -/

theorem sr_safePerforms {qd hd : Dht T} (iq : SafeDht D qd) (ih : SafeDht D hd) {q n : Nat} (hq0 : 0 < q) (hn : 2 * q ≤ n) :
    SafePerforms D (4 * q) n 0 (srPerformInplace qd hd (4 * q) (srTwiddles T (4 * q)))
      (srPerformOop qd hd (4 * q) (srTwiddles T (4 * q))) := by
  refine ⟨fun b s hb hs => ?_, fun i o s hi ho hs => ?_⟩
  · unfold srPerformInplace
    rw [srApplyTwiddles_ok hq0 hb, ok_bind, show 4 * q / 2 = 2 * q by omega, show 4 * q / 4 = q by omega]
    simp only
    refine Post.splitAt_bind fun ev od h1 h2 h3 => ?_
    refine Post.bind (ih.postInplace _ _) ?_
    rintro ⟨ev2, s2⟩ ⟨l2, m2⟩
    refine Post.bind (iq.postOop _ _ _) ?_
    rintro ⟨od3, s3, _⟩ ⟨l3, m3, _⟩
    simp only at l2 m2 l3 m3 h2 ⊢
    refine Post.splitAt_bind fun s4 s5 h4 h5 h6 => ?_
    simp at h2
    have e := sr_interleave_inplace (q := q) (e := ev2) (a := s4) (b := s5) (tail := od3)
      (by omega) h4 (by omega) (by omega)
    refine Post.bind (Post.of_eq e (P := fun l => l.length = 4 * q) (by simp)) fun l hl => ?_
    exact ⟨hl, by simp only; omega⟩
  · unfold srPerformOop
    rw [srApplyTwiddles_ok hq0 hi, ok_bind, show 4 * q / 2 = 2 * q by omega, show 4 * q / 4 = q by omega]
    simp only
    refine Post.splitAt_bind fun ev od h1 h2 h3 => ?_
    refine Post.bind (ih.postInplace _ _) ?_
    rintro ⟨ev2, o2⟩ ⟨l2, m2⟩
    refine Post.bind (iq.postInplace _ _) ?_
    rintro ⟨od3, o3⟩ ⟨l3, m3⟩
    simp only at l2 m2 l3 m3 h2 ⊢
    refine Post.splitAt_bind fun s4 s5 h4 h5 h6 => ?_
    simp at h2
    have e := sr_interleave_oop (q := q) (e := ev2) (a := s4) (b := s5) (out := o3)
      (by omega) h4 (by omega) (by omega)
    refine Post.bind (Post.of_eq e (P := fun l => l.length = 4 * q) (by simp)) fun l hl => ?_
    exact ⟨by simp only [List.length_append]; omega, hl, hs⟩

theorem splitRadix_safe {qd hd : Dht T} (iq : SafeDht D qd) (ih : SafeDht D hd) : Post D (SafeDht D) (splitRadix qd hd) := by
  rcases hr : splitRadix qd hd with e | d
  · unfold splitRadix at hr
    simp only at hr
    cases hb : (hd.len == qd.len * 2)
    · rw [hb, assert_false, panic_bind] at hr
      cases hr; trivial
    · rw [hb, assert_true, ok_bind] at hr
      cases hr
  · obtain ⟨hlen, rfl⟩ := splitRadix_eq hr
    exact boilerplateDht_safe fun hpos => sr_safePerforms iq ih (by omega) le_rfl

end MixedRadixN

/-! ## src/math_utils.rs and RadersAlgorithm -/

theorem mulU64_post (a b : Nat) : Post D (fun _ => True) (mulU64 a b) := by
  unfold mulU64; split <;> trivial

theorem remU64_post (a b : Nat) : Post D (fun _ => True) (remU64 a b) := by
  unfold remU64; split <;> trivial

theorem stepIndex_post (a f l : Nat) : Post D (fun _ => True) (stepIndex a f l) :=
  Post.bind (mulU64_post _ _) fun _ _ => remU64_post _ _

theorem pred_post (i : Nat) : Post D (fun _ => True) (pred i) := by
  unfold pred; split <;> trivial

theorem modularExponentLoop_post (m e : Nat) : ∀ r b, Post D (fun _ => True) (modularExponentLoop m r b e) := by
  induction e using Nat.strongRecOn with
  | ind e ih =>
    intro r b
    rw [modularExponentLoop]
    split
    · next he =>
      refine Post.bind (P := fun _ => True) ?_ fun r' _ => ?_
      · split
        · exact stepIndex_post _ _ _
        · trivial
      · exact Post.bind (mulU64_post _ _) fun _ _ => Post.bind (remU64_post _ _) fun _ _ => ih _ (by omega) _ _
    · trivial

theorem stripFactor_post {d n : Nat} (hd : 2 ≤ d) (hn : 0 < n) : Post D (fun m => 0 < m) (stripFactor d n) := by
  induction n using Nat.strongRecOn with
  | ind n ih =>
    rw [stripFactor, dif_neg (by omega)]
    split
    · next h =>
      rw [dif_neg (by omega)]
      exact ih _ (Nat.div_lt_self hn (by omega)) (Nat.div_pos (Nat.le_of_dvd hn (Nat.dvd_of_mod_eq_zero h)) (by omega))
    · exact hn

theorem factorLoop_post {n d l : Nat} {r : List Nat} (hn : 0 < n) (hd : 2 ≤ d) :
    Post D (fun _ => True) (factorLoop n d l r) := by
  induction n using Nat.strongRecOn generalizing d l r with
  | ind n ih =>
    induction hk : l - d using Nat.strongRecOn generalizing d r with
    | ind k ihk =>
      rw [factorLoop]
      split
      · next h =>
        split
        · next hm =>
          split
          · next e he =>
            have := stripFactor_post (D := D) hd hn
            rw [he] at this
            match e with
            | .panic _ => trivial
            | .ub => exact this
            | .diverge => exact this
          · next n' he =>
            have := stripFactor_post (D := D) hd hn
            rw [he] at this
            exact ih n' (stripFactor_lt _ _ _ he hm) this (by omega)
        · exact ihk (l - (d + 2)) (by omega) (by omega) rfl
      · trivial

theorem distinctPrimeFactors_post {n : Nat} (hn : 0 < n) : Post D (fun _ => True) (distinctPrimeFactors n) := by
  unfold distinctPrimeFactors
  have tail : ∀ (m : Nat) (r : List Nat), 0 < m → Post D (fun _ => True) (if m > 1 then do
      let (n, result) ← factorLoop m 3 (factorLimit m) r
      if n > 1 then Except.ok (result ++ [n]) else Except.ok result
    else (Except.ok r : Res (List Nat))) := by
    intro m r hm
    split
    · refine Post.bind (factorLoop_post hm (by omega)) ?_
      rintro ⟨a, b⟩ _
      simp only
      split <;> trivial
    · trivial
  split
  · refine Post.bind (Q := fun _ => True) (P := fun r : Nat × List Nat => 0 < r.1) ?_ fun r hr => tail r.1 r.2 hr
    exact Post.bind (stripFactor_post (by omega) hn) fun m hm => hm
  · exact tail n [] hn

theorem rejectRoot_post (p r : Nat) : ∀ es, Post D (fun _ => True) (rejectRoot p r es)
  | [] => trivial
  | _ :: es => Post.bind (modularExponentLoop_post _ _ _ _) fun v _ => by
      split
      · trivial
      · exact rejectRoot_post p r es

theorem searchRoot_post (p : Nat) (es : List Nat) : ∀ rs, Post D (fun _ => True) (searchRoot p es rs)
  | [] => trivial
  | r :: rs => Post.bind (rejectRoot_post p r es) fun v _ => by
      split
      · exact searchRoot_post p es rs
      · trivial

theorem primitiveRoot_post {p : Nat} (hp : 2 ≤ p) : Post D (fun _ => True) (primitiveRoot p) := by
  unfold primitiveRoot
  rw [if_neg (by omega)]
  exact Post.bind (distinctPrimeFactors_post (by omega)) fun _ _ => searchRoot_post _ _ _

section Raders
variable [Zero T] [Add T] [Sub T] [Mul T] [FftNum T]

theorem radersKernelInput_post {n l g : Nat} : Post D (fun k => k.length = n) (radersKernelInput T n l g) := by
  unfold radersKernelInput
  simp only
  refine Post.bind (Post.forRange (fun s : List T × Nat => s.1.length = n) (by simp) ?_) fun r hr => hr
  rintro i ⟨a, t⟩ _ _ ha
  exact Post.setI_bind fun a' ha' => Post.bind (stepIndex_post _ _ _) fun _ _ => by
    show a'.length = n
    rw [ha', ha]

theorem radersTwiddles_post {x : List T} : Post D (fun _ => True) (radersTwiddles x) := by
  unfold radersTwiddles
  simp only
  refine Post.getI_bind fun _ => Post.setI_bind fun tw _ => Post.bind (P := fun _ => True) ?_ fun tw _ => ?_
  · refine Post.forRange (fun _ => True) trivial fun i s _ _ _ => ?_
    exact Post.getI_bind fun _ => Post.getI_bind fun _ => Post.true_of Post.setI
  · exact Post.getI_bind fun _ => Post.true_of Post.setI

theorem radersGather_post {g l : Nat} {src dst : List T} :
    Post D (fun r => r.length = dst.length) (radersGather g l src dst) := by
  unfold radersGather
  refine Post.bind (Post.forRange (fun s : List T × Nat => s.1.length = dst.length) rfl ?_) fun r hr => hr
  rintro i ⟨a, t⟩ _ _ ha
  refine Post.bind (pred_post _) fun p _ => Post.getI_bind fun _ => ?_
  exact Post.setI_bind fun a' ha' => Post.bind (stepIndex_post _ _ _) fun _ _ => by
    show a'.length = _
    rw [ha', ha]

theorem radersScatter_post {g l : Nat} {src dst : List T} :
    Post D (fun r => r.length = dst.length) (radersScatter g l src dst) := by
  unfold radersScatter
  refine Post.bind (Post.forList (fun s : List T × Nat => s.1.length = dst.length) rfl ?_) fun r hr => hr
  rintro v _ ⟨a, t⟩ ha
  refine Post.bind (pred_post _) fun p _ => ?_
  exact Post.setI_bind fun a' ha' => Post.bind (stepIndex_post _ _ _) fun _ _ => by
    show a'.length = _
    rw [ha', ha]

theorem radersMulInplace_post {tw : List (Cx T)} {b : List T} :
    Post D (fun r => r.length = b.length) (radersMulInplace tw b) := by
  unfold radersMulInplace
  simp only
  refine Post.getI_bind fun _ => Post.getI_bind fun _ => Post.setI_bind fun b1 h1 => ?_
  refine Post.bind (Post.forRange (fun s : List T => s.length = b.length) h1 ?_) fun b2 h2 => ?_
  · intro i s _ _ hs
    refine Post.getI_bind fun _ => Post.getI_bind fun _ => Post.getI_bind fun _ => Post.setI_bind fun s1 e1 => ?_
    exact Post.setI.mono fun s2 e2 => by rw [e2, e1, hs]
  · split
    · exact Post.getI_bind fun _ => Post.getI_bind fun _ => Post.setI.mono fun s2 e2 => by rw [e2, h2]
    · exact h2

theorem radersMulOop_post {tw : List (Cx T)} {o i : List T} :
    Post D (fun r => r.length = i.length) (radersMulOop tw o i) := by
  unfold radersMulOop
  simp only
  refine Post.getI_bind fun _ => Post.getI_bind fun _ => Post.setI_bind fun b1 h1 => ?_
  refine Post.bind (Post.forRange (fun s : List T => s.length = i.length) h1 ?_) fun b2 h2 => ?_
  · intro j s _ _ hs
    refine Post.getI_bind fun _ => Post.getI_bind fun _ => Post.getI_bind fun _ => Post.setI_bind fun s1 e1 => ?_
    exact Post.setI.mono fun s2 e2 => by rw [e2, e1, hs]
  · split
    · exact Post.getI_bind fun _ => Post.getI_bind fun _ => Post.setI.mono fun s2 e2 => by rw [e2, h2]
    · exact h2

theorem radersPerformInplace2_post {d d2 : Dht T} (hd : SafeDht D d) (hd2 : SafeDht D d2) {l g gi : Nat} {tw : List (Cx T)} {b s : List T} :
    Post D (fun r => r.1.length = b.length ∧ r.2.length = s.length) (radersPerformInplace2 d d2 l g gi tw b s) := by
  unfold radersPerformInplace2
  match b with
  | [] => trivial
  | b0 :: b =>
    refine Post.splitAt_bind fun ib ex h1 h2 h3 => ?_
    refine Post.bind radersGather_post fun ib1 e1 => ?_
    refine Post.bind (hd.postInplace _ _) ?_
    rintro ⟨ib2, sc2⟩ ⟨e2, f2⟩
    simp only at e2 f2 ⊢
    refine Post.getI_bind fun _ => Post.bind radersMulInplace_post fun ib3 e3 => ?_
    refine Post.getI_bind fun _ => Post.setI_bind fun ib4 e4 => ?_
    refine Post.bind (hd2.postInplace _ _) ?_
    rintro ⟨ib5, sc5⟩ ⟨e5, f5⟩
    simp only at e5 f5 ⊢
    refine Post.bind radersScatter_post fun b6 e6 => ?_
    by_cases hx : ex.length > 0
    · simp only [hx, if_true] at f2 f5 e6 ⊢
      constructor
      · simp [e6]
      · simp only [List.length_append]; omega
    · simp only [hx, if_false] at f2 f5 e6 ⊢
      constructor
      · simp [e6, f5, f2]
      · simp only [List.length_append]; omega

theorem radersPerformInplace_post {d : Dht T} (hd : SafeDht D d) {l g gi : Nat} {tw : List (Cx T)} {b s : List T} :
    Post D (fun r => r.1.length = b.length ∧ r.2.length = s.length) (radersPerformInplace d l g gi tw b s) :=
  radersPerformInplace2_post hd hd

theorem radersPerformOop2_post {d d2 : Dht T} (hd : SafeDht D d) (hd2 : SafeDht D d2) {l g gi : Nat} {tw : List (Cx T)} {i o s : List T} :
    Post D (fun r => r.1.length = i.length ∧ r.2.1.length = o.length ∧ r.2.2.length = s.length)
      (radersPerformOop2 d d2 l g gi tw i o s) := by
  unfold radersPerformOop2
  match o, i with
  | [], _ => trivial
  | _ :: _, [] => trivial
  | o0 :: o, i0 :: i =>
    refine Post.bind radersGather_post fun o1 e1 => ?_
    refine Post.bind (hd.postInplace _ _) ?_
    rintro ⟨o2, sc2⟩ ⟨e2, f2⟩
    simp only at e2 f2 ⊢
    refine Post.getI_bind fun _ => Post.bind radersMulOop_post fun i3 e3 => ?_
    refine Post.getI_bind fun _ => Post.setI_bind fun i4 e4 => ?_
    by_cases hx : s.length > 0
    · simp only [hx, if_true] at f2 e3 ⊢
      have hx' : sc2.length > 0 := by omega
      simp only [hx', if_true]
      refine Post.bind (hd2.postInplace _ _) ?_
      rintro ⟨i5, sc5⟩ ⟨e5, f5⟩
      simp only at e5 f5 ⊢
      refine Post.bind radersScatter_post fun o6 e6 => ?_
      exact ⟨by simp only [List.length_cons]; omega, by simp only [List.length_cons]; omega, by simp only; omega⟩
    · simp only [hx, if_false] at f2 e3 ⊢
      refine Post.bind (hd2.postInplace _ _) ?_
      rintro ⟨i5, sc5⟩ ⟨e5, f5⟩
      simp only at e5 f5 ⊢
      refine Post.bind radersScatter_post fun o6 e6 => ?_
      exact ⟨by simp only [List.length_cons]; omega, by simp only [List.length_cons]; omega, by simp only⟩

theorem radersPerformOop_post {d : Dht T} (hd : SafeDht D d) {l g gi : Nat} {tw : List (Cx T)} {i o s : List T} :
    Post D (fun r => r.1.length = i.length ∧ r.2.1.length = o.length ∧ r.2.2.length = s.length)
      (radersPerformOop d l g gi tw i o s) :=
  radersPerformOop2_post hd hd

theorem raders_safe {d : Dht T} (hd : SafeDht D d) : Post D (SafeDht D) (raders d) := by
  unfold raders
  simp only
  refine Post.bind Post.assert fun _ hp => ?_
  have hp : (d.len + 1).Prime := by simpa [millerRabin] using hp
  refine Post.bind (primitiveRoot_post hp.two_le) fun root _ => ?_
  match root with
  | none => trivial
  | some root =>
    refine Post.bind radersKernelInput_post fun k _ => Post.bind (hd.process k) fun k2 _ => ?_
    refine Post.bind radersTwiddles_post fun tw _ => ?_
    refine boilerplateDht_safe fun _ => ⟨fun c s hc hs => ?_, fun i o s hi ho hs => ?_⟩
    · exact (radersPerformInplace_post hd).mono fun r hr => ⟨by rw [hr.1, hc], by rw [hr.2, hs]⟩
    · exact (radersPerformOop_post hd).mono fun r hr => ⟨by rw [hr.1, hi], by rw [hr.2.1, ho], by rw [hr.2.2, hs]⟩

end Raders

/-! ## Leaves and compositions -/

section Plans
variable [Zero T] [Add T] [Sub T] [Mul T] [Neg T] [FftNum T]

theorem dhtNaive_safe (n : Nat) : SafeDht D (dhtNaive T n) := by
  rcases Nat.eq_zero_or_pos n with rfl | hn
  · refine SafeDht.mk' (fun b s => ?_) (fun i o s => ?_)
    · unfold dhtNaive
      simp only [boilerplateDhtOop, length_naiveTwiddles, if_true]
      exact ⟨rfl, rfl⟩
    · unfold dhtNaive
      simp only [boilerplateDhtOop, length_naiveTwiddles, if_true]
      exact ⟨rfl, rfl, rfl⟩
  · exact safe_of_implements (by rw [dhtNaive_len]; exact hn) (dhtNaive_implements n) (dhtNaive_rejects hn)

theorem butterfly1_safe : SafeDht D (butterfly1 T) := by
  refine SafeDht.mk' (fun b s => ⟨rfl, rfl⟩) (fun i o s => ?_)
  simp only [butterfly1]
  split
  · next h => exact ⟨rfl, by rw [h], rfl⟩
  · trivial

theorem bfly_safe {n : Nat} {g : List T → List T} {c : RawIO T → Res (RawIO T)} (hn : 0 < n) (hp : PerformsBfly n g c) :
    SafeDht D (boilerplateFftButterfly n c) :=
  safe_of_implements hn (boilerplateFftButterfly_implements hn hp) (boilerplateFftButterfly_rejects hn hp)

theorem radix4_safe (n : Nat) : Post D (SafeDht D) (radix4 T n) := by
  rcases hr : radix4 T n with e | d
  · unfold radix4 at hr
    cases hb : isPowerOfTwo n
    · rw [hb, assert_false, panic_bind] at hr
      cases hr; trivial
    · rw [hb, assert_true, ok_bind] at hr
      cases hr
  · obtain ⟨m, rfl⟩ := radix4_isPow hr
    have e := hr
    rw [radix4_eq] at e
    cases e
    exact safe_of_implements (Nat.two_pow_pos m) (radix4_implements hr) (radix4_rejects hr)

theorem plan_safe (p : Plan) : Post D (SafeDht D) (p.build T) := by
  induction p with
  | naive n => exact dhtNaive_safe n
  | b1 => exact butterfly1_safe
  | b2 => exact bfly_safe (by omega) performs2
  | b3 => exact bfly_safe (by omega) performs3
  | b4 => exact bfly_safe (by omega) performs4
  | b5 => exact bfly_safe (by omega) performs5
  | b6 => exact bfly_safe (by omega) performs6
  | b8 => exact bfly_safe (by omega) performs8
  | b9 => exact bfly_safe (by omega) performs9
  | b16 => exact bfly_safe (by omega) performs16
  | mixedRadix w h iw ih => exact Post.bind iw fun _ hw => Post.bind ih fun _ hh => mixedRadix_safe hw hh
  | mr2 h ih => exact Post.bind ih fun _ hh => mixedRadix2xn_safe hh
  | mr3 h ih => exact Post.bind ih fun _ hh => mixedRadix3xn_safe hh
  | mr4 h ih => exact Post.bind ih fun _ hh => mixedRadix4xn_safe hh
  | mr5 h ih => exact Post.bind ih fun _ hh => mixedRadix5xn_safe hh
  | mr6 h ih => exact Post.bind ih fun _ hh => mixedRadix6xn_safe hh
  | radix4 n => exact radix4_safe n
  | splitRadix q h iq ih => exact Post.bind iq fun _ hq => Post.bind ih fun _ hh => splitRadix_safe hq hh
  | raders i ih => exact Post.bind ih fun _ hh => raders_safe hh

theorem tree_safe (t : Tree T) (hu : ∀ d ∈ t.users, SafeDht D d) : Post D (SafeDht D) t.build := by
  induction t with
  | plan p => exact plan_safe p
  | user d => exact hu d (by simp [Tree.users])
  | mixedRadix w h iw ih =>
    exact Post.bind (iw fun d hd => hu d (by simp [Tree.users, hd])) fun _ hw =>
      Post.bind (ih fun d hd => hu d (by simp [Tree.users, hd])) fun _ hh => mixedRadix_safe hw hh
  | mr2 h ih => exact Post.bind (ih hu) fun _ hh => mixedRadix2xn_safe hh
  | mr3 h ih => exact Post.bind (ih hu) fun _ hh => mixedRadix3xn_safe hh
  | mr4 h ih => exact Post.bind (ih hu) fun _ hh => mixedRadix4xn_safe hh
  | mr5 h ih => exact Post.bind (ih hu) fun _ hh => mixedRadix5xn_safe hh
  | mr6 h ih => exact Post.bind (ih hu) fun _ hh => mixedRadix6xn_safe hh
  | splitRadix q h iq ih =>
    exact Post.bind (iq fun d hd => hu d (by simp [Tree.users, hd])) fun _ hq =>
      Post.bind (ih fun d hd => hu d (by simp [Tree.users, hd])) fun _ hh => splitRadix_safe hq hh
  | raders i ih => exact Post.bind (ih hu) fun _ hh => raders_safe hh

end Plans
end RustDHT
