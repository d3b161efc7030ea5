import Verif.Proofs.MachineRaders

/-! # Memory safety with machine integers, also when they wrap around -/

set_option linter.unusedSectionVars false

namespace RustDHT.Machine

variable (m : Mode) {T : Type} {D : Prop}

/-! ## Integer operations -/

theorem overflow_post {P : Nat → Prop} {w : Nat} (h : P w) : Post D P (m.overflow w) := by
  unfold Mode.overflow
  split
  · trivial
  · exact h

theorem add_post (a b : Nat) : Post D (fun r => r < 16 * m.cap ∧ (a + b < 16 * m.cap → r = a + b)) (m.add a b) := by
  rw [← size_eq]
  unfold Mode.add
  split
  · rename_i h; exact ⟨h, fun _ => rfl⟩
  · rename_i h; exact overflow_post m ⟨Nat.mod_lt _ (Nat.two_pow_pos _), fun h' => absurd h' h⟩

theorem sub_post (a b : Nat) : Post D (fun _ => True) (m.sub a b) := by
  unfold Mode.sub
  split
  · trivial
  · exact overflow_post m trivial

theorem mul_post (a b : Nat) : Post D (fun r => r = a * b % (16 * m.cap)) (m.mul a b) := by
  rw [← size_eq]
  unfold Mode.mul
  split
  · rename_i h; exact (Nat.mod_eq_of_lt h).symm
  · exact overflow_post m rfl

theorem mulAdd_post (a b c : Nat) : Post D (fun _ => True) (m.mulAdd a b c) :=
  Post.bind (mul_post m a b) fun _ _ => Post.true_of (add_post m _ c)

theorem i64_post (x : Int) : Post D (fun _ => True) (m.i64 x) := by
  unfold Mode.i64
  split
  · trivial
  · split <;> trivial

theorem allocate_post (n : Nat) : Post D (fun _ => n < m.cap) (allocate m n) := by
  unfold allocate
  exact Post.assert.mono fun _ h => by simpa using h

theorem mapM_post {α β : Type} {xs : List α} {f : α → Res β} (P : β → Prop) (h : ∀ x ∈ xs, Post D P (f x)) :
    Post D (fun l => l.length = xs.length ∧ ∀ y ∈ l, P y) (xs.mapM f) := by
  induction xs with
  | nil => rw [List.mapM_nil]; exact ⟨rfl, by simp⟩
  | cons x xs ih =>
    rw [List.mapM_cons]
    refine Post.bind (h x (by simp)) fun a ha => ?_
    refine Post.bind (ih fun y hy => h y (by simp [hy])) fun l hl => ?_
    refine ⟨by simp [hl.1], fun y hy => ?_⟩
    rcases List.mem_cons.1 hy with rfl | hy
    · exact ha
    · exact hl.2 y hy

/-- A `Vec` filled with `n` elements per step can be cut into the steps again. -/
theorem chunksExactAux_flatten_eq {α : Type} {n : Nat} (hn : 0 < n) {l : List (List α)} (h : ∀ c ∈ l, c.length = n) :
    chunksExactAux n l.flatten = l := by
  induction l with
  | nil => rw [chunksExactAux]; simp
  | cons c l ih =>
    have hc := h c List.mem_cons_self
    rw [List.flatten_cons, chunksExactAux, if_neg (by omega), if_pos (by simp; omega), List.take_left' hc, List.drop_left' hc,
      ih fun d hd => h d (List.mem_cons_of_mem _ hd)]

/-- What is proved of every object: calls are safe, and the length is a `usize`. -/
structure Sound (m : Mode) (D : Prop) (d : Dht T) : Prop where
  safe : SafeDht D d
  len : d.len < 16 * m.cap

/-! ## src/scalar/dht_naive.rs -/

theorem boilerplateDhtOop_safe {len : Nat} {p : List T → List T → Res (List T)}
    (h : ∀ c o, c.length = len → o.length = len → Post D (fun r => r.length = len) (p c o)) :
    SafeDht D (boilerplateDhtOop len p) := by
  refine SafeDht.mk' (fun b s => ?_) (fun i o s => ?_)
  · simp only [boilerplateDhtOop]
    rcases Nat.eq_zero_or_pos len with h0 | hlen
    · rw [if_pos h0]; exact ⟨rfl, rfl⟩
    rw [if_neg (by omega)]
    split
    · exact Post.bind (dhtErrorInplace_post _ _ _ _) fun _ _ => ⟨rfl, rfl⟩
    · next hc =>
      refine Post.bind (iterChunks_post hlen (fun s => s.length = len) ?_ b (s.take len) (by simp; omega)) fun r hr => ?_
      · intro c s hc hs
        refine Post.bind (h c s hc hs) fun r hr => ?_
        split
        · exact ⟨hr, hr⟩
        · trivial
      have key : r.2.1.length = b.length ∧ (r.2.2 ++ s.drop len).length = s.length :=
        ⟨hr.1, by rw [List.length_append, hr.2, List.length_drop]; omega⟩
      split
      · exact Post.bind (dhtErrorInplace_post _ _ _ _) fun _ _ => key
      · exact key
  · simp only [boilerplateDhtOop]
    rcases Nat.eq_zero_or_pos len with h0 | hlen
    · rw [if_pos h0]; exact ⟨rfl, rfl, rfl⟩
    rw [if_neg (by omega)]
    split
    · exact Post.bind (dhtErrorOutofplace_post _ _ _ _ _) fun _ _ => ⟨rfl, rfl, rfl⟩
    · next hc =>
      refine Post.bind (iterChunksZipped_post hlen (fun _ : Unit => True) ?_ i o () trivial) fun r hr => ?_
      · intro c1 c2 s h1 h2 _
        exact Post.bind (h c1 c2 h1 h2) fun r hr => ⟨h1, hr, trivial⟩
      have key : r.2.1.length = i.length ∧ r.2.2.1.length = o.length ∧ s.length = s.length := ⟨hr.1, hr.2.1, rfl⟩
      split
      · exact Post.bind (dhtErrorOutofplace_post _ _ _ _ _) fun _ _ => key
      · exact key

theorem naiveInner_post [Add T] [Mul T] [Zero T] {tw input : List T} {k : Nat} :
    Post D (fun _ => True) (naiveInner m tw input k) := by
  unfold naiveInner
  refine Post.bind (Post.forList (fun _ => True) trivial ?_) fun _ _ => trivial
  rintro x _ ⟨v, j⟩ _
  refine Post.getI_bind fun _ => Post.bind (add_post m _ _) fun i _ => Post.bind (P := fun _ => True) ?_ fun _ _ => trivial
  split
  · exact sub_post m _ _
  · trivial

theorem dhtNaive_sound [Add T] [Mul T] [Zero T] [FftNum T] {n : Nat} (hn : n < 16 * m.cap) : Sound m D (dhtNaive m T n) := by
  refine ⟨boilerplateDhtOop_safe fun c o hc ho => ?_, ?_⟩
  · unfold naivePerform
    refine Post.forRange (fun o' : List T => o'.length = (naiveTwiddles T n).length) ho fun k s _ _ hs => ?_
    exact Post.bind (naiveInner_post m) fun v _ => Post.setI.mono fun _ h => by rw [h, hs]
  · show (naiveTwiddles T n).length < 16 * m.cap
    simpa [naiveTwiddles] using hn

/-! ## src/scalar/radix2.rs .. radix6.rs -/

section MixedRadixN

variable [Zero T] [Add T] [Sub T] [Mul T] [Neg T] [FftNum T]

theorem mixedRadixN_sound {k len : Nat} (hk : 2 ≤ k) {d : Dht T} (hd : SafeDht D d) (hlen : len = k * d.len) (hl : k * d.len < 16 * m.cap)
    {ap : List T → Res (List T)} (hap : 0 < d.len → Total (k * d.len) ap) : Post D (Sound m D) (mixedRadixN m k len d ap) := by
  subst hlen
  unfold mixedRadixN
  refine Post.bind (add_post m _ _) fun n _ => ?_
  refine ⟨?_, hl⟩
  rw [boilerplateDht_congr (pi' := RustDHT.mrnPerformInplace k d d.len ap) (po' := RustDHT.mrnPerformOop k d d.len ap)]
  · exact boilerplateDht_safe fun hpos => mrn_safePerforms hk hd (hap (Nat.pos_of_mul_pos_left hpos))
  · intro hpos c s _
    have := Nat.le_mul_of_pos_right k (Nat.pos_of_mul_pos_left hpos)
    unfold mrnPerformInplace RustDHT.mrnPerformInplace
    rw [transposeHalfRevOut_eq m _ _ hk (by omega) hl]
  · intro hpos c1 c2 s _ _
    have := Nat.le_mul_of_pos_right k (Nat.pos_of_mul_pos_left hpos)
    unfold mrnPerformOop RustDHT.mrnPerformOop
    rw [transposeHalfRevOut_eq m _ _ hk (by omega) hl]

theorem applyColumns_total {k h : Nat} {col0 : List T → Res (List T)}
    {kernel : List (Cx T) → List T → List T → Res (List T × List T)} {twChunks : List (List (Cx T))} (h64 : h < 16 * m.cap)
    (hh : 0 < h) (h0 : Total k col0) (htw : twChunks.length = h / 2) (hk : ∀ tw ∈ twChunks, KernelTotal k kernel tw) :
    Total (k * h) (applyColumns m k h col0 kernel twChunks) := by
  intro l hl
  rw [applyColumns_eq m h64]
  exact RustDHT.applyColumns_total hh h0 htw hk l hl

theorem eighthTwiddle_post {c r len : Nat} : Post D (fun _ => True) (eighthTwiddle m T c r len) :=
  Post.bind (mul_post m _ _) fun _ _ => Post.bind (mulAdd_post m _ _ _) fun _ _ => Post.bind (mul_post m _ _) fun _ _ => trivial

theorem mixedRadix2xn_sound {d : Dht T} (hd : Sound m D d) : Post D (Sound m D) (mixedRadix2xn m d) := by
  have h64 := hd.len
  have hcap := le_cap m
  unfold mixedRadix2xn
  simp only
  refine Post.bind (mul_post m _ _) fun len hlen => ?_
  rw [add_eq m (by omega), ok_bind, sub_eq m (by omega), ok_bind]
  refine Post.bind (allocate_post m _) fun _ hc => ?_
  refine mixedRadixN_sound m (by omega) hd.safe (by rw [hlen, Nat.mod_eq_of_lt (by omega)]) (by omega) fun hh => ?_
  exact applyColumns_total m h64 hh (total_of_performs performs2) (by simp) (by
    simp only [List.mem_map]
    rintro _ ⟨t, _, rfl⟩
    exact mr2Kernel_total t)

theorem mixedRadix3xn_sound {d : Dht T} (hd : Sound m D d) : Post D (Sound m D) (mixedRadix3xn m d) := by
  have h64 := hd.len
  have hcap := le_cap m
  unfold mixedRadix3xn
  simp only
  refine Post.bind (mul_post m _ _) fun len hlen => ?_
  rw [add_eq m (by omega), ok_bind, sub_eq m (by omega), ok_bind, mul_eq m (by omega), ok_bind]
  refine Post.bind (allocate_post m _) fun _ hc => ?_
  refine Post.bind (mapM_post (fun _ => True) fun _ _ => eighthTwiddle_post m) fun tw htw => ?_
  refine mixedRadixN_sound m (by omega) hd.safe (by rw [hlen, Nat.mod_eq_of_lt (by omega)]) (by omega) fun hh => ?_
  exact applyColumns_total m h64 hh (total_of_performs performs3) (by simp [htw.1]) (by
    simp only [List.mem_map]
    rintro _ ⟨t, _, rfl⟩
    exact mr3Kernel_total t)

theorem mixedRadix4xn_sound {d : Dht T} (hd : Sound m D d) : Post D (Sound m D) (mixedRadix4xn m d) := by
  have h64 := hd.len
  have hcap := le_cap m
  unfold mixedRadix4xn
  simp only
  refine Post.bind (mul_post m _ _) fun len hlen => ?_
  rw [add_eq m (by omega), ok_bind]
  refine Post.bind (mul_post m _ _) fun cap _ => Post.bind (allocate_post m _) fun _ _ => ?_
  refine Post.bind (mapM_post (fun c : List (Cx T) => ∃ s t, c = [s, t]) fun c _ => ?_) fun tw htw => ?_
  · exact Post.bind (mul_post m _ _) fun _ _ => Post.bind (mul_post m _ _) fun _ _ => ⟨_, _, rfl⟩
  have h2 : ∀ c ∈ tw, c.length = 2 := fun c hc => by
    obtain ⟨s, t, rfl⟩ := htw.2 c hc
    rfl
  refine Post.bind (allocate_post m _) fun _ hc => ?_
  have hc : tw.length * 2 < m.cap := by
    rwa [List.length_flatten, List.map_congr_left h2, List.map_const', List.sum_replicate, smul_eq_mul] at hc
  have hl := htw.1
  simp only [List.length_range', Nat.add_sub_cancel] at hl
  refine mixedRadixN_sound m (by omega) hd.safe (by rw [hlen, Nat.mod_eq_of_lt (by omega)]) (by omega) fun hh => ?_
  rw [chunksExactAux_flatten_eq (by omega) h2]
  exact applyColumns_total m h64 hh (total_of_performs performs4) hl (fun c hc => by
    obtain ⟨s, t, rfl⟩ := htw.2 c hc
    exact mr4Kernel_total s t)

theorem mixedRadix5xn_sound {d : Dht T} (hd : Sound m D d) : Post D (Sound m D) (mixedRadix5xn m d) := by
  have h64 := hd.len
  have hcap := le_cap m
  unfold mixedRadix5xn
  simp only
  refine Post.bind (mul_post m _ _) fun len hlen => ?_
  rw [add_eq m (by omega), ok_bind, sub_eq m (by omega), ok_bind, mul_eq m (by omega), ok_bind]
  refine Post.bind (allocate_post m _) fun _ hc => ?_
  refine Post.bind (mapM_post (fun c : List (Cx T) => ∃ s t, c = [s, t]) fun c _ => ?_) fun tw htw => ?_
  · exact Post.bind (eighthTwiddle_post m) fun _ _ => Post.bind (eighthTwiddle_post m) fun _ _ => ⟨_, _, rfl⟩
  have h2 : ∀ c ∈ tw, c.length = 2 := fun c hc => by
    obtain ⟨s, t, rfl⟩ := htw.2 c hc
    rfl
  refine mixedRadixN_sound m (by omega) hd.safe (by rw [hlen, Nat.mod_eq_of_lt (by omega)]) (by omega) fun hh => ?_
  rw [chunksExactAux_flatten_eq (by omega) h2]
  exact applyColumns_total m h64 hh (total_of_performs performs5) (by simp [htw.1]) (fun c hc => by
    obtain ⟨s, t, rfl⟩ := htw.2 c hc
    exact mr5Kernel_total s t)

theorem mixedRadix6xn_sound {d : Dht T} (hd : Sound m D d) : Post D (Sound m D) (mixedRadix6xn m d) := by
  have h64 := hd.len
  have hcap := le_cap m
  unfold mixedRadix6xn
  simp only
  refine Post.bind (mul_post m _ _) fun len hlen => ?_
  rw [add_eq m (by omega), ok_bind, sub_eq m (by omega), ok_bind]
  refine Post.bind (mul_post m _ _) fun cap _ => Post.bind (allocate_post m _) fun _ _ => ?_
  refine Post.bind (mapM_post (fun c : List (Cx T) => ∃ s t u, c = [s, t, u]) fun c _ => ?_) fun tw htw => ?_
  · exact Post.bind (eighthTwiddle_post m) fun _ _ => Post.bind (eighthTwiddle_post m) fun _ _ =>
      Post.bind (eighthTwiddle_post m) fun _ _ => ⟨_, _, _, rfl⟩
  have h3 : ∀ c ∈ tw, c.length = 3 := fun c hc => by
    obtain ⟨s, t, u, rfl⟩ := htw.2 c hc
    rfl
  refine Post.bind (allocate_post m _) fun _ hc => ?_
  have hc : tw.length * 3 < m.cap := by
    rwa [List.length_flatten, List.map_congr_left h3, List.map_const', List.sum_replicate, smul_eq_mul] at hc
  have hl := htw.1
  simp only [List.length_range', Nat.add_sub_cancel] at hl
  refine mixedRadixN_sound m (by omega) hd.safe (by rw [hlen, Nat.mod_eq_of_lt (by omega)]) (by omega) fun hh => ?_
  rw [chunksExactAux_flatten_eq (by omega) h3]
  exact applyColumns_total m h64 hh (total_of_performs performs6) hl (fun c hc => by
    obtain ⟨s, t, u, rfl⟩ := htw.2 c hc
    exact mr6Kernel_total s t u)

end MixedRadixN

/-! ## src/scalar/mixed_radix.rs -/

section MixedRadix

variable [Zero T] [Add T] [Sub T] [Mul T] [Neg T] [FftNum T]

theorem transpose_post {input output : List T} {w h : Nat} (hl : w * h < 16 * m.cap) :
    Post D (fun l => l.length = output.length) (transpose m input output w h) := by
  rw [transpose_eq m _ _ hl]
  exact RustDHT.transpose_post

theorem mrCell_post {w h r c : Nat} {tw : Cx T} {buf : List T} :
    Post D (fun l => l.length = buf.length) (mrCell m w h r c tw buf) := by
  unfold mrCell
  refine Post.bind (sub_post m _ _) fun _ _ => Post.bind (sub_post m _ _) fun _ _ => ?_
  refine Post.bind (mulAdd_post m _ _ _) fun _ _ => Post.getI_bind fun _ => Post.bind (mulAdd_post m _ _ _) fun _ _ =>
    Post.getI_bind fun _ => Post.bind (mulAdd_post m _ _ _) fun _ _ => Post.getI_bind fun _ =>
    Post.bind (mulAdd_post m _ _ _) fun _ _ => Post.getI_bind fun _ => ?_
  refine Post.setI_bind fun _ h1 => Post.setI_bind fun _ h2 => Post.setI_bind fun _ h3 => ?_
  exact Post.setI.mono fun _ h4 => by rw [h4, h3, h2, h1]

theorem mrMidCell_post {h r c : Nat} {tw : Cx T} {buf : List T} :
    Post D (fun l => l.length = buf.length) (mrMidCell m h r c tw buf) := by
  unfold mrMidCell
  refine Post.bind (sub_post m _ _) fun _ _ => Post.bind (mulAdd_post m _ _ _) fun _ _ => Post.getI_bind fun _ =>
    Post.bind (mulAdd_post m _ _ _) fun _ _ => Post.getI_bind fun _ => Post.setI_bind fun _ h1 => ?_
  exact Post.setI.mono fun _ h4 => by rw [h4, h1]

theorem mrApplyTwiddles_post {w h : Nat} {tw : List (Cx T)} {buf : List T} :
    Post D (fun l => l.length = buf.length) (mrApplyTwiddles m w h tw buf) := by
  unfold mrApplyTwiddles
  refine Post.bind (add_post m _ _) fun _ _ => Post.bind (add_post m _ _) fun cl _ => Post.bind (sub_post m _ _) fun ts _ => ?_
  split
  · exact rfl
  · unfold chunksExact
    split
    · trivial
    · rw [ok_bind]
      refine Post.bind (Post.forList (fun l : List T => l.length = buf.length) rfl ?_) ?_
      · rintro ⟨row, chunk⟩ _ l hl
        refine Post.forList (fun l : List T => l.length = buf.length) hl ?_
        rintro ⟨c, t⟩ _ l hl
        exact (mrCell_post m).mono fun _ h => by rw [h, hl]
      · intro l hl
        split
        · simp only
          split
          · trivial
          · refine Post.forList (fun l : List T => l.length = buf.length) hl ?_
            rintro ⟨c, t⟩ _ l hl
            exact (mrMidCell_post m).mono fun _ h => by rw [h, hl]
        · exact hl

theorem mrFirstReversal_post (w h : Nat) : Post D (fun _ => True) (mrFirstReversal m w h) := by
  unfold mrFirstReversal
  refine Post.bind (P := fun _ => True) ?_ fun _ _ => Post.true_of (mul_post m _ _)
  split
  · exact Post.true_of (add_post m _ _)
  · exact Post.bind (add_post m _ _) fun _ _ => trivial

theorem mrSecondReversal_post (w h : Nat) : Post D (fun _ => True) (mrSecondReversal m w h) :=
  Post.bind (add_post m _ _) fun _ _ => Post.true_of (mul_post m _ _)

theorem mr_tail_inplace_post {wd : Dht T} (hw : SafeDht D wd) {w h : Nat} (h1 : w * h < 16 * m.cap) (h2 : h * w < 16 * m.cap)
    {tw : List (Cx T)} {sc b inner : List T} :
    Post D (fun r : List T × List T => r.1.length = b.length ∧ r.2.length = sc.length + inner.length) (do
      let scratch ← mrApplyTwiddles m w h tw sc
      let buffer ← transpose m scratch b h w
      let (buffer, scratch, innerScratch) ← wd.processOop buffer scratch inner
      let start ← mrSecondReversal m w h
      let scratch ← reverseChunksFrom start w scratch
      let buffer ← transpose m scratch buffer w h
      Except.ok (buffer, scratch ++ innerScratch)) := by
  refine Post.bind (mrApplyTwiddles_post m) fun sc4 l4 => Post.bind (transpose_post m h2) fun b4 m4 => ?_
  refine Post.bind (hw.postOop _ _ _) ?_
  rintro ⟨b5, sc5, in5⟩ ⟨m5, l5, n5⟩
  simp only at l5 m5 n5 ⊢
  refine Post.bind (mrSecondReversal_post m _ _) fun _ _ => Post.bind reverseChunksFrom_post fun sc6 l6 =>
    Post.bind (transpose_post m h1) fun b6 m6 => ?_
  refine ⟨by rw [m6, m5, m4], ?_⟩
  show (sc6 ++ in5).length = _
  rw [List.length_append, l6, l5, l4, n5]

theorem mr_tail2_oop_post {w h : Nat} (h1 : w * h < 16 * m.cap) {i o s : List T} :
    Post D (fun r : List T × List T × List T => r.1.length = i.length ∧ r.2.1.length = o.length ∧ r.2.2.length = s.length)
     (do
      let start ← mrSecondReversal m w h
      let input ← reverseChunksFrom start w i
      let output ← transpose m input o w h
      Except.ok (input, output, s)) := by
  refine Post.bind (mrSecondReversal_post m _ _) fun _ _ => Post.bind reverseChunksFrom_post fun i6 k6 =>
    Post.bind (transpose_post m h1) fun o6 l6 => ?_
  exact ⟨k6, l6, rfl⟩

theorem mr_tail_oop_post {wd : Dht T} (hw : SafeDht D wd) {w h : Nat} (h1 : w * h < 16 * m.cap) (h2 : h * w < 16 * m.cap)
    {tw : List (Cx T)} {i o s : List T} :
    Post D (fun r : List T × List T × List T => r.1.length = i.length ∧ r.2.1.length = o.length ∧ r.2.2.length = s.length)
     (do
      let output ← mrApplyTwiddles m w h tw o
      let input ← transpose m output i h w
      let (input, output, scratch) ←
        if s.length > output.length then do
          let (input, scratch) ← wd.processWithScratch input s
          Except.ok (input, output, scratch)
        else do
          let (input, output) ← wd.processWithScratch input output
          Except.ok (input, output, s)
      let start ← mrSecondReversal m w h
      let input ← reverseChunksFrom start w input
      let output ← transpose m input output w h
      Except.ok (input, output, scratch)) := by
  refine Post.bind (mrApplyTwiddles_post m) fun o4 l4 => Post.bind (transpose_post m h2) fun i4 k4 => ?_
  split
  · refine Post.bind (hw.postInplace _ _) ?_
    rintro ⟨i5, s5⟩ ⟨k5, m5⟩
    refine (mr_tail2_oop_post m h1).mono fun r hr => ?_
    exact ⟨by rw [hr.1, k5, k4], by rw [hr.2.1, l4], by rw [hr.2.2, m5]⟩
  · refine Post.bind (hw.postInplace _ _) ?_
    rintro ⟨i5, o5⟩ ⟨k5, m5⟩
    refine (mr_tail2_oop_post m h1).mono fun r hr => ?_
    exact ⟨by rw [hr.1, k5, k4], by rw [hr.2.1, m5, l4], by rw [hr.2.2]⟩

theorem mr_safePerforms {wd hd : Dht T} (hw : SafeDht D wd) (hh : SafeDht D hd) {w h n1 n2 : Nat} (h1 : w * h < 16 * m.cap)
    {tw : List (Cx T)} : SafePerforms D (w * h) n1 n2 (mrPerformInplace m wd hd w h (w * h) tw) (mrPerformOop m wd hd w h tw) := by
  have h2 : h * w < 16 * m.cap := by rw [Nat.mul_comm]; exact h1
  refine ⟨fun b s hb hs => ?_, fun i o s hi ho hs => ?_⟩
  · unfold mrPerformInplace
    refine Post.splitAt_bind fun sc inner g1 g2 g3 => ?_
    refine Post.bind (transpose_post m h1) fun sc1 l1 => Post.bind (mrFirstReversal_post m _ _) fun _ _ =>
      Post.bind reverseChunksFrom_post fun sc2 l2 => ?_
    split
    · refine Post.bind (hh.postInplace _ _) ?_
      rintro ⟨sc3, in3⟩ ⟨l3, m3⟩
      refine (mr_tail_inplace_post m hw h1 h2).mono fun r hr => ⟨by rw [hr.1, hb], ?_⟩
      simp only at l3 m3
      rw [hr.2, l3, l2, l1, m3, g1, g2]; omega
    · refine Post.bind (hh.postInplace _ _) ?_
      rintro ⟨sc3, b3⟩ ⟨l3, m3⟩
      refine (mr_tail_inplace_post m hw h1 h2).mono fun r hr => ⟨by rw [hr.1, m3, hb], ?_⟩
      simp only at l3 m3
      rw [hr.2, l3, l2, l1, g1, g2]; omega
  · unfold mrPerformOop
    refine Post.bind (transpose_post m h1) fun o1 l1 => Post.bind (mrFirstReversal_post m _ _) fun _ _ =>
      Post.bind reverseChunksFrom_post fun o2 l2 => ?_
    split
    · refine Post.bind (hh.postInplace _ _) ?_
      rintro ⟨o3, s3⟩ ⟨l3, m3⟩
      refine (mr_tail_oop_post m hw h1 h2).mono fun r hr => ⟨by rw [hr.1, hi], ?_, by rw [hr.2.2, m3, hs]⟩
      rw [hr.2.1, l3, l2, l1, ho]
    · refine Post.bind (hh.postInplace _ _) ?_
      rintro ⟨o3, i3⟩ ⟨l3, m3⟩
      refine (mr_tail_oop_post m hw h1 h2).mono fun r hr => ⟨by rw [hr.1, m3, hi], ?_, by rw [hr.2.2, hs]⟩
      rw [hr.2.1, l3, l2, l1, ho]

/-- A table that fits into memory is the table of a product that fits into a `usize`. -/
theorem mul_lt_of_table {w h : Nat} (hw : w < 16 * m.cap) (hh : h < 16 * m.cap) (ht : w / 2 * (h / 2) < m.cap) : w * h < 16 * m.cap := by
  rcases Nat.lt_or_ge w 2 with h2 | h2
  · have : w * h ≤ 1 * h := Nat.mul_le_mul_right _ (by omega)
    omega
  rcases Nat.lt_or_ge h 2 with h3 | h3
  · have : w * h ≤ w * 1 := Nat.mul_le_mul_left _ (by omega)
    omega
  have : w * h ≤ (3 * (w / 2)) * (3 * (h / 2)) := Nat.mul_le_mul (by omega) (by omega)
  have e : (3 * (w / 2)) * (3 * (h / 2)) = 9 * (w / 2 * (h / 2)) := by ring
  omega

theorem mixedRadix_sound {w h : Dht T} (hw : Sound m D w) (hh : Sound m D h) : Post D (Sound m D) (mixedRadix m w h) := by
  have w64 := hw.len
  have h64 := hh.len
  have hcap := le_cap m
  unfold mixedRadix
  simp only
  refine Post.bind (mul_post m _ _) fun len hlen => ?_
  rw [add_eq m (by omega), ok_bind, add_eq m (by omega), ok_bind]
  refine Post.bind (mul_post m _ _) fun cap _ => Post.bind (allocate_post m _) fun _ _ => ?_
  refine Post.bind (mapM_post (fun c : List (Cx T) => c.length = h.len / 2) fun row _ => ?_) fun tw htw => ?_
  · exact (mapM_post (fun _ => True) fun _ _ => eighthTwiddle_post m).mono fun l hl => by simpa using hl.1
  refine Post.bind (allocate_post m _) fun _ hc => Post.bind (add_post m _ _) fun n _ => ?_
  have hc : w.len / 2 * (h.len / 2) < m.cap := by
    rw [List.length_flatten, List.map_congr_left htw.2, List.map_const', List.sum_replicate, smul_eq_mul, htw.1] at hc
    simpa using hc
  have h1 := mul_lt_of_table m w64 h64 hc
  rw [Nat.mod_eq_of_lt h1] at hlen
  subst hlen
  exact ⟨boilerplateDht_safe fun _ => mr_safePerforms m hw.safe hh.safe h1, h1⟩

end MixedRadix

/-! ## src/scalar/radix4.rs: `Radix4` -/

section Radix4

variable [Zero T] [Add T] [Sub T] [Mul T] [Neg T] [FftNum T]

theorem radix4_sound (n : Nat) : Post D (Sound m D) (radix4 m T n) := by
  by_cases hn : n < m.cap
  · rw [radix4_eq m hn]
    rcases hr : RustDHT.radix4 T n with e | d
    · have := radix4_safe (T := T) (D := D) n
      rw [hr] at this
      match e with
      | .panic _ => trivial
      | .ub => exact this
      | .diverge => exact this
    · have hs := radix4_safe (T := T) (D := D) n
      rw [hr] at hs
      refine ⟨hs, ?_⟩
      have := plan_len (T := T) (.radix4 n) d hr
      rw [this]
      show n < 16 * m.cap
      omega
  · unfold radix4
    refine Post.bind Post.assert fun _ _ => ?_
    simp only
    refine Post.bind (mul_post m _ _) fun b _ => ?_
    split
    · trivial
    · exact Post.bind (allocate_post m n) fun _ h => absurd h hn

end Radix4

/-! ## src/scalar/split_radix.rs -/

section SplitRadix

variable [Zero T] [Add T] [Sub T] [Mul T] [Neg T] [FftNum T]

/-- The lengths may wrap around: then the object has the length `4 * q` for a `q` that is not the length of the inner object, and is
safe all the same. -/
theorem splitRadix_sound {q h : Dht T} (hq : Sound m D q) (hh : Sound m D h) : Post D (Sound m D) (splitRadix m q h) := by
  unfold splitRadix
  simp only
  refine Post.bind (mul_post m _ _) fun q2 hq2 => Post.bind Post.assert fun _ he => ?_
  refine Post.bind (mul_post m _ _) fun len hlen => ?_
  have hcap := le_cap m
  have h64 : len < 16 * m.cap := hlen ▸ Nat.mod_lt _ (by omega)
  obtain ⟨n, hn⟩ : ∃ n, len = 4 * n := ⟨len / 4, by rcases cap_cases m with hc | hc <;> rw [hc] at hlen <;> omega⟩
  rw [add_eq m (by omega), ok_bind, mul_eq m (by omega), ok_bind]
  refine Post.bind (allocate_post m _) fun _ _ => ?_
  rw [srTable_eq m h64, ok_bind, ← List.flatMap_def]
  refine ⟨?_, h64⟩
  rw [boilerplateDht_congr (fun _ c s _ => srPerformInplace_eq m h64 _ c s)
    (fun _ c1 c2 s _ hc2 => srPerformOop_eq m hq.safe hh.safe h64 _ c1 c2 s hc2)]
  subst hn
  have he : h.len = q2 := by simpa using he
  exact boilerplateDht_safe fun hpos => sr_safePerforms hq.safe hh.safe
    (by rcases cap_cases m with hc | hc <;> rw [hc] at hlen hq2 <;> omega) (by rcases cap_cases m with hc | hc <;> rw [hc] at hlen hq2 <;> omega)

end SplitRadix

/-! ## src/math_utils.rs and src/scalar/raders_algorithm.rs -/

theorem modularExponentLoop_post (p e : Nat) : ∀ r b, Post D (fun _ => True) (modularExponentLoop m p r b e) := by
  induction e using Nat.strongRecOn with
  | ind e ih =>
    intro r b
    rw [modularExponentLoop]
    split
    · refine Post.bind (P := fun _ => True) ?_ fun r' _ => ?_
      · split
        · exact Post.bind (mul_post m.u64 _ _) fun _ _ => remU64_post _ _
        · trivial
      · exact Post.bind (mul_post m.u64 _ _) fun _ _ => Post.bind (remU64_post _ _) fun _ _ => ih _ (by omega) _ _
    · trivial

theorem factorLimit_post (n : Nat) : Post D (fun _ => True) (factorLimit m n) := Post.true_of (add_post m.u64 _ _)

theorem stripFactor_post' (hD : D) (d n : Nat) : Post D (fun _ => True) (stripFactor d n) := by
  fun_induction stripFactor d n with
  | case1 => trivial
  | case2 => exact hD
  | case3 _ _ _ _ ih => exact ih
  | case4 => trivial

theorem factorLoop_post (hD : D) (n d l : Nat) (r : List Nat) : Post D (fun _ => True) (factorLoop m n d l r) := by
  induction n using Nat.strongRecOn generalizing d l r with
  | ind n ih =>
    induction hk : l - d using Nat.strongRecOn generalizing d r with
    | ind k ihk =>
      rw [factorLoop]
      split
      · next h =>
        have ha := add_post (D := D) m.u64 d 2
        split
        · next e he =>
          rw [he] at ha
          match e with
          | .panic _ => trivial
          | .ub => exact ha
          | .diverge => exact ha
        · next next he =>
          split
          · next hn =>
            split
            · next hm =>
              have hs := stripFactor_post' hD d n
              split
              · next e he =>
                rw [he] at hs
                match e with
                | .panic _ => trivial
                | .ub => exact hs
                | .diverge => exact hs
              · next n' he =>
                exact Post.bind (factorLimit_post m _) fun _ _ => ih n' (stripFactor_lt _ _ _ he hm) _ _ _
            · exact ihk (l - next) (by omega) _ _ rfl
          · exact hD
      · trivial

theorem distinctPrimeFactors_post (hD : D) (n : Nat) : Post D (fun _ => True) (distinctPrimeFactors m n) := by
  unfold distinctPrimeFactors
  refine Post.bind (P := fun _ => True) ?_ fun r _ => ?_
  · split
    · exact Post.bind (stripFactor_post' hD _ _) fun _ _ => trivial
    · trivial
  · obtain ⟨n, res⟩ := r
    simp only
    split
    · refine Post.bind (factorLimit_post m _) fun _ _ => Post.bind (factorLoop_post m hD _ _ _ _) ?_
      rintro ⟨a, b⟩ _
      simp only
      split <;> trivial
    · trivial

theorem rejectRoot_post (p r : Nat) : ∀ es, Post D (fun _ => True) (rejectRoot m p r es)
  | [] => trivial
  | _ :: es => Post.bind (modularExponentLoop_post m _ _ _ _) fun v _ => by
      split
      · trivial
      · exact rejectRoot_post p r es

theorem searchRoot_post (p : Nat) (es : List Nat) : ∀ rs, Post D (fun _ => True) (searchRoot m p es rs)
  | [] => trivial
  | r :: rs => Post.bind (rejectRoot_post m p r es) fun v _ => by
      split
      · exact searchRoot_post p es rs
      · trivial

theorem primitiveRoot_post (hD : D) (p : Nat) : Post D (fun _ => True) (primitiveRoot m p) := by
  unfold primitiveRoot
  refine Post.bind (sub_post m.u64 _ _) fun _ _ => Post.bind (distinctPrimeFactors_post m hD _) fun _ _ =>
    Post.bind (mapM_post (fun _ => True) fun q _ => ?_) fun _ _ => searchRoot_post m _ _ _
  by_cases h : q = 0
  · simp only [if_pos h, panic_bind]
    trivial
  · simp only [if_neg h]
    exact Post.bind (sub_post m.u64 _ _) fun _ _ => trivial

theorem egcdStep_post (q : Int) (p : Int × Int) : Post D (fun _ => True) (egcdStep m q p) :=
  Post.bind (i64_post m _) fun _ _ => Post.bind (i64_post m _) fun _ _ => trivial

theorem egcdLoop_post (hD : D) (fuel : Nat) : ∀ r s t, Post D (fun _ => True) (egcdLoop m fuel r s t) := by
  induction fuel with
  | zero => intro r s t; exact hD
  | succ fuel ih =>
    intro r s t
    rw [egcdLoop]
    split
    · trivial
    · exact Post.bind (i64_post .debug _) fun _ _ => Post.bind (egcdStep_post m _ _) fun _ _ =>
        Post.bind (egcdStep_post m _ _) fun _ _ => Post.bind (egcdStep_post m _ _) fun _ _ => ih _ _ _

theorem rootInverse_post (hD : D) (g p : Nat) : Post D (fun _ => True) (rootInverse m g p) := by
  unfold rootInverse egcdX
  refine Post.bind (P := fun _ => True) (Post.bind (egcdLoop_post m hD _ _ _ _) ?_) fun x _ => ?_
  · rintro ⟨r, s⟩ _
    simp only
    split
    · trivial
    · exact i64_post m _
  · split
    · trivial
    · exact Post.bind (i64_post m _) fun _ _ => trivial

section Raders

variable [Zero T] [Add T] [Sub T] [Mul T] [FftNum T]

theorem stepIndex_post (a f l : Nat) : Post D (fun _ => True) (stepIndex m a f l) :=
  Post.bind (mul_post m _ _) fun _ _ => remU64_post _ _

theorem radersKernelInput_post {n l g : Nat} : Post D (fun _ => True) (radersKernelInput m T n l g) := by
  unfold radersKernelInput
  simp only
  refine Post.bind (Post.forRange (fun _ => True) trivial ?_) fun r hr => trivial
  rintro i ⟨a, t⟩ _ _ _
  exact Post.setI_bind fun a' _ => Post.bind (stepIndex_post m _ _ _) fun _ _ => trivial

theorem radersTwiddles_post {x : List T} : Post D (fun _ => True) (radersTwiddles m x) := by
  unfold radersTwiddles
  simp only
  refine Post.bind (add_post m _ _) fun _ _ => Post.getI_bind fun _ => Post.setI_bind fun tw _ =>
    Post.bind (P := fun _ => True) ?_ fun tw _ => ?_
  · refine Post.forRange (fun _ => True) trivial fun i s _ _ _ => ?_
    exact Post.bind (sub_post m _ _) fun _ _ => Post.getI_bind fun _ => Post.getI_bind fun _ => Post.true_of Post.setI
  · exact Post.getI_bind fun _ => Post.true_of Post.setI

theorem radersGather_post {g l : Nat} {src dst : List T} :
    Post D (fun r => r.length = dst.length) (radersGather m g l src dst) := by
  unfold radersGather
  refine Post.bind (Post.forRange (fun s : List T × Nat => s.1.length = dst.length) rfl ?_) fun r hr => hr
  rintro i ⟨a, t⟩ _ _ ha
  refine Post.bind (sub_post m _ _) fun p _ => Post.getI_bind fun _ => ?_
  exact Post.setI_bind fun a' ha' => Post.bind (stepIndex_post m _ _ _) fun _ _ => by
    show a'.length = _
    rw [ha', ha]

theorem radersScatter_post {g l : Nat} {src dst : List T} :
    Post D (fun r => r.length = dst.length) (radersScatter m g l src dst) := by
  unfold radersScatter
  refine Post.bind (Post.forList (fun s : List T × Nat => s.1.length = dst.length) rfl ?_) fun r hr => hr
  rintro v _ ⟨a, t⟩ ha
  refine Post.bind (sub_post m _ _) fun p _ => ?_
  exact Post.setI_bind fun a' ha' => Post.bind (stepIndex_post m _ _ _) fun _ _ => by
    show a'.length = _
    rw [ha', ha]

theorem radersMulInplace_post {tw : List (Cx T)} {b : List T} :
    Post D (fun r => r.length = b.length) (radersMulInplace m tw b) := by
  unfold radersMulInplace
  simp only
  refine Post.getI_bind fun _ => Post.getI_bind fun _ => Post.setI_bind fun b1 h1 => ?_
  refine Post.bind (Post.forRange (fun s : List T => s.length = b.length) h1 ?_) fun b2 h2 => ?_
  · intro i s _ _ hs
    refine Post.bind (sub_post m _ _) fun _ _ => Post.getI_bind fun _ => Post.getI_bind fun _ => Post.getI_bind fun _ =>
      Post.setI_bind fun s1 e1 => ?_
    exact Post.setI.mono fun s2 e2 => by rw [e2, e1, hs]
  · split
    · exact Post.getI_bind fun _ => Post.getI_bind fun _ => Post.setI.mono fun s2 e2 => by rw [e2, h2]
    · exact h2

theorem radersMulOop_post {tw : List (Cx T)} {o i : List T} :
    Post D (fun r => r.length = i.length) (radersMulOop m tw o i) := by
  unfold radersMulOop
  simp only
  refine Post.getI_bind fun _ => Post.getI_bind fun _ => Post.setI_bind fun b1 h1 => ?_
  refine Post.bind (Post.forRange (fun s : List T => s.length = i.length) h1 ?_) fun b2 h2 => ?_
  · intro j s _ _ hs
    refine Post.bind (sub_post m _ _) fun _ _ => Post.getI_bind fun _ => Post.getI_bind fun _ => Post.getI_bind fun _ =>
      Post.setI_bind fun s1 e1 => ?_
    exact Post.setI.mono fun s2 e2 => by rw [e2, e1, hs]
  · split
    · exact Post.getI_bind fun _ => Post.getI_bind fun _ => Post.setI.mono fun s2 e2 => by rw [e2, h2]
    · exact h2

theorem radersPerformInplace_post {d : Dht T} (hd : SafeDht D d) {l g gi : Nat} {tw : List (Cx T)} {b s : List T} :
    Post D (fun r => r.1.length = b.length ∧ r.2.length = s.length) (radersPerformInplace m d l g gi tw b s) := by
  unfold radersPerformInplace
  match b with
  | [] => trivial
  | b0 :: b =>
    refine Post.bind (sub_post m _ _) fun _ _ => Post.splitAt_bind fun ib ex h1 h2 h3 => ?_
    refine Post.bind (radersGather_post m) fun ib1 e1 => ?_
    refine Post.bind (hd.postInplace _ _) ?_
    rintro ⟨ib2, sc2⟩ ⟨e2, f2⟩
    simp only at e2 f2 ⊢
    refine Post.getI_bind fun _ => Post.bind (radersMulInplace_post m) fun ib3 e3 => ?_
    refine Post.getI_bind fun _ => Post.setI_bind fun ib4 e4 => ?_
    refine Post.bind (hd.postInplace _ _) ?_
    rintro ⟨ib5, sc5⟩ ⟨e5, f5⟩
    simp only at e5 f5 ⊢
    refine Post.bind (radersScatter_post m) fun b6 e6 => ?_
    by_cases hx : ex.length > 0
    · simp only [hx, if_true] at f2 f5 e6 ⊢
      constructor
      · simp [e6]
      · simp only [List.length_append]; omega
    · simp only [hx, if_false] at f2 f5 e6 ⊢
      constructor
      · simp [e6, f5, f2]
      · simp only [List.length_append]; omega

theorem radersPerformOop_post {d : Dht T} (hd : SafeDht D d) {l g gi : Nat} {tw : List (Cx T)} {i o s : List T} :
    Post D (fun r => r.1.length = i.length ∧ r.2.1.length = o.length ∧ r.2.2.length = s.length)
      (radersPerformOop m d l g gi tw i o s) := by
  unfold radersPerformOop
  match o, i with
  | [], _ => trivial
  | _ :: _, [] => trivial
  | o0 :: o, i0 :: i =>
    refine Post.bind (radersGather_post m) fun o1 e1 => ?_
    refine Post.bind (hd.postInplace _ _) ?_
    rintro ⟨o2, sc2⟩ ⟨e2, f2⟩
    simp only at e2 f2 ⊢
    refine Post.getI_bind fun _ => Post.bind (radersMulOop_post m) fun i3 e3 => ?_
    refine Post.getI_bind fun _ => Post.setI_bind fun i4 e4 => ?_
    by_cases hx : s.length > 0
    · simp only [hx, if_true] at f2 e3 ⊢
      have hx' : sc2.length > 0 := by omega
      simp only [hx', if_true]
      refine Post.bind (hd.postInplace _ _) ?_
      rintro ⟨i5, sc5⟩ ⟨e5, f5⟩
      simp only at e5 f5 ⊢
      refine Post.bind (radersScatter_post m) fun o6 e6 => ?_
      exact ⟨by simp only [List.length_cons]; omega, by simp only [List.length_cons]; omega, by simp only; omega⟩
    · simp only [hx, if_false] at f2 e3 ⊢
      refine Post.bind (hd.postInplace _ _) ?_
      rintro ⟨i5, sc5⟩ ⟨e5, f5⟩
      simp only at e5 f5 ⊢
      refine Post.bind (radersScatter_post m) fun o6 e6 => ?_
      exact ⟨by simp only [List.length_cons]; omega, by simp only [List.length_cons]; omega, by simp only⟩

theorem raders_sound (hD : D) {d : Dht T} (hd : Sound m D d) : Post D (Sound m D) (raders m d) := by
  unfold raders
  simp only
  refine Post.bind (add_post m _ _) fun len hlen => Post.bind Post.assert fun _ _ => ?_
  refine Post.bind (primitiveRoot_post m hD _) fun root _ => ?_
  match root with
  | none => trivial
  | some root =>
    refine Post.bind (rootInverse_post m hD _ _) fun ri _ => Post.bind (radersKernelInput_post m) fun k _ =>
      Post.bind (hd.safe.process k) fun k2 _ => ?_
    refine Post.bind (radersTwiddles_post m) fun tw _ => Post.bind (add_post m _ _) fun n _ => ?_
    refine ⟨boilerplateDht_safe fun _ => ⟨fun c s hc hs => ?_, fun i o s hi ho hs => ?_⟩, hlen.1⟩
    · exact (radersPerformInplace_post m hd.safe).mono fun r hr => ⟨by rw [hr.1, hc], by rw [hr.2, hs]⟩
    · exact (radersPerformOop_post m hd.safe).mono fun r hr => ⟨by rw [hr.1, hi], by rw [hr.2.1, ho], by rw [hr.2.2, hs]⟩

end Raders

/-! ## Compositions -/

section Plans

variable [Zero T] [Add T] [Sub T] [Mul T] [Neg T] [FftNum T]

theorem build_sound (hD : D) (p : Plan) (hp : p.Usize m) : Post D (Sound m D) (build m T p) := by
  have hcap := le_cap m
  induction p with
  | naive n => exact dhtNaive_sound m (by rw [← size_eq]; exact hp)
  | b1 => exact ⟨butterfly1_safe, by show 1 < 16 * m.cap; omega⟩
  | b2 => exact ⟨bfly_safe (by omega) performs2, by show 2 < 16 * m.cap; omega⟩
  | b3 => exact ⟨bfly_safe (by omega) performs3, by show 3 < 16 * m.cap; omega⟩
  | b4 => exact ⟨bfly_safe (by omega) performs4, by show 4 < 16 * m.cap; omega⟩
  | b5 => exact ⟨bfly_safe (by omega) performs5, by show 5 < 16 * m.cap; omega⟩
  | b6 => exact ⟨bfly_safe (by omega) performs6, by show 6 < 16 * m.cap; omega⟩
  | b8 => exact ⟨bfly_safe (by omega) performs8, by show 8 < 16 * m.cap; omega⟩
  | b9 => exact ⟨bfly_safe (by omega) performs9, by show 9 < 16 * m.cap; omega⟩
  | b16 => exact ⟨bfly_safe (by omega) performs16, by show 16 < 16 * m.cap; omega⟩
  | mixedRadix w h iw ih => exact Post.bind (iw hp.1) fun _ hw => Post.bind (ih hp.2) fun _ hh => mixedRadix_sound m hw hh
  | mr2 h ih => exact Post.bind (ih hp) fun _ hh => mixedRadix2xn_sound m hh
  | mr3 h ih => exact Post.bind (ih hp) fun _ hh => mixedRadix3xn_sound m hh
  | mr4 h ih => exact Post.bind (ih hp) fun _ hh => mixedRadix4xn_sound m hh
  | mr5 h ih => exact Post.bind (ih hp) fun _ hh => mixedRadix5xn_sound m hh
  | mr6 h ih => exact Post.bind (ih hp) fun _ hh => mixedRadix6xn_sound m hh
  | radix4 n => exact radix4_sound m n
  | splitRadix q h iq ih => exact Post.bind (iq hp.1) fun _ hq => Post.bind (ih hp.2) fun _ hh => splitRadix_sound m hq hh
  | raders i ih => exact Post.bind (ih hp) fun _ hh => raders_sound m hD hh

theorem buildTree_sound (hD : D) (t : Tree T) (ht : t.Usize m) (hu : ∀ d ∈ t.users, SafeDht D d) :
    Post D (Sound m D) (buildTree m t) := by
  induction t with
  | plan p => exact build_sound m hD p ht
  | user d => exact ⟨hu d (by simp [Tree.users]), by rw [← size_eq]; exact ht⟩
  | mixedRadix w h iw ih =>
    exact Post.bind (iw ht.1 fun d hd => hu d (by simp [Tree.users, hd])) fun _ hw =>
      Post.bind (ih ht.2 fun d hd => hu d (by simp [Tree.users, hd])) fun _ hh => mixedRadix_sound m hw hh
  | mr2 h ih => exact Post.bind (ih ht hu) fun _ hh => mixedRadix2xn_sound m hh
  | mr3 h ih => exact Post.bind (ih ht hu) fun _ hh => mixedRadix3xn_sound m hh
  | mr4 h ih => exact Post.bind (ih ht hu) fun _ hh => mixedRadix4xn_sound m hh
  | mr5 h ih => exact Post.bind (ih ht hu) fun _ hh => mixedRadix5xn_sound m hh
  | mr6 h ih => exact Post.bind (ih ht hu) fun _ hh => mixedRadix6xn_sound m hh
  | splitRadix q h iq ih =>
    exact Post.bind (iq ht.1 fun d hd => hu d (by simp [Tree.users, hd])) fun _ hq =>
      Post.bind (ih ht.2 fun d hd => hu d (by simp [Tree.users, hd])) fun _ hh => splitRadix_sound m hq hh
  | raders i ih => exact Post.bind (ih ht hu) fun _ hh => raders_sound m hD hh

end Plans

end RustDHT.Machine
