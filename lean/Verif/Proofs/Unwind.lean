import Verif.Proofs.Plan
import Verif.Spec.Unwind

/-! # What a call that panics leaves in the slices: proofs -/

namespace RustDHT

variable {σ T α : Type}

/-! ## Loops over a list with a remainder -/

theorem wholeLength_le {n : Nat} (l : List T) : wholeLength n l ≤ l.length := Nat.mul_div_le _ _

theorem dvd_wholeLength {n : Nat} (l : List T) : n ∣ wholeLength n l := dvd_mul_right _ _

theorem le_wholeLength {n : Nat} {l : List T} (hn : 0 < n) (h : n ≤ l.length) : n ≤ wholeLength n l :=
  Nat.le_mul_of_pos_right _ (Nat.div_pos h hn)

theorem length_rest_lt {n : Nat} {l : List T} (hn : 0 < n) : l.length - wholeLength n l < n := by
  have h1 : l.length - wholeLength n l = l.length % n := by
    have := Nat.mod_add_div l.length n
    rw [wholeLength]; omega
  rw [h1]; exact Nat.mod_lt _ hn

theorem length_rest_pos {n : Nat} {l : List T} (hd : ¬ n ∣ l.length) : wholeLength n l < l.length := by
  rcases lt_or_eq_of_le (wholeLength_le (n := n) l) with h | h
  · exact h
  · exact absurd (h ▸ dvd_wholeLength l) hd

theorem iterChunks_flag {n : Nat} (hn : 0 < n) {f : List T → σ → Res (List T × σ)} {ok : Bool} (b : List T) :
    ∀ {s s' b'}, n ∣ b.length → iterChunks n f b s = .ok (ok, b', s') → ok = true := by
  induction b using chunk_induction hn with
  | hlt l hl =>
    intro s s' b' hd e
    rw [iterChunks, if_neg (by omega)] at e
    have := Nat.eq_zero_of_dvd_of_lt hd hl
    cases e; simpa using this
  | hge l hl ih =>
    intro s s' b' hd e
    rw [iterChunks, if_pos hl, if_neg (by omega)] at e
    obtain ⟨⟨h, s1⟩, _, e⟩ := bind_eq_ok e
    obtain ⟨⟨r, t, s2⟩, e2, e⟩ := bind_eq_ok e
    cases e
    exact ih ((dvd_drop_iff hl).2 hd) e2

theorem iterChunks_append {n : Nat} (hn : 0 < n) {f : List T → σ → Res (List T × σ)} {ok : Bool} {r : List T}
    (hr : r.length < n) (b : List T) :
    ∀ {s s' b'}, n ∣ b.length → iterChunks n f b s = .ok (ok, b', s') →
      iterChunks n f (b ++ r) s = .ok (r.length == 0, b' ++ r, s') := by
  induction b using chunk_induction hn with
  | hlt l hl =>
    intro s s' b' hd e
    rw [iterChunks, if_neg (by omega)] at e
    have h0 : l = [] := List.length_eq_zero_iff.1 (Nat.eq_zero_of_dvd_of_lt hd hl)
    cases e; subst h0
    rw [iterChunks, if_neg (by simpa using hr)]; rfl
  | hge l hl ih =>
    intro s s' b' hd e
    rw [iterChunks, if_pos hl, if_neg (by omega)] at e
    obtain ⟨⟨h, s1⟩, e1, e⟩ := bind_eq_ok e
    obtain ⟨⟨q, t, s2⟩, e2, e⟩ := bind_eq_ok e
    cases e
    rw [iterChunks, if_pos (by simp; omega), if_neg (by omega), List.take_append_of_le_length hl,
      List.drop_append_of_le_length hl, e1, ok_bind]
    simp only [ih ((dvd_drop_iff hl).2 hd) e2, ok_bind, List.append_assoc]

theorem iterChunksZipped_flag {n : Nat} (hn : 0 < n) {f : List T → List T → σ → Res (List T × List T × σ)} {ok : Bool}
    {b1 b2 : List T} {s s' : σ} {b1' b2' : List T} (hl : b2.length = b1.length) (hd : n ∣ b1.length)
    (e : iterChunksZipped n f b1 b2 s = .ok (ok, b1', b2', s')) : ok = true := by
  have key : ∀ (b1 b2 : List T) {s s' : σ} {b1' b2' : List T} {left : Nat}, b2.length = b1.length → n ∣ b1.length →
      iterChunksZippedLoop n f b1 b2 s = .ok (left, b1', b2', s') → left = 0 := by
    intro b1
    induction b1 using chunk_induction hn with
    | hlt l hl =>
      intro b2 s s' b1' b2' left _ hd e
      rw [iterChunksZippedLoop, if_neg (by omega)] at e
      cases e; exact Nat.eq_zero_of_dvd_of_lt hd hl
    | hge l hl ih =>
      intro b2 s s' b1' b2' left hb hd e
      rw [iterChunksZippedLoop, if_pos (by omega), if_neg (by omega)] at e
      obtain ⟨⟨h1, h2, s1⟩, _, e⟩ := bind_eq_ok e
      obtain ⟨⟨q, t1, t2, s2⟩, e2, e⟩ := bind_eq_ok e
      cases e
      exact ih _ (by simp; omega) ((dvd_drop_iff hl).2 hd) e2
  rw [iterChunksZipped, if_neg (by omega), if_neg (by omega)] at e
  obtain ⟨⟨left, x1, x2, x3⟩, e1, e⟩ := bind_eq_ok e
  have := key b1 b2 hl hd e1
  cases e; simp [this]

theorem iterChunksZipped_append {n : Nat} (hn : 0 < n) {f : List T → List T → σ → Res (List T × List T × σ)} {ok : Bool}
    {b1 b2 r1 r2 : List T} {s s' : σ} {b1' b2' : List T} (hl : b2.length = b1.length) (hr : r1.length < n)
    (hr' : r2.length = r1.length) (hd : n ∣ b1.length)
    (e : iterChunksZipped n f b1 b2 s = .ok (ok, b1', b2', s')) :
    iterChunksZipped n f (b1 ++ r1) (b2 ++ r2) s = .ok (r1.length == 0, b1' ++ r1, b2' ++ r2, s') := by
  have key : ∀ (b1 b2 : List T) {s s' : σ} {b1' b2' : List T} {left : Nat}, b2.length = b1.length → n ∣ b1.length →
      iterChunksZippedLoop n f b1 b2 s = .ok (left, b1', b2', s') →
      iterChunksZippedLoop n f (b1 ++ r1) (b2 ++ r2) s = .ok (r1.length, b1' ++ r1, b2' ++ r2, s') := by
    intro b1
    induction b1 using chunk_induction hn with
    | hlt l hl =>
      intro b2 s s' b1' b2' left hb hd e
      rw [iterChunksZippedLoop, if_neg (by omega)] at e
      have h0 : l = [] := List.length_eq_zero_iff.1 (Nat.eq_zero_of_dvd_of_lt hd hl)
      have h1 : b2 = [] := List.length_eq_zero_iff.1 (by rw [hb, h0]; rfl)
      cases e; subst h0 h1
      rw [iterChunksZippedLoop, if_neg (by simp; omega)]; rfl
    | hge l hl ih =>
      intro b2 s s' b1' b2' left hb hd e
      rw [iterChunksZippedLoop, if_pos (by omega), if_neg (by omega)] at e
      obtain ⟨⟨h1, h2, s1⟩, e1, e⟩ := bind_eq_ok e
      obtain ⟨⟨q, t1, t2, s2⟩, e2, e⟩ := bind_eq_ok e
      cases e
      rw [iterChunksZippedLoop, if_pos (by simp; omega), if_neg (by omega), List.take_append_of_le_length hl,
        List.drop_append_of_le_length hl, List.take_append_of_le_length (by omega),
        List.drop_append_of_le_length (by omega), e1, ok_bind]
      simp only [ih (b2.drop n) (by simp; omega) ((dvd_drop_iff hl).2 hd) e2, ok_bind, List.append_assoc]
  rw [iterChunksZipped, if_neg (by omega), if_neg (by omega)] at e
  obtain ⟨⟨left, x1, x2, x3⟩, e1, e⟩ := bind_eq_ok e
  cases e
  rw [iterChunksZipped, if_neg (by simp; omega), if_neg (by simp; omega), key b1 b2 hl hd e1, ok_bind]

/-! ## The two models agree -/

theorem forget_check (r : Res Unit) (a : α) : (Seen.check r a).forget = (r >>= fun _ => .ok a) := by
  rcases r with (_ | _ | _) | _ <;> rfl

theorem forget_afterLoop (ok : Bool) (r : Res Unit) (a : α) :
    (Seen.afterLoop ok r a).forget = (do
      if !ok then
        r
      .ok a) := by
  cases ok
  · exact forget_check r a
  · rfl

theorem Macro.forget_seenInplace (m : Macro T) (b s : List T) :
    (m.seenInplace b s).forget = m.object.processWithScratch b s := by
  cases m with
  | dht len is os pin poop =>
    simp only [seenInplace, object, boilerplateDht]
    split_ifs
    · rfl
    · exact forget_check _ _
    · cases h : iterChunks len pin b (s.take is) with
      | error f => rfl
      | ok r =>
        obtain ⟨ok, b', s'⟩ := r
        exact forget_afterLoop _ _ _
  | oop len p =>
    simp only [seenInplace, object, boilerplateDhtOop]
    split_ifs
    · rfl
    · exact forget_check _ _
    · generalize iterChunks len _ b (s.take len) = r
      rcases r with f | ⟨ok, b', s'⟩
      · rfl
      · exact forget_afterLoop _ _ _
  | butterfly len c =>
    simp only [seenInplace, object, boilerplateFftButterfly]
    split_ifs
    · exact forget_check _ _
    · generalize iterChunks len _ b () = r
      rcases r with f | ⟨ok, b', s'⟩
      · rfl
      · exact forget_afterLoop _ _ _
  | butterfly1 => rfl

theorem Macro.forget_seenOop (m : Macro T) (i o s : List T) :
    (m.seenOop i o s).forget = m.object.processOop i o s := by
  cases m with
  | dht len is os pin poop =>
    simp only [seenOop, object, boilerplateDht]
    split_ifs
    · rfl
    · exact forget_check _ _
    · cases h : iterChunksZipped len poop i o (s.take os) with
      | error f => rfl
      | ok r =>
        obtain ⟨ok, b', s'⟩ := r
        exact forget_afterLoop _ _ _
  | oop len p =>
    simp only [seenOop, object, boilerplateDhtOop]
    split_ifs
    · rfl
    · exact forget_check _ _
    · generalize iterChunksZipped len _ i o () = r
      rcases r with f | ⟨ok, i', o', s'⟩
      · rfl
      · exact forget_afterLoop _ _ _
  | butterfly len c =>
    simp only [seenOop, object, boilerplateFftButterfly]
    split_ifs
    · exact forget_check _ _
    · generalize iterChunksZipped len _ i o () = r
      rcases r with f | ⟨ok, i', o', s'⟩
      · rfl
      · exact forget_afterLoop _ _ _
  | butterfly1 =>
    simp only [seenOop, object, RustDHT.butterfly1]
    split_ifs <;> rfl

/-! ## What is left -/

theorem check_inplace {len is b s : Nat} (hlen : 0 < len) {k : PanicKind} (h : inplaceViolation len is b s = some k)
    (a : α) : Seen.check (dhtErrorInplace len b is s) a = .unwound k a := by
  rw [dhtErrorInplace_violation hlen h]; rfl

theorem check_oop {len os i o s : Nat} (hlen : 0 < len) {k : PanicKind} (h : oopViolation len os i o s = some k)
    (a : α) : Seen.check (dhtErrorOutofplace len i o os s) a = .unwound k a := by
  rw [dhtErrorOutofplace_violation hlen h]; rfl

theorem afterLoop_inplace {len is b : Nat} (hlen : 0 < len) (h : len ≤ b) (hd : ¬ len ∣ b) (a : α) :
    Seen.afterLoop false (dhtErrorInplace len b is is) a = .unwound .notMultiple a := by
  refine check_inplace hlen ?_ a
  rw [inplaceViolation, if_neg (by omega), if_pos hd]

theorem afterLoop_oop {len os i : Nat} (hlen : 0 < len) (h : len ≤ i) (hd : ¬ len ∣ i) (a : α) :
    Seen.afterLoop false (dhtErrorOutofplace len i i os os) a = .unwound .notMultiple a := by
  refine check_oop hlen ?_ a
  rw [oopViolation, if_neg (by simp), if_neg (by omega), if_pos hd]

/-- If the loop over the complete chunks is fine, so is the loop over the whole buffer, and it reports the remainder. -/
theorem iterChunks_rest {n : Nat} (hn : 0 < n) {f : List T → σ → Res (List T × σ)} {b : List T} {ok : Bool} {b' : List T}
    {s s' : σ} (hd : ¬ n ∣ b.length) (e : iterChunks n f (b.take (wholeLength n b)) s = .ok (ok, b', s')) :
    iterChunks n f b s = .ok (false, b' ++ b.drop (wholeLength n b), s') := by
  have h := iterChunks_append hn (r := b.drop (wholeLength n b)) (by rw [List.length_drop]; exact length_rest_lt hn) _
    (by rw [List.length_take, min_eq_left (wholeLength_le b)]; exact dvd_wholeLength b) e
  rw [List.take_append_drop] at h
  rw [h]
  have := length_rest_pos hd
  have h0 : ((b.drop (wholeLength n b)).length == 0) = false := by simp; omega
  rw [h0]

theorem iterChunksZipped_rest {n : Nat} (hn : 0 < n) {f : List T → List T → σ → Res (List T × List T × σ)} {i o : List T}
    {ok : Bool} {i' o' : List T} {s s' : σ} (hl : o.length = i.length) (hd : ¬ n ∣ i.length)
    (e : iterChunksZipped n f (i.take (wholeLength n i)) (o.take (wholeLength n i)) s = .ok (ok, i', o', s')) :
    iterChunksZipped n f i o s
      = .ok (false, i' ++ i.drop (wholeLength n i), o' ++ o.drop (wholeLength n i), s') := by
  have hw := wholeLength_le (n := n) i
  have h := iterChunksZipped_append hn (r1 := i.drop (wholeLength n i)) (r2 := o.drop (wholeLength n i))
    (by simp; omega) (by rw [List.length_drop]; exact length_rest_lt hn) (by simp; omega)
    (by rw [List.length_take, min_eq_left hw]; exact dvd_wholeLength i) e
  rw [List.take_append_drop, List.take_append_drop] at h
  rw [h]
  have := length_rest_pos hd
  have h0 : ((i.drop (wholeLength n i)).length == 0) = false := by simp; omega
  rw [h0]

theorem leavesBehind_of_implements {m : Macro T} {f : List T → List T} (hm : m ≠ .butterfly1) (hi : Implements m.object f)
    (hlen : 0 < m.object.len) : LeavesBehind m.object f m.seenInplace m.seenOop := by
  have take_len : ∀ b : List T, (b.take (wholeLength m.object.len b)).length = wholeLength m.object.len b := by
    intro b; rw [List.length_take, min_eq_left (wholeLength_le b)]
  have hin : ∀ b s : List T, m.object.len ≤ b.length → m.object.inplaceScratchLen ≤ s.length →
      ∃ s', m.object.processWithScratch (b.take (wholeLength m.object.len b)) s
          = .ok (mapChunks m.object.len f (b.take (wholeLength m.object.len b)), s') ∧ s'.length = s.length ∧
        s'.drop m.object.inplaceScratchLen = s.drop m.object.inplaceScratchLen := fun b s h1 h2 =>
    hi.inplace _ s (by rw [take_len]; exact le_wholeLength hlen h1) (by rw [take_len]; exact dvd_wholeLength b) h2
  have hoop : ∀ i o s : List T, o.length = i.length → m.object.len ≤ i.length → m.object.oopScratchLen ≤ s.length →
      ∃ i' s', m.object.processOop (i.take (wholeLength m.object.len i)) (o.take (wholeLength m.object.len i)) s
          = .ok (i', mapChunks m.object.len f (i.take (wholeLength m.object.len i)), s') ∧
        i'.length = wholeLength m.object.len i ∧ s'.length = s.length ∧
        s'.drop m.object.oopScratchLen = s.drop m.object.oopScratchLen := fun i o s h0 h1 h2 => by
    have := hi.oop (i.take (wholeLength m.object.len i)) (o.take (wholeLength m.object.len i)) s
      (by simp [h0]) (by rw [take_len]; exact le_wholeLength hlen h1) (by rw [take_len]; exact dvd_wholeLength i) h2
    rwa [take_len] at this
  cases m with
  | butterfly1 => exact absurd rfl hm
  | dht len is os pin poop =>
    simp only [Macro.object, boilerplateDht] at hlen hin hoop take_len
    refine ⟨?_, ?_, ?_, ?_⟩
    · intro b s k hk h
      simp only [Macro.object, boilerplateDht] at hk h
      simp only [Macro.seenInplace]
      rw [if_neg (by omega), if_pos (by omega), check_inplace hlen hk]
    · intro b s h1 h2 h3
      simp only [Macro.object, boilerplateDht] at h1 h2 h3 ⊢
      obtain ⟨s', e, hs1, hs2⟩ := hin b s h1 h3
      have hw := le_wholeLength hlen h1
      rw [if_neg (by omega), if_neg (by rw [take_len]; omega)] at e
      obtain ⟨⟨ok, b', t'⟩, e1, e⟩ := bind_eq_ok e
      have hok := iterChunks_flag hlen _ (by rw [take_len]; exact dvd_wholeLength b) e1
      subst hok
      have e : (b', t' ++ s.drop is) = (mapChunks len f (b.take (wholeLength len b)), s') := Except.ok.inj e
      obtain ⟨rfl, rfl⟩ := Prod.mk.inj e
      refine ⟨_, ?_, hs1, hs2⟩
      simp only [Macro.seenInplace]
      rw [if_neg (by omega), if_neg (by omega), iterChunks_rest hlen h2 e1]
      exact afterLoop_inplace hlen h1 h2 _
    · intro i o s k hk h
      simp only [Macro.object, boilerplateDht] at hk h
      simp only [Macro.seenOop]
      rw [if_neg (by omega), if_pos (by omega), check_oop hlen hk]
    · intro i o s h0 h1 h2 h3
      simp only [Macro.object, boilerplateDht] at h1 h2 h3 ⊢
      obtain ⟨i', s', e, hi1, hs1, hs2⟩ := hoop i o s h0 h1 h3
      have hw := le_wholeLength hlen h1
      have hlo : (o.take (wholeLength len i)).length = wholeLength len i := by
        have := wholeLength_le (n := len) i
        simp; omega
      rw [if_neg (by omega), if_neg (by rw [take_len, hlo]; omega)] at e
      obtain ⟨⟨ok, b', c', t'⟩, e1, e⟩ := bind_eq_ok e
      have hok := iterChunksZipped_flag hlen (by rw [take_len, hlo]) (by rw [take_len]; exact dvd_wholeLength i) e1
      subst hok
      have e : (b', c', t' ++ s.drop os) = (i', mapChunks len f (i.take (wholeLength len i)), s') := Except.ok.inj e
      obtain ⟨e2, e⟩ := Prod.mk.inj e
      obtain ⟨e3, e4⟩ := Prod.mk.inj e
      subst e2 e3 e4
      refine ⟨_, _, ?_, hi1, hs1, hs2⟩
      simp only [Macro.seenOop]
      rw [if_neg (by omega), if_neg (by omega), iterChunksZipped_rest hlen h0 h2 e1, h0]
      exact afterLoop_oop hlen h1 h2 _
  | oop len p =>
    simp only [Macro.object, boilerplateDhtOop] at hlen hin hoop take_len
    refine ⟨?_, ?_, ?_, ?_⟩
    · intro b s k hk h
      simp only [Macro.object, boilerplateDhtOop] at hk h
      simp only [Macro.seenInplace]
      rw [if_neg (by omega), if_pos (by omega), check_inplace hlen hk]
    · intro b s h1 h2 h3
      simp only [Macro.object, boilerplateDhtOop] at h1 h2 h3 ⊢
      obtain ⟨s', e, hs1, hs2⟩ := hin b s h1 h3
      have hw := le_wholeLength hlen h1
      rw [if_neg (by omega), if_neg (by rw [take_len]; omega)] at e
      obtain ⟨⟨ok, b', t'⟩, e1, e⟩ := bind_eq_ok e
      have hok := iterChunks_flag hlen _ (by rw [take_len]; exact dvd_wholeLength b) e1
      subst hok
      have e : (b', t' ++ s.drop len) = (mapChunks len f (b.take (wholeLength len b)), s') := Except.ok.inj e
      obtain ⟨rfl, rfl⟩ := Prod.mk.inj e
      refine ⟨_, ?_, hs1, hs2⟩
      simp only [Macro.seenInplace]
      rw [if_neg (by omega), if_neg (by omega), iterChunks_rest hlen h2 e1]
      exact afterLoop_inplace hlen h1 h2 _
    · intro i o s k hk h
      simp only [Macro.object, boilerplateDhtOop] at hk h
      have hk' : oopViolation len 0 i.length o.length 0 = some k := by
        simpa [oopViolation] using hk
      simp only [Macro.seenOop]
      rw [if_neg (by omega), if_pos (by omega), check_oop hlen hk']
    · intro i o s h0 h1 h2 h3
      simp only [Macro.object, boilerplateDhtOop] at h1 h2 h3 ⊢
      obtain ⟨i', s', e, hi1, hs1, hs2⟩ := hoop i o s h0 h1 h3
      have hw := le_wholeLength hlen h1
      have hlo : (o.take (wholeLength len i)).length = wholeLength len i := by
        have := wholeLength_le (n := len) i
        simp; omega
      rw [if_neg (by omega), if_neg (by rw [take_len, hlo]; omega)] at e
      obtain ⟨⟨ok, b', c', t'⟩, e1, e⟩ := bind_eq_ok e
      have hok := iterChunksZipped_flag hlen (by rw [take_len, hlo]) (by rw [take_len]; exact dvd_wholeLength i) e1
      subst hok
      have e : (b', c', s) = (i', mapChunks len f (i.take (wholeLength len i)), s') := Except.ok.inj e
      obtain ⟨e2, e⟩ := Prod.mk.inj e
      obtain ⟨e3, e4⟩ := Prod.mk.inj e
      subst e2 e3 e4
      refine ⟨_, _, ?_, hi1, hs1, hs2⟩
      simp only [Macro.seenOop]
      rw [if_neg (by omega), if_neg (by omega), iterChunksZipped_rest hlen h0 h2 e1, h0]
      exact afterLoop_oop hlen h1 h2 _
  | butterfly len c =>
    simp only [Macro.object, boilerplateFftButterfly] at hlen hin hoop take_len
    refine ⟨?_, ?_, ?_, ?_⟩
    · intro b s k hk h
      simp only [Macro.object, boilerplateFftButterfly] at hk h
      have hk' : inplaceViolation len 0 b.length 0 = some k := by
        simpa [inplaceViolation] using hk
      simp only [Macro.seenInplace]
      rw [if_pos (by omega), check_inplace hlen hk']
    · intro b s h1 h2 h3
      simp only [Macro.object, boilerplateFftButterfly] at h1 h2 h3 ⊢
      obtain ⟨s', e, hs1, hs2⟩ := hin b s h1 h3
      have hw := le_wholeLength hlen h1
      rw [if_neg (by rw [take_len]; omega)] at e
      obtain ⟨⟨ok, b', t'⟩, e1, e⟩ := bind_eq_ok e
      have hok := iterChunks_flag hlen _ (by rw [take_len]; exact dvd_wholeLength b) e1
      subst hok
      have e : (b', s) = (mapChunks len f (b.take (wholeLength len b)), s') := Except.ok.inj e
      obtain ⟨rfl, rfl⟩ := Prod.mk.inj e
      refine ⟨_, ?_, hs1, hs2⟩
      simp only [Macro.seenInplace]
      rw [if_neg (by omega), iterChunks_rest hlen h2 e1]
      exact afterLoop_inplace hlen h1 h2 _
    · intro i o s k hk h
      simp only [Macro.object, boilerplateFftButterfly] at hk h
      have hk' : oopViolation len 0 i.length o.length 0 = some k := by
        simpa [oopViolation] using hk
      simp only [Macro.seenOop]
      rw [if_pos (by omega), check_oop hlen hk']
    · intro i o s h0 h1 h2 h3
      simp only [Macro.object, boilerplateFftButterfly] at h1 h2 h3 ⊢
      obtain ⟨i', s', e, hi1, hs1, hs2⟩ := hoop i o s h0 h1 h3
      have hw := le_wholeLength hlen h1
      have hlo : (o.take (wholeLength len i)).length = wholeLength len i := by
        have := wholeLength_le (n := len) i
        simp; omega
      rw [if_neg (by rw [take_len, hlo]; omega)] at e
      obtain ⟨⟨ok, b', c', t'⟩, e1, e⟩ := bind_eq_ok e
      have hok := iterChunksZipped_flag hlen (by rw [take_len, hlo]) (by rw [take_len]; exact dvd_wholeLength i) e1
      subst hok
      have e : (b', c', s) = (i', mapChunks len f (i.take (wholeLength len i)), s') := Except.ok.inj e
      obtain ⟨e2, e⟩ := Prod.mk.inj e
      obtain ⟨e3, e4⟩ := Prod.mk.inj e
      subst e2 e3 e4
      refine ⟨_, _, ?_, hi1, hs1, hs2⟩
      simp only [Macro.seenOop]
      rw [if_neg (by omega), iterChunksZipped_rest hlen h0 h2 e1, h0]
      exact afterLoop_oop hlen h1 h2 _

/-! ## Every object of the crate comes out of a macro -/

theorem plan_macro [Add T] [Sub T] [Mul T] [Neg T] [Zero T] [FftNum T] {p : Plan} {d : Dht T} (e : p.build T = .ok d) :
    ∃ m : Macro T, m.object = d := by
  cases p with
  | naive n => cases e; exact ⟨.oop _ _, rfl⟩
  | b1 => cases e; exact ⟨.butterfly1, rfl⟩
  | b2 => cases e; exact ⟨.butterfly _ _, rfl⟩
  | b3 => cases e; exact ⟨.butterfly _ _, rfl⟩
  | b4 => cases e; exact ⟨.butterfly _ _, rfl⟩
  | b5 => cases e; exact ⟨.butterfly _ _, rfl⟩
  | b6 => cases e; exact ⟨.butterfly _ _, rfl⟩
  | b8 => cases e; exact ⟨.butterfly _ _, rfl⟩
  | b9 => cases e; exact ⟨.butterfly _ _, rfl⟩
  | b16 => cases e; exact ⟨.butterfly _ _, rfl⟩
  | mixedRadix w h =>
    obtain ⟨_, _, e⟩ := bind_eq_ok e
    obtain ⟨_, _, e⟩ := bind_eq_ok e
    cases e; exact ⟨.dht _ _ _ _ _, rfl⟩
  | mr2 h => obtain ⟨_, _, e⟩ := bind_eq_ok e; cases e; exact ⟨.dht _ _ _ _ _, rfl⟩
  | mr3 h => obtain ⟨_, _, e⟩ := bind_eq_ok e; cases e; exact ⟨.dht _ _ _ _ _, rfl⟩
  | mr4 h => obtain ⟨_, _, e⟩ := bind_eq_ok e; cases e; exact ⟨.dht _ _ _ _ _, rfl⟩
  | mr5 h => obtain ⟨_, _, e⟩ := bind_eq_ok e; cases e; exact ⟨.dht _ _ _ _ _, rfl⟩
  | mr6 h => obtain ⟨_, _, e⟩ := bind_eq_ok e; cases e; exact ⟨.dht _ _ _ _ _, rfl⟩
  | radix4 n =>
    obtain ⟨_, _, e⟩ := bind_eq_ok e
    cases e; exact ⟨.dht _ _ _ _ _, rfl⟩
  | splitRadix q h =>
    obtain ⟨_, _, e⟩ := bind_eq_ok e
    obtain ⟨_, _, e⟩ := bind_eq_ok e
    exact ⟨.dht _ _ _ _ _, (splitRadix_eq e).2.symm⟩
  | raders i =>
    obtain ⟨inner, _, e⟩ := bind_eq_ok e
    unfold RustDHT.raders at e
    obtain ⟨_, _, e⟩ := bind_eq_ok e
    obtain ⟨root, _, e⟩ := bind_eq_ok e
    cases root with
    | none => exact nomatch e
    | some g =>
      obtain ⟨_, _, e⟩ := bind_eq_ok e
      obtain ⟨_, _, e⟩ := bind_eq_ok e
      obtain ⟨_, _, e⟩ := bind_eq_ok e
      cases e; exact ⟨.dht _ _ _ _ _, rfl⟩

end RustDHT
