import Verif.Spec.Memory
import Verif.Proofs.Stateful

/-! # The combinators respect relations between memories -/

namespace RustDHT

variable {σ τ T α β γ δ : Type} {R : σ → τ → Prop}

theorem Agree.bind {Q : α → β → Prop} {P : γ → δ → Prop} {A : Res α} {B : Res β} {f : α → Res γ} {g : β → Res δ}
    (h : Agree Q A B) (hf : ∀ a b, Q a b → Agree P (f a) (g b)) : Agree P (A >>= f) (B >>= g) := by
  cases A <;> cases B
  · exact h
  · exact h.elim
  · exact h.elim
  · exact hf _ _ h

theorem Agree.step {P : γ → δ → Prop} {A : Res α} {f : α → Res γ} {g : α → Res δ} (h : ∀ a, Agree P (f a) (g a)) :
    Agree P (A >>= f) (A >>= g) := by
  cases A with
  | error e => exact rfl
  | ok a => exact h a

theorem Agree.mono {P Q : α → β → Prop} {A : Res α} {B : Res β} (h : Agree P A B) (hpq : ∀ a b, P a b → Q a b) :
    Agree Q A B := by
  cases A <;> cases B
  · exact h
  · exact h.elim
  · exact h.elim
  · exact hpq _ _ h

theorem Agree.of_ok_left {P : α → β → Prop} {A : Res α} {B : Res β} (h : Agree P A B) {a : α} (e : A = .ok a) :
    ∃ b, B = .ok b ∧ P a b := by
  subst e
  cases B with
  | error e => exact h.elim
  | ok b => exact ⟨b, rfl, h⟩

theorem Agree.of_ok_right {P : α → β → Prop} {A : Res α} {B : Res β} (h : Agree P A B) {b : β} (e : B = .ok b) :
    ∃ a, A = .ok a ∧ P a b := by
  subst e
  cases A with
  | error e => exact h.elim
  | ok a => exact ⟨a, rfl, h⟩

theorem Agree.call1 {P : γ → δ → Prop} {A : Res (α × σ)} {B : Res (α × τ)} {f : α × σ → Res γ} {g : α × τ → Res δ}
    (h : Agree (fun a b => a.1 = b.1 ∧ R a.2 b.2) A B) (hf : ∀ a s t, R s t → Agree P (f (a, s)) (g (a, t))) :
    Agree P (A >>= f) (B >>= g) :=
  h.bind fun ⟨a, s⟩ ⟨b, t⟩ ⟨e, hr⟩ => by cases e; exact hf a s t hr

theorem Agree.call2 {P : γ → δ → Prop} {A : Res (α × β × σ)} {B : Res (α × β × τ)} {f : α × β × σ → Res γ}
    {g : α × β × τ → Res δ} (h : Agree (fun a b => a.1 = b.1 ∧ a.2.1 = b.2.1 ∧ R a.2.2 b.2.2) A B)
    (hf : ∀ a b s t, R s t → Agree P (f (a, b, s)) (g (a, b, t))) : Agree P (A >>= f) (B >>= g) :=
  h.bind fun ⟨a, b, s⟩ ⟨a', b', t⟩ ⟨e, e', hr⟩ => by cases e; cases e'; exact hf a b s t hr

theorem Agree.call3 {ε : Type} {P : γ → δ → Prop} {A : Res (α × β × ε × σ)} {B : Res (α × β × ε × τ)} {f : α × β × ε × σ → Res γ}
    {g : α × β × ε × τ → Res δ}
    (h : Agree (fun a b => a.1 = b.1 ∧ a.2.1 = b.2.1 ∧ a.2.2.1 = b.2.2.1 ∧ R a.2.2.2 b.2.2.2) A B)
    (hf : ∀ a b c s t, R s t → Agree P (f (a, b, c, s)) (g (a, b, c, t))) : Agree P (A >>= f) (B >>= g) :=
  h.bind fun ⟨a, b, c, s⟩ ⟨a', b', c', t⟩ ⟨e, e', e'', hr⟩ => by cases e; cases e'; cases e''; exact hf a b c s t hr

/-! ## The boilerplate -/

section Boilerplate
variable {pin : List T → List T → σ → Res (List T × List T × σ)} {pin' : List T → List T → τ → Res (List T × List T × τ)}
  {poop : List T → List T → List T → σ → Res (List T × List T × List T × σ)}
  {poop' : List T → List T → List T → τ → Res (List T × List T × List T × τ)}

theorem iterChunks_agree {n : Nat} (hn : 0 < n) (h : ∀ c s st st', R st st' →
      Agree (fun a b => a.1 = b.1 ∧ a.2.1 = b.2.1 ∧ R a.2.2 b.2.2) (pin c s st) (pin' c s st')) (b s : List T) (st : σ) (st' : τ)
    (hr : R st st') :
    Agree (fun a b => a.1 = b.1 ∧ a.2.1 = b.2.1 ∧ a.2.2.1 = b.2.2.1 ∧ R a.2.2.2 b.2.2.2)
      (iterChunks n (fun c s => pin c s.1 s.2) b (s, st)) (iterChunks n (fun c s => pin' c s.1 s.2) b (s, st')) := by
  induction b using chunk_induction hn generalizing s st st' with
  | hlt l hl =>
    rw [iterChunks, iterChunks, if_neg (by omega), if_neg (by omega)]
    exact ⟨rfl, rfl, rfl, hr⟩
  | hge l hl ih =>
    rw [iterChunks, iterChunks, if_pos hl, if_pos hl, if_neg (by omega), if_neg (by omega)]
    exact (h _ s st st' hr).call2 fun a b s t hr => (ih b s t hr).call3 fun r t b s t hr => ⟨rfl, rfl, rfl, hr⟩

theorem iterChunksZippedLoop_agree {n : Nat} (hn : 0 < n) (h : ∀ i o s st st', R st st' →
      Agree (fun a b => a.1 = b.1 ∧ a.2.1 = b.2.1 ∧ a.2.2.1 = b.2.2.1 ∧ R a.2.2.2 b.2.2.2) (poop i o s st) (poop' i o s st'))
    (b1 b2 s : List T) (st : σ) (st' : τ) (hr : R st st') :
    Agree (fun a b => a.1 = b.1 ∧ a.2.1 = b.2.1 ∧ a.2.2.1 = b.2.2.1 ∧ a.2.2.2.1 = b.2.2.2.1 ∧ R a.2.2.2.2 b.2.2.2.2)
      (iterChunksZippedLoop n (fun c1 c2 s => poop c1 c2 s.1 s.2) b1 b2 (s, st))
      (iterChunksZippedLoop n (fun c1 c2 s => poop' c1 c2 s.1 s.2) b1 b2 (s, st')) := by
  induction b1 using chunk_induction hn generalizing b2 s st st' with
  | hlt l hl =>
    rw [iterChunksZippedLoop, iterChunksZippedLoop, if_neg (by omega), if_neg (by omega)]
    exact ⟨rfl, rfl, rfl, rfl, hr⟩
  | hge l hl ih =>
    rw [iterChunksZippedLoop, iterChunksZippedLoop]
    split
    · rw [if_neg (by omega), if_neg (by omega)]
      exact (h _ _ s st st' hr).call3 fun a b c s t hr => (ih _ c s t hr).bind fun ⟨r, t1, t2, c, s⟩ ⟨r', t1', t2', c', t⟩
        ⟨e1, e2, e3, e4, hr⟩ => by cases e1; cases e2; cases e3; cases e4; exact ⟨rfl, rfl, rfl, rfl, hr⟩
    · exact ⟨rfl, rfl, rfl, rfl, hr⟩

theorem iterChunksZipped_agree {n : Nat} (hn : 0 < n) (h : ∀ i o s st st', R st st' →
      Agree (fun a b => a.1 = b.1 ∧ a.2.1 = b.2.1 ∧ a.2.2.1 = b.2.2.1 ∧ R a.2.2.2 b.2.2.2) (poop i o s st) (poop' i o s st'))
    (b1 b2 s : List T) (st : σ) (st' : τ) (hr : R st st') :
    Agree (fun a b => a.1 = b.1 ∧ a.2.1 = b.2.1 ∧ a.2.2.1 = b.2.2.1 ∧ a.2.2.2.1 = b.2.2.2.1 ∧ R a.2.2.2.2 b.2.2.2.2)
      (iterChunksZipped n (fun c1 c2 s => poop c1 c2 s.1 s.2) b1 b2 (s, st))
      (iterChunksZipped n (fun c1 c2 s => poop' c1 c2 s.1 s.2) b1 b2 (s, st')) := by
  have key := fun b1 b2 => iterChunksZippedLoop_agree hn h b1 b2 s st st' hr
  unfold iterChunksZipped
  split
  · exact (key _ _).bind fun ⟨r, t1, t2, c, s⟩ ⟨r', t1', t2', c', t⟩ ⟨e1, e2, e3, e4, hr⟩ => by
      cases e1; cases e2; cases e3; cases e4; exact ⟨rfl, rfl, rfl, rfl, hr⟩
  · exact (key _ _).bind fun ⟨r, t1, t2, c, s⟩ ⟨r', t1', t2', c', t⟩ ⟨e1, e2, e3, e4, hr⟩ => by
      cases e1; cases e2; cases e3; cases e4; exact ⟨rfl, rfl, rfl, rfl, hr⟩

theorem liveBoilerplate_same [Zero T] {len inpScr oopScr : Nat}
    (h1 : ∀ c s st st', R st st' →
      Agree (fun a b => a.1 = b.1 ∧ a.2.1 = b.2.1 ∧ R a.2.2 b.2.2) (pin c s st) (pin' c s st'))
    (h2 : ∀ i o s st st', R st st' →
      Agree (fun a b => a.1 = b.1 ∧ a.2.1 = b.2.1 ∧ a.2.2.1 = b.2.2.1 ∧ R a.2.2.2 b.2.2.2) (poop i o s st) (poop' i o s st')) :
    SameUpTo R (liveBoilerplate len inpScr oopScr pin poop) (liveBoilerplate len inpScr oopScr pin' poop') := by
  have key : ∀ b s st st', R st st' → Agree (fun a b => a.1 = b.1 ∧ a.2.1 = b.2.1 ∧ R a.2.2 b.2.2)
      ((liveBoilerplate len inpScr oopScr pin poop).processWithScratch b s st)
      ((liveBoilerplate len inpScr oopScr pin' poop').processWithScratch b s st') := by
    intro b s st st' hr
    simp only [liveBoilerplate]
    rcases Nat.eq_zero_or_pos len with h0 | hlen
    · rw [if_pos h0, if_pos h0]; exact ⟨rfl, rfl, hr⟩
    simp only [if_neg (show ¬ len = 0 by omega)]
    split
    · exact Agree.step fun _ => ⟨rfl, rfl, hr⟩
    · refine (iterChunks_agree hlen h1 b (s.take inpScr) st st' hr).call3 fun ok b s st st' hr => ?_
      cases ok
      · exact Agree.step fun _ => ⟨rfl, rfl, hr⟩
      · exact ⟨rfl, rfl, hr⟩
  refine ⟨fun _ _ hr => ⟨rfl, hr⟩, fun _ _ hr => ⟨rfl, hr⟩, fun _ _ hr => ⟨rfl, hr⟩, fun b st st' hr => ?_, key,
    fun i o s st st' hr => ?_⟩
  · exact (key b (List.replicate inpScr 0) st st' hr).call2 fun _ _ _ _ hr => ⟨rfl, hr⟩
  · simp only [liveBoilerplate]
    rcases Nat.eq_zero_or_pos len with h0 | hlen
    · rw [if_pos h0, if_pos h0]; exact ⟨rfl, rfl, rfl, hr⟩
    simp only [if_neg (show ¬ len = 0 by omega)]
    split
    · exact Agree.step fun _ => ⟨rfl, rfl, rfl, hr⟩
    · refine (iterChunksZipped_agree hlen h2 i o (s.take oopScr) st st' hr).bind fun ⟨ok, t1, t2, c, s⟩
        ⟨ok', t1', t2', c', t⟩ ⟨e1, e2, e3, e4, hr⟩ => ?_
      cases e1; cases e2; cases e3; cases e4
      cases ok
      · exact Agree.step fun _ => ⟨rfl, rfl, rfl, hr⟩
      · exact ⟨rfl, rfl, rfl, hr⟩

end Boilerplate

/-! ## The combinators -/

section Combinators
variable {ι : Type} {F : ι → σ → τ → Prop}
variable [Zero T] [Add T] [Sub T] [Mul T] [Neg T] [FftNum T]

theorem liveMixedRadix_same {w h : LiveDht σ T} {w' h' : LiveDht τ T} (hw : ∀ k, SameUpTo (F k) w w') (hh : ∀ k, SameUpTo (F k) h h') (k : ι) (st : σ)
    (st' : τ) (hr : F k st st') :
    Agree (fun a b => (∀ k, SameUpTo (F k) a.1 b.1) ∧ F k a.2 b.2) (liveMixedRadix w h st) (liveMixedRadix w' h' st') := by
  unfold liveMixedRadix
  refine ((hw k).len st st' hr).call1 fun n1 st st' hr => ?_
  refine ((hh k).len st st' hr).call1 fun n2 st st' hr => ?_
  refine ((hh k).inplaceScratchLen st st' hr).call1 fun i2 st st' hr => ?_
  refine ((hw k).inplaceScratchLen st st' hr).call1 fun i1 st st' hr => ?_
  refine ((hw k).oopScratchLen st st' hr).call1 fun o1 st st' hr => ?_
  refine ⟨fun k => liveBoilerplate_same (fun c s st st' hr => ?_) fun i o s st st' hr => ?_, hr⟩
  · unfold liveMrPerformInplace
    refine Agree.step fun a => ?_
    rcases a with ⟨s, is⟩
    refine Agree.step fun s => Agree.step fun s => ?_
    dsimp only
    split
    all_goals
      refine ((hh k).inplace _ _ st st' hr).call2 fun _ _ _ _ hr => ?_
      simp only [ok_bind]
      refine Agree.step fun s => Agree.step fun s => ?_
      exact ((hw k).oop _ _ _ _ _ hr).call3 fun _ _ _ _ _ hr => Agree.step fun _ => Agree.step fun _ => ⟨rfl, rfl, hr⟩
  · unfold liveMrPerformOop
    refine Agree.step fun s => Agree.step fun s => ?_
    dsimp only
    split
    all_goals
      refine ((hh k).inplace _ _ st st' hr).call2 fun _ _ _ _ hr => ?_
      simp only [ok_bind]
      refine Agree.step fun s => Agree.step fun s => ?_
      split
      all_goals
        exact ((hw k).inplace _ _ _ _ hr).call2 fun _ _ _ _ hr =>
          Agree.step fun _ => Agree.step fun _ => ⟨rfl, rfl, rfl, hr⟩

theorem liveMixedRadixN_same {r : Nat} {ap : Nat → List T → Res (List T)} {h : LiveDht σ T} {h' : LiveDht τ T} (hh : ∀ k, SameUpTo (F k) h h')
    (k : ι) (st : σ) (st' : τ) (hr : F k st st') :
    Agree (fun a b => (∀ k, SameUpTo (F k) a.1 b.1) ∧ F k a.2 b.2) (liveMixedRadixN r ap h st) (liveMixedRadixN r ap h' st') := by
  unfold liveMixedRadixN
  refine ((hh k).len st st' hr).call1 fun n st st' hr => ?_
  refine ((hh k).inplaceScratchLen st st' hr).call1 fun i st st' hr => ?_
  refine ⟨fun k => liveBoilerplate_same (fun c s st st' hr => ?_) fun i o s st st' hr => ?_, hr⟩
  · unfold liveMrnPerformInplace
    refine Agree.step fun s => ?_
    exact ((hh k).oop _ _ _ _ _ hr).call3 fun _ _ _ _ _ hr => Agree.step fun _ => ⟨rfl, rfl, hr⟩
  · unfold liveMrnPerformOop
    refine Agree.step fun s => ?_
    exact ((hh k).inplace _ _ _ _ hr).call2 fun _ _ _ _ hr => Agree.step fun _ => ⟨rfl, rfl, rfl, hr⟩

theorem liveSplitRadix_same {q h : LiveDht σ T} {q' h' : LiveDht τ T} (hq : ∀ k, SameUpTo (F k) q q') (hh : ∀ k, SameUpTo (F k) h h') (k : ι) (st : σ)
    (st' : τ) (hr : F k st st') :
    Agree (fun a b => (∀ k, SameUpTo (F k) a.1 b.1) ∧ F k a.2 b.2) (liveSplitRadix q h st) (liveSplitRadix q' h' st') := by
  unfold liveSplitRadix
  refine ((hq k).len st st' hr).call1 fun n1 st st' hr => ?_
  refine ((hh k).len st st' hr).call1 fun n2 st st' hr => ?_
  refine Agree.step fun _ => ⟨fun k => liveBoilerplate_same (fun c s st st' hr => ?_) fun i o s st st' hr => ?_, hr⟩
  · unfold liveSrPerformInplace
    refine Agree.step fun b => Agree.step fun a => ?_
    refine ((hh k).inplace _ _ _ _ hr).call2 fun _ _ _ _ hr => ?_
    refine ((hq k).oop _ _ _ _ _ hr).call3 fun _ _ _ _ _ hr => ?_
    exact Agree.step fun _ => Agree.step fun _ => ⟨rfl, rfl, hr⟩
  · unfold liveSrPerformOop
    refine Agree.step fun b => Agree.step fun a => ?_
    refine ((hh k).inplace _ _ _ _ hr).call2 fun _ _ _ _ hr => ?_
    refine ((hq k).inplace _ _ _ _ hr).call2 fun _ _ _ _ hr => ?_
    exact Agree.step fun _ => Agree.step fun _ => ⟨rfl, rfl, rfl, hr⟩

theorem liveRaders_same {l : LiveDht σ T} {l' : LiveDht τ T} (h : ∀ k, SameUpTo (F k) l l') (k : ι) (st : σ)
    (st' : τ) (hr : F k st st') :
    Agree (fun a b => (∀ k, SameUpTo (F k) a.1 b.1) ∧ F k a.2 b.2) (liveRaders l st) (liveRaders l' st') := by
  unfold liveRaders
  refine ((h k).len st st' hr).call1 fun n st st' hr => Agree.step fun _ => Agree.step fun root => ?_
  match root with
  | none => exact rfl
  | some root =>
    refine Agree.step fun x => ((h k).process x st st' hr).call1 fun x st st' hr => Agree.step fun tw => ?_
    refine ((h k).inplaceScratchLen st st' hr).call1 fun i st st' hr => ?_
    refine ⟨fun k => liveBoilerplate_same (fun c s st st' hr => ?_) fun i o s st st' hr => ?_, hr⟩
    · unfold liveRadersPerformInplace
      cases c with
      | nil => exact rfl
      | cons b0 b =>
        refine Agree.step fun a => Agree.step fun ib => ?_
        refine ((h k).inplace _ _ _ _ hr).call2 fun _ _ _ _ hr => ?_
        refine Agree.step fun _ => Agree.step fun _ => Agree.step fun _ => Agree.step fun _ => ?_
        refine ((h k).inplace _ _ _ _ hr).call2 fun _ _ _ _ hr => ?_
        exact Agree.step fun _ => ⟨rfl, rfl, hr⟩
    · unfold liveRadersPerformOop
      cases o with
      | nil => exact rfl
      | cons o0 o =>
        cases i with
        | nil => exact rfl
        | cons i0 i =>
          refine Agree.step fun a => ?_
          refine ((h k).inplace _ _ _ _ hr).call2 fun _ _ _ _ hr => ?_
          refine Agree.step fun _ => Agree.step fun _ => Agree.step fun _ => Agree.step fun _ => ?_
          refine ((h k).inplace _ _ _ _ hr).call2 fun _ _ _ _ hr => ?_
          exact Agree.step fun _ => ⟨rfl, rfl, rfl, hr⟩

theorem live_same {R : σ → τ → Prop} (d : Dht T) : SameUpTo R d.live d.live :=
  ⟨fun _ _ hr => ⟨rfl, hr⟩, fun _ _ hr => ⟨rfl, hr⟩, fun _ _ hr => ⟨rfl, hr⟩, fun _ _ _ hr => Agree.step fun _ => ⟨rfl, hr⟩,
    fun _ _ _ _ hr => Agree.step fun _ => ⟨rfl, rfl, hr⟩, fun _ _ _ _ _ hr => Agree.step fun _ => ⟨rfl, rfl, rfl, hr⟩⟩

theorem liveTree_same {t : LiveTree σ T} {t' : LiveTree τ T} (h : t.Rel (fun l m => ∀ k, SameUpTo (F k) l m) t') :
    ∀ k st st', F k st st' →
    Agree (fun a b => (∀ k, SameUpTo (F k) a.1 b.1) ∧ F k a.2 b.2) (t.build st) (t'.build st') := by
  induction h with
  | plan p => exact fun k st st' hr => Agree.step fun d => ⟨fun _ => live_same d, hr⟩
  | user h => exact fun k st st' hr => ⟨h, hr⟩
  | mixedRadix _ _ iw ih =>
    refine fun k st st' hr => (iw k st st' hr).bind ?_
    rintro ⟨w, st⟩ ⟨w', st'⟩ hw
    refine (ih k _ _ hw.2).bind ?_
    rintro ⟨h, st⟩ ⟨h', st'⟩ hh
    exact liveMixedRadix_same hw.1 hh.1 k _ _ hh.2
  | mr2 _ ih =>
    refine fun k st st' hr => (ih k st st' hr).bind ?_
    rintro ⟨d, st⟩ ⟨d', st'⟩ h
    dsimp only
    rw [liveMixedRadix2xn_eq, liveMixedRadix2xn_eq]
    exact liveMixedRadixN_same h.1 k _ _ h.2
  | mr3 _ ih =>
    refine fun k st st' hr => (ih k st st' hr).bind ?_
    rintro ⟨d, st⟩ ⟨d', st'⟩ h
    dsimp only
    rw [liveMixedRadix3xn_eq, liveMixedRadix3xn_eq]
    exact liveMixedRadixN_same h.1 k _ _ h.2
  | mr4 _ ih =>
    refine fun k st st' hr => (ih k st st' hr).bind ?_
    rintro ⟨d, st⟩ ⟨d', st'⟩ h
    dsimp only
    rw [liveMixedRadix4xn_eq, liveMixedRadix4xn_eq]
    exact liveMixedRadixN_same h.1 k _ _ h.2
  | mr5 _ ih =>
    refine fun k st st' hr => (ih k st st' hr).bind ?_
    rintro ⟨d, st⟩ ⟨d', st'⟩ h
    dsimp only
    rw [liveMixedRadix5xn_eq, liveMixedRadix5xn_eq]
    exact liveMixedRadixN_same h.1 k _ _ h.2
  | mr6 _ ih =>
    refine fun k st st' hr => (ih k st st' hr).bind ?_
    rintro ⟨d, st⟩ ⟨d', st'⟩ h
    dsimp only
    rw [liveMixedRadix6xn_eq, liveMixedRadix6xn_eq]
    exact liveMixedRadixN_same h.1 k _ _ h.2
  | splitRadix _ _ iq ih =>
    refine fun k st st' hr => (iq k st st' hr).bind ?_
    rintro ⟨w, st⟩ ⟨w', st'⟩ hw
    refine (ih k _ _ hw.2).bind ?_
    rintro ⟨h, st⟩ ⟨h', st'⟩ hh
    exact liveSplitRadix_same hw.1 hh.1 k _ _ hh.2
  | raders _ ih =>
    refine fun k st st' hr => (ih k st st' hr).bind ?_
    rintro ⟨d, st⟩ ⟨d', st'⟩ h
    exact liveRaders_same h.1 k _ _ h.2

omit [Zero T] [Add T] [Sub T] [Mul T] [Neg T] [FftNum T] in
theorem LiveTree.rel_self {Q : LiveDht σ T → LiveDht σ T → Prop} {t : LiveTree σ T} (hu : ∀ d ∈ t.users, Q d d) : t.Rel Q t := by
  induction t with
  | plan p => exact .plan p
  | user d => exact .user (hu d (by simp [users]))
  | mixedRadix w h iw ih =>
    exact .mixedRadix (iw fun d hd => hu d (by simp [users, hd])) (ih fun d hd => hu d (by simp [users, hd]))
  | mr2 h ih => exact .mr2 (ih hu)
  | mr3 h ih => exact .mr3 (ih hu)
  | mr4 h ih => exact .mr4 (ih hu)
  | mr5 h ih => exact .mr5 (ih hu)
  | mr6 h ih => exact .mr6 (ih hu)
  | splitRadix q h iq ih =>
    exact .splitRadix (iq fun d hd => hu d (by simp [users, hd])) (ih fun d hd => hu d (by simp [users, hd]))
  | raders i ih => exact .raders (ih hu)

end Combinators

/-! ## Invariants -/

section Invariants
variable {I : σ → Prop} {G : σ → σ → Prop}

theorem Agree.self {A : Res α} {P : α → α → Prop} (h : ∀ a, A = .ok a → P a a) : Agree P A A := by
  cases A with
  | error e => exact rfl
  | ok a => exact h a rfl

theorem Agree.self_ok {A : Res α} {P : α → α → Prop} (h : Agree P A A) {a : α} (e : A = .ok a) : P a a := by
  subst e; exact h

theorem keeps_iff {d : LiveDht σ T} : Keeps I d ↔ SameUpTo (fun s t => s = t ∧ I s) d d := by
  refine ⟨fun h => ⟨?_, ?_, ?_, ?_, ?_, ?_⟩, fun h => ⟨?_, ?_, ?_, ?_, ?_, ?_⟩⟩
  · rintro st _ ⟨rfl, hi⟩; exact Agree.self fun a e => ⟨rfl, rfl, h.len _ _ _ hi e⟩
  · rintro st _ ⟨rfl, hi⟩; exact Agree.self fun a e => ⟨rfl, rfl, h.inplaceScratchLen _ _ _ hi e⟩
  · rintro st _ ⟨rfl, hi⟩; exact Agree.self fun a e => ⟨rfl, rfl, h.oopScratchLen _ _ _ hi e⟩
  · rintro b st _ ⟨rfl, hi⟩; exact Agree.self fun a e => ⟨rfl, rfl, h.process _ _ _ _ hi e⟩
  · rintro b s st _ ⟨rfl, hi⟩; exact Agree.self fun a e => ⟨rfl, rfl, rfl, h.inplace _ _ _ _ _ _ hi e⟩
  · rintro i o s st _ ⟨rfl, hi⟩; exact Agree.self fun a e => ⟨rfl, rfl, rfl, rfl, h.oop _ _ _ _ _ _ _ _ hi e⟩
  · intro st n st' hi e; exact ((h.len st st ⟨rfl, hi⟩).self_ok e).2.2
  · intro st n st' hi e; exact ((h.inplaceScratchLen st st ⟨rfl, hi⟩).self_ok e).2.2
  · intro st n st' hi e; exact ((h.oopScratchLen st st ⟨rfl, hi⟩).self_ok e).2.2
  · intro b st n st' hi e; exact ((h.process b st st ⟨rfl, hi⟩).self_ok e).2.2
  · intro b s st b' s' st' hi e; exact ((h.inplace b s st st ⟨rfl, hi⟩).self_ok e).2.2.2
  · intro i o s st i' o' s' st' hi e; exact ((h.oop i o s st st ⟨rfl, hi⟩).self_ok e).2.2.2.2

theorem moves_of_keeps (hG : ∀ st, I st → G st st) {d : LiveDht σ T} (h : ∀ a, Keeps (fun s => I s ∧ G a s) d) : Moves I G d :=
  ⟨fun st n st' hi e => ((h st).len st n st' ⟨hi, hG st hi⟩ e).2,
    fun st n st' hi e => ((h st).inplaceScratchLen st n st' ⟨hi, hG st hi⟩ e).2,
    fun st n st' hi e => ((h st).oopScratchLen st n st' ⟨hi, hG st hi⟩ e).2,
    fun b st n st' hi e => ((h st).process b st n st' ⟨hi, hG st hi⟩ e).2,
    fun b s st b' s' st' hi e => ((h st).inplace b s st b' s' st' ⟨hi, hG st hi⟩ e).2,
    fun i o s st i' o' s' st' hi e => ((h st).oop i o s st i' o' s' st' ⟨hi, hG st hi⟩ e).2⟩

theorem keeps_of_moves (hG : ∀ a b c, G a b → G b c → G a c) {d : LiveDht σ T} (hk : Keeps I d) (h : Moves I G d) (a : σ) :
    Keeps (fun s => I s ∧ G a s) d :=
  ⟨fun st n st' hi e => ⟨hk.len st n st' hi.1 e, hG _ _ _ hi.2 (h.len st n st' hi.1 e)⟩,
    fun st n st' hi e => ⟨hk.inplaceScratchLen st n st' hi.1 e, hG _ _ _ hi.2 (h.inplaceScratchLen st n st' hi.1 e)⟩,
    fun st n st' hi e => ⟨hk.oopScratchLen st n st' hi.1 e, hG _ _ _ hi.2 (h.oopScratchLen st n st' hi.1 e)⟩,
    fun b st n st' hi e => ⟨hk.process b st n st' hi.1 e, hG _ _ _ hi.2 (h.process b st n st' hi.1 e)⟩,
    fun b s st b' s' st' hi e => ⟨hk.inplace b s st b' s' st' hi.1 e, hG _ _ _ hi.2 (h.inplace b s st b' s' st' hi.1 e)⟩,
    fun i o s st i' o' s' st' hi e =>
      ⟨hk.oop i o s st i' o' s' st' hi.1 e, hG _ _ _ hi.2 (h.oop i o s st i' o' s' st' hi.1 e)⟩⟩

section Trees
variable [Zero T] [Add T] [Sub T] [Mul T] [Neg T] [FftNum T]

theorem liveTree_keeps {ι : Type} {J : ι → σ → Prop} {t : LiveTree σ T} (hu : ∀ d ∈ t.users, ∀ k, Keeps (J k) d) (k : ι) {st st' : σ}
    (hi : J k st) {d : LiveDht σ T} (e : t.build st = .ok (d, st')) : J k st' ∧ ∀ k, Keeps (J k) d := by
  have h := (liveTree_same (F := fun k s t => s = t ∧ J k s)
    (LiveTree.rel_self fun d hd k => keeps_iff.1 (hu d hd k)) k st st ⟨rfl, hi⟩).self_ok e
  exact ⟨h.2.2, fun k => keeps_iff.2 (h.1 k)⟩

end Trees

/-! ## Objects that work only in some states -/

open Classical in
/-- The object on the states that satisfy the invariant. -/
noncomputable def LiveDht.on (I : σ → Prop) (d : LiveDht σ T) : LiveDht {s // I s} T where
  len := fun st => d.len st.1 >>= fun r => if h : I r.2 then .ok (r.1, ⟨r.2, h⟩) else .error .ub
  inplaceScratchLen := fun st => d.inplaceScratchLen st.1 >>= fun r => if h : I r.2 then .ok (r.1, ⟨r.2, h⟩) else .error .ub
  oopScratchLen := fun st => d.oopScratchLen st.1 >>= fun r => if h : I r.2 then .ok (r.1, ⟨r.2, h⟩) else .error .ub
  process := fun b st => d.process b st.1 >>= fun r => if h : I r.2 then .ok (r.1, ⟨r.2, h⟩) else .error .ub
  processWithScratch := fun b s st => d.processWithScratch b s st.1 >>= fun r =>
    if h : I r.2.2 then .ok (r.1, r.2.1, ⟨r.2.2, h⟩) else .error .ub
  processOop := fun i o s st => d.processOop i o s st.1 >>= fun r =>
    if h : I r.2.2.2 then .ok (r.1, r.2.1, r.2.2.1, ⟨r.2.2.2, h⟩) else .error .ub

/-- The states of the two objects are the same. -/
def Restricts (I : σ → Prop) (s : σ) (t : {s // I s}) : Prop := s = t.1

theorem Keeps.same {d : LiveDht σ T} (h : Keeps I d) : SameUpTo (Restricts I) d (d.on I) := by
  refine ⟨?_, ?_, ?_, ?_, ?_, ?_⟩
  · rintro _ st rfl
    simp only [LiveDht.on]
    rcases e : d.len st.1 with f | ⟨n, s⟩
    · exact rfl
    · simp only [ok_bind, dif_pos (h.len _ _ _ st.2 e)]; exact ⟨rfl, rfl⟩
  · rintro _ st rfl
    simp only [LiveDht.on]
    rcases e : d.inplaceScratchLen st.1 with f | ⟨n, s⟩
    · exact rfl
    · simp only [ok_bind, dif_pos (h.inplaceScratchLen _ _ _ st.2 e)]; exact ⟨rfl, rfl⟩
  · rintro _ st rfl
    simp only [LiveDht.on]
    rcases e : d.oopScratchLen st.1 with f | ⟨n, s⟩
    · exact rfl
    · simp only [ok_bind, dif_pos (h.oopScratchLen _ _ _ st.2 e)]; exact ⟨rfl, rfl⟩
  · rintro b _ st rfl
    simp only [LiveDht.on]
    rcases e : d.process b st.1 with f | ⟨n, s⟩
    · exact rfl
    · simp only [ok_bind, dif_pos (h.process _ _ _ _ st.2 e)]; exact ⟨rfl, rfl⟩
  · rintro b s _ st rfl
    simp only [LiveDht.on]
    rcases e : d.processWithScratch b s st.1 with f | ⟨b', s', s⟩
    · exact rfl
    · simp only [ok_bind, dif_pos (h.inplace _ _ _ _ _ _ st.2 e)]; exact ⟨rfl, rfl, rfl⟩
  · rintro i o s _ st rfl
    simp only [LiveDht.on]
    rcases e : d.processOop i o s st.1 with f | ⟨i', o', s', s⟩
    · exact rfl
    · simp only [ok_bind, dif_pos (h.oop _ _ _ _ _ _ _ _ st.2 e)]; exact ⟨rfl, rfl, rfl, rfl⟩

theorem Restricts.keeps {d : LiveDht σ T} {d' : LiveDht {s // I s} T} (h : SameUpTo (Restricts I) d d') : Keeps I d := by
  refine ⟨?_, ?_, ?_, ?_, ?_, ?_⟩
  · intro st n st' hi e
    obtain ⟨b, _, _, hb⟩ := (h.len st ⟨st, hi⟩ rfl).of_ok_left e
    change st' = b.2.1 at hb; rw [hb]; exact b.2.2
  · intro st n st' hi e
    obtain ⟨b, _, _, hb⟩ := (h.inplaceScratchLen st ⟨st, hi⟩ rfl).of_ok_left e
    change st' = b.2.1 at hb; rw [hb]; exact b.2.2
  · intro st n st' hi e
    obtain ⟨b, _, _, hb⟩ := (h.oopScratchLen st ⟨st, hi⟩ rfl).of_ok_left e
    change st' = b.2.1 at hb; rw [hb]; exact b.2.2
  · intro b st n st' hi e
    obtain ⟨b, _, _, hb⟩ := (h.process b st ⟨st, hi⟩ rfl).of_ok_left e
    change st' = b.2.1 at hb; rw [hb]; exact b.2.2
  · intro b s st b' s' st' hi e
    obtain ⟨b, _, _, _, hb⟩ := (h.inplace b s st ⟨st, hi⟩ rfl).of_ok_left e
    change st' = b.2.2.1 at hb; rw [hb]; exact b.2.2.2
  · intro i o s st i' o' s' st' hi e
    obtain ⟨b, _, _, _, _, hb⟩ := (h.oop i o s st ⟨st, hi⟩ rfl).of_ok_left e
    change st' = b.2.2.2.1 at hb; rw [hb]; exact b.2.2.2.2

theorem LiveImplementsOn.on {d : LiveDht σ T} {n i o : Nat} {f : List T → List T} (h : LiveImplementsOn I d n i o f) :
    LiveImplements (d.on I) n i o f := by
  have hs := h.keeps.same
  refine ⟨fun st => ?_, fun st => ?_, fun st => ?_, h.length, fun b st h1 h2 => ?_, fun b s st h1 h2 h3 => ?_,
    fun i o s st h0 h1 h2 h3 => ?_⟩
  · obtain ⟨st', e⟩ := h.len st.1 st.2
    obtain ⟨⟨b, t⟩, e', h1, -⟩ := (hs.len st.1 st rfl).of_ok_left e
    exact ⟨t, by rw [e', show n = b from h1]⟩
  · obtain ⟨st', e⟩ := h.inplaceScratchLen st.1 st.2
    obtain ⟨⟨b, t⟩, e', h1, -⟩ := (hs.inplaceScratchLen st.1 st rfl).of_ok_left e
    exact ⟨t, by rw [e', show i = b from h1]⟩
  · obtain ⟨st', e⟩ := h.oopScratchLen st.1 st.2
    obtain ⟨⟨b, t⟩, e', h1, -⟩ := (hs.oopScratchLen st.1 st rfl).of_ok_left e
    exact ⟨t, by rw [e', show o = b from h1]⟩
  · obtain ⟨st', e⟩ := h.process b st.1 st.2 h1 h2
    obtain ⟨⟨b', t⟩, e', h3, -⟩ := (hs.process b st.1 st rfl).of_ok_left e
    exact ⟨t, by rw [e']; cases h3; rfl⟩
  · obtain ⟨s', st', e, h4⟩ := h.inplace b s st.1 st.2 h1 h2 h3
    obtain ⟨⟨b', s'', t⟩, e', h5, h6, -⟩ := (hs.inplace b s st.1 st rfl).of_ok_left e
    exact ⟨s', t, by rw [e']; cases h5; cases h6; rfl, h4⟩
  · obtain ⟨i', s', st', e, h4⟩ := h.oop i o s st.1 st.2 h0 h1 h2 h3
    obtain ⟨⟨i'', b', s'', t⟩, e', h5, h6, h7, -⟩ := (hs.oop i o s st.1 st rfl).of_ok_left e
    exact ⟨i', s', t, by rw [e']; cases h5; cases h6; cases h7; rfl, h4⟩

theorem Restricts.implements {d : LiveDht σ T} {d' : LiveDht {s // I s} T} (hs : SameUpTo (Restricts I) d d') {n i o : Nat}
    {f : List T → List T} (h : LiveImplements d' n i o f) : LiveImplementsOn I d n i o f := by
  refine ⟨Restricts.keeps hs, fun st hi => ?_, fun st hi => ?_, fun st hi => ?_, h.length, fun b st hi h1 h2 => ?_,
    fun b s st hi h1 h2 h3 => ?_, fun i o s st hi h0 h1 h2 h3 => ?_⟩
  · obtain ⟨st', e⟩ := h.len ⟨st, hi⟩
    obtain ⟨⟨b, t⟩, e', h1, -⟩ := (hs.len st ⟨st, hi⟩ rfl).of_ok_right e
    exact ⟨t, by rw [e', show b = n from h1]⟩
  · obtain ⟨st', e⟩ := h.inplaceScratchLen ⟨st, hi⟩
    obtain ⟨⟨b, t⟩, e', h1, -⟩ := (hs.inplaceScratchLen st ⟨st, hi⟩ rfl).of_ok_right e
    exact ⟨t, by rw [e', show b = i from h1]⟩
  · obtain ⟨st', e⟩ := h.oopScratchLen ⟨st, hi⟩
    obtain ⟨⟨b, t⟩, e', h1, -⟩ := (hs.oopScratchLen st ⟨st, hi⟩ rfl).of_ok_right e
    exact ⟨t, by rw [e', show b = o from h1]⟩
  · obtain ⟨st', e⟩ := h.process b ⟨st, hi⟩ h1 h2
    obtain ⟨⟨b', t⟩, e', h3, -⟩ := (hs.process b st ⟨st, hi⟩ rfl).of_ok_right e
    exact ⟨t, by rw [e', show b' = _ from h3]⟩
  · obtain ⟨s', st', e, h4⟩ := h.inplace b s ⟨st, hi⟩ h1 h2 h3
    obtain ⟨⟨b', s'', t⟩, e', h5, h6, -⟩ := (hs.inplace b s st ⟨st, hi⟩ rfl).of_ok_right e
    exact ⟨s', t, by rw [e', show b' = _ from h5, show s'' = _ from h6], h4⟩
  · obtain ⟨i', s', st', e, h4⟩ := h.oop i o s ⟨st, hi⟩ h0 h1 h2 h3
    obtain ⟨⟨i'', b', s'', t⟩, e', h5, h6, h7, -⟩ := (hs.oop i o s st ⟨st, hi⟩ rfl).of_ok_right e
    exact ⟨i', s', t, by rw [e', show i'' = _ from h5, show b' = _ from h6, show s'' = _ from h7], h4⟩

/-- What a constructor gives for the objects on the states of the invariant, it gives for the objects themselves. -/
theorem Restricts.builds {L : σ → Res (LiveDht σ T × σ)} {L' : {s // I s} → Res (LiveDht {s // I s} T × {s // I s})} {st : σ} (hi : I st)
    (hs : Agree (fun a b => (∀ _ : Unit, SameUpTo (Restricts I) a.1 b.1) ∧ Restricts I a.2 b.2) (L st) (L' ⟨st, hi⟩)) {n i o : Nat}
    {f : List T → List T} (h : ∃ d st', L' ⟨st, hi⟩ = .ok (d, st') ∧ LiveImplements d n i o f) :
    ∃ d st', L st = .ok (d, st') ∧ I st' ∧ LiveImplementsOn I d n i o f := by
  obtain ⟨d', t, e, hd⟩ := h
  obtain ⟨⟨d, st'⟩, e', h1, h2⟩ := hs.of_ok_right e
  change st' = t.1 at h2
  exact ⟨d, st', e', by rw [h2]; exact t.2, Restricts.implements (h1 ()) hd⟩

end Invariants

end RustDHT
