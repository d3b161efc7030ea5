import Verif.Proofs.Safety
import Verif.Proofs.MixedRadix
import Verif.Spec.Stateful

/-! # Objects with memory

Frozen in one state, an object with memory is an object without memory.  Every `perform` function calls its inner objects at most
twice, so its result is that of the function without memory, applied to the inner objects frozen in two states. -/

set_option linter.unusedSectionVars false

namespace RustDHT

variable {σ T : Type} {D : Prop}

/-- Drops the state. -/
def forget2 (r : List T × List T × σ) : List T × List T := (r.1, r.2.1)

/-- Drops the state. -/
def forget3 (r : List T × List T × List T × σ) : List T × List T × List T := (r.1, r.2.1, r.2.2.1)

/-- The object, frozen in the state `st`, with given lengths. -/
def LiveDht.at (d : LiveDht σ T) (n i o : Nat) (st : σ) : Dht T where
  len := n
  inplaceScratchLen := i
  oopScratchLen := o
  processWithScratch := fun buffer scratch => (d.processWithScratch buffer scratch st).map forget2
  processOop := fun input output scratch => (d.processOop input output scratch st).map forget3

/-! ## Programs and their frozen versions -/

section Sim
variable {α β γ : Type} {g : γ → β}

/-- `L` without its state is `P` for some state. -/
def Sim (g : γ → β) (L : Res γ) (P : σ → Res β) : Prop := ∃ st, L.map g = P st

theorem map_ok (g : γ → β) (a : γ) : (Except.ok a : Res γ).map g = .ok (g a) := rfl
theorem map_error (g : γ → β) (e : Fault) : (Except.error e : Res γ).map g = .error e := rfl

theorem map_step {A : Res α} {L : α → Res γ} {P : α → Res β} (h : ∀ a, (L a).map g = P a) :
    (A >>= L).map g = (A >>= P) := by
  cases A with
  | error e => rfl
  | ok a => exact h a

theorem map_call2 {A : Res (List T × List T × σ)} {L : List T × List T × σ → Res γ} {P : List T × List T → Res β}
    (h : ∀ a b st, (L (a, b, st)).map g = P (a, b)) : (A >>= L).map g = (A.map forget2 >>= P) := by
  cases A with
  | error e => rfl
  | ok a => exact h a.1 a.2.1 a.2.2

theorem map_call3 {A : Res (List T × List T × List T × σ)} {L : List T × List T × List T × σ → Res γ}
    {P : List T × List T × List T → Res β} (h : ∀ a b c st, (L (a, b, c, st)).map g = P (a, b, c)) :
    (A >>= L).map g = (A.map forget3 >>= P) := by
  cases A with
  | error e => rfl
  | ok a => exact h a.1 a.2.1 a.2.2.1 a.2.2.2

theorem Sim.step {A : Res α} {L : α → Res γ} {P : σ → α → Res β} (st : σ) (h : ∀ a, Sim g (L a) fun st => P st a) :
    Sim g (A >>= L) fun st => A >>= P st := by
  cases A with
  | error e => exact ⟨st, rfl⟩
  | ok a => exact h a

theorem Sim.call2 {A : Res (List T × List T × σ)} {L : List T × List T × σ → Res γ} {P : σ → List T × List T → Res β}
    (st : σ) (h : ∀ a b st, (L (a, b, st)).map g = P st (a, b)) : Sim g (A >>= L) fun st => A.map forget2 >>= P st := by
  cases A with
  | error e => exact ⟨st, rfl⟩
  | ok a => exact ⟨a.2.2, h a.1 a.2.1 a.2.2⟩

end Sim

section Performs
variable [Zero T] [Add T] [Sub T] [Mul T] [Neg T] [FftNum T]

theorem liveMrPerformInplace_sim (w h : LiveDht σ T) (n1 i1 o1 n2 i2 o2 width height len : Nat) (tw : List (Cx T))
    (buffer scratch : List T) (st : σ) :
    Sim forget2 (liveMrPerformInplace w h width height len tw buffer scratch st) fun st1 =>
      mrPerformInplace (w.at n1 i1 o1 st1) (h.at n2 i2 o2 st) width height len tw buffer scratch := by
  unfold liveMrPerformInplace mrPerformInplace
  refine Sim.step st fun a => Sim.step st fun b => Sim.step st fun c => ?_
  split
  · exact Sim.call2 st fun s i st => map_step fun s => map_step fun b => map_call3 fun b s i _ => map_step fun s =>
      map_step fun b => rfl
  · exact Sim.call2 st fun s i st => map_step fun s => map_step fun b => map_call3 fun b s i _ => map_step fun s =>
      map_step fun b => rfl

theorem liveMrPerformOop_sim (w h : LiveDht σ T) (n1 i1 o1 n2 i2 o2 width height : Nat) (tw : List (Cx T))
    (input output scratch : List T) (st : σ) :
    Sim forget3 (liveMrPerformOop w h width height tw input output scratch st) fun st1 =>
      mrPerformOop (w.at n1 i1 o1 st1) (h.at n2 i2 o2 st) width height tw input output scratch := by
  unfold liveMrPerformOop mrPerformOop
  refine Sim.step st fun b => Sim.step st fun c => ?_
  split
  · refine Sim.call2 st fun s i st => ?_
    simp only [ok_bind]
    refine map_step fun s => map_step fun b => ?_
    split
    · refine map_call2 fun b s _ => ?_
      exact map_step fun s => map_step fun b => rfl
    · refine map_call2 fun b s _ => ?_
      exact map_step fun s => map_step fun b => rfl
  · refine Sim.call2 st fun s i st => ?_
    simp only [ok_bind]
    refine map_step fun s => map_step fun b => ?_
    split
    · refine map_call2 fun b s _ => ?_
      exact map_step fun s => map_step fun b => rfl
    · refine map_call2 fun b s _ => ?_
      exact map_step fun s => map_step fun b => rfl

theorem liveMrnPerformInplace_sim (k : Nat) (h : LiveDht σ T) (n i o height : Nat) (ap : List T → Res (List T))
    (buffer scratch : List T) (st : σ) :
    (liveMrnPerformInplace k h height ap buffer scratch st).map forget2 =
      mrnPerformInplace k (h.at n i o st) height ap buffer scratch :=
  map_step fun _ => map_call3 fun _ _ _ _ => map_step fun _ => rfl

theorem liveMrnPerformOop_sim (k : Nat) (h : LiveDht σ T) (n i o height : Nat) (ap : List T → Res (List T))
    (input output scratch : List T) (st : σ) :
    (liveMrnPerformOop k h height ap input output scratch st).map forget3 =
      mrnPerformOop k (h.at n i o st) height ap input output scratch :=
  map_step fun _ => map_call2 fun _ _ _ => map_step fun _ => rfl

theorem liveSrPerformInplace_sim (q h : LiveDht σ T) (n1 i1 o1 n2 i2 o2 len : Nat) (tw : List (Cx T))
    (buffer scratch : List T) (st : σ) :
    Sim forget2 (liveSrPerformInplace q h len tw buffer scratch st) fun st1 =>
      srPerformInplace (q.at n1 i1 o1 st1) (h.at n2 i2 o2 st) len tw buffer scratch :=
  Sim.step st fun _ => Sim.step st fun _ => Sim.call2 st fun _ _ _ => map_call3 fun _ _ _ _ => map_step fun _ =>
    map_step fun _ => rfl

theorem liveSrPerformOop_sim (q h : LiveDht σ T) (n1 i1 o1 n2 i2 o2 len : Nat) (tw : List (Cx T))
    (input output scratch : List T) (st : σ) :
    Sim forget3 (liveSrPerformOop q h len tw input output scratch st) fun st1 =>
      srPerformOop (q.at n1 i1 o1 st1) (h.at n2 i2 o2 st) len tw input output scratch :=
  Sim.step st fun _ => Sim.step st fun _ => Sim.call2 st fun _ _ _ => map_call2 fun _ _ _ => map_step fun _ =>
    map_step fun _ => rfl

theorem liveRadersPerformInplace_sim (d : LiveDht σ T) (n i o len root inv : Nat) (tw : List (Cx T))
    (buffer scratch : List T) (st : σ) :
    Sim forget2 (liveRadersPerformInplace d len root inv tw buffer scratch st) fun st1 =>
      radersPerformInplace2 (d.at n i o st) (d.at n i o st1) len root inv tw buffer scratch := by
  unfold liveRadersPerformInplace radersPerformInplace2
  match buffer with
  | [] => exact ⟨st, rfl⟩
  | b0 :: buffer =>
    refine Sim.step st fun _ => Sim.step st fun _ => Sim.call2 st fun _ _ _ => map_step fun _ => map_step fun _ =>
      map_step fun _ => map_step fun _ => map_call2 fun _ _ _ => map_step fun _ => rfl

theorem liveRadersPerformOop_sim (d : LiveDht σ T) (n i o len root inv : Nat) (tw : List (Cx T))
    (input output scratch : List T) (st : σ) :
    Sim forget3 (liveRadersPerformOop d len root inv tw input output scratch st) fun st1 =>
      radersPerformOop2 (d.at n i o st) (d.at n i o st1) len root inv tw input output scratch := by
  unfold liveRadersPerformOop radersPerformOop2
  match output, input with
  | [], _ => exact ⟨st, rfl⟩
  | _ :: _, [] => exact ⟨st, rfl⟩
  | _ :: _, _ :: _ =>
    refine Sim.step st fun _ => Sim.call2 st fun _ _ _ => map_step fun _ => map_step fun _ =>
      map_step fun _ => map_step fun _ => map_call2 fun _ _ _ => map_step fun _ => rfl

end Performs

/-! ## Frozen objects -/

theorem post_map {α β : Type} {g : α → β} {P : β → Prop} {r : Res α} :
    Post D P (r.map g) ↔ Post D (fun a => P (g a)) r := by
  cases r with
  | ok a => rfl
  | error e => cases e <;> rfl

theorem LiveSafe.post_len {d : LiveDht σ T} (h : LiveSafe D d) (st : σ) : Post D (fun _ => True) (d.len st) := by
  have := h.len st
  generalize d.len st = r at this
  match r with
  | .ok _ => trivial
  | .error (.panic _) => trivial
  | .error .ub => exact this
  | .error .diverge => exact this

theorem LiveSafe.post_inplaceScratchLen {d : LiveDht σ T} (h : LiveSafe D d) (st : σ) :
    Post D (fun _ => True) (d.inplaceScratchLen st) := by
  have := h.inplaceScratchLen st
  generalize d.inplaceScratchLen st = r at this
  match r with
  | .ok _ => trivial
  | .error (.panic _) => trivial
  | .error .ub => exact this
  | .error .diverge => exact this

theorem LiveSafe.post_oopScratchLen {d : LiveDht σ T} (h : LiveSafe D d) (st : σ) :
    Post D (fun _ => True) (d.oopScratchLen st) := by
  have := h.oopScratchLen st
  generalize d.oopScratchLen st = r at this
  match r with
  | .ok _ => trivial
  | .error (.panic _) => trivial
  | .error .ub => exact this
  | .error .diverge => exact this

theorem LiveSafe.post_process {d : LiveDht σ T} (h : LiveSafe D d) (b : List T) (st : σ) :
    Post D (fun r => r.1.length = b.length) (d.process b st) := by
  have := h.process b st
  generalize d.process b st = r at this
  match r with
  | .ok (_, _) => exact this
  | .error (.panic _) => trivial
  | .error .ub => exact this
  | .error .diverge => exact this

theorem LiveSafe.post_inplace {d : LiveDht σ T} (h : LiveSafe D d) (b s : List T) (st : σ) :
    Post D (fun r => r.1.length = b.length ∧ r.2.1.length = s.length) (d.processWithScratch b s st) := by
  have := h.inplace b s st
  generalize d.processWithScratch b s st = r at this
  match r with
  | .ok (_, _, _) => exact this
  | .error (.panic _) => trivial
  | .error .ub => exact this
  | .error .diverge => exact this

theorem LiveSafe.post_oop {d : LiveDht σ T} (h : LiveSafe D d) (i o s : List T) (st : σ) :
    Post D (fun r => r.1.length = i.length ∧ r.2.1.length = o.length ∧ r.2.2.1.length = s.length)
      (d.processOop i o s st) := by
  have := h.oop i o s st
  generalize d.processOop i o s st = r at this
  match r with
  | .ok (_, _, _, _) => exact this
  | .error (.panic _) => trivial
  | .error .ub => exact this
  | .error .diverge => exact this

theorem LiveSafe.at {d : LiveDht σ T} (h : LiveSafe D d) (n i o : Nat) (st : σ) : SafeDht D (d.at n i o st) := by
  refine SafeDht.mk' (fun b s => ?_) fun b o s => ?_
  · have := h.inplace b s st
    simp only [LiveDht.at, post_map]
    generalize d.processWithScratch b s st = r at this
    match r with
    | .ok (_, _, _) => exact this
    | .error (.panic _) => trivial
    | .error .ub => exact this
    | .error .diverge => exact this
  · have := h.oop b o s st
    simp only [LiveDht.at, post_map]
    generalize d.processOop b o s st = r at this
    match r with
    | .ok (_, _, _, _) => exact this
    | .error (.panic _) => trivial
    | .error .ub => exact this
    | .error .diverge => exact this

theorem LiveSafe.mk' {d : LiveDht σ T} (h1 : ∀ st, Post D (fun _ => True) (d.len st))
    (h2 : ∀ st, Post D (fun _ => True) (d.inplaceScratchLen st)) (h3 : ∀ st, Post D (fun _ => True) (d.oopScratchLen st))
    (h4 : ∀ b st, Post D (fun r => r.1.length = b.length) (d.process b st))
    (h5 : ∀ b s st, Post D (fun r => r.1.length = b.length ∧ r.2.1.length = s.length) (d.processWithScratch b s st))
    (h6 : ∀ i o s st, Post D (fun r => r.1.length = i.length ∧ r.2.1.length = o.length ∧ r.2.2.1.length = s.length)
      (d.processOop i o s st)) : LiveSafe D d := by
  refine ⟨fun st => ?_, fun st => ?_, fun st => ?_, fun b st => ?_, fun b s st => ?_, fun i o s st => ?_⟩
  · have := h1 st
    generalize d.len st = r at this
    match r with
    | .ok _ => trivial
    | .error (.panic _) => trivial
    | .error .ub => exact this
    | .error .diverge => exact this
  · have := h2 st
    generalize d.inplaceScratchLen st = r at this
    match r with
    | .ok _ => trivial
    | .error (.panic _) => trivial
    | .error .ub => exact this
    | .error .diverge => exact this
  · have := h3 st
    generalize d.oopScratchLen st = r at this
    match r with
    | .ok _ => trivial
    | .error (.panic _) => trivial
    | .error .ub => exact this
    | .error .diverge => exact this
  · have := h4 b st
    generalize d.process b st = r at this
    match r with
    | .ok (_, _) => exact this
    | .error (.panic _) => trivial
    | .error .ub => exact this
    | .error .diverge => exact this
  · have := h5 b s st
    generalize d.processWithScratch b s st = r at this
    match r with
    | .ok (_, _, _) => exact this
    | .error (.panic _) => trivial
    | .error .ub => exact this
    | .error .diverge => exact this
  · have := h6 i o s st
    generalize d.processOop i o s st = r at this
    match r with
    | .ok (_, _, _, _) => exact this
    | .error (.panic _) => trivial
    | .error .ub => exact this
    | .error .diverge => exact this

theorem LiveImplements.at {d : LiveDht σ T} {n i o : Nat} {f : List T → List T} (h : LiveImplements d n i o f) (st : σ) :
    Implements (d.at n i o st) f := by
  refine ⟨h.length, fun b s h1 h2 h3 => ?_, fun a b s h0 h1 h2 h3 => ?_⟩
  · obtain ⟨s', st', e, r⟩ := h.inplace b s st h1 h2 h3
    exact ⟨s', by simp only [LiveDht.at, e]; rfl, r⟩
  · obtain ⟨a', s', st', e, r⟩ := h.oop a b s st h0 h1 h2 h3
    exact ⟨a', s', by simp only [LiveDht.at, e]; rfl, r⟩

theorem map_eq_of_match2 {P : Res (List T × List T)} {L : Res (List T × List T × σ)} (h : match P with
    | .ok (a, b) => ∃ st', L = .ok (a, b, st')
    | .error e => L = .error e) : L.map forget2 = P := by
  match P with
  | .ok (a, b) => obtain ⟨st', rfl⟩ := h; rfl
  | .error e => subst h; rfl

theorem match_of_map_eq2 {P : Res (List T × List T)} {L : Res (List T × List T × σ)} : L.map forget2 = P → match P with
    | .ok (a, b) => ∃ st', L = .ok (a, b, st')
    | .error e => L = .error e := by
  rintro rfl
  match L with
  | .ok (a, b, st) => exact ⟨st, rfl⟩
  | .error e => rfl

theorem map_eq_of_match3 {P : Res (List T × List T × List T)} {L : Res (List T × List T × List T × σ)} (h : match P with
    | .ok (a, b, c) => ∃ st', L = .ok (a, b, c, st')
    | .error e => L = .error e) : L.map forget3 = P := by
  match P with
  | .ok (a, b, c) => obtain ⟨st', rfl⟩ := h; rfl
  | .error e => subst h; rfl

theorem match_of_map_eq3 {P : Res (List T × List T × List T)} {L : Res (List T × List T × List T × σ)} :
    L.map forget3 = P → match P with
    | .ok (a, b, c) => ∃ st', L = .ok (a, b, c, st')
    | .error e => L = .error e := by
  rintro rfl
  match L with
  | .ok (a, b, c, st) => exact ⟨st, rfl⟩
  | .error e => rfl

theorem ActsLike.at [Zero T] {l : LiveDht σ T} {d : Dht T} (h : ActsLike l d) (st : σ) :
    l.at d.len d.inplaceScratchLen d.oopScratchLen st = d := by
  have h1 : (l.at d.len d.inplaceScratchLen d.oopScratchLen st).processWithScratch = d.processWithScratch :=
    funext fun b => funext fun s => map_eq_of_match2 (h.inplace b s st)
  have h2 : (l.at d.len d.inplaceScratchLen d.oopScratchLen st).processOop = d.processOop :=
    funext fun i => funext fun o => funext fun s => map_eq_of_match3 (h.oop i o s st)
  cases d
  simp only [LiveDht.at, Dht.mk.injEq, true_and] at h1 h2 ⊢
  exact ⟨h1, h2⟩

/-! ## The boilerplate -/

section Boilerplate
variable [Zero T] {len inpScr oopScr : Nat} {pin : List T → List T → σ → Res (List T × List T × σ)}
  {poop : List T → List T → List T → σ → Res (List T × List T × List T × σ)}

theorem liveBoilerplate_safe
    (h1 : 0 < len → ∀ c s st, c.length = len → s.length = inpScr →
      Post D (fun r => r.1.length = len ∧ r.2.length = inpScr) ((pin c s st).map forget2))
    (h2 : 0 < len → ∀ i o s st, i.length = len → o.length = len → s.length = oopScr →
      Post D (fun r => r.1.length = len ∧ r.2.1.length = len ∧ r.2.2.length = oopScr) ((poop i o s st).map forget3)) :
    LiveSafe D (liveBoilerplate len inpScr oopScr pin poop) := by
  have key : ∀ b s st, Post D (fun r => r.1.length = b.length ∧ r.2.1.length = s.length)
      ((liveBoilerplate len inpScr oopScr pin poop).processWithScratch b s st) := by
    intro b s st
    simp only [liveBoilerplate]
    rcases Nat.eq_zero_or_pos len with h0 | hlen
    · rw [if_pos h0]; exact ⟨rfl, rfl⟩
    rw [if_neg (by omega)]
    split
    · exact Post.bind (dhtErrorInplace_post _ _ _ _) fun _ _ => ⟨rfl, rfl⟩
    · next hc =>
      refine Post.bind (iterChunks_post hlen (fun s => s.1.length = inpScr)
        (fun c s hc hs => (post_map.1 (h1 hlen c s.1 s.2 hc hs)).mono fun r hr => hr)
        b (s.take inpScr, st) (by simp; omega)) fun r hr => ?_
      have key : r.2.1.length = b.length ∧ (r.2.2.1 ++ s.drop inpScr).length = s.length :=
        ⟨hr.1, by rw [List.length_append, hr.2, List.length_drop]; omega⟩
      split
      · exact Post.bind (dhtErrorInplace_post _ _ _ _) fun _ _ => key
      · exact key
  refine LiveSafe.mk' (fun _ => trivial) (fun _ => trivial) (fun _ => trivial) (fun b st => ?_) key fun i o s st => ?_
  · exact Post.bind (key b _ st) fun r hr => hr.1
  · simp only [liveBoilerplate]
    rcases Nat.eq_zero_or_pos len with h0 | hlen
    · rw [if_pos h0]; exact ⟨rfl, rfl, rfl⟩
    rw [if_neg (by omega)]
    split
    · exact Post.bind (dhtErrorOutofplace_post _ _ _ _ _) fun _ _ => ⟨rfl, rfl, rfl⟩
    · next hc =>
      refine Post.bind (iterChunksZipped_post hlen (fun s => s.1.length = oopScr)
        (fun c1 c2 s hc1 hc2 hs => (post_map.1 (h2 hlen c1 c2 s.1 s.2 hc1 hc2 hs)).mono fun r hr => hr)
        i o (s.take oopScr, st) (by simp; omega)) fun r hr => ?_
      have key : r.2.1.length = i.length ∧ r.2.2.1.length = o.length ∧
          (r.2.2.2.1 ++ s.drop oopScr).length = s.length :=
        ⟨hr.1, hr.2.1, by rw [List.length_append, hr.2.2, List.length_drop]; omega⟩
      split
      · exact Post.bind (dhtErrorOutofplace_post _ _ _ _ _) fun _ _ => key
      · exact key

/-- Safety from the functions without memory, applied to frozen objects. -/
theorem liveBoilerplate_safe'
    (h1 : 0 < len → ∀ c s st, ∃ pin' poop', SafePerforms D len inpScr oopScr pin' poop' ∧ (pin c s st).map forget2 = pin' c s)
    (h2 : 0 < len → ∀ i o s st, ∃ pin' poop', SafePerforms D len inpScr oopScr pin' poop' ∧
      (poop i o s st).map forget3 = poop' i o s) :
    LiveSafe D (liveBoilerplate len inpScr oopScr pin poop) := by
  refine liveBoilerplate_safe (fun hp c s st hc hs => ?_) fun hp i o s st hi ho hs => ?_
  · obtain ⟨_, _, h, e⟩ := h1 hp c s st
    rw [e]; exact h.inplace c s hc hs
  · obtain ⟨_, _, h, e⟩ := h2 hp i o s st
    rw [e]; exact h.oop i o s hi ho hs

theorem liveBoilerplate_implements {g : List T → List T} (h0 : len = 0 → (g []).length = 0)
    (h1 : 0 < len → ∀ c s st, ∃ pin' poop', Performs len inpScr oopScr g pin' poop' ∧ (pin c s st).map forget2 = pin' c s)
    (h2 : 0 < len → ∀ i o s st, ∃ pin' poop', Performs len inpScr oopScr g pin' poop' ∧
      (poop i o s st).map forget3 = poop' i o s) [Nonempty σ] :
    LiveImplements (liveBoilerplate len inpScr oopScr pin poop) len inpScr oopScr g := by
  have hg : ∀ x, x.length = len → (g x).length = len := by
    intro x hx
    rcases Nat.eq_zero_or_pos len with h | h
    · have := List.length_eq_zero_iff.1 (hx.trans h)
      subst this; rw [h0 h, h]
    · obtain ⟨_, _, hp, _⟩ := h1 h [] [] (Classical.arbitrary σ)
      exact hp.length x hx
  have key : ∀ (b s : List T) (st : σ), len ≤ b.length → len ∣ b.length → inpScr ≤ s.length →
      ∃ s' st', (liveBoilerplate len inpScr oopScr pin poop).processWithScratch b s st =
        .ok (mapChunks len g b, s', st') ∧ s'.length = s.length ∧ s'.drop inpScr = s.drop inpScr := by
    intro b s st hb hd hs
    simp only [liveBoilerplate]
    rcases Nat.eq_zero_or_pos len with h | hlen
    · rw [if_pos h, h, mapChunks_zero]; exact ⟨s, st, rfl, rfl, rfl⟩
    obtain ⟨⟨s', st'⟩, e, hs'⟩ := iterChunks_ok hlen (σ := List T × σ) (g := g) (fun s => s.1.length = inpScr)
      (f := fun chunk s => pin chunk s.1 s.2) (fun c s hc hs => by
        obtain ⟨pin', _, hp, e⟩ := h1 hlen c s.1 s.2
        obtain ⟨s', e', hs'⟩ := hp.inplace c s.1 hc hs
        rw [e'] at e
        rcases hr : pin c s.1 s.2 with e1 | ⟨a, b, st'⟩
        · rw [hr] at e; cases e
        · rw [hr] at e
          simp only [map_ok, forget2, Except.ok.injEq, Prod.mk.injEq] at e
          exact ⟨(b, st'), by rw [e.1], by simpa [e.2] using hs'⟩) b (s.take inpScr, st) (by simp; omega)
    simp only at hs'
    refine ⟨s' ++ s.drop inpScr, st', ?_, by simp [hs']; omega, by simp [← hs']⟩
    rw [if_neg (by omega), if_neg (by omega)]
    erw [e]
    simp [hd]
  refine ⟨fun st => ⟨st, rfl⟩, fun st => ⟨st, rfl⟩, fun st => ⟨st, rfl⟩, hg, fun b st hb hd => ?_, key, ?_⟩
  · obtain ⟨s', st', e, _⟩ := key b (List.replicate inpScr 0) st hb hd (by simp)
    refine ⟨st', ?_⟩
    have : (liveBoilerplate len inpScr oopScr pin poop).process b st =
      (liveBoilerplate len inpScr oopScr pin poop).processWithScratch b (List.replicate inpScr 0) st >>= fun r =>
        .ok (r.1, r.2.2) := rfl
    rw [this, e]; rfl
  · intro i o s st hio hb hd hs
    simp only [liveBoilerplate]
    rcases Nat.eq_zero_or_pos len with h | hlen
    · rw [if_pos h, h, mapChunks_zero]
      have hi : i.length = 0 := by rw [h] at hd; simpa using hd
      have hi' := List.length_eq_zero_iff.1 hi
      have ho' := List.length_eq_zero_iff.1 (hio.trans hi)
      subst hi' ho'
      exact ⟨[], s, st, rfl, rfl, rfl, rfl⟩
    obtain ⟨i', o', ⟨s', st'⟩, e, hi', _, ho', hs'⟩ := iterChunksZipped_ok hlen (σ := List T × σ) (g := g)
      (fun s => s.1.length = oopScr) False
      (f := fun c1 c2 s => poop c1 c2 s.1 s.2) (fun c1 c2 s hc1 hc2 hs => by
        obtain ⟨_, poop', hp, e⟩ := h2 hlen c1 c2 s.1 s.2
        obtain ⟨c', s', e', hc', hs'⟩ := hp.oop c1 c2 s.1 hc1 hc2 hs
        rw [e'] at e
        rcases hr : poop c1 c2 s.1 s.2 with e1 | ⟨a, b, c, st'⟩
        · rw [hr] at e; cases e
        · rw [hr] at e
          simp only [map_ok, forget3, Except.ok.injEq, Prod.mk.injEq] at e
          exact ⟨a, (c, st'), by rw [e.2.1], by rw [e.1]; exact hc', False.elim, by simpa [e.2.2] using hs'⟩)
      i o (s.take oopScr, st) (by simp; omega) hio
    simp only at hs'
    refine ⟨i', s' ++ s.drop oopScr, st', ?_, hi', by simp [hs']; omega, by simp [← hs']⟩
    rw [if_neg (by omega), if_neg (by omega)]
    erw [e]
    simp [hd, ho' hd]

theorem iterChunks_forget {n : Nat} (hn : 0 < n) {pin' : List T → List T → Res (List T × List T)}
    (h : ∀ c s st, (pin c s st).map forget2 = pin' c s) (b s : List T) (st : σ) :
    (iterChunks n (fun c s => pin c s.1 s.2) b (s, st)).map (fun r => (r.1, r.2.1, r.2.2.1)) = iterChunks n pin' b s := by
  induction b using chunk_induction hn generalizing s st with
  | hlt l hl =>
    rw [iterChunks, iterChunks, if_neg (by omega), if_neg (by omega)]; rfl
  | hge l hl ih =>
    rw [iterChunks, iterChunks, if_pos hl, if_pos hl, if_neg (by omega), if_neg (by omega), ← h _ s st]
    refine map_call2 fun a b st => ?_
    simp only
    rw [← ih b st]
    cases iterChunks n (fun c s => pin c s.1 s.2) (List.drop n l) (b, st) <;> rfl

theorem iterChunksZippedLoop_forget {n : Nat} (hn : 0 < n)
    {poop' : List T → List T → List T → Res (List T × List T × List T)}
    (h : ∀ i o s st, (poop i o s st).map forget3 = poop' i o s) (b1 b2 s : List T) (st : σ) :
    (iterChunksZippedLoop n (fun c1 c2 s => poop c1 c2 s.1 s.2) b1 b2 (s, st)).map
      (fun r => (r.1, r.2.1, r.2.2.1, r.2.2.2.1)) = iterChunksZippedLoop n poop' b1 b2 s := by
  induction b1 using chunk_induction hn generalizing b2 s st with
  | hlt l hl =>
    rw [iterChunksZippedLoop, iterChunksZippedLoop, if_neg (by omega), if_neg (by omega)]; rfl
  | hge l hl ih =>
    rw [iterChunksZippedLoop, iterChunksZippedLoop]
    split
    · rw [if_neg (by omega), if_neg (by omega), ← h _ _ s st]
      refine map_call3 fun a b c st => ?_
      simp only
      rw [← ih _ c st]
      cases iterChunksZippedLoop n (fun c1 c2 s => poop c1 c2 s.1 s.2) (List.drop n l) (List.drop n b2) (c, st) <;> rfl
    · rfl

theorem iterChunksZipped_forget {n : Nat} (hn : 0 < n)
    {poop' : List T → List T → List T → Res (List T × List T × List T)}
    (h : ∀ i o s st, (poop i o s st).map forget3 = poop' i o s) (b1 b2 s : List T) (st : σ) :
    (iterChunksZipped n (fun c1 c2 s => poop c1 c2 s.1 s.2) b1 b2 (s, st)).map
      (fun r => (r.1, r.2.1, r.2.2.1, r.2.2.2.1)) = iterChunksZipped n poop' b1 b2 s := by
  unfold iterChunksZipped
  split
  · rw [← iterChunksZippedLoop_forget hn h _ _ s st]
    cases iterChunksZippedLoop n (fun c1 c2 s => poop c1 c2 s.1 s.2) _ b2 (s, st) <;> rfl
  · rw [← iterChunksZippedLoop_forget hn h _ _ s st]
    cases iterChunksZippedLoop n (fun c1 c2 s => poop c1 c2 s.1 s.2) b1 _ (s, st) <;> rfl

theorem liveBoilerplate_actsLike {pin' : List T → List T → Res (List T × List T)}
    {poop' : List T → List T → List T → Res (List T × List T × List T)}
    (h1 : ∀ c s st, (pin c s st).map forget2 = pin' c s) (h2 : ∀ i o s st, (poop i o s st).map forget3 = poop' i o s) :
    ActsLike (liveBoilerplate len inpScr oopScr pin poop) (boilerplateDht len inpScr oopScr pin' poop') := by
  have key : ∀ b s st, ((liveBoilerplate len inpScr oopScr pin poop).processWithScratch b s st).map forget2 =
      (boilerplateDht len inpScr oopScr pin' poop').processWithScratch b s := by
    intro b s st
    simp only [liveBoilerplate, boilerplateDht]
    rcases Nat.eq_zero_or_pos len with h0 | hlen
    · rw [if_pos h0, if_pos h0]; rfl
    simp only [if_neg (show ¬ len = 0 by omega)]
    split
    · exact map_step fun _ => rfl
    · rw [← iterChunks_forget hlen h1 b (s.take inpScr) st]
      rcases iterChunks len (fun c s => pin c s.1 s.2) b (s.take inpScr, st) with e | ⟨ok, b', s', st'⟩
      · rfl
      · simp only [map_ok, ok_bind]
        cases ok
        · exact map_step fun _ => rfl
        · rfl
  refine ⟨fun st => ⟨st, rfl⟩, fun st => ⟨st, rfl⟩, fun st => ⟨st, rfl⟩, fun b st => ?_,
    fun b s st => match_of_map_eq2 (key b s st), fun i o s st => match_of_map_eq3 ?_⟩
  · have e1 : (liveBoilerplate len inpScr oopScr pin poop).process b st =
      (liveBoilerplate len inpScr oopScr pin poop).processWithScratch b (List.replicate inpScr 0) st >>= fun r =>
        .ok (r.1, r.2.2) := rfl
    have e2 : (boilerplateDht len inpScr oopScr pin' poop').process b =
      (boilerplateDht len inpScr oopScr pin' poop').processWithScratch b (List.replicate inpScr 0) >>= fun r =>
        .ok r.1 := rfl
    rw [e1, e2, ← key b _ st]
    rcases (liveBoilerplate len inpScr oopScr pin poop).processWithScratch b (List.replicate inpScr 0) st with
      e | ⟨b', s', st'⟩
    · rfl
    · exact ⟨st', rfl⟩
  · simp only [liveBoilerplate, boilerplateDht]
    rcases Nat.eq_zero_or_pos len with h0 | hlen
    · rw [if_pos h0, if_pos h0]; rfl
    simp only [if_neg (show ¬ len = 0 by omega)]
    split
    · exact map_step fun _ => rfl
    · rw [← iterChunksZipped_forget hlen h2 i o (s.take oopScr) st]
      rcases iterChunksZipped len (fun c1 c2 s => poop c1 c2 s.1 s.2) i o (s.take oopScr, st) with
        e | ⟨ok, i', o', s', st'⟩
      · rfl
      · simp only [map_ok, ok_bind]
        cases ok
        · exact map_step fun _ => rfl
        · rfl

end Boilerplate

/-! ## The combinators -/

section Combinators
variable [Zero T] [Add T] [Sub T] [Mul T] [Neg T] [FftNum T]

theorem liveMixedRadix2xn_eq : liveMixedRadix2xn (σ := σ) (T := T) = liveMixedRadixN 2 (mr2Apply T) := by
  unfold liveMixedRadix2xn; congr 1; funext h; rw [mr2Apply, ← mr2_chunks]
theorem liveMixedRadix3xn_eq : liveMixedRadix3xn (σ := σ) (T := T) = liveMixedRadixN 3 (mr3Apply T) := by
  unfold liveMixedRadix3xn; congr 1; funext h; rw [mr3Apply, ← mr3_chunks]
theorem liveMixedRadix4xn_eq : liveMixedRadix4xn (σ := σ) (T := T) = liveMixedRadixN 4 (mr4Apply T) := by
  unfold liveMixedRadix4xn; congr 1; funext h; rw [mr4Apply, ← mr4_chunks]
theorem liveMixedRadix5xn_eq : liveMixedRadix5xn (σ := σ) (T := T) = liveMixedRadixN 5 (mr5Apply T) := by
  unfold liveMixedRadix5xn; congr 1; funext h; rw [mr5Apply, ← mr5_chunks]
theorem liveMixedRadix6xn_eq : liveMixedRadix6xn (σ := σ) (T := T) = liveMixedRadixN 6 (mr6Apply T) := by
  unfold liveMixedRadix6xn; congr 1; funext h; rw [mr6Apply, ← mr6_chunks]

/-! ### Safety -/

theorem Post.of_read {A : Res (Nat × σ)} {β : Type} {Q : β → Prop} {f : Nat × σ → Res β} (h : Post D (fun _ => True) A)
    (hf : ∀ n st, Post D Q (f (n, st))) : Post D Q (A >>= f) := Post.bind h fun a _ => hf a.1 a.2

theorem liveMixedRadix_safe {w h : LiveDht σ T} (hw : LiveSafe D w) (hh : LiveSafe D h) (st : σ) :
    Post D (fun r => LiveSafe D r.1) (liveMixedRadix w h st) := by
  unfold liveMixedRadix
  refine Post.of_read (hw.post_len _) fun n1 _ => Post.of_read (hh.post_len _) fun n2 _ =>
    Post.of_read (hh.post_inplaceScratchLen _) fun i2 _ => Post.of_read (hw.post_inplaceScratchLen _) fun i1 _ =>
    Post.of_read (hw.post_oopScratchLen _) fun o1 _ => ?_
  refine liveBoilerplate_safe' (fun _ c s st => ?_) fun _ i o s st => ?_
  · obtain ⟨st1, e⟩ := liveMrPerformInplace_sim w h 0 0 0 0 0 0 n1 n2 (n1 * n2) (mrTwiddles T n1 n2) c s st
    exact ⟨_, _, mr_safePerforms (hw.at 0 0 0 st1) (hh.at 0 0 0 st) (n := n1 * n2) (w := n1) (h := n2)
      (tw := mrTwiddles T n1 n2), e⟩
  · obtain ⟨st1, e⟩ := liveMrPerformOop_sim w h 0 0 0 0 0 0 n1 n2 (mrTwiddles T n1 n2) i o s st
    exact ⟨_, _, mr_safePerforms (hw.at 0 0 0 st1) (hh.at 0 0 0 st) (n := n1 * n2) (w := n1) (h := n2)
      (tw := mrTwiddles T n1 n2), e⟩

theorem liveMixedRadixN_safe {k : Nat} (hk : 2 ≤ k) {h : LiveDht σ T} (hh : LiveSafe D h) {ap : Nat → List T → Res (List T)}
    (hap : ∀ n, 0 < n → Total (k * n) (ap n)) (st : σ) :
    Post D (fun r => LiveSafe D r.1) (liveMixedRadixN k ap h st) := by
  unfold liveMixedRadixN
  refine Post.of_read (hh.post_len _) fun n _ => Post.of_read (hh.post_inplaceScratchLen _) fun i _ => ?_
  refine liveBoilerplate_safe' (fun hp c s st => ?_) fun hp a o s st => ?_
  · exact ⟨_, _, mrn_safePerforms hk (hh.at n 0 0 st) (hap n (Nat.pos_of_mul_pos_left hp)),
      liveMrnPerformInplace_sim k h n 0 0 n _ c s st⟩
  · exact ⟨_, _, mrn_safePerforms hk (hh.at n 0 0 st) (hap n (Nat.pos_of_mul_pos_left hp)),
      liveMrnPerformOop_sim k h n 0 0 n _ a o s st⟩

theorem liveSplitRadix_safe {q h : LiveDht σ T} (hq : LiveSafe D q) (hh : LiveSafe D h) (st : σ) :
    Post D (fun r => LiveSafe D r.1) (liveSplitRadix q h st) := by
  unfold liveSplitRadix
  refine Post.of_read (hq.post_len _) fun n _ => Post.of_read (hh.post_len _) fun m _ => ?_
  refine Post.bind Post.assert fun _ hm => ?_
  have hm : m = 2 * n := by rw [Nat.mul_comm]; simpa using hm
  simp only [Nat.mul_comm n 4]
  refine liveBoilerplate_safe' (fun hp c s st => ?_) fun hp i o s st => ?_
  · obtain ⟨st1, e⟩ := liveSrPerformInplace_sim q h 0 0 0 0 0 0 (4 * n) (srTwiddles T (4 * n)) c s st
    exact ⟨_, _, sr_safePerforms (hq.at 0 0 0 st1) (hh.at 0 0 0 st) (by omega) hm.ge, e⟩
  · obtain ⟨st1, e⟩ := liveSrPerformOop_sim q h 0 0 0 0 0 0 (4 * n) (srTwiddles T (4 * n)) i o s st
    exact ⟨_, _, sr_safePerforms (hq.at 0 0 0 st1) (hh.at 0 0 0 st) (by omega) hm.ge, e⟩

theorem liveRaders_safe {d : LiveDht σ T} (hd : LiveSafe D d) (st : σ) :
    Post D (fun r => LiveSafe D r.1) (liveRaders d st) := by
  unfold liveRaders
  refine Post.of_read (hd.post_len _) fun n st => ?_
  refine Post.bind Post.assert fun _ hp => ?_
  have hp : (n + 1).Prime := by simpa [millerRabin] using hp
  refine Post.bind (primitiveRoot_post hp.two_le) fun root _ => ?_
  match root with
  | none => trivial
  | some root =>
    refine Post.bind radersKernelInput_post fun k _ => Post.bind (hd.post_process k st) fun k2 _ => ?_
    refine Post.bind radersTwiddles_post fun tw _ => Post.of_read (hd.post_inplaceScratchLen _) fun i _ => ?_
    refine liveBoilerplate_safe (fun _ c s st hc hs => ?_) fun _ i o s st hi ho hs => ?_
    · obtain ⟨st1, e⟩ := liveRadersPerformInplace_sim d 0 0 0 (n + 1) root (rootInverse root (n + 1)) tw c s st
      rw [e]
      exact (radersPerformInplace2_post (hd.at _ _ _ _) (hd.at _ _ _ _)).mono fun r hr =>
        ⟨by rw [hr.1, hc], by rw [hr.2, hs]⟩
    · obtain ⟨st1, e⟩ := liveRadersPerformOop_sim d 0 0 0 (n + 1) root (rootInverse root (n + 1)) tw i o s st
      rw [e]
      exact (radersPerformOop2_post (hd.at _ _ _ _) (hd.at _ _ _ _)).mono fun r hr =>
        ⟨by rw [hr.1, hi], by rw [hr.2.1, ho], by rw [hr.2.2, hs]⟩

theorem live_safe {d : Dht T} (h : SafeDht D d) : LiveSafe (σ := σ) D d.live := by
  refine LiveSafe.mk' (fun _ => trivial) (fun _ => trivial) (fun _ => trivial) (fun b st => ?_) (fun b s st => ?_)
    fun i o s st => ?_
  · exact Post.bind (h.process b) fun r hr => hr
  · exact Post.bind (h.postInplace b s) fun r hr => hr
  · exact Post.bind (h.postOop i o s) fun r hr => hr

theorem liveTree_safe (t : LiveTree σ T) (hu : ∀ d ∈ t.users, LiveSafe D d) (st : σ) :
    Post D (fun r => LiveSafe D r.1) (t.build st) := by
  induction t generalizing st with
  | plan p => exact Post.bind (plan_safe p) fun _ hd => live_safe hd
  | user d => exact hu d (by simp [LiveTree.users])
  | mixedRadix w h iw ih =>
    exact Post.bind (iw (fun d hd => hu d (by simp [LiveTree.users, hd])) st) fun r hw =>
      Post.bind (ih (fun d hd => hu d (by simp [LiveTree.users, hd])) r.2) fun r hh => liveMixedRadix_safe hw hh r.2
  | mr2 h ih =>
    exact Post.bind (ih hu st) fun r hh => by
      rw [liveMixedRadix2xn_eq]; exact liveMixedRadixN_safe (by omega) hh (fun _ => mr2Apply_total) r.2
  | mr3 h ih =>
    exact Post.bind (ih hu st) fun r hh => by
      rw [liveMixedRadix3xn_eq]; exact liveMixedRadixN_safe (by omega) hh (fun _ => mr3Apply_total) r.2
  | mr4 h ih =>
    exact Post.bind (ih hu st) fun r hh => by
      rw [liveMixedRadix4xn_eq]; exact liveMixedRadixN_safe (by omega) hh (fun _ => mr4Apply_total) r.2
  | mr5 h ih =>
    exact Post.bind (ih hu st) fun r hh => by
      rw [liveMixedRadix5xn_eq]; exact liveMixedRadixN_safe (by omega) hh (fun _ => mr5Apply_total) r.2
  | mr6 h ih =>
    exact Post.bind (ih hu st) fun r hh => by
      rw [liveMixedRadix6xn_eq]; exact liveMixedRadixN_safe (by omega) hh (fun _ => mr6Apply_total) r.2
  | splitRadix q h iq ih =>
    exact Post.bind (iq (fun d hd => hu d (by simp [LiveTree.users, hd])) st) fun r hw =>
      Post.bind (ih (fun d hd => hu d (by simp [LiveTree.users, hd])) r.2) fun r hh => liveSplitRadix_safe hw hh r.2
  | raders i ih => exact Post.bind (ih hu st) fun r hh => liveRaders_safe hh r.2

/-! ### Objects whose memory does not show -/

/-- A constructor result that acts like the result of the constructor without memory. -/
def BuildsLike (L : Res (LiveDht σ T × σ)) (P : Res (Dht T)) : Prop :=
  match P with
  | .ok d => ∃ l st', L = .ok (l, st') ∧ ActsLike l d
  | .error e => L = .error e

theorem live_actsLike (d : Dht T) : ActsLike (σ := σ) d.live d := by
  refine ⟨fun st => ⟨st, rfl⟩, fun st => ⟨st, rfl⟩, fun st => ⟨st, rfl⟩, fun b st => ?_, fun b s st => ?_,
    fun i o s st => ?_⟩
  · simp only [Dht.live]
    cases d.process b with
    | ok a => exact ⟨st, rfl⟩
    | error e => rfl
  · simp only [Dht.live]
    cases d.processWithScratch b s with
    | ok a => exact ⟨st, rfl⟩
    | error e => rfl
  · simp only [Dht.live]
    cases d.processOop i o s with
    | ok a => exact ⟨st, rfl⟩
    | error e => rfl

theorem liveMixedRadix_like {w h : LiveDht σ T} {wd hd : Dht T} (hw : ActsLike w wd) (hh : ActsLike h hd) (st : σ) :
    BuildsLike (liveMixedRadix w h st) (.ok (mixedRadix wd hd)) := by
  obtain ⟨st1, e1⟩ := hw.len st
  obtain ⟨st2, e2⟩ := hh.len st1
  obtain ⟨st3, e3⟩ := hh.inplaceScratchLen st2
  obtain ⟨st4, e4⟩ := hw.inplaceScratchLen st3
  obtain ⟨st5, e5⟩ := hw.oopScratchLen st4
  refine ⟨_, st5, by simp only [liveMixedRadix, e1, e2, e3, e4, e5, ok_bind]; rfl, ?_⟩
  refine liveBoilerplate_actsLike (fun c s st => ?_) fun i o s st => ?_
  · obtain ⟨st1, e⟩ := liveMrPerformInplace_sim w h wd.len wd.inplaceScratchLen wd.oopScratchLen hd.len
      hd.inplaceScratchLen hd.oopScratchLen wd.len hd.len (wd.len * hd.len) (mrTwiddles T wd.len hd.len) c s st
    rw [e]; dsimp only; rw [hw.at, hh.at]
  · obtain ⟨st1, e⟩ := liveMrPerformOop_sim w h wd.len wd.inplaceScratchLen wd.oopScratchLen hd.len
      hd.inplaceScratchLen hd.oopScratchLen wd.len hd.len (mrTwiddles T wd.len hd.len) i o s st
    rw [e]; dsimp only; rw [hw.at, hh.at]

theorem liveMixedRadixN_like {k : Nat} {ap : Nat → List T → Res (List T)} {h : LiveDht σ T} {hd : Dht T}
    (hh : ActsLike h hd) (st : σ) : BuildsLike (liveMixedRadixN k ap h st) (.ok (mixedRadixN k hd (ap hd.len))) := by
  obtain ⟨st1, e1⟩ := hh.len st
  obtain ⟨st2, e2⟩ := hh.inplaceScratchLen st1
  refine ⟨_, st2, by simp only [liveMixedRadixN, e1, e2, ok_bind]; rfl, ?_⟩
  refine liveBoilerplate_actsLike (fun c s st => ?_) fun i o s st => ?_
  · rw [liveMrnPerformInplace_sim k h hd.len hd.inplaceScratchLen hd.oopScratchLen, hh.at]
  · rw [liveMrnPerformOop_sim k h hd.len hd.inplaceScratchLen hd.oopScratchLen, hh.at]

theorem liveSplitRadix_like {q h : LiveDht σ T} {qd hd : Dht T} (hq : ActsLike q qd) (hh : ActsLike h hd) (st : σ) :
    BuildsLike (liveSplitRadix q h st) (splitRadix qd hd) := by
  obtain ⟨st1, e1⟩ := hq.len st
  obtain ⟨st2, e2⟩ := hh.len st1
  unfold liveSplitRadix splitRadix
  simp only [e1, e2, ok_bind]
  cases hb : (hd.len == qd.len * 2)
  · exact rfl
  · refine ⟨_, st2, rfl, liveBoilerplate_actsLike (fun c s st => ?_) fun i o s st => ?_⟩
    · obtain ⟨st1, e⟩ := liveSrPerformInplace_sim q h qd.len qd.inplaceScratchLen qd.oopScratchLen hd.len
        hd.inplaceScratchLen hd.oopScratchLen (qd.len * 4) (srTwiddles T (qd.len * 4)) c s st
      rw [e]; dsimp only; rw [hq.at, hh.at]
    · obtain ⟨st1, e⟩ := liveSrPerformOop_sim q h qd.len qd.inplaceScratchLen qd.oopScratchLen hd.len
        hd.inplaceScratchLen hd.oopScratchLen (qd.len * 4) (srTwiddles T (qd.len * 4)) i o s st
      rw [e]; dsimp only; rw [hq.at, hh.at]

theorem BuildsLike.step {α : Type} {A : Res α} {L : α → Res (LiveDht σ T × σ)} {P : α → Res (Dht T)}
    (h : ∀ a, BuildsLike (L a) (P a)) : BuildsLike (A >>= L) (A >>= P) := by
  cases A with
  | error e => exact rfl
  | ok a => exact h a

theorem liveRaders_like {l : LiveDht σ T} {d : Dht T} (h : ActsLike l d) (st : σ) :
    BuildsLike (liveRaders l st) (raders d) := by
  obtain ⟨st1, e1⟩ := h.len st
  unfold liveRaders raders
  simp only [e1, ok_bind]
  refine BuildsLike.step fun _ => BuildsLike.step fun root => ?_
  match root with
  | none => exact rfl
  | some root =>
    refine BuildsLike.step fun k => ?_
    have hk := h.process k st1
    rcases hd : d.process k with e | k'
    · rw [hd] at hk
      simp only at hk
      rw [hk]; exact rfl
    · rw [hd] at hk
      obtain ⟨st2, hk⟩ := hk
      rw [hk]
      simp only [ok_bind]
      refine BuildsLike.step fun tw => ?_
      obtain ⟨st3, e3⟩ := h.inplaceScratchLen st2
      rw [e3]
      refine ⟨_, st3, rfl, liveBoilerplate_actsLike (fun c s st => ?_) fun i o s st => ?_⟩
      · obtain ⟨st1, e⟩ := liveRadersPerformInplace_sim l d.len d.inplaceScratchLen d.oopScratchLen (d.len + 1) root
          (rootInverse root (d.len + 1)) tw c s st
        rw [e]; dsimp only; rw [h.at, h.at]; rfl
      · obtain ⟨st1, e⟩ := liveRadersPerformOop_sim l d.len d.inplaceScratchLen d.oopScratchLen (d.len + 1) root
          (rootInverse root (d.len + 1)) tw i o s st
        rw [e]; dsimp only; rw [h.at, h.at]; rfl

theorem BuildsLike.bind {A : Res (LiveDht σ T × σ)} {B : Res (Dht T)} (h : BuildsLike A B)
    {L : LiveDht σ T × σ → Res (LiveDht σ T × σ)} {P : Dht T → Res (Dht T)}
    (hL : ∀ l d st, ActsLike l d → BuildsLike (L (l, st)) (P d)) : BuildsLike (A >>= L) (B >>= P) := by
  cases B with
  | error e => simp only [BuildsLike] at h; subst h; exact rfl
  | ok d =>
    obtain ⟨l, st', rfl, hl⟩ := h
    exact hL l d st' hl

theorem liveTree_like {t : LiveTree σ T} {p : Tree T} (h : t.ActsLike p) : ∀ st, BuildsLike (t.build st) p.build := by
  induction h with
  | plan p =>
    intro st
    show BuildsLike (p.build (T := T) >>= fun d => .ok (d.live, st)) (p.build (T := T))
    cases p.build (T := T) with
    | ok d => exact ⟨_, st, rfl, live_actsLike d⟩
    | error e => exact rfl
  | user h => exact fun st => ⟨_, st, rfl, h⟩
  | mixedRadix _ _ iw ih => exact fun st => (iw st).bind fun w wd st hw => (ih st).bind fun h hd st hh => liveMixedRadix_like hw hh st
  | mr2 _ ih =>
    exact fun st => (ih st).bind fun h hd st hh => by
      rw [liveMixedRadix2xn_eq, mixedRadix2xn_eq]; exact liveMixedRadixN_like hh st
  | mr3 _ ih =>
    exact fun st => (ih st).bind fun h hd st hh => by
      rw [liveMixedRadix3xn_eq, mixedRadix3xn_eq]; exact liveMixedRadixN_like hh st
  | mr4 _ ih =>
    exact fun st => (ih st).bind fun h hd st hh => by
      rw [liveMixedRadix4xn_eq, mixedRadix4xn_eq]; exact liveMixedRadixN_like hh st
  | mr5 _ ih =>
    exact fun st => (ih st).bind fun h hd st hh => by
      rw [liveMixedRadix5xn_eq, mixedRadix5xn_eq]; exact liveMixedRadixN_like hh st
  | mr6 _ ih =>
    exact fun st => (ih st).bind fun h hd st hh => by
      rw [liveMixedRadix6xn_eq, mixedRadix6xn_eq]; exact liveMixedRadixN_like hh st
  | splitRadix _ _ iq ih => exact fun st => (iq st).bind fun w wd st hw => (ih st).bind fun h hd st hh => liveSplitRadix_like hw hh st
  | raders _ ih => exact fun st => (ih st).bind fun h hd st hh => liveRaders_like hh st

/-! ### Objects that compute a function -/

theorem liveMixedRadix_implements {w h : LiveDht σ T} {n1 i1 o1 n2 i2 o2 : Nat} {fw fh : List T → List T}
    (hw : LiveImplements w n1 i1 o1 fw) (hh : LiveImplements h n2 i2 o2 fh) (st : σ) :
    ∃ d st', liveMixedRadix w h st = .ok (d, st') ∧
      LiveImplements d (n1 * n2) (n1 * n2 + max (if i2 > n1 * n2 then i2 else 0) o1)
        (if max i2 i1 > n1 * n2 then max i2 i1 else 0) (mrFn n1 n2 fw fh) := by
  obtain ⟨st1, e1⟩ := hw.len st
  obtain ⟨st2, e2⟩ := hh.len st1
  obtain ⟨st3, e3⟩ := hh.inplaceScratchLen st2
  obtain ⟨st4, e4⟩ := hw.inplaceScratchLen st3
  obtain ⟨st5, e5⟩ := hw.oopScratchLen st4
  have : Nonempty σ := ⟨st⟩
  refine ⟨_, st5, by simp only [liveMixedRadix, e1, e2, e3, e4, e5, ok_bind]; rfl, ?_⟩
  refine liveBoilerplate_implements (fun h0 => by simp [mrFn]; simpa using h0) (fun hp c s st => ?_) fun hp i o s st => ?_
  · obtain ⟨st1, e⟩ := liveMrPerformInplace_sim w h n1 i1 o1 n2 i2 o2 n1 n2 (n1 * n2) (mrTwiddles T n1 n2) c s st
    exact ⟨_, _, mr_performs (hw.at st1) (hh.at st) (Nat.pos_of_mul_pos_right hp) (Nat.pos_of_mul_pos_left hp), e⟩
  · obtain ⟨st1, e⟩ := liveMrPerformOop_sim w h n1 i1 o1 n2 i2 o2 n1 n2 (mrTwiddles T n1 n2) i o s st
    exact ⟨_, _, mr_performs (hw.at st1) (hh.at st) (Nat.pos_of_mul_pos_right hp) (Nat.pos_of_mul_pos_left hp), e⟩

theorem liveMixedRadixN_implements {k : Nat} (hk : 2 ≤ k) {ap : Nat → List T → Res (List T)} {h : LiveDht σ T} {n i o : Nat}
    {f : List T → List T} (hh : LiveImplements h n i o f) (hi : 0 < n → i ≤ k * n) (ho : 0 < n → o = 0)
    (hap : ∀ n, 0 < n → Total (k * n) (ap n)) (hap0 : (run (ap 0) []).length = 0) (st : σ) :
    ∃ d st', liveMixedRadixN k ap h st = .ok (d, st') ∧
      LiveImplements d (k * n) (k * n + if i > k * n then i else 0) (if i > k * n then i else 0) (mrnFn k n f (ap n)) := by
  obtain ⟨st1, e1⟩ := hh.len st
  obtain ⟨st2, e2⟩ := hh.inplaceScratchLen st1
  have : Nonempty σ := ⟨st⟩
  refine ⟨_, st2, by simp only [liveMixedRadixN, e1, e2, ok_bind]; rfl, ?_⟩
  refine liveBoilerplate_implements (fun h0 => ?_) (fun hp c s st => ?_) fun hp a b s st => ?_
  · have hn : n = 0 := by
      rcases Nat.mul_eq_zero.1 h0 with h | h
      · omega
      · exact h
    subst hn
    rw [mrnFn, mapChunks_zero]
    simpa [tab] using hap0
  · have hn := Nat.pos_of_mul_pos_left hp
    exact ⟨_, _, mrn_performs hk (hh.at st) hn (hi hn) (ho hn) (hap n hn), liveMrnPerformInplace_sim k h n i o n _ c s st⟩
  · have hn := Nat.pos_of_mul_pos_left hp
    exact ⟨_, _, mrn_performs hk (hh.at st) hn (hi hn) (ho hn) (hap n hn), liveMrnPerformOop_sim k h n i o n _ a b s st⟩

theorem liveSplitRadix_implements {q h : LiveDht σ T} {n i1 o1 i2 o2 : Nat} {fq fh : List T → List T}
    (hq : LiveImplements q n i1 o1 fq) (hh : LiveImplements h (2 * n) i2 o2 fh)
    (hs : 0 < n → o1 = 0 ∧ i1 ≤ 4 * n ∧ i2 ≤ 2 * n) (st : σ) :
    ∃ d st', liveSplitRadix q h st = .ok (d, st') ∧ LiveImplements d (4 * n) (2 * n) 0 (srFn n fq fh) := by
  obtain ⟨st1, e1⟩ := hq.len st
  obtain ⟨st2, e2⟩ := hh.len st1
  have : Nonempty σ := ⟨st⟩
  have hb : (2 * n == n * 2) = true := by rw [Nat.mul_comm]; simp
  refine ⟨_, st2, by simp only [liveSplitRadix, e1, e2, ok_bind, hb, assert_true, Nat.mul_comm n 4]; rfl, ?_⟩
  refine liveBoilerplate_implements (fun h0 => by simp [srFn]; omega) (fun hp c s st => ?_) fun hp i o s st => ?_
  · obtain ⟨a, b, c'⟩ := hs (by omega)
    obtain ⟨st1, e⟩ := liveSrPerformInplace_sim q h n i1 o1 (2 * n) i2 o2 (4 * n) (srTwiddles T (4 * n)) c s st
    exact ⟨_, _, sr_performs (hq.at st1) (hh.at st) rfl rfl (by omega) a b c', e⟩
  · obtain ⟨a, b, c'⟩ := hs (by omega)
    obtain ⟨st1, e⟩ := liveSrPerformOop_sim q h n i1 o1 (2 * n) i2 o2 (4 * n) (srTwiddles T (4 * n)) i o s st
    exact ⟨_, _, sr_performs (hq.at st1) (hh.at st) rfl rfl (by omega) a b c', e⟩

theorem liveRaders_implements {l : LiveDht σ T} {n i o : Nat} {f : List T → List T} (h : LiveImplements l n i o f)
    (hp : (n + 1).Prime) (h2 : n + 1 ≠ 2) (h32 : n + 1 < 2 ^ 32) (st : σ) :
    ∃ g gi d st', liveRaders l st = .ok (d, st') ∧
      (1 < g ∧ g < n + 1 ∧ orderOf (g : ZMod (n + 1)) = n ∧ 0 < gi ∧ gi < n + 1 ∧
        (g : ZMod (n + 1)) * (gi : ZMod (n + 1)) = 1 ∧ orderOf (gi : ZMod (n + 1)) = n) ∧
      LiveImplements d (n + 1) (n + if i ≤ n then 0 else i) (if i ≤ n then 0 else i)
        (rdFn (n + 1) g gi (rdTw (f (rdKernel T (n + 1) gi)) n) f) := by
  obtain ⟨g, eg, hg1, hg, ho, _⟩ := primitiveRoot_ok hp h2 h32
  obtain ⟨hi0, hi, him⟩ := rootInverse_ok hp (by omega) hg
  have hio := (orderOf_inverse him).trans ho
  have hp2 := hp.two_le
  obtain ⟨st1, e1⟩ := h.len st
  have hk := radersKernelInput_ok (T := T) (p := n + 1) (steps_lt h32.le hi) (by omega) hi
  have hkl : (rdKernel T (n + 1) (rootInverse g (n + 1))).length = n := by simp [rdKernel]
  obtain ⟨st2, e2⟩ := h.process (rdKernel T (n + 1) (rootInverse g (n + 1))) st1 (by omega) (by rw [hkl])
  rw [mapChunks_single (by omega) hkl] at e2
  obtain ⟨st3, e3⟩ := h.inplaceScratchLen st2
  have : Nonempty σ := ⟨st⟩
  rw [Nat.add_sub_cancel] at hk
  refine ⟨g, rootInverse g (n + 1), liveBoilerplate (n + 1) (n + if i ≤ n then 0 else i) (if i ≤ n then 0 else i)
    (liveRadersPerformInplace l (n + 1) g (rootInverse g (n + 1))
      (tab (n / 2 + 1) (rdTw (f (rdKernel T (n + 1) (rootInverse g (n + 1)))) n)))
    (liveRadersPerformOop l (n + 1) g (rootInverse g (n + 1))
      (tab (n / 2 + 1) (rdTw (f (rdKernel T (n + 1) (rootInverse g (n + 1)))) n))), st3, ?_, ⟨hg1, hg, by simpa using ho, hi0, hi, him, by simpa using hio⟩, ?_⟩
  · simp only [liveRaders]
    rw [e1, ok_bind]
    simp only
    rw [millerRabin, decide_eq_true hp, assert_true, ok_bind, eg, ok_bind]
    simp only
    rw [hk, ok_bind, e2, ok_bind]
    simp only
    rw [radersTwiddles_ok (h.length _ hkl) (by omega), ok_bind, e3, ok_bind]
  · have hlen : n = n + 1 - 1 := by omega
    have perf : ∀ st st', Performs (n + 1) (n + if i ≤ n then 0 else i) (if i ≤ n then 0 else i)
        (rdFn (n + 1) g (rootInverse g (n + 1)) (rdTw (f (rdKernel T (n + 1) (rootInverse g (n + 1)))) n) f)
        (radersPerformInplace2 (l.at n i o st) (l.at n i o st') (n + 1) g (rootInverse g (n + 1))
          (tab (n / 2 + 1) (rdTw (f (rdKernel T (n + 1) (rootInverse g (n + 1)))) n)))
        (radersPerformOop2 (l.at n i o st) (l.at n i o st') (n + 1) g (rootInverse g (n + 1))
          (tab (n / 2 + 1) (rdTw (f (rdKernel T (n + 1) (rootInverse g (n + 1)))) n))) := by
      intro st st'
      have := raders_performs2 (h.at st) (h.at st') rfl rfl (p := n + 1) (g := g) (gi := rootInverse g (n + 1)) hlen hp h2
        (steps_lt h32.le hg) (steps_lt h32.le hi) (by omega) hg hi0 hi hio
        (rdTw (f (rdKernel T (n + 1) (rootInverse g (n + 1)))) n) rfl
      simp only [Nat.add_sub_cancel] at this
      exact this
    refine liveBoilerplate_implements (fun h0 => by omega) (fun _ c s st => ?_) fun _ a b s st => ?_
    · obtain ⟨st1, e⟩ := liveRadersPerformInplace_sim l n i o (n + 1) g (rootInverse g (n + 1)) _ c s st
      exact ⟨_, _, perf st st1, e⟩
    · obtain ⟨st1, e⟩ := liveRadersPerformOop_sim l n i o (n + 1) g (rootInverse g (n + 1)) _ a b s st
      exact ⟨_, _, perf st st1, e⟩

theorem LiveImplements.congr {d : LiveDht σ T} {n i o : Nat} {f g : List T → List T} (h : LiveImplements d n i o f)
    (e : ∀ x, x.length = n → f x = g x) : LiveImplements d n i o g := by
  refine ⟨h.len, h.inplaceScratchLen, h.oopScratchLen, fun x hx => by rw [← e x hx]; exact h.length x hx, ?_, ?_, ?_⟩
  · intro b st h1 h2
    rw [← mapChunks_congr e]; exact h.process b st h1 h2
  · intro b s st h1 h2 h3
    rw [← mapChunks_congr e]; exact h.inplace b s st h1 h2 h3
  · intro i o s st h0 h1 h2 h3
    rw [← mapChunks_congr e]; exact h.oop i o s st h0 h1 h2 h3

end Combinators

end RustDHT
