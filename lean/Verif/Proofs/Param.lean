import Verif.Model.Plan
import Mathlib.Data.List.Forall2

/-! # Relational parametricity, part 1: relations and the pieces of the model

The model never inspects an element of a slice: it only adds, subtracts, negates and multiplies by table constants.  So
two runs, over two number types, whose inputs are related element by element stay related, whatever relation the
operations respect.  Two relations are used, one for table constants and one for data. -/

set_option linter.unusedSectionVars false

namespace RustDHT

/-- Two results are related: both succeed with related values, or both fail in the same way. -/
inductive ResRel {α β : Type} (P : α → β → Prop) : Res α → Res β → Prop
  | ok {a b} : P a b → ResRel P (.ok a) (.ok b)
  | error (e : Fault) : ResRel P (.error e) (.error e)

/-- Element-wise related lists, of equal length. -/
abbrev LR {α β : Type} (R : α → β → Prop) : List α → List β → Prop := List.Forall₂ R

variable {α β γ δ σ τ : Type} {P : α → β → Prop} {Q : γ → δ → Prop} {S : σ → τ → Prop}

theorem ResRel.mono {P' : α → β → Prop} {r : Res α} {r' : Res β} (h : ResRel P r r') (hp : ∀ a b, P a b → P' a b) :
    ResRel P' r r' := by
  cases h with
  | ok h => exact .ok (hp _ _ h)
  | error e => exact .error e

theorem ResRel.bind {r : Res α} {r' : Res β} {f : α → Res γ} {g : β → Res δ} (h : ResRel P r r')
    (hf : ∀ a b, P a b → ResRel Q (f a) (g b)) : ResRel Q (r >>= f) (r' >>= g) := by
  cases h with
  | ok h => exact hf _ _ h
  | error e => exact .error e

theorem LR.length {R : α → β → Prop} {l : List α} {l' : List β} (h : LR R l l') : l.length = l'.length :=
  List.Forall₂.length_eq h

theorem LR.get {R : α → β → Prop} {l : List α} {l' : List β} (h : LR R l l') (i : Nat) :
    (∃ a b, l[i]? = some a ∧ l'[i]? = some b ∧ R a b) ∨ (l[i]? = none ∧ l'[i]? = none) := by
  by_cases hi : i < l.length
  · have hi' : i < l'.length := h.length ▸ hi
    exact Or.inl ⟨_, _, List.getElem?_eq_getElem hi, List.getElem?_eq_getElem hi', List.Forall₂.get h hi hi'⟩
  · exact Or.inr ⟨List.getElem?_eq_none (by omega), List.getElem?_eq_none (by rw [← h.length]; omega)⟩

theorem LR.set {R : α → β → Prop} {l : List α} {l' : List β} (h : LR R l l') {a : α} {b : β} (hab : R a b) (i : Nat) :
    LR R (l.set i a) (l'.set i b) := by
  induction h generalizing i with
  | nil => exact .nil
  | cons h t ih =>
    cases i with
    | zero => exact .cons hab t
    | succ i => exact .cons h (ih i)

theorem LR.replicate {R : α → β → Prop} {a : α} {b : β} (h : R a b) (n : Nat) :
    LR R (List.replicate n a) (List.replicate n b) := by
  induction n with
  | zero => exact .nil
  | succ n ih => exact .cons h ih

theorem LR.append {R : α → β → Prop} {l m : List α} {l' m' : List β} (h : LR R l l') (h' : LR R m m') :
    LR R (l ++ m) (l' ++ m') := List.rel_append h h'

theorem LR.take {R : α → β → Prop} {l : List α} {l' : List β} (h : LR R l l') (n : Nat) : LR R (l.take n) (l'.take n) :=
  List.forall₂_take n h

theorem LR.drop {R : α → β → Prop} {l : List α} {l' : List β} (h : LR R l l') (n : Nat) : LR R (l.drop n) (l'.drop n) :=
  List.forall₂_drop n h

theorem LR.reverse {R : α → β → Prop} {l : List α} {l' : List β} (h : LR R l l') : LR R l.reverse l'.reverse :=
  List.rel_reverse h

theorem LR.flatten {R : α → β → Prop} {l : List (List α)} {l' : List (List β)} (h : LR (LR R) l l') :
    LR R l.flatten l'.flatten := List.rel_flatten h

theorem LR.map {R : γ → δ → Prop} {l : List α} {l' : List β} {f : α → γ} {g : β → δ} (h : LR P l l')
    (hf : ∀ a b, P a b → R (f a) (g b)) : LR R (l.map f) (l'.map g) := by
  induction h with
  | nil => exact .nil
  | cons h t ih => exact .cons (hf _ _ h) ih

/-- Two tables built over the same list of keys. -/
theorem LR.table {R : α → β → Prop} {l : List γ} {f : γ → α} {g : γ → β} (hf : ∀ a ∈ l, R (f a) (g a)) :
    LR R (l.map f) (l.map g) := by
  induction l with
  | nil => exact .nil
  | cons a l ih => exact .cons (hf _ (by simp)) (ih fun b hb => hf _ (by simp [hb]))

theorem LR.flatTable {R : α → β → Prop} {l : List γ} {f : γ → List α} {g : γ → List β} (hf : ∀ a ∈ l, LR R (f a) (g a)) :
    LR R (l.flatMap f) (l.flatMap g) := by
  induction l with
  | nil => exact .nil
  | cons a l ih =>
    rw [List.flatMap_cons, List.flatMap_cons]
    exact (hf _ (by simp)).append (ih fun b hb => hf _ (by simp [hb]))

theorem LR.zip {R : α → β → Prop} (l : List γ) {m : List α} {m' : List β} (h : LR R m m') :
    LR (fun p q => p.1 = q.1 ∧ R p.2 q.2) (l.zip m) (l.zip m') := by
  induction h generalizing l with
  | nil => simp
  | cons h t ih =>
    cases l with
    | nil => exact .nil
    | cons a l => exact .cons ⟨rfl, h⟩ (ih l)

theorem getI_rel {R : α → β → Prop} {l : List α} {l' : List β} (h : LR R l l') (i : Nat) :
    ResRel R (getI l i) (getI l' i) := by
  unfold getI
  rcases h.get i with ⟨a, b, e, e', hab⟩ | ⟨e, e'⟩ <;> rw [e, e']
  · exact .ok hab
  · exact .error _

theorem getU_rel {R : α → β → Prop} {l : List α} {l' : List β} (h : LR R l l') (i : Nat) :
    ResRel R (getU l i) (getU l' i) := by
  unfold getU
  rcases h.get i with ⟨a, b, e, e', hab⟩ | ⟨e, e'⟩ <;> rw [e, e']
  · exact .ok hab
  · exact .error _

theorem setI_rel {R : α → β → Prop} {l : List α} {l' : List β} (h : LR R l l') (i : Nat) {a : α} {b : β} (hab : R a b) :
    ResRel (LR R) (setI l i a) (setI l' i b) := by
  unfold setI
  rw [h.length]
  split
  · exact .ok (h.set hab i)
  · exact .error _

theorem setU_rel {R : α → β → Prop} {l : List α} {l' : List β} (h : LR R l l') (i : Nat) {a : α} {b : β} (hab : R a b) :
    ResRel (LR R) (setU l i a) (setU l' i b) := by
  unfold setU
  rw [h.length]
  split
  · exact .ok (h.set hab i)
  · exact .error _

theorem foldlM_rel {l : List γ} {l' : List δ} (hl : LR Q l l') {s : σ} {s' : τ} (hs : S s s') {f : σ → γ → Res σ}
    {g : τ → δ → Res τ} (hf : ∀ s s' a b, S s s' → Q a b → ResRel S (f s a) (g s' b)) :
    ResRel S (l.foldlM f s) (l'.foldlM g s') := by
  induction hl generalizing s s' with
  | nil => exact .ok hs
  | cons h t ih =>
    rw [List.foldlM_cons, List.foldlM_cons]
    exact (hf _ _ _ _ hs h).bind fun _ _ h' => ih h'

theorem forList_rel {l : List γ} {l' : List δ} (hl : LR Q l l') {s : σ} {s' : τ} (hs : S s s') {f : γ → σ → Res σ}
    {g : δ → τ → Res τ} (hf : ∀ a b s s', Q a b → S s s' → ResRel S (f a s) (g b s')) :
    ResRel S (forList l s f) (forList l' s' g) :=
  foldlM_rel hl hs fun s s' a b h h' => hf a b s s' h' h

theorem LR.refl (l : List γ) : LR Eq l l := by
  induction l with
  | nil => exact .nil
  | cons a l ih => exact .cons rfl ih

theorem forRange_rel {lo hi hi' : Nat} (hh : hi = hi') {s : σ} {s' : τ} (hs : S s s') {f : Nat → σ → Res σ}
    {g : Nat → τ → Res τ} (hf : ∀ i s s', S s s' → ResRel S (f i s) (g i s')) :
    ResRel S (forRange lo hi s f) (forRange lo hi' s' g) := by
  subst hh
  refine foldlM_rel (LR.refl _) hs fun s s' a b h h' => ?_
  subst h'
  exact hf a s s' h

theorem mapM_rel {R : α → β → Prop} (l : List γ) {f : γ → Res α} {g : γ → Res β} (hf : ∀ a, ResRel R (f a) (g a)) :
    ResRel (LR R) (l.mapM f) (l.mapM g) := by
  induction l with
  | nil => exact .ok .nil
  | cons a l ih =>
    rw [List.mapM_cons, List.mapM_cons]
    exact (hf a).bind fun _ _ h => ih.bind fun _ _ h' => .ok (.cons h h')

theorem assert_rel {b b' : Bool} (h : b = b') (k : PanicKind) : ResRel (fun _ _ => True) (assert b k) (assert b' k) := by
  subst h
  unfold assert
  split
  · exact .ok trivial
  · exact .error _

/-- Component-wise related pairs. -/
def PR (P : α → β → Prop) (Q : γ → δ → Prop) (p : α × γ) (q : β × δ) : Prop := P p.1 q.1 ∧ Q p.2 q.2

theorem splitAt_rel {R : α → β → Prop} {l : List α} {l' : List β} (h : LR R l l') (n : Nat) :
    ResRel (PR (LR R) (LR R)) (splitAt l n) (splitAt l' n) := by
  unfold splitAt
  rw [h.length]
  split
  · exact .ok ⟨h.take n, h.drop n⟩
  · exact .error _

theorem chunksExactAux_rel {R : α → β → Prop} (n : Nat) (l : List α) :
    ∀ l' : List β, LR R l l' → LR (LR R) (chunksExactAux n l) (chunksExactAux n l') := by
  induction hm : l.length using Nat.strong_induction_on generalizing l with
  | _ m ih =>
    intro l' h
    rw [chunksExactAux, chunksExactAux.eq_def n l', ← h.length]
    split
    · exact .nil
    · split
      · exact .cons (h.take n) (ih (l.drop n).length (by simp; omega) _ rfl _ (h.drop n))
      · exact .nil

theorem chunksExact_rel {R : α → β → Prop} (n : Nat) {l : List α} {l' : List β} (h : LR R l l') :
    ResRel (LR (LR R)) (chunksExact n l) (chunksExact n l') := by
  unfold chunksExact
  split
  · exact .error _
  · exact .ok (chunksExactAux_rel n l l' h)

/-! ## src/array_utils.rs -/

variable {T T' : Type} {R : T → T' → Prop}

theorem iterChunks_rel {n : Nat} {f : List T → σ → Res (List T × σ)} {g : List T' → τ → Res (List T' × τ)}
    (hf : ∀ l l' s s', LR R l l' → S s s' → ResRel (PR (LR R) S) (f l s) (g l' s')) (b : List T) :
    ∀ (b' : List T') (s : σ) (s' : τ), LR R b b' → S s s' →
      ResRel (PR Eq (PR (LR R) S)) (iterChunks n f b s) (iterChunks n g b' s') := by
  induction hm : b.length using Nat.strong_induction_on generalizing b with
  | _ m ih =>
    intro b' s s' h hs
    rw [iterChunks, iterChunks.eq_def n g b' s', ← h.length]
    split
    · split
      · exact .error _
      · refine (hf _ _ _ _ (h.take n) hs).bind ?_
        rintro ⟨x, s⟩ ⟨x', s'⟩ ⟨hx, hs⟩
        refine (ih (b.drop n).length (by simp; omega) _ rfl _ s s' (h.drop n) hs).bind ?_
        rintro ⟨r, y, s⟩ ⟨r', y', s'⟩ ⟨hr, hy, hs⟩
        exact .ok ⟨hr, hx.append hy, hs⟩
    · exact .ok ⟨rfl, h, hs⟩

theorem iterChunksZippedLoop_rel {n : Nat} {f : List T → List T → σ → Res (List T × List T × σ)}
    {g : List T' → List T' → τ → Res (List T' × List T' × τ)}
    (hf : ∀ l l' m m' s s', LR R l l' → LR R m m' → S s s' → ResRel (PR (LR R) (PR (LR R) S)) (f l m s) (g l' m' s'))
    (b : List T) : ∀ (b' : List T') (c : List T) (c' : List T') (s : σ) (s' : τ), LR R b b' → LR R c c' → S s s' →
      ResRel (PR Eq (PR (LR R) (PR (LR R) S))) (iterChunksZippedLoop n f b c s) (iterChunksZippedLoop n g b' c' s') := by
  induction hm : b.length using Nat.strong_induction_on generalizing b with
  | _ m ih =>
    intro b' c c' s s' h hc hs
    rw [iterChunksZippedLoop, iterChunksZippedLoop.eq_def n g b' c' s', ← h.length, ← hc.length]
    split
    · split
      · exact .error _
      · refine (hf _ _ _ _ _ _ (h.take n) (hc.take n) hs).bind ?_
        rintro ⟨x, z, s⟩ ⟨x', z', s'⟩ ⟨hx, hz, hs⟩
        refine (ih (b.drop n).length (by simp; omega) _ rfl _ _ _ s s' (h.drop n) (hc.drop n) hs).bind ?_
        rintro ⟨r, y, w, s⟩ ⟨r', y', w', s'⟩ ⟨hr, hy, hw, hs⟩
        exact .ok ⟨hr, hx.append hy, hz.append hw, hs⟩
    · exact .ok ⟨rfl, h, hc, hs⟩

theorem iterChunksZipped_rel {n : Nat} {f : List T → List T → σ → Res (List T × List T × σ)}
    {g : List T' → List T' → τ → Res (List T' × List T' × τ)}
    (hf : ∀ l l' m m' s s', LR R l l' → LR R m m' → S s s' → ResRel (PR (LR R) (PR (LR R) S)) (f l m s) (g l' m' s'))
    {b : List T} {b' : List T'} {c : List T} {c' : List T'} {s : σ} {s' : τ} (h : LR R b b') (hc : LR R c c') (hs : S s s') :
      ResRel (PR Eq (PR (LR R) (PR (LR R) S))) (iterChunksZipped n f b c s) (iterChunksZipped n g b' c' s') := by
  unfold iterChunksZipped
  rw [← h.length, ← hc.length]
  by_cases h1 : b.length > c.length
  · rw [if_pos h1, if_pos h1]
    refine (iterChunksZippedLoop_rel hf _ _ _ _ _ _ (h.take _) hc hs).bind ?_
    rintro ⟨r, y, w, s⟩ ⟨r', y', w', s'⟩ ⟨hr, hy, hw, hs⟩
    exact .ok ⟨rfl, LR.append hy (h.drop _), hw, hs⟩
  · have h2 : ¬ c.length < b.length := h1
    rw [if_neg h1, if_neg h1, if_neg h2, if_neg h2]
    refine (iterChunksZippedLoop_rel hf _ _ _ _ _ _ h hc hs).bind ?_
    rintro ⟨r, y, w, s⟩ ⟨r', y', w', s'⟩ ⟨hr, hy, hw, hs⟩
    refine .ok ⟨?_, hy, hw, hs⟩
    simp only at hr ⊢
    rw [hr]

/-- Related pairs of raw slices. -/
structure RawRel (R : T → T' → Prop) (m : RawIO T) (m' : RawIO T') : Prop where
  inp : LR R m.inp m'.inp
  out : LR R m.out m'.out
  aliased : m.aliased = m'.aliased

theorem load_rel {m : RawIO T} {m' : RawIO T'} (h : RawRel R m m') (i : Nat) : ResRel R (m.load i) (m'.load i) := by
  unfold RawIO.load
  rw [h.aliased]
  split
  · exact getU_rel h.out i
  · exact getU_rel h.inp i

theorem store_rel {m : RawIO T} {m' : RawIO T'} (h : RawRel R m m') (i : Nat) {a : T} {b : T'} (hab : R a b) :
    ResRel (RawRel R) (m.store a i) (m'.store b i) := by
  unfold RawIO.store
  exact (setU_rel h.out i hab).bind fun _ _ h' => .ok ⟨h.inp, h', h.aliased⟩

theorem transposeHalfRevOut_rel {i o : List T} {i' o' : List T'} (hi : LR R i i') (ho : LR R o o') (w h : Nat) :
    ResRel (LR R) (transposeHalfRevOut i o w h) (transposeHalfRevOut i' o' w h) := by
  unfold transposeHalfRevOut
  refine (assert_rel (by rw [hi.length, ho.length]) _).bind fun _ _ _ => ?_
  refine (assert_rel (by rw [hi.length]) _).bind fun _ _ _ => ?_
  refine forRange_rel rfl ho fun r o o' ho => ?_
  refine (forRange_rel rfl ho fun c o o' ho => ?_).bind fun o o' ho => forRange_rel rfl ho fun c o o' ho => ?_
  · exact (getU_rel hi _).bind fun _ _ h => setU_rel ho _ h
  · exact (getU_rel hi _).bind fun _ _ h => setU_rel ho _ h

theorem transpose_rel {i o : List T} {i' o' : List T'} (hi : LR R i i') (ho : LR R o o') (w h : Nat) :
    ResRel (LR R) (transpose i o w h) (transpose i' o' w h) := by
  unfold transpose
  refine (assert_rel (by rw [hi.length]) _).bind fun _ _ _ => ?_
  refine (assert_rel (by rw [ho.length]) _).bind fun _ _ _ => ?_
  exact mapM_rel _ fun p => getI_rel hi _

theorem reverseChunksFrom_rel {b : List T} {b' : List T'} (hb : LR R b b') (s n : Nat) :
    ResRel (LR R) (reverseChunksFrom s n b) (reverseChunksFrom s n b') := by
  unfold reverseChunksFrom
  refine (splitAt_rel hb s).bind ?_
  rintro ⟨f, c⟩ ⟨f', c'⟩ ⟨hf, hc⟩
  refine (chunksExact_rel n hc).bind fun l l' hl => .ok ?_
  rw [← hl.length]
  exact (LR.append hf (LR.flatten (hl.map fun _ _ h => h.reverse))).append (hc.drop _)

/-! ## src/macros.rs -/

/-- Two objects behave alike on related slices. -/
structure DhtRel (R : T → T' → Prop) (d : Dht T) (d' : Dht T') : Prop where
  len : d.len = d'.len
  inplaceScratchLen : d.inplaceScratchLen = d'.inplaceScratchLen
  oopScratchLen : d.oopScratchLen = d'.oopScratchLen
  inplace : ∀ b b' s s', LR R b b' → LR R s s' →
    ResRel (PR (LR R) (LR R)) (d.processWithScratch b s) (d'.processWithScratch b' s')
  oop : ∀ i i' o o' s s', LR R i i' → LR R o o' → LR R s s' →
    ResRel (PR (LR R) (PR (LR R) (LR R))) (d.processOop i o s) (d'.processOop i' o' s')

theorem dht_process_rel [Zero T] [Zero T'] {d : Dht T} {d' : Dht T'} (h : DhtRel R d d') (h0 : R 0 0) {b : List T}
    {b' : List T'} (hb : LR R b b') : ResRel (LR R) (d.process b) (d'.process b') := by
  unfold Dht.process
  rw [h.inplaceScratchLen]
  refine (h.inplace _ _ _ _ hb (LR.replicate h0 _)).bind ?_
  rintro ⟨x, s⟩ ⟨x', s'⟩ ⟨hx, _⟩
  exact .ok hx

theorem resRel_refl {r : Res α} : ResRel (fun _ _ => True) r r := by
  cases r with
  | ok a => exact .ok trivial
  | error e => exact .error e

theorem check_rel {c : Prop} [Decidable c] {e : Res Unit} {a : α} {b : β} (h : P a b) :
    ResRel P (if c then do e; .ok a else .ok a) (if c then do e; .ok b else .ok b) := by
  split
  · exact resRel_refl.bind fun _ _ _ => .ok h
  · exact .ok h

theorem boilerplateDht_rel {len inp oop : Nat} {pin : List T → List T → Res (List T × List T)}
    {pin' : List T' → List T' → Res (List T' × List T')} {poop : List T → List T → List T → Res (List T × List T × List T)}
    {poop' : List T' → List T' → List T' → Res (List T' × List T' × List T')}
    (h1 : 0 < len → ∀ b b' s s', LR R b b' → LR R s s' → ResRel (PR (LR R) (LR R)) (pin b s) (pin' b' s'))
    (h2 : 0 < len → ∀ i i' o o' s s', LR R i i' → LR R o o' → LR R s s' →
      ResRel (PR (LR R) (PR (LR R) (LR R))) (poop i o s) (poop' i' o' s')) :
    DhtRel R (boilerplateDht len inp oop pin poop) (boilerplateDht len inp oop pin' poop') := by
  refine ⟨rfl, rfl, rfl, fun b b' s s' hb hs => ?_, fun i i' o o' s s' hi ho hs => ?_⟩
  · simp only [boilerplateDht]
    rw [hb.length, hs.length]
    split
    · exact .ok ⟨hb, hs⟩
    · next hl =>
      split
      · exact resRel_refl.bind fun _ _ _ => .ok ⟨hb, hs⟩
      · refine (iterChunks_rel (h1 (by omega)) _ _ _ _ hb (hs.take _)).bind ?_
        rintro ⟨r, y, s⟩ ⟨r', y', s'⟩ ⟨hr, hy, hs'⟩
        simp only at hr ⊢
        subst hr
        exact check_rel ⟨hy, LR.append hs' (hs.drop _)⟩
  · simp only [boilerplateDht]
    rw [hi.length, ho.length, hs.length]
    split
    · exact .ok ⟨hi, ho, hs⟩
    · next hl =>
      split
      · exact resRel_refl.bind fun _ _ _ => .ok ⟨hi, ho, hs⟩
      · refine (iterChunksZipped_rel (h2 (by omega)) hi ho (hs.take _)).bind ?_
        rintro ⟨r, y, z, s⟩ ⟨r', y', z', s'⟩ ⟨hr, hy, hz, hs'⟩
        simp only at hr ⊢
        subst hr
        exact check_rel ⟨hy, hz, LR.append hs' (hs.drop _)⟩

theorem boilerplateDhtOop_rel {len : Nat} {p : List T → List T → Res (List T)} {p' : List T' → List T' → Res (List T')}
    (h : ∀ i i' o o', LR R i i' → LR R o o' → ResRel (LR R) (p i o) (p' i' o')) :
    DhtRel R (boilerplateDhtOop len p) (boilerplateDhtOop len p') := by
  refine ⟨rfl, rfl, rfl, fun b b' s s' hb hs => ?_, fun i i' o o' s s' hi ho hs => ?_⟩
  · simp only [boilerplateDhtOop]
    rw [hb.length, hs.length]
    split
    · exact .ok ⟨hb, hs⟩
    · split
      · exact resRel_refl.bind fun _ _ _ => .ok ⟨hb, hs⟩
      · refine (iterChunks_rel (S := LR R) (fun l l' s s' hl hs => ?_) _ _ _ _ hb (hs.take _)).bind ?_
        · refine (h _ _ _ _ hl hs).bind fun x x' hx => ?_
          rw [hl.length, hx.length]
          split
          · exact .ok ⟨hx, hx⟩
          · exact .error _
        · rintro ⟨r, y, s⟩ ⟨r', y', s'⟩ ⟨hr, hy, hs'⟩
          simp only at hr ⊢
          subst hr
          exact check_rel ⟨hy, LR.append hs' (hs.drop _)⟩
  · simp only [boilerplateDhtOop]
    rw [hi.length, ho.length]
    split
    · exact .ok ⟨hi, ho, hs⟩
    · split
      · exact resRel_refl.bind fun _ _ _ => .ok ⟨hi, ho, hs⟩
      · refine (iterChunksZipped_rel (S := fun _ _ => True) (fun l l' m m' s s' hl hm _ => ?_) hi ho trivial).bind ?_
        · exact (h _ _ _ _ hl hm).bind fun x x' hx => .ok ⟨hl, hx, trivial⟩
        · rintro ⟨r, y, z, s⟩ ⟨r', y', z', s'⟩ ⟨hr, hy, hz, hs'⟩
          simp only at hr ⊢
          subst hr
          exact check_rel ⟨hy, hz, hs⟩

theorem performInPlace_rel {c : RawIO T → Res (RawIO T)} {c' : RawIO T' → Res (RawIO T')}
    (h : ∀ m m', RawRel R m m' → ResRel (RawRel R) (c m) (c' m')) {b : List T} {b' : List T'} (hb : LR R b b') :
    ResRel (LR R) (performInPlace c b) (performInPlace c' b') := by
  unfold performInPlace
  exact (h _ _ ⟨.nil, hb, rfl⟩).bind fun _ _ h => .ok h.out

theorem boilerplateFftButterfly_rel {len : Nat} {c : RawIO T → Res (RawIO T)} {c' : RawIO T' → Res (RawIO T')}
    (h : ∀ m m', RawRel R m m' → ResRel (RawRel R) (c m) (c' m')) :
    DhtRel R (boilerplateFftButterfly len c) (boilerplateFftButterfly len c') := by
  refine ⟨rfl, rfl, rfl, fun b b' s s' hb hs => ?_, fun i i' o o' s s' hi ho hs => ?_⟩
  · simp only [boilerplateFftButterfly]
    rw [hb.length]
    split
    · exact resRel_refl.bind fun _ _ _ => .ok ⟨hb, hs⟩
    · refine (iterChunks_rel (S := fun _ _ => True) (fun l l' s s' hl _ => ?_) _ _ _ _ hb trivial).bind ?_
      · exact (performInPlace_rel h hl).bind fun x x' hx => .ok ⟨hx, trivial⟩
      · rintro ⟨r, y, s⟩ ⟨r', y', s'⟩ ⟨hr, hy, hs'⟩
        simp only at hr ⊢
        subst hr
        exact check_rel ⟨hy, hs⟩
  · simp only [boilerplateFftButterfly]
    rw [hi.length, ho.length]
    split
    · exact resRel_refl.bind fun _ _ _ => .ok ⟨hi, ho, hs⟩
    · refine (iterChunksZipped_rel (S := fun _ _ => True) (fun l l' m m' s s' hl hm _ => ?_) hi ho trivial).bind ?_
      · exact (h _ _ ⟨hl, hm, rfl⟩).bind fun x x' hx => .ok ⟨hx.inp, hx.out, trivial⟩
      · rintro ⟨r, y, z, s⟩ ⟨r', y', z', s'⟩ ⟨hr, hy, hz, hs'⟩
        simp only at hr ⊢
        subst hr
        exact check_rel ⟨hy, hz, hs⟩

end RustDHT
