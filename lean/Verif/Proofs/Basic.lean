import Verif.Model.Trait
import Mathlib.Tactic.Ring
import Mathlib.Tactic.Linarith
import Mathlib.Tactic.Tauto
import Mathlib.Tactic.IntervalCases
import Mathlib.Data.List.Basic
import Mathlib.Algebra.Group.Defs
import Mathlib.Algebra.Order.Group.Nat
import Mathlib.Algebra.Order.Ring.Nat

/-! # Reasoning tools: the result monad, loops, and lists as tables -/

namespace RustDHT

variable {α β σ T : Type}

@[simp] theorem ok_bind (a : α) (f : α → Res β) : ((Except.ok a : Res α) >>= f) = f a := rfl
@[simp] theorem error_bind (e : Fault) (f : α → Res β) : ((Except.error e : Res α) >>= f) = .error e := rfl
@[simp] theorem panic_bind (k : PanicKind) (f : α → Res β) : (panic k >>= f) = panic k := rfl
@[simp] theorem pure_eq_ok (a : α) : (pure a : Res α) = .ok a := rfl
@[simp] theorem assert_true (k : PanicKind) : assert true k = .ok () := rfl
@[simp] theorem assert_false (k : PanicKind) : assert false k = panic k := rfl

theorem bind_eq_ok {r : Res α} {f : α → Res β} {b : β} (h : (r >>= f) = .ok b) :
    ∃ a, r = .ok a ∧ f a = .ok b := by
  cases r with
  | error e => cases h
  | ok a => exact ⟨a, rfl, h⟩

/-! ## Partial correctness: faults other than a panic are excluded -/

variable {D : Prop}

/-- `Post D P r`: `r` is a normal result that satisfies `P`, or a panic; never `ub`, and `diverge` only if `D`. -/
def Post (D : Prop) (P : α → Prop) : Res α → Prop
  | .ok a => P a
  | .error (.panic _) => True
  | .error .ub => False
  | .error .diverge => D

theorem Post.ok {P : α → Prop} {a : α} (h : P a) : Post D P (.ok a) := h
theorem Post.panic {P : α → Prop} (k : PanicKind) : Post D P (panic k : Res α) := trivial

theorem Post.bind {P : α → Prop} {Q : β → Prop} {r : Res α} {f : α → Res β}
    (hr : Post D P r) (hf : ∀ a, P a → Post D Q (f a)) : Post D Q (r >>= f) := by
  cases r with
  | ok a => exact hf a hr
  | error e =>
    cases e with
    | panic k => trivial
    | ub => exact hr
    | diverge => exact hr

theorem Post.mono {P Q : α → Prop} {r : Res α} (hr : Post D P r) (h : ∀ a, P a → Q a) : Post D Q r := by
  cases r with
  | ok a => exact h a hr
  | error e => cases e <;> exact hr

theorem Post.assert {b : Bool} {k : PanicKind} : Post D (fun _ => b = true) (assert b k) := by
  cases b
  · trivial
  · rfl

theorem Post.not_ub {P : α → Prop} {r : Res α} (h : Post D P r) : r ≠ .error .ub := by
  rintro rfl; exact h

theorem Post.not_diverge {P : α → Prop} {r : Res α} (h : Post False P r) : r ≠ .error .diverge := by
  rintro rfl; exact h

theorem Post.of_ok {P : α → Prop} {r : Res α} {a : α} (h : Post D P r) (e : r = .ok a) : P a := by
  subst e; exact h

/-! ## Element access -/

theorem getI_ok {l : List α} {i : Nat} (h : i < l.length) : getI l i = .ok l[i] := by
  simp [getI, h]

theorem getU_ok {l : List α} {i : Nat} (h : i < l.length) : getU l i = .ok l[i] := by
  simp [getU, h]

theorem setI_ok {l : List α} {i : Nat} {v : α} (h : i < l.length) : setI l i v = .ok (l.set i v) := by
  simp [setI, h]

theorem setU_ok {l : List α} {i : Nat} {v : α} (h : i < l.length) : setU l i v = .ok (l.set i v) := by
  simp [setU, h]

theorem splitAt_ok {l : List α} {n : Nat} (h : n ≤ l.length) : splitAt l n = .ok (l.take n, l.drop n) := by
  simp [splitAt, h]

theorem Post.getI {l : List α} {i : Nat} : Post D (fun _ => i < l.length) (getI l i) := by
  by_cases h : i < l.length
  · rw [getI_ok h]; exact h
  · simp [RustDHT.getI, h, Post, RustDHT.panic]

theorem Post.setI {l : List α} {i : Nat} {v : α} : Post D (fun l' => l'.length = l.length) (setI l i v) := by
  by_cases h : i < l.length
  · rw [setI_ok h]; simp [Post]
  · simp [RustDHT.setI, h, Post, RustDHT.panic]

theorem Post.getU {l : List α} {i : Nat} (h : i < l.length) : Post D (fun _ => True) (getU l i) := by
  rw [getU_ok h]; trivial

theorem Post.setU {l : List α} {i : Nat} {v : α} (h : i < l.length) :
    Post D (fun l' => l'.length = l.length) (setU l i v) := by
  rw [setU_ok h]; simp [Post]

theorem Post.splitAt {l : List α} {n : Nat} :
    Post D (fun p => p.1.length = n ∧ p.2.length = l.length - n ∧ n ≤ l.length) (splitAt l n) := by
  by_cases h : n ≤ l.length
  · rw [splitAt_ok h]; simp [Post, h]
  · simp [RustDHT.splitAt, h, Post, RustDHT.panic]

/-! ## Loops -/

theorem forList_nil (s : σ) (body : α → σ → Res σ) : forList [] s body = .ok s := rfl

theorem forList_cons (x : α) (xs : List α) (s : σ) (body : α → σ → Res σ) :
    forList (x :: xs) s body = body x s >>= fun s => forList xs s body := rfl

theorem forRange_eq (lo hi : Nat) (s : σ) (body : Nat → σ → Res σ) :
    forRange lo hi s body = forList (List.range' lo (hi - lo)) s body := rfl

/-- Loop rule for a loop that succeeds: an invariant indexed by the number of finished iterations. -/
theorem forList_ok {xs : List α} {s : σ} {body : α → σ → Res σ} (P : Nat → σ → Prop) (h0 : P 0 s)
    (hstep : ∀ i (hi : i < xs.length) s, P i s → ∃ s', body xs[i] s = .ok s' ∧ P (i + 1) s') :
    ∃ s', forList xs s body = .ok s' ∧ P xs.length s' := by
  induction xs generalizing s P with
  | nil => exact ⟨s, rfl, h0⟩
  | cons x xs ih =>
    obtain ⟨s1, e1, p1⟩ := hstep 0 (by simp) s h0
    obtain ⟨s2, e2, p2⟩ := ih (s := s1) (fun i => P (i + 1)) p1 (fun i hi s hs => by
      have := hstep (i + 1) (by simpa using hi) s hs
      simpa using this)
    refine ⟨s2, ?_, by simpa using p2⟩
    rw [forList_cons]
    simp only [List.getElem_cons_zero] at e1
    rw [e1, ok_bind, e2]

theorem forRange_ok {lo hi : Nat} {s : σ} {body : Nat → σ → Res σ} (P : Nat → σ → Prop) (hle : lo ≤ hi)
    (h0 : P lo s) (hstep : ∀ i s, lo ≤ i → i < hi → P i s → ∃ s', body i s = .ok s' ∧ P (i + 1) s') :
    ∃ s', forRange lo hi s body = .ok s' ∧ P hi s' := by
  obtain ⟨s', e, p⟩ := forList_ok (xs := List.range' lo (hi - lo)) (s := s) (body := body)
    (fun i => P (lo + i)) h0 (fun i hi' s hs => by
      simp only [List.length_range'] at hi'
      have := hstep (lo + i) s (by omega) (by omega) hs
      simpa [List.getElem_range', Nat.add_assoc] using this)
  refine ⟨s', e, ?_⟩
  simp only [List.length_range'] at p
  rwa [Nat.add_sub_cancel' hle] at p

/-- Loop rule for partial correctness. -/
theorem Post.forList {xs : List α} {s : σ} {body : α → σ → Res σ} (P : σ → Prop) (h0 : P s)
    (hstep : ∀ x ∈ xs, ∀ s, P s → Post D P (body x s)) : Post D P (forList xs s body) := by
  induction xs generalizing s with
  | nil => exact h0
  | cons x xs ih =>
    rw [forList_cons]
    exact Post.bind (hstep x (by simp) s h0) fun s' hs' => ih hs' fun y hy => hstep y (by simp [hy])

theorem Post.forRange {lo hi : Nat} {s : σ} {body : Nat → σ → Res σ} (P : σ → Prop) (h0 : P s)
    (hstep : ∀ i s, lo ≤ i → i < hi → P s → Post D P (body i s)) : Post D P (forRange lo hi s body) := by
  rw [forRange_eq]
  refine Post.forList P h0 fun i hi' s hs => hstep i s ?_ ?_ hs
  · rw [List.mem_range'_1] at hi'; exact hi'.1
  · rw [List.mem_range'_1] at hi'; omega

/-! ## Lists as tables -/

/-- Element `i`, or 0 outside the list. -/
def nth [Zero T] (l : List T) (i : Nat) : T := l[i]?.getD 0

/-- The list `[f 0, ..., f (n-1)]`. -/
def tab (n : Nat) (f : Nat → T) : List T := (List.range n).map f

@[simp] theorem length_tab (n : Nat) (f : Nat → T) : (tab n f).length = n := by simp [tab]

theorem getElem_tab {n : Nat} {f : Nat → T} {i : Nat} (h : i < (tab n f).length) : (tab n f)[i] = f i := by
  simp [tab]

theorem getElem?_tab {n : Nat} {f : Nat → T} {i : Nat} (h : i < n) : (tab n f)[i]? = some (f i) := by
  simp [tab, h]

section Nth
variable [Zero T]

theorem nth_eq_getElem {l : List T} {i : Nat} (h : i < l.length) : nth l i = l[i] := by simp [nth, h]

theorem nth_of_ge {l : List T} {i : Nat} (h : l.length ≤ i) : nth l i = 0 := by simp [nth, h]

theorem nth_tab {n : Nat} {f : Nat → T} {i : Nat} (h : i < n) : nth (tab n f) i = f i := by
  simp [nth, tab, h]

theorem list_ext_nth {l l' : List T} (hlen : l.length = l'.length)
    (h : ∀ i < l.length, nth l i = nth l' i) : l = l' := by
  apply List.ext_getElem hlen
  intro i h1 h2
  have := h i h1
  rwa [nth_eq_getElem h1, nth_eq_getElem h2] at this

theorem eq_tab {l : List T} {n : Nat} {f : Nat → T} (hlen : l.length = n) (h : ∀ i < n, nth l i = f i) :
    l = tab n f := by
  apply list_ext_nth (by simpa using hlen)
  intro i hi
  rw [nth_tab (by omega), h i (by omega)]

theorem tab_nth (l : List T) : tab l.length (nth l) = l := (eq_tab rfl fun _ _ => rfl).symm

theorem tab_congr {n : Nat} {f g : Nat → T} (h : ∀ i < n, f i = g i) : tab n f = tab n g :=
  eq_tab (by simp) fun i hi => by rw [nth_tab hi, h i hi]

theorem nth_set {l : List T} {i j : Nat} {v : T} (h : i < l.length) :
    nth (l.set i v) j = if j = i then v else nth l j := by
  simp only [nth, List.getElem?_set]
  by_cases hij : i = j
  · subst hij; simp [h]
  · simp [hij, Ne.symm hij]

theorem nth_take {l : List T} {n i : Nat} (h : i < n) : nth (l.take n) i = nth l i := by
  simp [nth, h]

theorem nth_drop {l : List T} {n i : Nat} : nth (l.drop n) i = nth l (n + i) := by
  simp [nth]

theorem nth_append_left {l l' : List T} {i : Nat} (h : i < l.length) : nth (l ++ l') i = nth l i := by
  simp [nth, List.getElem?_append_left h]

theorem nth_append_right {l l' : List T} {i : Nat} (h : l.length ≤ i) :
    nth (l ++ l') i = nth l' (i - l.length) := by
  simp [nth, List.getElem?_append_right h]

theorem nth_reverse {l : List T} {i : Nat} (h : i < l.length) :
    nth l.reverse i = nth l (l.length - 1 - i) := by
  simp [nth, List.getElem?_reverse h]

theorem getI_nth {l : List T} {i : Nat} (h : i < l.length) : getI l i = .ok (nth l i) := by
  rw [getI_ok h, nth_eq_getElem h]

theorem getU_nth {l : List T} {i : Nat} (h : i < l.length) : getU l i = .ok (nth l i) := by
  rw [getU_ok h, nth_eq_getElem h]

end Nth

/-! ## Loops whose iterations touch disjoint places -/

/-- A loop whose iterations read and write pairwise disjoint footprints computes every place from the initial state.
`view s p` is the value at place `p`; `foot k p` says that iteration `k` owns place `p`. -/
theorem forList_disjoint {κ ι V : Type} {keys : List κ} {body : κ → σ → Res σ} (inv : σ → Prop)
    (view : σ → ι → V) (foot : κ → ι → Prop) (upd : κ → (ι → V) → ι → V)
    (hbody : ∀ k ∈ keys, ∀ s, inv s → ∃ s', body k s = .ok s' ∧ inv s' ∧
      (∀ p, foot k p → view s' p = upd k (view s) p) ∧ (∀ p, ¬ foot k p → view s' p = view s p))
    (hlocal : ∀ k ∈ keys, ∀ g g' : ι → V, (∀ p, foot k p → g p = g' p) → ∀ p, foot k p → upd k g p = upd k g' p)
    (hdisj : keys.Pairwise fun a b => ∀ p, foot a p → ¬ foot b p) (s : σ) (hs : inv s) :
    ∃ s', forList keys s body = .ok s' ∧ inv s' ∧
      (∀ p, (∀ k ∈ keys, ¬ foot k p) → view s' p = view s p) ∧
      (∀ k ∈ keys, ∀ p, foot k p → view s' p = upd k (view s) p) := by
  induction keys generalizing s with
  | nil => exact ⟨s, rfl, hs, fun _ _ => rfl, by simp⟩
  | cons k ks ih =>
    obtain ⟨s1, e1, i1, f1, n1⟩ := hbody k (by simp) s hs
    rw [List.pairwise_cons] at hdisj
    obtain ⟨s2, e2, i2, n2, f2⟩ := ih (fun k' hk' => hbody k' (by simp [hk']))
      (fun k' hk' => hlocal k' (by simp [hk'])) hdisj.2 s1 i1
    refine ⟨s2, ?_, i2, ?_, ?_⟩
    · rw [forList_cons, e1, ok_bind, e2]
    · intro p hp
      rw [n2 p fun k' hk' => hp k' (by simp [hk']), n1 p (hp k (by simp))]
    · intro k' hk' p hp
      rcases List.mem_cons.1 hk' with rfl | hk'
      · rw [n2 p fun k'' hk'' => hdisj.1 k'' hk'' p hp, f1 p hp]
      · rw [f2 k' hk' p hp]
        refine hlocal k' (by simp [hk']) _ _ (fun q hq => ?_) p hp
        exact n1 q fun hkq => hdisj.1 k' hk' q hkq hq

/-! ## Total steps -/

/-- `s` succeeds on every list of length `n` and keeps the length. -/
def Total (n : Nat) (s : List T → Res (List T)) : Prop :=
  ∀ l, l.length = n → ∃ l', s l = .ok l' ∧ l'.length = n

/-- The function computed by a step that succeeds. -/
def run (s : List T → Res (List T)) (l : List T) : List T :=
  match s l with
  | .ok l' => l'
  | .error _ => l

theorem Total.eq {n : Nat} {s : List T → Res (List T)} (h : Total n s) {l : List T} (hl : l.length = n) :
    s l = .ok (run s l) := by
  obtain ⟨l', e, _⟩ := h l hl
  simp [run, e]

theorem Total.length {n : Nat} {s : List T → Res (List T)} (h : Total n s) {l : List T} (hl : l.length = n) :
    (run s l).length = n := by
  obtain ⟨l', e, h'⟩ := h l hl
  simp [run, e, h']

theorem run_eq {s : List T → Res (List T)} {l l' : List T} (h : s l = .ok l') : run s l = l' := by
  simp [run, h]

end RustDHT
