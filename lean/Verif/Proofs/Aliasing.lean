import Verif.Model.RawSlices
import Verif.Proofs.Basic
import Mathlib.Tactic.Common

/-! # Lemmas for C55 -/

namespace RustDHT.Raw

variable {T : Type}

theorem bind_ok_eta {α : Type} (x : Res α) : (x >>= fun m => Except.ok m) = x := by cases x <;> rfl

theorem run_idx (l : List T) (i : Nat) (k : T → Raw T) (m : RawIO T) : (idx l i k).run m = getI l i >>= fun v => (k v).run m := by
  unfold idx getI
  cases l[i]? <;> rfl

/-! ## The programs are the functions of `Verif.Model.Butterflies` -/

theorem run_ret (m : RawIO T) : ret.run m = .ok m := rfl
theorem run_load (i : Nat) (k : T → Raw T) (m : RawIO T) : (load i k).run m = m.load i >>= fun v => (k v).run m := rfl
theorem run_store (v : T) (i : Nat) (k : Raw T) (m : RawIO T) : (store v i k).run m = m.store v i >>= fun m => k.run m := rfl
theorem run_loc (p : Raw T) (l : List T) (k : List T → Raw T) (m : RawIO T) :
    (loc p l k).run m = RustDHT.performInPlace p.run l >>= fun l => (k l).run m := rfl

section Link

variable [Add T] [Sub T] [Mul T] [Neg T] [FftNum T]

theorem run_raw2 : (raw2 : Raw T).run = contiguous2 := by
  funext m
  simp only [raw2, run, contiguous2, bind_ok_eta]

theorem run_raw3 : (raw3 : Raw T).run = contiguous3 := by
  funext m
  simp only [raw3, run, contiguous3, bind_ok_eta]

theorem run_raw5 : (raw5 : Raw T).run = contiguous5 := by
  funext m
  simp only [raw5, run, contiguous5, bind_ok_eta]

theorem perform2 (a b : T) : RustDHT.performInPlace contiguous2 [a, b] = .ok [a + b, a - b] := rfl

theorem run_raw4 : (raw4 : Raw T).run = contiguous4 := by
  funext m
  simp only [raw4, run_load, run_store, run_ret, run_loc, run_raw2, perform2, run_idx, ok_bind, contiguous4, strided2, getI,
    List.getElem?_cons_zero, List.getElem?_cons_succ, bind_ok_eta]

theorem run_raw6 : (raw6 : Raw T).run = contiguous6 := by
  funext m
  simp only [raw6, run_load, run_store, run_ret, run_loc, run_raw3, run_idx, contiguous6, bind_ok_eta]

theorem run_raw8 : (raw8 : Raw T).run = contiguous8 := by
  funext m
  simp only [raw8, run_load, run_store, run_ret, run_loc, run_raw2, perform2, run_idx, ok_bind, contiguous8, strided2, getI,
    List.getElem?_cons_zero, List.getElem?_cons_succ, bind_ok_eta]

theorem bind_bind {α β γ : Type} (x : Res α) (f : α → Res β) (g : β → Res γ) : (x >>= f) >>= g = x >>= fun a => f a >>= g := by
  cases x <;> rfl

theorem forRange4 {σ : Type} (s : σ) (f : Nat → σ → Res σ) :
    forRange 0 4 s f = f 0 s >>= fun s => f 1 s >>= fun s => f 2 s >>= fun s => f 3 s >>= fun s => .ok s := rfl

theorem forRange8 {σ : Type} (s : σ) (f : Nat → σ → Res σ) :
    forRange 0 8 s f = f 0 s >>= fun s => f 1 s >>= fun s => f 2 s >>= fun s => f 3 s >>= fun s => f 4 s >>= fun s => f 5 s >>= fun s =>
      f 6 s >>= fun s => f 7 s >>= fun s => .ok s := rfl

theorem run_raw16 : (raw16 : Raw T).run = contiguous16 := by
  funext m
  simp only [raw16, run_load, run_store, run_ret, run_loc, run_raw8, run_raw4, run_idx, contiguous16, bind_ok_eta, forRange8, forRange4,
    bind_bind, ok_bind, Nat.reduceMul, Nat.reduceAdd]

/-- A load succeeds or is undefined behaviour. -/
theorem load_cases (m : RawIO T) (i : Nat) : (∃ v, m.load i = .ok v) ∨ m.load i = .error .ub := by
  unfold RawIO.load getU
  split
  · exact .inl ⟨_, rfl⟩
  · exact .inr rfl

theorem ub_bind {α β : Type} {x : Res α} {f : α → Res β} (hx : (∃ v, x = .ok v) ∨ x = .error .ub) (hf : ∀ v, f v = .error .ub) :
    x >>= f = .error .ub := by
  rcases hx with ⟨v, rfl⟩ | rfl
  · exact hf v
  · rfl

theorem contiguous9_eq (m : RawIO T) : contiguous9 m = (do
    let b := (computeDftTwiddleForward T 1 3).re - (computeDftTwiddleForward T 1 3).im
    let i0 ← m.load 0
    let i1 ← m.load 1
    let i2 ← m.load 2
    let i3 ← m.load 3
    let i4 ← m.load 4
    let i5 ← m.load 5
    let i6 ← m.load 6
    let i7 ← m.load 7
    let i8 ← m.load 8
    (raw9Tail b (i0 - i6 + (i3 - i6) * b) (i0 - i3 - (i3 - i6) * b) (i0 + i3 + i6) (i1 + i4 + i7) (i2 + i5 + i8) (i7 - i4) (i8 - i5)
      (i1 - i4) (i2 - i5)).run m) := by
  simp only [contiguous9, raw9Tail, run_store, run_ret, bind_ok_eta]

/-- The loads of `Butterfly9` in the order of the source, and once each. -/
theorem loads9 {α : Type} (m : RawIO T) (F : T → T → T → T → T → T → T → T → T → T → T → T → T → T → T → T → T → T → T → T → T → T → T → Res α) :
    (m.load 3 >>= fun x0 => m.load 6 >>= fun x1 => m.load 0 >>= fun x2 => m.load 6 >>= fun x3 => m.load 0 >>= fun x4 => m.load 3 >>= fun x5 => m.load 0 >>= fun x6 => m.load 3 >>= fun x7 => m.load 6 >>= fun x8 => m.load 1 >>= fun x9 => m.load 4 >>= fun x10 => m.load 7 >>= fun x11 => m.load 2 >>= fun x12 => m.load 5 >>= fun x13 => m.load 8 >>= fun x14 => m.load 7 >>= fun x15 => m.load 4 >>= fun x16 => m.load 8 >>= fun x17 => m.load 5 >>= fun x18 => m.load 1 >>= fun x19 => m.load 4 >>= fun x20 => m.load 2 >>= fun x21 => m.load 5 >>= fun x22 => F x0 x1 x2 x3 x4 x5 x6 x7 x8 x9 x10 x11 x12 x13 x14 x15 x16 x17 x18 x19 x20 x21 x22) =
    m.load 0 >>= fun y0 => m.load 1 >>= fun y1 => m.load 2 >>= fun y2 => m.load 3 >>= fun y3 => m.load 4 >>= fun y4 => m.load 5 >>= fun y5 => m.load 6 >>= fun y6 => m.load 7 >>= fun y7 => m.load 8 >>= fun y8 => F y3 y6 y0 y6 y0 y3 y0 y3 y6 y1 y4 y7 y2 y5 y8 y7 y4 y8 y5 y1 y4 y2 y5 := by
  have key := load_cases m
  rcases key 3 with ⟨v3, e3⟩ | e3
  swap
  · exact (show _ = Except.error Fault.ub by simp only [e3, ok_bind, error_bind]).trans (ub_bind (key 0) fun _ => ub_bind (key 1) fun _ => ub_bind (key 2) fun _ => by rw [e3, error_bind]).symm
  rcases key 6 with ⟨v6, e6⟩ | e6
  swap
  · exact (show _ = Except.error Fault.ub by simp only [e3, e6, ok_bind, error_bind]).trans (ub_bind (key 0) fun _ => ub_bind (key 1) fun _ => ub_bind (key 2) fun _ => ub_bind (key 3) fun _ => ub_bind (key 4) fun _ => ub_bind (key 5) fun _ => by rw [e6, error_bind]).symm
  rcases key 0 with ⟨v0, e0⟩ | e0
  swap
  · exact (show _ = Except.error Fault.ub by simp only [e3, e6, e0, ok_bind, error_bind]).trans (show _ = Except.error Fault.ub by rw [e0, error_bind]).symm
  rcases key 1 with ⟨v1, e1⟩ | e1
  swap
  · exact (show _ = Except.error Fault.ub by simp only [e3, e6, e0, e1, ok_bind, error_bind]).trans (ub_bind (key 0) fun _ => by rw [e1, error_bind]).symm
  rcases key 4 with ⟨v4, e4⟩ | e4
  swap
  · exact (show _ = Except.error Fault.ub by simp only [e3, e6, e0, e1, e4, ok_bind, error_bind]).trans (ub_bind (key 0) fun _ => ub_bind (key 1) fun _ => ub_bind (key 2) fun _ => ub_bind (key 3) fun _ => by rw [e4, error_bind]).symm
  rcases key 7 with ⟨v7, e7⟩ | e7
  swap
  · exact (show _ = Except.error Fault.ub by simp only [e3, e6, e0, e1, e4, e7, ok_bind, error_bind]).trans (ub_bind (key 0) fun _ => ub_bind (key 1) fun _ => ub_bind (key 2) fun _ => ub_bind (key 3) fun _ => ub_bind (key 4) fun _ => ub_bind (key 5) fun _ => ub_bind (key 6) fun _ => by rw [e7, error_bind]).symm
  rcases key 2 with ⟨v2, e2⟩ | e2
  swap
  · exact (show _ = Except.error Fault.ub by simp only [e3, e6, e0, e1, e4, e7, e2, ok_bind, error_bind]).trans (ub_bind (key 0) fun _ => ub_bind (key 1) fun _ => by rw [e2, error_bind]).symm
  rcases key 5 with ⟨v5, e5⟩ | e5
  swap
  · exact (show _ = Except.error Fault.ub by simp only [e3, e6, e0, e1, e4, e7, e2, e5, ok_bind, error_bind]).trans (ub_bind (key 0) fun _ => ub_bind (key 1) fun _ => ub_bind (key 2) fun _ => ub_bind (key 3) fun _ => ub_bind (key 4) fun _ => by rw [e5, error_bind]).symm
  rcases key 8 with ⟨v8, e8⟩ | e8
  swap
  · exact (show _ = Except.error Fault.ub by simp only [e3, e6, e0, e1, e4, e7, e2, e5, e8, ok_bind, error_bind]).trans (ub_bind (key 0) fun _ => ub_bind (key 1) fun _ => ub_bind (key 2) fun _ => ub_bind (key 3) fun _ => ub_bind (key 4) fun _ => ub_bind (key 5) fun _ => ub_bind (key 6) fun _ => ub_bind (key 7) fun _ => by rw [e8, error_bind]).symm
  simp only [e0, e1, e2, e3, e4, e5, e6, e7, e8, ok_bind]

/-- In `contiguous9` every value is loaded once. -/
theorem run_raw9 : (raw9 : Raw T).run = contiguous9 := by
  funext m
  rw [contiguous9_eq]
  simp only [raw9, run_load]
  exact loads9 m _

end Link

/-! ## Programs that load before they store -/

/-- No location is loaded after a store to it.  `S` are the locations stored to so far.  `b` allows butterflies on local arrays. -/
def LoadsFirst (b : Bool) : Raw T → List Nat → Prop
  | ret, _ => True
  | fail _, _ => True
  | load i k, S => i ∉ S ∧ ∀ v, (k v).LoadsFirst b S
  | store _ i k, S => k.LoadsFirst b (i :: S)
  | loc p _ k, S => b = true ∧ p.LoadsFirst b [] ∧ ∀ l, (k l).LoadsFirst b S

theorem loadsFirst_idx {b : Bool} {l : List T} {i : Nat} {k : T → Raw T} {S : List Nat} (h : ∀ v, (k v).LoadsFirst b S) :
    (idx l i k).LoadsFirst b S := by
  unfold idx
  cases l[i]? with
  | none => trivial
  | some v => exact h v

/-- The states that the locations go through. -/
structure Fine (A : AliasRules) (aliased : Bool) (i o : Nat) (si s w : A.State) : Prop where
  read : A.read i (if aliased then s else si) = some (if aliased then s else si)
  write : A.write o s = some w
  again : A.write o w = some w

/-- Cells with given values and states. -/
structure Holds {A : AliasRules} (c : Cells A T) (l : List T) (st : Nat → A.State → Prop) : Prop where
  length : c.length = l.length
  cell : ∀ i (h : i < c.length), ∃ v s, c[i]? = some (v, s) ∧ l[i]? = some v ∧ st i s

variable {A : AliasRules}

theorem Holds.values {c : Cells A T} {l : List T} {st : Nat → A.State → Prop} (h : Holds c l st) : c.map (·.1) = l := by
  refine List.ext_getElem? fun i => ?_
  rw [List.getElem?_map]
  by_cases hi : i < c.length
  · obtain ⟨v, s, e, e', _⟩ := h.cell i hi
    rw [e, e', Option.map_some]
  · rw [List.getElem?_eq_none (by omega), List.getElem?_eq_none (by rw [← h.length]; omega)]
    rfl

theorem holds_map {l : List T} {s : A.State} {st : Nat → A.State → Prop} (h : ∀ i, st i s) : Holds (l.map (·, s)) l st := by
  refine ⟨by simp, fun i hi => ?_⟩
  have hi' : i < l.length := by simpa using hi
  exact ⟨l[i], s, by simp [hi'], by simp [hi'], h i⟩

theorem Holds.set {c : Cells A T} {l : List T} {st st' : Nat → A.State → Prop} (h : Holds c l st) {i : Nat} {v : T} {s : A.State}
    (hs : st' i s) (hst : ∀ j s, j ≠ i → st j s → st' j s) : Holds (c.set i (v, s)) (l.set i v) st' := by
  refine ⟨by simp [h.length], fun j hj => ?_⟩
  rw [List.length_set] at hj
  by_cases hij : j = i
  · subst hij
    exact ⟨v, s, by simp [hj], by simp [h.length ▸ hj], hs⟩
  · obtain ⟨v', s', e, e', h'⟩ := h.cell j hj
    exact ⟨v', s', by rw [List.getElem?_set_ne (Ne.symm hij), e], by rw [List.getElem?_set_ne (Ne.symm hij), e'], hst j s' hij h'⟩

/-- The memory with aliasing rules and the memory without. -/
structure Sim (si s w : A.State) (S : List Nat) (m : Mem A T) (r : RawIO T) : Prop where
  aliased : m.aliased = r.aliased
  fine : Fine A m.aliased m.inTag m.outTag si s w
  inp : Holds m.inp r.inp fun _ x => x = si
  out : Holds m.out r.out fun i x => (i ∈ S ∧ x = w) ∨ (i ∉ S ∧ x = s)

theorem loadCell_ok {t : Nat} {c : Cells A T} {l : List T} {st : Nat → A.State → Prop} (h : Holds c l st) {i : Nat} {s : A.State}
    (hst : ∀ x, st i x → x = s) (hr : A.read t s = some s) :
    (loadCell A t c i = .error .ub ∧ getU l i = .error .ub) ∨ ∃ v, loadCell A t c i = .ok (v, c) ∧ getU l i = .ok v := by
  by_cases hi : i < c.length
  · obtain ⟨v, x, e, e', hx⟩ := h.cell i hi
    have hx := hst x hx
    subst hx
    refine .inr ⟨v, ?_, by rw [getU, e']⟩
    have : c.set i (v, x) = c := by
      refine List.ext_getElem? fun j => ?_
      by_cases hij : i = j
      · subst hij
        rw [List.getElem?_set_self hi, e]
      · rw [List.getElem?_set_ne hij]
    simp only [loadCell, e, hr, this]
  · refine .inl ⟨?_, ?_⟩
    · simp only [loadCell, List.getElem?_eq_none (show c.length ≤ i by omega)]
    · simp only [getU, List.getElem?_eq_none (show l.length ≤ i by rw [← h.length]; omega)]

variable {si s w : A.State} {S : List Nat}

theorem Sim.load {m : Mem A T} {r : RawIO T} (h : Sim si s w S m r) {i : Nat} (hi : i ∉ S) :
    (m.load i = .error .ub ∧ r.load i = .error .ub) ∨ ∃ v, m.load i = .ok (v, m) ∧ r.load i = .ok v := by
  unfold Mem.load RawIO.load
  have hf := h.fine.read
  rw [← h.aliased]
  cases ha : m.aliased
  · rw [ha] at hf
    simp only [Bool.false_eq_true, if_false] at hf ⊢
    rcases loadCell_ok h.inp (i := i) (fun x hx => hx) hf with ⟨e1, e2⟩ | ⟨v, e1, e2⟩
    · exact .inl ⟨by rw [e1]; rfl, e2⟩
    · exact .inr ⟨v, by rw [e1, ok_bind, ← ha], e2⟩
  · rw [ha] at hf
    simp only [if_true] at hf ⊢
    rcases loadCell_ok h.out (i := i) (fun x hx => by simpa [hi] using hx) hf with ⟨e1, e2⟩ | ⟨v, e1, e2⟩
    · exact .inl ⟨by rw [e1]; rfl, e2⟩
    · exact .inr ⟨v, by rw [e1, ok_bind, ← ha], e2⟩

theorem Sim.store {m : Mem A T} {r : RawIO T} (h : Sim si s w S m r) {i : Nat} {v : T} :
    (m.store v i = .error .ub ∧ r.store v i = .error .ub) ∨
      ∃ m' r', m.store v i = .ok m' ∧ r.store v i = .ok r' ∧ Sim si s w (i :: S) m' r' ∧ r'.inp = r.inp ∧ r'.aliased = r.aliased := by
  unfold Mem.store RawIO.store storeCell setU
  by_cases hi : i < m.out.length
  · obtain ⟨v', x, e, e', hx⟩ := h.out.cell i hi
    have hw : A.write m.outTag x = some w := by
      rcases hx with ⟨_, rfl⟩ | ⟨_, rfl⟩
      exacts [h.fine.again, h.fine.write]
    simp only [e, hw, if_pos (h.out.length ▸ hi), ok_bind]
    refine .inr ⟨_, _, rfl, rfl, ⟨h.aliased, h.fine, h.inp, h.out.set (.inl ⟨by simp, rfl⟩) fun j y hj hy => ?_⟩, rfl, rfl⟩
    rcases hy with ⟨h1, h2⟩ | ⟨h1, h2⟩
    · exact .inl ⟨by simp [h1], h2⟩
    · exact .inr ⟨by simp [h1, hj], h2⟩
  · rw [List.getElem?_eq_none (by omega), if_neg (by rw [← h.out.length]; exact hi)]
    exact .inl ⟨rfl, rfl⟩

/-- The aliasing rules allow in-place use. -/
def AllowsInPlace (A : AliasRules) (T : Type) : Prop :=
  ∃ si s w, ∀ l : List T, ∃ m, inPlace A l = .ok m ∧ Sim si s w [] m { inp := [], out := l, aliased := true }

theorem exec_run {b : Bool} (hb : b = true → AllowsInPlace A T) (p : Raw T) :
    ∀ {si s w : A.State} {S : List Nat} {m : Mem A T} {r : RawIO T}, p.LoadsFirst b S → Sim si s w S m r →
      (∃ f, p.exec A m = .error f ∧ p.run r = .error f) ∨
        ∃ m' r' S', p.exec A m = .ok m' ∧ p.run r = .ok r' ∧ Sim si s w S' m' r' ∧ r'.inp = r.inp ∧ r'.aliased = r.aliased := by
  induction p with
  | ret => exact fun _ h => .inr ⟨_, _, _, rfl, rfl, h, rfl, rfl⟩
  | fail f => exact fun _ h => .inl ⟨f, rfl, rfl⟩
  | load i k ih =>
    intro si s w S m r hp h
    rcases h.load hp.1 with ⟨e1, e2⟩ | ⟨v, e1, e2⟩
    · exact .inl ⟨.ub, by rw [exec, e1]; rfl, by rw [run, e2]; rfl⟩
    · rw [exec, run, e1, e2]
      exact ih v (hp.2 v) h
  | store v i k ih =>
    intro si s w S m r hp h
    rcases h.store (i := i) (v := v) with ⟨e1, e2⟩ | ⟨m', r', e1, e2, h', h1, h2⟩
    · exact .inl ⟨.ub, by rw [exec, e1]; rfl, by rw [run, e2]; rfl⟩
    · rw [exec, run, e1, e2]
      have := ih hp h'
      rwa [h1, h2] at this
  | loc p l k ihp ihk =>
    intro si s w S m r hp h
    obtain ⟨si', s', w', hin⟩ := hb hp.1
    obtain ⟨m', e, h'⟩ := hin l
    rw [exec, run, e]
    simp only [ok_bind]
    rcases ihp hp.2.1 h' with ⟨f, e1, e2⟩ | ⟨m2, r2, S2, e1, e2, h2, _, _⟩
    · exact .inl ⟨f, by rw [e1]; rfl, by rw [e2]; rfl⟩
    · rw [e1, e2]
      simp only [ok_bind]
      rw [h2.out.values]
      exact ihk _ (hp.2.2 _) h

/-- The aliasing rules allow out-of-place use. -/
def AllowsOop (A : AliasRules) (T : Type) : Prop :=
  ∃ si s w, ∀ i o : List T, ∃ m, outOfPlace A i o = .ok m ∧ Sim si s w [] m { inp := i, out := o, aliased := false }

theorem performInPlace_run {b : Bool} (hb : b = true → AllowsInPlace A T) (hA : AllowsInPlace A T) {p : Raw T} (hp : p.LoadsFirst b [])
    (l : List T) : performInPlace A p l = RustDHT.performInPlace p.run l := by
  obtain ⟨si, s, w, hA⟩ := hA
  obtain ⟨m, e, h⟩ := hA l
  unfold performInPlace RustDHT.performInPlace
  rw [e, ok_bind]
  rcases exec_run hb p hp h with ⟨f, e1, e2⟩ | ⟨m', r', S', e1, e2, h', _, _⟩
  · rw [e1, e2]; rfl
  · rw [e1, e2, ok_bind, ok_bind, h'.out.values]

theorem performOop_run {b : Bool} (hb : b = true → AllowsInPlace A T) (hA : AllowsOop A T) {p : Raw T} (hp : p.LoadsFirst b [])
    (i o : List T) : performOop A p i o = (p.run { inp := i, out := o, aliased := false } >>= fun m => .ok (m.inp, m.out)) := by
  obtain ⟨si, s, w, hA⟩ := hA
  obtain ⟨m, e, h⟩ := hA i o
  unfold performOop
  rw [e, ok_bind]
  rcases exec_run hb p hp h with ⟨f, e1, e2⟩ | ⟨m', r', S', e1, e2, h', _, _⟩
  · rw [e1, e2]; rfl
  · rw [e1, e2, ok_bind, ok_bind, h'.out.values, h'.inp.values]

/-- A run only looks at the memory that it loads from. -/
theorem run_frame (p : Raw T) (x y : List T) (l : List T) : p.run { inp := x, out := l, aliased := true } =
    (p.run { inp := y, out := l, aliased := true } >>= fun m => .ok { m with inp := x }) := by
  induction p generalizing l with
  | ret => rfl
  | fail f => rfl
  | load i k ih =>
    rw [run, run]
    simp only [RawIO.load, if_true]
    cases getU l i with
    | error f => rfl
    | ok v => exact ih v l
  | store v i k ih =>
    rw [run, run]
    simp only [RawIO.store]
    cases setU l i v with
    | error f => rfl
    | ok l' => exact ih l'
  | loc p l' k _ ihk =>
    rw [run, run]
    cases (p.run { inp := [], out := l', aliased := true } >>= fun r => (.ok r.out : Res (List T))) with
    | error f => rfl
    | ok v => exact ihk v l

theorem run_aliased (p : Raw T) {r r' : RawIO T} (h : p.run r = .ok r') : r'.aliased = r.aliased := by
  induction p generalizing r with
  | ret => cases h; rfl
  | fail f => cases h
  | load i k ih =>
    obtain ⟨v, _, h⟩ := bind_eq_ok h
    exact ih v h
  | store v i k ih =>
    obtain ⟨r2, e, h⟩ := bind_eq_ok h
    rw [ih h]
    obtain ⟨o, _, e⟩ := bind_eq_ok e
    cases e
    rfl
  | loc p l k _ ihk =>
    obtain ⟨v, _, h⟩ := bind_eq_ok h
    exact ihk v h

theorem contiguous_run {b : Bool} (hb : b = true → AllowsInPlace A T) (h1 : AllowsInPlace A T) (h2 : AllowsOop A T) {p : Raw T}
    (hp : p.LoadsFirst b []) : contiguous A p = p.run := by
  funext r
  obtain ⟨i, o, a⟩ := r
  unfold contiguous
  cases a
  · simp only [Bool.false_eq_true, if_false]
    rw [performOop_run hb h2 hp]
    cases e : p.run { inp := i, out := o, aliased := false } with
    | error f => rfl
    | ok r =>
      have := run_aliased p e
      obtain ⟨i', o', a'⟩ := r
      cases this
      rfl
  · simp only [if_true]
    rw [performInPlace_run hb h1 hp, run_frame p i []]
    unfold RustDHT.performInPlace
    cases e : p.run { inp := [], out := o, aliased := true } with
    | error f => rfl
    | ok r =>
      have := run_aliased p e
      obtain ⟨i', o', a'⟩ := r
      cases this
      rfl

/-! ## The two sets of rules -/

theorem tree_inPlace {q : TreeBorrows.Perm} (hq : q = .reserved ∨ q = .active) : AllowsInPlace (treeBorrows q) T := by
  refine ⟨[], [⟨3, .reserved, [3, 0]⟩, ⟨1, .frozen, [1, 0]⟩, ⟨0, q, [0]⟩],
    [⟨3, .active, [3, 0]⟩, ⟨1, .disabled, [1, 0]⟩, ⟨0, .active, [0]⟩], fun l => ?_⟩
  rcases hq with rfl | rfl
  · exact ⟨⟨[], l.map (·, _), true, 1, 3⟩, rfl, rfl, ⟨rfl, rfl, rfl⟩, ⟨rfl, fun i h => absurd h (by simp)⟩,
      holds_map fun i => .inr ⟨by simp, rfl⟩⟩
  · exact ⟨⟨[], l.map (·, _), true, 1, 3⟩, rfl, rfl, ⟨rfl, rfl, rfl⟩, ⟨rfl, fun i h => absurd h (by simp)⟩,
      holds_map fun i => .inr ⟨by simp, rfl⟩⟩

theorem tree_oop {q : TreeBorrows.Perm} (hq : q = .reserved ∨ q = .active) : AllowsOop (treeBorrows q) T := by
  refine ⟨[⟨1, .frozen, [1, 0]⟩, ⟨0, q, [0]⟩], [⟨3, .reserved, [3, 0]⟩, ⟨0, q, [0]⟩],
    [⟨3, .active, [3, 0]⟩, ⟨0, .active, [0]⟩], fun i o => ?_⟩
  rcases hq with rfl | rfl
  · exact ⟨⟨i.map (·, _), o.map (·, _), false, 1, 3⟩, rfl, rfl, ⟨rfl, rfl, rfl⟩, holds_map fun _ => rfl,
      holds_map fun i => .inr ⟨by simp, rfl⟩⟩
  · exact ⟨⟨i.map (·, _), o.map (·, _), false, 1, 3⟩, rfl, rfl, ⟨rfl, rfl, rfl⟩, holds_map fun _ => rfl,
      holds_map fun i => .inr ⟨by simp, rfl⟩⟩

theorem stacked_oop : AllowsOop stackedBorrows T :=
  ⟨[(2, .sharedRO), (1, .sharedRO), (0, .unique)], [(4, .sharedRW), (3, .unique), (0, .unique)],
    [(4, .sharedRW), (3, .unique), (0, .unique)], fun i o => ⟨⟨i.map (·, _), o.map (·, _), false, 2, 4⟩, rfl, rfl, ⟨rfl, rfl, rfl⟩,
      holds_map fun _ => rfl, holds_map fun i => .inr ⟨by simp, rfl⟩⟩⟩

/-- Under Stacked Borrows making the mutable raw slice invalidates the shared one. -/
theorem stacked_load (l : List T) (i : Nat) (k : T → Raw T) :
    (inPlace stackedBorrows l >>= fun m => (load i k).exec stackedBorrows m) = .error .ub := by
  have e : inPlace stackedBorrows l =
    .ok ⟨[], l.map (·, [(4, .sharedRW), (3, .unique), (0, .unique)]), true, 2, 4⟩ := rfl
  rw [e, ok_bind, exec, Mem.load]
  simp only [if_true]
  unfold loadCell
  rw [List.getElem?_map]
  cases l[i]? <;> rfl

/-- Programs that start with loads and then work in place on a local array. -/
inductive LoadsThenLoc : Raw T → Prop
  | loc {i : Nat} {k' : T → Raw T} {l : List T} {k : List T → Raw T} : LoadsThenLoc (loc (load i k') l k)
  | load {i : Nat} {k : T → Raw T} (h : ∀ v, LoadsThenLoc (k v)) : LoadsThenLoc (load i k)

theorem load_mem (m : Mem A T) (i : Nat) : m.load i = .error .ub ∨ ∃ v m', m.load i = .ok (v, m') := by
  have key : ∀ t (c : Cells A T), loadCell A t c i = .error .ub ∨ ∃ v c', loadCell A t c i = .ok (v, c') := by
    intro t c
    unfold loadCell
    split
    · exact .inl rfl
    · split
      · exact .inl rfl
      · exact .inr ⟨_, _, rfl⟩
  unfold Mem.load
  split
  · rcases key m.inTag m.out with e | ⟨v, c, e⟩
    · exact .inl (by rw [e]; rfl)
    · exact .inr ⟨v, _, by rw [e]; rfl⟩
  · rcases key m.inTag m.inp with e | ⟨v, c, e⟩
    · exact .inl (by rw [e]; rfl)
    · exact .inr ⟨v, _, by rw [e]; rfl⟩

theorem stacked_loc {p : Raw T} (hp : LoadsThenLoc p) (m : Mem stackedBorrows T) : p.exec stackedBorrows m = .error .ub := by
  induction hp generalizing m with
  | @loc i k' l k =>
    rw [exec]
    have := stacked_load l i k'
    cases e : inPlace stackedBorrows l with
    | error f => rw [e] at this; exact this
    | ok m' => rw [e] at this; rw [ok_bind] at this ⊢; rw [this]; rfl
  | @load i k h ih =>
    rw [exec]
    rcases load_mem m i with e | ⟨v, m', e⟩
    · rw [e]; rfl
    · rw [e]; exact ih v m'

theorem stacked_inPlace (l : List T) (i : Nat) (k : T → Raw T) : (load i k).performInPlace stackedBorrows l = .error .ub := by
  have h := stacked_load l i k
  unfold Raw.performInPlace
  have e : inPlace stackedBorrows l =
    .ok ⟨[], l.map (·, [(4, .sharedRW), (3, .unique), (0, .unique)]), true, 2, 4⟩ := rfl
  rw [e, ok_bind] at h ⊢
  rw [h]
  rfl

theorem stacked_performOop {p : Raw T} (hp : LoadsThenLoc p) (i o : List T) : p.performOop stackedBorrows i o = .error .ub := by
  have e : outOfPlace stackedBorrows i o = .ok ⟨i.map (·, [(2, .sharedRO), (1, .sharedRO), (0, .unique)]),
    o.map (·, [(4, .sharedRW), (3, .unique), (0, .unique)]), false, 2, 4⟩ := rfl
  unfold Raw.performOop
  rw [e, ok_bind, stacked_loc hp]
  rfl

/-! ## The boilerplate -/

theorem butterfly_inPlace_ub {n : Nat} {p : Raw T} (hn : 0 < n) (hp : ∀ l, p.performInPlace A l = .error .ub) (b s : List T)
    (hb : n ≤ b.length) : (p.butterfly A n).processWithScratch b s = .error .ub := by
  unfold Raw.butterfly boilerplateFftButterfly
  dsimp only
  rw [if_neg (by omega), iterChunks, if_pos hb, if_neg (by omega)]
  unfold RustDHT.performInPlace Raw.contiguous
  simp only [if_true, hp]
  rfl

theorem butterfly_oop_ub {n : Nat} {p : Raw T} (hn : 0 < n) (hp : ∀ i o, p.performOop A i o = .error .ub) (i o s : List T)
    (hi : n ≤ i.length) (ho : o.length = i.length) : (p.butterfly A n).processOop i o s = .error .ub := by
  unfold Raw.butterfly boilerplateFftButterfly
  dsimp only
  rw [if_neg (by omega), iterChunksZipped, if_neg (by omega), if_neg (by omega), iterChunksZippedLoop, if_pos (by omega),
    if_neg (by omega)]
  unfold Raw.contiguous
  simp only [Bool.false_eq_true, if_false, hp]
  rfl

theorem butterfly_oop (n : Nat) {p : Raw T} (hp : ∀ i o, p.performOop A i o =
    (p.run { inp := i, out := o, aliased := false } >>= fun m => .ok (m.inp, m.out))) :
    (p.butterfly A n).processOop = (boilerplateFftButterfly n p.run).processOop := by
  have e : (fun (i o : List T) (_ : Unit) => (do
      let m ← p.contiguous A { inp := i, out := o, aliased := false }
      .ok (m.inp, m.out, ()) : Res (List T × List T × Unit))) = (fun i o _ => (do
      let m ← p.run { inp := i, out := o, aliased := false }
      .ok (m.inp, m.out, ()))) := by
    funext i o _
    unfold Raw.contiguous
    simp only [Bool.false_eq_true, if_false, hp]
    cases p.run { inp := i, out := o, aliased := false } <;> rfl
  unfold Raw.butterfly boilerplateFftButterfly
  dsimp only
  rw [e]

/-! ## The butterflies -/

section LoadsFirst

variable [Add T] [Sub T] [Mul T] [Neg T] [FftNum T]

theorem raw2_first {b : Bool} : (raw2 : Raw T).LoadsFirst b [] := by simp [raw2, LoadsFirst]
theorem raw3_first {b : Bool} : (raw3 : Raw T).LoadsFirst b [] := by simp [raw3, LoadsFirst]
theorem raw5_first {b : Bool} : (raw5 : Raw T).LoadsFirst b [] := by simp [raw5, LoadsFirst]
theorem raw9_first {b : Bool} : (raw9 : Raw T).LoadsFirst b [] := by simp [raw9, raw9Tail, LoadsFirst]

theorem raw4_first : (raw4 : Raw T).LoadsFirst true [] := by
  simp only [raw4, LoadsFirst, raw2_first]
  simp only [List.not_mem_nil, not_false_eq_true, true_and]
  intro _ _ _ _ _ _
  repeat' (first | apply loadsFirst_idx | intro _)
  all_goals simp [LoadsFirst]

theorem raw6_first : (raw6 : Raw T).LoadsFirst true [] := by
  simp only [raw6, LoadsFirst, raw3_first]
  simp only [List.not_mem_nil, not_false_eq_true, true_and]
  repeat' (first | apply loadsFirst_idx | intro _)
  all_goals simp [LoadsFirst]

theorem raw8_first : (raw8 : Raw T).LoadsFirst true [] := by
  simp only [raw8, LoadsFirst, raw2_first]
  simp only [List.not_mem_nil, not_false_eq_true, true_and]
  repeat' (first | apply loadsFirst_idx | intro _)
  all_goals simp [LoadsFirst]

theorem raw16_first : (raw16 : Raw T).LoadsFirst true [] := by
  simp only [raw16, LoadsFirst, raw8_first]
  simp only [List.not_mem_nil, not_false_eq_true, true_and]
  repeat' (first | apply loadsFirst_idx | intro _ | (simp only [LoadsFirst, raw4_first, true_and]; done) | simp only [LoadsFirst, raw4_first, true_and])

end LoadsFirst

end RustDHT.Raw
