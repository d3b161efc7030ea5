import Verif.Proofs.Aliasing

/-! # C55: the raw pointers of the butterflies

A butterfly loads through a `RawSlice` and stores through a `RawSliceMut`.  In place both point to the same buffer.  Under the
aliasing rules of Tree Borrows this is allowed, because no butterfly loads from a location that it has stored to.  Under Stacked
Borrows making the second pointer invalidates the first, so that the first load is undefined behaviour. -/

namespace RustDHT

open Raw

variable {T : Type} [Add T] [Sub T] [Mul T] [Neg T] [FftNum T]

/-- The programs with explicit loads and stores are the functions of the model. -/
theorem C55_programs : (raw2 : Raw T).run = contiguous2 ∧ (raw3 : Raw T).run = contiguous3 ∧ (raw4 : Raw T).run = contiguous4 ∧
    (raw5 : Raw T).run = contiguous5 ∧ (raw6 : Raw T).run = contiguous6 ∧ (raw8 : Raw T).run = contiguous8 ∧
    (raw9 : Raw T).run = contiguous9 ∧ (raw16 : Raw T).run = contiguous16 :=
  ⟨run_raw2, run_raw3, run_raw4, run_raw5, run_raw6, run_raw8, run_raw9, run_raw16⟩

/-- Under Tree Borrows the rules change nothing, in place and out of place.  This covers the calls from the other algorithms. -/
theorem C55_tree_contiguous (q : TreeBorrows.Perm) (hq : q = .reserved ∨ q = .active) :
    (raw2 : Raw T).contiguous (treeBorrows q) = contiguous2 ∧ (raw3 : Raw T).contiguous (treeBorrows q) = contiguous3 ∧
    (raw4 : Raw T).contiguous (treeBorrows q) = contiguous4 ∧ (raw5 : Raw T).contiguous (treeBorrows q) = contiguous5 ∧
    (raw6 : Raw T).contiguous (treeBorrows q) = contiguous6 ∧ (raw8 : Raw T).contiguous (treeBorrows q) = contiguous8 ∧
    (raw9 : Raw T).contiguous (treeBorrows q) = contiguous9 ∧ (raw16 : Raw T).contiguous (treeBorrows q) = contiguous16 := by
  have key : ∀ {p : Raw T}, p.LoadsFirst true [] → p.contiguous (treeBorrows q) = p.run := fun hp =>
    contiguous_run (fun _ => tree_inPlace hq) (tree_inPlace hq) (tree_oop hq) hp
  exact ⟨(key raw2_first).trans run_raw2, (key raw3_first).trans run_raw3, (key raw4_first).trans run_raw4,
    (key raw5_first).trans run_raw5, (key raw6_first).trans run_raw6, (key raw8_first).trans run_raw8,
    (key raw9_first).trans run_raw9, (key raw16_first).trans run_raw16⟩

/-- So the butterflies with checked accesses are the butterflies of the model, whose behaviour the other theorems describe. -/
theorem C55_tree_butterflies (q : TreeBorrows.Perm) (hq : q = .reserved ∨ q = .active) :
    Raw.butterfly (treeBorrows q) 2 raw2 = butterfly2 T ∧ Raw.butterfly (treeBorrows q) 3 raw3 = butterfly3 T ∧
    Raw.butterfly (treeBorrows q) 4 raw4 = butterfly4 T ∧ Raw.butterfly (treeBorrows q) 5 raw5 = butterfly5 T ∧
    Raw.butterfly (treeBorrows q) 6 raw6 = butterfly6 T ∧ Raw.butterfly (treeBorrows q) 8 raw8 = butterfly8 T ∧
    Raw.butterfly (treeBorrows q) 9 raw9 = butterfly9 T ∧ Raw.butterfly (treeBorrows q) 16 raw16 = butterfly16 T := by
  obtain ⟨h2, h3, h4, h5, h6, h8, h9, h16⟩ := C55_tree_contiguous (T := T) q hq
  unfold Raw.butterfly
  rw [h2, h3, h4, h5, h6, h8, h9, h16]
  exact ⟨rfl, rfl, rfl, rfl, rfl, rfl, rfl, rfl⟩

/-- Under Stacked Borrows a butterfly in place is undefined behaviour, also on the local arrays of the other algorithms. -/
theorem C55_stacked_arrays (l : List T) :
    raw2.performInPlace stackedBorrows l = .error .ub ∧ raw3.performInPlace stackedBorrows l = .error .ub ∧
    raw4.performInPlace stackedBorrows l = .error .ub ∧ raw5.performInPlace stackedBorrows l = .error .ub ∧
    raw6.performInPlace stackedBorrows l = .error .ub ∧ raw8.performInPlace stackedBorrows l = .error .ub ∧
    raw9.performInPlace stackedBorrows l = .error .ub ∧ raw16.performInPlace stackedBorrows l = .error .ub := by
  have key := fun i (k : T → Raw T) => stacked_inPlace l i k
  exact ⟨key _ _, key _ _, key _ _, key _ _, key _ _, key _ _, key _ _, key _ _⟩

/-- So every in-place call with a buffer that is long enough is undefined behaviour. -/
theorem C55_stacked_in_place (n : Nat) (p : Raw T)
    (h : (n, p) ∈ [(2, raw2), (3, raw3), (4, raw4), (5, raw5), (6, raw6), (8, raw8), (9, raw9), (16, raw16)])
    (b s : List T) (hb : n ≤ b.length) : (Raw.butterfly stackedBorrows n p).processWithScratch b s = .error .ub := by
  simp only [List.mem_cons, List.not_mem_nil, or_false, Prod.mk.injEq] at h
  rcases h with ⟨rfl, rfl⟩ | ⟨rfl, rfl⟩ | ⟨rfl, rfl⟩ | ⟨rfl, rfl⟩ | ⟨rfl, rfl⟩ | ⟨rfl, rfl⟩ | ⟨rfl, rfl⟩ | ⟨rfl, rfl⟩ <;>
    exact butterfly_inPlace_ub (by norm_num) (fun l => stacked_inPlace l _ _) b s hb

/-- Out of place the butterflies 2, 3, 5 and 9, which work on no local array, are allowed under Stacked Borrows too. -/
theorem C55_stacked_out_of_place :
    (Raw.butterfly stackedBorrows 2 raw2).processOop = (butterfly2 T).processOop ∧
    (Raw.butterfly stackedBorrows 3 raw3).processOop = (butterfly3 T).processOop ∧
    (Raw.butterfly stackedBorrows 5 raw5).processOop = (butterfly5 T).processOop ∧
    (Raw.butterfly stackedBorrows 9 raw9).processOop = (butterfly9 T).processOop := by
  have key : ∀ (n : Nat) {p : Raw T}, p.LoadsFirst false [] →
      (Raw.butterfly stackedBorrows n p).processOop = (boilerplateFftButterfly n p.run).processOop := fun n {p} hp =>
    butterfly_oop n (performOop_run (fun h => by simp at h) stacked_oop hp)
  refine ⟨(key 2 raw2_first).trans ?_, (key 3 raw3_first).trans ?_, (key 5 raw5_first).trans ?_, (key 9 raw9_first).trans ?_⟩
  · rw [run_raw2]; rfl
  · rw [run_raw3]; rfl
  · rw [run_raw5]; rfl
  · rw [run_raw9]; rfl

/-- The others run a smaller butterfly in place on a local array. -/
theorem C55_stacked_out_of_place_ub (n : Nat) (p : Raw T)
    (h : (n, p) ∈ [(4, raw4), (6, raw6), (8, raw8), (16, raw16)]) (i o s : List T) (hi : n ≤ i.length)
    (ho : o.length = i.length) : (Raw.butterfly stackedBorrows n p).processOop i o s = .error .ub := by
  have key : p.LoadsThenLoc ∧ 0 < n := by
    simp only [List.mem_cons, List.not_mem_nil, or_false, Prod.mk.injEq] at h
    rcases h with ⟨rfl, rfl⟩ | ⟨rfl, rfl⟩ | ⟨rfl, rfl⟩ | ⟨rfl, rfl⟩
    · exact ⟨.load fun _ => .load fun _ => .load fun _ => .load fun _ => .loc, by norm_num⟩
    · exact ⟨.load fun _ => .load fun _ => .load fun _ => .load fun _ => .load fun _ => .load fun _ => .loc, by norm_num⟩
    · exact ⟨.load fun _ => .load fun _ => .load fun _ => .load fun _ => .load fun _ => .load fun _ => .load fun _ =>
        .load fun _ => .loc, by norm_num⟩
    · exact ⟨.load fun _ => .load fun _ => .load fun _ => .load fun _ => .load fun _ => .load fun _ => .load fun _ =>
        .load fun _ => .load fun _ => .load fun _ => .load fun _ => .load fun _ => .load fun _ => .load fun _ => .load fun _ =>
        .load fun _ => .loc, by norm_num⟩
  exact butterfly_oop_ub key.2 (fun i o => stacked_performOop key.1 i o) i o s hi ho

/-- A buffer of two chunks for `Butterfly4`. -/
example (a b c d e f g h : T) :
    (Raw.butterfly stackedBorrows 4 raw4).processWithScratch [a, b, c, d, e, f, g, h] [] = .error .ub :=
  C55_stacked_in_place 4 raw4 (by simp) _ _ (by simp)

/-- The rules of Stacked Borrows do not forbid everything: out of place `Butterfly2` gives its result. -/
example (a b c d : T) : raw2.performOop stackedBorrows [a, b] [c, d] = .ok ([a, b], [a + b, a - b]) := rfl

/-- Tree Borrows allows the same butterfly in place. -/
example (a b : T) : raw2.performInPlace (treeBorrows .reserved) [a, b] = .ok [a + b, a - b] := rfl

omit [Add T] [Sub T] [Mul T] [Neg T] [FftNum T] in
/-- But it does not allow everything: loading what was stored is undefined behaviour in place, as the store makes the shared
pointer invalid. -/
example (a b : T) : (load 0 fun v => store v 1 <| load 1 fun w => store w 0 ret : Raw T).performInPlace (treeBorrows .reserved)
    [a, b] = .error .ub := rfl

end RustDHT
