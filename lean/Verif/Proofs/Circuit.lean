import Verif.Spec.Circuit
import Verif.Proofs.GrowthPlan

/-! # Circuits: substitution and counting -/

set_option linter.unusedSectionVars false

namespace RustDHT

namespace Circ

variable {S : Type} [Zero S] [FftNum S]

theorem add_def (a b : Circ S) : a + b = add a b := rfl
theorem sub_def (a b : Circ S) : a - b = sub a b := rfl
theorem mul_def (a b : Circ S) : a * b = mul a b := rfl
theorem neg_def (a : Circ S) : -a = neg a := rfl
theorem zero_def : (0 : Circ S) = num 0 := rfl

/-- Evaluation respects everything. -/
theorem eval_respects [Add S] [Sub S] [Mul S] [Neg S] (x : ℕ → S) :
    Respects (fun (t : Circ S) s => t.eval x = s) (fun t s => t.eval x = s) where
  zero := rfl
  add := by rintro _ _ _ _ rfl rfl; rfl
  sub := by rintro _ _ _ _ rfl rfl; rfl
  neg := by rintro _ _ rfl; rfl
  cmul := by rintro _ _ _ _ rfl rfl; rfl
  mulc := by rintro _ _ _ _ rfl rfl; rfl
  zeroC := rfl
  addC := by rintro _ _ _ _ rfl rfl; rfl
  subC := by rintro _ _ _ _ rfl rfl; rfl
  negC := by rintro _ _ rfl; rfl
  mulC := by rintro _ _ _ _ rfl rfl; rfl
  inv _ _ _ := ⟨rfl, rfl⟩
  fwd _ _ _ := ⟨rfl, rfl⟩
  sqrtHalf := rfl
  half := rfl
  norm _ _ := rfl

/-- Expressions without the buffer are closed under everything. -/
theorem pure_respects : Respects (fun t u : Circ S => t = u ∧ t.uses = false) (fun t u => t = u ∧ t.uses = false) where
  zero := ⟨rfl, rfl⟩
  add := by rintro _ _ _ _ ⟨rfl, h⟩ ⟨rfl, h'⟩; exact ⟨rfl, by simp [add_def, uses, h, h']⟩
  sub := by rintro _ _ _ _ ⟨rfl, h⟩ ⟨rfl, h'⟩; exact ⟨rfl, by simp [sub_def, uses, h, h']⟩
  neg := by rintro _ _ ⟨rfl, h⟩; exact ⟨rfl, by simp [neg_def, uses, h]⟩
  cmul := by rintro _ _ _ _ ⟨rfl, h⟩ ⟨rfl, h'⟩; exact ⟨rfl, by simp [mul_def, uses, h, h']⟩
  mulc := by rintro _ _ _ _ ⟨rfl, h⟩ ⟨rfl, h'⟩; exact ⟨rfl, by simp [mul_def, uses, h, h']⟩
  zeroC := ⟨rfl, rfl⟩
  addC := by rintro _ _ _ _ ⟨rfl, h⟩ ⟨rfl, h'⟩; exact ⟨rfl, by simp [add_def, uses, h, h']⟩
  subC := by rintro _ _ _ _ ⟨rfl, h⟩ ⟨rfl, h'⟩; exact ⟨rfl, by simp [sub_def, uses, h, h']⟩
  negC := by rintro _ _ ⟨rfl, h⟩; exact ⟨rfl, by simp [neg_def, uses, h]⟩
  mulC := by rintro _ _ _ _ ⟨rfl, h⟩ ⟨rfl, h'⟩; exact ⟨rfl, by simp [mul_def, uses, h, h']⟩
  inv _ _ _ := ⟨⟨rfl, rfl⟩, ⟨rfl, rfl⟩⟩
  fwd _ _ _ := ⟨⟨rfl, rfl⟩, ⟨rfl, rfl⟩⟩
  sqrtHalf := ⟨rfl, rfl⟩
  half := ⟨rfl, rfl⟩
  norm _ _ := ⟨rfl, rfl⟩

theorem gates_of_pure {t : Circ S} (h : t.uses = false) : t.gates = [] := by
  induction t with
  | inp i => cases h
  | num c => rfl
  | add a b iha ihb | sub a b iha ihb | mul a b iha ihb =>
    rw [uses, Bool.or_eq_false_iff] at h
    simp [gates, iha h.1, ihb h.2, h.1, h.2]
  | neg a iha => rw [uses] at h; simp [gates, iha h, h]

/-! ## Counting the operations of a step -/

/-- The operations of `y` are those of `x` and at most `N` others. -/
def New (x y : List (Circ S)) (N : ℕ) : Prop := ∃ g : List (Circ S), g.length ≤ N ∧ ∀ t, IsGate y t → IsGate x t ∨ t ∈ g

theorem New.mono {x y : List (Circ S)} {N N' : ℕ} (h : New x y N) (hN : N ≤ N') : New x y N' := by
  obtain ⟨g, h1, h2⟩ := h
  exact ⟨g, le_trans h1 hN, h2⟩

theorem New.trans {x y z : List (Circ S)} {N M : ℕ} (h : New x y N) (h' : New y z M) : New x z (N + M) := by
  obtain ⟨g, h1, h2⟩ := h
  obtain ⟨g', h3, h4⟩ := h'
  refine ⟨g ++ g', by rw [List.length_append]; omega, fun t ht => ?_⟩
  rcases h4 t ht with h | h
  · rcases h2 t h with h | h
    · exact .inl h
    · exact .inr (List.mem_append_left _ h)
  · exact .inr (List.mem_append_right _ h)

theorem New.of_sub {x y : List (Circ S)} (h : ∀ t ∈ y, t ∈ x) : New x y 0 :=
  ⟨[], le_rfl, fun _ ⟨u, hu, ht⟩ => .inl ⟨u, h u hu, ht⟩⟩

theorem New.append {x y z : List (Circ S)} {N M : ℕ} (h : New x y N) (h' : New x z M) : New x (y ++ z) (N + M) := by
  obtain ⟨g, h1, h2⟩ := h
  obtain ⟨g', h3, h4⟩ := h'
  refine ⟨g ++ g', by rw [List.length_append]; omega, fun t ⟨u, hu, ht⟩ => ?_⟩
  rcases List.mem_append.1 hu with hu | hu
  · rcases h2 t ⟨u, hu, ht⟩ with h | h
    · exact .inl h
    · exact .inr (List.mem_append_left _ h)
  · rcases h4 t ⟨u, hu, ht⟩ with h | h
    · exact .inl h
    · exact .inr (List.mem_append_right _ h)

theorem New.left {x x' y : List (Circ S)} {N : ℕ} (h : New x y N) (hx : ∀ t ∈ x, t ∈ x') : New x' y N := by
  obtain ⟨g, h1, h2⟩ := h
  refine ⟨g, h1, fun t ht => ?_⟩
  rcases h2 t ht with ⟨u, hu, h⟩ | h
  · exact .inl ⟨u, hx u hu, h⟩
  · exact .inr h

theorem New.right {x y y' : List (Circ S)} {N : ℕ} (h : New x y N) (hy : ∀ t ∈ y', t ∈ y) : New x y' N := by
  obtain ⟨g, h1, h2⟩ := h
  exact ⟨g, h1, fun t ⟨u, hu, ht⟩ => h2 t ⟨u, hy u hu, ht⟩⟩

/-- Many lists, each with its own count. -/
theorem New.flat {x : List (Circ S)} {f : ℕ → List (Circ S)} {N : ℕ} : ∀ {l : List ℕ}, (∀ i ∈ l, New x (f i) N) →
    New x (l.flatMap f) (l.length * N)
  | [], _ => by
    refine New.mono (.of_sub fun t ht => ?_) (Nat.zero_le _)
    cases ht
  | a :: l, h => by
    rw [List.flatMap_cons, List.length_cons, Nat.succ_mul, Nat.add_comm]
    exact (h a (by simp)).append (New.flat fun i hi => h i (by simp [hi]))

/-- Zero is free. -/
theorem new_nth (x : List (Circ S)) (i : ℕ) : New x [nth x i] 0 := by
  rw [nth]
  rcases Nat.lt_or_ge i x.length with h | h
  · rw [List.getElem?_eq_getElem h]
    exact .of_sub fun t ht => by
      rw [List.mem_singleton.1 ht]
      exact List.getElem_mem h
  · rw [List.getElem?_eq_none h]
    refine ⟨[], le_rfl, fun t ⟨u, hu, ht⟩ => ?_⟩
    rw [List.mem_singleton.1 hu] at ht
    cases ht

theorem new_pure (x : List (Circ S)) {c : Circ S} (h : c.uses = false) : New x [c] 0 := by
  refine ⟨[], le_rfl, fun t ⟨u, hu, ht⟩ => ?_⟩
  rw [List.mem_singleton.1 hu, gates_of_pure h] at ht
  cases ht

theorem New.op {x : List (Circ S)} {a b c : Circ S} {N M : ℕ} (h : New x [a] N) (h' : New x [b] M)
    (hg : ∀ t ∈ c.gates, t = c ∨ t ∈ a.gates ∨ t ∈ b.gates) : New x [c] (N + M + 1) := by
  obtain ⟨g, h1, h2⟩ := h
  obtain ⟨g', h3, h4⟩ := h'
  refine ⟨c :: (g ++ g'), by simp only [List.length_cons, List.length_append]; omega, fun t ⟨u, hu, ht⟩ => ?_⟩
  rw [List.mem_singleton.1 hu] at ht
  rcases hg t ht with rfl | h | h
  · exact .inr (by simp)
  · rcases h2 t ⟨a, by simp, h⟩ with h | h
    · exact .inl h
    · exact .inr (by simp [h])
  · rcases h4 t ⟨b, by simp, h⟩ with h | h
    · exact .inl h
    · exact .inr (by simp [h])

theorem mem_gates_add {a b t : Circ S} (h : t ∈ (a + b).gates) : t = a + b ∨ t ∈ a.gates ∨ t ∈ b.gates := by
  rw [add_def, gates] at h
  split at h <;> simp at h <;> tauto

theorem mem_gates_sub {a b t : Circ S} (h : t ∈ (a - b).gates) : t = a - b ∨ t ∈ a.gates ∨ t ∈ b.gates := by
  rw [sub_def, gates] at h
  split at h <;> simp at h <;> tauto

theorem mem_gates_mul {a b t : Circ S} (h : t ∈ (a * b).gates) : t = a * b ∨ t ∈ a.gates ∨ t ∈ b.gates := by
  rw [mul_def, gates] at h
  split at h <;> simp at h <;> tauto

theorem New.add {x : List (Circ S)} {a b : Circ S} {N M : ℕ} (h : New x [a] N) (h' : New x [b] M) :
    New x [a + b] (N + M + 1) := h.op h' fun _ => mem_gates_add
theorem New.sub {x : List (Circ S)} {a b : Circ S} {N M : ℕ} (h : New x [a] N) (h' : New x [b] M) :
    New x [a - b] (N + M + 1) := h.op h' fun _ => mem_gates_sub
theorem New.mul {x : List (Circ S)} {a b : Circ S} {N M : ℕ} (h : New x [a] N) (h' : New x [b] M) :
    New x [a * b] (N + M + 1) := h.op h' fun _ => mem_gates_mul

theorem New.tab {x : List (Circ S)} {n N : ℕ} {f : ℕ → Circ S} (h : ∀ i < n, New x [f i] N) :
    New x (tab n f) (n * N) := by
  have := New.flat (x := x) (f := fun i => [f i]) (N := N) (l := List.range n) fun i hi => h i (List.mem_range.1 hi)
  rw [List.length_range] at this
  refine this.right fun t ht => ?_
  rw [RustDHT.tab, List.mem_map] at ht
  obtain ⟨i, hi, rfl⟩ := ht
  exact List.mem_flatMap.2 ⟨i, hi, by simp⟩

/-- Rearranging is free. -/
theorem New.perm {x : List (Circ S)} {n : ℕ} {f : ℕ → ℕ} : New x (RustDHT.tab n fun i => nth x (f i)) 0 := by
  have := New.tab (x := x) (n := n) fun i _ => new_nth x (f i)
  exact this

/-- The step `f` on `n` numbers takes at most `N` operations. -/
def Costs (n : ℕ) (f : List (Circ S) → List (Circ S)) (N : ℕ) : Prop := ∀ x, x.length = n → New x (f x) N

theorem Costs.mapChunks {n N : ℕ} {f : List (Circ S) → List (Circ S)} (h : Costs n f N) (hn : 0 < n) (x : List (Circ S)) :
    New x (mapChunks n f x) (x.length / n * N) := by
  induction x using chunk_induction hn with
  | hlt l hl => rw [mapChunks_of_lt hl]; exact New.mono (.of_sub fun _ h => h) (Nat.zero_le _)
  | hge l hl ih =>
    rw [mapChunks_of_ge hn hl]
    have e : l.length / n = (l.drop n).length / n + 1 := by
      rw [List.length_drop, ← Nat.div_eq_sub_div hn hl]
    rw [e, Nat.succ_mul, Nat.add_comm]
    exact ((h _ (by simp; omega)).left fun _ => List.mem_of_mem_take).append (ih.left fun _ => List.mem_of_mem_drop)

end Circ

end RustDHT
