import Verif.Proofs.Circuit

/-! # Counting with names for the table constants -/

set_option linter.unusedSectionVars false

namespace RustDHT

/-- Names of table constants. -/
inductive Name where
  | nat (n : ℕ)
  | pi
  | neg (a : Name)
  | mul (a b : Name)
  | div (a b : Name)
  | cos (a : Name)
  | sin (a : Name)
  | sqrtHalf
  | half
  | zero
  /-- a twiddle of the step -/
  | sym (k : ℕ)
  deriving DecidableEq

deriving instance DecidableEq for Circ

namespace Name

instance : Zero Name := ⟨zero⟩

@[instance_reducible] instance : FftNum Name where
  F64 := Name
  f64 := ⟨nat, pi, neg, mul, div, cos, sin⟩
  fromF64 := id
  sqrtHalfF32 := sqrtHalf
  halfF32 := half

/-- The number with this name. -/
def val (S : Type) [FftNum S] : Name → FftNum.F64 S
  | nat n => (FftNum.f64 (T := S)).ofNat n
  | pi => (FftNum.f64 (T := S)).pi
  | neg a => (FftNum.f64 (T := S)).neg (a.val S)
  | mul a b => (FftNum.f64 (T := S)).mul (a.val S) (b.val S)
  | div a b => (FftNum.f64 (T := S)).div (a.val S) (b.val S)
  | cos a => (FftNum.f64 (T := S)).cos (a.val S)
  | sin a => (FftNum.f64 (T := S)).sin (a.val S)
  | _ => (FftNum.f64 (T := S)).pi

end Name

namespace Circ

variable {S : Type} [Zero S] [FftNum S]

/-- The constant with this name. -/
def const (v : ℕ → Circ S) : Name → Circ S
  | .sqrtHalf => num FftNum.sqrtHalfF32
  | .half => num FftNum.halfF32
  | .zero => num 0
  | .sym k => v k
  | a => num (FftNum.fromF64 (a.val S))

/-- Puts expressions for the inputs and for the constants. -/
def subst (x : ℕ → Circ S) (v : ℕ → Circ S) : Circ Name → Circ S
  | inp i => x i
  | num c => const v c
  | add a b => a.subst x v + b.subst x v
  | sub a b => a.subst x v - b.subst x v
  | mul a b => a.subst x v * b.subst x v
  | neg a => -a.subst x v

variable {x v : ℕ → Circ S}

theorem uses_const (hv : ∀ k, (v k).uses = false) (c : Name) : (const v c).uses = false := by
  cases c <;> first | exact hv _ | rfl

theorem uses_subst (hv : ∀ k, (v k).uses = false) {t : Circ Name} (h : t.uses = false) : (t.subst x v).uses = false := by
  induction t with
  | inp i => cases h
  | num c => exact uses_const hv c
  | add a b iha ihb | sub a b iha ihb | mul a b iha ihb =>
    rw [uses, Bool.or_eq_false_iff] at h
    simp [subst, add_def, sub_def, mul_def, uses, iha h.1, ihb h.2]
  | neg a iha => rw [uses] at h; simp [subst, neg_def, uses, iha h]

theorem gates_subst (hv : ∀ k, (v k).uses = false) {t : Circ Name} {u : Circ S} (h : u ∈ (t.subst x v).gates) :
    (∃ i, u ∈ (x i).gates) ∨ ∃ t' ∈ t.gates, u = t'.subst x v := by
  have key : ∀ {a b c : Circ Name}, (c.uses = true → c ∈ c.gates) → (∀ t' ∈ a.gates, t' ∈ c.gates) →
      (∀ t' ∈ b.gates, t' ∈ c.gates) → u ∈ (c.subst x v).gates →
      (u = c.subst x v ∨ u ∈ (a.subst x v).gates ∨ u ∈ (b.subst x v).gates) →
      (u ∈ (a.subst x v).gates → (∃ i, u ∈ (x i).gates) ∨ ∃ t' ∈ a.gates, u = t'.subst x v) →
      (u ∈ (b.subst x v).gates → (∃ i, u ∈ (x i).gates) ∨ ∃ t' ∈ b.gates, u = t'.subst x v) →
      (∃ i, u ∈ (x i).gates) ∨ ∃ t' ∈ c.gates, u = t'.subst x v := by
    intro a b c hc ha hb hu h iha ihb
    rcases h with h | h | h
    · by_cases hcu : c.uses = true
      · exact .inr ⟨c, hc hcu, h⟩
      · rw [gates_of_pure (uses_subst hv (by simpa using hcu))] at hu
        cases hu
    · rcases iha h with h | ⟨t', h1, h2⟩
      · exact .inl h
      · exact .inr ⟨t', ha _ h1, h2⟩
    · rcases ihb h with h | ⟨t', h1, h2⟩
      · exact .inl h
      · exact .inr ⟨t', hb _ h1, h2⟩
  induction t with
  | inp i => exact .inl ⟨i, h⟩
  | num c => rw [subst, gates_of_pure (uses_const hv c)] at h; cases h
  | add a b iha ihb =>
    exact key (a := a) (b := b) (fun hu => by rw [uses] at hu; simp [gates, hu]) (fun t' h => by simp [gates, h])
      (fun t' h => by simp [gates, h]) h (mem_gates_add h) iha ihb
  | sub a b iha ihb =>
    exact key (a := a) (b := b) (fun hu => by rw [uses] at hu; simp [gates, hu]) (fun t' h => by simp [gates, h])
      (fun t' h => by simp [gates, h]) h (mem_gates_sub h) iha ihb
  | mul a b iha ihb =>
    exact key (a := a) (b := b) (fun hu => by rw [uses] at hu; simp [gates, hu]) (fun t' h => by simp [gates, h])
      (fun t' h => by simp [gates, h]) h (mem_gates_mul h) iha ihb
  | neg a iha =>
    refine key (a := a) (b := a) (fun hu => by rw [uses] at hu; simp [gates, hu]) (fun t' h => by simp [gates, h])
      (fun t' h => by simp [gates, h]) h ?_ iha iha
    have h' := h
    rw [subst, neg_def, gates] at h'
    split at h'
    · rcases List.mem_append.1 h' with h' | h'
      · exact .inl (List.mem_singleton.1 h')
      · exact .inr (.inl h')
    · exact .inr (.inl h')

/-- Related by substitution. -/
def Sub (x v : ℕ → Circ S) (t : Circ S) (t' : Circ Name) : Prop := t = t'.subst x v

theorem sub_respects : Respects (Sub x v) (Sub x v) where
  zero := rfl
  add := by rintro _ _ _ _ rfl rfl; rfl
  sub := by rintro _ _ _ _ rfl rfl; rfl
  neg := by rintro _ _ rfl; rfl
  cmul := by rintro _ _ _ _ rfl rfl; rfl
  mulc := by rintro _ _ _ _ rfl rfl; rfl
  zeroC := rfl
  addC := by rintro _ _ _ _ rfl rfl; rfl
  subC := by rintro _ _ _ _ rfl rfl; rfl
  negC := by rintro _ _ rfl; rfl
  mulC := by rintro _ _ _ _ rfl rfl; rfl
  inv _ _ _ := ⟨rfl, rfl⟩
  fwd _ _ _ := ⟨rfl, rfl⟩
  sqrtHalf := rfl
  half := rfl
  norm _ _ := rfl

/-- The different operations of a circuit. -/
def distinct (l : List (Circ Name)) : List (Circ Name) :=
  (l.flatMap gates).foldl (fun acc t => if t ∈ acc then acc else t :: acc) []

theorem mem_foldl_distinct (l acc : List (Circ Name)) (t : Circ Name) (h : t ∈ l ∨ t ∈ acc) :
    t ∈ l.foldl (fun acc t => if t ∈ acc then acc else t :: acc) acc := by
  induction l generalizing acc with
  | nil => simpa using h
  | cons a l ih =>
    rw [List.foldl_cons]
    apply ih
    rcases h with h | h
    · rcases List.mem_cons.1 h with rfl | h
      · right; split
        · assumption
        · simp
      · exact .inl h
    · right; split
      · exact h
      · simp [h]

theorem mem_distinct {l : List (Circ Name)} {u t : Circ Name} (hu : u ∈ l) (ht : t ∈ u.gates) : t ∈ distinct l :=
  mem_foldl_distinct _ _ _ (.inl (List.mem_flatMap.2 ⟨u, hu, ht⟩))

theorem lr_mem {y : List (Circ S)} {y' : List (Circ Name)} (h : LR (Sub x v) y y') {u : Circ S} (hu : u ∈ y) :
    ∃ u' ∈ y', u = u'.subst x v := by
  induction h with
  | nil => cases hu
  | cons h _ ih =>
    rcases List.mem_cons.1 hu with rfl | hu
    · exact ⟨_, by simp, h⟩
    · obtain ⟨u', h1, h2⟩ := ih hu
      exact ⟨u', by simp [h1], h2⟩

/-- Counting with names bounds the operations for all numbers. -/
theorem new_of_sub {X y : List (Circ S)} {y' : List (Circ Name)} {N : ℕ} (hx : ∀ i, x i ∈ X ∨ (x i).uses = false)
    (hv : ∀ k, (v k).uses = false) (h : LR (Sub x v) y y') (hN : (distinct y').length ≤ N) : New X y N := by
  refine ⟨(distinct y').map (subst x v), by rw [List.length_map]; exact hN, fun t ⟨u, hu, ht⟩ => ?_⟩
  have := lr_mem h hu
  obtain ⟨u', hu', rfl⟩ := this
  rcases gates_subst hv ht with ⟨i, hi⟩ | ⟨t', h1, h2⟩
  · rcases hx i with h | h
    · exact .inl ⟨_, h, hi⟩
    · rw [gates_of_pure h] at hi; cases hi
  · exact .inr (List.mem_map.2 ⟨t', mem_distinct hu' h1, h2.symm⟩)

/-! ## Butterflies -/

theorem lr_buffer {n : ℕ} {X : List (Circ S)} (h : X.length = n) : LR (Sub (nth X) v) X (buffer Name n) := by
  subst h
  refine List.forall₂_iff_get.2 ⟨by simp [buffer], fun i h1 h2 => ?_⟩
  simp only [buffer, List.get_eq_getElem, List.getElem_map, List.getElem_range, Sub, subst, nth]
  rw [List.getElem?_eq_getElem h1]
  rfl

theorem nth_mem_or (X : List (Circ S)) (i : ℕ) : nth X i ∈ X ∨ (nth X i).uses = false := by
  rw [nth]
  rcases Nat.lt_or_ge i X.length with h | h
  · rw [List.getElem?_eq_getElem h]; exact .inl (List.getElem_mem h)
  · rw [List.getElem?_eq_none h]; exact .inr rfl

theorem run_lr' {T T' : Type} {f : List T → Res (List T)} {f' : List T' → Res (List T')} {R : T → T' → Prop} {l : List T}
    {l' : List T'} (h : ResRel (LR R) (f l) (f' l')) (hl : LR R l l') : LR R (run f l) (run f' l') := by
  unfold run
  generalize f l = r at h
  generalize f' l' = r' at h
  cases h with
  | ok h => exact h
  | error e => exact hl

theorem bfly_costs {n N : ℕ} {c : RawIO (Circ S) → Res (RawIO (Circ S))} {c' : RawIO (Circ Name) → Res (RawIO (Circ Name))}
    (h : ∀ (x v : ℕ → Circ S) m m', RawRel (Sub x v) m m' → ResRel (RawRel (Sub x v)) (c m) (c' m'))
    (hN : (distinct (bflyFn c' (buffer Name n))).length ≤ N) : Costs n (bflyFn c) N := by
  intro X hX
  have hl : LR (Sub (nth X) fun _ => num 0) X (buffer Name n) := lr_buffer hX
  exact new_of_sub (x := nth X) (v := fun _ => num 0) (nth_mem_or X) (fun _ => rfl)
    (run_lr' (performInPlace_rel (h _ _) hl) hl) hN

theorem b2_costs : Costs (S := S) 2 (bflyFn contiguous2) 2 :=
  bfly_costs (fun _ _ _ _ hm => contiguous2_rel sub_respects hm) (by decide +kernel)
theorem b3_costs : Costs (S := S) 3 (bflyFn contiguous3) 8 :=
  bfly_costs (fun _ _ _ _ hm => contiguous3_rel sub_respects hm) (by decide +kernel)
theorem b4_costs : Costs (S := S) 4 (bflyFn contiguous4) 8 :=
  bfly_costs (fun _ _ _ _ hm => contiguous4_rel sub_respects hm) (by decide +kernel)
theorem b5_costs : Costs (S := S) 5 (bflyFn contiguous5) 24 :=
  bfly_costs (fun _ _ _ _ hm => contiguous5_rel sub_respects hm) (by decide +kernel)
theorem b6_costs : Costs (S := S) 6 (bflyFn contiguous6) 28 :=
  bfly_costs (fun _ _ _ _ hm => contiguous6_rel sub_respects hm) (by decide +kernel)
theorem b8_costs : Costs (S := S) 8 (bflyFn contiguous8) 24 :=
  bfly_costs (fun _ _ _ _ hm => contiguous8_rel sub_respects hm) (by decide +kernel)
theorem b9_costs : Costs (S := S) 9 (bflyFn contiguous9) 56 :=
  bfly_costs (fun _ _ _ _ hm => contiguous9_rel sub_respects hm) (by decide +kernel)
theorem b16_costs : Costs (S := S) 16 (bflyFn contiguous16) 76 :=
  bfly_costs (fun _ _ _ _ hm => contiguous16_rel sub_respects hm) (by decide +kernel)

/-! ## Column steps -/

/-- Names for `m` twiddles. -/
def twNames (m : ℕ) : List (Cx (Circ Name)) := (List.range m).map fun k => ⟨num (.sym (2 * k)), num (.sym (2 * k + 1))⟩

/-- The twiddles with these names. -/
def twVals (tw : List (Cx (Circ S))) (k : ℕ) : Circ S :=
  match tw[k / 2]? with
  | some t => if k % 2 = 0 then t.re else t.im
  | none => num 0

theorem lr_twNames {x : ℕ → Circ S} (tw : List (Cx (Circ S))) : LR (CxRel (Sub x (twVals tw))) tw (twNames tw.length) := by
  refine List.forall₂_iff_get.2 ⟨by simp [twNames], fun i h1 h2 => ?_⟩
  simp only [twNames, List.get_eq_getElem, List.getElem_map, List.getElem_range]
  have e1 : 2 * i / 2 = i := by omega
  have e2 : (2 * i + 1) / 2 = i := by omega
  constructor
  · simp only [Sub, subst, const, twVals, e1, List.getElem?_eq_getElem h1]
    rw [if_pos (by omega)]
  · simp only [Sub, subst, const, twVals, e2, List.getElem?_eq_getElem h1]
    rw [if_neg (by omega)]

/-- The second half of a buffer. -/
def buffer2 (k : ℕ) : List (Circ Name) := (List.range k).map fun i => inp (k + i)

theorem kernel_costs {k N : ℕ} (m : ℕ) {kernel : List (Cx (Circ S)) → List (Circ S) → List (Circ S) → Res (List (Circ S) × List (Circ S))}
    {kernel' : List (Cx (Circ Name)) → List (Circ Name) → List (Circ Name) → Res (List (Circ Name) × List (Circ Name))}
    {tw : List (Cx (Circ S))} (hm : tw.length = m) (htw : ∀ t ∈ tw, t.re.uses = false ∧ t.im.uses = false)
    (hr : ∀ x v : ℕ → Circ S, KernelRel (Sub x v) (Sub x v) kernel kernel')
    (hN : (distinct ((runK kernel' (twNames m) (buffer Name k) (buffer2 k)).1
      ++ (runK kernel' (twNames m) (buffer Name k) (buffer2 k)).2)).length ≤ N)
    {f r : List (Circ S)} (hf : f.length = k) (hr' : r.length = k) :
    New (f ++ r) ((runK kernel tw f r).1 ++ (runK kernel tw f r).2) N := by
  subst hm
  have l1 : LR (Sub (nth (f ++ r)) (twVals tw)) f (buffer Name k) := by
    refine List.forall₂_iff_get.2 ⟨by simp [buffer, hf], fun i h1 h2 => ?_⟩
    simp only [buffer, List.get_eq_getElem, List.getElem_map, List.getElem_range, Sub, subst]
    rw [nth_append_left h1, nth, List.getElem?_eq_getElem h1]
    rfl
  have l2 : LR (Sub (nth (f ++ r)) (twVals tw)) r (buffer2 k) := by
    refine List.forall₂_iff_get.2 ⟨by simp [buffer2, hr'], fun i h1 h2 => ?_⟩
    simp only [buffer2, List.get_eq_getElem, List.getElem_map, List.getElem_range, Sub, subst]
    rw [nth_append_right (by omega), hf, Nat.add_sub_cancel_left, nth, List.getElem?_eq_getElem h1]
    rfl
  have h := hr _ _ tw _ _ _ _ _ (lr_twNames tw) l1 l2
  refine new_of_sub (x := nth (f ++ r)) (v := twVals tw) (nth_mem_or _) (fun n => ?_) ?_ hN
  · unfold twVals
    rcases Nat.lt_or_ge (n / 2) tw.length with h | h
    · rw [List.getElem?_eq_getElem h]
      simp only
      split
      · exact (htw _ (List.getElem_mem h)).1
      · exact (htw _ (List.getElem_mem h)).2
    · rw [List.getElem?_eq_none h]; rfl
  · unfold runK
    generalize kernel tw f r = a at h
    generalize kernel' (twNames tw.length) (buffer Name k) (buffer2 k) = b at h
    cases h with
    | ok h => exact h.1.append h.2
    | error e => exact l1.append l2

theorem columns_costs {k h N M : ℕ} {c : RawIO (Circ S) → Res (RawIO (Circ S))}
    {kernel : List (Cx (Circ S)) → List (Circ S) → List (Circ S) → Res (List (Circ S) × List (Circ S))}
    {tws : ℕ → List (Cx (Circ S))} (hc : Costs k (bflyFn c) N) (h0 : Total k (performInPlace c))
    (hk : ∀ c, KernelTotal k kernel (tws c))
    (hn : ∀ c f r, f.length = k → r.length = k → New (f ++ r) ((runK kernel (tws c) f r).1 ++ (runK kernel (tws c) f r).2) M)
    (hh : 0 < h) :
    Costs (k * h) (run (applyColumns k h (performInPlace c) kernel ((List.range' 1 (h / 2)).map tws))) (N + h / 2 * M) := by
  intro x hx
  have hcol : ∀ c, New x (col k h x c) 0 := fun c => New.perm
  have htot : ∀ tw' ∈ (List.range' 1 (h / 2)).map tws, KernelTotal k kernel tw' := by
    intro tw' ht
    obtain ⟨c, _, rfl⟩ := List.mem_map.1 ht
    exact hk c
  have htot' := applyColumns_total (k := k) (col0 := performInPlace c) hh h0 (by simp) htot
  let pair : ℕ → List (Circ S) := fun c => (runK kernel (tws c) (col k h x c) (col k h x (h - c))).1
    ++ (runK kernel (tws c) (col k h x c) (col k h x (h - c))).2
  have h1 : New x (bflyFn c (col k h x 0)) N := by
    have := (hcol 0).trans (hc _ (by simp))
    rwa [Nat.zero_add] at this
  have h2 : New x ((List.range' 1 (h / 2)).flatMap pair) ((List.range' 1 (h / 2)).length * M) := New.flat fun c _ => by
    have := ((hcol c).append (hcol (h - c))).trans (hn c _ _ (by simp) (by simp))
    exact this.mono (by omega)
  rw [List.length_range'] at h2
  refine (h1.append h2).right fun t ht => ?_
  obtain ⟨p, hp, rfl⟩ := List.getElem_of_mem ht
  have hp' : p < k * h := by rw [htot'.length hx] at hp; exact hp
  have e := nth_run_applyColumns hh h0 (by simp) htot hx hp'
  rw [nth, List.getElem?_eq_getElem hp] at e
  have e : (run (applyColumns k h (performInPlace c) kernel ((List.range' 1 (h / 2)).map tws)) x)[p]
    = columnVal k h (performInPlace c) kernel ((List.range' 1 (h / 2)).map tws) x (p / h) (p % h) := e
  rw [e, columnVal]
  have hmod := Nat.mod_lt p hh
  have hdiv : p / h < k := (Nat.div_lt_iff_lt_mul hh).2 hp'
  have mem : ∀ {l : List (Circ S)} {i : ℕ}, i < l.length → nth l i ∈ l := by
    intro l i hi
    rw [nth, List.getElem?_eq_getElem hi]
    exact List.getElem_mem hi
  split
  · exact List.mem_append_left _ (mem (by
      have := h0.length (l := col k h x 0) (by simp)
      rw [bflyFn, this]; exact hdiv))
  · refine List.mem_append_right _ ?_
    split
    · rw [chunk_get (by omega) (by omega)]
      refine List.mem_flatMap.2 ⟨p % h, by rw [List.mem_range'_1]; omega, List.mem_append_left _ (mem ?_)⟩
      rw [((hk _).eq (by simp) (by simp)).2.1]; exact hdiv
    · rw [chunk_get (by omega) (by omega)]
      refine List.mem_flatMap.2 ⟨h - p % h, by rw [List.mem_range'_1]; omega, List.mem_append_right _ ?_⟩
      rw [show h - (h - p % h) = p % h by omega]
      refine mem ?_
      rw [((hk _).eq (by simp) (by simp)).2.2]; exact hdiv

theorem uses_tw (i n : ℕ) : (computeDftTwiddleInverse (Circ S) i n).re.uses = false ∧
    (computeDftTwiddleInverse (Circ S) i n).im.uses = false := ⟨rfl, rfl⟩

theorem uses_twScaled (i n : ℕ) : ((computeDftTwiddleInverse (Circ S) i n).scale FftNum.sqrtHalfF32).re.uses = false ∧
    ((computeDftTwiddleInverse (Circ S) i n).scale FftNum.sqrtHalfF32).im.uses = false := ⟨rfl, rfl⟩

theorem mr2_costs {h : ℕ} (hh : 0 < h) : Costs (S := S) (2 * h) (run (mr2Apply (Circ S) h)) (2 + h / 2 * 10) :=
  columns_costs b2_costs (total_of_performs performs2) (fun _ => mr2Kernel_total _) (fun _ _ _ hf hr =>
    kernel_costs 1 rfl (by simp [uses_tw]) (fun _ _ => mr2Kernel_rel sub_respects) (by decide +kernel) hf hr) hh
theorem mr3_costs {h : ℕ} (hh : 0 < h) : Costs (S := S) (3 * h) (run (mr3Apply (Circ S) h)) (8 + h / 2 * 32) :=
  columns_costs b3_costs (total_of_performs performs3) (fun _ => mr3Kernel_total _) (fun _ _ _ hf hr =>
    kernel_costs 1 rfl (by simp [uses_twScaled]) (fun _ _ => mr3Kernel_rel sub_respects) (by decide +kernel) hf hr) hh
theorem mr4_costs {h : ℕ} (hh : 0 < h) : Costs (S := S) (4 * h) (run (mr4Apply (Circ S) h)) (8 + h / 2 * 34) :=
  columns_costs b4_costs (total_of_performs performs4) (fun _ => mr4Kernel_total _ _) (fun _ _ _ hf hr =>
    kernel_costs 2 rfl (by simp [uses_tw]) (fun _ _ => mr4Kernel_rel sub_respects) (by decide +kernel) hf hr) hh
theorem mr5_costs {h : ℕ} (hh : 0 < h) : Costs (S := S) (5 * h) (run (mr5Apply (Circ S) h)) (24 + h / 2 * 80) :=
  columns_costs b5_costs (total_of_performs performs5) (fun _ => mr5Kernel_total _ _) (fun _ _ _ hf hr =>
    kernel_costs 2 rfl (by simp [uses_twScaled]) (fun _ _ => mr5Kernel_rel sub_respects) (by decide +kernel) hf hr) hh
set_option maxRecDepth 8000 in
theorem mr6_costs {h : ℕ} (hh : 0 < h) : Costs (S := S) (6 * h) (run (mr6Apply (Circ S) h)) (28 + h / 2 * 96) :=
  columns_costs b6_costs (total_of_performs performs6) (fun _ => mr6Kernel_total _ _ _) (fun _ _ _ hf hr =>
    kernel_costs 3 rfl (by simp [uses_twScaled]) (fun _ _ => mr6Kernel_rel sub_respects) (by decide +kernel) hf hr) hh
theorem r4_costs {h t : ℕ} (hh : 0 < h) : Costs (S := S) (4 * h) (run (r4Apply (Circ S) h t)) (8 + h / 2 * 34) :=
  columns_costs b4_costs (total_of_performs performs4) (fun _ => mr4Kernel_total _ _) (fun _ _ _ hf hr =>
    kernel_costs 2 rfl (by simp [uses_tw]) (fun _ _ => mr4Kernel_rel sub_respects) (by decide +kernel) hf hr) hh

end Circ

end RustDHT
