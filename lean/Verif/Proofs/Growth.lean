import Verif.Spec.Growth
import Verif.Proofs.PlanRounding

/-! # Costs grow at most as `Plan.growth` says -/

set_option linter.unusedSectionVars false

namespace RustDHT

instance (a b : Cost) : Decidable (a ≤ b) :=
  inferInstanceAs (Decidable (a.g ≤ b.g ∧ a.c ≤ b.c ∧ a.d ≤ b.d ∧ a.e ≤ b.e ∧ a.r ≤ b.r))

namespace Cost

theorem le_def {a b : Cost} : a ≤ b ↔ a.g ≤ b.g ∧ a.c ≤ b.c ∧ a.d ≤ b.d ∧ a.e ≤ b.e ∧ a.r ≤ b.r := Iff.rfl

protected theorem le_refl (a : Cost) : a ≤ a := ⟨le_rfl, le_rfl, le_rfl, le_rfl, le_rfl⟩

protected theorem le_trans {a b c : Cost} (h : a ≤ b) (h' : b ≤ c) : a ≤ c :=
  ⟨h.1.trans h'.1, h.2.1.trans h'.2.1, h.2.2.1.trans h'.2.2.1, h.2.2.2.1.trans h'.2.2.2.1, h.2.2.2.2.trans h'.2.2.2.2⟩

protected theorem zero_le (a : Cost) : 0 ≤ a := ⟨Nat.zero_le _, Nat.zero_le _, Nat.zero_le _, Nat.zero_le _, Nat.zero_le _⟩

theorem le_sup_left (a b : Cost) : a ≤ a.sup b :=
  ⟨le_max_left _ _, le_max_left _ _, le_max_left _ _, le_max_left _ _, le_max_left _ _⟩

theorem le_sup_right (a b : Cost) : b ≤ a.sup b :=
  ⟨le_max_right _ _, le_max_right _ _, le_max_right _ _, le_max_right _ _, le_max_right _ _⟩

theorem after_mono {a a' b b' : Cost} (h : a ≤ a') (h' : b ≤ b') : a.after b ≤ a'.after b' := by
  obtain ⟨h1, h2, h3, h4, h5⟩ := h
  obtain ⟨k1, k2, k3, k4, k5⟩ := h'
  exact ⟨Nat.mul_le_mul h1 k1, Nat.add_le_add (Nat.mul_le_mul h1 k2) (Nat.mul_le_mul h2 k1), Nat.add_le_add h3 k3,
    Nat.add_le_add h4 k4, Nat.add_le_add h5 k5⟩

theorem after_assoc (a b c : Cost) : (a.after b).after c = a.after (b.after c) := by
  simp only [after, mk.injEq]
  refine ⟨by ring, by ring, by ring, by ring, by ring⟩

theorem input_after (b : Cost) : input.after b = b := by simp [after, input]

theorem after_input (b : Cost) : b.after input = b := by simp [after, input]

theorem le_after {a b : Cost} (h : 1 ≤ a.g) : b ≤ a.after b := by
  refine ⟨Nat.le_mul_of_pos_left _ h, ?_, Nat.le_add_left _ _, Nat.le_add_left _ _, Nat.le_add_left _ _⟩
  have := Nat.le_mul_of_pos_left b.c h
  simp only [after]
  omega

theorem after_pos {a b : Cost} (h : 1 ≤ a.g) (h' : 1 ≤ b.g) : 1 ≤ (a.after b).g := Nat.mul_pos h h'

theorem times_pos {a : Cost} (h : 1 ≤ a.g) (l : ℕ) : 1 ≤ (a.times l).g := by
  induction l with
  | zero => exact le_rfl
  | succ l ih => exact after_pos ih h

end Cost

open Cost

/-- Costs that start from `b`. -/
def BR (b a q : Cost) : Prop := q ≤ a.after b

/-- Costs of constants. -/
def CR (a q : Cost) : Prop := q ≤ a

theorem sum_mono {a a' q q' : Cost} (h : q ≤ a) (h' : q' ≤ a') : q + q' ≤ a + a' := by
  simp only [le_def, add_def] at *
  omega

theorem prod_mono {a a' q q' : Cost} (h : q ≤ a) (h' : q' ≤ a') : q * q' ≤ a * a' := by
  obtain ⟨h1, h2, h3, h4, h5⟩ := h
  obtain ⟨k1, k2, k3, k4, k5⟩ := h'
  have m1 : max 1 q.g ≤ max 1 a.g := by omega
  have m2 : max 1 q'.g ≤ max 1 a'.g := by omega
  refine ⟨Nat.mul_le_mul m1 m2, ?_, ?_, Nat.add_le_add h4 k4, Nat.add_le_add h5 k5⟩
  · have e1 := Nat.mul_le_mul m1 k2
    have e2 := Nat.mul_le_mul h2 m2
    simp only [mul_def]
    omega
  · simp only [mul_def]
    omega

theorem add_after (a a' b : Cost) : a.after b + a'.after b ≤ (a + a').after b := by
  refine ⟨?_, ?_, ?_, ?_, ?_⟩ <;> simp only [after, add_def]
  · rw [Nat.add_mul]
  · rw [Nat.add_mul, Nat.add_mul]; omega
  · omega
  · omega
  · omega

theorem mul_after (a a' b : Cost) (hb : 1 ≤ b.g) : a * a'.after b ≤ (a * a').after b := by
  have h1 : max 1 (a'.g * b.g) ≤ max 1 a'.g * b.g := by
    refine max_le (Nat.mul_pos (by omega) hb) (Nat.mul_le_mul_right _ (by omega))
  refine ⟨?_, ?_, ?_, ?_, ?_⟩ <;> simp only [after, mul_def]
  · rw [Nat.mul_assoc]
    exact Nat.mul_le_mul_left _ h1
  · have h2 : a'.g * b.c ≤ max 1 a'.g * b.c := Nat.mul_le_mul_right _ (by omega)
    have h3 := Nat.mul_le_mul_left (max 1 a.g) h2
    have h4 := Nat.mul_le_mul_left a.c h1
    have e1 : max 1 a.g * (a'.g * b.c + a'.c * b.g) = max 1 a.g * (a'.g * b.c) + max 1 a.g * a'.c * b.g := by ring
    have e2 : max 1 a.g * max 1 a'.g * b.c = max 1 a.g * (max 1 a'.g * b.c) := by ring
    have e3 : (max 1 a.g * a'.c + a.c * max 1 a'.g + 1) * b.g
        = max 1 a.g * a'.c * b.g + a.c * (max 1 a'.g * b.g) + b.g := by ring
    rw [e1, e2, e3]
    omega
  · omega
  · omega
  · omega

theorem mul_comm_cost (a b : Cost) : a * b = b * a := by
  simp only [mul_def, mk.injEq]
  refine ⟨Nat.mul_comm _ _, ?_, ?_, ?_, ?_⟩
  · ring
  · omega
  · omega
  · omega

theorem br_respects {b : Cost} (hb : 1 ≤ b.g) : Respects CR (BR b) := by
  exact
  { zero := Cost.zero_le _
    add := fun h h' => Cost.le_trans (sum_mono h h') (add_after _ _ _)
    sub := fun h h' => Cost.le_trans (sum_mono h h') (add_after _ _ _)
    neg := fun h => h
    cmul := fun h h' => Cost.le_trans (prod_mono h h') (mul_after _ _ _ hb)
    mulc := fun {c c' a a'} h h' => by
      rw [mul_comm_cost a c, mul_comm_cost a' c']
      exact Cost.le_trans (prod_mono h' h) (mul_after _ _ _ hb)
    zeroC := Cost.le_refl _
    addC := fun h h' => sum_mono h h'
    subC := fun h h' => sum_mono h h'
    negC := fun h => h
    mulC := fun h h' => prod_mono h h'
    inv := fun _ _ _ => ⟨Cost.le_refl _, Cost.le_refl _⟩
    fwd := fun _ _ _ => ⟨Cost.le_refl _, Cost.le_refl _⟩
    sqrtHalf := Cost.le_refl _
    half := Cost.le_refl _
    norm := fun _ _ => Cost.le_refl _ }

/-! ## Lists -/

/-- All costs are at most `b`. -/
def Below (b : Cost) (l : List Cost) : Prop := ∀ q ∈ l, q ≤ b

theorem Below.nth {b : Cost} {l : List Cost} (h : Below b l) (k : ℕ) : nth l k ≤ b := by
  rw [RustDHT.nth]
  rcases Nat.lt_or_ge k l.length with hk | hk
  · rw [List.getElem?_eq_getElem hk]
    exact h _ (List.getElem_mem _)
  · rw [List.getElem?_eq_none hk]
    exact Cost.zero_le _

theorem Below.of_nth {b : Cost} {l : List Cost} (h : ∀ k < l.length, RustDHT.nth l k ≤ b) : Below b l := by
  intro q hq
  obtain ⟨k, hk, rfl⟩ := List.getElem_of_mem hq
  have := h k hk
  rwa [RustDHT.nth, List.getElem?_eq_getElem hk] at this

theorem Below.tab {b : Cost} {n : ℕ} {f : ℕ → Cost} (h : ∀ k < n, f k ≤ b) : Below b (tab n f) :=
  .of_nth fun k hk => by
    have hk : k < n := by simpa using hk
    rw [nth_tab hk]; exact h k hk

theorem Below.mono {b b' : Cost} {l : List Cost} (h : Below b l) (hb : b ≤ b') : Below b' l :=
  fun q hq => Cost.le_trans (h q hq) hb

theorem Below.lr {b : Cost} {l : List Cost} (h : Below b l) : LR (BR b) (List.replicate l.length input) l := by
  induction l with
  | nil => exact .nil
  | cons a l ih =>
    refine .cons ?_ (ih fun q hq => h q (by simp [hq]))
    rw [BR, input_after]
    exact h a (by simp)

theorem below_of_lr {a b : Cost} {l l' : List Cost} (h : LR (BR b) l l') (ha : Below a l) : Below (a.after b) l' := by
  induction h with
  | nil => intro q hq; cases hq
  | cons h _ ih =>
    intro q hq
    rcases List.mem_cons.1 hq with rfl | hq
    · exact Cost.le_trans h (after_mono (ha _ (by simp)) (Cost.le_refl _))
    · exact ih (fun q hq => ha q (by simp [hq])) q hq

/-- The step `f` on `n` numbers has cost `a`. -/
def Grow (n : ℕ) (f : List Cost → List Cost) (a : Cost) : Prop :=
  ∀ b x, 1 ≤ b.g → x.length = n → Below b x → Below (a.after b) (f x)

theorem Grow.mapChunks {n : ℕ} {f : List Cost → List Cost} {a : Cost} (h : Grow n f a) (ha : 1 ≤ a.g) {b : Cost} (hb : 1 ≤ b.g)
    {x : List Cost} (hx : Below b x) : Below (a.after b) (mapChunks n f x) := by
  rcases Nat.eq_zero_or_pos n with rfl | hn
  · rw [mapChunks_zero]; exact hx.mono (le_after ha)
  induction x using chunk_induction hn with
  | hlt l hl => rw [mapChunks_of_lt hl]; exact hx.mono (le_after ha)
  | hge l hl ih =>
    rw [mapChunks_of_ge hn hl]
    intro q hq
    rcases List.mem_append.1 hq with hq | hq
    · exact h b _ hb (by simp; omega) (fun q hq => hx q (List.mem_of_mem_take hq)) q hq
    · exact ih (fun q hq => hx q (List.mem_of_mem_drop hq)) q hq

theorem Grow.mono {n : ℕ} {f : List Cost → List Cost} {a a' : Cost} (h : Grow n f a) (ha : a ≤ a') : Grow n f a' :=
  fun b x hb hx hl => (h b x hb hx hl).mono (after_mono ha (Cost.le_refl _))

theorem Grow.congr {n : ℕ} {f g : List Cost → List Cost} {a : Cost} (h : Grow n f a) (he : ∀ x, x.length = n → g x = f x) :
    Grow n g a := fun b x hb hx hl => by rw [he x hx]; exact h b x hb hx hl

/-! ## Butterflies and column steps -/

theorem run_lr {f f' : List Cost → Res (List Cost)} {R : Cost → Cost → Prop} {l l' : List Cost}
    (h : ResRel (LR R) (f l) (f' l')) (hl : LR R l l') : LR R (run f l) (run f' l') := by
  unfold run
  generalize f l = r at h
  generalize f' l' = r' at h
  cases h with
  | ok h => exact h
  | error e => exact hl

theorem bfly_grow {n : ℕ} {c : RawIO Cost → Res (RawIO Cost)} {a : Cost}
    (h : ∀ b : Cost, 1 ≤ b.g → ∀ m m', RawRel (BR b) m m' → ResRel (RawRel (BR b)) (c m) (c m'))
    (ha : Below a (bflyFn c (List.replicate n input))) : Grow n (bflyFn c) a := by
  intro b x hb hx hl
  have hlr := hl.lr
  rw [hx] at hlr
  exact below_of_lr (run_lr (performInPlace_rel (h b hb) hlr) hlr) ha

/-- Bounds of the column step. -/
theorem columns_grow {k h : ℕ} {c : RawIO Cost → Res (RawIO Cost)}
    {kernel : List (Cx Cost) → List Cost → List Cost → Res (List Cost × List Cost)} {tws : ℕ → List (Cx Cost)}
    {tw : List (Cx Cost)} {a : Cost}
    (hc : Grow k (bflyFn c) a) (h0 : Total k (performInPlace c))
    (hk : ∀ c, KernelTotal k kernel (tws c)) (htw : ∀ c, tws c = tw)
    (hr : ∀ b : Cost, 1 ≤ b.g → KernelRel CR (BR b) kernel kernel)
    (ha : Below a (runK kernel tw (List.replicate k input) (List.replicate k input)).1 ∧
      Below a (runK kernel tw (List.replicate k input) (List.replicate k input)).2) (hh : 0 < h) :
    Grow (k * h) (run (applyColumns k h (performInPlace c) kernel ((List.range' 1 (h / 2)).map tws))) a := by
  intro b x hb hx hl
  have hcol : ∀ c, Below b (col k h x c) := fun c => Below.tab fun r _ => hl.nth _
  have htwr : LR (CxRel CR) tw tw := by
    clear ha htw
    induction tw with
    | nil => exact .nil
    | cons t tw ih => exact .cons ⟨Cost.le_refl _, Cost.le_refl _⟩ ih
  have htot : ∀ tw' ∈ (List.range' 1 (h / 2)).map tws, KernelTotal k kernel tw' := by
    intro tw' ht
    obtain ⟨c, _, rfl⟩ := List.mem_map.1 ht
    exact hk c
  have hkt : KernelTotal k kernel tw := htw 0 ▸ hk 0
  have hrun : ∀ c c', Below (a.after b) (runK kernel tw (col k h x c) (col k h x c')).1 ∧
      Below (a.after b) (runK kernel tw (col k h x c) (col k h x c')).2 := by
    intro c c'
    have l1 := (hcol c).lr
    have l2 := (hcol c').lr
    rw [length_col] at l1 l2
    have r := hr b hb tw tw _ _ _ _ htwr l1 l2
    rw [(hkt.eq (by simp) (by simp)).1, (hkt.eq (by simp) (by simp)).1] at r
    obtain ⟨y, ey, r1, r2⟩ := r.ok_left
    cases ey
    exact ⟨below_of_lr r1 ha.1, below_of_lr r2 ha.2⟩
  have htot' := applyColumns_total (k := k) (col0 := performInPlace c) hh h0 (by simp) htot
  refine .of_nth fun p hp => ?_
  rw [htot'.length hx] at hp
  rw [nth_run_applyColumns hh h0 (by simp) htot hx hp, columnVal]
  have hmod := Nat.mod_lt p hh
  have htwc : ∀ j < h / 2, (((List.range' 1 (h / 2)).map tws)[j]?).getD [] = tw := by
    intro j hj
    rw [List.getElem?_eq_getElem (by simpa using hj)]
    simp [htw]
  split
  · exact (hc b _ hb (by simp) (hcol 0)).nth _
  · split
    · rw [htwc _ (by omega)]; exact (hrun _ _).1.nth _
    · rw [htwc _ (by omega)]; exact (hrun _ _).2.nth _

theorem mrn_grow {k h : ℕ} {f : List Cost → List Cost} {ap : List Cost → Res (List Cost)} {a a' : Cost} (hf : Grow h f a)
    (hh : 0 < h) (ha : 1 ≤ a.g) (hlen : ∀ x, x.length = h → (f x).length = h) (hap : Grow (k * h) (run ap) a') :
    Grow (k * h) (mrnFn k h f ap) (a'.after a) := by
  intro b x hb hx hl
  rw [after_assoc]
  refine hap _ _ (after_pos ha hb) ?_ (hf.mapChunks ha hb (Below.tab fun p _ => hl.nth _))
  rw [length_mapChunks hh hlen]; simp

/-- Table constants. -/
def twP : Cx Cost := ⟨⟨1, 0, 0, 1, 0⟩, ⟨1, 0, 0, 1, 0⟩⟩
/-- Table constants times `sqrt(1/2)`. -/
def twQ : Cx Cost := ⟨⟨1, 1, 2, 1, 1⟩, ⟨1, 1, 2, 1, 1⟩⟩

theorem b2_grow : Grow 2 (bflyFn contiguous2) ⟨2, 0, 1, 0, 0⟩ :=
  bfly_grow (fun _ hb _ _ hm => contiguous2_rel (br_respects hb) hm) (by unfold Below; decide)
theorem b3_grow : Grow 3 (bflyFn contiguous3) ⟨5, 2, 5, 1, 0⟩ :=
  bfly_grow (fun _ hb _ _ hm => contiguous3_rel (br_respects hb) hm) (by unfold Below; decide)
theorem b4_grow : Grow 4 (bflyFn contiguous4) ⟨4, 0, 2, 0, 0⟩ :=
  bfly_grow (fun _ hb _ _ hm => contiguous4_rel (br_respects hb) hm) (by unfold Below; decide)
theorem b5_grow : Grow 5 (bflyFn contiguous5) ⟨9, 4, 6, 1, 0⟩ :=
  bfly_grow (fun _ hb _ _ hm => contiguous5_rel (br_respects hb) hm) (by unfold Below; decide)
theorem b6_grow : Grow 6 (bflyFn contiguous6) ⟨15, 8, 9, 2, 0⟩ :=
  bfly_grow (fun _ hb _ _ hm => contiguous6_rel (br_respects hb) hm) (by unfold Below; decide)
theorem b8_grow : Grow 8 (bflyFn contiguous8) ⟨8, 1, 5, 1, 0⟩ :=
  bfly_grow (fun _ hb _ _ hm => contiguous8_rel (br_respects hb) hm) (by unfold Below; decide)
theorem b9_grow : Grow 9 (bflyFn contiguous9) ⟨54, 9, 9, 1, 0⟩ :=
  bfly_grow (fun _ hb _ _ hm => contiguous9_rel (br_respects hb) hm) (by unfold Below; decide)
theorem b16_grow : Grow 16 (bflyFn contiguous16) ⟨24, 5, 7, 1, 0⟩ :=
  bfly_grow (fun _ hb _ _ hm => contiguous16_rel (br_respects hb) hm) (by unfold Below; decide +kernel)

theorem mr2_grow {h : ℕ} (hh : 0 < h) : Grow (2 * h) (run (mr2Apply Cost h)) ⟨3, 2, 4, 1, 0⟩ :=
  columns_grow (tw := [twP]) (b2_grow.mono (by decide)) (total_of_performs performs2) (fun _ => mr2Kernel_total _) (fun _ => rfl)
    (fun _ hb => mr2Kernel_rel (br_respects hb)) (by unfold Below; decide) hh
theorem mr3_grow {h : ℕ} (hh : 0 < h) : Grow (3 * h) (run (mr3Apply Cost h)) ⟨17, 26, 11, 2, 1⟩ :=
  columns_grow (tw := [twQ]) (b3_grow.mono (by decide)) (total_of_performs performs3) (fun _ => mr3Kernel_total _) (fun _ => rfl)
    (fun _ hb => mr3Kernel_rel (br_respects hb)) (by unfold Below; decide) hh
theorem mr4_grow {h : ℕ} (hh : 0 < h) : Grow (4 * h) (run (mr4Apply Cost h)) ⟨7, 4, 5, 1, 0⟩ :=
  columns_grow (tw := [twP, twP]) (b4_grow.mono (by decide)) (total_of_performs performs4) (fun _ => mr4Kernel_total _ _)
    (fun _ => rfl) (fun _ hb => mr4Kernel_rel (br_respects hb)) (by unfold Below; decide) hh
theorem mr5_grow {h : ℕ} (hh : 0 < h) : Grow (5 * h) (run (mr5Apply Cost h)) ⟨33, 52, 12, 2, 1⟩ :=
  columns_grow (tw := [twQ, twQ]) (b5_grow.mono (by decide)) (total_of_performs performs5) (fun _ => mr5Kernel_total _ _)
    (fun _ => rfl) (fun _ hb => mr5Kernel_rel (br_respects hb)) (by unfold Below; decide) hh
theorem mr6_grow {h : ℕ} (hh : 0 < h) : Grow (6 * h) (run (mr6Apply Cost h)) ⟨57, 92, 15, 3, 1⟩ :=
  columns_grow (tw := [twQ, twQ, twQ]) (b6_grow.mono (by decide)) (total_of_performs performs6) (fun _ => mr6Kernel_total _ _ _)
    (fun _ => rfl) (fun _ hb => mr6Kernel_rel (br_respects hb)) (by unfold Below; decide) hh
theorem r4_grow {h t : ℕ} (hh : 0 < h) : Grow (4 * h) (run (r4Apply Cost h t)) ⟨7, 4, 5, 1, 0⟩ :=
  columns_grow (tw := [twP, twP]) (b4_grow.mono (by decide)) (total_of_performs performs4) (fun _ => mr4Kernel_total _ _)
    (fun _ => rfl) (fun _ hb => mr4Kernel_rel (br_respects hb)) (by unfold Below; decide) hh

end RustDHT
