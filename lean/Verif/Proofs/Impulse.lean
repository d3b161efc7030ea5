import Verif.Spec.Impulse
import Verif.Proofs.Plan
import Verif.Proofs.ParamAlg
import Verif.Proofs.ColumnStage
import Verif.Proofs.Radix4Perm

/-! # Impulses -/

set_option linter.unusedSectionVars false

namespace RustDHT

/-! ## What is known of a number -/

/-- Zero, the value of the impulse, or anything. -/
inductive Lvl
  | zero
  | one
  | any
  deriving DecidableEq

namespace Lvl

instance : Zero Lvl := ⟨zero⟩
instance : Add Lvl := ⟨fun
  | zero, b => b
  | one, zero => one
  | _, _ => any⟩
instance : Sub Lvl := ⟨fun
  | zero, zero => zero
  | one, zero => one
  | _, _ => any⟩
instance : Neg Lvl := ⟨fun
  | zero => zero
  | _ => any⟩
instance : Mul Lvl := ⟨fun
  | zero, _ => zero
  | one, zero => zero
  | any, zero => zero
  | _, _ => any⟩
instance : FftNum Lvl where
  F64 := Unit
  f64 := ⟨fun _ => (), (), fun _ => (), fun _ _ => (), fun _ _ => (), fun _ => (), fun _ => ()⟩
  fromF64 _ := any
  sqrtHalfF32 := any
  halfF32 := any

end Lvl

variable {T : Type} [Zero T] [Add T] [Sub T] [Mul T] [Neg T] [FftNum T] {Z A : T → Prop}

theorem Absorbs.zeros (h : Absorbs Z A) : Absorbs Z Z :=
  ⟨h.zero, h.add, h.sub, h.neg, h.mul_left, h.mul_right, h.add, h.add, h.sub, fun _ _ a => h.mul_left _ a⟩

/-- What is known holds. -/
def LvlR (Z A : T → Prop) : Lvl → T → Prop
  | .zero, t => Z t
  | .one, t => A t
  | .any, _ => True

theorem lvl_respects (h : Absorbs Z A) : Respects (LvlR Z A) (LvlR Z A) := by
  have add : ∀ {a b : Lvl} {a' b' : T}, LvlR Z A a a' → LvlR Z A b b' → LvlR Z A (a + b) (a' + b') := by
    rintro (_ | _ | _) (_ | _ | _) a' b' ha hb
    exacts [h.add _ _ ha hb, h.zero_add _ _ ha hb, trivial, h.add_zero _ _ ha hb, trivial, trivial, trivial, trivial, trivial]
  have sub : ∀ {a b : Lvl} {a' b' : T}, LvlR Z A a a' → LvlR Z A b b' → LvlR Z A (a - b) (a' - b') := by
    rintro (_ | _ | _) (_ | _ | _) a' b' ha hb
    exacts [h.sub _ _ ha hb, trivial, trivial, h.sub_zero _ _ ha hb, trivial, trivial, trivial, trivial, trivial]
  have neg : ∀ {a : Lvl} {a' : T}, LvlR Z A a a' → LvlR Z A (-a) (-a') := by
    rintro (_ | _ | _) a' ha
    exacts [h.neg _ ha, trivial, trivial]
  have mul : ∀ {a b : Lvl} {a' b' : T}, LvlR Z A a a' → LvlR Z A b b' → LvlR Z A (a * b) (a' * b') := by
    rintro (_ | _ | _) (_ | _ | _) a' b' ha hb
    exacts [h.mul_right _ _ ha, h.mul_right _ _ ha, h.mul_right _ _ ha, h.mul_left _ _ hb, trivial, trivial, h.mul_left _ _ hb,
      trivial, trivial]
  have neg' : ∀ {a a' : Lvl} {b : T}, a = .any → LvlR Z A a b := by rintro _ _ b rfl; trivial
  refine ⟨h.zero, add, sub, neg, mul, mul, h.zero, add, sub, neg, mul, fun i n _ => ⟨trivial, trivial⟩,
    fun i n _ => ⟨trivial, ?_⟩, trivial, trivial, fun _ _ => trivial⟩
  trivial

/-! ## Flat answers -/

/-- The answer to an impulse is flat. -/
def Flat (Z : T → Prop) (n : ℕ) (f : List T → List T) : Prop :=
  ∀ A, Absorbs Z A → ∀ x, x.length = n → A (nth x 0) → (∀ i, 0 < i → Z (nth x i)) → ∀ k < n, A (nth (f x) k)

/-- A list that begins with an impulse. -/
theorem lvl_impulse {n : ℕ} {x : List T} (hx : x.length = n + 1) (h0 : A (nth x 0)) (h1 : ∀ i, 0 < i → Z (nth x i)) :
    LR (LvlR Z A) (.one :: List.replicate n .zero) x := by
  obtain ⟨a, y, rfl⟩ : ∃ a y, x = a :: y := by
    cases x with
    | nil => simp at hx
    | cons a y => exact ⟨a, y, rfl⟩
  refine .cons h0 ?_
  have hy : y.length = n := by simpa using hx
  have h2 : ∀ b ∈ y, Z b := by
    intro b hb
    obtain ⟨i, hi, rfl⟩ := List.getElem_of_mem hb
    have := h1 (i + 1) (by omega)
    rwa [nth_eq_getElem (by simpa using hi)] at this
  clear h1 hx h0
  induction y generalizing n with
  | nil => subst hy; exact .nil
  | cons b y ih =>
    subst hy
    exact .cons (h2 b (by simp)) (ih rfl fun c hc => h2 c (by simp [hc]))

theorem lvl_flat {n : ℕ} {x : List T} (h : LR (LvlR Z A) (List.replicate n .one) x) : ∀ k < n, A (nth x k) := by
  induction n generalizing x with
  | zero => intro k hk; omega
  | succ n ih =>
    rw [List.replicate_succ] at h
    cases h with
    | cons ha h =>
      intro k hk
      cases k with
      | zero => exact ha
      | succ k => exact ih h k (by omega)

theorem bfly_flat {n : ℕ} {c : RawIO Lvl → Res (RawIO Lvl)} {c' : RawIO T → Res (RawIO T)}
    (h : ∀ A, Absorbs Z A → ∀ m m', RawRel (LvlR Z A) m m' → ResRel (RawRel (LvlR Z A)) (c m) (c' m'))
    (e : bflyFn c (.one :: List.replicate n .zero) = List.replicate (n + 1) .one) : Flat Z (n + 1) (bflyFn c') := by
  intro A hA x hx h0 h1
  have hl := lvl_impulse hx h0 h1
  have : LR (LvlR Z A) (bflyFn c _) (bflyFn c' x) := run_rel (performInPlace_rel (h A hA) hl) hl
  rw [e] at this
  exact lvl_flat this

theorem b1_flat : Flat Z 1 (id : List T → List T) := by
  intro A _ x _ h0 _ k hk
  obtain rfl : k = 0 := by omega
  exact h0
theorem b2_flat : Flat Z 2 (bflyFn contiguous2 : List T → List T) :=
  bfly_flat (fun _ h _ _ hm => contiguous2_rel (lvl_respects h) hm) (by decide)
theorem b3_flat : Flat Z 3 (bflyFn contiguous3 : List T → List T) :=
  bfly_flat (fun _ h _ _ hm => contiguous3_rel (lvl_respects h) hm) (by decide)
theorem b4_flat : Flat Z 4 (bflyFn contiguous4 : List T → List T) :=
  bfly_flat (fun _ h _ _ hm => contiguous4_rel (lvl_respects h) hm) (by decide)
theorem b5_flat : Flat Z 5 (bflyFn contiguous5 : List T → List T) :=
  bfly_flat (fun _ h _ _ hm => contiguous5_rel (lvl_respects h) hm) (by decide)
theorem b6_flat : Flat Z 6 (bflyFn contiguous6 : List T → List T) :=
  bfly_flat (fun _ h _ _ hm => contiguous6_rel (lvl_respects h) hm) (by decide)
theorem b8_flat : Flat Z 8 (bflyFn contiguous8 : List T → List T) :=
  bfly_flat (fun _ h _ _ hm => contiguous8_rel (lvl_respects h) hm) (by decide)
theorem b9_flat : Flat Z 9 (bflyFn contiguous9 : List T → List T) :=
  bfly_flat (fun _ h _ _ hm => contiguous9_rel (lvl_respects h) hm) (by decide)
theorem b16_flat : Flat Z 16 (bflyFn contiguous16 : List T → List T) :=
  bfly_flat (fun _ h _ _ hm => contiguous16_rel (lvl_respects h) hm) (by decide)

theorem naive_flat {n : ℕ} (hn : 0 < n) : Flat Z n (naiveFn T n) := by
  intro A hA x hx h0 h1 k hk
  rw [naiveFn, nth_tab hk, naiveVal, hx]
  have ht : nth (naiveTwiddles T n) 0 = computeDhtTwiddle T 0 n := by
    rw [show naiveTwiddles T n = tab n fun i => computeDhtTwiddle T i n from rfl, nth_tab hn]
  have key : ∀ m, A ((List.range (m + 1)).foldl
      (fun acc i => acc + nth (naiveTwiddles T n) (i * k % (naiveTwiddles T n).length) * nth x i) 0) := by
    intro m
    induction m with
    | zero =>
      simp only [List.range_succ, List.range_zero, List.nil_append, List.foldl_cons, List.foldl_nil, Nat.zero_mul, Nat.zero_mod, ht]
      exact hA.zero_add _ _ hA.zero (hA.one n hn _ h0)
    | succ m ih =>
      rw [List.range_succ, List.foldl_append]
      exact hA.add_zero _ _ ih (hA.mul_left _ _ (h1 _ (by omega)))
  have := key (n - 1)
  rwa [Nat.sub_add_cancel hn] at this

/-! ## Columns -/

/-- The kernel answers impulses in both columns flatly. -/
def KernelFlat (Z : T → Prop) (k : ℕ) (kernel : List (Cx T) → List T → List T → Res (List T × List T)) (tw : List (Cx T)) : Prop :=
  ∀ A, Absorbs Z A → ∀ x y, x.length = k → y.length = k → A (nth x 0) → (∀ i, 0 < i → Z (nth x i)) →
    A (nth y 0) → (∀ i, 0 < i → Z (nth y i)) → ∀ r < k, A (nth (runK kernel tw x y).1 r) ∧ A (nth (runK kernel tw x y).2 r)

theorem kernel_flat {n : ℕ} (m : ℕ) {kn : List (Cx Lvl) → List Lvl → List Lvl → Res (List Lvl × List Lvl)}
    {kernel : List (Cx T) → List T → List T → Res (List T × List T)} {tw : List (Cx T)}
    (hm : tw.length = m) (h : ∀ A, Absorbs Z A → KernelRel (LvlR Z A) (LvlR Z A) kn kernel)
    (e : kn (List.replicate m ⟨.any, .any⟩) (.one :: List.replicate n .zero) (.one :: List.replicate n .zero)
      = .ok (List.replicate (n + 1) .one, List.replicate (n + 1) .one)) : KernelFlat Z (n + 1) kernel tw := by
  subst hm
  intro A hA x y hx hy hx0 hx1 hy0 hy1 r hr
  have ht : ∀ l : List (Cx T), LR (CxRel (LvlR Z A)) (List.replicate l.length ⟨.any, .any⟩) l := by
    intro l
    induction l with
    | nil => exact .nil
    | cons t l ih => exact .cons ⟨trivial, trivial⟩ ih
  have := h A hA _ _ _ _ _ _ (ht tw) (lvl_impulse hx hx0 hx1) (lvl_impulse hy hy0 hy1)
  rw [e] at this
  unfold runK
  generalize kernel tw x y = z at this
  cases this with
  | ok hz => exact ⟨lvl_flat hz.1 r hr, lvl_flat hz.2 r hr⟩

theorem mr2Kernel_flat (t : Cx T) : KernelFlat Z 2 mr2Kernel [t] :=
  kernel_flat 1 rfl (fun _ h => mr2Kernel_rel (lvl_respects h)) (by decide)
theorem mr3Kernel_flat (t : Cx T) : KernelFlat Z 3 mr3Kernel [t] :=
  kernel_flat 1 rfl (fun _ h => mr3Kernel_rel (lvl_respects h)) (by decide)
theorem mr4Kernel_flat (t u : Cx T) : KernelFlat Z 4 mr4Kernel [t, u] :=
  kernel_flat 2 rfl (fun _ h => mr4Kernel_rel (lvl_respects h)) (by decide)
theorem mr5Kernel_flat (t u : Cx T) : KernelFlat Z 5 mr5Kernel [t, u] :=
  kernel_flat 2 rfl (fun _ h => mr5Kernel_rel (lvl_respects h)) (by decide)
theorem mr6Kernel_flat (t u v : Cx T) : KernelFlat Z 6 mr6Kernel [t, u, v] :=
  kernel_flat 3 rfl (fun _ h => mr6Kernel_rel (lvl_respects h)) (by decide)

/-- The column step makes everything flat if the first row is. -/
def ColFlat (Z : T → Prop) (k h : ℕ) (f : List T → List T) : Prop :=
  ∀ A, Absorbs Z A → ∀ x, x.length = k * h → (∀ p < h, A (nth x p)) → (∀ p, h ≤ p → Z (nth x p)) → ∀ p < k * h, A (nth (f x) p)

theorem columns_flat {k h : ℕ} {c : RawIO T → Res (RawIO T)}
    {kernel : List (Cx T) → List T → List T → Res (List T × List T)} {tw : List (List (Cx T))} (hk0 : 0 < k) (hh : 0 < h)
    (hc : Flat Z k (bflyFn c)) (h0 : Total k (performInPlace c)) (htw : tw.length = h / 2)
    (hk : ∀ t ∈ tw, KernelTotal k kernel t) (hf : ∀ t ∈ tw, KernelFlat Z k kernel t) :
    ColFlat Z k h (run (applyColumns k h (performInPlace c) kernel tw)) := by
  intro A hA x hx hx0 hx1 p hp
  rw [nth_run_applyColumns hh h0 htw hk hx hp, columnVal]
  have hr : p / h < k := div_lt_of_lt_mul' hp
  have hm := Nat.mod_lt p hh
  have top : ∀ c < h, A (nth (col k h x c) 0) := by
    intro c hc
    rw [col, nth_tab hk0, Nat.zero_mul, Nat.zero_add]
    exact hx0 c hc
  have rest : ∀ c i, 0 < i → Z (nth (col k h x c) i) := by
    intro c i hi
    rcases Nat.lt_or_ge i k with h2 | h2
    · rw [col, nth_tab h2]
      exact hx1 _ (le_trans (Nat.le_mul_of_pos_left _ hi) (Nat.le_add_right _ _))
    · rw [nth_of_ge (by simpa using h2)]
      exact hA.zero
  have htm : ∀ j < h / 2, tw[j]?.getD [] ∈ tw := by
    intro j hj
    rw [List.getElem?_eq_getElem (by omega)]
    simp
  split
  · exact hc A hA _ (by simp) (top 0 hh) (rest 0) _ hr
  · split
    · exact (hf _ (htm _ (by omega)) A hA _ _ (by simp) (by simp) (top _ hm) (rest _) (top _ (by omega)) (rest _) _ hr).1
    · exact (hf _ (htm _ (by omega)) A hA _ _ (by simp) (by simp) (top _ (by omega)) (rest _) (top _ hm) (rest _) _ hr).2

theorem mr2_flat {h : ℕ} (hh : 0 < h) : ColFlat Z 2 h (run (mr2Apply T h)) :=
  columns_flat (by omega) hh b2_flat (total_of_performs performs2) (by simp [mr2Chunks]) (mem_map_range fun _ => mr2Kernel_total _)
    (mem_map_range fun _ => mr2Kernel_flat _)
theorem mr3_flat {h : ℕ} (hh : 0 < h) : ColFlat Z 3 h (run (mr3Apply T h)) :=
  columns_flat (by omega) hh b3_flat (total_of_performs performs3) (by simp [mr3Chunks]) (mem_map_range fun _ => mr3Kernel_total _)
    (mem_map_range fun _ => mr3Kernel_flat _)
theorem mr4_flat {h : ℕ} (hh : 0 < h) : ColFlat Z 4 h (run (mr4Apply T h)) :=
  columns_flat (by omega) hh b4_flat (total_of_performs performs4) (by simp [mr4Chunks]) (mem_map_range fun _ => mr4Kernel_total _ _)
    (mem_map_range fun _ => mr4Kernel_flat _ _)
theorem mr5_flat {h : ℕ} (hh : 0 < h) : ColFlat Z 5 h (run (mr5Apply T h)) :=
  columns_flat (by omega) hh b5_flat (total_of_performs performs5) (by simp [mr5Chunks]) (mem_map_range fun _ => mr5Kernel_total _ _)
    (mem_map_range fun _ => mr5Kernel_flat _ _)
theorem mr6_flat {h : ℕ} (hh : 0 < h) : ColFlat Z 6 h (run (mr6Apply T h)) :=
  columns_flat (by omega) hh b6_flat (total_of_performs performs6) (by simp [mr6Chunks]) (mem_map_range fun _ => mr6Kernel_total _ _ _)
    (mem_map_range fun _ => mr6Kernel_flat _ _ _)
theorem r4Apply_flat {h t : ℕ} (hh : 0 < h) : ColFlat Z 4 h (run (r4Apply T h t)) :=
  columns_flat (by omega) hh b4_flat (total_of_performs performs4) (by simp [r4Chunks]) r4Chunks_total
    (mem_map_range fun _ => mr4Kernel_flat _ _)

/-! ## Chunks -/

theorem chunks_flat {w h : ℕ} (hh : 0 < h) {f : List T → List T} (hf : Flat Z h f) (hl : ∀ x, x.length = h → (f x).length = h)
    (hA : Absorbs Z A) {x : List T} (hx : x.length = w * h) (h0 : A (nth x 0)) (h1 : ∀ i, 0 < i → Z (nth x i)) :
    (∀ p < w * h, p < h → A (nth (mapChunks h f x) p)) ∧ ∀ p, h ≤ p → Z (nth (mapChunks h f x) p) := by
  have key : ∀ p < w * h, nth (mapChunks h f x) p = nth (f ((x.drop (p / h * h)).take h)) (p % h) ∧
      ((x.drop (p / h * h)).take h).length = h := by
    intro p hp
    have hc : (p / h + 1) * h ≤ x.length := by rw [hx]; exact Nat.mul_le_mul_right _ (div_lt_of_lt_mul' hp)
    have := nth_mapChunks hl (l := x) (c := p / h) (i := p % h) (Nat.mod_lt _ hh) hc
    rw [Nat.div_add_mod'] at this
    refine ⟨this, ?_⟩
    rw [Nat.add_mul] at hc
    rw [List.length_take, List.length_drop]; omega
  have entry : ∀ p i, i < h → nth ((x.drop (p / h * h)).take h) i = nth x (p / h * h + i) := by
    intro p i hi
    rw [nth_take hi, nth_drop]
  refine ⟨fun p hp hph => ?_, fun p hp => ?_⟩
  · obtain ⟨e, hlen⟩ := key p hp
    rw [e]
    refine hf A hA _ hlen ?_ (fun i hi => ?_) _ (Nat.mod_lt _ hh)
    · rw [entry p 0 hh, Nat.div_eq_of_lt hph]
      simpa using h0
    · rcases Nat.lt_or_ge i h with h2 | h2
      · rw [entry p i h2]; exact h1 _ (by omega)
      · rw [nth_of_ge (by omega)]; exact hA.zero
  · rcases Nat.lt_or_ge p (w * h) with h2 | h2
    · obtain ⟨e, hlen⟩ := key p h2
      have hpos : 0 < p / h * h := Nat.mul_pos (Nat.div_pos hp hh) hh
      rw [e]
      refine hf Z hA.zeros _ hlen ?_ (fun i hi => ?_) _ (Nat.mod_lt _ hh)
      · rw [entry p 0 hh]; exact h1 _ (by omega)
      · rcases Nat.lt_or_ge i h with h2 | h2
        · rw [entry p i h2]; exact h1 _ (by omega)
        · rw [nth_of_ge (by omega)]; exact hA.zero
    · rw [nth_of_ge (by rw [length_mapChunks hh hl, hx]; omega)]
      exact hA.zero

/-! ## Algorithms -/

theorem step1_flat (hA : Absorbs Z A) {k h : ℕ} (hk : 0 < k) (hh : 0 < h) {x : List T} (h0 : A (nth x 0)) (h1 : ∀ i, 0 < i → Z (nth x i)) :
    A (nth (tab (k * h) fun p => nth x (revRow k h (p / h) (p % h) * k + p / h)) 0) ∧
      ∀ p, 0 < p → Z (nth (tab (k * h) fun p => nth x (revRow k h (p / h) (p % h) * k + p / h)) p) := by
  refine ⟨?_, fun p hp => ?_⟩
  · rw [nth_tab (Nat.mul_pos hk hh), Nat.zero_div, Nat.zero_mod, revRow, if_pos (by omega), Nat.zero_mul]
    exact h0
  · rcases Nat.lt_or_ge p (k * h) with h2 | h2
    · rw [nth_tab h2]
      refine h1 _ ?_
      by_cases hd : p / h = 0
      · have : p % h = p := Nat.mod_eq_of_lt (by
          rcases Nat.div_eq_zero_iff.1 hd with h | h <;> omega)
        rw [hd, this, revRow, if_pos (by omega), Nat.add_zero]
        exact Nat.mul_pos hp hk
      · exact Nat.add_pos_right _ (Nat.pos_of_ne_zero hd)
    · rw [nth_of_ge (by simpa using h2)]
      exact hA.zero

theorem mrn_flat {k h : ℕ} (hk : 0 < k) (hh : 0 < h) {f : List T → List T} (hf : Flat Z h f)
    (hl : ∀ x, x.length = h → (f x).length = h) {ap : List T → Res (List T)} (ha : ColFlat Z k h (run ap)) :
    Flat Z (k * h) (mrnFn k h f ap) := by
  intro A hA x hx h0 h1
  rw [mrnFn]
  obtain ⟨g0, g1⟩ := step1_flat hA hk hh h0 h1
  obtain ⟨c0, c1⟩ := chunks_flat (w := k) hh hf hl hA (by simp) g0 g1
  exact ha A hA _ (by rw [length_mapChunks hh hl]; simp)
    (fun p hp => c0 p (lt_of_lt_of_le hp (Nat.le_mul_of_pos_left _ hk)) hp) c1

theorem mrVal_flat (hA : Absorbs Z A) {w h : ℕ} {b : List T} (h0 : ∀ p < h, A (nth b p)) (h1 : ∀ p, h ≤ p → Z (nth b p))
    {r c : ℕ} (hr : r < w) (hc : c < h) : (r = 0 → A (mrVal w h b r c)) ∧ (0 < r → Z (mrVal w h b r c)) := by
  refine ⟨?_, fun hr0 => ?_⟩
  · rintro rfl
    rw [mrVal, if_pos (Or.inl rfl)]
    simp only [Nat.zero_mul, Nat.zero_add]
    exact h0 c hc
  · have z : ∀ r' c', 0 < r' → Z (nth b (r' * h + c')) := fun r' c' h' =>
      h1 _ (le_trans (Nat.le_mul_of_pos_left _ h') (Nat.le_add_right _ _))
    have z1 := fun c' => z r c' hr0
    have z2 := fun c' => z (w - r) c' (by omega)
    have z3 := fun c' => z (w - (w - r)) c' (by omega)
    unfold mrVal
    simp only
    split_ifs
    · exact z1 _
    · exact hA.sub _ _ (hA.mul_left _ _ (hA.add _ _ (z1 _) (z2 _))) (hA.mul_left _ _ (hA.sub _ _ (z2 _) (z1 _)))
    · exact hA.sub _ _ (hA.mul_left _ _ (hA.add _ _ (z2 _) (z1 _))) (hA.mul_left _ _ (hA.sub _ _ (z1 _) (z2 _)))
    · exact hA.add _ _ (hA.mul_left _ _ (hA.sub _ _ (z3 _) (z2 _))) (hA.mul_left _ _ (hA.add _ _ (z2 _) (z3 _)))
    · exact hA.add _ _ (hA.mul_left _ _ (hA.sub _ _ (z2 _) (z3 _))) (hA.mul_left _ _ (hA.add _ _ (z3 _) (z2 _)))
    · exact hA.add _ _ (hA.mul_left _ _ (hA.sub _ _ (z1 _) (z1 _))) (hA.mul_left _ _ (hA.add _ _ (z1 _) (z1 _)))
    · exact hA.sub _ _ (hA.mul_left _ _ (hA.add _ _ (z1 _) (z1 _))) (hA.mul_left _ _ (hA.sub _ _ (z1 _) (z1 _)))

theorem mr_flat {w h : ℕ} (hw : 0 < w) (hh : 0 < h) {fw fh : List T → List T} (gw : Flat Z w fw)
    (lw : ∀ x, x.length = w → (fw x).length = w) (gh : Flat Z h fh) (lh : ∀ x, x.length = h → (fh x).length = h) :
    Flat Z (w * h) (mrFn w h fw fh) := by
  intro A hA x hx h0 h1 k hk
  obtain ⟨g0, g1⟩ := step1_flat hA hw hh h0 h1
  obtain ⟨c0, c1⟩ := chunks_flat (w := w) hh gh lh hA (by simp) g0 g1
  have c0' := fun p (hp : p < h) => c0 p (lt_of_lt_of_le hp (Nat.le_mul_of_pos_left _ hw)) hp
  simp only [mrFn, mrStep1]
  generalize mapChunks h fh (tab (w * h) fun p => nth x (revRow w h (p / h) (p % h) * w + p / h)) = b at c0' c1
  have hkr := div_lt_of_lt_mul' hk
  have hkm := mod_lt_of_lt_mul hk
  have hp7 : k % h * w + k / h < h * w := pos_lt hkm hkr
  rw [nth_tab hk, nth_tab hp7]
  have e1 : (k % h * w + k / h) / w = k % h := by rw [Nat.mul_comm, Nat.mul_add_div hw, Nat.div_eq_of_lt hkr, Nat.add_zero]
  rw [e1]
  generalize hj : (if k % h < (h + 1) / 2 then (k % h * w + k / h) % w else w - 1 - (k % h * w + k / h) % w) = j
  have hjw : j < w := by
    have := Nat.mod_lt (k % h * w + k / h) hw
    rw [← hj]; split <;> omega
  generalize ha5 : (tab (h * w) fun p => nth (tab (w * h) fun p => mrVal w h b (p / h) (p % h)) (p % w * h + p / w)) = a5
  have hl5 : a5.length = h * w := by rw [← ha5]; simp
  have hc : (k % h + 1) * w ≤ a5.length := by rw [hl5]; exact Nat.mul_le_mul_right _ hkm
  rw [nth_mapChunks lw hjw hc]
  have hlen : ((a5.drop (k % h * w)).take w).length = w := by
    rw [Nat.add_mul] at hc
    rw [List.length_take, List.length_drop]; omega
  have entry : ∀ i < w, nth ((a5.drop (k % h * w)).take w) i = mrVal w h b i (k % h) := by
    intro i hi
    rw [nth_take hi, nth_drop, ← ha5, nth_tab (pos_lt hkm hi)]
    have e2 : (k % h * w + i) % w = i := by rw [Nat.mul_comm, Nat.mul_add_mod, Nat.mod_eq_of_lt hi]
    have e3 : (k % h * w + i) / w = k % h := by rw [Nat.mul_comm, Nat.mul_add_div hw, Nat.div_eq_of_lt hi, Nat.add_zero]
    rw [e2, e3, nth_tab (pos_lt hi hkm)]
    have e4 : (i * h + k % h) % h = k % h := by rw [Nat.mul_comm, Nat.mul_add_mod, Nat.mod_eq_of_lt hkm]
    have e5 : (i * h + k % h) / h = i := by rw [Nat.mul_comm, Nat.mul_add_div hh, Nat.div_eq_of_lt hkm, Nat.add_zero]
    rw [e4, e5]
  refine gw A hA _ hlen ?_ (fun i hi => ?_) _ hjw
  · rw [entry 0 hw]
    exact (mrVal_flat hA c0' c1 hw hkm).1 rfl
  · rcases Nat.lt_or_ge i w with h2 | h2
    · rw [entry i h2]
      exact (mrVal_flat hA c0' c1 h2 hkm).2 hi
    · rw [nth_of_ge (by omega)]
      exact hA.zero

theorem layers_flat (l : ℕ) : ∀ {h : ℕ}, 0 < h → ColFlat Z (4 ^ l) h (r4Layers T h l) := by
  induction l with
  | zero =>
    intro h hh A hA x hx h0 h1 p hp
    exact h0 p (by simpa using hp)
  | succ l ih =>
    intro h hh A hA x hx h0 h1 p hp
    have hl : ∀ y : List T, y.length = 4 * h → (run (r4Apply T h (4 ^ l)) y).length = 4 * h :=
      fun y hy => (r4Apply_total hh).length hy
    have hx' : x.length = 4 ^ l * (4 * h) := by rw [hx, pow_succ]; ring
    have key : ∀ p < 4 ^ l * (4 * h), nth (mapChunks (4 * h) (run (r4Apply T h (4 ^ l))) x) p
        = nth (run (r4Apply T h (4 ^ l)) ((x.drop (p / (4 * h) * (4 * h))).take (4 * h))) (p % (4 * h)) ∧
        ((x.drop (p / (4 * h) * (4 * h))).take (4 * h)).length = 4 * h := by
      intro p hp
      have hc : (p / (4 * h) + 1) * (4 * h) ≤ x.length := by rw [hx']; exact Nat.mul_le_mul_right _ (div_lt_of_lt_mul' hp)
      have := nth_mapChunks hl (l := x) (c := p / (4 * h)) (i := p % (4 * h)) (Nat.mod_lt _ (by omega)) hc
      rw [Nat.div_add_mod'] at this
      refine ⟨this, ?_⟩
      rw [Nat.add_mul] at hc
      rw [List.length_take, List.length_drop]; omega
    have entry : ∀ p i, i < 4 * h → nth ((x.drop (p / (4 * h) * (4 * h))).take (4 * h)) i = nth x (p / (4 * h) * (4 * h) + i) := by
      intro p i hi
      rw [nth_take hi, nth_drop]
    refine ih (h := 4 * h) (by omega) A hA _ (by rw [length_mapChunks (by omega) hl, hx']) (fun q hq => ?_) (fun q hq => ?_) p (by
      rw [pow_succ] at hp; rw [← Nat.mul_assoc]; exact hp)
    · obtain ⟨e, hlen⟩ := key q (lt_of_lt_of_le hq (Nat.le_mul_of_pos_left _ (by positivity)))
      rw [e]
      have hd : q / (4 * h) = 0 := Nat.div_eq_of_lt hq
      refine r4Apply_flat hh A hA _ hlen (fun i hi => ?_) (fun i hi => ?_) _ (Nat.mod_lt _ (by omega))
      · rw [entry q i (by omega), hd, Nat.zero_mul, Nat.zero_add]; exact h0 i hi
      · rcases Nat.lt_or_ge i (4 * h) with h2 | h2
        · rw [entry q i h2]; exact h1 _ (by omega)
        · rw [nth_of_ge (by omega)]; exact hA.zero
    · rcases Nat.lt_or_ge q (4 ^ l * (4 * h)) with h2 | h2
      · obtain ⟨e, hlen⟩ := key q h2
        rw [e]
        have hpos : 4 * h ≤ q / (4 * h) * (4 * h) := Nat.le_mul_of_pos_left _ (Nat.div_pos hq (by omega))
        refine r4Apply_flat hh Z hA.zeros _ hlen (fun i hi => ?_) (fun i hi => ?_) _ (Nat.mod_lt _ (by omega))
        · rw [entry q i (by omega)]; exact h1 _ (by omega)
        · rcases Nat.lt_or_ge i (4 * h) with h2 | h2
          · rw [entry q i h2]; exact h1 _ (by omega)
          · rw [nth_of_ge (by omega)]; exact hA.zero
      · rw [nth_of_ge (by rw [length_mapChunks (by omega) hl, hx']; omega)]
        exact hA.zero

theorem r4Index_zero {base : ℕ} (l : ℕ) : r4Index base l false 0 = 0 := by
  induction l with
  | zero => simp [r4Index]
  | succ l ih => simp [r4Index, ih]

theorem radix4_flat (m : ℕ) : Flat Z (2 ^ m) (radix4Fn T m) := by
  have hb : Flat Z (r4BaseLen m) (r4BaseFn T m) ∧ ∀ x : List T, x.length = r4BaseLen m → (r4BaseFn T m x).length = r4BaseLen m := by
    match m with
    | 0 => exact ⟨b1_flat, fun _ h => h⟩
    | 1 => exact ⟨b2_flat, performs2.length⟩
    | 2 => exact ⟨b4_flat, performs4.length⟩
    | m + 3 =>
      by_cases hm : (m + 3) % 2 = 1
      · simp only [r4BaseLen, r4BaseFn, if_pos hm]; exact ⟨b8_flat, performs8.length⟩
      · simp only [r4BaseLen, r4BaseFn, if_neg hm]; exact ⟨b16_flat, performs16.length⟩
  have hpos := r4BaseLen_pos m
  rw [r4_len m]
  unfold radix4Fn
  generalize r4BaseLen m = base at *
  generalize r4Levels m = l at *
  generalize r4BaseFn T m = f at *
  intro A hA x hx h0 h1
  rw [r4Fn]
  have hb0 : 0 < base * 4 ^ l := Nat.mul_pos hpos (by positivity)
  obtain ⟨c0, c1⟩ := chunks_flat (w := 4 ^ l) (x := tab (base * 4 ^ l) fun p => nth x (r4Index base l false p)) hpos hb.1 hb.2 hA
    (by simp [Nat.mul_comm]) (by rw [nth_tab hb0, r4Index_zero]; exact h0) (fun p hp => by
      rcases Nat.lt_or_ge p (base * 4 ^ l) with h2 | h2
      · rw [nth_tab h2]
        refine h1 _ (Nat.pos_of_ne_zero fun e => ?_)
        have := r4Index_inj hpos l false h2 hb0 (e.trans (r4Index_zero l).symm)
        omega
      · rw [nth_of_ge (by simpa using h2)]; exact hA.zero)
  intro k hk
  exact layers_flat l hpos A hA _ (by rw [length_mapChunks hpos hb.2]; simp [Nat.mul_comm])
    (fun p hp => c0 p (lt_of_lt_of_le hp (Nat.le_mul_of_pos_left _ (by positivity))) hp) c1 k (by rwa [Nat.mul_comm])

theorem sr_flat {q : ℕ} (hq : 0 < q) {fq fh : List T → List T} (gq : Flat Z q fq) (gh : Flat Z (2 * q) fh) :
    Flat Z (4 * q) (srFn q fq fh) := by
  intro A hA x hx h0 h1 k hk
  rw [srFn, nth_tab hk]
  split
  · refine gh A hA _ (by simp) ?_ (fun i hi => ?_) _ (by omega)
    · rw [nth_tab (by omega), srEven]
      exact hA.add_zero _ _ h0 (h1 _ (by omega))
    · rcases Nat.lt_or_ge i (2 * q) with h2 | h2
      · rw [nth_tab h2, srEven]
        exact hA.add _ _ (h1 _ hi) (h1 _ (by omega))
      · rw [nth_of_ge (by simpa using h2)]; exact hA.zero
  · split
    · refine gq A hA _ (by simp) ?_ (fun i hi => ?_) _ (by omega)
      · rw [nth_tab hq, srQ1]
        simp only [if_true]
        exact hA.add_zero _ _ (hA.sub_zero _ _ h0 (h1 _ (by omega))) (hA.sub _ _ (h1 _ (by omega)) (h1 _ (by omega)))
      · rcases Nat.lt_or_ge i q with h2 | h2
        · have d0 : ∀ j, 0 < j → Z (nth x j - nth x (2 * q + j)) := fun j hj => hA.sub _ _ (h1 _ hj) (h1 _ (by omega))
          have d1 : ∀ j, Z (nth x (q + j) - nth x (3 * q + j)) := fun j => hA.sub _ _ (h1 _ (by omega)) (h1 _ (by omega))
          rw [nth_tab h2, srQ1]
          simp only
          rw [if_neg (by omega)]
          split
          · exact hA.sub _ _ (hA.mul_right _ _ (hA.add _ _ (d0 _ hi) (d0 _ (by omega)))) (hA.mul_right _ _ (hA.sub _ _ (d1 _) (d1 _)))
          · exact hA.add _ _ (hA.mul_right _ _ (hA.add _ _ (d0 _ (by omega)) (d0 _ (by omega))))
              (hA.mul_right _ _ (hA.sub _ _ (d1 _) (d1 _)))
        · rw [nth_of_ge (by simpa using h2)]; exact hA.zero
    · refine gq A hA _ (by simp) ?_ (fun i hi => ?_) _ (by omega)
      · rw [nth_tab hq, srQ3]
        simp only [if_true]
        exact hA.sub_zero _ _ (hA.sub_zero _ _ h0 (h1 _ (by omega))) (hA.sub _ _ (h1 _ (by omega)) (h1 _ (by omega)))
      · rcases Nat.lt_or_ge i q with h2 | h2
        · have d0 : ∀ j, 0 < j → Z (nth x j - nth x (2 * q + j)) := fun j hj => hA.sub _ _ (h1 _ hj) (h1 _ (by omega))
          have d1 : ∀ j, Z (nth x (q + j) - nth x (3 * q + j)) := fun j => hA.sub _ _ (h1 _ (by omega)) (h1 _ (by omega))
          rw [nth_tab h2, srQ3]
          simp only
          rw [if_neg (by omega)]
          split
          · exact hA.add _ _ (hA.mul_right _ _ (hA.sub _ _ (d0 _ hi) (d0 _ (by omega)))) (hA.mul_right _ _ (hA.add _ _ (d1 _) (d1 _)))
          · exact hA.sub _ _ (hA.mul_right _ _ (hA.sub _ _ (d0 _ (by omega)) (d0 _ (by omega))))
              (hA.mul_right _ _ (hA.add _ _ (d1 _) (d1 _)))
        · rw [nth_of_ge (by simpa using h2)]; exact hA.zero

theorem rd_flat {p g gi : ℕ} (hp : p.Prime) (hg0 : 0 < g) (hgp : g < p) (hgi : ∀ q, 0 < q → q < p → dlog gi p q < p - 1)
    {tw : ℕ → Cx T} {f : List T → List T} (hf : Flat Z (p - 1) f) (hl : ∀ x, x.length = p - 1 → (f x).length = p - 1) :
    Flat Z p (rdFn p g gi tw f) := by
  intro A hA x hx h0 h1 k hk
  have h2 := hp.two_le
  have hin : ∀ i, Z (nth (rdIn p g x) i) := by
    intro i
    rcases Nat.lt_or_ge i (p - 1) with h | h
    · rw [rdIn, nth_tab h]
      exact h1 _ (pow_mod_pos hp hg0 hgp i)
    · rw [nth_of_ge (by simpa [rdIn] using h)]; exact hA.zero
  have hy : ∀ i, Z (nth (f (rdIn p g x)) i) := by
    intro i
    rcases Nat.lt_or_ge i (p - 1) with h | h
    · exact hf Z hA.zeros _ (by simp [rdIn]) (hin 0) (fun i _ => hin i) i h
    · rw [nth_of_ge (by rw [hl _ (by simp [rdIn])]; exact h)]; exact hA.zero
  have hmul : ∀ i, Z (rdMul (f (rdIn p g x)) tw (p - 1) i) := by
    intro i
    unfold rdMul
    split_ifs
    · exact hA.mul_right _ _ (hy _)
    · exact hA.add _ _ (hA.mul_left _ _ (hy _)) (hA.mul_left _ _ (hy _))
    · exact hA.mul_right _ _ (hy _)
    · exact hA.sub _ _ (hA.mul_left _ _ (hy _)) (hA.mul_left _ _ (hy _))
  cases k with
  | zero => exact hA.add_zero _ _ h0 (hy 0)
  | succ k =>
    have e : nth (rdFn p g gi tw f x) (k + 1)
        = nth (tab (p - 1) fun q => nth (f (rdMid p tw (nth x 0) (f (rdIn p g x)))) (dlog gi p (q + 1))) k := rfl
    rw [e, nth_tab (by omega)]
    refine hf A hA _ (by simp [rdMid]) ?_ (fun i hi => ?_) _ (hgi _ (by omega) hk)
    · rw [rdMid, nth_tab (by omega), if_pos rfl]
      exact hA.zero_add _ _ (hmul 0) h0
    · rcases Nat.lt_or_ge i (p - 1) with h | h
      · rw [rdMid, nth_tab h, if_neg (by omega)]
        exact hmul i
      · rw [nth_of_ge (by simpa [rdMid] using h)]; exact hA.zero

/-! ## Compositions -/

theorem plan_flat (Z : T → Prop) (p : Plan) :
    ∀ d : Dht T, p.build T = .ok d → 0 < d.len → ∃ f, Implements d f ∧ Flat Z d.len f := by
  have small : ∀ {p : Plan} {d : Dht T} (k : ℕ), 1 ≤ k → p.build T = .ok d →
      (0 < d.len → d.inplaceScratchLen ≤ k * d.len) ∧ (0 < d.len → d.oopScratchLen = 0) := by
    intro p d k hk e
    have h := (plan_ok p d e).small
    exact ⟨fun hpos => le_trans (h hpos).2 (Nat.le_mul_of_pos_left _ hk), fun hpos => (h hpos).1⟩
  have mrk : ∀ {k : ℕ} {hd d : Dht T} {ap : List T → Res (List T)}, 0 < k → d.len = k * hd.len → 0 < d.len →
      (0 < hd.len → ∃ f, Implements hd f ∧ Flat Z hd.len f) →
      (∀ f, Implements hd f → Implements d (mrnFn k hd.len f ap)) →
      (0 < hd.len → ColFlat Z k hd.len (run ap)) →
      ∃ f, Implements d f ∧ Flat Z d.len f := by
    intro k hd d ap hk hlen hpos ih hi ha
    have hh : 0 < hd.len := Nat.pos_of_mul_pos_left (lt_of_lt_of_eq hpos hlen)
    obtain ⟨f, i1, g1⟩ := ih hh
    exact ⟨_, hi f i1, by rw [hlen]; exact mrn_flat hk hh g1 i1.length (ha hh)⟩
  induction p with
  | naive n =>
    rintro d ⟨⟩ hpos
    rw [dhtNaive_len] at hpos ⊢
    exact ⟨_, dhtNaive_implements n, naive_flat hpos⟩
  | b1 => rintro d ⟨⟩ _; exact ⟨_, butterfly1_implements, b1_flat⟩
  | b2 => rintro d ⟨⟩ _; exact ⟨_, boilerplateFftButterfly_implements (by omega) performs2, b2_flat⟩
  | b3 => rintro d ⟨⟩ _; exact ⟨_, boilerplateFftButterfly_implements (by omega) performs3, b3_flat⟩
  | b4 => rintro d ⟨⟩ _; exact ⟨_, boilerplateFftButterfly_implements (by omega) performs4, b4_flat⟩
  | b5 => rintro d ⟨⟩ _; exact ⟨_, boilerplateFftButterfly_implements (by omega) performs5, b5_flat⟩
  | b6 => rintro d ⟨⟩ _; exact ⟨_, boilerplateFftButterfly_implements (by omega) performs6, b6_flat⟩
  | b8 => rintro d ⟨⟩ _; exact ⟨_, boilerplateFftButterfly_implements (by omega) performs8, b8_flat⟩
  | b9 => rintro d ⟨⟩ _; exact ⟨_, boilerplateFftButterfly_implements (by omega) performs9, b9_flat⟩
  | b16 => rintro d ⟨⟩ _; exact ⟨_, boilerplateFftButterfly_implements (by omega) performs16, b16_flat⟩
  | mixedRadix w h ihw ihh =>
    intro d e hpos
    obtain ⟨wd, ew, e⟩ := bind_eq_ok e
    obtain ⟨hd, eh, e⟩ := bind_eq_ok e
    cases e
    have hpos' : 0 < wd.len * hd.len := hpos
    have hw : 0 < wd.len := Nat.pos_of_mul_pos_right hpos'
    have hh : 0 < hd.len := Nat.pos_of_mul_pos_left hpos'
    obtain ⟨fw, iw, gw⟩ := ihw wd ew hw
    obtain ⟨fh, ih, gh⟩ := ihh hd eh hh
    exact ⟨_, mixedRadix_implements iw ih, mr_flat hw hh gw iw.length gh ih.length⟩
  | mr2 h ihh =>
    intro d e hpos
    obtain ⟨hd, eh, e⟩ := bind_eq_ok e
    cases e
    exact mrk (by omega) rfl hpos (ihh hd eh) (fun f i => mr2_implements i (small 2 (by omega) eh).1 (small 2 (by omega) eh).2) mr2_flat
  | mr3 h ihh =>
    intro d e hpos
    obtain ⟨hd, eh, e⟩ := bind_eq_ok e
    cases e
    exact mrk (by omega) rfl hpos (ihh hd eh) (fun f i => mr3_implements i (small 3 (by omega) eh).1 (small 2 (by omega) eh).2) mr3_flat
  | mr4 h ihh =>
    intro d e hpos
    obtain ⟨hd, eh, e⟩ := bind_eq_ok e
    cases e
    exact mrk (by omega) rfl hpos (ihh hd eh) (fun f i => mr4_implements i (small 4 (by omega) eh).1 (small 2 (by omega) eh).2) mr4_flat
  | mr5 h ihh =>
    intro d e hpos
    obtain ⟨hd, eh, e⟩ := bind_eq_ok e
    cases e
    exact mrk (by omega) rfl hpos (ihh hd eh) (fun f i => mr5_implements i (small 5 (by omega) eh).1 (small 2 (by omega) eh).2) mr5_flat
  | mr6 h ihh =>
    intro d e hpos
    obtain ⟨hd, eh, e⟩ := bind_eq_ok e
    cases e
    exact mrk (by omega) rfl hpos (ihh hd eh) (fun f i => mr6_implements i (small 6 (by omega) eh).1 (small 2 (by omega) eh).2) mr6_flat
  | radix4 n =>
    intro d e hpos
    obtain ⟨m, rfl⟩ := radix4_isPow e
    have e' : RustDHT.radix4 T (2 ^ m) = .ok d := e
    have hlen : d.len = 2 ^ m := by
      have h := e'
      rw [radix4_eq] at h
      cases h
      rfl
    exact ⟨_, radix4_implements e', by rw [hlen]; exact radix4_flat m⟩
  | splitRadix q h ihq ihh =>
    intro d e hpos
    obtain ⟨qd, eq, e⟩ := bind_eq_ok e
    obtain ⟨hd, eh, e⟩ := bind_eq_ok e
    have hlen := (splitRadix_eq e).1
    have hdl : d.len = 4 * qd.len := by rw [(splitRadix_eq e).2]; rfl
    have hq : 0 < qd.len := by omega
    obtain ⟨fq, iq, gq⟩ := ihq qd eq hq
    obtain ⟨fh, ih, gh⟩ := ihh hd eh (by omega)
    have hs : 0 < qd.len → qd.oopScratchLen = 0 ∧ qd.inplaceScratchLen ≤ 4 * qd.len ∧
        hd.inplaceScratchLen ≤ 2 * qd.len := by
      intro hq
      have h1 := (plan_ok q qd eq).small hq
      have h2 := (plan_ok h hd eh).small (by omega)
      omega
    refine ⟨_, splitRadix_implements iq ih e hs, ?_⟩
    rw [hdl]
    exact sr_flat hq gq (by rw [← hlen]; exact gh)
  | raders i ihi =>
    intro d e hpos
    obtain ⟨id, ei, e⟩ := bind_eq_ok e
    obtain ⟨f0, i0⟩ : ∃ f, Implements id f := (plan_ok i id ei).implements
    obtain ⟨_, _, hdata0⟩ := raders_data i0 e
    have h2 := hdata0.prime.two_le
    obtain ⟨f, hf, gf⟩ := ihi id ei (by omega)
    obtain ⟨g, gi, hdata⟩ := raders_data hf e
    have hdl : d.len = id.len + 1 := by rw [hdata.eq]; rfl
    refine ⟨_, hdata.implements hf, ?_⟩
    rw [hdl]
    exact rd_flat hdata.prime (by have := hdata.g_gt; omega) hdata.g_lt
      (fun q h0 hq => (dlog_spec hdata.prime hdata.gi_pos hdata.gi_lt hdata.gi_order h0 hq).1) gf hf.length

theorem flatDht_iff {Z : T → Prop} {d : Dht T} {f : List T → List T} (hf : Implements d f) :
    (∀ A, Absorbs Z A → ∀ a y, y.length + 1 = d.len → A a → (∀ b ∈ y, Z b) → ∀ b ∈ f (a :: y), A b) ↔
      (0 < d.len → Flat Z d.len f) := by
  constructor
  · intro h hpos A hA x hx h0 h1 k hk
    obtain ⟨a, y, rfl⟩ : ∃ a y, x = a :: y := by
      cases x with
      | nil => simp at hx; omega
      | cons a y => exact ⟨a, y, rfl⟩
    have hl := hf.length _ hx
    rw [nth_eq_getElem (by omega)]
    refine h A hA a y (by simpa using hx) h0 (fun b hb => ?_) _ (List.getElem_mem _)
    obtain ⟨i, hi, rfl⟩ := List.getElem_of_mem hb
    have := h1 (i + 1) (by omega)
    rwa [nth_eq_getElem (by simpa using hi)] at this
  · intro h A hA a y hy ha hz b hb
    have hl := hf.length (a :: y) (by simpa using hy)
    obtain ⟨k, hk, rfl⟩ := List.getElem_of_mem hb
    rw [← nth_eq_getElem hk]
    refine h (by omega) A hA (a :: y) (by simpa using hy) ha (fun i hi => ?_) k (by omega)
    rcases Nat.lt_or_ge i (a :: y).length with h2 | h2
    · rw [nth_eq_getElem h2]
      obtain ⟨j, rfl⟩ : ∃ j, i = j + 1 := ⟨i - 1, by omega⟩
      exact hz _ (by simp)
    · rw [nth_of_ge h2]; exact hA.zero

theorem flatDht_columns {Z : T → Prop} {k : ℕ} {hd d : Dht T} {ap : List T → Res (List T)} (hk : 0 < k) (hlen : d.len = k * hd.len)
    (hh : FlatDht Z hd) (hi : ∀ f, Implements hd f → Implements d (mrnFn k hd.len f ap))
    (ha : 0 < hd.len → ColFlat Z k hd.len (run ap)) : FlatDht Z d := by
  obtain ⟨f, i1, g1⟩ := hh
  refine ⟨_, hi f i1, (flatDht_iff (hi f i1)).2 fun hpos => ?_⟩
  have h0 : 0 < hd.len := Nat.pos_of_mul_pos_left (lt_of_lt_of_eq hpos hlen)
  rw [hlen]
  exact mrn_flat hk h0 ((flatDht_iff i1).1 g1 h0) i1.length (ha h0)

end RustDHT
