import Verif.Proofs.Stage

/-! # Stages in which every output depends on few inputs -/

set_option linter.unusedSectionVars false
set_option linter.style.haveILetI false

namespace RustDHT

open Finset

/-- A function that works for any arithmetic. -/
abbrev Poly := ∀ (U : Type) [Zero U] [Add U] [Sub U] [Mul U] [Neg U] [FftNum U], List U → List U

/-- Output `i` depends only on the inputs `σ m i` with `m < b`, and has cost at most `q`. -/
structure Local (n m b : ℕ) (σ : ℕ → ℕ → ℕ) (q : Cost) (Φ : Poly) : Prop where
  len : ∀ (U : Type) [Zero U] [Add U] [Sub U] [Mul U] [Neg U] [FftNum U] (x : List U), x.length = n → (Φ U x).length = m
  rel : ∀ (U U' : Type) [Zero U] [Add U] [Sub U] [Mul U] [Neg U] [FftNum U] [Zero U'] [Add U'] [Sub U'] [Mul U'] [Neg U']
    [FftNum U'] (C R : U → U' → Prop), Respects C R → ∀ x x', x.length = n → LR R x x' → LR R (Φ U x) (Φ U' x')
  loc : ∀ (U : Type) [Zero U] [Add U] [Sub U] [Mul U] [Neg U] [FftNum U] (x y : List U) (i : ℕ), x.length = n → y.length = n →
    i < m → (∀ j < b, nth x (σ j i) = nth y (σ j i)) → nth (Φ U x) i = nth (Φ U y) i
  cost : Grow n (Φ Cost) q
  lt : ∀ j < b, ∀ i < m, σ j i < n
  inj : ∀ j < b, ∀ i < m, ∀ i' < m, σ j i = σ j i' → i = i'

section
variable {T : Type} [Zero T] [Add T] [Sub T] [Mul T] [Neg T] [FftNum T]
variable {fin : T → Prop} {val : T → ℝ} {u η Ω : ℝ} {t s : ℕ}
variable (hm : FloatModel fin val u η Ω t s)
include hm

/-- The error of one output. -/
theorem Local.elem {n m b : ℕ} {σ : ℕ → ℕ → ℕ} {q : Cost} {Φ : Poly} (h : Local n m b σ q Φ) {x : List T} (hx : x.length = n)
    (hf : ∀ i < n, fin (nth x i)) {i : ℕ} (hi : i < m) {A : ℝ} (hA : 0 ≤ A) (hb : ∀ j < b, |val (nth x (σ j i))| ≤ A)
    (hO : q.size u η t s A ≤ Ω) :
    fin (nth (Φ T x) i) ∧ |val (nth (Φ T x) i) - nth (Φ ℝ (x.map val)) i| ≤ q.error u η t s A := by
  letI := pairCost t s
  -- outside of the block, zeros do not change the output
  set y : List T := tab n fun p => if ∃ j < b, σ j i = p then nth x p else 0 with hy
  have yl : y.length = n := length_tab _ _
  have ynth : ∀ p < n, nth y p = if ∃ j < b, σ j i = p then nth x p else 0 := fun p hp => by rw [hy, nth_tab hp]
  have yb : ∀ j < b, nth x (σ j i) = nth y (σ j i) := fun j hj => by rw [ynth _ (h.lt j hj i hi), if_pos ⟨j, hj, rfl⟩]
  have e1 := h.loc T x y i hx yl hi yb
  have e2 : nth (Φ ℝ (x.map val)) i = nth (Φ ℝ (y.map val)) i :=
    h.loc ℝ _ _ i (by simpa using hx) (by simpa using yl) hi fun j hj => by rw [hm.nth_map, hm.nth_map, yb j hj]
  rw [e1, e2]
  have hyf : ∀ a ∈ y, fin a ∧ |val a| ≤ A := by
    intro a ha
    obtain ⟨p, hp, rfl⟩ := List.getElem_of_mem ha
    have hp' : p < n := by simpa [hy] using hp
    have : y[p] = nth y p := by rw [nth, List.getElem?_eq_getElem hp]; rfl
    rw [this, ynth p hp']
    split
    · rename_i hj
      obtain ⟨j, hj, rfl⟩ := hj
      exact ⟨hf _ hp', hb j hj⟩
    · rw [hm.zero.2, abs_zero]
      exact ⟨hm.zero.1, hA⟩
  have lx : LR (FR fin val u η Ω A) y (y.map fun a => (val a, (⟨1, 0, 0⟩ : Cost3))) :=
    LR.map_right fun a ha _ => ⟨(hyf a ha).1, by simpa using (hyf a ha).2, by simp⟩
  have lz := h.rel T (ℝ × Cost3) _ _ (floatModel_respects hm hA) _ _ yl lx
  have lX := h.rel (ℝ × Cost3) ℝ _ _ (pairCost_fst t s) (y.map fun a => (val a, (⟨1, 0, 0⟩ : Cost3))) (y.map val) (by simpa using yl)
    (LR.map_left (f := fun a => (val a, (⟨1, 0, 0⟩ : Cost3))) fun a _ => rfl)
  have lq := h.rel (ℝ × Cost3) Cost _ _ (pairCost_snd t s) (y.map fun a => (val a, (⟨1, 0, 0⟩ : Cost3)))
    (List.replicate y.length Cost.input) (by simpa using yl) (by
    rw [show List.replicate y.length Cost.input = y.map fun _ => Cost.input by simp]
    exact LR.map_left (f := fun a => (val a, (⟨1, 0, 0⟩ : Cost3))) fun a _ => ⟨rfl, rfl, Nat.zero_le _⟩)
  have hcost : nth (Φ Cost (List.replicate y.length Cost.input)) i ≤ q := by
    have := h.cost Cost.input (List.replicate y.length Cost.input) (by decide) (by simpa using yl) (fun q hq => by
      rw [List.eq_of_mem_replicate hq]; exact Cost.le_refl _)
    rw [Cost.after_input] at this
    exact this.nth i
  have zl := h.len T y yl
  have z1 := lz.length
  generalize Φ (ℝ × Cost3) (y.map fun a => (val a, (⟨1, 0, 0⟩ : Cost3))) = z at *
  have r1 := lz.nth (k := i) (by omega)
  have r2 := lX.nth (k := i) (by omega)
  obtain ⟨c1, c2, c3⟩ := lq.nth (k := i) (by omega)
  have hη := hm.η_nonneg
  have hS : (0 : ℝ) ≤ max A 1 := le_trans hA (le_max_left _ _)
  obtain ⟨m1, m2⟩ := hm.cost_mono hA hcost
  have hO' := m1.trans hO
  rw [Cost.size] at hO'
  obtain ⟨f, _, e⟩ := r1 (hm.big_mono hη hS c1.le c2.le c3 hO')
  refine ⟨f, le_trans ?_ m2⟩
  rw [r2, Cost.error, ← c1, ← c2]
  refine e.trans (sub_le_sub_right (mul_le_mul_of_nonneg_right (hm.pow_le c3) ?_) _)
  positivity

/-- Bernoulli. -/
theorem FloatModel.bernoulli (d K : ℕ) : K * ((1 + u) ^ d - 1) ≤ (1 + u) ^ (K * d) - 1 := by
  have h1 := hm.one_le_pow d
  have := one_add_mul_le_pow (a := (1 + u) ^ d - 1) (by linarith) K
  rw [add_sub_cancel, ← pow_mul, mul_comm d K] at this
  linarith

/-- The outputs of a local stage, weighted. -/
theorem Local.err {n m b : ℕ} {σ : ℕ → ℕ → ℕ} {q : Cost} {Φ : Poly} (h : Local n m b σ q Φ) {w : ℕ → ℝ} {W : ℝ}
    (hw0 : ∀ i < m, 0 ≤ w i) (hw : ∀ i < m, w i ≤ W) (hW : 0 ≤ W) {G K C : ℕ} {M a : ℝ} (ha : 1 ≤ a) (hM : √m ≤ M) (hM1 : 1 ≤ M) (hK1 : 1 ≤ K)
    (hK : W * q.g * √b ≤ a * K) (hC : W * q.c ≤ a * C) (hCq : q.c ≤ C) (hG : q.g ≤ G) (hG1 : 1 ≤ G)
    {x : List T} (hx : x.length = n) (hf : ∀ i < n, fin (nth x i))
    (hO : G * (a * bnd u η (K * q.depth t s) C M (max (nrm n fun i => val (nth x i)) 1)) ≤ Ω) :
    (∀ i < m, fin (nth (Φ T x) i)) ∧
    nrm m (fun i => w i * (val (nth (Φ T x) i) - nth (Φ ℝ (x.map val)) i))
      ≤ a * (bnd u η (K * q.depth t s) C M (nrm n fun i => val (nth x i)) - nrm n fun i => val (nth x i)) := by
  set S := nrm n fun i => val (nth x i) with hS
  have hS0 : 0 ≤ S := nrm_nonneg _ _
  set d := q.depth t s with hd
  have hη := hm.η_nonneg
  have hP := hm.one_le_pow d
  have hPK := hm.one_le_pow (K * d)
  have hle : (1 + u) ^ d ≤ (1 + u) ^ (K * d) := hm.pow_le (Nat.le_mul_of_pos_left _ hK1)
  have hbern := hm.bernoulli d K
  set P := (1 + u) ^ d with hPd
  set Q := (1 + u) ^ (K * d) with hQd
  set A : ℕ → ℝ := fun i => nrm b fun j => val (nth x (σ j i)) with hA
  have hA0 : ∀ i, 0 ≤ A i := fun i => nrm_nonneg _ _
  have hAS : ∀ i < m, ∀ j < b, |val (nth x (σ j i))| ≤ S := fun i hi j hj => abs_le_nrm (h.lt j hj i hi) fun i => val (nth x i)
  have hg : nrm m A ≤ √b * S := nrm_gather (f := fun i => val (nth x i)) h.lt h.inj
  have hGr : (1 : ℝ) ≤ G := by exact_mod_cast hG1
  have hqG : (q.g : ℝ) ≤ G := by exact_mod_cast hG
  have hqC : (q.c : ℝ) ≤ C := by exact_mod_cast hCq
  -- sizes
  have size : ∀ B, 0 ≤ B → B ≤ S → q.size u η t s B ≤ Ω := by
    intro B hB hBS
    refine le_trans ?_ hO
    rw [Cost.size, ← hd, ← hPd, bnd, ← hQd]
    have h1 : max B 1 ≤ max S 1 := max_le_max hBS le_rfl
    have h0 : (0 : ℝ) ≤ max B 1 := by positivity
    have h2 : q.g * max B 1 ≤ G * max S 1 := mul_le_mul hqG h1 h0 (by linarith)
    have h3 : η * q.c ≤ C * η * M := by
      have := mul_le_mul_of_nonneg_left hqC hη
      have h4 : 0 ≤ C * η := by positivity
      nlinarith
    have h5 : C * η * M ≤ G * (C * η * M) := le_mul_of_one_le_left (by positivity) hGr
    have h6 : q.g * max B 1 + η * q.c ≤ G * (max S 1 + C * η * M) := by linarith
    have h7 : 0 ≤ max S 1 + C * η * M := by positivity
    calc P * (q.g * max B 1 + η * q.c) ≤ Q * (G * (max S 1 + C * η * M)) :=
          mul_le_mul hle h6 (by positivity) (by linarith)
      _ ≤ a * (Q * (G * (max S 1 + C * η * M))) := le_mul_of_one_le_left (by positivity) ha
      _ = _ := by ring
  have elem : ∀ i < m, fin (nth (Φ T x) i) ∧
      |val (nth (Φ T x) i) - nth (Φ ℝ (x.map val)) i| ≤ q.error u η t s (A i) ∧ True := by
    intro i hi
    have h1 := h.elem hm hx hf hi hS0 (hAS i hi) (size S hS0 le_rfl)
    refine ⟨h1.1, ?_, trivial⟩
    by_cases hle : A i ≤ S
    · exact (h.elem hm hx hf hi (hA0 i) (fun j hj => abs_le_nrm hj fun j => val (nth x (σ j i))) (size _ (hA0 i) hle)).2
    · refine h1.2.trans ?_
      rw [Cost.error, Cost.error, ← hd, ← hPd]
      have h2 : (0 : ℝ) ≤ (P - 1) * q.g := mul_nonneg (by linarith) (Nat.cast_nonneg _)
      have := mul_le_mul_of_nonneg_left (not_le.1 hle).le h2
      linarith
  refine ⟨fun i hi => (elem i hi).1, ?_⟩
  have hk0 : 0 ≤ W * (P * (η * q.c)) := by positivity
  have hk1 : 0 ≤ W * ((P - 1) * q.g) := mul_nonneg hW (mul_nonneg (by linarith) (Nat.cast_nonneg _))
  have step : nrm m (fun i => w i * (val (nth (Φ T x) i) - nth (Φ ℝ (x.map val)) i))
      ≤ W * ((P - 1) * q.g) * nrm m A + √m * (W * (P * (η * q.c))) := by
    rw [← nrm_mul _ hk1, ← nrm_const _ hk0]
    refine le_trans (nrm_mono fun i hi => ?_) (nrm_add_le m _ _)
    rw [abs_mul, abs_of_nonneg (hw0 i hi)]
    refine (mul_le_mul (hw i hi) (elem i hi).2.1 (abs_nonneg _) hW).trans (le_of_eq ?_)
    rw [Cost.error]
    ring
  refine step.trans ?_
  rw [bnd, ← hQd]
  have s1 : W * ((P - 1) * q.g) * nrm m A ≤ a * ((Q - 1) * S) := by
    calc W * ((P - 1) * q.g) * nrm m A ≤ W * ((P - 1) * q.g) * (√b * S) := mul_le_mul_of_nonneg_left hg hk1
      _ = W * q.g * √b * ((P - 1) * S) := by ring
      _ ≤ a * K * ((P - 1) * S) := mul_le_mul_of_nonneg_right hK (mul_nonneg (by linarith) hS0)
      _ = a * (K * (P - 1) * S) := by ring
      _ ≤ a * ((Q - 1) * S) := by gcongr
  have s2 : √m * (W * (P * (η * q.c))) ≤ a * (Q * (C * η * M)) := by
    calc √m * (W * (P * (η * q.c))) ≤ M * (W * (P * (η * q.c))) := mul_le_mul_of_nonneg_right hM hk0
      _ = W * q.c * (M * (P * η)) := by ring
      _ ≤ a * C * (M * (P * η)) := mul_le_mul_of_nonneg_right hC (by positivity)
      _ ≤ a * C * (M * (Q * η)) := by gcongr
      _ = _ := by ring
  linarith

/-- A local stage between lists of the same length. -/
theorem Local.stage {n b : ℕ} {σ : ℕ → ℕ → ℕ} {q : Cost} {Φ : Poly} (h : Local n n b σ q Φ) (hn : 0 < n) {G K : ℕ} {a : ℝ}
    (ha : 1 ≤ a) (hK1 : 1 ≤ K) (hK : q.g * √b ≤ a * K) (hG : q.g ≤ G) (hG1 : 1 ≤ G)
    (lip : ∀ X Y, X.length = n → Y.length = n →
      nrm n (fun i => nth (Φ ℝ X) i - nth (Φ ℝ Y) i) ≤ a * nrm n (fun i => nth X i - nth Y i))
    (grow : ∀ X, X.length = n → nrm n (nth (Φ ℝ X)) ≤ a * nrm n (nth X)) :
    Stage fin val u η Ω G √n (nrm n) (nrm n) n n (Φ T) (Φ ℝ) a (K * q.depth t s) q.c := by
  refine ⟨h.len T, h.len ℝ, lip, grow, fun x hx hf hO => ?_⟩
  have h1 : (1 : ℝ) ≤ √n := by
    rw [Real.one_le_sqrt]
    exact_mod_cast hn
  have hc : (0 : ℝ) ≤ q.c := Nat.cast_nonneg _
  have := h.err hm (w := fun _ => 1) (W := 1) (fun _ _ => zero_le_one) (fun _ _ => le_rfl) zero_le_one ha le_rfl h1 hK1
    (by rw [one_mul]; exact hK) (C := q.c) (by nlinarith) le_rfl hG hG1 hx hf hO
  simpa only [one_mul] using this

end

end RustDHT
