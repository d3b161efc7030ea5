import Verif.Proofs.PlanStability
import Verif.Proofs.RootScale

/-! # Stages with another value for `sqrt(1/2)`

The number type computes with `r` in place of the constant, the exact arithmetic with its value `ρ`.  So the constant is no source of
errors.  `FloatModel` is a statement on the same number type with a constant that is near `√(1/2)`; the constant itself is not used. -/

set_option linter.unusedSectionVars false
set_option linter.style.haveILetI false

namespace RustDHT

open Finset

/-- Exact values together with costs, with another constant. -/
@[instance_reducible] noncomputable def pairRoot (ρ : ℝ) (t s : ℕ) : FftNum (ℝ × Cost3) := (pairCost t s).withRoot (ρ, ⟨1, 0, s⟩)

theorem Respects.withRoot {T T' : Type} [Zero T] [Add T] [Sub T] [Mul T] [Neg T] [iT : FftNum T] [Zero T'] [Add T'] [Sub T'] [Mul T'] [Neg T']
    [iT' : FftNum T'] {C R : T → T' → Prop} (h : Respects C R) {r : T} {r' : T'} (hr : C r r') :
    @Respects T T' _ _ _ _ _ (iT.withRoot r) _ _ _ _ _ (iT'.withRoot r') C R :=
  @Respects.mk T T' _ _ _ _ _ (iT.withRoot r) _ _ _ _ _ (iT'.withRoot r') C R h.zero h.add h.sub h.neg h.cmul h.mulc h.zeroC h.addC h.subC
    h.negC h.mulC h.inv h.fwd hr h.half h.norm

theorem pairRoot_fst (ρ : ℝ) (t s : ℕ) :
    @Respects (ℝ × Cost3) ℝ _ _ _ _ _ (pairRoot ρ t s) _ _ _ _ _ (realWithRoot ρ) (fun x y => y = x.1) (fun x y => y = x.1) :=
  @Respects.withRoot (ℝ × Cost3) ℝ _ _ _ _ _ (pairCost t s) _ _ _ _ _ _ _ _ (pairCost_fst t s) _ ρ rfl

theorem pairRoot_snd (ρ : ℝ) (t s : ℕ) :
    @Respects (ℝ × Cost3) Cost _ _ _ _ _ (pairRoot ρ t s) _ _ _ _ _ _ (Fits t s) (Fits t s) :=
  @Respects.withRoot (ℝ × Cost3) Cost _ _ _ _ _ (pairCost t s) _ _ _ _ _ _ _ _ (pairCost_snd t s) _ ⟨1, 0, 0, 0, 1⟩
    ⟨rfl, rfl, by simp [Cost.depth]⟩

section
variable {T : Type} [Zero T] [Add T] [Sub T] [Mul T] [Neg T] [iT : FftNum T]
variable {fin : T → Prop} {val : T → ℝ} {u η Ω : ℝ} {t s : ℕ}
variable (hm : FloatModel fin val u η Ω t s)
include hm

/-- From errors of outputs to the error of a stage, as `Local.err`. -/
theorem err_of_elem {n m b : ℕ} {σ : ℕ → ℕ → ℕ} {q : Cost} {F : List T → List T} {E : List ℝ → List ℝ}
    (hlt : ∀ j < b, ∀ i < m, σ j i < n) (hinj : ∀ j < b, ∀ i < m, ∀ i' < m, σ j i = σ j i' → i = i')
    (helem : ∀ x, x.length = n → (∀ i < n, fin (nth x i)) → ∀ i < m, ∀ A, 0 ≤ A → (∀ j < b, |val (nth x (σ j i))| ≤ A) →
      q.size u η t s A ≤ Ω → fin (nth (F x) i) ∧ |val (nth (F x) i) - nth (E (x.map val)) i| ≤ q.error u η t s A)
    {w : ℕ → ℝ} {W : ℝ}
    (hw0 : ∀ i < m, 0 ≤ w i) (hw : ∀ i < m, w i ≤ W) (hW : 0 ≤ W) {G K C : ℕ} {M a : ℝ} (ha : 1 ≤ a) (hM : √m ≤ M) (hM1 : 1 ≤ M) (hK1 : 1 ≤ K)
    (hK : W * q.g * √b ≤ a * K) (hC : W * q.c ≤ a * C) (hCq : q.c ≤ C) (hG : q.g ≤ G) (hG1 : 1 ≤ G)
    {x : List T} (hx : x.length = n) (hf : ∀ i < n, fin (nth x i))
    (hO : G * (a * bnd u η (K * q.depth t s) C M (max (nrm n fun i => val (nth x i)) 1)) ≤ Ω) :
    (∀ i < m, fin (nth (F x) i)) ∧
    nrm m (fun i => w i * (val (nth (F x) i) - nth (E (x.map val)) i))
      ≤ a * (bnd u η (K * q.depth t s) C M (nrm n fun i => val (nth x i)) - nrm n fun i => val (nth x i)) := by
  set S := nrm n fun i => val (nth x i) with hS
  have hS0 : 0 ≤ S := nrm_nonneg _ _
  set d := q.depth t s with hd
  have hη := hm.η_nonneg
  have hP := hm.one_le_pow d
  have hPK := hm.one_le_pow (K * d)
  have hle : (1 + u) ^ d ≤ (1 + u) ^ (K * d) := hm.pow_le (Nat.le_mul_of_pos_left _ hK1)
  have hbern := hm.bernoulli d K
  set P := (1 + u) ^ d with hPd
  set Q := (1 + u) ^ (K * d) with hQd
  set A : ℕ → ℝ := fun i => nrm b fun j => val (nth x (σ j i)) with hA
  have hA0 : ∀ i, 0 ≤ A i := fun i => nrm_nonneg _ _
  have hAS : ∀ i < m, ∀ j < b, |val (nth x (σ j i))| ≤ S := fun i hi j hj => abs_le_nrm (hlt j hj i hi) fun i => val (nth x i)
  have hg : nrm m A ≤ √b * S := nrm_gather (f := fun i => val (nth x i)) hlt hinj
  have hGr : (1 : ℝ) ≤ G := by exact_mod_cast hG1
  have hqG : (q.g : ℝ) ≤ G := by exact_mod_cast hG
  have hqC : (q.c : ℝ) ≤ C := by exact_mod_cast hCq
  -- sizes
  have size : ∀ B, 0 ≤ B → B ≤ S → q.size u η t s B ≤ Ω := by
    intro B hB hBS
    refine le_trans ?_ hO
    rw [Cost.size, ← hd, ← hPd, bnd, ← hQd]
    have h1 : max B 1 ≤ max S 1 := max_le_max hBS le_rfl
    have h0 : (0 : ℝ) ≤ max B 1 := by positivity
    have h2 : q.g * max B 1 ≤ G * max S 1 := mul_le_mul hqG h1 h0 (by linarith)
    have h3 : η * q.c ≤ C * η * M := by
      have := mul_le_mul_of_nonneg_left hqC hη
      have h4 : 0 ≤ C * η := by positivity
      nlinarith
    have h5 : C * η * M ≤ G * (C * η * M) := le_mul_of_one_le_left (by positivity) hGr
    have h6 : q.g * max B 1 + η * q.c ≤ G * (max S 1 + C * η * M) := by linarith
    have h7 : 0 ≤ max S 1 + C * η * M := by positivity
    calc P * (q.g * max B 1 + η * q.c) ≤ Q * (G * (max S 1 + C * η * M)) :=
          mul_le_mul hle h6 (by positivity) (by linarith)
      _ ≤ a * (Q * (G * (max S 1 + C * η * M))) := le_mul_of_one_le_left (by positivity) ha
      _ = _ := by ring
  have elem : ∀ i < m, fin (nth (F x) i) ∧
      |val (nth (F x) i) - nth (E (x.map val)) i| ≤ q.error u η t s (A i) ∧ True := by
    intro i hi
    have h1 := helem x hx hf i hi S hS0 (hAS i hi) (size S hS0 le_rfl)
    refine ⟨h1.1, ?_, trivial⟩
    by_cases hle : A i ≤ S
    · exact (helem x hx hf i hi _ (hA0 i) (fun j hj => abs_le_nrm hj fun j => val (nth x (σ j i))) (size _ (hA0 i) hle)).2
    · refine h1.2.trans ?_
      rw [Cost.error, Cost.error, ← hd, ← hPd]
      have h2 : (0 : ℝ) ≤ (P - 1) * q.g := mul_nonneg (by linarith) (Nat.cast_nonneg _)
      have := mul_le_mul_of_nonneg_left (not_le.1 hle).le h2
      linarith
  refine ⟨fun i hi => (elem i hi).1, ?_⟩
  have hk0 : 0 ≤ W * (P * (η * q.c)) := by positivity
  have hk1 : 0 ≤ W * ((P - 1) * q.g) := mul_nonneg hW (mul_nonneg (by linarith) (Nat.cast_nonneg _))
  have step : nrm m (fun i => w i * (val (nth (F x) i) - nth (E (x.map val)) i))
      ≤ W * ((P - 1) * q.g) * nrm m A + √m * (W * (P * (η * q.c))) := by
    rw [← nrm_mul _ hk1, ← nrm_const _ hk0]
    refine le_trans (nrm_mono fun i hi => ?_) (nrm_add_le m _ _)
    rw [abs_mul, abs_of_nonneg (hw0 i hi)]
    refine (mul_le_mul (hw i hi) (elem i hi).2.1 (abs_nonneg _) hW).trans (le_of_eq ?_)
    rw [Cost.error]
    ring
  refine step.trans ?_
  rw [bnd, ← hQd]
  have s1 : W * ((P - 1) * q.g) * nrm m A ≤ a * ((Q - 1) * S) := by
    calc W * ((P - 1) * q.g) * nrm m A ≤ W * ((P - 1) * q.g) * (√b * S) := mul_le_mul_of_nonneg_left hg hk1
      _ = W * q.g * √b * ((P - 1) * S) := by ring
      _ ≤ a * K * ((P - 1) * S) := mul_le_mul_of_nonneg_right hK (mul_nonneg (by linarith) hS0)
      _ = a * (K * (P - 1) * S) := by ring
      _ ≤ a * ((Q - 1) * S) := by gcongr
  have s2 : √m * (W * (P * (η * q.c))) ≤ a * (Q * (C * η * M)) := by
    calc √m * (W * (P * (η * q.c))) ≤ M * (W * (P * (η * q.c))) := mul_le_mul_of_nonneg_right hM hk0
      _ = W * q.c * (M * (P * η)) := by ring
      _ ≤ a * C * (M * (P * η)) := mul_le_mul_of_nonneg_right hC (by positivity)
      _ ≤ a * C * (M * (Q * η)) := by gcongr
      _ = _ := by ring
  linarith

variable {r : T} {ρ : ℝ} (hr : fin r ∧ val r = ρ) (hρ : |ρ| ≤ 1)
include hr hρ

theorem root_respects {A : ℝ} (hA : 0 ≤ A) :
    @Respects T (ℝ × Cost3) _ _ _ _ _ (iT.withRoot r) _ _ _ _ _ (pairRoot ρ t s) (FC fin val u Ω) (FR fin val u η Ω A) :=
  @Respects.withRoot T (ℝ × Cost3) _ _ _ _ _ iT _ _ _ _ _ (pairCost t s) _ _ (floatModel_respects hm hA) r (ρ, ⟨1, 0, s⟩)
    (hm.tableC hr.1 hρ (by rw [hr.2, sub_self, abs_zero]; exact mul_nonneg (Nat.cast_nonneg _) hm.u_nonneg))

/-- The error of one output, with another constant. -/
theorem Local.elem_root {n m b : ℕ} {σ : ℕ → ℕ → ℕ} {q : Cost} {Φ : Poly} (h : Local n m b σ q Φ) {x : List T} (hx : x.length = n)
    (hf : ∀ i < n, fin (nth x i)) {i : ℕ} (hi : i < m) {A : ℝ} (hA : 0 ≤ A) (hb : ∀ j < b, |val (nth x (σ j i))| ≤ A)
    (hO : q.size u η t s A ≤ Ω) :
    fin (nth (@Φ T _ _ _ _ _ (iT.withRoot r) x) i) ∧
      |val (nth (@Φ T _ _ _ _ _ (iT.withRoot r) x) i) - nth (@Φ ℝ _ _ _ _ _ (realWithRoot ρ) (x.map val)) i| ≤ q.error u η t s A := by
  have hresp := root_respects hm hr hρ hA
  have hfst := pairRoot_fst ρ t s
  have hsnd := pairRoot_snd ρ t s
  -- outside of the block, zeros do not change the output
  set y : List T := tab n fun p => if ∃ j < b, σ j i = p then nth x p else 0 with hy
  have yl : y.length = n := length_tab _ _
  have ynth : ∀ p < n, nth y p = if ∃ j < b, σ j i = p then nth x p else 0 := fun p hp => by rw [hy, nth_tab hp]
  have yb : ∀ j < b, nth x (σ j i) = nth y (σ j i) := fun j hj => by rw [ynth _ (h.lt j hj i hi), if_pos ⟨j, hj, rfl⟩]
  have e1 := @Local.loc _ _ _ _ _ _ h T _ _ _ _ _ (iT.withRoot r) x y i hx yl hi yb
  have e2 : nth (@Φ ℝ _ _ _ _ _ (realWithRoot ρ) (x.map val)) i = nth (@Φ ℝ _ _ _ _ _ (realWithRoot ρ) (y.map val)) i :=
    @Local.loc _ _ _ _ _ _ h ℝ _ _ _ _ _ (realWithRoot ρ) _ _ i (by simpa using hx) (by simpa using yl) hi fun j hj => by rw [hm.nth_map, hm.nth_map, yb j hj]
  rw [e1, e2]
  have hyf : ∀ a ∈ y, fin a ∧ |val a| ≤ A := by
    intro a ha
    obtain ⟨p, hp, rfl⟩ := List.getElem_of_mem ha
    have hp' : p < n := by simpa [hy] using hp
    have : y[p] = nth y p := by rw [nth, List.getElem?_eq_getElem hp]; rfl
    rw [this, ynth p hp']
    split
    · rename_i hj
      obtain ⟨j, hj, rfl⟩ := hj
      exact ⟨hf _ hp', hb j hj⟩
    · rw [hm.zero.2, abs_zero]
      exact ⟨hm.zero.1, hA⟩
  have lx : LR (FR fin val u η Ω A) y (y.map fun a => (val a, (⟨1, 0, 0⟩ : Cost3))) :=
    LR.map_right fun a ha _ => ⟨(hyf a ha).1, by simpa using (hyf a ha).2, by simp⟩
  have lz := @Local.rel _ _ _ _ _ _ h T (ℝ × Cost3) _ _ _ _ _ (iT.withRoot r) _ _ _ _ _ (pairRoot ρ t s) _ _ hresp _ _ yl lx
  have lX := @Local.rel _ _ _ _ _ _ h (ℝ × Cost3) ℝ _ _ _ _ _ (pairRoot ρ t s) _ _ _ _ _ (realWithRoot ρ) _ _ hfst
    (y.map fun a => (val a, (⟨1, 0, 0⟩ : Cost3))) (y.map val) (by simpa using yl)
    (LR.map_left (f := fun a => (val a, (⟨1, 0, 0⟩ : Cost3))) fun a _ => rfl)
  have lq := @Local.rel _ _ _ _ _ _ h (ℝ × Cost3) Cost _ _ _ _ _ (pairRoot ρ t s) _ _ _ _ _ _ _ _ hsnd
    (y.map fun a => (val a, (⟨1, 0, 0⟩ : Cost3)))
    (List.replicate y.length Cost.input) (by simpa using yl) (by
    rw [show List.replicate y.length Cost.input = y.map fun _ => Cost.input by simp]
    exact LR.map_left (f := fun a => (val a, (⟨1, 0, 0⟩ : Cost3))) fun a _ => ⟨rfl, rfl, Nat.zero_le _⟩)
  have hcost : nth (Φ Cost (List.replicate y.length Cost.input)) i ≤ q := by
    have := h.cost Cost.input (List.replicate y.length Cost.input) (by decide) (by simpa using yl) (fun q hq => by
      rw [List.eq_of_mem_replicate hq]; exact Cost.le_refl _)
    rw [Cost.after_input] at this
    exact this.nth i
  have zl := @Local.len _ _ _ _ _ _ h T _ _ _ _ _ (iT.withRoot r) y yl
  have z1 := lz.length
  generalize @Φ (ℝ × Cost3) _ _ _ _ _ (pairRoot ρ t s) (y.map fun a => (val a, (⟨1, 0, 0⟩ : Cost3))) = z at *
  have r1 := lz.nth (k := i) (by omega)
  have r2 := lX.nth (k := i) (by omega)
  obtain ⟨c1, c2, c3⟩ := lq.nth (k := i) (by omega)
  have hη := hm.η_nonneg
  have hS : (0 : ℝ) ≤ max A 1 := le_trans hA (le_max_left _ _)
  obtain ⟨m1, m2⟩ := hm.cost_mono hA hcost
  have hO' := m1.trans hO
  rw [Cost.size] at hO'
  obtain ⟨f, _, e⟩ := r1 (hm.big_mono hη hS c1.le c2.le c3 hO')
  refine ⟨f, le_trans ?_ m2⟩
  rw [r2, Cost.error, ← c1, ← c2]
  refine e.trans (sub_le_sub_right (mul_le_mul_of_nonneg_right (hm.pow_le c3) ?_) _)
  positivity

/-- A local stage with another constant. -/
theorem Local.stage_root {n b : ℕ} {σ : ℕ → ℕ → ℕ} {q : Cost} {Φ : Poly} (h : Local n n b σ q Φ) (hn : 0 < n) {G K : ℕ} {a : ℝ}
    (ha : 1 ≤ a) (hK1 : 1 ≤ K) (hK : q.g * √b ≤ a * K) (hG : q.g ≤ G) (hG1 : 1 ≤ G)
    (lip : ∀ X Y, X.length = n → Y.length = n →
      nrm n (fun i => nth (@Φ ℝ _ _ _ _ _ (realWithRoot ρ) X) i - nth (@Φ ℝ _ _ _ _ _ (realWithRoot ρ) Y) i) ≤ a * nrm n (fun i => nth X i - nth Y i))
    (grow : ∀ X, X.length = n → nrm n (nth (@Φ ℝ _ _ _ _ _ (realWithRoot ρ) X)) ≤ a * nrm n (nth X)) :
    Stage fin val u η Ω G √n (nrm n) (nrm n) n n (@Φ T _ _ _ _ _ (iT.withRoot r)) (@Φ ℝ _ _ _ _ _ (realWithRoot ρ)) a (K * q.depth t s) q.c := by
  refine ⟨@Local.len _ _ _ _ _ _ h T _ _ _ _ _ (iT.withRoot r), @Local.len _ _ _ _ _ _ h ℝ _ _ _ _ _ (realWithRoot ρ),
    lip, grow, fun x hx hf hO => ?_⟩
  have h1 : (1 : ℝ) ≤ √n := by
    rw [Real.one_le_sqrt]
    exact_mod_cast hn
  have hc : (0 : ℝ) ≤ q.c := Nat.cast_nonneg _
  have := err_of_elem hm h.lt h.inj (fun x hx hf i hi A hA hb hO => h.elem_root hm hr hρ hx hf hi hA hb hO) (w := fun _ => 1) (W := 1) (fun _ _ => zero_le_one) (fun _ _ => le_rfl) zero_le_one ha le_rfl h1 hK1
    (by rw [one_mul]; exact hK) (C := q.c) (by nlinarith) le_rfl hG hG1 hx hf hO
  simpa only [one_mul] using this

end

end RustDHT
