import Verif.Proofs.Norm
import Verif.Proofs.PlanRounding
import Verif.Proofs.GrowthPlan

/-! # Rounding errors in the Euclidean norm, stage by stage -/

set_option linter.unusedSectionVars false
set_option linter.style.haveILetI false

namespace RustDHT

open Finset

/-- Norms, as far as they are needed. -/
structure IsNrm (N : (ℕ → ℝ) → ℝ) : Prop where
  nonneg : ∀ f, 0 ≤ N f
  sub : ∀ f g h : ℕ → ℝ, N (fun i => f i - h i) ≤ N (fun i => f i - g i) + N (fun i => g i - h i)
  tri : ∀ f g : ℕ → ℝ, N f ≤ N (fun i => f i - g i) + N g

theorem nrm_isNrm (n : ℕ) : IsNrm (nrm n) := by
  refine ⟨nrm_nonneg n, nrm_sub_le n, fun f g => ?_⟩
  have := nrm_add_le n (fun i => f i - g i) g
  simpa using this

/-- A norm `N`, perturbed by `D` roundings and `C` underflows per element. -/
noncomputable def bnd (u η : ℝ) (D C : ℕ) (M N : ℝ) : ℝ := (1 + u) ^ D * (N + C * η * M)

section
variable {T : Type} [Zero T]

/-- One stage of a computation: `F` in floating point, `E` with exact numbers.  `N0` and `N1` measure inputs and outputs; `a`
bounds the growth of norms; `M` is the norm of the underflows. -/
structure Stage (fin : T → Prop) (val : T → ℝ) (u η Ω : ℝ) (G : ℕ) (M : ℝ) (N0 N1 : (ℕ → ℝ) → ℝ) (n m : ℕ)
    (F : List T → List T) (E : List ℝ → List ℝ) (a : ℝ) (D C : ℕ) : Prop where
  lenF : ∀ x, x.length = n → (F x).length = m
  lenE : ∀ x, x.length = n → (E x).length = m
  lip : ∀ X Y, X.length = n → Y.length = n →
    N1 (fun i => nth (E X) i - nth (E Y) i) ≤ a * N0 (fun i => nth X i - nth Y i)
  grow : ∀ X, X.length = n → N1 (nth (E X)) ≤ a * N0 (nth X)
  err : ∀ x, x.length = n → (∀ i < n, fin (nth x i)) →
    G * (a * bnd u η D C M (max (N0 fun i => val (nth x i)) 1)) ≤ Ω →
    (∀ i < m, fin (nth (F x) i)) ∧
    N1 (fun i => val (nth (F x) i) - nth (E (x.map val)) i)
      ≤ a * (bnd u η D C M (N0 fun i => val (nth x i)) - N0 fun i => val (nth x i))

end

theorem comp_arith {a a' P P' S Sy w w' v : ℝ} (ha : 1 ≤ a) (ha' : 0 ≤ a') (hP : 1 ≤ P) (hP' : 1 ≤ P')
    (hv : 0 ≤ v) (hw' : w' ≤ a * v) (hy : Sy ≤ a * (P * (S + w))) :
    a' * (P' * (Sy + w') - Sy) + a' * (a * (P * (S + w) - S)) ≤ a * a' * (P * P' * (S + (w + v)) - S) := by
  have h1 : (P' - 1) * Sy ≤ (P' - 1) * (a * (P * (S + w))) := mul_le_mul_of_nonneg_left hy (by linarith)
  have h2 : a * v ≤ a * P * v := mul_le_mul_of_nonneg_right (le_mul_of_one_le_right (by linarith) hP) hv
  have h3 : P' * w' ≤ P' * (a * P * v) := mul_le_mul_of_nonneg_left (hw'.trans h2) (by linarith)
  have h4 : P' * (Sy + w') - Sy + a * (P * (S + w) - S) ≤ a * (P * P' * (S + (w + v)) - S) := by linarith
  calc a' * (P' * (Sy + w') - Sy) + a' * (a * (P * (S + w) - S)) = a' * (P' * (Sy + w') - Sy + a * (P * (S + w) - S)) := by ring
    _ ≤ a' * (a * (P * P' * (S + (w + v)) - S)) := mul_le_mul_of_nonneg_left h4 ha'
    _ = _ := by ring

theorem comp_arith1 {a a' P P' m w w' v y : ℝ} (ha : 1 ≤ a) (ha' : 0 ≤ a') (hP : 1 ≤ P) (hP' : 1 ≤ P')
    (hv : 0 ≤ v) (hw' : w' ≤ a * v) (hy : y ≤ a * (P * (m + w))) :
    a' * (P' * (y + w')) ≤ a * a' * (P * P' * (m + (w + v))) := by
  have h2 : a * v ≤ a * P * v := mul_le_mul_of_nonneg_right (le_mul_of_one_le_right (by linarith) hP) hv
  have h1 : y + w' ≤ a * P * (m + (w + v)) := by linarith
  calc a' * (P' * (y + w')) ≤ a' * (P' * (a * P * (m + (w + v)))) := by gcongr
    _ = _ := by ring

section
variable {T : Type} [Zero T] [Add T] [Sub T] [Mul T] [Neg T] [FftNum T]
variable {fin : T → Prop} {val : T → ℝ} {u η Ω : ℝ} {t s : ℕ}
variable (hm : FloatModel fin val u η Ω t s)
include hm

theorem FloatModel.nth_map (x : List T) (i : ℕ) : nth (x.map val) i = val (nth x i) := by
  unfold nth
  rw [List.getElem?_map]
  cases x[i]? with
  | none => exact hm.zero.2.symm
  | some a => rfl

theorem FloatModel.nth_map' (x : List T) : nth (x.map val) = fun i => val (nth x i) := funext (hm.nth_map x)

theorem FloatModel.bnd_mono {D D' C C' : ℕ} {M N N' : ℝ} (hD : D ≤ D') (hC : C ≤ C') (hM : 0 ≤ M) (hN0 : 0 ≤ N) (hN : N ≤ N') :
    bnd u η D C M N ≤ bnd u η D' C' M N' := by
  have hη := hm.η_nonneg
  have hC' : (C : ℝ) ≤ C' := by exact_mod_cast hC
  refine mul_le_mul (hm.pow_le hD) ?_ (by positivity) (hm.pow_pos _).le
  have := mul_le_mul_of_nonneg_right (mul_le_mul_of_nonneg_right hC' hη) hM
  linarith

theorem FloatModel.le_bnd {D C : ℕ} {M N : ℝ} (hM : 0 ≤ M) (hN0 : 0 ≤ N) : N ≤ bnd u η D C M N := by
  have := hm.bnd_mono (Nat.zero_le D) (Nat.zero_le C) hM hN0 le_rfl
  simpa [bnd] using this

/-- More roundings, more underflows, a larger bound on sizes. -/
theorem Stage.mono {G G' : ℕ} {M : ℝ} {N0 N1 : (ℕ → ℝ) → ℝ} {n m : ℕ} {F : List T → List T} {E : List ℝ → List ℝ} {a : ℝ}
    {D D' C C' : ℕ} (h : Stage fin val u η Ω G M N0 N1 n m F E a D C) (n0 : IsNrm N0) (hM : 0 ≤ M) (ha : 0 ≤ a)
    (hG : G ≤ G') (hD : D ≤ D') (hC : C ≤ C') : Stage fin val u η Ω G' M N0 N1 n m F E a D' C' := by
  refine ⟨h.lenF, h.lenE, h.lip, h.grow, fun x hx hf hO => ?_⟩
  have p1 := n0.nonneg fun i => val (nth x i)
  have b1 := hm.bnd_mono hD hC hM (le_trans p1 (le_max_left _ 1)) le_rfl
  have b2 := hm.bnd_mono hD hC hM p1 le_rfl
  have b0 := le_trans (le_trans p1 (le_max_left _ 1)) (hm.le_bnd (D := D) (C := C) hM (le_trans p1 (le_max_left _ 1)))
  obtain ⟨h1, h2⟩ := h.err x hx hf (le_trans (mul_le_mul (by exact_mod_cast hG) (mul_le_mul_of_nonneg_left b1 ha)
    (mul_nonneg ha b0) (Nat.cast_nonneg _)) hO)
  exact ⟨h1, h2.trans (mul_le_mul_of_nonneg_left (by linarith) ha)⟩

theorem Stage.congr {G : ℕ} {M : ℝ} {N0 N1 : (ℕ → ℝ) → ℝ} {n m : ℕ} {F F' : List T → List T} {E E' : List ℝ → List ℝ} {a : ℝ}
    {D C : ℕ} (h : Stage fin val u η Ω G M N0 N1 n m F E a D C) (hF : ∀ x, x.length = n → F' x = F x)
    (hE : ∀ x, x.length = n → E' x = E x) : Stage fin val u η Ω G M N0 N1 n m F' E' a D C := by
  refine ⟨fun x hx => by rw [hF x hx, h.lenF x hx], fun x hx => by rw [hE x hx, h.lenE x hx], fun X Y hX hY => ?_,
    fun X hX => ?_, fun x hx hf hO => ?_⟩
  · rw [hE X hX, hE Y hY]; exact h.lip X Y hX hY
  · rw [hE X hX]; exact h.grow X hX
  · rw [hF x hx, hE _ (by simpa using hx)]; exact h.err x hx hf hO

/-- One stage after another. -/
theorem Stage.comp' {G : ℕ} {M M' : ℝ} {N0 N1 N2 : (ℕ → ℝ) → ℝ} {n m l : ℕ} {F F' : List T → List T} {E E' : List ℝ → List ℝ}
    {a a' : ℝ} {D D' C C' : ℕ} (h : Stage fin val u η Ω G M N0 N1 n m F E a D C)
    (h' : Stage fin val u η Ω G M' N1 N2 m l F' E' a' D' C') (n0 : IsNrm N0) (n1 : IsNrm N1) (n2 : IsNrm N2) (hM : 0 ≤ M)
    (ha : 1 ≤ a) (ha' : 1 ≤ a') (hMM : M' ≤ a * M) :
    Stage fin val u η Ω G M N0 N2 n l (fun x => F' (F x)) (fun x => E' (E x)) (a * a') (D + D') (C + C') := by
  have ha0 : 0 ≤ a := by linarith
  have ha0' : 0 ≤ a' := by linarith
  refine ⟨fun x hx => h'.lenF _ (h.lenF x hx), fun x hx => h'.lenE _ (h.lenE x hx), fun X Y hX hY => ?_, fun X hX => ?_,
    fun x hx hf hO => ?_⟩
  · refine (h'.lip _ _ (h.lenE X hX) (h.lenE Y hY)).trans ?_
    rw [mul_comm a, mul_assoc]
    exact mul_le_mul_of_nonneg_left (h.lip X Y hX hY) ha0'
  · refine (h'.grow _ (h.lenE X hX)).trans ?_
    rw [mul_comm a, mul_assoc]
    exact mul_le_mul_of_nonneg_left (h.grow X hX) ha0'
  have hη := hm.η_nonneg
  have hX : (x.map val).length = n := by simpa using hx
  have p0 := n0.nonneg fun i => val (nth x i)
  set S := N0 fun i => val (nth x i) with hS
  have hS1 : 1 ≤ max S 1 := le_max_right _ _
  have q1 := hm.one_le_pow D
  have q2 := hm.one_le_pow D'
  set P := (1 + u) ^ D with hP
  set P' := (1 + u) ^ D' with hP'
  have k1 : 0 ≤ C * η * M := by positivity
  have k2 : 0 ≤ C' * η * M := by positivity
  set w := C * η * M with hw
  set v := C' * η * M with hv
  set w' := C' * η * M' with hw'
  have kv : w' ≤ a * v := by
    have : C' * η * M' ≤ C' * η * (a * M) := mul_le_mul_of_nonneg_left hMM (by positivity)
    rw [hv, hw']
    linarith
  have eb : ∀ N, bnd u η D C M N = P * (N + w) := fun N => rfl
  have eb' : ∀ N, bnd u η D' C' M' N = P' * (N + w') := fun N => rfl
  have ec : ∀ N, bnd u η (D + D') (C + C') M N = P * P' * (N + (w + v)) := fun N => by
    rw [bnd, pow_add]; push_cast; rw [hw, hv]; ring
  rw [ec] at hO ⊢
  -- what the second stage needs, from the bound of the composition
  have big : ∀ y, y ≤ a * (P * (max S 1 + w)) → a' * (P' * (y + w')) ≤ a * a' * (P * P' * (max S 1 + (w + v))) :=
    fun y hy => comp_arith1 ha ha0' q1 q2 k2 kv hy
  have hO1 : G * (a * bnd u η D C M (max S 1)) ≤ Ω := by
    rw [eb]
    refine le_trans (mul_le_mul_of_nonneg_left ?_ (Nat.cast_nonneg _)) hO
    have h1 : P * (max S 1 + w) ≤ P * P' * (max S 1 + (w + v)) := by
      have h3 : 0 ≤ max S 1 + w := by linarith
      have h4 : P * (max S 1 + w) ≤ P * P' * (max S 1 + w) := by
        refine mul_le_mul_of_nonneg_right ?_ h3; nlinarith
      have h5 : P * P' * (max S 1 + w) ≤ P * P' * (max S 1 + (w + v)) := by gcongr; linarith
      linarith
    calc a * (P * (max S 1 + w)) ≤ a * (P * P' * (max S 1 + (w + v))) := mul_le_mul_of_nonneg_left h1 ha0
      _ ≤ a * a' * (P * P' * (max S 1 + (w + v))) := by
        refine mul_le_mul_of_nonneg_right ?_ (by positivity); nlinarith
  obtain ⟨f1, e1⟩ := h.err x hx hf hO1
  rw [eb] at e1
  have g1 := h.grow _ hX
  rw [hm.nth_map' x] at g1
  set y := F x with hy
  have hyl : y.length = m := h.lenF x hx
  have hY : (y.map val).length = m := by simpa using hyl
  have hEl := h.lenE _ hX
  -- the norm after the first stage
  have ny : N1 (fun i => val (nth y i)) ≤ a * (P * (S + w)) := by
    have := n1.tri (fun i => val (nth y i)) (nth (E (x.map val)))
    linarith
  have ny0 := n1.nonneg fun i => val (nth y i)
  set Sy := N1 fun i => val (nth y i) with hSy
  have nymax : max Sy 1 ≤ a * (P * (max S 1 + w)) := by
    have h2 : 1 ≤ a * P := by nlinarith
    refine max_le (ny.trans ?_) ?_
    · have : S ≤ max S 1 := le_max_left _ _
      gcongr
    · nlinarith
  have hO2 : G * (a' * bnd u η D' C' M' (max Sy 1)) ≤ Ω := by
    rw [eb']
    exact le_trans (mul_le_mul_of_nonneg_left (big _ nymax) (Nat.cast_nonneg _)) hO
  obtain ⟨f2, e2⟩ := h'.err y hyl f1 hO2
  refine ⟨f2, ?_⟩
  rw [eb'] at e2
  have l2 := h'.lip (y.map val) (E (x.map val)) hY hEl
  rw [hm.nth_map' y] at l2
  have tri := n2.sub (fun i => val (nth (F' y) i)) (nth (E' (y.map val))) (nth (E' (E (x.map val))))
  refine tri.trans ((add_le_add e2 (l2.trans (mul_le_mul_of_nonneg_left e1 ha0'))).trans ?_)
  exact comp_arith ha ha0' q1 q2 k2 kv ny

theorem Stage.comp {G : ℕ} {M : ℝ} {N0 N1 N2 : (ℕ → ℝ) → ℝ} {n m l : ℕ} {F F' : List T → List T} {E E' : List ℝ → List ℝ}
    {a a' : ℝ} {D D' C C' : ℕ} (h : Stage fin val u η Ω G M N0 N1 n m F E a D C)
    (h' : Stage fin val u η Ω G M N1 N2 m l F' E' a' D' C') (n0 : IsNrm N0) (n1 : IsNrm N1) (n2 : IsNrm N2) (hM : 0 ≤ M)
    (ha : 1 ≤ a) (ha' : 1 ≤ a') :
    Stage fin val u η Ω G M N0 N2 n l (fun x => F' (F x)) (fun x => E' (E x)) (a * a') (D + D') (C + C') :=
  h.comp' hm h' n0 n1 n2 hM ha ha' (le_mul_of_one_le_left hM ha)

/-- A stage that only moves elements. -/
theorem perm_stage {G n : ℕ} {M : ℝ} {σ : ℕ → ℕ} (h : ∀ i < n, σ i < n) (hi : ∀ i < n, ∀ j < n, σ i = σ j → i = j) (hM : 0 ≤ M) :
    Stage fin val u η Ω G M (nrm n) (nrm n) n n (fun x => tab n fun i => nth x (σ i)) (fun x => tab n fun i => nth x (σ i)) 1 0 0 := by
  refine ⟨fun _ _ => length_tab _ _, fun _ _ => length_tab _ _, fun X Y _ _ => ?_, fun X _ => ?_, fun x hx hf _ => ⟨?_, ?_⟩⟩
  · rw [one_mul, ← nrm_perm (f := fun i => nth X i - nth Y i) h hi]
    exact (nrm_congr fun i hi => by rw [nth_tab hi, nth_tab hi]).le
  · rw [one_mul, ← nrm_perm (f := nth X) h hi]
    exact (nrm_congr fun i hi => by rw [nth_tab hi]).le
  · intro i hi
    rw [nth_tab hi]
    exact hf _ (h i hi)
  · have e : nrm n (fun i => val (nth (tab n fun i => nth x (σ i)) i) - nth (tab n fun i => nth (x.map val) (σ i)) i) = 0 := by
      rw [← nrm_zero n]
      refine nrm_congr fun i hi => ?_
      rw [nth_tab hi, nth_tab hi, hm.nth_map, sub_self]
    rw [e, one_mul, sub_nonneg]
    exact hm.le_bnd hM (nrm_nonneg _ _)

theorem nth_chunk {U : Type} [Zero U] {h r c : ℕ} (hc : c < h) (x : List U) : nth ((x.drop (r * h)).take h) c = nth x (r * h + c) := by
  rw [nth_take hc, nth_drop]

/-- The same stage on every chunk. -/
theorem Stage.chunks {G k h : ℕ} {F : List T → List T} {E : List ℝ → List ℝ} {a : ℝ} {D C : ℕ}
    (st : Stage fin val u η Ω G √h (nrm h) (nrm h) h h F E a D C) (hh : 0 < h) (ha : 0 ≤ a) :
    Stage fin val u η Ω G √(k * h : ℕ) (nrm (k * h)) (nrm (k * h)) (k * h) (k * h) (mapChunks h F) (mapChunks h E) a D C := by
  have hη := hm.η_nonneg
  have bound : ∀ {r : ℕ}, r < k → (r + 1) * h ≤ k * h := fun hr => Nat.mul_le_mul_right h hr
  have clen : ∀ {U : Type} [Zero U] {r : ℕ} (x : List U), x.length = k * h → r < k → ((x.drop (r * h)).take h).length = h := by
    intro U _ r x hx hr
    have := bound hr
    rw [List.length_take, List.length_drop, hx]
    rw [Nat.add_mul] at this
    omega
  have cnth : ∀ {r c : ℕ} (X : List ℝ), X.length = k * h → r < k → c < h →
      nth (mapChunks h E X) (r * h + c) = nth (E ((X.drop (r * h)).take h)) c :=
    fun X hX hr hc => nth_mapChunks st.lenE hc (by rw [hX]; exact bound hr)
  have cnthF : ∀ {r c : ℕ} (X : List T), X.length = k * h → r < k → c < h →
      nth (mapChunks h F X) (r * h + c) = nth (F ((X.drop (r * h)).take h)) c :=
    fun X hX hr hc => nth_mapChunks st.lenF hc (by rw [hX]; exact bound hr)
  refine ⟨fun x hx => by rw [length_mapChunks hh st.lenF, hx], fun x hx => by rw [length_mapChunks hh st.lenE, hx],
    fun X Y hX hY => ?_, fun X hX => ?_, fun x hx hf hO => ?_⟩
  · rw [nrm_blocks, nrm_blocks, ← nrm_mul _ ha]
    refine nrm_mono fun r hr => ?_
    rw [abs_of_nonneg (nrm_nonneg _ _)]
    refine le_trans (le_of_eq (nrm_congr fun c hc => ?_))
      ((st.lip _ _ (clen X hX hr) (clen Y hY hr)).trans (le_of_eq ?_))
    · rw [cnth X hX hr hc, cnth Y hY hr hc]
    · congr 1
      exact nrm_congr fun c hc => by rw [nth_chunk hm hc, nth_chunk hm hc]
  · rw [nrm_blocks, nrm_blocks, ← nrm_mul _ ha]
    refine nrm_mono fun r hr => ?_
    rw [abs_of_nonneg (nrm_nonneg _ _)]
    refine le_trans (le_of_eq (nrm_congr fun c hc => ?_)) ((st.grow _ (clen X hX hr)).trans (le_of_eq ?_))
    · rw [cnth X hX hr hc]
    · congr 1
      exact nrm_congr fun c hc => by rw [nth_chunk hm hc]
  have hX : (x.map val).length = k * h := by simpa using hx
  have hkh : (√(k * h : ℕ) : ℝ) = √k * √h := by push_cast; exact Real.sqrt_mul (Nat.cast_nonneg _) _
  -- norms of chunks
  have cn : ∀ r, nrm h (fun i => val (nth ((x.drop (r * h)).take h) i)) = nrm h (fun c => val (nth x (r * h + c))) :=
    fun r => nrm_congr fun c hc => by rw [nth_chunk hm hc]
  have cle : ∀ r < k, nrm h (fun c => val (nth x (r * h + c))) ≤ nrm (k * h) fun i => val (nth x i) := by
    intro r hr
    rw [nrm_blocks]
    have := abs_le_nrm hr fun r => nrm h fun c => val (nth x (r * h + c))
    rwa [abs_of_nonneg (nrm_nonneg _ _)] at this
  have hM : √(h : ℝ) ≤ √(k * h : ℕ) ∨ k = 0 := by
    rcases Nat.eq_zero_or_pos k with h0 | h0
    · exact Or.inr h0
    · exact Or.inl (Real.sqrt_le_sqrt (by exact_mod_cast Nat.le_mul_of_pos_left h h0))
  have each : ∀ r < k, (∀ i < h, fin (nth (F ((x.drop (r * h)).take h)) i)) ∧
      nrm h (fun i => val (nth (F ((x.drop (r * h)).take h)) i) - nth (E (((x.drop (r * h)).take h).map val)) i)
        ≤ a * (bnd u η D C √h (nrm h fun c => val (nth x (r * h + c))) - nrm h fun c => val (nth x (r * h + c))) := by
    intro r hr
    have hcl := clen x hx hr
    have := st.err _ hcl (fun i hi => by rw [nth_chunk hm hi]; exact hf _ (pos_lt hr hi)) (by
      refine le_trans (mul_le_mul_of_nonneg_left (mul_le_mul_of_nonneg_left ?_ ha) (Nat.cast_nonneg _)) hO
      rw [cn r]
      have h1 : max (nrm h fun c => val (nth x (r * h + c))) 1 ≤ max (nrm (k * h) fun i => val (nth x i)) 1 :=
        max_le_max (cle r hr) le_rfl
      have h2 : (0 : ℝ) ≤ max (nrm h fun c => val (nth x (r * h + c))) 1 := by positivity
      unfold bnd
      have h3 := (hM.resolve_right (by omega))
      have hp := (hm.pow_pos D).le
      gcongr)
    rwa [cn r] at this
  refine ⟨fun i hi => ?_, ?_⟩
  · have h1 : i / h < k := (Nat.div_lt_iff_lt_mul hh).2 hi
    have h2 := Nat.mod_lt i hh
    have := (each _ h1).1 _ h2
    rw [← cnthF x hx h1 h2, div_mod_eq] at this
    exact this
  · have hP := hm.one_le_pow D
    set P := (1 + u) ^ D with hPd
    have hsub : ∀ (N : ℝ), bnd u η D C √h N - N = (P - 1) * N + P * (C * η * √h) := fun N => by rw [bnd]; ring
    have hsub' : ∀ (N : ℝ), bnd u η D C √(k * h : ℕ) N - N = (P - 1) * N + √k * (P * (C * η * √h)) := fun N => by
      rw [bnd, hkh]; ring
    rw [hsub', nrm_blocks k h fun i => val (nth x i), nrm_blocks]
    have hc0 : 0 ≤ P * (C * η * √h) := by positivity
    have step : nrm k (fun r => a * ((P - 1) * nrm h (fun c => val (nth x (r * h + c))) + P * (C * η * √h)))
        ≤ a * ((P - 1) * nrm k (fun r => nrm h fun c => val (nth x (r * h + c))) + √k * (P * (C * η * √h))) := by
      rw [nrm_mul _ ha]
      refine mul_le_mul_of_nonneg_left ?_ ha
      refine (nrm_add_le k _ _).trans ?_
      rw [nrm_mul _ (by linarith), nrm_const _ hc0]
    refine le_trans (nrm_mono fun r hr => ?_) step
    rw [abs_of_nonneg (nrm_nonneg _ _)]
    have h1 := (each r hr).2
    rw [hsub] at h1
    refine le_trans (le_of_eq (nrm_congr fun c hc => ?_)) h1
    rw [cnthF x hx hr hc, cnth _ hX hr hc, List.map_take, List.map_drop]

end

end RustDHT
