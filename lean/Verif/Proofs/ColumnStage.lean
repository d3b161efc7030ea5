import Verif.Proofs.Scales

/-! # Column steps as stages -/

set_option linter.unusedSectionVars false

namespace RustDHT

open Finset

/-- A function that works for any arithmetic and may fail. -/
abbrev PolyRes := ∀ (U : Type) [Zero U] [Add U] [Sub U] [Mul U] [Neg U] [FftNum U], List U → Res (List U)

theorem run_rel {U U' : Type} {f : List U → Res (List U)} {f' : List U' → Res (List U')} {R : U → U' → Prop} {l : List U} {l' : List U'}
    (h : ResRel (LR R) (f l) (f' l')) (hl : LR R l l') : LR R (run f l) (run f' l') := by
  unfold run
  generalize f l = r at h
  generalize f' l' = r' at h
  cases h with
  | ok h => exact h
  | error e => exact hl

/-- The positions on which position `p` of a column step depends. -/
def colσ (k h j p : ℕ) : ℕ := if j < k then (p / h + j) % k * h + p % h else (p / h + j) % k * h + (h - p % h) % h

theorem colσ_lt {k h : ℕ} (hk : 0 < k) (hh : 0 < h) (j p : ℕ) : colσ k h j p < k * h := by
  unfold colσ
  split
  · exact pos_lt (Nat.mod_lt _ hk) (Nat.mod_lt _ hh)
  · exact pos_lt (Nat.mod_lt _ hk) (Nat.mod_lt _ hh)

theorem add_mod_inj {k a b j : ℕ} (ha : a < k) (hb : b < k) (h : (a + j) % k = (b + j) % k) : a = b := by
  have := Nat.ModEq.add_right_cancel' j (show a + j ≡ b + j [MOD k] from h)
  rwa [Nat.ModEq, Nat.mod_eq_of_lt ha, Nat.mod_eq_of_lt hb] at this

theorem neg_mod_inj {h a b : ℕ} (ha : a < h) (hb : b < h) (e : (h - a) % h = (h - b) % h) : a = b := by
  rcases Nat.eq_zero_or_pos a with rfl | ha0 <;> rcases Nat.eq_zero_or_pos b with rfl | hb0
  · rfl
  · rw [Nat.sub_zero, Nat.mod_self, Nat.mod_eq_of_lt (by omega)] at e; omega
  · rw [Nat.sub_zero, Nat.mod_self, Nat.mod_eq_of_lt (by omega)] at e; omega
  · rw [Nat.mod_eq_of_lt (by omega), Nat.mod_eq_of_lt (by omega)] at e; omega

theorem split_inj {h a b c d : ℕ} (hb : b < h) (hd : d < h) (e : a * h + b = c * h + d) : a = c ∧ b = d := by
  have h1 := congrArg (· / h) e
  have h2 := congrArg (· % h) e
  simp only [div_of_lt hb, div_of_lt hd, mod_of_lt hb, mod_of_lt hd] at h1 h2
  exact ⟨h1, h2⟩

theorem colσ_inj {k h : ℕ} (hh : 0 < h) (j : ℕ) {p p' : ℕ} (hp : p < k * h) (hp' : p' < k * h)
    (e : colσ k h j p = colσ k h j p') : p = p' := by
  have h1 : p / h < k := (Nat.div_lt_iff_lt_mul hh).2 hp
  have h2 : p' / h < k := (Nat.div_lt_iff_lt_mul hh).2 hp'
  have m1 := Nat.mod_lt p hh
  have m2 := Nat.mod_lt p' hh
  have key : p / h = p' / h ∧ p % h = p' % h := by
    unfold colσ at e
    split at e
    · obtain ⟨e1, e2⟩ := split_inj m1 m2 e
      exact ⟨add_mod_inj h1 h2 e1, e2⟩
    · obtain ⟨e1, e2⟩ := split_inj (Nat.mod_lt _ hh) (Nat.mod_lt _ hh) e
      exact ⟨add_mod_inj h1 h2 e1, neg_mod_inj m1 m2 e2⟩
  rw [← div_mod_eq h p, ← div_mod_eq h p', key.1, key.2]

theorem col_congr {U : Type} [Zero U] {k h p : ℕ} (hk : 0 < k) {x y : List U}
    (e : ∀ j < 2 * k, nth x (colσ k h j p) = nth y (colσ k h j p)) :
    col k h x (p % h) = col k h y (p % h) ∧ col k h x ((h - p % h) % h) = col k h y ((h - p % h) % h) := by
  have sol : ∀ r < k, ∃ j < k, (p / h + j) % k = r := by
    intro r hr
    have h1 := Nat.mod_lt (p / h) hk
    have h2 := Nat.mod_add_div (p / h) k
    rcases Nat.lt_or_ge r (p / h % k) with hlt | hge
    · refine ⟨r + k - p / h % k, by omega, ?_⟩
      rw [show p / h + (r + k - p / h % k) = r + k * (p / h / k + 1) by rw [Nat.mul_add]; omega, Nat.add_mul_mod_self_left,
        Nat.mod_eq_of_lt hr]
    · refine ⟨r - p / h % k, by omega, ?_⟩
      rw [show p / h + (r - p / h % k) = r + k * (p / h / k) by omega, Nat.add_mul_mod_self_left, Nat.mod_eq_of_lt hr]
  refine ⟨tab_congr fun r hr => ?_, tab_congr fun r hr => ?_⟩
  · obtain ⟨j, hj, rfl⟩ := sol r hr
    have := e j (by omega)
    rwa [colσ, if_pos hj] at this
  · obtain ⟨j, hj, rfl⟩ := sol r hr
    have := e (j + k) (by omega)
    rwa [colσ, if_neg (by omega), show p / h + (j + k) = p / h + j + k by omega, Nat.add_mod_right] at this

theorem columns_local {k h : ℕ} (hk0 : 0 < k) (hh : 0 < h) {q : Cost} {ap : PolyRes}
    (parts : ∀ (U : Type) [Zero U] [Add U] [Sub U] [Mul U] [Neg U] [FftNum U],
      ∃ (c0 : List U → Res (List U)) (kn : List (Cx U) → List U → List U → Res (List U × List U)) (tw : List (List (Cx U))),
        ap U = applyColumns k h c0 kn tw ∧ Total k c0 ∧ tw.length = h / 2 ∧ ∀ t ∈ tw, KernelTotal k kn t)
    (rel : ∀ (U U' : Type) [Zero U] [Add U] [Sub U] [Mul U] [Neg U] [FftNum U] [Zero U'] [Add U'] [Sub U'] [Mul U'] [Neg U']
      [FftNum U'] (C R : U → U' → Prop), Respects C R → ∀ x x', LR R x x' → ResRel (LR R) (ap U x) (ap U' x'))
    (cost : Grow (k * h) (run (ap Cost)) q) :
    Local (k * h) (k * h) (2 * k) (colσ k h) q (fun U => run (ap U)) := by
  refine ⟨fun U _ _ _ _ _ _ x hx => ?_, fun U U' _ _ _ _ _ _ _ _ _ _ _ _ C R hr x x' _ hl => run_rel (rel U U' C R hr x x' hl) hl,
    fun U _ _ _ _ _ _ x y p hx hy hp e => ?_, cost, fun j _ p _ => colσ_lt hk0 hh j p,
    fun j _ p hp p' hp' e => colσ_inj hh j hp hp' e⟩
  · obtain ⟨c0, kn, tw, e, h0, htw, hk⟩ := parts U
    rw [e]
    exact (applyColumns_total hh h0 htw hk).length hx
  · obtain ⟨c0, kn, tw, ea, h0, htw, hk⟩ := parts U
    simp only [ea]
    rw [nth_run_applyColumns hh h0 htw hk hx hp, nth_run_applyColumns hh h0 htw hk hy hp]
    obtain ⟨e1, e2⟩ := col_congr hk0 e
    have hm := Nat.mod_lt p hh
    unfold columnVal
    split
    · rename_i h0
      rw [h0] at e1
      rw [e1]
    · rw [Nat.mod_eq_of_lt (show h - p % h < h by omega)] at e2
      split
      · rw [e1, e2]
      · rw [e1, e2]

/-- The permutation before the inner transforms of `MixedRadix*` and the like. -/
theorem revRow_lt {k h p : ℕ} (hh : 0 < h) (hp : p < k * h) : revRow k h (p / h) (p % h) * k + p / h < k * h := by
  have h1 : p / h < k := (Nat.div_lt_iff_lt_mul hh).2 hp
  have h2 := Nat.mod_lt p hh
  rw [Nat.mul_comm k h]
  exact pos_lt (by unfold revRow; split <;> omega) h1

theorem revRow_inj {k h p p' : ℕ} (hh : 0 < h) (hp : p < k * h) (hp' : p' < k * h)
    (e : revRow k h (p / h) (p % h) * k + p / h = revRow k h (p' / h) (p' % h) * k + p' / h) : p = p' := by
  have h1 : p / h < k := (Nat.div_lt_iff_lt_mul hh).2 hp
  have h2 : p' / h < k := (Nat.div_lt_iff_lt_mul hh).2 hp'
  have m1 := Nat.mod_lt p hh
  have m2 := Nat.mod_lt p' hh
  obtain ⟨e1, e2⟩ := split_inj h1 h2 e
  rw [e2] at e1
  have e3 : p % h = p' % h := by
    unfold revRow at e1
    split at e1 <;> omega
  rw [← div_mod_eq h p, ← div_mod_eq h p', e2, e3]

/-- The column step multiplies distances by `√k`. -/
theorem columns_scales {k h : ℕ} (hh : 0 < h) {ap : List ℝ → Res (List ℝ)}
    (hd : ∀ x, x.length = k * h → mrnFn k h dht ap x = dht x) : Scales (k * h) √k (run ap) := by
  have hl : ∀ p < k * h, revRow k h (p / h) (p % h) * k + p / h < k * h := fun p hp => revRow_lt hh hp
  have hi : ∀ p < k * h, ∀ p' < k * h, _ → p = p' := fun p hp p' hp' e => revRow_inj hh hp hp' e
  have s1 := scales_perm hl hi
  have s2 := scales_chunks (k := k) (scales_dht h) hh (Real.sqrt_nonneg _)
  have o1 := onto_perm hl hi
  have o2 := onto_chunks (k := k) (onto_dht hh) (fun x hx => by rw [length_dht, hx]) hh
  refine Scales.of_comp_right (b := √h) (J := fun x => mapChunks h dht (tab (k * h) fun p => nth x (revRow k h (p / h) (p % h) * k + p / h)))
    ?_ (by simpa using s2.comp s1) (o2.comp o1)
  have e : √(k : ℝ) * √h = √(k * h : ℕ) := by push_cast; rw [Real.sqrt_mul (Nat.cast_nonneg _)]
  rw [e]
  exact (scales_dht (k * h)).congr hd

theorem col_const {g k K : ℕ} (h : 2 * g ≤ K) : (g : ℝ) * √(2 * k : ℕ) ≤ √k * K := by
  have h2 : √(2 : ℝ) ≤ 2 := by rw [Real.sqrt_le_left (by norm_num)]; norm_num
  push_cast
  rw [Real.sqrt_mul (by norm_num)]
  have h3 : (2 : ℝ) * g ≤ K := by exact_mod_cast h
  have h4 := Real.sqrt_nonneg (k : ℝ)
  have h5 : (g : ℝ) * √2 ≤ K := by
    have := mul_le_mul_of_nonneg_left h2 (Nat.cast_nonneg (α := ℝ) g)
    linarith
  nlinarith

section
variable {T : Type} [Zero T] [Add T] [Sub T] [Mul T] [Neg T] [FftNum T]
variable {fin : T → Prop} {val : T → ℝ} {u η Ω : ℝ} {t s : ℕ}
variable (hm : FloatModel fin val u η Ω t s)
include hm

theorem one_le_sqrt_nat {n : ℕ} (hn : 0 < n) : (1 : ℝ) ≤ √n := by
  rw [Real.one_le_sqrt]
  exact_mod_cast hn

/-- A column step is a stage. -/
theorem columns_stage {k h : ℕ} (hk0 : 0 < k) (hh : 0 < h) {q : Cost} {ap : PolyRes}
    (hl : Local (k * h) (k * h) (2 * k) (colσ k h) q (fun U => run (ap U))) (hg : 1 ≤ q.g)
    (sc : Scales (k * h) √k (run (ap ℝ))) {G : ℕ} (hG : q.g ≤ G) :
    Stage fin val u η Ω G √(k * h : ℕ) (nrm (k * h)) (nrm (k * h)) (k * h) (k * h) (run (ap T)) (run (ap ℝ)) √k
      (2 * q.g * q.depth t s) q.c :=
  hl.stage hm (Nat.mul_pos hk0 hh) (K := 2 * q.g) (one_le_sqrt_nat hm hk0) (by omega) (col_const le_rfl) hG (by omega)
    (fun X Y hX hY => (sc.dist X Y hX hY).le) (fun X hX => (sc.norm X hX).le)

/-- `MixedRadixNxn`. -/
theorem mrn_stage {k h : ℕ} (hk0 : 0 < k) (hh : 0 < h) {ap : List T → Res (List T)} {apr : List ℝ → Res (List ℝ)}
    {f : List T → List T} {fr : List ℝ → List ℝ} {G D C D' C' : ℕ}
    (inner : Stage fin val u η Ω G √h (nrm h) (nrm h) h h f fr √h D C)
    (cols : Stage fin val u η Ω G √(k * h : ℕ) (nrm (k * h)) (nrm (k * h)) (k * h) (k * h) (run ap) (run apr) √k D' C') :
    Stage fin val u η Ω G √(k * h : ℕ) (nrm (k * h)) (nrm (k * h)) (k * h) (k * h) (mrnFn k h f ap) (mrnFn k h fr apr)
      √(k * h : ℕ) (D + D') (C + C') := by
  have hl : ∀ p < k * h, revRow k h (p / h) (p % h) * k + p / h < k * h := fun p hp => revRow_lt hh hp
  have hi : ∀ p < k * h, ∀ p' < k * h, _ → p = p' := fun p hp p' hp' e => revRow_inj hh hp hp' e
  have hM := Real.sqrt_nonneg ((k * h : ℕ) : ℝ)
  have n0 := nrm_isNrm (k * h)
  have s1 := perm_stage (Ω := Ω) (G := G) (M := √(k * h : ℕ)) hm hl hi hM
  have s2 := inner.chunks hm (k := k) hh (Real.sqrt_nonneg _)
  have s12 := s1.comp hm s2 n0 n0 n0 hM le_rfl (one_le_sqrt_nat hm hh)
  have s := s12.comp hm cols n0 n0 n0 hM (by rw [one_mul]; exact one_le_sqrt_nat hm hh) (one_le_sqrt_nat hm hk0)
  have e : 1 * √(h : ℝ) * √k = √(k * h : ℕ) := by push_cast; rw [Real.sqrt_mul (Nat.cast_nonneg _)]; ring
  rw [e, Nat.zero_add, Nat.zero_add] at s
  exact s

end

/-! ## The instances -/

theorem mr2_local {h : ℕ} (hh : 0 < h) : Local (2 * h) (2 * h) (2 * 2) (colσ 2 h) ⟨3, 2, 4, 1, 0⟩ (fun U => run (mr2Apply U h)) :=
  columns_local (ap := fun U => mr2Apply U h) (by omega) hh
    (fun U => ⟨_, _, _, rfl, total_of_performs performs2, by simp [mr2Chunks], mem_map_range fun _ => mr2Kernel_total _⟩)
    (fun U U' _ _ _ _ _ _ _ _ _ _ _ _ C R hr x x' hl => by
      refine applyColumns_rel (fun b b' hb => performInPlace_rel (fun _ _ hm => contiguous2_rel hr hm) hb) (mr2Kernel_rel hr) ?_ hl
      refine LR.table fun c hc => .cons (hr.inv _ _ ?_) .nil
      rw [List.mem_range'_1] at hc
      omega) (mr2_grow hh)

theorem mr3_local {h : ℕ} (hh : 0 < h) : Local (3 * h) (3 * h) (2 * 3) (colσ 3 h) ⟨17, 26, 11, 2, 1⟩ (fun U => run (mr3Apply U h)) :=
  columns_local (ap := fun U => mr3Apply U h) (by omega) hh
    (fun U => ⟨_, _, _, rfl, total_of_performs performs3, by simp [mr3Chunks], mem_map_range fun _ => mr3Kernel_total _⟩)
    (fun U U' _ _ _ _ _ _ _ _ _ _ _ _ C R hr x x' hl => by
      refine applyColumns_rel (fun b b' hb => performInPlace_rel (fun _ _ hm => contiguous3_rel hr hm) hb) (mr3Kernel_rel hr) ?_ hl
      refine LR.table fun c hc => .cons (hr.scaled ?_) .nil
      rw [List.mem_range'_1] at hc
      omega) (mr3_grow hh)

theorem mr4_local {h : ℕ} (hh : 0 < h) : Local (4 * h) (4 * h) (2 * 4) (colσ 4 h) ⟨7, 4, 5, 1, 0⟩ (fun U => run (mr4Apply U h)) :=
  columns_local (ap := fun U => mr4Apply U h) (by omega) hh
    (fun U => ⟨_, _, _, rfl, total_of_performs performs4, by simp [mr4Chunks], mem_map_range fun _ => mr4Kernel_total _ _⟩)
    (fun U U' _ _ _ _ _ _ _ _ _ _ _ _ C R hr x x' hl => by
      refine applyColumns_rel (fun b b' hb => performInPlace_rel (fun _ _ hm => contiguous4_rel hr hm) hb) (mr4Kernel_rel hr) ?_ hl
      refine LR.table fun c hc => .cons (hr.inv _ _ ?_) (.cons (hr.inv _ _ ?_) .nil)
      all_goals
        rw [List.mem_range'_1] at hc
        omega) (mr4_grow hh)

theorem mr5_local {h : ℕ} (hh : 0 < h) : Local (5 * h) (5 * h) (2 * 5) (colσ 5 h) ⟨33, 52, 12, 2, 1⟩ (fun U => run (mr5Apply U h)) :=
  columns_local (ap := fun U => mr5Apply U h) (by omega) hh
    (fun U => ⟨_, _, _, rfl, total_of_performs performs5, by simp [mr5Chunks], mem_map_range fun _ => mr5Kernel_total _ _⟩)
    (fun U U' _ _ _ _ _ _ _ _ _ _ _ _ C R hr x x' hl => by
      refine applyColumns_rel (fun b b' hb => performInPlace_rel (fun _ _ hm => contiguous5_rel hr hm) hb) (mr5Kernel_rel hr) ?_ hl
      refine LR.table fun c hc => .cons (hr.scaled ?_) (.cons (hr.scaled ?_) .nil)
      all_goals
        rw [List.mem_range'_1] at hc
        omega) (mr5_grow hh)

theorem mr6_local {h : ℕ} (hh : 0 < h) : Local (6 * h) (6 * h) (2 * 6) (colσ 6 h) ⟨57, 92, 15, 3, 1⟩ (fun U => run (mr6Apply U h)) :=
  columns_local (ap := fun U => mr6Apply U h) (by omega) hh
    (fun U => ⟨_, _, _, rfl, total_of_performs performs6, by simp [mr6Chunks], mem_map_range fun _ => mr6Kernel_total _ _ _⟩)
    (fun U U' _ _ _ _ _ _ _ _ _ _ _ _ C R hr x x' hl => by
      refine applyColumns_rel (fun b b' hb => performInPlace_rel (fun _ _ hm => contiguous6_rel hr hm) hb) (mr6Kernel_rel hr) ?_ hl
      refine LR.table fun c hc => .cons (hr.scaled ?_) (.cons (hr.scaled ?_) (.cons (hr.scaled ?_) .nil))
      all_goals
        rw [List.mem_range'_1] at hc
        omega) (mr6_grow hh)

theorem r4_local {h t : ℕ} (hh : 0 < h) (ht : 0 < t) :
    Local (4 * h) (4 * h) (2 * 4) (colσ 4 h) ⟨7, 4, 5, 1, 0⟩ (fun U => run (r4Apply U h t)) :=
  columns_local (ap := fun U => r4Apply U h t) (by omega) hh
    (fun U => ⟨_, _, _, rfl, total_of_performs performs4, by simp [r4Chunks], r4Chunks_total⟩)
    (fun U U' _ _ _ _ _ _ _ _ _ _ _ _ C R hr x x' hl => by
      refine applyColumns_rel (fun b b' hb => performInPlace_rel (fun _ _ hm => contiguous4_rel hr hm) hb) (mr4Kernel_rel hr) ?_ hl
      refine LR.table fun c hc => .cons (hr.inv _ _ ?_) (.cons (hr.inv _ _ ?_) .nil)
      all_goals
        rw [List.mem_range'_1] at hc
        refine Nat.mul_lt_mul_of_pos_right ?_ ht
        omega) (r4_grow hh)

end RustDHT
