import Verif.Proofs.MixStage
import Verif.Proofs.Radix4Perm

/-! # Leaves and `Radix4` in stages -/

set_option linter.unusedSectionVars false

namespace RustDHT

open Finset

/-- When every output may depend on every input. -/
theorem full_local {n : ℕ} {q : Cost} {Φ : Poly} (hn : 0 < n)
    (len : ∀ (U : Type) [Zero U] [Add U] [Sub U] [Mul U] [Neg U] [FftNum U] (x : List U), x.length = n → (Φ U x).length = n)
    (rel : ∀ (U U' : Type) [Zero U] [Add U] [Sub U] [Mul U] [Neg U] [FftNum U] [Zero U'] [Add U'] [Sub U'] [Mul U'] [Neg U']
      [FftNum U'] (C R : U → U' → Prop), Respects C R → ∀ x x', x.length = n → LR R x x' → LR R (Φ U x) (Φ U' x'))
    (cost : Grow n (Φ Cost) q) : Local n n n (fun j i => (i + j) % n) q Φ := by
  refine ⟨len, rel, fun U _ _ _ _ _ _ x y i hx hy hi e => ?_, cost, fun j _ i _ => Nat.mod_lt _ hn,
    fun j _ i hi i' hi' e => add_mod_inj hi hi' e⟩
  have : x = y := by
    refine list_ext_nth (by omega) fun k hk => ?_
    rw [hx] at hk
    have sol : ∃ j < n, (i + j) % n = k := by
      rcases Nat.lt_or_ge k i with h | h
      · exact ⟨k + n - i, by omega, by rw [show i + (k + n - i) = k + n by omega, Nat.add_mod_right, Nat.mod_eq_of_lt hk]⟩
      · exact ⟨k - i, by omega, by rw [show i + (k - i) = k by omega, Nat.mod_eq_of_lt hk]⟩
    obtain ⟨j, hj, rfl⟩ := sol
    exact e j hj
  rw [this]

/-- Straight-line code. -/
theorem bfly_local {n : ℕ} (hn : 0 < n) {q : Cost}
    {c : ∀ (U : Type) [Zero U] [Add U] [Sub U] [Mul U] [Neg U] [FftNum U], RawIO U → Res (RawIO U)}
    (tot : ∀ (U : Type) [Zero U] [Add U] [Sub U] [Mul U] [Neg U] [FftNum U], Total n (performInPlace (c U)))
    (rel : ∀ (U U' : Type) [Zero U] [Add U] [Sub U] [Mul U] [Neg U] [FftNum U] [Zero U'] [Add U'] [Sub U'] [Mul U'] [Neg U']
      [FftNum U'] (C R : U → U' → Prop), Respects C R → ∀ m m', RawRel R m m' → ResRel (RawRel R) (c U m) (c U' m'))
    (cost : Grow n (bflyFn (c Cost)) q) : Local n n n (fun j i => (i + j) % n) q (fun U => bflyFn (c U)) :=
  full_local hn (fun U _ _ _ _ _ _ _ hx => (tot U).length hx)
    (fun U U' _ _ _ _ _ _ _ _ _ _ _ _ C R hr _ _ _ hl => run_rel (performInPlace_rel (rel U U' C R hr) hl) hl) cost

theorem b2_local : Local 2 2 2 (fun j i => (i + j) % 2) ⟨2, 0, 1, 0, 0⟩ (fun _ => bflyFn contiguous2) :=
  bfly_local (c := fun _ => contiguous2) (by omega) (fun U => total_of_performs performs2)
  (fun U U' _ _ _ _ _ _ _ _ _ _ _ _ C R hr _ _ hm => contiguous2_rel hr hm) b2_grow
theorem b3_local : Local 3 3 3 (fun j i => (i + j) % 3) ⟨5, 2, 5, 1, 0⟩ (fun _ => bflyFn contiguous3) :=
  bfly_local (c := fun _ => contiguous3) (by omega) (fun U => total_of_performs performs3)
  (fun U U' _ _ _ _ _ _ _ _ _ _ _ _ C R hr _ _ hm => contiguous3_rel hr hm) b3_grow
theorem b4_local : Local 4 4 4 (fun j i => (i + j) % 4) ⟨4, 0, 2, 0, 0⟩ (fun _ => bflyFn contiguous4) :=
  bfly_local (c := fun _ => contiguous4) (by omega) (fun U => total_of_performs performs4)
  (fun U U' _ _ _ _ _ _ _ _ _ _ _ _ C R hr _ _ hm => contiguous4_rel hr hm) b4_grow
theorem b5_local : Local 5 5 5 (fun j i => (i + j) % 5) ⟨9, 4, 6, 1, 0⟩ (fun _ => bflyFn contiguous5) :=
  bfly_local (c := fun _ => contiguous5) (by omega) (fun U => total_of_performs performs5)
  (fun U U' _ _ _ _ _ _ _ _ _ _ _ _ C R hr _ _ hm => contiguous5_rel hr hm) b5_grow
theorem b6_local : Local 6 6 6 (fun j i => (i + j) % 6) ⟨15, 8, 9, 2, 0⟩ (fun _ => bflyFn contiguous6) :=
  bfly_local (c := fun _ => contiguous6) (by omega) (fun U => total_of_performs performs6)
  (fun U U' _ _ _ _ _ _ _ _ _ _ _ _ C R hr _ _ hm => contiguous6_rel hr hm) b6_grow
theorem b8_local : Local 8 8 8 (fun j i => (i + j) % 8) ⟨8, 1, 5, 1, 0⟩ (fun _ => bflyFn contiguous8) :=
  bfly_local (c := fun _ => contiguous8) (by omega) (fun U => total_of_performs performs8)
  (fun U U' _ _ _ _ _ _ _ _ _ _ _ _ C R hr _ _ hm => contiguous8_rel hr hm) b8_grow
theorem b9_local : Local 9 9 9 (fun j i => (i + j) % 9) ⟨54, 9, 9, 1, 0⟩ (fun _ => bflyFn contiguous9) :=
  bfly_local (c := fun _ => contiguous9) (by omega) (fun U => total_of_performs performs9)
  (fun U U' _ _ _ _ _ _ _ _ _ _ _ _ C R hr _ _ hm => contiguous9_rel hr hm) b9_grow
theorem b16_local : Local 16 16 16 (fun j i => (i + j) % 16) ⟨24, 5, 7, 1, 0⟩ (fun _ => bflyFn contiguous16) :=
  bfly_local (c := fun _ => contiguous16) (by omega) (fun U => total_of_performs performs16)
  (fun U U' _ _ _ _ _ _ _ _ _ _ _ _ C R hr _ _ hm => contiguous16_rel hr hm) b16_grow

theorem nth_rel {U U' : Type} [Zero U] [Zero U'] {R : U → U' → Prop} (h0 : R 0 0) {x : List U} {x' : List U'} (hl : LR R x x') (k : ℕ) :
    R (nth x k) (nth x' k) := by
  rcases Nat.lt_or_ge k x.length with hk | hk
  · exact hl.nth hk
  · have hk' : x'.length ≤ k := by rw [← hl.length]; exact hk
    rw [nth, nth, List.getElem?_eq_none hk, List.getElem?_eq_none hk']
    exact h0

theorem naive_local {n : ℕ} (hn : 0 < n) :
    Local n n n (fun j i => (i + j) % n) ⟨2 * max 1 n, n, n + 3, 1, 0⟩ (fun U => naiveFn U n) := by
  refine full_local (Φ := fun U => naiveFn U n) hn (fun U _ _ _ _ _ _ x _ => length_tab _ _)
    (fun U U' _ _ _ _ _ _ _ _ _ _ _ _ C R hr x x' hx hl => ?_) (naive_grow n)
  refine tab_rel fun k hk => ?_
  unfold naiveVal
  rw [← hl.length, length_naiveTwiddles, length_naiveTwiddles]
  have hstep : ∀ i, R (nth (naiveTwiddles U n) (i * k % n) * nth x i) (nth (naiveTwiddles U' n) (i * k % n) * nth x' i) := by
    intro i
    have hmod : i * k % n < n := Nat.mod_lt _ hn
    have hnt : ∀ (U : Type) [Zero U] [Add U] [FftNum U], nth (naiveTwiddles U n) (i * k % n) = computeDhtTwiddle U (i * k % n) n := by
      intro U _ _ _
      rw [show naiveTwiddles U n = tab n fun i => computeDhtTwiddle U i n from rfl, nth_tab hmod]
    rw [hnt, hnt]
    exact hr.cmul (hr.dht hmod) (nth_rel hr.zero hl i)
  generalize x.length = l
  induction l with
  | zero => exact hr.zero
  | succ l ih =>
    rw [List.range_succ, List.foldl_append, List.foldl_cons, List.foldl_nil, List.foldl_append, List.foldl_cons, List.foldl_nil]
    exact hr.add ih (hstep l)

section
variable {T : Type} [Zero T] [Add T] [Sub T] [Mul T] [Neg T] [FftNum T]
variable {fin : T → Prop} {val : T → ℝ} {u η Ω : ℝ} {t s : ℕ}
variable (hm : FloatModel fin val u η Ω t s)
include hm

theorem leaf_stage {n : ℕ} {q : Cost} {Φ : Poly} (hn : 0 < n) (hl : Local n n n (fun j i => (i + j) % n) q Φ)
    (hd : ∀ X, X.length = n → Φ ℝ X = dht X) {G : ℕ} (hq : 1 ≤ q.g) (hG : q.g ≤ G) :
    Stage fin val u η Ω G √n (nrm n) (nrm n) n n (Φ T) (Φ ℝ) √n (q.g * q.depth t s) q.c := by
  have sc := (scales_dht n).congr hd
  exact hl.stage hm hn (K := q.g) (one_le_sqrt_nat hm hn) hq (by rw [mul_comm]) hG (by omega)
    (fun X Y hX hY => (sc.dist X Y hX hY).le) (fun X hX => (sc.norm X hX).le)

/-- A stage that does nothing. -/
theorem id_stage {G n : ℕ} {M : ℝ} (hM : 0 ≤ M) : Stage fin val u η Ω G M (nrm n) (nrm n) n n (fun x => x) (fun x => x) 1 0 0 := by
  have := perm_stage (Ω := Ω) (G := G) (n := n) (σ := fun i => i) hm (fun i h => h) (fun i _ j _ h => h) hM
  exact this.congr hm (fun x hx => eq_tab hx fun _ _ => rfl) (fun x hx => eq_tab hx fun _ _ => rfl)

/-- The cross layers of `Radix4`. -/
theorem layers_stage {G : ℕ} (hG : 7 ≤ G) (l : ℕ) : ∀ {h : ℕ}, 0 < h →
    Stage fin val u η Ω G √(h * 4 ^ l : ℕ) (nrm (h * 4 ^ l)) (nrm (h * 4 ^ l)) (h * 4 ^ l) (h * 4 ^ l) (r4Layers T h l) (r4Layers ℝ h l)
      (2 ^ l) (l * (14 * (5 + t))) (l * 4) := by
  induction l with
  | zero =>
    intro h hh
    rw [pow_zero, pow_zero, Nat.mul_one, Nat.zero_mul, Nat.zero_mul]
    exact id_stage hm (Real.sqrt_nonneg _)
  | succ l ih =>
    intro h hh
    have e : h * 4 ^ (l + 1) = 4 * h * 4 ^ l := by ring
    have e' : h * 4 ^ (l + 1) = 4 ^ l * (4 * h) := by ring
    have hpos : 0 < 4 ^ l := by positivity
    have sc : Scales (4 * h) √(4 : ℕ) (run (r4Apply ℝ h (4 ^ l))) := by
      rw [r4Apply_real h hpos]
      exact columns_scales hh fun x hx => mr4Fn_dht hx
    have s1 := columns_stage hm (ap := fun U => r4Apply U h (4 ^ l)) (Ω := Ω) (by omega : 0 < 4) hh (r4_local hh hpos) (by decide) sc hG
    have s2 := s1.chunks hm (k := 4 ^ l) (by omega) (Real.sqrt_nonneg _)
    have s3 := ih (h := 4 * h) (by omega)
    rw [← e'] at s2
    rw [← e] at s3
    have n0 := nrm_isNrm (h * 4 ^ (l + 1))
    have h4 : √(4 : ℕ) = (2 : ℝ) := by
      rw [show ((4 : ℕ) : ℝ) = 2 ^ 2 by norm_num]; exact Real.sqrt_sq (by norm_num)
    rw [h4] at s2
    have st := s2.comp hm s3 n0 n0 n0 (Real.sqrt_nonneg _) (by norm_num) (one_le_pow₀ (by norm_num))
    rw [show (2 : ℝ) * 2 ^ l = 2 ^ (l + 1) by ring] at st
    have eD : 2 * 7 * Cost.depth t s ⟨7, 4, 5, 1, 0⟩ + l * (14 * (5 + t)) = (l + 1) * (14 * (5 + t)) := by
      simp only [Cost.depth]; ring
    have eC : 4 + l * 4 = (l + 1) * 4 := by ring
    simp only [eD, eC] at st
    exact st

/-- `Radix4`, relative to its base. -/
theorem radix4_stage {G m D C : ℕ} (hG : 7 ≤ G)
    (base : Stage fin val u η Ω G √(r4BaseLen m) (nrm (r4BaseLen m)) (nrm (r4BaseLen m)) (r4BaseLen m) (r4BaseLen m) (r4BaseFn T m)
      (r4BaseFn ℝ m) √(r4BaseLen m) D C) :
    Stage fin val u η Ω G √(2 ^ m : ℕ) (nrm (2 ^ m)) (nrm (2 ^ m)) (2 ^ m) (2 ^ m) (radix4Fn T m) (radix4Fn ℝ m) √(2 ^ m : ℕ)
      (D + r4Levels m * (14 * (5 + t))) (C + r4Levels m * 4) := by
  have hb := r4BaseLen_pos m
  set b := r4BaseLen m with hbdef
  set l := r4Levels m with hldef
  have hlen : 2 ^ m = b * 4 ^ l := r4_len m
  have hM := Real.sqrt_nonneg ((b * 4 ^ l : ℕ) : ℝ)
  have n0 := nrm_isNrm (b * 4 ^ l)
  have s1 : Stage fin val u η Ω G √(b * 4 ^ l : ℕ) (nrm (b * 4 ^ l)) (nrm (b * 4 ^ l)) (b * 4 ^ l) (b * 4 ^ l) _ _ 1 0 0 :=
    perm_stage hm (fun p hp => r4Index_lt hb l false p hp) (fun p hp q hq e => r4Index_inj hb l false hp hq e) hM
  have s2 := base.chunks hm (k := 4 ^ l) hb (Real.sqrt_nonneg _)
  rw [Nat.mul_comm (4 ^ l) b] at s2
  have s3 := layers_stage (Ω := Ω) hm hG l hb
  have st := (s1.comp hm s2 n0 n0 n0 hM le_rfl (one_le_sqrt_nat hm hb)).comp hm s3 n0 n0 n0 hM
    (by rw [one_mul]; exact one_le_sqrt_nat hm hb) (one_le_pow₀ (by norm_num))
  have e : 1 * √(b : ℝ) * 2 ^ l = √(b * 4 ^ l : ℕ) := by
    push_cast
    rw [Real.sqrt_mul (Nat.cast_nonneg _), one_mul, show (4 : ℝ) ^ l = (2 ^ l) ^ 2 by rw [← pow_mul, mul_comm l 2, pow_mul]; norm_num,
      Real.sqrt_sq (by positivity)]
  rw [e, Nat.zero_add, Nat.zero_add] at st
  have key : ∀ (n : ℕ), n = b * 4 ^ l → Stage fin val u η Ω G √(n : ℕ) (nrm n) (nrm n) n n (radix4Fn T m) (radix4Fn ℝ m) √(n : ℕ)
      (D + l * (14 * (5 + t))) (C + l * 4) := by
    rintro n rfl
    exact st
  exact key _ hlen

end

end RustDHT
