import Verif.Proofs.LeafStage
import Verif.Proofs.SplitRadixDht

/-! # `SplitRadix` in stages -/

set_option linter.unusedSectionVars false

namespace RustDHT

open Finset

/-- `apply_twiddles`: the even half, then the two odd quarters. -/
def srTwist (q : ℕ) : Poly := fun _ _ _ _ _ _ _ x =>
  tab (4 * q) fun p => if p < 2 * q then srEven q x p else if p < 3 * q then srQ1 q x (p - 2 * q) else srQ3 q x (p - 3 * q)

section
variable {T T' : Type} [Zero T] [Add T] [Sub T] [Mul T] [Neg T] [FftNum T] [Zero T'] [Add T'] [Sub T'] [Mul T'] [Neg T'] [FftNum T']

theorem sr_rel {C R : T → T' → Prop} (hr : Respects C R) {q : ℕ} {x : List T} {x' : List T'} (hl : LR R x x') {c : ℕ} (hc : c < q) :
    R (srQ1 q x c) (srQ1 q x' c) ∧ R (srQ3 q x c) (srQ3 q x' c) := by
  have hg : ∀ k, R (nth x k) (nth x' k) := nth_rel hr.zero hl
  have hd : ∀ k k', R (nth x k - nth x k') (nth x' k - nth x' k') := fun k k' => hr.sub (hg k) (hg k')
  have ht1 : ∀ c, 2 * c ≤ q → CxRel C (computeDftTwiddleInverse T (c * 1) (4 * q)) (computeDftTwiddleInverse T' (c * 1) (4 * q)) :=
    fun c h => hr.inv _ _ (by omega)
  have ht3 : ∀ c, 2 * c ≤ q → CxRel C (computeDftTwiddleInverse T (c * 3) (4 * q)) (computeDftTwiddleInverse T' (c * 3) (4 * q)) :=
    fun c h => hr.inv _ _ (by omega)
  refine ⟨?_, ?_⟩
  · unfold srQ1
    simp only
    split
    · exact hr.add (hd _ _) (hd _ _)
    · split
      · exact hr.sub (hr.mulc (hr.add (hd _ _) (hd _ _)) (ht1 _ (by omega)).re) (hr.mulc (hr.sub (hd _ _) (hd _ _)) (ht1 _ (by omega)).im)
      · exact hr.add (hr.mulc (hr.add (hd _ _) (hd _ _)) (ht1 _ (by omega)).im) (hr.mulc (hr.sub (hd _ _) (hd _ _)) (ht1 _ (by omega)).re)
  · unfold srQ3
    simp only
    split
    · exact hr.sub (hd _ _) (hd _ _)
    · split
      · exact hr.add (hr.mulc (hr.sub (hd _ _) (hd _ _)) (ht3 _ (by omega)).re) (hr.mulc (hr.add (hd _ _) (hd _ _)) (ht3 _ (by omega)).im)
      · exact hr.sub (hr.mulc (hr.sub (hd _ _) (hd _ _)) (ht3 _ (by omega)).im) (hr.mulc (hr.add (hd _ _) (hd _ _)) (ht3 _ (by omega)).re)

theorem sr_congr {q c : ℕ} (hc : c < q) {x y : List T} (e : ∀ r < 4, nth x (r * q + c) = nth y (r * q + c))
    (e' : ∀ r < 4, nth x (r * q + (q - c) % q) = nth y (r * q + (q - c) % q)) :
    srQ1 q x c = srQ1 q y c ∧ srQ3 q x c = srQ3 q y c := by
  have a0 := e 0 (by omega)
  have a1 := e 1 (by omega)
  have a2 := e 2 (by omega)
  have a3 := e 3 (by omega)
  rw [Nat.zero_mul, Nat.zero_add] at a0
  rw [Nat.one_mul] at a1
  rcases Nat.eq_zero_or_pos c with rfl | hpos
  · simp only [srQ1, srQ3, if_true, a0, a1, a2, a3, and_self]
  have b0 := e' 0 (by omega)
  have b1 := e' 1 (by omega)
  have b2 := e' 2 (by omega)
  have b3 := e' 3 (by omega)
  rw [Nat.mod_eq_of_lt (by omega : q - c < q)] at b0 b1 b2 b3
  rw [Nat.zero_mul, Nat.zero_add] at b0
  rw [Nat.one_mul] at b1
  have k : q - (q - c) = c := by omega
  have h0 : c ≠ 0 := by omega
  simp only [srQ1, srQ3, if_neg h0, k, a0, a1, a2, a3, b0, b1, b2, b3, and_self]

end

theorem srTwist_local {q : ℕ} (hq : 0 < q) :
    Local (4 * q) (4 * q) (2 * 4) (colσ 4 q) ⟨8, 2, 5, 1, 0⟩ (srTwist q) := by
  refine ⟨fun U _ _ _ _ _ _ x hx => length_tab _ _, fun U U' _ _ _ _ _ _ _ _ _ _ _ _ C R hr x x' hx hl => ?_,
    fun U _ _ _ _ _ _ x y p hx hy hp e => ?_, fun b x hb hx hl => ?_, fun j _ p _ => colσ_lt (by omega) hq j p,
    fun j _ p hp p' hp' e => colσ_inj hq j hp hp' e⟩
  · refine tab_rel fun p hp => ?_
    split
    · exact hr.add (nth_rel hr.zero hl _) (nth_rel hr.zero hl _)
    · split
      · exact (sr_rel hr hl (by omega)).1
      · exact (sr_rel hr hl (by omega)).2
  · show nth (tab _ _) p = nth (tab _ _) p
    rw [nth_tab hp, nth_tab hp]
    obtain ⟨e1, e2⟩ := col_congr (by omega) e
    have hmod := Nat.mod_lt p hq
    have f1 : ∀ r < 4, nth x (r * q + p % q) = nth y (r * q + p % q) := fun r hr => by rw [← nth_col hr, ← nth_col hr, e1]
    have f2 : ∀ r < 4, nth x (r * q + (q - p % q) % q) = nth y (r * q + (q - p % q) % q) :=
      fun r hr => by rw [← nth_col hr, ← nth_col hr, e2]
    have hdm := div_mod_eq q p
    split
    · rename_i h2
      have hd : p / q < 2 := (Nat.div_lt_iff_lt_mul hq).2 h2
      have g1 := f1 (p / q) (by omega)
      have g2 := f1 (p / q + 2) (by omega)
      rw [Nat.add_mul, show p / q * q + 2 * q + p % q = 2 * q + (p / q * q + p % q) by omega, hdm] at g2
      rw [hdm] at g1
      unfold srEven
      rw [g1, g2]
    · rename_i h2
      have key : ∀ r, r * q ≤ p → p < (r + 1) * q → p - r * q = p % q := by
        intro r h1 h2
        have : p / q = r := (Nat.div_eq_iff hq).2 ⟨h1, by rw [Nat.add_mul] at h2; omega⟩
        rw [this] at hdm
        omega
      split
      · rename_i h3
        rw [key 2 (by omega) (by omega)]
        exact (sr_congr hmod f1 f2).1
      · rw [key 3 (by omega) (by omega)]
        exact (sr_congr hmod f1 f2).2
  · refine Below.tab fun p _ => ?_
    split
    · exact Cost.le_trans (sr_cost hb hl p).2.2 (Cost.after_mono (by decide) (Cost.le_refl _))
    · split
      · exact (sr_cost hb hl _).1
      · exact (sr_cost hb hl _).2.1

/-! ## The three parts -/

/-- The length of part `r`. -/
def srLen (q r : ℕ) : ℕ := if r = 0 then 2 * q else q

/-- Where part `r` begins. -/
def srOff (q r : ℕ) : ℕ := if r = 0 then 0 else (r + 1) * q

/-- Part `r` of a list. -/
def srPart {U : Type} [Zero U] (q r : ℕ) (x : List U) : List U := tab (srLen q r) fun i => nth x (srOff q r + i)

theorem length_srPart {U : Type} [Zero U] (q r : ℕ) (x : List U) : (srPart q r x).length = srLen q r := length_tab _ _

/-- The part to which a position belongs. -/
def srWhich (q p : ℕ) : ℕ := if p < 2 * q then 0 else if p < 3 * q then 1 else 2

/-- Every part is transformed. -/
def srParts {U : Type} [Zero U] (q : ℕ) (f : ℕ → List U → List U) (x : List U) : List U :=
  tab (4 * q) fun p => nth (f (srWhich q p) (srPart q (srWhich q p) x)) (p - srOff q (srWhich q p))

theorem srOff_lt {q r i : ℕ} (hr : r < 3) (hi : i < srLen q r) : srOff q r + i < 4 * q := by
  unfold srOff srLen at *
  obtain rfl | rfl | rfl : r = 0 ∨ r = 1 ∨ r = 2 := by omega
  all_goals simp at *; omega

theorem srWhich_off {q r i : ℕ} (hr : r < 3) (hi : i < srLen q r) : srWhich q (srOff q r + i) = r := by
  unfold srOff srLen srWhich at *
  obtain rfl | rfl | rfl : r = 0 ∨ r = 1 ∨ r = 2 := by omega
  · simp at *; omega
  · simp at *; omega
  · simp at *; omega

theorem srPos {q p : ℕ} (hp : p < 4 * q) : srWhich q p < 3 ∧ ∃ i < srLen q (srWhich q p), p = srOff q (srWhich q p) + i := by
  unfold srWhich
  split
  · exact ⟨by omega, p, by simp [srLen]; omega, by simp [srOff]⟩
  · split
    · exact ⟨by omega, p - 2 * q, by simp [srLen]; omega, by simp [srOff]; omega⟩
    · exact ⟨by omega, p - 3 * q, by simp [srLen]; omega, by simp [srOff]; omega⟩

theorem nth_srParts {U : Type} [Zero U] {q r i : ℕ} (hr : r < 3) (hi : i < srLen q r) (f : ℕ → List U → List U) (x : List U) :
    nth (srParts q f x) (srOff q r + i) = nth (f r (srPart q r x)) i := by
  unfold srParts
  rw [nth_tab (srOff_lt hr hi), srWhich_off hr hi, Nat.add_sub_cancel_left]

theorem nrm_srParts (q : ℕ) (f : ℕ → ℝ) : nrm (4 * q) f = nrm 3 (fun r => nrm (srLen q r) fun i => f (srOff q r + i)) := by
  have e : ∑ i ∈ range (4 * q), f i ^ 2
      = (∑ i ∈ range (2 * q), f i ^ 2) + (∑ i ∈ range q, f (2 * q + i) ^ 2) + ∑ i ∈ range q, f (3 * q + i) ^ 2 := by
    rw [show 4 * q = 2 * q + q + q by omega, sum_range_add, sum_range_add, show 2 * q + q = 3 * q by omega]
  unfold nrm
  rw [e, sum_range_succ, sum_range_succ, sum_range_succ, sum_range_zero, zero_add]
  simp only [Real.sq_sqrt (sum_sq_nonneg _ _)]
  simp [srLen, srOff]

/-- The weight of a part: the odd quarters will be transformed by a smaller transform. -/
noncomputable def srW (r : ℕ) : ℝ := if r = 0 then 1 else (√2)⁻¹

/-- The norm after `apply_twiddles`. -/
noncomputable def srNrm (q : ℕ) (f : ℕ → ℝ) : ℝ := nrm 3 (fun r => srW r * nrm (srLen q r) fun i => f (srOff q r + i))

theorem srW_nonneg (r : ℕ) : 0 ≤ srW r := by
  unfold srW
  split
  · norm_num
  · positivity

theorem srW_le (r : ℕ) : srW r ≤ 1 := by
  unfold srW
  split
  · exact le_rfl
  · exact inv_le_one_of_one_le₀ (by rw [Real.one_le_sqrt]; norm_num)

theorem sqrt_srLen (q r : ℕ) : √(srLen q r : ℝ) = √(2 * q : ℕ) * srW r := by
  unfold srLen srW
  split
  · rw [mul_one]
  · push_cast
    rw [Real.sqrt_mul (by norm_num)]
    field_simp

theorem srNrm_eq (q : ℕ) (f : ℕ → ℝ) : srNrm q f = nrm (4 * q) (fun p => srW (srWhich q p) * f p) := by
  rw [nrm_srParts, srNrm]
  refine nrm_congr fun r hr => ?_
  rw [← nrm_mul _ (srW_nonneg r)]
  exact nrm_congr fun i hi => by rw [srWhich_off hr hi]

theorem srNrm_isNrm (q : ℕ) : IsNrm (srNrm q) := by
  have h := nrm_isNrm (4 * q)
  have e : ∀ f g : ℕ → ℝ, srNrm q (fun i => f i - g i) = nrm (4 * q) (fun p => srW (srWhich q p) * f p - srW (srWhich q p) * g p) := by
    intro f g
    rw [srNrm_eq]
    exact nrm_congr fun i _ => by ring
  refine ⟨fun f => by rw [srNrm_eq]; exact h.nonneg _, fun f g k => ?_, fun f g => ?_⟩
  · rw [e, e, e]; exact h.sub _ _ _
  · rw [e, srNrm_eq, srNrm_eq]; exact h.tri _ _

/-- How the three parts are put together. -/
def srτ (q p : ℕ) : ℕ := if p % 2 = 0 then p / 2 else if p % 4 = 1 then 2 * q + p / 4 else 3 * q + p / 4

theorem srτ_lt {q p : ℕ} (hp : p < 4 * q) : srτ q p < 4 * q := by unfold srτ; split; · omega
                                                                  · split <;> omega

theorem srτ_inj {q p p' : ℕ} (hp : p < 4 * q) (hp' : p' < 4 * q) (e : srτ q p = srτ q p') : p = p' := by
  unfold srτ at e
  split at e <;> split at e <;> (try split at e) <;> (try split at e) <;> omega

/-- The inner transform of part `r`. -/
def srF {U : Type} (fq fh : List U → List U) (r : ℕ) : List U → List U := if r = 0 then fh else fq

theorem srFn_eq {U : Type} [Zero U] [Add U] [Sub U] [Mul U] [Neg U] [FftNum U] (q : ℕ) (fq fh : List U → List U) (x : List U) :
    srFn q fq fh x = tab (4 * q) fun p => nth (srParts q (srF fq fh) (srTwist q U x)) (srτ q p) := by
  have p0 : srPart q 0 (srTwist q U x) = tab (2 * q) (srEven q x) := by
    unfold srPart srTwist
    simp only [srLen, srOff, if_true]
    refine tab_congr fun i hi => ?_
    rw [nth_tab (by omega), if_pos (by omega), Nat.zero_add]
  have p1 : srPart q 1 (srTwist q U x) = tab q (srQ1 q x) := by
    unfold srPart srTwist
    simp only [srLen, srOff, if_neg (by omega : ¬ (1 : ℕ) = 0)]
    refine tab_congr fun i hi => ?_
    rw [nth_tab (by omega), if_neg (by omega), if_pos (by omega)]
    congr 1
    omega
  have p2 : srPart q 2 (srTwist q U x) = tab q (srQ3 q x) := by
    unfold srPart srTwist
    simp only [srLen, srOff, if_neg (by omega : ¬ (2 : ℕ) = 0)]
    refine tab_congr fun i hi => ?_
    rw [nth_tab (by omega), if_neg (by omega), if_neg (by omega)]
    congr 1
    omega
  unfold srFn
  refine tab_congr fun p hp => ?_
  unfold srτ
  split
  · have := nth_srParts (q := q) (r := 0) (i := p / 2) (by omega) (by simp [srLen]; omega) (srF fq fh) (srTwist q U x)
    rw [p0] at this
    simpa [srOff, srF] using this.symm
  · split
    · have := nth_srParts (q := q) (r := 1) (i := p / 4) (by omega) (by simp [srLen]; omega) (srF fq fh) (srTwist q U x)
      rw [p1] at this
      simpa [srOff, srF] using this.symm
    · have := nth_srParts (q := q) (r := 2) (i := p / 4) (by omega) (by simp [srLen]; omega) (srF fq fh) (srTwist q U x)
      rw [p2] at this
      simpa [srOff, srF] using this.symm

/-- The norm of a transform of all parts. -/
theorem srParts_dht_norm {q : ℕ} (X : List ℝ) :
    nrm (4 * q) (nth (srParts q (srF dht dht) X)) = √(2 * q : ℕ) * srNrm q (nth X) := by
  rw [nrm_srParts, srNrm, ← nrm_mul _ (Real.sqrt_nonneg _)]
  refine nrm_congr fun r hr => ?_
  have e : ∀ i < srLen q r, nth (srParts q (srF dht dht) X) (srOff q r + i) = nth (dht (srPart q r X)) i := by
    intro i hi
    rw [nth_srParts hr hi]
    simp [srF]
  rw [nrm_congr e, nrm_dht (length_srPart q r X), sqrt_srLen, mul_assoc]
  congr 2
  exact nrm_congr fun i hi => by rw [srPart, nth_tab hi]

theorem srParts_dht_dist {q : ℕ} (X Y : List ℝ) :
    nrm (4 * q) (fun i => nth (srParts q (srF dht dht) X) i - nth (srParts q (srF dht dht) Y) i)
      = √(2 * q : ℕ) * srNrm q (fun i => nth X i - nth Y i) := by
  rw [nrm_srParts, srNrm, ← nrm_mul _ (Real.sqrt_nonneg _)]
  refine nrm_congr fun r hr => ?_
  have e : ∀ (X : List ℝ), ∀ i < srLen q r, nth (srParts q (srF dht dht) X) (srOff q r + i) = nth (dht (srPart q r X)) i := by
    intro X i hi
    rw [nth_srParts hr hi]
    simp [srF]
  rw [nrm_congr fun i hi => by rw [e X i hi, e Y i hi], nrm_dht_sub (length_srPart q r X) (length_srPart q r Y), sqrt_srLen, mul_assoc]
  congr 2
  exact nrm_congr fun i hi => by rw [srPart, srPart, nth_tab hi, nth_tab hi]

theorem sqrt_four_mul (q : ℕ) : √(4 * q : ℕ) = √(2 * q : ℕ) * √2 := by
  rw [← Real.sqrt_mul (Nat.cast_nonneg _)]
  congr 1
  push_cast
  ring

theorem srTwist_norm {q : ℕ} (hq : 0 < q) {X : List ℝ} (hX : X.length = 4 * q) :
    srNrm q (nth (srTwist q ℝ X)) = √2 * nrm (4 * q) (nth X) := by
  have h : (0 : ℝ) < √(2 * q : ℕ) := Real.sqrt_pos.2 (by exact_mod_cast (by omega : 0 < 2 * q))
  have h1 := nrm_dht hX
  rw [← srFn_dht hX, srFn_eq, sqrt_four_mul] at h1
  refine mul_left_cancel₀ h.ne' ?_
  rw [← srParts_dht_norm, ← mul_assoc, ← h1, ← nrm_perm (fun p hp => srτ_lt hp) (fun p hp p' hp' e => srτ_inj hp hp' e)]
  exact nrm_congr fun i hi => by rw [nth_tab hi]

theorem srTwist_dist {q : ℕ} (hq : 0 < q) {X Y : List ℝ} (hX : X.length = 4 * q) (hY : Y.length = 4 * q) :
    srNrm q (fun i => nth (srTwist q ℝ X) i - nth (srTwist q ℝ Y) i) = √2 * nrm (4 * q) (fun i => nth X i - nth Y i) := by
  have h : (0 : ℝ) < √(2 * q : ℕ) := Real.sqrt_pos.2 (by exact_mod_cast (by omega : 0 < 2 * q))
  have h1 := nrm_dht_sub hX hY
  rw [← srFn_dht hX, ← srFn_dht hY, srFn_eq, srFn_eq, sqrt_four_mul] at h1
  refine mul_left_cancel₀ h.ne' ?_
  rw [← srParts_dht_dist, ← mul_assoc, ← h1, ← nrm_perm (fun p hp => srτ_lt hp) (fun p hp p' hp' e => srτ_inj hp hp' e)]
  exact nrm_congr fun i hi => by rw [nth_tab hi, nth_tab hi]

section
variable {T : Type} [Zero T] [Add T] [Sub T] [Mul T] [Neg T] [FftNum T]
variable {fin : T → Prop} {val : T → ℝ} {u η Ω : ℝ} {t s : ℕ}
variable (hm : FloatModel fin val u η Ω t s)
include hm

theorem srTwist_stage {q G : ℕ} (hq : 0 < q) (hG : 8 ≤ G) :
    Stage fin val u η Ω G √(4 * q : ℕ) (nrm (4 * q)) (srNrm q) (4 * q) (4 * q) (srTwist q T) (srTwist q ℝ) √2 (16 * (5 + t)) 2 := by
  have h2 : (1 : ℝ) ≤ √2 := by rw [Real.one_le_sqrt]; norm_num
  refine ⟨fun _ _ => length_tab _ _, fun _ _ => length_tab _ _, fun X Y hX hY => (srTwist_dist hq hX hY).le,
    fun X hX => (srTwist_norm hq hX).le, fun x hx hf hO => ?_⟩
  have h8 : √((2 * 4 : ℕ) : ℝ) = 2 * √2 := by
    rw [show ((2 * 4 : ℕ) : ℝ) = 2 ^ 2 * 2 by norm_num, Real.sqrt_mul (by norm_num), Real.sqrt_sq (by norm_num)]
  have ed : 16 * Cost.depth t s ⟨8, 2, 5, 1, 0⟩ = 16 * (5 + t) := by simp only [Cost.depth]; ring
  have := (srTwist_local hq).err hm (w := fun p => srW (srWhich q p)) (W := 1) (G := G) (K := 16) (C := 2) (M := √(4 * q : ℕ)) (a := √2)
    (fun _ _ => srW_nonneg _) (fun _ _ => srW_le _) zero_le_one h2 le_rfl (one_le_sqrt_nat hm (by omega)) (by omega)
    (by rw [h8]; push_cast; nlinarith) (by push_cast; linarith) le_rfl hG (by omega) hx hf (by rw [ed]; exact hO)
  rw [ed] at this
  refine ⟨this.1, ?_⟩
  rw [srNrm_eq]
  exact this.2

theorem srParts_stage {q G D C : ℕ} (hq : 0 < q) {f : ℕ → List T → List T} {e : ℕ → List ℝ → List ℝ}
    (st : ∀ r < 3, Stage fin val u η Ω G √(srLen q r) (nrm (srLen q r)) (nrm (srLen q r)) (srLen q r) (srLen q r) (f r) (e r)
      √(srLen q r) D C) :
    Stage fin val u η Ω G (√2 * √(4 * q : ℕ)) (srNrm q) (nrm (4 * q)) (4 * q) (4 * q) (srParts q f) (srParts q e) √(2 * q : ℕ) D C := by
  have hη := hm.η_nonneg
  have hP := hm.one_le_pow D
  have h2q := Real.sqrt_nonneg ((2 * q : ℕ) : ℝ)
  have pl : ∀ {U : Type} [Zero U] (r : ℕ) (x : List U), (srPart q r x).length = srLen q r := fun r x => length_tab _ _
  refine ⟨fun _ _ => length_tab _ _, fun _ _ => length_tab _ _, fun X Y hX hY => ?_, fun X hX => ?_, fun x hx hf hO => ?_⟩
  · rw [nrm_srParts, srNrm, ← nrm_mul _ h2q]
    refine nrm_mono fun r hr => ?_
    rw [abs_of_nonneg (nrm_nonneg _ _), ← mul_assoc, ← sqrt_srLen]
    refine le_trans (le_of_eq (nrm_congr fun i hi => ?_)) (((st r hr).lip (srPart q r X) (srPart q r Y) (pl r X) (pl r Y)).trans (le_of_eq ?_))
    · rw [nth_srParts hr hi, nth_srParts hr hi]
    · congr 1
      exact nrm_congr fun i hi => by rw [srPart, srPart, nth_tab hi, nth_tab hi]
  · rw [nrm_srParts, srNrm, ← nrm_mul _ h2q]
    refine nrm_mono fun r hr => ?_
    rw [abs_of_nonneg (nrm_nonneg _ _), ← mul_assoc, ← sqrt_srLen]
    refine le_trans (le_of_eq (nrm_congr fun i hi => ?_)) (((st r hr).grow (srPart q r X) (pl r X)).trans (le_of_eq ?_))
    · rw [nth_srParts hr hi]
    · congr 1
      exact nrm_congr fun i hi => by rw [srPart, nth_tab hi]
  set P := (1 + u) ^ D with hPd
  set S : ℕ → ℝ := fun r => nrm (srLen q r) fun i => val (nth x (srOff q r + i)) with hS
  have hS0 : ∀ r, 0 ≤ S r := fun r => nrm_nonneg _ _
  have cn : ∀ r < 3, nrm (srLen q r) (fun i => val (nth (srPart q r x) i)) = S r :=
    fun r hr => nrm_congr fun i hi => by rw [srPart, nth_tab hi]
  set N := srNrm q (fun i => val (nth x i)) with hN
  have hN0 : 0 ≤ N := (srNrm_isNrm q).nonneg _
  have hSN : ∀ r < 3, srW r * S r ≤ N := by
    intro r hr
    have := abs_le_nrm hr fun r => srW r * S r
    rwa [abs_of_nonneg (mul_nonneg (srW_nonneg r) (hS0 r))] at this
  have hL : ∀ r, √(srLen q r : ℝ) ≤ √(2 * q : ℕ) := by
    intro r
    rw [sqrt_srLen]
    exact mul_le_of_le_one_right h2q (srW_le r)
  have hMM : √(2 * q : ℕ) ≤ √2 * √(4 * q : ℕ) := by
    rw [sqrt_four_mul]
    have : √2 * √2 = (2 : ℝ) := Real.mul_self_sqrt (by norm_num)
    nlinarith
  have each : ∀ r < 3, (∀ i < srLen q r, fin (nth (f r (srPart q r x)) i)) ∧
      nrm (srLen q r) (fun i => val (nth (f r (srPart q r x)) i) - nth (e r ((srPart q r x).map val)) i)
        ≤ √(srLen q r) * (bnd u η D C √(srLen q r) (S r) - S r) := by
    intro r hr
    have := (st r hr).err (srPart q r x) (pl r x) (fun i hi => by rw [srPart, nth_tab hi]; exact hf _ (srOff_lt hr hi)) (by
      refine le_trans (mul_le_mul_of_nonneg_left ?_ (Nat.cast_nonneg _)) hO
      rw [cn r hr, bnd, bnd, ← hPd]
      have h1 : √(srLen q r : ℝ) * max (S r) 1 ≤ √(2 * q : ℕ) * max N 1 := by
        rw [sqrt_srLen, mul_assoc]
        refine mul_le_mul_of_nonneg_left ?_ h2q
        rw [mul_max_of_nonneg _ _ (srW_nonneg r)]
        exact max_le_max (hSN r hr) (by rw [mul_one]; exact srW_le r)
      have h3 : √(srLen q r : ℝ) * (C * η * √(srLen q r)) ≤ √(2 * q : ℕ) * (C * η * (√2 * √(4 * q : ℕ))) := by
        refine mul_le_mul (hL r) (mul_le_mul_of_nonneg_left ((hL r).trans hMM) (by positivity)) (by positivity) h2q
      have h4 : √(srLen q r : ℝ) * (max (S r) 1 + C * η * √(srLen q r)) ≤ √(2 * q : ℕ) * (max N 1 + C * η * (√2 * √(4 * q : ℕ))) := by
        rw [mul_add, mul_add]
        exact add_le_add h1 h3
      calc √(srLen q r : ℝ) * (P * (max (S r) 1 + C * η * √(srLen q r)))
          = P * (√(srLen q r : ℝ) * (max (S r) 1 + C * η * √(srLen q r))) := by ring
        _ ≤ P * (√(2 * q : ℕ) * (max N 1 + C * η * (√2 * √(4 * q : ℕ)))) := mul_le_mul_of_nonneg_left h4 (by linarith)
        _ = _ := by ring)
    rwa [cn r hr] at this
  refine ⟨fun p hp => ?_, ?_⟩
  · obtain ⟨hr, i, hi, e⟩ := srPos hp
    rw [e, nth_srParts hr hi]
    exact (each _ hr).1 i hi
  · have hc : 0 ≤ P * (C * η * √(2 * q : ℕ)) := by positivity
    have step : nrm 3 (fun r => √(2 * q : ℕ) * ((P - 1) * (srW r * S r) + P * (C * η * √(2 * q : ℕ))))
        ≤ √(2 * q : ℕ) * ((P - 1) * N + √(3 : ℕ) * (P * (C * η * √(2 * q : ℕ)))) := by
      rw [nrm_mul _ h2q]
      refine mul_le_mul_of_nonneg_left ((nrm_add_le 3 _ _).trans (le_of_eq ?_)) h2q
      rw [nrm_mul _ (by linarith), nrm_const _ hc]
      rfl
    have h3 : √(3 : ℕ) * √(2 * q : ℕ) ≤ √2 * √(4 * q : ℕ) := by
      rw [sqrt_four_mul, mul_left_comm, Real.mul_self_sqrt (by norm_num), mul_comm]
      refine mul_le_mul_of_nonneg_left ?_ h2q
      rw [Real.sqrt_le_left (by norm_num)]
      norm_num
    have fin' : √(3 : ℕ) * (P * (C * η * √(2 * q : ℕ))) ≤ P * (C * η * (√2 * √(4 * q : ℕ))) := by
      calc √(3 : ℕ) * (P * (C * η * √(2 * q : ℕ))) = P * (C * η * (√(3 : ℕ) * √(2 * q : ℕ))) := by ring
        _ ≤ _ := by gcongr
    have key : √(2 * q : ℕ) * ((P - 1) * N + √(3 : ℕ) * (P * (C * η * √(2 * q : ℕ))))
        ≤ √(2 * q : ℕ) * (bnd u η D C (√2 * √(4 * q : ℕ)) N - N) := by
      refine mul_le_mul_of_nonneg_left ?_ h2q
      rw [bnd, ← hPd]
      linarith
    refine le_trans ?_ (step.trans key)
    rw [nrm_srParts]
    refine nrm_mono fun r hr => ?_
    rw [abs_of_nonneg (nrm_nonneg _ _)]
    have h1 := (each r hr).2
    have hmap : srPart q r (x.map val) = (srPart q r x).map val := by
      refine list_ext_nth (by simp [srPart]) fun i hi => ?_
      have hi' : i < srLen q r := by simpa [srPart] using hi
      rw [hm.nth_map, srPart, srPart, nth_tab hi', nth_tab hi', hm.nth_map]
    refine le_trans (le_of_eq (nrm_congr fun i hi => ?_)) (h1.trans ?_)
    · rw [nth_srParts hr hi, nth_srParts hr hi, hmap]
    · rw [bnd, ← hPd]
      have h4 : C * η * √(srLen q r) ≤ C * η * √(2 * q : ℕ) := mul_le_mul_of_nonneg_left (hL r) (by positivity)
      have h5 : √(srLen q r : ℝ) * (P * (C * η * √(srLen q r))) ≤ √(2 * q : ℕ) * (P * (C * η * √(2 * q : ℕ))) :=
        mul_le_mul (hL r) (mul_le_mul_of_nonneg_left h4 (by linarith)) (by positivity) h2q
      calc √(srLen q r : ℝ) * (P * (S r + C * η * √(srLen q r)) - S r)
          = √(srLen q r : ℝ) * ((P - 1) * S r) + √(srLen q r : ℝ) * (P * (C * η * √(srLen q r))) := by ring
        _ ≤ √(srLen q r : ℝ) * ((P - 1) * S r) + √(2 * q : ℕ) * (P * (C * η * √(2 * q : ℕ))) := by linarith
        _ = _ := by rw [sqrt_srLen]; ring

/-- `SplitRadix`. -/
theorem sr_stage {q G Dq Cq Dh Ch : ℕ} (hq : 0 < q) (hG : 8 ≤ G) {fq fh : List T → List T} {eq eh : List ℝ → List ℝ}
    (sq : Stage fin val u η Ω G √q (nrm q) (nrm q) q q fq eq √q Dq Cq)
    (sh : Stage fin val u η Ω G √(2 * q : ℕ) (nrm (2 * q)) (nrm (2 * q)) (2 * q) (2 * q) fh eh √(2 * q : ℕ) Dh Ch) :
    Stage fin val u η Ω G √(4 * q : ℕ) (nrm (4 * q)) (nrm (4 * q)) (4 * q) (4 * q) (srFn q fq fh) (srFn q eq eh) √(4 * q : ℕ)
      (16 * (5 + t) + max Dq Dh) (2 + max Cq Ch) := by
  have h2 : (1 : ℝ) ≤ √2 := by rw [Real.one_le_sqrt]; norm_num
  have hM := Real.sqrt_nonneg ((4 * q : ℕ) : ℝ)
  have n0 := nrm_isNrm (4 * q)
  have n1 := srNrm_isNrm q
  have s1 := srTwist_stage (Ω := Ω) hm hq hG
  have s2 := srParts_stage (Ω := Ω) (G := G) (D := max Dq Dh) (C := max Cq Ch) hm hq (f := srF fq fh) (e := srF eq eh) (fun r hr => by
    unfold srLen srF
    split
    · exact sh.mono hm (nrm_isNrm _) (Real.sqrt_nonneg _) (Real.sqrt_nonneg _) le_rfl (le_max_right _ _) (le_max_right _ _)
    · exact sq.mono hm (nrm_isNrm _) (Real.sqrt_nonneg _) (Real.sqrt_nonneg _) le_rfl (le_max_left _ _) (le_max_left _ _))
  have s3 : Stage fin val u η Ω G √(4 * q : ℕ) (nrm (4 * q)) (nrm (4 * q)) (4 * q) (4 * q) _ _ 1 0 0 :=
    perm_stage hm (fun p hp => srτ_lt hp) (fun p hp p' hp' e => srτ_inj hp hp' e) hM
  have st := (s1.comp' hm s2 n0 n1 n0 hM h2 (one_le_sqrt_nat hm (by omega)) le_rfl).comp hm s3 n0 n0 n0 hM
    (one_le_mul_of_one_le_of_one_le h2 (one_le_sqrt_nat hm (by omega))) le_rfl
  rw [mul_one, mul_comm √2, ← sqrt_four_mul] at st
  exact st.congr hm (fun x _ => srFn_eq q fq fh x) (fun x _ => srFn_eq q eq eh x)

end

end RustDHT
