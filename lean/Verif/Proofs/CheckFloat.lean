import Verif.Proofs.Harness
import Verif.Proofs.IeeeModel
import Verif.Proofs.PlanStability
import Verif.Proofs.NaiveRounding
import Verif.Proofs.PlanRounding
import Verif.Spec.IeeeTest

/-! # The unit-test checker in floating point -/

set_option linter.unusedSectionVars false

namespace RustDHT

open Finset

section
variable {T : Type} [Zero T] [Add T] [Sub T] [Mul T] [Neg T] [FftNum T] [TestNum T]

/-- Whatever an object computes, the checker accepts it if one comparison succeeds. -/
theorem check_of_compare {d : Dht T} {f g : List T → List T} (hd : Implements d f) (hg : Implements (dhtNaive T d.len) g)
    {signal : List T} (hn : 0 < d.len) (hs : signal.length = d.len)
    (hc : compareRealVectors (g signal) (f signal) = .ok true) : checkDhtAlgorithm signal d d.len = .ok () := by
  have hl : (dhtNaive T d.len).len = d.len := dhtNaive_len _
  have hlf := hd.length signal hs
  have hlg := hg.length signal (by rw [hs, hl])
  rw [hl] at hlg
  have one : ∀ s : List T, d.inplaceScratchLen ≤ s.length →
      ∃ s', d.processWithScratch signal s = .ok (f signal, s') ∧ s'.length = s.length := by
    intro s hsl
    obtain ⟨s', e, ls, _⟩ := hd.inplace signal s (by omega) (by rw [hs]) hsl
    rw [mapChunks_single hn hs] at e
    exact ⟨s', e, ls⟩
  have oop : ∀ o s : List T, o.length = d.len → d.oopScratchLen ≤ s.length →
      ∃ i' s', d.processOop signal o s = .ok (i', f signal, s') ∧ i'.length = signal.length ∧ s'.length = s.length := by
    intro o s ho hsl
    obtain ⟨i', s', e, li, ls, _⟩ := hd.oop signal o s (by omega) (by omega) (by rw [hs]) hsl
    rw [mapChunks_single hn hs] at e
    exact ⟨i', s', e, li, ls⟩
  obtain ⟨s0, e0, _⟩ := hg.inplace signal (List.replicate (dhtNaive T d.len).inplaceScratchLen 0)
    (by omega) (by rw [hl, hs]) (by simp)
  rw [hl, mapChunks_single hn hs] at e0
  obtain ⟨s1, e1, l1⟩ := one (List.replicate d.inplaceScratchLen 0) (by simp)
  obtain ⟨s2, e2, l2⟩ := one (List.replicate s1.length TestNum.dirty) (by rw [l1]; simp)
  obtain ⟨i3, s3, e3, li3, l3⟩ := oop (g signal) (List.replicate d.oopScratchLen 0) hlg (by simp)
  obtain ⟨i4, s4, e4, li4, l4⟩ := oop (f signal) (List.replicate s3.length TestNum.dirty) hlf (by rw [l3]; simp)
  unfold checkDhtAlgorithm
  have hfs : (f signal).length = signal.length := by omega
  simp only [beq_self_eq_true, assert_true, ok_bind, e0, Dht.process, e1, hc, copyFromSlice, hfs, if_true, e2, e3, li3, e4]
  split <;> split <;> simp

variable {fin : T → Prop} {val : T → ℝ} {u η Ω : ℝ} {t s : ℕ}

/-- The sum of absolute differences in `compare_real_vectors`. -/
theorem FloatModel.error_sum (hm : FloatModel fin val u η Ω t s) (hu1 : u ≤ 1)
    (habs : ∀ a : T, fin a → fin (TestNum.abs a) ∧ val (TestNum.abs a) = |val a|) (l : List (T × T)) (e : T) (he : fin e)
    (h0 : 0 ≤ val e) (hl : ∀ p ∈ l, fin p.1 ∧ fin p.2)
    (hO : (1 + u) ^ l.length * (val e + (1 + u) * (l.map fun p => |val p.1 - val p.2|).sum) ≤ Ω) :
    fin (l.foldl (fun error (p : T × T) => error + TestNum.abs (p.1 - p.2)) e) ∧
    0 ≤ val (l.foldl (fun error (p : T × T) => error + TestNum.abs (p.1 - p.2)) e) ∧
    val (l.foldl (fun error (p : T × T) => error + TestNum.abs (p.1 - p.2)) e)
      ≤ (1 + u) ^ l.length * (val e + (1 + u) * (l.map fun p => |val p.1 - val p.2|).sum) := by
  have hu0 := hm.u_nonneg
  induction l generalizing e with
  | nil => simp [he, h0]
  | cons p l ih =>
    rw [List.map_cons, List.sum_cons, List.length_cons] at hO ⊢
    rw [List.foldl_cons]
    have hS : 0 ≤ (l.map fun p => |val p.1 - val p.2|).sum := List.sum_nonneg fun _ h => by
      obtain ⟨q, -, rfl⟩ := List.mem_map.1 h
      exact abs_nonneg _
    obtain ⟨f1, f2⟩ := hl p (List.mem_cons_self ..)
    have hP : 1 ≤ (1 + u) ^ (l.length + 1) := one_le_pow₀ (by linarith)
    generalize hδ : |val p.1 - val p.2| = δ at *
    have hδ0 : 0 ≤ δ := hδ ▸ abs_nonneg _
    generalize (l.map fun p => |val p.1 - val p.2|).sum = S at *
    have hall : val e + (1 + u) * (δ + S) ≤ Ω := by
      refine le_trans ?_ hO
      exact le_mul_of_one_le_left (by positivity) hP
    have hpos : 0 ≤ (1 + u) * S := by positivity
    obtain ⟨g1, g2⟩ := hm.sub _ _ f1 f2 (by rw [hδ]; nlinarith)
    obtain ⟨a1, a2⟩ := habs _ g1
    have hd : val (TestNum.abs (p.1 - p.2)) ≤ (1 + u) * δ := by
      rw [a2]
      have := abs_add_le (val (p.1 - p.2) - (val p.1 - val p.2)) (val p.1 - val p.2)
      rw [sub_add_cancel, hδ] at this
      rw [hδ] at g2
      linarith
    have hd0 : 0 ≤ val (TestNum.abs (p.1 - p.2)) := by rw [a2]; exact abs_nonneg _
    generalize TestNum.abs (p.1 - p.2) = D at *
    have hsum : |val e + val D| = val e + val D := abs_of_nonneg (by linarith)
    obtain ⟨k1, k2⟩ := hm.add e D he a1 (by rw [hsum]; linarith)
    rw [hsum, abs_le] at k2
    have hv : val (e + D) ≤ (1 + u) * (val e + (1 + u) * δ) := by
      have : (1 + u) * (val e + val D) ≤ (1 + u) * (val e + (1 + u) * δ) :=
        mul_le_mul_of_nonneg_left (by linarith) (by linarith)
      linarith [k2.2]
    have hv0 : 0 ≤ val (e + D) := by nlinarith [k2.1]
    have hstep : (1 + u) ^ l.length * (val (e + D) + (1 + u) * S)
        ≤ (1 + u) ^ (l.length + 1) * (val e + (1 + u) * (δ + S)) := by
      rw [pow_succ, mul_assoc]
      refine mul_le_mul_of_nonneg_left ?_ (by positivity)
      have : (1 + u) * S ≤ (1 + u) * ((1 + u) * S) := le_mul_of_one_le_left hpos (by linarith)
      linarith
    obtain ⟨r1, r0, r2⟩ := ih (e + D) k1 hv0 (fun q hq => hl q (List.mem_cons_of_mem _ hq)) (hstep.trans hO)
    exact ⟨r1, r0, r2.trans hstep⟩

end

/-- Cauchy-Schwarz. -/
theorem sum_abs_le_nrm (n : ℕ) (f : ℕ → ℝ) : ∑ i ∈ range n, |f i| ≤ √n * nrm n f := by
  have h := sum_mul_sq_le_sq_mul_sq (range n) (fun _ => (1 : ℝ)) (fun i => |f i|)
  simp only [one_mul, one_pow, sum_const, card_range, nsmul_eq_mul, mul_one, sq_abs] at h
  rw [nrm, ← Real.sqrt_mul (Nat.cast_nonneg n)]
  exact Real.le_sqrt_of_sq_le h

theorem sum_zip_nth {T : Type} [Zero T] {val : T → ℝ} (x y : List T) (h : x.length = y.length) :
    ((x.zip y).map fun p => |val p.1 - val p.2|).sum = ∑ i ∈ range x.length, |val (nth x i) - val (nth y i)| := by
  induction x generalizing y with
  | nil => simp
  | cons a x ih =>
    match y, h with
    | b :: y, h =>
      rw [List.zip_cons_cons, List.map_cons, List.sum_cons, ih y (by simpa using h), List.length_cons, sum_range_succ', add_comm]
      rfl

/-- `under` and `big` do not exceed `depth` by more than 7. -/
theorem stability_le (t s : ℕ) (p : Plan) :
    (p.stability t s).under ≤ (p.stability t s).depth ∧ (p.stability t s).big ≤ (p.stability t s).depth + 7 := by
  have leaf : ∀ q : Cost, q.c ≤ q.g * q.d → 1 ≤ q.d → (Stab.leaf t s q).under ≤ (Stab.leaf t s q).depth ∧
      (Stab.leaf t s q).big ≤ (Stab.leaf t s q).depth + 7 := by
    intro q h1 h2
    simp only [Stab.leaf, Cost.depth]
    have : q.g * q.d ≤ q.g * (q.d + q.e * t + q.r * s) := Nat.mul_le_mul_left _ (by omega)
    have : q.g * 1 ≤ q.g * q.d := Nat.mul_le_mul_left _ h2
    omega
  have step : ∀ q : Cost, q.c ≤ 2 * q.g * q.d → 1 ≤ q.d → (Stab.step t s q).under ≤ (Stab.step t s q).depth ∧
      (Stab.step t s q).big ≤ (Stab.step t s q).depth + 7 := by
    intro q h1 h2
    simp only [Stab.step, Cost.depth]
    have : 2 * q.g * q.d ≤ 2 * q.g * (q.d + q.e * t + q.r * s) := Nat.mul_le_mul_left _ (by omega)
    have : 2 * q.g * 1 ≤ 2 * q.g * q.d := Nat.mul_le_mul_left _ h2
    omega
  have seq : ∀ a b : Stab, a.under ≤ a.depth ∧ a.big ≤ a.depth + 7 → b.under ≤ b.depth ∧ b.big ≤ b.depth + 7 →
      (a.seq b).under ≤ (a.seq b).depth ∧ (a.seq b).big ≤ (a.seq b).depth + 7 := by
    rintro a b ⟨h1, h2⟩ ⟨h3, h4⟩
    simp only [Stab.seq]
    omega
  have none : Stab.none.under ≤ Stab.none.depth ∧ Stab.none.big ≤ Stab.none.depth + 7 := ⟨le_rfl, by decide⟩
  induction p with
  | naive n =>
    refine leaf _ ?_ ?_
    · show n ≤ 2 * max 1 n * (n + 3)
      have : n ≤ max 1 n := le_max_right _ _
      nlinarith
    · show 1 ≤ n + 3
      omega
  | b1 => exact none
  | b2 | b3 | b4 | b5 | b6 | b8 | b9 | b16 => exact leaf _ (by decide) (by decide)
  | mixedRadix w h iw ih => exact seq _ _ (seq _ _ ih (step _ (by decide) (by decide))) iw
  | mr2 h ih | mr3 h ih | mr4 h ih | mr5 h ih | mr6 h ih => exact seq _ _ ih (step _ (by decide) (by decide))
  | radix4 n =>
    have times : ∀ (b : Stab) (l : ℕ), b.under ≤ b.depth → b.big ≤ 7 →
        (b.times l).under ≤ (b.times l).depth ∧ (b.times l).big ≤ (b.times l).depth + 7 := by
      intro b l h3 h5
      simp only [Stab.times]
      have := Nat.mul_le_mul_left l h3
      omega
    refine seq _ _ ?_ (times _ _ (step ⟨7, 4, 5, 1, 0⟩ (by decide) (by decide)).1 le_rfl)
    split_ifs
    · exact none
    all_goals exact leaf _ (by decide) (by decide)
  | splitRadix q h iq ih =>
    refine seq _ _ (step _ (by decide) (by decide)) ?_
    simp only [Stab.sup]
    omega
  | raders i ih =>
    simp only [Plan.stability, radersStability]
    generalize i.stability t s = a at *
    generalize i.expectedLen = n
    have h1 : 13 * (Nat.sqrt (n + 1) + 1) * (a.depth + 7) ≤ 13 * (Nat.sqrt (n + 1) + 1) * (a.depth + n * (3 + 2 * t + a.under) + 7) :=
      Nat.mul_le_mul_left _ (by omega)
    have h2 : 2 * (Nat.sqrt (n + 1) + 1) * a.big ≤ 2 * (Nat.sqrt (n + 1) + 1) * (a.depth + 7) := Nat.mul_le_mul_left _ ih.2
    have h3 : 13 * 1 * 7 ≤ 13 * (Nat.sqrt (n + 1) + 1) * (a.depth + 7) := by
      refine Nat.mul_le_mul (Nat.mul_le_mul_left _ (by omega)) (by omega)
    have h4 : 2 * (Nat.sqrt (n + 1) + 1) * (a.depth + 7) ≤ 13 * (Nat.sqrt (n + 1) + 1) * (a.depth + 7) :=
      Nat.mul_le_mul (Nat.mul_le_mul_right _ (by omega)) (by omega)
    omega

end RustDHT
