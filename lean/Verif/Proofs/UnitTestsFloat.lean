import Verif.Proofs.UnitTests
import Verif.Proofs.CheckNumbers
import Verif.Spec.UnitTests
import Mathlib.Analysis.Real.Pi.Bounds

/-! # The reference transform of the unit tests in `f32` -/

set_option linter.unusedSectionVars false

namespace RustDHT

open Finset

/-! ## Elementary estimates -/

theorem rel_mul {x X δ ε y Y ε' : ℝ} (hx : 0 ≤ x) (hy : 0 ≤ y) (h1 : |X - x| ≤ ε * x + δ) (h2 : |Y - y| ≤ ε' * y) :
    |X * Y - x * y| ≤ (ε + ε' + ε * ε') * (x * y) + δ * ((1 + ε') * y) := by
  have e : X * Y - x * y = (X - x) * Y + x * (Y - y) := by ring
  have hY : |Y| ≤ (1 + ε') * y := by
    have := abs_add_le (Y - y) y
    rw [sub_add_cancel, abs_of_nonneg hy] at this
    linarith
  have a1 : |(X - x) * Y| ≤ (ε * x + δ) * ((1 + ε') * y) := by
    rw [abs_mul]
    exact mul_le_mul h1 hY (abs_nonneg _) (le_trans (abs_nonneg _) h1)
  have a2 : |x * (Y - y)| ≤ x * (ε' * y) := by
    rw [abs_mul, abs_of_nonneg hx]
    exact mul_le_mul_of_nonneg_left h2 hx
  rw [e]
  have := abs_add_le ((X - x) * Y) (x * (Y - y))
  nlinarith

theorem rel_div {q Q δ ε n D v : ℝ} (hq : 0 ≤ q) (hn : 1 ≤ n) (hv0 : 0 ≤ v) (hv : v ≤ 1 / 10 ^ 6) (hε : 0 ≤ ε) (hδ : 0 ≤ δ)
    (h1 : |Q - q| ≤ ε * q + δ) (h2 : |D - n| ≤ v * n) : 0 < D ∧ |Q / D - q / n| ≤ (ε + v) * (1 + 2 * v) * (q / n) + 2 * δ := by
  have h3 := abs_le.1 h2
  have hD : n * (1 - v) ≤ D := by linarith
  have hD0 : 0 < D := lt_of_lt_of_le (mul_pos (by linarith) (by norm_num at hv; linarith)) hD
  refine ⟨hD0, ?_⟩
  have e : Q / D - q / n = ((Q - q) - q / n * (D - n)) / D := by
    field_simp
    ring
  have hqn : 0 ≤ q / n := by positivity
  have hnum : |(Q - q) - q / n * (D - n)| ≤ (ε + v) * (q / n) * n + δ := by
    have a := abs_sub (Q - q) (q / n * (D - n))
    have b : |q / n * (D - n)| ≤ q / n * (v * n) := by
      rw [abs_mul, abs_of_nonneg hqn]
      exact mul_le_mul_of_nonneg_left h2 hqn
    have c : q = q / n * n := by field_simp
    have d : ε * q = ε * (q / n) * n := by rw [mul_assoc, ← c]
    linarith
  rw [e, abs_div, abs_of_pos hD0, div_le_iff₀ hD0]
  refine hnum.trans ?_
  have k1 : 1 ≤ (1 + 2 * v) * (1 - v) := by norm_num at hv; nlinarith
  have k2 : (ε + v) * (q / n) * n ≤ (ε + v) * (1 + 2 * v) * (q / n) * D := by
    have : (ε + v) * (q / n) * n ≤ (ε + v) * (q / n) * (n * ((1 + 2 * v) * (1 - v))) :=
      mul_le_mul_of_nonneg_left (le_mul_of_one_le_right (by linarith) k1) (by positivity)
    have k3 : (ε + v) * (1 + 2 * v) * (q / n) * (n * (1 - v)) ≤ (ε + v) * (1 + 2 * v) * (q / n) * D :=
      mul_le_mul_of_nonneg_left hD (by positivity)
    linarith
  have k4 : δ ≤ 2 * δ * D := by
    have : 1 / 2 ≤ D := by norm_num at hv; nlinarith
    nlinarith
  linarith

/-! ## Operations of `f32` -/

namespace Flt

theorem big32 {x : ℝ} (h : x ≤ 2 ^ 60) : x ≤ (2 : ℝ) ^ (binary32.emax - 1) := by
  refine h.trans ?_
  rw [← zpow_natCast]
  exact zpow_le_zpow_right₀ one_le_two (by decide)

theorem mul32 (a b : Flt binary32) (ha : a.fin) (hb : b.fin) (h : |a.val * b.val| ≤ 2 ^ 60) :
    (a * b).fin ∧ |(a * b).val - a.val * b.val| ≤ 6 / 10 ^ 8 * |a.val * b.val| + 1 / 10 ^ 30 := by
  obtain ⟨h1, h2⟩ := mul_spec (F := binary32) (by decide) a b ha hb (big32 h)
  refine ⟨h1, h2.trans ?_⟩
  change 2⁻¹ ^ 24 * |a.val * b.val| + 2 ^ (-150 : ℤ) ≤ _
  have e1 : (2⁻¹ : ℝ) ^ 24 ≤ 6 / 10 ^ 8 := by norm_num
  have e2 : (2 : ℝ) ^ (-150 : ℤ) ≤ 1 / 10 ^ 30 := by norm_num
  have := mul_le_mul_of_nonneg_right e1 (abs_nonneg (a.val * b.val))
  linarith

theorem div32 (a b : Flt binary32) (ha : a.fin) (hb : b.fin) (hb0 : b.val ≠ 0) (h : |a.val / b.val| ≤ 2 ^ 60) :
    (a / b).fin ∧ |(a / b).val - a.val / b.val| ≤ 6 / 10 ^ 8 * |a.val / b.val| + 1 / 10 ^ 30 := by
  obtain ⟨h1, h2⟩ := div_spec (F := binary32) (by decide) a b ha hb hb0 (big32 h)
  refine ⟨h1, h2.trans ?_⟩
  change 2⁻¹ ^ 24 * |a.val / b.val| + 2 ^ (-150 : ℤ) ≤ _
  have e1 : (2⁻¹ : ℝ) ^ 24 ≤ 6 / 10 ^ 8 := by norm_num
  have e2 : (2 : ℝ) ^ (-150 : ℤ) ≤ 1 / 10 ^ 30 := by norm_num
  have := mul_le_mul_of_nonneg_right e1 (abs_nonneg (a.val / b.val))
  linarith

theorem add32 (a b : Flt binary32) (ha : a.fin) (hb : b.fin) (h : |a.val + b.val| ≤ 2 ^ 60) :
    (a + b).fin ∧ |(a + b).val - (a.val + b.val)| ≤ 6 / 10 ^ 8 * |a.val + b.val| := by
  obtain ⟨h1, h2⟩ := add_spec (F := binary32) (by decide) a b ha hb (big32 h)
  refine ⟨h1, h2.trans (mul_le_mul_of_nonneg_right ?_ (abs_nonneg _))⟩
  show (2⁻¹ : ℝ) ^ 24 ≤ 6 / 10 ^ 8
  norm_num

theorem ofNat32 (n : ℕ) (h : n ≤ 2 ^ 60) : (ofNat binary32 n).fin ∧ |(ofNat binary32 n).val - n| ≤ 6 / 10 ^ 8 * n := by
  obtain ⟨h1, h2⟩ := ofNat_spec (F := binary32) (by decide) (by decide) n (big32 (by exact_mod_cast h))
  refine ⟨h1, h2.trans (mul_le_mul_of_nonneg_right ?_ (Nat.cast_nonneg n))⟩
  show (2⁻¹ : ℝ) ^ 24 ≤ 6 / 10 ^ 8
  norm_num

theorem pi32_spec : pi32.fin ∧ |pi32.val - Real.pi| ≤ 1 / 10 ^ 7 * Real.pi := by
  have hr : binary32.Rep (13176795 / 2 ^ 22 : ℚ) := ⟨13176795, -22, by decide, by decide, by norm_num, by
    show (13176795 / 2 ^ 22 : ℚ) < 2 ^ (128 : ℤ)
    norm_num⟩
  have e : pi32 = num false _ hr := round_rep false hr
  rw [e]
  refine ⟨trivial, ?_⟩
  rw [abs_val]
  have g1 := Real.pi_gt_d20
  have g2 := Real.pi_lt_d20
  norm_num [withSign] at g1 g2 ⊢
  rw [abs_le]
  constructor <;> linarith

end Flt

/-! ## The angle -/

open Flt in
/-- The angle of the reference transform: three operations on three converted integers and the constant for pi. -/
theorem angle32 [MathLib32] {m n : ℕ} (hn : 0 < n) (hn24 : n ≤ 24) (hm : m ≤ 23 * n) :
    (TestTrig.div (TestTrig.ofNat 2 * TestTrig.ofNat m * TestTrig.pi) (TestTrig.ofNat n) : Flt binary32).fin ∧
    |(TestTrig.div (TestTrig.ofNat 2 * TestTrig.ofNat m * TestTrig.pi) (TestTrig.ofNat n) : Flt binary32).val
      - 2 * Real.pi * m / n| ≤ 8 / 10 ^ 5 := by
  have hM : (m : ℝ) ≤ 552 := by exact_mod_cast (by omega : m ≤ 552)
  have hM0 : (0 : ℝ) ≤ m := Nat.cast_nonneg m
  have hN : (1 : ℝ) ≤ n := by exact_mod_cast hn
  have hmn : (m : ℝ) ≤ 23 * n := by exact_mod_cast hm
  obtain ⟨fa, ea⟩ := ofNat32 2 (by norm_num)
  obtain ⟨fb, eb⟩ := ofNat32 m (by omega)
  obtain ⟨fd, ed⟩ := ofNat32 n (by omega)
  obtain ⟨fp, ep⟩ := pi32_spec
  have g1 := Real.pi_gt_d2
  have g2 := Real.pi_lt_d2
  push_cast at ea
  show ((ofNat binary32 2 * ofNat binary32 m * pi32) / ofNat binary32 n).fin ∧
    |((ofNat binary32 2 * ofNat binary32 m * pi32) / ofNat binary32 n).val - _| ≤ _
  generalize ofNat binary32 2 = A at *
  generalize ofNat binary32 m = B at *
  generalize ofNat binary32 n = D at *
  generalize pi32 = P at *
  -- the first product
  have r1 := rel_mul (x := 2) (X := A.val) (δ := 0) (ε := 6 / 10 ^ 8) (y := m) (Y := B.val) (ε' := 6 / 10 ^ 8) (by norm_num) hM0
    (by linarith) eb
  have s1 : |A.val * B.val| ≤ 1200 := by
    have := abs_add_le (A.val * B.val - 2 * m) (2 * m)
    rw [sub_add_cancel, abs_of_nonneg (by positivity : (0 : ℝ) ≤ 2 * m)] at this
    norm_num at r1
    linarith
  obtain ⟨f1, e1⟩ := mul32 A B fa fb (s1.trans (by norm_num))
  have t1 : |(A * B).val - 2 * m| ≤ 20 / 10 ^ 8 * (2 * m) + 1 / 10 ^ 30 := by
    have a := abs_sub_le (A * B).val (A.val * B.val) (2 * m)
    have b := abs_add_le (A.val * B.val - 2 * m) (2 * m)
    rw [sub_add_cancel, abs_of_nonneg (by positivity : (0 : ℝ) ≤ 2 * m)] at b
    norm_num at r1 e1 a b ⊢
    linarith
  -- the second
  have r2 := rel_mul (x := 2 * m) (X := (A * B).val) (δ := 1 / 10 ^ 30) (ε := 20 / 10 ^ 8) (y := Real.pi) (Y := P.val)
    (ε' := 1 / 10 ^ 7) (by positivity) Real.pi_pos.le t1 ep
  generalize hq : 2 * (m : ℝ) * Real.pi = q at *
  have hq0 : 0 ≤ q := by rw [← hq]; positivity
  have hqN : q ≤ 145 * n := by
    rw [← hq]
    norm_num at g2
    nlinarith [Real.pi_pos]
  have hq1 : q ≤ 3480 := by
    have : (n : ℝ) ≤ 24 := by exact_mod_cast hn24
    linarith
  have r2' : |(A * B).val * P.val - q| ≤ 31 / 10 ^ 8 * q + 4 / 10 ^ 30 := by
    norm_num at r2 g2 ⊢
    nlinarith
  have b2 := abs_add_le ((A * B).val * P.val - q) q
  rw [sub_add_cancel, abs_of_nonneg hq0] at b2
  have s2 : |(A * B).val * P.val| ≤ 3500 := by
    norm_num at r2'
    linarith
  obtain ⟨f2, e2⟩ := mul32 (A * B) P f1 fp (s2.trans (by norm_num))
  have t2 : |(A * B * P).val - q| ≤ 38 / 10 ^ 8 * q + 10 / 10 ^ 30 := by
    have a := abs_sub_le (A * B * P).val ((A * B).val * P.val) q
    norm_num at r2' e2 a b2 ⊢
    linarith
  -- the quotient
  obtain ⟨hD, r3⟩ := rel_div (v := 6 / 10 ^ 8) hq0 hN (by norm_num) (by norm_num) (by norm_num) (by norm_num) t2 ed
  have hqn : q / n ≤ 145 := by rw [div_le_iff₀ (by linarith)]; exact hqN
  have hqn0 : 0 ≤ q / n := by positivity
  have e0 : 2 * Real.pi * m / n = q / n := by rw [← hq]; ring
  rw [e0]
  generalize q / (n : ℝ) = θ at *
  have b3 := abs_add_le ((A * B * P).val / D.val - θ) θ
  rw [sub_add_cancel, abs_of_nonneg hqn0] at b3
  have s3 : |(A * B * P).val / D.val| ≤ 146 := by
    norm_num at r3
    linarith
  obtain ⟨f3, e3⟩ := div32 (A * B * P) D f2 fd hD.ne' (s3.trans (by norm_num))
  refine ⟨f3, ?_⟩
  have a := abs_sub_le (A * B * P / D).val ((A * B * P).val / D.val) θ
  generalize |(A * B * P).val / D.val| = w1 at *
  generalize |(A * B * P / D).val - (A * B * P).val / D.val| = w2 at *
  norm_num at r3 e3 ⊢
  linarith

variable [MathLib32]

open Flt in
/-- The twiddle factor. -/
theorem twiddle32 (hl : MathLib32.Accurate) {a : Flt binary32} (ha : a.fin) {θ : ℝ} (h : |a.val - θ| ≤ 8 / 10 ^ 5) (hθ : |θ| ≤ 150) :
    (MathLib32.cos a + MathLib32.sin a).fin ∧ |(MathLib32.cos a + MathLib32.sin a).val - cas θ| ≤ 17 / 10 ^ 5 := by
  have hs : |a.val| ≤ 256 := by
    have := abs_add_le (a.val - θ) θ
    rw [sub_add_cancel] at this
    norm_num at h
    linarith
  obtain ⟨c1, c2⟩ := hl.cos a ha hs
  obtain ⟨s1, s2⟩ := hl.sin a ha hs
  have hc := Real.abs_cos_sub_cos_le a.val θ
  have hs := Real.abs_sin_sub_sin_le a.val θ
  have hc1 := Real.abs_cos_le_one θ
  have hs1 := Real.abs_sin_le_one θ
  have n1 : (2⁻¹ : ℝ) ^ 22 ≤ 3 / 10 ^ 7 := by norm_num
  have d1 := abs_sub_le (MathLib32.cos a).val (Real.cos a.val) (Real.cos θ)
  have d2 := abs_sub_le (MathLib32.sin a).val (Real.sin a.val) (Real.sin θ)
  generalize MathLib32.cos a = C at *
  generalize MathLib32.sin a = S at *
  have d3 : |C.val - Real.cos θ| ≤ 8 / 10 ^ 5 + 3 / 10 ^ 7 := by linarith
  have d4 : |S.val - Real.sin θ| ≤ 8 / 10 ^ 5 + 3 / 10 ^ 7 := by linarith
  have d5 : |C.val + S.val| ≤ 2.1 := by
    rw [abs_le] at *
    norm_num at *
    constructor <;> linarith
  obtain ⟨f, e⟩ := add32 C S c1 s1 (d5.trans (by norm_num))
  refine ⟨f, ?_⟩
  unfold cas
  have e' : |(C + S).val - (C.val + S.val)| ≤ 2 / 10 ^ 7 := e.trans (by norm_num at d5 ⊢; linarith)
  clear e d5
  norm_num at d3 d4 e' ⊢
  rw [abs_le] at *
  constructor <;> linarith

variable [MathLib]

/-- The reference transform is near the transform. -/
theorem reference32 (hl : MathLib.Accurate) (hl32 : MathLib32.Accurate) {n : ℕ} (hn : 0 < n) (hn24 : n ≤ 24) {x : List (Flt binary32)}
    (hx : x.length = n) (hf : ∀ a ∈ x, a.fin ∧ |a.val| ≤ 10) {k : ℕ} (hk : k < n) :
    (nth (referenceDht x x) k).fin ∧ |(nth (referenceDht x x) k).val - nth (dht (x.map Flt.val)) k| ≤ 6 / 100 := by
  have hm := floatModel32 hl
  let tw : ℕ → Flt binary32 := fun i =>
    MathLib32.cos (TestTrig.div (TestTrig.ofNat 2 * TestTrig.ofNat (i * k) * TestTrig.pi) (TestTrig.ofNat n)) +
    MathLib32.sin (TestTrig.div (TestTrig.ofNat 2 * TestTrig.ofNat (i * k) * TestTrig.pi) (TestTrig.ofNat n))
  have hxi : ∀ i < n, (nth x i).fin ∧ |(nth x i).val| ≤ 10 := fun i hi => by
    rw [nth_eq_getElem (by omega)]
    exact hf _ (List.getElem_mem _)
  have htw : ∀ i < n, (tw i).fin ∧ |(tw i).val - cas (2 * Real.pi * i * k / n)| ≤ 17 / 10 ^ 5 := by
    intro i hi
    have hmul : i * k ≤ 23 * n := by
      have : i * k ≤ n * 23 := Nat.mul_le_mul hi.le (by omega)
      omega
    obtain ⟨f, e⟩ := angle32 hn hn24 hmul
    have e0 : 2 * Real.pi * ((i * k : ℕ) : ℝ) / n = 2 * Real.pi * i * k / n := by push_cast; ring
    rw [e0] at e
    refine twiddle32 hl32 f e ?_
    have hN : (0 : ℝ) < n := by exact_mod_cast hn
    have g := Real.pi_lt_d2
    have hb : (i : ℝ) * k ≤ 23 * n := by exact_mod_cast hmul
    rw [abs_of_nonneg (by positivity), div_le_iff₀ hN]
    norm_num at g
    nlinarith [Real.pi_pos]
  have hval : nth (referenceDht x x) k = (List.range n).foldl (fun acc i => acc + tw i * nth x i) 0 := by
    have hz : x.zipIdx = (List.range n).map fun i => (nth x i, i) := by
      refine List.ext_getElem (by simp [hx]) fun i h1 h2 => ?_
      rw [List.getElem_map, List.getElem_range, List.getElem_zipIdx, nth_eq_getElem (by simpa using h1)]
      simp
    have h0 : referenceDht x x = tab n fun k => x.zipIdx.foldl (fun sum (p : Flt binary32 × ℕ) =>
        sum + (TestTrig.cos (TestTrig.div (TestTrig.ofNat 2 * TestTrig.ofNat (p.2 * k) * TestTrig.pi) (TestTrig.ofNat x.length))
          + TestTrig.sin (TestTrig.div (TestTrig.ofNat 2 * TestTrig.ofNat (p.2 * k) * TestTrig.pi) (TestTrig.ofNat x.length))) * p.1) 0 := by
      rw [referenceDht, hx]; rfl
    rw [h0, nth_tab hk, hz, List.foldl_map, hx]
    rfl
  have hX : nth (dht (x.map Flt.val)) k = ∑ i ∈ range n, cas (2 * Real.pi * i * k / n) * (nth x i).val := by
    rw [dht, List.length_map, hx]
    show nth (tab n _) k = _
    rw [nth_tab hk, dhtCoeff, List.length_map, hx]
    refine sum_congr rfl fun i hi => ?_
    have : (x.map Flt.val).getD i 0 = (nth x i).val := by
      have hi := mem_range.1 hi
      simp [nth, List.getElem?_eq_getElem (show i < x.length by omega)]
    rw [this, mul_comm]
  have key : ∀ i < n, (tw i * nth x i).fin ∧ |cas (2 * Real.pi * i * k / n) * (nth x i).val| ≤ 20 ∧
      |(tw i * nth x i).val - cas (2 * Real.pi * i * k / n) * (nth x i).val|
        ≤ (1 + 2⁻¹ ^ 24) ^ 2000 * (20 + 2⁻¹ ^ 150) - 20 := by
    intro i hi
    obtain ⟨f1, e1⟩ := htw i hi
    obtain ⟨f2, e2⟩ := hxi i hi
    have hc : |cas (2 * Real.pi * i * k / n)| ≤ 2 :=
      (abs_add_le _ _).trans (by linarith [Real.abs_cos_le_one (2 * Real.pi * i * k / n), Real.abs_sin_le_one (2 * Real.pi * i * k / n)])
    generalize cas (2 * Real.pi * i * k / n) = c at *
    generalize tw i = w at *
    generalize nth x i = y at *
    have hcy : |c * y.val| ≤ 20 := by
      rw [abs_mul]
      have := mul_le_mul hc e2 (abs_nonneg _) (by norm_num)
      linarith
    have hwy : |w.val * y.val - c * y.val| ≤ 17 / 10 ^ 4 := by
      rw [← sub_mul, abs_mul]
      have := mul_le_mul e1 e2 (abs_nonneg _) (by norm_num)
      linarith
    have b := abs_add_le (w.val * y.val - c * y.val) (c * y.val)
    rw [sub_add_cancel] at b
    have hs : |w.val * y.val| ≤ 21 := by norm_num at hwy; linarith
    obtain ⟨f, e⟩ := Flt.mul32 w y f1 f2 (hs.trans (by norm_num))
    refine ⟨f, hcy, ?_⟩
    have t := abs_sub_le (w * y).val (w.val * y.val) (c * y.val)
    have lo : (1 : ℝ) + 2000 * 2⁻¹ ^ 24 ≤ (1 + 2⁻¹ ^ 24) ^ 2000 := by
      have := one_add_mul_le_pow (a := (2⁻¹ : ℝ) ^ 24) (by norm_num) 2000
      push_cast at this
      exact this
    have lo2 : ((1 : ℝ) + 2000 * 2⁻¹ ^ 24) * 20 ≤ (1 + 2⁻¹ ^ 24) ^ 2000 * (20 + 2⁻¹ ^ 150) :=
      mul_le_mul lo (by norm_num) (by norm_num) (by positivity)
    generalize (1 + 2⁻¹ ^ 24 : ℝ) ^ 2000 * (20 + 2⁻¹ ^ 150) = Z at *
    generalize |w.val * y.val| = w1 at *
    norm_num at hwy e t lo2 ⊢
    linarith
  have hsum : ∑ _i ∈ range n, ((20 : ℝ) + 2⁻¹ ^ 150) = n * ((20 : ℝ) + 2⁻¹ ^ 150) := by
    rw [sum_const, card_range, nsmul_eq_mul]
  have hsum' : ∑ _i ∈ range n, (20 : ℝ) = n * 20 := by simp
  have hN : (n : ℝ) ≤ 24 := by exact_mod_cast hn24
  have hN0 : (0 : ℝ) ≤ n := Nat.cast_nonneg n
  have hP : (1 + 2⁻¹ ^ 24 : ℝ) ^ (2000 + n) ≤ 1 + 1.005 * (2024 * 2⁻¹ ^ 24) := by
    refine (pow_small (u := 2⁻¹ ^ 24) (by positivity) (K := 2000 + n) ?_).trans ?_
    · push_cast
      norm_num
      linarith
    · push_cast
      norm_num
      linarith
  have hP0 : (0 : ℝ) ≤ (1 + 2⁻¹ ^ 24) ^ (2000 + n) := by positivity
  have hbound : (1 + 2⁻¹ ^ 24 : ℝ) ^ (2000 + n) * (n * (20 + 2⁻¹ ^ 150))
      ≤ (1 + 1.005 * (2024 * 2⁻¹ ^ 24)) * (n * (20 + 2⁻¹ ^ 150)) :=
    mul_le_mul_of_nonneg_right hP (by positivity)
  have := hm.foldl_sum (f := fun i => tw i * nth x i) (e := fun i => cas (2 * Real.pi * i * k / n) * (nth x i).val)
    (m := fun _ => 20) (d := 2000) (fun _ => by norm_num) n key (by
      rw [hsum]
      refine hbound.trans ?_
      norm_num
      linarith)
  rw [hsum, hsum'] at this
  rw [hval, hX]
  refine ⟨this.1, this.2.2.trans ?_⟩
  norm_num at hbound ⊢
  linarith

end RustDHT
