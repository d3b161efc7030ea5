import Verif.Proofs.RootError
import Verif.Proofs.RootIeee
import Verif.Props.Exact

/-! # C34: `sqrt(1/2)` rounded to `f32`

False: `MixedRadix`, `MixedRadix3xn`, `MixedRadix5xn` and `MixedRadix6xn` take `sqrt(1/2)` from `0.5f32.sqrt()` whatever
the number type, so that with `f64`, or indeed with arithmetic that makes no other error, the result has the precision of
`f32`.  `realWithRoot ρ` is exact arithmetic with `ρ` in the place of that constant.  The theorems say what is computed
then, bound the error, and show that it is not zero. -/

namespace RustDHT

open Finset

/-- `rootDht` is a DHT with an error of at most `|δ - 1| * sqrt 2` times the sum of the `|x[i]|`. -/
theorem rootDht_error (w : ℕ) (δ : ℝ) (x : List ℝ) (k : ℕ) (hk : k < x.length) :
    |(rootDht w δ x).getD k 0 - (dht x).getD k 0| ≤ |δ - 1| * √2 * ∑ i ∈ range x.length, |x.getD i 0| := by
  have hcas : ∀ t : ℝ, |cas t| ≤ √2 := fun t => by
    rw [cas]
    apply Real.abs_le_sqrt
    nlinarith [Real.sin_sq_add_cos_sq t, sq_nonneg (Real.cos t - Real.sin t)]
  have h0 : 0 ≤ ∑ i ∈ range x.length, |x.getD i 0| := sum_nonneg fun _ _ => abs_nonneg _
  have e1 : (dht x).getD k 0 = dhtCoeff x k := by simp [dht, hk]
  have e2 : (rootDht w δ x).getD k 0 = if k % (x.length / w) = 0 then dhtCoeff x k
      else δ * dhtCoeff x k + (1 - δ) * dhtPart w x k := by simp [rootDht, hk]
  rw [e1, e2]
  split
  · rw [sub_self, abs_zero]; positivity
  · have : δ * dhtCoeff x k + (1 - δ) * dhtPart w x k - dhtCoeff x k = (δ - 1) * (dhtCoeff x k - dhtPart w x k) := by ring
    rw [this, abs_mul, mul_assoc]
    refine mul_le_mul_of_nonneg_left ?_ (abs_nonneg _)
    rw [dhtCoeff, dhtPart, ← sum_sub_distrib, mul_sum]
    refine (abs_sum_le_sum_abs _ _).trans (sum_le_sum fun i _ => ?_)
    split
    · rw [sub_self, abs_zero]; positivity
    · rw [sub_zero, abs_mul, mul_comm]
      exact mul_le_mul_of_nonneg_right (hcas _) (abs_nonneg _)

/-- The relative error of the constant: less than `2 ^ -25`, more than `2 ^ -26`. -/
theorem sqrtHalfRounded_error :
    1 / 2 ^ 26 < |sqrtHalfRounded * √2 - 1| ∧ |sqrtHalfRounded * √2 - 1| < 1 / 2 ^ 25 := by
  have h1 : √2 * √2 = (2 : ℝ) := Real.mul_self_sqrt (by norm_num)
  have h2 : 0 ≤ √(2 : ℝ) := Real.sqrt_nonneg _
  have h3 : sqrtHalfRounded * √2 - 1 < -(1 / 2 ^ 26) := by
    unfold sqrtHalfRounded
    have : √2 < (1 - 1 / 2 ^ 26) * (2 ^ 24 / 11863283 : ℝ) := by
      rw [← Real.sqrt_sq (show (0 : ℝ) ≤ (1 - 1 / 2 ^ 26) * (2 ^ 24 / 11863283 : ℝ) by norm_num)]
      exact Real.sqrt_lt_sqrt (by norm_num) (by norm_num)
    linarith
  have h4 : -(1 / 2 ^ 25) < sqrtHalfRounded * √2 - 1 := by
    unfold sqrtHalfRounded
    have : (1 - 1 / 2 ^ 25) * (2 ^ 24 / 11863283 : ℝ) < √2 := by
      rw [← Real.sqrt_sq (show (0 : ℝ) ≤ (1 - 1 / 2 ^ 25) * (2 ^ 24 / 11863283 : ℝ) by norm_num)]
      exact Real.sqrt_lt_sqrt (by norm_num) (by norm_num)
    linarith
  rw [abs_of_neg (by linarith [show (0 : ℝ) < 1 / 2 ^ 26 by norm_num])]
  constructor <;> linarith

/-- What is computed with the value `ρ` for `sqrt(1/2)`. -/
theorem C34_mixedRadix_partial (ρ : ℝ) (wd hd : Dht ℝ) (hw : ComputesDht wd) (hh : ComputesDht hd) :
    letI := realWithRoot ρ
    Implements (mixedRadix wd hd) (rootDht wd.len (ρ * √2)) :=
  letI := realWithRoot ρ
  (mixedRadix_implements hw hh).congr fun _ hx => mrFn_root ρ (fun _ _ => rfl) (fun _ _ => rfl) hx

theorem C34_mixedRadix3xn_partial (ρ : ℝ) (hd : Dht ℝ) (hh : ComputesDht hd)
    (hin : 0 < hd.len → hd.inplaceScratchLen ≤ 3 * hd.len) (hoop : 0 < hd.len → hd.oopScratchLen = 0) :
    letI := realWithRoot ρ
    Implements (mixedRadix3xn hd) (rootDht 3 (ρ * √2)) :=
  letI := realWithRoot ρ
  (mr3_implements hh hin hoop).congr fun _ hx => mr3Fn_root ρ hx

theorem C34_mixedRadix5xn_partial (ρ : ℝ) (hd : Dht ℝ) (hh : ComputesDht hd)
    (hin : 0 < hd.len → hd.inplaceScratchLen ≤ 5 * hd.len) (hoop : 0 < hd.len → hd.oopScratchLen = 0) :
    letI := realWithRoot ρ
    Implements (mixedRadix5xn hd) (rootDht 5 (ρ * √2)) :=
  letI := realWithRoot ρ
  (mr5_implements hh hin hoop).congr fun _ hx => mr5Fn_root ρ hx

theorem C34_mixedRadix6xn_partial (ρ : ℝ) (hd : Dht ℝ) (hh : ComputesDht hd)
    (hin : 0 < hd.len → hd.inplaceScratchLen ≤ 6 * hd.len) (hoop : 0 < hd.len → hd.oopScratchLen = 0) :
    letI := realWithRoot ρ
    Implements (mixedRadix6xn hd) (rootDht 6 (ρ * √2)) :=
  letI := realWithRoot ρ
  (mr6_implements hh hin hoop).congr fun _ hx => mr6Fn_root ρ hx

/-- With the constant of the code, the error is at most `2 ^ -25 * sqrt 2` times the sum of the `|x[i]|`. -/
theorem C34_error_bound_partial (w : ℕ) (x : List ℝ) (k : ℕ) (hk : k < x.length) :
    |(rootDht w (sqrtHalfRounded * √2) x).getD k 0 - (dht x).getD k 0|
      ≤ 1 / 2 ^ 25 * √2 * ∑ i ∈ range x.length, |x.getD i 0| := by
  refine (rootDht_error w _ x k hk).trans ?_
  refine mul_le_mul_of_nonneg_right ?_ (sum_nonneg fun _ _ => abs_nonneg _)
  exact mul_le_mul_of_nonneg_right sqrtHalfRounded_error.2.le (Real.sqrt_nonneg _)

/-- The input `[0, 1, 0, .., 0]` of length `n`. -/
def impulseOne (n : ℕ) : List ℝ := (List.range n).map fun i => if i = 1 then 1 else 0

/-- On the impulse at index 1, coefficient 1 is wrong by more than `2 ^ -26`. -/
theorem rootDht_impulse {w h : ℕ} (hw : 2 ≤ w) (hh : 2 ≤ h) :
    1 / 2 ^ 26 < |(rootDht w (sqrtHalfRounded * √2) (impulseOne (w * h))).getD 1 0
      - (dht (impulseOne (w * h))).getD 1 0| := by
  have hn : 4 ≤ w * h := Nat.mul_le_mul hw hh
  have hl : (impulseOne (w * h)).length = w * h := by simp [impulseOne]
  have hx : ∀ i, i < w * h → (impulseOne (w * h)).getD i 0 = if i = 1 then 1 else 0 := by
    intro i hi
    simp [impulseOne, hi]
  have e1 : (dht (impulseOne (w * h))).getD 1 0 = dhtCoeff (impulseOne (w * h)) 1 := by
    simp [dht, hl, show 1 < w * h by omega]
  have e2 : (rootDht w (sqrtHalfRounded * √2) (impulseOne (w * h))).getD 1 0
      = sqrtHalfRounded * √2 * dhtCoeff (impulseOne (w * h)) 1
        + (1 - sqrtHalfRounded * √2) * dhtPart w (impulseOne (w * h)) 1 := by
    have h1 : ¬ 1 % (w * h / w) = 0 := by
      rw [Nat.mul_div_cancel_left h (by omega), Nat.mod_eq_of_lt (by omega)]; omega
    simp [rootDht, hl, show 1 < w * h by omega, h1]
  have e3 : dhtPart w (impulseOne (w * h)) 1 = 0 := by
    rw [dhtPart]
    refine sum_eq_zero fun i hi => ?_
    rw [mem_range, hl] at hi
    split
    · next hd =>
      rw [hx i hi, if_neg, zero_mul]
      rintro rfl
      have := Nat.le_of_dvd (by omega) hd
      omega
    · rfl
  have e4 : 1 ≤ dhtCoeff (impulseOne (w * h)) 1 := by
    rw [dhtCoeff, sum_eq_single 1 (fun i hi h1 => by rw [hx i (by rw [mem_range, hl] at hi; exact hi), if_neg h1, zero_mul])
      (fun h => absurd (by rw [mem_range, hl]; omega) h), hx 1 (by omega), if_pos rfl, one_mul, hl, cas]
    have hpi := Real.pi_pos
    have hn' : (4 : ℝ) ≤ ((w * h : ℕ) : ℝ) := by exact_mod_cast hn
    set θ := 2 * Real.pi * ((1 : ℕ) : ℝ) * ((1 : ℕ) : ℝ) / ((w * h : ℕ) : ℝ) with hθ
    have h1 : 0 ≤ θ := by positivity
    have h2 : θ ≤ Real.pi / 2 := by
      rw [hθ, div_le_iff₀ (by linarith)]
      push_cast
      push_cast at hn'
      nlinarith
    have hc : 0 ≤ Real.cos θ := Real.cos_nonneg_of_mem_Icc ⟨by linarith, h2⟩
    have hs : 0 ≤ Real.sin θ := Real.sin_nonneg_of_nonneg_of_le_pi h1 (by linarith)
    nlinarith [Real.sin_sq_add_cos_sq θ, mul_nonneg hc hs]
  rw [e1, e2, e3]
  have : sqrtHalfRounded * √2 * dhtCoeff (impulseOne (w * h)) 1 + (1 - sqrtHalfRounded * √2) * 0
      - dhtCoeff (impulseOne (w * h)) 1 = (sqrtHalfRounded * √2 - 1) * dhtCoeff (impulseOne (w * h)) 1 := by ring
  rw [this, abs_mul, abs_of_nonneg (by linarith : 0 ≤ dhtCoeff (impulseOne (w * h)) 1)]
  have := sqrtHalfRounded_error.1
  nlinarith [abs_nonneg (sqrtHalfRounded * √2 - 1)]

/-- `process` of any object that computes `rootDht`: coefficient 1 of the impulse at index 1 is wrong. -/
theorem root_process {d : Dht ℝ} {w h : ℕ} (hw : 2 ≤ w) (hh : 2 ≤ h) (hlen : d.len = w * h)
    (hd : Implements d (rootDht w (sqrtHalfRounded * √2))) :
    ∃ y, d.process (impulseOne (w * h)) = .ok y ∧ 1 / 2 ^ 26 < |y.getD 1 0 - (dht (impulseOne (w * h))).getD 1 0| := by
  have hn : 4 ≤ w * h := Nat.mul_le_mul hw hh
  refine ⟨_, ?_, rootDht_impulse hw hh⟩
  rw [hd.process (by simp [hlen, impulseOne]) (by simp [hlen, impulseOne]), hlen,
    mapChunks_single (by omega) (by simp [impulseOne])]

/-- The claim fails for every width and height from 2 on: in arithmetic that is exact but for the constant, the result
for an impulse of height 1 is wrong by more than `2 ^ -26`. -/
theorem C34_mixedRadix_refuted (wd hd : Dht ℝ) (hw : ComputesDht wd) (hh : ComputesDht hd) (h2 : 2 ≤ wd.len)
    (h2' : 2 ≤ hd.len) :
    letI := realWithRoot sqrtHalfRounded
    ∃ y, (mixedRadix wd hd).process (impulseOne (wd.len * hd.len)) = .ok y ∧
      1 / 2 ^ 26 < |y.getD 1 0 - (dht (impulseOne (wd.len * hd.len))).getD 1 0| :=
  root_process h2 h2' rfl (C34_mixedRadix_partial _ wd hd hw hh)

theorem C34_mixedRadix3xn_refuted (hd : Dht ℝ) (hh : ComputesDht hd) (hin : hd.inplaceScratchLen ≤ 3 * hd.len)
    (hoop : hd.oopScratchLen = 0) (h2 : 2 ≤ hd.len) :
    letI := realWithRoot sqrtHalfRounded
    ∃ y, (mixedRadix3xn hd).process (impulseOne (3 * hd.len)) = .ok y ∧
      1 / 2 ^ 26 < |y.getD 1 0 - (dht (impulseOne (3 * hd.len))).getD 1 0| :=
  root_process (by omega) h2 rfl (C34_mixedRadix3xn_partial _ hd hh (fun _ => hin) (fun _ => hoop))

theorem C34_mixedRadix5xn_refuted (hd : Dht ℝ) (hh : ComputesDht hd) (hin : hd.inplaceScratchLen ≤ 5 * hd.len)
    (hoop : hd.oopScratchLen = 0) (h2 : 2 ≤ hd.len) :
    letI := realWithRoot sqrtHalfRounded
    ∃ y, (mixedRadix5xn hd).process (impulseOne (5 * hd.len)) = .ok y ∧
      1 / 2 ^ 26 < |y.getD 1 0 - (dht (impulseOne (5 * hd.len))).getD 1 0| :=
  root_process (by omega) h2 rfl (C34_mixedRadix5xn_partial _ hd hh (fun _ => hin) (fun _ => hoop))

theorem C34_mixedRadix6xn_refuted (hd : Dht ℝ) (hh : ComputesDht hd) (hin : hd.inplaceScratchLen ≤ 6 * hd.len)
    (hoop : hd.oopScratchLen = 0) (h2 : 2 ≤ hd.len) :
    letI := realWithRoot sqrtHalfRounded
    ∃ y, (mixedRadix6xn hd).process (impulseOne (6 * hd.len)) = .ok y ∧
      1 / 2 ^ 26 < |y.getD 1 0 - (dht (impulseOne (6 * hd.len))).getD 1 0| :=
  root_process (by omega) h2 rfl (C34_mixedRadix6xn_partial _ hd hh (fun _ => hin) (fun _ => hoop))

/-- The hypotheses are met: length 12 from 4 and 3, length 21, 35 and 42. -/
example : letI := realWithRoot sqrtHalfRounded
    Implements (mixedRadix (dhtNaive ℝ 4) (butterfly3 ℝ)) (rootDht 4 (sqrtHalfRounded * √2)) :=
  C34_mixedRadix_partial _ _ _ (dhtNaive_dht 4) butterfly3_dht

theorem naive7_scratch {k : ℕ} (hk : 1 ≤ k) :
    (dhtNaive ℝ 7).inplaceScratchLen ≤ k * (dhtNaive ℝ 7).len ∧ (dhtNaive ℝ 7).oopScratchLen = 0 ∧
      2 ≤ (dhtNaive ℝ 7).len := by
  have := dhtNaive_scratch (T := ℝ) 7
  rw [dhtNaive_len]
  exact ⟨this.1.trans (by omega), this.2, by omega⟩

example : letI := realWithRoot sqrtHalfRounded
    Implements (mixedRadix3xn (dhtNaive ℝ 7)) (rootDht 3 (sqrtHalfRounded * √2)) ∧
    Implements (mixedRadix5xn (dhtNaive ℝ 7)) (rootDht 5 (sqrtHalfRounded * √2)) ∧
    Implements (mixedRadix6xn (dhtNaive ℝ 7)) (rootDht 6 (sqrtHalfRounded * √2)) :=
  ⟨C34_mixedRadix3xn_partial _ _ (dhtNaive_dht 7) (fun _ => (naive7_scratch (by omega)).1)
      (fun _ => (naive7_scratch le_rfl).2.1),
    C34_mixedRadix5xn_partial _ _ (dhtNaive_dht 7) (fun _ => (naive7_scratch (by omega)).1)
      (fun _ => (naive7_scratch le_rfl).2.1),
    C34_mixedRadix6xn_partial _ _ (dhtNaive_dht 7) (fun _ => (naive7_scratch (by omega)).1)
      (fun _ => (naive7_scratch le_rfl).2.1)⟩

example : letI := realWithRoot sqrtHalfRounded
    ∃ y, (mixedRadix (dhtNaive ℝ 7) (butterfly3 ℝ)).process (impulseOne ((dhtNaive ℝ 7).len * 3)) = .ok y ∧
      1 / 2 ^ 26 < |y.getD 1 0 - (dht (impulseOne ((dhtNaive ℝ 7).len * 3))).getD 1 0| :=
  C34_mixedRadix_refuted _ _ (dhtNaive_dht 7) butterfly3_dht (naive7_scratch le_rfl).2.2 (by decide)

example : letI := realWithRoot sqrtHalfRounded
    ∃ y, (mixedRadix5xn (dhtNaive ℝ 7)).process (impulseOne (5 * (dhtNaive ℝ 7).len)) = .ok y ∧
      1 / 2 ^ 26 < |y.getD 1 0 - (dht (impulseOne (5 * (dhtNaive ℝ 7).len))).getD 1 0| :=
  C34_mixedRadix5xn_refuted _ (dhtNaive_dht 7) (naive7_scratch (by omega)).1 (naive7_scratch le_rfl).2.1
    (naive7_scratch le_rfl).2.2

/-! ## In `f64` -/

/-- In IEEE `f64`, with accurate `cos` and `sin`, the same happens: the transform of a unit impulse by `MixedRadix` of two
`Butterfly2` is finite, and the coefficient which should be 1 is off by more than `2^-27`. -/
theorem C34_f64_refuted [MathLib] (hl : MathLib.Accurate) :
    ∃ y, (mixedRadix (butterfly2 (Flt binary64)) (butterfly2 (Flt binary64))).process [0, Flt.ofNat binary64 1, 0, 0] = .ok y ∧
      (∀ a ∈ y, a.fin) ∧ (dht [0, 1, 0, 0]).getD 1 0 = 1 ∧ 1 / 2 ^ 27 < |(y.getD 1 0).val - 1| := by
  have o1 : (Flt.ofNat binary64 1).fin ∧ (Flt.ofNat binary64 1).val = 1 := by
    have : Flt.ofNat binary64 1 = .num false 1 ⟨1, 0, by decide, by decide, by norm_num, one_lt_zpow₀ (by norm_num) (by decide)⟩ :=
      Flt.round_rep (F := binary64) false (x := ((1 : ℕ) : ℚ)) _
    rw [this]
    exact ⟨trivial, by simp [Flt.val, Flt.value]⟩
  obtain ⟨y, h1, h2, h3⟩ := mix22_near (floatModel64 hl) (ρ := sqrtHalfRounded)
    ((by norm_num : (9 : ℝ) ≤ 2 ^ 4).trans (pow_le_pow_right₀ (by norm_num) (by norm_num))) le_rfl (by rw [sqrtHalfRounded]; norm_num)
    (by rw [sqrtHalfRounded]; norm_num) (sqrtHalf64.trans (by norm_num)) o1.1 o1.2
  refine ⟨y, h1, h2, ?_, ?_⟩
  · simp [dht, dhtCoeff, Finset.sum_range_succ, cas]
    rw [show 2 * Real.pi / 4 = Real.pi / 2 by ring]
    simp
  · have h4 := sqrtHalfRounded_error.1
    have h5 := abs_sub_le (sqrtHalfRounded * √2) (y.getD 1 0).val 1
    rw [mul_comm √2, abs_sub_comm] at h3
    norm_num at h3 h4 h5 ⊢
    linarith

/-- The hypothesis is met, for one, by correctly rounded functions. -/
example : letI : MathLib := ⟨fun x => .roundSigned binary64 false (Real.cos x.val), fun x => .roundSigned binary64 false (Real.sin x.val)⟩
    MathLib.Accurate := rounded_accurate

end RustDHT
