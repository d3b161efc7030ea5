import Verif.Spec.Spectrum
import Verif.Proofs.Conv
import Verif.Proofs.Orthogonality
import Verif.Props.Laws

/-! # C95: the Fourier coefficients and the power spectrum out of the results

In exact arithmetic, for every composition. -/

namespace RustDHT

open Finset

theorem re_dftCoeff (x : List ℝ) (k : ℕ) : (dftCoeff x k).re = ∑ i ∈ range x.length, nth x i * cs x.length (i * k) := by
  unfold dftCoeff
  rw [Complex.re_sum]
  refine sum_congr rfl fun j _ => ?_
  have e : (-2 * Real.pi * Complex.I * j * k / x.length : ℂ) = ((-(2 * Real.pi * (j * k) / x.length) : ℝ) : ℂ) * Complex.I := by
    push_cast; ring
  rw [e, Complex.re_ofReal_mul, Complex.exp_ofReal_mul_I_re, Real.cos_neg, cs]
  push_cast
  rfl

theorem im_dftCoeff (x : List ℝ) (k : ℕ) : (dftCoeff x k).im = -∑ i ∈ range x.length, nth x i * sn x.length (i * k) := by
  unfold dftCoeff
  rw [Complex.im_sum, ← sum_neg_distrib]
  refine sum_congr rfl fun j _ => ?_
  have e : (-2 * Real.pi * Complex.I * j * k / x.length : ℂ) = ((-(2 * Real.pi * (j * k) / x.length) : ℝ) : ℂ) * Complex.I := by
    push_cast; ring
  rw [e, Complex.im_ofReal_mul, Complex.exp_ofReal_mul_I_im, Real.sin_neg, sn, mul_neg]
  push_cast
  rfl

theorem dht_re_im {x : List ℝ} {k : ℕ} (hk : k < x.length) :
    (dht x).getD k 0 = (dftCoeff x k).re - (dftCoeff x k).im ∧ mirrored (dht x) k = (dftCoeff x k).re + (dftCoeff x k).im := by
  rw [mirrored_dht rfl hk, show (dht x).getD k 0 = hart x.length (nth x) k from nth_dht rfl hk, re_dftCoeff, im_dftCoeff, hart, hart]
  constructor
  · rw [sub_neg_eq_add, ← sum_add_distrib]
    exact sum_congr rfl fun i _ => by rw [ca]; ring
  · rw [← sub_eq_add_neg, ← sum_sub_distrib]
    exact sum_congr rfl fun i _ => by rw [mul_neg, ca_neg]; ring

/-- The Fourier coefficients of the signal are `(X[k] + X[-k]) / 2 + i (X[-k] - X[k]) / 2`. -/
theorem C95_dft (p : Plan) (hr : p.SmallRadix4) (d : Dht ℝ) (h : p.build ℝ = .ok d) (hpos : 0 < d.len) (x : List ℝ)
    (hx : x.length = d.len) :
    ∃ X, d.process x = .ok X ∧ ∀ k < d.len, dftCoeff x k = ⟨(X.getD k 0 + mirrored X k) / 2, (mirrored X k - X.getD k 0) / 2⟩ := by
  refine ⟨_, process_one (plan_dht p hr d h) hpos hx, fun k hk => ?_⟩
  obtain ⟨h1, h2⟩ := dht_re_im (x := x) (k := k) (by omega)
  apply Complex.ext
  · simp only [h1, h2]; ring
  · simp only [h1, h2]; ring

/-- So `(X[k]² + X[-k]²) / 2` is the power spectrum. -/
theorem C95_power (p : Plan) (hr : p.SmallRadix4) (d : Dht ℝ) (h : p.build ℝ = .ok d) (hpos : 0 < d.len) (x : List ℝ)
    (hx : x.length = d.len) :
    ∃ X, d.process x = .ok X ∧ powerSpectrum X = (List.range d.len).map fun k => Complex.normSq (dftCoeff x k) := by
  refine ⟨_, process_one (plan_dht p hr d h) hpos hx, ?_⟩
  rw [powerSpectrum, length_dht, hx]
  refine List.map_congr_left fun k hk => ?_
  obtain ⟨h1, h2⟩ := dht_re_im (x := x) (k := k) (by rw [hx]; exact List.mem_range.1 hk)
  rw [h1, h2, Complex.normSq_apply]
  ring

/-- A rotation of the signal leaves the power spectrum as it is. -/
theorem C95_rotation (p : Plan) (hr : p.SmallRadix4) (d : Dht ℝ) (h : p.build ℝ = .ok d) (hpos : 0 < d.len) (x : List ℝ)
    (hx : x.length = d.len) (s : ℕ) :
    ∃ X Y, d.process x = .ok X ∧ d.process (x.rotate s) = .ok Y ∧ powerSpectrum Y = powerSpectrum X := by
  have hi := plan_dht p hr d h
  refine ⟨_, _, process_one hi hpos hx, process_one hi hpos (by simpa using hx), ?_⟩
  have key : ∀ k < x.length, (dht (x.rotate s)).getD k 0 =
      Real.cos (2 * Real.pi * k * s / x.length) * (dht x).getD k 0 - Real.sin (2 * Real.pi * k * s / x.length) * mirrored (dht x) k := by
    intro k hk
    rw [dht_rotate, turn, length_dht]
    simp [hk]
  have mir : ∀ k < x.length, mirrored (dht (x.rotate s)) k =
      Real.cos (2 * Real.pi * k * s / x.length) * mirrored (dht x) k + Real.sin (2 * Real.pi * k * s / x.length) * (dht x).getD k 0 := by
    intro k hk
    have hn : (0 : ℝ) < x.length := by exact_mod_cast (by omega : 0 < x.length)
    have hk' : (x.length - k) % x.length < x.length := Nat.mod_lt _ (by omega)
    rw [mirrored, show (dht (x.rotate s)).length = x.length by simp, key _ hk']
    have e1 : (dht x).getD ((x.length - k) % x.length) 0 = mirrored (dht x) k := by rw [mirrored, length_dht]
    have e2 : mirrored (dht x) ((x.length - k) % x.length) = (dht x).getD k 0 := by
      rw [mirrored, length_dht]
      congr 1
      rcases Nat.eq_zero_or_pos k with rfl | h0
      · simp
      · rw [Nat.mod_eq_of_lt (show x.length - k < x.length by omega), show x.length - (x.length - k) = k by omega, Nat.mod_eq_of_lt hk]
    rw [e1, e2]
    rcases Nat.eq_zero_or_pos k with rfl | h0
    · simp
    · have e3 : 2 * Real.pi * (((x.length - k) % x.length : ℕ) : ℝ) * s / x.length = -(2 * Real.pi * k * s / x.length) + s * (2 * Real.pi) := by
        rw [Nat.mod_eq_of_lt (show x.length - k < x.length by omega), Nat.cast_sub hk.le]
        field_simp
        ring
      rw [e3, Real.cos_add_nat_mul_two_pi, Real.sin_add_nat_mul_two_pi, Real.cos_neg, Real.sin_neg]
      ring
  rw [powerSpectrum, powerSpectrum, length_dht, length_dht, List.length_rotate]
  refine List.map_congr_left fun k hk => ?_
  have hk := List.mem_range.1 hk
  rw [key k hk, mir k hk]
  have := Real.sin_sq_add_cos_sq (2 * Real.pi * k * s / x.length)
  linear_combination (((dht x).getD k 0 ^ 2 + mirrored (dht x) k ^ 2) / 2) * this

theorem revTail_revTail (x : List ℝ) : revTail (revTail x) = x := by
  rcases x with _ | ⟨a, x⟩ <;> simp [revTail]

/-- The result is symmetric (entry `k` equal to entry `n - k`) just if the signal is. -/
theorem C95_even (p : Plan) (hr : p.SmallRadix4) (d : Dht ℝ) (h : p.build ℝ = .ok d) (hpos : 0 < d.len) (x : List ℝ)
    (hx : x.length = d.len) : ∃ X, d.process x = .ok X ∧ (revTail X = X ↔ revTail x = x) := by
  refine ⟨_, process_one (plan_dht p hr d h) hpos hx, ?_⟩
  have h1 : revTail (dht x) = dht (revTail x) := by rw [← dht_revTail x, revTail_revTail]
  rw [h1]
  exact ⟨fun h => dht_injective (by simp [revTail]; omega) h, fun h => by rw [h]⟩

theorem mirrored_eq {X : List ℝ} {k : ℕ} (hk : k < X.length) : mirrored X k = (revTail X).getD k 0 :=
  (nth_revTail rfl hk).symm

theorem powerSpectrum_eq (X : List ℝ) : powerSpectrum X = hartleyMul X (revTail X) := by
  rw [powerSpectrum, hartleyMul]
  refine List.map_congr_left fun k hk => ?_
  have hk := List.mem_range.1 hk
  have e : mirrored (revTail X) k = X.getD k 0 := by rw [mirrored_eq (by simpa using hk), revTail_revTail]
  rw [e, ← mirrored_eq hk]
  ring

theorem circConv_revTail (x : List ℝ) : circConv x (revTail x) = autocorrelation x := by
  rw [circConv, autocorrelation]
  refine List.map_congr_left fun m hm => sum_congr rfl fun i hi => ?_
  have hm := List.mem_range.1 hm
  have hi := mem_range.1 hi
  congr 1
  rw [show (revTail x).getD ((m + (x.length - i)) % x.length) 0 = nth (revTail x) ((m + (x.length - i)) % x.length) from rfl,
    nth_revTail rfl (Nat.mod_lt _ (by omega))]
  show x.getD _ 0 = x.getD _ 0
  congr 1
  rcases lt_trichotomy i m with h | rfl | h
  · rw [show m + (x.length - i) = (m - i) + x.length by omega, Nat.add_mod_right, Nat.mod_eq_of_lt (show m - i < x.length by omega)]
    congr 1
    omega
  · rw [show i + (x.length - i) = x.length by omega, Nat.mod_self]
    simp
  · rw [Nat.mod_eq_of_lt (show m + (x.length - i) < x.length by omega), show x.length - (m + (x.length - i)) = i - m by omega,
      show i + (x.length - m) = (i - m) + x.length by omega, Nat.add_mod_right]

/-- The transform of the power spectrum is `n` times the autocorrelation.  The second transform may be done by another
composition of the same length. -/
theorem C95_autocorrelation (p q : Plan) (hp : p.SmallRadix4) (hq : q.SmallRadix4) (d e : Dht ℝ) (hd : p.build ℝ = .ok d)
    (he : q.build ℝ = .ok e) (hpos : 0 < d.len) (hde : d.len = e.len) (x : List ℝ) (hx : x.length = d.len) :
    ∃ X, d.process x = .ok X ∧ e.process (powerSpectrum X) = .ok ((autocorrelation x).map fun v => (d.len : ℝ) * v) := by
  refine ⟨_, process_one (plan_dht p hp d hd) hpos hx, ?_⟩
  rw [process_one (plan_dht q hq e he) (by omega) (by simp [powerSpectrum, hx, hde]), powerSpectrum_eq,
    show revTail (dht x) = dht (revTail x) by rw [← dht_revTail x, revTail_revTail], dht_hartleyMul (by simp), hx, circConv_revTail]

/-! ## Instances -/

example : powerSpectrum [10, -4, -2, 0] = [100, 8, 4, 8] := by
  simp [powerSpectrum, mirrored, List.range_succ]; norm_num

/-- The composition of length 24, a signal and its rotation by 5. -/
example : ∃ d, lawPlan.build ℝ = .ok d ∧ ∀ x : List ℝ, x.length = 24 → ∃ X Y, d.process x = .ok X ∧
    d.process (x.rotate 5) = .ok Y ∧ powerSpectrum Y = powerSpectrum X := by
  obtain ⟨d, e, hr, hl⟩ := lawPlan_build
  exact ⟨d, e, fun x hx => C95_rotation lawPlan hr d e (by omega) x (by omega) 5⟩

/-- The autocorrelation with one transform of length 24 and `DhtNaive`. -/
example : ∃ d, lawPlan.build ℝ = .ok d ∧ ∀ x : List ℝ, x.length = 24 → ∃ X, d.process x = .ok X ∧
    (dhtNaive ℝ 24).process (powerSpectrum X) = .ok ((autocorrelation x).map fun v => (24 : ℕ) * v) := by
  obtain ⟨d, e, hr, hl⟩ := lawPlan_build
  refine ⟨d, e, fun x hx => ?_⟩
  have := C95_autocorrelation lawPlan (.naive 24) hr trivial d (dhtNaive ℝ 24) e rfl (by omega) hl x (by omega)
  rwa [hl] at this

example : autocorrelation [1, 2, 4] = [21, 14, 14] := by
  simp [autocorrelation, List.range_succ, Finset.sum_range_succ]; norm_num

/-- A symmetric signal and one that is not. -/
example : revTail [1, 2, 3, 2] = [1, 2, 3, 2] ∧ revTail [1, 2, 3, 4] ≠ [1, 2, 3, 4] := by
  constructor
  · simp [revTail]
  · simp [revTail]

end RustDHT
