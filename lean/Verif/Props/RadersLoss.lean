import Verif.Proofs.RadersLossAll
import Verif.Props.RootLoss

/-! # C86: how much the rounded constant `sqrt(1/2)` costs inside `RadersAlgorithm`

C82 says how much a composition loses in which the constant occurs, but not inside `RadersAlgorithm`.  There the inner object is used three
times: for the table, and twice for each chunk.  So the loss might cancel: the spectrum of the kernel could come out too large at the
frequencies where the inner object makes its results too small.  It can not do so everywhere, as the inner object loses energy of the
kernel as well.  The bound has the length in the denominator, for a spectrum that is too large at one frequency and too small by
little at all others.  Around such an object the other algorithms can not make up for the loss: there is a signal that reaches it alone.
`RadersOnce` (Spec/RadersOnce.lean) leaves out the constant inside two nested `RadersAlgorithm`s. -/

set_option linter.style.haveILetI false

namespace RustDHT

theorem norm2_sq {x : List ℝ} {n : ℕ} (hx : x.length = n) : norm2 x ^ 2 = en n x := by rw [norm2_eq hx, nrm_sq, en]

/-- Any constant `ρ` that is smaller than `√(1/2)` in absolute value. -/
theorem C86_loss (ρ : ℝ) (hρ : 2 * ρ ^ 2 < 1) (p : Plan) (hp : p.RadersOnce) (hs : p.SmallRadix4) (hn : ¬ p.RootFree) (d : Dht ℝ)
    (hd : @Plan.build ℝ _ _ _ _ _ (realWithRoot ρ) p = .ok d) (hpos : 0 < d.len) :
    ∃ x y, x.length = d.len ∧ 0 < norm2 x ∧ d.process x = .ok y ∧ y.length = d.len ∧
      norm2 y ^ 2 ≤ (1 - (1 - 2 * ρ ^ 2) / (2 * d.len)) * norm2 (dht x) ^ 2 := by
  have h2 : (√2) ^ 2 = (2 : ℝ) := Real.sq_sqrt (by norm_num)
  have e2 : (ρ * √2) ^ 2 = 2 * ρ ^ 2 := by rw [mul_pow, h2, mul_comm]
  obtain ⟨f, hf⟩ := (@plan_ok ℝ _ _ _ _ _ (realWithRoot ρ) p d hd).implements
  obtain ⟨x, hx, h3, h4⟩ := plan_lossy_once ρ (by rw [e2]; exact hρ) p hs hp hn d hd hpos f hf
  have ly := hf.length x hx
  refine ⟨x, f x, hx, ?_, process_single hf hx, ly, ?_⟩
  · rw [← norm2_sq hx] at h3
    exact lt_of_le_of_ne (by unfold norm2; positivity) fun h => by rw [← h] at h3; norm_num at h3
  · rw [norm2_sq ly, norm2_sq (by rw [length_dht, hx] : (dht x).length = d.len), en_dht hx, ← e2]
    exact h4

/-- The value that the code has: the error is at least `2⁻²⁷ / n` times the norm of the DHT. -/
theorem C86_exact (p : Plan) (hp : p.RadersOnce) (hs : p.SmallRadix4) (hn : ¬ p.RootFree) (d : Dht ℝ)
    (hd : @Plan.build ℝ _ _ _ _ _ (realWithRoot sqrtHalfRounded) p = .ok d) (hpos : 0 < d.len) :
    ∃ x y, x.length = d.len ∧ 0 < norm2 x ∧ d.process x = .ok y ∧ y.length = d.len ∧
      1 / (2 ^ 27 * d.len) * norm2 (dht x) ≤ norm2 (List.zipWith (· - ·) y (dht x)) := by
  have h1 : 2 * sqrtHalfRounded ^ 2 ≤ 1 - 1 / 2 ^ 25 := by unfold sqrtHalfRounded; norm_num
  obtain ⟨x, y, hx, h0, hy, ly, h⟩ := C86_loss sqrtHalfRounded (by linarith) p hp hs hn d hd hpos
  refine ⟨x, y, hx, h0, hy, ly, ?_⟩
  have hl' : (1 : ℝ) ≤ d.len := by exact_mod_cast hpos
  have ld : (dht x).length = d.len := by rw [length_dht, hx]
  rw [norm2_sub ly ld]
  rw [norm2_eq ly, norm2_eq ld] at h
  rw [norm2_eq ld]
  have t := nrm_sub_le d.len (nth (dht x)) (nth y) fun _ => 0
  simp only [sub_zero] at t
  rw [nrm_symm d.len (nth (dht x))] at t
  change nrm d.len (nth (dht x)) ≤ _ + nrm d.len (nth y) at t
  have hX := nrm_nonneg d.len (nth (dht x))
  have hY := nrm_nonneg d.len (nth y)
  generalize nrm d.len (nth (dht x)) = X at *
  generalize nrm d.len (nth y) = Y at *
  generalize (d.len : ℝ) = m at *
  set ε : ℝ := 1 / (2 ^ 27 * m) with hε
  have hε0 : 0 ≤ ε := by positivity
  have hε1 : ε ≤ 1 := by
    rw [hε, div_le_one (by positivity)]
    linarith
  have k1 : 2 * ε ≤ (1 - 2 * sqrtHalfRounded ^ 2) / (2 * m) := by
    rw [hε, le_div_iff₀ (by positivity)]
    have : 2 * (1 / (2 ^ 27 * m)) * (2 * m) = 1 / 2 ^ 25 := by field_simp
    linarith
  have k2 : Y ^ 2 ≤ ((1 - ε) * X) ^ 2 := by
    refine h.trans ?_
    rw [mul_pow]
    refine mul_le_mul_of_nonneg_right ?_ (sq_nonneg X)
    nlinarith
  have k3 := abs_le_of_sq_le_sq' k2 (mul_nonneg (by linarith) hX) |>.2
  linarith

/-- A composition that is right to less than `2⁻²⁷ / n` for every signal does not use the constant, and is right. -/
theorem C86_accuracy (p : Plan) (hp : p.RadersOnce) (hs : p.SmallRadix4) (d : Dht ℝ)
    (hd : @Plan.build ℝ _ _ _ _ _ (realWithRoot sqrtHalfRounded) p = .ok d) (hpos : 0 < d.len) (ε : ℝ) (hε : ε * d.len < 1 / 2 ^ 27)
    (h : ∀ x y, x.length = d.len → d.process x = .ok y → norm2 (List.zipWith (· - ·) y (dht x)) ≤ ε * norm2 (dht x)) :
    p.RootFree ∧ ComputesDht d := by
  have hr : p.RootFree := by
    by_contra hn
    obtain ⟨x, y, hx, h0, hy, -, hle⟩ := C86_exact p hp hs hn d hd hpos
    have h1 := h x y hx hy
    have hl : (0 : ℝ) < d.len := by exact_mod_cast hpos
    have hX : 0 < norm2 (dht x) := by
      rw [norm2_eq (by rw [length_dht, hx] : (dht x).length = d.len), nrm_dht hx, ← norm2_eq hx]
      exact mul_pos (Real.sqrt_pos.2 hl) h0
    have h2 := le_of_mul_le_mul_right (hle.trans h1) hX
    rw [div_le_iff₀ (by positivity)] at h2
    linarith
  exact ⟨hr, (C80_rounded p d hd hpos).2 ⟨hs, hr⟩⟩

/-- `RadersAlgorithm` around `MixedRadix3xn` of `Butterfly4`, length 13. -/
example : ∃ d x y, @Plan.build ℝ _ _ _ _ _ (realWithRoot sqrtHalfRounded) (.raders (.mr3 .b4)) = .ok d ∧ d.process x = .ok y ∧
    0 < norm2 x ∧ 1 / (2 ^ 27 * 13) * norm2 (dht x) ≤ norm2 (List.zipWith (· - ·) y (dht x)) := by
  obtain ⟨f, hf⟩ := (@plan_ok ℝ _ _ _ _ _ (realWithRoot sqrtHalfRounded) (.mr3 .b4) _ rfl).implements
  obtain ⟨g, d, hd, -⟩ := @raders_new_root ℝ _ _ _ _ (realWithRoot sqrtHalfRounded) _ f hf (show Nat.Prime 13 by norm_num)
    (show 13 ≠ 2 by norm_num) (show 13 < 2 ^ 32 by norm_num)
  have hd : @Plan.build ℝ _ _ _ _ _ (realWithRoot sqrtHalfRounded) (.raders (.mr3 .b4)) = .ok d := hd
  have hl : d.len = 13 := @plan_len ℝ _ _ _ _ _ (realWithRoot sqrtHalfRounded) _ d hd
  obtain ⟨x, y, -, h0, hy, -, h⟩ := C86_exact (.raders (.mr3 .b4)) trivial trivial (fun h => (by decide : ¬ 4 ≤ 1) h.1) d hd (by omega)
  rw [hl] at h
  norm_num at h ⊢
  exact ⟨d, hd, x, y, hy, h0, h⟩

/-- That object inside `MixedRadix` with `Butterfly2`, length 26; here the only signals that C82 knows are for the outer table. -/
example : (Plan.mixedRadix (.raders (.mr3 .b4)) .b2).RadersOnce ∧ ¬ (Plan.mixedRadix (.raders (.mr3 .b4)) .b2).RadersFree ∧
    (Plan.mixedRadix (.raders (.mr3 .b4)) .b2).SmallRadix4 :=
  ⟨⟨trivial, trivial⟩, fun h => absurd (show 4 ≤ 1 from h.1.1) (by norm_num), ⟨trivial, trivial⟩⟩

/-- And in `MixedRadix2xn`, which has no such table itself. -/
example : (Plan.mr2 (.raders (.mr3 .b4))).RadersOnce ∧ ¬ (Plan.mr2 (.raders (.mr3 .b4))).RootFree ∧ ¬ (Plan.mr2 (.raders (.mr3 .b4))).RadersFree :=
  ⟨trivial, fun h => absurd (show 4 ≤ 1 from h.1) (by norm_num), fun h => absurd (show 4 ≤ 1 from h.1) (by norm_num)⟩

end RustDHT
