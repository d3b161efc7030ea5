import Verif.Proofs.PlanStability
import Verif.Proofs.StabilityLog
import Verif.Props.Rounding

/-! # Floating point, in the Euclidean norm: C46, C47 -/

namespace RustDHT

variable {T : Type} [Zero T] [Add T] [Sub T] [Mul T] [Neg T] [FftNum T]
variable {fin : T → Prop} {val : T → ℝ} {u η Ω : ℝ} {t s : ℕ}

/-! ## C46 -/

/-- Any composition in floating point: if numbers of `big` times the size that the outputs can have do not overflow, then every
output is finite, and the Euclidean distance to the outputs in exact arithmetic is bounded by the growth factor `√n` times what
`depth` roundings and `under` underflows make of the norm of the input. -/
theorem C46_plan_stability (p : Plan) (hp : p.RadersExact) (hm : FloatModel fin val u η Ω t s) (d : Dht T) (hd : p.build T = .ok d) :
    ∃ (f : List T → List T) (dr : Dht ℝ) (fr : List ℝ → List ℝ),
      Implements d f ∧ p.build ℝ = .ok dr ∧ Implements dr fr ∧ dr.len = d.len ∧
      ∀ x, x.length = d.len → (∀ a ∈ x, fin a) → ∀ a : Stab, a = p.stability t s → ∀ N, N = norm2 (x.map val) →
        a.big * (√d.len * ((1 + u) ^ a.depth * (max N 1 + a.under * η * √d.len))) ≤ Ω →
        (∀ y ∈ f x, fin y) ∧
        norm2 (List.zipWith (· - ·) ((f x).map val) (fr (x.map val)))
          ≤ √d.len * ((1 + u) ^ a.depth * (N + a.under * η * √d.len) - N) := by
  obtain ⟨-, dr, -, -, -, -, hr, -⟩ := C40_plan_rounding p hm d hd
  obtain ⟨hl, -, f, fr, i1, i2, st⟩ := plan_stability hm p hp d dr hd hr
  refine ⟨f, dr, fr, i1, hr, i2, hl, ?_⟩
  rintro x hx hf a rfl N rfl hO
  rcases Nat.eq_zero_or_pos d.len with h0 | hpos
  · have e : f x = [] := List.length_eq_zero_iff.1 (by rw [i1.length x hx, h0])
    simp [e, h0, norm2]
  · have h := st hpos
    have hn : norm2 (x.map val) = nrm d.len fun i => val (nth x i) := by
      rw [norm2_eq (n := d.len) (by simp [hx])]
      exact nrm_congr fun i _ => hm.nth_map x i
    rw [hn] at hO ⊢
    obtain ⟨h1, h2⟩ := h.err x hx (fun i hi => by
      rw [nth_eq_getElem (by omega)]; exact hf _ (List.getElem_mem _)) hO
    refine ⟨fun y hy => ?_, ?_⟩
    · obtain ⟨i, hi, rfl⟩ := List.getElem_of_mem hy
      have := h1 i (by rw [← i1.length x hx]; exact hi)
      rwa [nth_eq_getElem hi] at this
    · rw [norm2_sub (n := d.len) (by rw [List.length_map, i1.length x hx]) (by rw [i2.length _ (by simp [hx, hl]), hl])]
      simp only [hm.nth_map]
      exact h2

/-- With `Radix4` below 128, the distance to the DHT. -/
theorem C46_plan_dht (p : Plan) (hr : p.SmallRadix4) (hm : FloatModel fin val u η Ω t s) (d : Dht T) (hd : p.build T = .ok d) :
    ∃ f : List T → List T, Implements d f ∧
      ∀ x, x.length = d.len → (∀ a ∈ x, fin a) → ∀ a : Stab, a = p.stability t s → ∀ N, N = norm2 (x.map val) →
        a.big * (√d.len * ((1 + u) ^ a.depth * (max N 1 + a.under * η * √d.len))) ≤ Ω →
        (∀ y ∈ f x, fin y) ∧
        norm2 (List.zipWith (· - ·) ((f x).map val) (dht (x.map val)))
          ≤ √d.len * ((1 + u) ^ a.depth * (N + a.under * η * √d.len) - N) := by
  obtain ⟨f, dr, fr, h1, h2, h3, h6, h⟩ := C46_plan_stability p (smallRadix4_radersExact p hr) hm d hd
  refine ⟨f, h1, fun x hx hf => ?_⟩
  have hl : (x.map val).length = dr.len := by simp [hx, h6]
  rw [← Except.ok.inj ((process_single h3 hl).symm.trans (process_single (C12_plan_dht p hr dr h2).1 hl))]
  exact h x hx hf

/-- In a more usual form: the error of the whole output, relative to the norm of the exact output, is at most twice `depth`, in
units of `u`. -/
theorem C46_relative_error (p : Plan) (hr : p.SmallRadix4) (hm : FloatModel fin val u η Ω t s) (d : Dht T) (hd : p.build T = .ok d) :
    ∃ f : List T → List T, Implements d f ∧
      ∀ x, x.length = d.len → (∀ a ∈ x, fin a) → ∀ a : Stab, a = p.stability t s → a.depth * u ≤ 1 / 2 →
        a.big * (√d.len * (2 * (max (norm2 (x.map val)) 1 + a.under * η * √d.len))) ≤ Ω →
        (∀ y ∈ f x, fin y) ∧
        norm2 (List.zipWith (· - ·) ((f x).map val) (dht (x.map val)))
          ≤ 2 * a.depth * u * norm2 (dht (x.map val)) + 2 * a.under * η * d.len := by
  obtain ⟨f, h1, h⟩ := C46_plan_dht p hr hm d hd
  refine ⟨f, h1, ?_⟩
  rintro x hx hf a ha hu hO
  have hu0 := hm.u_nonneg
  have hη := hm.η_nonneg
  have hP : (1 + u) ^ a.depth ≤ 1 + 2 * (a.depth * u) := by
    calc (1 + u) ^ a.depth ≤ Real.exp u ^ a.depth :=
          pow_le_pow_left₀ (by linarith) (by rw [add_comm]; exact Real.add_one_le_exp u) _
      _ = Real.exp (a.depth * u) := by rw [← Real.exp_nat_mul]
      _ ≤ 1 / (1 - a.depth * u) := Real.exp_bound_div_one_sub_of_interval (by positivity) (by linarith)
      _ ≤ _ := by
        rw [div_le_iff₀ (by linarith)]
        have : 0 ≤ a.depth * u := by positivity
        nlinarith
  have hP2 : (1 + u) ^ a.depth ≤ 2 := hP.trans (by linarith)
  have hN : 0 ≤ norm2 (x.map val) := Real.sqrt_nonneg _
  have hX : norm2 (dht (x.map val)) = √d.len * norm2 (x.map val) := by
    have hl : (x.map val).length = d.len := by simp [hx]
    rw [norm2_eq (n := d.len) (by rw [length_dht, hl]), norm2_eq hl, nrm_dht hl]
  have hss : √(d.len : ℝ) * √d.len = d.len := Real.mul_self_sqrt (Nat.cast_nonneg _)
  have hs := Real.sqrt_nonneg (d.len : ℝ)
  have hm1 : 0 ≤ max (norm2 (x.map val)) 1 := le_trans hN (le_max_left _ _)
  obtain ⟨k1, k2⟩ := h x hx hf a ha _ rfl (by
    refine le_trans ?_ hO
    gcongr)
  refine ⟨k1, k2.trans ?_⟩
  rw [hX]
  generalize norm2 (x.map val) = N at *
  generalize (1 + u) ^ a.depth = P at *
  have e1 := mul_le_mul_of_nonneg_right hP hN
  have e2 := mul_le_mul_of_nonneg_right hP2 (show 0 ≤ a.under * η * √d.len by positivity)
  calc √(d.len : ℝ) * (P * (N + a.under * η * √d.len) - N)
      ≤ √d.len * (2 * (a.depth * u) * N + 2 * (a.under * η * √d.len)) := mul_le_mul_of_nonneg_left (by linarith) hs
    _ = 2 * a.depth * u * (√d.len * N) + 2 * a.under * η * (√d.len * √d.len) := by ring
    _ = _ := by rw [hss]

/-- The numbers are explicit: `Radix4` of length 64, and `RadersAlgorithm` of length 5. -/
example : (Plan.radix4 64).stability 1 1 = ⟨276, 9, 24⟩ := by decide
example : (Plan.raders (.mr2 .b2)).stability 1 1 = ⟨2677, 6, 18⟩ := by
  have h : Nat.sqrt (4 + 1) = 2 := (Nat.eq_sqrt'.2 ⟨by norm_num, by norm_num⟩).symm
  show radersStability 1 ⟨32, 2, 3⟩ 4 = _
  rw [radersStability, h]; rfl

/-- `Radix4` of length 64 in single precision, with an input of norm at most 100: the relative error is below `0.0001`, up to
underflow. -/
example (d : Dht Single) (hd : radix4 Single 64 = .ok d) (x : List Single) (hx : x.length = 64) (hf : ∀ a ∈ x, a.fin)
    (hN : norm2 (x.map Single.val) ≤ 100) :
    ∃ y, d.process x = .ok y ∧ (∀ a ∈ y, a.fin) ∧
      norm2 (List.zipWith (· - ·) (y.map Single.val) (dht (x.map Single.val))) ≤
        0.0001 * norm2 (dht (x.map Single.val)) + 1 / 10 ^ 30 := by
  have hl : d.len = 64 := plan_len (.radix4 64) d hd
  obtain ⟨f, hi, h⟩ := C46_relative_error (.radix4 64) (by simp [Plan.SmallRadix4]) Single.floatModel d hd
  have h8 : √((64 : ℕ) : ℝ) = 8 := by
    rw [show ((64 : ℕ) : ℝ) = 8 ^ 2 by norm_num]; exact Real.sqrt_sq (by norm_num)
  refine ⟨f x, process_single hi (by rw [hx, hl]), ?_⟩
  have hmx : max (norm2 (x.map Single.val)) 1 ≤ 100 := max_le hN (by norm_num)
  obtain ⟨k1, k2⟩ := h x (by rw [hx, hl]) hf ⟨276, 9, 24⟩ (by decide) (by norm_num) (by
    rw [hl, h8]
    push_cast
    have : (9 : ℝ) * 2⁻¹ ^ 126 * 8 ≤ 1 := by norm_num
    have h127 : (40000 : ℝ) ≤ 2 ^ 127 := by norm_num
    nlinarith)
  refine ⟨k1, k2.trans ?_⟩
  rw [hl]
  have h0 : 0 ≤ norm2 (dht (x.map Single.val)) := Real.sqrt_nonneg _
  push_cast
  have e1 : (2 : ℝ) * 276 * 2⁻¹ ^ 23 ≤ 0.0001 := by norm_num
  have e2 : (2 : ℝ) * 9 * 2⁻¹ ^ 126 * 64 ≤ 1 / 10 ^ 30 := by norm_num
  have := mul_le_mul_of_nonneg_right e1 h0
  linarith

/-! ## C47 -/

/-- For compositions without `RadersAlgorithm` and with `DhtNaive` only up to a fixed length `L`, the number of roundings that
counts for the error grows like the logarithm of the length. -/
theorem C47_depth_log (L : ℕ) (p : Plan) (hp : p.Fast L) (d : Dht T) (hd : p.build T = .ok d) (h2 : 2 ≤ d.len) :
    (p.stability t s).depth ≤ 2 * ((1720 + 2 * (L + 1) * (L + 4)) * (1 + t + s)) * Nat.log 2 d.len ∧
    (p.stability t s).under ≤ 2 * (100 + L) * Nat.log 2 d.len ∧ (p.stability t s).big ≤ max 57 (2 * L) := by
  have h := plan_stabLog (t := t) (s := s) p hp d hd
  exact ⟨(Nat.le_add_right _ _).trans (h.two h2).1, (Nat.le_add_right _ _).trans (h.two h2).2, h.big⟩

/-- So the relative error of the whole output is of the order of `u * log n`. -/
theorem C47_error_log (L : ℕ) (p : Plan) (hp : p.Fast L) (hr : p.SmallRadix4) (hm : FloatModel fin val u η Ω t s) (d : Dht T)
    (hd : p.build T = .ok d) (h2 : 2 ≤ d.len) (l K : ℕ) (hl : l = Nat.log 2 d.len)
    (hK : K = 2 * ((1720 + 2 * (L + 1) * (L + 4)) * (1 + t + s))) (hu : (K * l : ℕ) * u ≤ 1 / 2) :
    ∃ f : List T → List T, Implements d f ∧
      ∀ x, x.length = d.len → (∀ a ∈ x, fin a) →
        (max 57 (2 * L) : ℕ) * (√d.len * (2 * (max (norm2 (x.map val)) 1 + (2 * (100 + L) * l : ℕ) * η * √d.len))) ≤ Ω →
        (∀ y ∈ f x, fin y) ∧
        norm2 (List.zipWith (· - ·) ((f x).map val) (dht (x.map val)))
          ≤ 2 * (K * l : ℕ) * u * norm2 (dht (x.map val)) + 2 * (2 * (100 + L) * l : ℕ) * η * d.len := by
  obtain ⟨f, h1, h⟩ := C46_relative_error p hr hm d hd
  obtain ⟨c1, c2, c3⟩ := C47_depth_log (t := t) (s := s) L p hp d hd h2
  rw [← hK, ← hl] at c1
  rw [← hl] at c2
  have hu0 := hm.u_nonneg
  have hη := hm.η_nonneg
  refine ⟨f, h1, fun x hx hf hO => ?_⟩
  have d1 : ((p.stability t s).depth : ℝ) ≤ (K * l : ℕ) := by exact_mod_cast c1
  have d2 : ((p.stability t s).under : ℝ) ≤ (2 * (100 + L) * l : ℕ) := by exact_mod_cast c2
  have d3 : ((p.stability t s).big : ℝ) ≤ (max 57 (2 * L) : ℕ) := by exact_mod_cast c3
  have h0 : 0 ≤ norm2 (dht (x.map val)) := Real.sqrt_nonneg _
  have hm1 : 0 ≤ max (norm2 (x.map val)) 1 := le_trans zero_le_one (le_max_right _ _)
  obtain ⟨k1, k2⟩ := h x hx hf _ rfl ((mul_le_mul_of_nonneg_right d1 hu0).trans hu) (by
    refine le_trans ?_ hO
    gcongr)
  refine ⟨k1, k2.trans ?_⟩
  gcongr

/-- `SplitRadix` on top of `Butterfly8` and `Butterfly16`, and a mixed-radix composition of length 96, are fast. -/
example : (Plan.splitRadix .b8 .b16).Fast 0 := ⟨trivial, trivial⟩
example : (Plan.mixedRadix (.mr2 (.naive 3)) .b16).Fast 3 ∧ (Plan.mixedRadix (.mr2 (.naive 3)) .b16).expectedLen = 96 :=
  ⟨⟨le_refl 3, trivial, by decide, by decide⟩, rfl⟩
/-- Their numbers. -/
example : (Plan.splitRadix .b8 .b16).stability 1 1 = ⟨288, 7, 24⟩ := by decide
example : (Plan.mixedRadix (.mr2 (.naive 3)) .b16).stability 1 1 = ⟨328, 16, 24⟩ := by decide

end RustDHT
