import Verif.Proofs.PatchedStability
import Verif.Proofs.PatchedFloat
import Verif.Proofs.User
import Verif.Props.Contract
import Verif.Props.Harness
import Verif.Proofs.PatchedHarness

/-! # C68: patches for the defects; the full statements hold of the patched code

None of this is about code of the crate as it is: `Model/Patched.lean` and `Model/PatchedFloat.lean` change it.  The theorems say
that the exceptions in C09, C13, C14, C21, C25, C34 and C43 have the causes given there and no others. -/

namespace RustDHT

section
variable {T : Type} [Zero T] [Add T] [Sub T] [Mul T] [Neg T] [FftNum T]

/-- C25 without the exception for the prime 2, and for whole expressions: the constructors return exactly if the documented
requirements are met, and the length is right. -/
theorem C68_builds (t : Tree T) (hu : ∀ d ∈ t.users, Accepts d) :
    ((∃ d, t.patched = .ok d) ↔ t.Meets) ∧ ∀ d, t.patched = .ok d → d.len = t.expectedLen :=
  ⟨(tree_patched_fine t hu).1.1, fun d h => ((tree_patched_fine t hu).1.2 d h).1⟩

/-- `RadersAlgorithm` by itself. -/
theorem C68_raders_new (d : Dht T) (hd : Accepts d) (h32 : d.len + 1 < 2 ^ 32) :
    (∃ d', radersPatched d = .ok d') ↔ (d.len + 1).Prime :=
  ⟨fun ⟨_, h⟩ => (radersPatched_new_only h).1, fun h => by
    obtain ⟨d', e, -⟩ := radersPatched_solid_new hd h h32
    exact ⟨d', e⟩⟩

/-- C20 and C21 without the limits on the scratch of inner objects: whatever the inner objects want, scratch of the reported
lengths is enough. -/
theorem C68_accepts (t : Tree T) (hu : ∀ d ∈ t.users, Accepts d) (d : Dht T) (h : t.patched = .ok d) :
    Accepts d ∧ ScratchSuffices d :=
  have ha := ((tree_patched_fine t hu).1.2 d h).2
  ⟨ha, ha.scratchSuffices⟩

/-- C13 without exceptions: `process_with_scratch` and `process` return exactly if the documented requirements are met, and panic
with the documented message otherwise. -/
theorem C68_inplace_panics (t : Tree T) (hu : ∀ d ∈ t.users, Accepts d) (ht : ∀ d, t ≠ .user d) (d : Dht T)
    (h : t.patched = .ok d) (hpos : 0 < d.len) (buffer scratch : List T) :
    ((∃ r, d.processWithScratch buffer scratch = .ok r) ↔
      d.len ≤ buffer.length ∧ d.len ∣ buffer.length ∧ d.inplaceScratchLen ≤ scratch.length) ∧
    (∀ k, inplaceViolation d.len d.inplaceScratchLen buffer.length scratch.length = some k →
      d.processWithScratch buffer scratch = .error (.panic k)) ∧
    ((∃ r, d.process buffer = .ok r) ↔ d.len ≤ buffer.length ∧ d.len ∣ buffer.length) ∧
    (∀ k, inplaceViolation d.len 0 buffer.length 0 = some k → d.process buffer = .error (.panic k)) := by
  obtain ⟨-, ha, hr⟩ := ((tree_patched_fine t hu).2 ht).2 d h
  have hr := hr hpos
  have hproc : ∀ k, inplaceViolation d.len 0 buffer.length 0 = some k → d.process buffer = .error (.panic k) := by
    intro k hk
    rw [← inplaceViolation_process] at hk
    have := hr.inplace buffer (List.replicate d.inplaceScratchLen 0) k (by simpa using hk)
    simp [Dht.process, this, error_bind]
  refine ⟨⟨fun ⟨r, e⟩ => ?_, fun ⟨h1, h2, h3⟩ => ?_⟩, fun k hk => hr.inplace _ _ k hk,
    ⟨fun ⟨r, e⟩ => ?_, fun ⟨h1, h2⟩ => ?_⟩, hproc⟩
  · rcases hv : inplaceViolation d.len d.inplaceScratchLen buffer.length scratch.length with _ | k
    · exact inplaceViolation_eq_none_iff.1 hv
    · rw [hr.inplace _ _ k hv] at e; cases e
  · obtain ⟨b', s', e, _⟩ := ha.inplace buffer scratch h1 h2 h3
    exact ⟨_, e⟩
  · rcases hv : inplaceViolation d.len 0 buffer.length 0 with _ | k
    · exact ⟨(inplaceViolation_eq_none_iff.1 hv).1, (inplaceViolation_eq_none_iff.1 hv).2.1⟩
    · rw [hproc k hv] at e; cases e
  · obtain ⟨b', s', e, _⟩ := ha.inplace buffer (List.replicate d.inplaceScratchLen 0) h1 h2 (by simp)
    exact ⟨b', by simp [Dht.process, e]⟩

/-- C14 without exceptions. -/
theorem C68_oop_panics (t : Tree T) (hu : ∀ d ∈ t.users, Accepts d) (ht : ∀ d, t ≠ .user d) (d : Dht T)
    (h : t.patched = .ok d) (hpos : 0 < d.len) (input output scratch : List T) :
    ((∃ r, d.processOop input output scratch = .ok r) ↔
      input.length = output.length ∧ d.len ≤ input.length ∧ d.len ∣ input.length ∧ d.oopScratchLen ≤ scratch.length) ∧
    (∀ k, oopViolation d.len d.oopScratchLen input.length output.length scratch.length = some k →
      d.processOop input output scratch = .error (.panic k)) := by
  obtain ⟨-, ha, hr⟩ := ((tree_patched_fine t hu).2 ht).2 d h
  have hr := hr hpos
  refine ⟨⟨fun ⟨r, e⟩ => ?_, fun ⟨h0, h1, h2, h3⟩ => ?_⟩, fun k hk => hr.oop _ _ _ k hk⟩
  · rcases hv : oopViolation d.len d.oopScratchLen input.length output.length scratch.length with _ | k
    · exact oopViolation_eq_none_iff.1 hv
    · rw [hr.oop _ _ _ k hv] at e; cases e
  · obtain ⟨i', o', s', e, _⟩ := ha.oop input output scratch h0.symm h1 h2 h3
    exact ⟨_, e⟩

/-- Where the code of the crate has none of the defects, the patches change no result, in any arithmetic: both objects apply
the same function to every chunk. -/
theorem C68_same (p : Plan) (hr : p.SmallRadix4) (d : Dht T) (h : p.build T = .ok d) :
    ∃ e, p.patched T = .ok e ∧ e.len = d.len ∧ ∃ f, Implements d f ∧ Implements e f := by
  obtain ⟨e, he, hl, hf⟩ := plan_patched_same p hr d h
  exact ⟨e, he, hl, hf⟩

end

/-- C12 without the exception for `Radix4`: every object computes the DHT if the objects of the caller do. -/
theorem C68_dht (t : Tree ℝ) (hu : ∀ d ∈ t.users, ComputesDht d) (d : Dht ℝ) (h : t.patched = .ok d) :
    ComputesDht d ∧ ProcessesDht d :=
  have hd := tree_patched_dht t hu d h
  ⟨hd, hd.processes⟩

section
variable {T : Type} [Zero T] [Add T] [Sub T] [Mul T] [Neg T] [FftNum T]
variable {fin : T → Prop} {val : T → ℝ} {u η Ω : ℝ} {t s : ℕ}

/-- C46 without the exception for `Radix4`.  `RadersAlgorithm` of length 2, which the crate cannot construct, is left out. -/
theorem C68_stable (p : Plan) (hp : p.NoRaders2) (hm : FloatModel fin val u η Ω t s) (d : Dht T) (hd : p.patched T = .ok d) :
    ∃ f : List T → List T, Implements d f ∧
      ∀ x, x.length = d.len → (∀ a ∈ x, fin a) → ∀ a : Stab, a = p.stability t s → ∀ N, N = norm2 (x.map val) →
        a.big * (√d.len * ((1 + u) ^ a.depth * (max N 1 + a.under * η * √d.len))) ≤ Ω →
        (∀ y ∈ f x, fin y) ∧
        norm2 (List.zipWith (· - ·) ((f x).map val) (dht (x.map val)))
          ≤ √d.len * ((1 + u) ^ a.depth * (N + a.under * η * √d.len) - N) := by
  obtain ⟨dr, hr⟩ := (plan_patched_good (T := ℝ) p).1.2 ((plan_patched_good (T := T) p).1.1 ⟨d, hd⟩)
  obtain ⟨hl, -, f, fr, i1, i2, st⟩ := plan_patched_stability hm p hp d dr hd hr
  refine ⟨f, i1, ?_⟩
  rintro x hx hf a rfl N rfl hO
  rcases Nat.eq_zero_or_pos d.len with h0 | hpos
  · have e : f x = [] := List.length_eq_zero_iff.1 (by rw [i1.length x hx, h0])
    simp [e, h0, norm2]
  · have h := st hpos
    have hn : norm2 (x.map val) = nrm d.len fun i => val (nth x i) := by
      rw [norm2_eq (n := d.len) (by simp [hx])]
      exact nrm_congr fun i _ => hm.nth_map x i
    have hdht : fr (x.map val) = dht (x.map val) := i2.unique (plan_patched_dht p dr hr) (by simp [hx, hl]) (by omega)
    rw [← hdht]
    rw [hn] at hO ⊢
    obtain ⟨h1, h2⟩ := h.err x hx (fun i hi => by
      rw [nth_eq_getElem (by omega)]; exact hf _ (List.getElem_mem _)) hO
    refine ⟨fun y hy => ?_, ?_⟩
    · obtain ⟨i, hi, rfl⟩ := List.getElem_of_mem hy
      have := h1 i (by rw [← i1.length x hx]; exact hi)
      rwa [nth_eq_getElem hi] at this
    · rw [norm2_sub (n := d.len) (by rw [List.length_map, i1.length x hx]) (by rw [i2.length _ (by simp [hx, hl]), hl])]
      simp only [hm.nth_map]
      exact h2

/-- C46 in relative form, likewise. -/
theorem C68_relative_error (p : Plan) (hp : p.NoRaders2) (hm : FloatModel fin val u η Ω t s) (d : Dht T) (hd : p.patched T = .ok d) :
    ∃ f : List T → List T, Implements d f ∧
      ∀ x, x.length = d.len → (∀ a ∈ x, fin a) → ∀ a : Stab, a = p.stability t s → a.depth * u ≤ 1 / 2 →
        a.big * (√d.len * (2 * (max (norm2 (x.map val)) 1 + a.under * η * √d.len))) ≤ Ω →
        (∀ y ∈ f x, fin y) ∧
        norm2 (List.zipWith (· - ·) ((f x).map val) (dht (x.map val)))
          ≤ 2 * a.depth * u * norm2 (dht (x.map val)) + 2 * a.under * η * d.len := by
  obtain ⟨f, h1, h⟩ := C68_stable p hp hm d hd
  refine ⟨f, h1, ?_⟩
  rintro x hx hf a ha hu hO
  have hu0 := hm.u_nonneg
  have hη := hm.η_nonneg
  have hP : (1 + u) ^ a.depth ≤ 1 + 2 * (a.depth * u) := by
    calc (1 + u) ^ a.depth ≤ Real.exp u ^ a.depth :=
          pow_le_pow_left₀ (by linarith) (by rw [add_comm]; exact Real.add_one_le_exp u) _
      _ = Real.exp (a.depth * u) := by rw [← Real.exp_nat_mul]
      _ ≤ 1 / (1 - a.depth * u) := Real.exp_bound_div_one_sub_of_interval (by positivity) (by linarith)
      _ ≤ _ := by
        rw [div_le_iff₀ (by linarith)]
        have : 0 ≤ a.depth * u := by positivity
        nlinarith
  have hP2 : (1 + u) ^ a.depth ≤ 2 := hP.trans (by linarith)
  have hN : 0 ≤ norm2 (x.map val) := Real.sqrt_nonneg _
  have hX : norm2 (dht (x.map val)) = √d.len * norm2 (x.map val) := by
    have hl : (x.map val).length = d.len := by simp [hx]
    rw [norm2_eq (n := d.len) (by rw [length_dht, hl]), norm2_eq hl, nrm_dht hl]
  have hss : √(d.len : ℝ) * √d.len = d.len := Real.mul_self_sqrt (Nat.cast_nonneg _)
  have hs := Real.sqrt_nonneg (d.len : ℝ)
  have hm1 : 0 ≤ max (norm2 (x.map val)) 1 := le_trans hN (le_max_left _ _)
  obtain ⟨k1, k2⟩ := h x hx hf a ha _ rfl (by
    refine le_trans ?_ hO
    gcongr)
  refine ⟨k1, k2.trans ?_⟩
  rw [hX]
  generalize norm2 (x.map val) = N at *
  generalize (1 + u) ^ a.depth = P at *
  have e1 := mul_le_mul_of_nonneg_right hP hN
  have e2 := mul_le_mul_of_nonneg_right hP2 (show 0 ≤ a.under * η * √d.len by positivity)
  calc √(d.len : ℝ) * (P * (N + a.under * η * √d.len) - N)
      ≤ √d.len * (2 * (a.depth * u) * N + 2 * (a.under * η * √d.len)) := mul_le_mul_of_nonneg_left (by linarith) hs
    _ = 2 * a.depth * u * (√d.len * N) + 2 * a.under * η * (√d.len * √d.len) := by ring
    _ = _ := by rw [hss]

end

section
variable [MathLib]

/-- C34 repaired: with `√(1/2)` rounded to `f64`, the constant is off by at most one unit of `f64` instead of `2^29`. -/
theorem C68_constant_f64 (hl : MathLib.Accurate) :
    @FloatModel (Flt binary64) _ _ _ _ _ (ieeePatched binary64) Flt.fin Flt.val (2⁻¹ ^ 53) (2⁻¹ ^ 1075) (2 ^ 1023) 69 1 :=
  floatModel64Patched hl

/-- So every composition in `f64` is accurate to the precision of `f64`. -/
theorem C68_plan_f64 (hl : MathLib.Accurate) (p : Plan) (hp : p.NoRaders2) (d : Dht (Flt binary64))
    (hd : @Plan.patched (Flt binary64) _ _ _ _ _ (ieeePatched binary64) p = .ok d) :
    ∃ f, Implements d f ∧
      ∀ x, x.length = d.len → (∀ a ∈ x, a.fin) → ∀ a : Stab, a = p.stability 69 1 → a.depth ≤ 2 ^ 52 →
        a.big * (√d.len * (2 * (max (norm2 (x.map Flt.val)) 1 + a.under * 2⁻¹ ^ 1075 * √d.len))) ≤ 2 ^ 1023 →
        (∀ y ∈ f x, y.fin) ∧
        norm2 (List.zipWith (· - ·) ((f x).map Flt.val) (dht (x.map Flt.val)))
          ≤ a.depth * 2⁻¹ ^ 52 * norm2 (dht (x.map Flt.val)) + 2 * a.under * 2⁻¹ ^ 1075 * d.len := by
  obtain ⟨f, hi, h⟩ := @C68_relative_error (Flt binary64) _ _ _ _ _ (ieeePatched binary64) _ _ _ _ _ _ _ p hp
    (C68_constant_f64 hl) d hd
  refine ⟨f, hi, fun x hx hf a ha hD hO => ?_⟩
  have hD' : (a.depth : ℝ) ≤ 2 ^ 52 := by exact_mod_cast hD
  obtain ⟨h1, h2⟩ := h x hx hf a ha (by
    have := mul_le_mul_of_nonneg_right hD' (show (0 : ℝ) ≤ 2⁻¹ ^ 53 by positivity)
    norm_num at this ⊢
    linarith) hO
  refine ⟨h1, h2.trans_eq ?_⟩
  rw [show (2 : ℝ) * a.depth * 2⁻¹ ^ 53 = a.depth * 2⁻¹ ^ 52 by ring]

end

/-! ## The checker of the unit tests -/

/-- A tolerance hides nothing from results that scale with the signal. -/
theorem scaled_exact {n : ℕ} (hn : 0 < n) {x X : List ℝ} (hl : X.length = (dht x).length)
    (h : ∀ t : ℝ, 0 < t → absError (dht (x.map fun v => t * v)) (X.map fun v => t * v) / n < 1 / 10) : X = dht x := by
  have hn' : (0 : ℝ) < n := by exact_mod_cast hn
  have h0 : absError (dht x) X = 0 := by
    by_contra hc
    have hpos : 0 < absError (dht x) X := lt_of_le_of_ne (absError_nonneg _ _) (Ne.symm hc)
    have ht := div_pos hn' hpos
    have := h _ ht
    rw [dht_scale, absError_scale, abs_of_pos ht, div_mul_cancel₀ _ hc, div_self hn'.ne'] at this
    norm_num at this
  exact (absError_eq_zero hl.symm h0).symm

/-- C43 without the exception: if the patched checker accepts every signal, and the results scale with their input, then in place and out
of place the object computes exactly the DHT. -/
theorem C68_checker (d : Dht ℝ)
    (hin : ∀ (t : ℝ) (x X : List ℝ), x.length = d.len → d.process x = .ok X →
      d.process (x.map fun v => t * v) = .ok (X.map fun v => t * v))
    (hoop : ∀ (t : ℝ) (x i X s : List ℝ), x.length = d.len →
      d.processOop x (List.replicate d.len 0) (List.replicate d.oopScratchLen 0) = .ok (i, X, s) →
      ∃ i' s', d.processOop (x.map fun v => t * v) (List.replicate d.len 0) (List.replicate d.oopScratchLen 0)
        = .ok (i', X.map fun v => t * v, s'))
    (h : ∀ signal : List ℝ, signal.length = d.len → checkDhtAlgorithmPatched signal d d.len = .ok ()) :
    ∀ x : List ℝ, x.length = d.len → d.process x = .ok (dht x) ∧
      ∃ i s, d.processOop x (List.replicate d.len 0) (List.replicate d.oopScratchLen 0) = .ok (i, dht x, s) := by
  intro x hx
  have hlen : ∀ {y : List ℝ}, y.length = d.len → (dht y).length = d.len := fun h => by rw [length_dht, h]
  obtain ⟨-, hn, ⟨X, e, lX, _⟩, -, ⟨i, Y, s, e', lY, -⟩⟩ := checkPatched_ok hx (h x hx)
  rw [hlen hx] at e'
  have hx' : ∀ t : ℝ, (x.map fun v => t * v).length = d.len := fun t => by simpa using hx
  refine ⟨?_, i, s, ?_⟩
  · rw [e, scaled_exact hn (x := x) (X := X) (by rw [lX, hlen hx]) fun t _ => ?_]
    obtain ⟨-, -, ⟨Z, eZ, _, hc⟩, -⟩ := checkPatched_ok (hx' t) (h _ (hx' t))
    rw [hin t x X hx e] at eZ
    cases eZ
    exact hc
  · rw [e', scaled_exact hn (x := x) (X := Y) (by rw [lY, hlen hx]) fun t _ => ?_]
    obtain ⟨-, -, -, -, ⟨i2, Z, s2, eZ, _, hc⟩⟩ := checkPatched_ok (hx' t) (h _ (hx' t))
    obtain ⟨i3, s3, e3⟩ := hoop t x i Y s hx e'
    rw [hlen (hx' t), e3] at eZ
    cases eZ
    exact hc

/-- It still raises no false alarm. -/
theorem C68_checker_accepts (d : Dht ℝ) (h : ComputesDht d) (hn : 0 < d.len) (signal : List ℝ) (hs : signal.length = d.len) :
    checkDhtAlgorithmPatched signal d d.len = .ok () :=
  checkPatched_accepts h hn hs

/-- The object of `C43_refuted`, which does nothing out of place, is found out. -/
theorem C68_checker_detects (d : Dht ℝ) (hn : 0 < d.len)
    (hd : ∀ input output scratch, d.processOop input output scratch = .ok (input, output, scratch)) :
    ∃ signal : List ℝ, signal.length = d.len ∧ checkDhtAlgorithmPatched signal d d.len ≠ .ok () := by
  by_contra hc
  push Not at hc
  have hlen : ∀ {y : List ℝ}, y.length = d.len → (dht y).length = d.len := fun h => by rw [length_dht, h]
  have hx : ((List.range d.len).map fun i => if i = 0 then (1 : ℝ) else 0).length = d.len := by simp
  generalize hX : (List.range d.len).map (fun i => if i = 0 then (1 : ℝ) else 0) = x at hx
  have e0 := scaled_exact hn (x := x) (X := List.replicate d.len 0) (by simp [hlen hx]) fun t _ => by
    have hx' : (x.map fun v => t * v).length = d.len := by simpa using hx
    obtain ⟨-, -, -, -, ⟨i2, Z, s2, eZ, _, hc⟩⟩ := checkPatched_ok hx' (hc _ hx')
    rw [hd, hlen hx'] at eZ
    cases eZ
    simpa using hc
  have e1 : (dht x).getD 0 0 = 1 := by
    rw [dht, hx, List.getD_eq_getElem?_getD, List.getElem?_map, List.getElem?_range hn]
    simp only [Option.map_some, Option.getD_some, dhtCoeff, hx]
    rw [Finset.sum_eq_single 0]
    · simp [← hX, hn, cas]
    · intro i hi h0
      have : i < d.len := Finset.mem_range.1 hi
      simp [← hX, this, h0]
    · simp [hn.ne']
  rw [← e0] at e1
  simp [hn] at e1

/-- The hypotheses of `C68_checker` are met, for instance, by `Butterfly3`. -/
example (x : List ℝ) (hx : x.length = 3) : (butterfly3 ℝ).process x = .ok (dht x) := by
  have hb := butterfly3_dht
  refine (C68_checker (butterfly3 ℝ) (fun t x X hx e => ?_) (fun t x i X s hx e => ?_) (fun x hx => ?_) x hx).1
  · rw [process_single hb hx] at e
    cases e
    rw [process_single hb (by simpa using hx), dht_scale]
  · have key : ∀ y : List ℝ, y.length = 3 → ∃ i s, (butterfly3 ℝ).processOop y (List.replicate 3 0) [] = .ok (i, dht y, s) := by
      intro y hy
      obtain ⟨i, s, e, -⟩ := hb.oop y (List.replicate 3 0) [] (by simp [hy]) (by rw [hy]; exact le_rfl) (by rw [hy]; exact dvd_rfl) le_rfl
      exact ⟨i, s, by rw [e, mapChunks_single (n := (butterfly3 ℝ).len) (by decide) hy]⟩
    obtain ⟨i1, s1, e1⟩ := key x hx
    obtain ⟨i2, s2, e2⟩ := key (x.map fun v => t * v) (by rw [List.length_map]; exact hx)
    change (butterfly3 ℝ).processOop x (List.replicate 3 0) [] = _ at e
    rw [e1] at e
    cases e
    exact ⟨i2, s2, by rw [← dht_scale]; exact e2⟩
  · exact C68_checker_accepts _ hb (by decide) x hx

/-! ## Concrete cases -/

section
variable {T : Type} [Zero T] [Add T] [Sub T] [Mul T] [Neg T] [FftNum T]

/-- `MixedRadix3xn` over `SplitRadix` over objects of the caller that want 100 and 5 elements of scratch more than they need: the
crate's objects fail on these by C21. -/
example : ∃ d : Dht T, Tree.patched (.mr3 (.splitRadix (.user ((butterfly2 T).greedy 100)) (.user ((butterfly4 T).greedy 5)))) = .ok d ∧
    d.len = 24 ∧ ScratchSuffices d := by
  obtain ⟨f, hf⟩ := (plan_ok (T := T) .b2 _ rfl).implements
  obtain ⟨g, hg⟩ := (plan_ok (T := T) .b4 _ rfl).implements
  have hu : ∀ d ∈ (Tree.mr3 (.splitRadix (.user ((butterfly2 T).greedy 100)) (.user ((butterfly4 T).greedy 5)))).users, Accepts d := by
    intro d hd
    simp only [Tree.users, List.mem_append, List.mem_singleton] at hd
    rcases hd with rfl | rfl
    · exact (greedy_implements hf _).accepts
    · exact (greedy_implements hg _).accepts
  obtain ⟨d, hd⟩ := (C68_builds _ hu).1.2 ⟨trivial, trivial, rfl⟩
  exact ⟨d, hd, (C68_builds _ hu).2 d hd, (C68_accepts _ hu d hd).2⟩

/-- `Butterfly1` now refuses an empty buffer. -/
example : (butterfly1Patched T).process [] = .error (.panic .bufferTooSmall) :=
  (C68_inplace_panics (.plan .b1) (by simp [Tree.users]) (by simp) _ rfl (by show 0 < 1; omega) [] []).2.2.2 _ rfl

/-- Rader's algorithm for the prime 2: the crate panics, the patched constructor returns. -/
example : (Plan.raders .b1).build T = .error (.panic .unwrapNone) ∧ ∃ d, (Plan.raders .b1).patched T = .ok d ∧ d.len = 2 := by
  refine ⟨C25_raders_refuted.2, ?_⟩
  have h := C68_builds (T := T) (.plan (.raders .b1)) (by simp [Tree.users])
  obtain ⟨d, hd⟩ := h.1.2 ⟨trivial, Nat.prime_two, by show 2 < 2 ^ 32; norm_num⟩
  exact ⟨d, hd, h.2 d hd⟩

end

/-- And computes the sum and the difference. -/
example : ∃ d, (Plan.raders .b1).patched ℝ = .ok d ∧ d.process [5, 3] = .ok [8, 2] := by
  have h := C68_builds (T := ℝ) (.plan (.raders .b1)) (by simp [Tree.users])
  obtain ⟨d, hd⟩ := h.1.2 ⟨trivial, Nat.prime_two, by show 2 < 2 ^ 32; norm_num⟩
  have hl : d.len = 2 := h.2 d hd
  refine ⟨d, hd, ?_⟩
  rw [process_single (C68_dht (.plan (.raders .b1)) (by simp [Tree.users]) d hd).1 (by rw [hl]; rfl), ← bfly2_dht rfl]
  show Except.ok [(5 : ℝ) + 3, 5 - 3] = _
  norm_num

/-- `RadersAlgorithm` of length 65537 around a long `Radix4`: the crate's object is wrong by C09. -/
example : ∃ d, (Plan.raders (.radix4 65536)).patched ℝ = .ok d ∧ d.len = 65537 ∧ ComputesDht d := by
  have h := C68_builds (T := ℝ) (.plan (.raders (.radix4 65536))) (by simp [Tree.users])
  obtain ⟨d, hd⟩ := h.1.2 ⟨⟨16, rfl⟩, by show Nat.Prime 65537; norm_num, by show 65537 < 2 ^ 32; norm_num⟩
  exact ⟨d, hd, h.2 d hd, (C68_dht (.plan (.raders (.radix4 65536))) (by simp [Tree.users]) d hd).1⟩

/-- The case of `C34_f64_refuted`, where the crate is off by more than `2^-27`: the patched code is accurate to `2^-40`. -/
example [MathLib] (hl : MathLib.Accurate) : ∃ d, @Plan.patched (Flt binary64) _ _ _ _ _ (ieeePatched binary64)
    (.mixedRadix .b2 .b2) = .ok d ∧ ∃ f, Implements d f ∧ ∀ x, x.length = 4 → (∀ a ∈ x, a.fin) → norm2 (x.map Flt.val) ≤ 1 →
      norm2 (List.zipWith (· - ·) ((f x).map Flt.val) (dht (x.map Flt.val))) ≤ 2⁻¹ ^ 40 := by
  obtain ⟨f, hi, h⟩ := C68_plan_f64 hl (.mixedRadix .b2 .b2) ⟨trivial, trivial⟩ _ rfl
  refine ⟨_, rfl, f, hi, fun x hx hf hn => ?_⟩
  have e4 : √((4 : ℕ) : ℝ) = 2 := by rw [show ((4 : ℕ) : ℝ) = 2 ^ 2 by norm_num]; exact Real.sqrt_sq (by norm_num)
  have eη : (2⁻¹ : ℝ) ^ 1075 ≤ 2⁻¹ ^ 60 := pow_le_pow_of_le_one (by norm_num) (by norm_num) (by norm_num)
  have eΩ : (2 : ℝ) ^ 60 ≤ 2 ^ 1023 := pow_le_pow_right₀ (by norm_num) (by norm_num)
  have hη : (0 : ℝ) ≤ 2⁻¹ ^ 1075 := by positivity
  have hs : (Plan.mixedRadix .b2 .b2).stability 69 1 = ⟨612, 6, 4⟩ := by decide
  have hX : norm2 (dht (x.map Flt.val)) = 2 * norm2 (x.map Flt.val) := by
    have hl : (x.map Flt.val).length = 4 := by simp [hx]
    rw [norm2_eq (n := 4) (by rw [length_dht, hl]), norm2_eq hl, nrm_dht hl, e4]
  obtain ⟨-, h2⟩ := h x hx hf ⟨612, 6, 4⟩ hs.symm (by norm_num) (by
    show ((4 : ℕ) : ℝ) * (√((4 : ℕ) : ℝ) * (2 * (max (norm2 (x.map Flt.val)) 1 + (6 : ℕ) * 2⁻¹ ^ 1075 * √((4 : ℕ) : ℝ)))) ≤ 2 ^ 1023
    rw [e4, max_eq_right hn]
    generalize (2⁻¹ : ℝ) ^ 1075 = η at *
    generalize (2 : ℝ) ^ 1023 = Ω at *
    norm_num at *
    linarith)
  refine h2.trans ?_
  show ((612 : ℕ) : ℝ) * 2⁻¹ ^ 52 * _ + 2 * (6 : ℕ) * 2⁻¹ ^ 1075 * ((4 : ℕ) : ℝ) ≤ _
  rw [hX]
  generalize (2⁻¹ : ℝ) ^ 1075 = η at *
  norm_num at *
  linarith

end RustDHT
