import Verif.Proofs.UnitTestsPass
import Verif.Props.Harness

/-! # C53: the remaining unit tests

`test_matches_dht` of src/scalar/dht_naive.rs, `test_reversal_property` and `test_double_reversal_property` of
src/scalar/radix5.rs, and `test_mixed_radix_inner_scratch` of src/scalar/mixed_radix.rs do not consist of calls of
`check_dht_algorithm`.  They return normally: the first three for every signal, exactly and in `f32`, and the last one for every
arithmetic. -/

namespace RustDHT

section Exact

/-- One round of `test_matches_dht` in exact arithmetic, for every length and every signal of a whole number of chunks. -/
theorem C53_matches_exact (n : ℕ) (hn : 0 < n) (x : List ℝ) (hl : n ≤ x.length) (hd : n ∣ x.length) :
    testMatchesDhtLen n x = .ok () := matches_exact hn hl hd

/-- One round of `test_reversal_property` in exact arithmetic, for every length and every signal. -/
theorem C53_reversal_exact (n : ℕ) (hn : 0 < n) (x : List ℝ) (hx : x.length = n) : testReversalLen n x = .ok () :=
  reversal_exact hn hx

/-- One round of `test_double_reversal_property` in exact arithmetic, for every length and every signal. -/
theorem C53_double_reversal_exact (n : ℕ) (hn : 0 < n) (x : List ℝ) (hx : x.length = n) : testDoubleReversalLen n x = .ok () :=
  double_reversal_exact hn hx

/-- Length 0 is not an omission in the hypotheses: both of these tests would panic on it. -/
theorem C53_empty_panics : testReversalLen (T := ℝ) 0 [] = .error (.panic .assertFailed) ∧
    testDoubleReversalLen (T := ℝ) 0 [] = .error (.panic .index) := by
  constructor
  · have c : compareRealVectors ([] : List ℝ) [] = .ok false := by
      rw [compare_eq rfl]
      congr 1
    have t : reversalTwiddles (T := ℝ) 0 [] = .ok [] := rfl
    have d : (dhtNaive ℝ 0).process [] = .ok [] := rfl
    unfold testReversalLen
    simp only [t, d, ok_bind, List.reverse_nil, c]
    rfl
  · rfl

example : testReversalLen 3 [1, 2, (4 : ℝ)] = .ok () := C53_reversal_exact 3 (by decide) _ rfl

end Exact

section Float
variable [MathLib]

/-- `test_matches_dht` passes for every signal, whatever the accurate platform functions return. -/
theorem C53_matches_f32 [MathLib32] (hl : MathLib.Accurate) (hl32 : MathLib32.Accurate) (signal : ℕ → List (Flt binary32))
    (hs : TestSignal signal) : testMatchesDht signal = .ok () := by
  unfold testMatchesDht
  have h : (forRange 1 20 () fun len _ => testMatchesDhtLen len (signal (len * 4))) = .ok () :=
    forRange_unit fun i h1 h2 => matches_f32 hl hl32 h1 (by omega) (hs _).1 (hs _).2
  rw [h, ok_bind]
  exact testZeroLength_ok _

/-- `test_reversal_property` passes for every signal. -/
theorem C53_reversal_f32 (hl : MathLib.Accurate) (signal : ℕ → List (Flt binary32)) (hs : TestSignal signal) :
    testReversal signal = .ok () :=
  forRange_unit fun i h1 h2 => reversal_f32 hl h1 (by omega) (hs i).1 (hs i).2

/-- `test_double_reversal_property` passes for every signal. -/
theorem C53_double_reversal_f32 (hl : MathLib.Accurate) (signal : ℕ → List (Flt binary32)) (hs : TestSignal signal) :
    testDoubleReversal signal = .ok () :=
  forRange_unit fun i h1 h2 => double_reversal_f32 hl (by omega) (by omega) (hs i).1 (hs i).2

end Float

section Any
variable {T : Type} [Add T] [Sub T] [Mul T] [Neg T] [Zero T] [FftNum T]

/-- One round of `test_mixed_radix_inner_scratch`, for all lengths and scratch lengths of the inner objects. -/
theorem C53_inner_scratch_pair (n a b n' a' b' : ℕ) :
    testInnerScratchPair (bigScratchAlgorithm T n a b) (bigScratchAlgorithm T n' a' b') = .ok () := by
  have h := C44_mixedRadix_bigScratch (T := T) n a b n' a' b'
  unfold testInnerScratchPair
  dsimp only
  generalize mixedRadix (bigScratchAlgorithm T n a b) (bigScratchAlgorithm T n' a' b') = d at *
  obtain ⟨r, e⟩ := h.scratchSuffices.inplace (List.replicate d.len 0) (List.replicate _ 0) (by simp) (by simp)
    (by rw [List.length_replicate])
  rw [e, ok_bind]
  obtain ⟨r, e⟩ := h.scratchSuffices.oop (List.replicate d.len 0) (List.replicate d.len 0) (List.replicate _ 0) rfl (by simp) (by simp)
    (by rw [List.length_replicate])
  rw [e, ok_bind]
  rfl

/-- `test_mixed_radix_inner_scratch` passes. -/
theorem C53_inner_scratch : testInnerScratch T = .ok () := by
  have one : ∀ (l : List ℕ) (body : ℕ → List (Dht T) → Res (List (Dht T))),
      (∀ a ds, (∀ d ∈ ds, ∃ n a b, d = bigScratchAlgorithm T n a b) →
        ∃ ds', body a ds = .ok ds' ∧ ∀ d ∈ ds', ∃ n a b, d = bigScratchAlgorithm T n a b) →
      ∀ ds, (∀ d ∈ ds, ∃ n a b, d = bigScratchAlgorithm T n a b) →
        ∃ ds', forList l ds body = .ok ds' ∧ ∀ d ∈ ds', ∃ n a b, d = bigScratchAlgorithm T n a b := by
    intro l body hb
    induction l with
    | nil => exact fun ds h => ⟨ds, rfl, h⟩
    | cons a l ih =>
      intro ds h
      obtain ⟨ds', e, h'⟩ := hb a ds h
      rw [forList_cons, e]
      exact ih ds' h'
  obtain ⟨ds, e, hds⟩ := one [1, 5, 25] (fun len innerDhts =>
    forList [1, 5, 25] innerDhts fun inplaceScratch innerDhts =>
      forList [1, 5, 25] innerDhts fun outofplaceScratch innerDhts =>
        .ok (innerDhts ++ [bigScratchAlgorithm T len inplaceScratch outofplaceScratch]))
    (fun n ds h => one _ _ (fun a ds h => one _ _ (fun b ds h => ⟨_, rfl, fun d hd => by
      rcases List.mem_append.1 hd with hd | hd
      · exact h d hd
      · exact ⟨n, a, b, List.mem_singleton.1 hd⟩⟩) ds h) ds h) [] (by simp)
  unfold testInnerScratch
  dsimp only
  rw [e, ok_bind]
  refine forList_unit fun w hw => forList_unit fun h hh => ?_
  obtain ⟨n, a, b, rfl⟩ := hds w hw
  obtain ⟨n', a', b', rfl⟩ := hds h hh
  exact C53_inner_scratch_pair n a b n' a' b'

end Any

/-- The hypotheses can be met: correctly rounded functions, and the constant signal 7. -/
example : @MathLib32.Accurate
    ⟨fun x => .roundSigned binary32 false (Real.cos x.val), fun x => .roundSigned binary32 false (Real.sin x.val)⟩ := by
  have key : ∀ y : ℝ, |y| ≤ 1 → (Flt.roundSigned binary32 false y).fin ∧
      |(Flt.roundSigned binary32 false y).val - y| ≤ 2⁻¹ ^ 22 := by
    intro y hy
    obtain ⟨h1, h2, -⟩ := Flt.roundSigned_spec (F := binary32) (by decide) false y
      (hy.trans (by show _ ≤ (2 : ℝ) ^ (127 : ℤ); norm_num))
    refine ⟨h1, h2.trans ?_⟩
    change 2⁻¹ ^ 24 * |y| + 2 ^ (-150 : ℤ) ≤ _
    norm_num
    linarith
  exact @MathLib32.Accurate.mk (_) (fun x _ _ => key _ (Real.abs_cos_le_one _)) fun x _ _ => key _ (Real.abs_sin_le_one _)

example : TestSignal fun n => List.replicate n (Flt.ofNat binary32 7) := by
  have h7 : (Flt.ofNat binary32 7).fin ∧ |(Flt.ofNat binary32 7).val| ≤ 10 := by
    obtain ⟨h1, h2⟩ := Flt.ofNat_spec (F := binary32) (by decide) (by decide) 7
      (by show _ ≤ (2 : ℝ) ^ (127 : ℤ); norm_num)
    refine ⟨h1, ?_⟩
    have h3 : (2⁻¹ : ℝ) ^ binary32.prec * (7 : ℕ) ≤ 1 := by show (2⁻¹ : ℝ) ^ 24 * (7 : ℕ) ≤ 1; norm_num
    have := abs_le.1 (h2.trans h3)
    push_cast at this
    exact abs_le.2 ⟨by linarith [this.1], by linarith [this.2]⟩
  exact fun n => ⟨List.length_replicate .., fun a ha => by rw [List.eq_of_mem_replicate ha]; exact h7⟩

end RustDHT
