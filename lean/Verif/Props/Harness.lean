import Verif.Proofs.Harness
import Verif.Proofs.Bench
import Verif.Proofs.DhtLaws
import Verif.Props.Contract
import Verif.Props.Exact
import Verif.Props.AnyArith

/-! # C42 - C45: the unit-test checker and the benchmark factories -/

set_option linter.unusedSectionVars false

namespace RustDHT

/-! ## C42: `check_dht_algorithm` raises no false alarm -/

theorem C42_check_accepts (d : Dht ℝ) (n : ℕ) (signal : List ℝ) (h : ComputesDht d) (hl : d.len = n) (hn : 0 < n)
    (hs : signal.length = n) : checkDhtAlgorithm signal d n = .ok () := by
  subst hl
  exact check_accepts h hn hs

/-- Every composition without a long `Radix4` passes. -/
theorem C42_plan_passes (p : Plan) (hr : p.SmallRadix4) (d : Dht ℝ) (h : p.build ℝ = .ok d) (hpos : 0 < d.len)
    (signal : List ℝ) (hs : signal.length = d.len) : checkDhtAlgorithm signal d d.len = .ok () :=
  C42_check_accepts d d.len signal (C12_plan_dht p hr d h).1 rfl hpos hs

example : checkDhtAlgorithm [3, 1, 4, 1, 5, 9] (mixedRadix2xn (dhtNaive ℝ 3)) 6 = .ok () :=
  C42_check_accepts _ 6 _ (C12_plan_dht (.mr2 (.naive 3)) trivial _ rfl).1 mr2_naive3_len (by norm_num) rfl

/-! ## C43: what a passed check says

The full statement would be: if the checker accepts, the object computes the transform.  It is false, even when the checker
accepts for every signal: `output` already holds the expected values when `process_outofplace_with_scratch` is called. -/

/-- For the signal used, the mean error of each entry point is below 0.1, also when the scratch space is filled with 100; the output slice
of the third held the expected result before the call. -/
theorem C43_check_implies_partial (d : Dht ℝ) (n : ℕ) (signal : List ℝ) (hs : signal.length = n)
    (h : checkDhtAlgorithm signal d n = .ok ()) :
    d.len = n ∧ 0 < n ∧
    (∃ X, d.process signal = .ok X ∧ X.length = n ∧ absError (dht signal) X / n < 1 / 10) ∧
    (∃ X s, d.processWithScratch signal (List.replicate d.inplaceScratchLen 0) = .ok (X, s) ∧ X.length = n ∧
      absError (dht signal) X / n < 1 / 10 ∧
      (0 < s.length → ∃ Y t, d.processWithScratch signal (List.replicate s.length 100) = .ok (Y, t) ∧ Y.length = n ∧
        absError (dht signal) Y / n < 1 / 10)) ∧
    (∃ i X s, d.processOop signal (dht signal) (List.replicate d.oopScratchLen 0) = .ok (i, X, s) ∧ X.length = n ∧
      absError (dht signal) X / n < 1 / 10 ∧
      (0 < s.length → ∃ j Y t, d.processOop signal X (List.replicate s.length 100) = .ok (j, Y, t) ∧ Y.length = n ∧
        absError (dht signal) Y / n < 1 / 10)) :=
  check_ok hs h

theorem dht_scale (t : ℝ) (x : List ℝ) : dht (x.map fun v => t * v) = (dht x).map fun v => t * v := by
  have h := dht_linear (x := x) (y := x) rfl t 0
  simpa [List.zipWith_self] using h

/-- If the checker accepts for every signal, and `process` scales with its input, then `process` computes exactly the
transform: the tolerance hides nothing.  (In exact arithmetic every composition scales, by C39.) -/
theorem C43_check_all_signals_partial (d : Dht ℝ)
    (hscale : ∀ (t : ℝ) (x X : List ℝ), x.length = d.len → d.process x = .ok X →
      d.process (x.map fun v => t * v) = .ok (X.map fun v => t * v))
    (h : ∀ signal : List ℝ, signal.length = d.len → checkDhtAlgorithm signal d d.len = .ok ()) :
    ∀ x : List ℝ, x.length = d.len → d.process x = .ok (dht x) := by
  intro x hx
  obtain ⟨-, hn, ⟨X, e, lX, _⟩, -⟩ := check_ok hx (h x hx)
  have hn' : (0 : ℝ) < d.len := by exact_mod_cast hn
  have key : ∀ t : ℝ, 0 < t → t * absError (dht x) X < d.len / 10 := by
    intro t ht
    have hx' : (x.map fun v => t * v).length = d.len := by simpa using hx
    obtain ⟨-, -, ⟨Y, e', _, hc⟩, -⟩ := check_ok hx' (h _ hx')
    rw [hscale t x X hx e] at e'
    injection e' with e'
    rw [← e', dht_scale, absError_scale, abs_of_pos ht, div_lt_iff₀ hn'] at hc
    linarith
  have h0 : absError (dht x) X = 0 := by
    by_contra hc
    have hpos : 0 < absError (dht x) X := lt_of_le_of_ne (absError_nonneg _ _) (Ne.symm hc)
    have := key (d.len / absError (dht x) X) (div_pos hn' hpos)
    rw [div_mul_cancel₀ _ hc] at this
    linarith
  rw [e, absError_eq_zero (by simp [dht, hx, lX]) h0]

/-- An object that is right in place and does nothing out of place is accepted for every signal. -/
theorem C43_refuted (n : ℕ) (hn : 0 < n) :
    ∃ d : Dht ℝ, d.len = n ∧ (∀ signal : List ℝ, signal.length = n → checkDhtAlgorithm signal d n = .ok ()) ∧
      ∀ input output scratch, d.processOop input output scratch = .ok (input, output, scratch) := by
  refine ⟨{ dhtNaive ℝ n with processOop := fun i o s => .ok (i, o, s) }, dhtNaive_len n, fun signal hs => ?_,
    fun _ _ _ => rfl⟩
  have hl := dhtNaive_len (T := ℝ) n
  have := check_of (d := { dhtNaive ℝ n with processOop := fun i o s => .ok (i, o, s) }) (signal := signal)
    (by simp only [hl]; exact hn) (by simp only [hl]; exact hs)
    (fun s hsl => by
      obtain ⟨s', e, ls, _⟩ := (dhtNaive_dht n).inplace signal s (by omega) (by rw [hs, hl]) hsl
      rw [hl, mapChunks_single hn hs] at e
      exact ⟨s', e, ls⟩)
    (fun s hsl => ⟨signal, s, rfl, rfl, rfl⟩)
  simp only [hl] at this ⊢
  exact this

/-- The unit tests of `Radix4` stop at length 64.  From length 128 on the checker rejects it, for some signal. -/
theorem C43_radix4_detected (m : ℕ) (hm : 7 ≤ m) :
    ∃ d, radix4 ℝ (2 ^ m) = .ok d ∧ d.len = 2 ^ m ∧
      ∃ signal : List ℝ, signal.length = 2 ^ m ∧ checkDhtAlgorithm signal d (2 ^ m) ≠ .ok () := by
  obtain ⟨d, e, hl, hne⟩ := C09_radix4_refuted m hm
  refine ⟨d, e, hl, ?_⟩
  by_contra hc
  push Not at hc
  refine hne (C43_check_all_signals_partial d (fun t x X hx eX => ?_) (fun s hs => by rw [hl]; exact hc s (by omega)) _
    (by simp [hl]))
  obtain ⟨Y, Z, e1, e2, _, e3⟩ := C39_linear_any_tables (.radix4 (2 ^ m)) d e t 0 x x rfl (by omega) (by rw [hx])
  rw [eX] at e1 e2
  cases e1
  cases e2
  simpa [List.zipWith_self] using e3

/-! ## C44: fake inner objects

`BigScratchAlgorithm` of the unit tests asserts that it receives enough scratch and does nothing else; `Noop` of the
benchmarks does nothing.  The scratch tests of the crate try a few scratch lengths; these statements are about all of
them. -/

section
variable {T : Type} [Add T] [Sub T] [Mul T] [Neg T] [Zero T] [FftNum T]

theorem C44_bigScratch_accepts (n a b : ℕ) : Accepts (bigScratchAlgorithm T n a b) := by
  refine ⟨fun buf s _ _ h => ⟨buf, s, ?_, rfl, rfl⟩, fun i o s _ _ _ h => ⟨i, o, s, ?_, rfl, rfl, rfl⟩⟩
  · have h : a ≤ s.length := h
    simp [bigScratchAlgorithm, h]
  · have h : b ≤ s.length := h
    simp [bigScratchAlgorithm, h]

theorem C44_noop_accepts (n : ℕ) : Accepts (noop T n) :=
  ⟨fun buf s _ _ _ => ⟨buf, s, rfl, rfl, rfl⟩, fun i o s _ _ _ _ => ⟨i, o, s, rfl, rfl, rfl, rfl⟩⟩

/-- The scratch test of `MixedRadix`, for every pair of inner objects: no call with the reported scratch trips the
assertion of an inner object. -/
theorem C44_mixedRadix_bigScratch (n a b n' a' b' : ℕ) :
    Accepts (mixedRadix (bigScratchAlgorithm T n a b) (bigScratchAlgorithm T n' a' b')) :=
  mixedRadix_accepts (C44_bigScratch_accepts n a b) (C44_bigScratch_accepts n' a' b')

/-- The same for `RadersAlgorithm`, which the crate does not test: every inner object whose length is one less than an odd
prime. -/
theorem C44_raders_bigScratch (p a b : ℕ) (hp : p.Prime) (h2 : p ≠ 2) (h32 : p < 2 ^ 32) :
    ∃ d, raders (bigScratchAlgorithm T (p - 1) a b) = .ok d ∧ d.len = p ∧ Accepts d := by
  have h1 := hp.two_le
  have hl : (bigScratchAlgorithm T (p - 1) a b).len + 1 = p := by show p - 1 + 1 = p; omega
  obtain ⟨d, e, hd, ha, _⟩ := C20_raders_scratch (bigScratchAlgorithm T (p - 1) a b) (C44_bigScratch_accepts _ a b)
    (by rw [hl]; exact hp) (by omega) (by omega)
  exact ⟨d, e, by omega, ha⟩

/-- The no-op benchmarks of `MixedRadix` and `MixedRadix4xn` do not panic; nor would one of `SplitRadix`. -/
theorem C44_noop_benches (w h : ℕ) :
    Accepts (mixedRadix (noop T w) (noop T h)) ∧ Accepts (mixedRadix4xn (noop T h)) ∧
    ∃ d, splitRadix (noop T h) (noop T (2 * h)) = .ok d ∧ d.len = 4 * h ∧ Accepts d := by
  refine ⟨mixedRadix_accepts (C44_noop_accepts w) (C44_noop_accepts h), ?_, ?_⟩
  · rw [mixedRadix4xn_eq]
    exact mrn_accepts (by omega) (C44_noop_accepts h) (fun _ => by show h ≤ 4 * h; omega) (fun _ => rfl) mr4Apply_total
  · obtain ⟨d, e⟩ := splitRadix_new (qd := noop T h) (hd := noop T (2 * h)) rfl
    exact ⟨d, e, splitRadix_len e, splitRadix_accepts (C44_noop_accepts h) (C44_noop_accepts (2 * h)) e
      fun _ => ⟨rfl, by show h ≤ 4 * h; omega, by show 2 * h ≤ 2 * h; omega⟩⟩

example : ∃ r, (mixedRadix (bigScratchAlgorithm ℝ 5 40 0) (bigScratchAlgorithm ℝ 4 3 17)).processWithScratch
    (List.replicate 20 1) (List.replicate
      (mixedRadix (bigScratchAlgorithm ℝ 5 40 0) (bigScratchAlgorithm ℝ 4 3 17)).inplaceScratchLen 7) = .ok r :=
  (C44_mixedRadix_bigScratch 5 40 0 4 3 17).scratchSuffices.inplace _ _ (by simp [mixedRadix, boilerplateDht, bigScratchAlgorithm])
    (by simp [mixedRadix, boilerplateDht, bigScratchAlgorithm]) (by simp)

/-! ## C45: the factories of the benchmarks -/

/-- For powers of the radix the factories return a composition of that length. -/
theorem C45_factories_exact (k : ℕ) (hk : 1 ≤ k) :
    (∃ d, make4xnRadix4 ℝ (2 ^ k) = .ok d ∧ d.len = 2 ^ k ∧ ComputesDht d) ∧
    (∃ d, make3xnRadix3 ℝ (3 ^ k) = .ok d ∧ d.len = 3 ^ k ∧ ComputesDht d) ∧
    (∃ d, make5xnRadix5 ℝ (5 ^ k) = .ok d ∧ d.len = 5 ^ k ∧ ComputesDht d) ∧
    (∃ d, make6xnRadix6 ℝ (6 ^ k) = .ok d ∧ d.len = 6 ^ k ∧ ComputesDht d) := by
  have key : ∀ d : Dht ℝ, Planned d → ComputesDht d := fun d ⟨p, e, s⟩ => (C12_plan_dht p s d e).1
  refine ⟨?_, ?_, ?_, ?_⟩
  · obtain ⟨d, e, l⟩ := make4_new (T := ℝ) k hk
    exact ⟨d, e, l, key d (make4_sound _ d e).1⟩
  · obtain ⟨d, e, l⟩ := make3_new (T := ℝ) k hk
    exact ⟨d, e, l, key d (make3_sound _ d e).1⟩
  · obtain ⟨d, e, l⟩ := make5_new (T := ℝ) k hk
    exact ⟨d, e, l, key d (make5_sound _ d e).1⟩
  · obtain ⟨d, e, l⟩ := make6_new (T := ℝ) k hk
    exact ⟨d, e, l, key d (make6_sound _ d e).1⟩

/-- For any other length they panic, or return a working transform of another length: a smaller power of the radix. -/
theorem C45_factories_other (n : ℕ) (d : Dht ℝ) :
    (make4xnRadix4 ℝ n = .ok d → ComputesDht d ∧ d.len ≤ n ∧ ∃ k, 1 ≤ k ∧ d.len = 2 ^ k) ∧
    (make3xnRadix3 ℝ n = .ok d → ComputesDht d ∧ d.len ≤ n ∧ ∃ k, 1 ≤ k ∧ d.len = 3 ^ k) ∧
    (make5xnRadix5 ℝ n = .ok d → ComputesDht d ∧ d.len ≤ n ∧ ∃ k, 1 ≤ k ∧ d.len = 5 ^ k) ∧
    (make6xnRadix6 ℝ n = .ok d → ComputesDht d ∧ d.len ≤ n ∧ ∃ k, 1 ≤ k ∧ d.len = 6 ^ k) := by
  have key : ∀ d : Dht ℝ, Planned d → ComputesDht d := fun d ⟨p, e, s⟩ => (C12_plan_dht p s d e).1
  refine ⟨fun h => ?_, fun h => ?_, fun h => ?_, fun h => ?_⟩
  · exact (make4_sound n d h).imp (key d) id
  · exact (make3_sound n d h).imp (key d) id
  · exact (make5_sound n d h).imp (key d) id
  · exact (make6_sound n d h).imp (key d) id

/-- `make_splitradix` uses only the exponent of 2 in the length it is given, and never returns less than length 16: for the
lengths 2, 4 and 8 the object returned has length 16. -/
theorem C45_makeSplitradix (k m : ℕ) :
    ∃ d, makeSplitradix ℝ (2 ^ k * (2 * m + 1)) = .ok d ∧ d.len = 2 ^ max 4 k ∧ ComputesDht d := by
  obtain ⟨d, e, ⟨p, ep, s⟩, l⟩ := makeSplitradix_ok (T := ℝ) k m
  exact ⟨d, e, l, (C12_plan_dht p s d ep).1⟩

/-- The assertion of `bench_splitradix`, `dht.len() == len`, holds exactly for the powers of two from 16 on. -/
theorem C45_splitradix_bench_assertion (n : ℕ) (hn : 0 < n) :
    (∃ d, makeSplitradix ℝ n = .ok d ∧ d.len = n) ↔ ∃ k, 4 ≤ k ∧ n = 2 ^ k := by
  obtain ⟨k, m, hm, rfl⟩ := Nat.exists_eq_two_pow_mul_odd hn.ne'
  obtain ⟨m, rfl⟩ := hm
  obtain ⟨d, e, l, _⟩ := C45_makeSplitradix k m
  constructor
  · rintro ⟨d', e', l'⟩
    rw [e] at e'
    cases e'
    exact ⟨max 4 k, le_max_left _ _, by rw [← l', l]⟩
  · rintro ⟨j, hj, h⟩
    have : k = j := by
      have h1 := trailingZeros_odd k m
      rw [h, trailingZeros_two_pow] at h1
      exact h1.symm
    subst this
    exact ⟨d, e, by rw [l, h, max_eq_right hj]⟩

example : (∃ d, makeSplitradix ℝ 8 = .ok d ∧ d.len = 16) ∧ (∃ d, makeSplitradix ℝ 65536 = .ok d ∧ d.len = 65536) := by
  obtain ⟨d, e, l, _⟩ := C45_makeSplitradix 3 0
  obtain ⟨d', e', l', _⟩ := C45_makeSplitradix 16 0
  exact ⟨⟨d, e, l⟩, d', e', l'⟩

/-- `make_4xn_radix4(24)` recurses to `make_4xn_radix4(1)`, which panics; `make_5xn_radix5(27)` silently has length 25. -/
example : make4xnRadix4 ℝ 24 = .error (.panic .assertFailed) := by
  rw [make4xnRadix4, dif_neg (by omega), if_neg (by omega), if_neg (by omega), if_neg (by omega), if_neg (by omega),
    make4xnRadix4, dif_neg (by omega), if_neg (by omega), if_neg (by omega), if_neg (by omega), if_neg (by omega),
    make4xnRadix4, dif_pos (by omega)]
  rfl

example : ∃ d, make5xnRadix5 ℝ 27 = .ok d ∧ d.len = 25 := by
  refine ⟨mixedRadix5xn (butterfly5 ℝ), ?_, rfl⟩
  rw [make5xnRadix5, dif_neg (by omega), if_neg (by omega), make5xnRadix5, dif_neg (by omega), if_pos (by omega)]
  rfl

end

end RustDHT
