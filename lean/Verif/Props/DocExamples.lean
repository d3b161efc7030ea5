import Verif.Model.UnitTests
import Verif.Props.Scaling

/-! # C53: the examples in the documentation

`cargo test` also runs the two examples in the documentation, src/scalar/dht_naive.rs:12-20 and src/scalar/mixed_radix.rs:13-28. -/

namespace RustDHT

/-- The examples return normally, in every arithmetic. -/
theorem C53_doc_examples (T : Type) [Zero T] [Add T] [Sub T] [Mul T] [Neg T] [FftNum T] :
    (∃ y, docNaive T = .ok y ∧ y.length = 123) ∧ ∃ y, docMixedRadix T = .ok y ∧ y.length = 120 := by
  have key : ∀ (p : Plan) (d : Dht T), p.build T = .ok d → 0 < d.len →
      ∃ y, d.process (List.replicate d.len 0) = .ok y ∧ y.length = d.len := by
    intro p d h hpos
    obtain ⟨f, hi⟩ := (plan_ok p d h).implements
    refine ⟨_, hi.process (b := List.replicate d.len 0) (by simp) (by simp), ?_⟩
    rw [mapChunks_single hpos (by simp)]
    exact hi.length _ (by simp)
  constructor
  · have := key (.naive 123) _ rfl (by rw [dhtNaive_len]; decide)
    rwa [dhtNaive_len] at this
  · have e : (mixedRadix (dhtNaive T 10) (dhtNaive T 12)).len = 120 := by
      show (dhtNaive T 10).len * (dhtNaive T 12).len = 120
      simp [dhtNaive_len]
    have := key (.mixedRadix (.naive 10) (.naive 12)) _ rfl (by rw [e]; decide)
    rwa [e] at this

/-- In `f32`, as written in the documentation, they leave zeros in the buffer. -/
theorem C53_doc_examples_f32 [MathLib] (hl : MathLib.Accurate) :
    (∃ y, docNaive (Flt binary32) = .ok y ∧ y.length = 123 ∧ ∀ a ∈ y, a.IsZero) ∧
    ∃ y, docMixedRadix (Flt binary32) = .ok y ∧ y.length = 120 ∧ ∀ a ∈ y, a.IsZero := by
  have hz : (0 : Flt binary32).IsZero := by
    rw [Flt.zero_eq]
    exact ⟨trivial, by show (0 : ℚ) = 0; rfl⟩
  have key : ∀ (p : Plan) (hp : p.RadersExact) (n k : ℕ) (d : Dht (Flt binary32)) (u g : ℕ), p.build (Flt binary32) = .ok d → d.len = n →
      0 < n → n ≤ 2 ^ 10 → p.stability 2 2 = ⟨k, u, g⟩ → k ≤ 2 ^ 24 → u ≤ 2 ^ 20 → g ≤ 2 ^ 20 →
      ∃ y, d.process (List.replicate n 0) = .ok y ∧ y.length = n ∧ ∀ a ∈ y, a.IsZero := by
    intro p hp n k d u g hb hlen h0 h1 hs hk hu hg
    have h := C67_zero_exact (F := binary32) (C48_f32 hl) p hp d hb (List.replicate n 0) (by simp [hlen]) (by omega)
      (fun a ha => by rw [(List.mem_replicate.1 ha).2]; exact hz) _ rfl ?_
    · simpa using h
    · rw [hs, hlen]
      have hn : √(n : ℝ) ≤ 2 ^ 5 := by
        rw [show (2 : ℝ) ^ 5 = √(2 ^ 10) by rw [show (2 : ℝ) ^ 10 = (2 ^ 5) ^ 2 by norm_num, Real.sqrt_sq (by norm_num)]]
        exact Real.sqrt_le_sqrt (by exact_mod_cast h1)
      have h2 : ((1 : ℝ) + 2⁻¹ ^ 24) ^ k ≤ 3 := by
        calc ((1 : ℝ) + 2⁻¹ ^ 24) ^ k ≤ Real.exp (2⁻¹ ^ 24) ^ k := by
              gcongr
              have := Real.add_one_le_exp ((2 : ℝ)⁻¹ ^ 24)
              linarith
          _ = Real.exp (k * 2⁻¹ ^ 24) := (Real.exp_nat_mul _ _).symm
          _ ≤ Real.exp 1 := by
              refine Real.exp_le_exp.2 ?_
              have : (k : ℝ) ≤ 2 ^ 24 := by exact_mod_cast hk
              calc (k : ℝ) * 2⁻¹ ^ 24 ≤ 2 ^ 24 * 2⁻¹ ^ 24 := by gcongr
                _ = 1 := by norm_num
          _ ≤ 3 := by have := Real.exp_one_lt_d9; linarith
      have hu' : (u : ℝ) ≤ 2 ^ 20 := by exact_mod_cast hu
      have hg' : (g : ℝ) ≤ 2 ^ 20 := by exact_mod_cast hg
      have h3 : (1 : ℝ) + u * 2⁻¹ ^ 150 * √n ≤ 2 := by
        have : (u : ℝ) * 2⁻¹ ^ 150 * √n ≤ 2 ^ 20 * 2⁻¹ ^ 150 * 2 ^ 5 := by gcongr
        have h : (2 : ℝ) ^ 20 * 2⁻¹ ^ 150 * 2 ^ 5 ≤ 1 := by norm_num
        linarith
      calc _ ≤ (2 : ℝ) ^ 20 * (2 ^ 5 * (3 * 2)) := by gcongr
        _ ≤ 2 ^ 127 := by norm_num
  exact ⟨key (.naive 123) trivial 123 _ _ _ _ rfl (dhtNaive_len _) (by decide) (by decide) rfl (by decide) (by decide) (by decide),
    key (.mixedRadix (.naive 10) (.naive 12)) ⟨trivial, trivial⟩ 120 _ _ _ _ rfl
      (by show (dhtNaive _ 10).len * (dhtNaive _ 12).len = 120; simp [dhtNaive_len]) (by decide) (by decide) rfl (by decide)
      (by decide) (by decide)⟩

end RustDHT
