import Verif.Proofs.Tables

/-! # C88: how much memory the tables take -/

set_option linter.unusedSectionVars false

namespace RustDHT

variable {T : Type} [Zero T] [Add T] [Sub T] [Mul T] [Neg T] [FftNum T]

/-- The number of entries of each table, for all lengths.  Next to it the capacity that the constructor asks for
(`Vec::with_capacity`, mixed_radix.rs:54, radix2.rs:30, radix3.rs:34, radix4.rs:30, radix5.rs:34, radix6.rs:33, radix4.rs:223,
split_radix.rs:30): it always suffices, so no table is ever moved while it grows. -/
theorem C88_capacities (w h n s : ℕ) :
    (naiveTwiddles T n).length = n ∧
      ((mrTwiddles T w h).length = w / 2 * (h / 2) ∧ (mrTwiddles T w h).length ≤ (w / 2 + 1) * (h / 2 + 1)) ∧
      ((mr2Twiddles T h).length = h / 2 ∧ (mr2Twiddles T h).length ≤ h / 2 + 1 - 1) ∧
      ((mr3Twiddles T h).length = h / 2 ∧ (mr3Twiddles T h).length ≤ (h / 2 + 1 - 1) * 2) ∧
      ((mr4Twiddles T h).length = 2 * (h / 2) ∧ (mr4Twiddles T h).length ≤ (h / 2 + 1) * 2) ∧
      ((mr5Twiddles T h).length = 2 * (h / 2) ∧ (mr5Twiddles T h).length ≤ (h / 2 + 1 - 1) * 2) ∧
      ((mr6Twiddles T h).length = 3 * (h / 2) ∧ (mr6Twiddles T h).length ≤ 3 * (h / 2 + 1 - 1)) ∧
      ((srTwiddles T n).length = 2 * (n / 8 + 1) ∧ (srTwiddles T n).length ≤ (n / 8 + 1) * 2) ∧
      (3 * (radix4Twiddles T n s).length ≤ 2 * n ∧ (radix4Twiddles T n s).length ≤ n) := by
  have h4 := length_radix4Twiddles (T := T) n s
  refine ⟨length_naiveTwiddles n, ⟨length_mrTwiddles w h, ?_⟩, ⟨length_mr2Twiddles h, ?_⟩, ⟨length_mr3Twiddles h, ?_⟩,
    ⟨length_mr4Twiddles h, ?_⟩, ⟨length_mr5Twiddles h, ?_⟩, ⟨length_mr6Twiddles h, ?_⟩, ⟨length_srTwiddles n, ?_⟩, h4, by omega⟩
  · rw [length_mrTwiddles]; exact Nat.mul_le_mul (by omega) (by omega)
  · rw [length_mr2Twiddles]; omega
  · rw [length_mr3Twiddles]; omega
  · rw [length_mr4Twiddles]; omega
  · rw [length_mr5Twiddles]; omega
  · rw [length_mr6Twiddles]; omega
  · rw [length_srTwiddles]; omega

/-- The table of `RadersAlgorithm`, made from the transformed kernel. -/
theorem C88_raders (x : List T) (h : 2 ≤ x.length) : ∃ tw, radersTwiddles x = .ok tw ∧ tw.length = x.length / 2 + 1 :=
  ⟨_, radersTwiddles_ok rfl h, by simp⟩

/-- **The tables are linear in the length.**  However deep the nesting, the tables of an object of length `n`, of its inner objects, of
their inner objects and so on hold fewer than `5 n` numbers together, and fewer than `4 n` if `n` is even; no object may be shorter
than 2. -/
theorem C88_linear (p : Plan) (d : Dht T) (hb : p.build T = .ok d) (h : p.AtLeastTwo) :
    p.memory T < 5 * d.len ∧ (d.len % 2 = 0 → p.memory T < 4 * d.len) := by
  have h1 := memory_le p hb h
  have h2 := atLeastTwo_len h
  rw [plan_len p d hb]
  omega

/-- Objects of length 1 have tables too, but add nothing to the length: with them there is no bound. -/
theorem C88_short_objects (k : ℕ) : ∃ p : Plan, (∃ d, p.build T = .ok d ∧ d.len = 1) ∧ k ≤ p.memory T := by
  induction k with
  | zero => exact ⟨.naive 1, ⟨_, rfl, dhtNaive_len 1⟩, Nat.zero_le _⟩
  | succ k ih =>
    obtain ⟨p, ⟨d, hb, hl⟩, hk⟩ := ih
    refine ⟨.mixedRadix (.naive 1) p, ⟨mixedRadix (dhtNaive T 1) d, ?_, ?_⟩, ?_⟩
    · show (do
        let w ← Plan.build T (.naive 1)
        let h ← p.build T
        .ok (RustDHT.mixedRadix w h) : Res (Dht T)) = _
      rw [hb]; rfl
    · show (dhtNaive T 1).len * d.len = 1
      rw [dhtNaive_len, hl]
    · simp only [Plan.memory, length_naiveTwiddles]
      omega

/-- A nesting of every kind of constructor meets the hypotheses. -/
example : (Plan.mr3 (.mixedRadix (.raders (.mr2 (.naive 3))) (.splitRadix .b2 .b4))).AtLeastTwo := by
  simp [Plan.AtLeastTwo]

example : (Plan.mr3 (.mixedRadix .b5 (.mr2 (.naive 7)))).memory T < 5 * 210 ∧ (210 % 2 = 0 →
    (Plan.mr3 (.mixedRadix .b5 (.mr2 (.naive 7)))).memory T < 4 * 210) := by
  have h := C88_linear (T := T) (.mr3 (.mixedRadix .b5 (.mr2 (.naive 7)))) _ rfl (by simp [Plan.AtLeastTwo])
  rwa [plan_len (.mr3 (.mixedRadix .b5 (.mr2 (.naive 7)))) _ rfl] at h

/-- 8 numbers for `RadersAlgorithm`, 2 for `MixedRadix2xn`, 3 for `DhtNaive`. -/
example : (Plan.raders (.mr2 (.naive 3))).memory T = 13 ∧ (Plan.raders (.mr2 (.naive 3))).expectedLen = 7 := by
  simp [Plan.memory, Plan.expectedLen, length_naiveTwiddles, length_mr2Twiddles]

end RustDHT
