import Verif.Proofs.BenchRun
import Mathlib.Tactic.NormNum.Prime

/-! # C58: the benchmarks run to the end

`T` is any number type, with any arithmetic; the number of runs of the timed closure is arbitrary. -/

set_option linter.unusedSectionVars false

namespace RustDHT

variable (T : Type) [Zero T] [Add T] [Sub T] [Mul T] [Neg T] [FftNum T]

/-- A benchmark function returns exactly for the arguments it is meant for, however often the closure runs, and the buffer has
the length that it should have. -/
theorem C58_bench_returns_iff (b : Bench) (iters : ℕ) :
    ((∃ r, b.run T iters = .ok r) ↔ b.Suitable) ∧
    ∀ buffer scratch, b.run T iters = .ok (buffer, scratch) → b.bufferLen buffer.length := by
  have given : ∀ {d : Dht T} (_ : Accepts d) {P : ℕ → Prop} (_ : P d.len),
      ((∃ r, benchProcess d iters = .ok r) ↔ True) ∧
      ∀ buffer scratch, benchProcess d iters = .ok (buffer, scratch) → P buffer.length := by
    intro d hd P hP
    obtain ⟨b, s, e, l⟩ := benchProcess_ok hd iters
    refine ⟨⟨fun _ => trivial, fun _ => ⟨_, e⟩⟩, fun b' s' e' => ?_⟩
    rw [e] at e'
    cases e'
    rwa [l]
  have leaf : ∀ {d : Dht T} (_ : Planned d) (_ : d.inplaceScratchLen = 0) {P : ℕ → Prop} (_ : P (d.len * 100)),
      ((∃ r, benchLoop d iters (List.replicate (d.len * 100) 0) [] = .ok r) ↔ True) ∧
      ∀ buffer scratch, benchLoop d iters (List.replicate (d.len * 100) 0) [] = .ok (buffer, scratch) → P buffer.length := by
    intro d hd h0 P hP
    obtain ⟨b, s, e, l⟩ := benchLoop_ok hd.accepts iters (List.replicate (d.len * 100) 0) [] (by simp; omega) (by simp)
      (by simp [h0])
    refine ⟨⟨fun _ => trivial, fun _ => ⟨_, e⟩⟩, fun b' s' e' => ?_⟩
    rw [e] at e'
    cases e'
    rw [l, List.length_replicate]
    exact hP
  cases b with
  | mixedRadixNoop w h =>
    exact given (C44_noop_benches w h).1 (P := fun l => l = w * h) rfl
  | mr4Noop h =>
    exact given (C44_noop_benches h h).2.1 (P := fun l => l = 4 * h) rfl
  | mr4 n =>
    show ((∃ r, bench4xnRadix4 T n iters = .ok r) ↔ _) ∧ ∀ buffer scratch, bench4xnRadix4 T n iters = .ok _ → _
    unfold bench4xnRadix4
    rw [← make4_iff (T := T)]
    rcases e : make4xnRadix4 T n with er | d
    · exact ⟨⟨fun ⟨_, h⟩ => (nomatch h), fun ⟨_, h⟩ => nomatch h⟩, fun _ _ h => nomatch h⟩
    · obtain ⟨hp, hle, hk⟩ := make4_sound n d e
      obtain ⟨h1, h2⟩ := given hp.accepts (P := (Bench.mr4 n).bufferLen) ⟨hle, make4_len n d e, hk⟩
      exact ⟨⟨fun _ => ⟨d, rfl⟩, fun _ => h1.2 trivial⟩, h2⟩
  | radix4 n =>
    show ((∃ r, benchDirectRadix4 T n iters = .ok r) ↔ ∃ k, n = 2 ^ k) ∧
      ∀ buffer scratch, benchDirectRadix4 T n iters = .ok _ → _
    unfold benchDirectRadix4
    rw [← (C25_radix4_new (T := T) n).1]
    rcases e : radix4 T n with er | d
    · exact ⟨⟨fun ⟨_, h⟩ => (nomatch h), fun ⟨_, h⟩ => nomatch h⟩, fun _ _ h => nomatch h⟩
    · obtain ⟨f, hf⟩ := (plan_ok (.radix4 n) d e).implements
      obtain ⟨h1, h2⟩ := given hf.accepts (P := (Bench.radix4 n).bufferLen) (C24_reported_lengths (.radix4 n) d e).1
      exact ⟨⟨fun _ => ⟨d, rfl⟩, fun _ => h1.2 trivial⟩, h2⟩
  | splitRadix n =>
    obtain ⟨d, e, hp, hl⟩ := makeSplitradix_any (T := T) n
    refine checked_ok (mk := makeSplitradix T n) (fun d' e' => ?_) ⟨fun ⟨d', e', l'⟩ => ?_, fun h => ⟨d, e, hl.2 h⟩⟩
    · rw [e] at e'; cases e'; exact hp
    · rw [e] at e'; cases e'; exact hl.1 l'
  | mr3 n =>
    refine checked_ok (mk := make3xnRadix3 T n) (fun d e => (make3_sound n d e).1) ⟨fun ⟨d, e, l⟩ => ?_, ?_⟩
    · obtain ⟨k, hk, h⟩ := (make3_sound n d e).2.2
      exact ⟨k, hk, by omega⟩
    · rintro ⟨k, hk, rfl⟩
      exact make3_new k hk
  | mr5 n =>
    refine checked_ok (mk := make5xnRadix5 T n) (fun d e => (make5_sound n d e).1) ⟨fun ⟨d, e, l⟩ => ?_, ?_⟩
    · obtain ⟨k, hk, h⟩ := (make5_sound n d e).2.2
      exact ⟨k, hk, by omega⟩
    · rintro ⟨k, hk, rfl⟩
      exact make5_new k hk
  | mr6 n =>
    refine checked_ok (mk := make6xnRadix6 T n) (fun d e => (make6_sound n d e).1) ⟨fun ⟨d, e, l⟩ => ?_, ?_⟩
    · obtain ⟨k, hk, h⟩ := (make6_sound n d e).2.2
      exact ⟨k, hk, by omega⟩
    · rintro ⟨k, hk, rfl⟩
      exact make6_new k hk
  | radersNoop n =>
    show ((∃ r, benchRadersNoop T n iters = .ok r) ↔ n.Prime ∧ n ≠ 2 ∧ n < 2 ^ 32) ∧
      ∀ buffer scratch, benchRadersNoop T n iters = .ok _ → _
    unfold benchRadersNoop
    rcases Nat.eq_zero_or_pos n with rfl | hn
    · exact ⟨⟨fun ⟨_, h⟩ => (nomatch h), fun h => absurd h.1 (by norm_num)⟩, fun _ _ h => nomatch h⟩
    rw [bne_iff_ne.2 hn.ne', assert_true, ok_bind]
    have hl : (noop T (n - 1)).len + 1 = n := by show n - 1 + 1 = n; omega
    rcases e : raders (noop T (n - 1)) with er | d
    · refine ⟨⟨fun ⟨_, h⟩ => (nomatch h), fun ⟨h1, h2, h3⟩ => ?_⟩, fun _ _ h => nomatch h⟩
      obtain ⟨d, e', _⟩ := C20_raders_scratch (noop T (n - 1)) (C44_noop_accepts _) (by rwa [hl]) (by omega) (by omega)
      rw [e] at e'
      cases e'
    · have ho := raders_new_only e
      rw [hl] at ho
      obtain ⟨d', e', l', _⟩ := C20_raders_scratch (noop T (n - 1)) (C44_noop_accepts _) (by rw [hl]; exact ho.1) (by omega) (by omega)
      rw [e] at e'
      cases e'
      obtain ⟨h1, h2⟩ := given (C20_raders_scratch_of_new _ _ (C44_noop_accepts _) e).1 (P := (Bench.radersNoop n).bufferLen)
        (show d.len = n by omega)
      exact ⟨⟨fun _ => ⟨ho.1, ho.2.1, by omega⟩, fun _ => h1.2 trivial⟩, h2⟩
  | radersPower2 n =>
    show ((∃ r, benchRadersPower2 T n iters = .ok r) ↔ n.Prime ∧ n < 2 ^ 32 ∧ ∃ k, 1 ≤ k ∧ n = 2 ^ k + 1) ∧
      ∀ buffer scratch, benchRadersPower2 T n iters = .ok _ → _
    unfold benchRadersPower2
    rcases Nat.eq_zero_or_pos n with rfl | hn
    · exact ⟨⟨fun ⟨_, h⟩ => (nomatch h), fun h => absurd h.1 (by norm_num)⟩, fun _ _ h => nomatch h⟩
    rw [bne_iff_ne.2 hn.ne', assert_true, ok_bind]
    rcases ei : radix4 T (n - 1) with er | i
    · refine ⟨⟨fun ⟨_, h⟩ => (nomatch h), fun ⟨_, _, k, hk, h⟩ => ?_⟩, fun _ _ h => nomatch h⟩
      obtain ⟨i, e'⟩ := (C25_radix4_new (T := T) (n - 1)).1.2 ⟨k, by omega⟩
      rw [ei] at e'
      cases e'
    have hi : i.len = n - 1 := (C24_reported_lengths (.radix4 (n - 1)) i ei).1
    obtain ⟨f, hf⟩ := (plan_ok (.radix4 (n - 1)) i ei).implements
    have hl : i.len + 1 = n := by omega
    rw [ok_bind]
    rcases e : raders i with er | d
    · refine ⟨⟨fun ⟨_, h⟩ => (nomatch h), fun ⟨h1, h2, k, hk, h3⟩ => ?_⟩, fun _ _ h => nomatch h⟩
      have h2k := Nat.pow_le_pow_right (n := 2) (by omega) hk
      obtain ⟨d, e', _⟩ := C20_raders_scratch i hf.accepts (by rwa [hl]) (by omega) (by omega)
      rw [e] at e'
      cases e'
    · have ho := raders_new_only e
      rw [hl] at ho
      obtain ⟨d', e', l', _⟩ := C20_raders_scratch i hf.accepts (by rw [hl]; exact ho.1) (by omega) (by omega)
      rw [e] at e'
      cases e'
      obtain ⟨h1, h2⟩ := given (C20_raders_scratch_of_new _ _ hf.accepts e).1 (P := (Bench.radersPower2 n).bufferLen)
        (show d.len = n by omega)
      refine ⟨⟨fun _ => ⟨ho.1, by omega, ?_⟩, fun _ => h1.2 trivial⟩, h2⟩
      obtain ⟨k, hk⟩ := (C25_radix4_new (T := T) (n - 1)).1.1 ⟨i, ei⟩
      refine ⟨k, ?_, by omega⟩
      rcases Nat.eq_zero_or_pos k with rfl | h
      · exact absurd ho.2.1 (by rw [pow_zero] at hk; omega)
      · exact h
  | butterfly3 => exact leaf ⟨.b3, rfl, trivial⟩ rfl (P := fun l => l = 300) rfl
  | butterfly6 => exact leaf ⟨.b6, rfl, trivial⟩ rfl (P := fun l => l = 600) rfl

/-- Every function marked `#[bench]` returns, however often its closure runs. -/
theorem C58_all_benches_return (b : Bench) (hb : b ∈ benchList) (iters : ℕ) : ∃ r, b.run T iters = .ok r := by
  refine (C58_bench_returns_iff T b iters).1.2 ?_
  have pow2 : ∀ k, (Bench.radix4 (2 ^ k)).Suitable := fun k => ⟨k, rfl⟩
  have pow4 : ∀ k, (Bench.mr4 (2 * 4 ^ k)).Suitable ∧ (Bench.mr4 (4 * 4 ^ k)).Suitable := fun k => by
    have := Nat.pow_pos (n := k) (show 0 < 4 by omega)
    exact ⟨⟨k, .inl (by omega)⟩, ⟨k, .inr (by omega)⟩⟩
  have powS : ∀ k, (Bench.splitRadix (2 ^ (k + 4))).Suitable := fun k => ⟨k + 4, by omega, rfl⟩
  have pow3 : ∀ k, (Bench.mr3 (3 ^ (k + 1))).Suitable := fun k => ⟨k + 1, by omega, rfl⟩
  have pow5 : ∀ k, (Bench.mr5 (5 ^ (k + 1))).Suitable := fun k => ⟨k + 1, by omega, rfl⟩
  have pow6 : ∀ k, (Bench.mr6 (6 ^ (k + 1))).Suitable := fun k => ⟨k + 1, by omega, rfl⟩
  have rad : ∀ p, p.Prime → p ≠ 2 → p < 2 ^ 32 → (Bench.radersNoop p).Suitable := fun p h1 h2 h3 => ⟨h1, h2, h3⟩
  have rad2 : ∀ k, (2 ^ (k + 1) + 1).Prime → 2 ^ (k + 1) + 1 < 2 ^ 32 → (Bench.radersPower2 (2 ^ (k + 1) + 1)).Suitable :=
    fun k h1 h2 => ⟨h1, h2, k + 1, by omega, rfl⟩
  simp only [benchList, List.mem_cons, List.not_mem_nil, or_false] at hb
  rcases hb with h | h | h | h | h | h | h | h | h | h | h | h | h | h | h | h | h | h | h | h | h | h | h | h | h | h | h | hb
  all_goals first | (subst h; exact trivial) | skip
  rcases hb with rfl | rfl | rfl | rfl | rfl | rfl | rfl | rfl | rfl | rfl | rfl | rfl | hb
  · exact (pow4 1).2
  · exact (pow4 2).1
  · exact (pow4 2).2
  · exact (pow4 3).1
  · exact (pow4 3).2
  · exact (pow4 4).1
  · exact (pow4 4).2
  · exact (pow4 5).1
  · exact (pow4 6).2
  · exact (pow4 7).1
  · exact (pow4 7).2
  · exact (pow4 9).2
  rcases hb with rfl | rfl | rfl | rfl | rfl | rfl | rfl | rfl | rfl | rfl | rfl | rfl | hb
  · exact pow2 4
  · exact pow2 5
  · exact pow2 6
  · exact pow2 7
  · exact pow2 8
  · exact pow2 9
  · exact pow2 10
  · exact pow2 11
  · exact pow2 14
  · exact pow2 15
  · exact pow2 16
  · exact pow2 20
  rcases hb with rfl | rfl | rfl | rfl | rfl | rfl | rfl | rfl | rfl | rfl | rfl | hb
  · exact powS 0
  · exact powS 1
  · exact powS 2
  · exact powS 3
  · exact powS 4
  · exact powS 5
  · exact powS 6
  · exact powS 7
  · exact powS 10
  · exact powS 11
  · exact powS 12
  rcases hb with rfl | rfl | rfl | rfl | rfl | rfl | rfl | rfl | rfl | hb
  · exact pow3 0
  · exact pow3 1
  · exact pow3 2
  · exact pow3 3
  · exact pow3 4
  · exact pow3 6
  · exact pow3 7
  · exact pow3 8
  · exact pow3 9
  rcases hb with rfl | rfl | rfl | rfl | rfl | rfl | rfl | hb
  · exact pow5 0
  · exact pow5 1
  · exact pow5 2
  · exact pow5 3
  · exact pow5 4
  · exact pow5 5
  · exact pow5 6
  rcases hb with rfl | rfl | rfl | rfl | rfl | rfl | hb
  · exact pow6 0
  · exact pow6 1
  · exact pow6 2
  · exact pow6 3
  · exact pow6 4
  · exact pow6 5
  rcases hb with rfl | rfl | rfl | rfl | rfl | rfl | rfl | hb
  · exact rad _ (by norm_num) (by norm_num) (by norm_num)
  · exact rad _ (by norm_num) (by norm_num) (by norm_num)
  · exact rad _ (by norm_num) (by norm_num) (by norm_num)
  · exact rad _ (by norm_num) (by norm_num) (by norm_num)
  · exact rad _ (by norm_num) (by norm_num) (by norm_num)
  · exact rad _ (by norm_num) (by norm_num) (by norm_num)
  · exact rad _ (by norm_num) (by norm_num) (by norm_num)
  rcases hb with rfl | rfl | rfl | hb
  · exact rad2 3 (by norm_num) (by norm_num)
  · exact rad2 7 (by norm_num) (by norm_num)
  · exact rad2 15 (by norm_num) (by norm_num)
  rcases hb with rfl | rfl
  · trivial
  · trivial

/-- What is timed is the transform of zeros: where zero behaves as one expects, every run of the closure starts with a buffer of
zeros and leaves one. -/
theorem C58_benches_work_on_zeros (h : ZeroLaws T) (b : Bench) (iters : ℕ) (buffer scratch : List T)
    (e : b.run T iters = .ok (buffer, scratch)) : ∀ v ∈ buffer, v = 0 := by
  have R := zeroLaws_respects h
  have leaf : ∀ {d : Dht T} (_ : Planned d), benchLoop d iters (List.replicate (d.len * 100) 0) [] = .ok (buffer, scratch) →
      ∀ v ∈ buffer, v = 0 := fun hd e =>
    benchLoop_zero (hd.keepsZero h) iters _ _ buffer scratch (LR.replicate (R := fun a _ : T => a = 0) rfl _) .nil e
  have checked : ∀ {mk : Res (Dht T)} {n : ℕ}, (∀ d, mk = .ok d → Planned d) → (do
        let dht ← mk
        assert (dht.len == n) .assertFailed
        benchProcess dht iters) = .ok (buffer, scratch) → ∀ v ∈ buffer, v = 0 := by
    intro mk n hs e
    obtain ⟨d, ed, e⟩ := bind_eq_ok e
    obtain ⟨_, _, e⟩ := bind_eq_ok e
    exact benchProcess_zero ((hs d ed).keepsZero h) iters e
  cases b with
  | mixedRadixNoop w n => exact benchProcess_zero (mixedRadix_rel R (noop_rel _ w) (noop_rel _ n)) iters e
  | mr4Noop n => exact benchProcess_zero (mixedRadix4xn_rel R (noop_rel _ n)) iters e
  | mr4 n =>
    obtain ⟨d, ed, e⟩ := bind_eq_ok e
    exact benchProcess_zero ((make4_sound n d ed).1.keepsZero h) iters e
  | radix4 n =>
    obtain ⟨d, ed, e⟩ := bind_eq_ok e
    have hr := radix4_rel R n
    rw [ed] at hr
    cases hr with
    | ok hr => exact benchProcess_zero hr iters e
  | splitRadix n =>
    refine checked (mk := makeSplitradix T n) (fun d ed => ?_) e
    obtain ⟨d', e', hp, -⟩ := makeSplitradix_any (T := T) n
    rw [e'] at ed
    cases ed
    exact hp
  | mr3 n => exact checked (mk := make3xnRadix3 T n) (fun d ed => (make3_sound n d ed).1) e
  | mr5 n => exact checked (mk := make5xnRadix5 T n) (fun d ed => (make5_sound n d ed).1) e
  | mr6 n => exact checked (mk := make6xnRadix6 T n) (fun d ed => (make6_sound n d ed).1) e
  | radersNoop n =>
    obtain ⟨_, _, e⟩ := bind_eq_ok e
    obtain ⟨d, ed, e⟩ := bind_eq_ok e
    have hr := raders_rel R (noop_rel (T := T) _ (n - 1)) (noop_rel _ (n - 1))
    rw [ed] at hr
    cases hr with
    | ok hr => exact benchProcess_zero hr iters e
  | radersPower2 n =>
    obtain ⟨_, _, e⟩ := bind_eq_ok e
    obtain ⟨i, ei, e⟩ := bind_eq_ok e
    obtain ⟨d, ed, e⟩ := bind_eq_ok e
    have hr := plan_rel (.raders (.radix4 (n - 1))) R
    have hb : (Plan.raders (.radix4 (n - 1))).build T = .ok d := by
      show (radix4 T (n - 1) >>= raders) = _
      rw [ei, ok_bind, ed]
    rw [hb] at hr
    cases hr with
    | ok hr => exact benchProcess_zero hr iters e
  | butterfly3 => exact leaf ⟨.b3, rfl, trivial⟩ e
  | butterfly6 => exact leaf ⟨.b6, rfl, trivial⟩ e

/-- `bench_4xn_radix4(17)` runs, on a buffer of 16 numbers; `bench_raders_noop(2)` and `bench_3xn_radix3(10)` do not. -/
example : (∃ b s, (Bench.mr4 17).run T 5 = .ok (b, s) ∧ b.length = 16) ∧ (¬ ∃ r, (Bench.radersNoop 2).run T 5 = .ok r) ∧
    ¬ ∃ r, (Bench.mr3 10).run T 5 = .ok r := by
  refine ⟨?_, ?_, ?_⟩
  · obtain ⟨⟨b, s⟩, e⟩ := (C58_bench_returns_iff T (.mr4 17) 5).1.2 ⟨1, by omega⟩
    obtain ⟨h1, h2, k, hk, hl⟩ := (C58_bench_returns_iff T (.mr4 17) 5).2 b s e
    refine ⟨b, s, e, ?_⟩
    rcases Nat.lt_or_ge k 5 with h | h
    · interval_cases k <;> omega
    · have := Nat.pow_le_pow_right (n := 2) (by omega) h
      omega
  · rw [(C58_bench_returns_iff T _ 5).1]
    exact fun h => h.2.1 rfl
  · rw [(C58_bench_returns_iff T _ 5).1]
    rintro ⟨k, _, h⟩
    rcases Nat.lt_or_ge k 3 with hk | hk
    · interval_cases k <;> omega
    · have := Nat.pow_le_pow_right (n := 3) (by omega) hk
      omega

/-- The laws about zero hold in the saturating integers, which have hardly any others. -/
example : ZeroLaws Sat where
  add := rfl
  sub := rfl
  neg := rfl
  mul_zero := fun c => by show Sat.clamp (c.val * 0) = _; rw [Int.mul_zero]; rfl
  zero_mul := fun c => by show Sat.clamp (0 * c.val) = _; rw [Int.zero_mul]; rfl

example : ZeroLaws ℝ := ⟨add_zero 0, sub_zero 0, neg_zero, mul_zero, zero_mul⟩

example : Bench.radersPower2 257 ∈ benchList := by simp [benchList]

end RustDHT
