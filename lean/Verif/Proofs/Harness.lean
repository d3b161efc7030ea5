import Verif.Proofs.Accepts
import Verif.Proofs.PlanDht
import Verif.Spec.Harness
import Verif.Model.Bench

/-! # Lemmas about the unit-test checker and the benchmark factories -/

set_option linter.unusedSectionVars false

namespace RustDHT

open Finset

/-! ## compare_real_vectors -/

theorem foldl_absError (l : List (ℝ × ℝ)) (e : ℝ) :
    l.foldl (fun error (p : ℝ × ℝ) => error + TestNum.abs (p.1 - p.2)) e = e + (l.map fun p => |p.1 - p.2|).sum := by
  induction l generalizing e with
  | nil => simp
  | cons p l ih => rw [List.foldl_cons, ih, List.map_cons, List.sum_cons, ← add_assoc]; rfl

theorem zip_absError (v w : List ℝ) : ((v.zip w).map fun p => |p.1 - p.2|).sum = absError v w := by
  rw [absError, List.zip, List.map_zipWith]

theorem compare_eq {v w : List ℝ} (h : v.length = w.length) :
    compareRealVectors v w = .ok (TestNum.meanBelow (absError v w) v.length) := by
  unfold compareRealVectors
  rw [beq_iff_eq.2 h, assert_true, ok_bind]
  have := foldl_absError (v.zip w) 0
  rw [zero_add, zip_absError] at this
  exact congrArg (fun e => Except.ok (TestNum.meanBelow e v.length)) this

theorem meanBelow_iff {e : ℝ} {n : ℕ} : TestNum.meanBelow e n = true ↔ n ≠ 0 ∧ e / n < 1 / 10 := by
  simp [TestNum.meanBelow]

theorem absError_self (v : List ℝ) : absError v v = 0 := by
  induction v with
  | nil => rfl
  | cons a v ih => simp only [absError, List.zipWith_cons_cons, List.sum_cons] at *; rw [ih]; simp

theorem compare_self {v : List ℝ} (h : v ≠ []) : compareRealVectors v v = .ok true := by
  rw [compare_eq rfl, absError_self, meanBelow_iff.2]
  exact ⟨by simpa using h, by norm_num⟩

/-- What a passed comparison says. -/
theorem compare_assert {α : Type} {v w : List ℝ} {k : Unit → Res α} {a : α}
    (h : (compareRealVectors v w >>= fun same => assert same .assertFailed >>= k) = .ok a) :
    v.length = w.length ∧ v.length ≠ 0 ∧ absError v w / v.length < 1 / 10 ∧ k () = .ok a := by
  have hl : v.length = w.length := by
    by_contra hc
    unfold compareRealVectors at h
    rw [beq_false_of_ne hc, assert_false] at h
    cases h
  rw [compare_eq hl, ok_bind] at h
  by_cases hm : TestNum.meanBelow (absError v w) v.length = true
  · rw [hm, assert_true, ok_bind] at h
    exact ⟨hl, (meanBelow_iff.1 hm).1, (meanBelow_iff.1 hm).2, h⟩
  · rw [Bool.not_eq_true] at hm
    rw [hm, assert_false] at h
    cases h

/-! ## check_dht_algorithm -/

/-- The checker accepts what gives the right result in place, and out of place for an output slice that holds the right
result already. -/
theorem check_of {d : Dht ℝ} {signal : List ℝ} (hn : 0 < d.len) (hs : signal.length = d.len)
    (one : ∀ s : List ℝ, d.inplaceScratchLen ≤ s.length →
      ∃ s', d.processWithScratch signal s = .ok (dht signal, s') ∧ s'.length = s.length)
    (oop : ∀ s : List ℝ, d.oopScratchLen ≤ s.length →
      ∃ i' s', d.processOop signal (dht signal) s = .ok (i', dht signal, s') ∧ i'.length = signal.length ∧
        s'.length = s.length) :
    checkDhtAlgorithm signal d d.len = .ok () := by
  have hl : (dhtNaive ℝ d.len).len = d.len := dhtNaive_len _
  have hne : dht signal ≠ [] := by
    intro h0
    have : (dht signal).length = 0 := by rw [h0]; rfl
    simp only [dht, List.length_map, List.length_range] at this
    omega
  have hcmp := compare_self hne
  have hlen : (dht signal).length = signal.length := by simp [dht]
  obtain ⟨s0, e0, _⟩ := (dhtNaive_dht d.len).inplace signal (List.replicate (dhtNaive ℝ d.len).inplaceScratchLen 0)
    (by omega) (by rw [hl, hs]) (by simp)
  rw [hl, mapChunks_single hn hs] at e0
  obtain ⟨s1, e1, l1⟩ := one (List.replicate d.inplaceScratchLen 0) (by simp)
  obtain ⟨s2, e2, l2⟩ := one (List.replicate s1.length TestNum.dirty) (by rw [l1]; simp)
  obtain ⟨i3, s3, e3, li3, l3⟩ := oop (List.replicate d.oopScratchLen 0) (by simp)
  obtain ⟨i4, s4, e4, li4, l4⟩ := oop (List.replicate s3.length TestNum.dirty) (by rw [l3]; simp)
  unfold checkDhtAlgorithm
  simp only [beq_self_eq_true, assert_true, ok_bind, e0, Dht.process, e1, hcmp, copyFromSlice, hlen, if_true, e2, e3, li3, e4]
  split <;> split <;> simp

theorem check_accepts {d : Dht ℝ} {signal : List ℝ} (h : ComputesDht d) (hn : 0 < d.len) (hs : signal.length = d.len) :
    checkDhtAlgorithm signal d d.len = .ok () := by
  refine check_of hn hs (fun s hsl => ?_) (fun s hsl => ?_)
  · obtain ⟨s', e, ls, _⟩ := h.inplace signal s (by omega) (by rw [hs]) hsl
    rw [mapChunks_single hn hs] at e
    exact ⟨s', e, ls⟩
  · obtain ⟨i', s', e, li, ls, _⟩ := h.oop signal (dht signal) s (by simp [dht]) (by omega) (by rw [hs]) hsl
    rw [mapChunks_single hn hs] at e
    exact ⟨i', s', e, li, ls⟩

theorem copyFromSlice_ok {T : Type} {b x y : List T} (h : copyFromSlice b x = .ok y) : y = x := by
  unfold copyFromSlice at h
  split at h
  · cases h; rfl
  · cases h

/-- What a passed check says about the three entry points, for the one signal. -/
theorem check_ok {d : Dht ℝ} {n : ℕ} {signal : List ℝ} (hs : signal.length = n) (h : checkDhtAlgorithm signal d n = .ok ()) :
    d.len = n ∧ 0 < n ∧
    (∃ X, d.process signal = .ok X ∧ X.length = n ∧ absError (dht signal) X / n < 1 / 10) ∧
    (∃ X s, d.processWithScratch signal (List.replicate d.inplaceScratchLen 0) = .ok (X, s) ∧ X.length = n ∧
      absError (dht signal) X / n < 1 / 10 ∧
      (0 < s.length → ∃ Y t, d.processWithScratch signal (List.replicate s.length 100) = .ok (Y, t) ∧ Y.length = n ∧
        absError (dht signal) Y / n < 1 / 10)) ∧
    (∃ i X s, d.processOop signal (dht signal) (List.replicate d.oopScratchLen 0) = .ok (i, X, s) ∧ X.length = n ∧
      absError (dht signal) X / n < 1 / 10 ∧
      (0 < s.length → ∃ j Y t, d.processOop signal X (List.replicate s.length 100) = .ok (j, Y, t) ∧ Y.length = n ∧
        absError (dht signal) Y / n < 1 / 10)) := by
  have hlen : (dht signal).length = n := by simp [dht, hs]
  unfold checkDhtAlgorithm at h
  have h0 : d.len = n := by
    by_contra hc
    rw [beq_false_of_ne hc, assert_false] at h
    cases h
  rw [beq_iff_eq.2 h0, assert_true, ok_bind] at h
  have hl : (dhtNaive ℝ n).len = n := dhtNaive_len _
  obtain ⟨s0, e0, _⟩ := (dhtNaive_dht n).inplace signal (List.replicate (dhtNaive ℝ n).inplaceScratchLen 0)
    (by omega) (by rw [hl, hs]) (by simp)
  have hm : mapChunks (dhtNaive ℝ n).len dht signal = dht signal := by
    rw [hl]
    rcases Nat.eq_zero_or_pos n with hz | hp
    · have : signal = [] := List.length_eq_zero_iff.1 (by omega)
      rw [this, mapChunks_nil]; rfl
    · exact mapChunks_single hp hs
  rw [hm] at e0
  simp only [e0, ok_bind] at h
  obtain ⟨X, e1, h⟩ := bind_eq_ok h
  obtain ⟨l1, n1, c1, h⟩ := compare_assert h
  obtain ⟨⟨Y, s⟩, e2, h⟩ := bind_eq_ok h
  obtain ⟨l2, n2, c2, h⟩ := compare_assert h
  have tail : ∀ h : (do
      let (input, output, scratch) ← d.processOop signal (dht signal) (List.replicate d.oopScratchLen 0)
      let same ← compareRealVectors (dht signal) output
      assert same .assertFailed
      if scratch.length > 0 then
        let scratch := List.replicate scratch.length TestNum.dirty
        let input ← copyFromSlice input signal
        let (_, output, _) ← d.processOop input output scratch
        let same ← compareRealVectors (dht signal) output
        assert same .assertFailed : Res Unit) = .ok (),
      ∃ i X s, d.processOop signal (dht signal) (List.replicate d.oopScratchLen 0) = .ok (i, X, s) ∧ X.length = n ∧
        absError (dht signal) X / n < 1 / 10 ∧
        (0 < s.length → ∃ j Y t, d.processOop signal X (List.replicate s.length 100) = .ok (j, Y, t) ∧ Y.length = n ∧
          absError (dht signal) Y / n < 1 / 10) := by
    intro h
    obtain ⟨⟨i, Z, s⟩, e, h⟩ := bind_eq_ok h
    obtain ⟨l3, _, c3, h⟩ := compare_assert h
    rw [hlen] at l3 c3
    refine ⟨i, Z, s, e, l3.symm, c3, fun hp => ?_⟩
    simp only [if_pos (show s.length > 0 from hp)] at h
    obtain ⟨b, eb, h⟩ := bind_eq_ok h
    rw [copyFromSlice_ok eb] at h
    obtain ⟨⟨j, Z', t⟩, e', h⟩ := bind_eq_ok h
    obtain ⟨l4, _, c4, _⟩ := compare_assert (v := dht signal) (w := Z') (k := fun _ => .ok ()) (a := ()) (by
      obtain ⟨v, ev, h⟩ := bind_eq_ok h
      simp only [ev, ok_bind]
      rw [h, ok_bind])
    rw [hlen] at l4 c4
    exact ⟨j, Z', t, e', l4.symm, c4⟩
  rw [hlen] at l1 c1 l2 c2 n1
  simp only at h
  split at h
  · obtain ⟨b, eb, h⟩ := bind_eq_ok h
    rw [copyFromSlice_ok eb] at h
    obtain ⟨⟨b', s'⟩, e', h⟩ := bind_eq_ok h
    obtain ⟨l4, _, c4, h⟩ := compare_assert h
    rw [hlen] at l4 c4
    exact ⟨h0, by omega, ⟨X, e1, l1.symm, c1⟩, ⟨Y, s, e2, l2.symm, c2, fun _ => ⟨b', s', e', l4.symm, c4⟩⟩, tail h⟩
  · rename_i hz
    exact ⟨h0, by omega, ⟨X, e1, l1.symm, c1⟩, ⟨Y, s, e2, l2.symm, c2, fun hp => absurd hp hz⟩, tail h⟩

theorem absError_nonneg (v w : List ℝ) : 0 ≤ absError v w := by
  refine List.sum_nonneg fun x hx => ?_
  obtain ⟨i, hi, rfl⟩ := List.mem_iff_getElem.1 hx
  simp

theorem absError_scale (t : ℝ) (v w : List ℝ) :
    absError (v.map fun a => t * a) (w.map fun a => t * a) = |t| * absError v w := by
  induction v generalizing w with
  | nil => simp [absError]
  | cons a v ih =>
    cases w with
    | nil => simp [absError]
    | cons b w =>
      have := ih w
      simp only [absError, List.map_cons, List.zipWith_cons_cons, List.sum_cons] at *
      rw [this, mul_add, ← abs_mul, mul_sub]

theorem absError_eq_zero {v w : List ℝ} (hl : v.length = w.length) (h : absError v w = 0) : v = w := by
  induction v generalizing w with
  | nil => exact (List.length_eq_zero_iff.1 hl.symm).symm
  | cons a v ih =>
    cases w with
    | nil => simp at hl
    | cons b w =>
      have h0 := absError_nonneg v w
      simp only [absError, List.zipWith_cons_cons, List.sum_cons] at h h0
      have ha := abs_nonneg (a - b)
      have e1 : |a - b| = 0 := by linarith
      have e2 : absError v w = 0 := by simp only [absError]; linarith
      rw [abs_eq_zero, sub_eq_zero] at e1
      rw [e1, ih (by simpa using hl) e2]

end RustDHT
