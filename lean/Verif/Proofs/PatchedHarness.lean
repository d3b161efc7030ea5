import Verif.Model.PatchedCheck
import Verif.Proofs.Harness

/-! # The patched checker -/

namespace RustDHT

theorem checkPatched_of {d : Dht ℝ} {signal : List ℝ} (hn : 0 < d.len) (hs : signal.length = d.len)
    (one : ∀ s : List ℝ, d.inplaceScratchLen ≤ s.length →
      ∃ s', d.processWithScratch signal s = .ok (dht signal, s') ∧ s'.length = s.length)
    (oop : ∀ s : List ℝ, d.oopScratchLen ≤ s.length →
      ∃ i' s', d.processOop signal (List.replicate d.len 0) s = .ok (i', dht signal, s') ∧ i'.length = signal.length ∧
        s'.length = s.length) :
    checkDhtAlgorithmPatched signal d d.len = .ok () := by
  have hl : (dhtNaive ℝ d.len).len = d.len := dhtNaive_len _
  have hne : dht signal ≠ [] := by
    intro h0
    have : (dht signal).length = 0 := by rw [h0]; rfl
    simp only [dht, List.length_map, List.length_range] at this
    omega
  have hcmp := compare_self hne
  have hlen : (dht signal).length = signal.length := by simp [dht]
  obtain ⟨s0, e0, _⟩ := (dhtNaive_dht d.len).inplace signal (List.replicate (dhtNaive ℝ d.len).inplaceScratchLen 0)
    (by omega) (by rw [hl, hs]) (by simp)
  rw [hl, mapChunks_single hn hs] at e0
  obtain ⟨s1, e1, l1⟩ := one (List.replicate d.inplaceScratchLen 0) (by simp)
  obtain ⟨s2, e2, l2⟩ := one (List.replicate s1.length TestNum.dirty) (by rw [l1]; simp)
  obtain ⟨i3, s3, e3, li3, l3⟩ := oop (List.replicate d.oopScratchLen 0) (by simp)
  obtain ⟨i4, s4, e4, li4, l4⟩ := oop (List.replicate s3.length TestNum.dirty) (by rw [l3]; simp)
  unfold checkDhtAlgorithmPatched
  simp only [beq_self_eq_true, assert_true, ok_bind, e0, Dht.process, e1, hcmp, copyFromSlice, hlen, if_true, e2, hs, e3, li3, e4]
  split <;> split <;> simp

theorem checkPatched_accepts {d : Dht ℝ} {signal : List ℝ} (h : ComputesDht d) (hn : 0 < d.len) (hs : signal.length = d.len) :
    checkDhtAlgorithmPatched signal d d.len = .ok () := by
  refine checkPatched_of hn hs (fun s hsl => ?_) (fun s hsl => ?_)
  · obtain ⟨s', e, ls, _⟩ := h.inplace signal s (by omega) (by rw [hs]) hsl
    rw [mapChunks_single hn hs] at e
    exact ⟨s', e, ls⟩
  · obtain ⟨i', s', e, li, ls, _⟩ := h.oop signal (List.replicate d.len 0) s (by simp [hs]) (by omega) (by rw [hs]) hsl
    rw [mapChunks_single hn hs] at e
    exact ⟨i', s', e, li, ls⟩

/-- What a passed check says about the three entry points, for the one signal. -/
theorem checkPatched_ok {d : Dht ℝ} {n : ℕ} {signal : List ℝ} (hs : signal.length = n) (h : checkDhtAlgorithmPatched signal d n = .ok ()) :
    d.len = n ∧ 0 < n ∧
    (∃ X, d.process signal = .ok X ∧ X.length = n ∧ absError (dht signal) X / n < 1 / 10) ∧
    (∃ X s, d.processWithScratch signal (List.replicate d.inplaceScratchLen 0) = .ok (X, s) ∧ X.length = n ∧
      absError (dht signal) X / n < 1 / 10) ∧
    (∃ i X s, d.processOop signal (List.replicate (dht signal).length 0) (List.replicate d.oopScratchLen 0) = .ok (i, X, s) ∧ X.length = n ∧
      absError (dht signal) X / n < 1 / 10) := by
  have hlen : (dht signal).length = n := by simp [dht, hs]
  unfold checkDhtAlgorithmPatched at h
  have h0 : d.len = n := by
    by_contra hc
    rw [beq_false_of_ne hc, assert_false] at h
    cases h
  rw [beq_iff_eq.2 h0, assert_true, ok_bind] at h
  have hl : (dhtNaive ℝ n).len = n := dhtNaive_len _
  obtain ⟨s0, e0, _⟩ := (dhtNaive_dht n).inplace signal (List.replicate (dhtNaive ℝ n).inplaceScratchLen 0)
    (by omega) (by rw [hl, hs]) (by simp)
  have hm : mapChunks (dhtNaive ℝ n).len dht signal = dht signal := by
    rw [hl]
    rcases Nat.eq_zero_or_pos n with hz | hp
    · have : signal = [] := List.length_eq_zero_iff.1 (by omega)
      rw [this, mapChunks_nil]; rfl
    · exact mapChunks_single hp hs
  rw [hm] at e0
  simp only [e0, ok_bind] at h
  obtain ⟨X, e1, h⟩ := bind_eq_ok h
  obtain ⟨l1, n1, c1, h⟩ := compare_assert h
  obtain ⟨⟨Y, s⟩, e2, h⟩ := bind_eq_ok h
  obtain ⟨l2, n2, c2, h⟩ := compare_assert h
  have h' : ∃ r, d.processOop signal (List.replicate (dht signal).length 0) (List.replicate d.oopScratchLen 0) = .ok r ∧
      (dht signal).length = r.2.1.length ∧ absError (dht signal) r.2.1 / (dht signal).length < 1 / 10 := by
    have tail : ∀ h : (do
        let (input, output, scratch) ← d.processOop signal (List.replicate (dht signal).length 0) (List.replicate d.oopScratchLen 0)
        let same ← compareRealVectors (dht signal) output
        assert same .assertFailed
        if scratch.length > 0 then
          let scratch := List.replicate scratch.length TestNum.dirty
          let input ← copyFromSlice input signal
          let (_, output, _) ← d.processOop input (List.replicate output.length 0) scratch
          let same ← compareRealVectors (dht signal) output
          assert same .assertFailed : Res Unit) = .ok (), ∃ r,
        d.processOop signal (List.replicate (dht signal).length 0) (List.replicate d.oopScratchLen 0) = .ok r ∧
        (dht signal).length = r.2.1.length ∧ absError (dht signal) r.2.1 / (dht signal).length < 1 / 10 := by
      intro h
      obtain ⟨⟨i, Z, s⟩, e, h⟩ := bind_eq_ok h
      obtain ⟨l3, _, c3, _⟩ := compare_assert h
      exact ⟨_, e, l3, c3⟩
    simp only at h
    split at h
    · obtain ⟨b, _, h⟩ := bind_eq_ok h
      obtain ⟨⟨b', s'⟩, _, h⟩ := bind_eq_ok h
      obtain ⟨_, _, _, h⟩ := compare_assert h
      exact tail h
    · exact tail h
  obtain ⟨⟨i, Z, s3⟩, e3, l3, c3⟩ := h'
  rw [hlen] at *
  exact ⟨h0, by omega, ⟨X, e1, l1.symm, c1⟩, ⟨Y, s, e2, l2.symm, c2⟩, ⟨i, Z, s3, e3, l3.symm, c3⟩⟩

end RustDHT
