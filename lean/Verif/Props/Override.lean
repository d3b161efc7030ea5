import Verif.Proofs.Override
import Verif.Props.Stateful

/-! # C77: what `RadersAlgorithm` takes from `process` of its inner object

`process` is a provided method of the trait, which an implementation can override.  The constructor of `RadersAlgorithm` is the only
code of the crate that calls `process` of an inner object, once, to build its table; all other calls are of the methods that take
scratch.  The theorems say exactly how the answer to that one call decides what the algorithm computes. -/

namespace RustDHT

variable {σ : Type}

/-- Around an inner object that computes the DHT in the two methods that take scratch, the constructor calls `process` for the numbers
`cas (2 pi w^m / (n + 1)) / n`, `w` a generator modulo the prime `n + 1`.  If that call fails, the constructor fails in the same way.
If it answers `y`, the result of the constructor transforms chunks by the sum that defines the DHT with the numbers `cas (...)`
replaced by the DHT of `y`, and it computes the DHT if and only if `y` is the DHT of the argument. -/
theorem C77_process {l : LiveDht σ ℝ} {n i o : ℕ} (h : RightButProcess l n i o dht) (hp : (n + 1).Prime) (h2 : n + 1 ≠ 2)
    (h32 : n + 1 < 2 ^ 32) :
    ∃ w, (∀ q, 0 < q → q < n + 1 → ∃ m < n, w ^ m % (n + 1) = q) ∧ ∀ st, ∃ st1, l.len st = .ok (n, st1) ∧
      (∀ e, l.process (powerKernel n w) st1 = .error e → liveRaders l st = .error e) ∧
      ∀ y st2, l.process (powerKernel n w) st1 = .ok (y, st2) → y.length = n →
        ∃ d st3, liveRaders l st = .ok (d, st3) ∧
          (∃ f, LiveImplements d (n + 1) (n + if i ≤ n then 0 else i) (if i ≤ n then 0 else i) f ∧
            ∀ x, x.length = n + 1 → Filtered n w y x (f x)) ∧
          (LiveImplements d (n + 1) (n + if i ≤ n then 0 else i) (if i ≤ n then 0 else i) dht ↔ y = dht (powerKernel n w)) := by
  obtain ⟨w, ⟨w0, w1, w2⟩, run⟩ := liveRaders_override h hp h2 h32
  refine ⟨w, fun q h0 hq => ?_, run⟩
  have hd := dlog_spec hp w0 w1 (by simpa using w2) h0 hq
  exact ⟨dlog w (n + 1) q, by simpa using hd.1, hd.2⟩

/-- A `process` that computes a multiple of the DHT other than the DHT itself (a normalised transform, say) makes
`RadersAlgorithm` wrong, though both methods with scratch are right.  The constructor succeeds. -/
theorem C77_scaled {l : LiveDht σ ℝ} {n i o : ℕ} (h : RightButProcess l n i o dht) (hp : (n + 1).Prime) (h2 : n + 1 ≠ 2)
    (h32 : n + 1 < 2 ^ 32) (c : ℝ) (hc : c ≠ 1)
    (hpr : ∀ (x : List ℝ) st, x.length = n → ∃ st', l.process x st = .ok ((dht x).map (c * ·), st')) (st : σ) :
    ∃ d st', liveRaders l st = .ok (d, st') ∧ ∀ i o, ¬LiveImplements d (n + 1) i o dht := by
  obtain ⟨w, ⟨w0, w1, w2⟩, run⟩ := liveRaders_override h hp h2 h32
  obtain ⟨st1, -, -, ok⟩ := run st
  obtain ⟨st2, e⟩ := hpr (powerKernel n w) st1 (length_powerKernel n w)
  obtain ⟨d, st3, e', ⟨f, hf, -⟩, hiff⟩ := ok _ _ e (by simp [length_powerKernel])
  refine ⟨d, st3, e', fun i' o' hd => scaled_kernel_ne hp w0 w1 w2 hc (hiff.1 ?_)⟩
  obtain ⟨rfl, rfl⟩ := hf.scratch_unique hd st
  exact hd

/-- Nor is the algorithm right around an object whose `process` does nothing. -/
theorem C77_identity {l : LiveDht σ ℝ} {n i o : ℕ} (h : RightButProcess l n i o dht) (hp : (n + 1).Prime) (h2 : n + 1 ≠ 2)
    (h32 : n + 1 < 2 ^ 32) (hpr : ∀ (x : List ℝ) st, x.length = n → ∃ st', l.process x st = .ok (x, st')) (st : σ) :
    ∃ d st', liveRaders l st = .ok (d, st') ∧ ∀ i o, ¬LiveImplements d (n + 1) i o dht := by
  obtain ⟨w, ⟨w0, w1, w2⟩, run⟩ := liveRaders_override h hp h2 h32
  obtain ⟨st1, -, -, ok⟩ := run st
  obtain ⟨st2, e⟩ := hpr (powerKernel n w) st1 (length_powerKernel n w)
  obtain ⟨d, st3, e', ⟨f, hf, -⟩, hiff⟩ := ok _ _ e (length_powerKernel n w)
  refine ⟨d, st3, e', fun i' o' hd => kernel_ne_dht hp h2 w0 w1 w2 (hiff.1 ?_)⟩
  obtain ⟨rfl, rfl⟩ := hf.scratch_unique hd st
  exact hd

/-! ### Cases -/

/-- The direct algorithm of length 16 that counts its calls, with a `process` of its own. -/
noncomputable def ownProcess (process : List ℝ → Nat → Res (List ℝ × Nat)) : LiveDht Nat ℝ :=
  { countingDht (dhtNaive ℝ 16) with process := process }

theorem ownProcess_right (process : List ℝ → Nat → Res (List ℝ × Nat)) : RightButProcess (ownProcess process) 16 16 0 dht := by
  have h := countingDht_implements (dhtNaive_dht 16)
  rw [dhtNaive_len, show (dhtNaive ℝ 16).inplaceScratchLen = 16 from dhtNaive_len 16] at h
  exact ⟨h.len, h.inplaceScratchLen, h.oopScratchLen, h.length, fun _ st _ _ => ⟨st, rfl⟩, h.inplace, h.oop⟩

-- the hypotheses of the theorems are met
example (process : List ℝ → Nat → Res (List ℝ × Nat)) :=
  C77_process (ownProcess_right process) (by norm_num) (by norm_num) (by norm_num)

-- a normalised `process`
example : ∃ d st', liveRaders (ownProcess fun x st => .ok ((dht x).map ((1 / 16) * ·), st + 1)) 0 = .ok (d, st') ∧
    ∀ i o, ¬LiveImplements d 17 i o dht :=
  C77_scaled (ownProcess_right _) (by norm_num) (by norm_num) (by norm_num) (1 / 16) (by norm_num) (fun _ st _ => ⟨st + 1, rfl⟩) 0

-- a `process` that is left empty
example : ∃ d st', liveRaders (ownProcess fun x st => .ok (x, st)) 0 = .ok (d, st') ∧ ∀ i o, ¬LiveImplements d 17 i o dht :=
  C77_identity (ownProcess_right _) (by norm_num) (by norm_num) (by norm_num) (fun _ st _ => ⟨st, rfl⟩) 0

-- a `process` that is not implemented
example : liveRaders (ownProcess fun _ _ => panic .assertFailed) 0 = panic .assertFailed := by
  obtain ⟨w, -, run⟩ := C77_process (ownProcess_right fun _ _ => panic .assertFailed) (by norm_num) (by norm_num) (by norm_num)
  obtain ⟨st1, -, fail, -⟩ := run 0
  exact fail _ rfl

end RustDHT
