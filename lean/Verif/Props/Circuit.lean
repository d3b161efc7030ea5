import Verif.Proofs.CircuitNaive

/-! # C65: the number of arithmetic operations -/

set_option linter.unusedSectionVars false

namespace RustDHT

open Circ

section
variable {S : Type} [Zero S] [Add S] [Sub S] [Mul S] [Neg S] [FftNum S]

/-- Run on expressions, a composition gives the circuit of the same composition run on numbers, for every arithmetic and
every buffer, whatever the length: evaluated for a buffer, the circuit gives what the call gives, bit for bit, and there is
no circuit exactly if the call panics. -/
theorem C65_circuit (p : Plan) (d : Dht S) (hd : p.build S = .ok d) : ∃ c : Dht (Circ S), p.build (Circ S) = .ok c ∧
    c.len = d.len ∧ ∀ (n : ℕ) (x : ℕ → S),
      d.process ((List.range n).map x) = (c.process (buffer S n)).map (List.map (eval x)) := by
  have h : ∀ x : ℕ → S, _ := fun x => plan_rel p (eval_respects x)
  rw [hd] at h
  rcases e : p.build (Circ S) with er | c
  · have := h (fun _ => 0)
    rw [e] at this
    cases this
  · refine ⟨c, rfl, ?_, fun n x => ?_⟩
    · have := h (fun _ => 0)
      rw [e] at this
      cases this with
      | ok h => exact h.len
    · have := h x
      rw [e] at this
      cases this with
      | ok h =>
        have hl : LR (fun (t : Circ S) s => t.eval x = s) (buffer S n) ((List.range n).map x) := by
          rw [buffer]
          generalize List.range n = l
          induction l with
          | nil => exact .nil
          | cons a l ih => exact .cons rfl ih
        have r := dht_process_rel h rfl hl
        generalize c.process (buffer S n) = a at r
        generalize d.process ((List.range n).map x) = b at r
        cases r with
        | error e => rfl
        | ok r =>
          rename_i y z
          show Except.ok z = Except.ok (y.map (eval x))
          congr 1
          clear hl
          induction r with
          | nil => rfl
          | cons h _ ih => rw [List.map_cons, h, ih]

/-- The circuit has at most `Plan.ops` operations for every chunk of the buffer. -/
theorem C65_size (p : Plan) (c : Dht (Circ S)) (hc : p.build (Circ S) = .ok c) (n : ℕ) (h1 : c.len ≤ n) (h2 : c.len ∣ n)
    (y : List (Circ S)) (hy : c.process (buffer S n) = .ok y) : Size y (n / c.len * p.ops) := by
  obtain ⟨f, hi, hf⟩ := plan_costs p c hc
  have hl : (buffer S n).length = n := by simp [buffer]
  have e := hi.process (b := buffer S n) (by omega) (by rw [hl]; exact h2)
  rw [e] at hy
  cases hy
  have hno : ∀ t : Circ S, ¬ IsGate (buffer S n) t := by
    rintro t ⟨u, hu, ht⟩
    obtain ⟨i, _, rfl⟩ := List.mem_map.1 hu
    cases ht
  have : New (buffer S n) (mapChunks c.len f (buffer S n)) (n / c.len * p.ops) := by
    rcases Nat.eq_zero_or_pos c.len with h0 | h0
    · rw [h0, mapChunks_zero]
      exact New.mono (.of_sub fun _ h => h) (Nat.zero_le _)
    · have := hf.mapChunks h0 (buffer S n)
      rwa [hl] at this
  obtain ⟨g, hg1, hg2⟩ := this
  exact ⟨g, hg1, fun t ht => (hg2 t ht).resolve_left (hno t)⟩

/-- Without `RadersAlgorithm` and without long `DhtNaive`: at most `(2L + 8) n log₂ n` operations. -/
theorem C65_fast (L : ℕ) (p : Plan) (hp : p.Fast L) (c : Dht (Circ S)) (hc : p.build (Circ S) = .ok c) (h2 : 2 ≤ c.len)
    (y : List (Circ S)) (hy : c.process (buffer S c.len) = .ok y) :
    ∃ N : ℕ, Size y N ∧ (N : ℝ) ≤ (2 * L + 8) * c.len * Real.logb 2 c.len := by
  refine ⟨p.ops, ?_, ?_⟩
  · have := C65_size p c hc c.len le_rfl dvd_rfl y hy
    rwa [Nat.div_self (by omega), Nat.one_mul] at this
  · have := (plan_opsLog p hp c hc).two h2
    have : (0 : ℝ) ≤ 5 * c.len := by positivity
    rw [lg] at *
    linarith

/-- `RadersAlgorithm`, for a prime length, around such a composition: at most `2 (2L + 8) n log₂ n` operations. -/
theorem C65_prime (L : ℕ) (i : Plan) (hp : i.Fast L) (c : Dht (Circ S)) (hc : (Plan.raders i).build (Circ S) = .ok c)
    (y : List (Circ S)) (hy : c.process (buffer S c.len) = .ok y) :
    ∃ N : ℕ, Size y N ∧ (N : ℝ) ≤ 2 * (2 * L + 8) * c.len * Real.logb 2 c.len := by
  have hc' := hc
  obtain ⟨id, ei, e⟩ := bind_eq_ok hc'
  obtain ⟨f, hf, _⟩ := plan_costs i id ei
  obtain ⟨g, gi, hdata⟩ := raders_data hf e
  have hdl : c.len = id.len + 1 := by rw [hdata.eq]; rfl
  have h1 : 2 ≤ id.len := by
    have := hdata.odd
    have := hdata.prime.two_le
    omega
  refine ⟨(Plan.raders i).ops, ?_, ?_⟩
  · have := C65_size _ c hc c.len le_rfl dvd_rfl y hy
    rwa [Nat.div_self (by omega), Nat.one_mul] at this
  · have h2 := (plan_opsLog i hp id ei).two (by omega)
    have hm := lg_mono (a := id.len) (b := c.len) (by omega) (by omega)
    have hl0 : (0 : ℝ) ≤ lg id.len := by
      have := lg_mono (a := 1) (b := id.len) (by omega) (by omega)
      simpa [lg] using this
    have h3 : (id.len : ℝ) * lg id.len ≤ c.len * lg c.len := by
      have : (id.len : ℝ) ≤ c.len := by exact_mod_cast (by omega : id.len ≤ c.len)
      gcongr
    have h4 := mul_le_mul_of_nonneg_left h3 (show (0 : ℝ) ≤ 2 * L + 8 by positivity)
    have h5 : (1 : ℝ) ≤ id.len := by exact_mod_cast (by omega : 1 ≤ id.len)
    rw [Plan.ops, ← plan_len i id ei]
    push_cast
    rw [lg] at h4
    have e1 : (2 * (L : ℝ) + 8) * (id.len * Real.logb 2 id.len) = (2 * L + 8) * id.len * lg id.len := by rw [lg]; ring
    have e2 : 2 * (2 * (L : ℝ) + 8) * c.len * Real.logb 2 c.len = 2 * ((2 * L + 8) * (c.len * lg c.len)) := by rw [lg]; ring
    rw [e1] at h4
    rw [e2]
    linarith

end

/-- `DhtNaive` cannot do with less than `n (n - 1)` operations: that many different sums occur. -/
theorem C65_naive_quadratic (n : ℕ) (hn : 0 < n) (y : List (Circ ℝ)) (hy : (dhtNaive (Circ ℝ) n).process (buffer ℝ n) = .ok y)
    (N : ℕ) (h : Size y N) : n * (n - 1) ≤ N := by
  have hl : (buffer ℝ n).length = n := by simp [buffer]
  have e := (dhtNaive_implements (T := Circ ℝ) n).process (b := buffer ℝ n) (by rw [dhtNaive_len]; omega) (by rw [dhtNaive_len, hl])
  rw [dhtNaive_len, mapChunks_single hn hl] at e
  rw [e] at hy
  cases hy
  exact naive_size (tableInj_real n) h

/-! ## Instances -/

/-- A butterfly of length 2 is a circuit of two operations. -/
example : ((butterfly2 (Circ ℝ)).process (buffer ℝ 2)) = .ok [.add (.inp 0) (.inp 1), .sub (.inp 0) (.inp 1)] := by
  have e := (butterfly2_implements (T := Circ ℝ)).process (b := buffer ℝ 2) (by decide) (by decide)
  rw [show (butterfly2 (Circ ℝ)).len = 2 from rfl, mapChunks_single (by omega) (by decide)] at e
  rw [e]
  rfl

/-- Length 1024: at most 18688 operations with `Radix4`, at least 1047552 with `DhtNaive`. -/
example : (Plan.radix4 1024).ops = 18688 ∧ (Plan.radix4 1024).Fast 1 ∧ 1024 * (1024 - 1) = 1047552 := by
  refine ⟨?_, trivial, rfl⟩
  have h : Nat.log 2 1024 = 10 := Nat.log_pow (b := 2) (by norm_num) 10
  rw [Plan.ops, radix4Ops, h]
  norm_num

/-- Length 4096 out of smaller parts. -/
example : (Plan.mixedRadix (.mr4 .b16) (.splitRadix .b16 (.mr2 .b16))).ops = 96896 := by decide

end RustDHT
