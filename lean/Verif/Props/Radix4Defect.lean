import Verif.Proofs.Radix4Defect

/-! # C78: what the defect of `Radix4` leaves intact, and what shows it

Lengths are `2 ^ m`.  `(m - 5) / 2` is natural number arithmetic: it is 0 up to length 64. -/

namespace RustDHT

open Finset

/-- The signals that `Radix4` transforms correctly are those that a rearrangement leaves alone.  The rearrangement fixes an index if and
only if none of its last `(m - 5) / 2` digits to the base 4 is 3. -/
theorem C78_signals (m : ℕ) : ∃ σ : Equiv.Perm (Fin (2 ^ m)),
    (∀ i, σ i = i ↔ ∀ j < (m - 5) / 2, (i : ℕ) / 4 ^ j % 4 ≠ 3) ∧
    ∃ d, radix4 ℝ (2 ^ m) = .ok d ∧ ∀ x : List ℝ, x.length = 2 ^ m →
      (d.process x = .ok (dht x) ↔ ∀ i, x.getD (σ i) 0 = x.getD i 0) :=
  ⟨r4SigmaPerm m, r4SigmaPerm_fixed m, _, radix4_eq m, fun _ hx => radix4_right_iff m (radix4_eq m) hx⟩

/-- The unit impulse at `i` is transformed correctly if and only if none of the last `(m - 5) / 2` digits of `i` to the base 4 is 3. -/
theorem C78_impulses (m : ℕ) : ∃ d, radix4 ℝ (2 ^ m) = .ok d ∧ ∀ a < 2 ^ m,
    (d.process ((List.range (2 ^ m)).map fun i => if i = a then 1 else 0)
        = .ok (dht ((List.range (2 ^ m)).map fun i => if i = a then 1 else 0)) ↔ ∀ j < (m - 5) / 2, a / 4 ^ j % 4 ≠ 3) :=
  ⟨_, radix4_eq m, fun a ha => (impulse_right_iff m (radix4_eq m) ⟨a, ha⟩).trans (r4SigmaPerm_fixed m ⟨a, ha⟩)⟩

/-- So the share of the impulses that are transformed correctly is `(3 / 4) ^ ((m - 5) / 2)`. -/
theorem C78_count (m : ℕ) : ∃ d, radix4 ℝ (2 ^ m) = .ok d ∧
    4 ^ ((m - 5) / 2) * {a | a < 2 ^ m ∧ d.process ((List.range (2 ^ m)).map fun i => if i = a then 1 else 0)
        = .ok (dht ((List.range (2 ^ m)).map fun i => if i = a then 1 else 0))}.ncard = 3 ^ ((m - 5) / 2) * 2 ^ m := by
  obtain ⟨d, hd, h⟩ := C78_impulses m
  refine ⟨d, hd, ?_⟩
  generalize hk : (m - 5) / 2 = k at h ⊢
  have hl : 2 ^ (m - 2 * k) * 4 ^ k = 2 ^ m := by
    rw [show 4 ^ k = 2 ^ (2 * k) by rw [pow_mul]; norm_num, ← pow_add]
    congr 1
    omega
  have e : {a | a < 2 ^ m ∧ d.process ((List.range (2 ^ m)).map fun i => if i = a then 1 else 0)
        = .ok (dht ((List.range (2 ^ m)).map fun i => if i = a then 1 else 0))}
      = ((range (2 ^ (m - 2 * k) * 4 ^ k)).filter fun i => ∀ j < k, i / 4 ^ j % 4 ≠ 3 : Finset ℕ) := by
    ext a
    simp only [Set.mem_ofPred_eq, coe_filter, mem_range, hl]
    exact and_congr_right fun ha => h a ha
  rw [e, Set.ncard_coe_finset, count_no_three, ← hl]
  ring

/-- The energy of the output is right for every length and signal. -/
theorem C78_energy (m : ℕ) : ∃ d, radix4 ℝ (2 ^ m) = .ok d ∧ ∀ x : List ℝ, x.length = 2 ^ m →
    ∃ y, d.process x = .ok y ∧ (y.map fun v : ℝ => v ^ 2).sum = 2 ^ m * (x.map fun v : ℝ => v ^ 2).sum := by
  refine ⟨_, radix4_eq m, fun x hx => ⟨_, radix4_process m (radix4_eq m) hx, ?_⟩⟩
  rw [dht_parseval, perm_energy _ hx]
  simp

/-- From length 128 on, the coefficients that are right for every signal are the multiples of a quarter of the length, an eighth and five
eighths; every other one is wrong for some signal. -/
theorem C78_coefficients (m : ℕ) (hm : 7 ≤ m) : ∃ d, radix4 ℝ (2 ^ m) = .ok d ∧ ∀ k < 2 ^ m,
    ((∀ x : List ℝ, x.length = 2 ^ m → ∃ y, d.process x = .ok y ∧ y[k]? = some (dhtCoeff x k)) ↔
      k = 0 ∨ k = 2 ^ (m - 3) ∨ k = 2 * 2 ^ (m - 3) ∨ k = 4 * 2 ^ (m - 3) ∨ k = 5 * 2 ^ (m - 3) ∨ k = 6 * 2 ^ (m - 3)) := by
  refine ⟨_, radix4_eq m, fun k hk => ?_⟩
  rw [← coeff_right_iff hm hk]
  refine forall_congr' fun x => forall_congr' fun hx => ?_
  have h := radix4_process m (radix4_eq m) hx
  have hg : ∀ z : List ℝ, z.length = 2 ^ m → (dht z)[k]? = some (dhtCoeff z k) := fun z hz => by simp [dht, hz, hk]
  constructor
  · rintro ⟨y, e, hy⟩
    rw [h] at e
    injection e with e
    rw [← e, hg _ (by simp)] at hy
    exact Option.some.inj hy
  · intro e
    exact ⟨_, h, by rw [hg _ (by simp), e]⟩

/-- A test that transforms twice shows the defect at once: from length 128 on, the impulse at index 1, which is itself transformed
correctly, does not come back. -/
theorem C78_round_trip (m : ℕ) (hm : 7 ≤ m) : ∃ d, radix4 ℝ (2 ^ m) = .ok d ∧
    ∃ y z, d.process ((List.range (2 ^ m)).map fun i => if i = 1 then 1 else 0) = .ok y ∧ d.process y = .ok z ∧
      z ≠ ((List.range (2 ^ m)).map fun i => if i = 1 then 1 else 0).map fun v => (2 : ℝ) ^ m * v :=
  ⟨_, radix4_eq m, round_trip_wrong hm (radix4_eq m)⟩

-- of the 128 impulses of length 128, 96 are transformed correctly
example : ∃ d, radix4 ℝ 128 = .ok d ∧ {a | a < 128 ∧ d.process ((List.range 128).map fun i => if i = a then 1 else 0)
    = .ok (dht ((List.range 128).map fun i => if i = a then 1 else 0))}.ncard = 96 := by
  obtain ⟨d, hd, h⟩ := C78_count 7
  norm_num at hd h
  exact ⟨d, hd, by omega⟩

-- the impulse at 13 (digits 3 and 1) is right in length 128 and wrong in length 512
example : ∃ d e, radix4 ℝ 128 = .ok d ∧ radix4 ℝ 512 = .ok e ∧
    d.process ((List.range 128).map fun i => if i = 13 then 1 else 0) = .ok (dht ((List.range 128).map fun i => if i = 13 then 1 else 0)) ∧
    e.process ((List.range 512).map fun i => if i = 13 then 1 else 0)
      ≠ .ok (dht ((List.range 512).map fun i => if i = 13 then 1 else 0)) := by
  obtain ⟨d, hd, h⟩ := C78_impulses 7
  obtain ⟨e, he, h'⟩ := C78_impulses 9
  norm_num at hd he h h'
  refine ⟨d, e, hd, he, (h 13 (by norm_num)).2 (by norm_num), fun hc => ?_⟩
  exact (h' 13 (by norm_num)).1 hc 1 (by norm_num) (by norm_num)

-- coefficient 16 of length 128 is always right, coefficient 48 is not
example : ∃ d, radix4 ℝ 128 = .ok d ∧ (∀ x : List ℝ, x.length = 128 → ∃ y, d.process x = .ok y ∧ y[16]? = some (dhtCoeff x 16)) ∧
    ¬∀ x : List ℝ, x.length = 128 → ∃ y, d.process x = .ok y ∧ y[48]? = some (dhtCoeff x 48) := by
  obtain ⟨d, hd, h⟩ := C78_coefficients 7 (by norm_num)
  norm_num at hd h
  exact ⟨d, hd, (h 16 (by norm_num)).2 (by norm_num), fun hc => by have := (h 48 (by norm_num)).1 hc; norm_num at this⟩

end RustDHT
