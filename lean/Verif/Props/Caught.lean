import Verif.Props.Detected
import Verif.Proofs.Caught

/-! # C84: most signals catch a wrong object

The tests use one signal each.  How many of the signals that they might have used would have caught a given error? -/

namespace RustDHT

open Finset

private theorem dht_ofFn {n : ℕ} (x : Fin n → ℝ) (k : Fin n) :
    nth (dht (List.ofFn x)) k = ∑ j : Fin n, cas (2 * Real.pi * j * k / n) * x j := by
  rw [dht, nth_eq_getElem (by simp), List.getElem_map, List.getElem_range, dhtCoeff, List.length_ofFn, ← Fin.sum_univ_eq_sum_range
    (fun i => (List.ofFn x).getD i 0 * cas (2 * Real.pi * i * k / n))]
  exact sum_congr rfl fun j _ => by simp [mul_comm]

private theorem term_le {n : ℕ} {v w : List ℝ} (hv : v.length = n) (hw : w.length = n) (k : Fin n) :
    |nth v k - nth w k| ≤ absError v w := by
  rw [absError_eq_sum hv hw]
  exact single_le_sum (f := fun i => |nth v i - nth w i|) (fun _ _ => abs_nonneg _) (mem_range.2 k.2)

/-- Let `process` compute `X[i] = ∑ A i j * x[j]`, with wrong coefficients in `r` rows `I a` and columns `J a`: each is wrong by at least
`δ`, and those to the right of it in its row, in the columns `J b` with `b > a`, are right.  Let the entries of the signal be drawn
independently from values of which at most one in `q` is within `0.2 n / δ` of any given one.  Then the checker accepts for at most one
signal in `q ^ r`. -/
theorem C84_wrong_coefficients (d : Dht ℝ) (n : ℕ) (A : Fin n → Fin n → ℝ)
    (hA : ∀ x : Fin n → ℝ, d.process (List.ofFn x) = .ok (List.ofFn fun i => ∑ j, A i j * x j))
    (r : ℕ) (I J : Fin r → Fin n) (δ : ℝ) (hδ : 0 < δ)
    (wrong : ∀ a, δ ≤ |A (I a) (J a) - cas (2 * Real.pi * J a * I a / n)|)
    (right : ∀ a b, a < b → A (I a) (J b) = cas (2 * Real.pi * J b * I a / n))
    (ι : Type) [Fintype ι] (v : ι → ℝ) (q : ℕ) (far : ∀ c, q * {a | |v a - v c| ≤ 0.2 * n / δ}.ncard ≤ Fintype.card ι) :
    q ^ r * {x : Fin n → ι | checkDhtAlgorithm (List.ofFn fun i => v (x i)) d n = .ok ()}.ncard ≤ Fintype.card ι ^ n := by
  have h := card_linear (κ := Fin n) (q := q) (r := r) (v := v)
    (E := fun a j => A (I a) j - cas (2 * Real.pi * j * I a / n)) (J := J) (B := 0.1 * n) hδ wrong
    (fun a b hab => sub_eq_zero.2 (right a b hab)) (fun c => by
      rw [show 2 * (0.1 * n) / δ = 0.2 * (n : ℝ) / δ by ring]
      exact far c)
    (P := fun x : Fin n → ι => checkDhtAlgorithm (List.ofFn fun i => v (x i)) d n = .ok ()) (fun x hx a => by
      obtain ⟨-, hn, ⟨X, e, lX, hX⟩, -⟩ := check_ok (by simp) hx
      rw [hA] at e
      cases e
      have hnr : (0 : ℝ) < n := by exact_mod_cast hn
      rw [div_lt_iff₀ hnr] at hX
      have h1 := (term_le (n := n) (by simp [dht]) lX (I a)).trans hX.le
      rw [dht_ofFn, nth_eq_getElem (by simp), List.getElem_ofFn, abs_sub_comm, ← sum_sub_distrib] at h1
      simp only [← sub_mul] at h1
      norm_num at h1 ⊢
      linarith)
  rwa [Fintype.card_fin] at h

section
variable [MathLib]

/-- The same in `f32`, for an object that computes the sums up to an error `ε`. -/
theorem C84_wrong_coefficients_f32 (hl : MathLib.Accurate) (d : Dht (Flt binary32)) (n : ℕ) (hn : 0 < n)
    (hc : 20 * n * (n + 5) ≤ 1500000) (A : Fin n → Fin n → ℝ) (ε : ℝ)
    (hA : ∀ (x : Fin n → Flt binary32) (X : List (Flt binary32)), (∀ i, (x i).fin ∧ |(x i).val| ≤ 10) →
      d.process (List.ofFn x) = .ok X → ∀ i : Fin n, |((X.map Flt.val).getD i 0) - ∑ j, A i j * (x j).val| ≤ ε)
    (r : ℕ) (I J : Fin r → Fin n) (δ : ℝ) (hδ : 0 < δ)
    (wrong : ∀ a, δ ≤ |A (I a) (J a) - cas (2 * Real.pi * J a * I a / n)|)
    (right : ∀ a b, a < b → A (I a) (J b) = cas (2 * Real.pi * J b * I a / n))
    (ι : Type) [Fintype ι] (v : ι → Flt binary32) (hv : ∀ a, (v a).fin ∧ |(v a).val| ≤ 10) (q : ℕ)
    (far : ∀ c, q * {a | |(v a).val - (v c).val| ≤ 2 * (ε + (0.1006 + 0.0000012 * (n * (n + 5))) * n) / δ}.ncard ≤ Fintype.card ι) :
    q ^ r * {x : Fin n → ι | checkDhtAlgorithm (List.ofFn fun i => v (x i)) d n = .ok ()}.ncard ≤ Fintype.card ι ^ n := by
  have hnr : (0 : ℝ) < n := by exact_mod_cast hn
  have h := card_linear (κ := Fin n) (q := q) (r := r) (v := fun a => (v a).val)
    (E := fun a j => A (I a) j - cas (2 * Real.pi * j * I a / n)) (J := J) (B := ε + (0.1006 + 0.0000012 * (n * (n + 5))) * n) hδ wrong
    (fun a b hab => sub_eq_zero.2 (right a b hab)) far
    (P := fun x : Fin n → ι => checkDhtAlgorithm (List.ofFn fun i => v (x i)) d n = .ok ()) (fun x hx a => by
      obtain ⟨X, _, _, _, _, _, _, e, _, _, _, _, _, h5⟩ := C83_passed_f32 hl d n hn hc (List.ofFn fun i => v (x i)) (by simp) (fun b hb => by
        obtain ⟨i, rfl⟩ := (List.mem_ofFn' _ b).1 hb
        exact hv _) hx
      obtain ⟨lX, -, hX⟩ := h5 X (.inl rfl)
      rw [div_le_iff₀ hnr] at hX
      have h1 := (term_le (n := n) (by simp [lX]) (by simp [dht]) (I a)).trans hX
      have h2 := hA (fun i => v (x i)) X (fun i => hv _) e (I a)
      rw [List.map_ofFn, dht_ofFn] at h1
      change |(X.map Flt.val).getD (I a) 0 - _| ≤ _ at h1
      simp only [Function.comp_apply] at h1
      simp only [sub_mul, sum_sub_distrib]
      rw [abs_le] at h1 h2 ⊢
      constructor <;> linarith [h1.1, h1.2, h2.1, h2.2])
  rwa [Fintype.card_fin] at h

/-! ### Longer tests of `Radix4` -/

omit [MathLib] in
private theorem many_moved {m : ℕ} (hm : 7 ≤ m) {σ : Equiv.Perm (Fin (2 ^ m))}
    (hσ : ∀ i, σ i = i ↔ ∀ j < (m - 5) / 2, (i : ℕ) / 4 ^ j % 4 ≠ 3) :
    ∃ A : Finset (Fin (2 ^ m)), (∀ a ∈ A, σ a ∉ A) ∧ 2 ^ m ≤ 12 * A.card := by
  classical
  obtain ⟨A, h1, h2⟩ := exists_pairs σ
  replace h2 : (univ.filter fun a : Fin (2 ^ m) => σ a ≠ a).card ≤ 3 * A.card := by convert h2
  refine ⟨A, h1, ?_⟩
  have e : 2 ^ m = 4 * 2 ^ (m - 2) := by
    rw [show (4 : ℕ) = 2 ^ 2 from rfl, ← pow_add]
    congr 1
    omega
  have h3 : 2 ^ (m - 2) ≤ (univ.filter fun a : Fin (2 ^ m) => σ a ≠ a).card := by
    rw [← Fintype.card_fin (2 ^ (m - 2)), ← card_univ]
    refine card_le_card_of_injOn (fun i => ⟨4 * i + 3, by have := i.2; omega⟩) (fun i _ => ?_) (fun i _ j _ h => ?_)
    · simp only [coe_filter, mem_univ, true_and, Set.mem_ofPred_eq]
      intro h
      have := (hσ _).1 h 0 (by omega)
      simp only [pow_zero, Nat.div_one] at this
      omega
    · have := congrArg (fun i : Fin (2 ^ m) => (i : ℕ)) h
      simp only at this
      exact Fin.ext (by omega)
  omega

omit [MathLib] in
/-- Signals that the rearrangement changes by little. -/
private theorem close_signals {m : ℕ} {σ : Equiv.Perm (Fin (2 ^ m))} {A : Finset (Fin (2 ^ m))} (hA : ∀ a ∈ A, σ a ∉ A) {ι : Type} [Fintype ι] {v : ι → ℝ}
    {D B : ℝ} (hD : 0 ≤ D) {f q : ℕ} (hB : B < (f + 1) * D ^ 2) (hq : 0 < q) (hv : ∀ c, q * {a | |v a - v c| < D}.ncard ≤ Fintype.card ι)
    {P : (Fin (2 ^ m) → ι) → Prop} (hP : ∀ x, P x → ∑ i, (v (x (σ i)) - v (x i)) ^ 2 ≤ B) :
    q ^ (A.card - f) * {x | P x}.ncard ≤ 2 ^ A.card * Fintype.card ι ^ 2 ^ m := by
  classical
  have h := card_most_pairs A σ hA (R := fun c d => |v d - v c| < D) hq (fun c => by
      have e : {a | |v a - v c| < D} = (univ.filter fun d => |v d - v c| < D : Finset ι) := by ext; simp
      have := hv c
      rw [e, Set.ncard_coe_finset] at this
      convert this) f
  rw [Fintype.card_fin] at h
  refine le_trans (Nat.mul_le_mul_left _ ?_) h
  rw [← Set.ncard_coe_finset]
  refine Set.ncard_le_ncard (fun x hx => ?_) (Set.toFinite _)
  simp only [coe_filter, mem_univ, true_and, Set.mem_ofPred_eq] at hx ⊢
  by_contra hf
  have h1 : ((f : ℝ) + 1) ≤ (A.filter fun a => ¬ |v (x a) - v (x (σ a))| < D).card := by
    have := Nat.succ_le_of_lt (Nat.lt_of_not_le hf)
    exact_mod_cast this
  have h2 : ((A.filter fun a => ¬ |v (x a) - v (x (σ a))| < D).card : ℝ) * D ^ 2
      ≤ ∑ i ∈ A.filter (fun a => ¬ |v (x a) - v (x (σ a))| < D), (v (x (σ i)) - v (x i)) ^ 2 := by
    rw [← nsmul_eq_mul]
    refine card_nsmul_le_sum _ _ _ fun a ha => ?_
    have := not_lt.1 (mem_filter.1 ha).2
    rw [← sq_abs (v (x (σ a)) - v (x a)), abs_sub_comm]
    exact pow_le_pow_left₀ hD this 2
  have h3 := sum_le_sum_of_subset_of_nonneg (f := fun i => (v (x (σ i)) - v (x i)) ^ 2)
    (subset_univ (A.filter fun a => ¬ |v (x a) - v (x (σ a))| < D)) (fun _ _ _ => sq_nonneg _)
  have h4 := hP x hx
  have h5 := mul_le_mul_of_nonneg_right h1 (sq_nonneg D)
  linarith

omit [MathLib] in
private theorem radix4_depth64 : ∀ m ≤ 20,
    20 * 2 ^ m * (2 ^ m + 72) + 10 * (Nat.sqrt (2 ^ m) + 1) * ((Plan.radix4 (2 ^ m)).stability 69 (2 ^ 29)).depth ≤ 22500000000000 := by
  decide +kernel

/-- In `f64`: a test of `Radix4` with any of the lengths from 128 to 2^20 fails but for at most one in `2 ^ (n / 12)` of the signals. -/
theorem C84_radix4_f64 (hl : MathLib.Accurate) (m : ℕ) (hm : 7 ≤ m) (hm' : m ≤ 20) (ι : Type) [Fintype ι] (v : ι → Flt binary64)
    (hv : ∀ a, (v a).fin ∧ |(v a).val| ≤ 10) (far : ∀ c, 5 * {a | |(v a).val - (v c).val| < 0.99}.ncard ≤ Fintype.card ι) :
    ∃ d, radix4 (Flt binary64) (2 ^ m) = .ok d ∧
      2 ^ (2 ^ m / 12) * {x : Fin (2 ^ m) → ι | checkDhtAlgorithm (List.ofFn fun i => v (x i)) d (2 ^ m) = .ok ()}.ncard
        ≤ Fintype.card ι ^ 2 ^ m := by
  obtain ⟨σ, hσ, d, hd, h⟩ := C83_radix4_f64 hl m
  obtain ⟨A, hA, hK⟩ := many_moved hm hσ
  refine ⟨d, hd, ?_⟩
  set C := 20 * 2 ^ m * (2 ^ m + 72) + 10 * (Nat.sqrt (2 ^ m) + 1) * ((Plan.radix4 (2 ^ m)).stability 69 (2 ^ 29)).depth with hC
  have hCle : C ≤ 22500000000000 := by
    rw [hC]
    exact radix4_depth64 m hm'
  have hn : ((2 ^ m : ℕ) : ℝ) ≤ 12 * A.card := by exact_mod_cast hK
  push_cast at hn
  have hCr : (C : ℝ) ≤ 22500000000000 := by exact_mod_cast hCle
  -- at most `2 / 15` of the pairs differ
  have h1 := close_signals hA (v := fun a => (v a).val) (D := 0.99) (B := 2 ^ m * (0.1007 + 1.005 * (C * 2⁻¹ ^ 53)) ^ 2)
    (f := 2 * A.card / 15) (q := 5) (by norm_num) (by
      have h2 : (0.1007 + 1.005 * (C * (2⁻¹ : ℝ) ^ 53)) ^ 2 ≤ 0.0107 := by
        have h3 : 0.1007 + 1.005 * (C * (2⁻¹ : ℝ) ^ 53) ≤ 0.1033 := by norm_num; linarith
        refine (pow_le_pow_left₀ (by positivity) h3 2).trans (by norm_num)
      have h4 : (2 * A.card : ℝ) < 15 * ((2 * A.card / 15 : ℕ) + 1) := by
        have : 2 * A.card < 15 * (2 * A.card / 15 + 1) := by omega
        exact_mod_cast this
      have h5 := mul_le_mul_of_nonneg_left h2 (by positivity : (0 : ℝ) ≤ 2 ^ m)
      refine lt_of_le_of_lt h5 ?_
      norm_num
      linarith) (by norm_num) far
    (P := fun x : Fin (2 ^ m) → ι => checkDhtAlgorithm (List.ofFn fun i => v (x i)) d (2 ^ m) = .ok ())
    (fun x hx => h C hC (hCle.trans (by norm_num)) (fun i => v (x i)) (fun i => hv _) hx)
  have h6 : 4 ^ A.card ≤ 5 ^ (A.card - 2 * A.card / 15) := by
    refine (Nat.pow_le_pow_iff_left (n := 15) (by norm_num)).1 ?_
    rw [← pow_mul, ← pow_mul, mul_comm A.card 15, pow_mul]
    calc ((4 : ℕ) ^ 15) ^ A.card ≤ (5 ^ 13) ^ A.card := Nat.pow_le_pow_left (by norm_num) _
      _ = 5 ^ (13 * A.card) := by rw [pow_mul]
      _ ≤ _ := Nat.pow_le_pow_right (by norm_num) (by omega)
  have h7 : 2 ^ A.card * (2 ^ A.card *
      {x : Fin (2 ^ m) → ι | checkDhtAlgorithm (List.ofFn fun i => v (x i)) d (2 ^ m) = .ok ()}.ncard)
      ≤ 2 ^ A.card * Fintype.card ι ^ 2 ^ m := by
    rw [← mul_assoc, ← mul_pow]
    exact (Nat.mul_le_mul_right _ h6).trans h1
  refine le_trans (Nat.mul_le_mul_right _ (Nat.pow_le_pow_right (by norm_num) ?_)) (Nat.le_of_mul_le_mul_left h7 (by positivity))
  omega

/-- In `f32`: length 256. -/
theorem C84_radix4_f32 (hl : MathLib.Accurate) (ι : Type) [Fintype ι] (v : ι → Flt binary32)
    (hv : ∀ a, (v a).fin ∧ |(v a).val| ≤ 10) (far : ∀ c, 5 * {a | |(v a).val - (v c).val| < 0.99}.ncard ≤ Fintype.card ι) :
    ∃ d, radix4 (Flt binary32) 256 = .ok d ∧
      1400 * {x : Fin 256 → ι | checkDhtAlgorithm (List.ofFn fun i => v (x i)) d 256 = .ok ()}.ncard ≤ Fintype.card ι ^ 256 := by
  obtain ⟨σ, hσ, d, hd, h⟩ := C83_radix4_f32 hl 8
  obtain ⟨A, hA, hK⟩ := many_moved (m := 8) (by norm_num) hσ
  refine ⟨d, hd, ?_⟩
  have h1 := close_signals hA (v := fun a => (v a).val) (D := 0.99)
    (B := 2 ^ 8 * (0.1007 + 1.005 * ((1406360 : ℕ) * 2⁻¹ ^ 24)) ^ 2) (f := 8) (q := 5) (by norm_num) (by norm_num) (by norm_num) far
    (P := fun x : Fin (2 ^ 8) → ι => checkDhtAlgorithm (List.ofFn fun i => v (x i)) d (2 ^ 8) = .ok ())
    (fun x hx => h 1406360 (by decide +kernel) (by norm_num) (fun i => v (x i)) (fun i => hv _) hx)
  obtain ⟨j, hj⟩ := Nat.exists_eq_add_of_le (show 22 ≤ A.card by omega)
  have h2 : 2 ^ A.card * 1400 ≤ 5 ^ (A.card - 8) := by
    rw [hj, show 22 + j - 8 = 14 + j by omega, pow_add, pow_add, mul_right_comm]
    exact Nat.mul_le_mul (by norm_num) (Nat.pow_le_pow_left (by norm_num) j)
  have h3 := (Nat.mul_le_mul_right _ h2).trans h1
  rw [mul_assoc] at h3
  exact Nat.le_of_mul_le_mul_left h3 (by positivity)

end

/-! ### Instances -/

/-- The signals in the examples have entries 0, 1, …, 9. -/
private theorem digits_apart {v : Fin 10 → ℝ} (hv : ∀ k : Fin 10, |v k - k| ≤ 0.001) {D : ℝ} (hD : D ≤ 0.99) (c : Fin 10) :
    {a | |v a - v c| ≤ D}.ncard ≤ 1 := by
  have : {a | |v a - v c| ≤ D} ⊆ {c} := by
    intro a ha
    have ha : |v a - v c| ≤ D := ha
    obtain ⟨h1, h1'⟩ := abs_le.1 (hv a)
    obtain ⟨h2, h2'⟩ := abs_le.1 (hv c)
    obtain ⟨h5, h6⟩ := abs_le.1 ha
    norm_num at h1 h1' h2 h2' hD
    have h3 : ((a : ℕ) : ℝ) < c + 1 := by linarith
    have h4 : ((c : ℕ) : ℝ) < a + 1 := by linarith
    have h3 : (a : ℕ) < c + 1 := by exact_mod_cast h3
    have h4 : (c : ℕ) < a + 1 := by exact_mod_cast h4
    exact Fin.ext (by omega)
  exact (Set.ncard_le_ncard this).trans (Set.ncard_singleton c).le

/-- `Butterfly2` with a wrong sign: caught by nine signals out of ten. -/
example (d : Dht ℝ) (hd : d = ⟨2, 0, 0, fun b s => .ok ([nth b 0 + nth b 1, nth b 0 + nth b 1], s), fun i o s => .ok (i, o, s)⟩) :
    10 ^ 1 * {x : Fin 2 → Fin 10 | checkDhtAlgorithm (List.ofFn fun i => ((x i : ℕ) : ℝ)) d 2 = .ok ()}.ncard ≤ 10 ^ 2 := by
  have h := C84_wrong_coefficients d 2 (fun _ _ => 1) (fun x => by
    subst hd
    simp [Dht.process, nth, Fin.sum_univ_two]) 1 (fun _ => 1) (fun _ => 1) 2 (by norm_num) (fun a => by
    have : (2 : ℝ) * Real.pi * ((1 : Fin 2) : ℕ) * ((1 : Fin 2) : ℕ) / (2 : ℕ) = Real.pi := by simp
    rw [this, cas, Real.cos_pi, Real.sin_pi]
    norm_num) (fun a b hab => absurd hab (by omega)) (Fin 10) (fun k => ((k : ℕ) : ℝ)) 10 (fun c => by
    have := digits_apart (v := fun k => ((k : ℕ) : ℝ)) (fun k => by norm_num) (D := 0.2 * (2 : ℕ) / 2) (by norm_num) c
    rw [Fintype.card_fin]
    omega)
  rwa [Fintype.card_fin] at h

/-- An object that adds the input to the result, length 4: at most one of ten thousand signals is accepted (it is the zero signal). -/
example (d : Dht ℝ) (hd : d = ⟨4, 0, 0, fun b s => .ok (List.ofFn fun i : Fin 4 => nth (dht b) i + nth b i, s),
      fun i o s => .ok (i, o, s)⟩) :
    10 ^ 4 * {x : Fin 4 → Fin 10 | checkDhtAlgorithm (List.ofFn fun i => ((x i : ℕ) : ℝ)) d 4 = .ok ()}.ncard ≤ 10 ^ 4 := by
  have h := C84_wrong_coefficients d 4 (fun i j => cas (2 * Real.pi * j * i / (4 : ℕ)) + if i = j then 1 else 0) (fun x => by
    subst hd
    unfold Dht.process
    simp only [ok_bind, dht_ofFn, add_mul, sum_add_distrib, ite_mul, one_mul, zero_mul, sum_ite_eq, mem_univ, if_true]
    congr 2
    funext i
    congr 1
    rw [nth_eq_getElem (by simp), List.getElem_ofFn]) 4 id id 1 (by norm_num) (fun a => by simp) (fun a b hab => by simp [hab.ne])
    (Fin 10) (fun k => ((k : ℕ) : ℝ)) 10 (fun c => by
    have := digits_apart (v := fun k => ((k : ℕ) : ℝ)) (fun k => by norm_num) (D := 0.2 * (4 : ℕ) / 1) (by norm_num) c
    rw [Fintype.card_fin]
    omega)
  rwa [Fintype.card_fin] at h

variable [MathLib]

omit [MathLib] in
private theorem digits32 (k : Fin 10) : (Flt.ofNat binary32 k).fin ∧ |(Flt.ofNat binary32 k).val - k| ≤ 0.001 ∧
    |(Flt.ofNat binary32 k).val| ≤ 10 := by
  have hk : ((k : ℕ) : ℝ) ≤ 9 := by exact_mod_cast Nat.le_of_lt_succ k.2
  obtain ⟨h1, h2⟩ := Flt.ofNat_spec (F := binary32) (by decide) (by decide) k
    (hk.trans (le_trans (by norm_num : (9 : ℝ) ≤ 2 ^ (4 : ℤ)) (zpow_le_zpow_right₀ (by norm_num) (by decide))))
  change _ ≤ (2⁻¹ : ℝ) ^ 24 * _ at h2
  have h3 : |(Flt.ofNat binary32 k).val - k| ≤ 0.001 := by
    refine h2.trans ?_
    norm_num
    linarith
  have hk0 : (0 : ℝ) ≤ (k : ℕ) := Nat.cast_nonneg _
  refine ⟨h1, h3, ?_⟩
  rw [abs_le] at h3 ⊢
  obtain ⟨h4, h5⟩ := h3
  norm_num at h4 h5
  constructor <;> linarith

omit [MathLib] in
private theorem digits64 (k : Fin 10) : (Flt.ofNat binary64 k).fin ∧ |(Flt.ofNat binary64 k).val - k| ≤ 0.001 ∧
    |(Flt.ofNat binary64 k).val| ≤ 10 := by
  have hk : ((k : ℕ) : ℝ) ≤ 9 := by exact_mod_cast Nat.le_of_lt_succ k.2
  obtain ⟨h1, h2⟩ := Flt.ofNat_spec (F := binary64) (by decide) (by decide) k
    (hk.trans (le_trans (by norm_num : (9 : ℝ) ≤ 2 ^ (4 : ℤ)) (zpow_le_zpow_right₀ (by norm_num) (by decide))))
  change _ ≤ (2⁻¹ : ℝ) ^ 53 * _ at h2
  have h3 : |(Flt.ofNat binary64 k).val - k| ≤ 0.001 := by
    refine h2.trans ?_
    norm_num
    linarith
  have hk0 : (0 : ℝ) ≤ (k : ℕ) := Nat.cast_nonneg _
  refine ⟨h1, h3, ?_⟩
  rw [abs_le] at h3 ⊢
  obtain ⟨h4, h5⟩ := h3
  norm_num at h4 h5
  constructor <;> linarith

/-- An object that returns zeros, in `f32`. -/
example (hl : MathLib.Accurate) (d : Dht (Flt binary32)) (hd : d = ⟨4, 0, 0, fun _ s => .ok (List.replicate 4 0, s), fun i o s => .ok (i, o, s)⟩) :
    10 ^ 1 * {x : Fin 4 → Fin 10 | checkDhtAlgorithm (List.ofFn fun i => Flt.ofNat binary32 (x i)) d 4 = .ok ()}.ncard ≤ 10 ^ 4 := by
  have h := C84_wrong_coefficients_f32 hl d 4 (by norm_num) (by norm_num) (fun _ _ => 0) 0 (fun x X _ h i => by
    subst hd
    unfold Dht.process at h
    simp only [ok_bind] at h
    cases h
    have : ((List.replicate 4 (0 : Flt binary32)).map Flt.val).getD i 0 = 0 := by
      rw [List.map_replicate, (C48_f32 hl).zero.2]
      fin_cases i <;> rfl
    rw [this]
    simp) 1 (fun _ => 0) (fun _ => 0) 1 (by norm_num) (fun a => by simp [cas]) (fun a b hab => absurd hab (by omega))
    (Fin 10) (fun k => Flt.ofNat binary32 k) (fun k => ⟨(digits32 k).1, (digits32 k).2.2⟩) 10 (fun c => by
      have := digits_apart (v := fun k => (Flt.ofNat binary32 k).val) (fun k => (digits32 k).2.1)
        (D := 2 * (0 + (0.1006 + 0.0000012 * ((4 : ℕ) * ((4 : ℕ) + 5))) * (4 : ℕ)) / 1) (by norm_num) c
      rw [Fintype.card_fin]
      omega)
  rwa [Fintype.card_fin] at h

/-- `Radix4` of length 1024 in `f64`: at most one signal in `2 ^ (1024 / 12)`. -/
example (hl : MathLib.Accurate) : ∃ d, radix4 (Flt binary64) (2 ^ 10) = .ok d ∧ 2 ^ (2 ^ 10 / 12) *
    {x : Fin (2 ^ 10) → Fin 10 | checkDhtAlgorithm (List.ofFn fun i => Flt.ofNat binary64 (x i)) d (2 ^ 10) = .ok ()}.ncard
      ≤ 10 ^ 2 ^ 10 := by
  have h := C84_radix4_f64 hl 10 (by norm_num) (by norm_num) (Fin 10) (fun k => Flt.ofNat binary64 k)
    (fun k => ⟨(digits64 k).1, (digits64 k).2.2⟩) (fun c => by
      have h1 := digits_apart (v := fun k => (Flt.ofNat binary64 k).val) (fun k => (digits64 k).2.1) (D := 0.99) le_rfl c
      have h2 : {a : Fin 10 | |(Flt.ofNat binary64 a).val - (Flt.ofNat binary64 c).val| < 0.99}.ncard ≤ _ :=
        Set.ncard_le_ncard
          (t := {a : Fin 10 | |(Flt.ofNat binary64 a).val - (Flt.ofNat binary64 c).val| ≤ 0.99}) (fun a ha => le_of_lt (α := ℝ) ha) (Set.toFinite _)
      have h3 := h2.trans h1
      rw [Fintype.card_fin]
      omega)
  simpa only [Fintype.card_fin] using h

end RustDHT
