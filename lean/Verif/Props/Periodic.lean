import Verif.Spec.Periodic
import Verif.Proofs.PlanDht
import Verif.Proofs.Orthogonality
import Verif.Proofs.PlanRounding
import Verif.Props.Laws

/-! # C94: compositions of different lengths agree on repeated and on spread signals

In exact arithmetic, for every pair of compositions whose lengths divide one another. -/

namespace RustDHT

open Finset

theorem length_repeated (e : ℕ) (y : List ℝ) : (repeated e y).length = e * y.length := by simp [repeated]

theorem length_interspersed {e : ℕ} (he : 0 < e) (y : List ℝ) : (interspersed e y).length = e * y.length := by
  induction y with
  | nil => simp [interspersed]
  | cons a y ih =>
    rw [interspersed, List.flatMap_cons, List.length_append, ← interspersed, ih, List.length_cons, List.length_cons, List.length_replicate, Nat.mul_succ]
    omega

theorem nth_repeated {e : ℕ} {y : List ℝ} {i : ℕ} (hi : i < e * y.length) : nth (repeated e y) i = nth y (i % y.length) := by
  induction e generalizing i with
  | zero => simp at hi
  | succ e ih =>
    rw [repeated, List.replicate_succ, List.flatten_cons, ← repeated]
    rcases lt_or_ge i y.length with h | h
    · rw [nth_append_left h, Nat.mod_eq_of_lt h]
    · rw [nth_append_right h, ih (by rw [Nat.succ_mul] at hi; omega), Nat.mod_eq_sub_mod h]

theorem nth_interspersed {e : ℕ} {y : List ℝ} {m r : ℕ} (hr : r < e) : nth (interspersed e y) (m * e + r) = if r = 0 then nth y m else 0 := by
  induction y generalizing m with
  | nil => simp [interspersed, nth]
  | cons a y ih =>
    rw [interspersed, List.flatMap_cons, ← interspersed]
    have hl : (a :: List.replicate (e - 1) (0 : ℝ)).length = e := by simp; omega
    rcases m with _ | m
    · rw [nth_append_left (by omega), zero_mul, zero_add]
      rcases r with _ | r
      · simp [nth]
      · have : r < e - 1 := by omega
        simp [nth, this]
    · rw [nth_append_right (by rw [hl, Nat.succ_mul]; omega), hl, Nat.succ_mul, show m * e + e + r - e = m * e + r by omega, ih]
      simp [nth]

theorem dht_interspersed {e : ℕ} (he : 0 < e) (y : List ℝ) : dht (interspersed e y) = repeated e (dht y) := by
  rw [dht_eq' (length_interspersed he y)]
  refine (eq_tab (by rw [length_repeated, length_dht]) fun k hk => ?_).symm
  rw [nth_repeated (by rwa [length_dht]), length_dht]
  have hm : 0 < y.length := Nat.pos_of_ne_zero fun h => by simp [h] at hk
  rw [nth_dht rfl (Nat.mod_lt _ hm)]
  have hs := hart_split (h := y.length) he (nth (interspersed e y)) (k % y.length : ℕ) (k / y.length : ℕ)
  rw [show (((k % y.length : ℕ) : ℤ) + y.length * (k / y.length : ℕ) : ℤ) = k by exact_mod_cast Nat.mod_add_div k y.length] at hs
  rw [hs, sum_eq_single_of_mem 0 (mem_range.2 he) fun r hr h0 => ?_]
  · have : (fun m => nth (interspersed e y) (m * e + 0)) = nth y := funext fun m => by rw [nth_interspersed he, if_pos rfl]
    rw [this]
    simp
  · have : (fun m => nth (interspersed e y) (m * e + r)) = fun _ => 0 := funext fun m => by rw [nth_interspersed (mem_range.1 hr), if_neg h0]
    rw [this]
    simp [hart]

theorem map_repeated (g : ℝ → ℝ) (e : ℕ) (y : List ℝ) : (repeated e y).map g = repeated e (y.map g) := by
  simp [repeated, List.map_flatten]

theorem dht_map_mul (c : ℝ) (y : List ℝ) : dht (y.map fun v => c * v) = (dht y).map fun v => c * v := by
  rw [dht, dht, List.map_map, List.length_map]
  refine List.map_congr_left fun k _ => ?_
  simp only [Function.comp, dhtCoeff, List.length_map, mul_sum]
  refine sum_congr rfl fun i hi => ?_
  have := mem_range.1 hi
  rw [show (y.map fun v => c * v).getD i 0 = c * y.getD i 0 by simp [this]]
  ring

theorem dht_repeated {e : ℕ} (he : 0 < e) (y : List ℝ) : dht (repeated e y) = interspersed e ((dht y).map fun v => (e : ℝ) * v) := by
  have hl : (interspersed e ((dht y).map fun v => (e : ℝ) * v)).length = e * y.length := by rw [length_interspersed he]; simp
  refine dht_injective (by rw [hl, length_dht, length_repeated]) ?_
  rw [dht_dht, dht_interspersed he, dht_map_mul, dht_dht, length_repeated, map_repeated, List.map_map]
  congr 1
  refine List.map_congr_left fun v _ => ?_
  simp only [Function.comp]
  push_cast
  ring

/-- A signal `e` times one after the other: `e` times the transform of the signal, spread out with zeros.  The two
transforms are computed by two compositions, of length `n` and `e n`. -/
theorem C94_repeated (p p' : Plan) (hr : p.SmallRadix4) (hr' : p'.SmallRadix4) (d d' : Dht ℝ) (h : p.build ℝ = .ok d)
    (h' : p'.build ℝ = .ok d') (e : ℕ) (he : 0 < e) (hl : d'.len = e * d.len) (y : List ℝ) (hy : y.length = d.len) :
    ∃ Y, d.process y = .ok Y ∧ d'.process (repeated e y) = .ok (interspersed e (Y.map fun v => (e : ℝ) * v)) := by
  refine ⟨_, process_single (plan_dht p hr d h) hy, ?_⟩
  rw [process_single (plan_dht p' hr' d' h') (by rw [length_repeated, hy, hl]), dht_repeated he]

/-- A signal spread out with zeros: the transform of the signal, `e` times one after the other. -/
theorem C94_interspersed (p p' : Plan) (hr : p.SmallRadix4) (hr' : p'.SmallRadix4) (d d' : Dht ℝ) (h : p.build ℝ = .ok d)
    (h' : p'.build ℝ = .ok d') (e : ℕ) (he : 0 < e) (hl : d'.len = e * d.len) (y : List ℝ) (hy : y.length = d.len) :
    ∃ Y, d.process y = .ok Y ∧ d'.process (interspersed e y) = .ok (repeated e Y) := by
  refine ⟨_, process_single (plan_dht p hr d h) hy, ?_⟩
  rw [process_single (plan_dht p' hr' d' h') (by rw [length_interspersed he, hy, hl]), dht_interspersed he]

/-! ## Instances -/

example : repeated 2 [1, 2, 3] = [1, 2, 3, 1, 2, 3] := by simp [repeated]
example : interspersed 2 [1, 2, 3] = [1, 0, 2, 0, 3, 0] := by simp [interspersed]

/-- `Butterfly3` and a composition for length 24. -/
example : ∃ d, lawPlan.build ℝ = .ok d ∧ ∀ y : List ℝ, y.length = 3 → ∃ Y, (butterfly3 ℝ).process y = .ok Y ∧
    d.process (repeated 8 y) = .ok (interspersed 8 (Y.map fun v => (8 : ℕ) * v)) := by
  obtain ⟨d, e, hr, hl⟩ := lawPlan_build
  exact ⟨d, e, fun y hy => C94_repeated .b3 lawPlan trivial hr (butterfly3 ℝ) d rfl e 8 (by omega) hl y hy⟩

example : ∃ d, lawPlan.build ℝ = .ok d ∧ ∀ y : List ℝ, y.length = 3 → ∃ Y, (butterfly3 ℝ).process y = .ok Y ∧
    d.process (interspersed 8 y) = .ok (repeated 8 Y) := by
  obtain ⟨d, e, hr, hl⟩ := lawPlan_build
  exact ⟨d, e, fun y hy => C94_interspersed .b3 lawPlan trivial hr (butterfly3 ℝ) d rfl e 8 (by omega) hl y hy⟩

end RustDHT
