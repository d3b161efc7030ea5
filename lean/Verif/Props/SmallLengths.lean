import Verif.Proofs.ExactIeee
import Verif.Proofs.Radix4
import Verif.Spec.Plain

/-! # C70: lengths 1, 2 and 4 are exact in floating point

The transforms of lengths 1, 2 and 4 need no constants, and `Butterfly1`, `Butterfly2`, `Butterfly4` and `Radix4` use none: on
integers, and on fixed-point numbers, that are not too large they make no rounding error at all.  No other length allows this: a
coefficient of a signal of zeros and ones is then irrational. -/

namespace RustDHT

variable {F : Fmt} [MathLib]

theorem C70_exact (p : Plan) (hp : p.Plain) (d : Dht (Flt F)) (hd : p.build (Flt F) = .ok d) (x : List (Flt F))
    (hx : x.length = d.len) (e : ℤ) (he : F.emin ≤ e) (hk : ∀ a ∈ x, a.fin ∧ ∃ k : ℤ, a.value = k * 2 ^ e)
    (hs : (x.map fun a => |a.value|).sum ≤ 2 ^ F.prec * 2 ^ e) (hΩ : (x.map fun a => |a.value|).sum < 2 ^ F.emax) :
    ∃ X, d.process x = .ok X ∧ X.map Flt.val = dht (x.map Flt.val) ∧
      ∀ a ∈ X, a.fin ∧ (∃ k : ℤ, a.value = k * 2 ^ e) ∧ |a.value| ≤ (x.map fun a => |a.value|).sum := by
  have g : ∀ a ∈ x, Flt.Grid e |a.value| a.value a := fun a ha => ⟨(hk a ha).1, rfl, (hk a ha).2, le_rfl⟩
  have h1 : x.length = 1 → (x.map Flt.val) = dht (x.map Flt.val) ∧
      ∀ a ∈ x, a.fin ∧ (∃ k : ℤ, a.value = k * 2 ^ e) ∧ |a.value| ≤ (x.map fun a => |a.value|).sum := by
    intro hx
    obtain ⟨a, rfl⟩ := List.length_eq_one_iff.1 hx
    refine ⟨?_, fun b hb => ?_⟩
    · simp [dht, dhtCoeff, cas]
    · obtain rfl := List.mem_singleton.1 hb
      exact ⟨(hk b hb).1, (hk b hb).2, by simp⟩
  have h2 : x.length = 2 → (bflyFn contiguous2 x).map Flt.val = dht (x.map Flt.val) ∧ ∀ a ∈ bflyFn contiguous2 x,
      a.fin ∧ (∃ k : ℤ, a.value = k * 2 ^ e) ∧ |a.value| ≤ (x.map fun a => |a.value|).sum := by
    intro hx
    obtain ⟨a, b, rfl⟩ := list2 hx
    have hS : ([a, b].map fun a => |a.value|).sum = |a.value| + |b.value| := by simp
    rw [hS] at hs hΩ ⊢
    have ga := g a (by simp)
    have gb := g b (by simp)
    have r1 := ga.add he gb hs hΩ
    have r2 := ga.sub he gb hs hΩ
    have ev : bflyFn contiguous2 [a, b] = [a + b, a - b] := rfl
    rw [ev]
    constructor
    · have e1 : (a + b).val = a.val + b.val := by rw [Flt.val, r1.value]; push_cast; rfl
      have e2 : (a - b).val = a.val - b.val := by rw [Flt.val, r2.value]; push_cast; rfl
      rw [List.map_cons, List.map_cons, List.map_nil, e1, e2]
      exact butterfly2_implements.unique butterfly2_dht (x := [a.val, b.val]) rfl (by decide)
    · intro c hc
      simp only [List.mem_cons, List.not_mem_nil, or_false] at hc
      rcases hc with rfl | rfl
      · exact ⟨r1.fin, r1.value ▸ r1.mul, r1.value ▸ r1.le⟩
      · exact ⟨r2.fin, r2.value ▸ r2.mul, r2.value ▸ r2.le⟩
  have h4 : x.length = 4 → (bflyFn contiguous4 x).map Flt.val = dht (x.map Flt.val) ∧ ∀ a ∈ bflyFn contiguous4 x,
      a.fin ∧ (∃ k : ℤ, a.value = k * 2 ^ e) ∧ |a.value| ≤ (x.map fun a => |a.value|).sum := by
    intro hx
    obtain ⟨a, b, c, d, rfl⟩ := list4 hx
    have hS : ([a, b, c, d].map fun a => |a.value|).sum = |a.value| + |c.value| + (|b.value| + |d.value|) := by
      simp; ring
    rw [hS] at hs hΩ ⊢
    have ga := g a (by simp)
    have gb := g b (by simp)
    have gc := g c (by simp)
    have gd := g d (by simp)
    have n1 := abs_nonneg a.value
    have n2 := abs_nonneg b.value
    have n3 := abs_nonneg c.value
    have n4 := abs_nonneg d.value
    have p1 := ga.add he gc (by linarith) (by linarith)
    have p2 := ga.sub he gc (by linarith) (by linarith)
    have q1 := gb.add he gd (by linarith) (by linarith)
    have q2 := gb.sub he gd (by linarith) (by linarith)
    have r0 := p1.add he q1 hs hΩ
    have r1 := p2.add he q2 hs hΩ
    have r2 := p1.sub he q1 hs hΩ
    have r3 := p2.sub he q2 hs hΩ
    have ev : bflyFn contiguous4 [a, b, c, d] = [a + c + (b + d), a - c + (b - d), a + c - (b + d), a - c - (b - d)] := rfl
    rw [ev]
    constructor
    · have e0 : (a + c + (b + d)).val = a.val + c.val + (b.val + d.val) := by rw [Flt.val, r0.value]; push_cast; rfl
      have e1 : (a - c + (b - d)).val = a.val - c.val + (b.val - d.val) := by rw [Flt.val, r1.value]; push_cast; rfl
      have e2 : (a + c - (b + d)).val = a.val + c.val - (b.val + d.val) := by rw [Flt.val, r2.value]; push_cast; rfl
      have e3 : (a - c - (b - d)).val = a.val - c.val - (b.val - d.val) := by rw [Flt.val, r3.value]; push_cast; rfl
      simp only [List.map_cons, List.map_nil, e0, e1, e2, e3]
      exact butterfly4_implements.unique butterfly4_dht (x := [a.val, b.val, c.val, d.val]) rfl (by decide)
    · intro y hy
      simp only [List.mem_cons, List.not_mem_nil, or_false] at hy
      rcases hy with rfl | rfl | rfl | rfl
      · exact ⟨r0.fin, r0.value ▸ r0.mul, r0.value ▸ r0.le⟩
      · exact ⟨r1.fin, r1.value ▸ r1.mul, r1.value ▸ r1.le⟩
      · exact ⟨r2.fin, r2.value ▸ r2.mul, r2.value ▸ r2.le⟩
      · exact ⟨r3.fin, r3.value ▸ r3.mul, r3.value ▸ r3.le⟩
  match p, hp with
  | .b1, _ =>
    cases hd
    exact ⟨x, process_single butterfly1_implements hx, h1 hx⟩
  | .b2, _ =>
    cases hd
    exact ⟨_, process_single butterfly2_implements hx, h2 hx⟩
  | .b4, _ =>
    cases hd
    exact ⟨_, process_single butterfly4_implements hx, h4 hx⟩
  | .radix4 n, hp =>
    obtain ⟨m, rfl⟩ := radix4_isPow hd
    have hm : m ≤ 2 := by
      have : (2 : ℕ) ^ m ≤ 2 ^ 2 := hp
      exact (Nat.pow_le_pow_iff_right (by norm_num)).1 this
    have hd' : radix4 (Flt F) (2 ^ m) = .ok d := hd
    have hi := radix4_implements hd'
    have hlen : d.len = 2 ^ m := by
      rw [radix4_eq] at hd'
      cases hd'
      rfl
    refine ⟨_, process_single hi hx, ?_⟩
    rw [hlen] at hx
    rw [radix4Fn_small hm hx]
    interval_cases m
    · exact h1 hx
    · exact h2 hx
    · exact h4 hx

/-- Twice in a row, there and back: every entry is multiplied by the length, without error. -/
theorem C70_round_trip (p : Plan) (hp : p.Plain) (d : Dht (Flt F)) (hd : p.build (Flt F) = .ok d) (x : List (Flt F))
    (hx : x.length = d.len) (e : ℤ) (he : F.emin ≤ e) (hk : ∀ a ∈ x, a.fin ∧ ∃ k : ℤ, a.value = k * 2 ^ e)
    (hs : d.len * (x.map fun a => |a.value|).sum ≤ 2 ^ F.prec * 2 ^ e)
    (hΩ : d.len * (x.map fun a => |a.value|).sum < 2 ^ F.emax) :
    ∃ X Y, d.process x = .ok X ∧ d.process X = .ok Y ∧ Y.map Flt.val = x.map fun a => (d.len : ℝ) * a.val := by
  rcases Nat.eq_zero_or_pos d.len with h0 | hpos
  · exfalso
    rw [h0] at hx
    obtain rfl := List.length_eq_zero_iff.1 hx
    match p, hp with
    | .b1, _ => cases hd; cases h0
    | .b2, _ => cases hd; cases h0
    | .b4, _ => cases hd; cases h0
    | .radix4 n, hp =>
      obtain ⟨m, rfl⟩ := radix4_isPow hd
      have hd' : radix4 (Flt F) (2 ^ m) = .ok d := hd
      rw [radix4_eq] at hd'
      cases hd'
      exact absurd h0 (Nat.two_pow_pos m).ne'
  have h1 : (1 : ℚ) ≤ d.len := by exact_mod_cast hpos
  have hS : 0 ≤ (x.map fun a => |a.value|).sum := List.sum_nonneg (by simp)
  have hle : (x.map fun a => |a.value|).sum ≤ d.len * (x.map fun a => |a.value|).sum := le_mul_of_one_le_left hS h1
  obtain ⟨X, e1, e2, e3⟩ := C70_exact p hp d hd x hx e he hk (hle.trans hs) (hle.trans_lt hΩ)
  have hX : X.length = d.len := by
    have := congrArg List.length e2
    rwa [List.length_map, length_dht, List.length_map, hx] at this
  have hSX : (X.map fun a => |a.value|).sum ≤ d.len * (x.map fun a => |a.value|).sum := by
    have := List.sum_le_card_nsmul (X.map fun a => |a.value|) _ (fun y hy => by
      obtain ⟨a, ha, rfl⟩ := List.mem_map.1 hy
      exact (e3 a ha).2.2)
    rwa [List.length_map, hX, nsmul_eq_mul] at this
  obtain ⟨Y, f1, f2, -⟩ := C70_exact p hp d hd X hX e he (fun a ha => ⟨(e3 a ha).1, (e3 a ha).2.1⟩) (hSX.trans hs)
    (hSX.trans_lt hΩ)
  refine ⟨X, Y, e1, f1, ?_⟩
  rw [f2, e2, dht_dht, List.length_map, hx, List.map_map]
  rfl

omit [MathLib] in
/-- No other length has this: one coefficient of the unit impulse at 1 is not a number of any format. -/
theorem C70_only (n : ℕ) (hn : 0 < n) (h : n ≠ 1 ∧ n ≠ 2 ∧ n ≠ 4) :
    ∃ x : List ℝ, x.length = n ∧ (∀ a ∈ x, a = 0 ∨ a = 1) ∧
      ∀ (F : Fmt) (X : List (Flt F)), X.map Flt.val ≠ dht x := by
  have hd : ¬ n ∣ 4 := fun hd => by
    have := Nat.le_of_dvd (by norm_num) hd
    interval_cases n <;> omega
  have h2 : 2 < n := by omega
  refine ⟨(List.range n).map fun i => if i = 1 then 1 else 0, by simp, ?_, ?_⟩
  · intro a ha
    obtain ⟨i, -, rfl⟩ := List.mem_map.1 ha
    by_cases hi : i = 1 <;> simp [hi]
  · intro F X e
    have e1 := congrArg (·[1]?) e
    have hlen : ((List.range n).map fun i => if i = 1 then (1 : ℝ) else 0).length = n := by simp
    have hc : dhtCoeff ((List.range n).map fun i => if i = 1 then (1 : ℝ) else 0) 1
        = Real.cos (2 * Real.pi / n) + Real.sin (2 * Real.pi / n) := by
      rw [dhtCoeff, hlen, Finset.sum_eq_single 1]
      · rw [List.getD_eq_getElem?_getD, List.getElem?_map, List.getElem?_range (by omega)]
        simp [cas]
      · intro i hi hne
        rw [List.getD_eq_getElem?_getD, List.getElem?_map, List.getElem?_range (Finset.mem_range.1 hi)]
        simp [hne]
      · intro h
        exact absurd (Finset.mem_range.2 (by omega)) h
    simp only [dht, hlen, List.getElem?_map] at e1
    rw [List.getElem?_range (by omega), Option.map_some, hc] at e1
    obtain ⟨a, -, ha⟩ := Option.map_eq_some_iff.1 e1
    exact cas_irrational hn hd ⟨a.value, ha⟩

/-! ## Cases -/

private def i32 (s : Bool) (k : ℕ) (h : k < 2 ^ 24) : Flt binary32 :=
  .num s k ⟨k, 0, h, by decide, by simp, lt_of_lt_of_le (b := (2 : ℚ) ^ 24) (by exact_mod_cast h)
    (by show (2 : ℚ) ^ 24 ≤ 2 ^ (128 : ℤ); norm_num)⟩

/-- 7, -3, 1000000 and 2 in `f32`, there and back. -/
example : ∃ X Y, (butterfly4 (Flt binary32)).process
    [i32 false 7 (by norm_num), i32 true 3 (by norm_num), i32 false 1000000 (by norm_num), i32 false 2 (by norm_num)] = .ok X ∧
    (butterfly4 (Flt binary32)).process X = .ok Y ∧ Y.map Flt.val = [28, -12, 4000000, 8] := by
  have hb : (2 : ℚ) ^ 24 ≤ 2 ^ (128 : ℤ) := by norm_num
  have h := C70_round_trip (F := binary32) .b4 trivial (butterfly4 (Flt binary32)) rfl
    [i32 false 7 (by norm_num), i32 true 3 (by norm_num), i32 false 1000000 (by norm_num), i32 false 2 (by norm_num)] rfl 0
    (by decide) ?_ ?_ ?_
  · obtain ⟨X, Y, h1, h2, h3⟩ := h
    refine ⟨X, Y, h1, h2, ?_⟩
    rw [h3, show (butterfly4 (Flt binary32)).len = 4 from rfl]
    norm_num [i32, Flt.val, Flt.value]
  · intro a ha
    simp only [List.mem_cons, List.not_mem_nil, or_false] at ha
    rcases ha with rfl | rfl | rfl | rfl
    · exact ⟨trivial, 7, by norm_num [i32, Flt.value]⟩
    · exact ⟨trivial, -3, by norm_num [i32, Flt.value]⟩
    · exact ⟨trivial, 1000000, by norm_num [i32, Flt.value]⟩
    · exact ⟨trivial, 2, by norm_num [i32, Flt.value]⟩
  · rw [show (butterfly4 (Flt binary32)).len = 4 from rfl]
    norm_num [i32, Flt.value, binary32]
  · refine lt_of_lt_of_le (b := (2 : ℚ) ^ 24) ?_ hb
    rw [show (butterfly4 (Flt binary32)).len = 4 from rfl]
    norm_num [i32, Flt.value]

/-- Length 8. -/
example : ∃ x : List ℝ, x.length = 8 ∧ (∀ a ∈ x, a = 0 ∨ a = 1) ∧
    ∀ (F : Fmt) (X : List (Flt F)), X.map Flt.val ≠ dht x := C70_only 8 (by norm_num) (by norm_num)

end RustDHT
