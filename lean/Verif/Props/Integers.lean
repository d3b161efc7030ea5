import Verif.Proofs.Integers
import Verif.Props.Contract
import Verif.Props.FirstCoefficient
import Verif.Props.Impulse
import Verif.Props.SmallLengths

/-! # C74: what becomes of integer number types

The types `i8` to `i128` satisfy the bound `FftNum` of every object, and no constructor fails for them.  The constants are cut off to
integers then.  Lengths 1, 2 and 4 need no constants and are right; of every other length the DHT of some signal of zeros and ones is
not a list of integers at all, so that no answer can be right.  `R` is any commutative ring: the integers if nothing overflows, the
integers modulo a power of two if operations wrap. -/

namespace RustDHT

/-- Lengths 1, 2 and 4, by the objects that use no constants: the DHT of a list of integers is a list of integers, and it is what
comes out, modulo anything. -/
theorem C74_exact {R : Type} [CommRing R] [FftNum R] (p : Plan) (hp : p.Plain) (d : Dht R) (hd : p.build R = .ok d) (x : List ℤ)
    (hx : x.length = d.len) :
    ∃ X : List ℤ, X.map (fun a : ℤ => (a : ℝ)) = dht (x.map fun a : ℤ => (a : ℝ)) ∧
      d.process (x.map fun a : ℤ => (a : R)) = .ok (X.map fun a : ℤ => (a : R)) := by
  have hx' : (x.map fun a : ℤ => (a : R)).length = d.len := by simpa using hx
  have h1 : x.length = 1 → ∃ X : List ℤ, X.map (fun a : ℤ => (a : ℝ)) = dht (x.map fun a : ℤ => (a : ℝ)) ∧
      (x.map fun a : ℤ => (a : R)) = X.map fun a : ℤ => (a : R) := by
    intro hx
    obtain ⟨a, rfl⟩ := List.length_eq_one_iff.1 hx
    exact ⟨[a], by simp [dht, dhtCoeff, cas], rfl⟩
  have h2 : x.length = 2 → ∃ X : List ℤ, X.map (fun a : ℤ => (a : ℝ)) = dht (x.map fun a : ℤ => (a : ℝ)) ∧
      bflyFn contiguous2 (x.map fun a : ℤ => (a : R)) = X.map fun a : ℤ => (a : R) := by
    intro hx
    obtain ⟨a, b, rfl⟩ := List.length_eq_two.1 hx
    refine ⟨[a + b, a - b], ?_, ?_⟩
    · simp only [List.map_cons, List.map_nil]
      push_cast
      exact butterfly2_implements.unique butterfly2_dht (x := [(a : ℝ), (b : ℝ)]) rfl (by decide)
    · simp only [List.map_cons, List.map_nil]
      push_cast
      rfl
  have h4 : x.length = 4 → ∃ X : List ℤ, X.map (fun a : ℤ => (a : ℝ)) = dht (x.map fun a : ℤ => (a : ℝ)) ∧
      bflyFn contiguous4 (x.map fun a : ℤ => (a : R)) = X.map fun a : ℤ => (a : R) := by
    intro hx
    obtain ⟨a, b, c, d, rfl⟩ : ∃ a b c d, x = [a, b, c, d] := by
      match x, hx with
      | [a, b, c, d], _ => exact ⟨a, b, c, d, rfl⟩
    refine ⟨[a + c + (b + d), a - c + (b - d), a + c - (b + d), a - c - (b - d)], ?_, ?_⟩
    · simp only [List.map_cons, List.map_nil]
      push_cast
      exact butterfly4_implements.unique butterfly4_dht (x := [(a : ℝ), (b : ℝ), (c : ℝ), (d : ℝ)]) rfl (by decide)
    · simp only [List.map_cons, List.map_nil]
      push_cast
      rfl
  match p, hp with
  | .b1, _ =>
    cases hd
    obtain ⟨X, e1, e2⟩ := h1 hx
    exact ⟨X, e1, e2 ▸ process_single butterfly1_implements hx'⟩
  | .b2, _ =>
    cases hd
    obtain ⟨X, e1, e2⟩ := h2 hx
    exact ⟨X, e1, e2 ▸ process_single butterfly2_implements hx'⟩
  | .b4, _ =>
    cases hd
    obtain ⟨X, e1, e2⟩ := h4 hx
    exact ⟨X, e1, e2 ▸ process_single butterfly4_implements hx'⟩
  | .radix4 n, hp =>
    obtain ⟨m, rfl⟩ := radix4_isPow hd
    have hm : m ≤ 2 := by
      have : (2 : ℕ) ^ m ≤ 2 ^ 2 := hp
      exact (Nat.pow_le_pow_iff_right (by norm_num)).1 this
    have hd' : radix4 R (2 ^ m) = .ok d := hd
    have hlen : d.len = 2 ^ m := by
      rw [radix4_eq] at hd'
      cases hd'
      rfl
    have hi := process_single (radix4_implements hd') hx'
    rw [hlen] at hx hx'
    rw [radix4Fn_small hm hx'] at hi
    interval_cases m
    · obtain ⟨X, e1, e2⟩ := h1 hx
      exact ⟨X, e1, e2 ▸ hi⟩
    · obtain ⟨X, e1, e2⟩ := h2 hx
      exact ⟨X, e1, e2 ▸ hi⟩
    · obtain ⟨X, e1, e2⟩ := h4 hx
      exact ⟨X, e1, e2 ▸ hi⟩

/-- No other length: the DHT of the unit impulse at 1 is no list of integers. -/
theorem C74_only (n : ℕ) (hn : 0 < n) (h : n ≠ 1 ∧ n ≠ 2 ∧ n ≠ 4) :
    ∃ x : List ℤ, x.length = n ∧ (∀ a ∈ x, a = 0 ∨ a = 1) ∧
      ∀ X : List ℤ, X.map (fun a : ℤ => (a : ℝ)) ≠ dht (x.map fun a : ℤ => (a : ℝ)) := by
  have hd : ¬ n ∣ 4 := fun hd => by
    have := Nat.le_of_dvd (by norm_num) hd
    interval_cases n <;> omega
  have h2 : 2 < n := by omega
  refine ⟨(List.range n).map fun i => if i = 1 then 1 else 0, by simp, ?_, ?_⟩
  · intro a ha
    obtain ⟨i, -, rfl⟩ := List.mem_map.1 ha
    by_cases hi : i = 1 <;> simp [hi]
  · intro X e
    have em : ((List.range n).map fun i => if i = 1 then (1 : ℤ) else 0).map (fun a : ℤ => (a : ℝ))
        = (List.range n).map fun i => if i = 1 then (1 : ℝ) else 0 := by
      rw [List.map_map]
      refine List.map_congr_left fun i _ => ?_
      by_cases hi : i = 1 <;> simp [hi]
    rw [em] at e
    have e1 := congrArg (·[1]?) e
    have hlen : ((List.range n).map fun i => if i = 1 then (1 : ℝ) else 0).length = n := by simp
    have hc : dhtCoeff ((List.range n).map fun i => if i = 1 then (1 : ℝ) else 0) 1
        = Real.cos (2 * Real.pi / n) + Real.sin (2 * Real.pi / n) := by
      rw [dhtCoeff, hlen, Finset.sum_eq_single 1]
      · rw [List.getD_eq_getElem?_getD, List.getElem?_map, List.getElem?_range (by omega)]
        simp [cas]
      · intro i hi hne
        rw [List.getD_eq_getElem?_getD, List.getElem?_map, List.getElem?_range (Finset.mem_range.1 hi)]
        simp [hne]
      · intro h
        exact absurd (Finset.mem_range.2 (by omega)) h
    simp only [dht, hlen, List.getElem?_map] at e1
    rw [List.getElem?_range (by omega), Option.map_some, hc] at e1
    obtain ⟨a, -, ha⟩ := Option.map_eq_some_iff.1 e1
    exact cas_irrational hn hd ⟨a, by rw [← ha]; norm_cast⟩

section
variable [MathLib] (R : Type) [CommRing R]

attribute [local instance] integerNum

/-- Coefficient 0 is right for every composition, and with it the whole answer to an impulse. -/
theorem C74_first (hz : MathLib.AtZero) (p : Plan) (d : Dht R) (hd : p.build R = .ok d) (hpos : 0 < d.len) :
    (∀ x : List R, x.length = d.len → ∃ X, d.process x = .ok X ∧ X[0]? = some x.sum) ∧
    ∀ a : R, d.process (a :: List.replicate (d.len - 1) 0) = .ok (List.replicate d.len a) := by
  refine ⟨fun x hx => ?_, C73_ring (fun n hn => integer_twiddle_zero R hz hn) p d hd hpos⟩
  obtain ⟨X, X₀, e, h0, hs⟩ := C69_sum (fun n hn a => by rw [integer_twiddle_zero R hz hn, one_mul]) p d hd x hx hpos
  refine ⟨X, e, ?_⟩
  rw [h0, hs.eq_sum, Multiset.sum_coe]

/-- `DhtNaive` of odd length: all factors but those with angle zero are cut off to zero. -/
theorem C74_naive (hl : MathLib.Accurate) (hz : MathLib.AtZero) (n : ℕ) (hn : n % 2 = 1) (h : n ≤ 2 ^ 20) (x : List R)
    (hx : x.length = n) :
    (dhtNaive R n).process x
      = .ok ((List.range n).map fun k => ∑ i ∈ Finset.range n, if n ∣ i * k then x.getD i 0 else 0) := by
  rw [process_single (dhtNaive_implements n) (by rw [hx, dhtNaive_len]), integer_naive R hl hz hn h hx]
  rfl

/-- `RadersAlgorithm` around any composition: `1 / (p - 1)` is cut off to zero, so that nothing but the first input reaches the other
coefficients. -/
theorem C74_raders (hz : MathLib.AtZero) (i : Plan) (d : Dht R) (hd : (Plan.raders i).build R = .ok d) (x : List R)
    (hx : x.length = d.len) :
    d.process x = .ok (x.sum :: List.replicate (d.len - 1) (x.getD 0 0)) := by
  have hd' : (i.build R >>= fun a => raders a) = .ok d := hd
  cases hb : i.build R with
  | error e => rw [hb] at hd'; cases hd'
  | ok id =>
    rw [hb] at hd'
    have hr : raders id = .ok d := hd'
    obtain ⟨f, hf⟩ := (plan_ok i id hb).implements
    have hflat : 0 < id.len → Flat (fun b : R => b = 0) id.len f := by
      intro hpos
      obtain ⟨f', hf', h⟩ := plan_flat (fun b : R => b = 0) i id hb hpos
      exact (flatDht_iff hf).1 (fun A hA a y hy ha hz => by
        rw [hf.unique hf' (by simpa using hy) hpos]
        exact (flatDht_iff hf').2 (fun _ => h) A hA a y hy ha hz) hpos
    obtain ⟨X₀, e⟩ := integer_raders R hz hf hflat hr hx
    obtain ⟨g, gi, hdata⟩ := raders_data hf hr
    have hdl : d.len = id.len + 1 := by rw [hdata.eq]; rfl
    obtain ⟨X, e', h0⟩ := (C74_first R hz _ d hd (by omega)).1 x hx
    rw [e] at e'
    cases e'
    rw [List.getElem?_cons_zero, Option.some.injEq] at h0
    rw [e, h0]
    rfl

end

/-! ## Cases -/

/-- `Radix4` of length 4 in `i8`, with wrapping. -/
example [FftNum (ZMod 256)] : ∃ d : Dht (ZMod 256), radix4 (ZMod 256) 4 = .ok d ∧ ∃ X : List ℤ,
    X.map (fun a : ℤ => (a : ℝ)) = dht ([100, 100, 100, 1].map fun a : ℤ => (a : ℝ)) ∧
    d.process ([100, 100, 100, 1].map fun a : ℤ => (a : ZMod 256)) = .ok (X.map fun a : ℤ => (a : ZMod 256)) := by
  have h := radix4_eq (T := ZMod 256) 2
  generalize hr : boilerplateDht _ _ _ _ _ = r at h
  have hl : r.len = 2 ^ 2 := by rw [← hr]; rfl
  exact ⟨r, h, C74_exact (R := ZMod 256) (.radix4 4) (by show (4 : ℕ) ≤ 4; decide) r h [100, 100, 100, 1] (by rw [hl]; rfl)⟩

/-- Length 3. -/
example : ∃ x : List ℤ, x.length = 3 ∧ (∀ a ∈ x, a = 0 ∨ a = 1) ∧
    ∀ X : List ℤ, X.map (fun a : ℤ => (a : ℝ)) ≠ dht (x.map fun a : ℤ => (a : ℝ)) := C74_only 3 (by norm_num) (by norm_num)

section
variable [MathLib]

attribute [local instance] integerNum

/-- `DhtNaive` of length 9: the factors of 0, 3 and 6 survive where their angle is a multiple of a full turn. -/
example (hl : MathLib.Accurate) (hz : MathLib.AtZero) :
    (dhtNaive ℤ 9).process [1, 2, 3, 4, 5, 6, 7, 8, 9] = .ok [45, 1, 1, 12, 1, 1, 12, 1, 1] := by
  rw [C74_naive ℤ hl hz 9 (by norm_num) (by norm_num) _ rfl]
  rfl

/-- Rader's algorithm of length 7. -/
example (hz : MathLib.AtZero) : ∃ d : Dht ℤ, raders (dhtNaive ℤ 6) = .ok d ∧
    d.process [1, 2, 3, 4, 5, 6, 7] = .ok [28, 1, 1, 1, 1, 1, 1] := by
  have h6 : (dhtNaive ℤ 6).len + 1 = 7 := rfl
  obtain ⟨f, hf⟩ := (plan_ok (T := ℤ) (.naive 6) _ rfl).implements
  obtain ⟨d, hd⟩ := (C25_raders_new_partial (dhtNaive ℤ 6) hf.accepts (by rw [h6]; norm_num)).1.2 (by rw [h6]; norm_num)
  obtain ⟨g, gi, hdata⟩ := raders_data hf hd
  have h7 : d.len = 7 := by rw [hdata.eq]; rfl
  refine ⟨d, hd, ?_⟩
  rw [C74_raders ℤ hz (.naive 6) d hd _ (by rw [h7]; rfl), h7]
  rfl

end

end RustDHT
