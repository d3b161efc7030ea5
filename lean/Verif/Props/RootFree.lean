import Verif.Proofs.RootReal
import Verif.Props.Exact
import Verif.Props.Root
import Verif.Props.Patched

/-! # C80: which compositions the rounded constant `sqrt(1/2)` affects

`T::from_f32(0.5f32.sqrt())` (src/scalar/mixed_radix.rs:54-61, radix3.rs:33, radix5.rs:33, radix6.rs:34) has only 24 bits, also if `T` is
`f64` (C34).  A composition in which the constant does not occur is exactly what it would be with the right one.  In every other the
error shows: it is not made up for by any other part of the composition, and not by the second use of it in Rader's algorithm.

This holds for every rational number in place of the constant, and so for everything that a floating-point type can represent
(`C80_iff`).  For a real number (`C80_iff_real`) it is shown of the compositions in which around the constant there is no Rader's algorithm,
or one that has the constant in mixed-radix algorithms only and no `Radix4` above 64 besides. -/

namespace RustDHT

/-- In a composition where the constant does not occur nothing depends on it, in any arithmetic: the object is the same. -/
theorem C80_unaffected {T : Type} [Zero T] [Add T] [Sub T] [Mul T] [Neg T] (i : FftNum T) (ρ : T) (p : Plan) (hp : p.RootFree) :
    @Plan.build T _ _ _ _ _ (i.withRoot ρ) p = @Plan.build T _ _ _ _ _ i p :=
  build_rootFree (i := i) ρ p hp

/-- In arithmetic that is exact but for the constant, which is rational, a composition computes the DHT if and only if the constant does
not occur in it (and no `Radix4` above 64, see C79). -/
theorem C80_iff (ρ : ℚ) (p : Plan) (d : Dht ℝ) (hd : @Plan.build ℝ _ _ _ _ _ (realWithRoot ρ) p = .ok d) (hpos : 0 < d.len) :
    ComputesDht d ↔ p.SmallRadix4 ∧ p.RootFree := by
  refine ⟨fun h => plan_reordered_rat ρ p d hd hpos h (IsDht.reordered fun _ _ => rfl), fun h => ?_⟩
  rw [build_eq ρ h.2] at hd
  exact plan_dht p h.1 d hd

/-- The value that the code has. -/
theorem C80_rounded (p : Plan) (d : Dht ℝ) (hd : @Plan.build ℝ _ _ _ _ _ (realWithRoot sqrtHalfRounded) p = .ok d) (hpos : 0 < d.len) :
    ComputesDht d ↔ p.SmallRadix4 ∧ p.RootFree := by
  have e : sqrtHalfRounded = ((11863283 / 2 ^ 24 : ℚ) : ℝ) := by unfold sqrtHalfRounded; push_cast; norm_num
  rw [e] at hd
  exact C80_iff _ p d hd hpos

/-- Any real number. -/
theorem C80_iff_real (ρ : ℝ) (h1 : ρ ≠ √(1 / 2)) (h2 : ρ ≠ -√(1 / 2)) (p : Plan) (hp : p.RadersKnown) (d : Dht ℝ)
    (hd : @Plan.build ℝ _ _ _ _ _ (realWithRoot ρ) p = .ok d) (hpos : 0 < d.len) :
    ComputesDht d ↔ p.SmallRadix4 ∧ p.RootFree := by
  refine ⟨plan_root_only ρ (fun h => ?_) p hp d hd hpos, fun h => ?_⟩
  · rw [mul_pow, Real.sq_sqrt (by norm_num)] at h
    have h3 : √(1 / 2 : ℝ) ^ 2 = 1 / 2 := Real.sq_sqrt (by norm_num)
    have h4 : ρ ^ 2 = √(1 / 2) ^ 2 := by rw [h3]; linarith
    rcases sq_eq_sq_iff_eq_or_eq_neg.1 h4 with h5 | h5
    · exact h1 h5
    · exact h2 h5
  · rw [build_eq ρ h.2] at hd
    exact plan_dht p h.1 d hd

/-- If it occurs, then there is a signal for which `process` returns something else than the DHT. -/
theorem C80_witness (p : Plan) (d : Dht ℝ)
    (hd : @Plan.build ℝ _ _ _ _ _ (realWithRoot sqrtHalfRounded) p = .ok d) (hpos : 0 < d.len) (h : ¬ p.RootFree) :
    ∃ x X, x.length = d.len ∧ d.process x = .ok X ∧ X.length = d.len ∧ X ≠ dht x := by
  obtain ⟨f, hf⟩ := (@plan_ok ℝ _ _ _ _ _ (realWithRoot sqrtHalfRounded) p d hd).implements
  by_contra hc
  push Not at hc
  exact h ((C80_rounded p d hd hpos).1
    ((only_of_fn hf hpos).2 fun x hx => hc x (f x) hx (process_single hf hx) (hf.length x hx))).2

/-- The rounded value is too small, so energy gets lost: never does a composition gain any, and if the constant occurs it loses some
of every signal whose entries all differ. -/
theorem C80_energy (p : Plan) (hp : p.RootMixed) (hs : p.SmallRadix4) (d : Dht ℝ)
    (hd : @Plan.build ℝ _ _ _ _ _ (realWithRoot sqrtHalfRounded) p = .ok d) (hpos : 0 < d.len) (x X : List ℝ) (hx : x.length = d.len)
    (hX : d.process x = .ok X) :
    (X.map (· ^ 2)).sum ≤ (d.len : ℝ) * (x.map (· ^ 2)).sum ∧
    (¬ p.RootFree → x.Nodup → (X.map (· ^ 2)).sum < (d.len : ℝ) * (x.map (· ^ 2)).sum) := by
  have hlt : (sqrtHalfRounded * √2) ^ 2 < 1 := by
    rw [mul_pow, Real.sq_sqrt (by norm_num), sqrtHalfRounded]
    norm_num
  obtain ⟨f, hf, g1, g2⟩ := plan_gains sqrtHalfRounded (c := -1) (by linarith) p hs hp d hd hpos
  rw [process_single hf hx] at hX
  cases hX
  have e : ∀ y : List ℝ, y.length = d.len → (y.map (· ^ 2)).sum = en d.len y := by
    intro y hy
    rw [list_sum, List.length_map, hy, en]
    refine Finset.sum_congr rfl fun i hi => ?_
    have hi : i < y.length := by rw [hy]; exact Finset.mem_range.1 hi
    simp [nth, hi]
  rw [e _ hx, e _ (hf.length x hx)]
  refine ⟨by linarith [g1 x hx], fun hn hd => ?_⟩
  have := g2 hn x hx fun i hi j hj h => by
    rw [← hx] at hi hj
    simp only [nth, List.getElem?_eq_getElem hi, List.getElem?_eq_getElem hj, Option.getD_some] at h
    exact hd.getElem_inj_iff.1 h
  linarith

/-- `MixedRadix` with both sides from 2 on is never right, whatever the parts. -/
theorem C80_mixedRadix (w h : Plan) (d : Dht ℝ)
    (hd : @Plan.build ℝ _ _ _ _ _ (realWithRoot sqrtHalfRounded) (.mixedRadix w h) = .ok d) (hpos : 0 < d.len)
    (h2 : 2 ≤ w.expectedLen) (h2' : 2 ≤ h.expectedLen) : ¬ ComputesDht d := by
  intro hc
  have := ((C80_rounded _ d hd hpos).1 hc).2.1
  omega

section
variable [MathLib]

/-- In `f64`, a composition without the constant has the accuracy of `f64`: the bound of C68 holds for the code as it is. -/
theorem C80_f64 (hl : MathLib.Accurate) (p : Plan) (hp : p.RootFree) (hs : p.SmallRadix4) (d : Dht (Flt binary64))
    (hd : p.build (Flt binary64) = .ok d) :
    ∃ f, Implements d f ∧
      ∀ x, x.length = d.len → (∀ a ∈ x, a.fin) → ∀ a : Stab, a = p.stability 69 1 → a.depth ≤ 2 ^ 52 →
        a.big * (√d.len * (2 * (max (norm2 (x.map Flt.val)) 1 + a.under * 2⁻¹ ^ 1075 * √d.len))) ≤ 2 ^ 1023 →
        (∀ y ∈ f x, y.fin) ∧
        norm2 (List.zipWith (· - ·) ((f x).map Flt.val) (dht (x.map Flt.val)))
          ≤ a.depth * 2⁻¹ ^ 52 * norm2 (dht (x.map Flt.val)) + 2 * a.under * 2⁻¹ ^ 1075 * d.len := by
  have e : @Plan.build (Flt binary64) _ _ _ _ _ (ieeePatched binary64) p = .ok d :=
    (C80_unaffected (ieee binary64) (.convert binary64 (.roundSigned binary64 false √(1 / 2))) p hp).trans hd
  obtain ⟨f, hi, h⟩ := @C46_relative_error (Flt binary64) _ _ _ _ _ (ieeePatched binary64) _ _ _ _ _ _ _ p hs (C68_constant_f64 hl) d e
  refine ⟨f, hi, fun x hx hf a ha hD hO => ?_⟩
  have hD' : (a.depth : ℝ) ≤ 2 ^ 52 := by exact_mod_cast hD
  obtain ⟨h1, h2⟩ := h x hx hf a ha (by
    have := mul_le_mul_of_nonneg_right hD' (show (0 : ℝ) ≤ 2⁻¹ ^ 53 by positivity)
    norm_num at this ⊢
    linarith) hO
  refine ⟨h1, h2.trans_eq ?_⟩
  rw [show (2 : ℝ) * a.depth * 2⁻¹ ^ 53 = a.depth * 2⁻¹ ^ 52 by ring]

end

/-- There is one for every power of two, without `DhtNaive`. -/
theorem C80_powers (m : ℕ) : ∃ p : Plan, p.expectedLen = 2 ^ m ∧ p.RootFree ∧ p.SmallRadix4 ∧ (∀ n, ¬ p.HasNaive n) ∧
    ∀ (T : Type) [Zero T] [Add T] [Sub T] [Mul T] [Neg T] [FftNum T], ∃ d, p.build T = .ok d ∧ d.len = 2 ^ m := by
  induction m with
  | zero => exact ⟨.b1, rfl, trivial, trivial, fun _ h => h, fun T => ⟨_, rfl, rfl⟩⟩
  | succ m ih =>
    obtain ⟨p, h1, h2, h3, h4, h5⟩ := ih
    refine ⟨.mr2 p, by rw [Plan.expectedLen, h1, pow_succ, Nat.mul_comm], h2, h3, h4, fun T => ?_⟩
    intros
    obtain ⟨d, e, hl⟩ := h5 T
    exact ⟨mixedRadix2xn d, by rw [Plan.build, e]; rfl, by rw [pow_succ, ← hl, Nat.mul_comm]; rfl⟩

/-- For an odd length that is not prime, other than 1 and 9, only `DhtNaive` of that length is: every other composition is affected. -/
theorem C80_odd {T : Type} [Zero T] [Add T] [Sub T] [Mul T] [Neg T] [FftNum T] (p : Plan) (hp : p.RootFree) (d : Dht T)
    (hd : p.build T = .ok d) (hodd : d.len % 2 = 1) (hn : ¬ d.len.Prime) (h1 : d.len ≠ 1) (h9 : d.len ≠ 9) : p.HasNaive d.len := by
  have hlen := plan_len p d hd
  rw [hlen] at hodd hn h1 h9 ⊢
  clear hlen
  induction p generalizing d with
  | naive n => rfl
  | mixedRadix w h ihw ihh =>
    obtain ⟨wd, ew, e⟩ := bind_eq_ok hd
    obtain ⟨hd', eh, e⟩ := bind_eq_ok e
    obtain ⟨h0, hw, hh⟩ := hp
    change w.expectedLen * h.expectedLen % 2 = 1 at hodd
    change ¬ (w.expectedLen * h.expectedLen).Prime at hn
    change w.expectedLen * h.expectedLen ≠ 1 at h1
    change w.expectedLen * h.expectedLen ≠ 9 at h9
    show w.HasNaive (w.expectedLen * h.expectedLen) ∨ h.HasNaive (w.expectedLen * h.expectedLen)
    have hw0 : w.expectedLen ≠ 0 := fun h => by rw [h, Nat.zero_mul] at hodd; omega
    have hh0 : h.expectedLen ≠ 0 := fun h => by rw [h, Nat.mul_zero] at hodd; omega
    rcases h0 with h0 | h0
    · have e1 : w.expectedLen * h.expectedLen = h.expectedLen := by rw [show w.expectedLen = 1 by omega, Nat.one_mul]
      rw [e1] at hodd hn h1 h9 ⊢
      exact Or.inr (ihh hh hd' eh hodd hn h1 h9)
    · have e1 : w.expectedLen * h.expectedLen = w.expectedLen := by rw [show h.expectedLen = 1 by omega, Nat.mul_one]
      rw [e1] at hodd hn h1 h9 ⊢
      exact Or.inl (ihw hw wd ew hodd hn h1 h9)
  | mr2 h => change 2 * h.expectedLen % 2 = 1 at hodd; omega
  | mr3 h =>
    have h0 := hp.1
    change 3 * h.expectedLen % 2 = 1 at hodd
    refine absurd ?_ hn
    change (3 * h.expectedLen).Prime
    rw [show h.expectedLen = 1 by omega]
    norm_num
  | mr4 h => change 4 * h.expectedLen % 2 = 1 at hodd; omega
  | mr5 h =>
    have h0 := hp.1
    change 5 * h.expectedLen % 2 = 1 at hodd
    refine absurd ?_ hn
    change (5 * h.expectedLen).Prime
    rw [show h.expectedLen = 1 by omega]
    norm_num
  | mr6 h => change 6 * h.expectedLen % 2 = 1 at hodd; omega
  | splitRadix q h => change 4 * q.expectedLen % 2 = 1 at hodd; omega
  | raders i =>
    obtain ⟨id, ei, e⟩ := bind_eq_ok hd
    obtain ⟨f, hf⟩ := (plan_ok i id ei).implements
    obtain ⟨g, gi, hdata⟩ := raders_data hf e
    refine absurd ?_ hn
    change (i.expectedLen + 1).Prime
    rw [← plan_len i id ei]
    exact hdata.prime
  | radix4 n =>
    obtain ⟨m, rfl⟩ := radix4_isPow (show radix4 T n = .ok d from hd)
    change 2 ^ m % 2 = 1 at hodd
    change 2 ^ m ≠ 1 at h1
    rcases m with _ | m
    · exact absurd rfl h1
    · rw [pow_succ] at hodd
      omega
  | b3 => exact absurd Nat.prime_three hn
  | b5 => exact absurd Nat.prime_five hn
  | b1 => exact absurd rfl h1
  | b9 => exact absurd rfl h9
  | _ => exact absurd hodd (by decide)

/-! ## Cases -/

/-- Length 48 as 4 * (2 * 6) is not affected, as 3 * 16 it is. -/
example : (Plan.mr4 (.mr2 .b6)).RootFree ∧ ¬ (Plan.mr3 .b16).RootFree :=
  ⟨trivial, fun h => absurd (show 16 ≤ 1 from h.1) (by norm_num)⟩

/-- Rader's algorithm for 13 around 3 * 4: the constant occurs in the inner object, and the result is wrong. -/
example (d : Dht ℝ) (hd : @Plan.build ℝ _ _ _ _ _ (realWithRoot sqrtHalfRounded) (.raders (.mr3 .b4)) = .ok d) : ¬ ComputesDht d := by
  intro hc
  have hl := @plan_len ℝ _ _ _ _ _ (realWithRoot sqrtHalfRounded) _ d hd
  have h := ((C80_rounded (.raders (.mr3 .b4)) d hd (by rw [hl]; exact Nat.succ_pos _)).1 hc).2.1
  exact absurd (show 4 ≤ 1 from h) (by norm_num)

/-- The constructors of that composition succeed. -/
example : ∃ d : Dht ℝ, @Plan.build ℝ _ _ _ _ _ (realWithRoot sqrtHalfRounded) (.raders (.mr3 .b4)) = .ok d := by
  obtain ⟨f, hf⟩ := (@plan_ok ℝ _ _ _ _ _ (realWithRoot sqrtHalfRounded) (.mr3 .b4) _ rfl).implements
  obtain ⟨g, d, h, -⟩ := @raders_new_root ℝ _ _ _ _ (realWithRoot sqrtHalfRounded) _ f hf (show Nat.Prime 13 by norm_num) (show 13 ≠ 2 by norm_num) (show 13 < 2 ^ 32 by norm_num)
  exact ⟨d, h⟩

/-- Both defects: Rader's algorithm for 769 around `MixedRadix` of `Radix4` of length 256 and a butterfly. -/
example (d : Dht ℝ) (hd : @Plan.build ℝ _ _ _ _ _ (realWithRoot sqrtHalfRounded) (.raders (.mixedRadix (.radix4 256) .b3)) = .ok d) :
    ¬ ComputesDht d := by
  intro hc
  have hl := @plan_len ℝ _ _ _ _ _ (realWithRoot sqrtHalfRounded) _ d hd
  have h := ((C80_rounded _ d hd (by rw [hl]; exact Nat.succ_pos _)).1 hc).2.1
  exact absurd (show 256 ≤ 1 ∨ 3 ≤ 1 from h) (by norm_num)

/-- The constant in `SplitRadix` in Rader's algorithm: 193 as 4 * 48 + 1. -/
example (d : Dht ℝ)
    (hd : @Plan.build ℝ _ _ _ _ _ (realWithRoot sqrtHalfRounded) (.raders (.splitRadix (.mr3 .b16) (.mr2 (.mr3 .b16)))) = .ok d) :
    ¬ ComputesDht d := by
  intro hc
  have hl := @plan_len ℝ _ _ _ _ _ (realWithRoot sqrtHalfRounded) _ d hd
  have h := ((C80_rounded _ d hd (by rw [hl]; exact Nat.succ_pos _)).1 hc).2.1.1
  exact absurd (show 16 ≤ 1 from h) (by norm_num)

/-- Length 15. -/
example : (Plan.naive 15).RootFree ∧ ¬ (Plan.mr3 .b5).RootFree ∧ ¬ (Plan.mixedRadix .b3 .b5).RootFree :=
  ⟨trivial, fun h => absurd (show 5 ≤ 1 from h.1) (by norm_num), fun h => absurd (show 3 ≤ 1 ∨ 5 ≤ 1 from h.1) (by norm_num)⟩

end RustDHT
