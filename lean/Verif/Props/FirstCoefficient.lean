import Verif.Proofs.SumsIeee
import Verif.Proofs.User
import Verif.Spec.Plan
import Verif.Props.Ieee
import Mathlib.Analysis.Complex.ExponentialBounds

/-! # C69: the first coefficient is a plain sum

Coefficient 0 of a DHT is the sum of the inputs.  Every composition computes it with additions alone: no constant of a table is
a factor in it, neither are differences taken, and each input is added exactly once.  So it is right also where other
coefficients are not (`Radix4` from 128 on, `sqrt(1/2)` with the precision of `f32`), and in floating point its error is that of a
sum. -/

namespace RustDHT

section
variable {T : Type} [Zero T] [Add T] [Sub T] [Mul T] [Neg T] [FftNum T]

/-- The first output adds up the inputs, in any arithmetic in which `DhtNaive`'s factor `cos 0 + sin 0` changes nothing. -/
theorem C69_sum (h1 : ∀ n, 0 < n → ∀ a : T, computeDhtTwiddle T 0 n * a = a) (p : Plan) (d : Dht T) (hd : p.build T = .ok d)
    (x : List T) (hx : x.length = d.len) (hpos : 0 < d.len) :
    ∃ X X₀, d.process x = .ok X ∧ X[0]? = some X₀ ∧ AddsUp (x : Multiset T) X₀ := by
  obtain ⟨f, hf, h⟩ := plan_dc h1 p d hd hpos
  have hl := hf.length x hx
  refine ⟨f x, (f x)[0], process_single hf hx, List.getElem?_eq_getElem (by omega), ?_⟩
  have := h x hx
  rwa [← hx, ms_nth, nth_eq_getElem (by omega)] at this

/-- Around inner objects from outside the crate: the first output adds up the inputs if it does so in the inner objects, of which
`SplitRadix` needs it of the half-length one only. -/
theorem C69_around (h1 : ∀ n, 0 < n → ∀ a : T, computeDhtTwiddle T 0 n * a = a) :
    (∀ (p : Plan) (d : Dht T), p.build T = .ok d → SumsFirst d) ∧
    (∀ wd hd : Dht T, SumsFirst wd → SumsFirst hd → SumsFirst (mixedRadix wd hd)) ∧
    (∀ hd : Dht T, SumsFirst hd → hd.oopScratchLen = 0 →
      (hd.inplaceScratchLen ≤ 2 * hd.len → SumsFirst (mixedRadix2xn hd)) ∧
      (hd.inplaceScratchLen ≤ 3 * hd.len → SumsFirst (mixedRadix3xn hd)) ∧
      (hd.inplaceScratchLen ≤ 4 * hd.len → SumsFirst (mixedRadix4xn hd)) ∧
      (hd.inplaceScratchLen ≤ 5 * hd.len → SumsFirst (mixedRadix5xn hd)) ∧
      (hd.inplaceScratchLen ≤ 6 * hd.len → SumsFirst (mixedRadix6xn hd))) ∧
    (∀ (qd hd d : Dht T) (fq : List T → List T), Implements qd fq → SumsFirst hd → splitRadix qd hd = .ok d →
      qd.oopScratchLen = 0 → qd.inplaceScratchLen ≤ 4 * qd.len → hd.inplaceScratchLen ≤ 2 * qd.len → SumsFirst d) ∧
    (∀ id d : Dht T, SumsFirst id → raders id = .ok d → SumsFirst d) := by
  refine ⟨fun p d hd => ?_, fun wd hd hw hh => ?_, fun hd hh h0 => ⟨fun h => ?_, fun h => ?_, fun h => ?_, fun h => ?_, fun h => ?_⟩,
    fun qd hd d fq iq hh e h0 h1 h2 => ?_, fun id d hi e => ?_⟩
  · rcases Nat.eq_zero_or_pos d.len with h0 | hpos
    · obtain ⟨f, hf⟩ := (plan_ok p d hd).implements
      exact ⟨f, hf, fun _ _ h => by omega⟩
    · obtain ⟨f, hf, h⟩ := plan_dc h1 p d hd hpos
      exact ⟨f, hf, (sumsFirst_iff hf).2 fun _ => h⟩
  · obtain ⟨fw, iw, gw⟩ := hw
    obtain ⟨fh, ih, gh⟩ := hh
    refine ⟨_, mixedRadix_implements iw ih, (sumsFirst_iff (mixedRadix_implements iw ih)).2 fun hpos => ?_⟩
    have hpos' : 0 < wd.len * hd.len := hpos
    have hw0 : 0 < wd.len := Nat.pos_of_mul_pos_right hpos'
    have hh0 : 0 < hd.len := Nat.pos_of_mul_pos_left hpos'
    exact mr_dc hw0 hh0 ((sumsFirst_iff iw).1 gw hw0) iw.length ((sumsFirst_iff ih).1 gh hh0) ih.length
  · exact sumsFirst_columns rfl hh (fun f i => mr2_implements i (fun _ => h) (fun _ => h0)) mr2_dc
  · exact sumsFirst_columns rfl hh (fun f i => mr3_implements i (fun _ => h) (fun _ => h0)) mr3_dc
  · exact sumsFirst_columns rfl hh (fun f i => mr4_implements i (fun _ => h) (fun _ => h0)) mr4_dc
  · exact sumsFirst_columns rfl hh (fun f i => mr5_implements i (fun _ => h) (fun _ => h0)) mr5_dc
  · exact sumsFirst_columns rfl hh (fun f i => mr6_implements i (fun _ => h) (fun _ => h0)) mr6_dc
  · obtain ⟨fh, ih, gh⟩ := hh
    have i := splitRadix_implements iq ih e fun _ => ⟨h0, h1, h2⟩
    refine ⟨_, i, (sumsFirst_iff i).2 fun hpos => ?_⟩
    have hlen := (splitRadix_eq e).1
    have hdl : d.len = 4 * qd.len := by rw [(splitRadix_eq e).2]; rfl
    have hq : 0 < qd.len := by omega
    rw [hdl]
    exact sr_dc hq (by rw [← hlen]; exact (sumsFirst_iff ih).1 gh (by omega))
  · obtain ⟨f, hf, h⟩ := hi
    obtain ⟨g, gi, hdata⟩ := raders_data hf e
    have h2 := hdata.prime.two_le
    have hdl : d.len = id.len + 1 := by rw [hdata.eq]; rfl
    refine ⟨_, hdata.implements hf, (sumsFirst_iff (hdata.implements hf)).2 fun _ => ?_⟩
    rw [hdl]
    exact rd_dc hdata.prime (by have := hdata.g_gt; omega) hdata.g_lt hdata.g_order ((sumsFirst_iff hf).1 h (by omega))

end

/-- In exact arithmetic, but for the constant `sqrt(1/2)`, which may have any value: the sum. -/
theorem C69_exact (ρ : ℝ) (p : Plan) (d : Dht ℝ) (hd : @Plan.build ℝ _ _ _ _ _ (realWithRoot ρ) p = .ok d) (x : List ℝ)
    (hx : x.length = d.len) (hpos : 0 < d.len) : ∃ X, d.process x = .ok X ∧ X[0]? = some x.sum := by
  obtain ⟨X, X₀, h1, h2, h3⟩ := @C69_sum ℝ _ _ _ _ _ (realWithRoot ρ) (fun n _ a => twiddle_zero_real ρ n a) p d hd x hx hpos
  refine ⟨X, h1, ?_⟩
  rw [h2, h3.eq_sum, Multiset.sum_coe]

/-- In floating point: if the inputs are multiples of a power of two, and their absolute values add up to a number of at most `prec`
bits, then the first coefficient is computed without error, by every composition. -/
theorem C69_ieee_exact {F : Fmt} [MathLib] (hz : MathLib.AtZero) (hF1 : F.emin ≤ 0) (hF2 : 0 < F.emax) (p : Plan)
    (d : Dht (Flt F)) (hd : p.build (Flt F) = .ok d) (x : List (Flt F)) (hx : x.length = d.len) (hpos : 0 < d.len)
    (e : ℤ) (he : F.emin ≤ e) (hk : ∀ a ∈ x, a.fin ∧ ∃ k : ℤ, a.value = k * 2 ^ e)
    (hs : (x.map fun a => |a.value|).sum ≤ 2 ^ F.prec * 2 ^ e) (hΩ : (x.map fun a => |a.value|).sum < 2 ^ F.emax) :
    ∃ X X₀, d.process x = .ok X ∧ X[0]? = some X₀ ∧ X₀.fin ∧ X₀.value = (x.map Flt.value).sum := by
  obtain ⟨X, X₀, h1, h2, h3⟩ := C69_sum (fun n hn a => Flt.twiddle_zero hz hF1 hF2 hn a) p d hd x hx hpos
  obtain ⟨g1, g2, -⟩ := Flt.sum_exact he h3 (by simpa using hk) (by simpa using hs) (by simpa using hΩ)
  exact ⟨X, X₀, h1, h2, g1, by simpa using g2⟩

/-- In floating point: the error is at most that of `n - 1` roundings, without a contribution of tables or constants. -/
theorem C69_ieee_error {F : Fmt} [MathLib] (hz : MathLib.AtZero) (hF1 : F.emin ≤ 0) (hF2 : 0 < F.emax)
    (hF : F.emin + 2 ≤ F.emax) (p : Plan) (d : Dht (Flt F)) (hd : p.build (Flt F) = .ok d) (x : List (Flt F))
    (hx : x.length = d.len) (hpos : 0 < d.len) (hfin : ∀ a ∈ x, a.fin)
    (hΩ : (1 + 2⁻¹ ^ F.prec) ^ (d.len - 1) * (x.map fun a => |a.val|).sum ≤ 2 ^ (F.emax - 1)) :
    ∃ X X₀, d.process x = .ok X ∧ X[0]? = some X₀ ∧ X₀.fin ∧
      |X₀.val - (x.map Flt.val).sum| ≤ ((1 + 2⁻¹ ^ F.prec) ^ (d.len - 1) - 1) * (x.map fun a => |a.val|).sum := by
  obtain ⟨X, X₀, h1, h2, h3⟩ := C69_sum (fun n hn a => Flt.twiddle_zero hz hF1 hF2 hn a) p d hd x hx hpos
  obtain ⟨g1, g2⟩ := Flt.sum_error hF h3 (by simpa using hfin) (by simpa [hx] using hΩ)
  exact ⟨X, X₀, h1, h2, g1, by simpa [hx] using g2⟩

/-! ## Cases -/

/-- An inner object with a demand for more scratch than any of the crate has. -/
example [MathLib] (hz : MathLib.AtZero) : SumsFirst (mixedRadix ((dhtNaive (Flt binary32) 5).greedy 100) (butterfly3 (Flt binary32))) := by
  have h := C69_around (T := Flt binary32) (fun n hn a => Flt.twiddle_zero hz (by decide) (by decide) hn a)
  obtain ⟨f, hi, hs⟩ := h.1 (.naive 5) _ rfl
  exact h.2.1 _ _ ⟨f, greedy_implements hi 100, hs⟩ (h.1 .b3 _ rfl)

/-- `Radix4` of length 128, which computes other coefficients wrongly (C09), inside `MixedRadix3xn`, where `sqrt(1/2)` is wrong by
a third: the first coefficient is right. -/
example : ∃ d : Dht ℝ, @Plan.build ℝ _ _ _ _ _ (realWithRoot (1 / 2)) (.mr3 (.radix4 128)) = .ok d ∧ d.len = 384 ∧
    ∀ x : List ℝ, x.length = 384 → ∃ X, d.process x = .ok X ∧ X[0]? = some x.sum := by
  letI := realWithRoot (1 / 2)
  have h := radix4_eq (T := ℝ) 7
  obtain ⟨d, hd, hlen⟩ : ∃ d : Dht ℝ, @Plan.build ℝ _ _ _ _ _ (realWithRoot (1 / 2)) (.mr3 (.radix4 (2 ^ 7))) = .ok d ∧
      d.len = 3 * 2 ^ 7 := by
    generalize hr : boilerplateDht _ _ _ _ _ = r at h
    have hl : r.len = 2 ^ 7 := by rw [← hr]; rfl
    refine ⟨mixedRadix3xn r, ?_, by rw [← hl]; rfl⟩
    show (radix4 ℝ (2 ^ 7) >>= fun d => .ok (mixedRadix3xn d)) = _
    rw [h]; rfl
  exact ⟨d, hd, hlen, fun x hx => C69_exact (1 / 2) _ d hd x (by rw [hx, hlen]; norm_num) (by rw [hlen]; norm_num)⟩

/-- The assumptions about `cos` and `sin` can be met together. -/
example : ∃ m : MathLib, @MathLib.Accurate m ∧ @MathLib.AtZero m := by
  classical
  let r (t : ℝ) : Flt binary64 := .roundSigned binary64 false t
  have hr := rounded_accurate
  refine ⟨⟨fun z => if z.fin ∧ z.value = 0 then .ofNat binary64 1 else r (Real.cos z.val),
    fun z => if z.fin ∧ z.value = 0 then z else r (Real.sin z.val)⟩, ?_, ?_⟩
  · refine @MathLib.Accurate.mk (_) (fun z h1 h2 => ?_) (fun z h1 h2 => ?_)
    · show Flt.fin (if z.fin ∧ z.value = 0 then _ else _) ∧ |Flt.val (if z.fin ∧ z.value = 0 then _ else _) - _| ≤ _
      split
      · next h =>
        have e : z.val = 0 := by rw [Flt.val, h.2, Rat.cast_zero]
        have e1 : Flt.ofNat binary64 1 = .num false 1 (Flt.one_rep binary64 (by decide) (by decide)) := by
          rw [Flt.ofNat, Nat.cast_one, Flt.round_rep]
        rw [e1, e, Real.cos_zero]
        exact ⟨trivial, by simp [Flt.val, Flt.value]⟩
      · exact @MathLib.Accurate.cos (_) hr z h1 h2
    · show Flt.fin (if z.fin ∧ z.value = 0 then _ else _) ∧ |Flt.val (if z.fin ∧ z.value = 0 then _ else _) - _| ≤ _
      split
      · next h =>
        have e : z.val = 0 := by rw [Flt.val, h.2, Rat.cast_zero]
        rw [e, Real.sin_zero]
        exact ⟨h1, by simp⟩
      · exact @MathLib.Accurate.sin (_) hr z h1 h2
  · exact @MathLib.AtZero.mk (_) (fun z h1 h2 => if_pos ⟨h1, h2⟩) (fun z h1 h2 => if_pos ⟨h1, h2⟩)

private def num32 (s : Bool) (k : ℕ) (h : k < 2 ^ 24) : Flt binary32 :=
  .num s k ⟨k, 0, h, by decide, by simp, lt_of_lt_of_le (b := (2 : ℚ) ^ 24) (by exact_mod_cast h)
    (by show (2 : ℚ) ^ 24 ≤ 2 ^ (128 : ℤ); norm_num)⟩

/-- Three integers in `f32`. -/
example [MathLib] (hz : MathLib.AtZero) : ∃ X X₀, (butterfly3 (Flt binary32)).process
    [num32 false 16000000 (by norm_num), num32 true 3 (by norm_num), num32 false 77 (by norm_num)] = .ok X ∧
    X[0]? = some X₀ ∧ X₀.fin ∧ X₀.value = 16000074 := by
  have h := C69_ieee_exact (F := binary32) hz (by decide) (by decide) .b3 (butterfly3 (Flt binary32)) rfl
    [num32 false 16000000 (by norm_num), num32 true 3 (by norm_num), num32 false 77 (by norm_num)] rfl (show 0 < 3 by decide) 0 (by decide) ?_ ?_ ?_
  · obtain ⟨X, X₀, h1, h2, h3, h4⟩ := h
    refine ⟨X, X₀, h1, h2, h3, ?_⟩
    rw [h4]
    norm_num [num32, Flt.value]
  · intro a ha
    simp only [List.mem_cons, List.not_mem_nil, or_false] at ha
    rcases ha with rfl | rfl | rfl
    · exact ⟨trivial, 16000000, by norm_num [num32, Flt.value]⟩
    · exact ⟨trivial, -3, by norm_num [num32, Flt.value]⟩
    · exact ⟨trivial, 77, by norm_num [num32, Flt.value]⟩
  · norm_num [num32, Flt.value, binary32]
  · refine lt_of_lt_of_le (b := (2 : ℚ) ^ 24) (by norm_num [num32, Flt.value]) ?_
    show (2 : ℚ) ^ 24 ≤ 2 ^ (128 : ℤ)
    norm_num

/-- The bound for 1000 finite numbers of `f32` of absolute value at most 1. -/
example [MathLib] (hz : MathLib.AtZero) (x : List (Flt binary32)) (hx : x.length = 1000) (hfin : ∀ a ∈ x, a.fin)
    (h1 : ∀ a ∈ x, |a.val| ≤ 1) : ∃ X X₀, (dhtNaive (Flt binary32) 1000).process x = .ok X ∧ X[0]? = some X₀ ∧ X₀.fin ∧
      |X₀.val - (x.map Flt.val).sum| ≤ ((1 + 2⁻¹ ^ 24) ^ 999 - 1) * (x.map fun a => |a.val|).sum := by
  have hlen : (dhtNaive (Flt binary32) 1000).len = 1000 := dhtNaive_len 1000
  have h := C69_ieee_error (F := binary32) hz (by decide) (by decide) (by decide) (.naive 1000) (dhtNaive (Flt binary32) 1000) rfl x
    (by rw [hx, hlen]) (by rw [hlen]; norm_num) hfin
  rw [hlen, show 1000 - 1 = 999 by norm_num, show binary32.prec = 24 from rfl, show binary32.emax - 1 = 127 from rfl] at h
  refine h ?_
  have h2 : (x.map fun a => |a.val|).sum ≤ 1000 := by
    have := List.sum_le_card_nsmul (x.map fun a => |a.val|) 1 (by simpa using h1)
    simpa [hx] using this
  have h0 : 0 ≤ (x.map fun a => |a.val|).sum := List.sum_nonneg (by simp)
  have h4 : ((1 : ℝ) + 2⁻¹ ^ 24) ^ 999 ≤ 3 := by
    calc ((1 : ℝ) + 2⁻¹ ^ 24) ^ 999 ≤ Real.exp (2⁻¹ ^ 24) ^ 999 := by
          gcongr
          have := Real.add_one_le_exp ((2 : ℝ)⁻¹ ^ 24)
          linarith
      _ = Real.exp ((999 : ℕ) * 2⁻¹ ^ 24) := (Real.exp_nat_mul _ _).symm
      _ ≤ Real.exp 1 := Real.exp_le_exp.2 (by norm_num)
      _ ≤ 3 := by have := Real.exp_one_lt_d9; linarith
  calc _ ≤ (3 : ℝ) * 1000 := mul_le_mul h4 h2 h0 (by norm_num)
    _ ≤ 2 ^ (127 : ℤ) := by norm_num

end RustDHT
