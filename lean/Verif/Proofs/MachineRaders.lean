import Verif.Proofs.Machine
import Verif.Proofs.Safety
import Verif.Proofs.Raders
import Verif.Proofs.Plan
import Verif.Proofs.Length
import Verif.Spec.Machine

/-! # No overflow in `math_utils.rs`, `split_radix.rs`, `raders_algorithm.rs`, and for every composition -/

namespace RustDHT.Machine

variable (m : Mode) {T : Type}

/-! ## src/scalar/split_radix.rs -/

section SplitRadix

variable [Add T] [Sub T] [Mul T] [FftNum T]

omit [FftNum T] in
theorem srApplyTwiddles_eq {len : Nat} (hl : len < 16 * m.cap) (tw : List (Cx T)) (buf : List T) :
    srApplyTwiddles m len tw buf = RustDHT.srApplyTwiddles len tw buf := by
  unfold srApplyTwiddles RustDHT.srApplyTwiddles
  simp only
  refine bind_congr_ok fun p _ => bind_congr_ok fun p _ => bind_congr_ok fun p _ => bind_congr_ok fun b _ => ?_
  rw [add_eq m (by omega), ok_bind]
  rw [forRange_congr]
  intro i h1 h2 b
  unfold srColumn RustDHT.srColumn
  rw [mul_eq m (by omega), ok_bind]
  refine bind_congr_ok fun _ _ => ?_
  rw [add_eq m (by omega), ok_bind]
  refine bind_congr_ok fun _ _ => bind_congr_ok fun _ _ => bind_congr_ok fun _ _ => bind_congr_ok fun _ _ =>
    bind_congr_ok fun _ _ => ?_
  rw [sub_eq m (by omega), ok_bind]

theorem srPerformInplace_eq {q h : Dht T} {len : Nat} (hl : len < 16 * m.cap) (tw : List (Cx T)) (c s : List T) :
    srPerformInplace m q h len tw c s = RustDHT.srPerformInplace q h len tw c s := by
  unfold srPerformInplace RustDHT.srPerformInplace
  rw [srApplyTwiddles_eq m hl]
  simp only
  refine bind_congr_ok fun buf _ => bind_congr_ok fun p _ => bind_congr_ok fun p _ => bind_congr_ok fun p _ =>
    bind_congr_ok fun p _ => ?_
  rw [forList_congr]
  intro i hi buf
  have hi : i < len / 4 := by simpa using hi
  rw [mul_eq m (by omega), ok_bind]
  refine bind_congr_ok fun _ _ => ?_
  rw [mulAdd_eq m (by omega), ok_bind]
  refine bind_congr_ok fun _ _ => ?_
  rw [add_eq m (by omega), ok_bind]
  refine bind_congr_ok fun _ _ => ?_
  rw [mulAdd_eq m (by omega), ok_bind]
  refine bind_congr_ok fun _ _ => bind_congr_ok fun _ _ => ?_
  rw [mulAdd_eq m (by omega), ok_bind]
  refine bind_congr_ok fun _ _ => bind_congr_ok fun _ _ => ?_
  rw [mulAdd_eq m (by omega), ok_bind]

theorem srPerformOop_eq {D : Prop} {q h : Dht T} (hq : SafeDht D q) (hh : SafeDht D h) {len : Nat} (hl : len < 16 * m.cap)
    (tw : List (Cx T)) (c1 c2 s : List T) (hc2 : c2.length = len) :
    srPerformOop m q h len tw c1 c2 s = RustDHT.srPerformOop q h len tw c1 c2 s := by
  unfold srPerformOop RustDHT.srPerformOop
  rw [srApplyTwiddles_eq m hl]
  simp only
  refine bind_congr_ok fun buf _ => bind_congr_ok fun p1 _ => bind_congr_ok fun p2 e2 => bind_congr_ok fun p3 e3 =>
    bind_congr_ok fun p4 _ => ?_
  have h2 := ((hh.postInplace _ _).of_ok e2).2
  have h3 := ((hq.postInplace _ _).of_ok e3).2
  rw [forRange_congr]
  intro i _ hi buf
  rw [mul_eq m (by omega), ok_bind]
  refine bind_congr_ok fun _ _ => bind_congr_ok fun _ _ => bind_congr_ok fun _ _ => bind_congr_ok fun _ _ => ?_
  rw [add_eq m (by omega), ok_bind]

omit [Add T] [Sub T] [Mul T] in
theorem srTable_eq {len : Nat} (hl : len < 16 * m.cap) :
    ((List.range (len / 8 + 1)).mapM fun x => do
      let i1 ← m.mul x 1
      let i3 ← m.mul x 3
      Except.ok [computeDftTwiddleInverse T i1 len, computeDftTwiddleInverse T i3 len])
      = .ok ((List.range (len / 8 + 1)).map fun x =>
        [computeDftTwiddleInverse T (x * 1) len, computeDftTwiddleInverse T (x * 3) len]) := by
  refine mapM_ok_map fun x hx => ?_
  have hx := List.mem_range.1 hx
  rw [mul_eq m (by omega), ok_bind, mul_eq m (by omega), ok_bind]

theorem splitRadix_eq {D : Prop} {q h : Dht T} (hq : SafeDht D q) (hh : SafeDht D h) (hl : q.len * 4 < 2 * m.cap) :
    splitRadix m q h = RustDHT.splitRadix q h := by
  unfold splitRadix RustDHT.splitRadix
  simp only
  have hcap := le_cap m
  rw [mul_eq m (by omega), ok_bind]
  refine bind_congr_ok fun _ _ => ?_
  rw [mul_eq m (by omega), ok_bind, add_eq m (by omega), ok_bind, mul_eq m (by omega), ok_bind, allocate_eq m (by omega), ok_bind,
    srTable_eq m (by omega), ok_bind, ← List.flatMap_def]
  congr 1
  exact boilerplateDht_congr (fun _ c s _ => srPerformInplace_eq m (by omega) _ c s)
    (fun _ c1 c2 s _ hc2 => srPerformOop_eq m hq hh (by omega) _ c1 c2 s hc2)

end SplitRadix

/-! ## src/math_utils.rs -/

theorem add64_eq {a b : Nat} (h : a + b < 2 ^ 64) : m.u64.add a b = .ok (a + b) := if_pos h

theorem mul64_eq {a b : Nat} (h : a * b < 2 ^ 64) : m.u64.mul a b = .ok (a * b) := if_pos h

theorem modularExponentLoop_eq {p : Nat} (hp : p ≤ 2 ^ 32) (e : Nat) {r b : Nat} (hr : r < p) (hb : b < p) :
    modularExponentLoop m p r b e = RustDHT.modularExponentLoop p r b e := by
  induction e using Nat.strong_induction_on generalizing r b with
  | _ e ih =>
    rw [modularExponentLoop, RustDHT.modularExponentLoop]
    have h0 : 0 < p := by omega
    rw [mul64_eq m (mul_lt_of_lt_two_pow hp hr hb), mul64_eq m (mul_lt_of_lt_two_pow hp hb hb),
      mulU64_ok (mul_lt_of_lt_two_pow hp hr hb), mulU64_ok (mul_lt_of_lt_two_pow hp hb hb)]
    simp only [ok_bind, remU64_ok h0]
    split
    · rename_i he
      split
      · rw [ok_bind, ok_bind]
        exact ih _ (by omega) (Nat.mod_lt _ h0) (Nat.mod_lt _ h0)
      · rw [ok_bind, ok_bind]
        exact ih _ (by omega) hr (Nat.mod_lt _ h0)
    · rfl

theorem modularExponentLoop_debug (h : m.checked = true) (p e r b : Nat) :
    modularExponentLoop m p r b e = RustDHT.modularExponentLoop p r b e := by
  have hm : ∀ a b, m.u64.mul a b = mulU64 a b := fun a b => by
    unfold Mode.mul Mode.u64 Mode.overflow
    rw [h]
    rfl
  induction e using Nat.strong_induction_on generalizing r b with
  | _ e ih =>
    rw [modularExponentLoop, RustDHT.modularExponentLoop]
    simp only [hm]
    split
    · rename_i he
      refine bind_congr_ok fun _ _ => bind_congr_ok fun _ _ => bind_congr_ok fun _ _ => ih _ (by omega) _ _
    · rfl

theorem lt_of_mul_self_lt {a b : Nat} (h : a * a < b * b) : a < b := by
  by_contra hc
  exact absurd (Nat.mul_le_mul (not_lt.1 hc) (not_lt.1 hc)) (by omega)

theorem f32SqrtTrunc_lt {k : Nat} (hk : k < 2 ^ 62) : f32SqrtTrunc k < 2 ^ 60 := by
  unfold f32SqrtTrunc
  split
  · norm_num
  · rename_i h0
    have hlog : k.log2 < 62 := (Nat.log2_lt h0).2 hk
    simp only
    split
    · have hb : k < 4 ^ (k.log2 / 2 + 1) := by
        refine lt_of_lt_of_le (log2_bounds h0).2 ?_
        rw [show (4 : Nat) = 2 ^ 2 by norm_num, ← pow_mul]
        exact Nat.pow_le_pow_right (by norm_num) (by omega)
      have ha : isqrt (k * 4 ^ (23 - k.log2 / 2)) < 2 ^ 24 := by
        refine lt_of_mul_self_lt (lt_of_le_of_lt (isqrt_spec _).1 ?_)
        refine lt_of_lt_of_le (Nat.mul_lt_mul_of_pos_right hb (by positivity)) ?_
        rw [← pow_add, show k.log2 / 2 + 1 + (23 - k.log2 / 2) = 24 by omega]
        norm_num
      refine lt_of_le_of_lt (Nat.div_le_self _ _) ?_
      split <;> omega
    · have hj : 2 ^ (k.log2 / 2 - 23) ≤ 2 ^ 7 := Nat.pow_le_pow_right (by norm_num) (by omega)
      have ha : isqrt (k / 4 ^ (k.log2 / 2 - 23)) < 2 ^ 31 := by
        refine lt_of_mul_self_lt (lt_of_le_of_lt (isqrt_spec _).1 ?_)
        exact lt_of_le_of_lt (Nat.div_le_self _ _) (by norm_num; omega)
      generalize isqrt (k / 4 ^ (k.log2 / 2 - 23)) = a at *
      have : (if k > (a * a + a) * 4 ^ (k.log2 / 2 - 23) + 4 ^ (k.log2 / 2 - 23 - 1) then a + 1 else a) ≤ 2 ^ 31 := by
        split <;> omega
      exact lt_of_le_of_lt (Nat.mul_le_mul this hj) (by norm_num)

theorem roundToF32_lt {n : Nat} (h : n < 2 ^ 61) : roundToF32 n < 2 ^ 62 := by
  by_cases h24 : n < 2 ^ 24
  · rw [roundToF32, if_pos h24]; omega
  · have : n.log2 < 61 := (Nat.log2_lt (by omega)).2 h
    exact lt_of_le_of_lt (roundToF32_bounds (by omega)).2.2 (Nat.pow_lt_pow_right (by norm_num) (by omega))

theorem factorLimit_eq {n : Nat} (h : n < 2 ^ 61) : factorLimit m n = .ok (RustDHT.factorLimit n) :=
  add64_eq m (by have := f32SqrtTrunc_lt (roundToF32_lt h); omega)

theorem factorLimit_lt {n : Nat} (h : n < 2 ^ 61) : RustDHT.factorLimit n < 2 ^ 61 := by
  have := f32SqrtTrunc_lt (roundToF32_lt h)
  unfold RustDHT.factorLimit
  omega

theorem factorLoop_eq (n d limit : Nat) (result : List Nat) (hn : n < 2 ^ 61) (hl : limit < 2 ^ 61) :
    factorLoop m n d limit result = RustDHT.factorLoop n d limit result := by
  fun_induction RustDHT.factorLoop n d limit result with
  | case1 n d limit result hd h0 e he =>
    rw [factorLoop, dif_pos hd, add64_eq m (by omega)]
    simp only
    rw [dif_pos (by omega), dif_pos h0]
    split
    · rename_i e2; rw [he] at e2; cases e2; rfl
    · rename_i e2; rw [he] at e2; cases e2
  | case2 n d limit result hd h0 n' he ih =>
    rw [factorLoop, dif_pos hd, add64_eq m (by omega)]
    simp only
    rw [dif_pos (by omega), dif_pos h0]
    have hn' := stripFactor_le _ _ _ he
    split
    · rename_i e2; rw [he] at e2; cases e2
    · rename_i e2
      rw [he] at e2
      cases e2
      rw [factorLimit_eq m (by omega), ok_bind]
      exact ih (by omega) (factorLimit_lt (by omega))
  | case3 n d limit result hd h0 ih =>
    rw [factorLoop, dif_pos hd, add64_eq m (by omega)]
    simp only
    rw [dif_pos (by omega), dif_neg h0]
    exact ih hn hl
  | case4 n d limit result hd => rw [factorLoop, dif_neg hd]

theorem distinctPrimeFactors_eq {n : Nat} (hn : n < 2 ^ 61) :
    distinctPrimeFactors m n = RustDHT.distinctPrimeFactors n := by
  unfold distinctPrimeFactors RustDHT.distinctPrimeFactors
  refine bind_congr_ok fun p hp => ?_
  have hp1 : p.1 ≤ n := by
    split at hp
    · cases hs : stripFactor 2 n with
      | error e => rw [hs] at hp; cases hp
      | ok k =>
        rw [hs, ok_bind] at hp
        cases hp
        exact stripFactor_le _ _ _ hs
    · cases hp; exact le_rfl
  obtain ⟨n', result⟩ := p
  simp only at hp1 ⊢
  split
  · rw [factorLimit_eq m (by omega), ok_bind, factorLoop_eq m _ _ _ _ (by omega) (factorLimit_lt (by omega))]
  · rfl

theorem factorLoop_ne_zero (n d limit : Nat) (result : List Nat) (hd : 0 < d) (h : ∀ q ∈ result, q ≠ 0) :
    ∀ n' l, RustDHT.factorLoop n d limit result = .ok (n', l) → ∀ q ∈ l, q ≠ 0 := by
  fun_induction RustDHT.factorLoop n d limit result with
  | case1 n d limit result hl h0 e he => intro n' l e; cases e
  | case2 n d limit result hl h0 n1 he ih =>
    refine ih (by omega) fun q hq => ?_
    rcases List.mem_append.1 hq with hq | hq
    · exact h q hq
    · rw [List.mem_singleton.1 hq]; omega
  | case3 n d limit result hl h0 ih => exact ih (by omega) h
  | case4 n d limit result hl => intro n' l e; cases e; exact h

theorem distinctPrimeFactors_ne_zero {n : Nat} {l : List Nat} (h : RustDHT.distinctPrimeFactors n = .ok l) :
    ∀ q ∈ l, q ≠ 0 := by
  unfold RustDHT.distinctPrimeFactors at h
  obtain ⟨⟨n1, res⟩, e1, h⟩ := bind_eq_ok h
  have hres : ∀ q ∈ res, q ≠ 0 := by
    split at e1
    · obtain ⟨n2, _, e1⟩ := bind_eq_ok e1
      cases e1
      simp
    · cases e1
      simp
  simp only at h
  split at h
  · obtain ⟨⟨n2, res2⟩, e2, h⟩ := bind_eq_ok h
    have h2 := factorLoop_ne_zero _ _ _ _ (by omega) hres _ _ e2
    simp only at h
    split at h
    · cases h
      intro q hq
      rcases List.mem_append.1 hq with hq | hq
      · exact h2 q hq
      · rw [List.mem_singleton.1 hq]; omega
    · cases h
      exact h2
  · cases h
    exact hres

/-- The products of `modular_exponent` are exact, or their overflow is a panic in both models. -/
def Small (p : Nat) : Prop := m.checked = true ∨ p ≤ 2 ^ 32

variable {m}

theorem rejectRoot_eq {p r : Nat} (hp : Small m p) (h1 : 1 < p) (hr : r < p) (exps : List Nat) :
    rejectRoot m p r exps = RustDHT.rejectRoot p r exps := by
  induction exps with
  | nil => rfl
  | cons e es ih =>
    rw [rejectRoot, RustDHT.rejectRoot, ih, modularExponent, RustDHT.modularExponent]
    rcases hp with hp | hp
    · rw [modularExponentLoop_debug m hp]
    · rw [modularExponentLoop_eq m hp e h1 hr]

theorem searchRoot_eq {p : Nat} (hp : Small m p) (h1 : 1 < p) (exps cs : List Nat) (hc : ∀ r ∈ cs, r < p) :
    searchRoot m p exps cs = RustDHT.searchRoot p exps cs := by
  induction cs with
  | nil => rfl
  | cons r rs ih =>
    rw [searchRoot, RustDHT.searchRoot, rejectRoot_eq hp h1 (hc r List.mem_cons_self),
      ih fun r hr => hc r (List.mem_cons_of_mem _ hr)]

theorem primitiveRoot_eq {p : Nat} (h1 : 1 < p) (h61 : p < 2 ^ 61) (hp : Small m p) :
    primitiveRoot m p = RustDHT.primitiveRoot p := by
  unfold primitiveRoot RustDHT.primitiveRoot
  rw [sub_eq m.u64 (by omega), ok_bind, if_neg (by omega), distinctPrimeFactors_eq m (by omega)]
  refine bind_congr_ok fun fs hf => ?_
  rw [mapM_ok_map (g := fun factor => (p - 1) / factor), ok_bind, searchRoot_eq hp h1]
  · intro r hr
    have := List.mem_range'_1.1 hr
    omega
  · intro q hq
    rw [if_neg (distinctPrimeFactors_ne_zero hf q hq), ok_bind]

variable (m)

/-! ## The external `extended_gcd` -/

theorem i64_ok {x : Int} (h : |x| < 2 ^ 63) : m.i64 x = .ok x := by
  rw [abs_lt] at h
  exact if_pos ⟨h.1.le, h.2⟩

theorem i64_zero : m.i64 0 = .ok 0 := i64_ok m (by norm_num)

theorem i64_one : m.i64 1 = .ok 1 := i64_ok m (by norm_num)

/-- What the loop keeps of a pair of coefficients: their signs alternate, and they are bounded by `c`. -/
structure CoefInv (c : Int) (r p : Int × Int) : Prop where
  sign : p.1 * p.2 ≤ 0
  det : |p.1| * r.2 + |p.2| * r.1 = c

theorem CoefInv.step {c : Int} {r p : Int × Int} (h : CoefInv c r p) (hr0 : 0 < r.1) (hr : r.1 < r.2) (hc : c < 2 ^ 63) :
    egcdStep m (r.2.tdiv r.1) p = .ok (RustDHT.egcdStep (r.2.tdiv r.1) p) ∧
      CoefInv c (RustDHT.egcdStep (r.2.tdiv r.1) r) (RustDHT.egcdStep (r.2.tdiv r.1) p) := by
  obtain ⟨r1, r2⟩ := r
  obtain ⟨p1, p2⟩ := p
  obtain ⟨h1, h2⟩ := h
  simp only at *
  have hq : r2.tdiv r1 = r2 / r1 := Int.tdiv_eq_ediv_of_nonneg (by omega)
  rw [hq]
  have hmod : r2 - r2 / r1 * r1 = r2 % r1 := by rw [Int.emod_def, mul_comm]
  have hm0 : 0 ≤ r2 % r1 := Int.emod_nonneg _ (by omega)
  have hq0 : 0 ≤ r2 / r1 := Int.ediv_nonneg (by omega) (by omega)
  have habs := abs_sub_mul_of_sign hq0 h1
  have hdet : |p2 - r2 / r1 * p1| * r1 + |p1| * (r2 - r2 / r1 * r1) = c := by
    rw [habs]; linarith [mul_comm (r2 / r1) r1]
  have hle : |p2 - r2 / r1 * p1| ≤ c := by
    have t1 : |p2 - r2 / r1 * p1| * 1 ≤ |p2 - r2 / r1 * p1| * r1 := mul_le_mul_of_nonneg_left (by omega) (abs_nonneg _)
    have t2 : 0 ≤ |p1| * (r2 - r2 / r1 * r1) := mul_nonneg (abs_nonneg _) (by omega)
    omega
  have hle2 : |r2 / r1 * p1| ≤ c := by
    rw [abs_mul, abs_of_nonneg hq0]
    have := abs_nonneg p2
    omega
  refine ⟨?_, ⟨?_, hdet⟩⟩
  · unfold egcdStep RustDHT.egcdStep
    simp only
    rw [i64_ok m (by omega), ok_bind, i64_ok m (by omega), ok_bind]
  · simp only [RustDHT.egcdStep]
    have : 0 ≤ r2 / r1 * (p1 * p1) := mul_nonneg hq0 (mul_self_nonneg _)
    nlinarith

theorem egcdLoop_eq {a b : Int} (hb : b < 2 ^ 63) (ha : a < 2 ^ 63) (fuel : Nat) {r s t : Int × Int} (hf : r.1.natAbs < fuel)
    (h0 : 0 ≤ r.1) (hr : r.1 < r.2) (hrb : r.2 ≤ b) (hs : CoefInv b r s) (ht : CoefInv a r t) :
    egcdLoop m fuel r s t = .ok (RustDHT.egcdLoop r s) := by
  induction fuel generalizing r s t with
  | zero => omega
  | succ fuel ih =>
    rw [egcdLoop, RustDHT.egcdLoop]
    by_cases hz : r.1 = 0
    · rw [if_pos hz, dif_pos hz]
    · rw [if_neg hz, dif_neg hz]
      have hpos : 0 < r.1 := by omega
      have hq : r.2.tdiv r.1 = r.2 / r.1 := Int.tdiv_eq_ediv_of_nonneg (by omega)
      have hq0 : 0 ≤ r.2 / r.1 := Int.ediv_nonneg (by omega) (by omega)
      have hq1 : r.2 / r.1 ≤ r.2 := Int.ediv_le_self _ (by omega)
      have hmod : r.2 - r.2 / r.1 * r.1 = r.2 % r.1 := by rw [Int.emod_def, mul_comm]
      have hm0 : 0 ≤ r.2 % r.1 := Int.emod_nonneg _ (by omega)
      have hm1 : r.2 % r.1 < r.1 := Int.emod_lt_of_pos _ hpos
      have hqr : 0 ≤ r.2 / r.1 * r.1 := mul_nonneg hq0 h0
      have er : egcdStep m (r.2.tdiv r.1) r = .ok (RustDHT.egcdStep (r.2.tdiv r.1) r) := by
        unfold egcdStep RustDHT.egcdStep
        rw [hq, i64_ok m (by rw [abs_of_nonneg hqr]; omega), ok_bind, i64_ok m (by rw [hmod, abs_of_nonneg hm0]; omega), ok_bind]
      obtain ⟨es, hs'⟩ := hs.step m hpos hr hb
      obtain ⟨et, ht'⟩ := ht.step m hpos hr ha
      rw [i64_ok .debug (by rw [hq, abs_of_nonneg hq0]; omega), ok_bind, er, ok_bind, es, ok_bind, et, ok_bind]
      have e1 : (RustDHT.egcdStep (r.2.tdiv r.1) r).1 = r.2 % r.1 := by rw [RustDHT.egcdStep, hq, hmod]
      have e2 : (RustDHT.egcdStep (r.2.tdiv r.1) r).2 = r.1 := rfl
      exact ih (by rw [e1]; omega) (by rw [e1]; omega) (by rw [e1, e2]; omega) (by rw [e2]; omega) hs' ht'

theorem egcdStep_zero {x y : Int} (hy : |y| < 2 ^ 63) : egcdStep m 0 (x, y) = .ok (y, x) := by
  have e : m.i64 (0 * x) = .ok 0 := by rw [zero_mul, i64_zero]
  rw [egcdStep, e, ok_bind, sub_zero, i64_ok m hy, ok_bind]

theorem egcdLoop_succ {fuel : Nat} {r s t r' s' t' : Int × Int} {q : Int} (h : r.1 ≠ 0) (hq : Mode.debug.i64 (r.2.tdiv r.1) = .ok q)
    (hr : egcdStep m q r = .ok r') (hs : egcdStep m q s = .ok s') (ht : egcdStep m q t = .ok t') :
    egcdLoop m (fuel + 1) r s t = egcdLoop m fuel r' s' t' := by
  rw [egcdLoop, if_neg h, hq, ok_bind, hr, ok_bind, hs, ok_bind, ht, ok_bind]

theorem egcdLoop_first {a b : Nat} (ha : 0 < a) (hab : a < b) (hb : (a : Int) < 2 ^ 63) :
    egcdLoop m (b + 1) ((b : Int), (a : Int)) (0, 1) (1, 0) = egcdLoop m b ((a : Int), (b : Int)) (1, 0) (0, 1) := by
  have hq : (a : Int).tdiv b = 0 := Int.tdiv_eq_zero_of_lt (by omega) (by omega)
  have ha' : |(a : Int)| < 2 ^ 63 := by rw [abs_of_nonneg (Int.natCast_nonneg a)]; exact hb
  refine egcdLoop_succ m (q := 0) (by simp only; omega) ?_ (egcdStep_zero m ha') (egcdStep_zero m (by norm_num))
    (egcdStep_zero m (by norm_num))
  rw [hq, i64_zero]

theorem egcdLoop_swap {a b : Nat} (ha : 0 < a) (hab : a < b) :
    RustDHT.egcdLoop ((b : Int), (a : Int)) (0, 1) = RustDHT.egcdLoop ((a : Int), (b : Int)) (1, 0) := by
  have hq : (a : Int).tdiv b = 0 := Int.tdiv_eq_zero_of_lt (by omega) (by omega)
  conv_lhs => rw [RustDHT.egcdLoop]
  rw [dif_neg (by simp only; omega)]
  simp only [hq, RustDHT.egcdStep, zero_mul, sub_zero]

theorem egcdX_eq {a b : Nat} (hp : b.Prime) (ha : 0 < a) (hab : a < b) (hb : (b : Int) < 2 ^ 63) :
    egcdX m a b = .ok (RustDHT.egcdX a b) ∧ |RustDHT.egcdX a b| < b := by
  have hinv : EgcdInv (a : Int) (b : Int) (a, b) (1, 0) := by
    refine ⟨by simp, by simpa using hab, ?_, by simp, by simp, by simp, by simp, by simp; omega⟩
    simp only [Int.gcd_natCast_natCast]
    exact Nat.Coprime.symm ((Nat.Prime.coprime_iff_not_dvd hp).2 (Nat.not_dvd_of_pos_of_lt ha hab))
  have hl := egcdLoop_eq m (a := a) (b := b) (r := (a, b)) (s := (1, 0)) (t := (0, 1)) hb (lt_trans (by omega) hb) b
    (by simp only; omega) (by simp) (by simp only; omega) le_rfl ⟨by simp, by simp⟩ ⟨by simp, by simp⟩
  obtain ⟨e1, _, e3⟩ := egcdLoop_ok hinv
  unfold egcdX RustDHT.egcdX
  rw [Int.natAbs_natCast, egcdLoop_first m ha hab (lt_trans (by omega) hb), egcdLoop_swap ha hab, hl, ok_bind]
  generalize RustDHT.egcdLoop ((a : Int), (b : Int)) (1, 0) = x at e1 e3 ⊢
  obtain ⟨r, s⟩ := x
  simp only at e1 e3 ⊢
  rw [if_pos (by omega), if_pos (by omega)]
  exact ⟨rfl, e3⟩

/-! ## src/scalar/raders_algorithm.rs -/

section Raders

variable [Add T] [Sub T] [Mul T] [Zero T] [FftNum T]

theorem rootInverse_eq {g p : Nat} (hp : p.Prime) (h0 : 0 < g) (hg : g < p) (h : p < 2 * m.cap) :
    rootInverse m g p = .ok (RustDHT.rootInverse g p) := by
  have hle := cap_le m
  obtain ⟨e1, e2⟩ := egcdX_eq m hp h0 hg (by omega)
  unfold rootInverse RustDHT.rootInverse asI64
  have cast : ∀ x : Int, 0 ≤ x → x < p → asUsize m x = x.toNat := fun x h1 h2 => by
    have hs : (2 : Int) ^ m.bits = 16 * (m.cap : Int) := by exact_mod_cast size_eq m
    rw [asUsize, Int.emod_eq_of_lt h1 (by omega)]
  rw [if_pos (by omega), if_pos (by omega), e1, ok_bind]
  simp only
  rw [abs_lt] at e2
  split
  · rw [cast _ (by omega) (by omega)]
  · rw [i64_ok m (by rw [abs_lt]; omega), ok_bind, cast _ (by omega) (by omega)]

theorem stepIndex_eq {i f p : Nat} (hsq : (p - 1) * f < 16 * m.cap) (hi : i < p) : stepIndex m i f p = RustDHT.stepIndex i f p := by
  unfold stepIndex RustDHT.stepIndex
  have : i * f ≤ (p - 1) * f := Nat.mul_le_mul_right _ (by omega)
  have := cap_le m
  rw [mul_eq m (by omega), mulU64_ok (by omega)]

omit m in
theorem stepIndex_inv {i f p j : Nat} (hp : p.Prime) (h32 : (p - 1) * f < 2 ^ 64) (hi0 : 0 < i) (hi : i < p) (hf0 : 0 < f) (hf : f < p)
    (h : RustDHT.stepIndex i f p = .ok j) : 0 < j ∧ j < p := by
  have : i * f ≤ (p - 1) * f := Nat.mul_le_mul_right _ (by omega)
  rw [RustDHT.stepIndex, mulU64_ok (by omega), ok_bind, remU64_ok hp.pos] at h
  cases h
  refine ⟨Nat.pos_of_ne_zero fun hz => ?_, Nat.mod_lt _ hp.pos⟩
  rcases (Nat.Prime.dvd_mul hp).1 (Nat.dvd_of_mod_eq_zero hz) with hd | hd
  · exact absurd (Nat.le_of_dvd hi0 hd) (by omega)
  · exact absurd (Nat.le_of_dvd hf0 hd) (by omega)

theorem pred_eq {i : Nat} (h : 0 < i) : m.sub i 1 = pred i := by
  rw [sub_eq m (by omega), pred, if_neg (by omega)]

theorem radersKernelInput_eq {n p g : Nat} (hp : p.Prime) (hsq : (p - 1) * g < 16 * m.cap) (h0 : 0 < g) (hg : g < p) :
    radersKernelInput m T n p g = RustDHT.radersKernelInput T n p g := by
  unfold radersKernelInput RustDHT.radersKernelInput
  simp only
  rw [forRange_congr_inv (fun s : List T × Nat => 0 < s.2 ∧ s.2 < p) ⟨Nat.one_pos, hp.one_lt⟩]
  · rintro i _ _ ⟨a, t⟩ ht
    simp only at ht ⊢
    rw [stepIndex_eq m hsq ht.2]
  · rintro i ⟨a, t⟩ ⟨a', t'⟩ ht e
    simp only at ht e ⊢
    obtain ⟨_, _, e⟩ := bind_eq_ok e
    obtain ⟨t1, e1, e⟩ := bind_eq_ok e
    cases e
    exact stepIndex_inv hp (hsq.trans_le (by have := cap_le m; omega)) ht.1 ht.2 h0 hg e1

theorem radersTwiddles_eq {x : List T} (h : x.length < 16 * m.cap) : radersTwiddles m x = RustDHT.radersTwiddles x := by
  unfold radersTwiddles RustDHT.radersTwiddles
  simp only
  rw [add_eq m (by omega), ok_bind]
  refine bind_congr_ok fun _ _ => bind_congr_ok fun tw _ => ?_
  rw [forRange_congr]
  intro i _ hi tw
  rw [sub_eq m (by omega), ok_bind]

theorem radersGather_eq {p g : Nat} (hp : p.Prime) (hsq : (p - 1) * g < 16 * m.cap) (h0 : 0 < g) (hg : g < p) (src dst : List T) :
    radersGather m g p src dst = RustDHT.radersGather g p src dst := by
  unfold radersGather RustDHT.radersGather
  rw [forRange_congr_inv (fun s : List T × Nat => 0 < s.2 ∧ s.2 < p) ⟨Nat.one_pos, hp.one_lt⟩]
  · rintro i _ _ ⟨a, t⟩ ht
    simp only at ht ⊢
    rw [pred_eq m ht.1, stepIndex_eq m hsq ht.2]
  · rintro i ⟨a, t⟩ ⟨a', t'⟩ ht e
    simp only at ht e ⊢
    obtain ⟨_, _, e⟩ := bind_eq_ok e
    obtain ⟨_, _, e⟩ := bind_eq_ok e
    obtain ⟨_, _, e⟩ := bind_eq_ok e
    obtain ⟨t1, e1, e⟩ := bind_eq_ok e
    cases e
    exact stepIndex_inv hp (hsq.trans_le (by have := cap_le m; omega)) ht.1 ht.2 h0 hg e1

theorem radersScatter_eq {p g : Nat} (hp : p.Prime) (hsq : (p - 1) * g < 16 * m.cap) (h0 : 0 < g) (hg : g < p) (src dst : List T) :
    radersScatter m g p src dst = RustDHT.radersScatter g p src dst := by
  unfold radersScatter RustDHT.radersScatter
  rw [forList_congr_inv (fun s : List T × Nat => 0 < s.2 ∧ s.2 < p) ⟨Nat.one_pos, hp.one_lt⟩]
  · rintro v _ ⟨a, t⟩ ht
    simp only at ht ⊢
    rw [pred_eq m ht.1, stepIndex_eq m hsq ht.2]
  · rintro v _ ⟨a, t⟩ ⟨a', t'⟩ ht e
    simp only at ht e ⊢
    obtain ⟨_, _, e⟩ := bind_eq_ok e
    obtain ⟨_, _, e⟩ := bind_eq_ok e
    obtain ⟨t1, e1, e⟩ := bind_eq_ok e
    cases e
    exact stepIndex_inv hp (hsq.trans_le (by have := cap_le m; omega)) ht.1 ht.2 h0 hg e1

theorem radersMulInplace_eq (tw : List (Cx T)) (b : List T) : radersMulInplace m tw b = RustDHT.radersMulInplace tw b := by
  unfold radersMulInplace RustDHT.radersMulInplace
  simp only
  refine bind_congr_ok fun _ _ => bind_congr_ok fun _ _ => bind_congr_ok fun _ _ => ?_
  rw [forRange_congr]
  intro i _ hi b
  rw [sub_eq m (by omega), ok_bind]

theorem radersMulOop_eq (tw : List (Cx T)) (o i : List T) : radersMulOop m tw o i = RustDHT.radersMulOop tw o i := by
  unfold radersMulOop RustDHT.radersMulOop
  simp only
  refine bind_congr_ok fun _ _ => bind_congr_ok fun _ _ => bind_congr_ok fun _ _ => ?_
  rw [forRange_congr]
  intro i _ hi b
  rw [sub_eq m (by omega), ok_bind]

omit m in
/-- `primitive_root` panics above `2^32`. -/
theorem prime_lt_of_root {p : Nat} (hp : p.Prime) {root : Option Nat} (h : RustDHT.primitiveRoot p = .ok root) : p < 2 ^ 32 := by
  by_contra hc
  have hne : p ≠ 2 ^ 32 := by
    intro e
    rw [e] at hp
    exact absurd hp (Nat.Prime.not_prime_pow (by omega))
  obtain ⟨k, e⟩ := primitiveRoot_overflow hp (by omega)
  rw [e] at h
  cases h

/-- The objects around the same numbers are the same. -/
theorem raders_perform_eq {d : Dht T} {p g gi : Nat} (hp : p.Prime) (s1 : (p - 1) * g < 16 * m.cap) (s2 : (p - 1) * gi < 16 * m.cap)
    (g0 : 0 < g) (g1 : g < p) (i0 : 0 < gi) (i1 : gi < p) (tw : List (Cx T)) (n1 n2 : Nat) :
    boilerplateDht p n1 n2 (radersPerformInplace m d p g gi tw) (radersPerformOop m d p g gi tw) =
      boilerplateDht p n1 n2 (RustDHT.radersPerformInplace d p g gi tw) (RustDHT.radersPerformOop d p g gi tw) := by
  have e1 := radersGather_eq (T := T) m hp s1 g0 g1
  have e2 := radersScatter_eq (T := T) m hp s2 i0 i1
  have := hp.two_le
  refine boilerplateDht_congr (fun _ c s _ => ?_) (fun _ c1 c2 s _ _ => ?_)
  · unfold radersPerformInplace RustDHT.radersPerformInplace
    cases c with
    | nil => rfl
    | cons x c =>
      simp only
      rw [sub_eq m (by omega), ok_bind]
      simp only [e1, e2, radersMulInplace_eq]
  · unfold radersPerformOop RustDHT.radersPerformOop
    cases c2 with
    | nil => rfl
    | cons y c2 =>
      cases c1 with
      | nil => rfl
      | cons x c1 => simp only [e1, e2, radersMulOop_eq]

/-- The constructor and the transform agree with the unbounded ones when the products of all residues with the primitive root and
with its inverse are representable. -/
theorem raders_eq_of_steps {D : Prop} {d : Dht T} (hd : SafeDht D d) (hl : d.len + 1 < 2 * m.cap) (hs : d.inplaceScratchLen < 8 * m.cap)
    (hsm : Small m (d.len + 1)) (hst : ∀ g, RustDHT.primitiveRoot (d.len + 1) = .ok (some g) →
      d.len * g < 16 * m.cap ∧ d.len * RustDHT.rootInverse g (d.len + 1) < 16 * m.cap) : raders m d = RustDHT.raders d := by
  unfold raders RustDHT.raders
  simp only
  rw [add_eq m (by omega), ok_bind]
  refine bind_congr_ok fun _ ha => ?_
  have hp : (d.len + 1).Prime := by
    by_contra hc
    simp [assert, millerRabin, hc, panic] at ha
  rw [primitiveRoot_eq hp.one_lt (hl.trans_le (by have := cap_le m; omega)) hsm]
  refine bind_congr_ok fun root hr => ?_
  have hp32 := prime_lt_of_root hp hr
  cases root with
  | none => rfl
  | some g =>
    simp only
    obtain ⟨s1, s2⟩ := hst g hr
    have hg : 1 < g ∧ g < d.len + 1 := by
      by_cases h2 : d.len + 1 = 2
      · rw [h2, primitiveRoot_two] at hr
        cases hr
      · obtain ⟨g', e, h1, h2, _⟩ := primitiveRoot_ok hp h2 hp32
        rw [e] at hr
        cases hr
        exact ⟨h1, h2⟩
    obtain ⟨i0, i1, _⟩ := rootInverse_ok hp (by omega) hg.2
    rw [rootInverse_eq m hp (by omega) hg.2 (by omega), ok_bind, radersKernelInput_eq m hp s2 i0 i1]
    refine bind_congr_ok fun k hk => bind_congr_ok fun k' hk' => ?_
    have l1 := (radersKernelInput_post (D := D)).of_ok hk
    have l2 := (hd.process k).of_ok hk'
    rw [radersTwiddles_eq m (by omega)]
    refine bind_congr_ok fun tw _ => ?_
    rw [add_eq m (by split <;> omega), ok_bind]
    congr 1
    exact raders_perform_eq m hp s1 s2 (by omega) hg.2 i0 i1 _ _ _

theorem raders_eq {D : Prop} {d : Dht T} (hd : SafeDht D d) (hl : d.len + 1 < 2 * m.cap) (hs : d.inplaceScratchLen < 8 * m.cap)
    (h32 : m = .debug ∨ d.len * d.len < 2 ^ m.bits) : raders m d = RustDHT.raders d := by
  by_cases hp : (d.len + 1).Prime
  · refine raders_eq_of_steps m hd hl hs ?_ fun g hr => ?_
    · rcases h32 with rfl | h32
      · exact Or.inl rfl
      · have : d.len < 2 ^ 32 := lt_of_mul_self_lt (lt_of_lt_of_le h32 (by rw [size_eq]; have := cap_le m; omega))
        exact Or.inr this
    · have hp32 := prime_lt_of_root hp hr
      have hsq : d.len * d.len < 16 * m.cap := by
        rw [← size_eq]
        rcases h32 with rfl | h32
        · show _ < 2 ^ 64
          nlinarith
        · exact h32
      have hg : 0 < g ∧ g < d.len + 1 := by
        by_cases h2 : d.len + 1 = 2
        · rw [h2, primitiveRoot_two] at hr
          cases hr
        · obtain ⟨g', e, h1, h2, _⟩ := primitiveRoot_ok hp h2 hp32
          rw [e] at hr
          cases hr
          exact ⟨by omega, h2⟩
      obtain ⟨_, i1, _⟩ := rootInverse_ok hp hg.1 hg.2
      exact ⟨(Nat.mul_le_mul_left _ (by omega)).trans_lt hsq, (Nat.mul_le_mul_left _ (by omega)).trans_lt hsq⟩
  · unfold raders RustDHT.raders
    simp only
    rw [add_eq m (by omega), ok_bind, millerRabin, decide_eq_false hp]
    rfl

end Raders

/-! ## Every composition -/

section Plan

variable [Zero T] [Add T] [Sub T] [Mul T] [Neg T] [FftNum T]

/-- The object has a length and scratch lengths far from `2^64`. -/
structure Low (m : Mode) (d : Dht T) : Prop where
  len : d.len < 2 * m.cap
  inplace : d.inplaceScratchLen < 2 * m.cap
  oop : d.oopScratchLen < 2 * m.cap

omit [Zero T] [Add T] [Sub T] [Mul T] [Neg T] [FftNum T] in
theorem Low.of_small {d : Dht T} (hl : d.len < 2 * m.cap) (hs : SmallScratch d) (h0 : 0 < d.len) : Low m d := by
  have := hs h0
  exact ⟨hl, by omega, by omega⟩

omit [Zero T] [Add T] [Sub T] [Mul T] [Neg T] [FftNum T] in
theorem mixedRadixN_low {k : Nat} {hd : Dht T} {ap : List T → Res (List T)} (h : Low m hd) (hl : k * hd.len < 2 * m.cap)
    (hs : SmallScratch (RustDHT.mixedRadixN k hd ap)) : Low m (RustDHT.mixedRadixN k hd ap) := by
  rcases Nat.eq_zero_or_pos (k * hd.len) with h0 | h0
  · have h1 := h.inplace
    refine ⟨hl, ?_, ?_⟩
    · show mrnInplaceScratch (k * hd.len) hd < 2 * m.cap
      rw [mrnInplaceScratch]; split <;> omega
    · show mrnOopScratch (k * hd.len) hd < 2 * m.cap
      rw [mrnOopScratch]; split <;> omega
  · exact Low.of_small m hl hs h0

theorem plan_low (p : Plan) (hf : p.Fits m) (d : Dht T) (h : p.build T = .ok d) : Low m d := by
  have hlen := plan_len p d h
  have hsmall := (plan_ok p d h).small
  have hcap := le_cap m
  induction p generalizing d with
  | naive n =>
    cases h
    have hn : (RustDHT.dhtNaive T n).len = n := dhtNaive_len n
    have hn' : n < 2 * m.cap := hf
    exact ⟨by omega, show (naiveTwiddles T n).length < 2 * m.cap by simpa [naiveTwiddles] using hn', show 0 < 2 * m.cap by omega⟩
  | b1 | b2 | b3 | b4 | b5 | b6 | b8 | b9 | b16 =>
    cases h
    exact Low.of_small m (by rw [hlen]; simp only [Plan.expectedLen]; omega) hsmall (by rw [hlen]; simp [Plan.expectedLen])
  | mixedRadix w hh iw ih =>
    obtain ⟨hw, hh', hl, _⟩ := hf
    obtain ⟨wd, ew, h⟩ := bind_eq_ok h
    obtain ⟨hd, eh, h⟩ := bind_eq_ok h
    cases h
    have lw := iw hw wd ew (plan_len w wd ew) (plan_ok w wd ew).small
    have lh := ih hh' hd eh (plan_len hh hd eh) (plan_ok hh hd eh).small
    rw [← plan_len w wd ew, ← plan_len hh hd eh] at hl
    rcases Nat.eq_zero_or_pos (wd.len * hd.len) with h0 | h0
    · have h1 := lw.inplace
      have h2 := lw.oop
      have h3 := lh.inplace
      refine ⟨hl, ?_, ?_⟩
      · show mrInplaceScratch (wd.len * hd.len) wd hd < 2 * m.cap
        rw [mrInplaceScratch]; split <;> omega
      · show mrOopScratch (wd.len * hd.len) wd hd < 2 * m.cap
        simp only [mrOopScratch]; split <;> omega
    · exact Low.of_small m hl hsmall h0
  | mr2 p ih | mr3 p ih | mr4 p ih | mr5 p ih | mr6 p ih =>
    obtain ⟨hf, hl⟩ := hf
    obtain ⟨hd, eh, h⟩ := bind_eq_ok h
    cases h
    have lh := ih hf hd eh (plan_len p hd eh) (plan_ok p hd eh).small
    rw [← plan_len p hd eh] at hl
    exact mixedRadixN_low m lh hl hsmall
  | radix4 n =>
    have hf : n < m.cap := hf
    refine Low.of_small m (by rw [hlen]; show n < 2 * m.cap; omega) hsmall ?_
    rw [hlen]
    refine Nat.pos_of_ne_zero fun h0 => ?_
    have h0 : n = 0 := h0
    subst h0
    simp [Plan.build, RustDHT.radix4, isPowerOfTwo, assert, panic, bind, Except.bind] at h
  | splitRadix q hh iq ih =>
    obtain ⟨hq, hh', hl⟩ := hf
    obtain ⟨qd, eq, h⟩ := bind_eq_ok h
    obtain ⟨hd, eh, h⟩ := bind_eq_ok h
    have lh := ih hh' hd eh (plan_len hh hd eh) (plan_ok hh hd eh).small
    unfold RustDHT.splitRadix at h
    obtain ⟨_, _, h⟩ := bind_eq_ok h
    cases h
    rw [← plan_len q qd eq] at hl
    exact ⟨show qd.len * 4 < 2 * m.cap by omega, lh.len, show 0 < 2 * m.cap by omega⟩
  | raders i ih =>
    obtain ⟨_, hl, _⟩ := hf
    exact Low.of_small m (by rw [hlen]; exact hl) hsmall (by rw [hlen]; simp [Plan.expectedLen])

theorem build_eq (p : Plan) (hf : p.Fits m) : build m T p = p.build T := by
  have hcap := le_cap m
  induction p with
  | naive n => rw [build, Plan.build, dhtNaive_eq m hf]
  | b1 | b2 | b3 | b4 | b5 | b6 | b8 | b9 | b16 => rfl
  | mixedRadix w h iw ih =>
    obtain ⟨hw, hh, hl, ha⟩ := hf
    rw [build, Plan.build, iw hw, ih hh]
    refine bind_congr_ok fun wd ew => bind_congr_ok fun hd eh => ?_
    have lw := plan_low m w hw wd ew
    have lh := plan_low m h hh hd eh
    rw [← plan_len w wd ew, ← plan_len h hd eh] at hl ha
    exact mixedRadix_eq m lw.len lh.len hl ha (lw.oop.trans (by omega)) (lh.inplace.trans (by omega))
  | mr2 p ih =>
    obtain ⟨hf, hl⟩ := hf
    rw [build, Plan.build, ih hf]
    refine bind_congr_ok fun hd eh => ?_
    rw [← plan_len p hd eh] at hl
    exact mixedRadix2xn_eq m hl ((plan_low m p hf hd eh).inplace.trans (by omega))
  | mr3 p ih =>
    obtain ⟨hf, hl⟩ := hf
    rw [build, Plan.build, ih hf]
    refine bind_congr_ok fun hd eh => ?_
    rw [← plan_len p hd eh] at hl
    exact mixedRadix3xn_eq m hl ((plan_low m p hf hd eh).inplace.trans (by omega))
  | mr4 p ih =>
    obtain ⟨hf, hl⟩ := hf
    rw [build, Plan.build, ih hf]
    refine bind_congr_ok fun hd eh => ?_
    rw [← plan_len p hd eh] at hl
    exact mixedRadix4xn_eq m hl ((plan_low m p hf hd eh).inplace.trans (by omega))
  | mr5 p ih =>
    obtain ⟨hf, hl⟩ := hf
    rw [build, Plan.build, ih hf]
    refine bind_congr_ok fun hd eh => ?_
    rw [← plan_len p hd eh] at hl
    exact mixedRadix5xn_eq m hl ((plan_low m p hf hd eh).inplace.trans (by omega))
  | mr6 p ih =>
    obtain ⟨hf, hl⟩ := hf
    rw [build, Plan.build, ih hf]
    refine bind_congr_ok fun hd eh => ?_
    rw [← plan_len p hd eh] at hl
    exact mixedRadix6xn_eq m hl ((plan_low m p hf hd eh).inplace.trans (by omega))
  | radix4 n => exact radix4_eq m hf
  | splitRadix q h iq ih =>
    obtain ⟨hq, hh, hl⟩ := hf
    rw [build, Plan.build, iq hq, ih hh]
    refine bind_congr_ok fun qd eq => bind_congr_ok fun hd eh => ?_
    rw [← plan_len q qd eq] at hl
    exact splitRadix_eq m (D := False) ((plan_safe q).of_ok eq) ((plan_safe h).of_ok eh) (by omega)
  | raders i ih =>
    obtain ⟨hf, hl, h32⟩ := hf
    rw [build, Plan.build, ih hf]
    refine bind_congr_ok fun d e => ?_
    rw [← plan_len i d e] at hl h32
    exact raders_eq m (D := False) ((plan_safe i).of_ok e) hl ((plan_low m i hf d e).inplace.trans (by omega)) h32

end Plan

end RustDHT.Machine
