import Verif.Proofs.FirstCoefficient
import Verif.Proofs.IeeeTwiddle
import Verif.Proofs.Scaling
import Verif.Proofs.LeavesDht
import Verif.Spec.Root

/-! # Sums in exact and in IEEE 754 arithmetic -/

namespace RustDHT

/-- Where addition is associative and commutative, there is one sum. -/
theorem AddsUp.eq_sum {T : Type} [AddCommMonoid T] {s : Multiset T} {a : T} (h : AddsUp s a) : a = s.sum := by
  induction h with
  | one a => simp
  | zero _ ih => rw [zero_add, ih]
  | add _ _ ih1 ih2 => rw [Multiset.sum_add, ih1, ih2]

theorem twiddle_zero_real (ρ : ℝ) (n : ℕ) (a : ℝ) : @computeDhtTwiddle ℝ _ (realWithRoot ρ) 0 n * a = a := by
  have h := dht_twiddle 0 n
  rw [Nat.cast_zero, ca_zero] at h
  have e : @computeDhtTwiddle ℝ _ (realWithRoot ρ) 0 n = computeDhtTwiddle ℝ 0 n := rfl
  rw [e, h, one_mul]

namespace Flt

variable {F : Fmt}

theorem round_of_abs (s : Bool) (x : ℚ) : round F s |x| = round F s x := by
  have e : F.mantissa |x| = F.mantissa x := by simp only [Fmt.mantissa, abs_abs]
  simp only [round, abs_abs, e]

/-- A sum that is a number of the format is not rounded. -/
theorem add_exact {a b : Flt F} (ha : a.fin) (hb : b.fin) (h : F.Rep |a.value + b.value|) :
    (a + b).fin ∧ (a + b).value = a.value + b.value := by
  match a, b, ha, hb with
  | num s m hm, num s' m' hm', _, _ =>
    have e : (num s m hm + num s' m' hm' : Flt F)
      = roundSigned F (s && s') ((num s m hm : Flt F).value + (num s' m' hm' : Flt F).value) := rfl
    rw [e, roundSigned_eq, ← round_of_abs, round_rep _ h]
    refine ⟨trivial, ?_⟩
    generalize (num s m hm : Flt F).value + (num s' m' hm' : Flt F).value = x at h
    exact withSign_abs x (s && s')

theorem rep_value {a : Flt F} (ha : a.fin) : F.Rep |a.value| := by
  match a, ha with
  | num s m hm, _ =>
    have h0 := rep_nonneg hm
    have : |(num s m hm : Flt F).value| = m := by
      cases s <;> simp [value, abs_of_nonneg h0]
    rwa [this]

theorem zero_value : (0 : Flt F).fin ∧ (0 : Flt F).value = 0 := by
  rw [zero_eq]; exact ⟨trivial, by simp [value]⟩

theorem zero_add_exact {a : Flt F} (ha : a.fin) : (0 + a).fin ∧ (0 + a).value = a.value := by
  obtain ⟨h1, h2⟩ := zero_value (F := F)
  have := add_exact h1 ha (by rw [h2, _root_.zero_add]; exact rep_value ha)
  rwa [h2, _root_.zero_add] at this

theorem one_rep (F : Fmt) (h1 : F.emin ≤ 0) (h2 : 0 < F.emax) : F.Rep 1 := by
  refine ⟨1, 0, Nat.one_lt_two_pow (by have := F.prec_pos; omega), h1, by norm_num, ?_⟩
  exact one_lt_zpow₀ (by norm_num) h2

/-- One. -/
def one (F : Fmt) (h1 : F.emin ≤ 0) (h2 : 0 < F.emax) : Flt F := num false 1 (one_rep F h1 h2)

theorem one_mul (h1 : F.emin ≤ 0) (h2 : 0 < F.emax) (a : Flt F) : one F h1 h2 * a = a := by
  match a with
  | num s m hm =>
    show round F (xor false s) ((1 : ℚ) * m) = _
    rw [_root_.one_mul, round_rep _ hm, Bool.false_xor]
  | inf s =>
    show (if (1 : ℚ) = 0 then (nan : Flt F) else inf (xor false s)) = _
    rw [if_neg one_ne_zero, Bool.false_xor]
  | nan => rfl

/-- The angle zero is computed as zero. -/
theorem angle_zero [MathLib] {n : ℕ} (hn : 0 < n) :
    (∃ z : Flt binary64, z.fin ∧ z.value = 0 ∧
      Wide.ops.mul (Wide.ops.div (Wide.ops.mul (Wide.ops.ofNat 2) Wide.ops.pi) (Wide.ops.ofNat n)) (Wide.ops.ofNat 0) = .f64 z) ∨
    Wide.ops.mul (Wide.ops.div (Wide.ops.mul (Wide.ops.ofNat 2) Wide.ops.pi) (Wide.ops.ofNat n)) (Wide.ops.ofNat 0)
      = .beyond 0 := by
  obtain ⟨b1, b2⟩ := Wide.ofNat_spec 2
  obtain ⟨c1, c2⟩ := Wide.two_pi_spec _ b1 1 abs_one (by rw [_root_.one_mul, mul_comm 2 u64]; exact_mod_cast b2)
  rw [_root_.one_mul] at c2
  have g1 := Real.pi_gt_d2
  have g2 := Real.pi_lt_d2
  have hu := u64_le
  rw [abs_le] at c2
  norm_num at hu g1 g2
  obtain ⟨d1, -⟩ := Wide.div_spec _ c1 n hn (le_trans (by linarith) (le_abs_self _)) (by rw [abs_le]; constructor <;> linarith)
  generalize Wide.ops.div (Wide.ops.mul (Wide.ops.ofNat 2) Wide.ops.pi) (Wide.ops.ofNat n) = c at d1
  have e : Wide.ops.ofNat 0 = .f64 (num false 0 (rep_nought binary64)) := by
    have : ∀ m < 2 ^ 64, Wide.ops.ofNat m = .f64 (.ofNat binary64 m) := fun m hm => if_pos hm
    rw [this 0 (by norm_num), ofNat, Nat.cast_zero, round_nought]
  rw [e]
  match c, d1 with
  | .f64 (num s m hm), _ =>
    refine .inl ⟨num (xor s false) 0 (rep_nought binary64), trivial, by simp [value], ?_⟩
    show Wide.f64 (round binary64 (xor s false) (m * 0)) = _
    rw [mul_zero, round_nought]
  | .beyond x, _ =>
    refine .inr ?_
    show Wide.beyond (x * (num false 0 (rep_nought binary64) : Flt binary64).val) = _
    simp [val, value]

/-- The table entry for the angle zero is one, and multiplying by it changes nothing. -/
theorem twiddle_zero [MathLib] (hz : MathLib.AtZero) (h1 : F.emin ≤ 0) (h2 : 0 < F.emax) {n : ℕ} (hn : 0 < n) (a : Flt F) :
    computeDhtTwiddle (Flt F) 0 n * a = a := by
  have key : ∀ s, one F h1 h2 + num s 0 (rep_nought F) = one F h1 h2 := by
    intro s
    show roundSigned F (false && s) ((one F h1 h2).value + (num s 0 (rep_nought F) : Flt F).value) = _
    have e : (one F h1 h2).value + (num s 0 (rep_nought F) : Flt F).value = 1 := by cases s <;> simp [one, value]
    rw [e, roundSigned, if_neg one_ne_zero, round_rep _ (one_rep F h1 h2)]
    simp [one]
  have e : computeDhtTwiddle (Flt F) 0 n = one F h1 h2 := by
    rw [computeDhtTwiddle]
    rcases angle_zero hn with ⟨z, z1, z2, ez⟩ | ez
    · show FftNum.fromF64 (T := Flt F) (Wide.ops.cos (Wide.ops.mul (Wide.ops.div (Wide.ops.mul (Wide.ops.ofNat 2) Wide.ops.pi)
        (Wide.ops.ofNat n)) (Wide.ops.ofNat 0))) + FftNum.fromF64 (T := Flt F) (Wide.ops.sin (Wide.ops.mul (Wide.ops.div
        (Wide.ops.mul (Wide.ops.ofNat 2) Wide.ops.pi) (Wide.ops.ofNat n)) (Wide.ops.ofNat 0))) = _
      rw [ez]
      show convert F (MathLib.cos z) + convert F (MathLib.sin z) = _
      rw [hz.cos z z1 z2, hz.sin z z1 z2]
      have e1 : convert F (ofNat binary64 1) = one F h1 h2 := by
        rw [ofNat, Nat.cast_one, round_rep _ (one_rep binary64 (by decide) (by decide))]
        exact round_rep _ (one_rep F h1 h2)
      match z, z1, z2 with
      | num s m hm, _, z2 =>
        have hm0 : m = 0 := by cases s <;> simpa [value] using z2
        subst hm0
        have e2 : convert F (num s 0 hm) = num s 0 (rep_nought F) := round_nought s
        rw [e1, e2, key]
    · show FftNum.fromF64 (T := Flt F) (Wide.ops.cos (Wide.ops.mul (Wide.ops.div (Wide.ops.mul (Wide.ops.ofNat 2) Wide.ops.pi)
        (Wide.ops.ofNat n)) (Wide.ops.ofNat 0))) + FftNum.fromF64 (T := Flt F) (Wide.ops.sin (Wide.ops.mul (Wide.ops.div
        (Wide.ops.mul (Wide.ops.ofNat 2) Wide.ops.pi) (Wide.ops.ofNat n)) (Wide.ops.ofNat 0))) = _
      rw [ez]
      show roundSigned F false (Real.cos 0) + roundSigned F false (Real.sin 0) = _
      rw [Real.cos_zero, Real.sin_zero]
      have e1 : roundSigned F false (1 : ℝ) = one F h1 h2 := by
        have e0 : F.exponent |(1 : ℝ)| = F.exponent |(1 : ℚ)| := by simp [Fmt.exponent]
        have e3 : F.mantissa (1 : ℝ) = F.mantissa (1 : ℚ) := by
          have hle : F.exponent (1 : ℚ) ≤ 0 := by
            rw [Fmt.exponent, Int.log_one_right]
            have := F.prec_pos
            omega
          obtain ⟨k, hk⟩ := Int.eq_ofNat_of_zero_le (show 0 ≤ -F.exponent (1 : ℚ) by omega)
          have hk' : F.exponent (1 : ℚ) = -(k : ℤ) := by omega
          have e4 : ∀ K : Type, ∀ [Field K] [LinearOrder K] [IsStrictOrderedRing K] [FloorRing K], F.exponent (1 : K) = -(k : ℤ) →
              F.mantissa (1 : K) = 2 ^ k := by
            intro K _ _ _ _ h
            have e5 : |(1 : K)| / 2 ^ F.exponent |(1 : K)| = ((2 ^ k : ℤ) : K) := by
              rw [abs_one, h, zpow_neg, zpow_natCast, one_div, inv_inv]; push_cast; rfl
            rw [Fmt.mantissa, e5]
            generalize (2 : ℤ) ^ k = j
            simp [roundEven]
          rw [e4 ℝ (by rw [abs_one, abs_one] at e0; rw [e0, hk']), e4 ℚ hk']
        have e5 : round F false (1 : ℝ) = round F false (1 : ℚ) := by simp only [round, e0, e3]
        rw [roundSigned, if_neg one_ne_zero, show decide ((1 : ℝ) < 0) = false by simp, e5, round_rep _ (one_rep F h1 h2)]
        rfl
      have e2 : roundSigned F false (0 : ℝ) = num false 0 (rep_nought F) := by
        have e3 : F.mantissa (0 : ℝ) = 0 := by simp [Fmt.mantissa, roundEven]
        have hlt : (F.mantissa (0 : ℝ) : ℚ) * 2 ^ F.exponent |(0 : ℝ)| < 2 ^ F.emax := by
          rw [e3, Int.cast_zero, zero_mul]; positivity
        rw [roundSigned, if_pos rfl, round, dif_pos hlt]
        exact num_congr (by rw [e3, Int.cast_zero, zero_mul]) _ _
      rw [e1, e2, key]
  rw [e, one_mul]

/-! ## Sums -/

/-- Multiples of one power of two, of at most `prec` bits together, are added up without error. -/
theorem sum_exact {e : ℤ} (he : F.emin ≤ e) {s : Multiset (Flt F)} {a : Flt F} (h : AddsUp s a)
    (hs : ∀ b ∈ s, b.fin ∧ ∃ k : ℤ, b.value = k * 2 ^ e)
    (h1 : (s.map fun b => |b.value|).sum ≤ 2 ^ F.prec * 2 ^ e) (h2 : (s.map fun b => |b.value|).sum < 2 ^ F.emax) :
    a.fin ∧ a.value = (s.map value).sum ∧ |a.value| ≤ (s.map fun b => |b.value|).sum ∧ ∃ k : ℤ, a.value = k * 2 ^ e := by
  have nonneg : ∀ t : Multiset (Flt F), 0 ≤ (t.map fun b => |b.value|).sum := fun t =>
    Multiset.sum_nonneg fun x hx => by
      obtain ⟨b, -, rfl⟩ := Multiset.mem_map.1 hx
      exact abs_nonneg _
  induction h with
  | one a =>
    obtain ⟨g1, g2⟩ := hs a (by simp)
    exact ⟨g1, by simp, by simp, g2⟩
  | zero _ ih =>
    obtain ⟨g1, g2, g3, g4⟩ := ih hs h1 h2
    obtain ⟨f1, f2⟩ := zero_add_exact g1
    rw [f2]
    exact ⟨f1, g2, g3, g4⟩
  | @add s t a b _ _ ih1 ih2 =>
    rw [Multiset.map_add, Multiset.sum_add] at h1 h2
    have n1 := nonneg s
    have n2 := nonneg t
    obtain ⟨g1, g2, g3, k, g4⟩ := ih1 (fun b hb => hs b (Multiset.mem_add.2 (.inl hb))) (by linarith) (by linarith)
    obtain ⟨f1, f2, f3, l, f4⟩ := ih2 (fun b hb => hs b (Multiset.mem_add.2 (.inr hb))) (by linarith) (by linarith)
    have hle : |a.value + b.value| ≤ (s.map fun b => |b.value|).sum + (t.map fun b => |b.value|).sum :=
      (abs_add_le _ _).trans (add_le_add g3 f3)
    have hp : (0 : ℚ) < 2 ^ e := by positivity
    have e1 : a.value + b.value = (k + l : ℤ) * 2 ^ e := by rw [g4, f4]; push_cast; ring
    have e2 : |a.value + b.value| = (|k + l| : ℤ) * 2 ^ e := by rw [e1, abs_mul, abs_of_pos hp, Int.cast_abs]
    have hrep : F.Rep |a.value + b.value| := by
      rw [e2]
      refine F.rep_of (abs_nonneg _) ?_ he (by rw [← e2]; exact hle.trans_lt h2)
      have : ((|k + l| : ℤ) : ℚ) * 2 ^ e ≤ 2 ^ F.prec * 2 ^ e := by rw [← e2]; exact hle.trans h1
      exact_mod_cast le_of_mul_le_mul_right this hp
    obtain ⟨r1, r2⟩ := add_exact g1 f1 hrep
    rw [r2, Multiset.map_add, Multiset.sum_add, Multiset.map_add, Multiset.sum_add]
    exact ⟨r1, by rw [g2, f2], hle, k + l, by rw [e1]⟩

/-- Each number takes part in fewer roundings than there are numbers. -/
theorem sum_error (hF : F.emin + 2 ≤ F.emax) {s : Multiset (Flt F)} {a : Flt F} (h : AddsUp s a) (hs : ∀ b ∈ s, b.fin)
    (hΩ : (1 + 2⁻¹ ^ F.prec) ^ (Multiset.card s - 1) * (s.map fun b => |b.val|).sum ≤ 2 ^ (F.emax - 1)) :
    a.fin ∧ |a.val - (s.map val).sum| ≤ ((1 + 2⁻¹ ^ F.prec) ^ (Multiset.card s - 1) - 1) * (s.map fun b => |b.val|).sum := by
  have nonneg : ∀ t : Multiset (Flt F), 0 ≤ (t.map fun b => |b.val|).sum := fun t =>
    Multiset.sum_nonneg fun x hx => by
      obtain ⟨b, -, rfl⟩ := Multiset.mem_map.1 hx
      exact abs_nonneg _
  have tri : ∀ t : Multiset (Flt F), |(t.map val).sum| ≤ (t.map fun b => |b.val|).sum := fun t => by
    induction t using Multiset.induction with
    | empty => simp
    | cons b t ih =>
      rw [Multiset.map_cons, Multiset.sum_cons, Multiset.map_cons, Multiset.sum_cons]
      exact (abs_add_le _ _).trans (by linarith)
  have hu : (0 : ℝ) ≤ 2⁻¹ ^ F.prec := by positivity
  have hadd := fun a b : Flt F => add_spec hF a b
  generalize (2⁻¹ : ℝ) ^ F.prec = u at hu hΩ hadd ⊢
  have pos : ∀ {s : Multiset (Flt F)} {a : Flt F}, AddsUp s a → 0 < Multiset.card s := by
    intro s a h
    induction h with
    | one a => simp
    | zero _ ih => exact ih
    | add _ _ ih _ => rw [Multiset.card_add]; omega
  induction h with
  | one a => exact ⟨hs a (by simp), by simp⟩
  | zero _ ih =>
    obtain ⟨g1, g2⟩ := ih hs hΩ
    obtain ⟨f1, f2⟩ := zero_add_exact g1
    refine ⟨f1, ?_⟩
    rw [val, f2]
    exact g2
  | @add s t a b ha hb ih1 ih2 =>
    have n1 := nonneg s
    have n2 := nonneg t
    have t1 := tri s
    have t2 := tri t
    have p1 := pos ha
    have p2 := pos hb
    rw [Multiset.card_add] at hΩ ⊢
    simp only [Multiset.map_add, Multiset.sum_add] at hΩ ⊢
    generalize (s.map fun b => |b.val|).sum = A at *
    generalize (t.map fun b => |b.val|).sum = B at *
    generalize (s.map val).sum = S at *
    generalize (t.map val).sum = S' at *
    obtain ⟨j, hj⟩ : ∃ j, Multiset.card s = j + 1 := ⟨_, (Nat.sub_add_cancel p1).symm⟩
    obtain ⟨k, hk⟩ : ∃ k, Multiset.card t = k + 1 := ⟨_, (Nat.sub_add_cancel p2).symm⟩
    rw [hj] at ih1 hΩ ⊢
    rw [hk] at ih2 hΩ ⊢
    have h1u : (1 : ℝ) ≤ 1 + u := by linarith
    have hexp : j + 1 + (k + 1) - 1 = j + k + 1 := by omega
    rw [hexp] at hΩ ⊢
    rw [Nat.add_sub_cancel] at ih1 ih2
    have m1 : (1 + u) ^ j ≤ (1 + u) ^ (j + k) := pow_le_pow_right₀ h1u (by omega)
    have m2 : (1 + u) ^ k ≤ (1 + u) ^ (j + k) := pow_le_pow_right₀ h1u (by omega)
    have m3 : (1 + u) ^ (j + k + 1) = (1 + u) ^ (j + k) * (1 + u) := pow_succ _ _
    have m0 : 1 ≤ (1 + u) ^ (j + k) := one_le_pow₀ h1u
    generalize hP : (1 + u) ^ (j + k) = P at *
    have hQ : P ≤ P * (1 + u) := by nlinarith
    rw [m3] at hΩ ⊢
    have hPA : P * A + P * B ≤ P * (1 + u) * (A + B) := by nlinarith
    obtain ⟨g1, g2⟩ := ih1 (fun b hb => hs b (Multiset.mem_add.2 (.inl hb))) (by nlinarith)
    obtain ⟨f1, f2⟩ := ih2 (fun b hb => hs b (Multiset.mem_add.2 (.inr hb))) (by nlinarith)
    have g3 : |a.val - S| ≤ (P - 1) * A := g2.trans (by nlinarith)
    have f3 : |b.val - S'| ≤ (P - 1) * B := f2.trans (by nlinarith)
    have e1 : |a.val + b.val - (S + S')| ≤ (P - 1) * (A + B) := by
      have : a.val + b.val - (S + S') = (a.val - S) + (b.val - S') := by ring
      rw [this]
      exact (abs_add_le _ _).trans (by linarith)
    have e2 : |a.val + b.val| ≤ P * (A + B) := by
      have h1 := abs_add_le (a.val + b.val - (S + S')) (S + S')
      have h2 := abs_add_le S S'
      rw [sub_add_cancel] at h1
      linarith
    obtain ⟨r1, r2⟩ := hadd a b g1 f1 (by linarith)
    refine ⟨r1, ?_⟩
    have h1 := abs_add_le ((a + b).val - (a.val + b.val)) (a.val + b.val - (S + S'))
    rw [sub_add_sub_cancel] at h1
    have h2 := mul_le_mul_of_nonneg_left e2 hu
    linarith

end Flt

end RustDHT
