import Verif.Model.Twiddles
import Mathlib.Data.Int.Log
import Mathlib.Analysis.SpecialFunctions.Trigonometric.Basic

/-! # IEEE 754 binary floating-point arithmetic

`f32` and `f64` as the standard defines them: finite numbers with a sign, also of zero, infinities and NaN; every operation
rounds the exact result to the nearest number, halves to even, with gradual underflow and with overflow to infinity.  All NaNs
are one value.  Nothing here refers to an algorithm of the crate, and no error bound occurs in a definition.

The functions `cos` and `sin` of `f64` are not fixed by the standard or by Rust; they are a parameter (`MathLib`). -/

namespace RustDHT

/-- A binary format: the number of significant bits, the exponent of the last bit of the smallest numbers, and the exponent of
the power of two that finite numbers stay below. -/
structure Fmt where
  prec : ℕ
  emin : ℤ
  emax : ℤ
  prec_pos : 1 ≤ prec

/-- `f32` -/
def binary32 : Fmt := ⟨24, -149, 128, by decide⟩
/-- `f64` -/
def binary64 : Fmt := ⟨53, -1074, 1024, by decide⟩

/-- The absolute values of the finite numbers of a format. -/
def Fmt.Rep (F : Fmt) (x : ℚ) : Prop :=
  ∃ (m : ℕ) (e : ℤ), m < 2 ^ F.prec ∧ F.emin ≤ e ∧ x = m * 2 ^ e ∧ x < 2 ^ F.emax

/-- A number in floating point: `num neg mag` is finite, of absolute value `mag`, and `neg` says whether its sign is negative. -/
inductive Flt (F : Fmt)
  | num (neg : Bool) (mag : ℚ) (rep : F.Rep mag)
  | inf (neg : Bool)
  | nan

section
variable {K : Type} [Field K] [LinearOrder K] [IsStrictOrderedRing K] [FloorRing K]

/-- The integer nearest to `x`, the even one of two. -/
def roundEven (x : K) : ℤ :=
  let r := x - ⌊x⌋
  if r * 2 < 1 then ⌊x⌋ else if 1 < r * 2 then ⌊x⌋ + 1 else if ⌊x⌋ % 2 = 0 then ⌊x⌋ else ⌊x⌋ + 1

/-- The exponent of the last bit that is kept of a positive number. -/
def Fmt.exponent (F : Fmt) (x : K) : ℤ := max (Int.log 2 x - F.prec + 1) F.emin

/-- A positive number or zero in units of its last bit that is kept, rounded. -/
def Fmt.mantissa (F : Fmt) (x : K) : ℤ := roundEven (|x| / 2 ^ F.exponent |x|)

theorem roundEven_err (x : K) : |(roundEven x : K) - x| ≤ 1 / 2 := by
  have h1 := Int.floor_le x
  have h2 := Int.lt_floor_add_one x
  rw [abs_le, roundEven]
  split_ifs <;> push_cast <;> constructor <;> linarith

theorem roundEven_mem (x : K) : roundEven x = ⌊x⌋ ∨ (roundEven x = ⌊x⌋ + 1 ∧ (⌊x⌋ : K) < x) := by
  rw [roundEven]
  split_ifs
  · exact .inl rfl
  · exact .inr ⟨rfl, by linarith⟩
  · exact .inl rfl
  · exact .inr ⟨rfl, by linarith⟩

theorem roundEven_nonneg {x : K} (h : 0 ≤ x) : 0 ≤ roundEven x := by
  have := Int.floor_nonneg.2 h
  rcases roundEven_mem x with h | h <;> omega

theorem roundEven_le {x : K} {m : ℤ} (h : x ≤ m) : roundEven x ≤ m := by
  rcases roundEven_mem x with h1 | ⟨h1, h2⟩
  · rw [h1]; exact Int.cast_le.1 ((Int.floor_le x).trans h)
  · rw [h1]; exact Int.cast_lt.1 (h2.trans_le h)

theorem Fmt.mantissa_nonneg (F : Fmt) (x : K) : 0 ≤ F.mantissa x := roundEven_nonneg (by positivity)

theorem Fmt.mantissa_le (F : Fmt) (x : K) : F.mantissa x ≤ 2 ^ F.prec := by
  refine roundEven_le ?_
  have h2 : (0 : K) < 2 := two_pos
  rw [div_le_iff₀ (by positivity)]
  have h := (Int.lt_zpow_succ_log_self (b := 2) (by norm_num) |x|).le
  push_cast at h ⊢
  refine h.trans ?_
  rw [← zpow_natCast, ← zpow_add₀ h2.ne']
  refine zpow_le_zpow_right₀ one_le_two ?_
  have : Int.log 2 |x| - F.prec + 1 ≤ F.exponent |x| := le_max_left _ _
  omega

/-- A number with at most `prec` bits, or the power of two that follows them, is a number of the format. -/
theorem Fmt.rep_of (F : Fmt) {m e : ℤ} (h0 : 0 ≤ m) (h1 : m ≤ 2 ^ F.prec) (he : F.emin ≤ e)
    (h : (m : ℚ) * 2 ^ e < 2 ^ F.emax) : F.Rep (m * 2 ^ e) := by
  have hp := F.prec_pos
  lift m to ℕ using h0
  rcases Nat.lt_or_ge m (2 ^ F.prec) with hm | hm
  · exact ⟨m, e, hm, he, by push_cast; rfl, h⟩
  · have h1' : m ≤ 2 ^ F.prec := by exact_mod_cast h1
    have hm' : m = 2 ^ F.prec := le_antisymm h1' hm
    refine ⟨2 ^ (F.prec - 1), e + 1, Nat.pow_lt_pow_right (by norm_num) (by omega), by omega, ?_, h⟩
    subst hm'
    push_cast
    rw [zpow_add₀ (by norm_num : (2 : ℚ) ≠ 0), zpow_one]
    obtain ⟨q, hq⟩ : ∃ q, F.prec = q + 1 := ⟨F.prec - 1, by omega⟩
    rw [hq, Nat.add_sub_cancel, pow_succ]
    ring

/-- The number nearest to `|x|`, with a given sign; infinity if that is too large. -/
def Flt.round (F : Fmt) (neg : Bool) (x : K) : Flt F :=
  if h : (F.mantissa x : ℚ) * 2 ^ F.exponent |x| < 2 ^ F.emax then
    .num neg (F.mantissa x * 2 ^ F.exponent |x|) (F.rep_of (F.mantissa_nonneg x) (F.mantissa_le x) (le_max_right _ _) h)
  else .inf neg

/-- The number nearest to `x`; `zeroSign` is the sign of the result if `x` is zero. -/
def Flt.roundSigned (F : Fmt) (zeroSign : Bool) (x : K) : Flt F :=
  if x = 0 then .round F zeroSign x else .round F (decide (x < 0)) x

end

namespace Flt

variable {F : Fmt}

/-- The value of a finite number. -/
def value : Flt F → ℚ
  | num neg mag _ => if neg then -mag else mag
  | _ => 0

/-- Finite. -/
def fin : Flt F → Prop
  | num .. => True
  | _ => False

/-- The value as a real number. -/
noncomputable def val (a : Flt F) : ℝ := (a.value : ℝ)

instance : Zero (Flt F) := ⟨round F false (0 : ℚ)⟩

instance : Neg (Flt F) := ⟨fun
  | num s a h => num (!s) a h
  | inf s => inf (!s)
  | nan => nan⟩

/-- A sum that is zero has a negative sign only if both terms have. -/
instance : Add (Flt F) := ⟨fun
  | num s a ha, num s' b hb => roundSigned F (s && s') ((num s a ha : Flt F).value + (num s' b hb : Flt F).value)
  | num .., inf s => inf s
  | inf s, num .. => inf s
  | inf s, inf s' => if s = s' then inf s else nan
  | _, _ => nan⟩

instance : Sub (Flt F) := ⟨fun a b => a + -b⟩

instance : Mul (Flt F) := ⟨fun
  | num s a _, num s' b _ => round F (xor s s') (a * b)
  | num s a _, inf s' => if a = 0 then nan else inf (xor s s')
  | inf s, num s' b _ => if b = 0 then nan else inf (xor s s')
  | inf s, inf s' => inf (xor s s')
  | _, _ => nan⟩

instance : Div (Flt F) := ⟨fun
  | num s a _, num s' b _ =>
    if b = 0 then if a = 0 then nan else inf (xor s s') else round F (xor s s') (a / b)
  | num s _ _, inf s' => round F (xor s s') (0 : ℚ)
  | inf s, num s' _ _ => inf (xor s s')
  | inf _, inf _ => nan
  | _, _ => nan⟩

/-- `n as f64` -/
def ofNat (F : Fmt) (n : ℕ) : Flt F := round F false (n : ℚ)

/-- Conversion between formats. -/
def convert (F : Fmt) {G : Fmt} : Flt G → Flt F
  | num s a _ => round F s a
  | inf s => inf s
  | nan => nan

/-- `std::f64::consts::PI` -/
def pi64 : Flt binary64 := round binary64 false (884279719003555 / 2 ^ 48 : ℚ)

end Flt

/-- `f64::cos` and `f64::sin`: Rust leaves them to the platform ("The precision of this function is non-deterministic"). -/
class MathLib where
  cos : Flt binary64 → Flt binary64
  sin : Flt binary64 → Flt binary64

/-- What is assumed of them: for arguments of at most 8 an error of at most `2^-52`.  (The arguments that occur in tables are at
most `2π`.  The usual libraries have errors below one unit in the last place, which here is at most `2^-53`.) -/
structure MathLib.Accurate [MathLib] : Prop where
  cos : ∀ x : Flt binary64, x.fin → |x.val| ≤ 8 →
    (MathLib.cos x).fin ∧ |(MathLib.cos x).val - Real.cos x.val| ≤ 2⁻¹ ^ 52
  sin : ∀ x : Flt binary64, x.fin → |x.val| ≤ 8 →
    (MathLib.sin x).fin ∧ |(MathLib.sin x).val - Real.sin x.val| ≤ 2⁻¹ ^ 52

/-- `f64`, where `n as f64` for `n ≥ 2^64`, which a `usize` cannot be, is continued in exact arithmetic.  (Lengths in the model
are unbounded; `n as f64` itself would be infinite from about `2^1024` on.) -/
inductive Wide
  | f64 (x : Flt binary64)
  | beyond (x : ℝ)

namespace Wide

noncomputable def val : Wide → ℝ
  | f64 x => x.val
  | beyond x => x

noncomputable def ops [MathLib] : F64Ops Wide where
  ofNat n := if n < 2 ^ 64 then f64 (.ofNat binary64 n) else beyond n
  pi := f64 .pi64
  neg | f64 a => f64 (-a) | a => beyond (-a.val)
  mul | f64 a, f64 b => f64 (a * b) | a, b => beyond (a.val * b.val)
  div | f64 a, f64 b => f64 (a / b) | a, b => beyond (a.val / b.val)
  cos | f64 a => f64 (MathLib.cos a) | a => beyond (Real.cos a.val)
  sin | f64 a => f64 (MathLib.sin a) | a => beyond (Real.sin a.val)

end Wide

/-- The number type `f32` or `f64`.  `0.5f32.sqrt()` is the number of `f32` nearest to the square root of a half. -/
noncomputable instance ieee (F : Fmt) [MathLib] : FftNum (Flt F) where
  F64 := Wide
  f64 := Wide.ops
  fromF64 | .f64 x => .convert F x | .beyond x => .roundSigned F false x
  sqrtHalfF32 := .convert F (.roundSigned binary32 false √(1 / 2))
  halfF32 := .convert F (.round binary32 false (1 / 2 : ℚ))

end RustDHT
