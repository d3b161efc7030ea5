import Verif.Proofs.CircuitPlan
import Verif.Spec.Stability
import Mathlib.Analysis.SpecialFunctions.Log.Base

/-! # `n log n` operations -/

set_option linter.unusedSectionVars false

namespace RustDHT

/-- Binary logarithm. -/
noncomputable def lg (n : ℕ) : ℝ := Real.logb 2 n

theorem lg_mul {a b : ℕ} (ha : 0 < a) (hb : 0 < b) : lg (a * b) = lg a + lg b := by
  rw [lg, Nat.cast_mul, Real.logb_mul (by positivity) (by positivity)]; rfl

theorem lg_pow (m : ℕ) : lg (2 ^ m) = m := by
  rw [lg, Nat.cast_pow, Real.logb_pow]
  norm_num

theorem lg_mono {a b : ℕ} (ha : 0 < a) (h : a ≤ b) : lg a ≤ lg b :=
  Real.logb_le_logb_of_le (by norm_num) (by exact_mod_cast ha) (by exact_mod_cast h)

theorem le_lg {m n : ℕ} (h : 2 ^ m ≤ n) : (m : ℝ) ≤ lg n := by
  rw [← lg_pow m]
  exact lg_mono (by positivity) h

theorem le_lg3 : (3 / 2 : ℝ) ≤ lg 3 := by
  have h : ((3 : ℕ) : ℝ) ≤ lg (3 * 3) := le_lg (by norm_num)
  rw [lg_mul (by norm_num) (by norm_num)] at h
  norm_num at h
  linarith

/-- What is proved by induction: `x` operations for length `n`. -/
structure OpsLog (L n : ℕ) (x : ℕ) : Prop where
  one : n = 1 → x ≤ 2
  two : 2 ≤ n → (x : ℝ) + 5 * n ≤ (2 * L + 8) * n * lg n

variable {L : ℕ}

theorem OpsLog.leaf {n x : ℕ} (m : ℕ) (h2 : 2 ≤ n) (hm : 2 ^ m ≤ n) (hx : x + 5 * n ≤ 8 * n * m) : OpsLog L n x := by
  refine ⟨fun h => by omega, fun _ => ?_⟩
  have hl := le_lg hm
  have hx : (x : ℝ) + 5 * n ≤ 8 * n * m := by exact_mod_cast hx
  calc (x : ℝ) + 5 * n ≤ 8 * n * m := hx
    _ ≤ 8 * n * lg n := by gcongr
    _ ≤ (2 * L + 8) * n * lg n := by
      have : (0 : ℝ) ≤ n * lg n := mul_nonneg (by positivity) (le_trans (by positivity) hl)
      nlinarith [mul_nonneg (show (0 : ℝ) ≤ 2 * L by positivity) this]

theorem OpsLog.naive {n : ℕ} (h : n ≤ L) : OpsLog L n (2 * n * n) := by
  refine ⟨fun h => by subst h; norm_num, fun h2 => ?_⟩
  have hl : ((1 : ℕ) : ℝ) ≤ lg n := le_lg (by omega)
  have hL : (n : ℝ) ≤ L := by exact_mod_cast h
  push_cast at hl ⊢
  calc (2 : ℝ) * n * n + 5 * n ≤ (2 * L + 8) * n := by nlinarith [mul_le_mul_of_nonneg_right hL (show (0 : ℝ) ≤ n by positivity)]
    _ = (2 * L + 8) * n * 1 := by ring
    _ ≤ (2 * L + 8) * n * lg n := by gcongr

theorem OpsLog.mix {w h x y : ℕ} (hx : OpsLog L w x) (hy : OpsLog L h y) (hw : 2 ≤ w) (hh : 2 ≤ h) :
    OpsLog L (w * h) (h * x + w * y + 5 * (w * h)) := by
  refine ⟨fun e => ?_, fun _ => ?_⟩
  · have := Nat.mul_le_mul hw hh
    omega
  · have h1 := mul_le_mul_of_nonneg_left (hx.two hw) (show (0 : ℝ) ≤ h by positivity)
    have h2 := mul_le_mul_of_nonneg_left (hy.two hh) (show (0 : ℝ) ≤ w by positivity)
    rw [lg_mul (by omega) (by omega)]
    push_cast
    linarith

theorem OpsLog.mrk {k h x B K : ℕ} (hx : OpsLog L h x) (hh : 0 < h) (c : ℝ) (hc : 0 ≤ c) (hk : c ≤ lg k) (h2 : 2 ≤ k)
    (h0 : (7 : ℝ) * k + B ≤ 8 * k * c) (h1 : (K : ℝ) / 2 + B ≤ 8 * k * c) : OpsLog L (k * h) (k * x + (B + h / 2 * K)) := by
  have hL : (0 : ℝ) ≤ 2 * L := by positivity
  have hck : 8 * (k : ℝ) * c ≤ (2 * L + 8) * k * lg k := by
    have hkc : (k : ℝ) * c ≤ k * lg k := by gcongr
    have : (0 : ℝ) ≤ k * lg k := mul_nonneg (by positivity) (hc.trans hk)
    nlinarith [mul_nonneg hL this]
  refine ⟨fun e => ?_, fun _ => ?_⟩
  · have := Nat.le_mul_of_pos_right k hh
    omega
  · rw [lg_mul (by omega) hh]
    rcases Nat.lt_or_ge h 2 with h3 | h3
    · obtain rfl : h = 1 := by omega
      have hx1 : (x : ℝ) ≤ 2 := by exact_mod_cast hx.one rfl
      have hxk := mul_le_mul_of_nonneg_left hx1 (show (0 : ℝ) ≤ k by positivity)
      have e0 : lg 1 = 0 := by simp [lg]
      rw [e0]
      push_cast
      norm_num
      linarith
    · have h4 := mul_le_mul_of_nonneg_left (hx.two h3) (show (0 : ℝ) ≤ k by positivity)
      have h5 : ((h / 2 : ℕ) : ℝ) * K ≤ h * (K / 2) := by
        have : ((h / 2 : ℕ) : ℝ) ≤ h / 2 := Nat.cast_div_le
        calc ((h / 2 : ℕ) : ℝ) * K ≤ h / 2 * K := by gcongr
          _ = h * (K / 2) := by ring
      have h6 : (1 : ℝ) ≤ h := by exact_mod_cast hh
      have h7 : (B : ℝ) ≤ h * B := by nlinarith [show (0 : ℝ) ≤ B by positivity]
      have h8 := mul_le_mul_of_nonneg_left (h1.trans hck) (show (0 : ℝ) ≤ h by positivity)
      push_cast
      have e1 : (2 * (L : ℝ) + 8) * (k * h) * (lg k + lg h)
          = h * ((2 * L + 8) * k * lg k) + k * ((2 * L + 8) * h * lg h) := by ring
      rw [e1]
      linarith

theorem OpsLog.split {q x y : ℕ} (hx : OpsLog L q x) (hy : OpsLog L (2 * q) y) :
    OpsLog L (4 * q) (y + 2 * x + 14 * q) := by
  refine ⟨fun e => by omega, fun h4 => ?_⟩
  have hq : 0 < q := by omega
  have hL : (0 : ℝ) ≤ 2 * L := by positivity
  have e2 : lg 2 = 1 := by simpa using lg_pow 1
  have e4 : lg 4 = 2 := by simpa using lg_pow 2
  have h1 := hy.two (by omega)
  rw [lg_mul (by norm_num) hq, e2] at h1
  rw [lg_mul (by norm_num) hq, e4]
  push_cast at h1 ⊢
  have hqr : (1 : ℝ) ≤ q := by exact_mod_cast hq
  have hLq : (0 : ℝ) ≤ 2 * L * q := by positivity
  rcases Nat.lt_or_ge q 2 with h3 | h3
  · obtain rfl : q = 1 := by omega
    have hx1 : (x : ℝ) ≤ 2 := by exact_mod_cast hx.one rfl
    have e0 : lg 1 = 0 := by simp [lg]
    rw [e0] at h1 ⊢
    push_cast at *
    linarith
  · have h2 := hx.two h3
    have e : (2 * (L : ℝ) + 8) * (4 * q) * (2 + lg q)
        = (2 * L + 8) * (2 * q) * (1 + lg q) + 2 * ((2 * L + 8) * q * lg q) + 6 * (2 * L * q) + 48 * q := by ring
    rw [e]
    linarith

theorem OpsLog.radix4 (m : ℕ) : OpsLog L (2 ^ m) (radix4Ops (2 ^ m)) := by
  match m with
  | 0 => exact ⟨fun _ => by decide, fun h => by norm_num at h⟩
  | 1 => exact .leaf 1 (by norm_num) (by norm_num) (by decide)
  | 2 => exact .leaf 2 (by norm_num) (by norm_num) (by decide)
  | m + 3 =>
    have h8 : 8 * 2 ^ m = 2 ^ (m + 3) := by ring
    have hp : 1 ≤ 2 ^ m := Nat.one_le_two_pow
    have hlog : Nat.log 2 (2 ^ (m + 3)) = m + 3 := Nat.log_pow (by norm_num) _
    refine .leaf (m + 3) (by omega) le_rfl ?_
    rw [radix4Ops, if_neg (by omega), if_neg (by omega), if_neg (by omega), hlog]
    have e2 : 2 ^ (m + 3) / 2 = 4 * 2 ^ m := by omega
    have e8 : 2 ^ (m + 3) / 8 = 2 ^ m := by omega
    rw [e2, e8, ← h8]
    split
    · have : (m + 3 - 3) / 2 * (9 * (4 * 2 ^ m)) ≤ m * (18 * 2 ^ m) := by
        calc (m + 3 - 3) / 2 * (9 * (4 * 2 ^ m)) = (m + 3 - 3) / 2 * 2 * (18 * 2 ^ m) := by ring
          _ ≤ m * (18 * 2 ^ m) := Nat.mul_le_mul_right _ (by omega)
      have e : 8 * (8 * 2 ^ m) * (m + 3) = 64 * (m * 2 ^ m) + 192 * 2 ^ m := by ring
      have e' : m * (18 * 2 ^ m) = 18 * (m * 2 ^ m) := by ring
      omega
    · have : (m + 3 - 4) / 2 * (9 * (4 * 2 ^ m)) ≤ m * (18 * 2 ^ m) := by
        calc (m + 3 - 4) / 2 * (9 * (4 * 2 ^ m)) = (m + 3 - 4) / 2 * 2 * (18 * 2 ^ m) := by ring
          _ ≤ m * (18 * 2 ^ m) := Nat.mul_le_mul_right _ (by omega)
      have e : 8 * (8 * 2 ^ m) * (m + 3) = 64 * (m * 2 ^ m) + 192 * 2 ^ m := by ring
      have e' : m * (18 * 2 ^ m) = 18 * (m * 2 ^ m) := by ring
      omega

variable {T : Type} [Zero T] [Add T] [Sub T] [Mul T] [Neg T] [FftNum T]

theorem plan_opsLog (p : Plan) : p.Fast L → ∀ d : Dht T, p.build T = .ok d → OpsLog L d.len p.ops := by
  have zero : ∀ {k N x : ℕ}, N = k * 0 → OpsLog L N x := fun h => ⟨fun e => by omega, fun e => by omega⟩
  have l2 : ((1 : ℕ) : ℝ) ≤ lg 2 := le_lg (by norm_num)
  have l4 : ((2 : ℕ) : ℝ) ≤ lg 4 := le_lg (by norm_num)
  have l5 : ((2 : ℕ) : ℝ) ≤ lg 5 := le_lg (by norm_num)
  have l6 : ((2 : ℕ) : ℝ) ≤ lg 6 := le_lg (by norm_num)
  have l3 := le_lg3
  induction p with
  | naive n => rintro h d ⟨⟩; rw [dhtNaive_len]; exact .naive h
  | b1 => rintro - d ⟨⟩; exact ⟨fun _ => by decide, fun h => absurd h (by show ¬ 2 ≤ 1; omega)⟩
  | b2 => rintro - d ⟨⟩; exact .leaf (n := 2) 1 (by norm_num) (by norm_num) (by decide)
  | b3 => rintro - d ⟨⟩; exact .leaf (n := 3) 1 (by norm_num) (by norm_num) (by decide)
  | b4 => rintro - d ⟨⟩; exact .leaf (n := 4) 2 (by norm_num) (by norm_num) (by decide)
  | b5 => rintro - d ⟨⟩; exact .leaf (n := 5) 2 (by norm_num) (by norm_num) (by decide)
  | b6 => rintro - d ⟨⟩; exact .leaf (n := 6) 2 (by norm_num) (by norm_num) (by decide)
  | b8 => rintro - d ⟨⟩; exact .leaf (n := 8) 3 (by norm_num) (by norm_num) (by decide)
  | b9 => rintro - d ⟨⟩; exact .leaf (n := 9) 3 (by norm_num) (by norm_num) (by decide)
  | b16 => rintro - d ⟨⟩; exact .leaf (n := 16) 4 (by norm_num) (by norm_num) (by decide)
  | mixedRadix w h ihw ihh =>
    rintro ⟨fw, fh, lw, lh⟩ d e
    obtain ⟨wd, ew, e⟩ := bind_eq_ok e
    obtain ⟨hd, eh, e⟩ := bind_eq_ok e
    cases e
    rw [Plan.ops, ← plan_len w wd ew, ← plan_len h hd eh]
    rw [← plan_len w wd ew] at lw
    rw [← plan_len h hd eh] at lh
    exact (ihw fw wd ew).mix (ihh fh hd eh) lw lh
  | mr2 h ihh =>
    intro f d e
    obtain ⟨hd, eh, e⟩ := bind_eq_ok e
    cases e
    rw [Plan.ops, ← plan_len h hd eh]
    rcases Nat.eq_zero_or_pos hd.len with h0 | h0
    · exact zero (k := 2) (by rw [← h0]; rfl)
    · exact (ihh f hd eh).mrk (k := 2) (B := 2) (K := 10) h0 1 (by norm_num) (by exact_mod_cast l2) (by omega) (by norm_num) (by norm_num)
  | mr3 h ihh =>
    intro f d e
    obtain ⟨hd, eh, e⟩ := bind_eq_ok e
    cases e
    rw [Plan.ops, ← plan_len h hd eh]
    rcases Nat.eq_zero_or_pos hd.len with h0 | h0
    · exact zero (k := 3) (by rw [← h0]; rfl)
    · exact (ihh f hd eh).mrk (k := 3) (B := 8) (K := 32) h0 (3 / 2) (by norm_num) (by exact_mod_cast l3) (by omega) (by norm_num) (by norm_num)
  | mr4 h ihh =>
    intro f d e
    obtain ⟨hd, eh, e⟩ := bind_eq_ok e
    cases e
    rw [Plan.ops, ← plan_len h hd eh]
    rcases Nat.eq_zero_or_pos hd.len with h0 | h0
    · exact zero (k := 4) (by rw [← h0]; rfl)
    · exact (ihh f hd eh).mrk (k := 4) (B := 8) (K := 34) h0 2 (by norm_num) (by exact_mod_cast l4) (by omega) (by norm_num) (by norm_num)
  | mr5 h ihh =>
    intro f d e
    obtain ⟨hd, eh, e⟩ := bind_eq_ok e
    cases e
    rw [Plan.ops, ← plan_len h hd eh]
    rcases Nat.eq_zero_or_pos hd.len with h0 | h0
    · exact zero (k := 5) (by rw [← h0]; rfl)
    · exact (ihh f hd eh).mrk (k := 5) (B := 24) (K := 80) h0 2 (by norm_num) (by exact_mod_cast l5) (by omega) (by norm_num) (by norm_num)
  | mr6 h ihh =>
    intro f d e
    obtain ⟨hd, eh, e⟩ := bind_eq_ok e
    cases e
    rw [Plan.ops, ← plan_len h hd eh]
    rcases Nat.eq_zero_or_pos hd.len with h0 | h0
    · exact zero (k := 6) (by rw [← h0]; rfl)
    · exact (ihh f hd eh).mrk (k := 6) (B := 28) (K := 96) h0 2 (by norm_num) (by exact_mod_cast l6) (by omega) (by norm_num) (by norm_num)
  | radix4 n =>
    intro _ d e
    obtain ⟨m, rfl⟩ := radix4_isPow e
    rw [plan_len _ d e]
    exact .radix4 m
  | splitRadix q h ihq ihh =>
    rintro ⟨fq, fh⟩ d e
    obtain ⟨qd, eq, e⟩ := bind_eq_ok e
    obtain ⟨hd, eh, e⟩ := bind_eq_ok e
    have hlen := (splitRadix_eq e).1
    have hdl : d.len = 4 * qd.len := by rw [(splitRadix_eq e).2]; rfl
    rw [hdl, Plan.ops, ← plan_len q qd eq]
    exact (ihq fq qd eq).split (by rw [← hlen]; exact ihh fh hd eh)
  | raders i _ => exact fun h => h.elim

end RustDHT
