import Verif.Proofs.CircuitLog
import Verif.Spec.Nested

/-! # Operations with `RadersAlgorithm` nested -/

set_option linter.unusedSectionVars false

namespace RustDHT

open Circ

/-- The length of `DhtNaive` whose bound is `2^k` times that of `L`: `2 * nestedL L k + 8 = 2^k (2L + 8)`. -/
def nestedL (L k : ℕ) : ℕ := 2 ^ k * (L + 4) - 4

theorem nestedL_add (L k : ℕ) : nestedL L k + 4 = 2 ^ k * (L + 4) := by
  have := Nat.mul_le_mul (Nat.one_le_two_pow (n := k)) (show 4 ≤ L + 4 by omega)
  rw [nestedL]
  omega

theorem le_nestedL (L k : ℕ) : L ≤ nestedL L k := by
  have := Nat.mul_le_mul (Nat.one_le_two_pow (n := k)) (le_refl (L + 4))
  have := nestedL_add L k
  omega

theorem nestedL_cast (L k : ℕ) : 2 * (nestedL L k : ℝ) + 8 = 2 ^ k * (2 * L + 8) := by
  have : (nestedL L k : ℝ) + 4 = 2 ^ k * (L + 4) := by exact_mod_cast nestedL_add L k
  linear_combination 2 * this

theorem OpsLog.raders {L k n x : ℕ} (h : OpsLog (nestedL L k) n x) (h2 : 2 ≤ n) :
    OpsLog (nestedL L (k + 1)) (n + 1) (2 * x + 3 * n + 2) := by
  refine ⟨fun e => by omega, fun _ => ?_⟩
  have h3 := h.two h2
  rw [nestedL_cast] at h3 ⊢
  have hC : (8 : ℝ) ≤ 2 ^ k * (2 * L + 8) := by
    have h1 : (1 : ℝ) ≤ 2 ^ k := one_le_pow₀ (by norm_num)
    nlinarith [show (0 : ℝ) ≤ L by positivity]
  have e : (2 : ℝ) ^ (k + 1) * (2 * L + 8) = 2 * (2 ^ k * (2 * L + 8)) := by ring
  rw [e]
  generalize (2 : ℝ) ^ k * (2 * L + 8) = C at *
  have hl : ((1 : ℕ) : ℝ) ≤ lg n := le_lg (by omega)
  have hm := lg_mono (a := n) (b := n + 1) (by omega) (by omega)
  have hn : (2 : ℝ) ≤ n := by exact_mod_cast h2
  push_cast at hl ⊢
  have h4 : C * n * lg n ≤ C * n * lg (n + 1) := by gcongr
  have h5 : (8 : ℝ) * 1 ≤ C * lg (n + 1) := mul_le_mul hC (hl.trans hm) (by norm_num) (by linarith)
  linarith

variable {S : Type} [Zero S] [FftNum S] {L : ℕ}

theorem plan_opsNested (p : Plan) : ∀ k : ℕ, p.FastNested L k → ∀ d : Dht (Circ S), p.build (Circ S) = .ok d →
    OpsLog (nestedL L k) d.len p.ops := by
  have zero : ∀ {M k N x : ℕ}, N = k * 0 → OpsLog M N x := fun h => ⟨fun e => by omega, fun e => by omega⟩
  have l2 : ((1 : ℕ) : ℝ) ≤ lg 2 := le_lg (by norm_num)
  have l4 : ((2 : ℕ) : ℝ) ≤ lg 4 := le_lg (by norm_num)
  have l5 : ((2 : ℕ) : ℝ) ≤ lg 5 := le_lg (by norm_num)
  have l6 : ((2 : ℕ) : ℝ) ≤ lg 6 := le_lg (by norm_num)
  have l3 := le_lg3
  induction p with
  | naive n => rintro k h d ⟨⟩; rw [dhtNaive_len]; exact .naive (le_trans h (le_nestedL L k))
  | b1 => rintro k - d ⟨⟩; exact ⟨fun _ => by decide, fun h => absurd h (by show ¬ 2 ≤ 1; omega)⟩
  | b2 => rintro k - d ⟨⟩; exact .leaf (n := 2) 1 (by norm_num) (by norm_num) (by decide)
  | b3 => rintro k - d ⟨⟩; exact .leaf (n := 3) 1 (by norm_num) (by norm_num) (by decide)
  | b4 => rintro k - d ⟨⟩; exact .leaf (n := 4) 2 (by norm_num) (by norm_num) (by decide)
  | b5 => rintro k - d ⟨⟩; exact .leaf (n := 5) 2 (by norm_num) (by norm_num) (by decide)
  | b6 => rintro k - d ⟨⟩; exact .leaf (n := 6) 2 (by norm_num) (by norm_num) (by decide)
  | b8 => rintro k - d ⟨⟩; exact .leaf (n := 8) 3 (by norm_num) (by norm_num) (by decide)
  | b9 => rintro k - d ⟨⟩; exact .leaf (n := 9) 3 (by norm_num) (by norm_num) (by decide)
  | b16 => rintro k - d ⟨⟩; exact .leaf (n := 16) 4 (by norm_num) (by norm_num) (by decide)
  | mixedRadix w h ihw ihh =>
    rintro k ⟨fw, fh, lw, lh⟩ d e
    obtain ⟨wd, ew, e⟩ := bind_eq_ok e
    obtain ⟨hd, eh, e⟩ := bind_eq_ok e
    cases e
    rw [Plan.ops, ← plan_len w wd ew, ← plan_len h hd eh]
    rw [← plan_len w wd ew] at lw
    rw [← plan_len h hd eh] at lh
    exact (ihw k fw wd ew).mix (ihh k fh hd eh) lw lh
  | mr2 h ihh =>
    intro k f d e
    obtain ⟨hd, eh, e⟩ := bind_eq_ok e
    cases e
    rw [Plan.ops, ← plan_len h hd eh]
    rcases Nat.eq_zero_or_pos hd.len with h0 | h0
    · exact zero (k := 2) (by rw [← h0]; rfl)
    · exact (ihh k f hd eh).mrk (k := 2) (B := 2) (K := 10) h0 1 (by norm_num) (by exact_mod_cast l2) (by omega) (by norm_num) (by norm_num)
  | mr3 h ihh =>
    intro k f d e
    obtain ⟨hd, eh, e⟩ := bind_eq_ok e
    cases e
    rw [Plan.ops, ← plan_len h hd eh]
    rcases Nat.eq_zero_or_pos hd.len with h0 | h0
    · exact zero (k := 3) (by rw [← h0]; rfl)
    · exact (ihh k f hd eh).mrk (k := 3) (B := 8) (K := 32) h0 (3 / 2) (by norm_num) (by exact_mod_cast l3) (by omega) (by norm_num) (by norm_num)
  | mr4 h ihh =>
    intro k f d e
    obtain ⟨hd, eh, e⟩ := bind_eq_ok e
    cases e
    rw [Plan.ops, ← plan_len h hd eh]
    rcases Nat.eq_zero_or_pos hd.len with h0 | h0
    · exact zero (k := 4) (by rw [← h0]; rfl)
    · exact (ihh k f hd eh).mrk (k := 4) (B := 8) (K := 34) h0 2 (by norm_num) (by exact_mod_cast l4) (by omega) (by norm_num) (by norm_num)
  | mr5 h ihh =>
    intro k f d e
    obtain ⟨hd, eh, e⟩ := bind_eq_ok e
    cases e
    rw [Plan.ops, ← plan_len h hd eh]
    rcases Nat.eq_zero_or_pos hd.len with h0 | h0
    · exact zero (k := 5) (by rw [← h0]; rfl)
    · exact (ihh k f hd eh).mrk (k := 5) (B := 24) (K := 80) h0 2 (by norm_num) (by exact_mod_cast l5) (by omega) (by norm_num) (by norm_num)
  | mr6 h ihh =>
    intro k f d e
    obtain ⟨hd, eh, e⟩ := bind_eq_ok e
    cases e
    rw [Plan.ops, ← plan_len h hd eh]
    rcases Nat.eq_zero_or_pos hd.len with h0 | h0
    · exact zero (k := 6) (by rw [← h0]; rfl)
    · exact (ihh k f hd eh).mrk (k := 6) (B := 28) (K := 96) h0 2 (by norm_num) (by exact_mod_cast l6) (by omega) (by norm_num) (by norm_num)
  | radix4 n =>
    intro k _ d e
    obtain ⟨m, rfl⟩ := radix4_isPow e
    rw [plan_len _ d e]
    exact .radix4 m
  | splitRadix q h ihq ihh =>
    rintro k ⟨fq, fh⟩ d e
    obtain ⟨qd, eq, e⟩ := bind_eq_ok e
    obtain ⟨hd, eh, e⟩ := bind_eq_ok e
    have hlen := (splitRadix_eq e).1
    have hdl : d.len = 4 * qd.len := by rw [(splitRadix_eq e).2]; rfl
    rw [hdl, Plan.ops, ← plan_len q qd eq]
    exact (ihq k fq qd eq).split (by rw [← hlen]; exact ihh k fh hd eh)
  | raders i ih =>
    intro k f d e
    obtain _ | k := k
    · exact absurd f (by simp [Plan.FastNested])
    obtain ⟨id, ei, e⟩ := bind_eq_ok e
    obtain ⟨f', hf, _⟩ := plan_costs i id ei
    obtain ⟨g, gi, hdata⟩ := raders_data hf e
    have hdl : d.len = id.len + 1 := by rw [hdata.eq]; rfl
    have h1 : 2 ≤ id.len := by
      have := hdata.odd
      have := hdata.prime.two_le
      omega
    rw [hdl, Plan.ops, ← plan_len i id ei]
    exact (ih k (by simpa [Plan.FastNested] using f) id ei).raders h1

theorem Plan.FastNested.mono {L M : ℕ} (hL : L ≤ M) (p : Plan) : ∀ {k l : ℕ}, k ≤ l → p.FastNested L k → p.FastNested M l := by
  induction p with
  | naive n => exact fun _ h => le_trans h hL
  | mixedRadix w h ihw ihh => exact fun hk f => ⟨ihw hk f.1, ihh hk f.2.1, f.2.2⟩
  | mr2 h ih | mr3 h ih | mr4 h ih | mr5 h ih | mr6 h ih => exact fun hk f => ih hk f
  | splitRadix q h ihq ihh => exact fun hk f => ⟨ihq hk f.1, ihh hk f.2⟩
  | raders i ih =>
    intro k l hk f
    obtain _ | k := k
    · exact absurd f (by simp [Plan.FastNested])
    obtain _ | l := l
    · omega
    exact ih (Nat.le_of_succ_le_succ hk) f
  | _ => exact fun _ _ => trivial

theorem Plan.fastNested_of_wide (p : Plan) (h : p.WideMixed) : ∃ L k, p.FastNested L k := by
  induction p with
  | naive n => exact ⟨n, 0, le_refl n⟩
  | mixedRadix w h ihw ihh =>
    obtain ⟨hw, hh, l⟩ := h
    obtain ⟨L, k, f⟩ := ihw hw
    obtain ⟨M, m, g⟩ := ihh hh
    exact ⟨max L M, max k m, f.mono (le_max_left _ _) _ (le_max_left _ _), g.mono (le_max_right _ _) _ (le_max_right _ _), l⟩
  | mr2 h ih | mr3 h ih | mr4 h ih | mr5 h ih | mr6 h ih => exact ih h
  | splitRadix q h ihq ihh =>
    obtain ⟨hw, hh⟩ := h
    obtain ⟨L, k, f⟩ := ihq hw
    obtain ⟨M, m, g⟩ := ihh hh
    exact ⟨max L M, max k m, f.mono (le_max_left _ _) _ (le_max_left _ _), g.mono (le_max_right _ _) _ (le_max_right _ _)⟩
  | raders i ih =>
    obtain ⟨L, k, f⟩ := ih h
    exact ⟨L, k + 1, f⟩
  | _ => exact ⟨0, 0, trivial⟩

end RustDHT
