import Verif.Spec.Lengths
import Verif.Spec.Stability
import Verif.Proofs.Contracts
import Verif.Proofs.Length
import Mathlib.Data.Nat.Prime.Basic
import Mathlib.Tactic.NormNum.Prime

/-! # Which lengths can be composed -/

namespace RustDHT

section
variable {T : Type} [Add T] [Sub T] [Mul T] [Neg T] [Zero T] [FftNum T]

/-- All prime factors are at most `b`. -/
theorem factors_mul {b m n : ℕ} (hm : ∀ q, q.Prime → q ∣ m → q ≤ b) (hn : ∀ q, q.Prime → q ∣ n → q ≤ b) :
    ∀ q, q.Prime → q ∣ m * n → q ≤ b :=
  fun q hq h => (hq.dvd_mul.1 h).elim (hm q hq) (hn q hq)

theorem factors_le {b n : ℕ} (h0 : 0 < n) (h : n ≤ b) : ∀ q, q.Prime → q ∣ n → q ≤ b :=
  fun _ _ hd => (Nat.le_of_dvd h0 hd).trans h

theorem factors_of (s : ℕ) {b : ℕ} (hb : 5 ≤ b) (hs : 1 ≤ s ∧ s ≤ 6 ∨ s = 8 ∨ s = 9 ∨ s = 16) :
    ∀ q, q.Prime → q ∣ s → q ≤ b := by
  have h2 : ∀ q : ℕ, q.Prime → q ∣ 2 → q ≤ b := factors_le (by omega) (by omega)
  have h3 : ∀ q : ℕ, q.Prime → q ∣ 3 → q ≤ b := factors_le (by omega) (by omega)
  rcases hs with ⟨h1, h6⟩ | rfl | rfl | rfl
  · rcases Nat.lt_or_ge s 6 with h | h
    · exact factors_le h1 (by omega)
    · obtain rfl : s = 6 := by omega
      exact factors_mul (m := 2) (n := 3) h2 h3
  · exact factors_mul (m := 2) (n := 4) h2 (factors_mul (m := 2) (n := 2) h2 h2)
  · exact factors_mul (m := 3) (n := 3) h3 h3
  · exact fun q hq hd => h2 q hq (hq.dvd_of_dvd_pow (show q ∣ 2 ^ 4 from hd))

/-- What the prime factors of a length can be. -/
theorem plan_factors {b : ℕ} (hb : 5 ≤ b) (p : Plan) : p.NoNaive → (p.NoRaders ∨ 2 ^ 32 ≤ b + 1) →
    ∀ d : Dht T, p.build T = .ok d → 0 < p.expectedLen ∧ ∀ q, q.Prime → q ∣ p.expectedLen → q ≤ b := by
  induction p with
  | naive n => intro h; cases h
  | b1 | b2 | b3 | b4 | b5 | b6 | b8 | b9 | b16 =>
    intro _ _ d _
    exact ⟨by decide, factors_of _ hb (by simp [Plan.expectedLen])⟩
  | mixedRadix w h ihw ihh =>
    intro hn hr d e
    obtain ⟨wd, ew, e⟩ := bind_eq_ok e
    obtain ⟨hd, eh, e⟩ := bind_eq_ok e
    obtain ⟨w1, w2⟩ := ihw hn.1 (hr.imp_left And.left) wd ew
    obtain ⟨h1, h2⟩ := ihh hn.2 (hr.imp_left And.right) hd eh
    exact ⟨Nat.mul_pos w1 h1, factors_mul w2 h2⟩
  | mr2 h ih | mr3 h ih | mr4 h ih | mr5 h ih | mr6 h ih =>
    intro hn hr d e
    obtain ⟨hd, eh, e⟩ := bind_eq_ok e
    obtain ⟨h1, h2⟩ := ih hn hr hd eh
    exact ⟨Nat.mul_pos (by omega) h1, factors_mul (factors_of _ hb (by omega)) h2⟩
  | radix4 n =>
    intro _ _ d e
    obtain ⟨m, rfl⟩ := radix4_isPow (T := T) e
    refine ⟨Nat.two_pow_pos m, fun q hq hd => ?_⟩
    have := Nat.le_of_dvd (by omega) (hq.dvd_of_dvd_pow (show q ∣ 2 ^ m from hd))
    omega
  | splitRadix q h ihq ihh =>
    intro hn hr d e
    obtain ⟨qd, eq, e⟩ := bind_eq_ok e
    obtain ⟨h1, h2⟩ := ihq hn.1 (hr.imp_left And.left) qd eq
    exact ⟨Nat.mul_pos (by omega) h1, factors_mul (factors_of _ hb (by omega)) h2⟩
  | raders i ih =>
    intro hn hr d e
    obtain ⟨id, ei, e⟩ := bind_eq_ok e
    have h := (raders_new_only e).2.2
    rw [plan_len i id ei] at h
    rcases hr with hr | hr
    · cases hr
    · exact ⟨Nat.succ_pos _, factors_le (Nat.succ_pos _) (by show i.expectedLen + 1 ≤ b; omega)⟩

end

/-- The expression can be evaluated for every number type, and the object has length `n`. -/
def Plan.Builds (p : Plan) (n : ℕ) : Prop :=
  ∀ (T : Type) [Add T] [Sub T] [Mul T] [Neg T] [Zero T] [FftNum T], ∃ d : Dht T, p.build T = .ok d ∧ d.len = n

theorem Plan.Builds.mix {w h : Plan} {m n : ℕ} (hw : w.Builds m) (hh : h.Builds n) : (Plan.mixedRadix w h).Builds (m * n) := by
  intro T _ _ _ _ _ _
  obtain ⟨wd, ew, lw⟩ := hw T
  obtain ⟨hd, eh, lh⟩ := hh T
  refine ⟨RustDHT.mixedRadix wd hd, by simp only [Plan.build, ew, eh, ok_bind], ?_⟩
  subst lw lh
  rfl

theorem Plan.Builds.rad {i : Plan} {n : ℕ} (hi : i.Builds n) (hp : (n + 1).Prime) (h2 : n + 1 ≠ 2) (h : n + 1 < 2 ^ 32) :
    (Plan.raders i).Builds (n + 1) := by
  intro T _ _ _ _ _ _
  obtain ⟨id, ei, li⟩ := hi T
  obtain ⟨f, hf⟩ := (plan_ok i id ei).implements
  obtain ⟨g, d', e', -⟩ := raders_new_root hf (by rwa [li]) (by rwa [li]) (by rwa [li])
  have e : (Plan.raders i).build T = .ok d' := by simp only [Plan.build, ei, ok_bind, e']
  refine ⟨d', e, ?_⟩
  rw [plan_len _ _ e, Plan.expectedLen, ← plan_len _ _ ei, li]

theorem Plan.Builds.expectedLen {p : Plan} {n : ℕ} (h : p.Builds n) (T : Type) [Add T] [Sub T] [Mul T] [Neg T] [Zero T] [FftNum T] :
    p.expectedLen = n := by
  obtain ⟨d, e, l⟩ := h T
  rw [← plan_len p d e, l]

/-- A length is composed out of its prime factors. -/
theorem compose {P : Plan → Prop} (h1 : P .b1) (hm : ∀ w h m n, 2 ≤ m → 2 ≤ n → w.Builds m → h.Builds n → P w → P h → P (.mixedRadix w h))
    (n : ℕ) (h0 : 0 < n) (hp : ∀ q, q.Prime → q ∣ n → ∃ p, P p ∧ p.Builds q) : ∃ p, P p ∧ p.Builds n := by
  induction n using Nat.strong_induction_on with
  | _ n ih =>
    rcases Nat.lt_or_ge n 2 with hn | hn
    · obtain rfl : n = 1 := by omega
      exact ⟨.b1, h1, fun T _ _ _ _ _ _ => ⟨butterfly1 T, rfl, rfl⟩⟩
    · by_cases hpr : n.Prime
      · exact hp n hpr dvd_rfl
      · obtain ⟨a, ha, h2, h3⟩ := Nat.exists_dvd_of_not_prime2 hn hpr
        obtain ⟨b, rfl⟩ := ha
        have hb : 2 ≤ b := by
          rcases b with _ | _ | b <;> [omega; (simp at h3); omega]
        obtain ⟨p, p1, p2⟩ := ih a h3 (by omega) fun q hq hd => hp q hq (hd.mul_right b)
        obtain ⟨p', p3, p4⟩ := ih b (by nlinarith) (by omega) fun q hq hd => hp q hq (hd.mul_left a)
        exact ⟨.mixedRadix p p', hm p p' a b h2 hb p2 p4 p1 p3, p2.mix p4⟩

end RustDHT
