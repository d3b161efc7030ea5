import Verif.Proofs.Length
import Verif.Spec.Stability

/-! # The stability numbers of fast compositions grow like a logarithm -/

set_option linter.unusedSectionVars false

namespace RustDHT

open Stab

/-- Bounds for the numbers of a composition of length `n`. -/
structure StabLog (L t s n : ℕ) (a : Stab) : Prop where
  one : n = 1 → a.depth ≤ 8 * (1 + t + s) ∧ a.under ≤ 1
  two : 2 ≤ n → a.depth + (1720 + 2 * (L + 1) * (L + 4)) * (1 + t + s) ≤ 2 * ((1720 + 2 * (L + 1) * (L + 4)) * (1 + t + s)) * Nat.log 2 n ∧
    a.under + (100 + L) ≤ 2 * (100 + L) * Nat.log 2 n
  big : a.big ≤ max 57 (2 * L)

theorem log_arith {x y K l : ℕ} (hx : x + K ≤ 2 * K * l) (hy : y ≤ 2 * K) : x + y + K ≤ 2 * K * (l + 1) := by
  rw [Nat.mul_add, Nat.mul_one]; omega

theorem log_leaf {x K l : ℕ} (hx : x ≤ K) (hl : 1 ≤ l) : x + K ≤ 2 * K * l := by
  calc x + K ≤ 2 * K * 1 := by omega
    _ ≤ _ := Nat.mul_le_mul_left _ hl

theorem one_le_log {n : ℕ} (hn : 2 ≤ n) : 1 ≤ Nat.log 2 n := Nat.log_pos (by norm_num) hn

theorem log_two_mul {h : ℕ} (hh : 0 < h) : Nat.log 2 (2 * h) = Nat.log 2 h + 1 := by
  rw [mul_comm]; exact Nat.log_mul_base (by norm_num) (by omega)

theorem log_mul_add {w h : ℕ} (hw : 0 < w) (hh : 0 < h) : Nat.log 2 w + Nat.log 2 h ≤ Nat.log 2 (w * h) := by
  rw [Nat.le_log_iff_pow_le (by norm_num) (by positivity), pow_add]
  exact Nat.mul_le_mul (Nat.pow_log_le_self 2 (by omega)) (Nat.pow_log_le_self 2 (by omega))

section
variable {L t s : ℕ}

theorem K_ge (L t s : ℕ) : 1720 * (1 + t + s) ≤ (1720 + 2 * (L + 1) * (L + 4)) * (1 + t + s) :=
  Nat.mul_le_mul_right _ (by omega)

theorem stabLog_leaf {n : ℕ} {q : Cost} (hn : 2 ≤ n) (hd : q.g * q.depth t s ≤ 1720 * (1 + t + s)) (hc : q.c ≤ 100) (hb : q.g ≤ 57) :
    StabLog L t s n (leaf t s q) :=
  ⟨fun h => by omega, fun _ => ⟨log_leaf (hd.trans (K_ge L t s)) (one_le_log hn), log_leaf (by show q.c ≤ _; omega) (one_le_log hn)⟩,
    le_trans hb (le_max_left _ _)⟩

theorem StabLog.mrk {h k : ℕ} {a : Stab} {q : Cost} (ha : StabLog L t s h a) (hk : 2 ≤ k)
    (hd : 2 * q.g * q.depth t s ≤ 1710 * (1 + t + s)) (hc : q.c ≤ 92) (hb : q.g ≤ 57) : StabLog L t s (k * h) (a.seq (step t s q)) := by
  have hK := K_ge L t s
  refine ⟨fun h1 => ?_, fun h2 => ?_, max_le ha.big (le_trans hb (le_max_left _ _))⟩
  · have : k ∣ 1 := ⟨h, h1.symm⟩
    have := Nat.le_of_dvd (by norm_num) this
    omega
  · have hh : 0 < h := Nat.pos_of_ne_zero fun h0 => by rw [h0] at h2; omega
    have hlog : Nat.log 2 h + 1 ≤ Nat.log 2 (k * h) := by
      rw [← log_two_mul hh]; exact Nat.log_mono_right (Nat.mul_le_mul_right _ hk)
    show a.depth + 2 * q.g * q.depth t s + _ ≤ _ ∧ a.under + q.c + _ ≤ _
    rcases Nat.lt_or_ge h 2 with h1 | h1
    · obtain ⟨b1, b2⟩ := ha.one (by omega)
      exact ⟨log_leaf (by omega) (one_le_log h2), log_leaf (by omega) (one_le_log h2)⟩
    · obtain ⟨b1, b2⟩ := ha.two h1
      exact ⟨le_trans (log_arith b1 (by omega)) (Nat.mul_le_mul_left _ hlog),
        le_trans (log_arith b2 (by omega)) (Nat.mul_le_mul_left _ hlog)⟩

theorem stabLog_naive {n : ℕ} (hn : n ≤ L) : StabLog L t s n (leaf t s ⟨2 * max 1 n, n, n + 3, 1, 0⟩) := by
  refine ⟨?_, fun h2 => ?_, ?_⟩
  · rintro rfl
    show 2 * (1 + 3 + 1 * t + 0 * s) ≤ _ ∧ 1 ≤ 1
    omega
  · have h3 : 2 * max 1 n * (n + 3 + 1 * t + 0 * s) ≤ 2 * (L + 1) * (L + 4) * (1 + t + s) := by
      calc 2 * max 1 n * (n + 3 + 1 * t + 0 * s) ≤ 2 * (L + 1) * ((L + 4) * (1 + t + s)) := by
            refine Nat.mul_le_mul (by omega) ?_
            calc n + 3 + 1 * t + 0 * s ≤ (L + 4) + t + s := by omega
              _ ≤ (L + 4) + (L + 4) * t + (L + 4) * s := by
                have h4 : t ≤ (L + 4) * t := Nat.le_mul_of_pos_left _ (by omega)
                have h5 : s ≤ (L + 4) * s := Nat.le_mul_of_pos_left _ (by omega)
                omega
              _ = (L + 4) * (1 + t + s) := by ring
        _ = _ := by ring
    refine ⟨log_leaf ?_ (one_le_log h2), log_leaf (by show n ≤ _; omega) (one_le_log h2)⟩
    refine le_trans h3 (Nat.mul_le_mul_right _ (by omega))
  · show 2 * max 1 n ≤ _
    omega

theorem stabLog_mix {w h : ℕ} {a b : Stab} (ha : StabLog L t s w a) (hb : StabLog L t s h b) (hw : 2 ≤ w) (hh : 2 ≤ h) :
    StabLog L t s (w * h) ((b.seq (step t s ⟨4, 6, 6, 1, 1⟩)).seq a) := by
  have hK := K_ge L t s
  refine ⟨fun h1 => ?_, fun _ => ?_, ?_⟩
  · have : 2 * 2 ≤ w * h := Nat.mul_le_mul hw hh
    omega
  · obtain ⟨a1, a2⟩ := ha.two hw
    obtain ⟨b1, b2⟩ := hb.two hh
    have hlog := log_mul_add (by omega : 0 < w) (by omega : 0 < h)
    have key : ∀ {x y z K : ℕ}, x + K ≤ 2 * K * Nat.log 2 w → y + K ≤ 2 * K * Nat.log 2 h → z ≤ K →
        y + z + x + K ≤ 2 * K * Nat.log 2 (w * h) := by
      intro x y z K hx hy hz
      refine le_trans ?_ (Nat.mul_le_mul_left _ hlog)
      rw [Nat.mul_add]; omega
    refine ⟨key a1 b1 ?_, key a2 b2 (by show 6 ≤ _; omega)⟩
    show 2 * 4 * (6 + 1 * t + 1 * s) ≤ _
    omega
  · have h1 := ha.big
    have h2 := hb.big
    show max (max b.big 4) a.big ≤ _
    omega

theorem stabLog_split {q h : ℕ} {a b : Stab} (ha : StabLog L t s q a) (hb : StabLog L t s h b) (e : h = 2 * q) :
    StabLog L t s (4 * q) ((step t s ⟨8, 2, 5, 1, 0⟩).seq (a.sup b)) := by
  have hK := K_ge L t s
  refine ⟨fun h1 => by omega, fun h2 => ?_, ?_⟩
  · have hq : 0 < q := by omega
    have hlog : Nat.log 2 (4 * q) = Nat.log 2 h + 1 := by
      rw [e, ← log_two_mul (by omega), show 2 * (2 * q) = 4 * q by omega]
    have hlq : Nat.log 2 q ≤ Nat.log 2 h := Nat.log_mono_right (by omega)
    have hl1 : 1 ≤ Nat.log 2 h := one_le_log (by omega)
    obtain ⟨b1, b2⟩ := hb.two (by omega)
    rw [hlog]
    show 2 * 8 * (5 + 1 * t + 0 * s) + max a.depth b.depth + _ ≤ _ ∧ 2 + max a.under b.under + _ ≤ _
    have hmax : max a.depth b.depth + (1720 + 2 * (L + 1) * (L + 4)) * (1 + t + s)
          ≤ 2 * ((1720 + 2 * (L + 1) * (L + 4)) * (1 + t + s)) * Nat.log 2 h ∧
        max a.under b.under + (100 + L) ≤ 2 * (100 + L) * Nat.log 2 h := by
      rcases Nat.lt_or_ge q 2 with h1 | h1
      · obtain ⟨a1, a2⟩ := ha.one (by omega)
        have c1 := log_leaf (x := a.depth) (K := (1720 + 2 * (L + 1) * (L + 4)) * (1 + t + s)) (by omega) hl1
        have c2 := log_leaf (x := a.under) (K := 100 + L) (by omega) hl1
        omega
      · obtain ⟨a1, a2⟩ := ha.two h1
        have c1 := a1.trans (Nat.mul_le_mul_left _ hlq)
        have c2 := a2.trans (Nat.mul_le_mul_left _ hlq)
        omega
    have k1 := log_arith hmax.1 (y := 2 * 8 * (5 + 1 * t + 0 * s)) (by omega)
    have k2 := log_arith hmax.2 (y := 2) (by omega)
    omega
  · have h1 := ha.big
    have h2 := hb.big
    show max 8 (max a.big b.big) ≤ _
    omega

theorem stabLog_radix4 (m : ℕ) : StabLog L t s (2 ^ m) (radix4Stability t s (2 ^ m)) := by
  have hK := K_ge L t s
  set K := (1720 + 2 * (L + 1) * (L + 4)) * (1 + t + s) with hKd
  have hlog : Nat.log 2 (2 ^ m) = m := Nat.log_pow (by norm_num) _
  have main : ∀ (a : Stab) (l : ℕ), a.depth ≤ 24 * (7 + t) → a.under ≤ 5 → a.big ≤ 57 → l + 1 ≤ m →
      StabLog L t s (2 ^ m) (a.seq ((step t s ⟨7, 4, 5, 1, 0⟩).times l)) := by
    intro a l h1 h2 h3 hl
    have key : ∀ {x y K : ℕ}, x ≤ K → y ≤ K → x + l * y + K ≤ 2 * K * m := by
      intro x y K hx hy
      calc x + l * y + K ≤ K + l * K + K := by
            have := Nat.mul_le_mul_left l hy
            omega
        _ ≤ 2 * K * (l + 1) := by
            have : 2 * K * (l + 1) = 2 * (l * K) + 2 * K := by ring
            omega
        _ ≤ 2 * K * m := Nat.mul_le_mul_left _ hl
    refine ⟨fun h => ?_, fun _ => ?_, ?_⟩
    · have : 2 ^ 1 ≤ 2 ^ m := Nat.pow_le_pow_right (by norm_num) (by omega)
      omega
    · rw [hlog]
      refine ⟨key (by omega) ?_, key (K := 100 + L) (by omega) (by show 4 ≤ _; omega)⟩
      show 2 * 7 * (5 + 1 * t + 0 * s) ≤ K
      omega
    · show max a.big 7 ≤ _
      omega
  unfold radix4Stability
  rw [hlog]
  match m with
  | 0 =>
    refine ⟨fun _ => ?_, fun h => by omega, ?_⟩
    · simp [Stab.none, seq, times]
    · show max 1 7 ≤ _
      omega
  | 1 => exact main _ _ (by show 2 * (1 + 0 * t + 0 * s) ≤ _; omega) (by show 0 ≤ 5; omega) (by show 2 ≤ 57; omega) (by norm_num)
  | 2 => exact main _ _ (by show 4 * (2 + 0 * t + 0 * s) ≤ _; omega) (by show 0 ≤ 5; omega) (by show 4 ≤ 57; omega) (by norm_num)
  | m + 3 =>
    have h8 : 8 * 2 ^ m = 2 ^ (m + 3) := by ring
    have hp : 1 ≤ 2 ^ m := Nat.one_le_two_pow
    have hl3 : ¬ m + 3 < 3 := by omega
    rw [if_neg (by omega), if_neg (by omega), if_neg (by omega), if_neg hl3]
    by_cases hpar : (m + 3) % 2 = 1
    · rw [if_pos hpar, if_pos hpar]
      exact main _ _ (by show 8 * (5 + 1 * t + 0 * s) ≤ _; omega) (by show 1 ≤ 5; omega) (by show 8 ≤ 57; omega) (by omega)
    · rw [if_neg hpar, if_neg hpar]
      exact main _ _ (by show 24 * (7 + 1 * t + 0 * s) ≤ _; omega) (by show 5 ≤ 5; omega) (by show 24 ≤ 57; omega) (by omega)

variable {T : Type} [Zero T] [Add T] [Sub T] [Mul T] [Neg T] [FftNum T]

theorem plan_stabLog (p : Plan) : p.Fast L → ∀ d : Dht T, p.build T = .ok d → StabLog L t s d.len (p.stability t s) := by
  induction p with
  | naive n => rintro h d ⟨⟩; rw [dhtNaive_len]; exact stabLog_naive h
  | b1 => rintro - d ⟨⟩; exact ⟨fun _ => ⟨Nat.zero_le _, Nat.zero_le _⟩, fun h => absurd h (by show ¬ 2 ≤ 1; omega), by show 1 ≤ _; omega⟩
  | b2 => rintro - d ⟨⟩; exact stabLog_leaf (by show 2 ≤ 2; omega) (by show 2 * (1 + 0 * t + 0 * s) ≤ _; omega) (by decide) (by decide)
  | b3 => rintro - d ⟨⟩; exact stabLog_leaf (by show 2 ≤ 3; omega) (by show 5 * (5 + 1 * t + 0 * s) ≤ _; omega) (by decide) (by decide)
  | b4 => rintro - d ⟨⟩; exact stabLog_leaf (by show 2 ≤ 4; omega) (by show 4 * (2 + 0 * t + 0 * s) ≤ _; omega) (by decide) (by decide)
  | b5 => rintro - d ⟨⟩; exact stabLog_leaf (by show 2 ≤ 5; omega) (by show 9 * (6 + 1 * t + 0 * s) ≤ _; omega) (by decide) (by decide)
  | b6 => rintro - d ⟨⟩; exact stabLog_leaf (by show 2 ≤ 6; omega) (by show 15 * (9 + 2 * t + 0 * s) ≤ _; omega) (by decide) (by decide)
  | b8 => rintro - d ⟨⟩; exact stabLog_leaf (by show 2 ≤ 8; omega) (by show 8 * (5 + 1 * t + 0 * s) ≤ _; omega) (by decide) (by decide)
  | b9 => rintro - d ⟨⟩; exact stabLog_leaf (by show 2 ≤ 9; omega) (by show 54 * (9 + 1 * t + 0 * s) ≤ _; omega) (by decide) (by decide)
  | b16 => rintro - d ⟨⟩; exact stabLog_leaf (by show 2 ≤ 16; omega) (by show 24 * (7 + 1 * t + 0 * s) ≤ _; omega) (by decide) (by decide)
  | mixedRadix w h ihw ihh =>
    rintro ⟨fw, fh, lw, lh⟩ d e
    obtain ⟨wd, ew, e⟩ := bind_eq_ok e
    obtain ⟨hd, eh, e⟩ := bind_eq_ok e
    cases e
    rw [← plan_len w wd ew] at lw
    rw [← plan_len h hd eh] at lh
    exact stabLog_mix (ihw fw wd ew) (ihh fh hd eh) lw lh
  | mr2 h ihh =>
    intro f d e
    obtain ⟨hd, eh, e⟩ := bind_eq_ok e
    cases e
    exact (ihh f hd eh).mrk (k := 2) (by omega) (by show 2 * 3 * (4 + 1 * t + 0 * s) ≤ _; omega) (by decide) (by decide)
  | mr3 h ihh =>
    intro f d e
    obtain ⟨hd, eh, e⟩ := bind_eq_ok e
    cases e
    exact (ihh f hd eh).mrk (k := 3) (by omega) (by show 2 * 17 * (11 + 2 * t + 1 * s) ≤ _; omega) (by decide) (by decide)
  | mr4 h ihh =>
    intro f d e
    obtain ⟨hd, eh, e⟩ := bind_eq_ok e
    cases e
    exact (ihh f hd eh).mrk (k := 4) (by omega) (by show 2 * 7 * (5 + 1 * t + 0 * s) ≤ _; omega) (by decide) (by decide)
  | mr5 h ihh =>
    intro f d e
    obtain ⟨hd, eh, e⟩ := bind_eq_ok e
    cases e
    exact (ihh f hd eh).mrk (k := 5) (by omega) (by show 2 * 33 * (12 + 2 * t + 1 * s) ≤ _; omega) (by decide) (by decide)
  | mr6 h ihh =>
    intro f d e
    obtain ⟨hd, eh, e⟩ := bind_eq_ok e
    cases e
    exact (ihh f hd eh).mrk (k := 6) (by omega) (by show 2 * 57 * (15 + 3 * t + 1 * s) ≤ _; omega) (by decide) (by decide)
  | radix4 n =>
    intro _ d e
    obtain ⟨m, rfl⟩ := radix4_isPow e
    rw [plan_len _ d e]
    exact stabLog_radix4 m
  | splitRadix q h ihq ihh =>
    rintro ⟨fq, fh⟩ d e
    obtain ⟨qd, eq, e⟩ := bind_eq_ok e
    obtain ⟨hd, eh, e⟩ := bind_eq_ok e
    have hlen := (splitRadix_eq e).1
    have hdl : d.len = 4 * qd.len := by rw [(splitRadix_eq e).2]; rfl
    rw [hdl]
    exact stabLog_split (ihq fq qd eq) (ihh fh hd eh) (by omega)
  | raders i _ => exact fun h => h.elim

end

end RustDHT
