import Verif.Model.Bench
import Verif.Proofs.PlanDht
import Verif.Props.Contract

/-! # Helper lemmas about the benchmark factories -/

set_option linter.unusedSectionVars false

namespace RustDHT

variable {T : Type} [Add T] [Sub T] [Mul T] [Neg T] [Zero T] [FftNum T]

/-- The object is a composition of the crate's constructors without a long `Radix4`. -/
def Planned (d : Dht T) : Prop := ∃ p : Plan, p.build T = .ok d ∧ p.SmallRadix4

theorem Planned.mr3 {d : Dht T} (h : Planned d) : Planned (mixedRadix3xn d) := by
  obtain ⟨p, e, s⟩ := h
  exact ⟨.mr3 p, by simp only [Plan.build, e, ok_bind], s⟩

theorem Planned.mr4 {d : Dht T} (h : Planned d) : Planned (mixedRadix4xn d) := by
  obtain ⟨p, e, s⟩ := h
  exact ⟨.mr4 p, by simp only [Plan.build, e, ok_bind], s⟩

theorem Planned.mr5 {d : Dht T} (h : Planned d) : Planned (mixedRadix5xn d) := by
  obtain ⟨p, e, s⟩ := h
  exact ⟨.mr5 p, by simp only [Plan.build, e, ok_bind], s⟩

theorem Planned.mr6 {d : Dht T} (h : Planned d) : Planned (mixedRadix6xn d) := by
  obtain ⟨p, e, s⟩ := h
  exact ⟨.mr6 p, by simp only [Plan.build, e, ok_bind], s⟩

theorem Planned.splitRadix {q h d : Dht T} (hq : Planned q) (hh : Planned h) (e : splitRadix q h = .ok d) : Planned d := by
  obtain ⟨p, ep, sp⟩ := hq
  obtain ⟨r, er, sr⟩ := hh
  exact ⟨.splitRadix p r, by simp only [Plan.build, ep, er, ok_bind, e], sp, sr⟩

theorem splitRadix_len {q h d : Dht T} (e : splitRadix q h = .ok d) : d.len = 4 * q.len := by
  obtain ⟨_, rfl⟩ := splitRadix_eq e
  rfl

/-! ## What is returned -/

theorem make4_sound (len : ℕ) : ∀ d : Dht T, make4xnRadix4 T len = .ok d →
    Planned d ∧ d.len ≤ len ∧ ∃ k, 1 ≤ k ∧ d.len = 2 ^ k := by
  induction len using Nat.strong_induction_on with
  | _ len ih =>
    intro d h
    rw [make4xnRadix4] at h
    split at h
    · cases h
    split at h
    · cases h; exact ⟨⟨.b2, rfl, trivial⟩, by subst len; exact le_rfl, 1, le_rfl, rfl⟩
    split at h
    · cases h; exact ⟨⟨.b4, rfl, trivial⟩, by subst len; exact le_rfl, 2, by omega, rfl⟩
    split at h
    · cases h; exact ⟨⟨.b8, rfl, trivial⟩, by subst len; exact le_rfl, 3, by omega, rfl⟩
    split at h
    · cases h; exact ⟨⟨.b16, rfl, trivial⟩, by subst len; exact le_rfl, 4, by omega, rfl⟩
    obtain ⟨i, ei, h⟩ := bind_eq_ok h
    cases h
    obtain ⟨hp, hle, k, hk, e⟩ := ih (len / 4) (by omega) i ei
    have hl : (mixedRadix4xn i).len = 4 * i.len := rfl
    exact ⟨hp.mr4, by omega, k + 2, by omega, by rw [hl, e, pow_add]; omega⟩

theorem make3_sound (len : ℕ) : ∀ d : Dht T, make3xnRadix3 T len = .ok d →
    Planned d ∧ d.len ≤ len ∧ ∃ k, 1 ≤ k ∧ d.len = 3 ^ k := by
  induction len using Nat.strong_induction_on with
  | _ len ih =>
    intro d h
    rw [make3xnRadix3] at h
    split at h
    · cases h
    split at h
    · cases h; exact ⟨⟨.b3, rfl, trivial⟩, by subst len; exact le_rfl, 1, le_rfl, rfl⟩
    split at h
    · cases h; exact ⟨⟨.b9, rfl, trivial⟩, by subst len; exact le_rfl, 2, by omega, rfl⟩
    obtain ⟨i, ei, h⟩ := bind_eq_ok h
    cases h
    obtain ⟨hp, hle, k, hk, e⟩ := ih (len / 3) (by omega) i ei
    have hl : (mixedRadix3xn i).len = 3 * i.len := rfl
    exact ⟨hp.mr3, by omega, k + 1, by omega, by rw [hl, e, pow_add]; omega⟩

theorem make5_sound (len : ℕ) : ∀ d : Dht T, make5xnRadix5 T len = .ok d →
    Planned d ∧ d.len ≤ len ∧ ∃ k, 1 ≤ k ∧ d.len = 5 ^ k := by
  induction len using Nat.strong_induction_on with
  | _ len ih =>
    intro d h
    rw [make5xnRadix5] at h
    split at h
    · cases h
    split at h
    · cases h; exact ⟨⟨.b5, rfl, trivial⟩, by subst len; exact le_rfl, 1, le_rfl, rfl⟩
    obtain ⟨i, ei, h⟩ := bind_eq_ok h
    cases h
    obtain ⟨hp, hle, k, hk, e⟩ := ih (len / 5) (by omega) i ei
    have hl : (mixedRadix5xn i).len = 5 * i.len := rfl
    exact ⟨hp.mr5, by omega, k + 1, by omega, by rw [hl, e, pow_add]; omega⟩

theorem make6_sound (len : ℕ) : ∀ d : Dht T, make6xnRadix6 T len = .ok d →
    Planned d ∧ d.len ≤ len ∧ ∃ k, 1 ≤ k ∧ d.len = 6 ^ k := by
  induction len using Nat.strong_induction_on with
  | _ len ih =>
    intro d h
    rw [make6xnRadix6] at h
    split at h
    · cases h
    split at h
    · cases h; exact ⟨⟨.b6, rfl, trivial⟩, by subst len; exact le_rfl, 1, le_rfl, rfl⟩
    obtain ⟨i, ei, h⟩ := bind_eq_ok h
    cases h
    obtain ⟨hp, hle, k, hk, e⟩ := ih (len / 6) (by omega) i ei
    have hl : (mixedRadix6xn i).len = 6 * i.len := rfl
    exact ⟨hp.mr6, by omega, k + 1, by omega, by rw [hl, e, pow_add]; omega⟩

/-! ## Powers of the radix -/

theorem make4_new (k : ℕ) (hk : 1 ≤ k) : ∃ d : Dht T, make4xnRadix4 T (2 ^ k) = .ok d ∧ d.len = 2 ^ k := by
  induction k using Nat.strong_induction_on with
  | _ k ih =>
    rcases Nat.lt_or_ge k 5 with h5 | h5
    · interval_cases k
      · exact ⟨butterfly2 T, by rw [make4xnRadix4]; simp, rfl⟩
      · exact ⟨butterfly4 T, by rw [make4xnRadix4]; simp, rfl⟩
      · exact ⟨butterfly8 T, by rw [make4xnRadix4]; simp, rfl⟩
      · exact ⟨butterfly16 T, by rw [make4xnRadix4]; simp, rfl⟩
    · obtain ⟨m, rfl⟩ : ∃ m, k = m + 2 := ⟨k - 2, by omega⟩
      obtain ⟨i, ei, li⟩ := ih m (by omega) (by omega)
      have h32 : 2 ^ 5 ≤ 2 ^ (m + 2) := Nat.pow_le_pow_right (by omega) h5
      refine ⟨mixedRadix4xn i, ?_, ?_⟩
      · rw [make4xnRadix4, dif_neg (by omega), if_neg (by omega), if_neg (by omega), if_neg (by omega), if_neg (by omega),
          show 2 ^ (m + 2) / 4 = 2 ^ m by rw [pow_add]; omega, ei, ok_bind]
      · show 4 * i.len = _
        rw [li, pow_add]; omega

theorem make3_new (k : ℕ) (hk : 1 ≤ k) : ∃ d : Dht T, make3xnRadix3 T (3 ^ k) = .ok d ∧ d.len = 3 ^ k := by
  induction k, hk using Nat.le_induction with
  | base => exact ⟨butterfly3 T, by rw [make3xnRadix3]; simp, rfl⟩
  | succ m hm ih =>
    obtain ⟨i, ei, li⟩ := ih
    rcases Nat.lt_or_ge m 2 with h2 | h2
    · obtain rfl : m = 1 := by omega
      exact ⟨butterfly9 T, by rw [make3xnRadix3]; simp, rfl⟩
    · have h9 : 3 ^ 2 ≤ 3 ^ m := Nat.pow_le_pow_right (by omega) h2
      refine ⟨mixedRadix3xn i, ?_, ?_⟩
      · rw [make3xnRadix3, pow_succ, dif_neg (by omega), if_neg (by omega), if_neg (by omega),
          Nat.mul_div_cancel _ (by omega), ei, ok_bind]
      · show 3 * i.len = _
        rw [li, pow_succ]; omega

theorem make5_new (k : ℕ) (hk : 1 ≤ k) : ∃ d : Dht T, make5xnRadix5 T (5 ^ k) = .ok d ∧ d.len = 5 ^ k := by
  induction k, hk using Nat.le_induction with
  | base => exact ⟨butterfly5 T, by rw [make5xnRadix5]; simp, rfl⟩
  | succ m hm ih =>
    obtain ⟨i, ei, li⟩ := ih
    have h5 : 5 ^ 1 ≤ 5 ^ m := Nat.pow_le_pow_right (by omega) hm
    refine ⟨mixedRadix5xn i, ?_, ?_⟩
    · rw [make5xnRadix5, pow_succ, dif_neg (by omega), if_neg (by omega), Nat.mul_div_cancel _ (by omega), ei, ok_bind]
    · show 5 * i.len = _
      rw [li, pow_succ]; omega

theorem make6_new (k : ℕ) (hk : 1 ≤ k) : ∃ d : Dht T, make6xnRadix6 T (6 ^ k) = .ok d ∧ d.len = 6 ^ k := by
  induction k, hk using Nat.le_induction with
  | base => exact ⟨butterfly6 T, by rw [make6xnRadix6]; simp, rfl⟩
  | succ m hm ih =>
    obtain ⟨i, ei, li⟩ := ih
    have h6 : 6 ^ 1 ≤ 6 ^ m := Nat.pow_le_pow_right (by omega) hm
    refine ⟨mixedRadix6xn i, ?_, ?_⟩
    · rw [make6xnRadix6, pow_succ, dif_neg (by omega), if_neg (by omega), Nat.mul_div_cancel _ (by omega), ei, ok_bind]
    · show 6 * i.len = _
      rw [li, pow_succ]; omega

/-! ## `make_splitradix` -/

/-- Entry `i` has length `2^i`. -/
def PowTable (ts : List (Dht T)) : Prop :=
  5 ≤ ts.length ∧ ∀ (i : ℕ) (h : i < ts.length), Planned ts[i] ∧ ts[i].len = 2 ^ i

theorem splitradixLoop_ok (index : ℕ) (ts : List (Dht T)) (h : PowTable ts) :
    ∃ ts', splitradixLoop index ts = .ok ts' ∧ PowTable ts' ∧ ts'.length = max ts.length (index + 1) := by
  obtain ⟨n, hn⟩ : ∃ n, index + 1 - ts.length = n := ⟨_, rfl⟩
  induction n generalizing ts with
  | zero => exact ⟨ts, by rw [splitradixLoop, dif_neg (by omega)], h, by omega⟩
  | succ n ih =>
    obtain ⟨h5, ht⟩ := h
    obtain ⟨hq, lq⟩ := ht (ts.length - 2) (by omega)
    obtain ⟨hh, lh⟩ := ht (ts.length - 1) (by omega)
    obtain ⟨d, hd⟩ := splitRadix_new (qd := ts[ts.length - 2]) (hd := ts[ts.length - 1]) (by
      rw [lq, lh, show ts.length - 1 = ts.length - 2 + 1 by omega, pow_succ]; omega)
    have hl : d.len = 2 ^ ts.length := by
      rw [splitRadix_len hd, lq]
      obtain ⟨m, hm⟩ : ∃ m, ts.length = m + 2 := ⟨ts.length - 2, by omega⟩
      rw [hm, pow_add, Nat.add_sub_cancel]; omega
    obtain ⟨ts', e, ht', hlen⟩ := ih (ts ++ [d]) ⟨by simp; omega, fun i hi => by
      rcases Nat.lt_or_ge i ts.length with hlt | hge
      · rw [List.getElem_append_left hlt]; exact ht i hlt
      · obtain rfl : i = ts.length := by simp at hi; omega
        simp only [List.getElem_append_right le_rfl, Nat.sub_self, List.getElem_cons_zero]
        exact ⟨hq.splitRadix hh hd, hl⟩⟩ (by simp; omega)
    refine ⟨ts', ?_, ht', by rw [hlen]; simp; omega⟩
    rw [splitradixLoop, dif_pos (by omega), getI_ok (by omega), ok_bind, getI_ok (by omega), ok_bind, hd, ok_bind, e]

theorem trailingZeros_odd (k m : ℕ) : trailingZeros (2 ^ k * (2 * m + 1)) = k := by
  induction k with
  | zero => rw [trailingZeros, dif_pos (by omega)]
  | succ k ih =>
    have : 0 < 2 ^ k * (2 * m + 1) := Nat.mul_pos (Nat.two_pow_pos k) (by omega)
    have e : 2 ^ (k + 1) * (2 * m + 1) = 2 * (2 ^ k * (2 * m + 1)) := by rw [pow_succ]; ring
    rw [trailingZeros, e, dif_neg (by omega), Nat.mul_div_cancel_left _ (by omega), ih]

theorem makeSplitradix_ok (k m : ℕ) : ∃ d : Dht T, makeSplitradix T (2 ^ k * (2 * m + 1)) = .ok d ∧ Planned d ∧
    d.len = 2 ^ max 4 k := by
  have h0 : PowTable [butterfly1 T, butterfly2 T, butterfly4 T, butterfly8 T, butterfly16 T] := by
    refine ⟨by simp, fun i hi => ?_⟩
    simp only [List.length_cons, List.length_nil] at hi
    interval_cases i
    · exact ⟨⟨.b1, rfl, trivial⟩, rfl⟩
    · exact ⟨⟨.b2, rfl, trivial⟩, rfl⟩
    · exact ⟨⟨.b4, rfl, trivial⟩, rfl⟩
    · exact ⟨⟨.b8, rfl, trivial⟩, rfl⟩
    · exact ⟨⟨.b16, rfl, trivial⟩, rfl⟩
  obtain ⟨ts, e, ⟨h5, ht⟩, hl⟩ := splitradixLoop_ok k _ h0
  have hpos : 2 ^ k * (2 * m + 1) ≠ 0 := (Nat.mul_pos (Nat.two_pow_pos k) (by omega)).ne'
  obtain ⟨hp, hlen⟩ := ht (ts.length - 1) (by omega)
  refine ⟨ts[ts.length - 1], ?_, hp, ?_⟩
  · unfold makeSplitradix
    simp only [if_neg hpos, trailingZeros_odd, e, ok_bind, List.getLast?_eq_getElem?]
    rw [List.getElem?_eq_getElem (by omega)]
  · rw [hlen]
    congr 1
    simp only [List.length_cons, List.length_nil] at hl
    omega

end RustDHT
