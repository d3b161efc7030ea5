import Verif.Model.Radix4Repaired
import Verif.Proofs.Radix4Dht

/-! # `Radix4` with a repaired order of blocks computes the DHT -/

set_option linter.unusedSectionVars false

namespace RustDHT

section
variable {T : Type} [Zero T]

/-- Where the repaired `prepare_radix4` and `prepare_radix4_reversed`, with `l` levels above the base case, take the value of
output position `p` from. -/
def rIndex (base : Nat) : Nat → Bool → Nat → Nat
  | 0, rev, p => if rev then base - p - 1 else p
  | l + 1, rev, p =>
    let s := base * 4 ^ l
    let i := if rev then 3 - p / s else p / s
    let childRev := if i = 0 then false else if i = 3 then true else rev
    i + 4 * rIndex base l childRev (p % s)

theorem prepareRepaired_ok {base : Nat} (hb : 0 < base) (l : Nat) (rev : Bool) (stride : Nat) (input output : List T)
    (hin : (base * 4 ^ l - 1) * stride < input.length) (hout : base * 4 ^ l ≤ output.length) :
    prepareRepaired rev (base * 4 ^ l) base input output stride
      = .ok (tab (base * 4 ^ l) (fun p => nth input (rIndex base l rev p * stride)) ++ output.drop (base * 4 ^ l)) := by
  induction l generalizing rev stride input output with
  | zero =>
    have := prepareRadix4_ok hb 0 rev stride input output hin hout
    rw [prepareRadix4, if_pos (by simp)] at this
    rw [prepareRepaired, if_pos (by simp)]
    exact this
  | succ l ih =>
    obtain ⟨s, hs⟩ : ∃ s, base * 4 ^ l = s := ⟨_, rfl⟩
    have hs4 : base * 4 ^ (l + 1) = 4 * s := by rw [pow_succ, ← hs]; ring
    have hspos : 0 < s := by rw [← hs]; positivity
    have hbs : base ≤ s := by rw [← hs]; exact Nat.le_mul_of_pos_right _ (by positivity)
    rw [hs] at ih
    rw [hs4] at hin hout ⊢
    rw [prepareRepaired, if_neg (by omega), dif_neg (by omega)]
    simp only [show 4 * s / 4 = s by omega]
    have hst : ∀ i, i ≤ 3 → i * stride ≤ input.length := by
      intro i hi
      have : i * stride ≤ (4 * s - 1) * stride := Nat.mul_le_mul_right _ (by omega)
      omega
    have hin' : ∀ i, i ≤ 3 → (s - 1) * (stride * 4) < (input.drop (i * stride)).length := by
      intro i hi
      rw [List.length_drop]
      have : (s - 1) * (stride * 4) + i * stride ≤ (4 * s - 1) * stride := by
        rw [show (s - 1) * (stride * 4) + i * stride = (4 * (s - 1) + i) * stride by ring]
        exact Nat.mul_le_mul_right _ (by omega)
      omega
    have hchild : ∀ i r (o : List T), i ≤ 3 → o.length = output.length → ∃ o' : List T,
        (if i * stride ≤ input.length then
          if (if rev then 3 - i else i) * s ≤ o.length then do
            let tail ← prepareRepaired r s base (input.drop (i * stride)) (o.drop ((if rev then 3 - i else i) * s)) (stride * 4)
            .ok (o.take ((if rev then 3 - i else i) * s) ++ tail)
          else panic .index
        else panic .index) = .ok o' ∧ o'.length = output.length ∧
        ∀ p, nth o' p = if p / s = (if rev then 3 - i else i) then nth input ((i + 4 * rIndex base l r (p % s)) * stride)
          else nth o p := by
      intro i r o hi ho
      obtain ⟨b, hbk⟩ : ∃ b, (if rev then 3 - i else i) = b := ⟨_, rfl⟩
      have hb3 : b ≤ 3 := by rw [← hbk]; split <;> omega
      have : b * s ≤ 3 * s := Nat.mul_le_mul_right _ hb3
      rw [hbk, if_pos (hst i hi), if_pos (by omega), ih r (stride * 4) _ _ (hin' i hi)
        (by rw [List.length_drop]; omega), ok_bind, List.drop_drop]
      refine ⟨_, rfl, by simp; omega, fun p => ?_⟩
      have hm := Nat.mod_lt p hspos
      have hpeq := div_mod_eq s p
      rcases lt_trichotomy (p / s) b with h | h | h
      · have h1 : (p / s + 1) * s ≤ b * s := Nat.mul_le_mul_right _ h
        have h2 : p < b * s := by rw [Nat.add_mul] at h1; omega
        rw [if_neg (by omega), nth_append_left (by simp; omega), nth_take h2]
      · rw [h] at hpeq
        rw [if_pos h, nth_append_right (by simp; omega), List.length_take, Nat.min_eq_left (by omega),
          nth_append_left (by simp; omega), show p - b * s = p % s by omega, nth_tab hm, nth_drop]
        congr 1; ring
      · have h1 : (b + 1) * s ≤ p / s * s := Nat.mul_le_mul_right _ h
        have h2 : b * s + s ≤ p := by rw [Nat.add_mul] at h1; omega
        rw [if_neg (by omega), nth_append_right (by simp; omega), List.length_take, Nat.min_eq_left (by omega),
          nth_append_right (by simp; omega), length_tab, nth_drop]
        congr 1; omega
    obtain ⟨o1, e1, l1, v1⟩ := hchild 0 false output (by omega) rfl
    obtain ⟨o2, e2, l2, v2⟩ := hchild 1 rev o1 (by omega) l1
    obtain ⟨o3, e3, l3, v3⟩ := hchild 2 rev o2 (by omega) l2
    obtain ⟨o4, e4, l4, v4⟩ := hchild 3 true o3 (by omega) l3
    rw [e1, ok_bind, e2, ok_bind, e3, ok_bind, e4]
    congr 1
    refine list_ext_nth (by simp [l4]; omega) fun p hp => ?_
    rw [v4, v3, v2, v1]
    by_cases hlt : p < 4 * s
    · rw [nth_append_left (by simpa using hlt), nth_tab hlt]
      simp only [rIndex, hs]
      have hi4 : p / s < 4 := (Nat.div_lt_iff_lt_mul hspos).2 hlt
      generalize p / s = c at hi4 ⊢
      have : c = 0 ∨ c = 1 ∨ c = 2 ∨ c = 3 := by omega
      cases rev <;> rcases this with rfl | rfl | rfl | rfl <;> simp
    · have h4 : 4 ≤ p / s := (Nat.le_div_iff_mul_le hspos).2 (by omega)
      have hn : ∀ i ≤ 3, p / s ≠ (if rev then 3 - i else i) := fun i hi => by split <;> omega
      rw [if_neg (hn 3 (by omega)), if_neg (hn 2 (by omega)), if_neg (hn 1 (by omega)), if_neg (hn 0 (by omega)),
        nth_append_right (by simp; omega), length_tab, nth_drop, Nat.add_sub_cancel' (by omega)]

/-! ## The order is the one that the layers undo -/

/-- `r4Undo`, from the top. -/
theorem r4Undo_top {h : ℕ} (hh : 0 < h) (l i : ℕ) (hi : i < 4 * (h * 4 ^ l)) :
    r4Undo h (l + 1) i = r4Perm (h * 4 ^ l) i / (h * 4 ^ l) * (h * 4 ^ l)
      + r4Undo h l (r4Perm (h * 4 ^ l) i % (h * 4 ^ l)) := by
  induction l generalizing h with
  | zero =>
    have h1 : i < 4 * h := by simpa using hi
    simp only [r4Undo, pow_zero, Nat.mul_one, Nat.div_eq_of_lt h1, Nat.mod_eq_of_lt h1, Nat.zero_mul, Nat.zero_add]
    exact (div_mod_eq h _).symm
  | succ l ih =>
    have e : h * 4 ^ (l + 1) = 4 * h * 4 ^ l := by ring
    rw [e] at hi ⊢
    have d : ∀ l i, r4Undo h (l + 1) i
        = r4Undo (4 * h) l i / (4 * h) * (4 * h) + r4Perm h (r4Undo (4 * h) l i % (4 * h)) := fun _ _ => rfl
    rw [d, d, ih (h := 4 * h) (by omega) hi]
    generalize r4Perm (4 * h * 4 ^ l) i = j
    generalize r4Undo (4 * h) l (j % (4 * h * 4 ^ l)) = q
    rw [show j / (4 * h * 4 ^ l) * (4 * h * 4 ^ l) + q = 4 * h * (j / (4 * h * 4 ^ l) * 4 ^ l) + q by ring,
      Nat.mul_add_div (by omega), Nat.mul_add_mod]
    ring

theorem rIndex_undo {base : ℕ} (hb : 0 < base) (l : ℕ) (rev : Bool) (i : ℕ) (hi : i < base * 4 ^ l) :
    rIndex base l rev (r4Undo base l i) = if rev then base * 4 ^ l - 1 - i else i := by
  induction l generalizing rev i with
  | zero =>
    simp only [rIndex, r4Undo, pow_zero, Nat.mul_one] at hi ⊢
    cases rev
    · rfl
    · simp only [if_true]; omega
  | succ l ih =>
    obtain ⟨s, hs⟩ : ∃ s, base * 4 ^ l = s := ⟨_, rfl⟩
    have hs4 : base * 4 ^ (l + 1) = 4 * s := by rw [pow_succ, ← hs]; ring
    have hspos : 0 < s := by rw [← hs]; positivity
    rw [hs4] at hi ⊢
    rw [r4Undo_top hb l i (by rw [hs]; exact hi)]
    simp only [rIndex, hs]
    rw [hs] at ih
    have hrow : revRow 4 s (i % 4) (i / 4) < s := by unfold revRow; split <;> omega
    have hund : r4Undo base l (revRow 4 s (i % 4) (i / 4)) < s := by
      have := r4Undo_lt (h := base) (l := l) hb (lt_of_lt_of_eq hrow hs.symm)
      rwa [hs] at this
    have e1 : r4Perm s i / s = i % 4 := div_of_lt hrow
    have e2 : r4Perm s i % s = revRow 4 s (i % 4) (i / 4) := mod_of_lt hrow
    rw [e1, e2, div_of_lt hund, mod_of_lt hund, ih _ _ hrow]
    unfold revRow
    have h4 := Nat.mod_lt i (show 0 < 4 by norm_num)
    have hd := Nat.div_add_mod i 4
    have hq : i / 4 < s := by omega
    generalize i / 4 = q at *
    generalize i % 4 = r at *
    subst hd
    have : r = 0 ∨ r = 1 ∨ r = 2 ∨ r = 3 := by omega
    cases rev <;> rcases this with rfl | rfl | rfl | rfl <;> simp <;> omega

end

/-! ## The whole algorithm -/

section
variable {T : Type} [Zero T] [Add T] [Sub T] [Mul T] [Neg T] [FftNum T]

/-- The chunk transform of the repaired `Radix4` for length `2 ^ m`. -/
def repairedFn (T : Type) [Zero T] [Add T] [Sub T] [Mul T] [FftNum T] (m : Nat) (x : List T) : List T :=
  r4Layers T (r4BaseLen m) (r4Levels m)
    (mapChunks (r4BaseLen m) (r4BaseFn T m) (tab (2 ^ m) fun p => nth x (rIndex (r4BaseLen m) (r4Levels m) false p)))

theorem repaired_performs (m : Nat) :
    Performs (2 ^ m) (2 ^ m) 0 (repairedFn T m)
      (repairedPerformInplace (radix4Base T (2 ^ m)).2 (radix4Base T (2 ^ m)).1 (2 ^ m)
        (radix4Twiddles T (2 ^ m) (2 ^ m / ((radix4Base T (2 ^ m)).1 * 4))))
      (repairedPerformOop (radix4Base T (2 ^ m)).2 (radix4Base T (2 ^ m)).1 (2 ^ m)
        (radix4Twiddles T (2 ^ m) (2 ^ m / ((radix4Base T (2 ^ m)).1 * 4)))) := by
  obtain ⟨hb1, hb2, hb3, hb4⟩ := radix4Base_eq (T := T) m
  rw [hb1]
  have hbpos := r4BaseLen_pos m
  have hlen := r4_len m
  have hlb := hb4.length
  rw [hb2] at hlb
  set d := (radix4Base T (2 ^ m)).2 with hd
  set tw := radix4Twiddles T (2 ^ m) (2 ^ m / (r4BaseLen m * 4)) with htw
  have h0 : ∀ x : List T, (tab (2 ^ m) fun p => nth x (rIndex (r4BaseLen m) (r4Levels m) false p)).length = 2 ^ m :=
    fun x => length_tab _ _
  have h1 : ∀ x : List T, (mapChunks (r4BaseLen m) (r4BaseFn T m)
      (tab (2 ^ m) fun p => nth x (rIndex (r4BaseLen m) (r4Levels m) false p))).length = 2 ^ m := fun x => by
    rw [length_mapChunks hbpos hlb, length_tab]
  have hgl : ∀ x : List T, (repairedFn T m x).length = 2 ^ m := fun x => by
    rw [repairedFn, length_r4Layers hbpos, h1]
  have hlayers : ∀ out : List T, out.length = 2 ^ m →
      radix4Layers (2 ^ m) (r4BaseLen m * 4) tw out = .ok (r4Layers T (r4BaseLen m) (r4Levels m) out) := by
    intro out ho
    by_cases hm : m < 3
    · have hl0 : r4Levels m = 0 := by rw [r4Levels, if_pos hm]
      rw [radix4Layers, dif_neg (by rw [hlen, hl0]; omega), hl0]
      rfl
    · have hb8 : 2 ≤ r4BaseLen m := by
        unfold r4BaseLen
        split
        · omega
        · omega
        · omega
        · split <;> omega
      refine radix4Layers_ok hb8 hlen ?_ ho
      intro hl
      obtain ⟨k, hk⟩ : ∃ k, r4Levels m = k + 1 := ⟨r4Levels m - 1, by omega⟩
      rw [htw, hk, Nat.add_sub_cancel]
      congr 1
      rw [hlen, hk, pow_succ, Nat.mul_comm (4 ^ k), ← Nat.mul_assoc, Nat.mul_div_cancel_left _ (by omega)]
  have hoop : ∀ inp out s : List T, inp.length = 2 ^ m → out.length = 2 ^ m →
      repairedPerformOop d (r4BaseLen m) (2 ^ m) tw inp out s = .ok (inp, repairedFn T m inp, s) := by
    intro inp out s hi ho
    unfold repairedPerformOop
    have hprep := prepareRepaired_ok hbpos (r4Levels m) false 1 inp out
      (by rw [← hlen, hi]; have := Nat.two_pow_pos m; omega) (by rw [← hlen, ho])
    rw [← hlen] at hprep
    simp only [Nat.mul_one] at hprep
    rw [hprep, ok_bind, List.drop_eq_nil_of_le (by omega), List.append_nil]
    obtain ⟨s', e, _, _⟩ := hb4.inplace (tab (2 ^ m) fun p => nth inp (rIndex (r4BaseLen m) (r4Levels m) false p)) []
      (by rw [h0, hb2, hlen]; exact Nat.le_mul_of_pos_right _ (by positivity))
      (by rw [h0, hb2, hlen]; exact dvd_mul_right _ _) (by rw [hb3]; exact Nat.zero_le _)
    rw [hb2] at e
    rw [e, ok_bind]
    simp only
    rw [hlayers _ (h1 inp), ok_bind, repairedFn]
  refine ⟨fun x _ => hgl x, ?_, ?_⟩
  · intro c s hc hs
    refine ⟨c, ?_, hc⟩
    unfold repairedPerformInplace
    rw [if_pos (by omega), ok_bind, hoop c c [] hc hc, ok_bind]
  · intro i o s hi ho hs
    exact ⟨i, s, hoop i o s hi ho, hi, hs⟩

theorem radix4Repaired_eq (m : Nat) : radix4Repaired T (2 ^ m) = .ok (boilerplateDht (2 ^ m) (2 ^ m) 0
    (repairedPerformInplace (radix4Base T (2 ^ m)).2 (radix4Base T (2 ^ m)).1 (2 ^ m)
      (radix4Twiddles T (2 ^ m) (2 ^ m / ((radix4Base T (2 ^ m)).1 * 4))))
    (repairedPerformOop (radix4Base T (2 ^ m)).2 (radix4Base T (2 ^ m)).1 (2 ^ m)
      (radix4Twiddles T (2 ^ m) (2 ^ m / ((radix4Base T (2 ^ m)).1 * 4))))) := by
  unfold radix4Repaired
  rw [(isPowerOfTwo_iff _).2 ⟨m, rfl⟩, assert_true, ok_bind]

theorem radix4Repaired_implements {m : Nat} {d : Dht T} (h : radix4Repaired T (2 ^ m) = .ok d) :
    Implements d (repairedFn T m) := by
  rw [radix4Repaired_eq] at h
  cases h
  exact boilerplateDht_implements (fun _ => repaired_performs m) (fun h => by
    have := Nat.two_pow_pos m; omega)

theorem radix4Repaired_rejects {m : Nat} {d : Dht T} (h : radix4Repaired T (2 ^ m) = .ok d) : Rejects d := by
  rw [radix4Repaired_eq] at h
  cases h
  exact boilerplateDht_rejects (Nat.two_pow_pos m) (repaired_performs m)

end

theorem repairedFn_dht {m : ℕ} {x : List ℝ} (hx : x.length = 2 ^ m) : repairedFn ℝ m x = dht x := by
  have hb := r4BaseLen_pos m
  have hlen := r4_len m
  rw [repairedFn, mapChunks_congr (fun x hx => r4BaseFn_dht hx), r4Layers_dht hb (by rw [length_tab, hlen])]
  congr 1
  refine (eq_tab (by rw [hx, hlen]) fun i hi => ?_).symm
  have hu := r4Undo_lt hb hi
  rw [nth_tab (by rw [hlen]; exact hu), rIndex_undo hb _ _ _ hi]
  rfl

/-- The change does nothing below 128. -/
theorem rIndex_eq_small (base l : ℕ) (hl : l ≤ 1) (p : ℕ) : rIndex base l false p = r4Index base l false p := by
  match l, hl with
  | 0, _ => rfl
  | 1, _ => rfl

end RustDHT
