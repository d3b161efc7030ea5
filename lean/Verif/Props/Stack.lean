import Verif.Model.Stack
import Verif.Proofs.Radix4

/-! # C75: the recursion of Radix4

`prepare_radix4` and `prepare_radix4_reversed` are the only recursive functions of the crate. -/

namespace RustDHT

variable {T : Type}

private theorem exceptT_bind_some {α β : Type} (a : Res α) (g : α → Res β) :
    (ExceptT.mk (some a) >>= fun x => ExceptT.mk (some (g x)) : ExceptT Fault Option β) = ExceptT.mk (some (a >>= g)) := by
  cases a <;> rfl

/-- What happens depends on the sizes alone: if `size`, divided by 4 (rounding down) `l` times, is `base_len`, and no fewer times,
then the recursion needs a stack of `l + 1` activations, not one less, and does with it what the model says. -/
theorem C75_depth (l : Nat) (frames : Nat) (rev : Bool) (size baseLen : Nat) (input output : List T) (stride : Nat)
    (hl : size / 4 ^ l = baseLen) (hmin : ∀ j < l, size / 4 ^ j ≠ baseLen) :
    prepareRadix4Within frames rev size baseLen input output stride
      = if l < frames then some (prepareRadix4 rev size baseLen input output stride) else none := by
  induction l generalizing frames rev size input output stride with
  | zero =>
    rw [pow_zero, Nat.div_one] at hl
    cases frames with
    | zero => rfl
    | succ f =>
      rw [prepareRadix4Within, prepareRadix4, if_pos hl, if_pos hl, if_pos (by omega)]
  | succ l ih =>
    have h0 : size ≠ baseLen := by simpa using hmin 0 (by omega)
    have hs : size ≠ 0 := by
      rintro rfl
      rw [Nat.zero_div] at hl
      exact h0 hl
    cases frames with
    | zero => rfl
    | succ f =>
      have ih' := fun f rev input output stride => ih f rev (size / 4) input output stride
        (by rw [Nat.div_div_eq_div_mul, ← pow_succ']; exact hl)
        (fun j hj => by rw [Nat.div_div_eq_div_mul, ← pow_succ']; exact hmin (j + 1) (by omega))
      rw [prepareRadix4Within, prepareRadix4, if_neg h0, if_neg h0, dif_neg hs]
      simp only [ih']
      by_cases hf : l < f
      · simp only [if_pos hf, if_pos (Nat.succ_lt_succ hf)]
        have hchild : ∀ (i : Nat) (cr : Bool) (o : List T),
            ((if i * stride ≤ input.length then
              if i * (size / 4) ≤ o.length then
                ExceptT.mk (some (prepareRadix4 cr (size / 4) baseLen (input.drop (i * stride)) (o.drop (i * (size / 4))) (stride * 4)))
                  >>= fun tail => (pure (o.take (i * (size / 4)) ++ tail))
              else throw (.panic .index)
            else throw (.panic .index) : ExceptT Fault Option (List T)))
            = ExceptT.mk (some (if i * stride ≤ input.length then
                if i * (size / 4) ≤ o.length then do
                  let tail ← prepareRadix4 cr (size / 4) baseLen (input.drop (i * stride)) (o.drop (i * (size / 4))) (stride * 4)
                  .ok (o.take (i * (size / 4)) ++ tail)
                else panic .index
              else panic .index)) := by
          intro i cr o
          split_ifs
          · exact exceptT_bind_some _ _
          · rfl
          · rfl
        simp only [hchild, exceptT_bind_some]
        rfl
      · rw [if_neg (show ¬ l + 1 < f + 1 by omega)]
        simp only [if_neg hf]
        simp
        rfl

/-- Otherwise the recursion never ends: no stack is large enough, and the model says so. -/
theorem C75_endless (frames : Nat) (rev : Bool) (size baseLen : Nat) (input output : List T) (stride : Nat)
    (h : ∀ j, size / 4 ^ j ≠ baseLen) :
    prepareRadix4Within frames rev size baseLen input output stride = none ∧
      prepareRadix4 rev size baseLen input output stride = .error .diverge := by
  constructor
  · induction frames generalizing rev size input output stride with
    | zero => rfl
    | succ f ih =>
      have h0 : size ≠ baseLen := by simpa using h 0
      have ih' := fun rev input output stride => ih rev (size / 4) input output stride
        (fun j => by rw [Nat.div_div_eq_div_mul, ← pow_succ']; exact h (j + 1))
      rw [prepareRadix4Within, if_neg h0]
      simp only [ih']
      simp
      rfl
  · induction size using Nat.strong_induction_on generalizing rev input output stride with
    | _ size ih =>
      have h0 : size ≠ baseLen := by simpa using h 0
      rw [prepareRadix4, if_neg h0]
      by_cases hs : size = 0
      · rw [dif_pos hs]
      · rw [dif_neg hs]
        have := ih (size / 4) (by omega) false (input.drop (0 * stride)) (output.drop (0 * (size / 4))) (stride * 4)
          (fun j => by rw [Nat.div_div_eq_div_mul, ← pow_succ']; exact h (j + 1))
        simp only [this]
        simp

section
variable [Zero T] [Add T] [Sub T] [Mul T] [Neg T] [FftNum T]

/-- In `Radix4` of length `2^m` the recursion is `(m - 1) / 2` activations deep, and at least one. -/
theorem C75_radix4 (m frames : Nat) (input output : List T) :
    prepareRadix4Within frames false (2 ^ m) (radix4Base T (2 ^ m)).1 input output 1
      = if max 1 ((m - 1) / 2) ≤ frames then some (prepareRadix4 false (2 ^ m) (radix4Base T (2 ^ m)).1 input output 1) else none := by
  have hb : 0 < r4BaseLen m := r4BaseLen_pos m
  rw [(radix4Base_eq (T := T) m).1, C75_depth (r4Levels m)]
  · have : r4Levels m < frames ↔ max 1 ((m - 1) / 2) ≤ frames := by
      unfold r4Levels
      split_ifs <;> omega
    simp only [this]
  · rw [r4_len m, Nat.mul_div_cancel _ (by positivity)]
  · intro j hj e
    rw [r4_len m, show r4Levels m = (r4Levels m - j) + j by omega, pow_add, ← mul_assoc, Nat.mul_div_cancel _ (by positivity)] at e
    have h1 : 4 ^ 1 ≤ 4 ^ (r4Levels m - j) := Nat.pow_le_pow_right (by norm_num) (by omega)
    nlinarith

/-- On a 64-bit machine it is at most 31 activations deep, and for the length `2^63` exactly that. -/
theorem C75_at_most_31 (input output : List T) :
    (∀ m, 2 ^ m < 2 ^ 64 → prepareRadix4Within 31 false (2 ^ m) (radix4Base T (2 ^ m)).1 input output 1
      = some (prepareRadix4 false (2 ^ m) (radix4Base T (2 ^ m)).1 input output 1)) ∧
    prepareRadix4Within 30 false (2 ^ 63) (radix4Base T (2 ^ 63)).1 input output 1 = none := by
  constructor
  · intro m hm
    have : m < 64 := (Nat.pow_lt_pow_iff_right (by norm_num)).1 hm
    rw [C75_radix4, if_pos (by omega)]
  · rw [C75_radix4, if_neg (by omega)]

end

/-! ## Cases -/

/-- Length 32: the blocks of length 8, one of them reversed.  One activation is not enough. -/
example : prepareRadix4Within 2 false 32 8 (List.range 32) (List.replicate 32 0) 1 = some (.ok
    [0, 4, 8, 12, 16, 20, 24, 28, 1, 5, 9, 13, 17, 21, 25, 29, 2, 6, 10, 14, 18, 22, 26, 30, 31, 27, 23, 19, 15, 11, 7, 3]) ∧
    prepareRadix4Within 1 false 32 8 (List.range 32) (List.replicate 32 0) 1 = none := by
  decide

/-- 24 is never met: 32, 8, 2, 0, 0, ... -/
example (frames : Nat) : prepareRadix4Within frames false 32 24 (List.range 32) (List.replicate 32 0) 1 = none :=
  (C75_endless frames false 32 24 _ _ 1 fun j => by
    have h4 : 32 / 4 ^ j ≤ 32 / 4 ^ 0 ∧ (1 ≤ j → 32 / 4 ^ j ≤ 32 / 4 ^ 1) :=
      ⟨Nat.div_le_div_left (Nat.pow_le_pow_right (by norm_num) (Nat.zero_le j)) (by norm_num),
        fun h => Nat.div_le_div_left (Nat.pow_le_pow_right (by norm_num) h) (by norm_num)⟩
    rcases Nat.eq_zero_or_pos j with rfl | h
    · norm_num
    · have := h4.2 h
      norm_num at this ⊢
      omega).1

end RustDHT
