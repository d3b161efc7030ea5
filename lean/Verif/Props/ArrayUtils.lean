import Verif.Proofs.ArrayUtilsAll
import Mathlib.Data.List.Nodup

/-! # C87: the functions of `array_utils` by themselves -/

namespace RustDHT

variable {T σ : Type}

/-- The pieces are what they should be: each has `n` elements, and with the rest behind them they make up the buffer. -/
theorem C87_pieces {n : ℕ} (hn : 0 < n) (b : List T) :
    (∀ c ∈ pieces n b, c.length = n) ∧ (pieces n b).flatten ++ behind n (b.length / n) b = b ∧
      (behind n (b.length / n) b).length < n ∧ ((pieces n b).flatten = b ↔ n ∣ b.length) := by
  have h1 : ∀ c ∈ pieces n b, c.length = n := by
    intro c hc
    simp only [pieces, List.mem_map, List.mem_range] at hc
    obtain ⟨i, hi, rfl⟩ := hc
    have : (i + 1) * n ≤ b.length := (Nat.mul_le_mul_right n hi).trans (Nat.div_mul_le_self _ _)
    rw [Nat.succ_mul] at this
    simp; omega
  have h2 : (pieces n b).flatten ++ behind n (b.length / n) b = b := by
    clear h1
    induction b using chunk_induction hn with
    | hlt l hl => simp [pieces_lt hl, behind, Nat.div_eq_of_lt hl]
    | hge l hl ih =>
      rw [pieces_ge hn hl, behind_ge hn hl, List.flatten_cons, List.append_assoc, ih, List.take_append_drop]
  have h3 : (behind n (b.length / n) b).length = b.length % n := by
    rw [behind, List.length_drop, Nat.mul_comm]
    have := Nat.div_add_mod b.length n
    omega
  refine ⟨h1, h2, by rw [h3]; exact Nat.mod_lt _ hn, ?_⟩
  rw [Nat.dvd_iff_mod_eq_zero, ← h3, List.length_eq_zero_iff]
  constructor
  · intro h
    rw [h] at h2
    simpa using h2
  · intro h
    rw [h, List.append_nil] at h2
    exact h2

/-- `iter_chunks`: the closure is called once for each piece, from left to right, whatever it does, a panic included; each
piece is replaced by what the closure made of it; the rest is left alone; the result is `Ok` exactly if there is no rest. -/
theorem C87_iter_chunks {n : ℕ} (hn : 0 < n) (f : List T → σ → Res (List T × σ)) (b : List T) (s : σ) :
    iterChunks n f b s = (inTurn f (pieces n b) s).map fun p =>
      (decide (n ∣ b.length), p.1.flatten ++ behind n (b.length / n) b, p.2) :=
  iterChunks_eq hn f b s

/-- `iter_chunks_zipped`, for buffers of any two lengths: the closure is called once for each pair of pieces, as long as there are
pieces in both buffers; everything else is left alone.  The result says `Ok` if the first buffer is not the longer one and has no
rest. -/
theorem C87_iter_chunks_zipped {n : ℕ} (hn : 0 < n) (f : List T → List T → σ → Res (List T × List T × σ)) (b1 b2 : List T) (s : σ) :
    iterChunksZipped n f b1 b2 s
      = (inTurn (fun p s => (f p.1 p.2 s).map fun q => ((q.1, q.2.1), q.2.2)) ((pieces n b1).zip (pieces n b2)) s).map fun p =>
        (decide (b1.length ≤ b2.length ∧ n ∣ b1.length),
          (p.1.map Prod.fst).flatten ++ behind n (min (b1.length / n) (b2.length / n)) b1,
          (p.1.map Prod.snd).flatten ++ behind n (min (b1.length / n) (b2.length / n)) b2, p.2) := by
  by_cases h : b2.length < b1.length
  · have hd : b2.length / n ≤ b1.length / n := Nat.div_le_div_right h.le
    have hk : b2.length / n * n ≤ b2.length := Nat.div_mul_le_self _ _
    have ez : (pieces n (b1.take b2.length)).zip (pieces n b2) = (pieces n b1).zip (pieces n b2) := by
      simp only [pieces, List.length_take, min_eq_left h.le]
      refine List.ext_getElem ?_ ?_
      · simp; omega
      · intro i h1 h2
        simp only [List.length_zip, List.length_map, List.length_range, lt_min_iff] at h1
        have : (i + 1) * n ≤ b2.length := (Nat.mul_le_mul_right n h1.2).trans hk
        rw [Nat.succ_mul] at this
        simp only [List.getElem_zip, List.getElem_map, List.getElem_range, List.drop_take, List.take_take, Prod.mk.injEq, and_true]
        congr 1
        omega
    rw [iterChunksZipped, if_pos h, iterChunksZippedLoop_eq hn, ez]
    generalize inTurn _ _ s = r
    cases r with
    | error e => rfl
    | ok q =>
      have e1 : min ((b1.take b2.length).length / n) (b2.length / n) = b2.length / n := by
        rw [List.length_take, min_eq_left h.le, min_self]
      have e2 : behind n (b2.length / n) (b1.take b2.length) ++ b1.drop b2.length = behind n (b2.length / n) b1 := by
        rw [behind, behind]
        conv_rhs => rw [← List.take_append_drop b2.length b1]
        rw [List.drop_append_of_le_length (by rw [List.length_take]; omega)]
      have e3 : decide (b1.length ≤ b2.length ∧ n ∣ b1.length) = false := by simp; omega
      simp only [Except.map, ok_bind, e1, min_eq_right hd, List.append_assoc, e2, e3]
  · have hd : b1.length / n ≤ b2.length / n := Nat.div_le_div_right (by omega)
    rw [iterChunksZipped, if_neg h, if_neg h, iterChunksZippedLoop_eq hn]
    generalize inTurn _ _ s = r
    cases r with
    | error e => rfl
    | ok q =>
      have e3 : (b1.length - b1.length / n * n == 0) = decide (b1.length ≤ b2.length ∧ n ∣ b1.length) := by
        rw [Bool.eq_iff_iff]
        simp only [beq_iff_eq, decide_eq_true_eq, Nat.dvd_iff_mod_eq_zero]
        have := Nat.div_add_mod b1.length n
        rw [Nat.mul_comm] at this
        omega
      simp only [Except.map, ok_bind, min_eq_left hd, e3]

/-- The comment above `iter_chunks_zipped` promises `Ok` if every element of both buffers ended up in a chunk, and `Err` if there was
a remainder.  That is so unless the second buffer is the longer one and the first has no rest: the second comparison of
lengths repeats the first, so then nobody notices the rest of the second buffer.  (`process_outofplace_with_scratch` compares the
lengths before.) -/
theorem C87_zipped_promise {n : ℕ} (hn : 0 < n) (f : List T → List T → σ → Res (List T × List T × σ)) (b1 b2 : List T) (s s' : σ)
    (ok : Bool) (b1' b2' : List T) (e : iterChunksZipped n f b1 b2 s = .ok (ok, b1', b2', s')) :
    (ok = true ↔ b1.length = b2.length ∧ (pieces n b1).flatten = b1 ∧ (pieces n b2).flatten = b2)
      ↔ ¬ (b1.length < b2.length ∧ n ∣ b1.length) := by
  rw [C87_iter_chunks_zipped hn] at e
  have e1 : ok = decide (b1.length ≤ b2.length ∧ n ∣ b1.length) := by
    generalize inTurn _ _ s = r at e
    cases r with
    | error e' => cases e
    | ok q => cases e; rfl
  rw [e1, decide_eq_true_eq, (C87_pieces hn b1).2.2.2, (C87_pieces hn b2).2.2.2]
  constructor
  · rintro h ⟨h1, h2⟩
    have := (h.1 ⟨h1.le, h2⟩).1
    omega
  · intro h
    constructor
    · rintro ⟨h1, h2⟩
      have e : b1.length = b2.length := by
        by_contra hc
        exact h ⟨by omega, h2⟩
      exact ⟨e, h2, e ▸ h2⟩
    · rintro ⟨h1, h2, _⟩
      exact ⟨h1.le, h2⟩

/-- So it says `Ok` here, although one element is in no chunk. -/
example : (iterChunksZipped 2 (fun a b (s : Unit) => .ok (a, b, s)) [1, 2] [3, 4, 5] () : Res (Bool × List ℕ × List ℕ × Unit))
    = .ok (true, [1, 2], [3, 4, 5], ()) := by
  rw [C87_iter_chunks_zipped (by norm_num)]
  rfl

/-- An example with a closure that counts its calls and reverses its chunk. -/
example : (iterChunks 2 (fun a (s : ℕ) => .ok (a.reverse, s + 1)) [1, 2, 3, 4, 5] 0 : Res (Bool × List ℕ × ℕ))
    = .ok (false, [2, 1, 4, 3, 5], 2) := by
  rw [C87_iter_chunks (by norm_num)]
  rfl

section
variable [Zero T]

/-- `transpose_half_rev_out` returns exactly if both slices have `width * height` elements, and panics otherwise (at least one
column).  Element `c` of input row `r` becomes element `r` of output row `c`, counted from the end in the output rows after number
`width / 2`.  The output is a rearrangement of the input: nothing is lost, and the old contents are gone. -/
theorem C87_transpose {w h : ℕ} (hw : 0 < w) (input output : List T) :
    (input.length = w * h ∧ output.length = w * h → ∃ out, transposeHalfRevOut input output w h = .ok out ∧ out.Perm input ∧
        ∀ r < h, ∀ c < w, nth out (c * h + if c ≤ w / 2 then r else h - 1 - r) = nth input (r * w + c)) ∧
      (¬ (input.length = w * h ∧ output.length = w * h) → transposeHalfRevOut input output w h = .error (.panic .assertFailed)) := by
  constructor
  · rintro ⟨hi, ho⟩
    have key : transposeHalfRevOut input output w h
        = .ok (tab (w * h) fun p => nth input (revRow w h (p / h) (p % h) * w + p / h)) := by
      rcases Nat.lt_or_ge 1 w with h2 | h2
      · exact transposeHalfRevOut_ok h2 hi ho
      · obtain rfl : w = 1 := by omega
        rw [transposeHalfRevOut_one hi ho]
        congr 1
        refine eq_tab hi fun p hp => ?_
        rw [Nat.one_mul] at hp
        rw [Nat.div_eq_of_lt hp, Nat.mod_eq_of_lt hp, revRow, if_pos (by norm_num), Nat.mul_one, Nat.add_zero]
    have hrev : ∀ c r, r < h → revRow w h c r < h := by intro c r hr; unfold revRow; split <;> omega
    have hinv : ∀ c r, r < h → revRow w h c (revRow w h c r) = r := by intro c r hr; unfold revRow; split <;> omega
    refine ⟨_, key, ?_, ?_⟩
    · have e : input = (List.range (w * h)).map fun p => nth input p := by
        conv_lhs => rw [← tab_nth input, hi]
        rfl
      have e2 : (tab (w * h) fun p => nth input (revRow w h (p / h) (p % h) * w + p / h))
          = ((List.range (w * h)).map fun p => revRow w h (p / h) (p % h) * w + p / h).map fun p => nth input p := by
        rw [List.map_map]; rfl
      rw [e2]
      conv_rhs => rw [e]
      refine List.Perm.map _ ?_
      rw [List.perm_ext_iff_of_nodup ?_ List.nodup_range]
      · intro q
        simp only [List.mem_map, List.mem_range]
        constructor
        · rintro ⟨p, hp, rfl⟩
          rw [Nat.mul_comm w h]
          exact pos_lt (hrev _ _ (mod_lt_of_lt_mul hp)) (div_lt_of_lt_mul' hp)
        · intro hq
          rw [Nat.mul_comm] at hq
          have h1 := div_lt_of_lt_mul' hq
          have h2 := mod_lt_of_lt_mul hq
          refine ⟨q % w * h + revRow w h (q % w) (q / w), pos_lt h2 (hrev _ _ h1), ?_⟩
          rw [div_of_lt (hrev _ _ h1), mod_of_lt (hrev _ _ h1), hinv _ _ h1, div_mod_eq]
      · refine List.Nodup.map_on ?_ List.nodup_range
        intro p hp p' hp' he
        rw [List.mem_range] at hp hp'
        have h1 := congrArg (· / w) he
        have h2 := congrArg (· % w) he
        simp only [div_of_lt (div_lt_of_lt_mul' hp), div_of_lt (div_lt_of_lt_mul' hp')] at h1
        simp only [mod_of_lt (div_lt_of_lt_mul' hp), mod_of_lt (div_lt_of_lt_mul' hp')] at h2
        rw [← h2] at h1
        have h3 := congrArg (revRow w h (p / h)) h1
        rw [hinv _ _ (mod_lt_of_lt_mul hp), hinv _ _ (mod_lt_of_lt_mul hp')] at h3
        rw [← div_mod_eq h p, ← div_mod_eq h p', h2, h3]
    · intro r hr c hc
      have e : (if c ≤ w / 2 then r else h - 1 - r) = revRow w h c r := by unfold revRow; split <;> split <;> omega
      rw [e, nth_tab (pos_lt hc (hrev _ _ hr)), div_of_lt (hrev _ _ hr), mod_of_lt (hrev _ _ hr), hinv _ _ hr]
  · intro hn
    unfold transposeHalfRevOut
    by_cases h1 : input.length = output.length
    · have h2 : input.length ≠ w * h := fun h2 => hn ⟨h2, h1 ▸ h2⟩
      have e1 : (input.length == output.length) = true := by simp [h1]
      have e2 : (input.length == w * h) = false := by simp [h2]
      rw [e1, e2]; rfl
    · have e1 : (input.length == output.length) = false := by simp [h1]
      rw [e1]; rfl

/-- Without columns the assertions pass, and the unchecked accesses are out of bounds: the function is safe for the widths 2 to 6
that the crate uses, not by itself. -/
theorem C87_transpose_no_columns (h : ℕ) : transposeHalfRevOut ([] : List T) [] 0 (h + 1) = .error .ub := by
  have e : ((([] : List T).length == 0 * (h + 1)) = true) := by simp
  unfold transposeHalfRevOut
  rw [e]
  rfl

example : (∃ out, transposeHalfRevOut [(1 : ℤ), 2, 3, 4, 5, 6] [0, 0, 0, 0, 0, 0] 3 2 = .ok out ∧
    out.Perm [1, 2, 3, 4, 5, 6] ∧ ∀ r < 2, ∀ c < 3, nth out (c * 2 + if c ≤ 3 / 2 then r else 2 - 1 - r) = nth [1, 2, 3, 4, 5, 6] (r * 3 + c)) :=
  (C87_transpose (by norm_num) _ _).1 ⟨rfl, rfl⟩

/-- The second half of the rows is reversed. -/
example : transposeHalfRevOut [(1 : ℤ), 2, 3, 4, 5, 6] [0, 0, 0, 0, 0, 0] 3 2 = .ok [1, 4, 2, 5, 6, 3] := rfl

end

end RustDHT
