import Verif.Proofs.ArrayUtils
import Verif.Spec.Pieces

/-! # The functions of `array_utils` for every argument -/

set_option linter.unusedSectionVars false

namespace RustDHT

variable {T σ : Type}

theorem pieces_lt {n : Nat} {b : List T} (h : b.length < n) : pieces n b = [] := by
  simp [pieces, Nat.div_eq_of_lt h]

theorem pieces_ge {n : Nat} (hn : 0 < n) {b : List T} (h : n ≤ b.length) :
    pieces n b = b.take n :: pieces n (b.drop n) := by
  have e : b.length / n = (b.drop n).length / n + 1 := by
    rw [List.length_drop, ← Nat.sub_add_cancel h, Nat.add_div_right _ hn, Nat.add_sub_cancel]
  rw [pieces, e, List.range_succ_eq_map, List.map_cons, List.map_map]
  simp only [Nat.zero_mul, List.drop_zero, pieces]
  congr 1
  refine List.map_congr_left fun i _ => ?_
  simp only [Function.comp, List.drop_drop]
  congr 2
  rw [Nat.succ_mul, Nat.add_comm]

theorem behind_ge {n : Nat} (hn : 0 < n) {b : List T} (h : n ≤ b.length) :
    behind n (b.length / n) b = behind n ((b.drop n).length / n) (b.drop n) := by
  have e : b.length / n = (b.drop n).length / n + 1 := by
    rw [List.length_drop, ← Nat.sub_add_cancel h, Nat.add_div_right _ hn, Nat.add_sub_cancel]
  rw [behind, e, behind, List.drop_drop, Nat.succ_mul, Nat.add_comm]

theorem inTurn_cons {α β : Type} (f : α → σ → Res (β × σ)) (a : α) (as : List α) (s : σ) :
    inTurn f (a :: as) s = f a s >>= fun p => inTurn f as p.2 >>= fun q => .ok (p.1 :: q.1, q.2) := rfl

theorem iterChunks_eq {n : Nat} (hn : 0 < n) (f : List T → σ → Res (List T × σ)) (b : List T) (s : σ) :
    iterChunks n f b s = (inTurn f (pieces n b) s).map fun p =>
      (decide (n ∣ b.length), p.1.flatten ++ behind n (b.length / n) b, p.2) := by
  induction b using chunk_induction hn generalizing s with
  | hlt l hl =>
    rw [iterChunks, if_neg (by omega), pieces_lt hl]
    have : (l.length == 0) = decide (n ∣ l.length) := by
      rw [Bool.eq_iff_iff]
      simp only [beq_iff_eq, decide_eq_true_eq]
      exact ⟨fun h => by rw [h]; exact dvd_zero _, fun h => Nat.eq_zero_of_dvd_of_lt h hl⟩
    rw [this]
    simp [inTurn, Except.map, behind, Nat.div_eq_of_lt hl]
  | hge l hl ih =>
    rw [iterChunks, if_pos hl, if_neg (by omega), pieces_ge hn hl, inTurn_cons, behind_ge hn hl]
    cases f (l.take n) s with
    | error e => rfl
    | ok p =>
      obtain ⟨h, s1⟩ := p
      simp only [ok_bind, ih]
      cases inTurn f (pieces n (l.drop n)) s1 with
      | error e => rfl
      | ok q =>
        simp only [Except.map, ok_bind, dvd_drop_iff hl, List.flatten_cons, List.append_assoc]

theorem iterChunksZippedLoop_eq {n : Nat} (hn : 0 < n) (f : List T → List T → σ → Res (List T × List T × σ))
    (b1 b2 : List T) (s : σ) :
    iterChunksZippedLoop n f b1 b2 s
      = (inTurn (fun p s => (f p.1 p.2 s).map fun q => ((q.1, q.2.1), q.2.2)) ((pieces n b1).zip (pieces n b2)) s).map fun p =>
        (b1.length - min (b1.length / n) (b2.length / n) * n,
          (p.1.map Prod.fst).flatten ++ behind n (min (b1.length / n) (b2.length / n)) b1,
          (p.1.map Prod.snd).flatten ++ behind n (min (b1.length / n) (b2.length / n)) b2, p.2) := by
  induction b1 using chunk_induction hn generalizing b2 s with
  | hlt l hl =>
    rw [iterChunksZippedLoop, if_neg (by omega), pieces_lt hl]
    simp [inTurn, Except.map, behind, Nat.div_eq_of_lt hl]
  | hge l hl ih =>
    by_cases h2 : n ≤ b2.length
    · have e1 : l.length / n = (l.drop n).length / n + 1 := by
        rw [List.length_drop, ← Nat.sub_add_cancel hl, Nat.add_div_right _ hn, Nat.add_sub_cancel]
      have e2 : b2.length / n = (b2.drop n).length / n + 1 := by
        rw [List.length_drop, ← Nat.sub_add_cancel h2, Nat.add_div_right _ hn, Nat.add_sub_cancel]
      have em : min (l.length / n) (b2.length / n) = min ((l.drop n).length / n) ((b2.drop n).length / n) + 1 := by omega
      rw [iterChunksZippedLoop, if_pos ⟨hl, h2⟩, if_neg (by omega), pieces_ge hn hl, pieces_ge hn h2, List.zip_cons_cons,
        inTurn_cons, em]
      set m := min ((l.drop n).length / n) ((b2.drop n).length / n) with hm
      have d1 : ∀ b : List T, behind n (m + 1) b = behind n m (b.drop n) := fun b => by
        rw [behind, behind, List.drop_drop, Nat.succ_mul, Nat.add_comm]
      have d2 : (l.drop n).length - m * n = l.length - (m + 1) * n := by
        rw [List.length_drop, Nat.succ_mul]; omega
      cases f (l.take n) (b2.take n) s with
      | error e => rfl
      | ok p =>
        obtain ⟨h1, h2, s1⟩ := p
        simp only [ok_bind, ih, ← hm, d2]
        have em : (Except.map (fun q : List T × List T × σ => ((q.1, q.2.1), q.2.2)) (.ok (h1, h2, s1)) : Res ((List T × List T) × σ))
          = .ok ((h1, h2), s1) := rfl
        rw [em, ok_bind]
        dsimp only
        generalize inTurn (fun p s => (f p.1 p.2 s).map fun q => ((q.1, q.2.1), q.2.2))
          ((pieces n (l.drop n)).zip (pieces n (b2.drop n))) s1 = r
        cases r with
        | error e => rfl
        | ok q => simp only [Except.map, ok_bind, d1, List.map_cons, List.flatten_cons, List.append_assoc]
    · rw [iterChunksZippedLoop, if_neg (by omega), pieces_lt (b := b2) (by omega)]
      simp [inTurn, Except.map, behind, Nat.div_eq_of_lt (show b2.length < n by omega)]

section
variable [Zero T]

theorem transposeHalfRevOut_one {input output : List T} {h : Nat} (hi : input.length = 1 * h) (ho : output.length = 1 * h) :
    transposeHalfRevOut input output 1 h = .ok input := by
  unfold transposeHalfRevOut
  simp only [hi, ho, beq_self_eq_true, assert_true, ok_bind]
  have hb : ∀ r (l : List T), 0 ≤ r → r < h → l.length = h →
      (do
        let outRowRev := h - r - 1
        let output ← forRange 0 (1 / 2 + 1) l fun outColumn output => do
          let v ← getU input (r * 1 + outColumn)
          setU output (outColumn * h + r) v
        forRange (1 / 2 + 1) 1 output fun outColumn output => do
          let v ← getU input (r * 1 + outColumn)
          setU output (outColumn * h + outRowRev) v : Res (List T)) = .ok (l.set r (nth input r)) := by
    intro r l _ hr hl
    have e : forRange 0 (1 / 2 + 1) l (fun outColumn output => do
          let v ← getU input (r * 1 + outColumn)
          setU output (outColumn * h + r) v) = .ok (l.set r (nth input r)) := by
      show forRange 0 1 l _ = _
      have : forRange 0 1 l (fun outColumn output => do
          let v ← getU input (r * 1 + outColumn)
          setU output (outColumn * h + r) v) = (getU input (r * 1 + 0) >>= fun v => setU l (0 * h + r) v) >>= fun s => .ok s := rfl
      rw [this, getU_nth (by omega), ok_bind, setU_ok (by omega), ok_bind]
      simp
    simp only [e, ok_bind]
    rfl
  obtain ⟨l', e, h1, h2, -⟩ := forRange_scatter (lo := 0) (hi := h) (n := h) (fun r => r) (fun r => nth input r)
    (fun k _ h => h) hb (fun a b _ h _ => by omega) output (by omega)
  rw [e]
  congr 1
  rw [eq_tab h1 fun i hi' => h2 i (by omega) hi']
  exact (eq_tab (by omega) fun i _ => rfl).symm

end

end RustDHT
