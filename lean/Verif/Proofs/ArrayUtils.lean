import Verif.Proofs.Boilerplate

/-! # Transposes and reversals: closed forms -/

set_option linter.unusedSectionVars false

namespace RustDHT

variable {T : Type} [Zero T]

/-! ## Position arithmetic -/

theorem div_of_lt {h c q : Nat} (hq : q < h) : (c * h + q) / h = c := by
  rw [Nat.mul_comm, Nat.mul_add_div (by omega), Nat.div_eq_of_lt hq, Nat.add_zero]

theorem mod_of_lt {h c q : Nat} (hq : q < h) : (c * h + q) % h = q := by
  rw [Nat.mul_comm, Nat.mul_add_mod, Nat.mod_eq_of_lt hq]

theorem pos_lt {w h c q : Nat} (hc : c < w) (hq : q < h) : c * h + q < w * h := by
  calc c * h + q < c * h + h := by omega
    _ = (c + 1) * h := by ring
    _ ≤ w * h := Nat.mul_le_mul_right _ hc

theorem div_lt_of_lt_mul' {w h p : Nat} (hp : p < w * h) : p / h < w :=
  Nat.div_lt_of_lt_mul (by rwa [Nat.mul_comm])

theorem mod_lt_of_lt_mul {w h p : Nat} (hp : p < w * h) : p % h < h := by
  apply Nat.mod_lt
  rcases Nat.eq_zero_or_pos h with rfl | hh
  · simp at hp
  · exact hh

theorem div_mod_eq (h p : Nat) : p / h * h + p % h = p := by
  rw [Nat.mul_comm]; exact Nat.div_add_mod p h

/-! ## Loops that store to pairwise different indices -/

theorem forList_scatter {κ : Type} {keys : List κ} {body : κ → List T → Res (List T)} {n : Nat}
    (dst : κ → Nat) (v : κ → T)
    (hdst : ∀ k ∈ keys, dst k < n)
    (hbody : ∀ k ∈ keys, ∀ l, l.length = n → body k l = .ok (l.set (dst k) (v k)))
    (hne : keys.Pairwise fun a b => dst a ≠ dst b) (l : List T) (hl : l.length = n) :
    ∃ l', forList keys l body = .ok l' ∧ l'.length = n ∧
      (∀ k ∈ keys, nth l' (dst k) = v k) ∧ (∀ p, (∀ k ∈ keys, p ≠ dst k) → nth l' p = nth l p) := by
  obtain ⟨l', e, h1, h2, h3⟩ := forList_disjoint (keys := keys) (body := body) (fun l => l.length = n)
    (fun l p => nth l p) (fun k p => p = dst k) (fun k _ _ => v k)
    (fun k hk s hs => ⟨_, hbody k hk s hs, by simpa using hs,
      fun p hp => by rw [nth_set (by rw [hs]; exact hdst k hk), if_pos hp],
      fun p hp => by rw [nth_set (by rw [hs]; exact hdst k hk), if_neg hp]⟩)
    (fun _ _ _ _ _ _ _ => rfl)
    (hne.imp fun {a b} hab p hp hq => hab (by rw [← hp, ← hq])) l hl
  exact ⟨l', e, h1, fun k hk => h3 k hk _ rfl, fun p hp => h2 p hp⟩

theorem forRange_scatter {lo hi : Nat} {body : Nat → List T → Res (List T)} {n : Nat}
    (dst : Nat → Nat) (v : Nat → T)
    (hdst : ∀ k, lo ≤ k → k < hi → dst k < n)
    (hbody : ∀ k l, lo ≤ k → k < hi → l.length = n → body k l = .ok (l.set (dst k) (v k)))
    (hne : ∀ a b, lo ≤ a → a < b → b < hi → dst a ≠ dst b) (l : List T) (hl : l.length = n) :
    ∃ l', forRange lo hi l body = .ok l' ∧ l'.length = n ∧
      (∀ k, lo ≤ k → k < hi → nth l' (dst k) = v k) ∧
      (∀ p, (∀ k, lo ≤ k → k < hi → p ≠ dst k) → nth l' p = nth l p) := by
  have hm : ∀ k, k ∈ List.range' lo (hi - lo) ↔ lo ≤ k ∧ k < hi := by
    intro k; rw [List.mem_range'_1]; omega
  obtain ⟨l', e, h1, h2, h3⟩ := forList_scatter (keys := List.range' lo (hi - lo)) (body := body) dst v
    (fun k hk => hdst k ((hm k).1 hk).1 ((hm k).1 hk).2)
    (fun k hk l hl => hbody k l ((hm k).1 hk).1 ((hm k).1 hk).2 hl)
    (by
      refine (List.pairwise_lt_range' (s := lo) (n := hi - lo) (step := 1)).imp_of_mem ?_
      intro a b ha hb hab
      exact hne a b ((hm a).1 ha).1 hab ((hm b).1 hb).2) l hl
  exact ⟨l', e, h1, fun k h4 h5 => h2 k ((hm k).2 ⟨h4, h5⟩),
    fun p hp => h3 p fun k hk => hp k ((hm k).1 hk).1 ((hm k).1 hk).2⟩

/-! ## `transpose` -/

theorem mapM_ok {α β : Type} {f : α → Res β} {g : α → β} {l : List α} (h : ∀ a ∈ l, f a = .ok (g a)) :
    l.mapM f = .ok (l.map g) := by
  induction l with
  | nil => rfl
  | cons a l ih =>
    rw [List.mapM_cons, h a (by simp), ok_bind, ih fun b hb => h b (by simp [hb]), ok_bind]
    rfl

theorem transpose_ok {input output : List T} {w h : Nat} (hi : input.length = w * h)
    (ho : output.length = w * h) :
    transpose input output w h = .ok (tab (w * h) fun p => nth input (p % h * w + p / h)) := by
  unfold transpose
  simp only [hi, ho, beq_self_eq_true, assert_true, ok_bind]
  rw [tab]
  apply mapM_ok
  intro p hp
  rw [List.mem_range] at hp
  rw [getI_nth]
  rw [hi, Nat.mul_comm w h]
  exact pos_lt (mod_lt_of_lt_mul hp) (div_lt_of_lt_mul' hp)

/-! ## `transpose_half_rev_out` -/

/-- The row of the transposed matrix in which element `q` of output row `c` originates. -/
def revRow (w h c q : Nat) : Nat := if c < w / 2 + 1 then q else h - 1 - q

theorem transposeHalfRevOut_ok {input output : List T} {w h : Nat} (hw : 2 ≤ w) (hi : input.length = w * h)
    (ho : output.length = w * h) :
    transposeHalfRevOut input output w h
      = .ok (tab (w * h) fun p => nth input (revRow w h (p / h) (p % h) * w + p / h)) := by
  unfold transposeHalfRevOut
  simp only [hi, ho, beq_self_eq_true, assert_true, ok_bind]
  have hin : ∀ r c, r < h → c < w → r * w + c < input.length := by
    intro r c hr hc
    rw [hi, Nat.mul_comm w h]; exact pos_lt hr hc
  obtain ⟨l', e, h1, h2, h3⟩ := forList_disjoint (keys := List.range' 0 (h - 0))
    (body := fun outRow output => do
      let outRowRev := h - outRow - 1
      let output ← forRange 0 (w / 2 + 1) output fun outColumn output => do
        let v ← getU input (outRow * w + outColumn)
        setU output (outColumn * h + outRow) v
      forRange (w / 2 + 1) w output fun outColumn output => do
        let v ← getU input (outRow * w + outColumn)
        setU output (outColumn * h + outRowRev) v)
    (fun l : List T => l.length = w * h) (fun l p => nth l p)
    (fun r p => ∃ c < w, p = c * h + revRow w h c r) (fun r _ p => nth input (r * w + p / h))
    (by
      intro r hr s hs
      rw [List.mem_range'_1] at hr
      have hrh : r < h := by omega
      obtain ⟨l1, e1, k1, v1, n1⟩ := forRange_scatter (lo := 0) (hi := w / 2 + 1) (n := w * h)
        (body := fun outColumn output => do
          let v ← getU input (r * w + outColumn)
          setU output (outColumn * h + r) v)
        (fun c => c * h + r) (fun c => nth input (r * w + c))
        (fun c _ hc => pos_lt (by omega) hrh)
        (fun c l _ hc hl => by
          rw [getU_nth (hin r c hrh (by omega)), ok_bind, setU_ok (by rw [hl]; exact pos_lt (by omega) hrh)])
        (fun a b _ hab _ heq => by
          have := congrArg (· / h) heq
          simp only [div_of_lt hrh] at this; omega) s hs
      obtain ⟨l2, e2, k2, v2, n2⟩ := forRange_scatter (lo := w / 2 + 1) (hi := w) (n := w * h)
        (body := fun outColumn output => do
          let v ← getU input (r * w + outColumn)
          setU output (outColumn * h + (h - r - 1)) v)
        (fun c => c * h + (h - r - 1)) (fun c => nth input (r * w + c))
        (fun c _ hc => pos_lt (by omega) (by omega))
        (fun c l _ hc hl => by
          rw [getU_nth (hin r c hrh (by omega)), ok_bind,
            setU_ok (by rw [hl]; exact pos_lt (by omega) (by omega))])
        (fun a b _ hab _ heq => by
          have := congrArg (· / h) heq
          simp only [div_of_lt (show h - r - 1 < h by omega)] at this; omega) l1 k1
      refine ⟨l2, ?_, k2, ?_, ?_⟩
      · simp only [e1, ok_bind, e2]
      · rintro p ⟨c, hc, rfl⟩
        have hrev : revRow w h c r < h := by unfold revRow; split <;> omega
        rw [div_of_lt hrev]
        unfold revRow
        split
        · next hlt =>
          rw [n2, v1 c (by omega) hlt]
          intro c' hc1 hc2 heq
          have := congrArg (· / h) heq
          simp only [div_of_lt hrh, div_of_lt (show h - r - 1 < h by omega)] at this
          omega
        · next hge =>
          rw [show h - 1 - r = h - r - 1 by omega, v2 c (by omega) hc]
      · intro p hp
        rw [n2 p, n1 p]
        · intro c _ hc heq
          exact hp ⟨c, by omega, by rw [heq, revRow, if_pos hc]⟩
        · intro c hc1 hc2 heq
          exact hp ⟨c, hc2, by rw [heq, revRow, if_neg (by omega)]; omega⟩)
    (fun _ _ _ _ _ _ _ => rfl)
    (by
      refine (List.pairwise_lt_range' (s := 0) (n := h - 0) (step := 1)).imp_of_mem ?_
      rintro a b ha hb hab p ⟨c, hc, rfl⟩ ⟨c', hc', heq⟩
      rw [List.mem_range'_1] at ha hb
      have hra : revRow w h c a < h := by unfold revRow; split <;> omega
      have hrb : revRow w h c' b < h := by unfold revRow; split <;> omega
      have h1 := congrArg (· / h) heq
      have h2 := congrArg (· % h) heq
      simp only [div_of_lt hra, div_of_lt hrb] at h1
      simp only [mod_of_lt hra, mod_of_lt hrb] at h2
      subst h1
      unfold revRow at h2
      split at h2 <;> omega) output ho
  rw [forRange_eq, e]
  congr 1
  refine eq_tab h1 fun p hp => ?_
  have hq := mod_lt_of_lt_mul hp
  have hc := div_lt_of_lt_mul' hp
  have hrev : revRow w h (p / h) (p % h) < h := by unfold revRow; split <;> omega
  refine h3 (revRow w h (p / h) (p % h)) (by rw [List.mem_range'_1]; omega) p ⟨p / h, hc, ?_⟩
  conv_lhs => rw [← div_mod_eq h p]
  unfold revRow
  split <;> omega

/-! ## Reversal of all chunks behind a position -/

theorem flatten_chunks_reverse {n : Nat} (hn : 0 < n) (l : List T) (hd : n ∣ l.length) :
    ((chunksExactAux n l).map List.reverse).flatten = mapChunks n List.reverse l ∧
      (chunksExactAux n l).length * n = l.length := by
  induction l using chunk_induction hn with
  | hlt l hl =>
    have : l = [] := List.length_eq_zero_iff.1 (Nat.eq_zero_of_dvd_of_lt hd hl)
    subst this
    rw [chunksExactAux, if_neg (by omega), if_neg (by simp; omega), mapChunks_nil]
    simp
  | hge l hl ih =>
    obtain ⟨i1, i2⟩ := ih ((dvd_drop_iff hl).2 hd)
    rw [chunksExactAux, if_neg (by omega), if_pos hl, mapChunks_of_ge hn hl]
    refine ⟨by rw [List.map_cons, List.flatten_cons, i1], ?_⟩
    rw [List.length_cons, Nat.add_mul, i2]; simp; omega

theorem reverseChunksFrom_ok {s n : Nat} {buf : List T} (hn : 0 < n) (hs : s ≤ buf.length)
    (hd : n ∣ buf.length - s) :
    reverseChunksFrom s n buf = .ok (buf.take s ++ mapChunks n List.reverse (buf.drop s)) := by
  unfold reverseChunksFrom
  have hd' : n ∣ (buf.drop s).length := by rw [List.length_drop]; exact hd
  obtain ⟨h1, h2⟩ := flatten_chunks_reverse hn (buf.drop s) hd'
  rw [splitAt_ok hs, ok_bind]
  simp only [chunksExact, if_neg (show ¬ n = 0 by omega), ok_bind, h1, h2, List.drop_length,
    List.append_nil]

/-- Closed form of the reversal of the rows `a ≤ row` of a matrix with rows of length `n`. -/
theorem reverseChunksFrom_tab {a m n : Nat} {buf : List T} (hn : 0 < n) (ha : a ≤ m)
    (hl : buf.length = m * n) :
    reverseChunksFrom (a * n) n buf
      = .ok (tab (m * n) fun p => nth buf (p / n * n + (if p / n < a then p % n else n - 1 - p % n))) := by
  have h1 : a * n ≤ buf.length := by rw [hl]; exact Nat.mul_le_mul_right _ ha
  rw [reverseChunksFrom_ok hn h1 (by rw [hl, ← Nat.sub_mul]; exact dvd_mul_left _ _)]
  congr 1
  have hlen : (mapChunks n List.reverse (buf.drop (a * n))).length = m * n - a * n := by
    rw [length_mapChunks hn (fun x hx => by simpa using hx), List.length_drop, hl]
  refine eq_tab (by rw [List.length_append, hlen, List.length_take]; omega) ?_
  intro p hp
  have hq := mod_lt_of_lt_mul hp
  have hc := div_lt_of_lt_mul' hp
  have hpe := div_mod_eq n p
  split
  · next hlt =>
    have : p < a * n := by
      rw [← hpe]; exact pos_lt hlt hq
    rw [nth_append_left (by rw [List.length_take]; omega), nth_take this, hpe]
  · next hge =>
    obtain ⟨d, hd⟩ : ∃ d, p / n = a + d := ⟨p / n - a, by omega⟩
    have hge' : a * n ≤ p := by
      calc a * n ≤ p / n * n := Nat.mul_le_mul_right _ (by omega)
        _ ≤ p := by omega
    have htl : (buf.take (a * n)).length = a * n := by rw [List.length_take]; omega
    rw [nth_append_right (by rw [htl]; exact hge'), htl]
    have hpd : p - a * n = d * n + p % n := by
      have : p = (a + d) * n + p % n := by rw [← hd]; exact hpe.symm
      rw [Nat.add_mul] at this; omega
    have hdm : (d + 1) * n ≤ (buf.drop (a * n)).length := by
      rw [List.length_drop, hl, ← Nat.sub_mul]
      exact Nat.mul_le_mul_right _ (by omega)
    rw [hpd, nth_mapChunks (fun x hx => by simpa using hx) hq hdm, nth_reverse, List.length_take,
      Nat.min_eq_left (by
        rw [List.length_drop]
        have : (d + 1) * n = d * n + n := by ring
        omega), nth_take (by omega), nth_drop, nth_drop, hd]
    · congr 1; ring
    · rw [List.length_take, List.length_drop]
      have : (d + 1) * n = d * n + n := by ring
      omega

end RustDHT
