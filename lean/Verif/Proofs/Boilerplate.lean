import Verif.Proofs.Basic
import Verif.Spec.Contract

/-! # The boilerplate macros meet the contract when the `perform` functions do -/

namespace RustDHT

variable {σ T : Type}

/-! ## `mapChunks` -/

theorem mapChunks_of_lt {n : Nat} {f : List T → List T} {l : List T} (h : l.length < n) : mapChunks n f l = l := by
  rw [mapChunks]; simp [h]

theorem mapChunks_zero {f : List T → List T} {l : List T} : mapChunks 0 f l = l := by
  rw [mapChunks]; simp

theorem mapChunks_nil {n : Nat} {f : List T → List T} : mapChunks n f [] = [] := by
  rw [mapChunks]; simp

theorem mapChunks_of_ge {n : Nat} {f : List T → List T} {l : List T} (hn : 0 < n) (h : n ≤ l.length) :
    mapChunks n f l = f (l.take n) ++ mapChunks n f (l.drop n) := by
  rw [mapChunks]; simp; omega

theorem mapChunks_single {n : Nat} {f : List T → List T} {l : List T} (hn : 0 < n) (h : l.length = n) :
    mapChunks n f l = f l := by
  rw [mapChunks_of_ge hn (by omega), List.take_of_length_le (by omega), List.drop_of_length_le (by omega),
    mapChunks_nil, List.append_nil]

/-- Induction over the chunks of a list. -/
theorem chunk_induction {n : Nat} (hn : 0 < n) {P : List T → Prop} (hlt : ∀ l, l.length < n → P l)
    (hge : ∀ l, n ≤ l.length → P (l.drop n) → P l) (l : List T) : P l := by
  induction hm : l.length using Nat.strongRecOn generalizing l with
  | ind m ih =>
    by_cases h : l.length < n
    · exact hlt l h
    · refine hge l (by omega) (ih (l.drop n).length ?_ _ rfl)
      simp; omega

theorem length_mapChunks {n : Nat} {f : List T → List T} (hn : 0 < n)
    (hf : ∀ x, x.length = n → (f x).length = n) (l : List T) : (mapChunks n f l).length = l.length := by
  induction l using chunk_induction hn with
  | hlt l h => rw [mapChunks_of_lt h]
  | hge l h ih =>
    rw [mapChunks_of_ge hn h, List.length_append, ih, hf _ (by simp; omega)]
    simp; omega

theorem mapChunks_congr {n : Nat} {f g : List T → List T} (h : ∀ x, x.length = n → f x = g x) (l : List T) :
    mapChunks n f l = mapChunks n g l := by
  rcases Nat.eq_zero_or_pos n with rfl | hn
  · rw [mapChunks_zero, mapChunks_zero]
  induction l using chunk_induction hn with
  | hlt l hl => rw [mapChunks_of_lt hl, mapChunks_of_lt hl]
  | hge l hl ih =>
    rw [mapChunks_of_ge hn hl, mapChunks_of_ge hn hl, ih, h _ (by simp; omega)]

theorem mapChunks_append {n : Nat} {f : List T → List T} {l l' : List T} (h : n ∣ l.length) :
    mapChunks n f (l ++ l') = mapChunks n f l ++ mapChunks n f l' := by
  rcases Nat.eq_zero_or_pos n with rfl | hn
  · simp [mapChunks_zero]
  induction l using chunk_induction hn with
  | hlt l hl =>
    have : l = [] := by
      rw [← List.length_eq_zero_iff]; exact Nat.eq_zero_of_dvd_of_lt h hl
    subst this; simp [mapChunks_nil]
  | hge l hl ih =>
    rw [mapChunks_of_ge hn hl, mapChunks_of_ge hn (by simp; omega), List.take_append_of_le_length hl,
      List.drop_append_of_le_length hl, ih, List.append_assoc]
    simpa using Nat.dvd_sub h (dvd_refl n)

theorem mapChunks_mapChunks {n : Nat} {f g : List T → List T}
    (hf : ∀ x, x.length = n → (f x).length = n) (l : List T) :
    mapChunks n g (mapChunks n f l) = mapChunks n (fun x => g (f x)) l := by
  rcases Nat.eq_zero_or_pos n with rfl | hn
  · simp [mapChunks_zero]
  induction l using chunk_induction hn with
  | hlt l hl => rw [mapChunks_of_lt hl, mapChunks_of_lt hl, mapChunks_of_lt hl]
  | hge l hl ih =>
    have h1 : (f (l.take n)).length = n := hf _ (by simp; omega)
    rw [mapChunks_of_ge hn hl, mapChunks_append (by rw [h1]), mapChunks_single hn h1, ih,
      mapChunks_of_ge hn hl]

theorem dvd_drop_iff {n : Nat} {l : List T} (h : n ≤ l.length) : n ∣ (l.drop n).length ↔ n ∣ l.length := by
  rw [List.length_drop]
  constructor
  · intro hd
    have := Nat.dvd_add hd (dvd_refl n)
    rwa [Nat.sub_add_cancel h] at this
  · intro hd; exact Nat.dvd_sub hd (dvd_refl n)

/-- Element `i` of chunk `c` of the mapped list. -/
theorem nth_mapChunks [Zero T] {n : Nat} {f : List T → List T} (hf : ∀ x, x.length = n → (f x).length = n)
    {l : List T} {c i : Nat} (hi : i < n) (hc : (c + 1) * n ≤ l.length) :
    nth (mapChunks n f l) (c * n + i) = nth (f ((l.drop (c * n)).take n)) i := by
  have hn : 0 < n := by omega
  induction c generalizing l with
  | zero =>
    rw [mapChunks_of_ge hn (by omega), nth_append_left (by rw [hf _ (by simp; omega)]; omega)]
    simp
  | succ c ih =>
    have h1 : n ≤ l.length := by
      have : n ≤ (c + 1 + 1) * n := Nat.le_mul_of_pos_left n (by omega)
      omega
    have h2 : (f (l.take n)).length = n := hf _ (by simp; omega)
    rw [mapChunks_of_ge hn h1, nth_append_right (by rw [h2]; nlinarith), h2]
    have : (c + 1) * n + i - n = c * n + i := by
      rw [Nat.add_mul]; omega
    rw [this, ih (by rw [List.length_drop]; rw [Nat.add_mul] at hc; omega), List.drop_drop]
    congr 4; ring

/-! ## Chunk iteration -/

theorem iterChunks_ok {n : Nat} (hn : 0 < n) {f : List T → σ → Res (List T × σ)} {g : List T → List T}
    (I : σ → Prop)
    (hf : ∀ chunk s, chunk.length = n → I s → ∃ s', f chunk s = .ok (g chunk, s') ∧ I s')
    (buffer : List T) (s : σ) (hs : I s) :
    ∃ s', iterChunks n f buffer s = .ok (decide (n ∣ buffer.length), mapChunks n g buffer, s') ∧ I s' := by
  induction buffer using chunk_induction hn generalizing s with
  | hlt l hl =>
    refine ⟨s, ?_, hs⟩
    rw [iterChunks, if_neg (by omega), mapChunks_of_lt hl]
    have : (l.length == 0) = decide (n ∣ l.length) := by
      rw [Bool.eq_iff_iff]
      simp only [beq_iff_eq, decide_eq_true_eq]
      exact ⟨fun h => by rw [h]; exact dvd_zero _, fun h => Nat.eq_zero_of_dvd_of_lt h hl⟩
    rw [this]
  | hge l hl ih =>
    obtain ⟨s1, e1, h1⟩ := hf (l.take n) s (by simp; omega) hs
    obtain ⟨s2, e2, h2⟩ := ih s1 h1
    refine ⟨s2, ?_, h2⟩
    rw [iterChunks, if_pos hl, if_neg (by omega), e1, ok_bind]
    simp only [e2, ok_bind, mapChunks_of_ge hn hl, dvd_drop_iff hl]

theorem iterChunksZippedLoop_ok {n : Nat} (hn : 0 < n) {f : List T → List T → σ → Res (List T × List T × σ)}
    {g : List T → List T} (I : σ → Prop) (keep : Prop)
    (hf : ∀ c1 c2 s, c1.length = n → c2.length = n → I s →
      ∃ c1' s', f c1 c2 s = .ok (c1', g c1, s') ∧ c1'.length = n ∧ (keep → c1' = c1) ∧ I s')
    (b1 b2 : List T) (s : σ) (hs : I s) (hlen : b2.length = b1.length) :
    ∃ left b1' b2' s', iterChunksZippedLoop n f b1 b2 s = .ok (left, b1', b2', s') ∧
      (left = 0 ↔ n ∣ b1.length) ∧ b1'.length = b1.length ∧ (keep → b1' = b1) ∧
      (n ∣ b1.length → b2' = mapChunks n g b1) ∧ I s' := by
  induction b1 using chunk_induction hn generalizing b2 s with
  | hlt l hl =>
    refine ⟨l.length, l, b2, s, ?_, ?_, rfl, fun _ => rfl, ?_, hs⟩
    · rw [iterChunksZippedLoop, if_neg (by omega)]
    · exact ⟨fun h => by rw [h]; exact dvd_zero _, fun h => Nat.eq_zero_of_dvd_of_lt h hl⟩
    · intro h
      have h0 := Nat.eq_zero_of_dvd_of_lt h hl
      have h1 : l = [] := List.length_eq_zero_iff.1 h0
      have h2 : b2 = [] := List.length_eq_zero_iff.1 (by omega)
      rw [h1, h2, mapChunks_nil]
  | hge l hl ih =>
    obtain ⟨c1', s1, e1, hc1, hk1, h1⟩ := hf (l.take n) (b2.take n) s (by simp; omega) (by simp; omega) hs
    obtain ⟨left, t1, t2, s2, e2, hz, hl1, hk2, hm, h2⟩ := ih (b2.drop n) s1 h1 (by simp; omega)
    refine ⟨left, c1' ++ t1, g (l.take n) ++ t2, s2, ?_, ?_, ?_, ?_, ?_, h2⟩
    · rw [iterChunksZippedLoop, if_pos (by omega), if_neg (by omega), e1, ok_bind]
      simp only [e2, ok_bind]
    · rw [hz, dvd_drop_iff hl]
    · simp [hc1, hl1]; omega
    · intro hk; rw [hk1 hk, hk2 hk, List.take_append_drop]
    · intro hd
      rw [mapChunks_of_ge hn hl, hm ((dvd_drop_iff hl).2 hd)]

theorem iterChunksZipped_ok {n : Nat} (hn : 0 < n) {f : List T → List T → σ → Res (List T × List T × σ)}
    {g : List T → List T} (I : σ → Prop) (keep : Prop)
    (hf : ∀ c1 c2 s, c1.length = n → c2.length = n → I s →
      ∃ c1' s', f c1 c2 s = .ok (c1', g c1, s') ∧ c1'.length = n ∧ (keep → c1' = c1) ∧ I s')
    (b1 b2 : List T) (s : σ) (hs : I s) (hlen : b2.length = b1.length) :
    ∃ b1' b2' s', iterChunksZipped n f b1 b2 s = .ok (decide (n ∣ b1.length), b1', b2', s') ∧
      b1'.length = b1.length ∧ (keep → b1' = b1) ∧ (n ∣ b1.length → b2' = mapChunks n g b1) ∧ I s' := by
  obtain ⟨left, b1', b2', s', e, hz, h1, hk, h2, h3⟩ := iterChunksZippedLoop_ok hn I keep hf b1 b2 s hs hlen
  refine ⟨b1', b2', s', ?_, h1, hk, h2, h3⟩
  rw [iterChunksZipped, if_neg (by omega), if_neg (by omega), e, ok_bind]
  have : (left == 0) = decide (n ∣ b1.length) := by
    rw [Bool.eq_iff_iff]; simp only [beq_iff_eq, decide_eq_true_eq]; exact hz
  simp only [this]

/-! ## The error functions -/

theorem dhtErrorInplace_violation {len inpScr b s : Nat} (hlen : 0 < len) {k : PanicKind}
    (h : inplaceViolation len inpScr b s = some k) : dhtErrorInplace len b inpScr s = panic k := by
  unfold inplaceViolation at h
  unfold dhtErrorInplace
  by_cases h1 : b < len
  · rw [if_pos h1] at h; cases h
    simp [show ¬ len ≤ b by omega]
  · rw [if_neg h1] at h
    simp only [ge_iff_le, show len ≤ b by omega, decide_true, assert_true, ok_bind]
    have : (len != 0) = true := by simp; omega
    rw [this, assert_true, ok_bind]
    by_cases h2 : len ∣ b
    · rw [if_neg (by simpa using h2)] at h
      have h2' : (b % len == 0) = true := by simpa using Nat.mod_eq_zero_of_dvd h2
      rw [h2', assert_true, ok_bind]
      by_cases h3 : s < inpScr
      · rw [if_pos h3] at h; cases h
        simp [show ¬ inpScr ≤ s by omega]
      · rw [if_neg h3] at h; cases h
    · rw [if_pos h2] at h; cases h
      have h2' : (b % len == 0) = false := by
        simpa using fun h => h2 (Nat.dvd_of_mod_eq_zero h)
      rw [h2', assert_false, panic_bind]

theorem dhtErrorOutofplace_violation {len oopScr i o s : Nat} (hlen : 0 < len) {k : PanicKind}
    (h : oopViolation len oopScr i o s = some k) : dhtErrorOutofplace len i o oopScr s = panic k := by
  unfold oopViolation at h
  have key : dhtErrorOutofplace len i o oopScr s
      = assert (i == o) .lengthMismatch >>= fun _ => dhtErrorInplace len i oopScr s := rfl
  rw [key]
  by_cases h0 : i = o
  · rw [if_neg (by simpa using h0)] at h
    simp only [h0, beq_self_eq_true, assert_true, ok_bind]
    exact dhtErrorInplace_violation hlen (by rw [inplaceViolation]; rw [h0] at h; exact h)
  · rw [if_pos h0] at h; cases h
    have : (i == o) = false := by simpa using h0
    rw [this, assert_false, panic_bind]

theorem inplaceViolation_none {len inpScr b s : Nat} (h1 : len ≤ b) (h2 : len ∣ b) (h3 : inpScr ≤ s) :
    inplaceViolation len inpScr b s = none := by
  rw [inplaceViolation, if_neg (by omega), if_neg (by simpa using h2), if_neg (by omega)]

theorem inplaceViolation_eq_none_iff {len inpScr b s : Nat} :
    inplaceViolation len inpScr b s = none ↔ len ≤ b ∧ len ∣ b ∧ inpScr ≤ s := by
  unfold inplaceViolation
  split_ifs <;> simp <;> omega

theorem oopViolation_eq_none_iff {len oopScr i o s : Nat} :
    oopViolation len oopScr i o s = none ↔ i = o ∧ len ≤ i ∧ len ∣ i ∧ oopScr ≤ s := by
  unfold oopViolation
  split_ifs <;> simp <;> omega

/-! ## `boilerplate_dht!` -/

/-- Hypotheses about the `perform` functions of an algorithm: they turn a chunk into `g` of the chunk, for every
scratch of exactly the reported length. -/
structure Performs (len inpScr oopScr : Nat) (g : List T → List T)
    (pin : List T → List T → Res (List T × List T))
    (poop : List T → List T → List T → Res (List T × List T × List T)) : Prop where
  length : ∀ x, x.length = len → (g x).length = len
  inplace : ∀ chunk scr, chunk.length = len → scr.length = inpScr →
    ∃ scr', pin chunk scr = .ok (g chunk, scr') ∧ scr'.length = inpScr
  oop : ∀ inp out scr, inp.length = len → out.length = len → scr.length = oopScr →
    ∃ inp' scr', poop inp out scr = .ok (inp', g inp, scr') ∧ inp'.length = len ∧ scr'.length = oopScr

variable {len inpScr oopScr : Nat} {g : List T → List T}
  {pin : List T → List T → Res (List T × List T)}
  {poop : List T → List T → List T → Res (List T × List T × List T)}

theorem boilerplateDht_implements (h : 0 < len → Performs len inpScr oopScr g pin poop)
    (h0 : len = 0 → (g []).length = 0) :
    Implements (boilerplateDht len inpScr oopScr pin poop) g := by
  rcases Nat.eq_zero_or_pos len with rfl | hlen
  · refine ⟨?_, ?_, ?_⟩
    · intro x hx
      have hx' : x = [] := List.length_eq_zero_iff.1 hx
      subst hx'; exact h0 rfl
    · intro b s _ hd _
      have hb : b = [] := by
        have : b.length = 0 := by simpa [boilerplateDht] using hd
        exact List.length_eq_zero_iff.1 this
      subst hb
      exact ⟨s, by simp [boilerplateDht, mapChunks_nil], rfl, rfl⟩
    · intro i o s hio _ hd _
      have hi : i.length = 0 := by simpa [boilerplateDht] using hd
      have hi' : i = [] := List.length_eq_zero_iff.1 hi
      have ho' : o = [] := List.length_eq_zero_iff.1 (by omega)
      subst hi' ho'
      exact ⟨[], s, by simp [boilerplateDht, mapChunks_nil], rfl, rfl, rfl⟩
  · have hp := h hlen
    refine ⟨hp.length, ?_, ?_⟩
    · intro b s h1 h2 h3
      simp only [boilerplateDht] at h1 h2 h3 ⊢
      obtain ⟨s', e, hs'⟩ := iterChunks_ok hlen (fun s => s.length = inpScr)
        (fun c s hc hs => hp.inplace c s hc hs) b (s.take inpScr) (by simp; omega)
      refine ⟨s' ++ s.drop inpScr, ?_, by simp [hs']; omega, by simp [← hs']⟩
      rw [if_neg (by omega), if_neg (by omega), e, ok_bind]
      simp [h2]
    · intro i o s hio h1 h2 h3
      simp only [boilerplateDht] at h1 h2 h3 ⊢
      obtain ⟨i', o', s', e, hi', _, ho', hs'⟩ := iterChunksZipped_ok hlen (fun s => s.length = oopScr) False
        (fun c1 c2 s hc1 hc2 hs => by
          obtain ⟨c', s', e, hc', hs'⟩ := hp.oop c1 c2 s hc1 hc2 hs
          exact ⟨c', s', e, hc', False.elim, hs'⟩) i o (s.take oopScr) (by simp; omega) hio
      refine ⟨i', s' ++ s.drop oopScr, ?_, hi', by simp [hs']; omega, by simp [← hs']⟩
      rw [if_neg (by omega), if_neg (by omega), e, ok_bind]
      simp [h2, ho' h2]

theorem boilerplateDht_rejects (hlen : 0 < len) (hp : Performs len inpScr oopScr g pin poop) :
    Rejects (boilerplateDht len inpScr oopScr pin poop) := by
  refine ⟨?_, ?_⟩
  · intro b s k hk
    simp only [boilerplateDht] at hk ⊢
    rw [if_neg (by omega)]
    by_cases hc : s.length < inpScr ∨ b.length < len
    · rw [if_pos hc, dhtErrorInplace_violation hlen hk]; rfl
    · rw [if_neg hc]
      obtain ⟨s', e, hs'⟩ := iterChunks_ok hlen (fun s => s.length = inpScr)
        (fun c s hc hs => hp.inplace c s hc hs) b (s.take inpScr) (by simp; omega)
      have hnd : ¬ len ∣ b.length := by
        intro hd
        rw [inplaceViolation_none (by omega) hd (by omega)] at hk; cases hk
      rw [e, ok_bind]
      have hk' : inplaceViolation len inpScr b.length inpScr = some k := by
        unfold inplaceViolation at hk ⊢
        rw [if_neg (by omega), if_pos hnd] at hk ⊢
        exact hk
      simp [hnd, dhtErrorInplace_violation hlen hk', RustDHT.panic]
  · intro i o s k hk
    simp only [boilerplateDht] at hk ⊢
    rw [if_neg (by omega)]
    by_cases hc : s.length < oopScr ∨ i.length < len ∨ o.length ≠ i.length
    · rw [if_pos hc, dhtErrorOutofplace_violation hlen hk]; rfl
    · rw [if_neg hc]
      obtain ⟨i', o', s', e, hi', _, ho', hs'⟩ := iterChunksZipped_ok hlen (fun s => s.length = oopScr) False
        (fun c1 c2 s hc1 hc2 hs => by
          obtain ⟨c', s', e, hc', hs'⟩ := hp.oop c1 c2 s hc1 hc2 hs
          exact ⟨c', s', e, hc', False.elim, hs'⟩) i o (s.take oopScr) (by simp; omega) (by omega)
      have hnd : ¬ len ∣ i.length := by
        intro hd
        have := (oopViolation_eq_none_iff (len := len) (oopScr := oopScr) (i := i.length) (o := o.length)
          (s := s.length)).2 ⟨by omega, by omega, hd, by omega⟩
        rw [this] at hk; cases hk
      rw [e, ok_bind]
      have hk' : oopViolation len oopScr i.length o.length oopScr = some k := by
        unfold oopViolation at hk ⊢
        rw [if_neg (by omega), if_neg (by omega), if_pos hnd] at hk ⊢
        exact hk
      simp [hnd, dhtErrorOutofplace_violation hlen hk', RustDHT.panic]

/-! ## `boilerplate_dht_oop!` -/

section Oop
variable {perform : List T → List T → Res (List T)}

/-- Hypothesis about `perform_dht_out_of_place` of a type that uses `boilerplate_dht_oop!`. -/
structure PerformsOop (len : Nat) (g : List T → List T) (perform : List T → List T → Res (List T)) : Prop where
  length : ∀ x, x.length = len → (g x).length = len
  ok : ∀ inp out, inp.length = len → out.length = len → perform inp out = .ok (g inp)

private theorem oop_chunk_inplace (hp : PerformsOop len g perform) (c s : List T) (hc : c.length = len)
    (hs : s.length = len) :
    ∃ s', (do let scratch ← perform c s
              if c.length = scratch.length then Except.ok (scratch, scratch) else panic .copyLength : Res _)
      = .ok (g c, s') ∧ s'.length = len := by
  refine ⟨g c, ?_, hp.length c hc⟩
  rw [hp.ok c s hc hs, ok_bind, if_pos (by rw [hp.length c hc, hc])]

private theorem oop_chunk_oop (hp : PerformsOop len g perform) (c o : List T) (u : Unit) (hc : c.length = len)
    (ho : o.length = len) :
    ∃ c' s', (do let outChunk ← perform c o
                 Except.ok (c, outChunk, ()) : Res (List T × List T × Unit)) = .ok (c', g c, s') ∧
      c'.length = len ∧ (True → c' = c) ∧ s' = u :=
  ⟨c, (), by rw [hp.ok c o hc ho, ok_bind], hc, fun _ => rfl, rfl⟩

/-- The out-of-place method leaves its input alone. -/
theorem boilerplateDhtOop_oop (hlen : 0 < len) (hp : PerformsOop len g perform) (i o s : List T)
    (hio : o.length = i.length) (h1 : len ≤ i.length) (h2 : len ∣ i.length) :
    (boilerplateDhtOop len perform).processOop i o s = .ok (i, mapChunks len g i, s) := by
  simp only [boilerplateDhtOop]
  obtain ⟨i', o', s', e, _, hk, ho', _⟩ := iterChunksZipped_ok hlen (fun s => s = ()) True
    (fun c1 c2 u hc1 hc2 _ => oop_chunk_oop hp c1 c2 () hc1 hc2) i o () rfl hio
  rw [if_neg (by omega), if_neg (by omega), e, ok_bind]
  simp [h2, ho' h2, hk trivial]

theorem boilerplateDhtOop_implements (h : 0 < len → PerformsOop len g perform)
    (h0 : len = 0 → (g []).length = 0) : Implements (boilerplateDhtOop len perform) g := by
  rcases Nat.eq_zero_or_pos len with rfl | hlen
  · refine ⟨?_, ?_, ?_⟩
    · intro x hx
      have hx' : x = [] := List.length_eq_zero_iff.1 hx
      subst hx'; exact h0 rfl
    · intro b s _ hd _
      have hb : b = [] := by
        have : b.length = 0 := by simpa [boilerplateDhtOop] using hd
        exact List.length_eq_zero_iff.1 this
      subst hb
      exact ⟨s, by simp [boilerplateDhtOop, mapChunks_nil], rfl, rfl⟩
    · intro i o s hio _ hd _
      have hi : i.length = 0 := by simpa [boilerplateDhtOop] using hd
      have hi' : i = [] := List.length_eq_zero_iff.1 hi
      have ho' : o = [] := List.length_eq_zero_iff.1 (by omega)
      subst hi' ho'
      exact ⟨[], s, by simp [boilerplateDhtOop, mapChunks_nil], rfl, rfl, rfl⟩
  · have hp := h hlen
    refine ⟨hp.length, ?_, ?_⟩
    · intro b s h1 h2 h3
      simp only [boilerplateDhtOop] at h1 h2 h3 ⊢
      obtain ⟨s', e, hs'⟩ := iterChunks_ok hlen (fun s => s.length = len)
        (fun c s hc hs => oop_chunk_inplace hp c s hc hs) b (s.take len) (by simp; omega)
      refine ⟨s' ++ s.drop len, ?_, by simp [hs']; omega, by simp [← hs']⟩
      rw [if_neg (by omega), if_neg (by omega), e, ok_bind]
      simp [h2]
    · intro i o s hio h1 h2 h3
      exact ⟨i, s, boilerplateDhtOop_oop hlen hp i o s hio h1 h2, rfl, rfl, rfl⟩

theorem boilerplateDhtOop_rejects (hlen : 0 < len) (hp : PerformsOop len g perform) :
    Rejects (boilerplateDhtOop len perform) := by
  refine ⟨?_, ?_⟩
  · intro b s k hk
    simp only [boilerplateDhtOop] at hk ⊢
    rw [if_neg (by omega)]
    by_cases hc : s.length < len ∨ b.length < len
    · rw [if_pos hc, dhtErrorInplace_violation hlen hk]; rfl
    · rw [if_neg hc]
      obtain ⟨s', e, hs'⟩ := iterChunks_ok hlen (fun s => s.length = len)
        (fun c s hc hs => oop_chunk_inplace hp c s hc hs) b (s.take len) (by simp; omega)
      have hnd : ¬ len ∣ b.length := by
        intro hd
        rw [inplaceViolation_none (by omega) hd (by omega)] at hk; cases hk
      rw [e, ok_bind]
      have hk' : inplaceViolation len len b.length len = some k := by
        unfold inplaceViolation at hk ⊢
        rw [if_neg (by omega), if_pos hnd] at hk ⊢
        exact hk
      simp [hnd, dhtErrorInplace_violation hlen hk', RustDHT.panic]
  · intro i o s k hk
    simp only [boilerplateDhtOop] at hk ⊢
    rw [if_neg (by omega)]
    have hk0 : oopViolation len 0 i.length o.length 0 = some k := by
      unfold oopViolation at hk ⊢
      simpa using hk
    by_cases hc : i.length < len ∨ o.length ≠ i.length
    · rw [if_pos hc, dhtErrorOutofplace_violation hlen hk0]; rfl
    · rw [if_neg hc]
      obtain ⟨i', o', s', e, _, hk1, ho', _⟩ := iterChunksZipped_ok hlen (fun s => s = ()) True
        (fun c1 c2 u hc1 hc2 _ => oop_chunk_oop hp c1 c2 () hc1 hc2) i o () rfl (by omega)
      have hnd : ¬ len ∣ i.length := by
        intro hd
        have := (oopViolation_eq_none_iff (len := len) (oopScr := 0) (i := i.length) (o := o.length)
          (s := 0)).2 ⟨by omega, by omega, hd, by omega⟩
        rw [this] at hk0; cases hk0
      rw [e, ok_bind]
      simp [hnd, dhtErrorOutofplace_violation hlen hk0, RustDHT.panic]

end Oop

/-! ## `boilerplate_fft_butterfly!` -/

section Butterfly
variable {contiguous : RawIO T → Res (RawIO T)}

/-- Hypothesis about `perform_dht_contiguous` of a butterfly, in both aliasing modes. -/
structure PerformsBfly (len : Nat) (g : List T → List T) (contiguous : RawIO T → Res (RawIO T)) : Prop where
  length : ∀ x, x.length = len → (g x).length = len
  aliased : ∀ b, b.length = len → performInPlace contiguous b = .ok (g b)
  separate : ∀ inp out, inp.length = len → out.length = len →
    contiguous ⟨inp, out, false⟩ = .ok ⟨inp, g inp, false⟩

private theorem bfly_chunk_inplace (hp : PerformsBfly len g contiguous) (c : List T) (hc : c.length = len) :
    ∃ s', (do let chunk ← performInPlace contiguous c
              Except.ok (chunk, ()) : Res (List T × Unit)) = .ok (g c, s') ∧ s' = () :=
  ⟨(), by rw [hp.aliased c hc, ok_bind], rfl⟩

private theorem bfly_chunk_oop (hp : PerformsBfly len g contiguous) (c o : List T) (hc : c.length = len)
    (ho : o.length = len) :
    ∃ c' s', (do let m ← contiguous { inp := c, out := o, aliased := false }
                 Except.ok (m.inp, m.out, ()) : Res (List T × List T × Unit)) = .ok (c', g c, s') ∧
      c'.length = len ∧ (True → c' = c) ∧ s' = () :=
  ⟨c, (), by rw [hp.separate c o hc ho, ok_bind], hc, fun _ => rfl, rfl⟩

theorem boilerplateFftButterfly_oop (hlen : 0 < len) (hp : PerformsBfly len g contiguous) (i o s : List T)
    (hio : o.length = i.length) (h1 : len ≤ i.length) (h2 : len ∣ i.length) :
    (boilerplateFftButterfly len contiguous).processOop i o s = .ok (i, mapChunks len g i, s) := by
  simp only [boilerplateFftButterfly]
  obtain ⟨i', o', s', e, _, hk, ho', _⟩ := iterChunksZipped_ok hlen (fun s => s = ()) True
    (fun c1 c2 u hc1 hc2 _ => bfly_chunk_oop hp c1 c2 hc1 hc2) i o () rfl hio
  rw [if_neg (by omega), e, ok_bind]
  simp [h2, ho' h2, hk trivial]

theorem boilerplateFftButterfly_implements (hlen : 0 < len) (hp : PerformsBfly len g contiguous) :
    Implements (boilerplateFftButterfly len contiguous) g := by
  refine ⟨hp.length, ?_, ?_⟩
  · intro b s h1 h2 h3
    simp only [boilerplateFftButterfly] at h1 h2 h3 ⊢
    obtain ⟨s', e, hs'⟩ := iterChunks_ok hlen (fun s => s = ())
      (fun c s hc _ => bfly_chunk_inplace hp c hc) b () rfl
    refine ⟨s, ?_, rfl, rfl⟩
    rw [if_neg (by omega), e, ok_bind]
    simp [h2]
  · intro i o s hio h1 h2 h3
    exact ⟨i, s, boilerplateFftButterfly_oop hlen hp i o s hio h1 h2, rfl, rfl, rfl⟩

theorem boilerplateFftButterfly_rejects (hlen : 0 < len) (hp : PerformsBfly len g contiguous) :
    Rejects (boilerplateFftButterfly len contiguous) := by
  refine ⟨?_, ?_⟩
  · intro b s k hk
    simp only [boilerplateFftButterfly] at hk ⊢
    have hk0 : inplaceViolation len 0 b.length 0 = some k := by
      unfold inplaceViolation at hk ⊢
      simpa using hk
    by_cases hc : b.length < len
    · rw [if_pos hc, dhtErrorInplace_violation hlen hk0]; rfl
    · rw [if_neg hc]
      obtain ⟨s', e, hs'⟩ := iterChunks_ok hlen (fun s => s = ())
        (fun c s hc _ => bfly_chunk_inplace hp c hc) b () rfl
      have hnd : ¬ len ∣ b.length := by
        intro hd
        rw [inplaceViolation_none (by omega) hd (by omega)] at hk0; cases hk0
      rw [e, ok_bind]
      simp [hnd, dhtErrorInplace_violation hlen hk0, RustDHT.panic]
  · intro i o s k hk
    simp only [boilerplateFftButterfly] at hk ⊢
    have hk0 : oopViolation len 0 i.length o.length 0 = some k := by
      unfold oopViolation at hk ⊢
      simpa using hk
    by_cases hc : i.length < len ∨ o.length ≠ i.length
    · rw [if_pos hc, dhtErrorOutofplace_violation hlen hk0]; rfl
    · rw [if_neg hc]
      obtain ⟨i', o', s', e, _, hk1, ho', _⟩ := iterChunksZipped_ok hlen (fun s => s = ()) True
        (fun c1 c2 u hc1 hc2 _ => bfly_chunk_oop hp c1 c2 hc1 hc2) i o () rfl (by omega)
      have hnd : ¬ len ∣ i.length := by
        intro hd
        have := (oopViolation_eq_none_iff (len := len) (oopScr := 0) (i := i.length) (o := o.length)
          (s := 0)).2 ⟨by omega, by omega, hd, by omega⟩
        rw [this] at hk0; cases hk0
      rw [e, ok_bind]
      simp [hnd, dhtErrorOutofplace_violation hlen hk0, RustDHT.panic]

end Butterfly

/-! ## Consequences of the contract -/

theorem Implements.congr {d : Dht T} {f g : List T → List T} (h : Implements d f)
    (e : ∀ x, x.length = d.len → f x = g x) : Implements d g := by
  refine ⟨fun x hx => by rw [← e x hx]; exact h.length x hx, ?_, ?_⟩
  · intro b s h1 h2 h3
    rw [← mapChunks_congr e]; exact h.inplace b s h1 h2 h3
  · intro i o s h0 h1 h2 h3
    rw [← mapChunks_congr e]; exact h.oop i o s h0 h1 h2 h3

theorem Implements.process [Zero T] {d : Dht T} {f : List T → List T} (h : Implements d f) {b : List T}
    (h1 : d.len ≤ b.length) (h2 : d.len ∣ b.length) : d.process b = .ok (mapChunks d.len f b) := by
  obtain ⟨s', e, _⟩ := h.inplace b (List.replicate d.inplaceScratchLen 0) h1 h2 (by simp)
  simp [Dht.process, e]

end RustDHT
