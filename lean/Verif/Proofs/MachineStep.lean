import Verif.Proofs.MachineWrong
import Verif.Proofs.RadersDht
import Mathlib.Analysis.SpecialFunctions.Trigonometric.Complex

/-! # `RadersAlgorithm` when the products of its indices wrap around

The indices run through `1, f, f^2, ..` modulo the length.  In a release build `index * f` may wrap around before the remainder is
taken, and the indices become another sequence. -/

set_option linter.unusedSectionVars false

namespace RustDHT.Machine

open Finset

variable (m : Mode)

/-! ## Loops that have returned -/

theorem forList_of_ok {α σ : Type} {body : α → σ → Res σ} (Inv : Nat → σ → Prop) {l : List α} {s s' : σ} {n : Nat}
    (h : forList l s body = .ok s') (h0 : Inv n s)
    (step : ∀ i s s1, (hi : i < l.length) → Inv (n + i) s → body l[i] s = .ok s1 → Inv (n + i + 1) s1) : Inv (n + l.length) s' := by
  induction l generalizing n s with
  | nil => cases h; exact h0
  | cons x l ih =>
    rw [forList, List.foldlM_cons] at h
    obtain ⟨s1, e, h⟩ := bind_eq_ok h
    have h1 := step 0 s s1 (by simp) h0 e
    rw [List.length_cons, show n + (l.length + 1) = n + 1 + l.length by omega]
    refine ih h h1 fun i s s1 hi hI he => ?_
    have := step (i + 1) s s1 (by simpa using hi) (by rwa [show n + (i + 1) = n + 1 + i by omega]) he
    rwa [show n + (i + 1) + 1 = n + 1 + i + 1 by omega] at this

theorem forRange_of_ok {σ : Type} {body : Nat → σ → Res σ} (Inv : Nat → σ → Prop) {n : Nat} {s s' : σ}
    (h : forRange 0 n s body = .ok s') (h0 : Inv 0 s)
    (step : ∀ i s s1, i < n → Inv i s → body i s = .ok s1 → Inv (i + 1) s1) : Inv n s' := by
  have := forList_of_ok (n := 0) (l := List.range' 0 (n - 0)) Inv h h0 fun i s s1 hi hI he => by
    rw [List.length_range'] at hi
    rw [List.getElem_range', Nat.zero_add, Nat.one_mul] at he
    rw [Nat.zero_add] at hI ⊢
    exact step i s s1 (by omega) hI he
  rwa [List.length_range', Nat.sub_zero, Nat.zero_add] at this

theorem getI_err {α : Type} {l : List α} {i : Nat} (h : l.length ≤ i) : getI l i = panic .index := by
  simp [getI, Nat.not_lt.2 h]

theorem setI_err {α : Type} {l : List α} {i : Nat} {v : α} (h : l.length ≤ i) : setI l i v = panic .index := by
  simp [setI, Nat.not_lt.2 h]

/-! ## The sequence of indices -/

/-- The indices of a release build. -/
def wrapSeq (f p : Nat) : Nat → Nat
  | 0 => 1
  | j + 1 => wrapSeq f p j * f % 2 ^ m.bits % p

theorem wrapSeq_lt {f p : Nat} (hp : 1 < p) (j : Nat) : wrapSeq m f p j < p := by
  cases j with
  | zero => exact hp
  | succ j => exact Nat.mod_lt _ (by omega)

theorem wrapSeq_one {f p : Nat} (hf : f < p) (hp : p < 2 ^ m.bits) : wrapSeq m f p 1 = f := by
  rw [wrapSeq, wrapSeq, Nat.one_mul, Nat.mod_eq_of_lt (hf.trans hp), Nat.mod_eq_of_lt hf]

variable {m}

theorem mul_wrap (hm : m.checked = false) (a b : Nat) : m.mul a b = .ok (a * b % 2 ^ m.bits) := by
  unfold Mode.mul Mode.overflow
  split
  · rename_i h; rw [Nat.mod_eq_of_lt h]
  · rw [hm]; rfl

theorem stepIndex_wrap (hm : m.checked = false) {i f p : Nat} (hp : 0 < p) :
    stepIndex m i f p = .ok (i * f % 2 ^ m.bits % p) := by
  rw [stepIndex, mul_wrap hm, ok_bind, remU64_ok hp]

theorem sub_wrap (hm : m.checked = false) : m.sub 0 1 = .ok (2 ^ m.bits - 1) := by
  unfold Mode.sub Mode.overflow
  rw [if_neg (by omega), hm, if_neg (by simp), Nat.zero_add, Nat.mod_eq_of_lt (by have := Nat.two_pow_pos m.bits; omega)]

theorem kernelInput_wrap {T : Type} [Add T] [Mul T] [Zero T] [FftNum T] (hm : m.checked = false) {n p f : Nat} (hp : 0 < p) :
    radersKernelInput m T n p f = .ok (tab n fun i => computeDhtTwiddle T (wrapSeq m f p i) p *
      FftNum.fromF64 ((FftNum.f64 (T := T)).div ((FftNum.f64 (T := T)).ofNat 1) ((FftNum.f64 (T := T)).ofNat n))) := by
  unfold radersKernelInput
  simp only
  obtain ⟨⟨b, t⟩, e, hb1, hb2, _⟩ := forRange_ok (lo := 0) (hi := n) (s := (List.replicate n (0 : T), 1))
    (body := fun i (input, twiddleInput) => do
      let twiddle := computeDhtTwiddle T twiddleInput p
      let input ← setI input i
        (twiddle * FftNum.fromF64 ((FftNum.f64 (T := T)).div ((FftNum.f64 (T := T)).ofNat 1) ((FftNum.f64 (T := T)).ofNat n)))
      let twiddleInput ← stepIndex m twiddleInput f p
      .ok (input, twiddleInput))
    (fun i s => s.1.length = n ∧ (∀ j, j < i → nth s.1 j = computeDhtTwiddle T (wrapSeq m f p j) p *
      FftNum.fromF64 ((FftNum.f64 (T := T)).div ((FftNum.f64 (T := T)).ofNat 1) ((FftNum.f64 (T := T)).ofNat n))) ∧
      s.2 = wrapSeq m f p i) (by omega) (by simp [wrapSeq])
    (by
      rintro i ⟨b, t⟩ _ hi ⟨hb1, hb2, ht⟩
      simp only at hb1 hb2 ht
      subst ht
      simp only
      rw [setI_ok (by omega), ok_bind, stepIndex_wrap hm hp, ok_bind]
      refine ⟨_, rfl, by simpa using hb1, fun j hj => ?_, rfl⟩
      simp only
      rw [nth_set (by omega)]
      by_cases hji : j = i
      · rw [if_pos hji, hji]
      · rw [if_neg hji, hb2 j (by omega)])
  rw [e, ok_bind]
  simp only
  congr 1
  exact eq_tab hb1 hb2

theorem gather_wrap {T : Type} [Zero T] (hm : m.checked = false) {n p f : Nat} (hp : 1 < p) (hn : n < 2 ^ m.bits) {src dst r : List T}
    (hs : src.length = n) (hd : dst.length = n) (h : radersGather m f p src dst = .ok r) :
    (∀ j < n, 0 < wrapSeq m f p j) ∧ r = tab n fun j => nth src (wrapSeq m f p j - 1) := by
  unfold radersGather at h
  obtain ⟨⟨b, t⟩, e, h⟩ := bind_eq_ok h
  cases h
  rw [hd] at e
  obtain ⟨h1, h2, h3, -⟩ := forRange_of_ok (fun i s => s.1.length = n ∧ (∀ j < i, 0 < wrapSeq m f p j) ∧
      (∀ j, j < i → nth s.1 j = nth src (wrapSeq m f p j - 1)) ∧ s.2 = wrapSeq m f p i) e (by simp [wrapSeq, hd]) (by
    rintro i ⟨b, t⟩ ⟨b', t'⟩ hi ⟨hb1, hb2, hb3, ht⟩ he
    simp only at hb1 hb2 hb3 ht he
    subst ht
    have hpos : 0 < wrapSeq m f p i := by
      refine Nat.pos_of_ne_zero fun h0 => ?_
      rw [h0, sub_wrap hm, ok_bind, getI_err (by omega), panic_bind] at he
      cases he
    rw [sub_eq m (by omega), ok_bind] at he
    obtain ⟨v, e1, he⟩ := bind_eq_ok he
    rw [setI_ok (by omega), ok_bind, stepIndex_wrap hm (by omega), ok_bind] at he
    cases he
    have hv : v = nth src (wrapSeq m f p i - 1) := by
      by_cases hlt : wrapSeq m f p i - 1 < src.length
      · rw [getI_nth hlt] at e1; cases e1; rfl
      · rw [getI_err (by omega)] at e1; cases e1
    refine ⟨by simpa using hb1, fun j hj => ?_, fun j hj => ?_, rfl⟩
    · rcases Nat.lt_succ_iff_lt_or_eq.1 hj with h | rfl
      · exact hb2 j h
      · exact hpos
    · simp only
      rw [nth_set (by omega)]
      by_cases hji : j = i
      · rw [if_pos hji, hji, hv]
      · rw [if_neg hji, hb3 j (by omega)])
  exact ⟨h2, eq_tab h1 h3⟩

theorem scatter_wrap {T : Type} [Zero T] (hm : m.checked = false) {n p f : Nat} (hp : 1 < p) (hn : n < 2 ^ m.bits) {src dst r : List T}
    (hs : src.length = n) (hd : dst.length = n) (h : radersScatter m f p src dst = .ok r) :
    (∀ j < n, 0 < wrapSeq m f p j) ∧
      ∀ j < n, (∀ i, j < i → i < n → wrapSeq m f p i ≠ wrapSeq m f p j) → nth r (wrapSeq m f p j - 1) = nth src j := by
  unfold radersScatter at h
  obtain ⟨⟨b, t⟩, e, h⟩ := bind_eq_ok h
  cases h
  have key := forList_of_ok (n := 0) (fun i s => s.1.length = n ∧ (∀ j < i, 0 < wrapSeq m f p j) ∧
      (∀ j < i, (∀ k, j < k → k < i → wrapSeq m f p k ≠ wrapSeq m f p j) → nth s.1 (wrapSeq m f p j - 1) = nth src j) ∧
      s.2 = wrapSeq m f p i) e (by simp [wrapSeq, hd]) (by
    rintro i ⟨b, t⟩ ⟨b', t'⟩ hi ⟨hb1, hb2, hb3, ht⟩ he
    rw [Nat.zero_add] at hb2 hb3 ht ⊢
    simp only at hb1 hb2 hb3 ht he
    subst ht
    have hpos : 0 < wrapSeq m f p i := by
      refine Nat.pos_of_ne_zero fun h0 => ?_
      rw [h0, sub_wrap hm, ok_bind, setI_err (by omega), panic_bind] at he
      cases he
    rw [sub_eq m (by omega), ok_bind] at he
    have hlt : wrapSeq m f p i - 1 < b.length := by
      by_contra hc
      rw [setI_err (by omega), panic_bind] at he
      cases he
    rw [setI_ok hlt, ok_bind, stepIndex_wrap hm (by omega), ok_bind] at he
    cases he
    refine ⟨by simpa using hb1, fun j hj => ?_, fun j hj hne => ?_, rfl⟩
    · rcases Nat.lt_succ_iff_lt_or_eq.1 hj with h | rfl
      · exact hb2 j h
      · exact hpos
    · simp only
      rw [nth_set hlt]
      by_cases hji : j = i
      · subst hji
        rw [if_pos rfl, nth_eq_getElem hi]
      · have h1 := hne i (by omega) (by omega)
        have h2 := hb2 j (by omega)
        rw [if_neg (by omega), hb3 j (by omega) fun k hk1 hk2 => hne k hk1 (by omega)])
  rw [Nat.zero_add, hs] at key
  exact ⟨key.2.1, key.2.2.1⟩

end RustDHT.Machine
