import Verif.Spec.Bench
import Verif.Proofs.Bench
import Verif.Proofs.ParamPlan
import Verif.Props.Harness

/-! # Helper lemmas about the benchmark functions -/

set_option linter.unusedSectionVars false

namespace RustDHT

variable {T : Type} [Zero T] [Add T] [Sub T] [Mul T] [Neg T] [FftNum T]

/-! ## Every run of the closure returns -/

theorem benchLoop_ok {d : Dht T} (hd : Accepts d) (iters : ℕ) (buffer scratch : List T) (h1 : d.len ≤ buffer.length)
    (h2 : d.len ∣ buffer.length) (h3 : d.inplaceScratchLen ≤ scratch.length) :
    ∃ b s, benchLoop d iters buffer scratch = .ok (b, s) ∧ b.length = buffer.length := by
  induction iters generalizing buffer scratch with
  | zero => exact ⟨buffer, scratch, rfl, rfl⟩
  | succ n ih =>
    obtain ⟨b, s, e, lb, ls⟩ := hd.inplace buffer scratch h1 h2 h3
    obtain ⟨b', s', e', lb'⟩ := ih b s (by omega) (by rwa [lb]) (by omega)
    exact ⟨b', s', by rw [benchLoop, e, ok_bind]; exact e', by omega⟩

theorem benchProcess_ok {d : Dht T} (hd : Accepts d) (iters : ℕ) :
    ∃ b s, benchProcess d iters = .ok (b, s) ∧ b.length = d.len := by
  obtain ⟨b, s, e, l⟩ := benchLoop_ok hd iters (List.replicate d.len 0) (List.replicate d.inplaceScratchLen 0) (by simp) (by simp)
    (by simp)
  exact ⟨b, s, e, by simpa using l⟩

theorem Planned.accepts {d : Dht T} (h : Planned d) : Accepts d := by
  obtain ⟨p, e, _⟩ := h
  obtain ⟨f, hf⟩ := (plan_ok p d e).implements
  exact hf.accepts

/-! ## When the constructors return -/

theorem make4_iff (n : ℕ) : (∃ d : Dht T, make4xnRadix4 T n = .ok d) ↔ (Bench.mr4 n).Suitable := by
  induction n using Nat.strong_induction_on with
  | _ n ih =>
    have hS : ∀ m, (Bench.mr4 m).Suitable ↔ ∃ k, 2 * 4 ^ k ≤ m ∧ m < 3 * 4 ^ k ∨ 4 * 4 ^ k ≤ m ∧ m < 5 * 4 ^ k := fun _ => Iff.rfl
    rw [make4xnRadix4]
    split
    · rename_i h
      refine ⟨fun ⟨_, e⟩ => (nomatch e), fun hk => ?_⟩
      obtain ⟨k, hk⟩ := (hS _).1 hk
      have := Nat.pow_pos (n := k) (show 0 < 4 by omega)
      omega
    rename_i h01
    split
    · exact ⟨fun _ => (hS _).2 ⟨0, by omega⟩, fun _ => ⟨_, rfl⟩⟩
    split
    · exact ⟨fun _ => (hS _).2 ⟨0, by omega⟩, fun _ => ⟨_, rfl⟩⟩
    split
    · exact ⟨fun _ => (hS _).2 ⟨1, by omega⟩, fun _ => ⟨_, rfl⟩⟩
    split
    · exact ⟨fun _ => (hS _).2 ⟨1, by omega⟩, fun _ => ⟨_, rfl⟩⟩
    rename_i h2 h4 h8 h16
    have step : (∃ d : Dht T, (do let inner ← make4xnRadix4 T (n / 4); .ok (mixedRadix4xn inner)) = .ok d) ↔
        ∃ d : Dht T, make4xnRadix4 T (n / 4) = .ok d := by
      refine ⟨fun ⟨d, e⟩ => ?_, fun ⟨d, e⟩ => ⟨_, by rw [e, ok_bind]⟩⟩
      obtain ⟨i, ei, _⟩ := bind_eq_ok e
      exact ⟨i, ei⟩
    rw [step, ih (n / 4) (by omega), hS, hS]
    constructor
    · rintro ⟨k, hk⟩
      refine ⟨k + 1, ?_⟩
      rw [pow_succ]
      omega
    · rintro ⟨k, hk⟩
      rcases k with _ | k
      · omega
      · refine ⟨k, ?_⟩
        rw [pow_succ] at hk
        omega

theorem make4_len (n : ℕ) : ∀ d : Dht T, make4xnRadix4 T n = .ok d → n < 2 * d.len := by
  induction n using Nat.strong_induction_on with
  | _ n ih =>
    intro d h
    rw [make4xnRadix4] at h
    split at h
    · cases h
    split at h
    · cases h; show n < 2 * 2; omega
    split at h
    · cases h; show n < 2 * 4; omega
    split at h
    · cases h; show n < 2 * 8; omega
    split at h
    · cases h; show n < 2 * 16; omega
    obtain ⟨i, ei, h⟩ := bind_eq_ok h
    cases h
    have := ih (n / 4) (by omega) i ei
    show n < 2 * (4 * i.len)
    omega

theorem makeSplitradix_any (n : ℕ) : ∃ d : Dht T, makeSplitradix T n = .ok d ∧ Planned d ∧ (d.len = n ↔ ∃ k, 4 ≤ k ∧ n = 2 ^ k) := by
  rcases Nat.eq_zero_or_pos n with rfl | hn
  · -- as for `2 ^ 64`
    obtain ⟨d, e, hp, l⟩ := makeSplitradix_ok (T := T) 64 0
    refine ⟨d, ?_, hp, ?_⟩
    · have h64 : trailingZeros (2 ^ 64 * (2 * 0 + 1)) = 64 := trailingZeros_odd 64 0
      rw [← e]
      unfold makeSplitradix
      rw [h64, if_pos rfl, if_neg (by norm_num)]
    · rw [l]
      refine ⟨fun h => absurd h (by norm_num), fun ⟨k, _, h⟩ => absurd h (Nat.two_pow_pos k).ne⟩
  · obtain ⟨k, m, hm, rfl⟩ := Nat.exists_eq_two_pow_mul_odd hn.ne'
    obtain ⟨m, rfl⟩ := hm
    obtain ⟨d, e, hp, l⟩ := makeSplitradix_ok (T := T) k m
    refine ⟨d, e, hp, ?_⟩
    rw [l]
    constructor
    · intro h
      exact ⟨max 4 k, le_max_left _ _, h.symm⟩
    · rintro ⟨j, hj, h⟩
      have : k = j := by
        have h1 := trailingZeros_odd k m
        rw [h, trailingZeros_two_pow] at h1
        exact h1.symm
      subst this
      rw [h, max_eq_right hj]

/-- The shape of the functions that check the length of the object that they have built. -/
theorem checked_ok {mk : Res (Dht T)} {n iters : ℕ} {P : Prop} (hs : ∀ d, mk = .ok d → Planned d)
    (hP : (∃ d, mk = .ok d ∧ d.len = n) ↔ P) :
    ((∃ r, (do
        let dht ← mk
        assert (dht.len == n) .assertFailed
        benchProcess dht iters) = .ok r) ↔ P) ∧
    ∀ b s, (do
        let dht ← mk
        assert (dht.len == n) .assertFailed
        benchProcess dht iters) = .ok (b, s) → b.length = n := by
  rcases e : mk with er | d
  · rw [e] at hP
    refine ⟨⟨fun ⟨_, h⟩ => (nomatch h), fun h => ?_⟩, fun b s h => nomatch h⟩
    obtain ⟨d, h, _⟩ := hP.2 h
    cases h
  · by_cases hl : d.len = n
    · obtain ⟨b, s, e', l⟩ := benchProcess_ok (hs d e).accepts iters
      rw [ok_bind, hl, beq_self_eq_true, assert_true, ok_bind, e']
      refine ⟨⟨fun _ => hP.1 ⟨d, e, hl⟩, fun _ => ⟨_, rfl⟩⟩, fun b' s' h => ?_⟩
      cases h
      omega
    · rw [ok_bind, beq_false_of_ne hl, assert_false, panic_bind]
      refine ⟨⟨fun ⟨_, h⟩ => (nomatch h), fun h => ?_⟩, fun b s h => nomatch h⟩
      obtain ⟨d', e', hl'⟩ := hP.2 h
      rw [e] at e'
      cases e'
      exact absurd hl' hl

/-! ## All zeros -/

theorem zeroLaws_respects (h : ZeroLaws T) : Respects (T := T) (T' := T) (fun _ _ => True) (fun a _ => a = 0) where
  zero := rfl
  add := by rintro _ _ _ _ rfl rfl; exact h.add
  sub := by rintro _ _ _ _ rfl rfl; exact h.sub
  neg := by rintro _ _ rfl; exact h.neg
  cmul := by rintro c _ _ _ _ rfl; exact h.mul_zero c
  mulc := by rintro c _ _ _ rfl _; exact h.zero_mul _
  zeroC := trivial
  addC := fun _ _ => trivial
  subC := fun _ _ => trivial
  negC := fun _ => trivial
  mulC := fun _ _ => trivial
  inv := fun _ _ _ => ⟨trivial, trivial⟩
  fwd := fun _ _ _ => ⟨trivial, trivial⟩
  sqrtHalf := trivial
  half := trivial
  norm := fun _ _ => trivial

theorem noop_rel (R : T → T → Prop) (n : ℕ) : DhtRel R (noop T n) (noop T n) where
  len := rfl
  inplaceScratchLen := rfl
  oopScratchLen := rfl
  inplace := fun _ _ _ _ hb hs => .ok ⟨hb, hs⟩
  oop := fun _ _ _ _ _ _ hi ho hs => .ok ⟨hi, ho, hs⟩

/-- The object maps zeros to zeros. -/
abbrev KeepsZero (d : Dht T) : Prop := DhtRel (fun a _ : T => a = 0) d d

theorem Planned.keepsZero (h : ZeroLaws T) {d : Dht T} (hd : Planned d) : KeepsZero d := by
  obtain ⟨p, e, _⟩ := hd
  have := plan_rel p (zeroLaws_respects h)
  rw [e] at this
  cases this with
  | ok h => exact h

theorem benchLoop_zero {d : Dht T} (hd : KeepsZero d) (iters : ℕ) (buffer scratch b s : List T)
    (hb : LR (fun a _ : T => a = 0) buffer buffer) (hs : LR (fun a _ : T => a = 0) scratch scratch)
    (h : benchLoop d iters buffer scratch = .ok (b, s)) : ∀ v ∈ b, v = 0 := by
  have fix : ∀ l l' : List T, LR (fun a _ : T => a = 0) l l' → LR (fun a _ : T => a = 0) l l := by
    intro l l' h
    induction h with
    | nil => exact .nil
    | cons h _ ih => exact .cons h ih
  induction iters generalizing buffer scratch with
  | zero =>
    cases h
    clear fix hs
    intro v hv
    induction hb' : b with
    | nil => subst hb'; cases hv
    | cons => 
      obtain ⟨i, hi, rfl⟩ := List.getElem_of_mem hv
      exact (List.forall₂_iff_get.1 hb).2 i hi hi
  | succ n ih =>
    rw [benchLoop] at h
    obtain ⟨⟨b1, s1⟩, e, h⟩ := bind_eq_ok h
    have hr := hd.inplace _ _ _ _ hb hs
    rw [e] at hr
    cases hr with
    | ok hr => exact ih b1 s1 (fix _ _ hr.1) (fix _ _ hr.2) h

theorem benchProcess_zero {d : Dht T} (hd : KeepsZero d) (iters : ℕ) {b s : List T} (h : benchProcess d iters = .ok (b, s)) :
    ∀ v ∈ b, v = 0 :=
  benchLoop_zero hd iters _ _ b s (LR.replicate (R := fun a _ : T => a = 0) rfl _) (LR.replicate (R := fun a _ : T => a = 0) rfl _) h

end RustDHT
