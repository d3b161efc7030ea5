import Verif.Proofs.MixedRadix
import Verif.Model.SplitRadix

/-! # `SplitRadix`: closed form and contract, for every number type -/

set_option linter.unusedSectionVars false

namespace RustDHT

theorem getElem?_pairs {α : Type} {f g : Nat → α} {n i : Nat} (hi : i < n) :
    ((List.range n).flatMap fun x => [f x, g x])[2 * i]? = some (f i) ∧
    ((List.range n).flatMap fun x => [f x, g x])[2 * i + 1]? = some (g i) := by
  induction n with
  | zero => omega
  | succ n ih =>
    have hl : ((List.range n).flatMap fun x => [f x, g x]).length = 2 * n := by
      simp [List.length_flatMap]; omega
    rw [List.range_succ, List.flatMap_append]
    by_cases h : i < n
    · rw [List.getElem?_append_left (by omega), List.getElem?_append_left (by omega)]
      exact ih h
    · have : i = n := by omega
      subst this
      rw [List.getElem?_append_right (by omega), List.getElem?_append_right (by omega), hl]
      simp

theorem getU_some {α : Type} {l : List α} {i : Nat} {a : α} (h : l[i]? = some a) : getU l i = .ok a := by
  rw [List.getElem?_eq_some_iff] at h
  obtain ⟨hi, rfl⟩ := h
  exact getU_ok hi

variable {T : Type} [Zero T] [Add T] [Sub T] [Mul T] [FftNum T]

/-- Position `c` of `buffer_quarter1` after `apply_twiddles`. -/
def srQ1 (q : Nat) (x : List T) (c : Nat) : T :=
  let d0 (i : Nat) := nth x i - nth x (2 * q + i)
  let d1 (i : Nat) := nth x (q + i) - nth x (3 * q + i)
  if c = 0 then d0 0 + d1 0
  else if 2 * c < q then
    let t : Cx T := computeDftTwiddleInverse T (c * 1) (4 * q)
    (d0 c + d0 (q - c)) * t.re - (d1 c - d1 (q - c)) * t.im
  else
    let c := q - c
    let t : Cx T := computeDftTwiddleInverse T (c * 1) (4 * q)
    (d0 c + d0 (q - c)) * t.im + (d1 c - d1 (q - c)) * t.re

/-- Position `c` of `buffer_quarter3` after `apply_twiddles`. -/
def srQ3 (q : Nat) (x : List T) (c : Nat) : T :=
  let d0 (i : Nat) := nth x i - nth x (2 * q + i)
  let d1 (i : Nat) := nth x (q + i) - nth x (3 * q + i)
  if c = 0 then d0 0 - d1 0
  else if 2 * c < q then
    let t : Cx T := computeDftTwiddleInverse T (c * 3) (4 * q)
    (d0 c - d0 (q - c)) * t.re + (d1 c + d1 (q - c)) * t.im
  else
    let c := q - c
    let t : Cx T := computeDftTwiddleInverse T (c * 3) (4 * q)
    (d0 c - d0 (q - c)) * t.im - (d1 c + d1 (q - c)) * t.re

/-- Position `p` of `evens` after `apply_twiddles`. -/
def srEven (q : Nat) (x : List T) (p : Nat) : T := nth x p + nth x (2 * q + p)

theorem srTwiddles_get {q i : Nat} (hi : i ≤ q / 2) :
    (srTwiddles T (4 * q))[2 * i]? = some (computeDftTwiddleInverse T (i * 1) (4 * q)) ∧
    (srTwiddles T (4 * q))[2 * i + 1]? = some (computeDftTwiddleInverse T (i * 3) (4 * q)) := by
  unfold srTwiddles
  exact getElem?_pairs (f := fun x => computeDftTwiddleInverse T (x * 1) (4 * q))
    (g := fun x => computeDftTwiddleInverse T (x * 3) (4 * q)) (by omega)

theorem srColumn_ok {q : Nat} {tw : List (Cx T)} {i : Nat} {b : SrBuf T} (h0 : b.half0.length = q)
    (h1 : b.half1.length = q) (h2 : b.quarter1.length = q) (h3 : b.quarter3.length = q) (hi0 : 0 < i)
    (hi : 2 * i ≤ q) {t1 t3 : Cx T} (ht1 : tw[2 * i]? = some t1) (ht3 : tw[2 * i + 1]? = some t3) :
    let d0 (i : Nat) := nth b.half0 i - nth b.quarter1 i
    let d1 (i : Nat) := nth b.half1 i - nth b.quarter3 i
    ∃ b' : SrBuf T, srColumn q tw i b = .ok b' ∧ b'.half0.length = q ∧ b'.half1.length = q ∧
      b'.quarter1.length = q ∧ b'.quarter3.length = q ∧
      (∀ p, nth b'.half0 p = if p = q - i then nth b.half0 (q - i) + nth b.quarter1 (q - i)
        else if p = i then nth b.half0 i + nth b.quarter1 i else nth b.half0 p) ∧
      (∀ p, nth b'.half1 p = if p = q - i then nth b.half1 (q - i) + nth b.quarter3 (q - i)
        else if p = i then nth b.half1 i + nth b.quarter3 i else nth b.half1 p) ∧
      (∀ p, nth b'.quarter1 p =
        if p = q - i then (d0 i + d0 (q - i)) * t1.im + (d1 i - d1 (q - i)) * t1.re
        else if p = i then (d0 i + d0 (q - i)) * t1.re - (d1 i - d1 (q - i)) * t1.im else nth b.quarter1 p) ∧
      (∀ p, nth b'.quarter3 p =
        if p = q - i then (d0 i - d0 (q - i)) * t3.im - (d1 i + d1 (q - i)) * t3.re
        else if p = i then (d0 i - d0 (q - i)) * t3.re + (d1 i + d1 (q - i)) * t3.im else nth b.quarter3 p) := by
  obtain ⟨b0, b1, b2, b3⟩ := b
  simp only at h0 h1 h2 h3 ⊢
  refine ⟨?bb, ?e, ?l0, ?l1, ?l2, ?l3, ?v0, ?v1, ?v2, ?v3⟩
  case e =>
    unfold srColumn
    rw [getU_some ht1, ok_bind, getU_some ht3, ok_bind]
    simp only
    rw [getU_nth (l := b0) (by omega), ok_bind, getU_nth (l := b1) (by omega), ok_bind,
      getU_nth (l := b2) (by omega), ok_bind, getU_nth (l := b3) (by omega), ok_bind,
      getU_nth (l := b0) (by omega), ok_bind, getU_nth (l := b1) (by omega), ok_bind,
      getU_nth (l := b2) (by omega), ok_bind, getU_nth (l := b3) (by omega), ok_bind,
      setU_ok (by omega), ok_bind, setU_ok (by omega), ok_bind,
      setU_ok (by rw [List.length_set]; omega), ok_bind, setU_ok (by rw [List.length_set]; omega), ok_bind,
      setU_ok (by omega), ok_bind, setU_ok (by omega), ok_bind,
      setU_ok (by rw [List.length_set]; omega), ok_bind, setU_ok (by rw [List.length_set]; omega), ok_bind]
  case l0 => simpa using h0
  case l1 => simpa using h1
  case l2 => simpa using h2
  case l3 => simpa using h3
  case v0 => intro p; rw [nth_set (by rw [List.length_set]; omega), nth_set (by omega)]
  case v1 => intro p; rw [nth_set (by rw [List.length_set]; omega), nth_set (by omega)]
  case v2 => intro p; rw [nth_set (by rw [List.length_set]; omega), nth_set (by omega)]
  case v3 => intro p; rw [nth_set (by rw [List.length_set]; omega), nth_set (by omega)]

theorem srColumn0_ok {q : Nat} {b : SrBuf T} (hq : 0 < q) (h0 : b.half0.length = q)
    (h1 : b.half1.length = q) (h2 : b.quarter1.length = q) (h3 : b.quarter3.length = q) :
    ∃ b' : SrBuf T, srColumn0 b = .ok b' ∧ b'.half0.length = q ∧ b'.half1.length = q ∧
      b'.quarter1.length = q ∧ b'.quarter3.length = q ∧
      (∀ p, nth b'.half0 p = if p = 0 then nth b.half0 0 + nth b.quarter1 0 else nth b.half0 p) ∧
      (∀ p, nth b'.half1 p = if p = 0 then nth b.half1 0 + nth b.quarter3 0 else nth b.half1 p) ∧
      (∀ p, nth b'.quarter1 p = if p = 0 then (nth b.half0 0 - nth b.quarter1 0) + (nth b.half1 0 - nth b.quarter3 0)
        else nth b.quarter1 p) ∧
      (∀ p, nth b'.quarter3 p = if p = 0 then (nth b.half0 0 - nth b.quarter1 0) - (nth b.half1 0 - nth b.quarter3 0)
        else nth b.quarter3 p) := by
  obtain ⟨b0, b1, b2, b3⟩ := b
  simp only at h0 h1 h2 h3 ⊢
  refine ⟨?bb, ?e, ?l0, ?l1, ?l2, ?l3, ?v0, ?v1, ?v2, ?v3⟩
  case e =>
    unfold srColumn0
    simp only
    rw [getI_nth (l := b0) (by omega), ok_bind, getI_nth (l := b1) (by omega), ok_bind,
      getI_nth (l := b2) (by omega), ok_bind, getI_nth (l := b3) (by omega), ok_bind,
      setI_ok (by omega), ok_bind, setI_ok (by omega), ok_bind, setI_ok (by omega), ok_bind,
      setI_ok (by omega), ok_bind]
  case l0 => simpa using h0
  case l1 => simpa using h1
  case l2 => simpa using h2
  case l3 => simpa using h3
  case v0 => intro p; rw [nth_set (by omega)]
  case v1 => intro p; rw [nth_set (by omega)]
  case v2 => intro p; rw [nth_set (by omega)]
  case v3 => intro p; rw [nth_set (by omega)]

/-- After the columns below `i` are done. -/
structure SrInv (q : Nat) (x : List T) (i : Nat) (b : SrBuf T) : Prop where
  l0 : b.half0.length = q
  l1 : b.half1.length = q
  l2 : b.quarter1.length = q
  l3 : b.quarter3.length = q
  v0 : ∀ p, p < q → nth b.half0 p = if p < i ∨ q - p < i then srEven q x p else nth x p
  v1 : ∀ p, p < q → nth b.half1 p = if p < i ∨ q - p < i then srEven q x (q + p) else nth x (q + p)
  v2 : ∀ p, p < q → nth b.quarter1 p = if p < i ∨ q - p < i then srQ1 q x p else nth x (2 * q + p)
  v3 : ∀ p, p < q → nth b.quarter3 p = if p < i ∨ q - p < i then srQ3 q x p else nth x (3 * q + p)

theorem SrInv.step {q i : Nat} {x : List T} {c : SrBuf T} (hi0 : 0 < i) (hi : 2 * i ≤ q) (h : SrInv q x i c) :
    ∃ c', srColumn q (srTwiddles T (4 * q)) i c = .ok c' ∧ SrInv q x (i + 1) c' := by
  have ht := srTwiddles_get (T := T) (q := q) (i := i) (by omega)
  obtain ⟨c', ec, n0, n1, n2, n3, w0, w1, w2, w3⟩ := srColumn_ok (tw := srTwiddles T (4 * q)) h.l0 h.l1 h.l2 h.l3
    hi0 hi ht.1 ht.2
  beta_reduce at w2 w3
  have hA : ¬ (i < i ∨ q - i < i) := by omega
  have hB : ¬ (q - i < i ∨ q - (q - i) < i) := by omega
  have hiq : i < q := by omega
  have hqiq : q - i < q := by omega
  have hqi : q - (q - i) = i := by omega
  have hi0' : ¬ i = 0 := by omega
  have hqi0 : ¬ q - i = 0 := by omega
  have hnl : ¬ 2 * (q - i) < q := by omega
  have hP : q - i < i + 1 ∨ q - (q - i) < i + 1 := by omega
  have hP' : i < i + 1 ∨ q - i < i + 1 := by omega
  have hiff : ∀ p, ¬ p = q - i → ¬ p = i → p < q → ((p < i + 1 ∨ q - p < i + 1) ↔ (p < i ∨ q - p < i)) := by
    intro p h1 h2 h3; omega
  have h3q : ∀ p, 2 * q + (q + p) = 3 * q + p := by intro p; omega
  rw [h.v0 i hiq, h.v0 _ hqiq, if_neg hA, if_neg hB, h.v2 i hiq, h.v2 _ hqiq, if_neg hA, if_neg hB] at w0
  rw [h.v1 i hiq, h.v1 _ hqiq, if_neg hA, if_neg hB, h.v3 i hiq, h.v3 _ hqiq, if_neg hA, if_neg hB] at w1
  rw [h.v0 i hiq, h.v0 _ hqiq, if_neg hA, if_neg hB, h.v2 i hiq, h.v2 _ hqiq, if_neg hA, if_neg hB,
    h.v1 i hiq, h.v1 _ hqiq, if_neg hA, if_neg hB, h.v3 i hiq, h.v3 _ hqiq, if_neg hA, if_neg hB] at w2 w3
  refine ⟨c', ec, n0, n1, n2, n3, fun p hp => ?_, fun p hp => ?_, fun p hp => ?_, fun p hp => ?_⟩
  · rw [w0]
    by_cases hpr : p = q - i
    · subst hpr; rw [if_pos rfl, if_pos hP]; rfl
    by_cases hpi : p = i
    · subst hpi; rw [if_neg hpr, if_pos rfl, if_pos hP']; rfl
    rw [if_neg hpr, if_neg hpi, h.v0 p hp]
    simp only [hiff p hpr hpi hp]
  · rw [w1]
    by_cases hpr : p = q - i
    · subst hpr; rw [if_pos rfl, if_pos hP, srEven, h3q]
    by_cases hpi : p = i
    · subst hpi; rw [if_neg hpr, if_pos rfl, if_pos hP', srEven, h3q]
    rw [if_neg hpr, if_neg hpi, h.v1 p hp]
    simp only [hiff p hpr hpi hp]
  · rw [w2]
    by_cases hpr : p = q - i
    · subst hpr; rw [if_pos rfl, if_pos hP, srQ1]
      simp only
      rw [if_neg hqi0, if_neg hnl, hqi]
    by_cases hpi : p = i
    · subst hpi; rw [if_neg hpr, if_pos rfl, if_pos hP', srQ1]
      simp only
      rw [if_neg hi0', if_pos (by omega)]
    rw [if_neg hpr, if_neg hpi, h.v2 p hp]
    simp only [hiff p hpr hpi hp]
  · rw [w3]
    by_cases hpr : p = q - i
    · subst hpr; rw [if_pos rfl, if_pos hP, srQ3]
      simp only
      rw [if_neg hqi0, if_neg hnl, hqi]
    by_cases hpi : p = i
    · subst hpi; rw [if_neg hpr, if_pos rfl, if_pos hP', srQ3]
      simp only
      rw [if_neg hi0', if_pos (by omega)]
    rw [if_neg hpr, if_neg hpi, h.v3 p hp]
    simp only [hiff p hpr hpi hp]

theorem SrInv.init {q : Nat} (hq : 0 < q) {x : List T} {b : SrBuf T} (h : SrInv q x 0 b) :
    ∃ b', srColumn0 b = .ok b' ∧ SrInv q x 1 b' := by
  obtain ⟨b', eb, l0, l1, l2, l3, v0, v1, v2, v3⟩ := srColumn0_ok hq h.l0 h.l1 h.l2 h.l3
  have hn : ∀ p, ¬ (p < 0 ∨ q - p < 0) := by intro p; omega
  have hiff : ∀ p, p < q → ((p < 1 ∨ q - p < 1) ↔ p = 0) := by intro p hp; omega
  rw [h.v0 0 hq, h.v2 0 hq, if_neg (hn 0), if_neg (hn 0)] at v0
  rw [h.v1 0 hq, h.v3 0 hq, if_neg (hn 0), if_neg (hn 0)] at v1
  rw [h.v0 0 hq, h.v2 0 hq, if_neg (hn 0), if_neg (hn 0), h.v1 0 hq, h.v3 0 hq, if_neg (hn 0), if_neg (hn 0)] at v2 v3
  refine ⟨b', eb, l0, l1, l2, l3, fun p hp => ?_, fun p hp => ?_, fun p hp => ?_, fun p hp => ?_⟩
  · rw [v0, h.v0 p hp, if_neg (hn p)]
    simp only [hiff p hp]
    split
    · next hp0 => subst hp0; rfl
    · rfl
  · rw [v1, h.v1 p hp, if_neg (hn p)]
    simp only [hiff p hp]
    split
    · next hp0 => subst hp0; rw [srEven, show 2 * q + (q + 0) = 3 * q + 0 by omega]
    · rfl
  · rw [v2, h.v2 p hp, if_neg (hn p)]
    simp only [hiff p hp]
    split
    · next hp0 => subst hp0; simp [srQ1]
    · rfl
  · rw [v3, h.v3 p hp, if_neg (hn p)]
    simp only [hiff p hp]
    split
    · next hp0 => subst hp0; simp [srQ3]
    · rfl

theorem srApplyTwiddles_ok {q : Nat} (hq : 0 < q) {x : List T} (hx : x.length = 4 * q) :
    srApplyTwiddles (4 * q) (srTwiddles T (4 * q)) x
      = .ok (tab (2 * q) (srEven q x) ++ (tab q (srQ1 q x) ++ tab q (srQ3 q x))) := by
  unfold srApplyTwiddles
  rw [show 4 * q / 2 = 2 * q by omega, show 4 * q / 4 = q by omega, show 4 * q / 8 = q / 2 by omega]
  simp only
  rw [splitAt_ok (by omega), ok_bind]
  simp only
  rw [splitAt_ok (by rw [List.length_take]; omega), ok_bind]
  simp only
  rw [splitAt_ok (by rw [List.length_drop]; omega), ok_bind]
  simp only
  have hn : ∀ p, ¬ (p < 0 ∨ q - p < 0) := by intro p; omega
  have hinit : SrInv q x 0
      ⟨(x.take (2 * q)).take q, (x.take (2 * q)).drop q, (x.drop (2 * q)).take q, (x.drop (2 * q)).drop q⟩ := by
    refine ⟨by simp; omega, by simp; omega, by simp; omega, by simp; omega,
      fun p hp => ?_, fun p hp => ?_, fun p hp => ?_, fun p hp => ?_⟩
    · rw [if_neg (hn p), nth_take hp, nth_take (by omega)]
    · rw [if_neg (hn p), nth_drop, nth_take (by omega)]
    · rw [if_neg (hn p), nth_take hp, nth_drop]
    · rw [if_neg (hn p), nth_drop, nth_drop]; congr 1; omega
  obtain ⟨b, eb, hb⟩ := hinit.init hq
  rw [eb, ok_bind]
  obtain ⟨b', e', h'⟩ := forRange_ok (lo := 1) (hi := q / 2 + 1) (s := b)
    (body := srColumn q (srTwiddles T (4 * q))) (fun i b => SrInv q x i b) (by omega) hb
    (fun i c h1 h2 hc => hc.step (by omega) (by omega))
  rw [e', ok_bind]
  congr 1
  have hfin : ∀ p, p < q → (p < q / 2 + 1 ∨ q - p < q / 2 + 1) := fun p hp => by omega
  have t2 : b'.quarter1 = tab q (srQ1 q x) := eq_tab h'.l2 fun p hp => by
    rw [h'.v2 p hp, if_pos (hfin p hp)]
  have t3 : b'.quarter3 = tab q (srQ3 q x) := eq_tab h'.l3 fun p hp => by
    rw [h'.v3 p hp, if_pos (hfin p hp)]
  have t01 : b'.half0 ++ b'.half1 = tab (2 * q) (srEven q x) := by
    refine eq_tab (by rw [List.length_append, h'.l0, h'.l1]; omega) fun p hp => ?_
    by_cases hpq : p < q
    · rw [nth_append_left (by rw [h'.l0]; exact hpq), h'.v0 p hpq, if_pos (hfin p hpq)]
    · rw [nth_append_right (by rw [h'.l0]; omega), h'.l0, h'.v1 (p - q) (by omega), if_pos (hfin _ (by omega)),
        show q + (p - q) = p by omega]
  rw [t2, t3, t01]

/-- The chunk transform of `SplitRadix`. -/
def srFn (q : Nat) (fq fh : List T → List T) (x : List T) : List T :=
  tab (4 * q) fun p =>
    if p % 2 = 0 then nth (fh (tab (2 * q) (srEven q x))) (p / 2)
    else if p % 4 = 1 then nth (fq (tab q (srQ1 q x))) (p / 4)
    else nth (fq (tab q (srQ3 q x))) (p / 4)

theorem sr_interleave_inplace {q : Nat} {e a b tail : List T} (he : e.length = 2 * q) (ha : a.length = q)
    (hb : q ≤ b.length) (ht : tail.length = 2 * q) :
    forList (List.range q).reverse (e ++ tail) (fun i buffer => do
      let v ← getU buffer (i * 2)
      let buffer ← setU buffer (4 * i + 0) v
      let v ← getU buffer (i * 2 + 1)
      let buffer ← setU buffer (4 * i + 2) v
      let v ← getU a i
      let buffer ← setU buffer (4 * i + 1) v
      let v ← getU b i
      setU buffer (4 * i + 3) v)
      = .ok (tab (4 * q) fun p => if p % 2 = 0 then nth e (p / 2) else if p % 4 = 1 then nth a (p / 4)
        else nth b (p / 4)) := by
  obtain ⟨r, er, lr, vr⟩ := forList_ok (xs := (List.range q).reverse) (s := e ++ tail)
    (body := fun i buffer => do
      let v ← getU buffer (i * 2)
      let buffer ← setU buffer (4 * i + 0) v
      let v ← getU buffer (i * 2 + 1)
      let buffer ← setU buffer (4 * i + 2) v
      let v ← getU a i
      let buffer ← setU buffer (4 * i + 1) v
      let v ← getU b i
      setU buffer (4 * i + 3) v)
    (fun j buf => buf.length = 4 * q ∧ ∀ p, p < 4 * q → nth buf p = if 4 * (q - j) ≤ p then
        (if p % 2 = 0 then nth e (p / 2) else if p % 4 = 1 then nth a (p / 4) else nth b (p / 4))
      else nth (e ++ tail) p)
    ⟨by simp; omega, fun p hp => by rw [if_neg (by omega)]⟩
    (by
      rintro j hj buf ⟨hl, hv⟩
      have hj' : j < q := by simpa using hj
      have hk : (List.range q).reverse[j] = q - 1 - j := by
        rw [List.getElem_reverse, List.getElem_range]; simp
      rw [hk]
      obtain ⟨i, hi⟩ : ∃ i, q - 1 - j = i := ⟨_, rfl⟩
      rw [hi]
      have r1 : nth buf (i * 2) = nth e (i * 2) := by
        rw [hv _ (by omega), if_neg (by omega), nth_append_left (by omega)]
      have r2 : nth buf (i * 2 + 1) = nth e (i * 2 + 1) := by
        rw [hv _ (by omega), if_neg (by omega), nth_append_left (by omega)]
      refine ⟨(((buf.set (4 * i + 0) (nth e (i * 2))).set (4 * i + 2) (nth e (i * 2 + 1))).set (4 * i + 1) (nth a i)).set
        (4 * i + 3) (nth b i), ?_, by simpa using hl, fun p hp => ?_⟩
      · rw [getU_nth (l := buf) (by omega), ok_bind, setU_ok (by omega), ok_bind,
          getU_nth (by rw [List.length_set]; omega), ok_bind,
          setU_ok (by rw [List.length_set]; omega), ok_bind, getU_nth (l := a) (by omega), ok_bind,
          setU_ok (by simp only [List.length_set]; omega), ok_bind, getU_nth (l := b) (by omega), ok_bind,
          setU_ok (by simp only [List.length_set]; omega), nth_set (by omega), if_neg (by omega), r1, r2]
      · rw [nth_set (by simp only [List.length_set]; omega), nth_set (by simp only [List.length_set]; omega),
          nth_set (by simp only [List.length_set]; omega), nth_set (by omega), hv p hp]
        by_cases h3 : p = 4 * i + 3
        · rw [if_pos h3, if_pos (by omega), if_neg (by omega), if_neg (by omega)]; congr 1; omega
        by_cases h1 : p = 4 * i + 1
        · rw [if_neg h3, if_pos h1, if_pos (by omega), if_neg (by omega), if_pos (by omega)]; congr 1; omega
        by_cases h2 : p = 4 * i + 2
        · rw [if_neg h3, if_neg h1, if_pos h2, if_pos (by omega), if_pos (by omega)]; congr 1; omega
        by_cases h0 : p = 4 * i + 0
        · rw [if_neg h3, if_neg h1, if_neg h2, if_pos h0, if_pos (by omega), if_pos (by omega)]; congr 1; omega
        rw [if_neg h3, if_neg h1, if_neg h2, if_neg h0]
        by_cases hge : 4 * (q - j) ≤ p
        · rw [if_pos hge, if_pos (show 4 * (q - (j + 1)) ≤ p by omega)]
        · rw [if_neg hge, if_neg (by omega)])
  rw [er]
  congr 1
  refine eq_tab lr fun p hp => ?_
  rw [vr p hp, if_pos (by simp)]

theorem sr_interleave_oop {q : Nat} {e a b out : List T} (he : e.length = 2 * q) (ha : a.length = q)
    (hb : b.length = q) (ho : out.length = 4 * q) :
    forRange 0 (out.length / 4) out (fun i output => do
      let v ← getU e (i * 2)
      let output ← setU output (4 * i + 0) v
      let v ← getU a i
      let output ← setU output (4 * i + 1) v
      let v ← getU e (i * 2 + 1)
      let output ← setU output (4 * i + 2) v
      let v ← getU b i
      setU output (4 * i + 3) v)
      = .ok (tab (4 * q) fun p => if p % 2 = 0 then nth e (p / 2) else if p % 4 = 1 then nth a (p / 4)
        else nth b (p / 4)) := by
  rw [ho, show 4 * q / 4 = q by omega]
  obtain ⟨r, er, lr, vr⟩ := forRange_ok (lo := 0) (hi := q) (s := out)
    (body := fun i output => do
      let v ← getU e (i * 2)
      let output ← setU output (4 * i + 0) v
      let v ← getU a i
      let output ← setU output (4 * i + 1) v
      let v ← getU e (i * 2 + 1)
      let output ← setU output (4 * i + 2) v
      let v ← getU b i
      setU output (4 * i + 3) v)
    (fun j buf => buf.length = 4 * q ∧ ∀ p, p < 4 * j → nth buf p =
        if p % 2 = 0 then nth e (p / 2) else if p % 4 = 1 then nth a (p / 4) else nth b (p / 4))
    (by omega) ⟨ho, fun p hp => by omega⟩
    (by
      rintro i buf _ hi ⟨hl, hv⟩
      refine ⟨(((buf.set (4 * i + 0) (nth e (i * 2))).set (4 * i + 1) (nth a i)).set (4 * i + 2) (nth e (i * 2 + 1))).set
        (4 * i + 3) (nth b i), ?_, by simpa using hl, fun p hp => ?_⟩
      · rw [getU_nth (l := e) (by omega), ok_bind, setU_ok (by omega), ok_bind, getU_nth (l := a) (by omega), ok_bind,
          setU_ok (by simp only [List.length_set]; omega), ok_bind, getU_nth (l := e) (by omega), ok_bind,
          setU_ok (by simp only [List.length_set]; omega), ok_bind, getU_nth (l := b) (by omega), ok_bind,
          setU_ok (by simp only [List.length_set]; omega)]
      · rw [nth_set (by simp only [List.length_set]; omega), nth_set (by simp only [List.length_set]; omega),
          nth_set (by simp only [List.length_set]; omega), nth_set (by omega)]
        by_cases h3 : p = 4 * i + 3
        · rw [if_pos h3, if_neg (by omega), if_neg (by omega)]; congr 1; omega
        by_cases h2 : p = 4 * i + 2
        · rw [if_neg h3, if_pos h2, if_pos (by omega)]; congr 1; omega
        by_cases h1 : p = 4 * i + 1
        · rw [if_neg h3, if_neg h2, if_pos h1, if_neg (by omega), if_pos (by omega)]; congr 1; omega
        by_cases h0 : p = 4 * i + 0
        · rw [if_neg h3, if_neg h2, if_neg h1, if_pos h0, if_pos (by omega)]; congr 1; omega
        rw [if_neg h3, if_neg h2, if_neg h1, if_neg h0]
        exact hv p (by omega))
  rw [er]
  congr 1
  exact eq_tab lr fun p hp => vr p hp

theorem sr_performs {qd hd : Dht T} {fq fh : List T → List T} (iq : Implements qd fq) (ih : Implements hd fh)
    {q : Nat} (hq : qd.len = q) (hh : hd.len = 2 * q) (hpos : 0 < q)
    (hs1 : qd.oopScratchLen = 0) (hs2 : qd.inplaceScratchLen ≤ 4 * q) (hs3 : hd.inplaceScratchLen ≤ 2 * q) :
    Performs (4 * q) (2 * q) 0 (srFn q fq fh) (srPerformInplace qd hd (4 * q) (srTwiddles T (4 * q)))
      (srPerformOop qd hd (4 * q) (srTwiddles T (4 * q))) := by
  have lq := iq.length
  have lh := ih.length
  rw [hq] at lq
  rw [hh] at lh
  have hE : ∀ x : List T, (tab (2 * q) (srEven q x)).length = 2 * q := fun x => length_tab _ _
  have hO : ∀ x : List T, (tab q (srQ1 q x) ++ tab q (srQ3 q x)).length = 2 * q := fun x => by simp; omega
  have hmap : ∀ x : List T, mapChunks q fq (tab q (srQ1 q x) ++ tab q (srQ3 q x))
      = fq (tab q (srQ1 q x)) ++ fq (tab q (srQ3 q x)) := fun x => by
    rw [mapChunks_append (by simp), mapChunks_single hpos (by simp), mapChunks_single hpos (by simp)]
  have l1 : ∀ x : List T, (fq (tab q (srQ1 q x))).length = q := fun x => lq _ (by simp)
  have l3 : ∀ x : List T, (fq (tab q (srQ3 q x))).length = q := fun x => lq _ (by simp)
  have l0 : ∀ x : List T, (fh (tab (2 * q) (srEven q x))).length = 2 * q := fun x => lh _ (by simp)
  refine ⟨fun x _ => by simp [srFn], ?_, ?_⟩
  · intro x s hx hs
    obtain ⟨s1, e1, ls1, _⟩ := ih.inplace (tab (2 * q) (srEven q x)) s (by simp [hh]) (by simp [hh]) (by omega)
    obtain ⟨i2, s2, e2, li2, ls2, _⟩ := iq.oop (tab q (srQ1 q x) ++ tab q (srQ3 q x)) s1 [] (by rw [hO]; omega)
      (by rw [hO, hq]; omega) (by rw [hO, hq]; exact dvd_mul_left _ _) (by omega)
    rw [hh, mapChunks_single (by omega) (hE x)] at e1
    rw [hq, hmap] at e2
    refine ⟨fq (tab q (srQ1 q x)) ++ fq (tab q (srQ3 q x)), ?_, by simp [l1, l3]; omega⟩
    unfold srPerformInplace
    rw [srApplyTwiddles_ok hpos hx, ok_bind]
    simp only [show 4 * q / 2 = 2 * q by omega, show 4 * q / 4 = q by omega]
    rw [splitAt_ok (by simp), ok_bind, List.take_left' (hE x), List.drop_left' (hE x)]
    simp only [e1, e2, ok_bind]
    rw [splitAt_ok (by simp [l1, l3]), ok_bind, List.take_left' (l1 x), List.drop_left' (l1 x)]
    simp only
    rw [sr_interleave_inplace (l0 x) (l1 x) (l3 x).ge (by rw [li2, hO]), ok_bind]
    rfl
  · intro x o s hx ho hs
    obtain ⟨o1, e1, lo1, _⟩ := ih.inplace (tab (2 * q) (srEven q x)) o (by simp [hh]) (by simp [hh]) (by omega)
    obtain ⟨o2, e2, lo2, _⟩ := iq.inplace (tab q (srQ1 q x) ++ tab q (srQ3 q x)) o1
      (by rw [hO, hq]; omega) (by rw [hO, hq]; exact dvd_mul_left _ _) (by omega)
    rw [hh, mapChunks_single (by omega) (hE x)] at e1
    rw [hq, hmap] at e2
    refine ⟨fh (tab (2 * q) (srEven q x)) ++ (fq (tab q (srQ1 q x)) ++ fq (tab q (srQ3 q x))), s, ?_,
      by simp [l0, l1, l3]; omega, hs⟩
    unfold srPerformOop
    rw [srApplyTwiddles_ok hpos hx, ok_bind]
    simp only [show 4 * q / 2 = 2 * q by omega, show 4 * q / 4 = q by omega]
    rw [splitAt_ok (by simp), ok_bind, List.take_left' (hE x), List.drop_left' (hE x)]
    simp only [e1, e2, ok_bind]
    rw [splitAt_ok (by simp [l1, l3]), ok_bind, List.take_left' (l1 x), List.drop_left' (l1 x)]
    simp only
    rw [sr_interleave_oop (l0 x) (l1 x) (l3 x) (by omega), ok_bind]
    rfl

theorem splitRadix_eq {qd hd d : Dht T} (h : splitRadix qd hd = .ok d) :
    hd.len = 2 * qd.len ∧ d = boilerplateDht (4 * qd.len) (2 * qd.len) 0
      (srPerformInplace qd hd (4 * qd.len) (srTwiddles T (4 * qd.len)))
      (srPerformOop qd hd (4 * qd.len) (srTwiddles T (4 * qd.len))) := by
  unfold splitRadix at h
  simp only at h
  by_cases hl : hd.len = qd.len * 2
  · simp [hl] at h
    rw [← h, hl, Nat.mul_comm qd.len 4, Nat.mul_comm qd.len 2]
    exact ⟨rfl, rfl⟩
  · rw [beq_false_of_ne hl, assert_false, panic_bind] at h
    cases h

theorem splitRadix_new {qd hd : Dht T} (h : hd.len = 2 * qd.len) : ∃ d, splitRadix qd hd = .ok d := by
  have hl : hd.len = qd.len * 2 := by omega
  unfold splitRadix
  simp [hl]

theorem splitRadix_implements {qd hd d : Dht T} {fq fh : List T → List T} (iq : Implements qd fq)
    (ih : Implements hd fh) (hd' : splitRadix qd hd = .ok d)
    (hs : 0 < qd.len → qd.oopScratchLen = 0 ∧ qd.inplaceScratchLen ≤ 4 * qd.len ∧
      hd.inplaceScratchLen ≤ 2 * qd.len) : Implements d (srFn qd.len fq fh) := by
  obtain ⟨hlen, rfl⟩ := splitRadix_eq hd'
  refine boilerplateDht_implements (fun h => ?_) (fun h => ?_)
  · obtain ⟨h1, h2, h3⟩ := hs (by omega)
    exact sr_performs iq ih rfl hlen (by omega) h1 h2 h3
  · simp [srFn]; omega

theorem splitRadix_rejects {qd hd d : Dht T} {fq fh : List T → List T} (iq : Implements qd fq)
    (ih : Implements hd fh) (hd' : splitRadix qd hd = .ok d) (hpos : 0 < d.len)
    (hs : qd.oopScratchLen = 0 ∧ qd.inplaceScratchLen ≤ 4 * qd.len ∧
      hd.inplaceScratchLen ≤ 2 * qd.len) : Rejects d := by
  obtain ⟨hlen, rfl⟩ := splitRadix_eq hd'
  have hp : 0 < 4 * qd.len := hpos
  exact boilerplateDht_rejects hp (sr_performs iq ih rfl hlen (by omega) hs.1 hs.2.1 hs.2.2)

end RustDHT
