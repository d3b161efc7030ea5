import Verif.Proofs.Param

/-! # Relational parametricity, part 2: the algorithms -/

set_option linter.unusedSectionVars false

namespace RustDHT

variable {T T' : Type} [Zero T] [Add T] [Sub T] [Mul T] [Neg T] [FftNum T]
  [Zero T'] [Add T'] [Sub T'] [Mul T'] [Neg T'] [FftNum T']

/-- Related complex numbers. -/
structure CxRel (C : T → T' → Prop) (a : Cx T) (b : Cx T') : Prop where
  re : C a.re b.re
  im : C a.im b.im

/-- The operations respect the relations `C` on constants and `R` on data.  Table constants are asked for in the range in
which the crate uses them: angle index below the length. -/
structure Respects (C R : T → T' → Prop) : Prop where
  zero : R 0 0
  add : ∀ {a a' b b'}, R a a' → R b b' → R (a + b) (a' + b')
  sub : ∀ {a a' b b'}, R a a' → R b b' → R (a - b) (a' - b')
  neg : ∀ {a a'}, R a a' → R (-a) (-a')
  cmul : ∀ {c c' a a'}, C c c' → R a a' → R (c * a) (c' * a')
  mulc : ∀ {c c' a a'}, R a a' → C c c' → R (a * c) (a' * c')
  zeroC : C 0 0
  addC : ∀ {a a' b b'}, C a a' → C b b' → C (a + b) (a' + b')
  subC : ∀ {a a' b b'}, C a a' → C b b' → C (a - b) (a' - b')
  negC : ∀ {a a'}, C a a' → C (-a) (-a')
  mulC : ∀ {a a' b b'}, C a a' → C b b' → C (a * b) (a' * b')
  inv : ∀ i n, i < n → CxRel C (computeDftTwiddleInverse T i n) (computeDftTwiddleInverse T' i n)
  fwd : ∀ i n, i < n → CxRel C (computeDftTwiddleForward T i n) (computeDftTwiddleForward T' i n)
  sqrtHalf : C FftNum.sqrtHalfF32 FftNum.sqrtHalfF32
  half : C FftNum.halfF32 FftNum.halfF32
  norm : ∀ n, 0 < n → C (FftNum.fromF64 ((FftNum.f64 (T := T)).div ((FftNum.f64 (T := T)).ofNat 1) ((FftNum.f64 (T := T)).ofNat n)))
    (FftNum.fromF64 ((FftNum.f64 (T := T')).div ((FftNum.f64 (T := T')).ofNat 1) ((FftNum.f64 (T := T')).ofNat n)))

variable {C R : T → T' → Prop}

/-- Constants may be used as data. -/
theorem Respects.const (h : Respects C R) : Respects C C :=
  ⟨h.zeroC, h.addC, h.subC, h.negC, h.mulC, h.mulC, h.zeroC, h.addC, h.subC, h.negC, h.mulC, h.inv, h.fwd, h.sqrtHalf, h.half, h.norm⟩

theorem Respects.dht (h : Respects C R) {i n : Nat} (hi : i < n) : C (computeDhtTwiddle T i n) (computeDhtTwiddle T' i n) :=
  h.addC (h.inv i n hi).re (h.inv i n hi).im

theorem Respects.scaled (h : Respects C R) {i n : Nat} (hi : i < n) :
    CxRel C ((computeDftTwiddleInverse T i n).scale FftNum.sqrtHalfF32) ((computeDftTwiddleInverse T' i n).scale FftNum.sqrtHalfF32) :=
  ⟨h.mulC (h.inv i n hi).re h.sqrtHalf, h.mulC (h.inv i n hi).im h.sqrtHalf⟩

/-- Proves that two expressions of the same shape are related. -/
macro "rel_val" h:ident : tactic => `(tactic| repeat' (first
  | assumption
  | apply Respects.add $h
  | apply Respects.sub $h
  | apply Respects.neg $h
  | (refine Respects.cmul $h (by first | assumption | (apply Respects.negC $h; assumption)) ?_)
  | (refine Respects.mulc $h ?_ (by first | assumption | (apply Respects.negC $h; assumption)))))

/-- Proves that two straight-line programs of the same shape are related. -/
macro "rel_prog" h:ident : tactic => `(tactic| repeat' (first
  | (refine ResRel.bind (load_rel (by assumption) _) ?_; intro _ _ _)
  | (refine ResRel.bind (store_rel (by assumption) _ (by rel_val $h)) ?_; intro _ _ _)
  | exact store_rel (by assumption) _ (by rel_val $h)
  | (refine ResRel.bind (getI_rel (by assumption) _) ?_; intro _ _ _)
  | (refine ResRel.bind (setI_rel (by assumption) _ (by rel_val $h)) ?_; intro _ _ _)
  | exact setI_rel (by assumption) _ (by rel_val $h)
  | (refine ResRel.bind (getU_rel (by assumption) _) ?_; intro _ _ _)
  | (refine ResRel.bind (setU_rel (by assumption) _ (by rel_val $h)) ?_; intro _ _ _)
  | exact setU_rel (by assumption) _ (by rel_val $h)))

theorem contiguous2_rel (h : Respects C R) {m : RawIO T} {m' : RawIO T'} (hm : RawRel R m m') :
    ResRel (RawRel R) (contiguous2 m) (contiguous2 m') := by
  unfold contiguous2
  rel_prog h

theorem contiguous3_rel (h : Respects C R) {m : RawIO T} {m' : RawIO T'} (hm : RawRel R m m') :
    ResRel (RawRel R) (contiguous3 m) (contiguous3 m') := by
  obtain ⟨h1, h2⟩ := h.inv 1 3 (by decide)
  unfold contiguous3
  simp only [strided2]
  rel_prog h

theorem contiguous4_rel (h : Respects C R) {m : RawIO T} {m' : RawIO T'} (hm : RawRel R m m') :
    ResRel (RawRel R) (contiguous4 m) (contiguous4 m') := by
  unfold contiguous4
  simp only [strided2]
  rel_prog h

theorem contiguous5_rel (h : Respects C R) {m : RawIO T} {m' : RawIO T'} (hm : RawRel R m m') :
    ResRel (RawRel R) (contiguous5 m) (contiguous5 m') := by
  obtain ⟨h1, h2⟩ := h.inv 1 5 (by decide)
  obtain ⟨h3, h4⟩ := h.inv 2 5 (by decide)
  unfold contiguous5
  simp only
  rel_prog h

theorem contiguous6_rel (h : Respects C R) {m : RawIO T} {m' : RawIO T'} (hm : RawRel R m m') :
    ResRel (RawRel R) (contiguous6 m) (contiguous6 m') := by
  obtain ⟨h1, h2⟩ := h.inv 1 3 (by decide)
  unfold contiguous6
  simp only [strided2]
  rel_prog h
  refine (performInPlace_rel (fun _ _ hm => contiguous3_rel h hm) (.cons ‹_› (.cons ‹_› (.cons ‹_› .nil)))).bind fun _ _ _ => ?_
  refine (performInPlace_rel (fun _ _ hm => contiguous3_rel h hm) (.cons ‹_› (.cons ‹_› (.cons ‹_› .nil)))).bind fun _ _ _ => ?_
  rel_prog h

theorem contiguous8_rel (h : Respects C R) {m : RawIO T} {m' : RawIO T'} (hm : RawRel R m m') :
    ResRel (RawRel R) (contiguous8 m) (contiguous8 m') := by
  have h1 := h.dht (i := 1) (n := 8) (by decide)
  unfold contiguous8
  simp only [strided2]
  rel_prog h

theorem contiguous9_rel (h : Respects C R) {m : RawIO T} {m' : RawIO T'} (hm : RawRel R m m') :
    ResRel (RawRel R) (contiguous9 m) (contiguous9 m') := by
  obtain ⟨h1, h2⟩ := h.inv 1 9 (by decide)
  obtain ⟨h3, h4⟩ := h.inv 2 9 (by decide)
  obtain ⟨h5, h6⟩ := h.inv 4 9 (by decide)
  obtain ⟨h7, h8⟩ := h.fwd 1 3 (by decide)
  have h9 := h.subC h7 h8
  unfold contiguous9
  simp only
  rel_prog h

theorem contiguous16_rel (h : Respects C R) {m : RawIO T} {m' : RawIO T'} (hm : RawRel R m m') :
    ResRel (RawRel R) (contiguous16 m) (contiguous16 m') := by
  obtain ⟨h1, h2⟩ := h.inv 1 16 (by decide)
  have h3 := h.dht (i := 1) (n := 8) (by decide)
  unfold contiguous16
  simp only [strided2]
  rel_prog h
  refine (performInPlace_rel (fun _ _ hm => contiguous8_rel h hm) ?_).bind fun _ _ hc => ?_
  · repeat' (first | exact .nil | (refine .cons (by rel_val h) ?_))
  refine (forRange_rel rfl hm fun i m m' hm => ?_).bind fun m m' hm => ?_
  · rel_prog h
  refine (performInPlace_rel (fun _ _ hm => contiguous4_rel h hm) ?_).bind fun _ _ hp => ?_
  · repeat' (first | exact .nil | (refine .cons (by rel_val h) ?_))
  refine (performInPlace_rel (fun _ _ hm => contiguous4_rel h hm) ?_).bind fun _ _ hq => ?_
  · repeat' (first | exact .nil | (refine .cons (by rel_val h) ?_))
  refine forRange_rel rfl hm fun i m m' hm => ?_
  refine (getI_rel hp _).bind fun _ _ _ => ?_
  refine (store_rel hm _ ‹_›).bind fun _ _ _ => ?_
  refine (getI_rel hq _).bind fun _ _ _ => ?_
  exact store_rel ‹_› _ ‹_›

/-! ## Leaves -/

theorem dhtNaive_rel (h : Respects C R) (n : Nat) : DhtRel R (dhtNaive T n) (dhtNaive T' n) := by
  have htw : LR C (naiveTwiddles T n) (naiveTwiddles T' n) :=
    LR.table fun i hi => h.dht (List.mem_range.1 hi)
  unfold dhtNaive
  simp only
  rw [htw.length]
  refine boilerplateDhtOop_rel fun i i' o o' hi ho => ?_
  unfold naivePerform
  refine forRange_rel ho.length ho fun k o o' ho => ?_
  refine ResRel.bind (P := R) ?_ fun _ _ hv => setI_rel ho _ hv
  unfold naiveInner
  refine (forList_rel (S := PR R Eq) hi ⟨h.zero, rfl⟩ ?_).bind ?_
  · rintro a a' ⟨v, j⟩ ⟨v', j'⟩ ha ⟨hv, hj⟩
    simp only at hv hj
    subst hj
    refine (getI_rel htw j).bind fun t t' ht => ?_
    rw [htw.length]
    exact .ok ⟨h.add hv (h.cmul ht ha), rfl⟩
  · rintro ⟨v, j⟩ ⟨v', j'⟩ ⟨hv, _⟩
    exact .ok hv

theorem butterfly1_rel : DhtRel R (butterfly1 T) (butterfly1 T') := by
  refine ⟨rfl, rfl, rfl, fun b b' s s' hb hs => .ok ⟨hb, hs⟩, fun i i' o o' s s' hi ho hs => ?_⟩
  simp only [butterfly1]
  rw [hi.length, ho.length]
  split
  · exact .ok ⟨hi, hi, hs⟩
  · exact .error _

/-! ## MixedRadix -/

theorem mrTwiddles_rel (h : Respects C R) (w l : Nat) : LR (CxRel C) (mrTwiddles T w l) (mrTwiddles T' w l) := by
  refine LR.flatTable fun r hr => LR.table fun c hc => h.scaled ?_
  rw [List.mem_range'_1] at hr hc
  have h1 : 2 * r * (2 * c) ≤ w * l := Nat.mul_le_mul (by omega) (by omega)
  have h2 : 2 * r * (2 * c) = 4 * (r * c) := by rw [Nat.mul_mul_mul_comm]
  have h3 : 0 < w * l := Nat.mul_pos (by omega) (by omega)
  omega

theorem mrCell_rel (h : Respects C R) (w l r c : Nat) {t : Cx T} {t' : Cx T'} (ht : CxRel C t t') {b : List T} {b' : List T'}
    (hb : LR R b b') : ResRel (LR R) (mrCell w l r c t b) (mrCell w l r c t' b') := by
  obtain ⟨h1, h2⟩ := ht
  unfold mrCell
  simp only
  rel_prog h

theorem mrMidCell_rel (h : Respects C R) (l r c : Nat) {t : Cx T} {t' : Cx T'} (ht : CxRel C t t') {b : List T} {b' : List T'}
    (hb : LR R b b') : ResRel (LR R) (mrMidCell l r c t b) (mrMidCell l r c t' b') := by
  obtain ⟨h1, h2⟩ := ht
  unfold mrMidCell
  simp only
  rel_prog h

theorem mrApplyTwiddles_rel (h : Respects C R) (w l : Nat) {tw : List (Cx T)} {tw' : List (Cx T')} (ht : LR (CxRel C) tw tw')
    {b : List T} {b' : List T'} (hb : LR R b b') : ResRel (LR R) (mrApplyTwiddles w l tw b) (mrApplyTwiddles w l tw' b') := by
  unfold mrApplyTwiddles
  simp only
  split
  · exact .ok hb
  · refine (chunksExact_rel _ ht).bind fun cs cs' hcs => ?_
    refine (forList_rel (hcs.zip _) hb ?_).bind fun b b' hb => ?_
    · rintro ⟨r, c⟩ ⟨r', c'⟩ b b' ⟨hr, hc⟩ hb
      simp only at hr hc
      subst hr
      refine forList_rel (LR.zip _ hc) hb ?_
      rintro ⟨k, t⟩ ⟨k', t'⟩ b b' ⟨hk, ht⟩ hb
      simp only at hk ht
      subst hk
      exact mrCell_rel h _ _ _ _ ht hb
    · split
      · have hd := hcs.drop ((List.range' 1 ((w + 1) / 2 - 1)).zip cs').length
        rw [(hcs.zip (List.range' 1 ((w + 1) / 2 - 1))).length]
        revert hd
        generalize cs.drop _ = e
        generalize cs'.drop _ = e'
        intro hd
        cases hd with
        | nil => exact .error _
        | cons hc _ =>
          refine forList_rel (LR.zip _ hc) hb ?_
          rintro ⟨k, t⟩ ⟨k', t'⟩ b b' ⟨hk, ht⟩ hb
          simp only at hk ht
          subst hk
          exact mrMidCell_rel h _ _ _ ht hb
      · exact .ok hb

theorem mrPerformInplace_rel (h : Respects C R) {wd hd : Dht T} {wd' hd' : Dht T'} (hw : DhtRel R wd wd') (hh : DhtRel R hd hd')
    (w l n : Nat) {tw : List (Cx T)} {tw' : List (Cx T')} (ht : LR (CxRel C) tw tw') {b s : List T} {b' s' : List T'}
    (hb : LR R b b') (hs : LR R s s') :
    ResRel (PR (LR R) (LR R)) (mrPerformInplace wd hd w l n tw b s) (mrPerformInplace wd' hd' w l n tw' b' s') := by
  unfold mrPerformInplace
  refine (splitAt_rel hs n).bind ?_
  rintro ⟨s, e⟩ ⟨s', e'⟩ ⟨hs, he⟩
  refine (transpose_rel hb hs w l).bind fun s s' hs => ?_
  refine (reverseChunksFrom_rel hs _ _).bind fun s s' hs => ?_
  extract_lets jp jp'
  have hjp : ∀ x x', PR (LR R) (PR (LR R) (LR R)) x x' → ResRel (PR (LR R) (LR R)) (jp x) (jp' x') := by
    rintro ⟨s, b, e⟩ ⟨s', b', e'⟩ ⟨hs, hb, he⟩
    refine (mrApplyTwiddles_rel h w l ht hs).bind fun s s' hs => ?_
    refine (transpose_rel hs hb _ _).bind fun b b' hb => ?_
    refine (hw.oop _ _ _ _ _ _ hb hs he).bind ?_
    rintro ⟨b, s, e⟩ ⟨b', s', e'⟩ ⟨hb, hs, he⟩
    refine (reverseChunksFrom_rel hs _ _).bind fun s s' hs => ?_
    refine (transpose_rel hs hb _ _).bind fun b b' hb => ?_
    exact .ok ⟨hb, LR.append hs he⟩
  simp only at he
  rw [LR.length he, hb.length]
  split
  · refine (hh.inplace _ _ _ _ hs he).bind ?_
    rintro ⟨s, e⟩ ⟨s', e'⟩ ⟨hs, he⟩
    exact hjp (_, _, _) (_, _, _) ⟨hs, hb, he⟩
  · refine (hh.inplace _ _ _ _ hs hb).bind ?_
    rintro ⟨s, b⟩ ⟨s', b'⟩ ⟨hs, hb⟩
    exact hjp (_, _, _) (_, _, _) ⟨hs, hb, he⟩

theorem mrPerformOop_rel (h : Respects C R) {wd hd : Dht T} {wd' hd' : Dht T'} (hw : DhtRel R wd wd') (hh : DhtRel R hd hd')
    (w l : Nat) {tw : List (Cx T)} {tw' : List (Cx T')} (ht : LR (CxRel C) tw tw') {i o s : List T} {i' o' s' : List T'}
    (hi : LR R i i') (ho : LR R o o') (hs : LR R s s') :
    ResRel (PR (LR R) (PR (LR R) (LR R))) (mrPerformOop wd hd w l tw i o s) (mrPerformOop wd' hd' w l tw' i' o' s') := by
  unfold mrPerformOop
  refine (transpose_rel hi ho w l).bind fun o o' ho => ?_
  refine (reverseChunksFrom_rel ho _ _).bind fun o o' ho => ?_
  extract_lets jp jq jp' jq'
  have hjp : ∀ x x', PR (LR R) (PR (LR R) (LR R)) x x' → ResRel (PR (LR R) (PR (LR R) (LR R))) (jp x) (jp' x') := by
    rintro ⟨i, o, s⟩ ⟨i', o', s'⟩ ⟨hi, ho, hs⟩
    refine (reverseChunksFrom_rel hi _ _).bind fun i i' hi => ?_
    refine (transpose_rel hi ho _ _).bind fun o o' ho => ?_
    exact .ok ⟨hi, ho, hs⟩
  have hjq : ∀ x x', PR (LR R) (PR (LR R) (LR R)) x x' → ResRel (PR (LR R) (PR (LR R) (LR R))) (jq x) (jq' x') := by
    rintro ⟨i, o, s⟩ ⟨i', o', s'⟩ ⟨hi, ho, hs⟩
    refine (mrApplyTwiddles_rel h w l ht ho).bind fun o o' ho => ?_
    refine (transpose_rel ho hi _ _).bind fun i i' hi => ?_
    simp only at hs
    rw [ho.length, hs.length]
    split
    · refine (hw.inplace _ _ _ _ hi hs).bind ?_
      rintro ⟨i, s⟩ ⟨i', s'⟩ ⟨hi, hs⟩
      exact hjp (_, _, _) (_, _, _) ⟨hi, ho, hs⟩
    · refine (hw.inplace _ _ _ _ hi ho).bind ?_
      rintro ⟨i, o⟩ ⟨i', o'⟩ ⟨hi, ho⟩
      exact hjp (_, _, _) (_, _, _) ⟨hi, ho, hs⟩
  rw [hi.length, hs.length]
  split
  · refine (hh.inplace _ _ _ _ ho hs).bind ?_
    rintro ⟨o, s⟩ ⟨o', s'⟩ ⟨ho, hs⟩
    exact hjq (_, _, _) (_, _, _) ⟨hi, ho, hs⟩
  · refine (hh.inplace _ _ _ _ ho hi).bind ?_
    rintro ⟨o, i⟩ ⟨o', i'⟩ ⟨ho, hi⟩
    exact hjq (_, _, _) (_, _, _) ⟨hi, ho, hs⟩

theorem mixedRadix_rel (h : Respects C R) {wd hd : Dht T} {wd' hd' : Dht T'} (hw : DhtRel R wd wd') (hh : DhtRel R hd hd') :
    DhtRel R (mixedRadix wd hd) (mixedRadix wd' hd') := by
  unfold mixedRadix mrInplaceScratch mrOopScratch
  simp only
  rw [hw.len, hh.len, hw.inplaceScratchLen, hh.inplaceScratchLen, hw.oopScratchLen]
  refine boilerplateDht_rel (fun _ b b' s s' hb hs => ?_) (fun _ i i' o o' s s' hi ho hs => ?_)
  · exact mrPerformInplace_rel h hw hh _ _ _ (mrTwiddles_rel h _ _) hb hs
  · exact mrPerformOop_rel h hw hh _ _ (mrTwiddles_rel h _ _) hi ho hs

/-! ## MixedRadixNxn -/

theorem getCol_rel (k l : Nat) {b : List T} {b' : List T'} (hb : LR R b b') (c : Nat) :
    ResRel (LR R) (getCol k l b c) (getCol k l b' c) := by
  refine mapM_rel _ fun r => ?_
  unfold rowGet
  split
  · exact getI_rel hb _
  · exact .error _

theorem setCol_rel (l c : Nat) {v : List T} {v' : List T'} (hv : LR R v v') (r : Nat) {b : List T} {b' : List T'} (hb : LR R b b') :
    ResRel (LR R) (setCol l c r v b) (setCol l c r v' b') := by
  induction hv generalizing r b b' with
  | nil => exact .ok hb
  | cons hx _ ih =>
    unfold setCol rowSet
    refine ResRel.bind (P := LR R) ?_ fun b b' hb => ih (r + 1) hb
    split
    · exact setI_rel hb _ hx
    · exact .error _

/-- Related kernels. -/
def KernelRel (C R : T → T' → Prop) (k : List (Cx T) → List T → List T → Res (List T × List T))
    (k' : List (Cx T') → List T' → List T' → Res (List T' × List T')) : Prop :=
  ∀ t t' a a' b b', LR (CxRel C) t t' → LR R a a' → LR R b b' → ResRel (PR (LR R) (LR R)) (k t a b) (k' t' a' b')

theorem applyColumns_rel {k l : Nat} {c0 : List T → Res (List T)} {c0' : List T' → Res (List T')}
    (h0 : ∀ b b', LR R b b' → ResRel (LR R) (c0 b) (c0' b')) {kn : List (Cx T) → List T → List T → Res (List T × List T)}
    {kn' : List (Cx T') → List T' → List T' → Res (List T' × List T')} (hk : KernelRel C R kn kn')
    {tw : List (List (Cx T))} {tw' : List (List (Cx T'))} (ht : LR (LR (CxRel C)) tw tw') {b : List T} {b' : List T'} (hb : LR R b b') :
    ResRel (LR R) (applyColumns k l c0 kn tw b) (applyColumns k l c0' kn' tw' b') := by
  unfold applyColumns
  rw [hb.length]
  by_cases h1 : l = 0
  · rw [if_pos h1, if_pos h1]; exact .error _
  · by_cases h2 : b'.length / l < k
    · rw [if_neg h1, if_neg h1, if_pos h2, if_pos h2]; exact .error _
    · rw [if_neg h1, if_neg h1, if_neg h2, if_neg h2]
      refine (getCol_rel k l hb 0).bind fun c c' hc => ?_
      refine (h0 c c' hc).bind fun c c' hc => ?_
      refine (setCol_rel l 0 hc 0 hb).bind fun b b' hb => ?_
      refine forList_rel (LR.zip _ ht) hb ?_
      rintro ⟨j, t⟩ ⟨j', t'⟩ b b' ⟨hj, ht⟩ hb
      simp only at hj ht
      subst hj
      refine (getCol_rel k l hb _).bind fun f f' hf => ?_
      refine (getCol_rel k l hb _).bind fun r r' hr => ?_
      refine (hk _ _ _ _ _ _ ht hf hr).bind ?_
      rintro ⟨x, y⟩ ⟨x', y'⟩ ⟨hx, hy⟩
      exact (setCol_rel l _ hx 0 hb).bind fun b b' hb => setCol_rel l _ hy 0 hb

theorem mixedRadixN_rel (k : Nat) {hd : Dht T} {hd' : Dht T'} (hh : DhtRel R hd hd') {ap : List T → Res (List T)}
    {ap' : List T' → Res (List T')} (ha : ∀ b b', LR R b b' → ResRel (LR R) (ap b) (ap' b')) :
    DhtRel R (mixedRadixN k hd ap) (mixedRadixN k hd' ap') := by
  unfold mixedRadixN mrnInplaceScratch mrnOopScratch
  simp only
  rw [hh.len, hh.inplaceScratchLen]
  refine boilerplateDht_rel (fun _ b b' s s' hb hs => ?_) (fun _ i i' o o' s s' hi ho hs => ?_)
  · unfold mrnPerformInplace
    refine (transposeHalfRevOut_rel hb hs _ _).bind fun s s' hs => ?_
    refine (hh.oop _ _ _ _ _ _ hs hb .nil).bind ?_
    rintro ⟨s, b, _⟩ ⟨s', b', _⟩ ⟨hs, hb, _⟩
    exact (ha _ _ hb).bind fun b b' hb => .ok ⟨hb, hs⟩
  · unfold mrnPerformOop
    refine (transposeHalfRevOut_rel hi ho _ _).bind fun o o' ho => ?_
    refine (hh.inplace _ _ _ _ ho hi).bind ?_
    rintro ⟨o, i⟩ ⟨o', i'⟩ ⟨ho, hi⟩
    exact (ha _ _ ho).bind fun o o' ho => .ok ⟨hi, ho, hs⟩

theorem mr2Kernel_rel (h : Respects C R) : KernelRel C R (mr2Kernel (T := T)) (mr2Kernel (T := T')) := by
  intro t t' a a' b b' ht ha hb
  unfold mr2Kernel
  simp only [strided2]
  refine (getI_rel ht 0).bind fun t0 t0' h0 => ?_
  obtain ⟨h1, h2⟩ := h0
  refine (getI_rel ha _).bind fun _ _ _ => ?_
  refine (getI_rel hb _).bind fun _ _ _ => ?_
  refine (getI_rel ha _).bind fun _ _ _ => ?_
  refine (getI_rel hb _).bind fun _ _ _ => ?_
  exact .ok ⟨.cons (by rel_val h) (.cons (by rel_val h) .nil), .cons (by rel_val h) (.cons (by rel_val h) .nil)⟩

theorem mr4Kernel_rel (h : Respects C R) : KernelRel C R (mr4Kernel (T := T)) (mr4Kernel (T := T')) := by
  intro t t' a a' b b' ht ha hb
  unfold mr4Kernel
  simp only [strided2]
  refine (getI_rel ht 0).bind fun t0 t0' h0 => ?_
  obtain ⟨h1, h2⟩ := h0
  refine (getI_rel ht 1).bind fun t1 t1' h0 => ?_
  obtain ⟨h3, h4⟩ := h0
  refine (getI_rel ha _).bind fun _ _ _ => ?_
  refine (getI_rel hb _).bind fun _ _ _ => ?_
  refine (getI_rel ha _).bind fun _ _ _ => ?_
  refine (getI_rel hb _).bind fun _ _ _ => ?_
  refine (getI_rel ha _).bind fun _ _ _ => ?_
  refine (getI_rel hb _).bind fun _ _ _ => ?_
  refine (getI_rel ha _).bind fun _ _ _ => ?_
  refine (getI_rel hb _).bind fun _ _ _ => ?_
  exact .ok ⟨.cons (by rel_val h) (.cons (by rel_val h) (.cons (by rel_val h) (.cons (by rel_val h) .nil))),
    .cons (by rel_val h) (.cons (by rel_val h) (.cons (by rel_val h) (.cons (by rel_val h) .nil)))⟩

/-- Lists of related values. -/
macro "rel_list" h:ident : tactic => `(tactic| repeat' (first | exact List.Forall₂.nil | (refine List.Forall₂.cons (by rel_val $h) ?_)))

theorem mr3Kernel_rel (h : Respects C R) : KernelRel C R (mr3Kernel (T := T)) (mr3Kernel (T := T')) := by
  intro t t' a a' b b' ht ha hb
  unfold mr3Kernel
  simp only
  refine (getI_rel ht 0).bind fun t0 t0' h0 => ?_
  obtain ⟨h1, h2⟩ := h0
  refine (getI_rel ha _).bind fun _ _ _ => ?_
  refine (getI_rel hb _).bind fun _ _ _ => ?_
  refine (getI_rel ha _).bind fun _ _ _ => ?_
  refine (getI_rel hb _).bind fun _ _ _ => ?_
  refine (getI_rel ha _).bind fun _ _ _ => ?_
  refine (getI_rel hb _).bind fun _ _ _ => ?_
  refine (performInPlace_rel (fun _ _ hm => contiguous3_rel h hm) (by rel_list h)).bind fun f f' hf => ?_
  refine (performInPlace_rel (fun _ _ hm => contiguous3_rel h hm) (by rel_list h)).bind fun r r' hr => ?_
  refine (getI_rel hf _).bind fun _ _ _ => ?_
  refine (getI_rel hf _).bind fun _ _ _ => ?_
  refine (getI_rel hf _).bind fun _ _ _ => ?_
  refine (getI_rel hr _).bind fun _ _ _ => ?_
  refine (getI_rel hr _).bind fun _ _ _ => ?_
  refine (getI_rel hr _).bind fun _ _ _ => ?_
  exact .ok ⟨by rel_list h, by rel_list h⟩

theorem mr5Kernel_rel (h : Respects C R) : KernelRel C R (mr5Kernel (T := T)) (mr5Kernel (T := T')) := by
  intro t t' a a' b b' ht ha hb
  unfold mr5Kernel
  simp only
  refine (getI_rel ht 0).bind fun t0 t0' h0 => ?_
  obtain ⟨h1, h2⟩ := h0
  refine (getI_rel ht 1).bind fun t1 t1' h0 => ?_
  obtain ⟨h3, h4⟩ := h0
  refine (getI_rel ha _).bind fun _ _ _ => ?_
  refine (getI_rel hb _).bind fun _ _ _ => ?_
  refine (getI_rel ha _).bind fun _ _ _ => ?_
  refine (getI_rel hb _).bind fun _ _ _ => ?_
  refine (getI_rel ha _).bind fun _ _ _ => ?_
  refine (getI_rel hb _).bind fun _ _ _ => ?_
  refine (getI_rel ha _).bind fun _ _ _ => ?_
  refine (getI_rel hb _).bind fun _ _ _ => ?_
  refine (getI_rel ha _).bind fun _ _ _ => ?_
  refine (getI_rel hb _).bind fun _ _ _ => ?_
  refine (performInPlace_rel (fun _ _ hm => contiguous5_rel h hm) (by rel_list h)).bind fun f f' hf => ?_
  refine (performInPlace_rel (fun _ _ hm => contiguous5_rel h hm) (by rel_list h)).bind fun r r' hr => ?_
  refine (getI_rel hf _).bind fun _ _ _ => ?_
  refine (getI_rel hf _).bind fun _ _ _ => ?_
  refine (getI_rel hf _).bind fun _ _ _ => ?_
  refine (getI_rel hf _).bind fun _ _ _ => ?_
  refine (getI_rel hf _).bind fun _ _ _ => ?_
  refine (getI_rel hr _).bind fun _ _ _ => ?_
  refine (getI_rel hr _).bind fun _ _ _ => ?_
  refine (getI_rel hr _).bind fun _ _ _ => ?_
  refine (getI_rel hr _).bind fun _ _ _ => ?_
  refine (getI_rel hr _).bind fun _ _ _ => ?_
  exact .ok ⟨by rel_list h, by rel_list h⟩

theorem mr6Kernel_rel (h : Respects C R) : KernelRel C R (mr6Kernel (T := T)) (mr6Kernel (T := T')) := by
  intro t t' a a' b b' ht ha hb
  unfold mr6Kernel
  simp only
  refine (getI_rel ht 0).bind fun t0 t0' h0 => ?_
  obtain ⟨h1, h2⟩ := h0
  refine (getI_rel ht 1).bind fun t1 t1' h0 => ?_
  obtain ⟨h3, h4⟩ := h0
  refine (getI_rel ht 2).bind fun t2 t2' h0 => ?_
  obtain ⟨h5, h6⟩ := h0
  refine (getI_rel ha _).bind fun _ _ _ => ?_
  refine (getI_rel hb _).bind fun _ _ _ => ?_
  refine (getI_rel ha _).bind fun _ _ _ => ?_
  refine (getI_rel hb _).bind fun _ _ _ => ?_
  refine (getI_rel ha _).bind fun _ _ _ => ?_
  refine (getI_rel hb _).bind fun _ _ _ => ?_
  refine (getI_rel ha _).bind fun _ _ _ => ?_
  refine (getI_rel hb _).bind fun _ _ _ => ?_
  refine (getI_rel ha _).bind fun _ _ _ => ?_
  refine (getI_rel hb _).bind fun _ _ _ => ?_
  refine (getI_rel ha _).bind fun _ _ _ => ?_
  refine (getI_rel hb _).bind fun _ _ _ => ?_
  refine (performInPlace_rel (fun _ _ hm => contiguous6_rel h hm) (by rel_list h)).bind fun f f' hf => ?_
  refine (performInPlace_rel (fun _ _ hm => contiguous6_rel h hm) (by rel_list h)).bind fun r r' hr => ?_
  refine (getI_rel hf _).bind fun _ _ _ => ?_
  refine (getI_rel hf _).bind fun _ _ _ => ?_
  refine (getI_rel hf _).bind fun _ _ _ => ?_
  refine (getI_rel hf _).bind fun _ _ _ => ?_
  refine (getI_rel hf _).bind fun _ _ _ => ?_
  refine (getI_rel hf _).bind fun _ _ _ => ?_
  refine (getI_rel hr _).bind fun _ _ _ => ?_
  refine (getI_rel hr _).bind fun _ _ _ => ?_
  refine (getI_rel hr _).bind fun _ _ _ => ?_
  refine (getI_rel hr _).bind fun _ _ _ => ?_
  refine (getI_rel hr _).bind fun _ _ _ => ?_
  refine (getI_rel hr _).bind fun _ _ _ => ?_
  exact .ok ⟨by rel_list h, by rel_list h⟩

theorem mixedRadix2xn_rel (h : Respects C R) {hd : Dht T} {hd' : Dht T'} (hh : DhtRel R hd hd') :
    DhtRel R (mixedRadix2xn hd) (mixedRadix2xn hd') := by
  unfold mixedRadix2xn
  simp only
  rw [hh.len]
  refine mixedRadixN_rel 2 hh fun b b' hb => applyColumns_rel
    (fun b b' hb => performInPlace_rel (fun _ _ hm => contiguous2_rel h hm) hb) (mr2Kernel_rel h) ?_ hb
  refine LR.map (P := CxRel C) (LR.table fun c hc => h.inv _ _ ?_) fun _ _ h => .cons h .nil
  rw [List.mem_range'_1] at hc
  omega

theorem mixedRadix3xn_rel (h : Respects C R) {hd : Dht T} {hd' : Dht T'} (hh : DhtRel R hd hd') :
    DhtRel R (mixedRadix3xn hd) (mixedRadix3xn hd') := by
  unfold mixedRadix3xn
  simp only
  rw [hh.len]
  refine mixedRadixN_rel 3 hh fun b b' hb => applyColumns_rel
    (fun b b' hb => performInPlace_rel (fun _ _ hm => contiguous3_rel h hm) hb) (mr3Kernel_rel h) ?_ hb
  refine LR.map (P := CxRel C) (LR.table fun c hc => h.scaled ?_) fun _ _ h => .cons h .nil
  rw [List.mem_range'_1] at hc
  omega

theorem mixedRadix4xn_rel (h : Respects C R) {hd : Dht T} {hd' : Dht T'} (hh : DhtRel R hd hd') :
    DhtRel R (mixedRadix4xn hd) (mixedRadix4xn hd') := by
  unfold mixedRadix4xn
  simp only
  rw [hh.len]
  refine mixedRadixN_rel 4 hh fun b b' hb => applyColumns_rel
    (fun b b' hb => performInPlace_rel (fun _ _ hm => contiguous4_rel h hm) hb) (mr4Kernel_rel h) ?_ hb
  refine chunksExactAux_rel _ _ _ (LR.flatTable fun c hc => ?_)
  rw [List.mem_range'_1] at hc
  exact .cons (h.inv _ _ (by omega)) (.cons (h.inv _ _ (by omega)) .nil)

theorem mixedRadix5xn_rel (h : Respects C R) {hd : Dht T} {hd' : Dht T'} (hh : DhtRel R hd hd') :
    DhtRel R (mixedRadix5xn hd) (mixedRadix5xn hd') := by
  unfold mixedRadix5xn
  simp only
  rw [hh.len]
  refine mixedRadixN_rel 5 hh fun b b' hb => applyColumns_rel
    (fun b b' hb => performInPlace_rel (fun _ _ hm => contiguous5_rel h hm) hb) (mr5Kernel_rel h) ?_ hb
  refine chunksExactAux_rel _ _ _ (LR.flatTable fun c hc => ?_)
  rw [List.mem_range'_1] at hc
  exact .cons (h.scaled (by omega)) (.cons (h.scaled (by omega)) .nil)

theorem mixedRadix6xn_rel (h : Respects C R) {hd : Dht T} {hd' : Dht T'} (hh : DhtRel R hd hd') :
    DhtRel R (mixedRadix6xn hd) (mixedRadix6xn hd') := by
  unfold mixedRadix6xn
  simp only
  rw [hh.len]
  refine mixedRadixN_rel 6 hh fun b b' hb => applyColumns_rel
    (fun b b' hb => performInPlace_rel (fun _ _ hm => contiguous6_rel h hm) hb) (mr6Kernel_rel h) ?_ hb
  refine chunksExactAux_rel _ _ _ (LR.flatTable fun c hc => ?_)
  rw [List.mem_range'_1] at hc
  exact .cons (h.scaled (by omega)) (.cons (h.scaled (by omega)) (.cons (h.scaled (by omega)) .nil))

end RustDHT
