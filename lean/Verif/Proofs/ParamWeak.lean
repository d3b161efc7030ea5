import Verif.Proofs.ParamPlan

/-! # Relational parametricity for constants that cannot be added

The lemmas of `ParamAlg` and `ParamPlan` once more, for relations on constants that hold for the constants of the crate but
are not closed under addition and multiplication, such as a bound of their size. -/

set_option linter.unusedSectionVars false

namespace RustDHT

namespace Weak

variable {T T' : Type} [Zero T] [Add T] [Sub T] [Mul T] [Neg T] [FftNum T]
  [Zero T'] [Add T'] [Sub T'] [Mul T'] [Neg T'] [FftNum T']

/-- As `RustDHT.Respects`, but only the sums and products of constants that occur outside of `RadersAlgorithm::new` are related. -/
structure Respects (C R : T → T' → Prop) : Prop where
  zero : R 0 0
  add : ∀ {a a' b b'}, R a a' → R b b' → R (a + b) (a' + b')
  sub : ∀ {a a' b b'}, R a a' → R b b' → R (a - b) (a' - b')
  neg : ∀ {a a'}, R a a' → R (-a) (-a')
  cmul : ∀ {c c' a a'}, C c c' → R a a' → R (c * a) (c' * a')
  mulc : ∀ {c c' a a'}, R a a' → C c c' → R (a * c) (a' * c')
  negC : ∀ {a a'}, C a a' → C (-a) (-a')
  inv : ∀ i n, i < n → CxRel C (computeDftTwiddleInverse T i n) (computeDftTwiddleInverse T' i n)
  fwd : ∀ i n, i < n → CxRel C (computeDftTwiddleForward T i n) (computeDftTwiddleForward T' i n)
  dht : ∀ {i n : Nat}, i < n → C (computeDhtTwiddle T i n) (computeDhtTwiddle T' i n)
  scaled : ∀ {i n : Nat}, i < n → CxRel C ((computeDftTwiddleInverse T i n).scale FftNum.sqrtHalfF32)
    ((computeDftTwiddleInverse T' i n).scale FftNum.sqrtHalfF32)
  third : C ((computeDftTwiddleForward T 1 3).re - (computeDftTwiddleForward T 1 3).im)
    ((computeDftTwiddleForward T' 1 3).re - (computeDftTwiddleForward T' 1 3).im)

variable {C R : T → T' → Prop}

/-- Proves that two expressions of the same shape are related. -/
macro "rel_val_w" h:ident : tactic => `(tactic| repeat' (first
  | assumption
  | apply Respects.add $h
  | apply Respects.sub $h
  | apply Respects.neg $h
  | (refine Respects.cmul $h (by first | assumption | (apply Respects.negC $h; assumption)) ?_)
  | (refine Respects.mulc $h ?_ (by first | assumption | (apply Respects.negC $h; assumption)))))

/-- Proves that two straight-line programs of the same shape are related. -/
macro "rel_prog_w" h:ident : tactic => `(tactic| repeat' (first
  | (refine ResRel.bind (load_rel (by assumption) _) ?_; intro _ _ _)
  | (refine ResRel.bind (store_rel (by assumption) _ (by rel_val_w $h)) ?_; intro _ _ _)
  | exact store_rel (by assumption) _ (by rel_val_w $h)
  | (refine ResRel.bind (getI_rel (by assumption) _) ?_; intro _ _ _)
  | (refine ResRel.bind (setI_rel (by assumption) _ (by rel_val_w $h)) ?_; intro _ _ _)
  | exact setI_rel (by assumption) _ (by rel_val_w $h)
  | (refine ResRel.bind (getU_rel (by assumption) _) ?_; intro _ _ _)
  | (refine ResRel.bind (setU_rel (by assumption) _ (by rel_val_w $h)) ?_; intro _ _ _)
  | exact setU_rel (by assumption) _ (by rel_val_w $h)))

theorem contiguous2_rel (h : Respects C R) {m : RawIO T} {m' : RawIO T'} (hm : RawRel R m m') :
    ResRel (RawRel R) (contiguous2 m) (contiguous2 m') := by
  unfold contiguous2
  rel_prog_w h

theorem contiguous3_rel (h : Respects C R) {m : RawIO T} {m' : RawIO T'} (hm : RawRel R m m') :
    ResRel (RawRel R) (contiguous3 m) (contiguous3 m') := by
  obtain ⟨h1, h2⟩ := h.inv 1 3 (by decide)
  unfold contiguous3
  simp only [strided2]
  rel_prog_w h

theorem contiguous4_rel (h : Respects C R) {m : RawIO T} {m' : RawIO T'} (hm : RawRel R m m') :
    ResRel (RawRel R) (contiguous4 m) (contiguous4 m') := by
  unfold contiguous4
  simp only [strided2]
  rel_prog_w h

theorem contiguous5_rel (h : Respects C R) {m : RawIO T} {m' : RawIO T'} (hm : RawRel R m m') :
    ResRel (RawRel R) (contiguous5 m) (contiguous5 m') := by
  obtain ⟨h1, h2⟩ := h.inv 1 5 (by decide)
  obtain ⟨h3, h4⟩ := h.inv 2 5 (by decide)
  unfold contiguous5
  simp only
  rel_prog_w h

theorem contiguous6_rel (h : Respects C R) {m : RawIO T} {m' : RawIO T'} (hm : RawRel R m m') :
    ResRel (RawRel R) (contiguous6 m) (contiguous6 m') := by
  obtain ⟨h1, h2⟩ := h.inv 1 3 (by decide)
  unfold contiguous6
  simp only [strided2]
  rel_prog_w h
  refine (performInPlace_rel (fun _ _ hm => contiguous3_rel h hm) (.cons ‹_› (.cons ‹_› (.cons ‹_› .nil)))).bind fun _ _ _ => ?_
  refine (performInPlace_rel (fun _ _ hm => contiguous3_rel h hm) (.cons ‹_› (.cons ‹_› (.cons ‹_› .nil)))).bind fun _ _ _ => ?_
  rel_prog_w h

theorem contiguous8_rel (h : Respects C R) {m : RawIO T} {m' : RawIO T'} (hm : RawRel R m m') :
    ResRel (RawRel R) (contiguous8 m) (contiguous8 m') := by
  have h1 := h.dht (i := 1) (n := 8) (by decide)
  unfold contiguous8
  simp only [strided2]
  rel_prog_w h

theorem contiguous9_rel (h : Respects C R) {m : RawIO T} {m' : RawIO T'} (hm : RawRel R m m') :
    ResRel (RawRel R) (contiguous9 m) (contiguous9 m') := by
  obtain ⟨h1, h2⟩ := h.inv 1 9 (by decide)
  obtain ⟨h3, h4⟩ := h.inv 2 9 (by decide)
  obtain ⟨h5, h6⟩ := h.inv 4 9 (by decide)
  obtain ⟨h7, h8⟩ := h.fwd 1 3 (by decide)
  have h9 := h.third
  unfold contiguous9
  simp only
  rel_prog_w h

theorem contiguous16_rel (h : Respects C R) {m : RawIO T} {m' : RawIO T'} (hm : RawRel R m m') :
    ResRel (RawRel R) (contiguous16 m) (contiguous16 m') := by
  obtain ⟨h1, h2⟩ := h.inv 1 16 (by decide)
  have h3 := h.dht (i := 1) (n := 8) (by decide)
  unfold contiguous16
  simp only [strided2]
  rel_prog_w h
  refine (performInPlace_rel (fun _ _ hm => contiguous8_rel h hm) ?_).bind fun _ _ hc => ?_
  · repeat' (first | exact .nil | (refine .cons (by rel_val_w h) ?_))
  refine (forRange_rel rfl hm fun i m m' hm => ?_).bind fun m m' hm => ?_
  · rel_prog_w h
  refine (performInPlace_rel (fun _ _ hm => contiguous4_rel h hm) ?_).bind fun _ _ hp => ?_
  · repeat' (first | exact .nil | (refine .cons (by rel_val_w h) ?_))
  refine (performInPlace_rel (fun _ _ hm => contiguous4_rel h hm) ?_).bind fun _ _ hq => ?_
  · repeat' (first | exact .nil | (refine .cons (by rel_val_w h) ?_))
  refine forRange_rel rfl hm fun i m m' hm => ?_
  refine (getI_rel hp _).bind fun _ _ _ => ?_
  refine (store_rel hm _ ‹_›).bind fun _ _ _ => ?_
  refine (getI_rel hq _).bind fun _ _ _ => ?_
  exact store_rel ‹_› _ ‹_›

theorem dhtNaive_rel (h : Respects C R) (n : Nat) : DhtRel R (dhtNaive T n) (dhtNaive T' n) := by
  have htw : LR C (naiveTwiddles T n) (naiveTwiddles T' n) :=
    LR.table fun i hi => h.dht (List.mem_range.1 hi)
  unfold dhtNaive
  simp only
  rw [htw.length]
  refine boilerplateDhtOop_rel fun i i' o o' hi ho => ?_
  unfold naivePerform
  refine forRange_rel ho.length ho fun k o o' ho => ?_
  refine ResRel.bind (P := R) ?_ fun _ _ hv => setI_rel ho _ hv
  unfold naiveInner
  refine (forList_rel (S := PR R Eq) hi ⟨h.zero, rfl⟩ ?_).bind ?_
  · rintro a a' ⟨v, j⟩ ⟨v', j'⟩ ha ⟨hv, hj⟩
    simp only at hv hj
    subst hj
    refine (getI_rel htw j).bind fun t t' ht => ?_
    rw [htw.length]
    exact .ok ⟨h.add hv (h.cmul ht ha), rfl⟩
  · rintro ⟨v, j⟩ ⟨v', j'⟩ ⟨hv, _⟩
    exact .ok hv

theorem mrTwiddles_rel (h : Respects C R) (w l : Nat) : LR (CxRel C) (mrTwiddles T w l) (mrTwiddles T' w l) := by
  refine LR.flatTable fun r hr => LR.table fun c hc => h.scaled ?_
  rw [List.mem_range'_1] at hr hc
  have h1 : 2 * r * (2 * c) ≤ w * l := Nat.mul_le_mul (by omega) (by omega)
  have h2 : 2 * r * (2 * c) = 4 * (r * c) := by rw [Nat.mul_mul_mul_comm]
  have h3 : 0 < w * l := Nat.mul_pos (by omega) (by omega)
  omega

theorem mrCell_rel (h : Respects C R) (w l r c : Nat) {t : Cx T} {t' : Cx T'} (ht : CxRel C t t') {b : List T} {b' : List T'}
    (hb : LR R b b') : ResRel (LR R) (mrCell w l r c t b) (mrCell w l r c t' b') := by
  obtain ⟨h1, h2⟩ := ht
  unfold mrCell
  simp only
  rel_prog_w h

theorem mrMidCell_rel (h : Respects C R) (l r c : Nat) {t : Cx T} {t' : Cx T'} (ht : CxRel C t t') {b : List T} {b' : List T'}
    (hb : LR R b b') : ResRel (LR R) (mrMidCell l r c t b) (mrMidCell l r c t' b') := by
  obtain ⟨h1, h2⟩ := ht
  unfold mrMidCell
  simp only
  rel_prog_w h

theorem mrApplyTwiddles_rel (h : Respects C R) (w l : Nat) {tw : List (Cx T)} {tw' : List (Cx T')} (ht : LR (CxRel C) tw tw')
    {b : List T} {b' : List T'} (hb : LR R b b') : ResRel (LR R) (mrApplyTwiddles w l tw b) (mrApplyTwiddles w l tw' b') := by
  unfold mrApplyTwiddles
  simp only
  split
  · exact .ok hb
  · refine (chunksExact_rel _ ht).bind fun cs cs' hcs => ?_
    refine (forList_rel (hcs.zip _) hb ?_).bind fun b b' hb => ?_
    · rintro ⟨r, c⟩ ⟨r', c'⟩ b b' ⟨hr, hc⟩ hb
      simp only at hr hc
      subst hr
      refine forList_rel (LR.zip _ hc) hb ?_
      rintro ⟨k, t⟩ ⟨k', t'⟩ b b' ⟨hk, ht⟩ hb
      simp only at hk ht
      subst hk
      exact mrCell_rel h _ _ _ _ ht hb
    · split
      · have hd := hcs.drop ((List.range' 1 ((w + 1) / 2 - 1)).zip cs').length
        rw [(hcs.zip (List.range' 1 ((w + 1) / 2 - 1))).length]
        revert hd
        generalize cs.drop _ = e
        generalize cs'.drop _ = e'
        intro hd
        cases hd with
        | nil => exact .error _
        | cons hc _ =>
          refine forList_rel (LR.zip _ hc) hb ?_
          rintro ⟨k, t⟩ ⟨k', t'⟩ b b' ⟨hk, ht⟩ hb
          simp only at hk ht
          subst hk
          exact mrMidCell_rel h _ _ _ ht hb
      · exact .ok hb

theorem mrPerformInplace_rel (h : Respects C R) {wd hd : Dht T} {wd' hd' : Dht T'} (hw : DhtRel R wd wd') (hh : DhtRel R hd hd')
    (w l n : Nat) {tw : List (Cx T)} {tw' : List (Cx T')} (ht : LR (CxRel C) tw tw') {b s : List T} {b' s' : List T'}
    (hb : LR R b b') (hs : LR R s s') :
    ResRel (PR (LR R) (LR R)) (mrPerformInplace wd hd w l n tw b s) (mrPerformInplace wd' hd' w l n tw' b' s') := by
  unfold mrPerformInplace
  refine (splitAt_rel hs n).bind ?_
  rintro ⟨s, e⟩ ⟨s', e'⟩ ⟨hs, he⟩
  refine (transpose_rel hb hs w l).bind fun s s' hs => ?_
  refine (reverseChunksFrom_rel hs _ _).bind fun s s' hs => ?_
  extract_lets jp jp'
  have hjp : ∀ x x', PR (LR R) (PR (LR R) (LR R)) x x' → ResRel (PR (LR R) (LR R)) (jp x) (jp' x') := by
    rintro ⟨s, b, e⟩ ⟨s', b', e'⟩ ⟨hs, hb, he⟩
    refine (mrApplyTwiddles_rel h w l ht hs).bind fun s s' hs => ?_
    refine (transpose_rel hs hb _ _).bind fun b b' hb => ?_
    refine (hw.oop _ _ _ _ _ _ hb hs he).bind ?_
    rintro ⟨b, s, e⟩ ⟨b', s', e'⟩ ⟨hb, hs, he⟩
    refine (reverseChunksFrom_rel hs _ _).bind fun s s' hs => ?_
    refine (transpose_rel hs hb _ _).bind fun b b' hb => ?_
    exact .ok ⟨hb, LR.append hs he⟩
  simp only at he
  rw [LR.length he, hb.length]
  split
  · refine (hh.inplace _ _ _ _ hs he).bind ?_
    rintro ⟨s, e⟩ ⟨s', e'⟩ ⟨hs, he⟩
    exact hjp (_, _, _) (_, _, _) ⟨hs, hb, he⟩
  · refine (hh.inplace _ _ _ _ hs hb).bind ?_
    rintro ⟨s, b⟩ ⟨s', b'⟩ ⟨hs, hb⟩
    exact hjp (_, _, _) (_, _, _) ⟨hs, hb, he⟩

theorem mrPerformOop_rel (h : Respects C R) {wd hd : Dht T} {wd' hd' : Dht T'} (hw : DhtRel R wd wd') (hh : DhtRel R hd hd')
    (w l : Nat) {tw : List (Cx T)} {tw' : List (Cx T')} (ht : LR (CxRel C) tw tw') {i o s : List T} {i' o' s' : List T'}
    (hi : LR R i i') (ho : LR R o o') (hs : LR R s s') :
    ResRel (PR (LR R) (PR (LR R) (LR R))) (mrPerformOop wd hd w l tw i o s) (mrPerformOop wd' hd' w l tw' i' o' s') := by
  unfold mrPerformOop
  refine (transpose_rel hi ho w l).bind fun o o' ho => ?_
  refine (reverseChunksFrom_rel ho _ _).bind fun o o' ho => ?_
  extract_lets jp jq jp' jq'
  have hjp : ∀ x x', PR (LR R) (PR (LR R) (LR R)) x x' → ResRel (PR (LR R) (PR (LR R) (LR R))) (jp x) (jp' x') := by
    rintro ⟨i, o, s⟩ ⟨i', o', s'⟩ ⟨hi, ho, hs⟩
    refine (reverseChunksFrom_rel hi _ _).bind fun i i' hi => ?_
    refine (transpose_rel hi ho _ _).bind fun o o' ho => ?_
    exact .ok ⟨hi, ho, hs⟩
  have hjq : ∀ x x', PR (LR R) (PR (LR R) (LR R)) x x' → ResRel (PR (LR R) (PR (LR R) (LR R))) (jq x) (jq' x') := by
    rintro ⟨i, o, s⟩ ⟨i', o', s'⟩ ⟨hi, ho, hs⟩
    refine (mrApplyTwiddles_rel h w l ht ho).bind fun o o' ho => ?_
    refine (transpose_rel ho hi _ _).bind fun i i' hi => ?_
    simp only at hs
    rw [ho.length, hs.length]
    split
    · refine (hw.inplace _ _ _ _ hi hs).bind ?_
      rintro ⟨i, s⟩ ⟨i', s'⟩ ⟨hi, hs⟩
      exact hjp (_, _, _) (_, _, _) ⟨hi, ho, hs⟩
    · refine (hw.inplace _ _ _ _ hi ho).bind ?_
      rintro ⟨i, o⟩ ⟨i', o'⟩ ⟨hi, ho⟩
      exact hjp (_, _, _) (_, _, _) ⟨hi, ho, hs⟩
  rw [hi.length, hs.length]
  split
  · refine (hh.inplace _ _ _ _ ho hs).bind ?_
    rintro ⟨o, s⟩ ⟨o', s'⟩ ⟨ho, hs⟩
    exact hjq (_, _, _) (_, _, _) ⟨hi, ho, hs⟩
  · refine (hh.inplace _ _ _ _ ho hi).bind ?_
    rintro ⟨o, i⟩ ⟨o', i'⟩ ⟨ho, hi⟩
    exact hjq (_, _, _) (_, _, _) ⟨hi, ho, hs⟩

theorem mixedRadix_rel (h : Respects C R) {wd hd : Dht T} {wd' hd' : Dht T'} (hw : DhtRel R wd wd') (hh : DhtRel R hd hd') :
    DhtRel R (mixedRadix wd hd) (mixedRadix wd' hd') := by
  unfold mixedRadix mrInplaceScratch mrOopScratch
  simp only
  rw [hw.len, hh.len, hw.inplaceScratchLen, hh.inplaceScratchLen, hw.oopScratchLen]
  refine boilerplateDht_rel (fun _ b b' s s' hb hs => ?_) (fun _ i i' o o' s s' hi ho hs => ?_)
  · exact mrPerformInplace_rel h hw hh _ _ _ (mrTwiddles_rel h _ _) hb hs
  · exact mrPerformOop_rel h hw hh _ _ (mrTwiddles_rel h _ _) hi ho hs

theorem mr2Kernel_rel (h : Respects C R) : KernelRel C R (mr2Kernel (T := T)) (mr2Kernel (T := T')) := by
  intro t t' a a' b b' ht ha hb
  unfold mr2Kernel
  simp only [strided2]
  refine (getI_rel ht 0).bind fun t0 t0' h0 => ?_
  obtain ⟨h1, h2⟩ := h0
  refine (getI_rel ha _).bind fun _ _ _ => ?_
  refine (getI_rel hb _).bind fun _ _ _ => ?_
  refine (getI_rel ha _).bind fun _ _ _ => ?_
  refine (getI_rel hb _).bind fun _ _ _ => ?_
  exact .ok ⟨.cons (by rel_val_w h) (.cons (by rel_val_w h) .nil), .cons (by rel_val_w h) (.cons (by rel_val_w h) .nil)⟩

theorem mr4Kernel_rel (h : Respects C R) : KernelRel C R (mr4Kernel (T := T)) (mr4Kernel (T := T')) := by
  intro t t' a a' b b' ht ha hb
  unfold mr4Kernel
  simp only [strided2]
  refine (getI_rel ht 0).bind fun t0 t0' h0 => ?_
  obtain ⟨h1, h2⟩ := h0
  refine (getI_rel ht 1).bind fun t1 t1' h0 => ?_
  obtain ⟨h3, h4⟩ := h0
  refine (getI_rel ha _).bind fun _ _ _ => ?_
  refine (getI_rel hb _).bind fun _ _ _ => ?_
  refine (getI_rel ha _).bind fun _ _ _ => ?_
  refine (getI_rel hb _).bind fun _ _ _ => ?_
  refine (getI_rel ha _).bind fun _ _ _ => ?_
  refine (getI_rel hb _).bind fun _ _ _ => ?_
  refine (getI_rel ha _).bind fun _ _ _ => ?_
  refine (getI_rel hb _).bind fun _ _ _ => ?_
  exact .ok ⟨.cons (by rel_val_w h) (.cons (by rel_val_w h) (.cons (by rel_val_w h) (.cons (by rel_val_w h) .nil))),
    .cons (by rel_val_w h) (.cons (by rel_val_w h) (.cons (by rel_val_w h) (.cons (by rel_val_w h) .nil)))⟩

/-- Lists of related values. -/
macro "rel_list_w" h:ident : tactic => `(tactic| repeat' (first | exact List.Forall₂.nil | (refine List.Forall₂.cons (by rel_val_w $h) ?_)))

theorem mr3Kernel_rel (h : Respects C R) : KernelRel C R (mr3Kernel (T := T)) (mr3Kernel (T := T')) := by
  intro t t' a a' b b' ht ha hb
  unfold mr3Kernel
  simp only
  refine (getI_rel ht 0).bind fun t0 t0' h0 => ?_
  obtain ⟨h1, h2⟩ := h0
  refine (getI_rel ha _).bind fun _ _ _ => ?_
  refine (getI_rel hb _).bind fun _ _ _ => ?_
  refine (getI_rel ha _).bind fun _ _ _ => ?_
  refine (getI_rel hb _).bind fun _ _ _ => ?_
  refine (getI_rel ha _).bind fun _ _ _ => ?_
  refine (getI_rel hb _).bind fun _ _ _ => ?_
  refine (performInPlace_rel (fun _ _ hm => contiguous3_rel h hm) (by rel_list_w h)).bind fun f f' hf => ?_
  refine (performInPlace_rel (fun _ _ hm => contiguous3_rel h hm) (by rel_list_w h)).bind fun r r' hr => ?_
  refine (getI_rel hf _).bind fun _ _ _ => ?_
  refine (getI_rel hf _).bind fun _ _ _ => ?_
  refine (getI_rel hf _).bind fun _ _ _ => ?_
  refine (getI_rel hr _).bind fun _ _ _ => ?_
  refine (getI_rel hr _).bind fun _ _ _ => ?_
  refine (getI_rel hr _).bind fun _ _ _ => ?_
  exact .ok ⟨by rel_list_w h, by rel_list_w h⟩

theorem mr5Kernel_rel (h : Respects C R) : KernelRel C R (mr5Kernel (T := T)) (mr5Kernel (T := T')) := by
  intro t t' a a' b b' ht ha hb
  unfold mr5Kernel
  simp only
  refine (getI_rel ht 0).bind fun t0 t0' h0 => ?_
  obtain ⟨h1, h2⟩ := h0
  refine (getI_rel ht 1).bind fun t1 t1' h0 => ?_
  obtain ⟨h3, h4⟩ := h0
  refine (getI_rel ha _).bind fun _ _ _ => ?_
  refine (getI_rel hb _).bind fun _ _ _ => ?_
  refine (getI_rel ha _).bind fun _ _ _ => ?_
  refine (getI_rel hb _).bind fun _ _ _ => ?_
  refine (getI_rel ha _).bind fun _ _ _ => ?_
  refine (getI_rel hb _).bind fun _ _ _ => ?_
  refine (getI_rel ha _).bind fun _ _ _ => ?_
  refine (getI_rel hb _).bind fun _ _ _ => ?_
  refine (getI_rel ha _).bind fun _ _ _ => ?_
  refine (getI_rel hb _).bind fun _ _ _ => ?_
  refine (performInPlace_rel (fun _ _ hm => contiguous5_rel h hm) (by rel_list_w h)).bind fun f f' hf => ?_
  refine (performInPlace_rel (fun _ _ hm => contiguous5_rel h hm) (by rel_list_w h)).bind fun r r' hr => ?_
  refine (getI_rel hf _).bind fun _ _ _ => ?_
  refine (getI_rel hf _).bind fun _ _ _ => ?_
  refine (getI_rel hf _).bind fun _ _ _ => ?_
  refine (getI_rel hf _).bind fun _ _ _ => ?_
  refine (getI_rel hf _).bind fun _ _ _ => ?_
  refine (getI_rel hr _).bind fun _ _ _ => ?_
  refine (getI_rel hr _).bind fun _ _ _ => ?_
  refine (getI_rel hr _).bind fun _ _ _ => ?_
  refine (getI_rel hr _).bind fun _ _ _ => ?_
  refine (getI_rel hr _).bind fun _ _ _ => ?_
  exact .ok ⟨by rel_list_w h, by rel_list_w h⟩

theorem mr6Kernel_rel (h : Respects C R) : KernelRel C R (mr6Kernel (T := T)) (mr6Kernel (T := T')) := by
  intro t t' a a' b b' ht ha hb
  unfold mr6Kernel
  simp only
  refine (getI_rel ht 0).bind fun t0 t0' h0 => ?_
  obtain ⟨h1, h2⟩ := h0
  refine (getI_rel ht 1).bind fun t1 t1' h0 => ?_
  obtain ⟨h3, h4⟩ := h0
  refine (getI_rel ht 2).bind fun t2 t2' h0 => ?_
  obtain ⟨h5, h6⟩ := h0
  refine (getI_rel ha _).bind fun _ _ _ => ?_
  refine (getI_rel hb _).bind fun _ _ _ => ?_
  refine (getI_rel ha _).bind fun _ _ _ => ?_
  refine (getI_rel hb _).bind fun _ _ _ => ?_
  refine (getI_rel ha _).bind fun _ _ _ => ?_
  refine (getI_rel hb _).bind fun _ _ _ => ?_
  refine (getI_rel ha _).bind fun _ _ _ => ?_
  refine (getI_rel hb _).bind fun _ _ _ => ?_
  refine (getI_rel ha _).bind fun _ _ _ => ?_
  refine (getI_rel hb _).bind fun _ _ _ => ?_
  refine (getI_rel ha _).bind fun _ _ _ => ?_
  refine (getI_rel hb _).bind fun _ _ _ => ?_
  refine (performInPlace_rel (fun _ _ hm => contiguous6_rel h hm) (by rel_list_w h)).bind fun f f' hf => ?_
  refine (performInPlace_rel (fun _ _ hm => contiguous6_rel h hm) (by rel_list_w h)).bind fun r r' hr => ?_
  refine (getI_rel hf _).bind fun _ _ _ => ?_
  refine (getI_rel hf _).bind fun _ _ _ => ?_
  refine (getI_rel hf _).bind fun _ _ _ => ?_
  refine (getI_rel hf _).bind fun _ _ _ => ?_
  refine (getI_rel hf _).bind fun _ _ _ => ?_
  refine (getI_rel hf _).bind fun _ _ _ => ?_
  refine (getI_rel hr _).bind fun _ _ _ => ?_
  refine (getI_rel hr _).bind fun _ _ _ => ?_
  refine (getI_rel hr _).bind fun _ _ _ => ?_
  refine (getI_rel hr _).bind fun _ _ _ => ?_
  refine (getI_rel hr _).bind fun _ _ _ => ?_
  refine (getI_rel hr _).bind fun _ _ _ => ?_
  exact .ok ⟨by rel_list_w h, by rel_list_w h⟩

theorem mixedRadix2xn_rel (h : Respects C R) {hd : Dht T} {hd' : Dht T'} (hh : DhtRel R hd hd') :
    DhtRel R (mixedRadix2xn hd) (mixedRadix2xn hd') := by
  unfold mixedRadix2xn
  simp only
  rw [hh.len]
  refine mixedRadixN_rel 2 hh fun b b' hb => applyColumns_rel
    (fun b b' hb => performInPlace_rel (fun _ _ hm => contiguous2_rel h hm) hb) (mr2Kernel_rel h) ?_ hb
  refine LR.map (P := CxRel C) (LR.table fun c hc => h.inv _ _ ?_) fun _ _ h => .cons h .nil
  rw [List.mem_range'_1] at hc
  omega

theorem mixedRadix3xn_rel (h : Respects C R) {hd : Dht T} {hd' : Dht T'} (hh : DhtRel R hd hd') :
    DhtRel R (mixedRadix3xn hd) (mixedRadix3xn hd') := by
  unfold mixedRadix3xn
  simp only
  rw [hh.len]
  refine mixedRadixN_rel 3 hh fun b b' hb => applyColumns_rel
    (fun b b' hb => performInPlace_rel (fun _ _ hm => contiguous3_rel h hm) hb) (mr3Kernel_rel h) ?_ hb
  refine LR.map (P := CxRel C) (LR.table fun c hc => h.scaled ?_) fun _ _ h => .cons h .nil
  rw [List.mem_range'_1] at hc
  omega

theorem mixedRadix4xn_rel (h : Respects C R) {hd : Dht T} {hd' : Dht T'} (hh : DhtRel R hd hd') :
    DhtRel R (mixedRadix4xn hd) (mixedRadix4xn hd') := by
  unfold mixedRadix4xn
  simp only
  rw [hh.len]
  refine mixedRadixN_rel 4 hh fun b b' hb => applyColumns_rel
    (fun b b' hb => performInPlace_rel (fun _ _ hm => contiguous4_rel h hm) hb) (mr4Kernel_rel h) ?_ hb
  refine chunksExactAux_rel _ _ _ (LR.flatTable fun c hc => ?_)
  rw [List.mem_range'_1] at hc
  exact .cons (h.inv _ _ (by omega)) (.cons (h.inv _ _ (by omega)) .nil)

theorem mixedRadix5xn_rel (h : Respects C R) {hd : Dht T} {hd' : Dht T'} (hh : DhtRel R hd hd') :
    DhtRel R (mixedRadix5xn hd) (mixedRadix5xn hd') := by
  unfold mixedRadix5xn
  simp only
  rw [hh.len]
  refine mixedRadixN_rel 5 hh fun b b' hb => applyColumns_rel
    (fun b b' hb => performInPlace_rel (fun _ _ hm => contiguous5_rel h hm) hb) (mr5Kernel_rel h) ?_ hb
  refine chunksExactAux_rel _ _ _ (LR.flatTable fun c hc => ?_)
  rw [List.mem_range'_1] at hc
  exact .cons (h.scaled (by omega)) (.cons (h.scaled (by omega)) .nil)

theorem mixedRadix6xn_rel (h : Respects C R) {hd : Dht T} {hd' : Dht T'} (hh : DhtRel R hd hd') :
    DhtRel R (mixedRadix6xn hd) (mixedRadix6xn hd') := by
  unfold mixedRadix6xn
  simp only
  rw [hh.len]
  refine mixedRadixN_rel 6 hh fun b b' hb => applyColumns_rel
    (fun b b' hb => performInPlace_rel (fun _ _ hm => contiguous6_rel h hm) hb) (mr6Kernel_rel h) ?_ hb
  refine chunksExactAux_rel _ _ _ (LR.flatTable fun c hc => ?_)
  rw [List.mem_range'_1] at hc
  exact .cons (h.scaled (by omega)) (.cons (h.scaled (by omega)) (.cons (h.scaled (by omega)) .nil))

theorem radix4Twiddles_rel (h : Respects C R) (n st : Nat) : LR (CxRel C) (radix4Twiddles T n st) (radix4Twiddles T' n st) := by
  induction st using Nat.strong_induction_on with
  | _ st ih =>
    rw [radix4Twiddles, radix4Twiddles.eq_def T' n st]
    split
    · next hs =>
      refine LR.append (LR.flatTable fun i hi => LR.table fun k hk => h.inv _ _ ?_) (ih _ (by omega))
      rw [List.mem_range'_1] at hi hk
      have h1 : i < n / (st * 4) := by omega
      have h2 : i * (st * 4) < n := lt_of_lt_of_le ((Nat.mul_lt_mul_right (by omega)).2 h1) (Nat.div_mul_le_self _ _)
      have h3 : i * k * st ≤ i * (st * 4) := by
        rw [Nat.mul_assoc]
        refine Nat.mul_le_mul_left i ?_
        rw [Nat.mul_comm]
        exact Nat.mul_le_mul_left st (by omega)
      omega
    · exact .nil

theorem radix4Layers_rel (h : Respects C R) (n cs : Nat) : ∀ (tw : List (Cx T)) (tw' : List (Cx T')) (o : List T) (o' : List T'),
    LR (CxRel C) tw tw' → LR R o o' → ResRel (LR R) (radix4Layers n cs tw o) (radix4Layers n cs tw' o') := by
  induction hm : n + 1 - cs using Nat.strong_induction_on generalizing cs with
  | _ m ih =>
    intro tw tw' o o' ht ho
    rw [radix4Layers, radix4Layers.eq_def n cs tw' o']
    split
    · split
      · exact .error _
      · refine (forRange_rel rfl ho fun i o o' ho => ?_).bind fun o o' ho => ?_
        · refine (splitAt_rel ho _).bind ?_
          rintro ⟨f, d⟩ ⟨f', d'⟩ ⟨hf, hd⟩
          refine ResRel.bind (P := LR R) ?_ fun d d' hd => .ok (LR.append hf hd)
          exact applyColumns_rel (fun b b' hb => performInPlace_rel (fun _ _ hm => contiguous4_rel h hm) hb) (mr4Kernel_rel h)
            (chunksExactAux_rel _ _ _ ht) hd
        · by_cases h2 : cs * 2 / 4 < 2
          · rw [if_pos h2, if_pos h2]; exact .error _
          · rw [if_neg h2, if_neg h2]
            refine (splitAt_rel ht _).bind ?_
            rintro ⟨_, t⟩ ⟨_, t'⟩ ⟨_, ht⟩
            exact ih (n + 1 - cs * 4) (by omega) (cs * 4) rfl t t' o o' ht ho
    · exact .ok ho

theorem radix4Base_rel (h : Respects C R) (n : Nat) : (radix4Base T n).1 = (radix4Base T' n).1 ∧
    DhtRel R (radix4Base T n).2 (radix4Base T' n).2 := by
  unfold radix4Base
  split
  · exact ⟨rfl, butterfly1_rel⟩
  · exact ⟨rfl, boilerplateFftButterfly_rel fun _ _ hm => contiguous2_rel h hm⟩
  · exact ⟨rfl, boilerplateFftButterfly_rel fun _ _ hm => contiguous4_rel h hm⟩
  · split
    · exact ⟨rfl, boilerplateFftButterfly_rel fun _ _ hm => contiguous8_rel h hm⟩
    · exact ⟨rfl, boilerplateFftButterfly_rel fun _ _ hm => contiguous16_rel h hm⟩

theorem radix4PerformOop_rel (h : Respects C R) {bd : Dht T} {bd' : Dht T'} (hb : DhtRel R bd bd') (base n : Nat)
    {tw : List (Cx T)} {tw' : List (Cx T')} (ht : LR (CxRel C) tw tw') {i o s : List T} {i' o' s' : List T'}
    (hi : LR R i i') (ho : LR R o o') (hs : LR R s s') :
    ResRel (PR (LR R) (PR (LR R) (LR R))) (radix4PerformOop bd base n tw i o s) (radix4PerformOop bd' base n tw' i' o' s') := by
  unfold radix4PerformOop
  refine (prepareRadix4_rel _ _ _ _ _ _ _ _ hi ho).bind fun o o' ho => ?_
  refine (hb.inplace _ _ _ _ ho .nil).bind ?_
  rintro ⟨o, _⟩ ⟨o', _⟩ ⟨ho, _⟩
  exact (radix4Layers_rel h _ _ _ _ _ _ ht ho).bind fun o o' ho => .ok ⟨hi, ho, hs⟩

theorem radix4_rel (h : Respects C R) (n : Nat) : ResRel (DhtRel R) (radix4 T n) (radix4 T' n) := by
  unfold radix4
  refine (assert_rel rfl _).bind fun _ _ _ => ?_
  obtain ⟨h1, h2⟩ := radix4Base_rel h n
  revert h1 h2
  generalize radix4Base T n = p
  generalize radix4Base T' n = p'
  obtain ⟨b, d⟩ := p
  obtain ⟨b', d'⟩ := p'
  intro h1 h2
  simp only at h1 h2 ⊢
  subst h1
  refine .ok (boilerplateDht_rel (fun _ b b' s s' hb hs => ?_) (fun _ i i' o o' s s' hi ho hs => ?_))
  · unfold radix4PerformInplace
    rw [hb.length, hs.length]
    by_cases hl : s'.length = b'.length
    · rw [if_pos hl, if_pos hl]
      refine (radix4PerformOop_rel h h2 _ _ (radix4Twiddles_rel h _ _) hb hb .nil).bind ?_
      rintro ⟨s, b, _⟩ ⟨s', b', _⟩ ⟨hs, hb, _⟩
      exact .ok ⟨hb, hs⟩
    · rw [if_neg hl, if_neg hl]
      exact .error _
  · exact radix4PerformOop_rel h h2 _ _ (radix4Twiddles_rel h _ _) hi ho hs

theorem srTwiddles_rel (h : Respects C R) {n : Nat} (hn : 0 < n) : LR (CxRel C) (srTwiddles T n) (srTwiddles T' n) := by
  refine LR.flatTable fun c hc => ?_
  rw [List.mem_range] at hc
  exact .cons (h.inv _ _ (by omega)) (.cons (h.inv _ _ (by omega)) .nil)

theorem srColumn0_rel (h : Respects C R) {b : SrBuf T} {b' : SrBuf T'} (hb : SrRel R b b') :
    ResRel (SrRel R) (srColumn0 b) (srColumn0 b') := by
  obtain ⟨h0, h1, h2, h3⟩ := hb
  unfold srColumn0
  simp only
  refine (getI_rel h0 _).bind fun _ _ _ => ?_
  refine (getI_rel h1 _).bind fun _ _ _ => ?_
  refine (getI_rel h2 _).bind fun _ _ _ => ?_
  refine (getI_rel h3 _).bind fun _ _ _ => ?_
  refine (setI_rel h0 _ (by rel_val_w h)).bind fun _ _ h0 => ?_
  refine (setI_rel h1 _ (by rel_val_w h)).bind fun _ _ h1 => ?_
  refine (setI_rel h2 _ (by rel_val_w h)).bind fun _ _ h2 => ?_
  refine (setI_rel h3 _ (by rel_val_w h)).bind fun _ _ h3 => ?_
  exact .ok ⟨h0, h1, h2, h3⟩

theorem srColumn_rel (h : Respects C R) (q : Nat) {tw : List (Cx T)} {tw' : List (Cx T')} (ht : LR (CxRel C) tw tw') (i : Nat)
    {b : SrBuf T} {b' : SrBuf T'} (hb : SrRel R b b') : ResRel (SrRel R) (srColumn q tw i b) (srColumn q tw' i b') := by
  obtain ⟨h0, h1, h2, h3⟩ := hb
  unfold srColumn
  simp only
  refine (getU_rel ht _).bind fun t1 t1' hh => ?_
  obtain ⟨c1, c2⟩ := hh
  refine (getU_rel ht _).bind fun t3 t3' hh => ?_
  obtain ⟨c3, c4⟩ := hh
  refine (getU_rel h0 _).bind fun _ _ _ => ?_
  refine (getU_rel h1 _).bind fun _ _ _ => ?_
  refine (getU_rel h2 _).bind fun _ _ _ => ?_
  refine (getU_rel h3 _).bind fun _ _ _ => ?_
  refine (getU_rel h0 _).bind fun _ _ _ => ?_
  refine (getU_rel h1 _).bind fun _ _ _ => ?_
  refine (getU_rel h2 _).bind fun _ _ _ => ?_
  refine (getU_rel h3 _).bind fun _ _ _ => ?_
  refine (setU_rel h0 _ (by rel_val_w h)).bind fun _ _ h0 => ?_
  refine (setU_rel h1 _ (by rel_val_w h)).bind fun _ _ h1 => ?_
  refine (setU_rel h0 _ (by rel_val_w h)).bind fun _ _ h0 => ?_
  refine (setU_rel h1 _ (by rel_val_w h)).bind fun _ _ h1 => ?_
  refine (setU_rel h2 _ (by rel_val_w h)).bind fun _ _ h2 => ?_
  refine (setU_rel h3 _ (by rel_val_w h)).bind fun _ _ h3 => ?_
  refine (setU_rel h2 _ (by rel_val_w h)).bind fun _ _ h2 => ?_
  refine (setU_rel h3 _ (by rel_val_w h)).bind fun _ _ h3 => ?_
  exact .ok ⟨h0, h1, h2, h3⟩

theorem srApplyTwiddles_rel (h : Respects C R) (n : Nat) {tw : List (Cx T)} {tw' : List (Cx T')} (ht : LR (CxRel C) tw tw')
    {b : List T} {b' : List T'} (hb : LR R b b') : ResRel (LR R) (srApplyTwiddles n tw b) (srApplyTwiddles n tw' b') := by
  unfold srApplyTwiddles
  refine (splitAt_rel hb _).bind ?_
  rintro ⟨e, o⟩ ⟨e', o'⟩ ⟨he, ho⟩
  refine (splitAt_rel he _).bind ?_
  rintro ⟨h0, h1⟩ ⟨h0', h1'⟩ ⟨hh0, hh1⟩
  refine (splitAt_rel ho _).bind ?_
  rintro ⟨q1, q3⟩ ⟨q1', q3'⟩ ⟨hq1, hq3⟩
  refine (srColumn0_rel h ⟨hh0, hh1, hq1, hq3⟩).bind fun b b' hb => ?_
  refine (forRange_rel rfl hb fun i b b' hb => srColumn_rel h _ ht i hb).bind fun b b' hb => ?_
  exact .ok ((hb.half0.append hb.half1).append (hb.quarter1.append hb.quarter3))

theorem srPerformInplace_rel (h : Respects C R) {qd hd : Dht T} {qd' hd' : Dht T'} (hq : DhtRel R qd qd') (hh : DhtRel R hd hd')
    (n : Nat) {tw : List (Cx T)} {tw' : List (Cx T')} (ht : LR (CxRel C) tw tw') {b s : List T} {b' s' : List T'}
    (hb : LR R b b') (hs : LR R s s') :
    ResRel (PR (LR R) (LR R)) (srPerformInplace qd hd n tw b s) (srPerformInplace qd' hd' n tw' b' s') := by
  unfold srPerformInplace
  refine (srApplyTwiddles_rel h n ht hb).bind fun b b' hb => ?_
  refine (splitAt_rel hb _).bind ?_
  rintro ⟨e, o⟩ ⟨e', o'⟩ ⟨he, ho⟩
  refine (hh.inplace _ _ _ _ he hs).bind ?_
  rintro ⟨e, s⟩ ⟨e', s'⟩ ⟨he, hs⟩
  refine (hq.oop _ _ _ _ _ _ ho hs .nil).bind ?_
  rintro ⟨o, s, _⟩ ⟨o', s', _⟩ ⟨ho, hs, _⟩
  refine (splitAt_rel hs _).bind ?_
  rintro ⟨q1, q3⟩ ⟨q1', q3'⟩ ⟨hq1, hq3⟩
  refine (forList_rel (LR.refl _) (LR.append he ho) ?_).bind fun b b' hb => .ok ⟨hb, hs⟩
  rintro i _ b b' rfl hb
  refine (getU_rel hb _).bind fun _ _ h0 => (setU_rel hb _ h0).bind fun _ _ hb => ?_
  refine (getU_rel hb _).bind fun _ _ h0 => (setU_rel hb _ h0).bind fun _ _ hb => ?_
  refine (getU_rel hq1 _).bind fun _ _ h0 => (setU_rel hb _ h0).bind fun _ _ hb => ?_
  exact (getU_rel hq3 _).bind fun _ _ h0 => setU_rel hb _ h0

theorem srPerformOop_rel (h : Respects C R) {qd hd : Dht T} {qd' hd' : Dht T'} (hq : DhtRel R qd qd') (hh : DhtRel R hd hd')
    (n : Nat) {tw : List (Cx T)} {tw' : List (Cx T')} (ht : LR (CxRel C) tw tw') {i o s : List T} {i' o' s' : List T'}
    (hi : LR R i i') (ho : LR R o o') (hs : LR R s s') :
    ResRel (PR (LR R) (PR (LR R) (LR R))) (srPerformOop qd hd n tw i o s) (srPerformOop qd' hd' n tw' i' o' s') := by
  unfold srPerformOop
  refine (srApplyTwiddles_rel h n ht hi).bind fun i i' hi => ?_
  refine (splitAt_rel hi _).bind ?_
  rintro ⟨e, d⟩ ⟨e', d'⟩ ⟨he, hd⟩
  refine (hh.inplace _ _ _ _ he ho).bind ?_
  rintro ⟨e, o⟩ ⟨e', o'⟩ ⟨he, ho⟩
  refine (hq.inplace _ _ _ _ hd ho).bind ?_
  rintro ⟨d, o⟩ ⟨d', o'⟩ ⟨hd, ho⟩
  refine (splitAt_rel hd _).bind ?_
  rintro ⟨q1, q3⟩ ⟨q1', q3'⟩ ⟨hq1, hq3⟩
  refine (forRange_rel (by rw [LR.length ho]) ho fun i o o' ho => ?_).bind fun o o' ho => .ok ⟨LR.append he hd, ho, hs⟩
  refine (getU_rel he _).bind fun _ _ h0 => (setU_rel ho _ h0).bind fun _ _ ho => ?_
  refine (getU_rel hq1 _).bind fun _ _ h0 => (setU_rel ho _ h0).bind fun _ _ ho => ?_
  refine (getU_rel he _).bind fun _ _ h0 => (setU_rel ho _ h0).bind fun _ _ ho => ?_
  exact (getU_rel hq3 _).bind fun _ _ h0 => setU_rel ho _ h0

theorem splitRadix_rel (h : Respects C R) {qd hd : Dht T} {qd' hd' : Dht T'} (hq : DhtRel R qd qd') (hh : DhtRel R hd hd') :
    ResRel (DhtRel R) (splitRadix qd hd) (splitRadix qd' hd') := by
  unfold splitRadix
  simp only
  rw [hq.len, hh.len]
  refine (assert_rel rfl _).bind fun _ _ _ => ?_
  refine .ok (boilerplateDht_rel (fun hn b b' s s' hb hs => ?_) (fun hn i i' o o' s s' hi ho hs => ?_))
  · exact srPerformInplace_rel h hq hh _ (srTwiddles_rel h hn) hb hs
  · exact srPerformOop_rel h hq hh _ (srTwiddles_rel h hn) hi ho hs

theorem radersMulInplace_rel (h : Respects C R) {tw : List (Cx T)} {tw' : List (Cx T')} (ht : LR (CxRel C) tw tw')
    {b : List T} {b' : List T'} (hb : LR R b b') : ResRel (LR R) (radersMulInplace tw b) (radersMulInplace tw' b') := by
  unfold radersMulInplace
  simp only
  rw [hb.length]
  refine (getI_rel hb _).bind fun a a' ha => (getI_rel ht _).bind fun t t' htt => ?_
  refine (setI_rel hb _ (h.mulc ha htt.re)).bind fun c c' hc => ?_
  refine (forRange_rel rfl hc fun i b b' hb => ?_).bind fun c c' hc => ?_
  · refine (getI_rel hb _).bind fun x x' hx => (getI_rel hb _).bind fun y y' hy => (getI_rel ht _).bind fun t t' htt => ?_
    refine (setI_rel hb _ (h.add (h.cmul htt.re hx) (h.cmul htt.im hy))).bind fun b b' hb => ?_
    exact setI_rel hb _ (h.sub (h.cmul htt.re hy) (h.cmul htt.im hx))
  · split
    · refine (getI_rel hc _).bind fun v v' hv => (getI_rel ht _).bind fun t t' htt => ?_
      exact setI_rel hc _ (h.mulc hv htt.re)
    · exact .ok hc

theorem radersMulOop_rel (h : Respects C R) {tw : List (Cx T)} {tw' : List (Cx T')} (ht : LR (CxRel C) tw tw')
    {o i : List T} {o' i' : List T'} (ho : LR R o o') (hi : LR R i i') :
    ResRel (LR R) (radersMulOop tw o i) (radersMulOop tw' o' i') := by
  unfold radersMulOop
  simp only
  rw [ho.length]
  refine (getI_rel ho _).bind fun a a' ha => (getI_rel ht _).bind fun t t' htt => ?_
  refine (setI_rel hi _ (h.mulc ha htt.re)).bind fun c c' hc => ?_
  refine (forRange_rel rfl hc fun i b b' hb => ?_).bind fun c c' hc => ?_
  · refine (getI_rel ho _).bind fun x x' hx => (getI_rel ho _).bind fun y y' hy => (getI_rel ht _).bind fun t t' htt => ?_
    refine (setI_rel hb _ (h.add (h.cmul htt.re hx) (h.cmul htt.im hy))).bind fun b b' hb => ?_
    exact setI_rel hb _ (h.sub (h.cmul htt.re hy) (h.cmul htt.im hx))
  · rw [hc.length]
    split
    · refine (getI_rel ho _).bind fun v v' hv => (getI_rel ht _).bind fun t t' htt => ?_
      exact setI_rel hc _ (h.mulc hv htt.re)
    · exact .ok hc

theorem radersPerformInplace_rel (h : Respects C R) {d : Dht T} {d' : Dht T'} (hd : DhtRel R d d') (n g gi : Nat)
    {tw : List (Cx T)} {tw' : List (Cx T')} (ht : LR (CxRel C) tw tw') {b s : List T} {b' s' : List T'}
    (hb : LR R b b') (hs : LR R s s') :
    ResRel (PR (LR R) (LR R)) (radersPerformInplace d n g gi tw b s) (radersPerformInplace d' n g gi tw' b' s') := by
  cases hb with
  | nil => exact .error _
  | cons hf hb =>
    unfold radersPerformInplace
    simp only
    refine (splitAt_rel hs _).bind ?_
    rintro ⟨y, e⟩ ⟨y', e'⟩ ⟨hy, he⟩
    simp only at hy he ⊢
    refine (radersGather_rel _ _ hb hy).bind fun y y' hy => ?_
    rw [he.length]
    by_cases hu : e'.length > 0
    · simp only [hu, if_true]
      refine (hd.inplace _ _ _ _ hy he).bind ?_
      rintro ⟨y, e⟩ ⟨y', e'⟩ ⟨hy, he⟩
      simp only at hy he ⊢
      refine (getI_rel hy _).bind fun v v' hv => (radersMulInplace_rel h ht hy).bind fun y y' hy => ?_
      refine (getI_rel hy _).bind fun w w' hw => (setI_rel hy _ (h.add hw hf)).bind fun y y' hy => ?_
      refine (hd.inplace _ _ _ _ hy he).bind ?_
      rintro ⟨y, e⟩ ⟨y', e'⟩ ⟨hy, he⟩
      simp only at hy he ⊢
      exact (radersScatter_rel _ _ hy hb).bind fun b b' hb => .ok ⟨.cons (h.add hf hv) hb, hy.append he⟩
    · simp only [hu, if_false]
      refine (hd.inplace _ _ _ _ hy hb).bind ?_
      rintro ⟨y, b⟩ ⟨y', b'⟩ ⟨hy, hb⟩
      simp only at hy hb ⊢
      refine (getI_rel hy _).bind fun v v' hv => (radersMulInplace_rel h ht hy).bind fun y y' hy => ?_
      refine (getI_rel hy _).bind fun w w' hw => (setI_rel hy _ (h.add hw hf)).bind fun y y' hy => ?_
      refine (hd.inplace _ _ _ _ hy hb).bind ?_
      rintro ⟨y, b⟩ ⟨y', b'⟩ ⟨hy, hb⟩
      simp only at hy hb ⊢
      exact (radersScatter_rel _ _ hy hb).bind fun b b' hb => .ok ⟨.cons (h.add hf hv) hb, hy.append he⟩

theorem radersPerformOop_rel (h : Respects C R) {d : Dht T} {d' : Dht T'} (hd : DhtRel R d d') (n g gi : Nat)
    {tw : List (Cx T)} {tw' : List (Cx T')} (ht : LR (CxRel C) tw tw') {i o s : List T} {i' o' s' : List T'}
    (hi : LR R i i') (ho : LR R o o') (hs : LR R s s') :
    ResRel (PR (LR R) (PR (LR R) (LR R))) (radersPerformOop d n g gi tw i o s) (radersPerformOop d' n g gi tw' i' o' s') := by
  have second : ∀ (f v : T) (f' v' : T') (o i s : List T) (o' i' s' : List T'), R f f' → R v v' → LR R o o' → LR R i i' → LR R s s' →
      ResRel (PR (LR R) (PR (LR R) (LR R)))
        (do
          let (input, innerScratch) ← d.processWithScratch i (if s.length > 0 then s else o)
          let (scratch, output) := if s.length > 0 then (innerScratch, o) else (s, innerScratch)
          let output ← radersScatter gi n input output
          .ok (f :: input, v :: output, scratch))
        (do
          let (input, innerScratch) ← d'.processWithScratch i' (if s'.length > 0 then s' else o')
          let (scratch, output) := if s'.length > 0 then (innerScratch, o') else (s', innerScratch)
          let output ← radersScatter gi n input output
          .ok (f' :: input, v' :: output, scratch)) := by
    intro f v f' v' o i s o' i' s' hf hv ho hi hs
    rw [hs.length]
    by_cases hu : s'.length > 0
    · simp only [hu, if_true]
      refine (hd.inplace _ _ _ _ hi hs).bind ?_
      rintro ⟨i, s⟩ ⟨i', s'⟩ ⟨hi, hs⟩
      simp only at hi hs ⊢
      exact (radersScatter_rel _ _ hi ho).bind fun o o' ho => .ok ⟨.cons hf hi, .cons hv ho, hs⟩
    · simp only [hu, if_false]
      refine (hd.inplace _ _ _ _ hi ho).bind ?_
      rintro ⟨i, o⟩ ⟨i', o'⟩ ⟨hi, ho⟩
      simp only at hi ho ⊢
      exact (radersScatter_rel _ _ hi ho).bind fun o o' ho => .ok ⟨.cons hf hi, .cons hv ho, hs⟩
  cases ho with
  | nil => exact .error _
  | cons _ ho =>
    cases hi with
    | nil => exact .error _
    | cons hf hi =>
      unfold radersPerformOop
      simp only
      refine (radersGather_rel _ _ hi ho).bind fun o o' ho => ?_
      rw [hs.length]
      by_cases hu : s'.length > 0
      · simp only [hu, if_true]
        refine (hd.inplace _ _ _ _ ho hs).bind ?_
        rintro ⟨o, s⟩ ⟨o', s'⟩ ⟨ho, hs⟩
        simp only at ho hs ⊢
        refine (getI_rel ho _).bind fun v v' hv => (radersMulOop_rel h ht ho hi).bind fun i i' hi => ?_
        refine (getI_rel hi _).bind fun w w' hw => (setI_rel hi _ (h.add hw hf)).bind fun i i' hi => ?_
        exact second _ _ _ _ _ _ _ _ _ _ hf (h.add hf hv) ho hi hs
      · simp only [hu, if_false]
        refine (hd.inplace _ _ _ _ ho hi).bind ?_
        rintro ⟨o, i⟩ ⟨o', i'⟩ ⟨ho, hi⟩
        simp only at ho hi ⊢
        refine (getI_rel ho _).bind fun v v' hv => (radersMulOop_rel h ht ho hi).bind fun i i' hi => ?_
        refine (getI_rel hi _).bind fun w w' hw => (setI_rel hi _ (h.add hw hf)).bind fun i i' hi => ?_
        have := second _ _ _ _ _ _ _ _ _ _ hf (h.add hf hv) ho hi hs
        rw [hs.length] at this ⊢
        simpa only [hu, if_false] using this

end Weak

end RustDHT
