import Verif.Proofs.ParamAlg
import Verif.Proofs.Plan

/-! # Relational parametricity, part 3: Radix4, SplitRadix, RadersAlgorithm and compositions -/

set_option linter.unusedSectionVars false

namespace RustDHT

variable {T T' : Type} [Zero T] [Add T] [Sub T] [Mul T] [Neg T] [FftNum T]
  [Zero T'] [Add T'] [Sub T'] [Mul T'] [Neg T'] [FftNum T'] {C R : T → T' → Prop}

/-! ## Radix4 -/

theorem prepareRadix4_rel (size base : Nat) : ∀ (rev : Bool) (i : List T) (i' : List T') (o : List T) (o' : List T') (st : Nat),
    LR R i i' → LR R o o' →
    ResRel (LR R) (prepareRadix4 rev size base i o st) (prepareRadix4 rev size base i' o' st) := by
  induction size using Nat.strong_induction_on with
  | _ size ih =>
    intro rev i i' o o' st hi ho
    rw [prepareRadix4, prepareRadix4.eq_def rev size base i' o' st]
    split
    · refine forRange_rel rfl ho fun k o o' ho => ?_
      exact (getU_rel hi _).bind fun _ _ h => setU_rel ho _ h
    · split
      · exact .error _
      · next hs =>
        have child : ∀ (k : Nat) (cr : Bool) (o : List T) (o' : List T'), LR R o o' → ResRel (LR R)
            (if k * st ≤ i.length then
              if k * (size / 4) ≤ o.length then do
                let tail ← prepareRadix4 cr (size / 4) base (i.drop (k * st)) (o.drop (k * (size / 4))) (st * 4)
                .ok (o.take (k * (size / 4)) ++ tail)
              else panic .index
            else panic .index)
            (if k * st ≤ i'.length then
              if k * (size / 4) ≤ o'.length then do
                let tail ← prepareRadix4 cr (size / 4) base (i'.drop (k * st)) (o'.drop (k * (size / 4))) (st * 4)
                .ok (o'.take (k * (size / 4)) ++ tail)
              else panic .index
            else panic .index) := by
          intro k cr o o' ho
          rw [hi.length, ho.length]
          split
          · split
            · exact (ih (size / 4) (by omega) cr _ _ _ _ _ (hi.drop _) (ho.drop _)).bind fun t t' ht =>
                .ok ((ho.take _).append ht)
            · exact .error _
          · exact .error _
        refine (child 0 false _ _ ho).bind fun o o' ho => ?_
        refine (child 1 rev _ _ ho).bind fun o o' ho => ?_
        refine (child 2 rev _ _ ho).bind fun o o' ho => ?_
        exact child 3 true _ _ ho

theorem radix4Twiddles_rel (h : Respects C R) (n st : Nat) : LR (CxRel C) (radix4Twiddles T n st) (radix4Twiddles T' n st) := by
  induction st using Nat.strong_induction_on with
  | _ st ih =>
    rw [radix4Twiddles, radix4Twiddles.eq_def T' n st]
    split
    · next hs =>
      refine LR.append (LR.flatTable fun i hi => LR.table fun k hk => h.inv _ _ ?_) (ih _ (by omega))
      rw [List.mem_range'_1] at hi hk
      have h1 : i < n / (st * 4) := by omega
      have h2 : i * (st * 4) < n := lt_of_lt_of_le ((Nat.mul_lt_mul_right (by omega)).2 h1) (Nat.div_mul_le_self _ _)
      have h3 : i * k * st ≤ i * (st * 4) := by
        rw [Nat.mul_assoc]
        refine Nat.mul_le_mul_left i ?_
        rw [Nat.mul_comm]
        exact Nat.mul_le_mul_left st (by omega)
      omega
    · exact .nil

theorem radix4Layers_rel (h : Respects C R) (n cs : Nat) : ∀ (tw : List (Cx T)) (tw' : List (Cx T')) (o : List T) (o' : List T'),
    LR (CxRel C) tw tw' → LR R o o' → ResRel (LR R) (radix4Layers n cs tw o) (radix4Layers n cs tw' o') := by
  induction hm : n + 1 - cs using Nat.strong_induction_on generalizing cs with
  | _ m ih =>
    intro tw tw' o o' ht ho
    rw [radix4Layers, radix4Layers.eq_def n cs tw' o']
    split
    · split
      · exact .error _
      · refine (forRange_rel rfl ho fun i o o' ho => ?_).bind fun o o' ho => ?_
        · refine (splitAt_rel ho _).bind ?_
          rintro ⟨f, d⟩ ⟨f', d'⟩ ⟨hf, hd⟩
          refine ResRel.bind (P := LR R) ?_ fun d d' hd => .ok (LR.append hf hd)
          exact applyColumns_rel (fun b b' hb => performInPlace_rel (fun _ _ hm => contiguous4_rel h hm) hb) (mr4Kernel_rel h)
            (chunksExactAux_rel _ _ _ ht) hd
        · by_cases h2 : cs * 2 / 4 < 2
          · rw [if_pos h2, if_pos h2]; exact .error _
          · rw [if_neg h2, if_neg h2]
            refine (splitAt_rel ht _).bind ?_
            rintro ⟨_, t⟩ ⟨_, t'⟩ ⟨_, ht⟩
            exact ih (n + 1 - cs * 4) (by omega) (cs * 4) rfl t t' o o' ht ho
    · exact .ok ho

theorem radix4Base_rel (h : Respects C R) (n : Nat) : (radix4Base T n).1 = (radix4Base T' n).1 ∧
    DhtRel R (radix4Base T n).2 (radix4Base T' n).2 := by
  unfold radix4Base
  split
  · exact ⟨rfl, butterfly1_rel⟩
  · exact ⟨rfl, boilerplateFftButterfly_rel fun _ _ hm => contiguous2_rel h hm⟩
  · exact ⟨rfl, boilerplateFftButterfly_rel fun _ _ hm => contiguous4_rel h hm⟩
  · split
    · exact ⟨rfl, boilerplateFftButterfly_rel fun _ _ hm => contiguous8_rel h hm⟩
    · exact ⟨rfl, boilerplateFftButterfly_rel fun _ _ hm => contiguous16_rel h hm⟩

theorem radix4PerformOop_rel (h : Respects C R) {bd : Dht T} {bd' : Dht T'} (hb : DhtRel R bd bd') (base n : Nat)
    {tw : List (Cx T)} {tw' : List (Cx T')} (ht : LR (CxRel C) tw tw') {i o s : List T} {i' o' s' : List T'}
    (hi : LR R i i') (ho : LR R o o') (hs : LR R s s') :
    ResRel (PR (LR R) (PR (LR R) (LR R))) (radix4PerformOop bd base n tw i o s) (radix4PerformOop bd' base n tw' i' o' s') := by
  unfold radix4PerformOop
  refine (prepareRadix4_rel _ _ _ _ _ _ _ _ hi ho).bind fun o o' ho => ?_
  refine (hb.inplace _ _ _ _ ho .nil).bind ?_
  rintro ⟨o, _⟩ ⟨o', _⟩ ⟨ho, _⟩
  exact (radix4Layers_rel h _ _ _ _ _ _ ht ho).bind fun o o' ho => .ok ⟨hi, ho, hs⟩

theorem radix4_rel (h : Respects C R) (n : Nat) : ResRel (DhtRel R) (radix4 T n) (radix4 T' n) := by
  unfold radix4
  refine (assert_rel rfl _).bind fun _ _ _ => ?_
  obtain ⟨h1, h2⟩ := radix4Base_rel h n
  revert h1 h2
  generalize radix4Base T n = p
  generalize radix4Base T' n = p'
  obtain ⟨b, d⟩ := p
  obtain ⟨b', d'⟩ := p'
  intro h1 h2
  simp only at h1 h2 ⊢
  subst h1
  refine .ok (boilerplateDht_rel (fun _ b b' s s' hb hs => ?_) (fun _ i i' o o' s s' hi ho hs => ?_))
  · unfold radix4PerformInplace
    rw [hb.length, hs.length]
    by_cases hl : s'.length = b'.length
    · rw [if_pos hl, if_pos hl]
      refine (radix4PerformOop_rel h h2 _ _ (radix4Twiddles_rel h _ _) hb hb .nil).bind ?_
      rintro ⟨s, b, _⟩ ⟨s', b', _⟩ ⟨hs, hb, _⟩
      exact .ok ⟨hb, hs⟩
    · rw [if_neg hl, if_neg hl]
      exact .error _
  · exact radix4PerformOop_rel h h2 _ _ (radix4Twiddles_rel h _ _) hi ho hs

/-! ## SplitRadix -/

theorem srTwiddles_rel (h : Respects C R) {n : Nat} (hn : 0 < n) : LR (CxRel C) (srTwiddles T n) (srTwiddles T' n) := by
  refine LR.flatTable fun c hc => ?_
  rw [List.mem_range] at hc
  exact .cons (h.inv _ _ (by omega)) (.cons (h.inv _ _ (by omega)) .nil)

/-- Related quadruples of sub-slices. -/
structure SrRel (R : T → T' → Prop) (b : SrBuf T) (b' : SrBuf T') : Prop where
  half0 : LR R b.half0 b'.half0
  half1 : LR R b.half1 b'.half1
  quarter1 : LR R b.quarter1 b'.quarter1
  quarter3 : LR R b.quarter3 b'.quarter3

theorem srColumn0_rel (h : Respects C R) {b : SrBuf T} {b' : SrBuf T'} (hb : SrRel R b b') :
    ResRel (SrRel R) (srColumn0 b) (srColumn0 b') := by
  obtain ⟨h0, h1, h2, h3⟩ := hb
  unfold srColumn0
  simp only
  refine (getI_rel h0 _).bind fun _ _ _ => ?_
  refine (getI_rel h1 _).bind fun _ _ _ => ?_
  refine (getI_rel h2 _).bind fun _ _ _ => ?_
  refine (getI_rel h3 _).bind fun _ _ _ => ?_
  refine (setI_rel h0 _ (by rel_val h)).bind fun _ _ h0 => ?_
  refine (setI_rel h1 _ (by rel_val h)).bind fun _ _ h1 => ?_
  refine (setI_rel h2 _ (by rel_val h)).bind fun _ _ h2 => ?_
  refine (setI_rel h3 _ (by rel_val h)).bind fun _ _ h3 => ?_
  exact .ok ⟨h0, h1, h2, h3⟩

theorem srColumn_rel (h : Respects C R) (q : Nat) {tw : List (Cx T)} {tw' : List (Cx T')} (ht : LR (CxRel C) tw tw') (i : Nat)
    {b : SrBuf T} {b' : SrBuf T'} (hb : SrRel R b b') : ResRel (SrRel R) (srColumn q tw i b) (srColumn q tw' i b') := by
  obtain ⟨h0, h1, h2, h3⟩ := hb
  unfold srColumn
  simp only
  refine (getU_rel ht _).bind fun t1 t1' hh => ?_
  obtain ⟨c1, c2⟩ := hh
  refine (getU_rel ht _).bind fun t3 t3' hh => ?_
  obtain ⟨c3, c4⟩ := hh
  refine (getU_rel h0 _).bind fun _ _ _ => ?_
  refine (getU_rel h1 _).bind fun _ _ _ => ?_
  refine (getU_rel h2 _).bind fun _ _ _ => ?_
  refine (getU_rel h3 _).bind fun _ _ _ => ?_
  refine (getU_rel h0 _).bind fun _ _ _ => ?_
  refine (getU_rel h1 _).bind fun _ _ _ => ?_
  refine (getU_rel h2 _).bind fun _ _ _ => ?_
  refine (getU_rel h3 _).bind fun _ _ _ => ?_
  refine (setU_rel h0 _ (by rel_val h)).bind fun _ _ h0 => ?_
  refine (setU_rel h1 _ (by rel_val h)).bind fun _ _ h1 => ?_
  refine (setU_rel h0 _ (by rel_val h)).bind fun _ _ h0 => ?_
  refine (setU_rel h1 _ (by rel_val h)).bind fun _ _ h1 => ?_
  refine (setU_rel h2 _ (by rel_val h)).bind fun _ _ h2 => ?_
  refine (setU_rel h3 _ (by rel_val h)).bind fun _ _ h3 => ?_
  refine (setU_rel h2 _ (by rel_val h)).bind fun _ _ h2 => ?_
  refine (setU_rel h3 _ (by rel_val h)).bind fun _ _ h3 => ?_
  exact .ok ⟨h0, h1, h2, h3⟩

theorem srApplyTwiddles_rel (h : Respects C R) (n : Nat) {tw : List (Cx T)} {tw' : List (Cx T')} (ht : LR (CxRel C) tw tw')
    {b : List T} {b' : List T'} (hb : LR R b b') : ResRel (LR R) (srApplyTwiddles n tw b) (srApplyTwiddles n tw' b') := by
  unfold srApplyTwiddles
  refine (splitAt_rel hb _).bind ?_
  rintro ⟨e, o⟩ ⟨e', o'⟩ ⟨he, ho⟩
  refine (splitAt_rel he _).bind ?_
  rintro ⟨h0, h1⟩ ⟨h0', h1'⟩ ⟨hh0, hh1⟩
  refine (splitAt_rel ho _).bind ?_
  rintro ⟨q1, q3⟩ ⟨q1', q3'⟩ ⟨hq1, hq3⟩
  refine (srColumn0_rel h ⟨hh0, hh1, hq1, hq3⟩).bind fun b b' hb => ?_
  refine (forRange_rel rfl hb fun i b b' hb => srColumn_rel h _ ht i hb).bind fun b b' hb => ?_
  exact .ok ((hb.half0.append hb.half1).append (hb.quarter1.append hb.quarter3))

theorem srPerformInplace_rel (h : Respects C R) {qd hd : Dht T} {qd' hd' : Dht T'} (hq : DhtRel R qd qd') (hh : DhtRel R hd hd')
    (n : Nat) {tw : List (Cx T)} {tw' : List (Cx T')} (ht : LR (CxRel C) tw tw') {b s : List T} {b' s' : List T'}
    (hb : LR R b b') (hs : LR R s s') :
    ResRel (PR (LR R) (LR R)) (srPerformInplace qd hd n tw b s) (srPerformInplace qd' hd' n tw' b' s') := by
  unfold srPerformInplace
  refine (srApplyTwiddles_rel h n ht hb).bind fun b b' hb => ?_
  refine (splitAt_rel hb _).bind ?_
  rintro ⟨e, o⟩ ⟨e', o'⟩ ⟨he, ho⟩
  refine (hh.inplace _ _ _ _ he hs).bind ?_
  rintro ⟨e, s⟩ ⟨e', s'⟩ ⟨he, hs⟩
  refine (hq.oop _ _ _ _ _ _ ho hs .nil).bind ?_
  rintro ⟨o, s, _⟩ ⟨o', s', _⟩ ⟨ho, hs, _⟩
  refine (splitAt_rel hs _).bind ?_
  rintro ⟨q1, q3⟩ ⟨q1', q3'⟩ ⟨hq1, hq3⟩
  refine (forList_rel (LR.refl _) (LR.append he ho) ?_).bind fun b b' hb => .ok ⟨hb, hs⟩
  rintro i _ b b' rfl hb
  refine (getU_rel hb _).bind fun _ _ h0 => (setU_rel hb _ h0).bind fun _ _ hb => ?_
  refine (getU_rel hb _).bind fun _ _ h0 => (setU_rel hb _ h0).bind fun _ _ hb => ?_
  refine (getU_rel hq1 _).bind fun _ _ h0 => (setU_rel hb _ h0).bind fun _ _ hb => ?_
  exact (getU_rel hq3 _).bind fun _ _ h0 => setU_rel hb _ h0

theorem srPerformOop_rel (h : Respects C R) {qd hd : Dht T} {qd' hd' : Dht T'} (hq : DhtRel R qd qd') (hh : DhtRel R hd hd')
    (n : Nat) {tw : List (Cx T)} {tw' : List (Cx T')} (ht : LR (CxRel C) tw tw') {i o s : List T} {i' o' s' : List T'}
    (hi : LR R i i') (ho : LR R o o') (hs : LR R s s') :
    ResRel (PR (LR R) (PR (LR R) (LR R))) (srPerformOop qd hd n tw i o s) (srPerformOop qd' hd' n tw' i' o' s') := by
  unfold srPerformOop
  refine (srApplyTwiddles_rel h n ht hi).bind fun i i' hi => ?_
  refine (splitAt_rel hi _).bind ?_
  rintro ⟨e, d⟩ ⟨e', d'⟩ ⟨he, hd⟩
  refine (hh.inplace _ _ _ _ he ho).bind ?_
  rintro ⟨e, o⟩ ⟨e', o'⟩ ⟨he, ho⟩
  refine (hq.inplace _ _ _ _ hd ho).bind ?_
  rintro ⟨d, o⟩ ⟨d', o'⟩ ⟨hd, ho⟩
  refine (splitAt_rel hd _).bind ?_
  rintro ⟨q1, q3⟩ ⟨q1', q3'⟩ ⟨hq1, hq3⟩
  refine (forRange_rel (by rw [LR.length ho]) ho fun i o o' ho => ?_).bind fun o o' ho => .ok ⟨LR.append he hd, ho, hs⟩
  refine (getU_rel he _).bind fun _ _ h0 => (setU_rel ho _ h0).bind fun _ _ ho => ?_
  refine (getU_rel hq1 _).bind fun _ _ h0 => (setU_rel ho _ h0).bind fun _ _ ho => ?_
  refine (getU_rel he _).bind fun _ _ h0 => (setU_rel ho _ h0).bind fun _ _ ho => ?_
  exact (getU_rel hq3 _).bind fun _ _ h0 => setU_rel ho _ h0

theorem splitRadix_rel (h : Respects C R) {qd hd : Dht T} {qd' hd' : Dht T'} (hq : DhtRel R qd qd') (hh : DhtRel R hd hd') :
    ResRel (DhtRel R) (splitRadix qd hd) (splitRadix qd' hd') := by
  unfold splitRadix
  simp only
  rw [hq.len, hh.len]
  refine (assert_rel rfl _).bind fun _ _ _ => ?_
  refine .ok (boilerplateDht_rel (fun hn b b' s s' hb hs => ?_) (fun hn i i' o o' s s' hi ho hs => ?_))
  · exact srPerformInplace_rel h hq hh _ (srTwiddles_rel h hn) hb hs
  · exact srPerformOop_rel h hq hh _ (srTwiddles_rel h hn) hi ho hs

/-! ## RadersAlgorithm -/

theorem res_rel_eq {α : Type} (r : Res α) : ResRel Eq r r := by
  cases r with
  | ok a => exact .ok rfl
  | error e => exact .error e

/-- Related results, with a fact about the value. -/
theorem ResRel.and_left {α β : Type} {P : α → β → Prop} {Q : α → Prop} {r : Res α} {r' : Res β} (h : ResRel P r r')
    (hq : ∀ a, r = .ok a → Q a) : ResRel (fun a b => P a b ∧ Q a) r r' := by
  cases h with
  | ok h => exact .ok ⟨h, hq _ rfl⟩
  | error e => exact .error e

theorem stepIndex_lt {i f n j : Nat} (hn : 0 < n) (h : stepIndex i f n = .ok j) : j < n := by
  unfold stepIndex at h
  obtain ⟨p, _, h⟩ := bind_eq_ok h
  unfold remU64 at h
  split at h
  · cases h
  · cases h; exact Nat.mod_lt _ hn

theorem radersKernelInput_rel (h : Respects C R) (m n ri : Nat) (hm : 0 < m) (hn : 1 < n) :
    ResRel (LR C) (radersKernelInput T m n ri) (radersKernelInput T' m n ri) := by
  unfold radersKernelInput
  simp only
  refine (forRange_rel (S := PR (LR C) (fun i j => i = j ∧ i < n)) rfl ⟨LR.replicate h.zeroC _, rfl, hn⟩ ?_).bind ?_
  · rintro i ⟨x, k⟩ ⟨x', k'⟩ ⟨hx, hk, hkn⟩
    simp only at hx hk hkn
    subst hk
    refine (setI_rel hx _ (h.mulC (h.dht hkn) (h.norm m hm))).bind fun x x' hx => ?_
    refine ((res_rel_eq (stepIndex k ri n)).and_left (Q := fun j => j < n) fun j hj => stepIndex_lt (by omega) hj).bind ?_
    rintro j j' ⟨hj, hjn⟩
    exact .ok ⟨hx, hj, hjn⟩
  · rintro ⟨x, k⟩ ⟨x', k'⟩ ⟨hx, _⟩
    exact .ok hx

theorem radersTwiddles_rel (h : Respects C R) {x : List T} {x' : List T'} (hx : LR C x x') :
    ResRel (LR (CxRel C)) (radersTwiddles x) (radersTwiddles x') := by
  unfold radersTwiddles
  simp only
  rw [hx.length]
  refine (getI_rel hx 0).bind fun a a' ha => ?_
  refine (setI_rel (LR.replicate (CxRel.mk h.zeroC h.zeroC) _) _ (CxRel.mk ha h.zeroC)).bind fun t t' ht => ?_
  refine (forRange_rel rfl ht fun i t t' ht => ?_).bind fun t t' ht => ?_
  · refine (getI_rel hx _).bind fun a a' ha => (getI_rel hx _).bind fun b b' hb => ?_
    exact setI_rel ht _ ⟨h.mulC (h.addC ha hb) h.half, h.mulC (h.subC ha hb) h.half⟩
  · exact (getI_rel hx _).bind fun m m' hm => setI_rel ht _ ⟨hm, h.zeroC⟩

theorem radersGather_rel (root n : Nat) {s d : List T} {s' d' : List T'} (hs : LR R s s') (hd : LR R d d') :
    ResRel (LR R) (radersGather root n s d) (radersGather root n s' d') := by
  unfold radersGather
  refine (forRange_rel (S := PR (LR R) Eq) hd.length ⟨hd, rfl⟩ ?_).bind ?_
  · rintro j ⟨d, k⟩ ⟨d', k'⟩ ⟨hd, hk⟩
    simp only at hd hk
    subst hk
    refine (res_rel_eq (pred k)).bind ?_
    rintro p _ rfl
    refine (getI_rel hs _).bind fun v v' hv => (setI_rel hd _ hv).bind fun d d' hd => ?_
    refine (res_rel_eq (stepIndex k root n)).bind ?_
    rintro p _ rfl
    exact .ok ⟨hd, rfl⟩
  · rintro ⟨d, k⟩ ⟨d', k'⟩ ⟨hd, _⟩
    exact .ok hd

theorem radersScatter_rel (ri n : Nat) {s d : List T} {s' d' : List T'} (hs : LR R s s') (hd : LR R d d') :
    ResRel (LR R) (radersScatter ri n s d) (radersScatter ri n s' d') := by
  unfold radersScatter
  refine (forList_rel (S := PR (LR R) Eq) hs ⟨hd, rfl⟩ ?_).bind ?_
  · rintro v v' ⟨d, k⟩ ⟨d', k'⟩ hv ⟨hd, hk⟩
    simp only at hd hk
    subst hk
    refine (res_rel_eq (pred k)).bind ?_
    rintro p _ rfl
    refine (setI_rel hd _ hv).bind fun d d' hd => ?_
    refine (res_rel_eq (stepIndex k ri n)).bind ?_
    rintro p _ rfl
    exact .ok ⟨hd, rfl⟩
  · rintro ⟨d, k⟩ ⟨d', k'⟩ ⟨hd, _⟩
    exact .ok hd

theorem radersMulInplace_rel (h : Respects C R) {tw : List (Cx T)} {tw' : List (Cx T')} (ht : LR (CxRel C) tw tw')
    {b : List T} {b' : List T'} (hb : LR R b b') : ResRel (LR R) (radersMulInplace tw b) (radersMulInplace tw' b') := by
  unfold radersMulInplace
  simp only
  rw [hb.length]
  refine (getI_rel hb _).bind fun a a' ha => (getI_rel ht _).bind fun t t' htt => ?_
  refine (setI_rel hb _ (h.mulc ha htt.re)).bind fun c c' hc => ?_
  refine (forRange_rel rfl hc fun i b b' hb => ?_).bind fun c c' hc => ?_
  · refine (getI_rel hb _).bind fun x x' hx => (getI_rel hb _).bind fun y y' hy => (getI_rel ht _).bind fun t t' htt => ?_
    refine (setI_rel hb _ (h.add (h.cmul htt.re hx) (h.cmul htt.im hy))).bind fun b b' hb => ?_
    exact setI_rel hb _ (h.sub (h.cmul htt.re hy) (h.cmul htt.im hx))
  · split
    · refine (getI_rel hc _).bind fun v v' hv => (getI_rel ht _).bind fun t t' htt => ?_
      exact setI_rel hc _ (h.mulc hv htt.re)
    · exact .ok hc

theorem radersMulOop_rel (h : Respects C R) {tw : List (Cx T)} {tw' : List (Cx T')} (ht : LR (CxRel C) tw tw')
    {o i : List T} {o' i' : List T'} (ho : LR R o o') (hi : LR R i i') :
    ResRel (LR R) (radersMulOop tw o i) (radersMulOop tw' o' i') := by
  unfold radersMulOop
  simp only
  rw [ho.length]
  refine (getI_rel ho _).bind fun a a' ha => (getI_rel ht _).bind fun t t' htt => ?_
  refine (setI_rel hi _ (h.mulc ha htt.re)).bind fun c c' hc => ?_
  refine (forRange_rel rfl hc fun i b b' hb => ?_).bind fun c c' hc => ?_
  · refine (getI_rel ho _).bind fun x x' hx => (getI_rel ho _).bind fun y y' hy => (getI_rel ht _).bind fun t t' htt => ?_
    refine (setI_rel hb _ (h.add (h.cmul htt.re hx) (h.cmul htt.im hy))).bind fun b b' hb => ?_
    exact setI_rel hb _ (h.sub (h.cmul htt.re hy) (h.cmul htt.im hx))
  · rw [hc.length]
    split
    · refine (getI_rel ho _).bind fun v v' hv => (getI_rel ht _).bind fun t t' htt => ?_
      exact setI_rel hc _ (h.mulc hv htt.re)
    · exact .ok hc

theorem radersPerformInplace_rel (h : Respects C R) {d : Dht T} {d' : Dht T'} (hd : DhtRel R d d') (n g gi : Nat)
    {tw : List (Cx T)} {tw' : List (Cx T')} (ht : LR (CxRel C) tw tw') {b s : List T} {b' s' : List T'}
    (hb : LR R b b') (hs : LR R s s') :
    ResRel (PR (LR R) (LR R)) (radersPerformInplace d n g gi tw b s) (radersPerformInplace d' n g gi tw' b' s') := by
  cases hb with
  | nil => exact .error _
  | cons hf hb =>
    unfold radersPerformInplace
    simp only
    refine (splitAt_rel hs _).bind ?_
    rintro ⟨y, e⟩ ⟨y', e'⟩ ⟨hy, he⟩
    simp only at hy he ⊢
    refine (radersGather_rel _ _ hb hy).bind fun y y' hy => ?_
    rw [he.length]
    by_cases hu : e'.length > 0
    · simp only [hu, if_true]
      refine (hd.inplace _ _ _ _ hy he).bind ?_
      rintro ⟨y, e⟩ ⟨y', e'⟩ ⟨hy, he⟩
      simp only at hy he ⊢
      refine (getI_rel hy _).bind fun v v' hv => (radersMulInplace_rel h ht hy).bind fun y y' hy => ?_
      refine (getI_rel hy _).bind fun w w' hw => (setI_rel hy _ (h.add hw hf)).bind fun y y' hy => ?_
      refine (hd.inplace _ _ _ _ hy he).bind ?_
      rintro ⟨y, e⟩ ⟨y', e'⟩ ⟨hy, he⟩
      simp only at hy he ⊢
      exact (radersScatter_rel _ _ hy hb).bind fun b b' hb => .ok ⟨.cons (h.add hf hv) hb, hy.append he⟩
    · simp only [hu, if_false]
      refine (hd.inplace _ _ _ _ hy hb).bind ?_
      rintro ⟨y, b⟩ ⟨y', b'⟩ ⟨hy, hb⟩
      simp only at hy hb ⊢
      refine (getI_rel hy _).bind fun v v' hv => (radersMulInplace_rel h ht hy).bind fun y y' hy => ?_
      refine (getI_rel hy _).bind fun w w' hw => (setI_rel hy _ (h.add hw hf)).bind fun y y' hy => ?_
      refine (hd.inplace _ _ _ _ hy hb).bind ?_
      rintro ⟨y, b⟩ ⟨y', b'⟩ ⟨hy, hb⟩
      simp only at hy hb ⊢
      exact (radersScatter_rel _ _ hy hb).bind fun b b' hb => .ok ⟨.cons (h.add hf hv) hb, hy.append he⟩

theorem radersPerformOop_rel (h : Respects C R) {d : Dht T} {d' : Dht T'} (hd : DhtRel R d d') (n g gi : Nat)
    {tw : List (Cx T)} {tw' : List (Cx T')} (ht : LR (CxRel C) tw tw') {i o s : List T} {i' o' s' : List T'}
    (hi : LR R i i') (ho : LR R o o') (hs : LR R s s') :
    ResRel (PR (LR R) (PR (LR R) (LR R))) (radersPerformOop d n g gi tw i o s) (radersPerformOop d' n g gi tw' i' o' s') := by
  have second : ∀ (f v : T) (f' v' : T') (o i s : List T) (o' i' s' : List T'), R f f' → R v v' → LR R o o' → LR R i i' → LR R s s' →
      ResRel (PR (LR R) (PR (LR R) (LR R)))
        (do
          let (input, innerScratch) ← d.processWithScratch i (if s.length > 0 then s else o)
          let (scratch, output) := if s.length > 0 then (innerScratch, o) else (s, innerScratch)
          let output ← radersScatter gi n input output
          .ok (f :: input, v :: output, scratch))
        (do
          let (input, innerScratch) ← d'.processWithScratch i' (if s'.length > 0 then s' else o')
          let (scratch, output) := if s'.length > 0 then (innerScratch, o') else (s', innerScratch)
          let output ← radersScatter gi n input output
          .ok (f' :: input, v' :: output, scratch)) := by
    intro f v f' v' o i s o' i' s' hf hv ho hi hs
    rw [hs.length]
    by_cases hu : s'.length > 0
    · simp only [hu, if_true]
      refine (hd.inplace _ _ _ _ hi hs).bind ?_
      rintro ⟨i, s⟩ ⟨i', s'⟩ ⟨hi, hs⟩
      simp only at hi hs ⊢
      exact (radersScatter_rel _ _ hi ho).bind fun o o' ho => .ok ⟨.cons hf hi, .cons hv ho, hs⟩
    · simp only [hu, if_false]
      refine (hd.inplace _ _ _ _ hi ho).bind ?_
      rintro ⟨i, o⟩ ⟨i', o'⟩ ⟨hi, ho⟩
      simp only at hi ho ⊢
      exact (radersScatter_rel _ _ hi ho).bind fun o o' ho => .ok ⟨.cons hf hi, .cons hv ho, hs⟩
  cases ho with
  | nil => exact .error _
  | cons _ ho =>
    cases hi with
    | nil => exact .error _
    | cons hf hi =>
      unfold radersPerformOop
      simp only
      refine (radersGather_rel _ _ hi ho).bind fun o o' ho => ?_
      rw [hs.length]
      by_cases hu : s'.length > 0
      · simp only [hu, if_true]
        refine (hd.inplace _ _ _ _ ho hs).bind ?_
        rintro ⟨o, s⟩ ⟨o', s'⟩ ⟨ho, hs⟩
        simp only at ho hs ⊢
        refine (getI_rel ho _).bind fun v v' hv => (radersMulOop_rel h ht ho hi).bind fun i i' hi => ?_
        refine (getI_rel hi _).bind fun w w' hw => (setI_rel hi _ (h.add hw hf)).bind fun i i' hi => ?_
        exact second _ _ _ _ _ _ _ _ _ _ hf (h.add hf hv) ho hi hs
      · simp only [hu, if_false]
        refine (hd.inplace _ _ _ _ ho hi).bind ?_
        rintro ⟨o, i⟩ ⟨o', i'⟩ ⟨ho, hi⟩
        simp only at ho hi ⊢
        refine (getI_rel ho _).bind fun v v' hv => (radersMulOop_rel h ht ho hi).bind fun i i' hi => ?_
        refine (getI_rel hi _).bind fun w w' hw => (setI_rel hi _ (h.add hw hf)).bind fun i i' hi => ?_
        have := second _ _ _ _ _ _ _ _ _ _ hf (h.add hf hv) ho hi hs
        rw [hs.length] at this ⊢
        simpa only [hu, if_false] using this

theorem raders_rel (h : Respects C R) {d : Dht T} {d' : Dht T'} (hd : DhtRel R d d') (hc : DhtRel C d d') :
    ResRel (DhtRel R) (raders d) (raders d') := by
  unfold raders
  simp only
  rw [hd.len, hd.inplaceScratchLen]
  by_cases hp : (d'.len + 1).Prime
  · refine (assert_rel rfl _).bind fun _ _ _ => (res_rel_eq _).bind ?_
    rintro g _ rfl
    cases g with
    | none => exact .error _
    | some g =>
      have h2 := hp.two_le
      refine (radersKernelInput_rel h _ _ _ (by omega) (by omega)).bind fun x x' hx => ?_
      refine (dht_process_rel hc h.zeroC hx).bind fun x x' hx => ?_
      refine (radersTwiddles_rel h hx).bind fun t t' ht => .ok ?_
      refine boilerplateDht_rel (fun hn b b' s s' hb hs => ?_) (fun hn i i' o o' s s' hi ho hs => ?_)
      · exact radersPerformInplace_rel h hd _ _ _ ht hb hs
      · exact radersPerformOop_rel h hd _ _ _ ht hi ho hs
  · have : millerRabin (d'.len + 1) = false := by simp [millerRabin, hp]
    rw [this]
    exact .error _

/-! ## Compositions -/

theorem plan_rel (p : Plan) {C R : T → T' → Prop} (h : Respects C R) : ResRel (DhtRel R) (p.build T) (p.build T') := by
  induction p generalizing R with
  | naive n => exact .ok (dhtNaive_rel h n)
  | b1 => exact .ok butterfly1_rel
  | b2 => exact .ok (boilerplateFftButterfly_rel fun _ _ hm => contiguous2_rel h hm)
  | b3 => exact .ok (boilerplateFftButterfly_rel fun _ _ hm => contiguous3_rel h hm)
  | b4 => exact .ok (boilerplateFftButterfly_rel fun _ _ hm => contiguous4_rel h hm)
  | b5 => exact .ok (boilerplateFftButterfly_rel fun _ _ hm => contiguous5_rel h hm)
  | b6 => exact .ok (boilerplateFftButterfly_rel fun _ _ hm => contiguous6_rel h hm)
  | b8 => exact .ok (boilerplateFftButterfly_rel fun _ _ hm => contiguous8_rel h hm)
  | b9 => exact .ok (boilerplateFftButterfly_rel fun _ _ hm => contiguous9_rel h hm)
  | b16 => exact .ok (boilerplateFftButterfly_rel fun _ _ hm => contiguous16_rel h hm)
  | mixedRadix w l ihw ihh => exact (ihw h).bind fun _ _ hw => (ihh h).bind fun _ _ hh => .ok (mixedRadix_rel h hw hh)
  | mr2 l ih => exact (ih h).bind fun _ _ hh => .ok (mixedRadix2xn_rel h hh)
  | mr3 l ih => exact (ih h).bind fun _ _ hh => .ok (mixedRadix3xn_rel h hh)
  | mr4 l ih => exact (ih h).bind fun _ _ hh => .ok (mixedRadix4xn_rel h hh)
  | mr5 l ih => exact (ih h).bind fun _ _ hh => .ok (mixedRadix5xn_rel h hh)
  | mr6 l ih => exact (ih h).bind fun _ _ hh => .ok (mixedRadix6xn_rel h hh)
  | radix4 n => exact radix4_rel h n
  | splitRadix q l ihq ihh => exact (ihq h).bind fun _ _ hq => (ihh h).bind fun _ _ hh => splitRadix_rel h hq hh
  | raders i ih =>
    have h1 := ih h
    have h2 := ih h.const
    show ResRel (DhtRel R) (i.build T >>= raders) (i.build T' >>= raders)
    revert h1 h2
    generalize i.build T = r
    generalize i.build T' = r'
    intro h1 h2
    cases h1 with
    | ok h1 =>
      cases h2 with
      | ok h2 => exact raders_rel h h1 h2
    | error e => exact .error e

end RustDHT
