import Verif.Proofs.Memory
import Verif.Props.Calls

/-! # C76: the memory of the inner objects is their own business

The algorithms use the objects of the caller only through their methods, so two sets of objects that cannot be told apart by calls
give results that cannot be told apart; and what every call of the inner objects guarantees for their memory (an invariant, or a
bound on how it changes), every call of the algorithms guarantees, constructors included.  In particular an object that computes the
DHT only as long as its memory is in order, such as a cache, can be used: the algorithms keep it in order. -/

namespace RustDHT

variable {σ τ T : Type}

/-! ## Objects that cannot be told apart -/

section
variable [Zero T] [Add T] [Sub T] [Mul T] [Neg T] [FftNum T]

/-- Around objects that give the same answers as long as their memories are related, the same expression of constructors gives objects
that give the same answers as long as the memories are related.  Nothing is assumed about what the answers are. -/
theorem C76_same_answers (R : σ → τ → Prop) (t : LiveTree σ T) (t' : LiveTree τ T) (h : t.Rel (SameUpTo R) t') (st : σ) (st' : τ)
    (hr : R st st') : Agree (fun a b => SameUpTo R a.1 b.1 ∧ R a.2 b.2) (t.build st) (t'.build st') := by
  have h' : t.Rel (fun l m => ∀ _ : Unit, SameUpTo R l m) t' := by
    induction h with
    | plan p => exact .plan p
    | user h => exact .user fun _ => h
    | mixedRadix _ _ i1 i2 => exact .mixedRadix i1 i2
    | mr2 _ i => exact .mr2 i
    | mr3 _ i => exact .mr3 i
    | mr4 _ i => exact .mr4 i
    | mr5 _ i => exact .mr5 i
    | mr6 _ i => exact .mr6 i
    | splitRadix _ _ i1 i2 => exact .splitRadix i1 i2
    | raders _ i => exact .raders i
  exact (liveTree_same (F := fun _ => R) h' () st st' hr).mono fun _ _ h => ⟨h.1 (), h.2⟩

/-- An object that keeps a log and one that counts: related as long as the length of the log is the count. -/
theorem logging_same_counting (who : String) (d : Dht T) :
    SameUpTo (fun (l : List (InnerCall String)) c => l.length = c) (loggingDht who d) (countingDht d) := by
  refine ⟨?_, ?_, ?_, ?_, ?_, ?_⟩
  · rintro l _ rfl; exact ⟨rfl, by simp⟩
  · rintro l _ rfl; exact ⟨rfl, by simp⟩
  · rintro l _ rfl; exact ⟨rfl, by simp⟩
  · rintro b l _ rfl; exact Agree.step fun _ => ⟨rfl, by simp⟩
  · rintro b s l _ rfl; exact Agree.step fun _ => ⟨rfl, rfl, by simp⟩
  · rintro i o s l _ rfl; exact Agree.step fun _ => ⟨rfl, rfl, rfl, by simp⟩

example : Agree (fun a b => SameUpTo (fun (l : List (InnerCall String)) c => l.length = c) a.1 b.1 ∧ a.2.length = b.2)
    ((LiveTree.mr3 (.splitRadix (.user (loggingDht "q" (dhtNaive T 3))) (.user (loggingDht "h" (dhtNaive T 6))))).build [])
    ((LiveTree.mr3 (.splitRadix (.user (countingDht (dhtNaive T 3))) (.user (countingDht (dhtNaive T 6))))).build 0) :=
  C76_same_answers _ _ _ (.mr3 (.splitRadix (.user (logging_same_counting _ _)) (.user (logging_same_counting _ _)))) [] 0 rfl

/-! ## Invariants and guarantees -/

/-- An invariant of the memory that all objects of the caller keep is kept by the constructors, and by all calls of the result. -/
theorem C76_invariant (I : σ → Prop) (t : LiveTree σ T) (hu : ∀ d ∈ t.users, Keeps I d) (st : σ) (hi : I st) (d : LiveDht σ T)
    (st' : σ) (e : t.build st = .ok (d, st')) : I st' ∧ Keeps I d := by
  have h := liveTree_keeps (J := fun _ : Unit => I) (fun d hd _ => hu d hd) () hi e
  exact ⟨h.1, h.2 ()⟩

/-- If each call of the caller's objects changes the memory only as `G` allows, the constructors and all calls of the result do. -/
theorem C76_guarantee (I : σ → Prop) (G : σ → σ → Prop) (hrefl : ∀ st, I st → G st st)
    (htrans : ∀ a b c, G a b → G b c → G a c) (t : LiveTree σ T) (hu : ∀ d ∈ t.users, Keeps I d ∧ Moves I G d) (st : σ) (hi : I st)
    (d : LiveDht σ T) (st' : σ) (e : t.build st = .ok (d, st')) : G st st' ∧ Moves I G d := by
  have h := liveTree_keeps (J := fun a s => I s ∧ G a s) (fun d hd a => keeps_of_moves htrans (hu d hd).1 (hu d hd).2 a) st
    ⟨hi, hrefl st hi⟩ e
  exact ⟨h.1.2, moves_of_keeps hrefl h.2⟩

/-- A counter never goes back. -/
example (d : LiveDht Nat T) (c : Nat)
    (e : (LiveTree.mixedRadix (.user (fickleDht T)) (.user (countingDht (dhtNaive T 5)))).build 3 = .ok (d, c)) :
    3 ≤ c ∧ Moves (fun _ => True) (· ≤ ·) d := by
  refine C76_guarantee (fun _ => True) (· ≤ ·) (fun _ _ => le_rfl) (fun _ _ _ => le_trans) _ ?_ 3 trivial d c e
  intro d hd
  refine ⟨⟨fun _ _ _ _ _ => trivial, fun _ _ _ _ _ => trivial, fun _ _ _ _ _ => trivial, fun _ _ _ _ _ _ => trivial,
    fun _ _ _ _ _ _ _ _ => trivial, fun _ _ _ _ _ _ _ _ _ _ => trivial⟩, ?_⟩
  simp only [LiveTree.users, List.cons_append, List.nil_append, List.mem_cons, List.not_mem_nil, or_false] at hd
  rcases hd with rfl | rfl
  · refine ⟨?_, ?_, ?_, ?_, ?_, ?_⟩
    · rintro st n st' - e; cases e; simp
    · rintro st n st' - e; cases e; simp
    · rintro st n st' - e; simp only [fickleDht] at e; split at e <;> cases e; simp
    · rintro b st n st' - e; simp only [fickleDht] at e; split at e <;> cases e; simp
    · rintro b s st n m st' - e; simp only [fickleDht] at e; split at e <;> cases e; simp
    · rintro i o s st n m k st' - e; simp only [fickleDht] at e; split at e <;> cases e; simp
  · refine ⟨?_, ?_, ?_, ?_, ?_, ?_⟩
    · rintro st n st' - e; cases e; simp
    · rintro st n st' - e; cases e; simp
    · rintro st n st' - e; cases e; simp
    · rintro b st n st' - e; obtain ⟨_, _, e⟩ := bind_eq_ok e; cases e; simp
    · rintro b s st n m st' - e; obtain ⟨_, _, e⟩ := bind_eq_ok e; cases e; simp
    · rintro i o s st n m k st' - e; obtain ⟨_, _, e⟩ := bind_eq_ok e; cases e; simp

end

/-! ## Objects that work only while their memory is in order -/

/-- The object remembers its last in-place transform and does not compute it again. -/
noncomputable def cachingDht (d : Dht ℝ) : LiveDht (Option (List ℝ × List ℝ)) ℝ := by
  classical exact {
    len := fun c => .ok (d.len, c)
    inplaceScratchLen := fun c => .ok (d.inplaceScratchLen, c)
    oopScratchLen := fun c => .ok (d.oopScratchLen, c)
    process := fun b c => do let b ← d.process b; .ok (b, c)
    processWithScratch := fun b s c =>
      if ∃ y, c = some (b, y) then .ok ((c.getD ([], [])).2, s, c) else do
        let r ← d.processWithScratch b s
        .ok (r.1, r.2, if d.inplaceScratchLen ≤ s.length then some (b, r.1) else c)
    processOop := fun i o s c => do let r ← d.processOop i o s; .ok (r.1, r.2.1, r.2.2, c) }

/-- What is remembered is true. -/
def CacheValid (n : ℕ) (f : List ℝ → List ℝ) (c : Option (List ℝ × List ℝ)) : Prop :=
  ∀ x y, c = some (x, y) → n ≤ x.length → n ∣ x.length → y = mapChunks n f x

theorem cachingDht_implements {d : Dht ℝ} {f : List ℝ → List ℝ} (h : Implements d f) :
    LiveImplementsOn (CacheValid d.len f) (cachingDht d) d.len d.inplaceScratchLen d.oopScratchLen f := by
  refine ⟨⟨?_, ?_, ?_, ?_, ?_, ?_⟩, fun c _ => ⟨c, rfl⟩, fun c _ => ⟨c, rfl⟩, fun c _ => ⟨c, rfl⟩, h.length, fun b c _ h1 h2 => ?_,
    fun b s c hc h1 h2 h3 => ?_, fun i o s c _ h0 h1 h2 h3 => ?_⟩
  · rintro c n c' hc e; cases e; exact hc
  · rintro c n c' hc e; cases e; exact hc
  · rintro c n c' hc e; cases e; exact hc
  · rintro b c n c' hc e; obtain ⟨_, _, e⟩ := bind_eq_ok e; cases e; exact hc
  · rintro b s c b' s' c' hc e
    simp only [cachingDht] at e
    split at e
    · cases e; exact hc
    · obtain ⟨r, hr, e⟩ := bind_eq_ok e
      cases e
      split
      · rename_i hs
        rintro x y e h1 h2
        simp only [Option.some.injEq, Prod.mk.injEq] at e
        obtain ⟨rfl, rfl⟩ := e
        obtain ⟨s', e, -⟩ := h.inplace b s h1 h2 hs
        rw [e] at hr; cases hr; rfl
      · exact hc
  · rintro i o s c i' o' s' c' hc e; obtain ⟨_, _, e⟩ := bind_eq_ok e; cases e; exact hc
  · exact ⟨c, by simp only [cachingDht, h.process h1 h2, ok_bind]⟩
  · simp only [cachingDht]
    split
    · rename_i hy
      obtain ⟨y, rfl⟩ := hy
      exact ⟨s, _, by rw [← hc b y rfl h1 h2]; rfl, rfl, rfl⟩
    · obtain ⟨s', e, h4, h5⟩ := h.inplace b s h1 h2 h3
      exact ⟨s', _, by rw [e]; rfl, h4, h5⟩
  · obtain ⟨i', s', e, h4, h5, h6⟩ := h.oop i o s h0 h1 h2 h3
    exact ⟨i', s', c, by simp only [cachingDht, e, ok_bind], h4, h5, h6⟩

/-- With a wrong cache the object computes something else: C56 does not apply to it. -/
example : (cachingDht (dhtNaive ℝ 1)).processWithScratch [5] [0] (some ([5], [7])) = .ok ([7], [0], some ([5], [7])) := by
  simp [cachingDht]

theorem C76_mixedRadix_dht (I : σ → Prop) (w h : LiveDht σ ℝ) (n1 i1 o1 n2 i2 o2 : ℕ) (hw : LiveImplementsOn I w n1 i1 o1 dht)
    (hh : LiveImplementsOn I h n2 i2 o2 dht) (st : σ) (hi : I st) :
    ∃ d st', liveMixedRadix w h st = .ok (d, st') ∧ I st' ∧
      LiveImplementsOn I d (n1 * n2) (n1 * n2 + max (if i2 > n1 * n2 then i2 else 0) o1)
        (if max i2 i1 > n1 * n2 then max i2 i1 else 0) dht :=
  Restricts.builds (L := fun st => liveMixedRadix w h st) hi
    (liveMixedRadix_same (F := fun _ => Restricts I) (fun _ => hw.keeps.same) (fun _ => hh.keeps.same) () st ⟨st, hi⟩ rfl)
    (C56_mixedRadix_dht _ _ _ _ _ _ _ _ hw.on hh.on _)

theorem C76_mixedRadix2xn_dht (I : σ → Prop) (h : LiveDht σ ℝ) (n i o : ℕ) (hh : LiveImplementsOn I h n i o dht)
    (hin : 0 < n → i ≤ 2 * n) (hoop : 0 < n → o = 0) (st : σ) (hi : I st) :
    ∃ d st', liveMixedRadix2xn h st = .ok (d, st') ∧ I st' ∧
      LiveImplementsOn I d (2 * n) (2 * n + if i > 2 * n then i else 0) (if i > 2 * n then i else 0) dht :=
  Restricts.builds (L := fun st => liveMixedRadix2xn h st) hi
    (by
      rw [liveMixedRadix2xn_eq]
      exact liveMixedRadixN_same (F := fun _ => Restricts I) (fun _ => hh.keeps.same) () st ⟨st, hi⟩ rfl)
    (by rw [← liveMixedRadix2xn_eq]; exact C56_mixedRadix2xn_dht _ _ _ _ hh.on hin hoop _)

theorem C76_mixedRadix3xn_dht (I : σ → Prop) (h : LiveDht σ ℝ) (n i o : ℕ) (hh : LiveImplementsOn I h n i o dht)
    (hin : 0 < n → i ≤ 3 * n) (hoop : 0 < n → o = 0) (st : σ) (hi : I st) :
    ∃ d st', liveMixedRadix3xn h st = .ok (d, st') ∧ I st' ∧
      LiveImplementsOn I d (3 * n) (3 * n + if i > 3 * n then i else 0) (if i > 3 * n then i else 0) dht :=
  Restricts.builds (L := fun st => liveMixedRadix3xn h st) hi
    (by
      rw [liveMixedRadix3xn_eq]
      exact liveMixedRadixN_same (F := fun _ => Restricts I) (fun _ => hh.keeps.same) () st ⟨st, hi⟩ rfl)
    (by rw [← liveMixedRadix3xn_eq]; exact C56_mixedRadix3xn_dht _ _ _ _ hh.on hin hoop _)

theorem C76_mixedRadix4xn_dht (I : σ → Prop) (h : LiveDht σ ℝ) (n i o : ℕ) (hh : LiveImplementsOn I h n i o dht)
    (hin : 0 < n → i ≤ 4 * n) (hoop : 0 < n → o = 0) (st : σ) (hi : I st) :
    ∃ d st', liveMixedRadix4xn h st = .ok (d, st') ∧ I st' ∧
      LiveImplementsOn I d (4 * n) (4 * n + if i > 4 * n then i else 0) (if i > 4 * n then i else 0) dht :=
  Restricts.builds (L := fun st => liveMixedRadix4xn h st) hi
    (by
      rw [liveMixedRadix4xn_eq]
      exact liveMixedRadixN_same (F := fun _ => Restricts I) (fun _ => hh.keeps.same) () st ⟨st, hi⟩ rfl)
    (by rw [← liveMixedRadix4xn_eq]; exact C56_mixedRadix4xn_dht _ _ _ _ hh.on hin hoop _)

theorem C76_mixedRadix5xn_dht (I : σ → Prop) (h : LiveDht σ ℝ) (n i o : ℕ) (hh : LiveImplementsOn I h n i o dht)
    (hin : 0 < n → i ≤ 5 * n) (hoop : 0 < n → o = 0) (st : σ) (hi : I st) :
    ∃ d st', liveMixedRadix5xn h st = .ok (d, st') ∧ I st' ∧
      LiveImplementsOn I d (5 * n) (5 * n + if i > 5 * n then i else 0) (if i > 5 * n then i else 0) dht :=
  Restricts.builds (L := fun st => liveMixedRadix5xn h st) hi
    (by
      rw [liveMixedRadix5xn_eq]
      exact liveMixedRadixN_same (F := fun _ => Restricts I) (fun _ => hh.keeps.same) () st ⟨st, hi⟩ rfl)
    (by rw [← liveMixedRadix5xn_eq]; exact C56_mixedRadix5xn_dht _ _ _ _ hh.on hin hoop _)

theorem C76_mixedRadix6xn_dht (I : σ → Prop) (h : LiveDht σ ℝ) (n i o : ℕ) (hh : LiveImplementsOn I h n i o dht)
    (hin : 0 < n → i ≤ 6 * n) (hoop : 0 < n → o = 0) (st : σ) (hi : I st) :
    ∃ d st', liveMixedRadix6xn h st = .ok (d, st') ∧ I st' ∧
      LiveImplementsOn I d (6 * n) (6 * n + if i > 6 * n then i else 0) (if i > 6 * n then i else 0) dht :=
  Restricts.builds (L := fun st => liveMixedRadix6xn h st) hi
    (by
      rw [liveMixedRadix6xn_eq]
      exact liveMixedRadixN_same (F := fun _ => Restricts I) (fun _ => hh.keeps.same) () st ⟨st, hi⟩ rfl)
    (by rw [← liveMixedRadix6xn_eq]; exact C56_mixedRadix6xn_dht _ _ _ _ hh.on hin hoop _)

theorem C76_splitRadix_dht (I : σ → Prop) (q h : LiveDht σ ℝ) (n i1 o1 i2 o2 : ℕ) (hq : LiveImplementsOn I q n i1 o1 dht)
    (hh : LiveImplementsOn I h (2 * n) i2 o2 dht) (hs : 0 < n → o1 = 0 ∧ i1 ≤ 4 * n ∧ i2 ≤ 2 * n) (st : σ) (hi : I st) :
    ∃ d st', liveSplitRadix q h st = .ok (d, st') ∧ I st' ∧ LiveImplementsOn I d (4 * n) (2 * n) 0 dht :=
  Restricts.builds (L := fun st => liveSplitRadix q h st) hi
    (liveSplitRadix_same (F := fun _ => Restricts I) (fun _ => hq.keeps.same) (fun _ => hh.keeps.same) () st ⟨st, hi⟩ rfl)
    (C56_splitRadix_dht _ _ _ _ _ _ _ hq.on hh.on hs _)

theorem C76_raders_dht (I : σ → Prop) (l : LiveDht σ ℝ) (n i o : ℕ) (hl : LiveImplementsOn I l n i o dht) (hp : (n + 1).Prime)
    (h2 : n + 1 ≠ 2) (h32 : n + 1 < 2 ^ 32) (st : σ) (hi : I st) :
    ∃ d st', liveRaders l st = .ok (d, st') ∧ I st' ∧
      LiveImplementsOn I d (n + 1) (n + if i ≤ n then 0 else i) (if i ≤ n then 0 else i) dht :=
  Restricts.builds (L := fun st => liveRaders l st) hi
    (liveRaders_same (F := fun _ => Restricts I) (fun _ => hl.keeps.same) () st ⟨st, hi⟩ rfl)
    (C56_raders_dht _ _ _ _ hl.on hp h2 h32 _)

/-- One cache used by two inner transforms of the same length, starting empty. -/
example : ∃ d st', liveMixedRadix (cachingDht (dhtNaive ℝ 5)) (cachingDht (dhtNaive ℝ 5)) none = .ok (d, st') ∧
    CacheValid 5 dht st' ∧ LiveImplementsOn (CacheValid 5 dht) d 25 25 0 dht :=
  C76_mixedRadix_dht _ _ _ _ _ _ _ _ _ (cachingDht_implements (dhtNaive_dht 5)) (cachingDht_implements (dhtNaive_dht 5)) none
    (by rintro x y ⟨⟩)

example : ∃ d st', liveRaders (cachingDht (dhtNaive ℝ 16)) none = .ok (d, st') ∧
    CacheValid 16 dht st' ∧ LiveImplementsOn (CacheValid 16 dht) d 17 16 0 dht :=
  C76_raders_dht _ _ _ _ _ (cachingDht_implements (dhtNaive_dht 16)) (by rw [dhtNaive_len]; norm_num)
    (by rw [dhtNaive_len]; norm_num) (by rw [dhtNaive_len]; norm_num) none (by rintro x y ⟨⟩)

end RustDHT
