import Verif.Proofs.Stateful
import Verif.Props.Exact
import Mathlib.Tactic.NormNum.Prime

/-! # C56: objects of the caller with memory

A caller may implement the trait `Dht` with interior mutability: the answers of the object may then depend on all earlier calls,
made by anybody.  `σ` is all the memory that such objects can reach; it is threaded through all calls.  The crate itself has no
such memory. -/

namespace RustDHT

variable {σ T : Type}

/-! ## Examples of objects -/

/-- An object that counts the calls of all its methods and otherwise does what `d` does. -/
def countingDht (d : Dht T) [Zero T] : LiveDht Nat T where
  len := fun c => .ok (d.len, c + 1)
  inplaceScratchLen := fun c => .ok (d.inplaceScratchLen, c + 1)
  oopScratchLen := fun c => .ok (d.oopScratchLen, c + 1)
  process := fun b c => do let b ← d.process b; .ok (b, c + 1)
  processWithScratch := fun b s c => do let r ← d.processWithScratch b s; .ok (r.1, r.2, c + 1)
  processOop := fun i o s c => do let r ← d.processOop i o s; .ok (r.1, r.2.1, r.2.2, c + 1)

theorem countingDht_actsLike [Zero T] (d : Dht T) : ActsLike (countingDht d) d := by
  refine ⟨fun c => ⟨c + 1, rfl⟩, fun c => ⟨c + 1, rfl⟩, fun c => ⟨c + 1, rfl⟩, fun b c => ?_, fun b s c => ?_, fun i o s c => ?_⟩
  · simp only [countingDht]
    cases d.process b with
    | ok a => exact ⟨c + 1, rfl⟩
    | error e => rfl
  · simp only [countingDht]
    cases d.processWithScratch b s with
    | ok a => exact ⟨c + 1, rfl⟩
    | error e => rfl
  · simp only [countingDht]
    cases d.processOop i o s with
    | ok a => exact ⟨c + 1, rfl⟩
    | error e => rfl

theorem countingDht_implements [Zero T] {d : Dht T} {f : List T → List T} (h : Implements d f) :
    LiveImplements (countingDht d) d.len d.inplaceScratchLen d.oopScratchLen f := by
  refine ⟨fun c => ⟨c + 1, rfl⟩, fun c => ⟨c + 1, rfl⟩, fun c => ⟨c + 1, rfl⟩, h.length, fun b c h1 h2 => ?_,
    fun b s c h1 h2 h3 => ?_, fun i o s c h0 h1 h2 h3 => ?_⟩
  · exact ⟨c + 1, by simp only [countingDht, h.process h1 h2, ok_bind]⟩
  · obtain ⟨s', e, h4, h5⟩ := h.inplace b s h1 h2 h3
    exact ⟨s', c + 1, by simp only [countingDht, e, ok_bind], h4, h5⟩
  · obtain ⟨i', s', e, h4, h5, h6⟩ := h.oop i o s h0 h1 h2 h3
    exact ⟨i', s', c + 1, by simp only [countingDht, e, ok_bind], h4, h5, h6⟩

/-- An object that never gives the same answer twice: the lengths that it reports grow with every call, it fills slices with
garbage, and every seventh call panics. -/
def fickleDht (T : Type) [Zero T] : LiveDht Nat T where
  len := fun c => .ok (c, c + 1)
  inplaceScratchLen := fun c => .ok (3 * c, c + 1)
  oopScratchLen := fun c => if c % 7 = 6 then panic .index else .ok (c / 2, c + 1)
  process := fun b c => if c % 7 = 6 then panic .assertFailed else .ok (b.reverse, c + 1)
  processWithScratch := fun b s c => if c % 7 = 6 then panic .assertFailed else .ok (List.replicate b.length 0, s.reverse, c + 1)
  processOop := fun i o s c => if c % 7 = 6 then panic .assertFailed else .ok (i, o.rotate c, s.reverse, c + 1)

theorem fickleDht_safe [Zero T] : LiveSafe False (fickleDht T) := by
  refine LiveSafe.mk' (fun _ => trivial) (fun _ => trivial) (fun c => ?_) (fun b c => ?_) (fun b s c => ?_) fun i o s c => ?_
  all_goals
    simp only [fickleDht]
    split
    · exact Post.panic _
    · simp [Post]

/-! ## Safety -/

section Safety
variable [Add T] [Sub T] [Mul T] [Neg T] [Zero T] [FftNum T]

/-- However the answers of the caller's objects change from call to call, neither a constructor nor a method performs an unchecked
access out of bounds. -/
theorem C56_no_undefined_behaviour (t : LiveTree σ T) (hu : ∀ d ∈ t.users, LiveSafe True d) (st : σ) :
    t.build st ≠ .error .ub ∧ ∀ d st', t.build st = .ok (d, st') → ∀ st,
      d.len st ≠ .error .ub ∧ d.inplaceScratchLen st ≠ .error .ub ∧ d.oopScratchLen st ≠ .error .ub ∧
      (∀ buffer, d.process buffer st ≠ .error .ub) ∧
      (∀ buffer scratch, d.processWithScratch buffer scratch st ≠ .error .ub) ∧
      (∀ input output scratch, d.processOop input output scratch st ≠ .error .ub) := by
  have h := liveTree_safe (D := True) t hu st
  refine ⟨h.not_ub, fun d st' e st => ?_⟩
  have hd : LiveSafe True d := h.of_ok e
  exact ⟨(hd.post_len st).not_ub, (hd.post_inplaceScratchLen st).not_ub, (hd.post_oopScratchLen st).not_ub,
    fun b => (hd.post_process b st).not_ub, fun b s => (hd.post_inplace b s st).not_ub,
    fun i o s => (hd.post_oop i o s st).not_ub⟩

/-- Slices keep their lengths: the result is again safe to use as an inner object. -/
theorem C56_slices_keep_length (t : LiveTree σ T) (hu : ∀ d ∈ t.users, LiveSafe True d) (st : σ) (d : LiveDht σ T) (st' : σ)
    (h : t.build st = .ok (d, st')) : LiveSafe True d :=
  (liveTree_safe t hu st).of_ok (a := (d, st')) h

/-- If each call of the caller's objects terminates, so do all constructors and methods. -/
theorem C56_terminates (t : LiveTree σ T) (hu : ∀ d ∈ t.users, LiveSafe False d) (st : σ) :
    t.build st ≠ .error .diverge ∧ ∀ d st', t.build st = .ok (d, st') → ∀ st,
      d.len st ≠ .error .diverge ∧ d.inplaceScratchLen st ≠ .error .diverge ∧ d.oopScratchLen st ≠ .error .diverge ∧
      (∀ buffer, d.process buffer st ≠ .error .diverge) ∧
      (∀ buffer scratch, d.processWithScratch buffer scratch st ≠ .error .diverge) ∧
      (∀ input output scratch, d.processOop input output scratch st ≠ .error .diverge) := by
  have h := liveTree_safe (D := False) t hu st
  refine ⟨h.not_diverge, fun d st' e st => ?_⟩
  have hd : LiveSafe False d := h.of_ok e
  exact ⟨(hd.post_len st).not_diverge, (hd.post_inplaceScratchLen st).not_diverge, (hd.post_oopScratchLen st).not_diverge,
    fun b => (hd.post_process b st).not_diverge, fun b s => (hd.post_inplace b s st).not_diverge,
    fun i o s => (hd.post_oop i o s st).not_diverge⟩

example : ∀ d st', (LiveTree.mixedRadix (.user (fickleDht T)) (.mr6 (.splitRadix (.plan .b4) (.user (fickleDht T))))).build 5
    = .ok (d, st') → ∀ buffer st, d.process buffer st ≠ .error .diverge := by
  intro d st' e buffer st
  exact ((C56_terminates _ (by simp [LiveTree.users, fickleDht_safe]) 5).2 d st' e st).2.2.2.1 buffer

/-- The constructor accepts the fickle object: it reads the length 1, then the scratch length 6. -/
example : ∃ d, (LiveTree.mr2 (.user (fickleDht T))).build 1 = .ok (d, 3) ∧ d.len 0 = .ok (2, 0) ∧
    d.inplaceScratchLen 0 = .ok (8, 0) :=
  ⟨_, rfl, rfl, rfl⟩

end Safety

/-! ## Other threads

The trait requires `Sync`: while one thread runs a transform, other threads may call methods of the same inner objects. -/

/-- The object as seen by one thread: before each of its calls, other threads may have changed the memory.  The stream gives what
they do before the next call, before the call after that, and so on. -/
def LiveDht.amid (d : LiveDht σ T) : LiveDht (σ × (Nat → σ → σ)) T where
  len := fun (st, others) => do
    let (n, st) ← d.len (others 0 st); .ok (n, st, fun i => others (i + 1))
  inplaceScratchLen := fun (st, others) => do
    let (n, st) ← d.inplaceScratchLen (others 0 st); .ok (n, st, fun i => others (i + 1))
  oopScratchLen := fun (st, others) => do
    let (n, st) ← d.oopScratchLen (others 0 st); .ok (n, st, fun i => others (i + 1))
  process := fun b (st, others) => do
    let (b, st) ← d.process b (others 0 st); .ok (b, st, fun i => others (i + 1))
  processWithScratch := fun b s (st, others) => do
    let (b, s, st) ← d.processWithScratch b s (others 0 st); .ok (b, s, st, fun i => others (i + 1))
  processOop := fun i o s (st, others) => do
    let (i, o, s, st) ← d.processOop i o s (others 0 st); .ok (i, o, s, st, fun i => others (i + 1))

/-- So the theorems of this file hold between the calls of other threads. -/
theorem C56_other_threads (d : LiveDht σ T) :
    (∀ mayDiverge, LiveSafe mayDiverge d → LiveSafe mayDiverge d.amid) ∧
    (∀ n i o f, LiveImplements d n i o f → LiveImplements d.amid n i o f) := by
  refine ⟨fun D h => ?_, fun n i o f h => ?_⟩
  · refine LiveSafe.mk' (fun st => ?_) (fun st => ?_) (fun st => ?_) (fun b st => ?_) (fun b s st => ?_) fun i o s st => ?_
    · exact Post.bind (h.post_len _) fun _ _ => trivial
    · exact Post.bind (h.post_inplaceScratchLen _) fun _ _ => trivial
    · exact Post.bind (h.post_oopScratchLen _) fun _ _ => trivial
    · exact Post.bind (h.post_process _ _) fun _ hr => hr
    · exact Post.bind (h.post_inplace _ _ _) fun _ hr => hr
    · exact Post.bind (h.post_oop _ _ _ _) fun _ hr => hr
  · refine ⟨fun st => ?_, fun st => ?_, fun st => ?_, h.length, fun b st h1 h2 => ?_, fun b s st h1 h2 h3 => ?_,
      fun i o s st h0 h1 h2 h3 => ?_⟩
    · obtain ⟨st', e⟩ := h.len (st.2 0 st.1)
      exact ⟨(st', _), by simp only [LiveDht.amid, e, ok_bind]; rfl⟩
    · obtain ⟨st', e⟩ := h.inplaceScratchLen (st.2 0 st.1)
      exact ⟨(st', _), by simp only [LiveDht.amid, e, ok_bind]; rfl⟩
    · obtain ⟨st', e⟩ := h.oopScratchLen (st.2 0 st.1)
      exact ⟨(st', _), by simp only [LiveDht.amid, e, ok_bind]; rfl⟩
    · obtain ⟨st', e⟩ := h.process b (st.2 0 st.1) h1 h2
      exact ⟨(st', _), by simp only [LiveDht.amid, e, ok_bind]; rfl⟩
    · obtain ⟨s', st', e, h4⟩ := h.inplace b s (st.2 0 st.1) h1 h2 h3
      exact ⟨s', (st', _), by simp only [LiveDht.amid, e, ok_bind]; rfl, h4⟩
    · obtain ⟨i', s', st', e, h4⟩ := h.oop i o s (st.2 0 st.1) h0 h1 h2 h3
      exact ⟨i', s', (st', _), by simp only [LiveDht.amid, e, ok_bind]; rfl, h4⟩

example : LiveSafe False (fickleDht ℝ).amid := (C56_other_threads _).1 _ fickleDht_safe

/-! ## Memory that does not show -/

section Transparent
variable [Add T] [Sub T] [Mul T] [Neg T] [Zero T] [FftNum T]

/-- If the memory of the caller's objects does not show in their answers, it does not show in the answers of a nesting: in every
state the constructors and methods do what the model without memory says, which is what all other properties are about. -/
theorem C56_memory_does_not_show (t : LiveTree σ T) (p : Tree T) (h : t.ActsLike p) (st : σ) :
    match p.build with
    | .ok d => ∃ l st', t.build st = .ok (l, st') ∧ ActsLike l d
    | .error e => t.build st = .error e :=
  liveTree_like h st

example : ∃ l st', (LiveTree.mixedRadix (.user (countingDht (dhtNaive T 3))) (.user (countingDht (dhtNaive T 5)))).build 0
    = .ok (l, st') ∧ ActsLike l (mixedRadix (dhtNaive T 3) (dhtNaive T 5)) :=
  C56_memory_does_not_show _ (.mixedRadix (.user (dhtNaive T 3)) (.user (dhtNaive T 5)))
    (.mixedRadix (.user (countingDht_actsLike _)) (.user (countingDht_actsLike _))) 0

/-- The five reads of the constructor are counted. -/
example : ∃ l, (LiveTree.mixedRadix (.user (countingDht (dhtNaive T 3))) (.user (countingDht (dhtNaive T 5)))).build 0
    = .ok (l, 5) := ⟨_, rfl⟩

end Transparent

/-! ## The transform

The caller's objects compute the DHT in every state, but what they leave in the scratch may depend on the state.  Then the
algorithms around them compute the DHT in every state, under the conditions of C03 to C10 on the scratch lengths. -/

theorem C56_mixedRadix_dht (w h : LiveDht σ ℝ) (n1 i1 o1 n2 i2 o2 : ℕ) (hw : LiveImplements w n1 i1 o1 dht)
    (hh : LiveImplements h n2 i2 o2 dht) (st : σ) :
    ∃ d st', liveMixedRadix w h st = .ok (d, st') ∧
      LiveImplements d (n1 * n2) (n1 * n2 + max (if i2 > n1 * n2 then i2 else 0) o1)
        (if max i2 i1 > n1 * n2 then max i2 i1 else 0) dht := by
  obtain ⟨d, st', e, hd⟩ := liveMixedRadix_implements hw hh st
  exact ⟨d, st', e, hd.congr fun _ hx => mrFn_dht (fun _ _ => rfl) (fun _ _ => rfl) hx⟩

theorem C56_mixedRadix2xn_dht (h : LiveDht σ ℝ) (n i o : ℕ) (hh : LiveImplements h n i o dht)
    (hin : 0 < n → i ≤ 2 * n) (hoop : 0 < n → o = 0) (st : σ) :
    ∃ d st', liveMixedRadix2xn h st = .ok (d, st') ∧
      LiveImplements d (2 * n) (2 * n + if i > 2 * n then i else 0) (if i > 2 * n then i else 0) dht := by
  obtain ⟨d, st', e, hd⟩ := liveMixedRadixN_implements (k := 2) (by omega) hh hin hoop (fun _ => mr2Apply_total)
    (by simp [mr2Apply, run_applyColumns_zero]) st
  exact ⟨d, st', by rw [liveMixedRadix2xn_eq]; exact e, hd.congr fun _ hx => mr2Fn_dht hx⟩

theorem C56_mixedRadix3xn_dht (h : LiveDht σ ℝ) (n i o : ℕ) (hh : LiveImplements h n i o dht)
    (hin : 0 < n → i ≤ 3 * n) (hoop : 0 < n → o = 0) (st : σ) :
    ∃ d st', liveMixedRadix3xn h st = .ok (d, st') ∧
      LiveImplements d (3 * n) (3 * n + if i > 3 * n then i else 0) (if i > 3 * n then i else 0) dht := by
  obtain ⟨d, st', e, hd⟩ := liveMixedRadixN_implements (k := 3) (by omega) hh hin hoop (fun _ => mr3Apply_total)
    (by simp [mr3Apply, run_applyColumns_zero]) st
  exact ⟨d, st', by rw [liveMixedRadix3xn_eq]; exact e, hd.congr fun _ hx => mr3Fn_dht hx⟩

theorem C56_mixedRadix4xn_dht (h : LiveDht σ ℝ) (n i o : ℕ) (hh : LiveImplements h n i o dht)
    (hin : 0 < n → i ≤ 4 * n) (hoop : 0 < n → o = 0) (st : σ) :
    ∃ d st', liveMixedRadix4xn h st = .ok (d, st') ∧
      LiveImplements d (4 * n) (4 * n + if i > 4 * n then i else 0) (if i > 4 * n then i else 0) dht := by
  obtain ⟨d, st', e, hd⟩ := liveMixedRadixN_implements (k := 4) (by omega) hh hin hoop (fun _ => mr4Apply_total)
    (by simp [mr4Apply, run_applyColumns_zero]) st
  exact ⟨d, st', by rw [liveMixedRadix4xn_eq]; exact e, hd.congr fun _ hx => mr4Fn_dht hx⟩

theorem C56_mixedRadix5xn_dht (h : LiveDht σ ℝ) (n i o : ℕ) (hh : LiveImplements h n i o dht)
    (hin : 0 < n → i ≤ 5 * n) (hoop : 0 < n → o = 0) (st : σ) :
    ∃ d st', liveMixedRadix5xn h st = .ok (d, st') ∧
      LiveImplements d (5 * n) (5 * n + if i > 5 * n then i else 0) (if i > 5 * n then i else 0) dht := by
  obtain ⟨d, st', e, hd⟩ := liveMixedRadixN_implements (k := 5) (by omega) hh hin hoop (fun _ => mr5Apply_total)
    (by simp [mr5Apply, run_applyColumns_zero]) st
  exact ⟨d, st', by rw [liveMixedRadix5xn_eq]; exact e, hd.congr fun _ hx => mr5Fn_dht hx⟩

theorem C56_mixedRadix6xn_dht (h : LiveDht σ ℝ) (n i o : ℕ) (hh : LiveImplements h n i o dht)
    (hin : 0 < n → i ≤ 6 * n) (hoop : 0 < n → o = 0) (st : σ) :
    ∃ d st', liveMixedRadix6xn h st = .ok (d, st') ∧
      LiveImplements d (6 * n) (6 * n + if i > 6 * n then i else 0) (if i > 6 * n then i else 0) dht := by
  obtain ⟨d, st', e, hd⟩ := liveMixedRadixN_implements (k := 6) (by omega) hh hin hoop (fun _ => mr6Apply_total)
    (by simp [mr6Apply, run_applyColumns_zero]) st
  exact ⟨d, st', by rw [liveMixedRadix6xn_eq]; exact e, hd.congr fun _ hx => mr6Fn_dht hx⟩

theorem C56_splitRadix_dht (q h : LiveDht σ ℝ) (n i1 o1 i2 o2 : ℕ) (hq : LiveImplements q n i1 o1 dht)
    (hh : LiveImplements h (2 * n) i2 o2 dht) (hs : 0 < n → o1 = 0 ∧ i1 ≤ 4 * n ∧ i2 ≤ 2 * n) (st : σ) :
    ∃ d st', liveSplitRadix q h st = .ok (d, st') ∧ LiveImplements d (4 * n) (2 * n) 0 dht := by
  obtain ⟨d, st', e, hd⟩ := liveSplitRadix_implements hq hh hs st
  exact ⟨d, st', e, hd.congr fun _ hx => srFn_dht hx⟩

theorem C56_raders_dht (l : LiveDht σ ℝ) (n i o : ℕ) (hl : LiveImplements l n i o dht) (hp : (n + 1).Prime) (h2 : n + 1 ≠ 2)
    (h32 : n + 1 < 2 ^ 32) (st : σ) :
    ∃ d st', liveRaders l st = .ok (d, st') ∧
      LiveImplements d (n + 1) (n + if i ≤ n then 0 else i) (if i ≤ n then 0 else i) dht := by
  obtain ⟨g, gi, d, st', e, ⟨a1, a2, a3, a4, a5, a6, a7⟩, hd⟩ := liveRaders_implements hl hp h2 h32 st
  refine ⟨d, st', e, hd.congr fun x hx => ?_⟩
  have := rdFn_dht hp h2 (g := g) (gi := gi) (by omega) a2 (by simpa using a3) a4 a5 a6 (by simpa using a7) hx
  simpa only [Nat.add_sub_cancel] using this

/-- Objects of the caller that count their calls. -/
example : ∃ d st', liveMixedRadix (countingDht (dhtNaive ℝ 3)) (countingDht (dhtNaive ℝ 5)) 0 = .ok (d, st') ∧
    LiveImplements d 15 15 0 dht :=
  C56_mixedRadix_dht _ _ _ _ _ _ _ _ (countingDht_implements (dhtNaive_dht 3)) (countingDht_implements (dhtNaive_dht 5)) 0

example : ∃ d st', liveMixedRadix5xn (countingDht (dhtNaive ℝ 7)) 0 = .ok (d, st') ∧ LiveImplements d 35 35 0 dht :=
  C56_mixedRadix5xn_dht _ _ _ _ (countingDht_implements (dhtNaive_dht 7))
    (fun _ => by rw [dhtNaive_len]; exact le_trans (dhtNaive_scratch 7).1 (by norm_num)) (fun _ => (dhtNaive_scratch 7).2) 0

example : ∃ d st', liveRaders (countingDht (dhtNaive ℝ 16)) 0 = .ok (d, st') ∧ LiveImplements d 17 16 0 dht :=
  C56_raders_dht _ _ _ _ (countingDht_implements (dhtNaive_dht 16)) (by rw [dhtNaive_len]; norm_num)
    (by rw [dhtNaive_len]; norm_num) (by rw [dhtNaive_len]; norm_num) 0

end RustDHT
