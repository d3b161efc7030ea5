import Verif.Proofs.Calls
import Verif.Props.Stateful

/-! # C57: which methods of the inner objects are called

`log` is a log kept by the inner objects (`Logs`).  The objects may be otherwise as in C56: anything that safe Rust allows. -/

namespace RustDHT

variable {σ T ι : Type}

/-- An object that keeps a log and otherwise does what `d` does. -/
def loggingDht (who : ι) (d : Dht T) [Zero T] : LiveDht (List (InnerCall ι)) T where
  len := fun l => .ok (d.len, l ++ [.len who d.len])
  inplaceScratchLen := fun l => .ok (d.inplaceScratchLen, l ++ [.inplaceScratchLen who d.inplaceScratchLen])
  oopScratchLen := fun l => .ok (d.oopScratchLen, l ++ [.oopScratchLen who d.oopScratchLen])
  process := fun b l => do let b' ← d.process b; .ok (b', l ++ [.process who b.length])
  processWithScratch := fun b s l => do
    let r ← d.processWithScratch b s
    .ok (r.1, r.2, l ++ [.inplace who b.length s.length])
  processOop := fun i o s l => do
    let r ← d.processOop i o s
    .ok (r.1, r.2.1, r.2.2, l ++ [.oop who i.length o.length s.length])

theorem loggingDht_logs [Zero T] (who : ι) (d : Dht T) : Logs id who (loggingDht who d) := by
  refine ⟨?_, ?_, ?_, ?_, ?_, ?_⟩
  · rintro st n st' e; cases e; rfl
  · rintro st n st' e; cases e; rfl
  · rintro st n st' e; cases e; rfl
  · rintro b st b' st' e
    obtain ⟨r, _, e⟩ := bind_eq_ok e
    cases e; rfl
  · rintro b s st b' s' st' e
    obtain ⟨r, _, e⟩ := bind_eq_ok e
    cases e; rfl
  · rintro i o s st i' o' s' st' e
    obtain ⟨r, _, e⟩ := bind_eq_ok e
    cases e; rfl

theorem loggingDht_implements [Zero T] (who : ι) {d : Dht T} {f : List T → List T} (h : Implements d f) :
    LiveImplements (loggingDht who d) d.len d.inplaceScratchLen d.oopScratchLen f := by
  refine ⟨fun c => ⟨_, rfl⟩, fun c => ⟨_, rfl⟩, fun c => ⟨_, rfl⟩, h.length, fun b c h1 h2 => ?_,
    fun b s c h1 h2 h3 => ?_, fun i o s c h0 h1 h2 h3 => ?_⟩
  · exact ⟨_, by simp only [loggingDht, h.process h1 h2, ok_bind]; rfl⟩
  · obtain ⟨s', e, h4, h5⟩ := h.inplace b s h1 h2 h3
    exact ⟨s', _, by simp only [loggingDht, e, ok_bind]; rfl, h4, h5⟩
  · obtain ⟨i', s', e, h4, h5, h6⟩ := h.oop i o s h0 h1 h2 h3
    exact ⟨i', s', _, by simp only [loggingDht, e, ok_bind]; rfl, h4, h5, h6⟩

theorem loggingDht_safe [Zero T] (who : ι) {d : Dht T} {D : Prop} (h : SafeDht D d) : LiveSafe D (loggingDht who d) := by
  refine LiveSafe.mk' (fun _ => trivial) (fun _ => trivial) (fun _ => trivial) (fun b st => ?_) (fun b s st => ?_)
    fun i o s st => ?_
  · exact Post.bind (h.process b) fun r hr => hr
  · exact Post.bind (h.postInplace b s) fun r hr => hr
  · exact Post.bind (h.postOop i o s) fun r hr => hr

variable [Zero T] [Add T] [Sub T] [Mul T] [Neg T] [FftNum T] {log : σ → List (InnerCall ι)} {a b : ι}

/-! ## The combinators -/

/-- `MixedRadix` asks its inner objects for five numbers when it is made.  Then, for each chunk, it calls the height object once, in
place on the whole chunk, and the width object once, out of place or in place on the whole chunk. -/
theorem C57_mixedRadix_calls (w h : LiveDht σ T) (lw : Logs log a w) (sw : LiveSafe True w) (lh : Logs log b h)
    (sh : LiveSafe True h) (st : σ) (d : LiveDht σ T) (st' : σ) (e : liveMixedRadix w h st = .ok (d, st')) :
    ∃ n1 n2 i1 i2 o1,
      log st' = log st ++ [.len a n1, .len b n2, .inplaceScratchLen b i2, .inplaceScratchLen a i1, .oopScratchLen a o1] ∧
      MakesCalls log d (n1 * n2)
        [.inplace b (n1 * n2) (max (n1 * n2) (max (if i2 > n1 * n2 then i2 else 0) o1)),
          .oop a (n1 * n2) (n1 * n2) (max (if i2 > n1 * n2 then i2 else 0) o1)]
        [.inplace b (n1 * n2) (max (n1 * n2) (max i2 i1)), .inplace a (n1 * n2) (max (n1 * n2) (max i2 i1))] :=
  (liveMixedRadix_calls lw sw lh sh st).of_ok e

/-- `MixedRadix2xn` calls the inner object once for each chunk, out of place in the in-place transform and the other way round. -/
theorem C57_mixedRadix2xn_calls (h : LiveDht σ T) (lh : Logs log a h) (sh : LiveSafe True h) (st : σ) (d : LiveDht σ T) (st' : σ)
    (e : liveMixedRadix2xn h st = .ok (d, st')) :
    ∃ n i, log st' = log st ++ [.len a n, .inplaceScratchLen a i] ∧
      MakesCalls log d (2 * n) [.oop a (2 * n) (2 * n) 0] [.inplace a (2 * n) (2 * n)] := by
  rw [liveMixedRadix2xn_eq] at e
  exact (liveMixedRadixN_calls (by omega) (fun _ => mr2Apply_total) lh sh st).of_ok e

theorem C57_mixedRadix3xn_calls (h : LiveDht σ T) (lh : Logs log a h) (sh : LiveSafe True h) (st : σ) (d : LiveDht σ T) (st' : σ)
    (e : liveMixedRadix3xn h st = .ok (d, st')) :
    ∃ n i, log st' = log st ++ [.len a n, .inplaceScratchLen a i] ∧
      MakesCalls log d (3 * n) [.oop a (3 * n) (3 * n) 0] [.inplace a (3 * n) (3 * n)] := by
  rw [liveMixedRadix3xn_eq] at e
  exact (liveMixedRadixN_calls (by omega) (fun _ => mr3Apply_total) lh sh st).of_ok e

theorem C57_mixedRadix4xn_calls (h : LiveDht σ T) (lh : Logs log a h) (sh : LiveSafe True h) (st : σ) (d : LiveDht σ T) (st' : σ)
    (e : liveMixedRadix4xn h st = .ok (d, st')) :
    ∃ n i, log st' = log st ++ [.len a n, .inplaceScratchLen a i] ∧
      MakesCalls log d (4 * n) [.oop a (4 * n) (4 * n) 0] [.inplace a (4 * n) (4 * n)] := by
  rw [liveMixedRadix4xn_eq] at e
  exact (liveMixedRadixN_calls (by omega) (fun _ => mr4Apply_total) lh sh st).of_ok e

theorem C57_mixedRadix5xn_calls (h : LiveDht σ T) (lh : Logs log a h) (sh : LiveSafe True h) (st : σ) (d : LiveDht σ T) (st' : σ)
    (e : liveMixedRadix5xn h st = .ok (d, st')) :
    ∃ n i, log st' = log st ++ [.len a n, .inplaceScratchLen a i] ∧
      MakesCalls log d (5 * n) [.oop a (5 * n) (5 * n) 0] [.inplace a (5 * n) (5 * n)] := by
  rw [liveMixedRadix5xn_eq] at e
  exact (liveMixedRadixN_calls (by omega) (fun _ => mr5Apply_total) lh sh st).of_ok e

theorem C57_mixedRadix6xn_calls (h : LiveDht σ T) (lh : Logs log a h) (sh : LiveSafe True h) (st : σ) (d : LiveDht σ T) (st' : σ)
    (e : liveMixedRadix6xn h st = .ok (d, st')) :
    ∃ n i, log st' = log st ++ [.len a n, .inplaceScratchLen a i] ∧
      MakesCalls log d (6 * n) [.oop a (6 * n) (6 * n) 0] [.inplace a (6 * n) (6 * n)] := by
  rw [liveMixedRadix6xn_eq] at e
  exact (liveMixedRadixN_calls (by omega) (fun _ => mr6Apply_total) lh sh st).of_ok e

/-- `SplitRadix` calls the half object on the first half of each chunk, then the quarter object on the second half. -/
theorem C57_splitRadix_calls (q h : LiveDht σ T) (lq : Logs log a q) (sq : LiveSafe True q) (lh : Logs log b h)
    (sh : LiveSafe True h) (st : σ) (d : LiveDht σ T) (st' : σ) (e : liveSplitRadix q h st = .ok (d, st')) :
    ∃ n, log st' = log st ++ [.len a n, .len b (2 * n)] ∧
      MakesCalls log d (4 * n) [.inplace b (2 * n) (2 * n), .oop a (2 * n) (2 * n) 0]
        [.inplace b (2 * n) (4 * n), .inplace a (2 * n) (4 * n)] :=
  (liveSplitRadix_calls lq sq lh sh st).of_ok e

/-- `RadersAlgorithm` transforms one kernel when it is made.  Then it calls the inner object twice for each chunk. -/
theorem C57_raders_calls (l : LiveDht σ T) (ll : Logs log a l) (sl : LiveSafe True l) (st : σ) (d : LiveDht σ T) (st' : σ)
    (e : liveRaders l st = .ok (d, st')) :
    ∃ n i, log st' = log st ++ [.len a n, .process a n, .inplaceScratchLen a i] ∧
      MakesCalls log d (n + 1) (List.replicate 2 (.inplace a n (max n i))) (List.replicate 2 (.inplace a n (max n i))) :=
  (liveRaders_calls ll sl st).of_ok e

/-! ## Examples -/

/-- Two chunks of length 15: the constructor makes five calls, the transform four, and returns. -/
example (x : List ℝ) (hx : x.length = 30) :
    ∃ d log1, liveMixedRadix (loggingDht "width" (dhtNaive ℝ 3)) (loggingDht "height" (dhtNaive ℝ 5)) [] = .ok (d, log1) ∧
      log1 = [.len "width" 3, .len "height" 5, .inplaceScratchLen "height" 5, .inplaceScratchLen "width" 3,
        .oopScratchLen "width" 0] ∧
      ∃ y log2, d.process x [] = .ok (y, log2) ∧
        log2 = [.inplace "height" 15 15, .oop "width" 15 15 0, .inplace "height" 15 15, .oop "width" 15 15 0] := by
  obtain ⟨d, log1, e, hd⟩ := C56_mixedRadix_dht _ _ _ _ _ _ _ _ (loggingDht_implements "width" (dhtNaive_dht 3))
    (loggingDht_implements "height" (dhtNaive_dht 5)) []
  have e' : log1 = [.len "width" 3, .len "height" 5, .inplaceScratchLen "height" 5, .inplaceScratchLen "width" 3,
      .oopScratchLen "width" 0] := by cases e; rfl
  refine ⟨d, log1, e, e', ?_⟩
  obtain ⟨log2, e2⟩ := hd.process x [] (by rw [hx]; decide) (by rw [hx]; decide)
  refine ⟨_, log2, e2, ?_⟩
  obtain ⟨n1, n2, i1, i2, o1, h1, h2⟩ := C57_mixedRadix_calls _ _ (loggingDht_logs _ _)
    (loggingDht_safe "width" (dhtNaive_safe _)) (loggingDht_logs _ _) (loggingDht_safe "height" (dhtNaive_safe _)) [] d log1 e
  rw [e'] at h1
  simp only [id_eq, List.nil_append, List.cons.injEq, InnerCall.len.injEq, InnerCall.inplaceScratchLen.injEq, InnerCall.oopScratchLen.injEq,
    true_and, and_true] at h1
  obtain ⟨rfl, rfl, rfl, rfl, rfl⟩ := h1
  have := h2.process e2
  rw [hx] at this
  simpa using this

/-- `MixedRadix6xn` of length 18, two chunks. -/
example (x : List ℝ) (hx : x.length = 36) : ∃ d log1, liveMixedRadix6xn (loggingDht () (dhtNaive ℝ 3)) [] = .ok (d, log1) ∧
    ∃ y log2, d.process x [] = .ok (y, log2) ∧ log2 = [.oop () 18 18 0, .oop () 18 18 0] := by
  have i3 : (dhtNaive ℝ 3).inplaceScratchLen = 3 := rfl
  obtain ⟨d, log1, e, hd⟩ := C56_mixedRadix6xn_dht _ _ _ _ (loggingDht_implements () (dhtNaive_dht 3))
    (fun _ => by rw [dhtNaive_len, i3]; omega) (fun _ => rfl) []
  obtain ⟨log2, e2⟩ := hd.process x [] (by rw [hx]; decide) (by rw [hx]; decide)
  refine ⟨d, log1, e, _, log2, e2, ?_⟩
  obtain ⟨n, i, -, h⟩ := C57_mixedRadix6xn_calls _ (loggingDht_logs _ _) (loggingDht_safe () (dhtNaive_safe _)) [] d log1 e
  obtain ⟨_, e3⟩ := hd.len []
  have hn := (h.len e3).1
  rw [dhtNaive_len] at hn
  obtain rfl : n = 3 := by omega
  simpa [hx] using h.process e2

/-- `SplitRadix` of length 12, two chunks. -/
example (x : List ℝ) (hx : x.length = 24) :
    ∃ d log1, liveSplitRadix (loggingDht "quarter" (dhtNaive ℝ 3)) (loggingDht "half" (dhtNaive ℝ 6)) [] = .ok (d, log1) ∧
      log1 = [.len "quarter" 3, .len "half" 6] ∧
      ∃ y log2, d.process x [] = .ok (y, log2) ∧
        log2 = [.inplace "half" 6 6, .oop "quarter" 6 6 0, .inplace "half" 6 6, .oop "quarter" 6 6 0] := by
  have i3 : (dhtNaive ℝ 3).inplaceScratchLen = 3 := rfl
  have i6 : (dhtNaive ℝ 6).inplaceScratchLen = 6 := rfl
  have h6 := loggingDht_implements "half" (dhtNaive_dht 6)
  obtain ⟨d, log1, e, hd⟩ := C56_splitRadix_dht _ _ _ _ _ _ _ (loggingDht_implements "quarter" (dhtNaive_dht 3)) h6
    (fun _ => ⟨rfl, by rw [dhtNaive_len, i3]; omega, by rw [dhtNaive_len, i6]⟩) []
  obtain ⟨log2, e2⟩ := hd.process x [] (by rw [hx]; decide) (by rw [hx]; decide)
  obtain ⟨n, h1, h⟩ := C57_splitRadix_calls _ _ (loggingDht_logs _ _) (loggingDht_safe "quarter" (dhtNaive_safe _)) (loggingDht_logs _ _)
    (loggingDht_safe "half" (dhtNaive_safe _)) [] d log1 e
  obtain ⟨_, e3⟩ := hd.len []
  have hn := (h.len e3).1
  rw [dhtNaive_len] at hn
  obtain rfl : n = 3 := by omega
  exact ⟨d, log1, e, by simpa using h1, _, log2, e2, by simpa [hx] using h.process e2⟩

/-- `RadersAlgorithm` of length 5, two chunks. -/
example (x : List ℝ) (hx : x.length = 10) : ∃ d log1 i, liveRaders (loggingDht () (dhtNaive ℝ 4)) [] = .ok (d, log1) ∧
    log1 = [.len () 4, .process () 4, .inplaceScratchLen () i] ∧
    ∃ y log2, d.process x [] = .ok (y, log2) ∧ log2 = List.replicate 4 (.inplace () 4 (max 4 i)) := by
  obtain ⟨d, log1, e, hd⟩ := C56_raders_dht _ _ _ _ (loggingDht_implements () (dhtNaive_dht 4))
    (by rw [dhtNaive_len]; norm_num) (by rw [dhtNaive_len]; norm_num) (by rw [dhtNaive_len]; norm_num) []
  obtain ⟨log2, e2⟩ := hd.process x [] (by rw [hx]; decide) (by rw [hx]; decide)
  obtain ⟨n, i, h1, h⟩ := C57_raders_calls _ (loggingDht_logs _ _) (loggingDht_safe () (dhtNaive_safe _)) [] d log1 e
  obtain ⟨_, e3⟩ := hd.len []
  have hn := (h.len e3).1
  rw [dhtNaive_len] at hn
  obtain rfl : n = 4 := by omega
  exact ⟨d, log1, i, e, by simpa using h1, _, log2, e2, by simpa [hx] using h.process e2⟩

end RustDHT
