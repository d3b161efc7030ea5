import Verif.Proofs.Accepts
import Verif.Proofs.Length

/-! # C13 - C21, C24, C25, C36: the trait contract, for every number type

No theorem in this file assumes a law of arithmetic: `T` may be `f32`, `f64` or anything else. -/

set_option linter.unusedSectionVars false

namespace RustDHT

variable {T : Type} [Add T] [Sub T] [Mul T] [Neg T] [Zero T] [FftNum T]

/-- A composition used in the examples: `MixedRadix::new(MixedRadix2xn::new(DhtNaive::new(3)), Butterfly16)`. -/
def samplePlan : Plan := .mixedRadix (.mr2 (.naive 3)) .b16

theorem samplePlan_build : samplePlan.build T = .ok (mixedRadix (mixedRadix2xn (dhtNaive T 3)) (butterfly16 T)) := rfl

theorem samplePlan_len : (mixedRadix (mixedRadix2xn (dhtNaive T 3)) (butterfly16 T)).len = 96 := by
  show 2 * (dhtNaive T 3).len * 16 = 96
  rw [dhtNaive_len]

/-! ## C13

False for `Butterfly1` itself, whose `process_with_scratch` accepts everything; true for every other composition. -/

theorem user_rejects {wd hd : Dht T} (hw : Accepts wd) (hh : Accepts hd) :
    (0 < wd.len → 0 < hd.len → Rejects (mixedRadix wd hd)) ∧
    (∀ d, raders hd = .ok d → Rejects d) ∧
    (0 < hd.len → hd.oopScratchLen = 0 →
      (hd.inplaceScratchLen ≤ 2 * hd.len → Rejects (mixedRadix2xn hd)) ∧
      (hd.inplaceScratchLen ≤ 3 * hd.len → Rejects (mixedRadix3xn hd)) ∧
      (hd.inplaceScratchLen ≤ 4 * hd.len → Rejects (mixedRadix4xn hd)) ∧
      (hd.inplaceScratchLen ≤ 5 * hd.len → Rejects (mixedRadix5xn hd)) ∧
      (hd.inplaceScratchLen ≤ 6 * hd.len → Rejects (mixedRadix6xn hd))) ∧
    (0 < wd.len → wd.oopScratchLen = 0 → wd.inplaceScratchLen ≤ 4 * wd.len → hd.inplaceScratchLen ≤ 2 * wd.len →
      ∀ d, splitRadix wd hd = .ok d → Rejects d) := by
  refine ⟨fun h1 h2 => (mixedRadix_solid hw hh).rejects (Nat.mul_pos h1 h2), fun d e => ?_, fun h1 h2 => ?_,
    fun h1 h2 h3 h4 d e => ?_⟩
  · obtain ⟨hp, h2, h3⟩ := raders_new_only e
    obtain ⟨d', e', hl, hs⟩ := raders_solid_new hh hp h2 h3
    rw [e] at e'
    cases e'
    exact hs.rejects (by omega)
  · rw [mixedRadix2xn_eq, mixedRadix3xn_eq, mixedRadix4xn_eq, mixedRadix5xn_eq, mixedRadix6xn_eq]
    exact ⟨fun h => (mrn_solid (by omega) hh (fun _ => h) (fun _ => h2) mr2Apply_total).rejects (Nat.mul_pos (by omega) h1),
      fun h => (mrn_solid (by omega) hh (fun _ => h) (fun _ => h2) mr3Apply_total).rejects (Nat.mul_pos (by omega) h1),
      fun h => (mrn_solid (by omega) hh (fun _ => h) (fun _ => h2) mr4Apply_total).rejects (Nat.mul_pos (by omega) h1),
      fun h => (mrn_solid (by omega) hh (fun _ => h) (fun _ => h2) mr5Apply_total).rejects (Nat.mul_pos (by omega) h1),
      fun h => (mrn_solid (by omega) hh (fun _ => h) (fun _ => h2) mr6Apply_total).rejects (Nat.mul_pos (by omega) h1)⟩
  · refine (splitRadix_solid hw hh e fun _ => ⟨h2, h3, h4⟩).rejects ?_
    obtain ⟨_, rfl⟩ := splitRadix_eq e
    show 0 < 4 * wd.len
    omega

theorem inplaceViolation_process (d : Dht T) (n : ℕ) :
    inplaceViolation d.len d.inplaceScratchLen n d.inplaceScratchLen = inplaceViolation d.len 0 n 0 := by
  simp [inplaceViolation]

theorem C13_inplace_panics_partial (p : Plan) (hp : p ≠ .b1) (d : Dht T) (h : p.build T = .ok d) (hpos : 0 < d.len)
    (buffer scratch : List T) :
    ((∃ r, d.processWithScratch buffer scratch = .ok r) ↔
      d.len ≤ buffer.length ∧ d.len ∣ buffer.length ∧ d.inplaceScratchLen ≤ scratch.length) ∧
    (∀ k, inplaceViolation d.len d.inplaceScratchLen buffer.length scratch.length = some k →
      d.processWithScratch buffer scratch = .error (.panic k)) ∧
    ((∃ r, d.process buffer = .ok r) ↔ d.len ≤ buffer.length ∧ d.len ∣ buffer.length) ∧
    (∀ k, inplaceViolation d.len 0 buffer.length 0 = some k → d.process buffer = .error (.panic k)) := by
  obtain ⟨⟨f, hf⟩, _, hr⟩ := plan_ok p d h
  have hr := hr hp hpos
  have hproc : ∀ k, inplaceViolation d.len 0 buffer.length 0 = some k → d.process buffer = .error (.panic k) := by
    intro k hk
    rw [← inplaceViolation_process] at hk
    have := hr.inplace buffer (List.replicate d.inplaceScratchLen 0) k (by simpa using hk)
    simp [Dht.process, this, error_bind]
  refine ⟨⟨fun ⟨r, e⟩ => ?_, fun ⟨h1, h2, h3⟩ => ?_⟩, fun k hk => hr.inplace _ _ k hk,
    ⟨fun ⟨r, e⟩ => ?_, fun ⟨h1, h2⟩ => ⟨_, hf.process h1 h2⟩⟩, hproc⟩
  · rcases hv : inplaceViolation d.len d.inplaceScratchLen buffer.length scratch.length with _ | k
    · exact inplaceViolation_eq_none_iff.1 hv
    · rw [hr.inplace _ _ k hv] at e; cases e
  · obtain ⟨s', e, _⟩ := hf.inplace buffer scratch h1 h2 h3
    exact ⟨_, e⟩
  · rcases hv : inplaceViolation d.len 0 buffer.length 0 with _ | k
    · exact ⟨(inplaceViolation_eq_none_iff.1 hv).1, (inplaceViolation_eq_none_iff.1 hv).2.1⟩
    · rw [hproc k hv] at e; cases e

/-- `Butterfly1` returns normally from an empty buffer, although its length is 1 and the documentation promises a panic. -/
theorem C13_butterfly1_refuted :
    (Plan.b1.build T = .ok (butterfly1 T)) ∧ (butterfly1 T).len = 1 ∧
    inplaceViolation (butterfly1 T).len (butterfly1 T).inplaceScratchLen ([] : List T).length ([] : List T).length
      = some .bufferTooSmall ∧
    (butterfly1 T).processWithScratch [] [] = .ok ([], []) ∧ (butterfly1 T).process [] = .ok [] :=
  ⟨rfl, rfl, rfl, rfl, rfl⟩

/-- The combinators over arbitrary inner objects, which may compute anything as long as they accept every valid call: the
combinator panics on an invalid call with the message of the first violated requirement.  For `MixedRadix2xn` to
`MixedRadix6xn` and `SplitRadix` the inner scratch requirements must be within the limits of C21. -/
theorem C13_user_inner (wd hd : Dht T) (hw : Accepts wd) (hh : Accepts hd) (buffer scratch : List T) (k : PanicKind) :
    let panics (d : Dht T) := inplaceViolation d.len d.inplaceScratchLen buffer.length scratch.length = some k →
      d.processWithScratch buffer scratch = .error (.panic k)
    (0 < wd.len → 0 < hd.len → panics (mixedRadix wd hd)) ∧
    (∀ d, raders hd = .ok d → panics d) ∧
    (0 < hd.len → hd.oopScratchLen = 0 →
      (hd.inplaceScratchLen ≤ 2 * hd.len → panics (mixedRadix2xn hd)) ∧
      (hd.inplaceScratchLen ≤ 3 * hd.len → panics (mixedRadix3xn hd)) ∧
      (hd.inplaceScratchLen ≤ 4 * hd.len → panics (mixedRadix4xn hd)) ∧
      (hd.inplaceScratchLen ≤ 5 * hd.len → panics (mixedRadix5xn hd)) ∧
      (hd.inplaceScratchLen ≤ 6 * hd.len → panics (mixedRadix6xn hd))) ∧
    (0 < wd.len → wd.oopScratchLen = 0 → wd.inplaceScratchLen ≤ 4 * wd.len → hd.inplaceScratchLen ≤ 2 * wd.len →
      ∀ d, splitRadix wd hd = .ok d → panics d) := by
  intro panics
  have key : ∀ d : Dht T, Rejects d → panics d := fun d h => h.inplace _ _ k
  obtain ⟨h1, h2, h3, h4⟩ := user_rejects hw hh
  exact ⟨fun a b => key _ (h1 a b), fun d e => key _ (h2 d e), fun a b => ⟨fun c => key _ ((h3 a b).1 c),
    fun c => key _ ((h3 a b).2.1 c), fun c => key _ ((h3 a b).2.2.1 c), fun c => key _ ((h3 a b).2.2.2.1 c),
    fun c => key _ ((h3 a b).2.2.2.2 c)⟩, fun a b c e d f => key _ (h4 a b c e d f)⟩

/-- An inner object that computes nothing and needs 5 elements of scratch: `MixedRadix` around two of them panics on 10 elements. -/
example : let d : Dht T := { len := 3, inplaceScratchLen := 5, oopScratchLen := 5, processWithScratch := fun b s => .ok (b, s),
                             processOop := fun i o s => .ok (i, o, s) }
    ∀ buffer scratch : List T, buffer.length = 10 →
      (mixedRadix d d).processWithScratch buffer scratch = .error (.panic .notMultiple) := by
  intro d b s hb
  have hd : Accepts d := ⟨fun b s _ _ _ => ⟨b, s, rfl, rfl, rfl⟩, fun i o s _ _ _ _ => ⟨i, o, s, rfl, rfl, rfl, rfl⟩⟩
  refine (C13_user_inner d d hd hd b s _).1 (by show 0 < 3; omega) (by show 0 < 3; omega) ?_
  show inplaceViolation 9 _ b.length s.length = _
  rw [hb]
  rfl

/-- The sample composition panics for 100 elements and accepts 192. -/
example : ∃ d : Dht T, samplePlan.build T = .ok d ∧
    (∀ b : List T, b.length = 100 → d.process b = .error (.panic .notMultiple)) ∧
    (∀ b : List T, b.length = 50 → d.process b = .error (.panic .bufferTooSmall)) ∧
    (∀ b : List T, b.length = 192 → ∃ r, d.process b = .ok r) := by
  refine ⟨_, samplePlan_build, fun b hb => ?_, fun b hb => ?_, fun b hb => ?_⟩ <;>
  have h := C13_inplace_panics_partial (T := T) samplePlan (by simp [samplePlan]) _ samplePlan_build
    (by rw [samplePlan_len]; norm_num) b []
  · exact h.2.2.2 _ (by rw [samplePlan_len, hb]; rfl)
  · exact h.2.2.2 _ (by rw [samplePlan_len, hb]; rfl)
  · exact h.2.2.1.2 (by rw [samplePlan_len, hb]; norm_num)

/-- An object of length 0 accepts every call and changes nothing (src/macros.rs:7, 45, 92 and 140). -/
theorem C13_length_zero (p : Plan) (d : Dht T) (h : p.build T = .ok d) (h0 : d.len = 0) :
    (∀ buffer scratch, d.processWithScratch buffer scratch = .ok (buffer, scratch)) ∧
    (∀ input output scratch, d.processOop input output scratch = .ok (input, output, scratch)) ∧
    (∀ buffer, d.process buffer = .ok buffer) := by
  have hi := plan_idle p d h h0
  exact ⟨hi.inplace, hi.oop, fun b => by simp [Dht.process, hi.inplace]⟩

example : ∃ d : Dht T, (Plan.mixedRadix (.naive 0) .b5).build T = .ok d ∧ d.len = 0 :=
  ⟨_, rfl, by show (dhtNaive T 0).len * 5 = 0; rw [dhtNaive_len]⟩

/-! ## C14 -/

theorem C14_oop_panics_partial (p : Plan) (hp : p ≠ .b1) (d : Dht T) (h : p.build T = .ok d) (hpos : 0 < d.len)
    (input output scratch : List T) :
    ((∃ r, d.processOop input output scratch = .ok r) ↔
      input.length = output.length ∧ d.len ≤ input.length ∧ d.len ∣ input.length ∧
        d.oopScratchLen ≤ scratch.length) ∧
    (∀ k, oopViolation d.len d.oopScratchLen input.length output.length scratch.length = some k →
      d.processOop input output scratch = .error (.panic k)) := by
  obtain ⟨⟨f, hf⟩, _, hr⟩ := plan_ok p d h
  have hr := hr hp hpos
  refine ⟨⟨fun ⟨r, e⟩ => ?_, fun ⟨h0, h1, h2, h3⟩ => ?_⟩, fun k hk => hr.oop _ _ _ k hk⟩
  · rcases hv : oopViolation d.len d.oopScratchLen input.length output.length scratch.length with _ | k
    · exact oopViolation_eq_none_iff.1 hv
    · rw [hr.oop _ _ _ k hv] at e; cases e
  · obtain ⟨i', s', e, _⟩ := hf.oop input output scratch h0.symm h1 h2 h3
    exact ⟨_, e⟩

/-- As `C13_user_inner`, for `process_outofplace_with_scratch`. -/
theorem C14_user_inner (wd hd : Dht T) (hw : Accepts wd) (hh : Accepts hd) (input output scratch : List T) (k : PanicKind) :
    let panics (d : Dht T) :=
      oopViolation d.len d.oopScratchLen input.length output.length scratch.length = some k →
      d.processOop input output scratch = .error (.panic k)
    (0 < wd.len → 0 < hd.len → panics (mixedRadix wd hd)) ∧
    (∀ d, raders hd = .ok d → panics d) ∧
    (0 < hd.len → hd.oopScratchLen = 0 →
      (hd.inplaceScratchLen ≤ 2 * hd.len → panics (mixedRadix2xn hd)) ∧
      (hd.inplaceScratchLen ≤ 3 * hd.len → panics (mixedRadix3xn hd)) ∧
      (hd.inplaceScratchLen ≤ 4 * hd.len → panics (mixedRadix4xn hd)) ∧
      (hd.inplaceScratchLen ≤ 5 * hd.len → panics (mixedRadix5xn hd)) ∧
      (hd.inplaceScratchLen ≤ 6 * hd.len → panics (mixedRadix6xn hd))) ∧
    (0 < wd.len → wd.oopScratchLen = 0 → wd.inplaceScratchLen ≤ 4 * wd.len → hd.inplaceScratchLen ≤ 2 * wd.len →
      ∀ d, splitRadix wd hd = .ok d → panics d) := by
  intro panics
  have key : ∀ d : Dht T, Rejects d → panics d := fun d h => h.oop _ _ _ k
  obtain ⟨h1, h2, h3, h4⟩ := user_rejects hw hh
  exact ⟨fun a b => key _ (h1 a b), fun d e => key _ (h2 d e), fun a b => ⟨fun c => key _ ((h3 a b).1 c),
    fun c => key _ ((h3 a b).2.1 c), fun c => key _ ((h3 a b).2.2.1 c), fun c => key _ ((h3 a b).2.2.2.1 c),
    fun c => key _ ((h3 a b).2.2.2.2 c)⟩, fun a b c e d f => key _ (h4 a b c e d f)⟩

/-- `Butterfly1` accepts empty slices, and panics with the message of `copy_from_slice` for slices of different length. -/
theorem C14_butterfly1_refuted :
    (Plan.b1.build T = .ok (butterfly1 T)) ∧ (butterfly1 T).len = 1 ∧
    oopViolation (butterfly1 T).len (butterfly1 T).oopScratchLen ([] : List T).length ([] : List T).length
      ([] : List T).length = some .bufferTooSmall ∧
    (butterfly1 T).processOop [] [] [] = .ok ([], [], []) ∧
    (∀ input output scratch : List T, input.length ≠ output.length →
      (butterfly1 T).processOop input output scratch = .error (.panic .copyLength)) :=
  ⟨rfl, rfl, rfl, rfl, fun i o s h => by simp [butterfly1, Ne.symm h, panic]⟩

example : ∃ d : Dht T, samplePlan.build T = .ok d ∧
    (∀ i o s : List T, i.length = 96 → o.length = 97 → d.processOop i o s = .error (.panic .lengthMismatch)) ∧
    (∀ i o s : List T, i.length = 97 → o.length = 97 → d.processOop i o s = .error (.panic .notMultiple)) := by
  refine ⟨_, samplePlan_build, fun i o s hi ho => ?_, fun i o s hi ho => ?_⟩ <;>
  have h := C14_oop_panics_partial (T := T) samplePlan (by simp [samplePlan]) _ samplePlan_build
    (by rw [samplePlan_len]; norm_num) i o s
  · exact h.2 _ (by rw [samplePlan_len, hi, ho]; rfl)
  · exact h.2 _ (by rw [samplePlan_len, hi, ho]; rfl)

/-! ## C15 -/

/-- A buffer of `m` chunks receives, chunk by chunk, what a call on that chunk alone produces. -/
theorem C15_chunks_independent (p : Plan) (d : Dht T) (h : p.build T = .ok d) (hpos : 0 < d.len) (chunks : List (List T))
    (hne : chunks ≠ []) (hc : ∀ c ∈ chunks, c.length = d.len) :
    ∃ results : List (List T),
      List.Forall₂ (fun c r => d.process c = .ok r) chunks results ∧
      (∀ scratch, d.inplaceScratchLen ≤ scratch.length →
        ∃ scratch', d.processWithScratch chunks.flatten scratch = .ok (results.flatten, scratch')) ∧
      (∀ output scratch, output.length = chunks.flatten.length → d.oopScratchLen ≤ scratch.length →
        ∃ input' scratch', d.processOop chunks.flatten output scratch = .ok (input', results.flatten, scratch')) := by
  obtain ⟨f, hf⟩ := (plan_ok p d h).implements
  have hmap : mapChunks d.len f chunks.flatten = (chunks.map f).flatten := by
    clear hne
    induction chunks with
    | nil => rw [List.flatten_nil, mapChunks, if_pos (Or.inr (by simpa using hpos))]; rfl
    | cons c cs ih =>
      rw [List.flatten_cons, mapChunks_append (by rw [hc c (by simp)]),
        mapChunks_single hpos (hc c (by simp)), ih (fun c h => hc c (by simp [h])), List.map_cons, List.flatten_cons]
  have hlen : chunks.flatten.length = d.len * chunks.length := by
    clear hne hmap
    induction chunks with
    | nil => simp
    | cons c cs ih =>
      rw [List.flatten_cons, List.length_append, hc c (by simp), ih (fun c h => hc c (by simp [h])), List.length_cons]
      ring
  have hcount : 0 < chunks.length := List.length_pos_iff.2 hne
  have h1 : d.len ≤ chunks.flatten.length := by rw [hlen]; exact Nat.le_mul_of_pos_right _ hcount
  have h2 : d.len ∣ chunks.flatten.length := ⟨_, hlen⟩
  refine ⟨chunks.map f, ?_, fun s hs => ?_, fun o s ho hs => ?_⟩
  · rw [List.forall₂_map_right_iff]
    refine List.forall₂_same.2 fun c hcm => ?_
    have := hc c hcm
    rw [hf.process (by omega) (by rw [this]), mapChunks_single hpos this]
  · obtain ⟨s', e, _⟩ := hf.inplace chunks.flatten s h1 h2 hs
    exact ⟨s', by rw [e, hmap]⟩
  · obtain ⟨i', s', e, _⟩ := hf.oop chunks.flatten o s ho h1 h2 hs
    exact ⟨i', s', by rw [e, hmap]⟩

example (a b c : List T) (ha : a.length = 96) (hb : b.length = 96) (hc : c.length = 96) :
    ∃ d : Dht T, samplePlan.build T = .ok d ∧ ∃ x y z, d.process a = .ok x ∧ d.process b = .ok y ∧ d.process c = .ok z ∧
      ∃ s', d.processWithScratch (a ++ b ++ c) (List.replicate d.inplaceScratchLen 0) = .ok (x ++ y ++ z, s') := by
  refine ⟨_, samplePlan_build, ?_⟩
  obtain ⟨rs, h1, h2, _⟩ := C15_chunks_independent (T := T) samplePlan _ samplePlan_build
    (by rw [samplePlan_len]; norm_num) [a, b, c] (by simp) (by simp [ha, hb, hc, samplePlan_len])
  obtain _ | ⟨hx, _ | ⟨hy, _ | ⟨hz, _ | _⟩⟩⟩ := h1
  obtain ⟨s', e⟩ := h2 (List.replicate _ 0) (by rw [List.length_replicate])
  exact ⟨_, _, _, hx, hy, hz, s', by simpa using e⟩

/-! ## C16 -/

/-- Whatever scratch, its surplus and the output held before the call, the result is the same. -/
theorem C16_stale_contents (p : Plan) (d : Dht T) (h : p.build T = .ok d) (data : List T)
    (h1 : d.len ≤ data.length) (h2 : d.len ∣ data.length) :
    (∀ scratch₁ scratch₂, d.inplaceScratchLen ≤ scratch₁.length → d.inplaceScratchLen ≤ scratch₂.length →
      ∃ result s₁ s₂, d.processWithScratch data scratch₁ = .ok (result, s₁) ∧
        d.processWithScratch data scratch₂ = .ok (result, s₂)) ∧
    (∀ output₁ output₂ scratch₁ scratch₂, output₁.length = data.length → output₂.length = data.length →
      d.oopScratchLen ≤ scratch₁.length → d.oopScratchLen ≤ scratch₂.length →
      ∃ result i₁ i₂ s₁ s₂, d.processOop data output₁ scratch₁ = .ok (i₁, result, s₁) ∧
        d.processOop data output₂ scratch₂ = .ok (i₂, result, s₂)) := by
  obtain ⟨f, hf⟩ := (plan_ok p d h).implements
  refine ⟨fun a b ha hb => ?_, fun o o' a b ho ho' ha hb => ?_⟩
  · obtain ⟨s, e, _⟩ := hf.inplace data a h1 h2 ha
    obtain ⟨s', e', _⟩ := hf.inplace data b h1 h2 hb
    exact ⟨_, s, s', e, e'⟩
  · obtain ⟨i, s, e, _⟩ := hf.oop data o a ho h1 h2 ha
    obtain ⟨i', s', e', _⟩ := hf.oop data o' b ho' h1 h2 hb
    exact ⟨_, i, i', s, s', e, e'⟩

/-! ## C17 -/

/-- The three entry points produce the same values, for any arithmetic. -/
theorem C17_entry_points_agree (p : Plan) (d : Dht T) (h : p.build T = .ok d) (data output scratch scratch' : List T)
    (h0 : output.length = data.length) (h1 : d.len ≤ data.length) (h2 : d.len ∣ data.length)
    (h3 : d.inplaceScratchLen ≤ scratch.length) (h4 : d.oopScratchLen ≤ scratch'.length) :
    ∃ result i s s', d.process data = .ok result ∧ d.processWithScratch data scratch = .ok (result, s) ∧
      d.processOop data output scratch' = .ok (i, result, s') := by
  obtain ⟨f, hf⟩ := (plan_ok p d h).implements
  obtain ⟨s, e, _⟩ := hf.inplace data scratch h1 h2 h3
  obtain ⟨i, s', e', _⟩ := hf.oop data output scratch' h0 h1 h2 h4
  exact ⟨_, i, s, s', hf.process h1 h2, e, e'⟩

/-- The hypotheses of C16 and C17 hold for two chunks of the sample composition. -/
example (data : List T) (hd : data.length = 192) : ∃ d : Dht T, samplePlan.build T = .ok d ∧
    ∃ result i s, d.process data = .ok result ∧ d.processOop data data [] = .ok (i, result, s) := by
  refine ⟨_, samplePlan_build, ?_⟩
  obtain ⟨r, i, s, s', e1, _, e2⟩ := C17_entry_points_agree (T := T) samplePlan _ samplePlan_build data data
    (List.replicate _ 0) [] rfl (by rw [samplePlan_len, hd]; norm_num) (by rw [samplePlan_len, hd]; norm_num)
    (le_of_eq (List.length_replicate ..).symm)
    (by rw [((plan_ok (T := T) samplePlan _ samplePlan_build).small (by rw [samplePlan_len]; norm_num)).1]; simp)
  exact ⟨r, i, s', e1, e2⟩

/-! ## C18 -/

/-- In every sequence of calls that share one scratch buffer, every call returns what it returns with fresh zeroed scratch
of the length it reports.  The objects are compositions of the constructors, any number of different ones. -/
theorem C18_scratch_reuse (calls : List (Call T)) (scratch : List T)
    (hb : ∀ c ∈ calls, ∃ p : Plan, p.build T = .ok c.object)
    (hl : ∀ c ∈ calls, c.Legal ∧ c.scratchLen ≤ scratch.length) :
    ∃ results, runHistory calls scratch = .ok results ∧
      List.Forall₂ (fun c r => ∃ s', c.run (List.replicate c.scratchLen 0) = .ok (r, s')) calls results :=
  runHistory_ok 0 calls (fun c hc => (hb c hc).elim fun p hp => (plan_ok p _ hp).implements) hl

/-- Three calls on two objects. -/
example (a b c : List T) (ha : a.length = 96) (hb : b.length = 16) (hc : c.length = 32) (scratch : List T)
    (hs : 96 ≤ scratch.length) : ∃ d : Dht T, samplePlan.build T = .ok d ∧ ∃ x y z,
      runHistory [.inplace d a, .outOfPlace (butterfly16 T) b b, .inplace (butterfly16 T) c] scratch = .ok [x, y, z] ∧
      d.process a = .ok x ∧ (butterfly16 T).process c = .ok z := by
  refine ⟨_, samplePlan_build, ?_⟩
  have hsm := (plan_ok (T := T) samplePlan _ samplePlan_build).small (by rw [samplePlan_len]; norm_num)
  rw [samplePlan_len] at hsm
  obtain ⟨rs, e, h⟩ := C18_scratch_reuse (T := T)
    [.inplace (mixedRadix (mixedRadix2xn (dhtNaive T 3)) (butterfly16 T)) a, .outOfPlace (butterfly16 T) b b, .inplace (butterfly16 T) c] scratch
    (by
      intro c hc
      simp only [List.mem_cons, List.not_mem_nil, or_false] at hc
      rcases hc with rfl | rfl | rfl
      · exact ⟨samplePlan, samplePlan_build⟩
      · exact ⟨.b16, rfl⟩
      · exact ⟨.b16, rfl⟩)
    (by
      intro c' hc'
      simp only [List.mem_cons, List.not_mem_nil, or_false] at hc'
      rcases hc' with rfl | rfl | rfl
      · exact ⟨⟨by rw [samplePlan_len, ha], by rw [samplePlan_len, ha]⟩, le_trans hsm.2 hs⟩
      · exact ⟨⟨rfl, hb.ge, by rw [hb]; exact dvd_refl _⟩, Nat.zero_le _⟩
      · exact ⟨⟨by rw [hc]; show 16 ≤ 32; norm_num, by rw [hc]; show 16 ∣ 32; norm_num⟩, Nat.zero_le _⟩)
  obtain _ | ⟨⟨s1, hx⟩, _ | ⟨hy, _ | ⟨⟨s2, hz⟩, _ | _⟩⟩⟩ := h
  refine ⟨_, _, _, e, ?_, ?_⟩
  · simp only [Call.run, Call.scratchLen] at hx
    rw [Dht.process, hx, ok_bind]
  · simp only [Call.run, Call.scratchLen] at hz
    rw [Dht.process, hz, ok_bind]

/-! ## C19 -/

/-- A call that returns normally - and in particular every call that meets the requirements - leaves the length of every
slice, and the scratch beyond the reported length, as they were. -/
theorem C19_surplus_scratch (p : Plan) (d : Dht T) (h : p.build T = .ok d) :
    (∀ buffer scratch buffer' scratch', d.processWithScratch buffer scratch = .ok (buffer', scratch') →
      buffer'.length = buffer.length ∧ scratch'.length = scratch.length ∧
      scratch'.drop d.inplaceScratchLen = scratch.drop d.inplaceScratchLen) ∧
    (∀ input output scratch input' output' scratch',
      d.processOop input output scratch = .ok (input', output', scratch') →
      input'.length = input.length ∧ output'.length = output.length ∧ scratch'.length = scratch.length ∧
      scratch'.drop d.oopScratchLen = scratch.drop d.oopScratchLen) := by
  obtain ⟨⟨f, hf⟩, _, hr⟩ := plan_ok p d h
  have hsafe : SafeDht False d := (plan_safe (D := False) p).of_ok h
  refine ⟨fun b s b' s' e => ?_, fun i o s i' o' s' e => ?_⟩
  · have hl := (hsafe.postInplace b s).of_ok e
    refine ⟨hl.1, hl.2, ?_⟩
    by_cases hp : p = .b1
    · subst hp; cases h; cases e; rfl
    rcases Nat.eq_zero_or_pos d.len with h0 | hpos
    · rw [(plan_idle p d h h0).inplace] at e; cases e; rfl
    · obtain ⟨h1, h2, h3⟩ := (C13_inplace_panics_partial p hp d h hpos b s).1.1 ⟨_, e⟩
      obtain ⟨s'', e', _, hd⟩ := hf.inplace b s h1 h2 h3
      rw [e] at e'; cases e'; exact hd
  · have hl := (hsafe.postOop i o s).of_ok e
    refine ⟨hl.1, hl.2.1, hl.2.2, ?_⟩
    by_cases hp : p = .b1
    · subst hp
      cases h
      simp only [butterfly1] at e
      split at e
      · cases e; rfl
      · cases e
    rcases Nat.eq_zero_or_pos d.len with h0 | hpos
    · rw [(plan_idle p d h h0).oop] at e; cases e; rfl
    · obtain ⟨h0, h1, h2, h3⟩ := (C14_oop_panics_partial p hp d h hpos i o s).1.1 ⟨_, e⟩
      obtain ⟨i'', s'', e', _, _, hd⟩ := hf.oop i o s h0.symm h1 h2 h3
      rw [e] at e'; cases e'; exact hd

/-- Calls that return normally exist: 96 elements with 5 elements of surplus. -/
example (b scratch : List T) (hb : b.length = 96) (hs : scratch.length = 101) :
    ∃ d : Dht T, samplePlan.build T = .ok d ∧ ∃ b' s', d.processWithScratch b scratch = .ok (b', s') ∧
      s'.drop 96 = scratch.drop 96 := by
  refine ⟨_, samplePlan_build, ?_⟩
  have hsm := (plan_ok (T := T) samplePlan _ samplePlan_build).small (by rw [samplePlan_len]; norm_num)
  rw [samplePlan_len] at hsm
  obtain ⟨⟨b', s'⟩, e⟩ := (C13_inplace_panics_partial (T := T) samplePlan (by simp [samplePlan]) _ samplePlan_build
    (by rw [samplePlan_len]; norm_num) b scratch).1.2 ⟨by rw [samplePlan_len, hb], by rw [samplePlan_len, hb], by omega⟩
  refine ⟨b', s', e, ?_⟩
  have := ((C19_surplus_scratch (T := T) samplePlan _ samplePlan_build).1 _ _ _ _ e).2.2
  have := congrArg (List.drop (96 - (mixedRadix (mixedRadix2xn (dhtNaive T 3)) (butterfly16 T)).inplaceScratchLen)) this
  rw [List.drop_drop, List.drop_drop, Nat.add_sub_cancel' hsm.2] at this
  exact this

/-! ## C20 -/

/-- The inner objects need only accept valid calls: what they write may be anything. -/
theorem C20_mixedRadix_scratch (wd hd : Dht T) (hw : Accepts wd) (hh : Accepts hd) :
    Accepts (mixedRadix wd hd) ∧ ScratchSuffices (mixedRadix wd hd) :=
  ⟨mixedRadix_accepts hw hh, (mixedRadix_accepts hw hh).scratchSuffices⟩

theorem C20_raders_scratch (d : Dht T) (hd : Accepts d) (hp : (d.len + 1).Prime) (h2 : d.len + 1 ≠ 2)
    (h32 : d.len + 1 < 2 ^ 32) : ∃ d', raders d = .ok d' ∧ d'.len = d.len + 1 ∧ Accepts d' ∧ ScratchSuffices d' := by
  obtain ⟨d', e, hl, ha⟩ := raders_accepts_new hd hp h2 h32
  exact ⟨d', e, hl, ha, ha.scratchSuffices⟩

/-- Whenever the constructor of `RadersAlgorithm` returns, the object accepts every valid call. -/
theorem C20_raders_scratch_of_new (d d' : Dht T) (hd : Accepts d) (h : raders d = .ok d') :
    Accepts d' ∧ ScratchSuffices d' :=
  ⟨raders_accepts hd h, (raders_accepts hd h).scratchSuffices⟩

/-- Inner objects that request 1000 and 3 elements more than they use. -/
example : ScratchSuffices (mixedRadix ((butterfly16 T).greedy 1000) ((dhtNaive T 5).greedy 3)) := by
  obtain ⟨f, hf⟩ := (plan_ok (T := T) .b16 _ rfl).implements
  obtain ⟨g, hg⟩ := (plan_ok (T := T) (.naive 5) _ rfl).implements
  exact (C20_mixedRadix_scratch _ _ (greedy_implements hf _).accepts (greedy_implements hg _).accepts).2

example : ∃ d', raders ((butterfly16 T).greedy 1000) = .ok d' ∧ d'.len = 17 ∧ Accepts d' ∧ ScratchSuffices d' := by
  obtain ⟨f, hf⟩ := (plan_ok (T := T) .b16 _ rfl).implements
  exact C20_raders_scratch _ (greedy_implements hf 1000).accepts (by show Nat.Prime 17; decide) (by show 17 ≠ 2; decide)
    (by show 17 < 2 ^ 32; decide)

/-! ## C21

False: these algorithms pass the inner object a scratch slice of fixed length, or an empty one.  Scratch suffices exactly
when the inner requirements are below these limits. -/

theorem C21_mixedRadix2xn_partial (hd : Dht T) (hi : Accepts hd) (hr : Rejects hd)
    (hpos : 0 < hd.len) : ScratchSuffices (mixedRadix2xn hd) ↔
      hd.inplaceScratchLen ≤ 2 * hd.len ∧ hd.oopScratchLen = 0 := by
  rw [mixedRadix2xn_eq]
  exact ⟨fun h => mrn_needs (by omega) hr hpos h,
    fun h => (mrn_accepts (by omega) hi (fun _ => h.1) (fun _ => h.2) mr2Apply_total).scratchSuffices⟩

theorem C21_mixedRadix3xn_partial (hd : Dht T) (hi : Accepts hd) (hr : Rejects hd)
    (hpos : 0 < hd.len) : ScratchSuffices (mixedRadix3xn hd) ↔
      hd.inplaceScratchLen ≤ 3 * hd.len ∧ hd.oopScratchLen = 0 := by
  rw [mixedRadix3xn_eq]
  exact ⟨fun h => mrn_needs (by omega) hr hpos h,
    fun h => (mrn_accepts (by omega) hi (fun _ => h.1) (fun _ => h.2) mr3Apply_total).scratchSuffices⟩

theorem C21_mixedRadix4xn_partial (hd : Dht T) (hi : Accepts hd) (hr : Rejects hd)
    (hpos : 0 < hd.len) : ScratchSuffices (mixedRadix4xn hd) ↔
      hd.inplaceScratchLen ≤ 4 * hd.len ∧ hd.oopScratchLen = 0 := by
  rw [mixedRadix4xn_eq]
  exact ⟨fun h => mrn_needs (by omega) hr hpos h,
    fun h => (mrn_accepts (by omega) hi (fun _ => h.1) (fun _ => h.2) mr4Apply_total).scratchSuffices⟩

theorem C21_mixedRadix5xn_partial (hd : Dht T) (hi : Accepts hd) (hr : Rejects hd)
    (hpos : 0 < hd.len) : ScratchSuffices (mixedRadix5xn hd) ↔
      hd.inplaceScratchLen ≤ 5 * hd.len ∧ hd.oopScratchLen = 0 := by
  rw [mixedRadix5xn_eq]
  exact ⟨fun h => mrn_needs (by omega) hr hpos h,
    fun h => (mrn_accepts (by omega) hi (fun _ => h.1) (fun _ => h.2) mr5Apply_total).scratchSuffices⟩

theorem C21_mixedRadix6xn_partial (hd : Dht T) (hi : Accepts hd) (hr : Rejects hd)
    (hpos : 0 < hd.len) : ScratchSuffices (mixedRadix6xn hd) ↔
      hd.inplaceScratchLen ≤ 6 * hd.len ∧ hd.oopScratchLen = 0 := by
  rw [mixedRadix6xn_eq]
  exact ⟨fun h => mrn_needs (by omega) hr hpos h,
    fun h => (mrn_accepts (by omega) hi (fun _ => h.1) (fun _ => h.2) mr6Apply_total).scratchSuffices⟩

theorem C21_splitRadix_partial (qd hd d : Dht T) (iq : Accepts qd) (ih : Accepts hd)
    (hrq : Rejects qd) (hrh : Rejects hd) (hpos : 0 < qd.len) (h : splitRadix qd hd = .ok d) :
    ScratchSuffices d ↔ qd.oopScratchLen = 0 ∧ qd.inplaceScratchLen ≤ 4 * qd.len ∧
      hd.inplaceScratchLen ≤ 2 * qd.len :=
  ⟨fun hs => sr_needs ih hrq hrh h hpos hs, fun hs => (splitRadix_accepts iq ih h fun _ => hs).scratchSuffices⟩

/-- One extra element of scratch in a conforming user-implemented inner object is enough to break all six algorithms. -/
theorem C21_refuted : ∃ (hd : Dht T) (f : List T → List T), Implements hd f ∧ Rejects hd ∧
    ¬ ScratchSuffices (mixedRadix2xn hd) ∧ ¬ ScratchSuffices (mixedRadix3xn hd) ∧ ¬ ScratchSuffices (mixedRadix4xn hd) ∧
    ¬ ScratchSuffices (mixedRadix5xn hd) ∧ ¬ ScratchSuffices (mixedRadix6xn hd) ∧
    ∃ d, splitRadix hd (butterfly6 T) = .ok d ∧ ¬ ScratchSuffices d := by
  obtain ⟨f, hf⟩ := (plan_ok (T := T) .b3 _ rfl).implements
  obtain ⟨f6, hf6⟩ := (plan_ok (T := T) .b6 _ rfl).implements
  have hr6 := (plan_ok (T := T) .b6 _ rfl).rejects (by simp) (by show 0 < 6; omega)
  have hi := greedy_implements hf 1
  have hr := greedy_rejects (butterfly3 T) 1
  have hl : 0 < ((butterfly3 T).greedy 1).len := by show 0 < 3; omega
  have hne : ((butterfly3 T).greedy 1).oopScratchLen ≠ 0 := by show 0 + 1 ≠ 0; omega
  obtain ⟨d, e⟩ := splitRadix_new (qd := (butterfly3 T).greedy 1) (hd := butterfly6 T) rfl
  exact ⟨_, f, hi, hr, fun h => hne ((C21_mixedRadix2xn_partial _ hi.accepts hr hl).1 h).2,
    fun h => hne ((C21_mixedRadix3xn_partial _ hi.accepts hr hl).1 h).2,
    fun h => hne ((C21_mixedRadix4xn_partial _ hi.accepts hr hl).1 h).2,
    fun h => hne ((C21_mixedRadix5xn_partial _ hi.accepts hr hl).1 h).2,
    fun h => hne ((C21_mixedRadix6xn_partial _ hi.accepts hr hl).1 h).2, d, e,
    fun h => hne ((C21_splitRadix_partial _ _ d hi.accepts hf6.accepts hr hr6 hl e).1 h).1⟩

/-! ## C24 -/

theorem C24_reported_lengths (p : Plan) (d : Dht T) (h : p.build T = .ok d) :
    d.len = p.expectedLen ∧ (0 < d.len → d.oopScratchLen = 0 ∧ d.inplaceScratchLen ≤ d.len) :=
  ⟨plan_len p d h, (plan_ok p d h).small⟩

example : samplePlan.expectedLen = 96 := rfl

/-! ## C25 -/

theorem C25_radix4_new (n : ℕ) :
    ((∃ d, radix4 T n = .ok d) ↔ ∃ m, n = 2 ^ m) ∧
    ((¬ ∃ m, n = 2 ^ m) → radix4 T n = .error (.panic .assertFailed)) := by
  refine ⟨⟨fun ⟨d, e⟩ => radix4_isPow e, ?_⟩, fun h => ?_⟩
  · rintro ⟨m, rfl⟩
    exact ⟨_, radix4_eq m⟩
  · rw [← isPowerOfTwo_iff, Bool.not_eq_true] at h
    unfold radix4
    rw [h, assert_false, panic_bind]
    rfl

theorem C25_splitRadix_new (qd hd : Dht T) :
    ((∃ d, splitRadix qd hd = .ok d) ↔ hd.len = 2 * qd.len) ∧
    (hd.len ≠ 2 * qd.len → splitRadix qd hd = .error (.panic .assertFailed)) := by
  refine ⟨⟨fun ⟨d, e⟩ => (splitRadix_eq e).1, splitRadix_new⟩, fun h => ?_⟩
  unfold splitRadix
  simp only
  rw [beq_false_of_ne (by omega), assert_false, panic_bind]
  rfl

/-- `RadersAlgorithm::new` with an inner object that accepts every valid call, for sizes below `2^32`: it also rejects the prime
2 (the property does not except it), because `primitive_root(2)` is `None`. -/
theorem C25_raders_new_partial (d : Dht T) (hd : Accepts d) (h32 : d.len + 1 < 2 ^ 32) :
    ((∃ d', raders d = .ok d') ↔ (d.len + 1).Prime ∧ d.len + 1 ≠ 2) ∧
    (¬ (d.len + 1).Prime → raders d = .error (.panic .assertFailed)) ∧
    (d.len + 1 = 2 → raders d = .error (.panic .unwrapNone)) := by
  refine ⟨⟨fun ⟨d', e⟩ => ⟨(raders_new_only e).1, (raders_new_only e).2.1⟩, fun ⟨h1, h2⟩ => ?_⟩, fun hp => ?_, fun h2 => ?_⟩
  · obtain ⟨d', e, _⟩ := raders_accepts_new hd h1 h2 h32
    exact ⟨d', e⟩
  · unfold raders
    simp only
    rw [millerRabin, decide_eq_false hp, assert_false, panic_bind]
    rfl
  · unfold raders
    simp only
    rw [h2, millerRabin, decide_eq_true Nat.prime_two, assert_true, ok_bind, primitiveRoot_two, ok_bind]
    rfl

/-- Above `2^32` it never returns normally: the 64-bit products overflow. -/
theorem C25_raders_large (d : Dht T) (h32 : 2 ^ 32 ≤ d.len + 1) : ¬ ∃ d', raders d = .ok d' :=
  fun ⟨_, e⟩ => absurd (raders_new_only e).2.2 (by omega)

/-- 2 is prime, and `RadersAlgorithm::new(Butterfly1)` panics. -/
theorem C25_raders_refuted : ((butterfly1 T).len + 1).Prime ∧ raders (butterfly1 T) = .error (.panic .unwrapNone) := by
  obtain ⟨f, hf⟩ := (plan_ok (T := T) .b1 _ rfl).implements
  exact ⟨Nat.prime_two, (C25_raders_new_partial _ hf.accepts (by show 2 < 2 ^ 32; omega)).2.2 rfl⟩

example : (∃ d, radix4 T 256 = .ok d) ∧ (∀ d, radix4 T 0 ≠ .ok d) ∧ radix4 T 48 = .error (.panic .assertFailed) := by
  have aux : ∀ n, n ≠ 1 → n % 2 = 1 → ¬ ∃ m, n = 2 ^ m := by
    rintro n h1 h2 ⟨m, rfl⟩
    cases m with
    | zero => exact h1 rfl
    | succ m => omega
  refine ⟨(C25_radix4_new 256).1.2 ⟨8, rfl⟩, fun d e => ?_, (C25_radix4_new 48).2 ?_⟩
  · obtain ⟨m, hm⟩ := (C25_radix4_new 0).1.1 ⟨d, e⟩
    have := Nat.two_pow_pos m
    omega
  · rintro ⟨m, hm⟩
    have : m < 6 ∨ 6 ≤ m := by omega
    rcases this with h | h
    · interval_cases m <;> omega
    · have := Nat.pow_le_pow_right (n := 2) (by omega) h
      omega

example : (∃ d', raders (butterfly16 T) = .ok d') ∧ raders (butterfly8 T) = .error (.panic .assertFailed) := by
  obtain ⟨f, hf⟩ := (plan_ok (T := T) .b16 _ rfl).implements
  obtain ⟨g, hg⟩ := (plan_ok (T := T) .b8 _ rfl).implements
  exact ⟨(C25_raders_new_partial _ hf.accepts (by show 17 < 2 ^ 32; omega)).1.2 ⟨by show Nat.Prime 17; decide, by show 17 ≠ 2; omega⟩,
    (C25_raders_new_partial _ hg.accepts (by show 9 < 2 ^ 32; omega)).2.1 (by show ¬ Nat.Prime 9; decide)⟩

/-! ## C36 -/

/-- A leaf of a composition: `DhtNaive` or a butterfly. -/
def Plan.IsLeaf : Plan → Prop
  | .naive _ | .b1 | .b2 | .b3 | .b4 | .b5 | .b6 | .b8 | .b9 | .b16 => True
  | _ => False

theorem C36_input_preserved (p : Plan) (hp : p.IsLeaf) (d : Dht T) (h : p.build T = .ok d)
    (input output scratch input' output' scratch' : List T)
    (e : d.processOop input output scratch = .ok (input', output', scratch')) :
    input' = input ∧ scratch' = scratch := by
  rcases Nat.eq_zero_or_pos d.len with h0 | hpos
  · rw [(plan_idle p d h h0).oop] at e; cases e; exact ⟨rfl, rfl⟩
  have bfly : ∀ {n : ℕ} {g : List T → List T} {c : RawIO T → Res (RawIO T)}, p ≠ .b1 → 0 < n → PerformsBfly n g c →
      d = boilerplateFftButterfly n c → input' = input ∧ scratch' = scratch := by
    intro n g c hne hn hc hd
    obtain ⟨h0, h1, h2, _⟩ := (C14_oop_panics_partial p hne d h hpos input output scratch).1.1 ⟨_, e⟩
    subst hd
    rw [boilerplateFftButterfly_oop hn hc _ _ _ h0.symm h1 h2] at e
    cases e; exact ⟨rfl, rfl⟩
  cases p with
  | naive n =>
    obtain ⟨h0, h1, h2, _⟩ := (C14_oop_panics_partial _ (by simp) d h hpos input output scratch).1.1 ⟨_, e⟩
    cases h
    have hpos' : 0 < (naiveTwiddles T n).length := hpos
    rw [dhtNaive, boilerplateDhtOop_oop hpos' (naive_performs n) _ _ _ h0.symm h1 h2] at e
    cases e; exact ⟨rfl, rfl⟩
  | b1 =>
    cases h
    simp only [butterfly1] at e
    split at e
    · cases e; exact ⟨rfl, rfl⟩
    · cases e
  | b2 => cases h; exact bfly (by simp) (by omega) performs2 rfl
  | b3 => cases h; exact bfly (by simp) (by omega) performs3 rfl
  | b4 => cases h; exact bfly (by simp) (by omega) performs4 rfl
  | b5 => cases h; exact bfly (by simp) (by omega) performs5 rfl
  | b6 => cases h; exact bfly (by simp) (by omega) performs6 rfl
  | b8 => cases h; exact bfly (by simp) (by omega) performs8 rfl
  | b9 => cases h; exact bfly (by simp) (by omega) performs9 rfl
  | b16 => cases h; exact bfly (by simp) (by omega) performs16 rfl
  | mixedRadix _ _ | mr2 _ | mr3 _ | mr4 _ | mr5 _ | mr6 _ | radix4 _ | splitRadix _ _ | raders _ => exact hp.elim

/-- Such calls exist: one chunk of `Butterfly9`. -/
example (x y : List T) (hx : x.length = 9) (hy : y.length = 9) :
    ∃ o', (butterfly9 T).processOop x y [] = .ok (x, o', []) := by
  obtain ⟨f, hf⟩ := (plan_ok (T := T) .b9 _ rfl).implements
  obtain ⟨i', s', e, _⟩ := hf.oop x y [] (by omega) (by show 9 ≤ _; omega) (by show 9 ∣ _; omega) (Nat.zero_le _)
  have := C36_input_preserved (T := T) .b9 trivial _ rfl _ _ _ _ _ _ e
  exact ⟨_, by rw [e, this.1, this.2]⟩

end RustDHT
