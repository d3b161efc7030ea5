import Verif.Proofs.Unwind
import Verif.Proofs.Orthogonality
import Verif.Proofs.LeavesDht
import Verif.Props.Exact

/-! # C63: what a call that panics leaves in the slices -/

namespace RustDHT

variable {T : Type}

/-- C63, the two models of the macros agree: forgetting what is left gives the object used everywhere else. -/
theorem C63_agrees (m : Macro T) (input output buffer scratch : List T) :
    (m.seenInplace buffer scratch).forget = m.object.processWithScratch buffer scratch ∧
    (m.seenOop input output scratch).forget = m.object.processOop input output scratch :=
  ⟨m.forget_seenInplace buffer scratch, m.forget_seenOop input output scratch⟩

/-- C63, any object made by one of the macros, also one with inner objects from outside the crate: if it meets the contract,
a call that breaks a requirement leaves the slices alone, unless the only fault is a remainder, and then every complete chunk
has been transformed. -/
theorem C63_left (m : Macro T) (hm : m ≠ .butterfly1) (f : List T → List T) (hi : Implements m.object f)
    (hlen : 0 < m.object.len) : LeavesBehind m.object f m.seenInplace m.seenOop :=
  leavesBehind_of_implements hm hi hlen

/-- C63, every object that the constructors of the crate make, in any nesting and in any arithmetic, `Butterfly1` excepted. -/
theorem C63_plan [Add T] [Sub T] [Mul T] [Neg T] [Zero T] [FftNum T] (p : Plan) (d : Dht T) (e : p.build T = .ok d)
    (hp : p ≠ .b1) (hlen : 0 < d.len) :
    (∃ m : Macro T, m.object = d) ∧
    ∃ f, Implements d f ∧ ∀ m : Macro T, m.object = d → LeavesBehind d f m.seenInplace m.seenOop := by
  obtain ⟨⟨f, hf⟩, _, hr⟩ := plan_ok p d e
  refine ⟨plan_macro e, f, hf, ?_⟩
  rintro m rfl
  refine leavesBehind_of_implements ?_ hf hlen
  rintro rfl
  have := (hr hp hlen).inplace [] [] .bufferTooSmall rfl
  exact nomatch this

/-- C63, `Butterfly1`: it panics for slices of different lengths only, and leaves them alone. -/
theorem C63_butterfly1 (input output buffer scratch : List T) :
    (Macro.butterfly1 (T := T)).seenInplace buffer scratch = .returned (buffer, scratch) ∧
    (output.length ≠ input.length →
      (Macro.butterfly1 (T := T)).seenOop input output scratch = .unwound .copyLength (input, output, scratch)) :=
  ⟨rfl, fun h => if_neg h⟩

/-- C63, in exact arithmetic: a caller who catches the panic, cuts off the remainder and tries again does not get the transform,
but the signal they began with, multiplied by the length. -/
theorem C63_retry (m : Macro ℝ) (hm : m ≠ .butterfly1) (hd : ComputesDht m.object) (hlen : 0 < m.object.len)
    (buffer scratch : List ℝ) (h1 : m.object.len ≤ buffer.length) (h2 : ¬ m.object.len ∣ buffer.length)
    (h3 : m.object.inplaceScratchLen ≤ scratch.length) :
    ∃ left scratch', m.seenInplace buffer scratch = .unwound .notMultiple (left, scratch') ∧
      m.object.process (left.take (wholeLength m.object.len buffer))
        = .ok ((buffer.take (wholeLength m.object.len buffer)).map fun v => m.object.len * v) := by
  obtain ⟨s', e, _, _⟩ := (C63_left m hm dht hd hlen).inplace_late buffer scratch h1 h2 h3
  refine ⟨_, s', e, ?_⟩
  have hl : (mapChunks m.object.len dht (buffer.take (wholeLength m.object.len buffer))).length
      = wholeLength m.object.len buffer := by
    rw [length_mapChunks hlen (fun x hx => by rw [length_dht, hx]), List.length_take, min_eq_left (wholeLength_le buffer)]
  rw [List.take_left' hl, hd.process (by rw [hl]; exact le_wholeLength hlen h1) (by rw [hl]; exact dvd_wholeLength buffer),
    mapChunks_mapChunks (fun x hx => by rw [length_dht, hx])]
  congr 1
  have key : ∀ l : List ℝ, m.object.len ∣ l.length →
      mapChunks m.object.len (fun x => dht (dht x)) l = l.map fun v => (m.object.len : ℝ) * v := by
    intro l
    induction l using chunk_induction hlen with
    | hlt l hl =>
      intro hd
      have : l = [] := List.length_eq_zero_iff.1 (Nat.eq_zero_of_dvd_of_lt hd hl)
      subst this; rw [mapChunks_nil]; rfl
    | hge l hl ih =>
      intro hd
      rw [mapChunks_of_ge hlen hl, ih ((dvd_drop_iff hl).2 hd), dht_dht, List.length_take, min_eq_left hl, ← List.map_append,
        List.take_append_drop]
  exact key _ (by rw [List.length_take, min_eq_left (wholeLength_le buffer)]; exact dvd_wholeLength buffer)

/-- A buffer of seven elements for an object of length 2: three transforms and a remainder, and then the panic. -/
example : (Macro.butterfly 2 contiguous2 : Macro ℝ).seenInplace [3, 5, 1, 10, 2, 2, 9] [4]
    = .unwound .notMultiple ([8, -2, 11, -9, 4, 0, 9], [4]) := by
  have e9 : (Macro.butterfly 2 contiguous2 : Macro ℝ).object.len = 2 := rfl
  obtain ⟨s', e, h1, h2⟩ := (C63_left (.butterfly 2 contiguous2 : Macro ℝ) (by simp) dht butterfly2_dht
    (by decide)).inplace_late [3, 5, 1, 10, 2, 2, 9] [4] (by simp [e9]) (by simp [e9]) (Nat.zero_le _)
  have h2' : s' = [4] := h2
  have ew : wholeLength 2 ([3, 5, 1, 10, 2, 2, 9] : List ℝ) = 6 := rfl
  rw [e, h2', e9, ew, mapChunks_of_ge (by omega) (by simp), mapChunks_of_ge (by omega) (by simp),
    mapChunks_of_ge (by omega) (by simp), mapChunks_of_lt (by simp)]
  norm_num [dht_pair]

/-- The same buffer for an object that needs scratch and gets too little: nothing is touched, though the message is the same. -/
example : (Macro.oop (naiveTwiddles ℝ 3).length (naivePerform (naiveTwiddles ℝ 3))).seenInplace [1, 2, 3, 4] [7, 7]
    = .unwound .notMultiple ([1, 2, 3, 4], [7, 7]) := by
  have hlen : (Macro.oop (naiveTwiddles ℝ 3).length (naivePerform (naiveTwiddles ℝ 3))).object.len = 3 := dhtNaive_len 3
  have hs : (Macro.oop (naiveTwiddles ℝ 3).length (naivePerform (naiveTwiddles ℝ 3))).object.inplaceScratchLen = 3 :=
    dhtNaive_len 3
  exact (C63_left (.oop (naiveTwiddles ℝ 3).length (naivePerform (naiveTwiddles ℝ 3))) (by simp) _ (dhtNaive_implements (T := ℝ) 3) (by rw [hlen]; omega)).inplace_early _ _ _
    (by rw [hlen, hs]; rfl) (by rw [hs]; simp)

/-- The second try on `[3, 5]`, the first two of three elements. -/
example : ∃ left scratch', (Macro.butterfly 2 contiguous2 : Macro ℝ).seenInplace [3, 5, 7] []
      = .unwound .notMultiple (left, scratch') ∧ (butterfly2 ℝ).process (left.take 2) = .ok [2 * 3, 2 * 5] :=
  C63_retry (.butterfly 2 contiguous2) (by simp) butterfly2_dht (by decide) [3, 5, 7] [] (by simp [Macro.object, boilerplateFftButterfly])
    (by simp [Macro.object, boilerplateFftButterfly]) (by simp [Macro.object, boilerplateFftButterfly])

end RustDHT
