import Verif.Proofs.PlanDht
import Verif.Proofs.DhtLaws
import Verif.Props.Exact

/-! # C27 - C33: algebraic laws of the transforms, in exact arithmetic

`p` is any composition of the constructors (C12).  The laws that hold element by element are stated for buffers of any number
of chunks; the laws that speak of the order of the elements within a transform are stated for one chunk. -/

namespace RustDHT

theorem mapChunks_map {n : ℕ} (hn : 0 < n) (g : ℝ → ℝ) (l : List ℝ) (hd : n ∣ l.length) :
    mapChunks n (fun x => x.map g) l = l.map g := by
  induction l using chunk_induction hn with
  | hlt l hl =>
    have : l = [] := List.length_eq_zero_iff.1 (Nat.eq_zero_of_dvd_of_lt hd hl)
    rw [this, mapChunks_nil]; rfl
  | hge l hge ih =>
    rw [mapChunks_of_ge hn hge, ih (by rw [List.length_drop]; exact Nat.dvd_sub hd (dvd_refl _)), ← List.map_append,
      List.take_append_drop]

/-- A composition used in the examples: `MixedRadix::new(Butterfly3, SplitRadix::new(Butterfly2, Butterfly4))`, length 24. -/
def lawPlan : Plan := .mixedRadix .b3 (.splitRadix .b2 .b4)

theorem lawPlan_build : ∃ d, lawPlan.build ℝ = .ok d ∧ lawPlan.SmallRadix4 ∧ d.len = 24 := by
  obtain ⟨s, e⟩ := splitRadix_new (qd := butterfly2 ℝ) (hd := butterfly4 ℝ) rfl
  refine ⟨mixedRadix (butterfly3 ℝ) s, by simp only [lawPlan, Plan.build, ok_bind, e], by simp [lawPlan, Plan.SmallRadix4], ?_⟩
  show 3 * s.len = 24
  rw [(splitRadix_eq e).2]
  rfl

/-! ## C27 -/

/-- Processing twice multiplies every element by `len()`. -/
theorem C27_self_inverse (p : Plan) (hr : p.SmallRadix4) (d : Dht ℝ) (h : p.build ℝ = .ok d) (hpos : 0 < d.len)
    (buffer : List ℝ) (h1 : d.len ≤ buffer.length) (h2 : d.len ∣ buffer.length) :
    ∃ once, d.process buffer = .ok once ∧ d.process once = .ok (buffer.map fun v => (d.len : ℝ) * v) := by
  have hi := plan_dht p hr d h
  have hlen : (mapChunks d.len dht buffer).length = buffer.length := length_mapChunks hpos hi.length buffer
  refine ⟨_, hi.process h1 h2, ?_⟩
  rw [hi.process (by rw [hlen]; exact h1) (by rw [hlen]; exact h2), mapChunks_mapChunks hi.length,
    mapChunks_congr (g := fun x => x.map fun v => (d.len : ℝ) * v) (fun x hx => by rw [dht_dht, hx]),
    mapChunks_map hpos _ _ h2]

example : ∃ d, lawPlan.build ℝ = .ok d ∧ ∀ b : List ℝ, b.length = 72 → ∃ once, d.process b = .ok once ∧
    d.process once = .ok (b.map fun v => 24 * v) := by
  obtain ⟨d, e, hr, hl⟩ := lawPlan_build
  refine ⟨d, e, fun b hb => ?_⟩
  obtain ⟨o, e1, e2⟩ := C27_self_inverse lawPlan hr d e (by omega) b (by omega) (by rw [hl, hb]; norm_num)
  exact ⟨o, e1, by rw [e2, hl]; norm_num⟩

/-! ## C28 -/

theorem C28_linear (p : Plan) (hr : p.SmallRadix4) (d : Dht ℝ) (h : p.build ℝ = .ok d) (hpos : 0 < d.len) (a b : ℝ)
    (x y : List ℝ) (hxy : x.length = y.length) (h1 : d.len ≤ x.length) (h2 : d.len ∣ x.length) :
    ∃ X Y, d.process x = .ok X ∧ d.process y = .ok Y ∧
      d.process (List.zipWith (fun u v => a * u + b * v) x y) = .ok (List.zipWith (fun u v => a * u + b * v) X Y) := by
  have hi := plan_dht p hr d h
  refine ⟨_, _, hi.process h1 h2, hi.process (by omega) (by rwa [← hxy]), ?_⟩
  rw [hi.process (by simp; omega) (by rw [List.length_zipWith, ← hxy, Nat.min_self]; exact h2),
    mapChunks_zipWith hpos (fun u v hu hv => ⟨dht_linear (by omega) a b, hi.length _ hu⟩) x y hxy]

example : ∃ d, lawPlan.build ℝ = .ok d ∧ ∀ x y : List ℝ, x.length = 24 → y.length = 24 → ∃ X Y, d.process x = .ok X ∧
    d.process y = .ok Y ∧ d.process (List.zipWith (fun u v => 2 * u + (-3) * v) x y)
      = .ok (List.zipWith (fun u v => 2 * u + (-3) * v) X Y) := by
  obtain ⟨d, e, hr, hl⟩ := lawPlan_build
  exact ⟨d, e, fun x y hx hy => C28_linear lawPlan hr d e (by omega) 2 (-3) x y (by omega) (by omega) (by rw [hl, hx])⟩

/-! ## C29 -/

theorem C29_parseval (p : Plan) (hr : p.SmallRadix4) (d : Dht ℝ) (h : p.build ℝ = .ok d) (hpos : 0 < d.len)
    (x : List ℝ) (h1 : d.len ≤ x.length) (h2 : d.len ∣ x.length) :
    ∃ X, d.process x = .ok X ∧ (X.map fun v : ℝ => v ^ 2).sum = (d.len : ℝ) * (x.map fun v : ℝ => v ^ 2).sum := by
  have hi := plan_dht p hr d h
  exact ⟨_, hi.process h1 h2, mapChunks_sum hpos (fun x hx => by rw [dht_parseval, hx]) x h2⟩

example : ∃ d, lawPlan.build ℝ = .ok d ∧ ∀ x : List ℝ, x.length = 24 → ∃ X, d.process x = .ok X ∧
    (X.map fun v : ℝ => v ^ 2).sum = 24 * (x.map fun v : ℝ => v ^ 2).sum := by
  obtain ⟨d, e, hr, hl⟩ := lawPlan_build
  refine ⟨d, e, fun x hx => ?_⟩
  obtain ⟨X, e1, e2⟩ := C29_parseval lawPlan hr d e (by omega) x (by omega) (by rw [hl, hx])
  exact ⟨X, e1, by rw [e2, hl]; norm_num⟩

/-! ## C30 -/

theorem process_one {d : Dht ℝ} (hi : ComputesDht d) (hpos : 0 < d.len) {x : List ℝ} (hx : x.length = d.len) :
    d.process x = .ok (dht x) := by
  rw [hi.process (by omega) (by rw [hx]), mapChunks_single hpos hx]

/-- Reversing all but the first element before and after the transform changes nothing. -/
theorem C30_double_reversal (p : Plan) (hr : p.SmallRadix4) (d : Dht ℝ) (h : p.build ℝ = .ok d) (hpos : 0 < d.len)
    (x : List ℝ) (hx : x.length = d.len) :
    ∃ X Y, d.process x = .ok X ∧ d.process (revTail x) = .ok Y ∧ revTail Y = X := by
  have hi := plan_dht p hr d h
  exact ⟨_, _, process_one hi hpos hx, process_one hi hpos (by simp [revTail]; omega), dht_revTail x⟩

example : revTail [1, 2, 3, 4] = [1, 4, 3, 2] := rfl

/-! ## C31 -/

/-- Reversing the whole output is applying the twiddles to the input; reversing the whole input is applying the twiddles to
the output. -/
theorem C31_reversal (p : Plan) (hr : p.SmallRadix4) (d : Dht ℝ) (h : p.build ℝ = .ok d) (hpos : 0 < d.len)
    (x : List ℝ) (hx : x.length = d.len) :
    ∃ X Y Z, d.process x = .ok X ∧ d.process (revTwiddle x) = .ok Y ∧ d.process x.reverse = .ok Z ∧
      X.reverse = Y ∧ Z = revTwiddle X := by
  have hi := plan_dht p hr d h
  exact ⟨_, _, _, process_one hi hpos hx, process_one hi hpos (by simp [revTwiddle, hx]), process_one hi hpos (by simpa using hx),
    dht_reverse_output x, dht_reverse_input x⟩

/-- The hypotheses of C30 and C31 hold for every chunk of the sample composition. -/
example : ∃ d, lawPlan.build ℝ = .ok d ∧ ∀ x : List ℝ, x.length = 24 → ∃ X Y Z, d.process x = .ok X ∧
    d.process (revTwiddle x) = .ok Y ∧ d.process x.reverse = .ok Z ∧ X.reverse = Y ∧ Z = revTwiddle X := by
  obtain ⟨d, e, hr, hl⟩ := lawPlan_build
  exact ⟨d, e, fun x hx => C31_reversal lawPlan hr d e (by omega) x (by omega)⟩

/-! ## C32 -/

/-- Two compositions of equal length compute the same function, through every entry point. -/
theorem C32_interchangeable (p q : Plan) (hp : p.SmallRadix4) (hq : q.SmallRadix4) (d e : Dht ℝ) (hd : p.build ℝ = .ok d)
    (he : q.build ℝ = .ok e) (hlen : d.len = e.len) (x : List ℝ) (h1 : d.len ≤ x.length) (h2 : d.len ∣ x.length) :
    ∃ X, d.process x = .ok X ∧ e.process x = .ok X ∧
      (∀ s, d.inplaceScratchLen ≤ s.length → ∃ s', d.processWithScratch x s = .ok (X, s')) ∧
      (∀ s, e.inplaceScratchLen ≤ s.length → ∃ s', e.processWithScratch x s = .ok (X, s')) ∧
      (∀ o s, o.length = x.length → d.oopScratchLen ≤ s.length → ∃ i' s', d.processOop x o s = .ok (i', X, s')) ∧
      (∀ o s, o.length = x.length → e.oopScratchLen ≤ s.length → ∃ i' s', e.processOop x o s = .ok (i', X, s')) := by
  have h1' := plan_dht p hp d hd
  have h2' := plan_dht q hq e he
  refine ⟨mapChunks d.len dht x, h1'.process h1 h2, ?_, fun s hs => ?_, fun s hs => ?_, fun o s ho hs => ?_, fun o s ho hs => ?_⟩
  · rw [hlen] at *; exact h2'.process h1 h2
  · obtain ⟨s', e', _⟩ := h1'.inplace x s h1 h2 hs
    exact ⟨s', e'⟩
  · rw [hlen] at *
    obtain ⟨s', e', _⟩ := h2'.inplace x s h1 h2 hs
    exact ⟨s', e'⟩
  · obtain ⟨i', s', e', _⟩ := h1'.oop x o s ho h1 h2 hs
    exact ⟨i', s', e'⟩
  · rw [hlen] at *
    obtain ⟨i', s', e', _⟩ := h2'.oop x o s ho h1 h2 hs
    exact ⟨i', s', e'⟩

example : ∃ d, lawPlan.build ℝ = .ok d ∧ ∀ x : List ℝ, x.length = 24 →
    ∃ X, d.process x = .ok X ∧ (dhtNaive ℝ 24).process x = .ok X := by
  obtain ⟨d, e, hr, hl⟩ := lawPlan_build
  refine ⟨d, e, fun x hx => ?_⟩
  obtain ⟨X, h1, h2, _⟩ := C32_interchangeable lawPlan (.naive 24) hr trivial d _ e rfl (by rw [hl, dhtNaive_len]) x (by omega)
    (by rw [hl, hx])
  exact ⟨X, h1, h2⟩

/-! ## C33 -/

/-- Coefficient `k` of the output is `Re F - Im F`, `F` coefficient `k` of the forward DFT; the second part says the same
with Mathlib's `ZMod.dft`. -/
theorem C33_dft (p : Plan) (hr : p.SmallRadix4) (d : Dht ℝ) (h : p.build ℝ = .ok d) (hpos : 0 < d.len)
    (x : List ℝ) (hx : x.length = d.len) :
    ∃ X, d.process x = .ok X ∧ X.length = d.len ∧ ∀ k < d.len,
      X.getD k 0 = (dftCoeff x k).re - (dftCoeff x k).im ∧
      (haveI : NeZero d.len := ⟨hpos.ne'⟩
      X.getD k 0 = (ZMod.dft (fun j : ZMod d.len => ((x.getD j.val 0 : ℝ) : ℂ)) (k : ZMod d.len)).re
        - (ZMod.dft (fun j : ZMod d.len => ((x.getD j.val 0 : ℝ) : ℂ)) (k : ZMod d.len)).im) := by
  have hi := plan_dht p hr d h
  refine ⟨_, process_one hi hpos hx, by simp [hx], fun k hk => ?_⟩
  have e : (dht x).getD k 0 = dhtCoeff x k := by simp [dht, List.getD, hx, hk]
  refine ⟨by rw [e, dhtCoeff_eq_dft], ?_⟩
  have key : ∀ n, x.length = n → ∀ [NeZero n], dhtCoeff x k
      = (ZMod.dft (fun j : ZMod n => ((x.getD j.val 0 : ℝ) : ℂ)) (k : ZMod n)).re
        - (ZMod.dft (fun j : ZMod n => ((x.getD j.val 0 : ℝ) : ℂ)) (k : ZMod n)).im := by
    rintro n rfl _
    exact dhtCoeff_eq_zmodDft x k
  have : NeZero d.len := ⟨hpos.ne'⟩
  rw [e]
  exact key d.len hx

example : ∃ d, lawPlan.build ℝ = .ok d ∧ ∀ x : List ℝ, x.length = 24 → ∃ X, d.process x = .ok X ∧
    ∀ k < 24, X.getD k 0 = (dftCoeff x k).re - (dftCoeff x k).im := by
  obtain ⟨d, e, hr, hl⟩ := lawPlan_build
  refine ⟨d, e, fun x hx => ?_⟩
  obtain ⟨X, h1, _, h2⟩ := C33_dft lawPlan hr d e (by omega) x (by omega)
  exact ⟨X, h1, fun k hk => (h2 k (by omega)).1⟩

end RustDHT
