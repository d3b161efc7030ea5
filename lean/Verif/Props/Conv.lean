import Verif.Proofs.Conv
import Verif.Props.Laws

/-! # C60: rotation and circular convolution through the transforms, in exact arithmetic -/

namespace RustDHT

/-- Rotating a chunk by `s` turns coefficient `k` and its mirror image by the angle `2πks/n`. -/
theorem C60_rotation (p : Plan) (hr : p.SmallRadix4) (d : Dht ℝ) (h : p.build ℝ = .ok d) (hpos : 0 < d.len)
    (x : List ℝ) (hx : x.length = d.len) (s : ℕ) :
    ∃ X Y, d.process x = .ok X ∧ d.process (x.rotate s) = .ok Y ∧ Y = turn s X := by
  have hi := plan_dht p hr d h
  exact ⟨_, _, process_one hi hpos hx, process_one hi hpos (by simpa using hx), dht_rotate x s⟩

/-- Transforming two chunks, multiplying the spectra and transforming back gives `n` times the circular convolution.  The three
transforms may be done by three different compositions of the same length. -/
theorem C60_convolution (p q r : Plan) (hp : p.SmallRadix4) (hq : q.SmallRadix4) (hr : r.SmallRadix4) (d e f : Dht ℝ)
    (hd : p.build ℝ = .ok d) (he : q.build ℝ = .ok e) (hf : r.build ℝ = .ok f) (hpos : 0 < d.len) (hde : d.len = e.len)
    (hdf : d.len = f.len) (x y : List ℝ) (hx : x.length = d.len) (hy : y.length = d.len) :
    ∃ X Y, d.process x = .ok X ∧ e.process y = .ok Y ∧
      f.process (hartleyMul X Y) = .ok ((circConv x y).map fun v => (d.len : ℝ) * v) := by
  have h1 := plan_dht p hp d hd
  have h2 := plan_dht q hq e he
  have h3 := plan_dht r hr f hf
  refine ⟨_, _, process_one h1 hpos hx, process_one h2 (by omega) (by omega), ?_⟩
  rw [process_one h3 (by omega) (by simp; omega), dht_hartleyMul (by omega), hx]

/-- The spectrum of the convolution itself. -/
theorem C60_product (p : Plan) (hr : p.SmallRadix4) (d : Dht ℝ) (h : p.build ℝ = .ok d) (hpos : 0 < d.len)
    (x y : List ℝ) (hx : x.length = d.len) (hy : y.length = d.len) :
    ∃ X Y, d.process x = .ok X ∧ d.process y = .ok Y ∧ d.process (circConv x y) = .ok (hartleyMul X Y) := by
  have hi := plan_dht p hr d h
  exact ⟨_, _, process_one hi hpos hx, process_one hi hpos hy,
    by rw [process_one hi hpos (by simpa using hx), dht_circConv (by omega)]⟩

example : circConv [1, 2, 3] [10, 100, 1000] = [2310, 3120, 1230] := by
  simp [circConv, List.range_succ, Finset.sum_range_succ]; norm_num

example : ([1, 2, 3, 4] : List ℕ).rotate 1 = [2, 3, 4, 1] := rfl

/-- The hypotheses are met: the sample composition of length 24, `DhtNaive` and back. -/
example : ∃ d, lawPlan.build ℝ = .ok d ∧ ∀ x y : List ℝ, x.length = 24 → y.length = 24 → ∃ X Y, d.process x = .ok X ∧
    (dhtNaive ℝ 24).process y = .ok Y ∧ d.process (hartleyMul X Y) = .ok ((circConv x y).map fun v => 24 * v) := by
  obtain ⟨d, e, hr, hl⟩ := lawPlan_build
  refine ⟨d, e, fun x y hx hy => ?_⟩
  obtain ⟨X, Y, h1, h2, h3⟩ := C60_convolution lawPlan (.naive 24) lawPlan hr trivial hr d _ d e rfl e (by omega)
    (by rw [hl, dhtNaive_len]) rfl x y (by omega) (by omega)
  exact ⟨X, Y, h1, h2, by rw [h3, hl]; norm_num⟩

end RustDHT
