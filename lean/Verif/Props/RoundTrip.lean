import Verif.Props.Ieee
import Verif.Spec.RoundTrip
import Verif.Proofs.RoundTrip

/-! # C64: energy, agreement and round trip in floating point -/

namespace RustDHT

variable {T : Type} [Zero T] [Add T] [Sub T] [Mul T] [Neg T] [FftNum T]
variable {fin : T → Prop} {val : T → ℝ} {u η Ω : ℝ} {t s : ℕ}

/-- C64, energy: the Euclidean norm of the computed spectrum is `√n` times that of the signal, up to the stated error. -/
theorem C64_energy (p : Plan) (hr : p.SmallRadix4) (hm : FloatModel fin val u η Ω t s) (d : Dht T) (hd : p.build T = .ok d)
    (hu : (p.stability t s).depth * u ≤ 1 / 2) :
    ∃ f, Implements d f ∧ ∀ x, x.length = d.len → (∀ a ∈ x, fin a) → p.NoOverflow t s η Ω d.len (norm2 (x.map val)) →
      |norm2 ((f x).map val) - √d.len * norm2 (x.map val)|
        ≤ p.relErr t s u * (√d.len * norm2 (x.map val)) + p.absErr t s η d.len := by
  obtain ⟨f, hi, h⟩ := C46_relative_error p hr hm d hd
  refine ⟨f, hi, fun x hx hf hO => ?_⟩
  obtain ⟨_, h2⟩ := h x hx hf _ rfl hu hO
  have hl : (x.map val).length = d.len := by simp [hx]
  have hy : ((f x).map val).length = d.len := by rw [List.length_map, hi.length x hx]
  have hX : (dht (x.map val)).length = d.len := by rw [length_dht, hl]
  rw [norm2_dht hl] at h2
  have e1 := norm2_le_add hy hX
  have e2 := norm2_le_add hX hy
  rw [norm2_zip_comm hX hy, norm2_dht hl] at e2
  rw [norm2_dht hl] at e1
  unfold Plan.relErr Plan.absErr
  rw [abs_le]
  constructor <;> linarith

/-- C64, agreement: two compositions of the same length differ by no more than the sum of their errors. -/
theorem C64_agreement (p q : Plan) (hr : p.SmallRadix4) (hr' : q.SmallRadix4) (hm : FloatModel fin val u η Ω t s)
    (d d' : Dht T) (hd : p.build T = .ok d) (hd' : q.build T = .ok d') (hlen : d'.len = d.len)
    (hu : (p.stability t s).depth * u ≤ 1 / 2) (hu' : (q.stability t s).depth * u ≤ 1 / 2) :
    ∃ f g, Implements d f ∧ Implements d' g ∧ ∀ x, x.length = d.len → (∀ a ∈ x, fin a) →
      p.NoOverflow t s η Ω d.len (norm2 (x.map val)) → q.NoOverflow t s η Ω d.len (norm2 (x.map val)) →
      norm2 (List.zipWith (· - ·) ((f x).map val) ((g x).map val))
        ≤ (p.relErr t s u + q.relErr t s u) * (√d.len * norm2 (x.map val)) + (p.absErr t s η d.len + q.absErr t s η d.len) := by
  obtain ⟨f, hi, h⟩ := C46_relative_error p hr hm d hd
  obtain ⟨g, hi', h'⟩ := C46_relative_error q hr' hm d' hd'
  refine ⟨f, g, hi, hi', fun x hx hf hO hO' => ?_⟩
  obtain ⟨_, h2⟩ := h x hx hf _ rfl hu hO
  obtain ⟨_, h3⟩ := h' x (by rw [hx, hlen]) hf _ rfl hu' (by rw [hlen]; exact hO')
  rw [hlen] at h3
  have hl : (x.map val).length = d.len := by simp [hx]
  have hX : (dht (x.map val)).length = d.len := by rw [length_dht, hl]
  have hy : ((f x).map val).length = d.len := by rw [List.length_map, hi.length x hx]
  have hz : ((g x).map val).length = d.len := by rw [List.length_map, hi'.length x (by rw [hx, hlen]), hlen]
  rw [norm2_dht hl] at h2 h3
  have e := norm2_zip_le hy hX hz
  rw [norm2_zip_comm hX hz] at e
  unfold Plan.relErr Plan.absErr
  linarith

/-- C64, round trip: transforming with one composition and then with another of the same length gives `n` times the signal, up to the
errors of the two. -/
theorem C64_round_trip (p q : Plan) (hr : p.SmallRadix4) (hr' : q.SmallRadix4) (hm : FloatModel fin val u η Ω t s)
    (d d' : Dht T) (hd : p.build T = .ok d) (hd' : q.build T = .ok d') (hlen : d'.len = d.len)
    (hu : (p.stability t s).depth * u ≤ 1 / 2) (hu' : (q.stability t s).depth * u ≤ 1 / 2) :
    ∃ f g, Implements d f ∧ Implements d' g ∧ ∀ x, x.length = d.len → (∀ a ∈ x, fin a) →
      p.NoOverflow t s η Ω d.len (norm2 (x.map val)) →
      q.NoOverflow t s η Ω d.len (2 * (√d.len * norm2 (x.map val)) + p.absErr t s η d.len) →
      (∀ y ∈ g (f x), fin y) ∧
      norm2 (List.zipWith (· - ·) ((g (f x)).map val) ((x.map val).map fun v => d.len * v))
        ≤ (p.relErr t s u + q.relErr t s u + p.relErr t s u * q.relErr t s u) * (d.len * norm2 (x.map val))
          + √d.len * (1 + q.relErr t s u) * p.absErr t s η d.len + q.absErr t s η d.len := by
  obtain ⟨f, hi, h⟩ := C46_relative_error p hr hm d hd
  obtain ⟨g, hi', h'⟩ := C46_relative_error q hr' hm d' hd'
  refine ⟨f, g, hi, hi', fun x hx hf hO hO' => ?_⟩
  have hu0 := hm.u_nonneg
  have hη := hm.η_nonneg
  obtain ⟨h1, h2⟩ := h x hx hf _ rfl hu hO
  have hl : (x.map val).length = d.len := by simp [hx]
  have hX : (dht (x.map val)).length = d.len := by rw [length_dht, hl]
  have hfx : (f x).length = d.len := hi.length x hx
  have hy : ((f x).map val).length = d.len := by rw [List.length_map, hfx]
  have hgf : (g (f x)).length = d.len := by rw [hi'.length _ (by rw [hfx, hlen]), hlen]
  have hz : ((g (f x)).map val).length = d.len := by rw [List.length_map, hgf]
  have hY : (dht ((f x).map val)).length = d.len := by rw [length_dht, hy]
  have hN := norm2_nonneg (x.map val)
  have hs := Real.sqrt_nonneg (d.len : ℝ)
  have hss : √(d.len : ℝ) * √d.len = d.len := Real.mul_self_sqrt (Nat.cast_nonneg _)
  have hrel : p.relErr t s u ≤ 1 := by unfold Plan.relErr; linarith
  have hrel0 : 0 ≤ q.relErr t s u := by unfold Plan.relErr; positivity
  have h2' : norm2 (List.zipWith (· - ·) ((f x).map val) (dht (x.map val)))
      ≤ p.relErr t s u * (√d.len * norm2 (x.map val)) + p.absErr t s η d.len := by
    rw [norm2_dht hl] at h2; exact h2
  have hyn : norm2 ((f x).map val) ≤ (1 + p.relErr t s u) * (√d.len * norm2 (x.map val)) + p.absErr t s η d.len := by
    have e := norm2_le_add hy hX
    rw [norm2_dht hl] at e
    linarith
  have hyn2 : norm2 ((f x).map val) ≤ 2 * (√d.len * norm2 (x.map val)) + p.absErr t s η d.len := by
    have := mul_le_mul_of_nonneg_right hrel (mul_nonneg hs hN)
    linarith
  obtain ⟨h3, h4⟩ := h' (f x) (by rw [hfx, hlen]) h1 _ rfl hu' (by
    rw [hlen]
    refine le_trans ?_ hO'
    gcongr)
  refine ⟨h3, ?_⟩
  rw [norm2_dht hy, hlen] at h4
  have h4' : norm2 (List.zipWith (· - ·) ((g (f x)).map val) (dht ((f x).map val)))
      ≤ q.relErr t s u * (√d.len * norm2 ((f x).map val)) + q.absErr t s η d.len := h4
  have hback : dht (dht (x.map val)) = (x.map val).map fun v => (d.len : ℝ) * v := by rw [dht_dht, hl]
  have hmid : norm2 (List.zipWith (· - ·) (dht ((f x).map val)) (dht (dht (x.map val))))
      = √d.len * norm2 (List.zipWith (· - ·) ((f x).map val) (dht (x.map val))) := by
    rw [norm2_sub hY (by rw [length_dht, hX]), norm2_sub hy hX, nrm_dht_sub hy hX]
  have e := norm2_zip_le hz hY (z := dht (dht (x.map val))) (by rw [length_dht, hX])
  rw [hmid, hback] at e
  refine e.trans ?_
  have e1 := mul_le_mul_of_nonneg_left h2' hs
  have e2 := mul_le_mul_of_nonneg_left (mul_le_mul_of_nonneg_left hyn hs) hrel0
  calc _ ≤ (q.relErr t s u * (√d.len * ((1 + p.relErr t s u) * (√d.len * norm2 (x.map val)) + p.absErr t s η d.len))
          + q.absErr t s η d.len)
        + √d.len * (p.relErr t s u * (√d.len * norm2 (x.map val)) + p.absErr t s η d.len) := by linarith
    _ = (p.relErr t s u + q.relErr t s u + p.relErr t s u * q.relErr t s u) * ((√d.len * √d.len) * norm2 (x.map val))
          + √d.len * (1 + q.relErr t s u) * p.absErr t s η d.len + q.absErr t s η d.len := by ring
    _ = _ := by rw [hss]

/-- C64, backward stability: what is computed is the exact DHT of a signal that differs little from the one given. -/
theorem C64_backward (p : Plan) (hr : p.SmallRadix4) (hm : FloatModel fin val u η Ω t s) (d : Dht T) (hd : p.build T = .ok d)
    (hpos : 0 < d.len) (hu : (p.stability t s).depth * u ≤ 1 / 2) :
    ∃ f, Implements d f ∧ ∀ x, x.length = d.len → (∀ a ∈ x, fin a) → p.NoOverflow t s η Ω d.len (norm2 (x.map val)) →
      ∃ x' : List ℝ, x'.length = d.len ∧ dht x' = (f x).map val ∧
        norm2 (List.zipWith (· - ·) x' (x.map val)) ≤ p.relErr t s u * norm2 (x.map val) + p.absErr t s η d.len / √d.len := by
  obtain ⟨f, hi, h⟩ := C46_relative_error p hr hm d hd
  refine ⟨f, hi, fun x hx hf hO => ?_⟩
  obtain ⟨_, h2⟩ := h x hx hf _ rfl hu hO
  have hl : (x.map val).length = d.len := by simp [hx]
  have hy : ((f x).map val).length = d.len := by rw [List.length_map, hi.length x hx]
  have hX : (dht (x.map val)).length = d.len := by rw [length_dht, hl]
  have hn : (0 : ℝ) < d.len := by exact_mod_cast hpos
  have hY : (dht ((f x).map val)).length = d.len := by rw [length_dht, hy]
  have hd' : dht ((dht ((f x).map val)).map fun v => (d.len : ℝ)⁻¹ * v) = (f x).map val := by
    rw [dht_smul, dht_dht, hy, List.map_map]
    refine (List.map_congr_left fun v _ => ?_).trans (List.map_id _)
    show (d.len : ℝ)⁻¹ * (d.len * v) = v
    field_simp
  refine ⟨_, by rw [List.length_map, hY], hd', ?_⟩
  have hs : 0 < √(d.len : ℝ) := Real.sqrt_pos.2 hn
  have e := nrm_dht_sub (x := (dht ((f x).map val)).map fun v => (d.len : ℝ)⁻¹ * v) (y := x.map val) (n := d.len) (by rw [List.length_map, hY]) hl
  rw [hd', ← norm2_sub hy hX, ← norm2_sub (by rw [List.length_map, hY]) hl] at e
  rw [norm2_dht hl, e] at h2
  have h3 : norm2 (List.zipWith (· - ·) ((dht ((f x).map val)).map fun v => (d.len : ℝ)⁻¹ * v) (x.map val))
      ≤ (2 * (p.stability t s).depth * u * (√d.len * norm2 (x.map val)) + 2 * (p.stability t s).under * η * d.len) / √d.len := by
    rw [le_div_iff₀ hs]
    linarith
  refine h3.trans (le_of_eq ?_)
  unfold Plan.relErr Plan.absErr
  field_simp

/-- C64 in `f32`, for the method `process` and every composition of at most about a million roundings: the round trip is
exact up to the stated relative error. -/
theorem C64_round_trip_f32 [MathLib] (hl : MathLib.Accurate) (p : Plan) (hr : p.SmallRadix4) (d : Dht (Flt binary32))
    (hd : p.build (Flt binary32) = .ok d) (hD : (p.stability 2 2).depth ≤ 2 ^ 23) (x : List (Flt binary32)) (hx : x.length = d.len)
    (hpos : 0 < d.len) (hf : ∀ a ∈ x, a.fin)
    (hO : p.NoOverflow 2 2 (2⁻¹ ^ 150) (2 ^ 127) d.len
      (2 * (√d.len * norm2 (x.map Flt.val)) + p.absErr 2 2 (2⁻¹ ^ 150) d.len)) :
    ∃ y z, d.process x = .ok y ∧ d.process y = .ok z ∧ (∀ a ∈ z, a.fin) ∧
      norm2 (List.zipWith (· - ·) (z.map Flt.val) ((x.map Flt.val).map fun v => d.len * v))
        ≤ 3 * ((p.stability 2 2).depth * 2⁻¹ ^ 23) * (d.len * norm2 (x.map Flt.val))
          + 3 * √d.len * p.absErr 2 2 (2⁻¹ ^ 150) d.len := by
  have hD' : ((p.stability 2 2).depth : ℝ) ≤ 2 ^ 23 := by exact_mod_cast hD
  have hu : ((p.stability 2 2).depth : ℝ) * 2⁻¹ ^ 24 ≤ 1 / 2 := by
    have := mul_le_mul_of_nonneg_right hD' (show (0 : ℝ) ≤ 2⁻¹ ^ 24 by positivity)
    norm_num at this ⊢
    linarith
  have hrel : p.relErr 2 2 (2⁻¹ ^ 24) = (p.stability 2 2).depth * 2⁻¹ ^ 23 := by unfold Plan.relErr; ring
  have hrel1 : p.relErr 2 2 (2⁻¹ ^ 24) ≤ 1 := by unfold Plan.relErr; linarith
  have hrel0 : 0 ≤ p.relErr 2 2 (2⁻¹ ^ 24) := by unfold Plan.relErr; positivity
  have habs0 : 0 ≤ p.absErr 2 2 (2⁻¹ ^ 150) d.len := by unfold Plan.absErr; positivity
  have hN := norm2_nonneg (x.map Flt.val)
  have hs1 : 1 ≤ √(d.len : ℝ) := by
    rw [Real.one_le_sqrt]; exact_mod_cast hpos
  obtain ⟨f, g, hi, hi', h⟩ := C64_round_trip p p hr hr (C48_f32 hl) d d hd hd rfl hu hu
  have hfx : (f x).length = d.len := hi.length x hx
  obtain ⟨h1, h2⟩ := h x hx hf (by
    refine le_trans ?_ hO
    have h1 : norm2 (x.map Flt.val) ≤ 2 * (√d.len * norm2 (x.map Flt.val)) + p.absErr 2 2 (2⁻¹ ^ 150) d.len := by
      nlinarith
    gcongr) hO
  refine ⟨f x, g (f x), process_single hi hx, process_single hi' hfx, h1, h2.trans ?_⟩
  rw [← hrel]
  have hn : 0 ≤ (d.len : ℝ) * norm2 (x.map Flt.val) := by positivity
  have e1 : p.relErr 2 2 (2⁻¹ ^ 24) + p.relErr 2 2 (2⁻¹ ^ 24) + p.relErr 2 2 (2⁻¹ ^ 24) * p.relErr 2 2 (2⁻¹ ^ 24)
      ≤ 3 * p.relErr 2 2 (2⁻¹ ^ 24) := by nlinarith
  have e2 := mul_le_mul_of_nonneg_right e1 hn
  have e3 : √(d.len : ℝ) * (1 + p.relErr 2 2 (2⁻¹ ^ 24)) * p.absErr 2 2 (2⁻¹ ^ 150) d.len
      ≤ 2 * √d.len * p.absErr 2 2 (2⁻¹ ^ 150) d.len := by
    refine mul_le_mul_of_nonneg_right ?_ habs0
    nlinarith
  have e4 : p.absErr 2 2 (2⁻¹ ^ 150) d.len ≤ √d.len * p.absErr 2 2 (2⁻¹ ^ 150) d.len := le_mul_of_one_le_left habs0 hs1
  linarith

/-- `Radix4` of length 64 in `f32`, twice, on a signal of norm at most 100: 64 times the signal, up to `0.0002` of it. -/
example [MathLib] (hl : MathLib.Accurate) (d : Dht (Flt binary32)) (hd : radix4 (Flt binary32) 64 = .ok d)
    (x : List (Flt binary32)) (hx : x.length = 64) (hf : ∀ a ∈ x, a.fin) (hN : norm2 (x.map Flt.val) ≤ 100) :
    ∃ y z, d.process x = .ok y ∧ d.process y = .ok z ∧ (∀ a ∈ z, a.fin) ∧
      norm2 (List.zipWith (· - ·) (z.map Flt.val) ((x.map Flt.val).map fun v => (64 : ℕ) * v))
        ≤ 0.0002 * (64 * norm2 (x.map Flt.val)) + 1 / 10 ^ 30 := by
  have hlen : d.len = 64 := plan_len (.radix4 64) d hd
  have h8 : √((64 : ℕ) : ℝ) = 8 := by
    rw [show ((64 : ℕ) : ℝ) = 8 ^ 2 by norm_num]; exact Real.sqrt_sq (by norm_num)
  have hst : (Plan.radix4 64).stability 2 2 = ⟨314, 9, 24⟩ := by decide
  have habs : (Plan.radix4 64).absErr 2 2 (2⁻¹ ^ 150) 64 ≤ 1 / 10 ^ 35 := by
    rw [Plan.absErr, hst]; norm_num
  have h0 := norm2_nonneg (x.map Flt.val)
  obtain ⟨y, z, h1, h2, h3, h4⟩ := C64_round_trip_f32 hl (.radix4 64) (by simp [Plan.SmallRadix4]) d hd
    (by rw [hst]; norm_num) x (by rw [hx, hlen]) (by omega) hf (by
      rw [hlen, Plan.NoOverflow, hst, h8]
      have hmx : max (2 * (8 * norm2 (x.map Flt.val)) + (Plan.radix4 64).absErr 2 2 (2⁻¹ ^ 150) 64) 1 ≤ 1601 :=
        max_le (by linarith [show (1 : ℝ) / 10 ^ 35 ≤ 1 by norm_num]) (by norm_num)
      push_cast
      have : (9 : ℝ) * 2⁻¹ ^ 150 * 8 ≤ 1 := by norm_num
      have h127 : (1000000 : ℝ) ≤ 2 ^ 127 := by norm_num
      nlinarith)
  refine ⟨y, z, h1, h2, h3, ?_⟩
  rw [hlen, hst, h8] at h4
  refine h4.trans ?_
  push_cast
  have e1 : (3 : ℝ) * (314 * 2⁻¹ ^ 23) ≤ 0.0002 := by norm_num
  have := mul_le_mul_of_nonneg_right e1 (show 0 ≤ (64 : ℝ) * norm2 (x.map Flt.val) by positivity)
  have e2 : (3 : ℝ) * 8 * (1 / 10 ^ 35) ≤ 1 / 10 ^ 30 := by norm_num
  linarith

/-- The bounds on the roundings of two compositions of length 64 that C64_agreement compares: 314 and 8832 units of the last place. -/
example : (Plan.mr4 .b16).stability 2 2 = ⟨314, 9, 24⟩ ∧ (Plan.naive 64).stability 2 2 = ⟨8832, 64, 128⟩ := by decide

end RustDHT
