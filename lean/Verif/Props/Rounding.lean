import Verif.Proofs.NaiveRounding
import Verif.Proofs.PlanRounding
import Verif.Proofs.GrowthPlan
import Verif.Props.Exact
import Verif.Spec.Single

/-! # Floating point: C35, C40, C41 -/

namespace RustDHT

variable {T : Type} [Zero T] [Add T] [Sub T] [Mul T] [Neg T] [FftNum T]
variable {fin : T → Prop} {val : T → ℝ} {u η Ω : ℝ} {t s : ℕ}

/-! ## C35 -/

/-- `DhtNaive` in floating point: no overflow unless numbers as large as `2 * sum |x[i]|` overflow, and an explicit bound for
the error of every output. -/
theorem C35_naive_rounding (hm : FloatModel fin val u η Ω t s) (n : ℕ) :
    ∃ f : List T → List T, Implements (dhtNaive T n) f ∧ ∀ x, x.length = n → (∀ a ∈ x, fin a) → ∀ S,
      S = (x.map fun a => |val a|).sum → (1 + u) ^ (n + t + 3) * (2 * max S 1 + n * η) ≤ Ω → ∀ k < n,
        fin ((f x).getD k 0) ∧
        |val ((f x).getD k 0) - (dht (x.map val)).getD k 0| ≤ (1 + u) ^ (n + t + 3) * (2 * S + n * η) - 2 * S :=
  ⟨_, dhtNaive_implements n, fun x hx hf S hS hO k hk => hm.naiveFn hx hf hS hO hk⟩

/-- In single precision with inputs of absolute sum at most 100, a transform of length 100 has errors of at most `0.003`. -/
example (x : List Single) (hx : x.length = 100) (hf : ∀ a ∈ x, a.fin) (hS : (x.map fun a => |a.val|).sum ≤ 100) :
    ∃ y, (dhtNaive Single 100).process x = .ok y ∧
      ∀ k < 100, (y.getD k 0).fin ∧ |(y.getD k 0).val - (dht (x.map Single.val)).getD k 0| ≤ 0.003 := by
  obtain ⟨f, hi, h⟩ := C35_naive_rounding Single.floatModel 100
  refine ⟨f x, process_single hi (by rw [hx, dhtNaive_len]), fun k hk => ?_⟩
  have h0 : 0 ≤ (x.map fun a => |a.val|).sum := List.sum_nonneg (by simp)
  have key : ∀ S P e n : ℝ, 0 ≤ S → S ≤ 100 → 1 ≤ P → P ≤ 1.000013 → 0 ≤ e → e ≤ 1 / 10 ^ 10 → n = 100 →
      P * (2 * max S 1 + n * e) ≤ 201 ∧ P * (2 * S + n * e) - 2 * S ≤ 0.003 := by
    rintro S P e n hS0 hS hP1 hP he0 he rfl
    have hmx : max S 1 ≤ 100 := max_le hS (by norm_num)
    constructor
    · exact (mul_le_mul hP (by linarith : 2 * max S 1 + 100 * e ≤ 200.1)
        (by have := le_max_right S 1; nlinarith) (by norm_num)).trans (by norm_num)
    · have h1 := mul_le_mul_of_nonneg_left hS (by linarith : 0 ≤ P - 1)
      have h2 := mul_le_mul hP he he0 (by norm_num)
      linarith
  obtain ⟨k1, k2⟩ := key _ ((1 + 2⁻¹ ^ 23) ^ (100 + 1 + 3)) (2⁻¹ ^ 126) (100 : ℕ) h0 hS (one_le_pow₀ (by norm_num))
    (by norm_num) (by positivity) (by norm_num) (by norm_num)
  obtain ⟨h1, h2⟩ := h x hx hf _ rfl (k1.trans (by norm_num)) k hk
  exact ⟨h1, h2.trans k2⟩

/-! ## C40 -/

/-- Any composition in floating point.  The composition is run once counting roundings; as long as the sizes that this run
reports do not overflow, every output is finite and differs from the result of the same composition in exact arithmetic by
at most the reported error. -/
theorem C40_plan_rounding (p : Plan) (hm : FloatModel fin val u η Ω t s) (d : Dht T) (hd : p.build T = .ok d) :
    ∃ (f : List T → List T) (dr : Dht ℝ) (fr : List ℝ → List ℝ) (dq : Dht Cost) (fq : List Cost → List Cost),
      Implements d f ∧ p.build ℝ = .ok dr ∧ Implements dr fr ∧ p.build Cost = .ok dq ∧ Implements dq fq ∧
      dr.len = d.len ∧ dq.len = d.len ∧
      ∀ A, 0 ≤ A → ∀ x, x.length = d.len → (∀ a ∈ x, fin a ∧ |val a| ≤ A) → ∀ k < d.len,
        ((fq (List.replicate d.len Cost.input)).getD k 0).size u η t s A ≤ Ω →
        fin ((f x).getD k 0) ∧ |val ((f x).getD k 0) - (fr (x.map val)).getD k 0| ≤
          ((fq (List.replicate d.len Cost.input)).getD k 0).error u η t s A := by
  obtain ⟨f, hi⟩ := (plan_ok p d hd).implements
  have h0 : ∃ dr dq, p.build ℝ = .ok dr ∧ p.build Cost = .ok dq ∧ dr.len = d.len ∧ dq.len = d.len := by
    have hx : ∀ a ∈ List.replicate d.len (0 : T), fin a ∧ |val a| ≤ 0 := by
      intro a ha
      rw [List.eq_of_mem_replicate ha]
      exact ⟨hm.zero.1, by rw [hm.zero.2, abs_zero]⟩
    obtain ⟨dr, X, dq, q, h1, h2, -, h4, h5, -⟩ := plan_rounding p hm le_rfl hd hx (process_single hi (by simp))
    exact ⟨dr, dq, h1, h4, h2, h5⟩
  obtain ⟨dr, dq, hr, hq, lr, lq⟩ := h0
  obtain ⟨fr, ir⟩ := (plan_ok p dr hr).implements
  obtain ⟨fq, iq⟩ := (plan_ok p dq hq).implements
  refine ⟨f, dr, fr, dq, fq, hi, hr, ir, hq, iq, lr, lq, fun A hA x hx hfin k hk hO => ?_⟩
  obtain ⟨dr', X, dq', q, h1, -, h3, h4, -, h6, -, -, h⟩ := plan_rounding p hm hA hd hfin (process_single hi hx)
  cases hr.symm.trans h1
  cases hq.symm.trans h4
  rw [process_single ir (by simp [hx, lr])] at h3
  cases h3
  rw [hx, process_single iq (by simp [lq])] at h6
  cases h6
  exact h k (by rw [hi.length x hx]; exact hk) hO

/-- With `Radix4` below 128, the exact result is the DHT. -/
theorem C40_plan_dht (p : Plan) (hr : p.SmallRadix4) (hm : FloatModel fin val u η Ω t s) (d : Dht T) (hd : p.build T = .ok d) :
    ∃ (f : List T → List T) (dq : Dht Cost) (fq : List Cost → List Cost),
      Implements d f ∧ p.build Cost = .ok dq ∧ Implements dq fq ∧ dq.len = d.len ∧
      ∀ A, 0 ≤ A → ∀ x, x.length = d.len → (∀ a ∈ x, fin a ∧ |val a| ≤ A) → ∀ k < d.len,
        ((fq (List.replicate d.len Cost.input)).getD k 0).size u η t s A ≤ Ω →
        fin ((f x).getD k 0) ∧ |val ((f x).getD k 0) - (dht (x.map val)).getD k 0| ≤
          ((fq (List.replicate d.len Cost.input)).getD k 0).error u η t s A := by
  obtain ⟨f, dr, fr, dq, fq, h1, h2, h3, h4, h5, h6, h7, h⟩ := C40_plan_rounding p hm d hd
  refine ⟨f, dq, fq, h1, h4, h5, h7, fun A hA x hx hf => ?_⟩
  have hl : (x.map val).length = dr.len := by simp [hx, h6]
  have e := (process_single h3 hl).symm.trans (process_single (C12_plan_dht p hr dr h2).1 hl)
  rw [← Except.ok.inj e]
  exact h A hA x hx hf

/-- `Butterfly8` in single precision: the counting run gives `⟨8, 1, 5, 1, 0⟩` at worst, so that inputs of size at most 1
give finite outputs with errors of at most `6e-6`. -/
example (x : List Single) (hx : x.length = 8) (hf : ∀ a ∈ x, a.fin ∧ |a.val| ≤ 1) :
    ∃ y, (butterfly8 Single).process x = .ok y ∧
      ∀ k < 8, (y.getD k 0).fin ∧ |(y.getD k 0).val - (dht (x.map Single.val)).getD k 0| ≤ 0.000006 := by
  obtain ⟨f, dq, fq, hi, hq, iq, -, h⟩ := C40_plan_dht .b8 trivial Single.floatModel (butterfly8 Single) rfl
  refine ⟨f x, process_single hi hx, fun k hk => ?_⟩
  have hlen : (butterfly8 Single).len = 8 := rfl
  have hc : Below ⟨8, 1, 5, 1, 0⟩ (fq (List.replicate 8 Cost.input)) := by
    cases hq
    have h2 : fq (List.replicate 8 Cost.input) = bflyFn contiguous8 (List.replicate 8 Cost.input) :=
      Except.ok.inj ((process_single iq rfl).symm.trans
        (process_single (boilerplateFftButterfly_implements (by omega) performs8) rfl))
    rw [h2]
    unfold Below
    decide
  have hk' := h 1 zero_le_one x hx hf k hk
  rw [hlen] at hk'
  obtain ⟨c1, c2⟩ := Single.floatModel.cost_mono (A := 1) zero_le_one (hc.nth k)
  obtain ⟨h1, h2⟩ := hk' (c1.trans (by norm_num [Cost.size, Cost.depth]))
  exact ⟨h1, h2.trans (c2.trans (by norm_num [Cost.error, Cost.depth]))⟩

/-! ## C41 -/

/-- Any composition in floating point, with a bound that is explicit in the composition. -/
theorem C41_plan_growth (p : Plan) (hm : FloatModel fin val u η Ω t s) (d : Dht T) (hd : p.build T = .ok d) :
    ∃ (f : List T → List T) (dr : Dht ℝ) (fr : List ℝ → List ℝ),
      Implements d f ∧ p.build ℝ = .ok dr ∧ Implements dr fr ∧ dr.len = d.len ∧
      ∀ A, 0 ≤ A → p.growth.size u η t s A ≤ Ω → ∀ x, x.length = d.len → (∀ a ∈ x, fin a ∧ |val a| ≤ A) → ∀ k < d.len,
        fin ((f x).getD k 0) ∧ |val ((f x).getD k 0) - (fr (x.map val)).getD k 0| ≤ p.growth.error u η t s A := by
  obtain ⟨f, dr, fr, dq, fq, h1, h2, h3, h4, h5, h6, h7, h⟩ := C40_plan_rounding p hm d hd
  refine ⟨f, dr, fr, h1, h2, h3, h6, fun A hA hO x hx hf k hk => ?_⟩
  have hb := growth_process p h4 (process_single h5 (x := List.replicate d.len Cost.input) (by simp [h7]))
    (by rw [h7]) (by rw [h7])
  obtain ⟨c1, c2⟩ := hm.cost_mono hA (hb.nth k)
  obtain ⟨r1, r2⟩ := h A hA x hx hf k hk (c1.trans hO)
  exact ⟨r1, r2.trans c2⟩

/-- With `Radix4` below 128, the distance to the DHT. -/
theorem C41_plan_dht (p : Plan) (hr : p.SmallRadix4) (hm : FloatModel fin val u η Ω t s) (d : Dht T) (hd : p.build T = .ok d) :
    ∃ f : List T → List T, Implements d f ∧
      ∀ A, 0 ≤ A → p.growth.size u η t s A ≤ Ω → ∀ x, x.length = d.len → (∀ a ∈ x, fin a ∧ |val a| ≤ A) → ∀ k < d.len,
        fin ((f x).getD k 0) ∧ |val ((f x).getD k 0) - (dht (x.map val)).getD k 0| ≤ p.growth.error u η t s A := by
  obtain ⟨f, dr, fr, h1, h2, h3, h6, h⟩ := C41_plan_growth p hm d hd
  refine ⟨f, h1, fun A hA hO x hx hf => ?_⟩
  have hl : (x.map val).length = dr.len := by simp [hx, h6]
  rw [← Except.ok.inj ((process_single h3 hl).symm.trans (process_single (C12_plan_dht p hr dr h2).1 hl))]
  exact h A hA hO x hx hf

/-- The error in a more usual form: relative to the size that the outputs can have it is at most twice the number of
roundings, in units of `u`. -/
theorem C41_error_le (hm : FloatModel fin val u η Ω t s) (q : Cost) {A : ℝ} (hA : 0 ≤ A) (hu : q.depth t s * u ≤ 1 / 2) :
    q.error u η t s A ≤ 2 * q.depth t s * u * (q.g * A) + 2 * q.c * η := by
  have hu0 := hm.u_nonneg
  have hη := hm.η_nonneg
  have h1 : (1 + u) ^ q.depth t s ≤ 1 + 2 * (q.depth t s * u) := by
    calc (1 + u) ^ q.depth t s ≤ Real.exp u ^ q.depth t s :=
          pow_le_pow_left₀ (by linarith) (by rw [add_comm]; exact Real.add_one_le_exp u) _
      _ = Real.exp (q.depth t s * u) := by rw [← Real.exp_nat_mul]
      _ ≤ 1 / (1 - q.depth t s * u) := Real.exp_bound_div_one_sub_of_interval (by positivity) (by linarith)
      _ ≤ _ := by
        rw [div_le_iff₀ (by linarith)]
        have : 0 ≤ q.depth t s * u := by positivity
        nlinarith
  have h2 : (0 : ℝ) ≤ q.g * A := by positivity
  have h3 : (0 : ℝ) ≤ η * q.c := by positivity
  have h4 := mul_le_mul_of_nonneg_right h1 h2
  have h5 := mul_le_mul_of_nonneg_right (h1.trans (by linarith : _ ≤ (2 : ℝ))) h3
  rw [Cost.error, mul_add]
  linarith

/-- Growth is explicit. -/
example : (Plan.mixedRadix .b4 .b4).growth = ⟨64, 96, 10, 1, 1⟩ := by decide

/-- `MixedRadix` of two `Butterfly4`s in single precision, with inputs of size at most 1: errors of at most `1e-4`. -/
example (x : List Single) (hx : x.length = 16) (hf : ∀ a ∈ x, a.fin ∧ |a.val| ≤ 1) :
    ∃ y, (mixedRadix (butterfly4 Single) (butterfly4 Single)).process x = .ok y ∧
      ∀ k < 16, (y.getD k 0).fin ∧ |(y.getD k 0).val - (dht (x.map Single.val)).getD k 0| ≤ 0.0001 := by
  obtain ⟨f, hi, h⟩ := C41_plan_dht (.mixedRadix .b4 .b4) ⟨trivial, trivial⟩ Single.floatModel
    (mixedRadix (butterfly4 Single) (butterfly4 Single)) rfl
  have hg : (Plan.mixedRadix .b4 .b4).growth = ⟨64, 96, 10, 1, 1⟩ := by decide
  refine ⟨f x, process_single hi hx, fun k hk => ?_⟩
  obtain ⟨h1, h2⟩ := h 1 zero_le_one (by rw [hg]; norm_num [Cost.size, Cost.depth]) x hx hf k hk
  refine ⟨h1, h2.trans ?_⟩
  rw [hg]
  norm_num [Cost.error, Cost.depth]

end RustDHT
