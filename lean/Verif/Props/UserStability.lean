import Verif.Proofs.StableDht
import Verif.Props.Stability
import Verif.Proofs.User

/-! # Floating point around inner objects from outside the crate: C71 -/

namespace RustDHT

open Stab

variable {T : Type} [Zero T] [Add T] [Sub T] [Mul T] [Neg T] [FftNum T]
variable {fin : T → Prop} {val : T → ℝ} {u η Ω : ℝ} {t s : ℕ}

/-- The objects of the crate itself are such inner objects. -/
theorem C71_plans (p : Plan) (hr : p.SmallRadix4) (hm : FloatModel fin val u η Ω t s) (d : Dht T) (hd : p.build T = .ok d) :
    StableDht fin val u η Ω (p.stability t s) d := by
  obtain ⟨f, hi, h⟩ := C46_plan_dht p hr hm d hd
  exact ⟨f, hi, fun x hx hf N hN hO => h x hx hf _ rfl N hN hO⟩

/-- `MixedRadix` of two objects that approximate the DHT approximates the DHT: the numbers of the two add up, with those of one
more step. -/
theorem C71_mixedRadix (hm : FloatModel fin val u η Ω t s) {a b : Stab} {wd hd : Dht T}
    (hw : StableDht fin val u η Ω a wd) (hh : StableDht fin val u η Ω b hd) :
    StableDht fin val u η Ω ((b.seq (step t s ⟨4, 6, 6, 1, 1⟩)).seq a) (mixedRadix wd hd) :=
  mixedRadix_stable hm hw hh

/-- The five `MixedRadixKxn`: one more step, under the limits on scratch without which they panic. -/
theorem C71_mixedRadixNxn (hm : FloatModel fin val u η Ω t s) {a : Stab} {hd : Dht T} (hh : StableDht fin val u η Ω a hd)
    (h0 : hd.oopScratchLen = 0) :
    (hd.inplaceScratchLen ≤ 2 * hd.len → StableDht fin val u η Ω (a.seq (step t s ⟨3, 2, 4, 1, 0⟩)) (mixedRadix2xn hd)) ∧
    (hd.inplaceScratchLen ≤ 3 * hd.len → StableDht fin val u η Ω (a.seq (step t s ⟨17, 26, 11, 2, 1⟩)) (mixedRadix3xn hd)) ∧
    (hd.inplaceScratchLen ≤ 4 * hd.len → StableDht fin val u η Ω (a.seq (step t s ⟨7, 4, 5, 1, 0⟩)) (mixedRadix4xn hd)) ∧
    (hd.inplaceScratchLen ≤ 5 * hd.len → StableDht fin val u η Ω (a.seq (step t s ⟨33, 52, 12, 2, 1⟩)) (mixedRadix5xn hd)) ∧
    (hd.inplaceScratchLen ≤ 6 * hd.len → StableDht fin val u η Ω (a.seq (step t s ⟨57, 92, 15, 3, 1⟩)) (mixedRadix6xn hd)) :=
  ⟨fun h => columns_stable hm (ap := fun h U => mr2Apply U h) (by omega) (by decide) mr2_local (fun _ => mr2Fn_dht) rfl
      (fun _ i => mr2_implements i (fun _ => h) (fun _ => h0)) hh,
    fun h => columns_stable hm (ap := fun h U => mr3Apply U h) (by omega) (by decide) mr3_local (fun _ => mr3Fn_dht) rfl
      (fun _ i => mr3_implements i (fun _ => h) (fun _ => h0)) hh,
    fun h => columns_stable hm (ap := fun h U => mr4Apply U h) (by omega) (by decide) mr4_local (fun _ => mr4Fn_dht) rfl
      (fun _ i => mr4_implements i (fun _ => h) (fun _ => h0)) hh,
    fun h => columns_stable hm (ap := fun h U => mr5Apply U h) (by omega) (by decide) mr5_local (fun _ => mr5Fn_dht) rfl
      (fun _ i => mr5_implements i (fun _ => h) (fun _ => h0)) hh,
    fun h => columns_stable hm (ap := fun h U => mr6Apply U h) (by omega) (by decide) mr6_local (fun _ => mr6Fn_dht) rfl
      (fun _ i => mr6_implements i (fun _ => h) (fun _ => h0)) hh⟩

/-- `SplitRadix`: the worse of the two inner objects, and one more step. -/
theorem C71_splitRadix (hm : FloatModel fin val u η Ω t s) {a b : Stab} {qd hd d : Dht T}
    (hq : StableDht fin val u η Ω a qd) (hh : StableDht fin val u η Ω b hd) (e : splitRadix qd hd = .ok d)
    (h0 : qd.oopScratchLen = 0) (h1 : qd.inplaceScratchLen ≤ 4 * qd.len) (h2 : hd.inplaceScratchLen ≤ 2 * qd.len) :
    StableDht fin val u η Ω ((step t s ⟨8, 2, 5, 1, 0⟩).seq (a.sup b)) d :=
  splitRadix_stable hm hq hh e fun _ => ⟨h0, h1, h2⟩

/-- `RadersAlgorithm`, whose table is computed by the inner object as well. -/
theorem C71_raders (hm : FloatModel fin val u η Ω t s) {a : Stab} {id d : Dht T} (hi : StableDht fin val u η Ω a id)
    (hb : 1 ≤ a.big) (e : raders id = .ok d) : StableDht fin val u η Ω (radersStability t a id.len) d :=
  raders_stable hm hi hb e

/-- What this says of a call: the relative error of the whole output is at most twice `depth`, in units of `u`. -/
theorem C71_relative_error (hm : FloatModel fin val u η Ω t s) {a : Stab} {d : Dht T} (h : StableDht fin val u η Ω a d)
    (x : List T) (hx : x.length = d.len) (hf : ∀ e ∈ x, fin e) (hu : a.depth * u ≤ 1 / 2)
    (hO : a.big * (√d.len * (2 * (max (norm2 (x.map val)) 1 + a.under * η * √d.len))) ≤ Ω) :
    ∃ y, d.process x = .ok y ∧ (∀ e ∈ y, fin e) ∧
      norm2 (List.zipWith (· - ·) (y.map val) (dht (x.map val)))
        ≤ 2 * a.depth * u * norm2 (dht (x.map val)) + 2 * a.under * η * d.len := by
  obtain ⟨f, h1, h⟩ := h
  refine ⟨f x, process_single h1 hx, ?_⟩
  have hu0 := hm.u_nonneg
  have hη := hm.η_nonneg
  have hP : (1 + u) ^ a.depth ≤ 1 + 2 * (a.depth * u) := by
    calc (1 + u) ^ a.depth ≤ Real.exp u ^ a.depth :=
          pow_le_pow_left₀ (by linarith) (by rw [add_comm]; exact Real.add_one_le_exp u) _
      _ = Real.exp (a.depth * u) := by rw [← Real.exp_nat_mul]
      _ ≤ 1 / (1 - a.depth * u) := Real.exp_bound_div_one_sub_of_interval (by positivity) (by linarith)
      _ ≤ _ := by
        rw [div_le_iff₀ (by linarith)]
        have : 0 ≤ a.depth * u := by positivity
        nlinarith
  have hP2 : (1 + u) ^ a.depth ≤ 2 := hP.trans (by linarith)
  have hN : 0 ≤ norm2 (x.map val) := Real.sqrt_nonneg _
  have hX : norm2 (dht (x.map val)) = √d.len * norm2 (x.map val) := by
    have hl : (x.map val).length = d.len := by simp [hx]
    rw [norm2_eq (n := d.len) (by rw [length_dht, hl]), norm2_eq hl, nrm_dht hl]
  have hss : √(d.len : ℝ) * √d.len = d.len := Real.mul_self_sqrt (Nat.cast_nonneg _)
  have hs := Real.sqrt_nonneg (d.len : ℝ)
  have hm1 : 0 ≤ max (norm2 (x.map val)) 1 := le_trans hN (le_max_left _ _)
  obtain ⟨k1, k2⟩ := h x hx hf _ rfl (by
    refine le_trans ?_ hO
    gcongr)
  refine ⟨k1, k2.trans ?_⟩
  rw [hX]
  generalize norm2 (x.map val) = N at *
  generalize (1 + u) ^ a.depth = P at *
  have e1 := mul_le_mul_of_nonneg_right hP hN
  have e2 := mul_le_mul_of_nonneg_right hP2 (show 0 ≤ a.under * η * √d.len by positivity)
  calc √(d.len : ℝ) * (P * (N + a.under * η * √d.len) - N)
      ≤ √d.len * (2 * (a.depth * u) * N + 2 * (a.under * η * √d.len)) := mul_le_mul_of_nonneg_left (by linarith) hs
    _ = 2 * a.depth * u * (√d.len * N) + 2 * a.under * η * (√d.len * √d.len) := by ring
    _ = _ := by rw [hss]

/-- A foreign inner object: like `DhtNaive` of length 4, but with a demand for 100 elements of scratch. -/
example : StableDht Single.fin Single.val (2⁻¹ ^ 23) (2⁻¹ ^ 126) (2 ^ 127) ⟨64, 4, 8⟩ ((dhtNaive Single 4).greedy 100) := by
  obtain ⟨f, hi, h⟩ := C71_plans (.naive 4) trivial Single.floatModel _ rfl
  exact ⟨f, greedy_implements hi 100, h⟩

/-- `MixedRadix` of it and `Butterfly3` in single precision, with an input of norm at most 100. -/
example (wd : Dht Single) (hl : wd.len = 4) (hw : StableDht Single.fin Single.val (2⁻¹ ^ 23) (2⁻¹ ^ 126) (2 ^ 127) ⟨64, 4, 8⟩ wd)
    (x : List Single) (hx : x.length = 12) (hf : ∀ a ∈ x, a.fin) (hN : norm2 (x.map Single.val) ≤ 100) :
    ∃ y, (mixedRadix wd (butterfly3 Single)).process x = .ok y ∧ (∀ a ∈ y, a.fin) ∧
      norm2 (List.zipWith (· - ·) (y.map Single.val) (dht (x.map Single.val))) ≤
        0.0001 * norm2 (dht (x.map Single.val)) + 1 / 10 ^ 30 := by
  have h := C71_mixedRadix Single.floatModel hw (C71_plans .b3 trivial Single.floatModel _ rfl)
  have hd : (mixedRadix wd (butterfly3 Single)).len = 12 := by show wd.len * 3 = 12; rw [hl]
  have hs : √((12 : ℕ) : ℝ) ≤ 4 := by
    rw [Real.sqrt_le_left (by norm_num)]; norm_num
  have hmx : max (norm2 (x.map Single.val)) 1 ≤ 100 := max_le hN (by norm_num)
  have e : ((Plan.b3.stability 1 1).seq (step 1 1 ⟨4, 6, 6, 1, 1⟩)).seq ⟨64, 4, 8⟩ = ⟨158, 12, 8⟩ := by decide
  rw [e] at h
  obtain ⟨y, h1, h2, h3⟩ := C71_relative_error Single.floatModel h x (by rw [hx, hd]) hf (by norm_num) (by
    rw [hd]
    have hs0 := Real.sqrt_nonneg ((12 : ℕ) : ℝ)
    calc _ ≤ ((8 : ℕ) : ℝ) * (4 * (2 * (100 + ((12 : ℕ) : ℝ) * 2⁻¹ ^ 126 * 4))) := by gcongr
      _ ≤ 2 ^ 127 := by norm_num)
  refine ⟨y, h1, h2, h3.trans ?_⟩
  rw [hd]
  have h0 : 0 ≤ norm2 (dht (x.map Single.val)) := Real.sqrt_nonneg _
  push_cast
  have e1 : (2 : ℝ) * 158 * 2⁻¹ ^ 23 ≤ 0.0001 := by norm_num
  have e2 : (2 : ℝ) * 12 * 2⁻¹ ^ 126 * 12 ≤ 1 / 10 ^ 30 := by norm_num
  have := mul_le_mul_of_nonneg_right e1 h0
  linarith

end RustDHT
