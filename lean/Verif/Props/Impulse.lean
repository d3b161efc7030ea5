import Verif.Proofs.ImpulseIeee
import Verif.Proofs.User
import Verif.Props.Ieee
import Verif.Props.Scaling

/-! # C73: an impulse has a flat spectrum, exactly

The DHT of `a, 0, ..., 0` is `a, a, ..., a`.  Every composition computes it by adding zeros to `a` and subtracting zeros from it, and
multiplies nothing but zeros, apart from `DhtNaive`'s factor `cos 0 + sin 0`.  So there is no error at all, in any arithmetic with
sane zeros, and also where other signals are transformed wrongly (`Radix4` from 128 on, `sqrt(1/2)` with the precision of `f32`). -/

namespace RustDHT

section
variable {T : Type} [Zero T] [Add T] [Sub T] [Mul T] [Neg T] [FftNum T]

/-- The answer to an impulse has the height of the impulse everywhere, in any arithmetic that treats zeros as usual. -/
theorem C73_flat {Z A : T → Prop} (h : Absorbs Z A) (p : Plan) (d : Dht T) (hd : p.build T = .ok d) (a : T) (y : List T)
    (hy : y.length + 1 = d.len) (ha : A a) (hz : ∀ b ∈ y, Z b) :
    ∃ X, d.process (a :: y) = .ok X ∧ X.length = d.len ∧ ∀ b ∈ X, A b := by
  obtain ⟨f, hf, hfl⟩ := plan_flat Z p d hd (by omega)
  have hx : (a :: y).length = d.len := by simpa using hy
  exact ⟨f (a :: y), process_single hf hx, hf.length _ hx, (flatDht_iff hf).2 (fun _ => hfl) A h a y hy ha hz⟩

/-- Around inner objects from outside the crate: the answer to an impulse is flat if it is so for the inner objects. -/
theorem C73_around (Z : T → Prop) :
    (∀ (p : Plan) (d : Dht T), p.build T = .ok d → FlatDht Z d) ∧
    (∀ wd hd : Dht T, FlatDht Z wd → FlatDht Z hd → FlatDht Z (mixedRadix wd hd)) ∧
    (∀ hd : Dht T, FlatDht Z hd → hd.oopScratchLen = 0 →
      (hd.inplaceScratchLen ≤ 2 * hd.len → FlatDht Z (mixedRadix2xn hd)) ∧
      (hd.inplaceScratchLen ≤ 3 * hd.len → FlatDht Z (mixedRadix3xn hd)) ∧
      (hd.inplaceScratchLen ≤ 4 * hd.len → FlatDht Z (mixedRadix4xn hd)) ∧
      (hd.inplaceScratchLen ≤ 5 * hd.len → FlatDht Z (mixedRadix5xn hd)) ∧
      (hd.inplaceScratchLen ≤ 6 * hd.len → FlatDht Z (mixedRadix6xn hd))) ∧
    (∀ qd hd d : Dht T, FlatDht Z qd → FlatDht Z hd → splitRadix qd hd = .ok d →
      qd.oopScratchLen = 0 → qd.inplaceScratchLen ≤ 4 * qd.len → hd.inplaceScratchLen ≤ 2 * qd.len → FlatDht Z d) ∧
    (∀ id d : Dht T, FlatDht Z id → raders id = .ok d → FlatDht Z d) := by
  refine ⟨fun p d hd => ?_, fun wd hd hw hh => ?_, fun hd hh h0 => ⟨fun h => ?_, fun h => ?_, fun h => ?_, fun h => ?_, fun h => ?_⟩,
    fun qd hd d hq hh e h0 h1 h2 => ?_, fun id d hi e => ?_⟩
  · rcases Nat.eq_zero_or_pos d.len with h0 | hpos
    · obtain ⟨f, hf⟩ := (plan_ok p d hd).implements
      exact ⟨f, hf, fun _ _ _ _ h => by omega⟩
    · obtain ⟨f, hf, h⟩ := plan_flat Z p d hd hpos
      exact ⟨f, hf, (flatDht_iff hf).2 fun _ => h⟩
  · obtain ⟨fw, iw, gw⟩ := hw
    obtain ⟨fh, ih, gh⟩ := hh
    refine ⟨_, mixedRadix_implements iw ih, (flatDht_iff (mixedRadix_implements iw ih)).2 fun hpos => ?_⟩
    have hpos' : 0 < wd.len * hd.len := hpos
    have hw0 : 0 < wd.len := Nat.pos_of_mul_pos_right hpos'
    have hh0 : 0 < hd.len := Nat.pos_of_mul_pos_left hpos'
    exact mr_flat hw0 hh0 ((flatDht_iff iw).1 gw hw0) iw.length ((flatDht_iff ih).1 gh hh0) ih.length
  · exact flatDht_columns (by omega) rfl hh (fun f i => mr2_implements i (fun _ => h) (fun _ => h0)) mr2_flat
  · exact flatDht_columns (by omega) rfl hh (fun f i => mr3_implements i (fun _ => h) (fun _ => h0)) mr3_flat
  · exact flatDht_columns (by omega) rfl hh (fun f i => mr4_implements i (fun _ => h) (fun _ => h0)) mr4_flat
  · exact flatDht_columns (by omega) rfl hh (fun f i => mr5_implements i (fun _ => h) (fun _ => h0)) mr5_flat
  · exact flatDht_columns (by omega) rfl hh (fun f i => mr6_implements i (fun _ => h) (fun _ => h0)) mr6_flat
  · obtain ⟨fq, iq, gq⟩ := hq
    obtain ⟨fh, ih, gh⟩ := hh
    have i := splitRadix_implements iq ih e fun _ => ⟨h0, h1, h2⟩
    refine ⟨_, i, (flatDht_iff i).2 fun hpos => ?_⟩
    have hlen := (splitRadix_eq e).1
    have hdl : d.len = 4 * qd.len := by rw [(splitRadix_eq e).2]; rfl
    have hq : 0 < qd.len := by omega
    rw [hdl]
    exact sr_flat hq ((flatDht_iff iq).1 gq hq) (by rw [← hlen]; exact (flatDht_iff ih).1 gh (by omega))
  · obtain ⟨f, hf, h⟩ := hi
    obtain ⟨g, gi, hdata⟩ := raders_data hf e
    have h2 := hdata.prime.two_le
    have hdl : d.len = id.len + 1 := by rw [hdata.eq]; rfl
    refine ⟨_, hdata.implements hf, (flatDht_iff (hdata.implements hf)).2 fun _ => ?_⟩
    rw [hdl]
    exact rd_flat hdata.prime (by have := hdata.g_gt; omega) hdata.g_lt
      (fun q h0 hq => (dlog_spec hdata.prime hdata.gi_pos hdata.gi_lt hdata.gi_order h0 hq).1) ((flatDht_iff hf).1 h (by omega)) hf.length

end

/-- In a commutative ring, with any tables in which `cos 0 + sin 0` is one. -/
theorem C73_ring {R : Type} [CommRing R] [FftNum R] (h1 : ∀ n, 0 < n → computeDhtTwiddle R 0 n = 1) (p : Plan) (d : Dht R)
    (hd : p.build R = .ok d) (hpos : 0 < d.len) (a : R) :
    d.process (a :: List.replicate (d.len - 1) 0) = .ok (List.replicate d.len a) := by
  have h : Absorbs (fun b : R => b = 0) (fun b => b = a) :=
    ⟨rfl, by rintro _ _ rfl rfl; simp, by rintro _ _ rfl rfl; simp, by rintro _ rfl; simp, by rintro _ _ rfl; simp,
      by rintro _ _ rfl; simp, by rintro _ _ rfl rfl; simp, by rintro _ _ rfl rfl; simp, by rintro _ _ rfl rfl; simp,
      by rintro n hn _ rfl; rw [h1 n hn, one_mul]⟩
  obtain ⟨X, e, hl, hX⟩ := C73_flat h p d hd a (List.replicate (d.len - 1) 0) (by simp; omega) rfl fun b hb => (List.mem_replicate.1 hb).2
  rw [e, List.eq_replicate_iff.2 ⟨hl, hX⟩]

/-- In exact arithmetic, but for the constant `sqrt(1/2)`, which may have any value. -/
theorem C73_exact (ρ : ℝ) (p : Plan) (d : Dht ℝ) (hd : @Plan.build ℝ _ _ _ _ _ (realWithRoot ρ) p = .ok d) (hpos : 0 < d.len) (a : ℝ) :
    d.process (a :: List.replicate (d.len - 1) 0) = .ok (List.replicate d.len a) := by
  letI := realWithRoot ρ
  refine C73_ring (fun n _ => ?_) p d hd hpos a
  have := twiddle_zero_real ρ n 1
  rwa [mul_one] at this

section
variable [MathLib] {F : Fmt}

/-- In floating point, with zeros of either sign: an output is the impulse itself, bit for bit, or NaN. -/
theorem C73_ieee (hz : MathLib.AtZero) (hF1 : F.emin ≤ 0) (hF2 : 0 < F.emax) (p : Plan) (d : Dht (Flt F))
    (hd : p.build (Flt F) = .ok d) (a : Flt F) (ha : ¬a.IsZero) (y : List (Flt F)) (hy : y.length + 1 = d.len)
    (hy0 : ∀ b ∈ y, b.IsZero) : ∃ X, d.process (a :: y) = .ok X ∧ X.length = d.len ∧ ∀ b ∈ X, b = a ∨ b = .nan :=
  C73_flat (Flt.absorbs hz hF1 hF2 ha) p d hd a y hy (.inl rfl) fun b hb => (hy0 b hb).zn

/-- With accurate tables, and unless the length is astronomical or the impulse near to overflow, all outputs are the impulse itself,
bit for bit. -/
theorem C73_ieee_exact {u η Ω : ℝ} {t s : ℕ} (hm : FloatModel (T := Flt F) Flt.fin Flt.val u η Ω t s) (hz : MathLib.AtZero)
    (hF1 : F.emin ≤ 0) (hF2 : 0 < F.emax) (p : Plan) (hp : p.RadersExact) (d : Dht (Flt F)) (hd : p.build (Flt F) = .ok d)
    (a : Flt F) (hfin : a.fin) (ha : a.value ≠ 0) (y : List (Flt F)) (hy : y.length + 1 = d.len) (hy0 : ∀ b ∈ y, b.IsZero)
    (st : Stab) (hst : st = p.stability t s)
    (hO : st.big * (√d.len * ((1 + u) ^ st.depth * (max |a.val| 1 + st.under * η * √d.len))) ≤ Ω) :
    d.process (a :: y) = .ok (List.replicate d.len a) := by
  obtain ⟨X, e, hl, hX⟩ := C73_ieee hz hF1 hF2 p d hd a (fun h => ha h.2) y hy hy0
  obtain ⟨f, _, _, hi, _, _, _, h⟩ := C46_plan_stability p hp hm d hd
  have hx : (a :: y).length = d.len := by simpa using hy
  have hn : norm2 ((a :: y).map Flt.val) = |a.val| := by
    have : ∀ l : List (Flt F), (∀ b ∈ l, b.IsZero) → ((l.map Flt.val).map fun b => b ^ 2).sum = 0 := by
      intro l
      induction l with
      | nil => intro _; rfl
      | cons b l ih =>
        intro h
        have hb : b.val = 0 := by rw [Flt.val, (h b (by simp)).2]; simp
        simp only [List.map_cons, List.sum_cons]
        rw [ih fun a ha => h a (by simp [ha]), hb]
        norm_num
    rw [norm2, List.map_cons, List.map_cons, List.sum_cons, this y hy0, add_zero, Real.sqrt_sq_eq_abs]
  have e' := process_single hi hx
  rw [e] at e'
  cases e'
  have hfin' := (h (a :: y) hx (fun b hb => by
    rcases List.mem_cons.1 hb with rfl | hb
    · exact hfin
    · exact (hy0 b hb).1) st hst _ hn.symm hO).1
  rw [e, List.eq_replicate_iff.2 ⟨hl, fun b hb => ?_⟩]
  rcases hX b hb with h | rfl
  · exact h
  · exact (hfin' _ hb).elim

end

/-! ## Cases -/

/-- `Radix4` of length 128, which transforms other signals wrongly (C09), inside `MixedRadix3xn`, where `sqrt(1/2)` is wrong by a third:
the transform of an impulse is right. -/
example : ∃ d : Dht ℝ, @Plan.build ℝ _ _ _ _ _ (realWithRoot (1 / 2)) (.mr3 (.radix4 128)) = .ok d ∧ d.len = 384 ∧
    d.process (7 :: List.replicate 383 0) = .ok (List.replicate 384 7) := by
  letI := realWithRoot (1 / 2)
  have h := radix4_eq (T := ℝ) 7
  obtain ⟨d, hd, hlen⟩ : ∃ d : Dht ℝ, @Plan.build ℝ _ _ _ _ _ (realWithRoot (1 / 2)) (.mr3 (.radix4 (2 ^ 7))) = .ok d ∧
      d.len = 384 := by
    generalize hr : boilerplateDht _ _ _ _ _ = r at h
    have hl : r.len = 2 ^ 7 := by rw [← hr]; rfl
    refine ⟨mixedRadix3xn r, ?_, by rw [show (mixedRadix3xn r).len = 3 * r.len from rfl, hl]; norm_num⟩
    show (radix4 ℝ (2 ^ 7) >>= fun d => .ok (mixedRadix3xn d)) = _
    rw [h]; rfl
  have := C73_exact (1 / 2) _ d hd (by omega) 7
  rw [hlen] at this
  exact ⟨d, hd, hlen, this⟩

/-- An inner object with a demand for more scratch than any of the crate has. -/
example : FlatDht (fun b : ℝ => b = 0) (mixedRadix ((dhtNaive ℝ 5).greedy 100) (butterfly3 ℝ)) := by
  have h := C73_around (T := ℝ) fun b => b = 0
  obtain ⟨f, hi, hs⟩ := h.1 (.naive 5) _ rfl
  exact h.2.1 _ _ ⟨f, greedy_implements hi 100, hs⟩ (h.1 .b3 _ rfl)

/-- Minus the smallest subnormal number of `f32`, among zeros of both signs. -/
example [MathLib] (hl : MathLib.Accurate) (hz : MathLib.AtZero) : ∃ h : binary32.Rep (2 ^ (-149 : ℤ)),
    (butterfly16 (Flt binary32)).process (.num true (2 ^ (-149 : ℤ)) h :: 0 :: List.replicate 14 (-0)) =
      .ok (List.replicate 16 (.num true (2 ^ (-149 : ℤ)) h)) := by
  have h : binary32.Rep (2 ^ (-149 : ℤ)) := ⟨1, -149, by norm_num [binary32], by norm_num [binary32], by norm_num, by norm_num [binary32]⟩
  refine ⟨h, ?_⟩
  have z0 : (0 : Flt binary32).IsZero := by
    rw [Flt.zero_eq]
    exact ⟨trivial, rfl⟩
  have z1 : (-0 : Flt binary32).IsZero := by
    rw [Flt.zero_eq]
    exact ⟨trivial, by show -(0 : ℚ) = 0; simp⟩
  have hv : (Flt.num true (2 ^ (-149 : ℤ)) h : Flt binary32).value = -2 ^ (-149 : ℤ) := rfl
  refine C73_ieee_exact (F := binary32) (C48_f32 hl) hz (by decide) (by decide) .b16 trivial (butterfly16 _) rfl
    (.num true (2 ^ (-149 : ℤ)) h) trivial (by rw [hv]; norm_num) (0 :: List.replicate 14 (-0)) rfl (fun b hb => ?_) _ rfl ?_
  · rcases List.mem_cons.1 hb with rfl | hb
    · exact z0
    · rw [(List.mem_replicate.1 hb).2]; exact z1
  · obtain ⟨k, hk, e⟩ : ∃ k ≤ 1024, Plan.b16.stability 2 2 = ⟨k, 5, 24⟩ := ⟨_, by decide, rfl⟩
    have hmax : max |(Flt.num true (2 ^ (-149 : ℤ)) h : Flt binary32).val| 1 = 1 := by
      refine max_eq_right ?_
      rw [Flt.val, hv]
      push_cast
      rw [abs_neg, abs_of_pos (by positivity)]
      norm_num
    rw [e, show (butterfly16 (Flt binary32)).len = 16 from rfl, hmax]
    have h4 : √((16 : ℕ) : ℝ) = 4 := by
      rw [show ((16 : ℕ) : ℝ) = 4 ^ 2 by norm_num]; exact Real.sqrt_sq (by norm_num)
    have h2 : ((1 : ℝ) + 2⁻¹ ^ 24) ^ k ≤ 3 := by
      calc ((1 : ℝ) + 2⁻¹ ^ 24) ^ k ≤ Real.exp (2⁻¹ ^ 24) ^ k := by
            gcongr
            have := Real.add_one_le_exp ((2 : ℝ)⁻¹ ^ 24)
            linarith
        _ = Real.exp (k * 2⁻¹ ^ 24) := (Real.exp_nat_mul _ _).symm
        _ ≤ Real.exp 1 := by
            refine Real.exp_le_exp.2 ?_
            have : (k : ℝ) ≤ 1024 := by exact_mod_cast hk
            norm_num
            linarith
        _ ≤ 3 := by have := Real.exp_one_lt_d9; linarith
    rw [h4]
    have h3 : (1 : ℝ) + (5 : ℕ) * 2⁻¹ ^ 150 * 4 ≤ 2 := by norm_num
    calc _ ≤ ((24 : ℕ) : ℝ) * (4 * (3 * 2)) := by gcongr
      _ ≤ 2 ^ 127 := by norm_num

end RustDHT
