import Verif.Proofs.Scaling
import Verif.Props.Circuit
import Verif.Props.Ieee
import Mathlib.Analysis.Complex.ExponentialBounds

/-! # C67: outputs are linear forms; scaling by powers of two; the zero signal -/

namespace RustDHT

open Circ

/-- Every output of every composition is computed as a linear form: entries of the buffer are added, subtracted, negated and
multiplied by numbers that do not depend on the buffer, and nothing else but zero is added. -/
theorem C67_linear {S : Type} [Zero S] [FftNum S] (p : Plan) (c : Dht (Circ S)) (hc : p.build (Circ S) = .ok c) (n : ℕ)
    (y : List (Circ S)) (hy : c.process (buffer S n) = .ok y) : ∀ t ∈ y, Linear n t := plan_linear p c hc n y hy

section
variable [MathLib] {F : Fmt}

/-- In floating point, scaling the buffer by a power of two scales the result by the same power, bit for bit, provided no
operation on the way underflows or overflows, with the scaling or without it. -/
theorem C67_scale (hF : F.emin + 2 ≤ F.emax) (e : ℤ) (h1 : F.emin ≤ e) (h2 : e < F.emax)
    (p : Plan) (d : Dht (Flt F)) (hd : p.build (Flt F) = .ok d) (c : Dht (Circ (Flt F))) (hc : p.build (Circ (Flt F)) = .ok c)
    (n : ℕ) (x : ℕ → Flt F) (hx : ∀ i < n, (x i).fin ∧ F.Scales e (x i).value)
    (y : List (Circ (Flt F))) (hy : c.process (buffer (Flt F) n) = .ok y) (hg : ∀ g, IsGate y g → g.ScalesGate e x) :
    d.process ((List.range n).map fun i => .pow2 F e * x i) =
      (d.process ((List.range n).map x)).map (List.map (.pow2 F e * ·)) := by
  obtain ⟨c', hc', -, h⟩ := C65_circuit p d hd
  rw [hc] at hc'
  cases hc'
  rw [h, h, hy]
  show Except.ok _ = Except.ok _
  rw [List.map_map]
  congr 1
  refine List.map_congr_left fun t ht => ?_
  rcases Flt.linear_scales hF h1 h2 x hx (C67_linear p c hc n y hy t ht) (fun g hg' => hg g ⟨t, ht, hg'⟩) with ⟨hz, q⟩ | hs
  · rw [q]; exact hz.eq_mul h1 h2
  · exact hs.eq_mul h1 h2

/-- Zeros, of any sign, give zeros or NaN, in every format and with any tables. -/
theorem C67_zero (p : Plan) (d : Dht (Flt F)) (hd : p.build (Flt F) = .ok d) (x : List (Flt F)) (hx : ∀ a ∈ x, a.IsZero)
    (y : List (Flt F)) (hy : d.process x = .ok y) : ∀ a ∈ y, a.IsZero ∨ a = .nan := by
  obtain ⟨c, hc, -, h⟩ := C65_circuit p d hd
  have ex : x = (List.range x.length).map fun i => x.getD i 0 := by
    refine List.ext_getElem (by simp) fun i h1 h2 => ?_
    simp [List.getElem?_eq_getElem h1]
  rw [ex, h] at hy
  rcases e : c.process (buffer (Flt F) x.length) with er | z
  · rw [e] at hy; cases hy
  rw [e] at hy
  have hy : Except.ok _ = Except.ok _ := hy
  injection hy with hy
  subst hy
  intro a ha
  obtain ⟨t, ht, rfl⟩ := List.mem_map.1 ha
  have hz := Flt.ZN.linear (x := fun i => x.getD i 0) (fun i hi => by
    have h := hx x[i] (List.getElem_mem hi)
    simp only [List.getD_eq_getElem?_getD, List.getElem?_eq_getElem hi, Option.getD_some]
    generalize x[i] = b at h
    match b with
    | .num s m r =>
      refine .inl ⟨s, Flt.rep_nought F, Flt.num_congr ?_ _ _⟩
      have h := h.2
      cases s
      · exact h
      · exact neg_eq_zero.1 h
    | .inf s => exact h.1.elim
    | .nan => exact h.1.elim) (C67_linear p c hc _ z e t ht)
  rcases hz with ⟨s, r, e⟩ | e
  · rw [e]
    exact .inl ⟨trivial, by cases s <;> simp [Flt.value]⟩
  · exact .inr e

/-- With accurate tables, and unless the length is astronomical, the transform of zeros is exactly zero. -/
theorem C67_zero_exact {u η Ω : ℝ} {t s : ℕ} (hm : FloatModel (T := Flt F) Flt.fin Flt.val u η Ω t s) (p : Plan) (hp : p.RadersExact)
    (d : Dht (Flt F)) (hd : p.build (Flt F) = .ok d) (x : List (Flt F)) (hl : x.length = d.len) (hpos : 0 < d.len)
    (hx : ∀ a ∈ x, a.IsZero) (a : Stab) (ha : a = p.stability t s)
    (hO : a.big * (√d.len * ((1 + u) ^ a.depth * (1 + a.under * η * √d.len))) ≤ Ω) :
    ∃ y, d.process x = .ok y ∧ y.length = x.length ∧ ∀ b ∈ y, b.IsZero := by
  obtain ⟨f, _, _, hi, _, _, _, h⟩ := C46_plan_stability p hp hm d hd
  have hn : norm2 (x.map Flt.val) = 0 := by
    have : ∀ l : List (Flt F), (∀ a ∈ l, a.IsZero) → ((l.map Flt.val).map fun a => a ^ 2).sum = 0 := by
      intro l
      induction l with
      | nil => intro _; rfl
      | cons b l ih =>
        intro h
        have hb : b.val = 0 := by rw [Flt.val, (h b (by simp)).2]; simp
        simp only [List.map_cons, List.sum_cons]
        rw [ih fun a ha => h a (by simp [ha]), hb]
        norm_num
    rw [norm2, this x hx, Real.sqrt_zero]
  have hfin := (h x hl (fun a ha => (hx a ha).1) a ha 0 hn.symm (by rwa [max_eq_right zero_le_one])).1
  have e := hi.process (b := x) (by omega) (by rw [hl])
  rw [mapChunks_single hpos hl] at e
  refine ⟨f x, e, by rw [hi.length x hl, hl], fun b hb => ?_⟩
  rcases C67_zero p d hd x hx _ e b hb with h | rfl
  · exact h
  · exact (hfin _ hb).elim

end

/-! ## Instances -/

private theorem rep32 (m : ℕ) (e : ℤ) (h : m < 2 ^ 24) (h1 : -149 ≤ e) (h2 : (m : ℚ) * 2 ^ e < 2 ^ (128 : ℤ)) : binary32.Rep (m * 2 ^ e) :=
  ⟨m, e, h, h1, rfl, h2⟩

/-- The entries `1` and `2^-24`; their sum is rounded. -/
private def one_tiny : ℕ → Flt binary32
  | 0 => .num false ((1 : ℕ) * 2 ^ (0 : ℤ)) (rep32 1 0 (by norm_num) (by norm_num) (by norm_num))
  | _ => .num true ((1 : ℕ) * 2 ^ (-24 : ℤ)) (rep32 1 (-24) (by norm_num) (by norm_num) (by norm_num))

/-- A butterfly of length 2 in `f32`, with a sum that is rounded, scaled by `2^5`. -/
example [MathLib] : (butterfly2 (Flt binary32)).process [.pow2 binary32 5 * one_tiny 0, .pow2 binary32 5 * one_tiny 1] =
    ((butterfly2 (Flt binary32)).process [one_tiny 0, one_tiny 1]).map (List.map (.pow2 binary32 5 * ·)) := by
  have e := (butterfly2_implements (T := Circ (Flt binary32))).process (b := buffer (Flt binary32) 2) (by decide) (by decide)
  rw [show (butterfly2 (Circ (Flt binary32))).len = 2 from rfl, mapChunks_single (by omega) (by simp [buffer])] at e
  refine C67_scale (F := binary32) (by decide) 5 (by decide) (by decide) .b2 _ rfl _ rfl 2 one_tiny ?_ _ e ?_
  · intro i hi
    have : i = 0 ∨ i = 1 := by omega
    rcases this with rfl | rfl <;> refine ⟨trivial, .inr ?_, .inr ?_⟩ <;>
      norm_num [one_tiny, Flt.value, binary32]
  · rintro g ⟨t, ht, hg⟩
    have : t = .add (.inp 0) (.inp 1) ∨ t = .sub (.inp 0) (.inp 1) := by
      have : t ∈ [Circ.add (.inp 0) (.inp 1), Circ.sub (.inp 0) (.inp 1)] := ht
      simpa using this
    rcases this with rfl | rfl
    · have : g = .add (.inp 0) (.inp 1) := by simpa [gates, uses] using hg
      subst this
      refine ⟨trivial, trivial, .inr ?_, .inr ?_⟩ <;> norm_num [one_tiny, Flt.value, binary32, eval]
    · have : g = .sub (.inp 0) (.inp 1) := by simpa [gates, uses] using hg
      subst this
      refine ⟨trivial, trivial, .inr ?_, .inr ?_⟩ <;> norm_num [one_tiny, Flt.value, binary32, eval]

/-- Sixteen zeros in `f32`. -/
example [MathLib] (hl : MathLib.Accurate) : ∃ y, (butterfly16 (Flt binary32)).process (List.replicate 16 (-0)) = .ok y ∧
    y.length = 16 ∧ ∀ b ∈ y, b.IsZero := by
  have hz : (-0 : Flt binary32).IsZero := by
    rw [Flt.zero_eq]
    exact ⟨trivial, by show -(0 : ℚ) = 0; simp⟩
  have h := C67_zero_exact (F := binary32) (C48_f32 hl) .b16 trivial (butterfly16 (Flt binary32)) rfl (List.replicate 16 (-0)) rfl
    (show 0 < 16 by decide) (fun a ha => by rw [(List.mem_replicate.1 ha).2]; exact hz) _ rfl ?_
  · simpa using h
  · obtain ⟨k, hk, e⟩ : ∃ k ≤ 1024, Plan.b16.stability 2 2 = ⟨k, 5, 24⟩ := ⟨_, by decide, rfl⟩
    rw [e, show (butterfly16 (Flt binary32)).len = 16 from rfl]
    have h4 : √((16 : ℕ) : ℝ) = 4 := by
      rw [show ((16 : ℕ) : ℝ) = 4 ^ 2 by norm_num]; exact Real.sqrt_sq (by norm_num)
    have h2 : ((1 : ℝ) + 2⁻¹ ^ 24) ^ k ≤ 3 := by
      calc ((1 : ℝ) + 2⁻¹ ^ 24) ^ k ≤ Real.exp (2⁻¹ ^ 24) ^ k := by
            gcongr
            have := Real.add_one_le_exp ((2 : ℝ)⁻¹ ^ 24)
            linarith
        _ = Real.exp (k * 2⁻¹ ^ 24) := (Real.exp_nat_mul _ _).symm
        _ ≤ Real.exp 1 := by
            refine Real.exp_le_exp.2 ?_
            have : (k : ℝ) ≤ 1024 := by exact_mod_cast hk
            norm_num
            linarith
        _ ≤ 3 := by have := Real.exp_one_lt_d9; linarith
    rw [h4]
    have h3 : (1 : ℝ) + (5 : ℕ) * 2⁻¹ ^ 150 * 4 ≤ 2 := by norm_num
    calc _ ≤ ((24 : ℕ) : ℝ) * (4 * (3 * 2)) := by gcongr
      _ ≤ 2 ^ 127 := by norm_num

end RustDHT
