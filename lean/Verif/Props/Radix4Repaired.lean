import Verif.Proofs.Radix4Repaired
import Verif.Props.Exact
import Verif.Proofs.RepairedPlan
import Verif.Props.Stability
import Verif.Props.Ieee
import Mathlib.Analysis.Complex.ExponentialBounds

/-! # C62: the defect of `Radix4` is the order of the blocks

`radix4Repaired` is not code of the crate: it is `Radix4` with one index changed (`Model/Radix4Repaired.lean`).  The theorems say that
the finding of C09 has this one cause. -/

namespace RustDHT

/-- With the index changed, `Radix4::new(2^m)` computes the DHT for every `m`. -/
theorem C62_repaired_dht (m : ℕ) : ∃ d, radix4Repaired ℝ (2 ^ m) = .ok d ∧ d.len = 2 ^ m ∧ ComputesDht d ∧ ProcessesDht d ∧
    Rejects d := by
  have h : ComputesDht _ := (radix4Repaired_implements (radix4Repaired_eq (T := ℝ) m)).congr
    fun x hx => repairedFn_dht (m := m) hx
  exact ⟨_, radix4Repaired_eq m, rfl, h, h.processes, radix4Repaired_rejects (radix4Repaired_eq m)⟩

/-- In every arithmetic the change has no effect on lengths below 128: both objects apply the same function to every chunk. -/
theorem C62_unchanged_below_128 (T : Type) [Zero T] [Add T] [Sub T] [Mul T] [Neg T] [FftNum T] (m : ℕ) (hm : m ≤ 6)
    (d e : Dht T) (hd : radix4 T (2 ^ m) = .ok d) (he : radix4Repaired T (2 ^ m) = .ok e) :
    d.len = e.len ∧ ∃ f, Implements d f ∧ Implements e f := by
  refine ⟨?_, radix4Fn T m, radix4_implements hd, (radix4Repaired_implements he).congr fun x hx => ?_⟩
  · rw [radix4_eq] at hd; rw [radix4Repaired_eq] at he; cases hd; cases he; rfl
  · have hl : r4Levels m ≤ 1 := by unfold r4Levels; split <;> [skip; split] <;> omega
    unfold repairedFn radix4Fn r4Fn
    rw [← r4_len m]
    congr 2
    exact tab_congr fun p _ => by rw [rIndex_eq_small _ _ hl]

/-- With the index changed, everything that can be composed out of the constructors computes the DHT: C12 without its exception. -/
theorem C62_plan (p : Plan) (d : Dht ℝ) (h : p.build ℝ = .ok d) :
    ∃ e, p.buildRepaired ℝ = .ok e ∧ e.len = d.len ∧ ComputesDht e ∧ ProcessesDht e := by
  obtain ⟨e, h1, h2, h3, _⟩ := repaired_plan p d h
  exact ⟨e, h1, h2, h3, h3.processes⟩

/-- In every arithmetic the repaired `Radix4` does, bit for bit, what the one of the crate does on a rearranged input; the
rearrangement depends on the length only. -/
theorem C62_rearranged (m : ℕ) : ∃ σ : Equiv.Perm (Fin (2 ^ m)), ∀ (T : Type) [Zero T] [Add T] [Sub T] [Mul T] [Neg T] [FftNum T]
    (d e : Dht T), radix4 T (2 ^ m) = .ok d → radix4Repaired T (2 ^ m) = .ok e →
      ∃ f, Implements d f ∧ Implements e fun x => f (List.ofFn fun i : Fin (2 ^ m) => x.getD (σ i) 0) := by
  refine ⟨rearrange m, fun T => ?_⟩
  intro _ _ _ _ _ _ d e hd he
  exact ⟨_, radix4_implements hd, (radix4Repaired_implements he).congr fun x _ => repairedFn_eq T m x⟩

/-- So a caller of the crate as it is gets the DHT of any power of two who rearranges the input first. -/
theorem C62_workaround (m : ℕ) : ∃ σ : Equiv.Perm (Fin (2 ^ m)), ∃ d, radix4 ℝ (2 ^ m) = .ok d ∧ d.len = 2 ^ m ∧
    ∀ x : List ℝ, x.length = 2 ^ m → d.process (List.ofFn fun i : Fin (2 ^ m) => x.getD (σ i) 0) = .ok (dht x) := by
  have hd := radix4_eq (T := ℝ) m
  refine ⟨rearrange m, _, hd, rfl, fun x hx => ?_⟩
  have hl : (List.ofFn fun i : Fin (2 ^ m) => x.getD (rearrange m i) 0).length = 2 ^ m := by simp
  have h := process_single (radix4_implements hd) (x := List.ofFn fun i : Fin (2 ^ m) => x.getD (rearrange m i) 0) hl
  rw [h, ← repairedFn_eq, repairedFn_dht hx]

section
variable {T : Type} [Zero T] [Add T] [Sub T] [Mul T] [Neg T] [FftNum T]
variable {fin : T → Prop} {val : T → ℝ} {u η Ω : ℝ} {t s : ℕ}

/-- In floating point the repaired `Radix4` is as accurate as C46 says of short ones, for every power of two. -/
theorem C62_stable (hm : FloatModel fin val u η Ω t s) (m : ℕ) (e : Dht T) (he : radix4Repaired T (2 ^ m) = .ok e) :
    ∃ f : List T → List T, Implements e f ∧
      ∀ x, x.length = 2 ^ m → (∀ a ∈ x, fin a) → ∀ a : Stab, a = (Plan.radix4 (2 ^ m)).stability t s →
        ∀ N, N = norm2 (x.map val) →
        a.big * (√(2 ^ m : ℕ) * ((1 + u) ^ a.depth * (max N 1 + a.under * η * √(2 ^ m : ℕ)))) ≤ Ω →
        (∀ y ∈ f x, fin y) ∧
        norm2 (List.zipWith (· - ·) ((f x).map val) (dht (x.map val)))
          ≤ √(2 ^ m : ℕ) * ((1 + u) ^ a.depth * (N + a.under * η * √(2 ^ m : ℕ)) - N) := by
  have hd := radix4_eq (T := T) m
  obtain ⟨f, dr, fr, i1, hr, i2, hl, h⟩ := C46_plan_stability (.radix4 (2 ^ m)) trivial hm _ hd
  refine ⟨repairedFn T m, radix4Repaired_implements he, fun x hx hf a ha N hN hO => ?_⟩
  set z : List T := List.ofFn fun i : Fin (2 ^ m) => x.getD (rearrange m i) 0 with hz
  have hzl : z.length = 2 ^ m := by simp [hz]
  have ezr : z.map val = List.ofFn fun i : Fin (2 ^ m) => (x.map val).getD (rearrange m i) 0 := by
    rw [hz, List.map_ofFn]
    congr 1
    funext i
    have hi : (rearrange m i : ℕ) < x.length := by rw [hx]; exact (rearrange m i).2
    simp [List.getD_eq_getElem?_getD, List.getElem?_eq_getElem hi]
  have e1 : f z = repairedFn T m x := by
    rw [repairedFn_eq]
    exact i1.unique (radix4_implements hd) hzl (by show 0 < 2 ^ m; positivity)
  have e2 : fr (z.map val) = dht (x.map val) := by
    rw [← repairedFn_dht (m := m) (by simp [hx]), repairedFn_eq, ezr]
    exact i2.unique (radix4_implements hr) (by rw [hl]; simp; rfl) (by rw [hl]; show 0 < 2 ^ m; positivity)
  have e3 : norm2 (z.map val) = norm2 (x.map val) := by
    have ex : x.map val = List.ofFn fun i : Fin (2 ^ m) => (x.map val).getD i 0 := by
      refine List.ext_getElem (by simp [hx]) fun i h1 h2 => ?_
      have hi : i < x.length := by simpa using h1
      simp [List.getElem?_eq_getElem hi]
    rw [norm2, norm2, ezr]
    conv_rhs => rw [ex]
    rw [List.map_ofFn, List.map_ofFn, List.sum_ofFn, List.sum_ofFn]
    exact congrArg _ (Equiv.sum_comp (rearrange m) fun i : Fin (2 ^ m) => (x.map val).getD i 0 ^ 2)
  have := h z hzl (fun b hb => by
    obtain ⟨i, rfl⟩ := List.mem_ofFn.1 (hz ▸ hb)
    have hi : (rearrange m i : ℕ) < x.length := by rw [hx]; exact (rearrange m i).2
    simp only [List.getD_eq_getElem?_getD, List.getElem?_eq_getElem hi, Option.getD_some]
    exact hf _ (List.getElem_mem _)) a ha N (hN.trans e3.symm) hO
  rw [e1, e2] at this
  exact this

end

/-- The lengths from 128 on are met by both: the repaired object transforms the impulse of C09 rightly, the one of the crate
does not. -/
example : ∃ d e, radix4 ℝ (2 ^ 7) = .ok d ∧ radix4Repaired ℝ (2 ^ 7) = .ok e ∧ ComputesDht e ∧ ¬ ComputesDht d := by
  obtain ⟨d, hd, hl, hw⟩ := C09_radix4_refuted 7 (by norm_num)
  obtain ⟨e, he, -, hc, -⟩ := C62_repaired_dht 7
  refine ⟨d, e, hd, he, hc, fun h => hw ?_⟩
  rw [h.process (by rw [hl]; simp) (by rw [hl]; simp), mapChunks_single (by rw [hl]; positivity) (by rw [hl]; simp)]

/-- Length 1024 in `f32`, signals of norm at most 100: the computed spectrum has no infinities, and is a DHT up to the bound. -/
example [MathLib] (hl : MathLib.Accurate) : ∃ e, radix4Repaired (Flt binary32) (2 ^ 10) = .ok e ∧ ∃ f, Implements e f ∧
    ∃ a : Stab, a.depth ≤ 5000 ∧ ∀ x, x.length = 1024 → (∀ b ∈ x, b.fin) → norm2 (x.map Flt.val) ≤ 100 → (∀ y ∈ f x, y.fin) ∧
      norm2 (List.zipWith (· - ·) ((f x).map Flt.val) (dht (x.map Flt.val))) ≤
        √(2 ^ 10 : ℕ) * ((1 + 2⁻¹ ^ 24) ^ a.depth * (norm2 (x.map Flt.val) + a.under * 2⁻¹ ^ 150 * √(2 ^ 10 : ℕ)) - norm2 (x.map Flt.val)) := by
  have he := radix4Repaired_eq (T := Flt binary32) 10
  obtain ⟨f, hi, h⟩ := C62_stable (C48_f32 hl) 10 _ he
  obtain ⟨D, hD, U, hU, ha⟩ : ∃ D ≤ 5000, ∃ U ≤ 1000, (Plan.radix4 (2 ^ 10)).stability 2 2 = ⟨D, U, 24⟩ := by
    have h : Nat.log 2 (2 ^ 10) = 10 := Nat.log_pow (b := 2) (by norm_num) 10
    simp only [Plan.stability, radix4Stability, h]
    exact ⟨_, by decide, _, by decide, rfl⟩
  refine ⟨_, he, f, hi, ⟨D, U, 24⟩, hD, fun x hx hf hn => h x hx hf _ ha.symm _ rfl ?_⟩
  have h2 : ((1 : ℝ) + 2⁻¹ ^ 24) ^ D ≤ 3 := by
    calc ((1 : ℝ) + 2⁻¹ ^ 24) ^ D ≤ Real.exp (2⁻¹ ^ 24) ^ D := by
          gcongr
          have := Real.add_one_le_exp ((2 : ℝ)⁻¹ ^ 24)
          linarith
      _ = Real.exp (D * 2⁻¹ ^ 24) := (Real.exp_nat_mul _ _).symm
      _ ≤ Real.exp 1 := by
          refine Real.exp_le_exp.2 ?_
          have : (D : ℝ) ≤ 5000 := by exact_mod_cast hD
          norm_num
          linarith
      _ ≤ 3 := Real.exp_one_lt_three.le
  have h3 : √((2 ^ 10 : ℕ) : ℝ) = 32 := by
    rw [show ((2 ^ 10 : ℕ) : ℝ) = 32 ^ 2 by norm_num]; exact Real.sqrt_sq (by norm_num)
  have h4 : (U : ℝ) ≤ 1000 := by exact_mod_cast hU
  rw [h3]
  calc _ ≤ ((24 : ℕ) : ℝ) * (32 * (3 * (100 + 1000 * 2⁻¹ ^ 150 * 32))) := by
        gcongr
        exact max_le hn (by norm_num)
    _ ≤ 2 ^ 127 := by norm_num

/-- A `MixedRadix` around a long `Radix4`. -/
example : ∃ d e, (Plan.mixedRadix .b3 (.radix4 (2 ^ 10))).build ℝ = .ok d ∧
    (Plan.mixedRadix .b3 (.radix4 (2 ^ 10))).buildRepaired ℝ = .ok e ∧ e.len = 3 * 2 ^ 10 ∧ ComputesDht e := by
  obtain ⟨r, hr, hlr, -⟩ := C09_radix4_refuted 10 (by norm_num)
  have hd : (Plan.mixedRadix .b3 (.radix4 (2 ^ 10))).build ℝ = .ok (mixedRadix (butterfly3 ℝ) r) := by
    rw [Plan.build, Plan.build, Plan.build, hr]; rfl
  obtain ⟨e, he, hl, hc, -⟩ := C62_plan _ _ hd
  exact ⟨_, e, hd, he, by rw [hl]; show 3 * r.len = _; rw [hlr], hc⟩

end RustDHT
