import Verif.Proofs.RootPlan
import Verif.Proofs.RootSplit
import Verif.Proofs.FarOffFloat

/-! # How much a composition with another constant loses in floating point -/

set_option linter.style.haveILetI false

namespace RustDHT

open Finset

theorem en_eq_nrm (n : ℕ) (x : List ℝ) : en n x = nrm n (nth x) ^ 2 := (nrm_sq n (nth x)).symm

/-- The signal can have norm 1. -/
theorem Lossy.unit {n : ℕ} {δ : ℝ} (hδ : 0 ≤ δ) {f : List ℝ → List ℝ} (hlin : LinearFn n f) (h : Lossy (δ ^ 2) n f) :
    ∃ x, x.length = n ∧ nrm n (nth x) = 1 ∧ nrm n (nth (f x)) ≤ δ * √n := by
  obtain ⟨x, hx, h0, h1⟩ := h
  rw [en_eq_nrm] at h0 h1
  rw [en_eq_nrm] at h1
  have hp : 0 < nrm n (nth x) := lt_of_le_of_ne (nrm_nonneg _ _) fun e => by rw [← e] at h0; norm_num at h0
  set c := (nrm n (nth x))⁻¹ with hc
  have hc0 : 0 ≤ c := inv_nonneg.2 hp.le
  have hcn : c * nrm n (nth x) = 1 := inv_mul_cancel₀ hp.ne'
  have hy : (tab n fun i => c * nth x i).length = n := length_tab _ _
  refine ⟨_, hy, ?_, ?_⟩
  · rw [← hcn, ← nrm_mul n hc0]
    exact nrm_congr fun i hi => nth_tab hi
  · have e1 : nrm n (nth (f (tab n fun i => c * nth x i))) = c * nrm n (nth (f x)) := by
      rw [← nrm_mul n hc0]
      refine nrm_congr fun k hk => ?_
      rw [hlin _ hy k hk, hlin _ hx k hk, mul_sum]
      exact sum_congr rfl fun i hi => by rw [nth_tab (mem_range.1 hi), mul_assoc]
    have h2 : nrm n (nth (f x)) ≤ δ * (√n * nrm n (nth x)) := by
      refine abs_le_of_sq_le_sq' ?_ (by positivity) |>.2
      rw [mul_pow, mul_pow, Real.sq_sqrt (Nat.cast_nonneg _)]
      exact h1
    rw [e1]
    calc c * nrm n (nth (f x)) ≤ c * (δ * (√n * nrm n (nth x))) := mul_le_mul_of_nonneg_left h2 hc0
      _ = δ * √n := by linear_combination (δ * √n) * hcn

theorem growth_le' {u θ : ℝ} {D : ℕ} (hu0 : 0 ≤ u) (hθ : θ ≤ 1) (h : D * u ≤ θ / 64) : (1 + u) ^ D ≤ 1 + θ / 32 := by
  have h0 : 0 ≤ D * u := by positivity
  calc (1 + u) ^ D ≤ Real.exp u ^ D := pow_le_pow_left₀ (by linarith) (by rw [add_comm]; exact Real.add_one_le_exp u) _
    _ = Real.exp (D * u) := by rw [← Real.exp_nat_mul]
    _ ≤ 1 / (1 - D * u) := Real.exp_bound_div_one_sub_of_interval h0 (by linarith)
    _ ≤ 1 + θ / 32 := by
      rw [div_le_iff₀ (by linarith)]
      nlinarith

/-- Whether an object is made does not depend on the numbers. -/
theorem build_other {T T' : Type} [Zero T] [Add T] [Sub T] [Mul T] [Neg T] [FftNum T] [Zero T'] [Add T'] [Sub T'] [Mul T'] [Neg T']
    [FftNum T'] (p : Plan) (d : Dht T) (hd : p.build T = .ok d) : ∃ d' : Dht T', p.build T' = .ok d' := by
  have h : Respects (fun (_ : T) (_ : T') => True) (fun _ _ => True) := by
    constructor <;> intros <;> first | trivial | exact ⟨trivial, trivial⟩
  have h := plan_rel p h
  rw [hd] at h
  cases e : p.build T' with
  | ok d' => exact ⟨d', rfl⟩
  | error _ => rw [e] at h; cases h

section
variable {T : Type} [Zero T] [Add T] [Sub T] [Mul T] [Neg T] [iT : FftNum T]
variable {fin : T → Prop} {val : T → ℝ} {u η Ω : ℝ} {t s : ℕ}

/-- A signal of norm about 1: the roundings make at most a twentieth of `θ` times the norm of the DHT. -/
theorem float_near' (hm : FloatModel fin val u η Ω t s) {θ : ℝ} (hθ0 : 0 ≤ θ) (hθ : θ ≤ 1) {n : ℕ} {f : List T → List T}
    {fr : List ℝ → List ℝ} {a : Stab} (st : StabStage fin val u η Ω n f fr a) (h1 : (a.depth + 1 : ℕ) * u ≤ θ / 64)
    (h2 : (a.under + 1 : ℕ) * η * √n ≤ θ / 64) (h3 : 5 * a.big * √n ≤ Ω) {x : List T} (hx : x.length = n) (hf : ∀ i < n, fin (nth x i))
    (N1 : nrm n (nth (x.map val)) ≤ 1 + θ / 32) :
    (∀ i < n, fin (nth (f x) i)) ∧ nrm n (fun i => val (nth (f x) i) - nth (fr (x.map val)) i) ≤ √n * (θ / 20) := by
  have hu0 := hm.u_nonneg
  have hη := hm.η_nonneg
  have hs := Real.sqrt_nonneg (n : ℝ)
  have hN : nrm n (fun i => val (nth x i)) = nrm n (nth (x.map val)) := nrm_congr fun i _ => (hm.nth_map x i).symm
  have hN0 := nrm_nonneg n (nth (x.map val))
  have hD : (1 + u) ^ a.depth ≤ 1 + θ / 32 := by
    refine growth_le' hu0 hθ (le_trans ?_ h1)
    refine mul_le_mul_of_nonneg_right ?_ hu0
    exact_mod_cast Nat.le_succ _
  have hU : a.under * η * √n ≤ θ / 64 := by
    refine le_trans ?_ h2
    refine mul_le_mul_of_nonneg_right (mul_le_mul_of_nonneg_right ?_ hη) hs
    exact_mod_cast Nat.le_succ _
  have hU0 : 0 ≤ a.under * η * √n := by positivity
  have hP0 : 1 ≤ (1 + u) ^ a.depth := one_le_pow₀ (by linarith)
  obtain ⟨k1, k2⟩ := st.err x hx hf (by
    rw [hN]
    unfold bnd
    refine le_trans ?_ h3
    have h4 : (1 + u) ^ a.depth * (max (nrm n (nth (x.map val))) 1 + a.under * η * √n) ≤ 5 := by
      have h5 : max (nrm n (nth (x.map val))) 1 ≤ 1 + 1 / 32 := max_le (by linarith) (by norm_num)
      have h6 : (1 + u) ^ a.depth ≤ 1 + 1 / 32 := by linarith
      have h7 : a.under * η * √n ≤ 1 / 64 := by linarith
      calc _ ≤ (1 + 1 / 32) * ((1 + 1 / 32) + 1 / 64) := by gcongr
        _ ≤ (5 : ℝ) := by norm_num
    calc (a.big : ℝ) * (√n * ((1 + u) ^ a.depth * (max (nrm n (nth (x.map val))) 1 + a.under * η * √n)))
        ≤ a.big * (√n * 5) := by gcongr
      _ = _ := by ring)
  rw [hN] at k2
  unfold bnd at k2
  refine ⟨k1, k2.trans (mul_le_mul_of_nonneg_left ?_ hs)⟩
  generalize (1 + u) ^ a.depth = P at *
  generalize (a.under : ℝ) * η * √n = w at *
  generalize nrm n (nth (x.map val)) = N at *
  have e : P * (N + w) - N = (P - 1) * N + P * w := by ring
  have e1 : (P - 1) * N ≤ θ / 32 * (1 + 1 / 32) := mul_le_mul (by linarith) (by linarith) hN0 (by linarith)
  have e2 : P * w ≤ (1 + 1 / 32) * (θ / 64) := mul_le_mul (by linarith) hU hU0 (by norm_num)
  rw [e]
  linarith

theorem plan_lossy_float (p : Plan) (hp : p.RadersFree) (hs4 : p.SmallRadix4) (hn : ¬ p.RootFree) (hm : FloatModel fin val u η Ω t s)
    (near : ∀ r : ℝ, |r| ≤ 1 → ∃ a, fin a ∧ |val a - r| ≤ u * |r| + η) {r : T} {ρ : ℝ} (hr : fin r ∧ val r = ρ) (hρ0 : 0 ≤ ρ) {θ : ℝ}
    (hθ0 : 0 < θ) (hθ : ρ * √2 ≤ 1 - θ) (d : Dht T) (hd : @Plan.build T _ _ _ _ _ (iT.withRoot r) p = .ok d) (hpos : 0 < d.len)
    (a : Stab) (ha : a = p.stability t s) (h1 : (a.depth + 1 : ℕ) * u ≤ θ / 64) (h2 : (a.under + 1 : ℕ) * η * √d.len ≤ θ / 64)
    (h3 : 5 * a.big * √d.len ≤ Ω) :
    ∃ x y, x.length = d.len ∧ (∀ b ∈ x, fin b) ∧ 1 / 2 ≤ norm2 (x.map val) ∧ norm2 (x.map val) ≤ 2 ∧
      d.process x = .ok y ∧ (∀ b ∈ y, fin b) ∧
      θ / 2 * norm2 (dht (x.map val)) ≤ norm2 (List.zipWith (· - ·) (y.map val) (dht (x.map val))) := by
  have hu0 := hm.u_nonneg
  have hη := hm.η_nonneg
  have hδ0 : 0 ≤ ρ * √2 := by positivity
  have hθ1 : θ ≤ 1 := by linarith
  have hδ1 : |ρ * √2| ≤ 1 := by rw [abs_of_nonneg hδ0]; linarith
  have hρ1 : |ρ| ≤ 1 := by
    rw [abs_of_nonneg hρ0]
    have := sqrt_two_gt
    nlinarith
  obtain ⟨dr, hr'⟩ := @build_other T ℝ _ _ _ _ _ (iT.withRoot r) _ _ _ _ _ (realWithRoot ρ) p d hd
  obtain ⟨hl, -, f, fr, i1, i2, st⟩ := plan_root_stability hm hr hρ1 hδ1 p (smallRadix4_radersExact p hs4) hp d dr hd hr'
  have st := st hpos
  subst ha
  set a := p.stability t s with ha
  set n := d.len with hnn
  have loss : ∃ x, x.length = n ∧ nrm n (nth x) = 1 ∧ nrm n (nth (fr x)) ≤ ρ * √2 * √n := by
    obtain ⟨g, ig, -, hg⟩ := plan_lossy ρ (by nlinarith) p hs4 hp dr hr' (by omega)
    have lin := @plan_linear (realWithRoot ρ) p dr hr' g ig
    obtain ⟨x, h1, h2, h3⟩ := (hg hn).unit hδ0 lin
    rw [i2.unique ig h1 (by omega) |>.symm] at h3
    rw [hl] at h1 h2 h3
    exact ⟨x, h1, h2, h3⟩
  obtain ⟨x0, hx0, n0, loss⟩ := loss
  have hle : ∀ i < n, |nth x0 i| ≤ 1 := fun i hi => n0 ▸ abs_le_nrm hi (nth x0)
  choose! g hg using near
  have hx : (tab n fun i => g (nth x0 i)).length = n := length_tab _ _
  have hv : ∀ i < n, nth ((tab n fun i => g (nth x0 i)).map val) i = val (g (nth x0 i)) := fun i hi => by
    rw [hm.nth_map, nth_tab hi]
  set x := tab n fun i => g (nth x0 i) with hxdef
  have hxv : (x.map val).length = n := by simp [hx]
  -- the rounded signal is near
  have hnη : η * √n ≤ θ / 64 := by
    refine le_trans ?_ h2
    rw [mul_assoc]
    refine le_mul_of_one_le_left (by positivity) ?_
    exact_mod_cast Nat.le_add_left 1 _
  have hu : u ≤ θ / 64 := by
    refine le_trans ?_ h1
    refine le_mul_of_one_le_left hu0 ?_
    exact_mod_cast Nat.le_add_left 1 _
  have dist : nrm n (fun i => nth (x.map val) i - nth x0 i) ≤ θ / 32 := by
    have h : nrm n (fun i => nth (x.map val) i - nth x0 i) ≤ nrm n (fun i => u * |nth x0 i| + η) :=
      nrm_mono fun i hi => by rw [hv i hi]; exact (hg _ (hle i hi)).2
    have h' := nrm_add_le n (fun i => u * |nth x0 i|) fun _ => η
    have e1 : nrm n (fun i => u * |nth x0 i|) = u := by
      rw [nrm_mul n hu0, show nrm n (fun i => |nth x0 i|) = 1 by rw [← n0]; simp only [nrm, sq_abs], mul_one]
    rw [e1, nrm_const n hη] at h'
    linarith [mul_comm η √(n : ℝ)]
  have N1 : nrm n (nth (x.map val)) ≤ 1 + θ / 32 := by
    have h := nrm_add_le n (fun i => nth (x.map val) i - nth x0 i) (nth x0)
    simp only [sub_add_cancel] at h
    linarith
  have N2 : 1 - θ / 32 ≤ nrm n (nth (x.map val)) := by
    have h := nrm_sub_le n (nth x0) (nth (x.map val)) fun _ => 0
    simp only [sub_zero] at h
    rw [nrm_symm] at h
    have : nrm n (nth x0) = 1 := n0
    linarith
  have hs := Real.sqrt_nonneg (n : ℝ)
  obtain ⟨k1, k4⟩ := float_near' hm hθ0.le hθ1 st h1 h2 h3 hx (fun i hi => by rw [hxdef, nth_tab hi]; exact (hg _ (hle i hi)).1) N1
  have hpr := process_single i1 hx
  have ly := i1.length x hx
  refine ⟨x, f x, hx, fun b hb => ?_, ?_, ?_, hpr, fun b hb => ?_, ?_⟩
  · obtain ⟨i, hi, rfl⟩ := List.getElem_of_mem hb
    have := (hg _ (hle i (by omega))).1
    rwa [← nth_eq_getElem hi, hxdef, nth_tab (by omega)]
  · rw [norm2_eq hxv]; linarith
  · rw [norm2_eq hxv]; linarith
  · obtain ⟨i, hi, rfl⟩ := List.getElem_of_mem hb
    have := k1 i (by omega)
    rwa [nth_eq_getElem hi] at this
  · have hdl : (dht (x.map val)).length = n := by rw [length_dht, hxv]
    rw [norm2_eq hdl, nrm_dht hxv, norm2_sub (n := n) (by rw [List.length_map, ly]) hdl]
    simp only [hm.nth_map]
    -- the norm is too small
    have l1 := st.lip (x.map val) x0 hxv hx0
    have t1 := nrm_sub_le n (nth (fr (x.map val))) (nth (fr x0)) fun _ => 0
    have t2 := nrm_sub_le n (fun i => val (nth (f x) i)) (nth (fr (x.map val))) fun _ => 0
    have t3 := nrm_sub_le n (nth (dht (x.map val))) (fun i => val (nth (f x) i)) fun _ => 0
    simp only [sub_zero] at t1 t2 t3
    rw [nrm_symm n (nth (dht (x.map val))) fun i => val (nth (f x) i)] at t3
    have eX : nrm n (fun i => nth (dht (x.map val)) i) = √n * nrm n (nth (x.map val)) := nrm_dht hxv
    have eF : nrm n (fun i => nth (fr x0) i) ≤ ρ * √2 * √n := loss
    have eθ := mul_le_mul_of_nonneg_right hθ hs
    have d1 := mul_le_mul_of_nonneg_left dist hs
    have N3 := mul_le_mul_of_nonneg_left N1 hs
    have N4 := mul_le_mul_of_nonneg_left N2 hs
    have N5 : θ / 2 * (√n * nrm n (nth (x.map val))) ≤ θ / 2 * (√n * (1 + 1 / 32)) := by
      gcongr
      linarith
    have hp : 0 ≤ θ * √n := by positivity
    rw [eX] at t3
    linarith

end

end RustDHT
