import Verif.Proofs.FarOff
import Verif.Props.Stability

/-! # How far off a composition with a large `Radix4` is in floating point -/

namespace RustDHT

open Finset

/-- The signal can have norm 1. -/
theorem FarOff.unit {n : ℕ} {f : List ℝ → List ℝ} (hlin : LinearFn n f) (h : FarOff n f) :
    ∃ x, x.length = n ∧ nrm n (nth x) = 1 ∧ √2 * √n ≤ nrm n fun k => nth (f x) k - nth (dht x) k := by
  obtain ⟨x, hx, h0, h1⟩ := h
  set c := (nrm n (nth x))⁻¹ with hc
  have hc0 : 0 ≤ c := inv_nonneg.2 h0.le
  have hcn : c * nrm n (nth x) = 1 := inv_mul_cancel₀ h0.ne'
  have hy : (tab n fun i => c * nth x i).length = n := length_tab _ _
  have e1 : ∀ k < n, nth (f (tab n fun i => c * nth x i)) k = c * nth (f x) k := by
    intro k hk
    rw [hlin _ hy k hk, hlin _ hx k hk, mul_sum]
    exact sum_congr rfl fun i hi => by rw [nth_tab (mem_range.1 hi), mul_assoc]
  have e2 : ∀ k < n, nth (dht (tab n fun i => c * nth x i)) k = c * nth (dht x) k := by
    intro k hk
    rw [nth_dht hy hk, nth_dht hx hk, hart, hart, mul_sum]
    exact sum_congr rfl fun i hi => by rw [nth_tab (mem_range.1 hi), mul_assoc]
  refine ⟨_, hy, ?_, ?_⟩
  · rw [← hcn, ← nrm_mul n hc0]
    exact nrm_congr fun i hi => nth_tab hi
  · have e3 : (nrm n fun k => nth (f (tab n fun i => c * nth x i)) k - nth (dht (tab n fun i => c * nth x i)) k)
        = c * nrm n fun k => nth (f x) k - nth (dht x) k := by
      rw [← nrm_mul n hc0]
      exact nrm_congr fun k hk => by rw [e1 k hk, e2 k hk, mul_sub]
    rw [e3]
    calc √2 * √n = c * (√2 * (√n * nrm n (nth x))) := by linear_combination (-√2 * √n) * hcn
      _ ≤ _ := by gcongr

variable {T : Type} [Zero T] [Add T] [Sub T] [Mul T] [Neg T] [FftNum T]
variable {fin : T → Prop} {val : T → ℝ} {u η Ω : ℝ} {t s : ℕ}

theorem growth_le {u : ℝ} {D : ℕ} (hu0 : 0 ≤ u) (h : D * u ≤ 1 / 64) : (1 + u) ^ D ≤ 1 + 1 / 32 := by
  calc (1 + u) ^ D ≤ Real.exp u ^ D := pow_le_pow_left₀ (by linarith) (by rw [add_comm]; exact Real.add_one_le_exp u) _
    _ = Real.exp (D * u) := by rw [← Real.exp_nat_mul]
    _ ≤ 1 / (1 - D * u) := Real.exp_bound_div_one_sub_of_interval (by positivity) (by linarith)
    _ ≤ 1 + 1 / 32 := by
      rw [div_le_iff₀ (by linarith)]
      linarith

/-- A signal of norm about 1: the roundings make at most a twentieth of the norm of the DHT. -/
theorem float_near (hm : FloatModel fin val u η Ω t s) {n : ℕ} {f : List T → List T} {fr : List ℝ → List ℝ} {a : Stab}
    (st : StabStage fin val u η Ω n f fr a) (h1 : (a.depth + 1 : ℕ) * u ≤ 1 / 64) (h2 : (a.under + 1 : ℕ) * η * √n ≤ 1 / 64)
    (h3 : 5 * a.big * √n ≤ Ω) {x : List T} (hx : x.length = n) (hf : ∀ i < n, fin (nth x i)) (N1 : nrm n (nth (x.map val)) ≤ 1 + 1 / 32) :
    (∀ i < n, fin (nth (f x) i)) ∧ nrm n (fun i => val (nth (f x) i) - nth (fr (x.map val)) i) ≤ √n * (1 / 20) := by
  have hu0 := hm.u_nonneg
  have hη := hm.η_nonneg
  have hs := Real.sqrt_nonneg (n : ℝ)
  have hN : nrm n (fun i => val (nth x i)) = nrm n (nth (x.map val)) := nrm_congr fun i _ => (hm.nth_map x i).symm
  have hN0 := nrm_nonneg n (nth (x.map val))
  have hD : (1 + u) ^ a.depth ≤ 1 + 1 / 32 := by
    refine growth_le hu0 (le_trans ?_ h1)
    refine mul_le_mul_of_nonneg_right ?_ hu0
    exact_mod_cast Nat.le_succ _
  have hU : a.under * η * √n ≤ 1 / 64 := by
    refine le_trans ?_ h2
    refine mul_le_mul_of_nonneg_right (mul_le_mul_of_nonneg_right ?_ hη) hs
    exact_mod_cast Nat.le_succ _
  have hU0 : 0 ≤ a.under * η * √n := by positivity
  have hP0 : 1 ≤ (1 + u) ^ a.depth := one_le_pow₀ (by linarith)
  obtain ⟨k1, k2⟩ := st.err x hx hf (by
    rw [hN]
    unfold bnd
    refine le_trans ?_ h3
    have h4 : (1 + u) ^ a.depth * (max (nrm n (nth (x.map val))) 1 + a.under * η * √n) ≤ 5 := by
      have : max (nrm n (nth (x.map val))) 1 ≤ 1 + 1 / 32 := max_le N1 (by norm_num)
      calc _ ≤ (1 + 1 / 32) * ((1 + 1 / 32) + 1 / 64) := by gcongr
        _ ≤ (5 : ℝ) := by norm_num
    calc (a.big : ℝ) * (√n * ((1 + u) ^ a.depth * (max (nrm n (nth (x.map val))) 1 + a.under * η * √n)))
        ≤ a.big * (√n * 5) := by gcongr
      _ = _ := by ring)
  rw [hN] at k2
  unfold bnd at k2
  refine ⟨k1, k2.trans (mul_le_mul_of_nonneg_left ?_ hs)⟩
  generalize (1 + u) ^ a.depth = P at *
  generalize (a.under : ℝ) * η * √n = w at *
  generalize nrm n (nth (x.map val)) = N at *
  nlinarith

theorem nrm_symm (n : ℕ) (f g : ℕ → ℝ) : nrm n (fun i => f i - g i) = nrm n (fun i => g i - f i) := by
  simp only [nrm]
  congr 1
  exact sum_congr rfl fun i _ => by ring

theorem sqrt_two_gt : (1.414 : ℝ) ≤ √2 := by
  rw [Real.le_sqrt' (by norm_num)]
  norm_num

theorem plan_far_float (p : Plan) (hp : p.RadersExact) (hn : ¬ p.SmallRadix4) (hm : FloatModel fin val u η Ω t s)
    (near : ∀ r : ℝ, |r| ≤ 1 → ∃ a, fin a ∧ |val a - r| ≤ u * |r| + η) (d : Dht T) (hd : p.build T = .ok d) (hpos : 0 < d.len)
    (a : Stab) (ha : a = p.stability t s) (h1 : (a.depth + 1 : ℕ) * u ≤ 1 / 64) (h2 : (a.under + 1 : ℕ) * η * √d.len ≤ 1 / 64)
    (h3 : 5 * a.big * √d.len ≤ Ω) :
    ∃ x y, x.length = d.len ∧ (∀ b ∈ x, fin b) ∧ 1 / 2 ≤ norm2 (x.map val) ∧ norm2 (x.map val) ≤ 2 ∧
      d.process x = .ok y ∧ (∀ b ∈ y, fin b) ∧
      5 / 4 * norm2 (dht (x.map val)) ≤ norm2 (List.zipWith (· - ·) (y.map val) (dht (x.map val))) := by
  have hu0 := hm.u_nonneg
  have hη := hm.η_nonneg
  obtain ⟨-, dr, -, -, -, -, hr, -⟩ := C40_plan_rounding p hm d hd
  obtain ⟨hl, -, f, fr, i1, i2, st⟩ := plan_stability hm p hp d dr hd hr
  have st := st hpos
  subst ha
  set a := p.stability t s with ha
  set n := d.len with hnn
  have far := plan_far p hp hn dr hr (by omega) fr i2
  rw [hl] at far
  have lin := plan_linear p dr hr i2
  rw [hl] at lin
  obtain ⟨x0, hx0, n0, far⟩ := far.unit lin
  have hle : ∀ i < n, |nth x0 i| ≤ 1 := fun i hi => n0 ▸ abs_le_nrm hi (nth x0)
  choose! g hg using near
  have hx : (tab n fun i => g (nth x0 i)).length = n := length_tab _ _
  have hv : ∀ i < n, nth ((tab n fun i => g (nth x0 i)).map val) i = val (g (nth x0 i)) := fun i hi => by
    rw [hm.nth_map, nth_tab hi]
  set x := tab n fun i => g (nth x0 i) with hxdef
  have hxv : (x.map val).length = n := by simp [hx]
  -- the rounded signal is near
  have hnη : η * √n ≤ 1 / 64 := by
    refine le_trans ?_ h2
    rw [mul_assoc]
    refine le_mul_of_one_le_left (by positivity) ?_
    exact_mod_cast Nat.le_add_left 1 _
  have hu : u ≤ 1 / 64 := by
    refine le_trans ?_ h1
    refine le_mul_of_one_le_left hu0 ?_
    exact_mod_cast Nat.le_add_left 1 _
  have dist : nrm n (fun i => nth (x.map val) i - nth x0 i) ≤ 1 / 32 := by
    have h : nrm n (fun i => nth (x.map val) i - nth x0 i) ≤ nrm n (fun i => u * |nth x0 i| + η) :=
      nrm_mono fun i hi => by rw [hv i hi]; exact (hg _ (hle i hi)).2
    have h' := nrm_add_le n (fun i => u * |nth x0 i|) fun _ => η
    have e1 : nrm n (fun i => u * |nth x0 i|) = u := by
      rw [nrm_mul n hu0, show nrm n (fun i => |nth x0 i|) = 1 by rw [← n0]; simp only [nrm, sq_abs], mul_one]
    rw [e1, nrm_const n hη] at h'
    linarith [mul_comm η √(n : ℝ)]
  have N1 : nrm n (nth (x.map val)) ≤ 1 + 1 / 32 := by
    have h := nrm_add_le n (fun i => nth (x.map val) i - nth x0 i) (nth x0)
    simp only [sub_add_cancel] at h
    linarith
  have N2 : 1 - 1 / 32 ≤ nrm n (nth (x.map val)) := by
    have h := nrm_sub_le n (nth x0) (nth (x.map val)) fun _ => 0
    simp only [sub_zero] at h
    rw [nrm_symm] at h
    have : nrm n (nth x0) = 1 := n0
    linarith
  have hs := Real.sqrt_nonneg (n : ℝ)
  obtain ⟨k1, k4⟩ := float_near hm st h1 h2 h3 hx (fun i hi => by rw [hxdef, nth_tab hi]; exact (hg _ (hle i hi)).1) N1
  have hpr := process_single i1 hx
  have ly := i1.length x hx
  refine ⟨x, f x, hx, fun b hb => ?_, ?_, ?_, hpr, fun b hb => ?_, ?_⟩
  · obtain ⟨i, hi, rfl⟩ := List.getElem_of_mem hb
    have := (hg _ (hle i (by omega))).1
    rwa [← nth_eq_getElem hi, hxdef, nth_tab (by omega)]
  · rw [norm2_eq hxv]; linarith
  · rw [norm2_eq hxv]; linarith
  · obtain ⟨i, hi, rfl⟩ := List.getElem_of_mem hb
    have := k1 i (by omega)
    rwa [nth_eq_getElem hi] at this
  · have hdl : (dht (x.map val)).length = n := by rw [length_dht, hxv]
    rw [norm2_eq hdl, nrm_dht hxv, norm2_sub (n := n) (by rw [List.length_map, ly]) hdl]
    simp only [hm.nth_map]
    -- the errors of the exact arithmetic at the rounded signal
    have l1 := st.lip x0 (x.map val) hx0 hxv
    have l2 := nrm_dht_sub hxv hx0
    have t1 := nrm_sub_le n (nth (fr x0)) (nth (fr (x.map val))) (nth (dht x0))
    have t2 := nrm_sub_le n (nth (fr (x.map val))) (nth (dht (x.map val))) (nth (dht x0))
    have t3 := nrm_sub_le n (nth (fr (x.map val))) (fun i => val (nth (f x) i)) (nth (dht (x.map val)))
    rw [nrm_symm n (nth x0)] at l1
    rw [nrm_symm n (nth (fr (x.map val))) fun i => val (nth (f x) i)] at t3
    have d1 := mul_le_mul_of_nonneg_left dist hs
    have N3 := mul_le_mul_of_nonneg_left N1 hs
    have h15 := mul_le_mul_of_nonneg_right sqrt_two_gt hs
    linarith

/-- The unit impulses that `Radix4` moves. -/
theorem radix4_impulse_float {m : ℕ} (hm : FloatModel fin val u η Ω t s) (d : Dht T) (hd : radix4 T (2 ^ m) = .ok d)
    (a : Stab) (ha : a = (Plan.radix4 (2 ^ m)).stability t s) (h1 : (a.depth + 1 : ℕ) * u ≤ 1 / 64)
    (h2 : (a.under + 1 : ℕ) * η * √(2 ^ m : ℕ) ≤ 1 / 64) (h3 : 5 * a.big * √(2 ^ m : ℕ) ≤ Ω) (one : T) (o1 : fin one) (o2 : val one = 1)
    {i : ℕ} (hi : i < 2 ^ m) (hmove : r4Sigma (r4BaseLen m) (r4Levels m) i ≠ i) :
    ∃ y, d.process ((List.range (2 ^ m)).map fun j => if j = i then one else 0) = .ok y ∧ (∀ b ∈ y, fin b) ∧
      5 / 4 * √(2 ^ m : ℕ) ≤ norm2 (List.zipWith (· - ·) (y.map val)
        (dht ((List.range (2 ^ m)).map fun j => if j = i then (1 : ℝ) else 0))) := by
  have hdl : d.len = 2 ^ m := by rw [radix4_eq] at hd; cases hd; rfl
  obtain ⟨hl, -, f, fr, i1, i2, st⟩ := plan_stability hm (.radix4 (2 ^ m)) trivial d _ hd (radix4_eq m)
  have st := st (by rw [hdl]; positivity)
  subst ha
  rw [hdl] at st
  set x : List T := (List.range (2 ^ m)).map fun j => if j = i then one else 0 with hxdef
  have hx : x.length = 2 ^ m := by simp [hxdef]
  have hxt : x = tab (2 ^ m) fun j => if j = i then one else 0 := rfl
  have hxv : x.map val = unitAt (2 ^ m) i := by
    rw [hxt, unitAt]
    refine eq_tab (by simp) fun j hj => ?_
    rw [hm.nth_map, nth_tab hj]
    split_ifs
    exacts [o2, hm.zero.2]
  have e0 : (List.range (2 ^ m)).map (fun j => if j = i then (1 : ℝ) else 0) = unitAt (2 ^ m) i := rfl
  have N1 : nrm (2 ^ m) (nth (x.map val)) ≤ 1 + 1 / 32 := by rw [hxv, nrm_unitAt hi]; norm_num
  obtain ⟨k1, k4⟩ := float_near hm st h1 h2 h3 hx (fun j hj => by
    rw [hxt, nth_tab hj]
    split_ifs
    exacts [o1, hm.zero.1]) N1
  have ly := i1.length x (by rw [hx, hdl])
  have hx' : (x.map val).length = 2 ^ m := by simp [hx]
  have hdl' : (dht (unitAt (2 ^ m) i)).length = 2 ^ m := by rw [length_dht, length_unitAt]
  refine ⟨f x, process_single i1 (by rw [hx, hdl]), fun b hb => ?_, ?_⟩
  · obtain ⟨j, hj, rfl⟩ := List.getElem_of_mem hb
    have := k1 j (by omega)
    rwa [nth_eq_getElem hj] at this
  · rw [e0, norm2_sub (n := 2 ^ m) (by rw [List.length_map, ly, hdl]) hdl']
    simp only [hm.nth_map]
    have hfr : fr (unitAt (2 ^ m) i) = radix4Fn ℝ m (unitAt (2 ^ m) i) :=
      i2.unique (radix4_implements (radix4_eq m)) (by rw [length_unitAt]; rfl) (by show 0 < 2 ^ m; positivity)
    rw [hxv, hfr] at k4
    have far := radix4_impulse hi hmove
    have t3 := nrm_sub_le (2 ^ m) (nth (radix4Fn ℝ m (unitAt (2 ^ m) i))) (fun i => val (nth (f x) i)) (nth (dht (unitAt (2 ^ m) i)))
    rw [nrm_symm _ (nth (radix4Fn ℝ m (unitAt (2 ^ m) i))) fun i => val (nth (f x) i)] at t3
    have h15 := mul_le_mul_of_nonneg_right sqrt_two_gt (Real.sqrt_nonneg ((2 ^ m : ℕ) : ℝ))
    have := Real.sqrt_nonneg ((2 ^ m : ℕ) : ℝ)
    linarith

end RustDHT
