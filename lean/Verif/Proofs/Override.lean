import Verif.Proofs.Stateful
import Verif.Proofs.MachineWrap
import Verif.Proofs.Orthogonality
import Verif.Spec.Override

/-! # `RadersAlgorithm` around an object with its own `process` -/

namespace RustDHT

open Finset

section
variable {σ T : Type} [Add T] [Sub T] [Mul T] [Neg T] [Zero T] [FftNum T]

/-- The constructor, for any result of the inner `process`. -/
theorem liveRaders_process {l : LiveDht σ T} {n i o : Nat} {f : List T → List T} (h : RightButProcess l n i o f)
    (hp : (n + 1).Prime) (h2 : n + 1 ≠ 2) (h32 : n + 1 < 2 ^ 32) :
    ∃ g gi, (1 < g ∧ g < n + 1 ∧ orderOf (g : ZMod (n + 1)) = n ∧ 0 < gi ∧ gi < n + 1 ∧
        (g : ZMod (n + 1)) * (gi : ZMod (n + 1)) = 1 ∧ orderOf (gi : ZMod (n + 1)) = n) ∧ ∀ st, ∃ st1, l.len st = .ok (n, st1) ∧
      (∀ e, l.process (rdKernel T (n + 1) gi) st1 = .error e → liveRaders l st = .error e) ∧
      ∀ y st2, l.process (rdKernel T (n + 1) gi) st1 = .ok (y, st2) → y.length = n →
        ∃ d st3, liveRaders l st = .ok (d, st3) ∧
          LiveImplements d (n + 1) (n + if i ≤ n then 0 else i) (if i ≤ n then 0 else i) (rdFn (n + 1) g gi (rdTw y n) f) := by
  obtain ⟨g, eg, hg1, hg, ho, _⟩ := primitiveRoot_ok hp h2 h32
  obtain ⟨hi0, hi, him⟩ := rootInverse_ok hp (by omega) hg
  have hio := (orderOf_inverse him).trans ho
  have hp2 := hp.two_le
  refine ⟨g, rootInverse g (n + 1), ⟨hg1, hg, by simpa using ho, hi0, hi, him, by simpa using hio⟩, fun st => ?_⟩
  obtain ⟨st1, e1⟩ : ∃ st1, l.len st = .ok (n, st1) := h.len st
  have hk := radersKernelInput_ok (T := T) (p := n + 1) (steps_lt h32.le hi) (by omega) hi
  rw [Nat.add_sub_cancel] at hk
  refine ⟨st1, e1, fun e he => ?_, fun y st2 hy hyl => ?_⟩
  · simp only [liveRaders]
    rw [e1, ok_bind]
    simp only
    rw [millerRabin, decide_eq_true hp, assert_true, ok_bind, eg, ok_bind]
    simp only
    rw [hk, ok_bind, he]
    rfl
  obtain ⟨st3, e3⟩ : ∃ st3, l.inplaceScratchLen st2 = .ok (i, st3) := h.inplaceScratchLen st2
  have : Nonempty σ := ⟨st⟩
  refine ⟨liveBoilerplate (n + 1) (n + if i ≤ n then 0 else i) (if i ≤ n then 0 else i)
    (liveRadersPerformInplace l (n + 1) g (rootInverse g (n + 1)) (tab (n / 2 + 1) (rdTw y n)))
    (liveRadersPerformOop l (n + 1) g (rootInverse g (n + 1)) (tab (n / 2 + 1) (rdTw y n))), st3, ?_, ?_⟩
  · simp only [liveRaders]
    rw [e1, ok_bind]
    simp only
    rw [millerRabin, decide_eq_true hp, assert_true, ok_bind, eg, ok_bind]
    simp only
    rw [hk, ok_bind, hy, ok_bind]
    simp only
    rw [radersTwiddles_ok hyl (by omega), ok_bind, e3, ok_bind]
  · have hlen : n = n + 1 - 1 := by omega
    have hat : ∀ st, Implements (l.at n i o st) f := fun st => LiveImplements.at h st
    have perf : ∀ st st', Performs (n + 1) (n + if i ≤ n then 0 else i) (if i ≤ n then 0 else i)
        (rdFn (n + 1) g (rootInverse g (n + 1)) (rdTw y n) f)
        (radersPerformInplace2 (l.at n i o st) (l.at n i o st') (n + 1) g (rootInverse g (n + 1)) (tab (n / 2 + 1) (rdTw y n)))
        (radersPerformOop2 (l.at n i o st) (l.at n i o st') (n + 1) g (rootInverse g (n + 1)) (tab (n / 2 + 1) (rdTw y n))) := by
      intro st st'
      have := raders_performs2 (hat st) (hat st') rfl rfl (p := n + 1) (g := g) (gi := rootInverse g (n + 1)) hlen hp h2
        (steps_lt h32.le hg) (steps_lt h32.le hi) (by omega) hg hi0 hi hio (rdTw y n) rfl
      simp only [Nat.add_sub_cancel] at this
      exact this
    refine liveBoilerplate_implements (fun h0 => by omega) (fun _ c s st => ?_) fun _ a b s st => ?_
    · obtain ⟨st1, e⟩ := liveRadersPerformInplace_sim l n i o (n + 1) g (rootInverse g (n + 1)) _ c s st
      exact ⟨_, _, perf st st1, e⟩
    · obtain ⟨st1, e⟩ := liveRadersPerformOop_sim l n i o (n + 1) g (rootInverse g (n + 1)) _ a b s st
      exact ⟨_, _, perf st st1, e⟩

end

theorem rdKernel_eq (n w : ℕ) : rdKernel ℝ (n + 1) w = powerKernel n w := by
  rw [rdKernel, powerKernel, Nat.add_sub_cancel]
  refine List.map_congr_left fun m _ => ?_
  rw [dht_twiddle]
  generalize w ^ m % (n + 1) = r
  change _ * (((1 : ℕ) : ℝ) / ((n : ℕ) : ℝ)) = _
  rw [ca, cs, sn, cas]
  push_cast
  ring

theorem length_powerKernel (n w : ℕ) : (powerKernel n w).length = n := by simp [powerKernel]

variable {n g gi : ℕ}

theorem dlog_pow (hp : (n + 1).Prime) (h0 : 0 < gi) (hlt : gi < n + 1) (ho : orderOf (gi : ZMod (n + 1)) = n) (m : ℕ) :
    dlog gi (n + 1) (gi ^ m % (n + 1)) = m % n := by
  have hn : 0 < n := by have := hp.two_le; omega
  have ho' : orderOf (gi : ZMod (n + 1)) = n + 1 - 1 := by simpa using ho
  obtain ⟨h1, h2⟩ := dlog_spec hp h0 hlt ho' (q := gi ^ m % (n + 1)) (pow_mod_pos hp h0 hlt m) (Nat.mod_lt _ (by omega))
  refine pow_mod_inj ho' h1 (by have := Nat.mod_lt m hn; omega) ?_
  rw [h2, ← ZMod.natCast_eq_natCast_iff']
  push_cast
  rw [← pow_mod_orderOf (gi : ZMod (n + 1)) m, ho]

/-- What the algorithm computes with any table. -/
theorem rdFn_filtered (hp : (n + 1).Prime) (h2 : n + 1 ≠ 2) (hg0 : 0 < g) (hg : g < n + 1)
    (ho : orderOf (g : ZMod (n + 1)) = n) (hgi0 : 0 < gi) (hgi : gi < n + 1)
    (him : (g : ZMod (n + 1)) * (gi : ZMod (n + 1)) = 1) (hio : orderOf (gi : ZMod (n + 1)) = n) {x y : List ℝ}
    (hx : x.length = n + 1) (hy : y.length = n) : Filtered n gi y x (rdFn (n + 1) g gi (rdTw y n) dht x) := by
  have hp2 := hp.two_le
  have hn : 0 < n := by omega
  have he : n % 2 = 0 := by have := hp.eq_two_or_odd.resolve_left h2; omega
  have hn0 : (n : ℝ) ≠ 0 := by positivity
  have ho' : orderOf (g : ZMod (n + 1)) = n + 1 - 1 := by simpa using ho
  have hio' : orderOf (gi : ZMod (n + 1)) = n + 1 - 1 := by simpa using hio
  set a : ℕ → ℝ := fun j => nth x (g ^ j % (n + 1)) with ha
  set b : ℕ → ℝ := fun i => nth (dht y) (i % n) / n with hb
  have hper : ∀ i, b (i + n) = b i := fun i => by simp [hb]
  have hyb : y = tab n fun k => hart n b k := by
    rw [← dht_tab]
    refine dht_injective (by simp [hy]) ?_
    rw [dht_dht, length_tab]
    refine list_ext_nth (by simp [hy]) fun i hi => ?_
    rw [length_dht, hy] at hi
    rw [nth_eq_getElem (l := (tab n b).map _) (by simpa using hi), List.getElem_map, ← nth_eq_getElem (by simpa using hi), nth_tab hi]
    simp only [hb, Nat.mod_eq_of_lt hi]
    field_simp
  have hin : rdIn (n + 1) g x = tab n a := by rw [rdIn, Nat.add_sub_cancel]
  have hmid : dht (rdMid (n + 1) (rdTw y n) (nth x 0) (dht (rdIn (n + 1) g x)))
      = tab n fun l => n * (∑ j ∈ range n, a j * b (l + (n - j))) + nth x 0 := by
    rw [hin, dht_tab, rdMid, Nat.add_sub_cancel, hyb]
    exact Machine.conv_second hn he a b (nth x 0) hper
  have key : ∀ m, n * (∑ j ∈ range n, a j * b (m + (n - j))) =
      ∑ j ∈ range n, nth x (gi ^ j % (n + 1)) * nth (dht y) ((j + m) % n) := by
    intro m
    set F : ℕ → ℝ := fun r => if r = 0 then 0 else nth x r * nth (dht y) ((dlog gi (n + 1) r + m) % n) with hF
    have h1 := sum_generator hp hg0 hg ho' F
    have h3 := sum_generator hp hgi0 hgi hio' F
    rw [h1, Nat.add_sub_cancel] at h3
    have h3 := add_left_cancel h3
    have pos : ∀ r j, 0 < r → r < n + 1 → r ^ j % (n + 1) ≠ 0 := fun r j h0 h => by
      have := pow_mod_pos hp h0 h j; omega
    rw [mul_sum]
    refine (sum_congr rfl fun j hj => ?_).trans (h3.trans (sum_congr rfl fun j hj => ?_))
    · have hj := mem_range.1 hj
      simp only [hF, if_neg (pos g j hg0 hg), ha, hb]
      have e5 : g ^ j % (n + 1) = gi ^ (n - j) % (n + 1) := by
        rw [← ZMod.natCast_eq_natCast_iff']
        push_cast
        have e3 : (g : ZMod (n + 1)) ^ j * (gi : ZMod (n + 1)) ^ j = 1 := by rw [← mul_pow, him, one_pow]
        have e4 : (gi : ZMod (n + 1)) ^ (n - j) * (gi : ZMod (n + 1)) ^ j = 1 := by
          rw [← pow_add, Nat.sub_add_cancel hj.le]
          exact orderOf_dvd_iff_pow_eq_one.1 (by rw [hio])
        calc (g : ZMod (n + 1)) ^ j = (g : ZMod (n + 1)) ^ j * ((gi : ZMod (n + 1)) ^ (n - j) * (gi : ZMod (n + 1)) ^ j) := by
              rw [e4, mul_one]
          _ = (g : ZMod (n + 1)) ^ j * (gi : ZMod (n + 1)) ^ j * (gi : ZMod (n + 1)) ^ (n - j) := by ring
          _ = _ := by rw [e3, one_mul]
      rw [show dlog gi (n + 1) (g ^ j % (n + 1)) = (n - j) % n by rw [e5, dlog_pow hp hgi0 hgi hio], Nat.mod_add_mod, add_comm m]
      field_simp
    · have hj := mem_range.1 hj
      simp only [hF, if_neg (pos gi j hgi0 hgi)]
      rw [dlog_pow hp hgi0 hgi hio, Nat.mod_add_mod]
  have getD_nth : ∀ (l : List ℝ) i, l.getD i 0 = nth l i := fun l i => by rw [List.getD_eq_getElem?_getD]; rfl
  refine ⟨by simp [rdFn], ?_, fun m hm => ?_⟩
  · simp only [getD_nth]
    rw [sum_generator hp hg0 hg ho' (nth x), Nat.add_sub_cancel]
    show nth x 0 + nth (dht (rdIn (n + 1) g x)) 0 = _
    rw [hin, dht_tab, nth_tab hn, hart]
    simp [ha]
  · simp only [getD_nth]
    obtain ⟨q, hq⟩ : ∃ q, gi ^ m % (n + 1) = q + 1 := ⟨gi ^ m % (n + 1) - 1, by have := pow_mod_pos hp hgi0 hgi m; omega⟩
    have hq1 : q < n := by have := Nat.mod_lt (gi ^ m) (show 0 < n + 1 by omega); omega
    have hdl := dlog_pow hp hgi0 hgi hio m
    rw [hq, Nat.mod_eq_of_lt hm] at hdl
    rw [hq]
    show nth (tab (n + 1 - 1) _) q = _
    rw [Nat.add_sub_cancel, nth_tab hq1, hdl, hmid, nth_tab hm, key, add_comm]
    congr 1
    refine sum_congr rfl fun j hj => ?_
    rw [dhtCoeff_eq, ← nth_dht rfl (by rw [hy]; exact Nat.mod_lt _ hn)]

/-- The numbers in the definition of the DHT of length `n + 1` are the DHT of the DHT of the kernel. -/
theorem dhtCoeff_dht_kernel (hp : (n + 1).Prime) (m : ℕ) (hm : m < n) :
    dhtCoeff (dht (powerKernel n gi)) m = ca (n + 1) ((gi ^ m % (n + 1) : ℕ) : ℤ) := by
  have hn0 : (n : ℝ) ≠ 0 := by
    have : 0 < n := by have := hp.two_le; omega
    positivity
  have hl : (dht (powerKernel n gi)).length = n := by rw [length_dht, length_powerKernel]
  rw [dhtCoeff_eq, ← nth_dht rfl (by rw [hl]; exact hm), dht_dht, length_powerKernel,
    nth_eq_getElem (by simpa [length_powerKernel] using hm), List.getElem_map]
  simp only [powerKernel, List.getElem_map, List.getElem_range]
  generalize gi ^ m % (n + 1) = r
  rw [ca, cs, sn, cas]
  push_cast
  field_simp

theorem unit_one (i : ℕ) : nth ((0 : ℝ) :: 1 :: List.replicate (n - 1) 0) i = if i = 1 then 1 else 0 := by
  match i with
  | 0 => rfl
  | 1 => rfl
  | i + 2 =>
    simp [nth, List.getElem?_replicate]
    split <;> simp

/-- The algorithm is right only if the table is. -/
theorem rdFn_dht_only (hp : (n + 1).Prime) (h2 : n + 1 ≠ 2)
    (hio : orderOf (gi : ZMod (n + 1)) = n) {f : List ℝ → List ℝ} {y : List ℝ} (hy : y.length = n)
    (hf : ∀ x, x.length = n + 1 → Filtered n gi y x (f x)) (he : ∀ x, x.length = n + 1 → f x = dht x) :
    y = dht (powerKernel n gi) := by
  have hp2 := hp.two_le
  have hn : 1 < n := by omega
  have getD_nth : ∀ (l : List ℝ) i, l.getD i 0 = nth l i := fun l i => by rw [List.getD_eq_getElem?_getD]; rfl
  set x : List ℝ := (0 : ℝ) :: 1 :: List.replicate (n - 1) 0 with hxd
  have hx : x.length = n + 1 := by simp [hxd]; omega
  refine dht_injective (by rw [hy, length_dht, length_powerKernel]) ?_
  refine list_ext_nth (by simp [hy, length_powerKernel]) fun m hm => ?_
  rw [length_dht, hy] at hm
  have h := (hf x hx).rest m hm
  rw [he x hx] at h
  simp only [getD_nth] at h
  have hone : ∀ j < n, (gi ^ j % (n + 1) = 1 ↔ j = 0) := by
    intro j hj
    constructor
    · intro e
      refine pow_mod_inj (g := gi) (p := n + 1) (by simpa using hio) (by omega) (by omega) ?_
      rw [e, pow_zero, Nat.mod_eq_of_lt (by omega)]
    · rintro rfl
      rw [pow_zero, Nat.mod_eq_of_lt (by omega)]
  rw [nth_dht hx (Nat.mod_lt _ (by omega)), hart, sum_eq_single 1 (fun i _ hi => by rw [hxd, unit_one, if_neg hi, zero_mul])
    (fun h => by simp at h; omega), hxd, unit_one, unit_one, if_pos rfl, if_neg (by omega), zero_add, one_mul,
    sum_eq_single 0 (fun j hj h0 => by
      rw [unit_one, if_neg (fun e => h0 ((hone j (mem_range.1 hj)).1 e)), zero_mul]) (fun h => by simp at h; omega), unit_one,
    if_pos ((hone 0 (by omega)).2 rfl), one_mul, zero_add, Nat.mod_eq_of_lt hm] at h
  have hr := dhtCoeff_dht_kernel (gi := gi) hp m hm
  rw [dhtCoeff_eq, ← nth_dht rfl (by rw [length_dht, length_powerKernel]; exact hm)] at hr
  rw [dhtCoeff_eq, ← nth_dht rfl (by rw [hy]; exact hm)] at h
  rw [← h, hr]
  congr 1
  push_cast
  ring

/-- The algorithm is right if the table is. -/
theorem rdFn_dht_if (hp : (n + 1).Prime) (h2 : n + 1 ≠ 2) (hg0 : 0 < g) (hg : g < n + 1) (ho : orderOf (g : ZMod (n + 1)) = n)
    (hgi0 : 0 < gi) (hgi : gi < n + 1) (him : (g : ZMod (n + 1)) * (gi : ZMod (n + 1)) = 1)
    (hio : orderOf (gi : ZMod (n + 1)) = n) {x : List ℝ} (hx : x.length = n + 1) :
    rdFn (n + 1) g gi (rdTw (dht (powerKernel n gi)) n) dht x = dht x := by
  rw [← rdKernel_eq]
  exact rdFn_dht hp h2 hg0 hg (by simpa using ho) hgi0 hgi him (by simpa using hio) hx

/-- The kernel is not zero: its sum is not. -/
theorem kernel_ne_zero (hp : (n + 1).Prime) (hgi0 : 0 < gi) (hgi : gi < n + 1) (hio : orderOf (gi : ZMod (n + 1)) = n) :
    ∃ m < n, nth (powerKernel n gi) m ≠ 0 := by
  by_contra hc
  push Not at hc
  have hp2 := hp.two_le
  have h1 := sum_generator hp hgi0 hgi (by simpa using hio) fun i => ca (n + 1) (i : ℤ)
  have h2 := sum_ca_mul (n := n + 1) (by omega) 1 0
  rw [if_neg (by
    rintro ⟨k, hk⟩
    have : (((n + 1 : ℕ) : ℤ)) ∣ 1 := ⟨k, by linarith⟩
    have := Int.le_of_dvd one_pos this
    omega)] at h2
  simp only [zero_mul, ca_zero, mul_one, one_mul] at h2
  rw [h2, Nat.add_sub_cancel, sum_eq_zero fun m hm => ?_] at h1
  · simp [ca_zero] at h1
  · have hm := mem_range.1 hm
    have h3 := hc m hm
    rw [← dhtCoeff_dht_kernel hp m hm, dhtCoeff_eq, ← nth_dht rfl (by simpa [length_powerKernel] using hm), dht_dht,
      nth_eq_getElem (by simpa [length_powerKernel] using hm), List.getElem_map,
      ← nth_eq_getElem (by simpa [length_powerKernel] using hm), h3, mul_zero]

theorem LiveImplements.same {σ : Type} {d : LiveDht σ ℝ} {n i o : ℕ} {f g : List ℝ → List ℝ} (hf : LiveImplements d n i o f)
    (hg : LiveImplements d n i o g) (st : σ) (hn : 0 < n) {x : List ℝ} (hx : x.length = n) : f x = g x :=
  (hf.at st).unique (hg.at st) (x := x) hx hn

theorem LiveImplements.scratch_unique {σ : Type} {d : LiveDht σ ℝ} {n n' i o i' o' : ℕ} {f g : List ℝ → List ℝ}
    (hf : LiveImplements d n i o f) (hg : LiveImplements d n' i' o' g) (st : σ) : i' = i ∧ o' = o := by
  obtain ⟨s1, e1⟩ := hf.inplaceScratchLen st
  obtain ⟨s2, e2⟩ := hg.inplaceScratchLen st
  obtain ⟨s3, e3⟩ := hf.oopScratchLen st
  obtain ⟨s4, e4⟩ := hg.oopScratchLen st
  rw [e1] at e2
  rw [e3] at e4
  cases e2
  cases e4
  exact ⟨rfl, rfl⟩

/-- A multiple of the transform of the kernel other than the transform is another list. -/
theorem scaled_kernel_ne (hp : (n + 1).Prime) (hgi0 : 0 < gi) (hgi : gi < n + 1) (hio : orderOf (gi : ZMod (n + 1)) = n) {c : ℝ}
    (hc : c ≠ 1) : (dht (powerKernel n gi)).map (c * ·) ≠ dht (powerKernel n gi) := by
  intro e
  obtain ⟨m, hm, hk⟩ := kernel_ne_zero hp hgi0 hgi hio
  have hp2 := hp.two_le
  have hz : ∀ j < n, nth (dht (powerKernel n gi)) j = 0 := fun j hj => by
    have hl : j < (dht (powerKernel n gi)).length := by simpa [length_powerKernel] using hj
    have h1 := congrArg (fun l => nth l j) e
    rw [nth_eq_getElem (by simpa using hl), List.getElem_map, ← nth_eq_getElem hl] at h1
    have h2 : (c - 1) * nth (dht (powerKernel n gi)) j = 0 := by linarith
    exact (mul_eq_zero.1 h2).resolve_left (sub_ne_zero.2 hc)
  have h3 : nth (dht (dht (powerKernel n gi))) m = 0 := by
    rw [nth_dht (n := n) (by simp [length_powerKernel]) hm]
    exact sum_eq_zero fun j hj => by rw [hz j (mem_range.1 hj), zero_mul]
  rw [dht_dht, nth_eq_getElem (by simpa [length_powerKernel] using hm), List.getElem_map,
    ← nth_eq_getElem (by simpa [length_powerKernel] using hm)] at h3
  rcases mul_eq_zero.1 h3 with h4 | h4
  · rw [length_powerKernel] at h4
    have : n = 0 := by exact_mod_cast h4
    omega
  · exact hk h4

/-- The kernel is not its own transform. -/
theorem kernel_ne_dht (hp : (n + 1).Prime) (h2 : n + 1 ≠ 2) (hgi0 : 0 < gi) (hgi : gi < n + 1)
    (hio : orderOf (gi : ZMod (n + 1)) = n) : powerKernel n gi ≠ dht (powerKernel n gi) := by
  intro e
  have hp2 := hp.two_le
  refine scaled_kernel_ne hp hgi0 hgi hio (c := n) (by
    intro hn
    have : n = 1 := by exact_mod_cast hn
    omega) ?_
  have h3 := dht_dht (powerKernel n gi)
  rw [length_powerKernel] at h3
  nth_rewrite 1 [← e]
  rw [← h3, ← e]
  exact e.symm

/-- All about the constructor over the reals, with the generator it uses. -/
theorem liveRaders_override {σ : Type} {l : LiveDht σ ℝ} {n i o : ℕ} (h : RightButProcess l n i o dht) (hp : (n + 1).Prime)
    (h2 : n + 1 ≠ 2) (h32 : n + 1 < 2 ^ 32) :
    ∃ w, (0 < w ∧ w < n + 1 ∧ orderOf (w : ZMod (n + 1)) = n) ∧ ∀ st, ∃ st1, l.len st = .ok (n, st1) ∧
      (∀ e, l.process (powerKernel n w) st1 = .error e → liveRaders l st = .error e) ∧
      ∀ y st2, l.process (powerKernel n w) st1 = .ok (y, st2) → y.length = n →
        ∃ d st3, liveRaders l st = .ok (d, st3) ∧
          (∃ f, LiveImplements d (n + 1) (n + if i ≤ n then 0 else i) (if i ≤ n then 0 else i) f ∧
            ∀ x, x.length = n + 1 → Filtered n w y x (f x)) ∧
          (LiveImplements d (n + 1) (n + if i ≤ n then 0 else i) (if i ≤ n then 0 else i) dht ↔ y = dht (powerKernel n w)) := by
  obtain ⟨g, w, ⟨g1, g2, g3, w0, w1, gw, w2⟩, run⟩ := liveRaders_process h hp h2 h32
  refine ⟨w, ⟨w0, w1, w2⟩, fun st => ?_⟩
  obtain ⟨st1, e1, fail, ok⟩ := run st
  rw [rdKernel_eq] at fail ok
  refine ⟨st1, e1, fail, fun y st2 ey hy => ?_⟩
  obtain ⟨d, st3, e, hd⟩ := ok y st2 ey hy
  have hf : ∀ x : List ℝ, x.length = n + 1 → Filtered n w y x (rdFn (n + 1) g w (rdTw y n) dht x) := fun x hx =>
    rdFn_filtered hp h2 (by omega) g2 g3 w0 w1 gw w2 hx hy
  refine ⟨d, st3, e, ⟨_, hd, hf⟩, fun hdht => ?_, fun hy' => ?_⟩
  · exact rdFn_dht_only hp h2 w2 hy hf fun x hx => hd.same hdht st (by omega) hx
  · subst hy'
    exact hd.congr fun x hx => rdFn_dht_if hp h2 (by omega) g2 g3 w0 w1 gw w2 hx

end RustDHT
