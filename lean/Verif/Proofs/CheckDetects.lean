import Verif.Proofs.CheckPlan
import Verif.Proofs.NonFinite

/-! # What a passed check says in floating point -/

set_option linter.unusedSectionVars false

namespace RustDHT

open Finset

section
variable {T : Type} [Zero T] [Add T] [Sub T] [Mul T] [Neg T] [FftNum T] [TestNum T]

theorem compare_assert_gen {v w : List T} {k : Unit → Res Unit}
    (h : (compareRealVectors v w >>= fun same => assert same .assertFailed >>= k) = .ok ()) :
    compareRealVectors v w = .ok true ∧ k () = .ok () := by
  obtain ⟨b, e, h⟩ := bind_eq_ok h
  cases b with
  | false => rw [assert_false] at h; cases h
  | true => exact ⟨e, by rwa [assert_true, ok_bind] at h⟩

/-- The comparisons that a passed check has made. -/
theorem check_compared {d : Dht T} {n : ℕ} {g : List T → List T} (hg : Implements (dhtNaive T n) g) {signal : List T}
    (hn : 0 < n) (hs : signal.length = n) (h : checkDhtAlgorithm signal d n = .ok ()) :
    d.len = n ∧
    (∃ X, d.process signal = .ok X ∧ compareRealVectors (g signal) X = .ok true) ∧
    (∃ X s, d.processWithScratch signal (List.replicate d.inplaceScratchLen 0) = .ok (X, s) ∧
      compareRealVectors (g signal) X = .ok true ∧
      (0 < s.length → ∃ Y t, d.processWithScratch signal (List.replicate s.length TestNum.dirty) = .ok (Y, t) ∧
        compareRealVectors (g signal) Y = .ok true)) ∧
    (∃ i X s, d.processOop signal (g signal) (List.replicate d.oopScratchLen 0) = .ok (i, X, s) ∧
      compareRealVectors (g signal) X = .ok true ∧
      (0 < s.length → ∃ i' Y t, d.processOop signal X (List.replicate s.length TestNum.dirty) = .ok (i', Y, t) ∧
        compareRealVectors (g signal) Y = .ok true)) := by
  unfold checkDhtAlgorithm at h
  have h0 : d.len = n := by
    by_contra hc
    rw [beq_false_of_ne hc, assert_false] at h
    cases h
  rw [beq_iff_eq.2 h0, assert_true, ok_bind] at h
  have hl : (dhtNaive T n).len = n := dhtNaive_len _
  obtain ⟨s0, e0, _⟩ := hg.inplace signal (List.replicate (dhtNaive T n).inplaceScratchLen 0)
    (by omega) (by rw [hl, hs]) (by simp)
  rw [hl, mapChunks_single hn hs] at e0
  simp only [e0, ok_bind] at h
  obtain ⟨X, e1, h⟩ := bind_eq_ok h
  obtain ⟨c1, h⟩ := compare_assert_gen h
  obtain ⟨⟨Y, s⟩, e2, h⟩ := bind_eq_ok h
  obtain ⟨c2, h⟩ := compare_assert_gen h
  have tail : ∀ h : (do
      let (input, output, scratch) ← d.processOop signal (g signal) (List.replicate d.oopScratchLen 0)
      let same ← compareRealVectors (g signal) output
      assert same .assertFailed
      if scratch.length > 0 then
        let scratch := List.replicate scratch.length TestNum.dirty
        let input ← copyFromSlice input signal
        let (_, output, _) ← d.processOop input output scratch
        let same ← compareRealVectors (g signal) output
        assert same .assertFailed : Res Unit) = .ok (),
      ∃ i X s, d.processOop signal (g signal) (List.replicate d.oopScratchLen 0) = .ok (i, X, s) ∧
        compareRealVectors (g signal) X = .ok true ∧
        (0 < s.length → ∃ i' Y t, d.processOop signal X (List.replicate s.length TestNum.dirty) = .ok (i', Y, t) ∧
          compareRealVectors (g signal) Y = .ok true) := by
    intro h
    obtain ⟨⟨i, Z, s⟩, e, h⟩ := bind_eq_ok h
    obtain ⟨c, h⟩ := compare_assert_gen h
    refine ⟨i, Z, s, e, c, fun hp => ?_⟩
    simp only [if_pos (show s.length > 0 from hp)] at h
    obtain ⟨b, eb, h⟩ := bind_eq_ok h
    rw [copyFromSlice_ok eb] at h
    obtain ⟨⟨i', Z', s'⟩, e', h⟩ := bind_eq_ok h
    obtain ⟨v, ev, h⟩ := bind_eq_ok h
    cases v with
    | false => rw [assert_false] at h; cases h
    | true => exact ⟨i', Z', s', e', ev⟩
  simp only at h
  split at h
  · obtain ⟨b, eb, h⟩ := bind_eq_ok h
    rw [copyFromSlice_ok eb] at h
    obtain ⟨⟨b', s'⟩, e', h⟩ := bind_eq_ok h
    obtain ⟨c', h⟩ := compare_assert_gen h
    exact ⟨h0, ⟨X, e1, c1⟩, ⟨Y, s, e2, c2, fun _ => ⟨b', s', e', c'⟩⟩, tail h⟩
  · rename_i hz
    exact ⟨h0, ⟨X, e1, c1⟩, ⟨Y, s, e2, c2, fun hp => absurd hp hz⟩, tail h⟩

theorem compare_length {v w : List T} {b : Bool} (h : compareRealVectors v w = .ok b) : v.length = w.length ∧
    b = TestNum.meanBelow ((v.zip w).foldl (fun error (p : T × T) => error + TestNum.abs (p.1 - p.2)) 0) v.length := by
  unfold compareRealVectors at h
  by_cases hl : v.length = w.length
  · rw [beq_iff_eq.2 hl, assert_true, ok_bind] at h
    cases h
    exact ⟨hl, rfl⟩
  · rw [beq_false_of_ne hl, assert_false] at h
    cases h

end

namespace Flt
variable {F : Fmt}

/-- Rounding either overflows or is accurate. -/
theorem round_cases (s : Bool) (x : ℚ) : round F s x = inf s ∨ ∃ q h, round F s x = num s q h ∧
    |(q : ℝ) - (|(x : ℝ)|)| ≤ 2⁻¹ ^ F.prec * |(x : ℝ)| + 2 ^ (F.emin - 1) ∧
    (∀ k : ℤ, x = k * 2 ^ F.emin → |(q : ℝ) - (|(x : ℝ)|)| ≤ 2⁻¹ ^ F.prec * |(x : ℝ)|) := by
  rw [round]
  split
  · rename_i h
    refine .inr ⟨_, F.rep_of (F.mantissa_nonneg x) (F.mantissa_le x) (le_max_right _ _) h, rfl, ?_, fun k hk => ?_⟩
    · rw [zpow_cast, upow_cast]
      exact_mod_cast F.mantissa_total x
    · rw [upow_cast]
      exact_mod_cast F.mantissa_multiple x k hk
  · exact .inl rfl

/-- A finite sum is accurate. -/
theorem add_accurate {a b : Flt F} (h : (a + b).fin) : a.fin ∧ b.fin ∧
    |(a + b).val - (a.val + b.val)| ≤ 2⁻¹ ^ F.prec * |a.val + b.val| := by
  have ha : a.fin := by by_contra hc; exact not_fin_add (.inl hc) h
  have hb : b.fin := by by_contra hc; exact not_fin_add (.inr hc) h
  refine ⟨ha, hb, ?_⟩
  obtain ⟨k, hk⟩ := a.multiple
  obtain ⟨l, hl⟩ := b.multiple
  match a, b, ha, hb with
  | num s m hm, num s' m' hm', _, _ =>
    have e : (num s m hm + num s' m' hm' : Flt F)
      = roundSigned F (s && s') ((num s m hm : Flt F).value + (num s' m' hm' : Flt F).value) := rfl
    rw [e, roundSigned_eq] at h ⊢
    have es := withSign_abs ((num s m hm : Flt F).value + (num s' m' hm' : Flt F).value) (s && s')
    generalize hx : (num s m hm : Flt F).value + (num s' m' hm' : Flt F).value = x at *
    have hx' : (num s m hm : Flt F).val + (num s' m' hm' : Flt F).val = x := by
      unfold val; exact_mod_cast hx
    rw [hx']
    generalize (if x = 0 then s && s' else decide (x < 0)) = z at *
    rcases round_cases (F := F) z x with c | ⟨q, hq, c, -, c3⟩
    · rw [c] at h; exact h.elim
    · rw [c, abs_val]
      have h3 := c3 (k + l) (by rw [← hx, hk, hl]; push_cast; ring)
      have e' : (x : ℝ) = withSign z |(x : ℝ)| := by
        have := congrArg (fun y : ℚ => (y : ℝ)) es
        rw [← this]
        cases z <;> simp [withSign]
      have : withSign z (q : ℝ) - x = withSign z (q : ℝ) - withSign z |(x : ℝ)| := by rw [← e']
      rw [this, abs_withSign_sub]
      exact h3

theorem sub_accurate {a b : Flt F} (h : (a - b).fin) : a.fin ∧ b.fin ∧
    |(a - b).val - (a.val - b.val)| ≤ 2⁻¹ ^ F.prec * |a.val - b.val| := by
  have e : a - b = a + -b := rfl
  rw [e] at h ⊢
  obtain ⟨h1, h2, h3⟩ := add_accurate h
  have hb : b.fin := by
    cases b with
    | num => trivial
    | inf => exact h2
    | nan => exact h2
  rw [(neg_spec b hb).2] at h3
  exact ⟨h1, hb, h3⟩

/-- Not negative: what a sum of absolute values can be. -/
def NonNeg (a : Flt F) : Prop := (a.fin ∧ 0 ≤ a.val) ∨ a = inf false ∨ a = nan

theorem nonNeg_abs (a : Flt F) : NonNeg (TestNum.abs a) := by
  cases a with
  | num s m hm =>
    refine .inl ⟨trivial, ?_⟩
    rw [(abs_spec (num s m hm) trivial).2]
    exact abs_nonneg _
  | inf => exact .inr (.inl rfl)
  | nan => exact .inr (.inr rfl)

theorem nonNeg_add {a b : Flt F} (ha : NonNeg a) (hb : NonNeg b) (hu : (2⁻¹ : ℝ) ^ F.prec ≤ 1) : NonNeg (a + b) := by
  rcases ha with ⟨fa, ha⟩ | rfl | rfl
  · rcases hb with ⟨fb, hb⟩ | rfl | rfl
    · by_cases h : (a + b).fin
      · refine .inl ⟨h, ?_⟩
        have h3 := (add_accurate h).2.2
        rw [abs_of_nonneg (by linarith : 0 ≤ a.val + b.val), abs_le] at h3
        nlinarith [h3.1]
      · match a, b, fa, fb with
        | num s m hm, num s' m' hm', _, _ =>
          have e : (num s m hm + num s' m' hm' : Flt F)
            = roundSigned F (s && s') ((num s m hm : Flt F).value + (num s' m' hm' : Flt F).value) := rfl
          rw [e] at h ⊢
          have hx : 0 ≤ (num s m hm : Flt F).value + (num s' m' hm' : Flt F).value := by
            unfold val at ha hb
            exact_mod_cast add_nonneg ha hb
          generalize (num s m hm : Flt F).value + (num s' m' hm' : Flt F).value = x at *
          rw [roundSigned] at h ⊢
          split at h
          · rename_i h0
            subst h0
            exfalso
            apply h
            rw [round, dif_pos]
            · trivial
            · have : F.mantissa (0 : ℚ) = 0 := by simp [Fmt.mantissa, roundEven]
              rw [this, Int.cast_zero, zero_mul]
              positivity
          · rename_i h0
            rw [if_neg h0]
            rw [decide_eq_false (not_lt.2 hx)] at h ⊢
            rcases round_cases (F := F) false x with c | ⟨q, hq, c, -⟩
            · exact .inr (.inl c)
            · rw [c] at h; exact (h trivial).elim
    · rcases add_inf (s := false) (a := a) with e | e <;> rw [e]
      · exact .inr (.inl rfl)
      · exact .inr (.inr rfl)
    · rw [add_nan]; exact .inr (.inr rfl)
  · rcases inf_add (s := false) (a := b) with e | e <;> rw [e]
    · exact .inr (.inl rfl)
    · exact .inr (.inr rfl)
  · rw [nan_add]; exact .inr (.inr rfl)

theorem fin_of_abs {a : Flt F} (h : (TestNum.abs a).fin) : a.fin := by
  cases a with
  | num => trivial
  | inf => exact h
  | nan => exact h

/-- The sum of absolute differences in `compare_real_vectors`, from below. -/
theorem error_sum_below {u : ℝ} (hu' : u = 2⁻¹ ^ F.prec) (hu0 : 0 ≤ u) (hu : u ≤ 1) (l : List (Flt F × Flt F)) (e : Flt F)
    (he : NonNeg e) :
    NonNeg (l.foldl (fun error (p : Flt F × Flt F) => error + TestNum.abs (p.1 - p.2)) e) ∧
    ((l.foldl (fun error (p : Flt F × Flt F) => error + TestNum.abs (p.1 - p.2)) e).fin →
      e.fin ∧ (∀ p ∈ l, p.1.fin ∧ p.2.fin) ∧
      (1 - u) ^ l.length * (e.val + (1 - u) * (l.map fun p => |p.1.val - p.2.val|).sum)
        ≤ (l.foldl (fun error (p : Flt F × Flt F) => error + TestNum.abs (p.1 - p.2)) e).val) := by
  induction l generalizing e with
  | nil => exact ⟨he, fun h => ⟨h, by simp, by simp⟩⟩
  | cons p l ih =>
    rw [List.foldl_cons, List.map_cons, List.sum_cons, List.length_cons]
    obtain ⟨i1, i2⟩ := ih (e + TestNum.abs (p.1 - p.2)) (nonNeg_add he (nonNeg_abs _) (hu' ▸ hu))
    refine ⟨i1, fun h => ?_⟩
    obtain ⟨j1, j2, j3⟩ := i2 h
    obtain ⟨k1, k2, k3⟩ := add_accurate j1
    obtain ⟨m1, m2, m3⟩ := sub_accurate (fin_of_abs k2)
    refine ⟨k1, fun q hq => ?_, le_trans ?_ j3⟩
    · rcases List.mem_cons.1 hq with rfl | hq
      · exact ⟨m1, m2⟩
      · exact j2 q hq
    have hS : 0 ≤ (l.map fun p => |p.1.val - p.2.val|).sum := List.sum_nonneg fun _ h => by
      obtain ⟨q, -, rfl⟩ := List.mem_map.1 h
      exact abs_nonneg _
    generalize (l.map fun p => |p.1.val - p.2.val|).sum = S at *
    rw [← hu'] at k3 m3
    have he0 : 0 ≤ e.val := by
      rcases he with he | rfl | rfl
      · exact he.2
      · exact k1.elim
      · exact k1.elim
    have hD : (1 - u) * |p.1.val - p.2.val| ≤ (TestNum.abs (p.1 - p.2)).val := by
      rw [(abs_spec _ (fin_of_abs k2)).2]
      have := abs_sub_abs_le_abs_sub (p.1.val - p.2.val) (p.1 - p.2).val
      rw [abs_sub_comm (p.1.val - p.2.val)] at this
      linarith
    have hδ := abs_nonneg (p.1.val - p.2.val)
    generalize |p.1.val - p.2.val| = δ at *
    generalize TestNum.abs (p.1 - p.2) = D at *
    have h1u : 0 ≤ 1 - u := by linarith
    have hD0 : 0 ≤ D.val := le_trans (mul_nonneg h1u hδ) hD
    rw [abs_of_nonneg (by linarith : 0 ≤ e.val + D.val), abs_le] at k3
    rw [pow_succ, mul_assoc]
    refine mul_le_mul_of_nonneg_left ?_ (pow_nonneg h1u _)
    have h5 : (1 - u) * ((1 - u) * S) ≤ (1 - u) * S := mul_le_of_le_one_left (mul_nonneg h1u hS) (by linarith)
    have h6 : (1 - u) * (e.val + (1 - u) * δ) ≤ (1 - u) * (e.val + D.val) := mul_le_mul_of_nonneg_left (by linarith) h1u
    nlinarith [k3.1]

/-- An average that passes the comparison with 0.1 is below 0.10001. -/
theorem of_meanBelow {r : Flt F} (hr : NonNeg r) {n : ℕ} (hn : 0 < n) (hn64 : n ≤ 2 ^ 60) (h : TestNum.meanBelow r n = true) :
    r.fin ∧ r.val < 0.10001 * n := by
  have hu0 := u64_pos
  have hu := u64_le
  have hh := h64_le
  have hh0 := h64_pos
  have hN1 : (1 : ℝ) ≤ n := by exact_mod_cast hn
  have hN : (n : ℝ) ≤ 2 ^ 60 := by exact_mod_cast hn64
  change lt (convert binary64 r / ofNat binary64 n) (round binary64 false (1 / 10 : ℚ)) = true at h
  -- the number of entries
  obtain ⟨w1, w2⟩ := ofNat_spec (F := binary64) (by decide) (by decide) n (big64 (hN.trans (by norm_num)))
  change |(ofNat binary64 n).val - n| ≤ u64 * n at w2
  rcases round_cases (F := binary64) false (n : ℚ) with c | ⟨w, hw, c, -⟩
  · change ofNat binary64 n = _ at c
    rw [c] at w1
    exact w1.elim
  change ofNat binary64 n = _ at c
  rw [c] at w2 h
  rw [abs_val] at w2
  change |(w : ℝ) - n| ≤ _ at w2
  rw [abs_le] at w2
  have hw1 : (w : ℝ) ≤ 1.000001 * n := by
    norm_num at hu ⊢
    nlinarith [w2.2]
  have hw0 : 0 < (w : ℝ) := by
    norm_num at hu
    nlinarith [w2.1]
  -- a tenth
  have e10 : |((1 / 10 : ℚ) : ℝ)| = 1 / 10 := by push_cast; exact abs_of_pos (by norm_num)
  obtain ⟨t1, t2, -⟩ := round_rat (F := binary64) (by decide) false (1 / 10 : ℚ) (big64 (by rw [e10]; norm_num))
  rw [e10] at t2
  change |(round binary64 false (1 / 10 : ℚ)).val - 1 / 10| ≤ u64 * (1 / 10) + h64 at t2
  rw [abs_le] at t2
  generalize round binary64 false (1 / 10 : ℚ) = tenth at *
  obtain ⟨st, mt, ht, rfl⟩ : ∃ s m hm, tenth = num s m hm := by
    match tenth, t1 with
    | num s m hm, _ => exact ⟨s, m, hm, rfl⟩
  have inf_case : ∀ a : Flt binary64, a = inf false → lt a (num st mt ht) = true → False := by
    rintro _ rfl h; cases h
  -- the sum
  rcases hr with ⟨f, h0⟩ | rfl | rfl
  · refine ⟨f, ?_⟩
    by_contra hbig
    rw [not_lt] at hbig
    match r, f with
    | num s m hm, _ =>
      have hm0 : (0 : ℝ) ≤ m := by exact_mod_cast rep_nonneg hm
      rw [abs_val] at hbig
      have hs : s = false := by
        cases s with
        | false => rfl
        | true =>
          change _ ≤ -(m : ℝ) at hbig
          norm_num at hbig
          linarith
      subst hs
      change _ ≤ (m : ℝ) at hbig
      change lt (round binary64 false m / num false w hw) _ = true at h
      rcases round_cases (F := binary64) false m with d | ⟨q, hq, d, d2, -⟩
      · rw [d] at h
        exact inf_case _ rfl h
      · rw [d] at h
        rw [abs_of_nonneg hm0] at d2
        change |(q : ℝ) - m| ≤ u64 * m + h64 at d2
        rw [abs_le] at d2
        have hq1 : 0.100009 * n ≤ (q : ℝ) := by
          norm_num at hu hbig ⊢
          nlinarith [d2.1]
        have hw' : w ≠ 0 := by
          rintro rfl
          simp at hw0
        have e : (num false q hq / num false w hw : Flt binary64) = round binary64 false (q / w) := by
          show (if w = 0 then _ else _) = _
          rw [if_neg hw']
          rfl
        rw [e] at h
        have hdiv : 0.100008 ≤ (q : ℝ) / w := by
          rw [le_div_iff₀ hw0]
          norm_num at hq1 hw1 ⊢
          linarith
        rcases round_cases (F := binary64) false (q / w) with g | ⟨z, hz, g, g2, -⟩
        · exact inf_case _ g h
        · rw [g] at h
          have hcast : |((q / w : ℚ) : ℝ)| = (q : ℝ) / w := by
            rw [Rat.cast_div, abs_of_nonneg]
            norm_num at hdiv
            linarith
          rw [hcast] at g2
          change |(z : ℝ) - (q : ℝ) / w| ≤ u64 * ((q : ℝ) / w) + h64 at g2
          rw [abs_le] at g2
          have hlt : (num false z hz : Flt binary64).val < (num st mt ht : Flt binary64).val := by
            have h' : decide ((num false z hz : Flt binary64).value < (num st mt ht : Flt binary64).value) = true := h
            rw [decide_eq_true_eq] at h'
            unfold val
            exact_mod_cast h'
          rw [abs_val] at hlt
          change (z : ℝ) < _ at hlt
          have hd0 : 0 ≤ (q : ℝ) / w := le_trans (by norm_num) hdiv
          have hd1 := mul_le_mul_of_nonneg_right hu hd0
          norm_num at hu hdiv hd1
          linarith [g2.1, t2.2]
  · exact (inf_case _ rfl h).elim
  · cases h

end Flt

theorem absError_eq_sum {n : ℕ} {v w : List ℝ} (hv : v.length = n) (hw : w.length = n) :
    absError v w = ∑ i ∈ range n, |nth v i - nth w i| := by
  rw [← zip_absError]
  have := sum_zip_nth (val := fun a : ℝ => a) v w (by omega)
  rw [hv] at this
  exact this

/-- Elementary estimates for the reference of the checker. -/
theorem naive_estimates {n K u η S P Ω : ℝ} (hn : 1 ≤ n) (hK : n + 3 ≤ K) (hu : 0 < u) (hu24 : u ≤ 1 / 10 ^ 7) (hη0 : 0 ≤ η)
    (hη : η * 2 ^ 40 ≤ u) (hΩ : 2 ^ 60 ≤ Ω * u ^ 2) (hc : 20 * n * K * u ≤ 0.09) (hS0 : 0 ≤ S) (hS : S ≤ 10 * n)
    (hP : K * u ≤ 0.0045 → P ≤ 1 + 1.005 * (K * u)) (hP0 : 1 ≤ P) :
    (n + 1) * u ≤ 0.0045 ∧ P * (2 * max S 1 + n * η) ≤ Ω ∧ P * (2 * S + n * η) - 2 * S ≤ 20.1 * (n * K * u) + 1 / 100000 := by
  obtain ⟨k0, k1, -⟩ := check_estimates (n := n) (w := √n) (q := √n + 1) (K := K) (D := 0) (U := 0) (B := 0) (u := u) (η := η)
    (S := S) (N := 0) (P1 := P) (P2 := 1) (Ω := Ω) (m := 1) hn (by rw [← Real.sqrt_one]; exact Real.sqrt_le_sqrt hn)
    (Real.mul_self_sqrt (by linarith)) (by linarith)
    (by have : 1 ≤ √n := by rw [← Real.sqrt_one]; exact Real.sqrt_le_sqrt hn
        linarith)
    hK le_rfl le_rfl le_rfl le_rfl (by norm_num) hu hu24 hη0 hη hΩ (by rw [mul_zero, add_zero]; exact hc) hS0 hS le_rfl
    (mul_nonneg (by norm_num) (Real.sqrt_nonneg _)) hP (fun _ => by simp) hP0 le_rfl
    (fun _ => by have : 0 ≤ (n + 1) * u := mul_nonneg (by linarith) hu.le
                 linarith) (by norm_num)
  have hKu0 : 0 ≤ K * u := mul_nonneg (by linarith) hu.le
  have hc' : 20 * (n * (K * u)) ≤ 0.09 := by
    have : 20 * n * K * u = 20 * (n * (K * u)) := by ring
    rwa [this] at hc
  have hKu : K * u ≤ 0.0045 := by
    have : K * u ≤ n * (K * u) := le_mul_of_one_le_left hKu0 hn
    norm_num at hc' ⊢
    linarith
  have hn1u : (n + 1) * u ≤ 0.0045 := le_trans (mul_le_mul_of_nonneg_right (by linarith) hu.le) hKu
  refine ⟨hn1u, k1, ?_⟩
  have p1 := hP hKu
  have hnη : n * η ≤ 1 / 10 ^ 6 := by
    have h1 := mul_le_mul_of_nonneg_left hη (by linarith : 0 ≤ n)
    norm_num at h1 k0 ⊢
    linarith
  have hnη0 : 0 ≤ n * η := mul_nonneg (by linarith) hη0
  norm_num at hKu hnη p1
  have e1 : (P - 1) * (2 * S) ≤ (1.005 * (K * u)) * (20 * n) := by
    refine mul_le_mul (by norm_num; linarith) (by linarith) (by linarith) (by positivity)
  have e2 : P * (n * η) ≤ 2 * (1 / 1000000) := mul_le_mul (by linarith) hnη hnη0 (by norm_num)
  have e3 : 1.005 * (K * u) * (20 * n) = 20.1 * (n * K * u) := by ring
  rw [e3] at e1
  norm_num at e1 ⊢
  linarith

section
variable [MathLib] {F : Fmt} {u η Ω : ℝ} {t s : ℕ}

/-- The comparison, from below. -/
theorem compare_below (hu' : u = 2⁻¹ ^ F.prec) (hu0 : 0 ≤ u) {n : ℕ} (hn : 0 < n) (hn60 : n ≤ 2 ^ 60) (hnu : (n + 1) * u ≤ 0.0045)
    (hz : (0 : Flt F).NonNeg) {x y : List (Flt F)} {z : List ℝ} (hx : x.length = n) (hzl : z.length = n) {e1 : ℝ}
    (h1 : ∀ k < n, |(x.getD k 0).val - z.getD k 0| ≤ e1) (hc : compareRealVectors x y = .ok true) :
    y.length = n ∧ (∀ a ∈ y, a.fin) ∧ ∑ i ∈ range n, |nth (y.map Flt.val) i - nth z i| ≤ (0.1005 + e1) * n := by
  obtain ⟨hl, hb⟩ := compare_length hc
  have hy : y.length = n := by omega
  rw [hx] at hb
  have hn1 : (1 : ℝ) ≤ n := by exact_mod_cast hn
  have hu1 : u ≤ 0.0045 := le_trans (le_mul_of_one_le_left hu0 (by linarith)) hnu
  obtain ⟨n1, n2⟩ := Flt.error_sum_below hu' hu0 (hu1.trans (by norm_num)) (x.zip y) 0 hz
  obtain ⟨f, hlt⟩ := Flt.of_meanBelow n1 hn hn60 hb.symm
  obtain ⟨f0, f1, f2⟩ := n2 f
  have hz0 : 0 ≤ (0 : Flt F).val := by
    rcases hz with h | h | h
    · exact h.2
    · rw [h] at f0; exact f0.elim
    · rw [h] at f0; exact f0.elim
  have hlen : (x.zip y).length = n := by simp [hx, hy]
  refine ⟨hy, fun a ha => ?_, ?_⟩
  · obtain ⟨i, hi, e⟩ := List.getElem_of_mem ha
    have hi' : i < (x.zip y).length := by omega
    have := f1 _ (List.getElem_mem hi')
    rw [List.getElem_zip, e] at this
    exact this.2
  rw [hlen, sum_zip_nth (val := Flt.val) x y hl, hx] at f2
  have hS : 0 ≤ ∑ i ∈ range n, |(nth x i).val - (nth y i).val| := sum_nonneg fun _ _ => abs_nonneg _
  have hpow : (0.9955 : ℝ) ≤ (1 - u) ^ (n + 1) := by
    have := one_add_mul_le_pow (a := -u) (by linarith [hu1.trans (by norm_num : (0.0045 : ℝ) ≤ 1)]) (n + 1)
    push_cast at this
    rw [← sub_eq_add_neg] at this
    norm_num at hnu ⊢
    linarith
  have h1u : 0 ≤ 1 - u := by
    norm_num at hu1
    linarith
  have hsum : ∑ i ∈ range n, |(nth x i).val - (nth y i).val| ≤ 0.1005 * n := by
    have h3 : (1 - u) ^ (n + 1) * ∑ i ∈ range n, |(nth x i).val - (nth y i).val|
        ≤ (1 - u) ^ n * ((0 : Flt F).val + (1 - u) * ∑ i ∈ range n, |(nth x i).val - (nth y i).val|) := by
      rw [pow_succ, mul_assoc]
      exact mul_le_mul_of_nonneg_left (by linarith) (pow_nonneg h1u _)
    have h4 := mul_le_mul_of_nonneg_right hpow hS
    have h5 := h4.trans (h3.trans (f2.trans hlt.le))
    norm_num at h5 ⊢
    linarith
  have hx1 : ∑ i ∈ range n, |(nth x i).val - nth z i| ≤ n * e1 := by
    have := sum_le_sum (s := range n) (f := fun i => |(nth x i).val - nth z i|) (g := fun _ => e1) fun i hi => by
      have := h1 i (mem_range.1 hi)
      simpa [nth, List.getD_eq_getElem?_getD] using this
    simpa using this
  have tri : ∑ i ∈ range n, |nth (y.map Flt.val) i - nth z i|
      ≤ ∑ i ∈ range n, |(nth x i).val - (nth y i).val| + ∑ i ∈ range n, |(nth x i).val - nth z i| := by
    rw [← sum_add_distrib]
    refine sum_le_sum fun i hi => ?_
    have e : nth (y.map Flt.val) i = (nth y i).val := by
      have hi := mem_range.1 hi
      rw [nth_eq_getElem (by simp; omega), nth_eq_getElem (by omega), List.getElem_map]
    rw [e]
    have := abs_sub_le (nth y i).val (nth x i).val (nth z i)
    rwa [abs_sub_comm (nth y i).val (nth x i).val] at this
  linarith

/-- What a passed check says. -/
theorem check_detects (hm : FloatModel (T := Flt F) Flt.fin Flt.val u η Ω t s) (hu' : u = 2⁻¹ ^ F.prec) (hu : 2⁻¹ ^ 53 ≤ u)
    (hu24 : u ≤ 1 / 10 ^ 7) (hη : η * 2 ^ 40 ≤ u) (hΩ : 2 ^ 60 ≤ Ω * u ^ 2) (d : Dht (Flt F)) {n : ℕ} (hn : 0 < n)
    (hc : (20 * n * (n + t + 3) : ℕ) * u ≤ 0.09) (signal : List (Flt F)) (hs : signal.length = n)
    (hx : ∀ a ∈ signal, a.fin ∧ |a.val| ≤ 10) (h : checkDhtAlgorithm signal d n = .ok ()) :
    ∃ X Y s i output Z s', d.process signal = .ok X ∧
      d.processWithScratch signal (List.replicate d.inplaceScratchLen 0) = .ok (Y, s) ∧
      d.processOop signal output (List.replicate d.oopScratchLen 0) = .ok (i, Z, s') ∧ output.length = n ∧
      (0 < s.length → ∃ r, d.processWithScratch signal (List.replicate s.length TestNum.dirty) = .ok r) ∧
      (0 < s'.length → ∃ r, d.processOop signal Z (List.replicate s'.length TestNum.dirty) = .ok r) ∧
      ∀ y, (y = X ∨ y = Y ∨ y = Z ∨
        (0 < s.length ∧ ∃ r, d.processWithScratch signal (List.replicate s.length TestNum.dirty) = .ok (y, r)) ∨
        (0 < s'.length ∧ ∃ j r, d.processOop signal Z (List.replicate s'.length TestNum.dirty) = .ok (j, y, r))) → y.length = n ∧ (∀ a ∈ y, a.fin) ∧
        absError (y.map Flt.val) (dht (signal.map Flt.val)) ≤ (0.1006 + 20.1 * (n * (n + t + 3 : ℕ) * u)) * n := by
  have hu0 : 0 < u := lt_of_lt_of_le (by positivity) hu
  obtain ⟨g, hg, h2⟩ := C35_naive_rounding hm n
  obtain ⟨h0, ⟨X, e1, c1⟩, ⟨Y, s2, e2, c2, r2⟩, ⟨i, Z, s3, e3, c3, r3⟩⟩ := check_compared hg hn hs h
  have hl : (dhtNaive (Flt F) n).len = n := dhtNaive_len _
  have hS0 : 0 ≤ (signal.map fun a => |a.val|).sum := List.sum_nonneg (by simp)
  have hS : (signal.map fun a => |a.val|).sum ≤ 10 * n := by
    have := List.sum_le_card_nsmul (signal.map fun a => |a.val|) 10 (by
      intro b hb
      obtain ⟨a, ha, rfl⟩ := List.mem_map.1 hb
      exact (hx a ha).2)
    rw [List.length_map, hs, nsmul_eq_mul] at this
    linarith
  have hn1 : (1 : ℝ) ≤ n := by exact_mod_cast hn
  obtain ⟨k0, k1, k2⟩ := naive_estimates (n := n) (K := (n + t + 3 : ℕ)) (u := u) (η := η) (S := (signal.map fun a => |a.val|).sum)
    (P := (1 + u) ^ (n + t + 3)) (Ω := Ω) hn1 (by push_cast; linarith [Nat.cast_nonneg (α := ℝ) t]) hu0 hu24 hm.η_nonneg hη hΩ
    (by push_cast at hc ⊢; exact hc) hS0 hS (fun h => pow_small hu0.le h) (one_le_pow₀ (by linarith))
  have g1 := h2 signal hs (fun a ha => (hx a ha).1) _ rfl k1
  have hn60 : n ≤ 2 ^ 60 := by
    have h3 : (n : ℝ) * 2⁻¹ ^ 53 ≤ 1 := (mul_le_mul (by linarith : (n : ℝ) ≤ n + 1) hu (by positivity) (by positivity)).trans
      (k0.trans (by norm_num))
    have h4 : (n : ℝ) ≤ 2 ^ 53 := by
      rw [inv_pow, ← div_eq_mul_inv, div_le_one (by positivity)] at h3; exact h3
    have h5 : n ≤ 2 ^ 53 := by exact_mod_cast h4
    exact h5.trans (Nat.pow_le_pow_right (by norm_num) (by norm_num))
  have hlg : (g signal).length = n := by rw [hg.length _ (by rw [hs, hl]), hl]
  refine ⟨X, Y, s2, i, g signal, Z, s3, e1, e2, e3, hlg, fun hp => ?_, fun hp => ?_, fun y hy => ?_⟩
  · obtain ⟨_, _, e, _⟩ := r2 hp
    exact ⟨_, e⟩
  · obtain ⟨_, _, _, e, _⟩ := r3 hp
    exact ⟨_, e⟩
  have c : compareRealVectors (g signal) y = .ok true := by
    rcases hy with rfl | rfl | rfl | ⟨hp, r, er⟩ | ⟨hp, j, r, er⟩
    · exact c1
    · exact c2
    · exact c3
    · obtain ⟨_, _, e, c⟩ := r2 hp
      rw [e] at er; cases er; exact c
    · obtain ⟨_, _, _, e, c⟩ := r3 hp
      rw [e] at er; cases er; exact c
  obtain ⟨b1, b2, b3⟩ := compare_below hu' hu0.le hn hn60 k0 (.inl ⟨hm.zero.1, hm.zero.2.ge⟩) hlg (z := dht (signal.map Flt.val))
    (by simp [dht, hs]) (fun k hk => (g1 k hk).2) c
  refine ⟨b1, b2, ?_⟩
  rw [absError_eq_sum (n := n) (by simp [b1]) (by simp [dht, hs])]
  refine b3.trans (mul_le_mul_of_nonneg_right ?_ (Nat.cast_nonneg n))
  norm_num at k2 ⊢
  linarith

end

end RustDHT
