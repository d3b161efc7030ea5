import Verif.Proofs.MachineStep

/-! # What `RadersAlgorithm` computes with other sequences of indices -/

set_option linter.unusedSectionVars false

namespace RustDHT.Machine

open Finset

variable {m : Mode}

/-- The second inner transform turns the product of the spectra into a cyclic convolution. -/
theorem conv_second {n : ℕ} (hn : 0 < n) (he : n % 2 = 0) (a b : ℕ → ℝ) (x0 : ℝ) (hb : ∀ i, b (i + n) = b i) :
    dht (tab n fun i => if i = 0 then rdMul (tab n fun k => hart n a k) (rdTw (tab n fun k => hart n b k) n) n 0 + x0
      else rdMul (tab n fun k => hart n a k) (rdTw (tab n fun k => hart n b k) n) n i)
      = tab n fun l => n * (∑ j ∈ range n, a j * b (l + (n - j))) + x0 := by
  set conv : ℕ → ℝ := fun l => ∑ j ∈ range n, a j * b (l + (n - j)) with hconv
  have hmid : (tab n fun i => if i = 0 then rdMul (tab n fun k => hart n a k) (rdTw (tab n fun k => hart n b k) n) n 0 + x0
      else rdMul (tab n fun k => hart n a k) (rdTw (tab n fun k => hart n b k) n) n i)
      = tab n fun i => hart n conv i + if i = 0 then x0 else 0 := by
    refine tab_congr fun i hi => ?_
    have key : rdMul (tab n fun k => hart n a k) (rdTw (tab n fun k => hart n b k) n) n i = hart n conv i := by
      rw [rdMul_eq he a b hi, hconv, hart_conv a b hb]
    by_cases h0 : i = 0
    · subst h0
      rw [if_pos rfl, if_pos rfl, key]
    · rw [if_neg h0, if_neg h0, key, add_zero]
  rw [hmid, dht_tab]
  refine tab_congr fun l hl => ?_
  have h1 := hart_hart conv hl
  rw [← h1]
  unfold hart
  simp only [add_mul, sum_add_distrib]
  congr 1
  rw [sum_eq_single 0 (fun i _ hi => by rw [if_neg hi, zero_mul]) (fun h => by simp at h; omega)]
  simp

/-- The kernel of a release build. -/
noncomputable def wrapKernel (m : Mode) (gi p n : ℕ) : List ℝ := tab n fun i => ca p (wrapSeq m gi p i) * (1 / n)

theorem perform_wrap (hm : m.checked = false) {n g gi : ℕ} (hn : 2 ≤ n) (he : n % 2 = 0) (hcap : n + 1 < 2 * m.cap) {d : Dht ℝ}
    (hd : ComputesDht d) (hl : d.len = n) {x scratch b s : List ℝ} (hx : x.length = n + 1)
    (hs : scratch.length = n + if d.inplaceScratchLen ≤ n then 0 else d.inplaceScratchLen)
    (h : radersPerformInplace m d (n + 1) g gi (tab (n / 2 + 1) (rdTw (dht (wrapKernel m gi (n + 1) n)) n)) x scratch = .ok (b, s)) :
    (∀ j < n, 0 < wrapSeq m g (n + 1) j) ∧ (∀ j < n, 0 < wrapSeq m gi (n + 1) j) ∧
      nth b 0 = nth x 0 + ∑ j ∈ range n, nth x (wrapSeq m g (n + 1) j) ∧
      ∀ k < n, (∀ i, k < i → i < n → wrapSeq m gi (n + 1) i ≠ wrapSeq m gi (n + 1) k) →
        nth b (wrapSeq m gi (n + 1) k) = nth x 0 + ∑ j ∈ range n, nth x (wrapSeq m g (n + 1) j) *
          ca (n + 1) (wrapSeq m gi (n + 1) ((k + (n - j)) % n)) := by
  have hbits : n < 2 ^ m.bits := by rw [size_eq]; omega
  have hn0 : (n : ℝ) ≠ 0 := by
    have : 0 < n := by omega
    positivity
  obtain ⟨x0, x, rfl⟩ : ∃ x0 x', x = x0 :: x' := by
    cases x with
    | nil => simp at hx
    | cons x0 x' => exact ⟨x0, x', rfl⟩
  have hx : x.length = n := by simpa using hx
  unfold radersPerformInplace at h
  simp only at h
  rw [sub_eq _ (by omega), ok_bind, Nat.add_sub_cancel, splitAt_ok (by omega), ok_bind] at h
  simp only at h
  obtain ⟨ib, eg, h⟩ := bind_eq_ok h
  obtain ⟨hs0, hib⟩ := gather_wrap hm (by omega) hbits hx (by simp; omega) eg
  subst hib
  set a : ℕ → ℝ := fun j => nth x (wrapSeq m g (n + 1) j - 1) with ha
  have hax : ∀ j < n, a j = nth (x0 :: x) (wrapSeq m g (n + 1) j) := fun j hj => rd_tail_nth (hs0 j hj)
  have hdone : ∀ (y sc : List ℝ), y.length = n → d.inplaceScratchLen ≤ sc.length →
      ∃ s', d.processWithScratch y sc = .ok (dht y, s') ∧ s'.length = sc.length := fun y sc hy hsc =>
    Implements.one hd (by omega) (by omega) hsc
  have hsc : d.inplaceScratchLen ≤ (if (scratch.drop n).length > 0 then scratch.drop n else x).length := by
    split <;> simp at * <;> split at hs <;> omega
  obtain ⟨s1, e1, l1⟩ := hdone (tab n a) _ (by simp) hsc
  rw [e1, ok_bind] at h
  simp only at h
  rw [dht_tab, getI_nth (by simp; omega), ok_bind, radersMulInplace_eq] at h
  set κ : ℕ → ℝ := fun i => ca (n + 1) (wrapSeq m gi (n + 1) (i % n)) * (1 / n) with hκ
  have hker : wrapKernel m gi (n + 1) n = tab n κ := by
    refine tab_congr fun i hi => ?_
    simp only [hκ]
    rw [Nat.mod_eq_of_lt hi]
  rw [hker, dht_tab, radersMulInplace_ok (by simp) hn he, ok_bind, getI_nth (by simp; omega), ok_bind, setI_ok (by simp; omega), ok_bind,
    set_zero_tab, nth_tab (by omega)] at h
  set mid := tab n fun i => if i = 0 then rdMul (tab n fun k => hart n a k) (rdTw (tab n fun k => hart n κ k) n) n 0 + x0
      else rdMul (tab n fun k => hart n a k) (rdTw (tab n fun k => hart n κ k) n) n i with hmid
  have hfirst : x0 + nth (tab n fun k => hart n a k) 0 = x0 + ∑ j ∈ range n, nth (x0 :: x) (wrapSeq m g (n + 1) j) := by
    rw [nth_tab (by omega), hart]
    congr 1
    refine sum_congr rfl fun j hj => ?_
    rw [hax j (mem_range.1 hj)]
    simp
  have fin : ∀ {sc dst : List ℝ}, d.inplaceScratchLen ≤ sc.length → dst.length = n → ∀ {y s2 out : List ℝ},
      d.processWithScratch mid sc = .ok (y, s2) → radersScatter m gi (n + 1) y dst = .ok out →
      (∀ j < n, 0 < wrapSeq m gi (n + 1) j) ∧
      ∀ k < n, (∀ i, k < i → i < n → wrapSeq m gi (n + 1) i ≠ wrapSeq m gi (n + 1) k) →
        nth ((x0 + nth (tab n fun k => hart n a k) 0) :: out) (wrapSeq m gi (n + 1) k) = x0 + ∑ j ∈ range n,
          nth (x0 :: x) (wrapSeq m g (n + 1) j) * ca (n + 1) (wrapSeq m gi (n + 1) ((k + (n - j)) % n)) := by
    intro sc dst hsc hdst y s2 out e2 e3
    obtain ⟨s2', e2', _⟩ := hdone mid sc (by simp [hmid]) hsc
    rw [e2'] at e2
    cases e2
    obtain ⟨ht0, hsv⟩ := scatter_wrap hm (by omega) hbits (n := n) (by rw [length_dht]; simp [hmid]) hdst e3
    refine ⟨ht0, fun k hk hlast => ?_⟩
    rw [← rd_tail_nth (ht0 k hk), hsv k hk hlast, hmid, conv_second (by omega) he a κ x0 (fun i => by simp [hκ]), nth_tab hk, add_comm,
      mul_sum]
    congr 1
    refine sum_congr rfl fun j hj => ?_
    rw [hax j (mem_range.1 hj)]
    simp only [hκ]
    field_simp
  by_cases hex : (scratch.drop n).length > 0
  · simp only [hex, if_true] at h e1 l1 hsc
    obtain ⟨⟨y, s2⟩, e2, h⟩ := bind_eq_ok h
    obtain ⟨out, e3, h⟩ := bind_eq_ok h
    cases h
    obtain ⟨f1, f2⟩ := fin (by omega) hx e2 e3
    exact ⟨hs0, f1, hfirst, f2⟩
  · simp only [hex, if_false] at h e1 l1 hsc
    obtain ⟨⟨y, s2⟩, e2, h⟩ := bind_eq_ok h
    obtain ⟨out, e3, h⟩ := bind_eq_ok h
    cases h
    have l2 : s2.length = s1.length := by
      obtain ⟨s2', e2', l2⟩ := hdone mid s1 (by simp [hmid]) (by omega)
      rw [e2'] at e2
      cases e2
      exact l2
    obtain ⟨f1, f2⟩ := fin (sc := s1) (by omega) (by simp only; omega) e2 e3
    exact ⟨hs0, f1, hfirst, f2⟩

/-! ## When the result is the transform -/

/-- `cas` takes different values at different multiples of `2 pi / p`. -/
theorem ca_inj {p : ℕ} (hodd : p % 2 = 1) {a b : ℤ} (h : ca p a = ca p b) : (p : ℤ) ∣ a - b := by
  have hp : (p : ℝ) ≠ 0 := by
    have : 0 < p := by omega
    positivity
  have hpi := Real.pi_ne_zero
  have e : ∀ c : ℤ, ca p c = √2 * Real.cos (2 * Real.pi * c / p - Real.pi / 4) := fun c => by
    rw [Real.cos_sub, Real.cos_pi_div_four, Real.sin_pi_div_four, ca, cs, sn]
    have : √2 * √2 = (2 : ℝ) := Real.mul_self_sqrt (by norm_num)
    linear_combination (-(Real.cos (2 * Real.pi * c / p) + Real.sin (2 * Real.pi * c / p)) / 2) * this
  rw [e, e] at h
  have h := mul_left_cancel₀ (show √2 ≠ 0 by positivity) h
  obtain ⟨k, hk | hk⟩ := Real.cos_eq_cos_iff.1 h
  · refine ⟨-k, ?_⟩
    have : (a : ℝ) - b = p * -k := by
      field_simp at hk
      linarith
    exact_mod_cast this
  · exfalso
    have h4 : 4 * ((a : ℝ) + b) = p * (1 + 4 * k) := by
      field_simp at hk
      linarith
    have h4 : 4 * (a + b) = (p : ℤ) * (1 + 4 * k) := by exact_mod_cast h4
    have : ((p : ℤ) * (1 + 4 * k)) % 2 = 1 := by
      rw [Int.mul_emod, show (1 + 4 * k) % 2 = 1 by omega, show (p : ℤ) % 2 = 1 by omega]
      rfl
    omega

/-- The index sequence of powers would have to wrap around without consequences. -/
theorem no_wrap {f p : ℕ} (hp : p.Prime) (h5 : 5 ≤ p) (hf0 : 0 < f) (hf : f < p) (hb : p ≤ 2 ^ m.bits)
    (ho : orderOf (f : ZMod p) = p - 1) (hw : ∀ j < p - 1, wrapSeq m f p j = f ^ j % p) : (p - 1) * f < 2 ^ m.bits := by
  have := Fact.mk hp
  by_contra hc
  push Not at hc
  obtain ⟨i, hi, e⟩ := pow_mod_surj hp hf0 hf ho (q := p - 1) (by omega) (by omega)
  have hi1 : i + 1 < p - 1 := by
    by_contra hc'
    have hz : (f : ZMod p) ^ (i + 1) = 1 := by rw [show i + 1 = p - 1 by omega, ← ho, pow_orderOf_eq_one]
    have e' : (f : ZMod p) ^ i = -1 := by
      have := congrArg (Nat.cast : ℕ → ZMod p) e
      rw [ZMod.natCast_mod, Nat.cast_sub (by omega)] at this
      push_cast at this
      simpa using this
    have h2 : orderOf (f : ZMod p) ≤ 2 := by
      refine orderOf_le_of_pow_eq_one (by norm_num) ?_
      rw [pow_succ, e'] at hz
      have : (f : ZMod p) = -1 := by linear_combination -hz
      rw [this]; ring
    omega
  have h1 := hw (i + 1) hi1
  rw [wrapSeq, hw i hi, e, pow_succ, ← Nat.mod_mul_mod (f ^ i) f p, e] at h1
  set B := 2 ^ m.bits with hB
  have hdvd : p ∣ B * ((p - 1) * f / B) := by
    have hq := Nat.mod_add_div ((p - 1) * f) B
    have h1 : (p - 1) * f % B ≡ (p - 1) * f [MOD p] := h1
    have := (Nat.modEq_iff_dvd' (by omega)).1 h1
    rwa [show (p - 1) * f - (p - 1) * f % B = B * ((p - 1) * f / B) by omega] at this
  have hq1 : 0 < (p - 1) * f / B := Nat.div_pos hc (Nat.two_pow_pos _)
  have hq2 : (p - 1) * f / B < p := by
    refine Nat.div_lt_of_lt_mul ?_
    calc (p - 1) * f < p * p := Nat.mul_lt_mul'' (by omega) hf
      _ ≤ B * p := Nat.mul_le_mul_right _ hb
  rcases hp.dvd_mul.1 hdvd with h | h
  · have := Nat.le_of_dvd (by norm_num) (hp.dvd_of_dvd_pow h)
    omega
  · exact absurd (Nat.le_of_dvd hq1 h) (by omega)

/-- A sequence that hits every residue but 0 hits each of them once. -/
theorem inj_of_surj {n : ℕ} {s : ℕ → ℕ} (hs : ∀ q, 0 < q → q < n + 1 → ∃ j < n, s j = q) (hr : ∀ j < n, 0 < s j ∧ s j < n + 1) :
    ∀ i < n, ∀ j < n, s i = s j → i = j := by
  have hsurj : Set.SurjOn s (range n : Finset ℕ) (Finset.Ico 1 (n + 1) : Finset ℕ) := by
    intro q hq
    have hq := mem_Ico.1 (mem_coe.1 hq)
    obtain ⟨j, hj, e⟩ := hs q (by omega) hq.2
    exact ⟨j, mem_coe.2 (mem_range.2 hj), e⟩
  have hmaps : Set.MapsTo s (range n : Finset ℕ) (Finset.Ico 1 (n + 1) : Finset ℕ) := by
    intro j hj
    have := hr j (mem_range.1 (mem_coe.1 hj))
    exact mem_coe.2 (mem_Ico.2 ⟨this.1, this.2⟩)
  have hinj := Finset.injOn_of_surjOn_of_card_le s hmaps hsurj (by simp)
  intro i hi j hj e
  exact hinj (mem_coe.2 (mem_range.2 hi)) (mem_coe.2 (mem_range.2 hj)) e

end RustDHT.Machine
