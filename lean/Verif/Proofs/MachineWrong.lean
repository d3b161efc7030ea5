import Verif.Proofs.MachineRoot
import Verif.Proofs.Raders
import Verif.Proofs.Boilerplate
import Verif.Spec.Dht
import Verif.Proofs.Hartley
import Mathlib.NumberTheory.LegendreSymbol.QuadraticReciprocity

/-! # `RadersAlgorithm` above `2^32` in a release build -/

namespace RustDHT.Machine

/-- Gathering with 2 as the primitive root reads the powers of 2 only. -/
theorem gather_two {T : Type} [Zero T] {p : Nat} (hp : p.Prime) (h2 : 2 < p) (h61 : p < 2 ^ 61) {src dst : List T}
    (hs : src.length = p - 1) (hd : dst.length = p - 1) :
    radersGather .release 2 p src dst = .ok (tab (p - 1) fun j => nth src (2 ^ j % p - 1)) := by
  unfold radersGather
  rw [hd]
  obtain ⟨⟨b, t⟩, e, hb1, hb2, _⟩ := forRange_ok (lo := 0) (hi := p - 1) (s := (dst, 1))
    (body := fun j (dst, inputIndex) => do
      let p' ← Mode.release.sub inputIndex 1
      let v ← getI src p'
      let dst ← setI dst j v
      let inputIndex ← stepIndex .release inputIndex 2 p
      .ok (dst, inputIndex))
    (fun i s => s.1.length = p - 1 ∧ (∀ j, j < i → nth s.1 j = nth src (2 ^ j % p - 1)) ∧ s.2 = 2 ^ i % p) (by omega)
    ⟨hd, by omega, by simp [Nat.mod_eq_of_lt hp.one_lt]⟩
    (by
      rintro i ⟨b, t⟩ _ hi ⟨hb1, hb2, ht⟩
      simp only at hb1 hb2 ht
      subst ht
      have hcap := cap_release
      have hpos := pow_mod_pos hp (by norm_num) h2 i
      have hlt : 2 ^ i % p < p := Nat.mod_lt _ hp.pos
      refine ⟨⟨b.set i (nth src (2 ^ i % p - 1)), 2 ^ i % p * 2 % p⟩, ?_, by simpa using hb1, ?_, ?_⟩
      · simp only
        rw [sub_eq _ (by omega), ok_bind, getI_nth (by omega), ok_bind, setI_ok (by omega), ok_bind, stepIndex,
          mul_eq _ (by omega), ok_bind, remU64_ok hp.pos, ok_bind]
      · intro j hj
        simp only
        rw [nth_set (by omega)]
        by_cases hji : j = i
        · rw [if_pos hji, hji]
        · rw [if_neg hji, hb2 j (by omega)]
      · rw [pow_succ, Nat.mod_mul_mod])
  rw [e, ok_bind]
  simp only
  congr 1
  exact eq_tab hb1 hb2

theorem dht_zeros (n : Nat) : dht (tab n fun _ => (0 : ℝ)) = tab n fun _ => 0 := by
  rw [dht_tab]
  exact tab_congr fun k _ => by simp [hart]

/-- When no power of 2 is `j`, the first output does not depend on `x[j]`. -/
theorem raders_first_output {p j : Nat} (hp : p.Prime) (h2 : 2 < p) (h61 : p < 2 ^ 61) {d : Dht ℝ} (hd : ComputesDht d)
    (hl : d.len = p - 1) (hj : ∀ i, 2 ^ i % p ≠ j) (hj0 : 0 < j) (hjp : j < p) (rootInv : Nat) (tw : List (Cx ℝ))
    {scratch b s : List ℝ}
    (hs : scratch.length = (p - 1) + if d.inplaceScratchLen ≤ p - 1 then 0 else d.inplaceScratchLen)
    (h : radersPerformInplace .release d p 2 rootInv tw (tab p fun i => if i = j then 1 else 0) scratch = .ok (b, s)) :
    nth b 0 = 0 := by
  obtain ⟨q, rfl⟩ : ∃ q, p = q + 1 := ⟨p - 1, by omega⟩
  have hbuf : (tab (q + 1) fun i => if i = j then (1 : ℝ) else 0) = 0 :: tab q fun i => if i + 1 = j then 1 else 0 := by
    rw [tab, List.range_succ_eq_map, List.map_cons, List.map_map, if_neg (by omega)]
    rfl
  rw [hbuf] at h
  unfold radersPerformInplace at h
  simp only [Nat.add_sub_cancel] at h hs hl
  rw [sub_eq _ (by omega), ok_bind, Nat.add_sub_cancel, splitAt_ok (by omega), ok_bind] at h
  simp only at h
  rw [gather_two hp h2 h61 (by simp) (by simp; omega), ok_bind] at h
  have hz : (tab (q + 1 - 1) fun i => nth (tab q fun i => if i + 1 = j then (1 : ℝ) else 0) (2 ^ i % (q + 1) - 1)) =
      tab q fun _ => 0 := by
    refine tab_congr fun i hi => ?_
    have hpos := pow_mod_pos hp (by norm_num) h2 i
    have hlt : 2 ^ i % (q + 1) < q + 1 := Nat.mod_lt _ hp.pos
    have := hj i
    rw [nth_tab (by omega), if_neg (by omega)]
  rw [hz] at h
  obtain ⟨⟨ib, is⟩, e, h⟩ := bind_eq_ok h
  have hib : ib = tab q fun _ => 0 := by
    obtain ⟨s', e', _⟩ := hd.inplace (tab q fun _ => 0)
      (if (scratch.drop q).length > 0 then scratch.drop q else tab q fun i => if i + 1 = j then 1 else 0)
      (by simp [hl]) (by simp [hl]) (by split <;> simp at * <;> split at hs <;> omega)
    rw [e'] at e
    rw [mapChunks_single (by omega) (by simp [hl]), dht_zeros] at e
    cases e
    rfl
  subst hib
  simp only at h
  rw [getI_nth (by simp; omega), ok_bind] at h
  obtain ⟨_, _, h⟩ := bind_eq_ok h
  obtain ⟨_, _, h⟩ := bind_eq_ok h
  obtain ⟨_, _, h⟩ := bind_eq_ok h
  obtain ⟨_, _, h⟩ := bind_eq_ok h
  obtain ⟨_, _, h⟩ := bind_eq_ok h
  cases h
  show 0 + nth (tab q fun _ => (0 : ℝ)) 0 = 0
  rw [nth_tab (by omega), add_zero]

/-- 2 is a square modulo primes of the form `8 k + 1` and `8 k + 7`, so its powers leave out the numbers that are not. -/
theorem exists_not_power_of_two {p : Nat} (hp : p.Prime) (h2 : 2 < p) (h8 : p % 8 = 1 ∨ p % 8 = 7) :
    ∃ j, 0 < j ∧ j < p ∧ ∀ i, 2 ^ i % p ≠ j := by
  haveI := Fact.mk hp
  have hsq : IsSquare (2 : ZMod p) := (ZMod.exists_sq_eq_two_iff (by omega)).2 h8
  obtain ⟨a, ha⟩ := FiniteField.exists_nonsquare (F := ZMod p) (by rw [ZMod.ringChar_zmod_n]; omega)
  have ha0 : a ≠ 0 := by rintro rfl; exact ha ⟨0, by simp⟩
  refine ⟨a.val, Nat.pos_of_ne_zero fun h => ha0 ((ZMod.val_eq_zero a).1 h), ZMod.val_lt a, fun i hi => ha ?_⟩
  have : a = 2 ^ i := by
    rw [← ZMod.natCast_zmod_val a, ← hi, ZMod.natCast_mod]
    push_cast
    rfl
  rw [this]
  exact hsq.pow i

/-- 2 is then not a primitive root. -/
theorem two_not_root {p : Nat} (hp : p.Prime) (h2 : 2 < p) (h8 : p % 8 = 1 ∨ p % 8 = 7) : orderOf (2 : ZMod p) < p - 1 := by
  haveI := Fact.mk hp
  have hsq : IsSquare (2 : ZMod p) := (ZMod.exists_sq_eq_two_iff (by omega)).2 h8
  have h0 : (2 : ZMod p) ≠ 0 := by
    intro h
    have := (ZMod.natCast_eq_zero_iff 2 p).1 (by exact_mod_cast h)
    exact absurd (Nat.le_of_dvd (by norm_num) this) (by omega)
  have := orderOf_le_of_pow_eq_one (by omega) ((ZMod.euler_criterion p h0).1 hsq)
  omega

theorem kernelInput_release {T : Type} [Add T] [Mul T] [Zero T] [FftNum T] {n p g : Nat} (hp : 0 < p) :
    ∃ k, radersKernelInput .release T n p g = .ok k ∧ k.length = n := by
  unfold radersKernelInput
  simp only
  have hstep : ∀ i f, ∃ j, stepIndex .release i f p = .ok j := fun i f => by
    unfold stepIndex
    rw [mul_release, ok_bind, remU64_ok hp]
    exact ⟨_, rfl⟩
  obtain ⟨⟨b, t⟩, e, hb⟩ := forRange_ok (lo := 0) (hi := n) (s := (List.replicate n (0 : T), 1))
    (body := fun i (input, twiddleInput) => do
      let twiddle := computeDhtTwiddle T twiddleInput p
      let input ← setI input i
        (twiddle * FftNum.fromF64 ((FftNum.f64 (T := T)).div ((FftNum.f64 (T := T)).ofNat 1) ((FftNum.f64 (T := T)).ofNat n)))
      let twiddleInput ← stepIndex .release twiddleInput g p
      .ok (input, twiddleInput))
    (fun _ s => s.1.length = n) (by omega) (by simp)
    (by
      rintro i ⟨b, t⟩ _ hi hb
      simp only at hb
      obtain ⟨j, ej⟩ := hstep t g
      simp only
      rw [setI_ok (by omega), ok_bind, ej, ok_bind]
      exact ⟨_, rfl, by simpa using hb⟩)
  rw [e, ok_bind]
  exact ⟨b, rfl, hb⟩

/-- The constructor accepts the prime. -/
theorem raders_release_builds {p : Nat} (hp : p.Prime) (h32 : 2 ^ 32 < p) (h61 : p < 2 ^ 61) (ho : 64 ≤ orderOf (2 : ZMod p))
    {d : Dht ℝ} (hd : ComputesDht d) (hl : d.len = p - 1) (hs : d.inplaceScratchLen < 2 ^ 63) :
    ∃ r, raders .release d = .ok r ∧ r.len = p := by
  have hcap := cap_release
  have e1 : d.len + 1 = p := by omega
  obtain ⟨k, ek, hk⟩ := kernelInput_release (T := ℝ) (n := d.len) (p := p) (g := RustDHT.rootInverse 2 p) hp.pos
  obtain ⟨s', e, -, -⟩ := hd.inplace k (List.replicate d.inplaceScratchLen 0) (by omega) (by rw [hk]) (by simp)
  have epr : d.process k = .ok (mapChunks d.len dht k) := by
    rw [Dht.process, e, ok_bind]
  have hlen : (mapChunks d.len dht k).length = d.len := by
    rw [mapChunks_single (by omega) hk, length_dht, hk]
  unfold raders
  simp only
  rw [add_eq _ (by omega), ok_bind, e1, millerRabin, decide_eq_true hp, assert_true, ok_bind,
    primitiveRoot_release hp h32 h61 ho, ok_bind]
  simp only
  rw [rootInverse_eq _ hp (by norm_num) (by omega) (by omega), ok_bind, ek, ok_bind, epr, ok_bind,
    radersTwiddles_eq _ (by omega), radersTwiddles_ok hlen (by omega), ok_bind, add_eq _ (by split <;> omega), ok_bind]
  exact ⟨_, rfl, rfl⟩

theorem raders_release_wrong {p : Nat} (hp : p.Prime) (h32 : 2 ^ 32 < p) (h61 : p < 2 ^ 61) (ho : 64 ≤ orderOf (2 : ZMod p))
    (h8 : p % 8 = 1 ∨ p % 8 = 7) {d r : Dht ℝ} (hd : ComputesDht d) (hl : d.len = p - 1) (hr : raders .release d = .ok r)
    (hs : d.inplaceScratchLen < 2 ^ 63) : ¬ ComputesDht r := by
  have hcap := cap_release
  intro hc
  unfold raders at hr
  simp only at hr
  have e1 : d.len + 1 = p := by omega
  rw [add_eq _ (by omega), ok_bind, e1] at hr
  obtain ⟨_, _, hr⟩ := bind_eq_ok hr
  rw [primitiveRoot_release hp h32 h61 ho, ok_bind] at hr
  simp only at hr
  obtain ⟨_, _, hr⟩ := bind_eq_ok hr
  obtain ⟨_, _, hr⟩ := bind_eq_ok hr
  obtain ⟨_, _, hr⟩ := bind_eq_ok hr
  obtain ⟨_, _, hr⟩ := bind_eq_ok hr
  rw [add_eq _ (by split <;> omega), ok_bind] at hr
  cases hr
  obtain ⟨j, hj0, hjp, hj⟩ := exists_not_power_of_two hp (by omega) h8
  obtain ⟨s', e, -, -⟩ := hc.inplace (tab p fun i => if i = j then 1 else 0) (List.replicate _ 0)
    (by simp [boilerplateDht]) (by simp [boilerplateDht]) (List.length_replicate.ge)
  simp only [boilerplateDht] at e
  rw [if_neg (by omega), if_neg (by simp)] at e
  obtain ⟨⟨ok, b', s''⟩, e2, e⟩ := bind_eq_ok e
  rw [iterChunks, if_pos (by simp), if_neg (by omega)] at e2
  obtain ⟨⟨hd', s3⟩, e3, e2⟩ := bind_eq_ok e2
  rw [List.take_of_length_le (by simp), List.take_of_length_le (by simp)] at e3
  have hz := raders_first_output hp (by omega) h61 hd hl hj hj0 hjp _ _ (by simp [hl]) e3
  simp only at e2
  rw [iterChunks, if_neg (by simp; omega), ok_bind] at e2
  cases e2
  simp only [List.append_nil, List.drop_of_length_le (show (tab p fun i => if i = j then (1 : ℝ) else 0).length ≤ p by simp),
    List.length_nil, beq_self_eq_true, Bool.not_true, Bool.false_eq_true, if_false, pure_bind] at e
  rw [mapChunks_single (by omega) (by simp)] at e
  have hb : hd' = dht (tab p fun i => if i = j then 1 else 0) := by
    injection e with e
    injection e
  rw [hb, dht_tab, nth_tab (by omega), hart] at hz
  simp [Finset.sum_ite_eq', hjp, ca, cs, sn] at hz

end RustDHT.Machine
