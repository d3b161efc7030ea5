import Verif.Proofs.MachineWrap
import Verif.Proofs.MachineSafety

/-! # Exactly when `RadersAlgorithm` of a release build computes the transform -/

set_option linter.unusedSectionVars false

namespace RustDHT.Machine

open Finset

variable {m : Mode}

/-- The function behind a correct object transforms one chunk. -/
theorem perform_of_computes {len n1 n2 : ℕ} {pi : List ℝ → List ℝ → Res (List ℝ × List ℝ)}
    {po : List ℝ → List ℝ → List ℝ → Res (List ℝ × List ℝ × List ℝ)} (hlen : 0 < len)
    (hc : ComputesDht (boilerplateDht len n1 n2 pi po)) {x : List ℝ} (hx : x.length = len) :
    ∃ s, pi x (List.replicate n1 0) = .ok (dht x, s) := by
  obtain ⟨s', e, -, -⟩ := hc.inplace x (List.replicate n1 0)
    (by simp [boilerplateDht, hx]) (by simp [boilerplateDht, hx]) (by simp [boilerplateDht])
  simp only [boilerplateDht] at e
  rw [if_neg (by omega), if_neg (by simp; omega)] at e
  obtain ⟨⟨ok, b', s''⟩, e2, e⟩ := bind_eq_ok e
  rw [iterChunks, if_pos (by omega), if_neg (by omega)] at e2
  obtain ⟨⟨hd', s3⟩, e3, e2⟩ := bind_eq_ok e2
  rw [List.take_of_length_le (by omega), List.take_of_length_le (by simp)] at e3
  simp only at e2
  rw [iterChunks, if_neg (by simp; omega), ok_bind] at e2
  cases e2
  simp only [List.append_nil, List.drop_of_length_le (show x.length ≤ len by omega),
    List.length_nil, beq_self_eq_true, Bool.not_true, Bool.false_eq_true, if_false] at e
  rw [mapChunks_single (by omega) hx] at e
  have hb : hd' = dht x := by
    injection e with e
    injection e
  exact ⟨s3, by rw [e3, hb]⟩

/-- The DHT of an impulse. -/
theorem nth_dht_impulse {p q k : ℕ} (hq : q < p) (hk : k < p) :
    nth (dht (tab p fun i => if i = q then (1 : ℝ) else 0)) k = ca p (q * k) := by
  rw [dht_tab, nth_tab hk, hart]
  simp [hq]

theorem sum_impulse {n : ℕ} {s : ℕ → ℕ} (hinj : ∀ i < n, ∀ j < n, s i = s j → i = j) {j : ℕ} (hj : j < n) (F : ℕ → ℝ) :
    ∑ i ∈ range n, (if s i = s j then (1 : ℝ) else 0) * F i = F j := by
  rw [sum_eq_single j]
  · simp
  · intro i hi hne
    rw [if_neg fun h => hne (hinj i (mem_range.1 hi) j hj h), zero_mul]
  · intro h
    exact absurd (mem_range.2 hj) h

/-- If all impulses are transformed correctly, the sequences of indices are the powers of a generator and of its inverse. -/
theorem sequences_of_correct {p n g : ℕ} (hp : p.Prime) (hpn : p = n + 1) (hn : 2 ≤ n) {s t : ℕ → ℕ} (ht0 : t 0 = 1)
    (hs1 : s 1 = g) (hs : ∀ j < n, 0 < s j ∧ s j < p) (ht : ∀ j < n, 0 < t j ∧ t j < p)
    (hA : ∀ q, 0 < q → q < p → ∑ j ∈ range n, (if s j = q then (1 : ℝ) else 0) = 1)
    (hB : ∀ q, 0 < q → q < p → ∀ k < n, (∀ i, k < i → i < n → t i ≠ t k) →
      ∑ j ∈ range n, (if s j = q then (1 : ℝ) else 0) * ca p (t ((k + (n - j)) % n)) = ca p (q * t k)) :
    (∀ j < n, (s j : ZMod p) = (g : ZMod p) ^ j) ∧ (∀ j < n, (t j : ZMod p) * (g : ZMod p) ^ j = 1) ∧
      (∀ i < n, ∀ j < n, s i = s j → i = j) := by
  have := Fact.mk hp
  have hodd : p % 2 = 1 := hp.eq_two_or_odd.resolve_left (by omega)
  have hinj : ∀ i < n, ∀ j < n, s i = s j → i = j := by
    refine inj_of_surj (fun q h0 h1 => ?_) fun j hj => by have := hs j hj; omega
    by_contra hc
    push Not at hc
    have := hA q h0 (by omega)
    rw [sum_eq_zero fun j hj => if_neg (hc j (mem_range.1 hj))] at this
    norm_num at this
  have hcong : ∀ k < n, (∀ i, k < i → i < n → t i ≠ t k) → ∀ j < n,
      (t ((k + (n - j)) % n) : ZMod p) = (s j : ZMod p) * (t k : ZMod p) := by
    intro k hk hlast j hj
    have h := hB (s j) (hs j hj).1 (hs j hj).2 k hk hlast
    rw [sum_impulse hinj hj (fun j => ca p (t ((k + (n - j)) % n)))] at h
    have := ca_inj hodd h
    have := (ZMod.intCast_eq_intCast_iff_dvd_sub _ _ p).2 ((dvd_neg.2 this).trans (by rw [neg_sub]))
    push_cast at this
    exact this
  have hcast : ∀ a b : ℕ, a < p → b < p → (a : ZMod p) = (b : ZMod p) → a = b := by
    intro a b ha hb h
    have := (ZMod.natCast_eq_natCast_iff' _ _ _).1 h
    rwa [Nat.mod_eq_of_lt ha, Nat.mod_eq_of_lt hb] at this
  have hne : ∀ j < n, (t j : ZMod p) ≠ 0 := by
    intro j hj h
    have := hcast (t j) 0 (ht j hj).2 hp.pos (by simpa using h)
    have := (ht j hj).1
    omega
  -- the last index is not overwritten, so the indices are different
  have hlast := hcong (n - 1) (by omega) (by omega)
  have htinj : ∀ i < n, ∀ j < n, t i = t j → i = j := by
    intro i hi j hj e
    have h1 := hlast (n - 1 - i) (by omega)
    have h2 := hlast (n - 1 - j) (by omega)
    have e1 : (n - 1 + (n - (n - 1 - i))) % n = i := by
      rw [show n - 1 + (n - (n - 1 - i)) = i + n by omega, Nat.add_mod_right, Nat.mod_eq_of_lt hi]
    have e2 : (n - 1 + (n - (n - 1 - j))) % n = j := by
      rw [show n - 1 + (n - (n - 1 - j)) = j + n by omega, Nat.add_mod_right, Nat.mod_eq_of_lt hj]
    rw [e1] at h1
    rw [e2, ← e, h1] at h2
    have h3 := mul_right_cancel₀ (hne (n - 1) (by omega)) h2
    have h4 := hcast _ _ (hs _ (by omega)).2 (hs _ (by omega)).2 h3
    have := hinj _ (by omega) _ (by omega) h4
    omega
  have hall : ∀ k < n, ∀ j < n, (t ((k + (n - j)) % n) : ZMod p) = (s j : ZMod p) * (t k : ZMod p) := fun k hk =>
    hcong k hk fun i hi hin e => by
      have := htinj i hin k hk e
      omega
  have hinv : ∀ j < n, (s j : ZMod p) * (t j : ZMod p) = 1 := by
    intro j hj
    have := hall j hj j hj
    rw [show j + (n - j) = n by omega, Nat.mod_self, ht0] at this
    simpa using this.symm
  have htpow : ∀ j < n, (t j : ZMod p) * (g : ZMod p) ^ j = 1 := by
    intro j
    induction j with
    | zero => intro _; simp [ht0]
    | succ j ih =>
      intro hj
      have h1 := hall (j + 1) hj 1 (by omega)
      rw [show j + 1 + (n - 1) = j + n by omega, Nat.add_mod_right, Nat.mod_eq_of_lt (by omega), hs1] at h1
      have h2 := ih (by omega)
      rw [h1] at h2
      rw [← h2]
      ring
  refine ⟨fun j hj => ?_, htpow, hinj⟩
  have h1 := hinv j hj
  have h2 := htpow j hj
  calc (s j : ZMod p) = s j * (t j * (g : ZMod p) ^ j) := by rw [h2, mul_one]
    _ = s j * t j * (g : ZMod p) ^ j := by ring
    _ = _ := by rw [h1, one_mul]

/-- The inverse is unique. -/
theorem rootInverse_unique {n g h : ℕ} (hp : (n + 1).Prime) (hg0 : 0 < g) (hg : g < n + 1) (hlt : h < n + 1) (hi : g * h % (n + 1) = 1) :
    RustDHT.rootInverse g (n + 1) = h := by
  obtain ⟨i0, i1, hmul⟩ := rootInverse_ok hp hg0 hg
  have e1 : (g : ZMod (n + 1)) * (h : ZMod (n + 1)) = 1 := by
    have : ((g * h : ℕ) : ZMod (n + 1)) = ((1 : ℕ) : ZMod (n + 1)) :=
      (ZMod.natCast_eq_natCast_iff' _ _ _).2 (by rw [hi, Nat.mod_eq_of_lt hp.one_lt])
    exact_mod_cast this
  have e2 : ((RustDHT.rootInverse g (n + 1) : ℕ) : ZMod (n + 1)) = (h : ZMod (n + 1)) := by
    calc ((RustDHT.rootInverse g (n + 1) : ℕ) : ZMod (n + 1))
        = (g : ZMod (n + 1)) * (h : ZMod (n + 1)) * (RustDHT.rootInverse g (n + 1) : ℕ) := by rw [e1, one_mul]
      _ = (g : ZMod (n + 1)) * (RustDHT.rootInverse g (n + 1) : ℕ) * (h : ZMod (n + 1)) := by ring
      _ = h := by rw [hmul, one_mul]
  have := (ZMod.natCast_eq_natCast_iff' _ _ _).1 e2
  rwa [Nat.mod_eq_of_lt i1, Nat.mod_eq_of_lt hlt] at this

/-- The object that the constructor makes from a root `g` and its inverse. -/
noncomputable def radersObject (m : Mode) (d : Dht ℝ) (n g gi : ℕ) : Dht ℝ :=
  boilerplateDht (n + 1) (n + if d.inplaceScratchLen ≤ n then 0 else d.inplaceScratchLen)
    (if d.inplaceScratchLen ≤ n then 0 else d.inplaceScratchLen)
    (radersPerformInplace m d (n + 1) g gi (tab (n / 2 + 1) (rdTw (dht (wrapKernel m gi (n + 1) n)) n)))
    (radersPerformOop m d (n + 1) g gi (tab (n / 2 + 1) (rdTw (dht (wrapKernel m gi (n + 1) n)) n)))

theorem wrapKernel_eq {gi n : ℕ} : (tab n fun i => computeDhtTwiddle ℝ (wrapSeq m gi (n + 1) i) (n + 1) *
      FftNum.fromF64 ((FftNum.f64 (T := ℝ)).div ((FftNum.f64 (T := ℝ)).ofNat 1) ((FftNum.f64 (T := ℝ)).ofNat n))) =
    wrapKernel m gi (n + 1) n := by
  refine tab_congr fun i _ => ?_
  rw [dht_twiddle]
  congr 1
  change ((1 : ℕ) : ℝ) / ((n : ℕ) : ℝ) = 1 / n
  simp

/-- A release build makes an object for every root. -/
theorem raders_wrap (hm : m.checked = false) {n g : ℕ} (hp : (n + 1).Prime) (hn : 2 ≤ n) (hcap : n + 1 < 2 * m.cap)
    (hr : primitiveRoot m (n + 1) = .ok (some g)) (hg0 : 0 < g) (hg : g < n + 1) {d : Dht ℝ} (hd : ComputesDht d) (hl : d.len = n)
    (hs : d.inplaceScratchLen < 8 * m.cap) : raders m d = .ok (radersObject m d n g (RustDHT.rootInverse g (n + 1))) := by
  subst hl
  have epr : ∀ k : List ℝ, k.length = d.len → d.process k = .ok (dht k) := fun k hk => by
    rw [hd.process (by omega) (by rw [hk]), mapChunks_single (by omega) hk]
  unfold raders
  simp only
  rw [add_eq _ (by omega), ok_bind, millerRabin, decide_eq_true hp, assert_true, ok_bind, hr, ok_bind]
  simp only
  rw [rootInverse_eq _ hp hg0 hg (by omega), ok_bind, kernelInput_wrap hm (by omega), ok_bind, wrapKernel_eq,
    epr _ (by simp [wrapKernel]), ok_bind, radersTwiddles_eq _ (by rw [length_dht]; simp [wrapKernel]; omega),
    radersTwiddles_ok (by rw [length_dht]; simp [wrapKernel]) hn, ok_bind, add_eq _ (by split <;> omega), ok_bind]
  rfl

/-- The object computes the transform only if the root generates all residues and no index wraps around. -/
theorem raders_wrap_only (hm : m.checked = false) {n g : ℕ} (hp : (n + 1).Prime) (hn : 4 ≤ n) (hcap : n + 1 < 2 * m.cap)
    (hg0 : 0 < g) (hg : g < n + 1) {d : Dht ℝ} (hd : ComputesDht d) (hl : d.len = n)
    (hc : ComputesDht (radersObject m d n g (RustDHT.rootInverse g (n + 1)))) :
    orderOf (g : ZMod (n + 1)) = n ∧ n * g < 2 ^ m.bits ∧ n * RustDHT.rootInverse g (n + 1) < 2 ^ m.bits := by
  have := Fact.mk hp
  have he : n % 2 = 0 := by
    have := hp.eq_two_or_odd.resolve_left (by omega)
    omega
  obtain ⟨i0, i1, hmul⟩ := rootInverse_ok hp hg0 hg
  set gi := RustDHT.rootInverse g (n + 1) with hgi
  have hbits : n + 1 ≤ 2 ^ m.bits := by rw [size_eq]; omega
  set s := wrapSeq m g (n + 1) with hs
  set t := wrapSeq m gi (n + 1) with ht
  have key := fun q (_ : q < n + 1) => perform_wrap hm (by omega) he hcap hd hl (by simp) (by simp)
    (perform_of_computes (by omega) hc (x := tab (n + 1) fun i => if i = q then (1 : ℝ) else 0) (by simp)).choose_spec
  have hsl : ∀ j < n, 0 < s j ∧ s j < n + 1 := fun j hj => ⟨(key 0 (by omega)).1 j hj, wrapSeq_lt m (by omega) j⟩
  have htl : ∀ j < n, 0 < t j ∧ t j < n + 1 := fun j hj => ⟨(key 0 (by omega)).2.1 j hj, wrapSeq_lt m (by omega) j⟩
  obtain ⟨h1, h2, h3⟩ := sequences_of_correct (g := g) hp rfl (by omega) (s := s) (t := t) rfl (wrapSeq_one m hg (by rw [size_eq]; omega)) hsl htl
    (by
      intro q h0 hq
      have := (key q hq).2.2.1
      rw [nth_dht_impulse hq (by omega), nth_tab (by omega), if_neg (by omega)] at this
      simp only [Nat.cast_zero, mul_zero, ca_zero, zero_add] at this
      refine Eq.trans ?_ this.symm
      refine sum_congr rfl fun j hj => ?_
      rw [nth_tab (hsl j (mem_range.1 hj)).2])
    (by
      intro q h0 hq k hk hlast
      have := (key q hq).2.2.2 k hk hlast
      rw [nth_dht_impulse hq (htl k hk).2, nth_tab (by omega), if_neg (by omega), zero_add] at this
      rw [this]
      refine sum_congr rfl fun j hj => ?_
      rw [nth_tab (hsl j (mem_range.1 hj)).2])
  have hcast : ∀ a b : ℕ, a < n + 1 → (a : ZMod (n + 1)) = (b : ZMod (n + 1)) → a = b % (n + 1) := by
    intro a b ha h
    have := (ZMod.natCast_eq_natCast_iff' _ _ _).1 h
    rwa [Nat.mod_eq_of_lt ha] at this
  have hspow : ∀ j < n, s j = g ^ j % (n + 1) := fun j hj => hcast _ _ (hsl j hj).2 (by rw [h1 j hj]; push_cast; rfl)
  have htpow : ∀ j < n, t j = gi ^ j % (n + 1) := fun j hj => hcast _ _ (htl j hj).2 (by
    have e1 := h2 j hj
    have e2 : (g : ZMod (n + 1)) ^ j * (gi : ZMod (n + 1)) ^ j = 1 := by rw [← mul_pow, hmul, one_pow]
    push_cast
    calc (t j : ZMod (n + 1)) = t j * ((g : ZMod (n + 1)) ^ j * (gi : ZMod (n + 1)) ^ j) := by rw [e2, mul_one]
      _ = t j * (g : ZMod (n + 1)) ^ j * (gi : ZMod (n + 1)) ^ j := by ring
      _ = _ := by rw [e1, one_mul])
  have hg0' : (g : ZMod (n + 1)) ≠ 0 := by
    intro h
    rw [h, zero_mul] at hmul
    exact zero_ne_one hmul
  have hord : orderOf (g : ZMod (n + 1)) = n := by
    have hle : orderOf (g : ZMod (n + 1)) ≤ n := orderOf_le_of_pow_eq_one (by omega) (ZMod.pow_card_sub_one_eq_one hg0')
    have hpos : 0 < orderOf (g : ZMod (n + 1)) := by
      refine (isOfFinOrder_iff_pow_eq_one.2 ⟨n, by omega, ZMod.pow_card_sub_one_eq_one hg0'⟩).orderOf_pos
    refine le_antisymm hle (by_contra fun hlt => ?_)
    push Not at hlt
    have e1 := h1 _ hlt
    rw [pow_orderOf_eq_one] at e1
    have e2 : s (orderOf (g : ZMod (n + 1))) = s 0 := by
      have := hcast (s (orderOf (g : ZMod (n + 1)))) 1 (hsl _ hlt).2 (by rw [e1]; simp)
      rw [this, Nat.mod_eq_of_lt (by omega)]
      rfl
    have := h3 _ hlt 0 (by omega) e2
    omega
  refine ⟨hord, ?_, ?_⟩
  · exact no_wrap hp (by omega) hg0 hg hbits hord (by simpa using hspow)
  · exact no_wrap hp (by omega) i0 i1 hbits ((orderOf_inverse hmul).trans hord) (by simpa using htpow)

/-! ## When nothing wraps around -/

theorem wrapSeq_pow {f p : ℕ} (hp : 1 < p) (h : (p - 1) * f < 2 ^ m.bits) (j : ℕ) : wrapSeq m f p j = f ^ j % p := by
  induction j with
  | zero => rw [wrapSeq, pow_zero, Nat.mod_eq_of_lt hp]
  | succ j ih =>
    have hlt := Nat.mod_lt (f ^ j) (show 0 < p by omega)
    have : f ^ j % p * f ≤ (p - 1) * f := Nat.mul_le_mul_right _ (by omega)
    rw [wrapSeq, ih, Nat.mod_eq_of_lt (lt_of_le_of_lt this h), Nat.mod_mul_mod, pow_succ]

theorem wrapKernel_pow {gi n : ℕ} (hn : 0 < n) (h : n * gi < 2 ^ m.bits) : wrapKernel m gi (n + 1) n = rdKernel ℝ (n + 1) gi := by
  rw [rdKernel, ← wrapKernel_eq, Nat.add_sub_cancel]
  refine tab_congr fun i _ => ?_
  rw [wrapSeq_pow (by omega) (by simpa using h)]

/-- The object computes the transform if the root generates all residues and no index wraps around. -/
theorem raders_wrap_if {n g : ℕ} (hp : (n + 1).Prime) (hn : 2 ≤ n) (hg0 : 0 < g) (hg : g < n + 1) {d : Dht ℝ}
    (hd : ComputesDht d) (hl : d.len = n) (ho : orderOf (g : ZMod (n + 1)) = n) (h1 : n * g < 2 ^ m.bits)
    (h2 : n * RustDHT.rootInverse g (n + 1) < 2 ^ m.bits) :
    ComputesDht (radersObject m d n g (RustDHT.rootInverse g (n + 1))) := by
  obtain ⟨i0, i1, hmul⟩ := rootInverse_ok hp hg0 hg
  have hio := (orderOf_inverse hmul).trans ho
  have hle : 16 * m.cap ≤ 2 ^ 64 := by have := cap_le m; omega
  rw [size_eq] at h1 h2
  unfold radersObject
  rw [raders_perform_eq m hp (by simpa using h1) (by simpa using h2) hg0 hg i0 i1, wrapKernel_pow (by omega) (by rw [size_eq]; exact h2)]
  have hperf := raders_performs hd (p := n + 1) (g := g) (gi := RustDHT.rootInverse g (n + 1)) (by simpa using hl) hp (by omega)
    (by simpa using h1.trans_le hle) (by simpa using h2.trans_le hle) hg0 hg i0 i1 (by simpa using hio)
    (rdTw (dht (rdKernel ℝ (n + 1) (RustDHT.rootInverse g (n + 1)))) n) rfl
  rw [Nat.add_sub_cancel] at hperf
  refine (boilerplateDht_implements (fun _ => hperf) (fun h0 => by omega)).congr fun x hx => ?_
  have hx : x.length = n + 1 := hx
  have := rdFn_dht hp (by omega) hg0 hg (by simpa using ho) i0 i1 hmul (by simpa using hio) hx
  rwa [Nat.add_sub_cancel] at this

/-! ## A debug build -/

theorem stepIndex_checked {i f p j : ℕ} (hm : m.checked = true) (h : stepIndex m i f p = .ok j) (hp : 0 < p) :
    i * f < 2 ^ m.bits ∧ j = i * f % p := by
  unfold stepIndex Mode.mul Mode.overflow at h
  by_cases hlt : i * f < 2 ^ m.bits
  · rw [if_pos hlt, ok_bind, remU64_ok hp] at h
    cases h
    exact ⟨hlt, rfl⟩
  · rw [if_neg hlt, hm] at h
    cases h

/-- The loops run through all residues. -/
theorem steps_checked {f p : ℕ} (hp : p.Prime) (hf0 : 0 < f) (hf : f < p) (ho : orderOf (f : ZMod p) = p - 1)
    (h : ∀ j < p - 1, f ^ j % p * f < 2 ^ m.bits) : (p - 1) * f < 2 ^ m.bits := by
  have := hp.two_le
  obtain ⟨i, hi, e⟩ := pow_mod_surj hp hf0 hf ho (q := p - 1) (by omega) (by omega)
  have := h i hi
  rwa [e] at this

theorem panic_of_not_ok {α : Type} {P : α → Prop} {x : Res α} (h : Post False P x) (hne : ∀ y, x ≠ .ok y) :
    ∃ k, x = .error (.panic k) := by
  match x with
  | .ok y => exact absurd rfl (hne y)
  | .error (.panic k) => exact ⟨k, rfl⟩
  | .error .ub => exact h.elim
  | .error .diverge => exact h.elim

theorem kernelInput_checked {T : Type} [Zero T] [Add T] [Sub T] [Mul T] [Neg T] [FftNum T] {n gi : ℕ} (hm : m.checked = true) (hp : (n + 1).Prime)
    (hg0 : 0 < gi) (hg : gi < n + 1) (ho : orderOf (gi : ZMod (n + 1)) = n) (hc : 2 ^ m.bits ≤ n * gi) :
    ∃ k, radersKernelInput m T n (n + 1) gi = .error (.panic k) := by
  refine panic_of_not_ok (radersKernelInput_post m) fun y e => ?_
  unfold radersKernelInput at e
  obtain ⟨⟨b, t⟩, e, _⟩ := bind_eq_ok e
  have := (forRange_of_ok (fun i s => (∀ j < i, gi ^ j % (n + 1) * gi < 2 ^ m.bits) ∧ s.2 = gi ^ i % (n + 1)) e
    ⟨by simp, by simp only [pow_zero]; rw [Nat.mod_eq_of_lt hp.one_lt]⟩ (by
      rintro i ⟨b, t⟩ ⟨b', t'⟩ hi ⟨h1, h2⟩ he
      simp only at h1 h2 he
      subst h2
      obtain ⟨_, _, he⟩ := bind_eq_ok he
      obtain ⟨t1, e1, he⟩ := bind_eq_ok he
      cases he
      obtain ⟨h3, h4⟩ := stepIndex_checked hm e1 (by omega)
      refine ⟨fun j hj => ?_, ?_⟩
      · rcases Nat.lt_succ_iff_lt_or_eq.1 hj with h | rfl
        · exact h1 j h
        · exact h3
      · simp only
        rw [h4, Nat.mod_mul_mod, pow_succ])).1
  have := steps_checked (m := m) hp hg0 hg (by simpa using ho) (by simpa using this)
  rw [Nat.add_sub_cancel] at this
  omega

theorem gather_checked {T : Type} [Zero T] [Add T] [Sub T] [Mul T] [Neg T] [FftNum T] {n g : ℕ} (hm : m.checked = true) (hp : (n + 1).Prime)
    (hg0 : 0 < g) (hg : g < n + 1) (ho : orderOf (g : ZMod (n + 1)) = n) (hc : 2 ^ m.bits ≤ n * g) {src dst : List T}
    (hd : dst.length = n) : ∃ k, radersGather m g (n + 1) src dst = .error (.panic k) := by
  refine panic_of_not_ok (radersGather_post m) fun y e => ?_
  unfold radersGather at e
  rw [hd] at e
  obtain ⟨⟨b, t⟩, e, _⟩ := bind_eq_ok e
  have := (forRange_of_ok (fun i s => (∀ j < i, g ^ j % (n + 1) * g < 2 ^ m.bits) ∧ s.2 = g ^ i % (n + 1)) e
    ⟨by simp, by simp only [pow_zero]; rw [Nat.mod_eq_of_lt hp.one_lt]⟩ (by
      rintro i ⟨b, t⟩ ⟨b', t'⟩ hi ⟨h1, h2⟩ he
      simp only at h1 h2 he
      subst h2
      obtain ⟨_, _, he⟩ := bind_eq_ok he
      obtain ⟨_, _, he⟩ := bind_eq_ok he
      obtain ⟨_, _, he⟩ := bind_eq_ok he
      obtain ⟨t1, e1, he⟩ := bind_eq_ok he
      cases he
      obtain ⟨h3, h4⟩ := stepIndex_checked hm e1 (by omega)
      refine ⟨fun j hj => ?_, ?_⟩
      · rcases Nat.lt_succ_iff_lt_or_eq.1 hj with h | rfl
        · exact h1 j h
        · exact h3
      · simp only
        rw [h4, Nat.mod_mul_mod, pow_succ])).1
  have := steps_checked (m := m) hp hg0 hg (by simpa using ho) (by simpa using this)
  rw [Nat.add_sub_cancel] at this
  omega

section Panics

variable {T : Type} [Zero T] [Add T] [Sub T] [Mul T] [Neg T] [FftNum T]

/-- If the code for one chunk always panics, so does every call. -/
theorem boilerplate_panics {len n1 n2 : ℕ} {pi : List T → List T → Res (List T × List T)}
    {po : List T → List T → List T → Res (List T × List T × List T)} (hlen : 0 < len)
    (hi : ∀ c s, c.length = len → ∃ k, pi c s = .error (.panic k))
    (ho : ∀ i o s, i.length = len → o.length = len → ∃ k, po i o s = .error (.panic k)) :
    (∀ b s, ∃ k, (boilerplateDht len n1 n2 pi po).processWithScratch b s = .error (.panic k)) ∧
    ∀ i o s, ∃ k, (boilerplateDht len n1 n2 pi po).processOop i o s = .error (.panic k) := by
  constructor
  · intro b s
    simp only [boilerplateDht]
    rw [if_neg (by omega)]
    split
    · next h =>
      unfold dhtErrorInplace
      rcases Nat.lt_or_ge b.length len with hb | hb
      · exact ⟨.bufferTooSmall, by simp [assert, show ¬ len ≤ b.length by omega, panic, bind, Except.bind]⟩
      · by_cases hm : b.length % len = 0
        · exact ⟨.scratchTooSmall, by simp [assert, hb, hm, show len ≠ 0 by omega, show ¬ n1 ≤ s.length by omega, panic, bind, Except.bind]⟩
        · exact ⟨.notMultiple, by simp [assert, hb, hm, show len ≠ 0 by omega, panic, bind, Except.bind]⟩
    · next h =>
      obtain ⟨k, e⟩ := hi (b.take len) (s.take n1) (by simp; omega)
      refine ⟨k, ?_⟩
      rw [iterChunks, if_pos (by omega), if_neg (by omega), e]
      rfl
  · intro i o s
    simp only [boilerplateDht]
    rw [if_neg (by omega)]
    split
    · next h =>
      unfold dhtErrorOutofplace
      by_cases hio : i.length = o.length
      · rcases Nat.lt_or_ge i.length len with hb | hb
        · exact ⟨.bufferTooSmall, by simp [assert, hio, show ¬ len ≤ o.length by omega, panic, bind, Except.bind]⟩
        · rw [hio] at hb
          by_cases hm : o.length % len = 0
          · exact ⟨.scratchTooSmall, by
              simp [assert, hio, hb, hm, show len ≠ 0 by omega, show ¬ n2 ≤ s.length by omega, panic, bind, Except.bind]⟩
          · exact ⟨.notMultiple, by simp [assert, hio, hb, hm, show len ≠ 0 by omega, panic, bind, Except.bind]⟩
      · exact ⟨.lengthMismatch, by simp [assert, hio, panic, bind, Except.bind]⟩
    · next h =>
      obtain ⟨k, e⟩ := ho (i.take len) (o.take len) (s.take n2) (by simp; omega) (by simp; omega)
      refine ⟨k, ?_⟩
      rw [iterChunksZipped, if_neg (by omega), if_neg (by omega), iterChunksZippedLoop, if_pos (by omega), if_neg (by omega), e]
      rfl

/-- A debug build panics in the constructor if the inverse of the root is too large. -/
theorem raders_panics (hm : m.checked = true) {n g : ℕ} (hp : (n + 1).Prime) (hcap : n + 1 < 2 * m.cap)
    (hr : primitiveRoot m (n + 1) = .ok (some g)) (hg0 : 0 < g) (hg : g < n + 1) (ho : orderOf (g : ZMod (n + 1)) = n)
    (hc : 2 ^ m.bits ≤ n * RustDHT.rootInverse g (n + 1)) {d : Dht T} (hl : d.len = n) : ∃ k, raders m d = .error (.panic k) := by
  obtain ⟨i0, i1, hmul⟩ := rootInverse_ok hp hg0 hg
  obtain ⟨k, e⟩ := kernelInput_checked (T := T) hm hp i0 i1 ((orderOf_inverse hmul).trans ho) hc
  refine ⟨k, ?_⟩
  unfold raders
  simp only [hl]
  rw [add_eq _ (by omega), ok_bind, millerRabin, decide_eq_true hp, assert_true, ok_bind, hr, ok_bind]
  simp only
  rw [rootInverse_eq _ hp hg0 hg (by omega), ok_bind, e]
  rfl

end Panics

/-- Every build makes the object if the inverse of the root is small enough. -/
theorem raders_builds {n g : ℕ} (hp : (n + 1).Prime) (hn : 2 ≤ n) (hcap : n + 1 < 2 * m.cap)
    (hr : primitiveRoot m (n + 1) = .ok (some g)) (hg0 : 0 < g) (hg : g < n + 1)
    (h1 : n * RustDHT.rootInverse g (n + 1) < 2 ^ m.bits) {d : Dht ℝ} (hd : ComputesDht d) (hl : d.len = n)
    (hs : d.inplaceScratchLen < 8 * m.cap) : raders m d = .ok (radersObject m d n g (RustDHT.rootInverse g (n + 1))) := by
  subst hl
  obtain ⟨i0, i1, hmul⟩ := rootInverse_ok hp hg0 hg
  have epr : ∀ k : List ℝ, k.length = d.len → d.process k = .ok (dht k) := fun k hk => by
    rw [hd.process (by omega) (by rw [hk]), mapChunks_single (by omega) hk]
  have hle : 16 * m.cap ≤ 2 ^ 64 := by have := cap_le m; omega
  have hk : (rdKernel ℝ (d.len + 1) (RustDHT.rootInverse g (d.len + 1))).length = d.len := by simp [rdKernel]
  unfold radersObject
  rw [wrapKernel_pow (by omega) h1]
  rw [size_eq] at h1
  have hki := radersKernelInput_ok (T := ℝ) (p := d.len + 1) (gi := RustDHT.rootInverse g (d.len + 1))
    (by simpa using h1.trans_le hle) (by omega) i1
  rw [Nat.add_sub_cancel] at hki
  unfold raders
  simp only
  rw [add_eq _ (by omega), ok_bind, millerRabin, decide_eq_true hp, assert_true, ok_bind, hr, ok_bind]
  simp only
  rw [rootInverse_eq _ hp hg0 hg (by omega), ok_bind, radersKernelInput_eq m hp (by simpa using h1) i0 i1, hki, ok_bind,
    epr _ hk, ok_bind, radersTwiddles_eq _ (by rw [length_dht, hk]; omega),
    radersTwiddles_ok (by rw [length_dht, hk]) hn, ok_bind, add_eq _ (by split <;> omega), ok_bind]

/-- In a debug build every call of the object panics if the root is too large. -/
theorem raders_call_panics (hm : m.checked = true) {n g gi : ℕ} (hp : (n + 1).Prime)
    (hg0 : 0 < g) (hg : g < n + 1) (ho : orderOf (g : ZMod (n + 1)) = n) (h2 : 2 ^ m.bits ≤ n * g) {d : Dht ℝ} :
    (∀ b s, ∃ k, (radersObject m d n g gi).processWithScratch b s = .error (.panic k)) ∧
      ∀ i o s, ∃ k, (radersObject m d n g gi).processOop i o s = .error (.panic k) := by
  refine boilerplate_panics (by omega) (fun c s hc => ?_) (fun i o s hi hoo => ?_)
  · unfold radersPerformInplace
    match c with
    | [] => simp at hc
    | c0 :: c =>
      simp only
      rw [sub_eq m (show 1 ≤ n + 1 by omega), ok_bind, Nat.add_sub_cancel]
      unfold splitAt
      split
      · rw [ok_bind]
        obtain ⟨k, e⟩ := gather_checked (T := ℝ) hm hp hg0 hg ho h2 (src := c) (dst := s.take n) (by simp; omega)
        refine ⟨k, ?_⟩
        simp only
        rw [e]
        rfl
      · exact ⟨_, rfl⟩
  · unfold radersPerformOop
    match o, i with
    | [], _ => simp at hoo
    | _ :: _, [] => simp at hi
    | o0 :: o, i0 :: i =>
      simp only
      obtain ⟨k, e⟩ := gather_checked (T := ℝ) hm hp hg0 hg ho h2 (src := i) (dst := o) (by simpa using hoo)
      refine ⟨k, ?_⟩
      rw [e]
      rfl

end RustDHT.Machine
