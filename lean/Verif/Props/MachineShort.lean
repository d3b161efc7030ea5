import Verif.Proofs.MachineExact
import Verif.Props.MachineRoot

/-! # C54: Rader's algorithm on 32-bit targets

`RadersAlgorithm` multiplies two residues modulo its length in `usize`.  With 32 bits the products can overflow from length 65539
on.  With `g` the primitive root and `h` its inverse, the products overflow exactly if `(p - 1) * g` or `(p - 1) * h` does.  Then a
debug build panics, and a release build returns an object that does not compute the transform.  This is so for every prime above
2642246. -/

namespace RustDHT

open Machine (Mode)

/-- `g` is the least primitive root modulo `p` and `h` its inverse. -/
structure RootAndInverse (p g h : ℕ) : Prop where
  pos : 0 < g
  lt : g < p
  root : orderOf (g : ZMod p) = p - 1
  least : ∀ x, 0 < x → x < g → orderOf (x : ZMod p) ≠ p - 1
  inv_lt : h < p
  inv : g * h % p = 1

namespace Machine

variable {m : Mode} {n g h : ℕ}

/-- The root and the inverse that the code computes. -/
theorem root_found (hp : (n + 1).Prime) (hn : 2 ≤ n) (h32 : n + 1 < 2 ^ 32) (hr : RootAndInverse (n + 1) g h) :
    primitiveRoot m (n + 1) = .ok (some g) ∧ RustDHT.rootInverse g (n + 1) = h ∧ orderOf (g : ZMod (n + 1)) = n := by
  obtain ⟨g', e, h1, h2, h3, h4⟩ := primitiveRoot_ok hp (by omega) h32
  have hgg : g' = g := by
    rcases Nat.lt_trichotomy g' g with hlt | he | hlt
    · exact absurd h3 (hr.least g' (by omega) hlt)
    · exact he
    · exact absurd hr.root (h4 g hr.pos hlt)
  subst hgg
  refine ⟨?_, rootInverse_unique hp hr.pos hr.lt hr.inv_lt hr.inv, by simpa using hr.root⟩
  rw [primitiveRoot_eq hp.one_lt (h32.trans (by norm_num)) (.inr h32.le), e]

end Machine

/-- Every odd prime has a least primitive root. -/
theorem C54_root_exists (p : ℕ) (hp : p.Prime) (h2 : p ≠ 2) (h32 : p < 2 ^ 32) : ∃ g h, RootAndInverse p g h := by
  obtain ⟨g, _, h1, hlt, h3, h4⟩ := primitiveRoot_ok hp h2 h32
  obtain ⟨_, i1, hmul⟩ := rootInverse_ok hp (by omega) hlt
  refine ⟨g, rootInverse g p, by omega, hlt, h3, h4, i1, ?_⟩
  have : ((g * rootInverse g p : ℕ) : ZMod p) = ((1 : ℕ) : ZMod p) := by exact_mod_cast hmul
  rw [(ZMod.natCast_eq_natCast_iff' _ _ _).1 this, Nat.mod_eq_of_lt hp.one_lt]

/-- A release build returns an object, and it computes the transform exactly if the products do not overflow. -/
theorem C54_release (m : Mode) (hm : m.checked = false) (p g h : ℕ) (hp : p.Prime) (h2 : p ≠ 2) (h32 : p < 2 ^ 32)
    (hcap : p < 2 * m.cap) (hr : RootAndInverse p g h) (d : Dht ℝ) (hd : ComputesDht d) (hl : d.len = p - 1)
    (hs : d.inplaceScratchLen < 8 * m.cap) :
    ∃ r, Machine.raders m d = .ok r ∧ r.len = p ∧
      (ComputesDht r ↔ (p - 1) * g < 2 ^ m.bits ∧ (p - 1) * h < 2 ^ m.bits) := by
  obtain ⟨n, rfl⟩ : ∃ n, p = n + 1 := ⟨p - 1, by have := hp.pos; omega⟩
  have hn : 2 ≤ n := by have := hp.two_le; omega
  rw [Nat.add_sub_cancel] at *
  obtain ⟨e1, e2, ho⟩ := Machine.root_found (m := m) hp hn h32 hr
  refine ⟨_, Machine.raders_wrap hm hp hn hcap e1 hr.pos hr.lt hd hl hs, rfl, fun hc => ?_, fun ⟨s1, s2⟩ => ?_⟩
  · by_cases h4 : 4 ≤ n
    · have := (Machine.raders_wrap_only hm hp h4 hcap hr.pos hr.lt hd hl hc).2
      rwa [e2] at this
    · have hbits : 16 ≤ 2 ^ m.bits := by rw [Machine.size_eq]; have := Machine.le_cap m; omega
      have h1 := hr.lt
      have h2 := hr.inv_lt
      exact ⟨by nlinarith, by nlinarith⟩
  · exact Machine.raders_wrap_if hp hn hr.pos hr.lt hd hl ho s1 (by rwa [e2])

/-- A debug build panics in the constructor if the inverse of the root is too large.  If only the root is too large it returns an
object, and every call of it panics.  Otherwise it returns an object that computes the transform. -/
theorem C54_debug (m : Mode) (hm : m.checked = true) (p g h : ℕ) (hp : p.Prime) (h2 : p ≠ 2) (h32 : p < 2 ^ 32)
    (hcap : p < 2 * m.cap) (hr : RootAndInverse p g h) (d : Dht ℝ) (hd : ComputesDht d) (hl : d.len = p - 1)
    (hs : d.inplaceScratchLen < 8 * m.cap) :
    (2 ^ m.bits ≤ (p - 1) * h → ∃ k, Machine.raders m d = .error (.panic k)) ∧
    ((p - 1) * h < 2 ^ m.bits → 2 ^ m.bits ≤ (p - 1) * g → ∃ r, Machine.raders m d = .ok r ∧ r.len = p ∧
      (∀ b s, ∃ k, r.processWithScratch b s = .error (.panic k)) ∧ ∀ i o s, ∃ k, r.processOop i o s = .error (.panic k)) ∧
    ((p - 1) * h < 2 ^ m.bits → (p - 1) * g < 2 ^ m.bits → ∃ r, Machine.raders m d = .ok r ∧ r.len = p ∧ ComputesDht r) := by
  obtain ⟨n, rfl⟩ : ∃ n, p = n + 1 := ⟨p - 1, by have := hp.pos; omega⟩
  have hn : 2 ≤ n := by have := hp.two_le; omega
  rw [Nat.add_sub_cancel] at *
  obtain ⟨e1, e2, ho⟩ := Machine.root_found (m := m) hp hn h32 hr
  refine ⟨fun hc => ?_, fun h1 hc => ?_, fun h1 h2 => ?_⟩
  · exact Machine.raders_panics hm hp hcap e1 hr.pos hr.lt ho (by rwa [e2]) hl
  · exact ⟨_, Machine.raders_builds hp hn hcap e1 hr.pos hr.lt (by rwa [e2]) hd hl hs, rfl,
      Machine.raders_call_panics hm hp hr.pos hr.lt ho hc⟩
  · exact ⟨_, Machine.raders_builds hp hn hcap e1 hr.pos hr.lt (by rwa [e2]) hd hl hs, rfl,
      Machine.raders_wrap_if hp hn hr.pos hr.lt hd hl ho h2 (by rwa [e2])⟩

/-- The products overflow for every prime whose cube is large enough: the product of the root and its inverse exceeds the prime. -/
theorem C54_overflows (p g h w : ℕ) (hp : p.Prime) (h2 : p ≠ 2) (hr : RootAndInverse p g h)
    (hw : w * w ≤ (p + 1) * ((p - 1) * (p - 1))) : w ≤ (p - 1) * g ∨ w ≤ (p - 1) * h := by
  have hg1 : 1 < g := by
    rcases Nat.lt_or_ge 1 g with h1 | h1
    · exact h1
    · have h0 := hr.pos
      obtain rfl : g = 1 := by omega
      have := hr.root
      rw [Nat.cast_one, orderOf_one] at this
      have := hp.two_le
      omega
  have hgh : p + 1 ≤ g * h := by
    have hi := hr.inv
    have hd := Nat.div_add_mod (g * h) p
    rw [hi] at hd
    rcases Nat.eq_zero_or_pos (g * h / p) with h0 | h0
    · rw [h0] at hd
      have : g * h = 1 := by omega
      have := Nat.eq_one_of_mul_eq_one_right this
      omega
    · nlinarith
  by_contra hc
  push Not at hc
  have h1 : (p - 1) * g * ((p - 1) * h) < w * w := Nat.mul_lt_mul'' hc.1 hc.2
  have h3 : (p + 1) * ((p - 1) * (p - 1)) ≤ g * h * ((p - 1) * (p - 1)) := Nat.mul_le_mul_right _ hgh
  nlinarith

/-- Above 2642246 Rader's algorithm fails on every 32-bit target: a debug build panics, in the constructor or in every call, and a
release build returns an object that does not compute the transform. -/
theorem C54_fails (p : ℕ) (hp : p.Prime) (hlow : 2642246 < p) (hcap : p < 2 ^ 29) (d : Dht ℝ) (hd : ComputesDht d)
    (hl : d.len = p - 1) (hs : d.inplaceScratchLen < 2 ^ 31) :
    ((∃ k, Machine.raders ⟨true, true⟩ d = .error (.panic k)) ∨
      ∃ r, Machine.raders ⟨true, true⟩ d = .ok r ∧ r.len = p ∧
        (∀ b s, ∃ k, r.processWithScratch b s = .error (.panic k)) ∧ ∀ i o s, ∃ k, r.processOop i o s = .error (.panic k)) ∧
    ∃ r, Machine.raders ⟨false, true⟩ d = .ok r ∧ r.len = p ∧ ¬ ComputesDht r := by
  obtain ⟨g, h, hr⟩ := C54_root_exists p hp (by omega) (by omega)
  have hov := C54_overflows p g h (2 ^ 32) hp (by omega) hr (by
    obtain ⟨q, rfl⟩ : ∃ q, p = q + 2642247 := ⟨p - 2642247, by omega⟩
    rw [show q + 2642247 - 1 = q + 2642246 by omega]
    nlinarith [Nat.zero_le (q * q * q), Nat.zero_le (q * q), Nat.zero_le q])
  constructor
  · obtain ⟨c1, c2, _⟩ := C54_debug ⟨true, true⟩ rfl p g h hp (by omega) (by omega) hcap hr d hd hl hs
    rcases Nat.lt_or_ge ((p - 1) * h) (2 ^ 32) with h1 | h1
    · exact .inr (c2 h1 (by rcases hov with h2 | h2; exacts [h2, absurd h1 (by omega)]))
    · exact .inl (c1 h1)
  · obtain ⟨r, e, hl', hiff⟩ := C54_release ⟨false, true⟩ rfl p g h hp (by omega) (by omega) hcap hr d hd hl hs
    refine ⟨r, e, hl', fun hc => ?_⟩
    obtain ⟨s1, s2⟩ := hiff.1 hc
    rcases hov with h2 | h2
    · exact absurd s1 (not_lt.2 h2)
    · exact absurd s2 (not_lt.2 h2)

/-- Below `2^16` it works on every target. -/
theorem C54_works (m : Mode) (p : ℕ) (hp : p.Prime) (h2 : p ≠ 2) (hlow : p < 2 ^ 16) (d : Dht ℝ) (hd : ComputesDht d)
    (hl : d.len = p - 1) (hs : d.inplaceScratchLen < 8 * m.cap) : ∃ r, Machine.raders m d = .ok r ∧ r.len = p ∧ ComputesDht r := by
  obtain ⟨g, h, hr⟩ := C54_root_exists p hp h2 (by omega)
  have hcap := Machine.le_cap m
  have h32 : 2 ^ 32 ≤ 2 ^ m.bits := Nat.pow_le_pow_right (by omega) (by unfold Mode.bits; split <;> omega)
  have s : ∀ x < p, (p - 1) * x < 2 ^ m.bits := fun x hx => by
    refine lt_of_lt_of_le ?_ h32
    calc (p - 1) * x ≤ 2 ^ 16 * x := Nat.mul_le_mul_right _ (by omega)
      _ < 2 ^ 16 * 2 ^ 16 := Nat.mul_lt_mul_of_pos_left (by omega) (by norm_num)
      _ = 2 ^ 32 := by norm_num
  have hc : p < 2 * m.cap := by
    rcases Machine.cap_cases m with e | e <;> rw [e] <;> omega
  cases hm : m.checked
  · obtain ⟨r, e, hl', hiff⟩ := C54_release m hm p g h hp h2 (by omega) hc hr d hd hl hs
    exact ⟨r, e, hl', hiff.2 ⟨s g hr.lt, s h hr.inv_lt⟩⟩
  · exact (C54_debug m hm p g h hp h2 (by omega) hc hr d hd hl hs).2.2 (s h hr.inv_lt) (s g hr.lt)

theorem prime_131071 : Nat.Prime 131071 := by norm_num

/-- The least primitive root of the prime 131071 is 3, and its inverse is 87381. -/
theorem root_131071 : RootAndInverse 131071 3 87381 where
  pos := by norm_num
  lt := by norm_num
  root := by
    refine orderOf_eq_of_pow_and_pow_div_prime (by norm_num) (by norm_num; reduce_mod_char) fun q hq hd => ?_
    have h : q ∣ 2 * 3 * 5 * 17 * 257 := by simpa using hd
    have hp1 : Nat.Prime 17 := by norm_num
    have hp2 : Nat.Prime 257 := by norm_num
    simp only [hq.dvd_mul] at h
    rcases h with (((h | h) | h) | h) | h
    · rw [(Nat.prime_dvd_prime_iff_eq hq Nat.prime_two).1 h]; norm_num; reduce_mod_char; decide
    · rw [(Nat.prime_dvd_prime_iff_eq hq Nat.prime_three).1 h]; norm_num; reduce_mod_char; decide
    · rw [(Nat.prime_dvd_prime_iff_eq hq Nat.prime_five).1 h]; norm_num; reduce_mod_char; decide
    · rw [(Nat.prime_dvd_prime_iff_eq hq hp1).1 h]; norm_num; reduce_mod_char; decide
    · rw [(Nat.prime_dvd_prime_iff_eq hq hp2).1 h]; norm_num; reduce_mod_char; decide
  least := by
    intro x h0 hx
    have hlt : ∀ y : ZMod 131071, y ^ 17 = 1 → orderOf y ≠ 131071 - 1 := by
      intro y hy h
      have := Nat.le_of_dvd (by norm_num) (orderOf_dvd_of_pow_eq_one hy)
      omega
    interval_cases x
    · exact hlt _ (by simp)
    · exact hlt _ (by norm_num; reduce_mod_char)
  inv_lt := by norm_num
  inv := by norm_num

/-- `RadersAlgorithm` of length 131071 around `DhtNaive` on a 32-bit target: a debug build panics, and a release build returns an
object that does not compute the transform. -/
example : (∃ k, Machine.raders ⟨true, true⟩ (dhtNaive ℝ 131070) = .error (.panic k)) ∧
    ∃ r, Machine.raders ⟨false, true⟩ (dhtNaive ℝ 131070) = .ok r ∧ ¬ ComputesDht r := by
  have hs : ∀ m : Mode, (dhtNaive ℝ 131070).inplaceScratchLen < 8 * m.cap := fun m => by
    have : (dhtNaive ℝ 131070).inplaceScratchLen = 131070 := by simp [dhtNaive, boilerplateDhtOop, naiveTwiddles]
    rcases Machine.cap_cases m with e | e <;> rw [e, this] <;> norm_num
  have hc : ∀ m : Mode, 131071 < 2 * m.cap := fun m => by
    rcases Machine.cap_cases m with e | e <;> rw [e] <;> norm_num
  constructor
  · exact (C54_debug ⟨true, true⟩ rfl _ _ _ prime_131071 (by norm_num) (by norm_num) (hc _) root_131071 _
      (C01_dhtNaive_dht 131070).2.1 (dhtNaive_len _) (hs _)).1 (by norm_num [Mode.bits])
  · obtain ⟨r, e, _, hiff⟩ := C54_release ⟨false, true⟩ rfl _ _ _ prime_131071 (by norm_num) (by norm_num) (hc _) root_131071 _
      (C01_dhtNaive_dht 131070).2.1 (dhtNaive_len _) (hs _)
    refine ⟨r, e, fun h => ?_⟩
    have := (hiff.1 h).2
    norm_num [Mode.bits] at this

/-- The prime 2750159 is above the bound of `C54_fails`, 65521 below that of `C54_works`. -/
example : (∃ r, Machine.raders ⟨false, true⟩ (dhtNaive ℝ 2750158) = .ok r ∧ r.len = 2750159 ∧ ¬ ComputesDht r) ∧
    ∃ r, Machine.raders ⟨false, true⟩ (dhtNaive ℝ 65520) = .ok r ∧ r.len = 65521 ∧ ComputesDht r := by
  have hs : ∀ n, (dhtNaive ℝ n).inplaceScratchLen = n := fun n => by simp [dhtNaive, boilerplateDhtOop, naiveTwiddles]
  have hc : Mode.cap ⟨false, true⟩ = 2 ^ 28 := rfl
  exact ⟨(C54_fails 2750159 (by norm_num) (by norm_num) (by norm_num) _ (C01_dhtNaive_dht _).2.1 (dhtNaive_len _)
      (by rw [hs]; norm_num)).2,
    C54_works _ 65521 (by norm_num) (by norm_num) (by norm_num) _ (C01_dhtNaive_dht _).2.1 (dhtNaive_len _)
      (by rw [hs, hc]; norm_num)⟩

end RustDHT
