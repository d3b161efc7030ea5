import Verif.Proofs.ColumnsDht
import Verif.Proofs.Orthogonality

/-! # `RadersAlgorithm` computes the DHT -/

namespace RustDHT

open Finset

/-- A sum over a full period may start anywhere. -/
theorem sum_shift_nat {n : ℕ} (F : ℕ → ℝ) (hF : ∀ m, F (m + n) = F m) (s : ℕ) :
    ∑ l ∈ range n, F (l + s) = ∑ l ∈ range n, F l := by
  induction s with
  | zero => rfl
  | succ s ih =>
    rw [← ih]
    have h1 := sum_range_succ (fun k : ℕ => F (k + s)) n
    have h2 := sum_range_succ' (fun k : ℕ => F (k + s)) n
    rw [h1] at h2
    have h3 : F (n + s) = F (0 + s) := by rw [Nat.zero_add, Nat.add_comm, hF]
    have h4 : ∀ l, l + (s + 1) = l + 1 + s := fun l => by ring
    simp only [h4]
    linarith

theorem hart_cs (n : ℕ) (f : ℕ → ℝ) (k : ℤ) :
    ∑ j ∈ range n, f j * cs n (j * k) = (hart n f k + hart n f (-k)) / 2 := by
  unfold hart
  rw [← sum_add_distrib, div_eq_mul_inv, sum_mul]
  refine sum_congr rfl fun j _ => ?_
  rw [mul_neg, ca_neg, ca]; ring

theorem hart_sn (n : ℕ) (f : ℕ → ℝ) (k : ℤ) :
    ∑ j ∈ range n, f j * sn n (j * k) = (hart n f k - hart n f (-k)) / 2 := by
  unfold hart
  rw [← sum_sub_distrib, div_eq_mul_inv, sum_mul]
  refine sum_congr rfl fun j _ => ?_
  rw [mul_neg, ca_neg, ca]; ring

/-- The Hartley spectrum of a cyclic convolution. -/
theorem hart_conv {n : ℕ} (a b : ℕ → ℝ) (hb : ∀ m, b (m + n) = b m) (k : ℤ) :
    hart n (fun l => ∑ j ∈ range n, a j * b (l + (n - j))) k
      = ((hart n b k + hart n b (-k)) * hart n a k + (hart n b k - hart n b (-k)) * hart n a (-k)) / 2 := by
  have inner : ∀ j ∈ range n, ∑ l ∈ range n, b (l + (n - j)) * ca n (l * k)
      = cs n (j * k) * hart n b k + sn n (j * k) * hart n b (-k) := by
    intro j hj
    have hj := mem_range.1 hj
    have h1 := sum_shift_nat (n := n) (fun m => b m * ca n (((m : ℤ) + j) * k)) (fun m => by
      rw [hb]; congr 1; apply ca_congr; exact ⟨k, by push_cast; ring⟩) (n - j)
    have h2 : ∀ l ∈ range n, b (l + (n - j)) * ca n (l * k)
        = b (l + (n - j)) * ca n ((((l + (n - j) : ℕ) : ℤ) + j) * k) := by
      intro l _
      congr 1
      apply ca_congr
      refine ⟨-k, ?_⟩
      push_cast [Nat.cast_sub hj.le]
      ring
    rw [sum_congr rfl h2, h1]
    unfold hart
    rw [mul_sum, mul_sum, ← sum_add_distrib]
    refine sum_congr rfl fun m _ => ?_
    rw [add_mul, ca_add, mul_neg]
    ring
  have : hart n (fun l => ∑ j ∈ range n, a j * b (l + (n - j))) k
      = ∑ j ∈ range n, (a j * cs n (j * k) * hart n b k + a j * sn n (j * k) * hart n b (-k)) := by
    rw [hart]
    simp only [sum_mul]
    rw [sum_comm]
    refine sum_congr rfl fun j hj => ?_
    have := inner j hj
    rw [show a j * cs n (j * k) * hart n b k + a j * sn n (j * k) * hart n b (-k)
      = a j * (cs n (j * k) * hart n b k + sn n (j * k) * hart n b (-k)) by ring, ← this, mul_sum]
    exact sum_congr rfl fun l _ => by ring
  rw [this, sum_add_distrib, ← sum_mul, ← sum_mul, hart_cs, hart_sn]
  ring

/-- The pointwise product of the algorithm is that spectrum. -/
theorem rdMul_eq {n : ℕ} (he : n % 2 = 0) (a b : ℕ → ℝ) {i : ℕ} (hi : i < n) :
    rdMul (tab n fun k => hart n a k) (rdTw (tab n fun k => hart n b k) n) n i
      = ((hart n b i + hart n b (-i)) * hart n a i + (hart n b i - hart n b (-i)) * hart n a (-i)) / 2 := by
  have hrev : ∀ (f : ℕ → ℝ) {i : ℕ}, 0 < i → i < n → nth (tab n fun k => hart n f k) (n - i) = hart n f (-i) := by
    intro f i h0 h
    rw [nth_tab (by omega)]
    apply hart_mod
    exact ⟨1, by push_cast [Nat.cast_sub h.le]; ring⟩
  have hfwd : ∀ (f : ℕ → ℝ) {i : ℕ}, i < n → nth (tab n fun k => hart n f k) i = hart n f i := by
    intro f i h
    rw [nth_tab h]
  have hhalf : (FftNum.halfF32 : ℝ) = 1 / 2 := rfl
  unfold rdMul
  by_cases h0 : i = 0
  · subst h0
    simp only [if_true, rdTw, true_or]
    rw [hfwd a hi, hfwd b hi]
    simp
    ring
  rw [if_neg h0]
  by_cases h1 : i < n / 2
  · rw [if_pos h1, rdTw, if_neg (by omega)]
    simp only
    rw [hfwd a hi, hfwd b hi, hrev a (by omega) hi, hrev b (by omega) hi, hhalf]
    ring
  rw [if_neg h1]
  by_cases h2 : i = n / 2
  · rw [if_pos h2, rdTw, if_pos (Or.inr h2)]
    simp only
    have h3 : ∀ f, hart n f (-i) = hart n f i := by
      intro f
      apply hart_mod
      exact ⟨-1, by omega⟩
    rw [hfwd a hi, hfwd b hi, h3, h3]
    ring
  · rw [if_neg h2, rdTw, if_neg (by omega)]
    simp only
    rw [show n - (n - i) = i by omega, hfwd a hi, hfwd b hi, hrev a (by omega) hi, hrev b (by omega) hi, hhalf]
    ring

/-- The powers of a generator run through all residues but 0. -/
theorem sum_generator {p g : ℕ} (hp : p.Prime) (h0 : 0 < g) (hg : g < p) (ho : orderOf (g : ZMod p) = p - 1)
    (F : ℕ → ℝ) : ∑ i ∈ range p, F i = F 0 + ∑ j ∈ range (p - 1), F (g ^ j % p) := by
  have hp2 := hp.two_le
  have h1 : ∑ j ∈ range (p - 1), F (g ^ j % p) = ∑ q ∈ range (p - 1), F (q + 1) := by
    refine sum_nbij (fun j => g ^ j % p - 1) ?_ ?_ ?_ ?_
    · intro j _
      have := pow_mod_pos hp h0 hg j
      have := Nat.mod_lt (g ^ j) (show 0 < p by omega)
      simp only [mem_range]; omega
    · intro i hi j hj hij
      have h2 := pow_mod_pos hp h0 hg i
      have h3 := pow_mod_pos hp h0 hg j
      simp only [coe_range, Set.mem_Iio] at hi hj hij
      exact pow_mod_inj ho hi hj (by omega)
    · intro q hq
      simp only [coe_range, Set.mem_Iio] at hq
      obtain ⟨j, hj, e⟩ := pow_mod_surj hp h0 hg ho (q := q + 1) (by omega) (by omega)
      exact ⟨j, by simpa using hj, by simp only [e]; omega⟩
    · intro j _
      have := pow_mod_pos hp h0 hg j
      congr 1; omega
  obtain ⟨n, rfl⟩ : ∃ n, p = n + 1 := ⟨p - 1, by omega⟩
  rw [h1, sum_range_succ', Nat.add_sub_cancel, add_comm]

theorem rdFn_dht {p g gi : ℕ} (hp : p.Prime) (h2 : p ≠ 2) (hg0 : 0 < g) (hg : g < p)
    (ho : orderOf (g : ZMod p) = p - 1) (hgi0 : 0 < gi) (hgi : gi < p) (him : (g : ZMod p) * (gi : ZMod p) = 1)
    (hio : orderOf (gi : ZMod p) = p - 1) {x : List ℝ} (hx : x.length = p) :
    rdFn p g gi (rdTw (dht (rdKernel ℝ p gi)) (p - 1)) dht x = dht x := by
  have hp2 := hp.two_le
  have hodd : p % 2 = 1 := hp.eq_two_or_odd.resolve_left h2
  obtain ⟨n, hn⟩ : ∃ n, p - 1 = n := ⟨_, rfl⟩
  have hnp : p = n + 1 := by omega
  have hnpos : (n : ℝ) ≠ 0 := by
    have : 0 < n := by omega
    positivity
  set a : ℕ → ℝ := fun j => nth x (g ^ j % p) with ha
  set b : ℕ → ℝ := fun i => ca p ((gi ^ i % p : ℕ) : ℤ) * (1 / n) with hb
  have hper : ∀ m, b (m + n) = b m := by
    intro m
    have : gi ^ (m + n) % p = gi ^ m % p := by
      rw [← ZMod.natCast_eq_natCast_iff']
      push_cast
      rw [pow_add, ← hn, ← hio, pow_orderOf_eq_one, mul_one]
    simp only [hb, this]
  have hkernel : rdKernel ℝ p gi = tab n b := by
    rw [rdKernel, hn]
    refine tab_congr fun i _ => ?_
    rw [dht_twiddle]
    simp only [hb]
    congr 1
    change ((1 : ℕ) : ℝ) / ((n : ℕ) : ℝ) = 1 / n
    simp
  have hin : rdIn p g x = tab n a := by rw [rdIn, hn]
  unfold rdFn
  rw [hkernel, hin, hn, dht_tab, dht_tab]
  set conv : ℕ → ℝ := fun l => ∑ j ∈ range n, a j * b (l + (n - j)) with hconv
  have hmid : rdMid p (rdTw (tab n fun k => hart n b k) n) (nth x 0) (tab n fun k => hart n a k)
      = tab n fun i => hart n conv i + if i = 0 then nth x 0 else 0 := by
    rw [rdMid, hn]
    refine tab_congr fun i hi => ?_
    have key : rdMul (tab n fun k => hart n a k) (rdTw (tab n fun k => hart n b k) n) n i = hart n conv i := by
      rw [rdMul_eq (by omega) a b hi, hconv, hart_conv a b hper]
    by_cases h0 : i = 0
    · subst h0
      rw [if_pos rfl, if_pos rfl, key]
    · rw [if_neg h0, if_neg h0, key, add_zero]
  rw [hmid, dht_tab]
  have hsecond : ∀ l < n, hart n (fun i => hart n conv i + if i = 0 then nth x 0 else 0) l = n * conv l + nth x 0 := by
    intro l hl
    have h1 := hart_hart conv hl
    rw [← h1]
    unfold hart
    simp only [add_mul, sum_add_distrib]
    congr 1
    rw [sum_eq_single 0 (fun i _ hi => by rw [if_neg hi, zero_mul]) (fun h => by simp at h; omega)]
    simp
  rw [dht_eq' hx, hnp]
  symm
  have htab : ∀ (f : ℕ → ℝ), tab (n + 1) f = f 0 :: tab n fun q => f (q + 1) := by
    intro f
    simp [tab, List.range_succ_eq_map]
  rw [htab]
  congr 1
  · rw [nth_tab (by omega)]
    unfold hart
    simp only [mul_zero, ca_zero, mul_one, CharP.cast_eq_zero]
    rw [← hnp, sum_generator hp hg0 hg ho, hn]
  · refine tab_congr fun q hq => ?_
    rw [← hnp]
    obtain ⟨hd1, hd2⟩ := dlog_spec hp hgi0 hgi hio (q := q + 1) (by omega) (by omega)
    set l := dlog gi p (q + 1)
    rw [hn] at hd1
    rw [nth_tab hd1, hsecond l hd1, hart, sum_generator hp hg0 hg ho, hn]
    simp only [zero_mul, ca_zero, mul_one, CharP.cast_eq_zero]
    rw [add_comm, hconv, mul_sum]
    congr 1
    refine sum_congr rfl fun j hj => ?_
    have hj := mem_range.1 hj
    simp only [hb]
    rw [show (n : ℝ) * (a j * (ca p ((gi ^ (l + (n - j)) % p : ℕ) : ℤ) * (1 / n)))
      = a j * ca p ((gi ^ (l + (n - j)) % p : ℕ) : ℤ) by field_simp]
    congr 1
    apply ca_congr
    have hmod : (((g ^ j % p : ℕ) : ℤ) * ((q + 1 : ℕ) : ℤ)) ≡ ((gi ^ (l + (n - j)) % p : ℕ) : ℤ) [ZMOD p] := by
      rw [← ZMod.intCast_eq_intCast_iff]
      have e1 : ((q + 1 : ℕ) : ZMod p) = (gi : ZMod p) ^ l := by
        have := congrArg (Nat.cast : ℕ → ZMod p) hd2
        rw [ZMod.natCast_mod] at this
        rw [← this]; push_cast; rfl
      push_cast [ZMod.natCast_mod]
      push_cast at e1
      rw [e1]
      have e2 : (gi : ZMod p) ^ n = 1 := by rw [← hn, ← hio, pow_orderOf_eq_one]
      have e3 : (g : ZMod p) ^ j * (gi : ZMod p) ^ j = 1 := by rw [← mul_pow, him, one_pow]
      have e4 : (gi : ZMod p) ^ (n - j) * (gi : ZMod p) ^ j = 1 := by rw [← pow_add, Nat.sub_add_cancel hj.le, e2]
      have e5 : (g : ZMod p) ^ j = (gi : ZMod p) ^ (n - j) := by
        calc (g : ZMod p) ^ j = (g : ZMod p) ^ j * ((gi : ZMod p) ^ (n - j) * (gi : ZMod p) ^ j) := by rw [e4, mul_one]
          _ = (g : ZMod p) ^ j * (gi : ZMod p) ^ j * (gi : ZMod p) ^ (n - j) := by ring
          _ = _ := by rw [e3, one_mul]
      rw [e5, pow_add]; ring
    exact hmod.symm.dvd

theorem raders_dht {d d' : Dht ℝ} (hd : ComputesDht d) (h : raders d = .ok d') : ComputesDht d' := by
  obtain ⟨g, gi, hdata⟩ := raders_data hd h
  refine (hdata.implements hd).congr fun x hx => ?_
  have hlen : d'.len = d.len + 1 := by rw [hdata.eq]; rfl
  rw [hlen] at hx
  exact rdFn_dht hdata.prime hdata.odd (by have := hdata.g_gt; omega) hdata.g_lt hdata.g_order hdata.gi_pos hdata.gi_lt
    hdata.g_mul hdata.gi_order hx

end RustDHT
