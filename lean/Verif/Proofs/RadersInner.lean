import Verif.Proofs.RadersMatrix
import Verif.Proofs.Reordered

/-! # What Rader's algorithm needs of its inner object

If the numbers of the matrix of the inner object are rational expressions in a root of unity of an order that `p` does not divide, then
Rader's algorithm makes the transform of length `p` only around an object that makes the transform of length `p - 1`, up to the order of the
coefficients. -/

open Finset

namespace RustDHT

/-- The signal that is 1 at `j` and 0 elsewhere. -/
def unitAt (n j : ℕ) : List ℝ := tab n fun i => if i = j then 1 else 0

/-- A linear map, given by its values on these signals. -/
def LinearFn (n : ℕ) (f : List ℝ → List ℝ) : Prop :=
  ∀ x, x.length = n → ∀ k < n, nth (f x) k = ∑ j ∈ range n, nth x j * nth (f (unitAt n j)) k

theorem length_unitAt (n j : ℕ) : (unitAt n j).length = n := length_tab _ _

theorem hart_unit {n j : ℕ} (hj : j < n) (k : ℤ) : hart n (fun i => if i = j then 1 else 0) k = ca n (j * k) := by
  rw [hart]
  simp only [ite_mul, one_mul, zero_mul]
  rw [sum_ite_eq' (range n) j, if_pos (mem_range.2 hj)]

theorem nth_neg_hart {n : ℕ} [NeZero n] {c : List ℝ} (hc : c.length = n) (i : ZMod n) :
    nth (dht c) (-i).val = hart n (nth c) (-(i.val : ℤ)) := by
  rw [nth_dht hc (ZMod.val_lt _)]
  apply hart_mod
  rw [← ZMod.intCast_eq_intCast_iff_dvd_sub]
  push_cast
  rw [ZMod.natCast_zmod_val, ZMod.natCast_zmod_val]

theorem rdMul_lists {n : ℕ} [NeZero n] (he : n % 2 = 0) {a c : List ℝ} (ha : a.length = n) (hc : c.length = n) (i : ZMod n) :
    rdMul a (rdTw c n) n i.val = ((nth c i.val + nth c (-i).val) * nth a i.val + (nth c i.val - nth c (-i).val) * nth a (-i).val) / 2 := by
  have hn : 0 < n := Nat.pos_of_ne_zero (NeZero.ne n)
  obtain ⟨a0, la, rfl⟩ := onto_dht hn a ha
  obtain ⟨c0, lc, rfl⟩ := onto_dht hn c hc
  rw [nth_neg_hart la, nth_neg_hart lc, nth_dht la (ZMod.val_lt i), nth_dht lc (ZMod.val_lt i), dht_eq' la, dht_eq' lc]
  exact rdMul_eq he _ _ (ZMod.val_lt i)

theorem rd_inner {n g gi : ℕ} (hg : RadersGen n g gi) {M : ℕ} (hM : 0 < M) (h4 : 4 ∣ M) (hc : (n + 1).Coprime M) {f : List ℝ → List ℝ}
    (lf : ∀ x, x.length = n → (f x).length = n) (hlin : LinearFn n f) (flat : f (unitAt n 0) = tab n fun _ => 1)
    (hK : ∀ j < n, ∀ i < n, nth (f (unitAt n j)) i ∈ tableField M) {u : ℕ} (hu : u.Coprime (n + 1))
    (h : ∀ x, x.length = n + 1 → rdFn (n + 1) g gi (rdTw (f (rdKernel ℝ (n + 1) gi)) n) f x = reorderedDht u x) :
    ∃ u', u'.Coprime n ∧ ∀ x, x.length = n → f x = reorderedDht u' x := by
  have h2 := hg.prime.two_le
  have hn : 0 < n := by omega
  have : NeZero n := ⟨hn.ne'⟩
  have he : n % 2 = 0 := by
    rcases hg.prime.eq_two_or_odd with h | h
    · exact absurd h hg.odd
    · omega
  have hn' : (n : ℝ) ≠ 0 := by exact_mod_cast hn.ne'
  have giord : orderOf (gi : ZMod (n + 1)) = n := by simpa using hg.giord
  -- the exponent of `u`
  obtain ⟨s, -, hs⟩ := pow_mod_surj hg.prime hg.gi0 hg.gilt hg.giord (q := u % (n + 1))
    (Nat.pos_of_ne_zero fun h0 => by
      have := (Nat.coprime_comm.1 hu)
      rw [hg.prime.coprime_iff_not_dvd] at this
      exact this (Nat.dvd_of_mod_eq_zero h0)) (Nat.mod_lt _ (by omega))
  have hsu : (gi : ZMod (n + 1)) ^ s = u := by
    have := (ZMod.natCast_eq_natCast_iff' (gi ^ s) u (n + 1)).2 hs
    rwa [Nat.cast_pow] at this
  set A : ZMod n → ZMod n → ℝ := fun i l => nth (f (unitAt n l.val)) i.val with hA
  set κ := rdKernel ℝ (n + 1) gi with hκ
  have lκ : κ.length = n := length_tab _ _
  have κl : ∀ l : ℕ, l < n → nth κ l = ca (n + 1) ((gi ^ l % (n + 1) : ℕ) : ℤ) * (1 / n) := by
    intro l hl
    rw [hκ, rdKernel, Nat.add_sub_cancel, nth_tab hl, dht_twiddle]
    change ca (n + 1) _ * (((1 : ℕ) : ℝ) / (n : ℝ)) = _
    rw [Nat.cast_one]
  have lin : ∀ x, x.length = n → ∀ i : ZMod n, nth (f x) i.val = ∑ j : ZMod n, nth x j.val * A i j := by
    intro x hx i
    rw [hlin x hx _ (ZMod.val_lt i), ← sum_zmod fun j => nth x j * nth (f (unitAt n j)) i.val]
  have key : ∀ m l j : ZMod n, ∑ i, A m i * rdRule A i l j = if l + j = m + (s : ZMod n) then (n : ℝ) else 0 := by
    intro m l0 j
    obtain ⟨x, hx, x0, ex⟩ := rdIn_onto hg (u := unitAt n j.val) (length_unitAt _ _)
    -- left hand side
    have e := congrArg (nth · (gi ^ m.val % (n + 1))) (h x hx)
    have hdl := dlog_pow hg.prime hg.gi0 hg.gilt giord m.val
    obtain ⟨q, hq⟩ : ∃ q, gi ^ m.val % (n + 1) = q + 1 :=
      ⟨gi ^ m.val % (n + 1) - 1, by have := pow_mod_pos hg.prime hg.gi0 hg.gilt m.val; omega⟩
    have hq1 : q < n := by have := Nat.mod_lt (gi ^ m.val) (show 0 < n + 1 by omega); omega
    rw [reorderedDht_eq, hx, nth_tab (by omega : gi ^ m.val % (n + 1) < n + 1)] at e
    rw [hq, Nat.mod_eq_of_lt (ZMod.val_lt m)] at hdl
    conv_lhs at e => rw [hq]
    rw [rdFn, nth_cons_succ, Nat.add_sub_cancel, nth_tab hq1, hdl, ex, x0,
      lin _ (show (rdMid (n + 1) (rdTw (f κ) n) 0 (f (unitAt n j.val))).length = n from length_tab _ _)] at e
    have emid : ∀ i : ZMod n, nth (rdMid (n + 1) (rdTw (f κ) n) 0 (f (unitAt n j.val))) i.val = ∑ l : ZMod n, nth κ l.val * rdRule A i l j := by
      intro i
      have : nth (rdMid (n + 1) (rdTw (f κ) n) 0 (f (unitAt n j.val))) i.val = rdMul (f (unitAt n j.val)) (rdTw (f κ) n) n i.val := by
        rw [rdMid, Nat.add_sub_cancel, nth_tab (ZMod.val_lt i)]
        split_ifs with h0
        · rw [h0, add_zero]
        · rfl
      rw [this, rdMul_lists he (lf _ (length_unitAt _ _)) (lf _ lκ), lin κ lκ, lin κ lκ]
      change ((∑ l, nth κ l.val * A i l + ∑ l, nth κ l.val * A (-i) l) * A i j
        + (∑ l, nth κ l.val * A i l - ∑ l, nth κ l.val * A (-i) l) * A (-i) j) / 2 = _
      rw [← sum_add_distrib, ← sum_sub_distrib, sum_mul, sum_mul, ← sum_add_distrib, sum_div]
      refine sum_congr rfl fun l _ => ?_
      rw [rdRule]
      ring
    -- right hand side
    have er : hart (n + 1) (nth x) (u * ((gi ^ m.val % (n + 1) : ℕ) : ℤ))
        = ca (n + 1) ((gi ^ (m + s - j : ZMod n).val % (n + 1) : ℕ) : ℤ) := by
      rw [hart, sum_generator hg.prime hg.g0 hg.glt hg.gord, x0, zero_mul, zero_add, Nat.add_sub_cancel]
      have : ∀ i ∈ range n, nth x (g ^ i % (n + 1)) * ca (n + 1) (((g ^ i % (n + 1) : ℕ) : ℤ) * (u * ((gi ^ m.val % (n + 1) : ℕ) : ℤ)))
          = if i = j.val then ca (n + 1) (((g ^ j.val % (n + 1) : ℕ) : ℤ) * (u * ((gi ^ m.val % (n + 1) : ℕ) : ℤ))) else 0 := by
        intro i hi
        have hi := mem_range.1 hi
        have := congrArg (nth · i) ex
        simp only [rdIn, Nat.add_sub_cancel, nth_tab hi, unitAt] at this
        rw [this]
        split_ifs with hij
        · rw [hij, one_mul]
        · rw [zero_mul]
      rw [sum_congr rfl this, sum_ite_eq' (range n) j.val, if_pos (mem_range.2 (ZMod.val_lt j))]
      apply ca_zmod
      rw [Int.cast_mul, Int.cast_mul, Int.cast_natCast, Int.cast_natCast, Int.cast_natCast, Int.cast_natCast, ZMod.natCast_mod,
        ZMod.natCast_mod, ZMod.natCast_mod, Nat.cast_pow, Nat.cast_pow, Nat.cast_pow, ← hsu]
      have hpow : (gi : ZMod (n + 1)) ^ (s + m.val) = gi ^ ((m + s - j : ZMod n).val + j.val) := by
        have h1 : (s + m.val) % n = ((m + s - j : ZMod n).val + j.val) % n := by
          rw [← ZMod.natCast_eq_natCast_iff']
          push_cast
          rw [ZMod.natCast_zmod_val, ZMod.natCast_zmod_val, ZMod.natCast_zmod_val]
          ring
        have h2 : ∀ a : ℕ, (gi : ZMod (n + 1)) ^ a = gi ^ (a % n) := fun a => by rw [← pow_mod_orderOf, giord]
        rw [h2, h1, ← h2]
      rw [← pow_add, hpow, pow_add, mul_comm ((gi : ZMod (n + 1)) ^ _) _, ← mul_assoc, ← mul_pow, hg.gmul, one_pow, one_mul]
    rw [er] at e
    simp only [emid] at e
    -- the difference, as a combination of the values of the table
    have hsum : ∑ l : ZMod n, nth κ l.val * (∑ i, A m i * rdRule A i l j - if l + j = m + (s : ZMod n) then (n : ℝ) else 0) = 0 := by
      simp only [mul_sub, sum_sub_distrib]
      rw [sub_eq_zero]
      have h1 : ∑ l : ZMod n, nth κ l.val * ∑ i, A m i * rdRule A i l j = ∑ i, (∑ l : ZMod n, nth κ l.val * rdRule A i l j) * A m i := by
        simp only [mul_sum, sum_mul]
        rw [sum_comm]
        exact sum_congr rfl fun i _ => sum_congr rfl fun l _ => by ring
      rw [h1, e]
      have h2 : ∀ l : ZMod n, nth κ l.val * (if l + j = m + (s : ZMod n) then (n : ℝ) else 0)
          = if l = m + s - j then ca (n + 1) ((gi ^ (m + s - j : ZMod n).val % (n + 1) : ℕ) : ℤ) else 0 := by
        intro l
        by_cases hl : l = m + s - j
        · rw [if_pos (by rw [hl]; ring), if_pos hl, κl _ (ZMod.val_lt l), hl]
          field_simp
        · rw [if_neg fun h => hl (by rw [← h]; ring), if_neg hl, mul_zero]
      simp only [h2]
      rw [sum_ite_eq' univ, if_pos (mem_univ _)]
    set C : ZMod n → ℝ := fun l => ∑ i, A m i * rdRule A i l j - if l + j = m + (s : ZMod n) then (n : ℝ) else 0 with hC
    have memA : ∀ i l, A i l ∈ tableField M := fun i l => hK _ (ZMod.val_lt l) _ (ZMod.val_lt i)
    have memC : ∀ l, C l ∈ tableField M := by
      intro l
      refine sub_mem (sum_mem fun i _ => mul_mem (memA _ _) ?_) ?_
      · exact div_mem (add_mem (mul_mem (add_mem (memA _ _) (memA _ _)) (memA _ _))
          (mul_mem (sub_mem (memA _ _) (memA _ _)) (memA _ _))) (ofNat_mem _ 2)
      · split_ifs
        · exact natCast_mem _ n
        · exact zero_mem _
    have hzero := cas_independent hg.prime hM h4 hc (c := fun q => C (dlog gi (n + 1) (q + 1) : ℕ)) (fun _ _ => memC _) (by
      have h1 := sum_generator hg.prime hg.gi0 hg.gilt hg.giord
        (fun q => if q = 0 then 0 else C (dlog gi (n + 1) q : ℕ) * ca (n + 1) q)
      rw [sum_range_succ', if_pos rfl, add_zero, zero_add] at h1
      simp only [Nat.add_sub_cancel, Nat.succ_ne_zero, if_false, Nat.cast_add, Nat.cast_one] at h1 ⊢
      have h2 : (n : ℝ) * ∑ l : ZMod n, nth κ l.val * C l = 0 := by rw [hsum, mul_zero]
      rw [h1]
      refine Eq.trans ?_ h2
      rw [mul_sum, ← sum_zmod fun i => if gi ^ i % (n + 1) = 0 then 0 else
        C (dlog gi (n + 1) (gi ^ i % (n + 1)) : ℕ) * ca (n + 1) ((gi ^ i % (n + 1) : ℕ) : ℤ)]
      refine sum_congr rfl fun l _ => ?_
      rw [if_neg (pow_mod_pos hg.prime hg.gi0 hg.gilt _).ne', dlog_pow hg.prime hg.gi0 hg.gilt giord, Nat.mod_eq_of_lt (ZMod.val_lt l),
        ZMod.natCast_zmod_val, κl _ (ZMod.val_lt l)]
      field_simp)
    obtain ⟨q', hq'⟩ : ∃ q, gi ^ l0.val % (n + 1) = q + 1 :=
      ⟨gi ^ l0.val % (n + 1) - 1, by have := pow_mod_pos hg.prime hg.gi0 hg.gilt l0.val; omega⟩
    have hq2 : q' < n := by have := Nat.mod_lt (gi ^ l0.val) (show 0 < n + 1 by omega); omega
    have h0 := hzero q' (by omega)
    simp only [← hq'] at h0
    rw [dlog_pow hg.prime hg.gi0 hg.gilt giord, Nat.mod_eq_of_lt (ZMod.val_lt l0), ZMod.natCast_zmod_val] at h0
    exact sub_eq_zero.1 h0
  obtain ⟨u', hu', hA'⟩ := convolver_unique (A := A) (s := (s : ZMod n)) (fun i => by
    simp only [hA, ZMod.val_zero, flat]
    exact nth_tab (ZMod.val_lt i)) key
  refine ⟨u', hu', fun x hx => list_ext_nth (by rw [lf x hx, length_reorderedDht, hx]) fun k hk => ?_⟩
  rw [lf x hx] at hk
  have hkv : ((k : ZMod n)).val = k := ZMod.val_cast_of_lt hk
  have e := lin x hx (k : ZMod n)
  rw [hkv] at e
  rw [e, reorderedDht_eq, hx, nth_tab hk, hart, ← sum_zmod fun i => nth x i * ca n (i * (u' * k))]
  refine sum_congr rfl fun i _ => ?_
  rw [hA', hkv]
  congr 2
  ring

end RustDHT
