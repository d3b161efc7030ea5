import Verif.Proofs.OnlyIf

/-! # The transform with its coefficients in another order -/

namespace RustDHT

open Finset

theorem reorderedDht_eq (u : ℕ) (x : List ℝ) : reorderedDht u x = tab x.length fun k => hart x.length (nth x) (u * k) := by
  refine eq_tab (by simp [reorderedDht]) fun k hk => ?_
  rw [reorderedDht, nth, List.getElem?_map, List.getElem?_range hk]
  simp only [Option.map_some, Option.getD_some]
  rw [hart]
  refine sum_congr rfl fun i _ => ?_
  rw [List.getD_eq_getElem?_getD, ca, cs, sn, nth]
  push_cast
  ring_nf

theorem length_reorderedDht (u : ℕ) (x : List ℝ) : (reorderedDht u x).length = x.length := by simp [reorderedDht]

/-- The product of the transforms of `y` and of `κ`, at the frequency `k`. -/
noncomputable def rdProd (n : ℕ) (y κ : List ℝ) (k : ℤ) : ℝ :=
  (hart n (nth y) k * (hart n (nth κ) k + hart n (nth κ) (-k)) + hart n (nth y) (-k) * (hart n (nth κ) k - hart n (nth κ) (-k))) / 2

theorem rdProd_mod {n : ℕ} (y κ : List ℝ) {k l : ℤ} (h : (n : ℤ) ∣ k - l) : rdProd n y κ k = rdProd n y κ l := by
  have h' : (n : ℤ) ∣ -k - -l := by obtain ⟨c, hc⟩ := h; exact ⟨-c, by rw [mul_neg, ← hc]; ring⟩
  rw [rdProd, rdProd, hart_mod _ h, hart_mod _ h, hart_mod _ h', hart_mod _ h']

theorem rdMul_reordered {n : ℕ} (he : n % 2 = 0) (u : ℕ) {y κ : List ℝ} (hy : y.length = n) (hκ : κ.length = n) {k : ℕ} (hk : k < n) :
    rdMul (reorderedDht u y) (rdTw (reorderedDht u κ) n) n k = rdProd n y κ (u * k) := by
  have Y : ∀ j < n, nth (reorderedDht u y) j = hart n (nth y) (u * j) := fun j hj => by
    rw [reorderedDht_eq, hy, nth_tab hj]
  have K : ∀ j < n, nth (reorderedDht u κ) j = hart n (nth κ) (u * j) := fun j hj => by
    rw [reorderedDht_eq, hκ, nth_tab hj]
  have neg : ∀ (f : ℕ → ℝ) (j : ℕ), j ≤ n → hart n f (u * ((n - j : ℕ) : ℤ)) = hart n f (-(u * j)) := by
    intro f j hj
    refine hart_mod f ⟨u, ?_⟩
    rw [Nat.cast_sub hj]
    ring
  have hhalf : (FftNum.halfF32 : ℝ) = 1 / 2 := rfl
  rw [rdProd, rdMul]
  by_cases h0 : k = 0
  · subst h0
    rw [if_pos rfl, Y 0 hk, rdTw, if_pos (Or.inl rfl), K 0 hk, Nat.cast_zero, mul_zero, neg_zero]
    ring
  rw [if_neg h0]
  rcases lt_trichotomy k (n / 2) with h | h | h
  · rw [if_pos h, rdTw, if_neg (by omega), Y k hk, Y (n - k) (by omega), K k hk, K (n - k) (by omega), neg _ k hk.le, neg _ k hk.le,
      hhalf]
    ring
  · rw [if_neg (by omega), if_pos h, rdTw, if_pos (Or.inr h), Y k hk, K k hk]
    have e : ∀ f : ℕ → ℝ, hart n f (-(u * (k : ℤ))) = hart n f (u * k) := fun f => by
      rw [← neg f k hk.le, show n - k = k by omega]
    rw [e, e]
    ring
  · rw [if_neg (by omega), if_neg (by omega), rdTw, if_neg (by omega), Y k hk, Y (n - k) (by omega), K (n - k) (by omega),
      show n - (n - k) = k by omega, K k hk, neg _ k hk.le, neg _ k hk.le, hhalf]
    ring

theorem sum_unit {n u : ℕ} (hn : 0 < n) (hu : u.Coprime n) (F : ℕ → ℝ) : ∑ j ∈ range n, F (u * j % n) = ∑ m ∈ range n, F m := by
  refine sum_bij (fun j _ => u * j % n) (fun j _ => mem_range.2 (Nat.mod_lt _ hn)) (fun a ha b hb e => ?_) (fun m hm => ?_)
    fun _ _ => rfl
  · have h : u * a ≡ u * b [MOD n] := e
    have := Nat.ModEq.cancel_left_of_coprime (by rwa [Nat.gcd_comm]) h
    rwa [Nat.ModEq, Nat.mod_eq_of_lt (mem_range.1 ha), Nat.mod_eq_of_lt (mem_range.1 hb)] at this
  · obtain ⟨v, hv⟩ := Nat.exists_mul_mod_eq_of_coprime (n := u) (k := n) m hu hn.ne'
    exact ⟨v % n, mem_range.2 (Nat.mod_lt _ hn), by rw [Nat.mul_mod_mod, hv.2, Nat.mod_eq_of_lt (mem_range.1 hm)]⟩

theorem reorderedDht_one (x : List ℝ) : reorderedDht 1 x = dht x := by
  rw [reorderedDht_eq]
  refine (eq_tab (length_dht x) fun k hk => ?_).symm
  rw [nth_dht rfl hk, Nat.cast_one, one_mul]

theorem rd_reordered {n g gi u : ℕ} (hn : 0 < n) (he : n % 2 = 0) (hu : u.Coprime n) {κ : List ℝ} (hκ : κ.length = n) (x : List ℝ) :
    rdFn (n + 1) g gi (rdTw (reorderedDht u κ) n) (reorderedDht u) x = rdFn (n + 1) g gi (rdTw (dht κ) n) dht x := by
  have hy : (rdIn (n + 1) g x).length = n := length_tab _ _
  have hmid : ∀ v : ℕ, rdMid (n + 1) (rdTw (reorderedDht v κ) n) (nth x 0) (reorderedDht v (rdIn (n + 1) g x))
      = tab n fun k => rdProd n (rdIn (n + 1) g x) κ (v * k) + if k = 0 then nth x 0 else 0 := by
    intro v
    rw [rdMid, Nat.add_sub_cancel]
    refine tab_congr fun k hk => ?_
    by_cases h0 : k = 0
    · subst h0
      rw [if_pos rfl, if_pos rfl, rdMul_reordered he v hy hκ hn]
    · rw [if_neg h0, if_neg h0, rdMul_reordered he v hy hκ hk, add_zero]
  have h0 : nth (reorderedDht u (rdIn (n + 1) g x)) 0 = nth (dht (rdIn (n + 1) g x)) 0 := by
    rw [← reorderedDht_one, reorderedDht_eq, reorderedDht_eq, hy, nth_tab hn, nth_tab hn]
    simp
  have hlast : reorderedDht u (tab n fun k => rdProd n (rdIn (n + 1) g x) κ (u * k) + if k = 0 then nth x 0 else 0)
      = reorderedDht 1 (tab n fun k => rdProd n (rdIn (n + 1) g x) κ ((1 : ℕ) * k) + if k = 0 then nth x 0 else 0) := by
    rw [reorderedDht_eq, reorderedDht_eq, length_tab, length_tab]
    refine tab_congr fun k _ => ?_
    rw [hart, hart]
    refine Eq.trans ?_ (sum_unit hn hu _)
    refine sum_congr rfl fun j hj => ?_
    rw [nth_tab (mem_range.1 hj), nth_tab (Nat.mod_lt _ hn)]
    have hd : (n : ℤ) ∣ ((u * j % n : ℕ) : ℤ) - (u * j : ℕ) := by
      rw [Int.natCast_mod]
      exact ⟨-((u * j : ℕ) / n : ℤ), by have := Int.emod_add_mul_ediv ((u * j : ℕ) : ℤ) n; linarith⟩
    have e1 : rdProd n (rdIn (n + 1) g x) κ (u * j) = rdProd n (rdIn (n + 1) g x) κ ((1 : ℕ) * ((u * j % n : ℕ) : ℤ)) := by
      refine (rdProd_mod _ _ ?_).symm
      push_cast at hd ⊢
      rwa [one_mul]
    have e2 : (j = 0) ↔ u * j % n = 0 := by
      constructor
      · rintro rfl
        simp
      · intro h
        have h1 := (Nat.Coprime.dvd_of_dvd_mul_left hu.symm (Nat.dvd_of_mod_eq_zero h))
        exact Nat.eq_zero_of_dvd_of_lt h1 (mem_range.1 hj)
    have e3 : ca n (j * (u * k)) = ca n (((u * j % n : ℕ) : ℤ) * ((1 : ℕ) * k)) := by
      refine (ca_congr ?_).symm
      obtain ⟨c, hc⟩ := hd
      refine ⟨c * k, ?_⟩
      push_cast at hc ⊢
      linear_combination (k : ℤ) * hc
    rw [e1, e3, if_congr e2 rfl rfl]
  unfold rdFn
  rw [hmid u, h0, hlast, ← hmid 1, reorderedDht_one, reorderedDht_one]
  congr 1
  exact tab_congr fun q _ => by rw [reorderedDht_one]

theorem reorderedDht_wrong {n u : ℕ} (hn : 0 < n) (hu : u % n ≠ 1 % n) : ¬ IsDht n (reorderedDht u) := by
  intro h
  -- the signal whose only coefficient is number 1
  have h1 : 1 < n := by
    by_contra h1
    exact hu (by rw [show n = 1 by omega, Nat.mod_one, Nat.mod_one])
  obtain ⟨x, hx, ex⟩ := onto_dht hn (tab n fun k => if k = 1 then (1 : ℝ) else 0) (length_tab _ _)
  have e : nth (reorderedDht u x) 1 = nth (dht x) 1 := by rw [h x hx]
  rw [ex, nth_tab h1, if_pos rfl, reorderedDht_eq, hx, nth_tab h1] at e
  have e1 : nth (dht x) (u % n) = hart n (nth x) (u * (1 : ℕ)) := by
    rw [nth_dht hx (Nat.mod_lt _ hn)]
    refine hart_mod _ ⟨-((u : ℤ) / n), ?_⟩
    have := Int.emod_add_mul_ediv (u : ℤ) n
    rw [Int.natCast_mod]
    push_cast
    linarith
  rw [← e1, ex, nth_tab (Nat.mod_lt _ hn), if_neg (by rwa [Nat.mod_eq_of_lt h1] at hu)] at e
  exact zero_ne_one e

end RustDHT
