import Verif.Proofs.RadersInner
import Verif.Proofs.RootLossFloat
import Verif.Props.FirstCoefficient

/-! # How much Rader's algorithm loses around an object that loses -/

open Finset

namespace RustDHT

/-- If one weight is large, another is small. -/
theorem weights_mean {n : ℕ} (hn : 0 < n) {C : ℕ → ℝ} (h : ∑ i ∈ range n, C i ≤ n) {τ : ℝ} (hτ : 0 < τ) :
    (∀ i < n, C i ≤ 1 + τ) ∨ ∃ g < n, C g ≤ 1 - τ / n := by
  by_contra hc
  push Not at hc
  obtain ⟨⟨j, hj, h1⟩, h2⟩ := hc
  have hn' : (0 : ℝ) < n := by exact_mod_cast hn
  have h3 : ∑ i ∈ range n, (1 - τ / n + if i = j then τ else 0) ≤ ∑ i ∈ range n, C i := by
    refine sum_le_sum fun i hi => ?_
    have hτn : 0 < τ / n := by positivity
    split_ifs with e
    · subst e
      linarith
    · linarith [h2 i (mem_range.1 hi)]
  rw [sum_add_distrib, sum_const, card_range, sum_ite_eq' (range n) j, if_pos (mem_range.2 hj), nsmul_eq_mul] at h3
  have e : (n : ℝ) * (1 - τ / n) = n - τ := by field_simp
  rw [e] at h3
  have h4 : ∑ i ∈ range n, (1 - τ / n + if i = j then τ else 0) < ∑ i ∈ range n, C i := by
    refine sum_lt_sum (fun i hi => ?_) ⟨j, mem_range.2 hj, ?_⟩
    · have hτn : 0 < τ / n := by positivity
      split_ifs with e
      · subst e
        linarith
      · linarith [h2 i (mem_range.1 hi)]
    · have hτn : 0 < τ / n := by positivity
      rw [if_pos rfl]
      linarith
  rw [sum_add_distrib, sum_const, card_range, sum_ite_eq' (range n) j, if_pos (mem_range.2 hj), nsmul_eq_mul, e] at h4
  linarith

/-- A linear map sends some signal to zero, or takes every value. -/
theorem linear_zero_or_onto {n : ℕ} {f : List ℝ → List ℝ} (hlin : LinearFn n f) :
    (∃ u : List ℝ, u.length = n ∧ 0 < en n u ∧ ∀ i < n, nth (f u) i = 0) ∨
      ∀ v : ℕ → ℝ, ∃ u : List ℝ, u.length = n ∧ ∀ i < n, nth (f u) i = v i := by
  let M : Matrix (Fin n) (Fin n) ℝ := fun k j => nth (f (unitAt n j)) k
  have key : ∀ (v : Fin n → ℝ) (k : Fin n), nth (f (List.ofFn v)) k = M.mulVec v k := by
    intro v k
    rw [hlin _ (List.length_ofFn) k k.2, ← Fin.sum_univ_eq_sum_range (fun j => nth (List.ofFn v) j * nth (f (unitAt n j)) k)]
    rw [Matrix.mulVec, dotProduct]
    refine sum_congr rfl fun j _ => ?_
    have : nth (List.ofFn v) j = v j := by rw [nth_eq_getElem (by simp)]; simp
    rw [this, mul_comm]
  by_cases h : Function.Injective M.mulVecLin
  · right
    intro v
    obtain ⟨u, hu⟩ := LinearMap.injective_iff_surjective.1 h fun i => v i
    refine ⟨List.ofFn u, List.length_ofFn, fun i hi => ?_⟩
    rw [key u ⟨i, hi⟩]
    exact congrFun hu ⟨i, hi⟩
  · left
    rw [← LinearMap.ker_eq_bot, LinearMap.ker_eq_bot'] at h
    push Not at h
    obtain ⟨u, hu, h0⟩ := h
    refine ⟨List.ofFn u, List.length_ofFn, ?_, fun i hi => ?_⟩
    · obtain ⟨i, hi⟩ := Function.ne_iff.1 h0
      refine sum_pos' (fun i _ => sq_nonneg _) ⟨i, mem_range.2 i.2, ?_⟩
      have : nth (List.ofFn u) i = u i := by rw [nth_eq_getElem (by simp)]; simp
      rw [this]
      exact (sq_pos_iff).2 hi
    · rw [key u ⟨i, hi⟩]
      exact congrFun hu ⟨i, hi⟩

section
variable {n g gi : ℕ} (hg : RadersGen n g gi)
include hg

/-- The kernel has norm 1 over the square root of its length. -/
theorem kernel_en : en n (rdKernel ℝ (n + 1) gi) = 1 / n := by
  have hn : 0 < n := by have := hg.two_le; omega
  have hn' : (n : ℝ) ≠ 0 := by exact_mod_cast hn.ne'
  have h1 : en (n + 1) (dht (unitAt (n + 1) 1)) = (n + 1 : ℕ) * 1 := by
    rw [en_dht (length_unitAt _ _)]
    congr 1
    rw [en, sum_eq_single 1]
    · rw [unitAt, nth_tab (by omega), if_pos rfl, one_pow]
    · intro i hi h
      rw [unitAt, nth_tab (mem_range.1 hi), if_neg h]
      norm_num
    · intro h
      exact absurd (mem_range.2 (by omega)) h
  have h2 : en (n + 1) (dht (unitAt (n + 1) 1)) = ∑ i ∈ range (n + 1), ca (n + 1) (i : ℤ) ^ 2 := by
    refine sum_congr rfl fun k hk => ?_
    rw [unitAt, dht_tab, nth_tab (mem_range.1 hk), hart_unit (by omega), Nat.cast_one, one_mul]
  rw [h2, sum_generator hg.prime hg.gi0 hg.gilt hg.giord (fun i => ca (n + 1) (i : ℤ) ^ 2), Nat.cast_zero, ca_zero, Nat.add_sub_cancel] at h1
  have h3 : en n (rdKernel ℝ (n + 1) gi) = (∑ j ∈ range n, ca (n + 1) ((gi ^ j % (n + 1) : ℕ) : ℤ) ^ 2) * (1 / n) ^ 2 := by
    rw [en, sum_mul]
    refine sum_congr rfl fun i hi => ?_
    rw [rdKernel, Nat.add_sub_cancel, nth_tab (mem_range.1 hi), dht_twiddle, ← mul_pow]
    congr 2
    change ((1 : ℕ) : ℝ) / (n : ℝ) = _
    rw [Nat.cast_one]
  rw [h3]
  have h4 : ∑ j ∈ range n, ca (n + 1) ((gi ^ j % (n + 1) : ℕ) : ℤ) ^ 2 = n := by push_cast at h1 ⊢; linarith
  rw [h4]
  field_simp

/-- Its numbers add up to -1 over its length. -/
theorem kernel_sum : ∑ i ∈ range n, nth (rdKernel ℝ (n + 1) gi) i = -(1 / n) := by
  have hn : 0 < n := by have := hg.two_le; omega
  have hn' : (n : ℝ) ≠ 0 := by exact_mod_cast hn.ne'
  have hs := sum_cs_sn (n := n + 1) (by omega) 1
  rw [if_neg (fun h => by have := Int.le_of_dvd one_pos h; omega)] at hs
  simp only [one_mul] at hs
  have h1 : ∑ i ∈ range (n + 1), ca (n + 1) (i : ℤ) = 0 := by
    simp only [ca, sum_add_distrib, hs.1, hs.2, add_zero]
  rw [sum_generator hg.prime hg.gi0 hg.gilt hg.giord (fun i => ca (n + 1) (i : ℤ)), Nat.cast_zero, ca_zero, Nat.add_sub_cancel] at h1
  have h3 : ∑ i ∈ range n, nth (rdKernel ℝ (n + 1) gi) i = (∑ j ∈ range n, ca (n + 1) ((gi ^ j % (n + 1) : ℕ) : ℤ)) * (1 / n) := by
    rw [sum_mul]
    refine sum_congr rfl fun i hi => ?_
    rw [rdKernel, Nat.add_sub_cancel, nth_tab (mem_range.1 hi), dht_twiddle]
    congr 1
    change ((1 : ℕ) : ℝ) / (n : ℝ) = _
    rw [Nat.cast_one]
  rw [h3, show ∑ j ∈ range n, ca (n + 1) ((gi ^ j % (n + 1) : ℕ) : ℤ) = -1 by linarith]
  ring

/-- The squares of the products: each frequency is weighted with the mean of the squares of the spectrum of the kernel there and at the
opposite frequency. -/
theorem mid_en {a b : List ℝ} (ha : a.length = n) (hb : b.length = n) :
    en n (rdMid (n + 1) (rdTw b n) 0 a)
      = ∑ i ∈ range n, (nth b i ^ 2 + nth b (if i = 0 then 0 else n - i) ^ 2) / 2 * nth a i ^ 2 := by
  have hn : 0 < n := by have := hg.two_le; omega
  have : NeZero n := ⟨hn.ne'⟩
  have he := hg.even
  have hneg : ∀ i : ZMod n, (if i.val = 0 then 0 else n - i.val) = (-i).val := by
    intro i
    rw [ZMod.neg_val]
    by_cases h : i = 0
    · rw [if_pos h, if_pos (by rw [h, ZMod.val_zero])]
    · rw [if_neg h, if_neg (by rwa [ZMod.val_eq_zero])]
  rw [en, ← sum_zmod fun i => nth (rdMid (n + 1) (rdTw b n) 0 a) i ^ 2,
    ← sum_zmod fun i => (nth b i ^ 2 + nth b (if i = 0 then 0 else n - i) ^ 2) / 2 * nth a i ^ 2]
  have hz : ∀ i : ZMod n, nth (rdMid (n + 1) (rdTw b n) 0 a) i.val
      = ((nth b i.val + nth b (-i).val) * nth a i.val + (nth b i.val - nth b (-i).val) * nth a (-i).val) / 2 := by
    intro i
    rw [← rdMul_lists he ha hb, rdMid, Nat.add_sub_cancel, nth_tab (ZMod.val_lt i)]
    split_ifs with h0
    · rw [h0, add_zero]
    · rfl
  simp only [hz, hneg]
  -- both sides twice, once with the opposite frequency
  have twice : ∀ F : ZMod n → ℝ, ∑ i, F i = ∑ i, (F i + F (-i)) / 2 := by
    intro F
    have : ∑ i, F (-i) = ∑ i, F i := Equiv.sum_comp (Equiv.neg (ZMod n)) F
    rw [← sum_div, sum_add_distrib, this]
    ring
  rw [twice, twice fun i => (nth b i.val ^ 2 + nth b (-i).val ^ 2) / 2 * nth a i.val ^ 2]
  refine sum_congr rfl fun i _ => ?_
  rw [neg_neg]
  ring

/-- Rader's algorithm around a linear object that gains nothing and has the first coefficient right, on signals with a zero in front. -/
theorem raders_weights {f : List ℝ → List ℝ} (lf : ∀ x, x.length = n → (f x).length = n) (g1 : Gains (-1) n f)
    (sum0 : nth (f (rdKernel ℝ (n + 1) gi)) 0 = -(1 / n)) :
    ∃ C : ℕ → ℝ, ∑ i ∈ range n, C i ≤ n ∧ (∀ i < n, 0 ≤ C i) ∧ ∀ x, x.length = n + 1 → nth x 0 = 0 →
      en (n + 1) (rdFn (n + 1) g gi (rdTw (f (rdKernel ℝ (n + 1) gi)) n) f x)
        ≤ (n + 1) / n * ∑ i ∈ range n, C i * nth (f (rdIn (n + 1) g x)) i ^ 2 := by
  have hn : 0 < n := by have := hg.two_le; omega
  have hn' : (0 : ℝ) < n := by exact_mod_cast hn
  have : NeZero n := ⟨hn.ne'⟩
  set b := f (rdKernel ℝ (n + 1) gi) with hb
  have lκ : (rdKernel ℝ (n + 1) gi).length = n := length_tab _ _
  have lb : b.length = n := lf _ lκ
  set B : ℕ → ℝ := fun i => (nth b i ^ 2 + nth b (if i = 0 then 0 else n - i) ^ 2) / 2 with hB
  have B0 : B 0 = (1 / n) ^ 2 := by
    simp only [hB, if_true, sum0]
    ring
  have Bn : ∀ i, 0 ≤ B i := fun i => by positivity
  have Bs : ∑ i ∈ range n, B i ≤ 1 := by
    have h1 := g1 _ lκ
    rw [kernel_en hg, ← hb] at h1
    have h2 := mid_en hg (a := tab n fun _ => (1 : ℝ)) (length_tab _ _) lb
    rw [rdMid_ones hg.even lb] at h2
    have h3 : ∑ i ∈ range n, B i = en n b := by
      rw [h2]
      refine sum_congr rfl fun i hi => ?_
      rw [nth_tab (mem_range.1 hi), one_pow, mul_one]
    rw [h3]
    have h4 : (n : ℝ) * (1 / n) = 1 := by field_simp
    linarith
  refine ⟨fun i => if i = 0 then 1 else n ^ 2 / (n + 1) * B i, ?_, fun i _ => ?_, fun x hx x0 => ?_⟩
  · obtain ⟨m, rfl⟩ : ∃ m, n = m + 1 := ⟨n - 1, by omega⟩
    rw [sum_range_succ'] at Bs ⊢
    simp only [Nat.succ_ne_zero, if_false, if_true, B0] at Bs ⊢
    rw [← mul_sum]
    have h5 : ∑ i ∈ range m, B (i + 1) ≤ 1 - (1 / (m + 1 : ℕ)) ^ 2 := by linarith
    have h6 := mul_le_mul_of_nonneg_left h5 (show (0 : ℝ) ≤ (m + 1 : ℕ) ^ 2 / ((m + 1 : ℕ) + 1) by positivity)
    have h7 : ((m + 1 : ℕ) : ℝ) ^ 2 / ((m + 1 : ℕ) + 1) * (1 - (1 / (m + 1 : ℕ)) ^ 2) = (m + 1 : ℕ) - 1 := by
      have : ((m + 1 : ℕ) : ℝ) + 1 ≠ 0 := by positivity
      field_simp
      ring
    rw [h7] at h6
    linarith
  · dsimp only
    split_ifs
    · norm_num
    · have := Bn i
      positivity
  · set a := f (rdIn (n + 1) g x) with ha
    have la : a.length = n := lf _ (length_tab _ _)
    set z := rdMid (n + 1) (rdTw b n) 0 a with hz
    have lz : z.length = n := length_tab _ _
    have e1 : en (n + 1) (rdFn (n + 1) g gi (rdTw b n) f x) = nth a 0 ^ 2 + en n (f z) := by
      rw [en, sum_range_succ', add_comm]
      congr 1
      · rw [rdFn, nth_cons_zero, x0, zero_add]
      · rw [en_eq_nrm, ← hg.nrm_out (nth (f z)), nrm_sq]
        refine sum_congr rfl fun q hq => ?_
        rw [rdFn, nth_cons_succ, Nat.add_sub_cancel, nth_tab (mem_range.1 hq), x0]
    have e2 := g1 z lz
    have e3 : en n z = ∑ i ∈ range n, B i * nth a i ^ 2 := mid_en hg la lb
    rw [e1]
    have e4 : (n + 1) / n * ∑ i ∈ range n, (if i = 0 then 1 else n ^ 2 / (n + 1) * B i) * nth a i ^ 2
        = nth a 0 ^ 2 + n * ∑ i ∈ range n, B i * nth a i ^ 2 := by
      obtain ⟨m, hm⟩ : ∃ m, n = m + 1 := ⟨n - 1, by omega⟩
      have : ∀ F : ℕ → ℝ, ∑ i ∈ range n, F i = ∑ i ∈ range m, F (i + 1) + F 0 := fun F => by rw [hm, sum_range_succ']
      rw [this, this]
      simp only [Nat.succ_ne_zero, if_false, if_true, B0, mul_assoc]
      rw [← mul_sum]
      field_simp
      ring
    rw [e4, ← e3]
    linarith

/-- Rader's algorithm around such an object loses, if the object does. -/
theorem raders_lossy {f : List ℝ → List ℝ} (lf : ∀ x, x.length = n → (f x).length = n) (hlin : LinearFn n f) (g1 : Gains (-1) n f)
    (sum0 : nth (f (rdKernel ℝ (n + 1) gi)) 0 = -(1 / n)) {κ : ℝ} (h0 : 0 ≤ κ) (h1 : κ < 1) (h : Lossy κ n f) :
    Lossy (1 - (1 - κ) / (2 * n)) (n + 1) (rdFn (n + 1) g gi (rdTw (f (rdKernel ℝ (n + 1) gi)) n) f) := by
  have hn : 0 < n := by have := hg.two_le; omega
  have hn' : (1 : ℝ) ≤ n := by exact_mod_cast hn
  obtain ⟨C, Cs, Cn, hC⟩ := raders_weights hg lf g1 sum0
  -- the signal with a zero in front
  have key : ∀ u : List ℝ, u.length = n → 0 < en n u →
      ∑ i ∈ range n, C i * nth (f u) i ^ 2 ≤ (1 - (1 - κ) / (2 * n)) * (n * en n u) →
      Lossy (1 - (1 - κ) / (2 * n)) (n + 1) (rdFn (n + 1) g gi (rdTw (f (rdKernel ℝ (n + 1) gi)) n) f) := by
    intro u hu hp hle
    obtain ⟨x, hx, x0, ex⟩ := rdIn_onto hg hu
    have e : en (n + 1) x = en n u := by
      rw [en, sum_range_succ', x0, en_eq_nrm, ← ex]
      have := hg.nrm_in (nth x)
      rw [show nrm n (nth (rdIn (n + 1) g x)) = nrm n fun i => nth x (i + 1) by
        rw [← this]; exact nrm_congr fun j hj => by rw [rdIn, Nat.add_sub_cancel, nth_tab hj], nrm_sq]
      ring
    refine ⟨x, hx, by rwa [e], ?_⟩
    have k := hC x hx x0
    rw [ex] at k
    rw [e]
    refine k.trans ?_
    have hq : (0 : ℝ) ≤ (n + 1) / n := by positivity
    refine (mul_le_mul_of_nonneg_left hle hq).trans (le_of_eq ?_)
    have : (n : ℝ) ≠ 0 := by linarith
    push_cast
    field_simp
  have hκ : 0 ≤ 1 - (1 - κ) / (2 * n) := by
    have : (1 - κ) / (2 * n) ≤ 1 := by
      rw [div_le_one (by linarith)]
      linarith
    linarith
  have hτn : (1 - κ) / 2 / n = (1 - κ) / (2 * n) := by rw [div_div]
  have hτ1 : (1 - κ) / (2 * n) ≤ (1 - κ) / 2 := by
    rw [← hτn]
    exact div_le_self (by linarith) hn'
  rcases weights_mean hn Cs (τ := (1 - κ) / 2) (by linarith) with hw | ⟨i0, hi0, hw⟩
  · obtain ⟨u, hu, hp, hl⟩ := h
    refine key u hu hp ?_
    have hs : ∑ i ∈ range n, C i * nth (f u) i ^ 2 ≤ (1 + (1 - κ) / 2) * en n (f u) := by
      rw [en, mul_sum]
      exact sum_le_sum fun i hi => mul_le_mul_of_nonneg_right (hw i (mem_range.1 hi)) (sq_nonneg _)
    refine hs.trans ((mul_le_mul_of_nonneg_left hl (by linarith)).trans ?_)
    rw [← mul_assoc]
    refine mul_le_mul_of_nonneg_right ?_ (by positivity)
    nlinarith
  · rcases linear_zero_or_onto hlin with ⟨u, hu, hp, hz⟩ | honto
    · refine key u hu hp ?_
      rw [sum_eq_zero fun i hi => by rw [hz i (mem_range.1 hi)]; ring]
      positivity
    · obtain ⟨u, hu, he⟩ := honto fun i => if i = i0 then 1 else 0
      have h2 : en n (f u) = 1 := by
        rw [en, sum_congr rfl fun i hi => by rw [he i (mem_range.1 hi)]]
        simp [hi0]
      have h3 := g1 u hu
      rw [h2] at h3
      have hp : 0 < en n u := by
        by_contra hc
        nlinarith
      refine key u hu hp ?_
      have h4 : ∑ i ∈ range n, C i * nth (f u) i ^ 2 = C i0 := by
        rw [sum_congr rfl fun i hi => by rw [he i (mem_range.1 hi)]]
        simp [hi0]
      rw [h4]
      rw [hτn] at hw
      refine hw.trans (le_mul_of_one_le_right hκ ?_)
      linarith

end

/-- Rader's algorithm around a composition in which the constant occurs. -/
theorem raders_once (ρ : ℝ) (hδ : (ρ * √2) ^ 2 < 1) (q : Plan) (hq : q.RadersFree) (hs : q.SmallRadix4) (hn : ¬ q.RootFree) (id d : Dht ℝ)
    (eid : @Plan.build ℝ _ _ _ _ _ (realWithRoot ρ) q = .ok id) (e : raders id = .ok d) :
    ∃ f, Implements id f ∧ ∃ g gi, RadersGen id.len g gi ∧
      Implements d (rdFn (id.len + 1) g gi (rdTw (f (rdKernel ℝ (id.len + 1) gi)) id.len) f) ∧ d.len = id.len + 1 ∧
      Lossy (1 - (1 - (ρ * √2) ^ 2) / (2 * id.len)) (id.len + 1)
        (rdFn (id.len + 1) g gi (rdTw (f (rdKernel ℝ (id.len + 1) gi)) id.len) f) := by
  have hr := raders_new_only e
  have hpos : 0 < id.len := by have := hr.1.two_le; omega
  obtain ⟨f, hf, g1, g2⟩ := plan_lossy ρ hδ q hs hq id eid hpos
  have lin := @plan_linear (realWithRoot ρ) q id eid f hf
  obtain ⟨g, gi, hdata⟩ := raders_data hf e
  have hdl : d.len = id.len + 1 := by rw [hdata.eq]; rfl
  have himp := hdata.implements hf
  have hg : RadersGen id.len g gi :=
    ⟨hdata.prime, hdata.odd, by have := hdata.g_gt; omega, hdata.g_lt, hdata.g_order, hdata.gi_pos, hdata.gi_lt, hdata.g_mul,
      hdata.gi_order⟩
  have lκ : (rdKernel ℝ (id.len + 1) gi).length = id.len := length_tab _ _
  have sum0 : nth (f (rdKernel ℝ (id.len + 1) gi)) 0 = -(1 / id.len) := by
    obtain ⟨X, h3, h4⟩ := C69_exact ρ q id eid (rdKernel ℝ (id.len + 1) gi) lκ hpos
    rw [process_single hf lκ] at h3
    rw [Except.ok.inj h3, nth, h4, Option.getD_some, ← kernel_sum hg]
    rw [list_sum, lκ]
  rw [Nat.add_sub_cancel] at himp
  exact ⟨f, hf, g, gi, hg, himp, hdl, raders_lossy hg hf.length lin g1 sum0 (sq_nonneg (ρ * √2)) hδ (g2 hn)⟩

end RustDHT
