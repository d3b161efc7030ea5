import Verif.Proofs.ParamWeak
import Verif.Proofs.Determinant
import Verif.Proofs.PlanRounding
import Verif.Proofs.PlanDht

/-! # The factors in the circuits of the compositions are at most 2 -/

set_option linter.unusedSectionVars false

namespace RustDHT

namespace Circ

/-- A factor. -/
def Factor (t u : Circ ℝ) : Prop := t = u ∧ t.uses = false ∧ |t.eval fun _ => 0| ≤ 2

theorem abs_cos_sin (a : ℝ) : |Real.cos a + Real.sin a| ≤ 2 := by
  refine (abs_add_le _ _).trans ?_
  have h1 := Real.abs_cos_le_one a
  have h2 := Real.abs_sin_le_one a
  linarith

theorem sqrtHalf_le : |√(1 / 2 : ℝ)| ≤ 1 := by
  rw [abs_of_nonneg (Real.sqrt_nonneg _)]
  exact Real.sqrt_le_one.2 (by norm_num)

theorem modest_respects (n : ℕ) : Weak.Respects Factor (fun t u => t = u ∧ Modest n t) where
  zero := ⟨rfl, .zero⟩
  add := by rintro _ _ _ _ ⟨rfl, h⟩ ⟨rfl, h'⟩; exact ⟨rfl, .add h h'⟩
  sub := by rintro _ _ _ _ ⟨rfl, h⟩ ⟨rfl, h'⟩; exact ⟨rfl, .sub h h'⟩
  neg := by rintro _ _ ⟨rfl, h⟩; exact ⟨rfl, .neg h⟩
  cmul := by rintro _ _ _ _ ⟨rfl, h, hb⟩ ⟨rfl, h'⟩; exact ⟨rfl, .cmul h hb h'⟩
  mulc := by rintro _ _ _ _ ⟨rfl, h⟩ ⟨rfl, h', hb⟩; exact ⟨rfl, .mulc h h' hb⟩
  negC := by
    rintro a _ ⟨rfl, h, hb⟩
    refine ⟨rfl, h, ?_⟩
    show |-(a.eval fun _ => 0)| ≤ 2
    rwa [abs_neg]
  inv i n _ := ⟨⟨rfl, rfl, (Real.abs_cos_le_one _).trans (by norm_num)⟩, ⟨rfl, rfl, (Real.abs_sin_le_one _).trans (by norm_num)⟩⟩
  fwd i n _ := ⟨⟨rfl, rfl, (Real.abs_cos_le_one _).trans (by norm_num)⟩, ⟨rfl, rfl, (Real.abs_sin_le_one _).trans (by norm_num)⟩⟩
  dht := fun {i n} _ => ⟨rfl, rfl, abs_cos_sin _⟩
  scaled := by
    intro i n _
    have h : ∀ a : ℝ, |a| ≤ 1 → |a * √(1 / 2 : ℝ)| ≤ 2 := fun a ha => by
      rw [abs_mul]
      have := mul_le_mul ha sqrtHalf_le (abs_nonneg _) (by norm_num)
      linarith
    exact ⟨⟨rfl, rfl, h _ (Real.abs_cos_le_one _)⟩, ⟨rfl, rfl, h _ (Real.abs_sin_le_one _)⟩⟩
  third := by
    refine ⟨rfl, rfl, ?_⟩
    show |Real.cos _ - Real.sin _| ≤ 2
    refine (abs_sub _ _).trans ?_
    have h1 := Real.abs_cos_le_one
    have h2 := Real.abs_sin_le_one
    exact (add_le_add (h1 _) (h2 _)).trans (by norm_num)

/-- Expressions without the buffer and their values. -/
theorem value_respects : RustDHT.Respects (fun (t : Circ ℝ) (s : ℝ) => t.uses = false ∧ (t.eval fun _ => 0) = s)
    (fun (t : Circ ℝ) (s : ℝ) => t.uses = false ∧ (t.eval fun _ => 0) = s) where
  zero := ⟨rfl, rfl⟩
  add := by rintro _ _ _ _ ⟨h, rfl⟩ ⟨h', rfl⟩; exact ⟨by simp [uses, h, h'], rfl⟩
  sub := by rintro _ _ _ _ ⟨h, rfl⟩ ⟨h', rfl⟩; exact ⟨by simp [sub_def, uses, h, h'], rfl⟩
  neg := by rintro _ _ ⟨h, rfl⟩; exact ⟨by simp [uses, h], rfl⟩
  cmul := by rintro _ _ _ _ ⟨h, rfl⟩ ⟨h', rfl⟩; exact ⟨by simp [uses, h, h'], rfl⟩
  mulc := by rintro _ _ _ _ ⟨h, rfl⟩ ⟨h', rfl⟩; exact ⟨by simp [uses, h, h'], rfl⟩
  zeroC := ⟨rfl, rfl⟩
  addC := by rintro _ _ _ _ ⟨h, rfl⟩ ⟨h', rfl⟩; exact ⟨by simp [uses, h, h'], rfl⟩
  subC := by rintro _ _ _ _ ⟨h, rfl⟩ ⟨h', rfl⟩; exact ⟨by simp [sub_def, uses, h, h'], rfl⟩
  negC := by rintro _ _ ⟨h, rfl⟩; exact ⟨by simp [uses, h], rfl⟩
  mulC := by rintro _ _ _ _ ⟨h, rfl⟩ ⟨h', rfl⟩; exact ⟨by simp [uses, h, h'], rfl⟩
  inv _ _ _ := ⟨⟨rfl, rfl⟩, ⟨rfl, rfl⟩⟩
  fwd _ _ _ := ⟨⟨rfl, rfl⟩, ⟨rfl, rfl⟩⟩
  sqrtHalf := ⟨rfl, rfl⟩
  half := ⟨rfl, rfl⟩
  norm _ _ := ⟨rfl, rfl⟩

theorem abs_ca (n : ℕ) (k : ℤ) : |ca n k| ≤ √2 := by
  refine Real.abs_le_sqrt ?_
  have h : cs n k ^ 2 + sn n k ^ 2 = 1 := by rw [cs, sn]; exact Real.cos_sq_add_sin_sq _
  rw [ca]
  nlinarith [sq_nonneg (cs n k - sn n k)]

/-- The coefficients of a signal of `n` entries not above `√2 / n` are at most 2. -/
theorem coeff_le {n : ℕ} {x : List ℝ} (hx : x.length = n) (h : ∀ v ∈ x, |v| ≤ √2 / n) : ∀ v ∈ dht x, |v| ≤ 2 := by
  intro v hv
  rw [dht_eq, hx, tab] at hv
  obtain ⟨k, hk, rfl⟩ := List.mem_map.1 hv
  have hn : (0 : ℝ) < n := by
    have := List.mem_range.1 hk
    exact_mod_cast (by omega : 0 < n)
  rw [hart]
  refine (Finset.abs_sum_le_sum_abs _ _).trans ?_
  have : ∀ i ∈ Finset.range n, |nth x i * ca n (i * k)| ≤ 2 / n := by
    intro i hi
    have hi' : i < x.length := by rw [hx]; exact Finset.mem_range.1 hi
    have hm : nth x i ∈ x := by
      rw [nth, List.getElem?_eq_getElem hi']
      exact List.getElem_mem _
    rw [abs_mul]
    refine (mul_le_mul (h _ hm) (abs_ca n _) (abs_nonneg _) (by positivity)).trans (le_of_eq ?_)
    rw [div_mul_eq_mul_div, Real.mul_self_sqrt (by norm_num)]
  refine (Finset.sum_le_sum this).trans (le_of_eq ?_)
  rw [Finset.sum_const, Finset.card_range, nsmul_eq_mul]
  field_simp

/-- The numbers that `RadersAlgorithm::new` computes. -/
theorem raders_factors {i : Plan} (hr : i.SmallRadix4) {d d' : Dht (Circ ℝ)} (hd : i.build (Circ ℝ) = .ok d) {f : List (Circ ℝ) → List (Circ ℝ)}
    (hf : Implements d f) {p g gi : ℕ} (hdata : RadersData d f p g gi d') :
    ∀ t ∈ f (rdKernel (Circ ℝ) p gi), t.uses = false ∧ |t.eval fun _ => 0| ≤ 2 := by
  have hrel := RustDHT.plan_rel i value_respects
  rw [hd] at hrel
  rcases e : i.build ℝ with er | e'
  · rw [e] at hrel; cases hrel
  rw [e] at hrel
  have hlen := hdata.len
  cases hrel with
  | ok hrel =>
    have hk : LR (fun (t : Circ ℝ) (s : ℝ) => t.uses = false ∧ (t.eval fun _ => 0) = s) (rdKernel (Circ ℝ) p gi) (rdKernel ℝ p gi) :=
      LR.table fun j _ => ⟨rfl, rfl⟩
    have r := dht_process_rel hrel ⟨rfl, rfl⟩ hk
    have hl : (rdKernel (Circ ℝ) p gi).length = d.len := by rw [rdKernel, length_tab]; omega
    have hl' : (rdKernel ℝ p gi).length = e'.len := by rw [rdKernel, length_tab, ← hrel.len]; omega
    rw [process_single hf hl, process_single (plan_dht i hr e' e) hl'] at r
    have hp : 1 < p := hdata.prime.one_lt
    have hb : ∀ v ∈ dht (rdKernel ℝ p gi), |v| ≤ 2 := by
      refine coeff_le (n := p - 1) (by rw [rdKernel, length_tab]) fun v hv => ?_
      rw [rdKernel, tab] at hv
      obtain ⟨j, hj, rfl⟩ := List.mem_map.1 hv
      show |computeDhtTwiddle ℝ (gi ^ j % p) p * (((1 : ℕ) : ℝ) / ((p - 1 : ℕ) : ℝ))| ≤ _
      rw [abs_mul, abs_of_nonneg (a := ((1 : ℕ) : ℝ) / ((p - 1 : ℕ) : ℝ)) (by positivity), Nat.cast_one, mul_one_div]
      refine div_le_div_of_nonneg_right ?_ (by positivity)
      have e1 : computeDhtTwiddle ℝ (gi ^ j % p) p = ca p (gi ^ j % p : ℕ) := by
        show (computeDftTwiddleInverse ℝ _ _).re + (computeDftTwiddleInverse ℝ _ _).im = _
        rw [inverse_re, inverse_im, ca]
      rw [e1]
      exact abs_ca _ _
    cases r with
    | ok r =>
      revert hb r
      generalize f (rdKernel (Circ ℝ) p gi) = y
      generalize dht (rdKernel ℝ p gi) = z
      intro hb r
      induction r with
      | nil => intro t ht; cases ht
      | cons h _ ih =>
        intro t ht
        rcases List.mem_cons.1 ht with rfl | ht
        · exact ⟨h.1, by rw [h.2]; exact hb _ (by simp)⟩
        · exact ih (fun v hv => hb v (by simp [hv])) t ht

theorem factor_table {y : List (Circ ℝ)} (h : ∀ t ∈ y, t.uses = false ∧ |t.eval fun _ => 0| ≤ 2) (m n : ℕ) :
    LR (CxRel Factor) (tab m (rdTw y n)) (tab m (rdTw y n)) := by
  have hn : ∀ i, (nth y i).uses = false ∧ |(nth y i).eval fun _ => 0| ≤ 2 := by
    intro i
    rcases Nat.lt_or_ge i y.length with hi | hi
    · rw [nth, List.getElem?_eq_getElem hi]
      exact h _ (List.getElem_mem _)
    · rw [nth, List.getElem?_eq_none hi]
      exact ⟨rfl, by show |(0 : ℝ)| ≤ 2; norm_num⟩
  refine LR.table fun i _ => ?_
  rw [rdTw]
  split
  · exact ⟨⟨rfl, hn i⟩, ⟨rfl, rfl, by show |(0 : ℝ)| ≤ 2; norm_num⟩⟩
  · have h1 := hn i
    have h2 := hn (n - i)
    have b1 := abs_le.1 h1.2
    have b2 := abs_le.1 h2.2
    refine ⟨⟨rfl, ?_, ?_⟩, ⟨rfl, ?_, ?_⟩⟩
    · show ((nth y i).uses || (nth y (n - i)).uses || false) = false
      rw [h1.1, h2.1]; rfl
    · show |((nth y i).eval (fun _ => 0) + (nth y (n - i)).eval fun _ => 0) * (1 / 2 : ℝ)| ≤ 2
      rw [abs_le]; constructor <;> linarith
    · show ((nth y i).uses || (nth y (n - i)).uses || false) = false
      rw [h1.1, h2.1]; rfl
    · show |((nth y i).eval (fun _ => 0) - (nth y (n - i)).eval fun _ => 0) * (1 / 2 : ℝ)| ≤ 2
      rw [abs_le]; constructor <;> linarith

theorem plan_factors (n : ℕ) (p : Plan) : p.SmallRadix4 → ∀ d, p.build (Circ ℝ) = .ok d → DhtRel (fun t u => t = u ∧ Modest n t) d d := by
  have h := modest_respects n
  have conv : ∀ {r : Res (Dht (Circ ℝ))} {d : Dht (Circ ℝ)}, ResRel (DhtRel fun t u => t = u ∧ Modest n t) r r → r = .ok d →
      DhtRel (fun t u => t = u ∧ Modest n t) d d := by
    intro r d hr e
    rw [e] at hr
    cases hr with
    | ok h => exact h
  induction p with
  | naive m => rintro - d ⟨⟩; exact Weak.dhtNaive_rel h m
  | b1 => rintro - d ⟨⟩; exact butterfly1_rel
  | b2 => rintro - d ⟨⟩; exact boilerplateFftButterfly_rel fun _ _ hm => Weak.contiguous2_rel h hm
  | b3 => rintro - d ⟨⟩; exact boilerplateFftButterfly_rel fun _ _ hm => Weak.contiguous3_rel h hm
  | b4 => rintro - d ⟨⟩; exact boilerplateFftButterfly_rel fun _ _ hm => Weak.contiguous4_rel h hm
  | b5 => rintro - d ⟨⟩; exact boilerplateFftButterfly_rel fun _ _ hm => Weak.contiguous5_rel h hm
  | b6 => rintro - d ⟨⟩; exact boilerplateFftButterfly_rel fun _ _ hm => Weak.contiguous6_rel h hm
  | b8 => rintro - d ⟨⟩; exact boilerplateFftButterfly_rel fun _ _ hm => Weak.contiguous8_rel h hm
  | b9 => rintro - d ⟨⟩; exact boilerplateFftButterfly_rel fun _ _ hm => Weak.contiguous9_rel h hm
  | b16 => rintro - d ⟨⟩; exact boilerplateFftButterfly_rel fun _ _ hm => Weak.contiguous16_rel h hm
  | mixedRadix w l ihw ihl =>
    intro hr d e
    obtain ⟨dw, ew, e⟩ := bind_eq_ok e
    obtain ⟨dl, el, e⟩ := bind_eq_ok e
    cases e
    exact Weak.mixedRadix_rel h (ihw hr.1 _ ew) (ihl hr.2 _ el)
  | mr2 l ih => intro hr d e; obtain ⟨dl, el, e⟩ := bind_eq_ok e; cases e; exact Weak.mixedRadix2xn_rel h (ih hr _ el)
  | mr3 l ih => intro hr d e; obtain ⟨dl, el, e⟩ := bind_eq_ok e; cases e; exact Weak.mixedRadix3xn_rel h (ih hr _ el)
  | mr4 l ih => intro hr d e; obtain ⟨dl, el, e⟩ := bind_eq_ok e; cases e; exact Weak.mixedRadix4xn_rel h (ih hr _ el)
  | mr5 l ih => intro hr d e; obtain ⟨dl, el, e⟩ := bind_eq_ok e; cases e; exact Weak.mixedRadix5xn_rel h (ih hr _ el)
  | mr6 l ih => intro hr d e; obtain ⟨dl, el, e⟩ := bind_eq_ok e; cases e; exact Weak.mixedRadix6xn_rel h (ih hr _ el)
  | radix4 m => intro _ d e; exact conv (Weak.radix4_rel h m) e
  | splitRadix q l ihq ihl =>
    intro hr d e
    obtain ⟨dq, eq, e⟩ := bind_eq_ok e
    obtain ⟨dl, el, e⟩ := bind_eq_ok e
    exact conv (Weak.splitRadix_rel h (ihq hr.1 _ eq) (ihl hr.2 _ el)) e
  | raders i ih =>
    intro hr d e
    obtain ⟨di, ei, e⟩ := bind_eq_ok e
    obtain ⟨f, hf⟩ := (plan_ok i di ei).implements
    obtain ⟨g, gi, hdata⟩ := raders_data hf e
    have ht := factor_table (raders_factors (i := i) hr ei hf hdata) ((di.len + 1 - 1) / 2 + 1) (di.len + 1 - 1)
    rw [hdata.eq]
    have hi := ih hr di ei
    refine boilerplateDht_rel (fun hn b b' s s' hb hs => ?_) (fun hn i i' o o' s s' hi' ho hs => ?_)
    · exact Weak.radersPerformInplace_rel h hi _ _ _ ht hb hs
    · exact Weak.radersPerformOop_rel h hi _ _ _ ht hi' ho hs

theorem plan_modest (p : Plan) (hr : p.SmallRadix4) (d : Dht (Circ ℝ)) (hd : p.build (Circ ℝ) = .ok d) (n : ℕ) (y : List (Circ ℝ))
    (hy : d.process (buffer ℝ n) = .ok y) : ∀ t ∈ y, Modest n t := by
  have hl : LR (fun t u : Circ ℝ => t = u ∧ Modest n t) (buffer ℝ n) (buffer ℝ n) :=
    LR.table fun i hi => ⟨rfl, .inp (List.mem_range.1 hi)⟩
  have r := dht_process_rel (plan_factors n p hr d hd) ⟨rfl, .zero⟩ hl
  rw [hy] at r
  cases r with
  | ok r =>
    intro t ht
    have : ∀ l l' : List (Circ ℝ), LR (fun t u : Circ ℝ => t = u ∧ Modest n t) l l' → t ∈ l → Modest n t := by
      intro l l' h
      induction h with
      | nil => intro h; cases h
      | cons h _ ih =>
        intro hm
        rcases List.mem_cons.1 hm with rfl | hm
        · exact h.2
        · exact ih hm
    exact this _ _ r ht

end Circ

end RustDHT
