import Verif.Proofs.UnitTestsFloat
import Verif.Proofs.LeavesDht2

/-! # The unit tests of `DhtNaive` pass in `f32` -/

set_option linter.unusedSectionVars false

namespace RustDHT

open Finset

/-- A list of finite numbers within `e` of a list of real numbers. -/
def Near (e : ℝ) (x : List (Flt binary32)) (z : List ℝ) : Prop :=
  List.Forall₂ (fun (a : Flt binary32) (b : ℝ) => a.fin ∧ |a.val - b| ≤ e) x z

theorem Near.mono {e e' : ℝ} {x : List (Flt binary32)} {z : List ℝ} (h : Near e x z) (he : e ≤ e') : Near e' x z :=
  List.Forall₂.imp (fun _ _ h => ⟨h.1, h.2.trans he⟩) h

theorem near_of_nth {e : ℝ} {n : ℕ} {x : List (Flt binary32)} {z : List ℝ} (hx : x.length = n) (hz : z.length = n)
    (h : ∀ k < n, (nth x k).fin ∧ |(nth x k).val - nth z k| ≤ e) : Near e x z := by
  refine List.forall₂_iff_get.2 ⟨by omega, fun i h1 h2 => ?_⟩
  have := h i (by omega)
  rwa [nth_eq_getElem h1, nth_eq_getElem h2] at this

theorem Near.length {e : ℝ} {x : List (Flt binary32)} {z : List ℝ} (h : Near e x z) : x.length = z.length :=
  List.Forall₂.length_eq h

theorem Near.nth {e : ℝ} {x : List (Flt binary32)} {z : List ℝ} (h : Near e x z) {k : ℕ} (hk : k < x.length) :
    (nth x k).fin ∧ |(nth x k).val - nth z k| ≤ e := by
  have hl := h.length
  obtain ⟨-, h⟩ := List.forall₂_iff_get.1 h
  have := h k hk (by omega)
  rwa [nth_eq_getElem hk, nth_eq_getElem (by omega)]

theorem Near.append {e : ℝ} {x x' : List (Flt binary32)} {z z' : List ℝ} (h : Near e x z) (h' : Near e x' z') :
    Near e (x ++ x') (z ++ z') := by
  unfold Near at *
  induction h with
  | nil => exact h'
  | cons h0 _ ih => exact .cons h0 ih

theorem Near.reverse {e : ℝ} {x : List (Flt binary32)} {z : List ℝ} (h : Near e x z) : Near e x.reverse z.reverse :=
  List.forall₂_reverse_iff.2 h

theorem near_mapChunks {e : ℝ} {n : ℕ} (hn : 0 < n) {f : List (Flt binary32) → List (Flt binary32)} {g : List ℝ → List ℝ}
    (A : Flt binary32 → Prop) (h : ∀ x, x.length = n → (∀ a ∈ x, A a) → Near e (f x) (g (x.map Flt.val)))
    (x : List (Flt binary32)) (hd : n ∣ x.length) (hA : ∀ a ∈ x, A a) : Near e (mapChunks n f x) (mapChunks n g (x.map Flt.val)) := by
  induction x using chunk_induction hn with
  | hlt l hl =>
    have : l = [] := List.length_eq_zero_iff.1 (Nat.eq_zero_of_dvd_of_lt hd hl)
    subst this
    rw [List.map_nil, mapChunks_nil, mapChunks_nil]
    exact .nil
  | hge l hl ih =>
    rw [mapChunks_of_ge hn hl, mapChunks_of_ge (l := l.map Flt.val) hn (by simpa using hl), ← List.map_take, ← List.map_drop]
    exact (h _ (by simpa using hl) fun a ha => hA a (List.mem_of_mem_take ha)).append
      (ih (by rw [List.length_drop]; exact Nat.dvd_sub hd (dvd_refl n)) fun a ha => hA a (List.mem_of_mem_drop ha))

section
variable [MathLib]

/-- Two lists near a third pass the comparison. -/
theorem compare_of_near (hl : MathLib.Accurate) {e1 e2 : ℝ} {x y : List (Flt binary32)} {z : List ℝ} (h1 : Near e1 x z)
    (h2 : Near e2 y z) (hn : 0 < z.length) (hn100 : z.length ≤ 100) (he : e1 + e2 ≤ 9 / 100) :
    compareRealVectors x y = .ok true := by
  have hm := floatModel32 hl
  have hx := h1.length
  have hy := h2.length
  generalize hzn : z.length = n at *
  have hN : (n : ℝ) ≤ 100 := by exact_mod_cast hn100
  have hN0 : (0 : ℝ) < n := by exact_mod_cast hn
  have he2 : 0 ≤ e2 := le_trans (abs_nonneg _) (h2.nth (k := 0) (by omega)).2
  have hP : (1 + 2⁻¹ ^ 24 : ℝ) ^ (n + 1) ≤ 1.005 := by
    refine (pow_small (u := 2⁻¹ ^ 24) (by positivity) (K := n + 1) ?_).trans ?_
    · push_cast; norm_num; linarith
    · push_cast; norm_num; linarith
  have hb : (1 + 2⁻¹ ^ 24 : ℝ) ^ (n + 1) * (n * (e1 + e2)) ≤ 0.092 * n := by
    have a1 : (1 + 2⁻¹ ^ 24 : ℝ) ^ (n + 1) * (n * (e1 + e2)) ≤ (1 + 2⁻¹ ^ 24 : ℝ) ^ (n + 1) * (n * (9 / 100)) :=
      mul_le_mul_of_nonneg_left (mul_le_mul_of_nonneg_left he hN0.le) (by positivity)
    have a2 : (1 + 2⁻¹ ^ 24 : ℝ) ^ (n + 1) * (n * (9 / 100)) ≤ 1.005 * (n * (9 / 100)) :=
      mul_le_mul_of_nonneg_right hP (by positivity)
    refine a1.trans (a2.trans ?_)
    norm_num
    linarith
  obtain ⟨r, c, r1, r0, r2⟩ := hm.compare_near (by norm_num) Flt.abs_spec (n := n) (x := x) (y := y) (z := z) hx hy hzn
    (fun k hk => by rw [List.getD_eq_getElem?_getD]; exact (h1.nth (by omega)).1) (fun a ha => by
      obtain ⟨i, hi, e⟩ := List.getElem_of_mem ha
      have := (h2.nth hi).1
      rwa [nth_eq_getElem hi, e] at this)
    (e1 := e1) (e2 := e2)
    (fun k hk => by simp only [List.getD_eq_getElem?_getD]; exact (h1.nth (by omega)).2)
    (by
      rw [norm2_sub (n := n) (by simp [hy]) hzn, ← nrm_const n he2]
      refine nrm_mono fun i hi => ?_
      rw [hm.nth_map]
      exact (h2.nth (by omega)).2)
    (hb.trans (by norm_num; linarith))
  rw [Flt.meanBelow_of r1 hn (by omega) r0 (r2.trans hb)] at c
  exact c

theorem naive_near (hl : MathLib.Accurate) {n : ℕ} (hn24 : n ≤ 24) {x : List (Flt binary32)} (hx : x.length = n)
    (hf : ∀ a ∈ x, a.fin ∧ |a.val| ≤ 21) : Near (2 / 1000) (naiveFn (Flt binary32) n x) (dht (x.map Flt.val)) := by
  have hm := floatModel32 hl
  have hS0 : 0 ≤ (x.map fun a => |a.val|).sum := List.sum_nonneg (by simp)
  have hN : (n : ℝ) ≤ 24 := by exact_mod_cast hn24
  have hN0 : (0 : ℝ) ≤ n := Nat.cast_nonneg n
  have hS : (x.map fun a => |a.val|).sum ≤ 504 := by
    have := List.sum_le_card_nsmul (x.map fun a => |a.val|) 21 (by
      intro b hb
      obtain ⟨a, ha, rfl⟩ := List.mem_map.1 hb
      exact (hf a ha).2)
    rw [List.length_map, hx, nsmul_eq_mul] at this
    linarith
  have hP : (1 + 2⁻¹ ^ 24 : ℝ) ^ (n + 2 + 3) ≤ 1 + 1.005 * (29 * 2⁻¹ ^ 24) := by
    refine (pow_small (u := 2⁻¹ ^ 24) (by positivity) (K := n + 2 + 3) ?_).trans ?_
    · push_cast; norm_num; linarith
    · push_cast; norm_num; linarith
  have hη : (n : ℝ) * 2⁻¹ ^ 150 ≤ 1 / 10 ^ 30 := by norm_num; linarith
  have hη0 : 0 ≤ (n : ℝ) * 2⁻¹ ^ 150 := by positivity
  refine near_of_nth (n := n) (by simp [naiveFn]) (by simp [hx]) fun k hk => ?_
  have := hm.naiveFn (n := n) hx (fun a ha => (hf a ha).1) rfl (by
    generalize (x.map fun a => |a.val|).sum = S at *
    have hmax : max S 1 ≤ 504 := max_le hS (by norm_num)
    have hmax0 : 0 ≤ max S 1 := le_max_of_le_right (by norm_num)
    refine (mul_le_mul_of_nonneg_right hP (by positivity)).trans ?_
    generalize max S 1 = R at *
    generalize (n : ℝ) * 2⁻¹ ^ 150 = η at *
    norm_num at hη ⊢
    linarith) hk
  refine ⟨this.1, this.2.trans ?_⟩
  generalize (x.map fun a => |a.val|).sum = S at *
  generalize (n : ℝ) * 2⁻¹ ^ 150 = η at *
  have := mul_le_mul_of_nonneg_right hP (by positivity : 0 ≤ 2 * S + η)
  generalize (1 + 2⁻¹ ^ 24 : ℝ) ^ (n + 2 + 3) = Z at *
  norm_num at this hη ⊢
  linarith

end

open Flt in
/-- One element of the lists with twiddle factors. -/
theorem twist32 {p q a b : Flt binary32} (hp : p.fin) (hq : q.fin) (ha : a.fin) (hb : b.fin) {s c za zb e M : ℝ}
    (hs : |s| ≤ 1) (hc : |c| ≤ 1) (h1 : |p.val - s| ≤ 12 / 10 ^ 8) (h2 : |q.val - c| ≤ 12 / 10 ^ 8) (h3 : |a.val - za| ≤ e)
    (h4 : |b.val - zb| ≤ e) (hza : |za| ≤ M) (hzb : |zb| ≤ M) (hM : M ≤ 1000) (he : e ≤ 1) :
    (p * a + q * b).fin ∧ |(p * a + q * b).val - (s * za + c * zb)| ≤ 2 * e + 5 / 10 ^ 7 * (M + e) + 1 / 10 ^ 20 := by
  have hM0 : 0 ≤ M := (abs_nonneg _).trans hza
  have he0 : 0 ≤ e := (abs_nonneg _).trans h3
  have one : ∀ {p a : Flt binary32} {s za : ℝ}, p.fin → a.fin → |s| ≤ 1 → |p.val - s| ≤ 12 / 10 ^ 8 → |a.val - za| ≤ e →
      |za| ≤ M → (p * a).fin ∧ |(p * a).val - s * za| ≤ e + 181 / 10 ^ 9 * (M + e) + 1 / 10 ^ 30 ∧ |(p * a).val| ≤ 1.001 * (M + e) + 1 / 10 ^ 30 := by
    intro p a s za hp ha hs h1 h3 hza
    have b1 : |a.val| ≤ M + e := by
      have := abs_add_le (a.val - za) za
      rw [sub_add_cancel] at this
      linarith
    have e0 : p.val * a.val - s * za = (p.val - s) * a.val + s * (a.val - za) := by ring
    have b2 : |(p.val - s) * a.val| ≤ 12 / 10 ^ 8 * (M + e) := by
      rw [abs_mul]; exact mul_le_mul h1 b1 (abs_nonneg _) (by norm_num)
    have b3 : |s * (a.val - za)| ≤ 1 * e := by
      rw [abs_mul]; exact mul_le_mul hs h3 (abs_nonneg _) (by norm_num)
    have b4 : |p.val * a.val - s * za| ≤ 12 / 10 ^ 8 * (M + e) + e := by
      rw [e0]
      have := abs_add_le ((p.val - s) * a.val) (s * (a.val - za))
      linarith
    have b5 : |p.val * a.val| ≤ (1 + 12 / 10 ^ 8) * (M + e) := by
      rw [abs_mul]
      refine mul_le_mul ?_ b1 (abs_nonneg _) (by norm_num)
      have := abs_add_le (p.val - s) s
      rw [sub_add_cancel] at this
      linarith
    obtain ⟨f, e1⟩ := mul32 p a hp ha (b5.trans (by norm_num; linarith))
    have t := abs_sub_le (p * a).val (p.val * a.val) (s * za)
    have t2 := abs_add_le ((p * a).val - p.val * a.val) (p.val * a.val)
    rw [sub_add_cancel] at t2
    generalize |p.val * a.val| = w at *
    refine ⟨f, ?_, ?_⟩
    · norm_num at *; linarith
    · norm_num at *; linarith
  obtain ⟨f1, a1, s1⟩ := one hp ha hs h1 h3 hza
  obtain ⟨f2, a2, s2⟩ := one hq hb hc h2 h4 hzb
  have s3 : |(p * a).val + (q * b).val| ≤ 2.002 * (M + e) + 2 / 10 ^ 30 := by
    have := abs_add_le (p * a).val (q * b).val
    norm_num at *
    linarith
  obtain ⟨f, e1⟩ := add32 _ _ f1 f2 (s3.trans (by norm_num; linarith))
  refine ⟨f, ?_⟩
  have e1' : |(p * a + q * b).val - ((p * a).val + (q * b).val)| ≤ 6 / 10 ^ 8 * (2.002 * (M + e) + 2 / 10 ^ 30) :=
    e1.trans (mul_le_mul_of_nonneg_left s3 (by norm_num))
  have t := abs_sub_le (p * a + q * b).val ((p * a).val + (q * b).val) (s * za + c * zb)
  have t2 := abs_add_le ((p * a).val - s * za) ((q * b).val - c * zb)
  rw [show (p * a).val - s * za + ((q * b).val - c * zb) = (p * a).val + (q * b).val - (s * za + c * zb) by ring] at t2
  generalize |(p * a).val + (q * b).val - (s * za + c * zb)| = w at *
  norm_num at *
  linarith

theorem cs_rev {n i : ℕ} (hi : i < n) : cs n ((n - i) % n : ℕ) = cs n i ∧ sn n ((n - i) % n : ℕ) = -sn n i := by
  rw [← cs_neg (k := (i : ℤ)), ← sn_neg (k := (i : ℤ))]
  have : (n : ℤ) ∣ (((n - i) % n : ℕ) : ℤ) - -(i : ℤ) := by
    rcases Nat.eq_zero_or_pos i with rfl | hi0
    · simp
    · rw [Nat.mod_eq_of_lt (by omega), Nat.cast_sub hi.le]
      exact ⟨1, by ring⟩
  exact ⟨cs_congr this, sn_congr this⟩

theorem rev_rev {n i : ℕ} (hi : i < n) : (n - (n - i) % n) % n = i := by
  rcases Nat.eq_zero_or_pos i with rfl | hi0
  · simp
  · rw [Nat.mod_eq_of_lt (show n - i < n by omega), Nat.sub_sub_self hi.le, Nat.mod_eq_of_lt hi]

theorem dht_abs_le {n : ℕ} {x : List ℝ} (hx : x.length = n) {M : ℝ} (h : ∀ i < n, |nth x i| ≤ M) {k : ℕ} (hk : k < n) :
    |nth (dht x) k| ≤ 2 * n * M := by
  rw [nth_dht hx hk, hart]
  refine (abs_sum_le_sum_abs _ _).trans ?_
  have : ∀ i ∈ range n, |nth x i * ca n (i * k)| ≤ M * 2 := fun i hi => by
    rw [abs_mul]
    have h0 := h i (mem_range.1 hi)
    refine mul_le_mul h0 ?_ (abs_nonneg _) ((abs_nonneg _).trans h0)
    exact (abs_add_le _ _).trans (by
      have := Real.abs_cos_le_one (2 * Real.pi * ((i * k : ℤ) : ℝ) / n)
      have := Real.abs_sin_le_one (2 * Real.pi * ((i * k : ℤ) : ℝ) / n)
      unfold cs sn
      linarith)
  refine (sum_le_sum this).trans ?_
  simp
  linarith

theorem dht_sub_le {n : ℕ} {x y : List ℝ} (hx : x.length = n) (hy : y.length = n) {e : ℝ} (h : ∀ i < n, |nth x i - nth y i| ≤ e) {k : ℕ}
    (hk : k < n) : |nth (dht x) k - nth (dht y) k| ≤ 2 * n * e := by
  have := dht_abs_le (x := List.zipWith (fun u v => 1 * u + -1 * v) x y) (n := n) (by simp [hx, hy]) (M := e) (fun i hi => by
    rw [nth_zipWith (by omega) (by omega)]
    have := h i hi
    rwa [one_mul, neg_one_mul, ← sub_eq_add_neg]) hk
  rw [dht_linear (by omega), nth_zipWith (by simpa [hx] using hk) (by simpa [hy] using hk), one_mul, neg_one_mul, ← sub_eq_add_neg] at this
  exact this

variable [MathLib]

/-- The twiddle factors of the reversal property, applied to a list near `z`, in both forms. -/
theorem twist_near (hl : MathLib.Accurate) {n : ℕ} {y : List (Flt binary32)} {z : List ℝ} (hz : z.length = n) {e M : ℝ}
    (hy : Near e y z) (hM : ∀ i < n, |nth z i| ≤ M) (hM1 : M ≤ 1000) (he : e ≤ 1) {i : ℕ} (hi : i < n) :
    (let a := (computeDftTwiddleForward (Flt binary32) i n).im * nth y i
        + (computeDftTwiddleForward (Flt binary32) i n).re * nth y ((n - i) % n)
     a.fin ∧ |a.val - nth (revTwiddle z) i| ≤ 2 * e + 5 / 10 ^ 7 * (M + e) + 1 / 10 ^ 20) ∧
    (let a := -(computeDftTwiddleForward (Flt binary32) i n).im * nth y ((n - i) % n)
        + (computeDftTwiddleForward (Flt binary32) i n).re * nth y i
     a.fin ∧ |a.val - nth (revTwiddle z) ((n - i) % n)| ≤ 2 * e + 5 / 10 ^ 7 * (M + e) + 1 / 10 ^ 20) := by
  have hm := floatModel32 hl
  have hyl := hy.length
  have hr : (n - i) % n < n := Nat.mod_lt _ (by omega)
  have num : ((2 : ℕ) : ℝ) * 2⁻¹ ^ 24 ≤ 12 / 10 ^ 8 := by norm_num
  obtain ⟨fc, ec⟩ := hm.cosFwd i n hi
  obtain ⟨fs, es⟩ := hm.sinFwd i n hi
  have hcs : Real.cos (2 * Real.pi * i / n) = cs n i := by rw [cs]; simp
  have hsn : Real.sin (2 * Real.pi * i / n) = sn n i := by rw [sn]; simp
  rw [hcs] at ec
  rw [hsn] at es
  have hc1 : |cs n i| ≤ 1 := Real.abs_cos_le_one _
  have hs1 : |sn n i| ≤ 1 := Real.abs_sin_le_one _
  obtain ⟨g1, g2⟩ := hy.nth (k := i) (by omega)
  obtain ⟨g3, g4⟩ := hy.nth (k := (n - i) % n) (by omega)
  rw [revTwiddle_eq hz, nth_tab hi, nth_tab hr, (cs_rev hi).1, (cs_rev hi).2, rev_rev hi, neg_neg]
  refine ⟨twist32 fs fc g1 g3 (by rwa [abs_neg]) hc1 (es.trans num) (ec.trans num) g2 g4 (hM i hi) (hM _ hr) hM1 he, ?_⟩
  obtain ⟨n1, n2⟩ := hm.neg _ fs
  refine twist32 n1 fc g3 g1 hs1 hc1 ?_ (ec.trans num) g4 g2 (hM _ hr) (hM i hi) hM1 he
  rw [n2]
  have := es.trans num
  rwa [← abs_neg, show -((computeDftTwiddleForward (Flt binary32) i n).im.val - -sn n i)
    = -(computeDftTwiddleForward (Flt binary32) i n).im.val - sn n i by ring] at this

theorem near_val {x : List (Flt binary32)} (hf : ∀ a ∈ x, a.fin) : Near 0 x (x.map Flt.val) := by
  unfold Near
  induction x with
  | nil => exact .nil
  | cons a l ih => exact .cons ⟨hf a List.mem_cons_self, by simp⟩ (ih fun b hb => hf b (List.mem_cons_of_mem _ hb))

theorem abs_nth_val {x : List (Flt binary32)} {M : ℝ} (hf : ∀ a ∈ x, a.fin ∧ |a.val| ≤ M) {i : ℕ} (hi : i < x.length) :
    |nth (x.map Flt.val) i| ≤ M := by
  rw [nth_eq_getElem (by simpa using hi), List.getElem_map]
  exact (hf _ (List.getElem_mem hi)).2

theorem matches_f32 [MathLib32] (hl : MathLib.Accurate) (hl32 : MathLib32.Accurate) {n : ℕ} (hn : 0 < n) (hn24 : n ≤ 24)
    {x : List (Flt binary32)} (hx : x.length = n * 4) (hf : ∀ a ∈ x, a.fin ∧ |a.val| ≤ 10) : testMatchesDhtLen n x = .ok () := by
  have hd : n ∣ x.length := ⟨4, hx⟩
  refine testMatches_ok hn (by omega) hd (dhtNaive_implements n) ?_
  have hz : (mapChunks n dht (x.map Flt.val)).length = n * 4 := by
    rw [length_mapChunks hn (by simp)]
    simpa using hx
  refine compare_of_near hl (z := mapChunks n dht (x.map Flt.val)) (e1 := 6 / 100) (e2 := 2 / 1000)
    (near_mapChunks hn _ (fun c hc hA => ?_) x hd hf) (near_mapChunks hn _ (fun c hc hA => ?_) x hd hf) (by omega) (by omega)
    (by norm_num)
  · exact near_of_nth (n := n) (by simp [referenceDht, hc]) (by simp [hc]) fun k hk => reference32 hl hl32 hn hn24 hc hA hk
  · exact naive_near hl hn24 hc fun a ha => ⟨(hA a ha).1, (hA a ha).2.trans (by norm_num)⟩

theorem double_reversal_f32 (hl : MathLib.Accurate) {n : ℕ} (hn : 0 < n) (hn24 : n ≤ 24) {x : List (Flt binary32)}
    (hx : x.length = n) (hf : ∀ a ∈ x, a.fin ∧ |a.val| ≤ 10) : testDoubleReversalLen n x = .ok () := by
  have hf' : ∀ a ∈ x, a.fin ∧ |a.val| ≤ 21 := fun a ha => ⟨(hf a ha).1, (hf a ha).2.trans (by norm_num)⟩
  refine testDoubleReversal_ok hn hx (dhtNaive_implements n) ?_
  refine compare_of_near hl (z := dht (x.map Flt.val)) (e1 := 2 / 1000) (e2 := 2 / 1000) (naive_near hl hn24 hx hf') ?_
    (by simpa [hx] using hn) (by simp; omega) (by norm_num)
  have h2 := naive_near hl (x := x.take 1 ++ (x.drop 1).reverse) hn24 (by simp; omega) (fun a ha => by
    rw [List.mem_append, List.mem_reverse] at ha
    exact hf' a (ha.elim List.mem_of_mem_take List.mem_of_mem_drop))
  rw [← dht_revTail]
  rw [show (x.take 1 ++ (x.drop 1).reverse).map Flt.val = revTail (x.map Flt.val) by
    rw [revTail, List.map_append, List.map_take, List.map_reverse, List.map_drop]] at h2
  exact Near.append (List.forall₂_take 1 h2) (Near.reverse (List.forall₂_drop 1 h2))

theorem reversal_f32 (hl : MathLib.Accurate) {n : ℕ} (hn : 0 < n) (hn20 : n ≤ 20) {x : List (Flt binary32)} (hx : x.length = n)
    (hf : ∀ a ∈ x, a.fin ∧ |a.val| ≤ 10) : testReversalLen n x = .ok () := by
  have hN : (n : ℝ) ≤ 20 := by exact_mod_cast hn20
  have hN0 : (0 : ℝ) ≤ n := Nat.cast_nonneg n
  have hf' : ∀ a ∈ x, a.fin ∧ |a.val| ≤ 21 := fun a ha => ⟨(hf a ha).1, (hf a ha).2.trans (by norm_num)⟩
  have hxl : (x.map Flt.val).length = n := by simpa using hx
  -- the spectrum and its bounds
  have hg := naive_near hl (by omega) hx hf'
  have hgM : ∀ i < n, |nth (dht (x.map Flt.val)) i| ≤ 400 := fun i hi =>
    (dht_abs_le hxl (M := 10) (fun j hj => abs_nth_val hf (by omega)) hi).trans (by linarith)
  have hgl : (naiveFn (Flt binary32) n x).length = n := by rw [hg.length]; simpa using hx
  have hdl : (dht (x.map Flt.val)).length = n := by simpa using hx
  -- twiddles before
  have hx0 := near_val fun a ha => (hf a ha).1
  have tw := fun i (hi : i < n) => (twist_near hl hxl hx0 (M := 10) (fun j hj => abs_nth_val hf (by omega)) (by norm_num) (by norm_num) hi).1
  have htw : Near (6 / 10 ^ 6) (tab n fun i => (computeDftTwiddleForward (Flt binary32) i n).im * nth x i
      + (computeDftTwiddleForward (Flt binary32) i n).re * nth x ((n - i) % n)) (revTwiddle (x.map Flt.val)) := by
    refine near_of_nth (n := n) (by simp) (by simpa [revTwiddle] using hx) fun k hk => ?_
    rw [nth_tab hk]
    exact ⟨(tw k hk).1, (tw k hk).2.trans (by norm_num)⟩
  have hrl : (revTwiddle (x.map Flt.val)).length = n := by simpa [revTwiddle] using hx
  have htl := htw.length.trans hrl
  have ht21 : ∀ a ∈ (tab n fun i => (computeDftTwiddleForward (Flt binary32) i n).im * nth x i
      + (computeDftTwiddleForward (Flt binary32) i n).re * nth x ((n - i) % n)), a.fin ∧ |a.val| ≤ 21 := by
    intro a ha
    obtain ⟨k, hk, rfl⟩ := List.getElem_of_mem ha
    rw [← nth_eq_getElem hk]
    have hkn : k < n := by omega
    refine ⟨(htw.nth hk).1, ?_⟩
    have b1 := (htw.nth hk).2
    have b2 : |nth (revTwiddle (x.map Flt.val)) k| ≤ 20 := by
      rw [revTwiddle_eq hxl, nth_tab hkn]
      have c1 : |-sn n k| ≤ 1 := by rw [abs_neg]; exact Real.abs_sin_le_one _
      have c2 : |cs n k| ≤ 1 := Real.abs_cos_le_one _
      have d1 := abs_nth_val hf (i := k) (by omega)
      have d2 := abs_nth_val hf (i := (n - k) % n) (by rw [hx]; exact Nat.mod_lt _ (by omega))
      refine (abs_add_le _ _).trans ?_
      rw [abs_mul, abs_mul]
      have := mul_le_mul c1 d1 (abs_nonneg _) (by norm_num)
      have := mul_le_mul c2 d2 (abs_nonneg _) (by norm_num)
      linarith
    have tri : ∀ a b : ℝ, |a| ≤ |a - b| + |b| := fun a b => by simpa using abs_add_le (a - b) b
    exact (tri _ _).trans ((add_le_add b1 b2).trans (by norm_num))
  have hgt : Near (3 / 1000) (naiveFn (Flt binary32) n (tab n fun i => (computeDftTwiddleForward (Flt binary32) i n).im * nth x i
      + (computeDftTwiddleForward (Flt binary32) i n).re * nth x ((n - i) % n))) (dht (x.map Flt.val)).reverse := by
    have h0 := naive_near hl (by omega) htl ht21
    rw [dht_reverse_output]
    generalize (tab n fun i => (computeDftTwiddleForward (Flt binary32) i n).im * nth x i
      + (computeDftTwiddleForward (Flt binary32) i n).re * nth x ((n - i) % n)) = t at *
    refine near_of_nth (n := n) (by rw [h0.length]; simpa using htl) (by simpa using hrl) fun k hk => ?_
    have h1 := h0.nth (k := k) (by rw [h0.length]; simp; omega)
    refine ⟨h1.1, ?_⟩
    have h2 := dht_sub_le (n := n) (x := t.map Flt.val) (y := revTwiddle (x.map Flt.val)) (by simpa using htl) hrl
      (e := 6 / 10 ^ 6) (fun i hi => by
        have := (htw.nth (k := i) (by omega)).2
        rwa [nth_eq_getElem (l := t.map Flt.val) (by simp; omega), List.getElem_map, ← nth_eq_getElem]) hk
    have h3 := abs_sub_le (nth (naiveFn (Flt binary32) n t) k).val (nth (dht (t.map Flt.val)) k) (nth (dht (revTwiddle (x.map Flt.val))) k)
    refine h3.trans ((add_le_add h1.2 (h2.trans (mul_le_mul_of_nonneg_right (mul_le_mul_of_nonneg_left hN (by norm_num)) (by norm_num)))).trans
      (by norm_num))
  -- twiddles after
  have tw2 := fun i (hi : i < n) => twist_near hl hdl hg (M := 400) hgM (by norm_num) (by norm_num) hi
  have hnum : 2 * (2 / 1000) + 5 / 10 ^ 7 * (400 + 2 / 1000) + 1 / 10 ^ 20 ≤ (5 / 1000 : ℝ) := by norm_num
  obtain ⟨y2, hy2, ly2, py2⟩ := reversalTwiddles2_ok (T := Flt binary32) hn hgl
    (fun j a => a.fin ∧ |a.val - nth (revTwiddle (dht (x.map Flt.val))) j| ≤ 5 / 1000)
    (fun i hi => ⟨(tw2 i hi).1.1, (tw2 i hi).1.2.trans hnum⟩) (fun i hi => ⟨(tw2 i hi).2.1, (tw2 i hi).2.2.trans hnum⟩)
  have hgr := naive_near hl (n := n) (x := x.reverse) (by omega) (by simpa using hx) (fun a ha => hf' a (List.mem_reverse.1 ha))
  rw [List.map_reverse, dht_reverse_input] at hgr
  have hrl2 : (revTwiddle (dht (x.map Flt.val))).length = n := by simpa [revTwiddle] using hx
  refine testReversal_ok hn hx (dhtNaive_implements n) (reversalTwiddles_eq hx) htl (reversalTwiddles_eq hgl) hy2 ?_ ?_ ?_
  · exact compare_of_near hl hgt hg.reverse (by simpa [hx] using hn) (by simp; omega) (by norm_num1)
  · refine compare_of_near hl (e1 := 5 / 1000) (near_of_nth (n := n) (by simp) hrl2 fun k hk => ?_) hgr (by omega) (by omega) (by norm_num)
    rw [nth_tab hk]
    exact ⟨(tw2 k hk).1.1, (tw2 k hk).1.2.trans hnum⟩
  · exact compare_of_near hl (e1 := 5 / 1000) (near_of_nth (n := n) ly2 hrl2 py2) hgr (by omega) (by omega) (by norm_num)

/-! ## Exact arithmetic -/

omit [MathLib]

theorem reference_exact (x : List ℝ) : referenceDht x x = dht x := by
  obtain ⟨n, hn⟩ : ∃ n, x.length = n := ⟨_, rfl⟩
  have hz : x.zipIdx = (List.range n).map fun i => (nth x i, i) := by
    refine List.ext_getElem (by simpa using hn) fun i h1 h2 => ?_
    simp only [List.length_zipIdx] at h1
    simp [nth_eq_getElem h1]
  have h0 : referenceDht x x = tab n fun k => x.zipIdx.foldl (fun sum (p : ℝ × ℕ) =>
      sum + (Real.cos (((2 : ℕ) : ℝ) * ((p.2 * k : ℕ) : ℝ) * Real.pi / (x.length : ℝ))
        + Real.sin (((2 : ℕ) : ℝ) * ((p.2 * k : ℕ) : ℝ) * Real.pi / (x.length : ℝ))) * p.1) 0 := by
    rw [referenceDht, hn]
    rfl
  rw [h0, dht_eq' hn, hz]
  refine tab_congr fun k hk => ?_
  rw [List.foldl_map, foldl_add_sum, zero_add, hart]
  refine sum_congr rfl fun i _ => ?_
  rw [mul_comm, ca, cs, sn, hn]
  push_cast
  congr 3 <;> ring

theorem matches_exact {n : ℕ} (hn : 0 < n) {x : List ℝ} (hl : n ≤ x.length) (hd : n ∣ x.length) : testMatchesDhtLen n x = .ok () := by
  refine testMatches_ok hn hl hd (dhtNaive_implements n) ?_
  rw [mapChunks_congr (g := dht) fun c hc => reference_exact c, mapChunks_congr (f := naiveFn ℝ n) (g := dht) fun c hc => naiveFn_dht hc]
  refine compare_self fun h => ?_
  have := congrArg List.length h
  rw [length_mapChunks hn (by simp)] at this
  simp at this
  subst this
  simp at hl
  omega

theorem double_reversal_exact {n : ℕ} (hn : 0 < n) {x : List ℝ} (hx : x.length = n) : testDoubleReversalLen n x = .ok () := by
  refine testDoubleReversal_ok hn hx (dhtNaive_implements n) ?_
  have e := dht_revTail x
  rw [naiveFn_dht hx, naiveFn_dht (by simp; omega)]
  rw [revTail, revTail] at e
  rw [e]
  refine compare_self fun h => ?_
  have := congrArg List.length h
  simp at this
  simp [this] at hx
  omega

theorem twiddle_exact {n : ℕ} {z : List ℝ} (hz : z.length = n) {i : ℕ} (hi : i < n) :
    (computeDftTwiddleForward ℝ i n).im * nth z i + (computeDftTwiddleForward ℝ i n).re * nth z ((n - i) % n) = nth (revTwiddle z) i ∧
    -(computeDftTwiddleForward ℝ i n).im * nth z ((n - i) % n) + (computeDftTwiddleForward ℝ i n).re * nth z i
      = nth (revTwiddle z) ((n - i) % n) := by
  have hr : (n - i) % n < n := Nat.mod_lt _ (by omega)
  rw [revTwiddle_eq hz, nth_tab hi, nth_tab hr, (cs_rev hi).1, (cs_rev hi).2, rev_rev hi, forward_re, forward_im]
  exact ⟨rfl, rfl⟩

theorem reversal_exact {n : ℕ} (hn : 0 < n) {x : List ℝ} (hx : x.length = n) : testReversalLen n x = .ok () := by
  have hdl : (dht x).length = n := by simpa using hx
  have hne : ∀ z : List ℝ, z.length = n → compareRealVectors z z = .ok true := fun z hz => compare_self fun h => by
    subst h
    simp at hz
    omega
  have ht : ∀ z : List ℝ, z.length = n → reversalTwiddles n z = .ok (revTwiddle z) := fun z hz => by
    rw [reversalTwiddles_eq hz]
    congr 1
    refine list_ext_nth (by simp [revTwiddle, hz]) fun k hk => ?_
    rw [length_tab] at hk
    rw [nth_tab hk, (twiddle_exact hz hk).1]
  obtain ⟨y2, e2, l2, p2⟩ := reversalTwiddles2_ok (T := ℝ) hn hdl (fun j a => a = nth (revTwiddle (dht x)) j)
    (fun i hi => (twiddle_exact hdl hi).1) (fun i hi => (twiddle_exact hdl hi).2)
  have hrl : (revTwiddle (dht x)).length = n := by simpa [revTwiddle] using hx
  have hy2 : y2 = revTwiddle (dht x) := list_ext_nth (l2.trans hrl.symm) (by rwa [l2])
  subst hy2
  rw [← naiveFn_dht hx] at e2
  have t1 := ht _ (show (naiveFn ℝ n x).length = n by rw [naiveFn_dht hx]; exact hdl)
  have hx' : (revTwiddle x).length = n := by simpa [revTwiddle] using hx
  refine testReversal_ok hn hx (dhtNaive_implements n) (ht x hx) hx' t1 e2 ?_ ?_ ?_
  · rw [naiveFn_dht hx', naiveFn_dht hx, dht_reverse_output]
    exact hne _ (by simpa using hx')
  all_goals
    rw [naiveFn_dht hx, naiveFn_dht (x := x.reverse) (by simpa using hx), dht_reverse_input]
    exact hne _ hrl

end RustDHT
