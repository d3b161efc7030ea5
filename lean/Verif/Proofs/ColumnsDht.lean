import Verif.Proofs.Plan
import Verif.Proofs.LeavesDht2

/-! # `MixedRadix2xn` to `MixedRadix6xn` compute the DHT -/

namespace RustDHT

open Finset

/-- The chunk transform of an object is determined on chunks of its length. -/
theorem Implements.unique {T : Type} {d : Dht T} {f g : List T → List T} (hf : Implements d f) (hg : Implements d g)
    {x : List T} (hx : x.length = d.len) (hpos : 0 < d.len) : f x = g x := by
  have hs : ∃ s : List T, d.inplaceScratchLen ≤ s.length := by
    match x with
    | [] => simp at hx; omega
    | a :: _ => exact ⟨List.replicate d.inplaceScratchLen a, by simp⟩
  obtain ⟨s, hs⟩ := hs
  obtain ⟨s1, e1, _⟩ := hf.inplace x s (by omega) (by rw [hx]) hs
  obtain ⟨s2, e2, _⟩ := hg.inplace x s (by omega) (by rw [hx]) hs
  rw [e1, mapChunks_single hpos hx, mapChunks_single hpos hx] at e2
  simp only [Except.ok.injEq, Prod.mk.injEq] at e2
  exact e2.1

theorem bfly2_dht {x : List ℝ} (hx : x.length = 2) : bflyFn contiguous2 x = dht x :=
  butterfly2_implements.unique butterfly2_dht hx (by decide)
theorem bfly3_dht {x : List ℝ} (hx : x.length = 3) : bflyFn contiguous3 x = dht x :=
  butterfly3_implements.unique butterfly3_dht hx (by decide)
theorem bfly4_dht {x : List ℝ} (hx : x.length = 4) : bflyFn contiguous4 x = dht x :=
  butterfly4_implements.unique butterfly4_dht hx (by decide)
theorem bfly5_dht {x : List ℝ} (hx : x.length = 5) : bflyFn contiguous5 x = dht x :=
  butterfly5_implements.unique butterfly5_dht hx (by decide)
theorem bfly6_dht {x : List ℝ} (hx : x.length = 6) : bflyFn contiguous6 x = dht x :=
  butterfly6_implements.unique butterfly6_dht hx (by decide)

/-- The kernel transforms the combined column forward, and the mirror column with rows in reverse. -/
def KernelDht (k h : ℕ) (kernel : List (Cx ℝ) → List ℝ → List ℝ → Res (List ℝ × List ℝ)) (tw : List (Cx ℝ))
    (c : ℕ) : Prop :=
  ∀ A : ℕ → ℤ → ℝ, runK kernel tw (tab k fun r => A r c) (tab k fun r => A r (-c))
    = (dht (tab k fun r => mixB k h A r c), (dht (tab k fun r => mixB k h A ((k - r) % k) (-c))).reverse)

/-- The transform of `MixedRadixNxn` is the DHT if its kernel is right. -/
theorem mrnFn_dht {k h : ℕ} {f : List ℝ → List ℝ} {col0 : List ℝ → Res (List ℝ)}
    {kernel : List (Cx ℝ) → List ℝ → List ℝ → Res (List ℝ × List ℝ)} {g : ℕ → List (Cx ℝ)}
    (hf : ∀ x, x.length = h → f x = dht x) (hk : 0 < k) (ht0 : Total k col0)
    (h0 : ∀ x : List ℝ, x.length = k → run col0 x = dht x)
    (hkt : ∀ c, KernelTotal k kernel (g c))
    (hker : ∀ c, 0 < c → 2 * c ≤ h → KernelDht k h kernel (g c) c)
    {x : List ℝ} (hx : x.length = k * h) :
    mrnFn k h f (applyColumns k h col0 kernel ((List.range' 1 (h / 2)).map g)) x = dht x := by
  rcases Nat.eq_zero_or_pos h with rfl | hh
  · rw [Nat.mul_zero] at hx
    obtain rfl : x = [] := List.length_eq_zero_iff.1 hx
    simp [mrnFn, tab, mapChunks_zero, applyColumns, run, dht, panic]
  have htot := applyColumns_total hh ht0 (twChunks := (List.range' 1 (h / 2)).map g) (by simp)
    (mem_map_range (P := KernelTotal k kernel) hkt)
  unfold mrnFn
  rw [mapChunks_congr hf, dht_eq' hx]
  have hlen : (mapChunks h dht (tab (k * h) fun p => nth x (revRow k h (p / h) (p % h) * k + p / h))).length
      = k * h := by
    rw [length_mapChunks hh (fun x hx => by rw [length_dht, hx]), length_tab]
  refine eq_tab (htot.length hlen) fun p hp => ?_
  rw [nth_run_applyColumns hh ht0 (by simp) (mem_map_range (P := KernelTotal k kernel) hkt) hlen hp]
  have hc := mod_lt_of_lt_mul hp
  have hj := div_lt_of_lt_mul' hp
  obtain ⟨c, hce⟩ : ∃ c, p % h = c := ⟨_, rfl⟩
  obtain ⟨j, hje⟩ : ∃ j, p / h = j := ⟨_, rfl⟩
  have hpe : p = j * h + c := by rw [← hce, ← hje, div_mod_eq]
  rw [hce] at hc; rw [hje] at hj
  rw [hce, hje]
  set A : ℕ → ℤ → ℝ := fun r => hart h (rowSeq k h (nth x) r) with hA
  set buf := mapChunks h dht (tab (k * h) fun p => nth x (revRow k h (p / h) (p % h) * k + p / h)) with hbuf
  have hcol : ∀ {c}, c < h → col k h buf c = tab k fun r => A r c := by
    intro c hc
    exact tab_congr fun r hr => nth_rows x hr hc
  have hcolr : ∀ {c}, 0 < c → c < h → col k h buf (h - c) = tab k fun r => A r (-c) := by
    intro c hc0 hc
    exact tab_congr fun r hr => nth_rows_rev x hr hc0 hc
  unfold columnVal
  by_cases h1 : c = 0
  · rw [if_pos h1, h0 _ length_col, hcol hh, dht_tab, nth_tab hj]
    have := mix_sum hk hh (nth x) 0 j
    rw [hpe, h1]
    push_cast
    rw [show (j : ℤ) * h + 0 = 0 + h * j by ring, ← this, hart]
    refine sum_congr rfl fun r hr => ?_
    rw [mixB_col_zero k h _ (mem_range.1 hr)]
  · rw [if_neg h1]
    by_cases h2 : 2 * c < h
    · rw [if_pos h2, chunk_get (by omega) (by omega), hcol hc, hcolr (by omega) hc,
        hker c (by omega) (by omega), dht_tab, nth_tab hj, hart, hA, mix_sum hk hh]
      congr 1; rw [hpe]; push_cast; ring
    · obtain ⟨e, he⟩ : ∃ e, h - c = e := ⟨_, rfl⟩
      have hce' : c = h - e := by omega
      rw [if_neg h2, he, chunk_get (by omega) (by omega), hcol (by omega), hce', hcolr (by omega) (by omega),
        hker e (by omega) (by omega)]
      rw [nth_reverse (by simpa using hj), length_dht, length_tab, dht_tab, nth_tab (by omega), hart, hA,
        mix_sum_neg hk hh]
      apply hart_mod
      have h3 : ((h - e : ℕ) : ℤ) = h - e := by omega
      have h4 : ((k - 1 - j : ℕ) : ℤ) = k - 1 - j := by omega
      rw [hpe, hce', h4, Nat.cast_add, h3]
      exact ⟨-1, by push_cast; ring⟩

/-! ## The five kernels -/

theorem kernel2 {h c : ℕ} :
    KernelDht 2 h mr2Kernel [computeDftTwiddleInverse ℝ c (2 * h)] c := by
  intro A
  have key : ∀ (t : Cx ℝ) (a b a' b' : ℝ), runK mr2Kernel [t] [a, b] [a', b']
      = (bflyFn contiguous2 [a, t.re * b + t.im * b'], (bflyFn contiguous2 [a', t.re * b' - t.im * b]).reverse) :=
    fun _ _ _ _ _ => rfl
  change runK mr2Kernel _ [A 0 c, A 1 c] [A 0 (-c), A 1 (-c)] = _
  rw [key, bfly2_dht rfl, bfly2_dht rfl, inverse_re, inverse_im]
  change _ = (dht [mixB 2 h A 0 c, mixB 2 h A 1 c], (dht [mixB 2 h A 0 (-c), mixB 2 h A 1 (-c)]).reverse)
  have e1 : mixB 2 h A 1 c = cs (2 * h) c * A 1 c + sn (2 * h) c * A 1 (-c) := by
    norm_num [mixB]
  have e2 : mixB 2 h A 1 (-c) = cs (2 * h) c * A 1 (-c) - sn (2 * h) c * A 1 c := by
    norm_num [mixB, cs_neg, sn_neg]; ring
  rw [e1, e2]
  rfl

theorem kernel3 {h c : ℕ} (hh : 0 < h) :
    KernelDht 3 h mr3Kernel
      [(computeDftTwiddleInverse ℝ (c * 1 * 8 + 3 * h) (3 * h * 8)).scale FftNum.sqrtHalfF32] c := by
  intro A
  have key : ∀ (t : Cx ℝ) (a0 a1 a2 b0 b1 b2 : ℝ), runK mr3Kernel [t] [a0, a1, a2] [b0, b1, b2]
      = (bflyFn contiguous3 [a0, t.re * (a1 + b2) - t.im * (a2 - b1), t.re * (a2 - b1) + t.im * (a1 + b2)],
         (bflyFn contiguous3 [b0, t.re * (a2 + b1) - t.im * (a1 - b2), t.re * (a1 - b2) + t.im * (a2 + b1)]).reverse) :=
    fun _ _ _ _ _ _ _ => rfl
  change runK mr3Kernel _ [A 0 c, A 1 c, A 2 c] [A 0 (-c), A 1 (-c), A 2 (-c)] = _
  rw [key, bfly3_dht rfl, bfly3_dht rfl, eighth_re (by omega), eighth_im (by omega)]
  change _ = (dht [mixB 3 h A 0 c, mixB 3 h A 1 c, mixB 3 h A 2 c],
    (dht [mixB 3 h A 0 (-c), mixB 3 h A 2 (-c), mixB 3 h A 1 (-c)]).reverse)
  norm_num [mixB, cs_neg, sn_neg, -neg_neg]
  congr 1
  simp only [List.cons.injEq, true_and, and_true]
  constructor <;> ring

theorem kernel4 {h c : ℕ} :
    KernelDht 4 h mr4Kernel
      [computeDftTwiddleInverse ℝ (1 * c) (4 * h), computeDftTwiddleInverse ℝ (2 * c) (4 * h)] c := by
  intro A
  have key : ∀ (t u : Cx ℝ) (a0 a1 a2 a3 b0 b1 b2 b3 : ℝ), runK mr4Kernel [t, u] [a0, a1, a2, a3] [b0, b1, b2, b3]
      = (let c2 := u.re * a2 + u.im * b2
         let d2 := u.re * b2 - u.im * a2
         let c1 := t.re * (a1 + b3) + t.im * (b1 - a3)
         let d1 := t.re * (a3 + b1) + t.im * (b3 - a1)
         let c3 := t.re * (b1 - a3) - t.im * (a1 + b3)
         let d3 := t.re * (b3 - a1) - t.im * (a3 + b1)
         ([a0 + c2 + c1, a0 - c2 + c3, a0 + c2 - c1, a0 - c2 - c3],
          [b0 - d2 - d3, b0 + d2 - d1, b0 - d2 + d3, b0 + d2 + d1])) :=
    fun _ _ _ _ _ _ _ _ _ _ => rfl
  change runK mr4Kernel _ [A 0 c, A 1 c, A 2 c, A 3 c] [A 0 (-c), A 1 (-c), A 2 (-c), A 3 (-c)] = _
  rw [key]
  simp only [inverse_re, inverse_im]
  change _ = (dht [mixB 4 h A 0 c, mixB 4 h A 1 c, mixB 4 h A 2 c, mixB 4 h A 3 c],
    (dht [mixB 4 h A 0 (-c), mixB 4 h A 3 (-c), mixB 4 h A 2 (-c), mixB 4 h A 1 (-c)]).reverse)
  rw [← bfly4_dht rfl, ← bfly4_dht rfl]
  change _ = (b4List (mixB 4 h A 0 c) (mixB 4 h A 1 c) (mixB 4 h A 2 c) (mixB 4 h A 3 c),
    (b4List (mixB 4 h A 0 (-c)) (mixB 4 h A 3 (-c)) (mixB 4 h A 2 (-c)) (mixB 4 h A 1 (-c))).reverse)
  norm_num [mixB, cs_neg, sn_neg, b4List]
  refine ⟨⟨?_, ?_, ?_, ?_⟩, ?_, ?_, ?_, ?_⟩ <;> ring

theorem kernel5 {h c : ℕ} (hh : 0 < h) :
    KernelDht 5 h mr5Kernel
      [(computeDftTwiddleInverse ℝ (c * 1 * 8 + 5 * h) (5 * h * 8)).scale FftNum.sqrtHalfF32,
       (computeDftTwiddleInverse ℝ (c * 2 * 8 + 5 * h) (5 * h * 8)).scale FftNum.sqrtHalfF32] c := by
  intro A
  have key : ∀ (t u : Cx ℝ) (a0 a1 a2 a3 a4 b0 b1 b2 b3 b4 : ℝ),
      runK mr5Kernel [t, u] [a0, a1, a2, a3, a4] [b0, b1, b2, b3, b4]
      = (bflyFn contiguous5 [a0, t.re * (a1 + b4) - t.im * (a4 - b1), u.re * (a2 + b3) - u.im * (a3 - b2),
           u.re * (a3 - b2) + u.im * (a2 + b3), t.re * (a4 - b1) + t.im * (a1 + b4)],
         (bflyFn contiguous5 [b0, t.re * (a4 + b1) - t.im * (a1 - b4), u.re * (a3 + b2) - u.im * (a2 - b3),
           u.re * (a2 - b3) + u.im * (a3 + b2), t.re * (a1 - b4) + t.im * (a4 + b1)]).reverse) :=
    fun _ _ _ _ _ _ _ _ _ _ _ _ => rfl
  change runK mr5Kernel _ [A 0 c, A 1 c, A 2 c, A 3 c, A 4 c] [A 0 (-c), A 1 (-c), A 2 (-c), A 3 (-c), A 4 (-c)] = _
  rw [key, bfly5_dht rfl, bfly5_dht rfl]
  simp only [eighth_re (show 0 < 5 * h by omega), eighth_im (show 0 < 5 * h by omega)]
  change _ = (dht [mixB 5 h A 0 c, mixB 5 h A 1 c, mixB 5 h A 2 c, mixB 5 h A 3 c, mixB 5 h A 4 c],
    (dht [mixB 5 h A 0 (-c), mixB 5 h A 4 (-c), mixB 5 h A 3 (-c), mixB 5 h A 2 (-c), mixB 5 h A 1 (-c)]).reverse)
  norm_num [mixB, cs_neg, sn_neg, mul_comm (c : ℤ)]
  congr 1
  simp only [List.cons.injEq, true_and, and_true]
  refine ⟨?_, ?_, ?_, ?_⟩ <;> ring

theorem kernel6 {h c : ℕ} (hh : 0 < h) :
    KernelDht 6 h mr6Kernel
      [(computeDftTwiddleInverse ℝ (1 * c * 8 + 6 * h) (6 * h * 8)).scale FftNum.sqrtHalfF32,
       (computeDftTwiddleInverse ℝ (2 * c * 8 + 6 * h) (6 * h * 8)).scale FftNum.sqrtHalfF32,
       (computeDftTwiddleInverse ℝ (3 * c * 8 + 6 * h) (6 * h * 8)).scale FftNum.sqrtHalfF32] c := by
  intro A
  have key : ∀ (t u v : Cx ℝ) (a0 a1 a2 a3 a4 a5 b0 b1 b2 b3 b4 b5 : ℝ),
      runK mr6Kernel [t, u, v] [a0, a1, a2, a3, a4, a5] [b0, b1, b2, b3, b4, b5]
      = (bflyFn contiguous6 [a0, t.re * (a1 + b5) - t.im * (a5 - b1), u.re * (a2 + b4) - u.im * (a4 - b2),
           v.re * (a3 - b3) + v.im * (a3 + b3),
           u.re * (a4 - b2) + u.im * (a2 + b4), t.re * (a5 - b1) + t.im * (a1 + b5)],
         (bflyFn contiguous6 [b0, t.re * (a5 + b1) - t.im * (a1 - b5), u.re * (a4 + b2) - u.im * (a2 - b4),
           v.re * (a3 + b3) - v.im * (a3 - b3),
           u.re * (a2 - b4) + u.im * (a4 + b2), t.re * (a1 - b5) + t.im * (a5 + b1)]).reverse) :=
    fun _ _ _ _ _ _ _ _ _ _ _ _ _ _ _ => rfl
  change runK mr6Kernel _ [A 0 c, A 1 c, A 2 c, A 3 c, A 4 c, A 5 c]
    [A 0 (-c), A 1 (-c), A 2 (-c), A 3 (-c), A 4 (-c), A 5 (-c)] = _
  rw [key, bfly6_dht rfl, bfly6_dht rfl]
  simp only [eighth_re (show 0 < 6 * h by omega), eighth_im (show 0 < 6 * h by omega)]
  change _ = (dht [mixB 6 h A 0 c, mixB 6 h A 1 c, mixB 6 h A 2 c, mixB 6 h A 3 c, mixB 6 h A 4 c, mixB 6 h A 5 c],
    (dht [mixB 6 h A 0 (-c), mixB 6 h A 5 (-c), mixB 6 h A 4 (-c), mixB 6 h A 3 (-c), mixB 6 h A 2 (-c),
      mixB 6 h A 1 (-c)]).reverse)
  norm_num [mixB, cs_neg, sn_neg]
  constructor
  · congr 1
    simp only [List.cons.injEq, true_and, and_true]
    ring
  · congr 1
    simp only [List.cons.injEq, true_and, and_true]
    refine ⟨?_, ?_, ?_, ?_, ?_⟩ <;> ring

/-! ## The five types -/

theorem mr2Fn_dht {h : ℕ} {x : List ℝ} (hx : x.length = 2 * h) : mrnFn 2 h dht (mr2Apply ℝ h) x = dht x :=
  mrnFn_dht (fun _ _ => rfl) (by omega) (total_of_performs performs2) (fun _ => bfly2_dht)
    (fun _ => mr2Kernel_total _) (fun c h0 h1 => kernel2) hx

theorem mixedRadix2xn_dht {hd : Dht ℝ} (hi : ComputesDht hd) (hin : 0 < hd.len → hd.inplaceScratchLen ≤ 2 * hd.len)
    (hoop : 0 < hd.len → hd.oopScratchLen = 0) : ComputesDht (mixedRadix2xn hd) :=
  (mr2_implements hi hin hoop).congr fun _ hx => mr2Fn_dht hx

theorem mr3Fn_dht {h : ℕ} {x : List ℝ} (hx : x.length = 3 * h) : mrnFn 3 h dht (mr3Apply ℝ h) x = dht x :=
  mrnFn_dht (fun _ _ => rfl) (by omega) (total_of_performs performs3) (fun _ => bfly3_dht)
    (fun _ => mr3Kernel_total _) (fun c h0 h1 => kernel3 (by omega)) hx

theorem mixedRadix3xn_dht {hd : Dht ℝ} (hi : ComputesDht hd) (hin : 0 < hd.len → hd.inplaceScratchLen ≤ 3 * hd.len)
    (hoop : 0 < hd.len → hd.oopScratchLen = 0) : ComputesDht (mixedRadix3xn hd) :=
  (mr3_implements hi hin hoop).congr fun _ hx => mr3Fn_dht hx

theorem mr4Fn_dht {h : ℕ} {x : List ℝ} (hx : x.length = 4 * h) : mrnFn 4 h dht (mr4Apply ℝ h) x = dht x :=
  mrnFn_dht (fun _ _ => rfl) (by omega) (total_of_performs performs4) (fun _ => bfly4_dht)
    (fun _ => mr4Kernel_total _ _) (fun c h0 h1 => kernel4) hx

theorem mixedRadix4xn_dht {hd : Dht ℝ} (hi : ComputesDht hd) (hin : 0 < hd.len → hd.inplaceScratchLen ≤ 4 * hd.len)
    (hoop : 0 < hd.len → hd.oopScratchLen = 0) : ComputesDht (mixedRadix4xn hd) :=
  (mr4_implements hi hin hoop).congr fun _ hx => mr4Fn_dht hx

theorem mr5Fn_dht {h : ℕ} {x : List ℝ} (hx : x.length = 5 * h) : mrnFn 5 h dht (mr5Apply ℝ h) x = dht x :=
  mrnFn_dht (fun _ _ => rfl) (by omega) (total_of_performs performs5) (fun _ => bfly5_dht)
    (fun _ => mr5Kernel_total _ _) (fun c h0 h1 => kernel5 (by omega)) hx

theorem mixedRadix5xn_dht {hd : Dht ℝ} (hi : ComputesDht hd) (hin : 0 < hd.len → hd.inplaceScratchLen ≤ 5 * hd.len)
    (hoop : 0 < hd.len → hd.oopScratchLen = 0) : ComputesDht (mixedRadix5xn hd) :=
  (mr5_implements hi hin hoop).congr fun _ hx => mr5Fn_dht hx

theorem mr6Fn_dht {h : ℕ} {x : List ℝ} (hx : x.length = 6 * h) : mrnFn 6 h dht (mr6Apply ℝ h) x = dht x :=
  mrnFn_dht (fun _ _ => rfl) (by omega) (total_of_performs performs6) (fun _ => bfly6_dht)
    (fun _ => mr6Kernel_total _ _ _) (fun c h0 h1 => kernel6 (by omega)) hx

theorem mixedRadix6xn_dht {hd : Dht ℝ} (hi : ComputesDht hd) (hin : 0 < hd.len → hd.inplaceScratchLen ≤ 6 * hd.len)
    (hoop : 0 < hd.len → hd.oopScratchLen = 0) : ComputesDht (mixedRadix6xn hd) :=
  (mr6_implements hi hin hoop).congr fun _ hx => mr6Fn_dht hx

end RustDHT
