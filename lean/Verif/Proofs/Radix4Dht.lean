import Verif.Proofs.ColumnsDht
import Verif.Proofs.Orthogonality

/-! # `Radix4` computes the DHT of a permutation of its input

The permutation is the identity up to length 64, and moves position 3 from length 128 on. -/

namespace RustDHT

open Finset

theorem mapChunks_nested {T : Type} {h k : ℕ} (hh : 0 < h) (hk : 0 < k) {f g : List T → List T}
    (hf : ∀ x, x.length = h → (f x).length = h) {z : List T} (hz : k * h ∣ z.length) :
    mapChunks (k * h) g (mapChunks h f z) = mapChunks (k * h) (fun c => g (mapChunks h f c)) z := by
  have hkh : 0 < k * h := Nat.mul_pos hk hh
  induction z using chunk_induction hkh with
  | hlt l hl =>
    have : l = [] := List.length_eq_zero_iff.1 (Nat.eq_zero_of_dvd_of_lt hz hl)
    subst this; simp [mapChunks_nil]
  | hge l hl ih =>
    have ht : (l.take (k * h)).length = k * h := by simp; omega
    have h1 : mapChunks h f l = mapChunks h f (l.take (k * h)) ++ mapChunks h f (l.drop (k * h)) := by
      conv_lhs => rw [← List.take_append_drop (k * h) l]
      rw [mapChunks_append (by rw [ht]; exact dvd_mul_left _ _)]
    have h2 : (mapChunks h f (l.take (k * h))).length = k * h := by rw [length_mapChunks hh hf, ht]
    rw [h1, mapChunks_append (by rw [h2]), mapChunks_single hkh h2, mapChunks_of_ge hkh hl,
      ih ((dvd_drop_iff hl).2 hz)]

/-- In exact arithmetic the layer twiddles are those of `MixedRadix4xn`. -/
theorem r4Apply_real (h : ℕ) {t : ℕ} (ht : 0 < t) : r4Apply ℝ h t = mr4Apply ℝ h := by
  have key : ∀ a b n : ℕ, a = b * t → computeDftTwiddleInverse ℝ a (n * t) = computeDftTwiddleInverse ℝ b n := by
    rintro _ b n rfl
    have h1 : (computeDftTwiddleInverse ℝ (b * t) (n * t)).re = (computeDftTwiddleInverse ℝ b n).re := by
      rw [inverse_re, inverse_re]; push_cast; exact cs_mul ht _
    have h2 : (computeDftTwiddleInverse ℝ (b * t) (n * t)).im = (computeDftTwiddleInverse ℝ b n).im := by
      rw [inverse_im, inverse_im]; push_cast; exact sn_mul ht _
    revert h1 h2
    generalize computeDftTwiddleInverse ℝ (b * t) (n * t) = u
    generalize computeDftTwiddleInverse ℝ b n = v
    intro h1 h2
    cases u; cases v; simp_all
  unfold r4Apply mr4Apply r4Chunks mr4Chunks
  congr 1
  refine List.map_congr_left fun c _ => ?_
  rw [key _ (1 * c) (4 * h) (by ring), key _ (2 * c) (4 * h) (by ring)]

/-- The rearrangement that one layer undoes in a block of length `4 * h`. -/
def r4Perm (h i : ℕ) : ℕ := i % 4 * h + revRow 4 h (i % 4) (i / 4)

theorem r4Perm_lt {h i : ℕ} (hi : i < 4 * h) : r4Perm h i < 4 * h := by
  refine pos_lt (Nat.mod_lt _ (by norm_num)) ?_
  unfold revRow; split <;> omega

theorem r4Block {h t : ℕ} (hh : 0 < h) (ht : 0 < t) {z : List ℝ} (hz : z.length = 4 * h) :
    run (r4Apply ℝ h t) (mapChunks h dht z) = dht (tab (4 * h) fun i => nth z (r4Perm h i)) := by
  have key := mr4Fn_dht (h := h) (x := tab (4 * h) fun i => nth z (r4Perm h i)) (by simp)
  rw [← key, r4Apply_real h ht, mrnFn]
  congr 2
  refine eq_tab hz fun p hp => ?_
  have hc := mod_lt_of_lt_mul hp
  have hr := div_lt_of_lt_mul' hp
  have hrev : revRow 4 h (p / h) (p % h) < h := by unfold revRow; split <;> omega
  rw [nth_tab (by omega)]
  congr 1
  have key2 : ∀ a b : ℕ, b < 4 → r4Perm h (a * 4 + b) = b * h + revRow 4 h b a := by
    intro a b hb
    unfold r4Perm
    rw [show (a * 4 + b) % 4 = b by omega, show (a * 4 + b) / 4 = a by omega]
  rw [key2 _ _ hr]
  conv_lhs => rw [← div_mod_eq h p]
  congr 1
  unfold revRow; split <;> omega

/-- The rearrangement that `l` layers above `h` columns undo. -/
def r4Undo : ℕ → ℕ → ℕ → ℕ
  | _, 0, i => i
  | h, l + 1, i =>
    let p := r4Undo (4 * h) l i
    p / (4 * h) * (4 * h) + r4Perm h (p % (4 * h))

theorem r4Undo_lt {h l i : ℕ} (hh : 0 < h) (hi : i < h * 4 ^ l) : r4Undo h l i < h * 4 ^ l := by
  induction l generalizing h with
  | zero => exact hi
  | succ l ih =>
    have e : h * 4 ^ (l + 1) = 4 ^ l * (4 * h) := by ring
    have := ih (h := 4 * h) (by omega) (by rw [e] at hi; linarith)
    rw [e]
    simp only [r4Undo]
    refine pos_lt ?_ (r4Perm_lt (Nat.mod_lt _ (by omega)))
    rw [Nat.div_lt_iff_lt_mul (by omega)]
    linarith

theorem r4Layers_dht {h l : ℕ} (hh : 0 < h) {z : List ℝ} (hz : z.length = h * 4 ^ l) :
    r4Layers ℝ h l (mapChunks h dht z) = dht (tab (h * 4 ^ l) fun i => nth z (r4Undo h l i)) := by
  induction l generalizing h z with
  | zero =>
    simp only [pow_zero, Nat.mul_one] at hz ⊢
    rw [r4Layers, mapChunks_single hh hz]
    congr 1
    exact eq_tab hz fun p _ => rfl
  | succ l ih =>
    have e : h * 4 ^ (l + 1) = 4 * h * 4 ^ l := by ring
    have hd : 4 * h ∣ z.length := by rw [hz, e]; exact dvd_mul_right _ _
    rw [r4Layers, mapChunks_nested hh (by norm_num) (fun x hx => by rw [length_dht, hx]) hd,
      mapChunks_congr (fun c hc => r4Block hh (by positivity) hc)]
    have hl : ∀ x : List ℝ, x.length = 4 * h → (tab (4 * h) fun i => nth x (r4Perm h i)).length = 4 * h :=
      fun x _ => length_tab _ _
    rw [← mapChunks_mapChunks (f := fun c => tab (4 * h) fun i => nth c (r4Perm h i)) (g := dht) hl,
      ih (by omega) (by rw [length_mapChunks (by omega) hl, hz, e]), e]
    congr 1
    refine tab_congr fun i hi => ?_
    have hp := r4Undo_lt (h := 4 * h) (by omega) hi
    simp only [r4Undo]
    generalize r4Undo (4 * h) l i = p at hp
    have hm := Nat.mod_lt p (show 0 < 4 * h by omega)
    have hq : p / (4 * h) < 4 ^ l := by rw [Nat.div_lt_iff_lt_mul (by omega)]; linarith
    conv_lhs => rw [← div_mod_eq (4 * h) p]
    rw [nth_mapChunks hl hm (by rw [hz, e, Nat.mul_comm (4 * h)]; exact Nat.mul_le_mul_right _ hq), nth_tab hm,
      nth_take (r4Perm_lt hm), nth_drop]

/-- The permutation of the input that `Radix4` transforms. -/
def r4Sigma (base l i : ℕ) : ℕ := r4Index base l false (r4Undo base l i)

theorem r4Fn_dht {base l : ℕ} (hb : 0 < base) {fb : List ℝ → List ℝ}
    (hfb : ∀ x, x.length = base → fb x = dht x) (x : List ℝ) :
    r4Fn ℝ base l fb x = dht (tab (base * 4 ^ l) fun i => nth x (r4Sigma base l i)) := by
  rw [r4Fn, mapChunks_congr hfb, r4Layers_dht hb (length_tab _ _)]
  congr 1
  exact tab_congr fun i hi => nth_tab (r4Undo_lt hb hi)

theorem r4BaseFn_dht {m : ℕ} {x : List ℝ} (hx : x.length = r4BaseLen m) : r4BaseFn ℝ m x = dht x := by
  obtain ⟨_, h2, _, h4⟩ := radix4Base_eq (T := ℝ) m
  have key : ComputesDht (radix4Base ℝ (2 ^ m)).2 := by
    unfold radix4Base
    rw [trailingZeros_two_pow]
    match m with
    | 0 => exact butterfly1_dht
    | 1 => exact butterfly2_dht
    | 2 => exact butterfly4_dht
    | m + 3 =>
      by_cases hm : (m + 3) % 2 = 1
      · simp only [hm, if_true]; exact butterfly8_dht
      · simp only [hm, if_false]; exact butterfly16_dht
  exact h4.unique key (by rw [hx, h2]) (by rw [h2]; exact r4BaseLen_pos m)

theorem radix4Fn_dht (m : ℕ) (x : List ℝ) :
    radix4Fn ℝ m x = dht (tab (2 ^ m) fun i => nth x (r4Sigma (r4BaseLen m) (r4Levels m) i)) := by
  rw [radix4Fn, r4Fn_dht (r4BaseLen_pos m) (fun x hx => r4BaseFn_dht hx), r4_len m]

/-! ## The permutation -/

theorem r4Sigma_zero (base i : ℕ) : r4Sigma base 0 i = i := by simp [r4Sigma, r4Undo, r4Index]

theorem r4Sigma_one {base i : ℕ} (hi : i < base * 4) : r4Sigma base 1 i = i := by
  have hb : 0 < base := by omega
  have h1 : i % (4 * base) = i := Nat.mod_eq_of_lt (by omega)
  have h2 : i / (4 * base) = 0 := Nat.div_eq_of_lt (by omega)
  have hr := Nat.mod_lt i (show 0 < 4 by norm_num)
  have hm : i / 4 < base := by omega
  have hrev : revRow 4 base (i % 4) (i / 4) < base := by unfold revRow; split <;> omega
  unfold r4Sigma
  simp only [r4Undo, h1, h2, Nat.zero_mul, Nat.zero_add, r4Index, pow_zero, Nat.mul_one, r4Perm, div_of_lt hrev,
    mod_of_lt hrev]
  unfold revRow
  have : i % 4 = 0 ∨ i % 4 = 1 ∨ i % 4 = 2 ∨ i % 4 = 3 := by omega
  rcases this with h | h | h | h <;> simp [h] <;> omega

theorem r4Undo_three {h : ℕ} (hh : 0 < h) (l : ℕ) : r4Undo h (l + 2) 3 = 15 * (h * 4 ^ l) := by
  induction l generalizing h with
  | zero =>
    have e1 : r4Undo (4 * h) 1 3 = 16 * h - 1 := by
      simp only [r4Undo]
      rw [Nat.div_eq_of_lt (by omega), Nat.mod_eq_of_lt (by omega)]
      simp [r4Perm, revRow]; omega
    have e2 : (16 * h - 1) / (4 * h) = 3 := by
      rw [Nat.div_eq_iff (by omega)]; omega
    have e3 : (16 * h - 1) % (4 * h) = 4 * h - 1 := by
      have := Nat.div_add_mod (16 * h - 1) (4 * h)
      rw [e2] at this; omega
    rw [r4Undo]
    simp only [e1, e2, e3, r4Perm]
    rw [show (4 * h - 1) % 4 = 3 by omega, show (4 * h - 1) / 4 = h - 1 by omega]
    simp [revRow]; omega
  | succ l ih =>
    rw [r4Undo]
    simp only [ih (h := 4 * h) (by omega)]
    have e : 15 * (4 * h * 4 ^ l) = 15 * 4 ^ l * (4 * h) := by ring
    rw [e, Nat.mul_div_cancel _ (by omega), Nat.mul_mod_left]
    simp [r4Perm, revRow]; ring

theorem r4Index_zero_false (base l : ℕ) : r4Index base l false 0 = 0 := by
  induction l with
  | zero => rfl
  | succ l ih => simp [r4Index, ih]

/-- From two layers on, position 3 holds another element. -/
theorem r4Sigma_three {base : ℕ} (hb : 2 ≤ base) (l : ℕ) : r4Sigma base (l + 2) 3 ≠ 3 := by
  have hs : 0 < base * 4 ^ l := by positivity
  have e : base * 4 ^ (l + 1) = 4 * (base * 4 ^ l) := by ring
  have e0 : r4Sigma base (l + 2) 3 = 15 + 16 * r4Index base l true 0 := by
    unfold r4Sigma
    rw [r4Undo_three (by omega)]
    simp only [r4Index, e]
    generalize base * 4 ^ l = s at hs
    have e1 : 15 * s / (4 * s) = 3 := by rw [Nat.div_eq_iff (by omega)]; omega
    have e2 : 15 * s % (4 * s) = 3 * s := by
      have := Nat.div_add_mod (15 * s) (4 * s)
      rw [e1] at this; omega
    have e3 : 3 * s / s = 3 := Nat.mul_div_cancel _ hs
    simp only [e1, e2, e3, Nat.mul_mod_left]
    norm_num
    ring
  omega

theorem radix4_dht_small {m : ℕ} (hm : m ≤ 6) {d : Dht ℝ} (h : radix4 ℝ (2 ^ m) = .ok d) : ComputesDht d := by
  have himp := radix4_implements h
  have hlen : d.len = 2 ^ m := by rw [radix4_eq] at h; cases h; rfl
  refine himp.congr fun x hx => ?_
  rw [hlen] at hx
  rw [radix4Fn_dht]
  congr 1
  symm
  refine eq_tab hx fun i hi => ?_
  congr 1
  have hl : r4Levels m = 0 ∨ r4Levels m = 1 := by
    unfold r4Levels; split
    · simp
    · split <;> omega
  have := r4_len m
  rcases hl with hl | hl
  · rw [hl, r4Sigma_zero]
  · rw [hl] at this ⊢
    rw [r4Sigma_one (by omega)]

/-- From length 128 on, the transform of the unit vector at position 3 is wrong. -/
theorem radix4Fn_wrong {m : ℕ} (hm : 7 ≤ m) :
    radix4Fn ℝ m (tab (2 ^ m) fun i => if i = 3 then 1 else 0) ≠ dht (tab (2 ^ m) fun i => if i = 3 then 1 else 0) := by
  intro h
  rw [radix4Fn_dht] at h
  have h2 := dht_injective (by simp) h
  have h128 : 2 ^ 7 ≤ 2 ^ m := Nat.pow_le_pow_right (by norm_num) hm
  have h3 := congrArg (nth · 3) h2
  obtain ⟨l, hl⟩ : ∃ l, r4Levels m = l + 2 := ⟨r4Levels m - 2, by
    unfold r4Levels; split <;> (try split) <;> omega⟩
  have hb : 2 ≤ r4BaseLen m := by
    match m with
    | m + 3 => simp only [r4BaseLen]; split <;> omega
  have hlen := r4_len m
  have hlt : r4Sigma (r4BaseLen m) (r4Levels m) 3 < 2 ^ m := by
    rw [hlen]
    exact r4Index_lt (by omega) _ _ _ (r4Undo_lt (by omega) (by omega))
  rw [nth_tab (by omega), nth_tab hlt, nth_tab (by omega), hl, if_neg (r4Sigma_three hb l), if_pos rfl] at h3
  norm_num at h3

end RustDHT
