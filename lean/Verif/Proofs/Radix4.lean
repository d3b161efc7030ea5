import Verif.Proofs.SplitRadix
import Verif.Model.Radix4

/-! # `Radix4`: closed form and contract, for every number type -/

set_option linter.unusedSectionVars false

namespace RustDHT

variable {T : Type} [Zero T]

/-! ## `applyColumns` on longer buffers and with more twiddles -/

theorem zip_take_right {α β : Type} (l : List α) (m : List β) : l.zip m = l.zip (m.take l.length) := by
  induction l generalizing m with
  | nil => simp
  | cons a l ih => cases m <;> simp [← ih]

theorem applyColumns_take {k h : Nat} {col0 : List T → Res (List T)}
    {kernel : List (Cx T) → List T → List T → Res (List T × List T)} {twChunks : List (List (Cx T))}
    {buf : List T} :
    applyColumns k h col0 kernel twChunks buf = applyColumns k h col0 kernel (twChunks.take (h / 2)) buf := by
  unfold applyColumns
  conv_lhs => rw [zip_take_right]
  simp only [List.length_range']

theorem columnVal_congr {k h : Nat} {col0 : List T → Res (List T)}
    {kernel : List (Cx T) → List T → List T → Res (List T × List T)} {twChunks : List (List (Cx T))}
    {b b' : List T} (hb : ∀ p, p < k * h → nth b p = nth b' p) {r c : Nat} (hc : c < h) :
    columnVal k h col0 kernel twChunks b r c = columnVal k h col0 kernel twChunks b' r c := by
  have hcol : ∀ c, c < h → col k h b c = col k h b' c := by
    intro c hc
    exact tab_congr fun r hr => hb _ (pos_lt hr hc)
  unfold columnVal
  split
  · rw [hcol 0 (by omega)]
  · rw [hcol c hc, hcol (h - c) (by omega)]

theorem applyColumns_prefix {k h : Nat} {col0 : List T → Res (List T)}
    {kernel : List (Cx T) → List T → List T → Res (List T × List T)} {twChunks : List (List (Cx T))}
    (hh : 0 < h) (h0 : Total k col0) (htw : twChunks.length = h / 2)
    (hk : ∀ tw ∈ twChunks, KernelTotal k kernel tw) (buf : List T) (hl : k * h ≤ buf.length) :
    applyColumns k h col0 kernel twChunks buf
      = .ok (run (applyColumns k h col0 kernel twChunks) (buf.take (k * h)) ++ buf.drop (k * h)) := by
  obtain ⟨b', e, l, v⟩ := applyColumns_ok hh h0 htw hk buf hl
  have hl1 : (buf.take (k * h)).length = k * h := by simp; omega
  have hl2 := (applyColumns_total hh h0 htw hk).length hl1
  rw [e]
  congr 1
  refine list_ext_nth (by rw [l, List.length_append, hl2, List.length_drop]; omega) fun p hp => ?_
  rw [v p]
  by_cases hpk : p < k * h
  · rw [if_pos hpk, nth_append_left (by omega), nth_run_applyColumns hh h0 htw hk hl1 hpk]
    exact columnVal_congr (fun p hp => (nth_take hp).symm) (mod_lt_of_lt_mul hpk)
  · rw [if_neg hpk, nth_append_right (by omega), hl2, nth_drop, Nat.add_sub_cancel' (by omega)]

/-! ## The reordering -/

/-- Where `prepare_radix4` (`rev = false`) and `prepare_radix4_reversed` (`rev = true`), with `l` levels above the base
case, take the value of output position `p` from. -/
def r4Index (base : Nat) : Nat → Bool → Nat → Nat
  | 0, rev, p => if rev then base - p - 1 else p
  | l + 1, rev, p =>
    let s := base * 4 ^ l
    let i := p / s
    let childRev := if i = 0 then false else if i = 3 then true else rev
    i + 4 * r4Index base l childRev (p % s)

theorem r4Index_lt {base : Nat} (hb : 0 < base) (l : Nat) (rev : Bool) (p : Nat) (hp : p < base * 4 ^ l) :
    r4Index base l rev p < base * 4 ^ l := by
  induction l generalizing rev p with
  | zero =>
    simp only [r4Index]
    split
    · simp at hp ⊢; omega
    · exact hp
  | succ l ih =>
    have hs : 0 < base * 4 ^ l := by positivity
    have hp' : p < 4 * (base * 4 ^ l) := by rw [pow_succ] at hp; linarith
    have h1 := ih (if p / (base * 4 ^ l) = 0 then false else if p / (base * 4 ^ l) = 3 then true else rev)
      (p % (base * 4 ^ l)) (Nat.mod_lt _ hs)
    have h2 : p / (base * 4 ^ l) < 4 := (Nat.div_lt_iff_lt_mul hs).2 hp'
    simp only [r4Index]
    rw [pow_succ]
    generalize r4Index base l _ _ = z at h1 ⊢
    generalize p / (base * 4 ^ l) = y at h2 ⊢
    have : base * (4 ^ l * 4) = 4 * (base * 4 ^ l) := by ring
    rw [this]
    omega

theorem prepareRadix4_ok {base : Nat} (hb : 0 < base) (l : Nat) (rev : Bool) (stride : Nat) (input output : List T)
    (hin : (base * 4 ^ l - 1) * stride < input.length) (hout : base * 4 ^ l ≤ output.length) :
    prepareRadix4 rev (base * 4 ^ l) base input output stride
      = .ok (tab (base * 4 ^ l) (fun p => nth input (r4Index base l rev p * stride)) ++ output.drop (base * 4 ^ l)) := by
  induction l generalizing rev stride input output with
  | zero =>
    rw [prepareRadix4, if_pos (by simp)]
    simp only [pow_zero, Nat.mul_one] at hin hout ⊢
    obtain ⟨b', e, hl, hv⟩ := forRange_ok (lo := 0) (hi := base) (s := output)
      (body := fun i output => do
        let v ← getU input ((if rev then base - i - 1 else i) * stride)
        setU output i v)
      (fun i b => b.length = output.length ∧ ∀ p, nth b p =
        if p < i then nth input (r4Index base 0 rev p * stride) else nth output p)
      (by omega) ⟨rfl, fun p => by rw [if_neg (by omega)]⟩
      (by
        rintro i b _ hi ⟨hl, hv⟩
        have hidx : (if rev then base - i - 1 else i) * stride < input.length := by
          refine lt_of_le_of_lt (Nat.mul_le_mul_right _ ?_) hin
          split <;> omega
        refine ⟨b.set i (nth input ((if rev then base - i - 1 else i) * stride)), ?_, by simpa using hl, fun p => ?_⟩
        · rw [getU_nth hidx, ok_bind, setU_ok (by omega)]
        · rw [nth_set (by omega), hv p]
          by_cases hpi : p = i
          · subst hpi
            rw [if_pos (rfl : p = p), if_pos (show p < p + 1 by omega)]; rfl
          · rw [if_neg hpi]
            by_cases hlt : p < i
            · rw [if_pos hlt, if_pos (by omega)]
            · rw [if_neg hlt, if_neg (by omega)])
    rw [e]
    congr 1
    refine list_ext_nth (by simp [hl]; omega) fun p hp => ?_
    rw [hv p]
    by_cases hlt : p < base
    · rw [if_pos hlt, nth_append_left (by simpa using hlt), nth_tab hlt]
    · rw [if_neg hlt, nth_append_right (by simp; omega), length_tab, nth_drop, Nat.add_sub_cancel' (by omega)]
  | succ l ih =>
    obtain ⟨s, hs⟩ : ∃ s, base * 4 ^ l = s := ⟨_, rfl⟩
    have hs4 : base * 4 ^ (l + 1) = 4 * s := by rw [pow_succ, ← hs]; ring
    have hspos : 0 < s := by rw [← hs]; positivity
    have hbs : base ≤ s := by rw [← hs]; exact Nat.le_mul_of_pos_right _ (by positivity)
    rw [hs] at ih
    rw [hs4] at hin hout ⊢
    rw [prepareRadix4, if_neg (by omega), dif_neg (by omega)]
    simp only [show 4 * s / 4 = s by omega]
    have hst : ∀ i, i ≤ 3 → i * stride ≤ input.length := by
      intro i hi
      have : i * stride ≤ (4 * s - 1) * stride := Nat.mul_le_mul_right _ (by omega)
      omega
    have hin' : ∀ i, i ≤ 3 → (s - 1) * (stride * 4) < (input.drop (i * stride)).length := by
      intro i hi
      rw [List.length_drop]
      have : (s - 1) * (stride * 4) + i * stride ≤ (4 * s - 1) * stride := by
        rw [show (s - 1) * (stride * 4) + i * stride = (4 * (s - 1) + i) * stride by ring]
        exact Nat.mul_le_mul_right _ (by omega)
      omega
    have hchild : ∀ i r (o : List T), i ≤ 3 → o.length = output.length →
        (if i * stride ≤ input.length then
          if i * s ≤ o.length then do
            let tail ← prepareRadix4 r s base (input.drop (i * stride)) (o.drop (i * s)) (stride * 4)
            .ok (o.take (i * s) ++ tail)
          else panic .index
        else panic .index)
        = .ok (o.take (i * s) ++ (tab s (fun p => nth input ((i + 4 * r4Index base l r p) * stride)) ++
            o.drop ((i + 1) * s))) := by
      intro i r o hi ho
      have : i * s ≤ 3 * s := Nat.mul_le_mul_right _ hi
      rw [if_pos (hst i hi), if_pos (by omega), ih r (stride * 4) _ _ (hin' i hi)
        (by rw [List.length_drop]; omega), ok_bind, List.drop_drop]
      rw [show i * s + s = (i + 1) * s by ring]
      congr 3
      apply tab_congr
      intro p hp
      rw [nth_drop]; congr 1; ring
    have e0 := hchild 0 false output (by omega) rfl
    set t0 := tab s (fun p => nth input ((0 + 4 * r4Index base l false p) * stride)) with ht0
    set t1 := tab s (fun p => nth input ((1 + 4 * r4Index base l rev p) * stride)) with ht1
    set t2 := tab s (fun p => nth input ((2 + 4 * r4Index base l rev p) * stride)) with ht2
    set t3 := tab s (fun p => nth input ((3 + 4 * r4Index base l true p) * stride)) with ht3
    have l0 : t0.length = s := length_tab _ _
    have l1 : t1.length = s := length_tab _ _
    have l2 : t2.length = s := length_tab _ _
    have l3 : t3.length = s := length_tab _ _
    have e1 := hchild 1 rev (t0 ++ output.drop s) (by omega) (by simp [l0]; omega)
    have e2 := hchild 2 rev (t0 ++ (t1 ++ output.drop (2 * s))) (by omega) (by simp [l0, l1]; omega)
    have e3 := hchild 3 true (t0 ++ (t1 ++ (t2 ++ output.drop (3 * s)))) (by omega) (by simp [l0, l1, l2]; omega)
    have f0 : output.take (0 * s) ++ (t0 ++ output.drop ((0 + 1) * s)) = t0 ++ output.drop s := by simp
    have f1 : (t0 ++ output.drop s).take (1 * s) ++ (t1 ++ (t0 ++ output.drop s).drop ((1 + 1) * s))
        = t0 ++ (t1 ++ output.drop (2 * s)) := by
      rw [Nat.one_mul, List.take_left' l0, List.drop_append, l0, List.drop_eq_nil_of_le (by omega), List.drop_drop]
      simp; omega
    have f2 : (t0 ++ (t1 ++ output.drop (2 * s))).take (2 * s) ++
        (t2 ++ (t0 ++ (t1 ++ output.drop (2 * s))).drop ((2 + 1) * s)) = t0 ++ (t1 ++ (t2 ++ output.drop (3 * s))) := by
      rw [← List.append_assoc t0, List.take_left' (by simp [l0, l1]; omega), List.drop_append,
        List.drop_eq_nil_of_le (by simp [l0, l1]; omega), List.drop_drop]
      simp [l0, l1]; congr 1; omega
    have f3 : (t0 ++ (t1 ++ (t2 ++ output.drop (3 * s)))).take (3 * s) ++
        (t3 ++ (t0 ++ (t1 ++ (t2 ++ output.drop (3 * s)))).drop ((3 + 1) * s))
        = t0 ++ (t1 ++ (t2 ++ (t3 ++ output.drop (4 * s)))) := by
      rw [← List.append_assoc t1, ← List.append_assoc t0, List.take_left' (by simp [l0, l1, l2]; omega), List.drop_append,
        List.drop_eq_nil_of_le (by simp [l0, l1, l2]; omega), List.drop_drop]
      simp [l0, l1, l2]; congr 1; omega
    rw [f0] at e0
    rw [f1] at e1
    rw [f2] at e2
    rw [f3] at e3
    rw [e0, ok_bind, e1, ok_bind, e2, ok_bind, e3]
    congr 1
    rw [← List.append_assoc t2, ← List.append_assoc t1, ← List.append_assoc t0]
    congr 1
    have hd : ∀ i q, q < s → (i * s + q) / s = i := fun i q hq => div_of_lt hq
    have hm : ∀ i q, q < s → (i * s + q) % s = q := fun i q hq => mod_of_lt hq
    refine eq_tab (by simp [l0, l1, l2, l3]; omega) fun p hp => ?_
    simp only [r4Index, hs]
    have hq : p % s < s := Nat.mod_lt _ hspos
    have hi4 : p / s < 4 := (Nat.div_lt_iff_lt_mul hspos).2 hp
    have hpeq := div_mod_eq s p
    generalize p % s = q at hq hpeq ⊢
    generalize p / s = i at hi4 hpeq ⊢
    subst hpeq
    have : i = 0 ∨ i = 1 ∨ i = 2 ∨ i = 3 := by omega
    rcases this with rfl | rfl | rfl | rfl
    · rw [nth_append_left (by omega), ht0, Nat.zero_mul, Nat.zero_add, nth_tab hq]; simp
    · rw [nth_append_right (by omega), nth_append_left (by omega), l0, ht1,
        show 1 * s + q - s = q by omega, nth_tab hq]; simp
    · rw [nth_append_right (by omega), nth_append_right (by omega), nth_append_left (by omega), l0, l1, ht2,
        show 2 * s + q - s - s = q by omega, nth_tab hq]; simp
    · rw [nth_append_right (by omega), nth_append_right (by omega), nth_append_right (by omega), l0, l1, l2, ht3,
        show 3 * s + q - s - s - s = q by omega, nth_tab hq]; simp

/-! ## The cross layers -/

variable [Add T] [Sub T] [Mul T] [Neg T] [FftNum T]

/-- The twiddle chunks of the layer with `h` columns in a transform of length `4 * h * t`. -/
def r4Chunks (T : Type) [FftNum T] (h t : Nat) : List (List (Cx T)) :=
  (List.range' 1 (h / 2)).map fun c =>
    [computeDftTwiddleInverse T (c * 1 * t) (4 * h * t), computeDftTwiddleInverse T (c * 2 * t) (4 * h * t)]

/-- One `butterfly_4` on a block of length `4 * h`. -/
def r4Apply (T : Type) [Add T] [Sub T] [Mul T] [FftNum T] (h t : Nat) : List T → Res (List T) :=
  applyColumns 4 h (performInPlace contiguous4) mr4Kernel (r4Chunks T h t)

theorem r4Chunks_total {h t : Nat} : ∀ tw ∈ r4Chunks T h t, KernelTotal 4 mr4Kernel tw :=
  mem_map_range fun _ => mr4Kernel_total _ _

theorem r4Apply_total {h t : Nat} (hh : 0 < h) : Total (4 * h) (r4Apply T h t) :=
  applyColumns_total hh (total_of_performs performs4) (by simp [r4Chunks]) r4Chunks_total

/-- The layers of block length `4 * h`, `16 * h`, ..., `4 ^ l * h`. -/
def r4Layers (T : Type) [Add T] [Sub T] [Mul T] [FftNum T] : Nat → Nat → List T → List T
  | _, 0, x => x
  | h, l + 1, x => r4Layers T (4 * h) l (mapChunks (4 * h) (run (r4Apply T h (4 ^ l))) x)

theorem radix4Twiddles_succ {len h l : Nat} (hlen : len = h * 4 ^ (l + 1)) :
    radix4Twiddles T len (4 ^ l)
      = ((List.range' 1 (h - 1)).flatMap fun i =>
          [computeDftTwiddleInverse T (i * 1 * 4 ^ l) len, computeDftTwiddleInverse T (i * 2 * 4 ^ l) len])
        ++ radix4Twiddles T len (4 ^ l / 4) := by
  have hpos : 0 < 4 ^ l := by positivity
  rw [radix4Twiddles, dif_pos hpos]
  simp only
  have : len / (4 ^ l * 4) = h := by
    rw [hlen, ← pow_succ, Nat.mul_div_cancel _ (by positivity)]
  rw [this]
  rfl

theorem chunksExactAux_append {α : Type} {n : Nat} {l m : List α} (hd : n ∣ l.length) :
    chunksExactAux n (l ++ m) = chunksExactAux n l ++ chunksExactAux n m := by
  rcases Nat.eq_zero_or_pos n with rfl | hn
  · have : l = [] := List.length_eq_zero_iff.1 (by simpa using hd)
    subst this
    conv_rhs => rw [chunksExactAux]
    simp
  induction hk : l.length using Nat.strongRecOn generalizing l with
  | ind k ih =>
    by_cases hl : l.length < n
    · have h0 : l.length = 0 := Nat.eq_zero_of_dvd_of_lt hd hl
      have : l = [] := List.length_eq_zero_iff.1 h0
      subst this
      conv_rhs => rw [chunksExactAux]
      simp
    · rw [chunksExactAux, if_neg (by omega), if_pos (by simp; omega)]
      conv_rhs => rw [chunksExactAux, if_neg (by omega), if_pos (by omega)]
      rw [List.take_append_of_le_length (by omega), List.drop_append_of_le_length (by omega),
        ih (l.drop n).length (by simp; omega) (by rw [List.length_drop]; exact Nat.dvd_sub hd (dvd_refl n)) rfl]
      rfl

theorem take_range' {s n k : Nat} (h : k ≤ n) : (List.range' s n).take k = List.range' s k := by
  apply List.ext_getElem
  · simp; omega
  · intro i h1 h2; simp

theorem radix4Twiddles_chunks {len h l : Nat} (hh : 2 ≤ h) (hlen : len = h * 4 ^ (l + 1)) :
    (chunksExactAux 2 (radix4Twiddles T len (4 ^ l))).take (h / 2) = r4Chunks T h (4 ^ l) := by
  have hl : len = 4 * h * 4 ^ l := by rw [hlen, pow_succ]; ring
  rw [radix4Twiddles_succ hlen, chunksExactAux_append (by simp [List.length_flatMap]),
    chunks_pairs, List.take_append_of_le_length (by simp; omega), ← List.map_take, take_range' (by omega), r4Chunks, hl]

theorem length_r4Layers {h l : Nat} (hh : 0 < h) (x : List T) : (r4Layers T h l x).length = x.length := by
  induction l generalizing h x with
  | zero => rfl
  | succ l ih =>
    rw [r4Layers, ih (by omega), length_mapChunks (by omega) (fun y hy => (r4Apply_total hh).length hy)]

theorem radix4Layers_ok {len h l : Nat} (hh : 2 ≤ h) (hlen : len = h * 4 ^ l) {tw : List (Cx T)}
    (htw : 0 < l → tw = radix4Twiddles T len (4 ^ (l - 1))) {out : List T} (ho : out.length = len) :
    radix4Layers len (h * 4) tw out = .ok (r4Layers T h l out) := by
  induction l generalizing h tw out with
  | zero =>
    rw [radix4Layers, dif_neg (by simp at hlen; omega)]
    rfl
  | succ l ih =>
    have htw' := htw (by omega)
    rw [Nat.add_sub_cancel] at htw'
    have hpow : 0 < 4 ^ l := by positivity
    have hle : h * 4 ≤ len := by
      rw [hlen, pow_succ, Nat.mul_comm (4 ^ l), ← Nat.mul_assoc]
      exact Nat.le_mul_of_pos_right _ hpow
    have hrows : len / (h * 4) = 4 ^ l := by
      rw [hlen, pow_succ, Nat.mul_comm (4 ^ l), ← Nat.mul_assoc, Nat.mul_div_cancel_left _ (by omega)]
    have hlen' : len = 4 ^ l * (4 * h) := by rw [hlen, pow_succ]; ring
    have htot := r4Apply_total (T := T) (t := 4 ^ l) (show 0 < h by omega)
    have hloop : forRange 0 (4 ^ l) out (fun i output => do
        let (front, data) ← splitAt output (i * (h * 4))
        let data ← radix4Butterfly4 data tw (h * 4 / 4)
        .ok (front ++ data)) = .ok (mapChunks (4 * h) (run (r4Apply T h (4 ^ l))) out) := by
      obtain ⟨b, e, hb⟩ := forRange_ok (lo := 0) (hi := 4 ^ l) (s := out)
        (body := fun i output => do
          let (front, data) ← splitAt output (i * (h * 4))
          let data ← radix4Butterfly4 data tw (h * 4 / 4)
          .ok (front ++ data))
        (fun i b => b = mapChunks (4 * h) (run (r4Apply T h (4 ^ l))) (out.take (i * (4 * h))) ++ out.drop (i * (4 * h)))
        (by omega) (by simp [mapChunks_nil])
        (by
          rintro i b _ hi rfl
          have hi' : (i + 1) * (4 * h) ≤ out.length := by
            rw [ho, hlen']; exact Nat.mul_le_mul_right _ hi
          have hi'' : i * (4 * h) + 4 * h ≤ out.length := by
            rw [Nat.add_mul] at hi'; omega
          have hlm : (mapChunks (4 * h) (run (r4Apply T h (4 ^ l))) (out.take (i * (4 * h)))).length = i * (4 * h) := by
            rw [length_mapChunks (by omega) (fun y hy => htot.length hy)]; simp; omega
          have hld : 4 * h ≤ (out.drop (i * (4 * h))).length := by rw [List.length_drop]; omega
          refine ⟨_, ?_, rfl⟩
          rw [Nat.mul_comm h 4, splitAt_ok (by rw [List.length_append, hlm]; omega), ok_bind]
          simp only
          rw [List.take_left' hlm, List.drop_left' hlm, Nat.mul_div_cancel_left _ (show 0 < 4 by omega),
            radix4Butterfly4, applyColumns_take, htw', radix4Twiddles_chunks hh hlen,
            applyColumns_prefix (by omega) (total_of_performs performs4) (by simp [r4Chunks]) r4Chunks_total _ hld, ok_bind]
          congr 1
          rw [Nat.add_mul, Nat.one_mul, List.take_add, mapChunks_append (by simp; rw [Nat.min_eq_left (by omega)]; exact dvd_mul_left _ _),
            mapChunks_single (l := (out.drop (i * (4 * h))).take (4 * h)) (by omega) (by rw [List.length_take]; omega),
            List.append_assoc, List.drop_drop]
          rfl)
      rw [e, hb]
      have : 4 ^ l * (4 * h) = out.length := by rw [ho, hlen']
      rw [this, List.take_length, List.drop_length, List.append_nil]
    rw [radix4Layers, dif_pos hle, dif_neg (by omega)]
    simp only [hrows]
    rw [hloop, ok_bind, if_neg (by omega)]
    have hoff : h * 4 * 2 / 4 - 2 = 2 * (h - 1) := by omega
    have hsplit := radix4Twiddles_succ (T := T) hlen
    set A := (List.range' 1 (h - 1)).flatMap fun i =>
      [computeDftTwiddleInverse T (i * 1 * 4 ^ l) len, computeDftTwiddleInverse T (i * 2 * 4 ^ l) len] with hA
    have lA : A.length = 2 * (h - 1) := by rw [hA]; simp [List.length_flatMap]; omega
    rw [hoff, htw', hsplit, splitAt_ok (by simp; omega), ok_bind, List.take_left' lA, List.drop_left' lA]
    simp only
    rw [Nat.mul_comm h 4]
    refine ih (h := 4 * h) (by omega) (by rw [hlen, pow_succ]; ring) ?_ ?_
    · intro hl
      obtain ⟨k, rfl⟩ : ∃ k, l = k + 1 := ⟨l - 1, by omega⟩
      rw [Nat.add_sub_cancel, pow_succ, Nat.mul_div_cancel _ (by omega)]
    · rw [length_mapChunks (by omega) (fun y hy => htot.length hy), ho]

/-! ## The whole algorithm -/

/-- The chunk transform of `Radix4` for length `base * 4 ^ l`. -/
def r4Fn (T : Type) [Zero T] [Add T] [Sub T] [Mul T] [FftNum T] (base l : Nat) (fb : List T → List T)
    (x : List T) : List T :=
  r4Layers T base l (mapChunks base fb (tab (base * 4 ^ l) fun p => nth x (r4Index base l false p)))

theorem trailingZeros_two_pow (m : Nat) : trailingZeros (2 ^ m) = m := by
  induction m with
  | zero => rw [trailingZeros]; simp
  | succ m ih =>
    rw [trailingZeros, dif_neg (by rw [pow_succ]; have := Nat.two_pow_pos m; omega), pow_succ,
      Nat.mul_div_cancel _ (by omega), ih]

theorem isPowerOfTwo_iff (n : Nat) : isPowerOfTwo n = true ↔ ∃ m, n = 2 ^ m := by
  constructor
  · intro h
    simp only [isPowerOfTwo, Bool.and_eq_true, beq_iff_eq] at h
    exact ⟨_, h.2⟩
  · rintro ⟨m, rfl⟩
    simp [isPowerOfTwo, trailingZeros_two_pow]

/-- The chunk transform of the base butterfly. -/
def r4BaseFn (T : Type) [Add T] [Sub T] [Mul T] [FftNum T] (m : Nat) : List T → List T :=
  match m with
  | 0 => id
  | 1 => bflyFn contiguous2
  | 2 => bflyFn contiguous4
  | m => if m % 2 = 1 then bflyFn contiguous8 else bflyFn contiguous16

/-- Length of the base butterfly for length `2 ^ m`. -/
def r4BaseLen (m : Nat) : Nat :=
  match m with
  | 0 => 1
  | 1 => 2
  | 2 => 4
  | m => if m % 2 = 1 then 8 else 16

/-- Number of layers for length `2 ^ m`. -/
def r4Levels (m : Nat) : Nat := if m < 3 then 0 else if m % 2 = 1 then (m - 3) / 2 else (m - 4) / 2

theorem r4_len (m : Nat) : 2 ^ m = r4BaseLen m * 4 ^ r4Levels m := by
  have h4 : ∀ k, 4 ^ k = 2 ^ (2 * k) := fun k => by rw [pow_mul]; norm_num
  match m with
  | 0 => rfl
  | 1 => rfl
  | 2 => rfl
  | m + 3 =>
    simp only [r4BaseLen, r4Levels, h4]
    by_cases hm : (m + 3) % 2 = 1
    · rw [if_pos hm, if_neg (by omega), if_pos hm, show 8 = 2 ^ 3 by norm_num, ← pow_add]; congr 1; omega
    · rw [if_neg hm, if_neg (by omega), if_neg hm, show 16 = 2 ^ 4 by norm_num, ← pow_add]; congr 1; omega

theorem radix4Base_eq (m : Nat) : (radix4Base T (2 ^ m)).1 = r4BaseLen m ∧ (radix4Base T (2 ^ m)).2.len = r4BaseLen m ∧
    (radix4Base T (2 ^ m)).2.inplaceScratchLen = 0 ∧
    Implements (radix4Base T (2 ^ m)).2 (r4BaseFn T m) := by
  unfold radix4Base
  rw [trailingZeros_two_pow]
  match m with
  | 0 => exact ⟨rfl, rfl, rfl, butterfly1_implements⟩
  | 1 => exact ⟨rfl, rfl, rfl, butterfly2_implements⟩
  | 2 => exact ⟨rfl, rfl, rfl, butterfly4_implements⟩
  | m + 3 =>
    simp only [r4BaseFn, r4BaseLen]
    by_cases hm : (m + 3) % 2 = 1
    · simp only [hm, if_true]; exact ⟨trivial, rfl, rfl, butterfly8_implements⟩
    · simp only [hm, if_false]; exact ⟨trivial, rfl, rfl, butterfly16_implements⟩

/-- The chunk transform of `Radix4` for length `2 ^ m`. -/
def radix4Fn (T : Type) [Zero T] [Add T] [Sub T] [Mul T] [FftNum T] (m : Nat) : List T → List T :=
  r4Fn T (r4BaseLen m) (r4Levels m) (r4BaseFn T m)

theorem r4BaseLen_pos (m : Nat) : 0 < r4BaseLen m := by
  unfold r4BaseLen; split <;> (try split) <;> omega

theorem radix4_performs (m : Nat) :
    Performs (2 ^ m) (2 ^ m) 0 (radix4Fn T m)
      (radix4PerformInplace (radix4Base T (2 ^ m)).2 (radix4Base T (2 ^ m)).1 (2 ^ m)
        (radix4Twiddles T (2 ^ m) (2 ^ m / ((radix4Base T (2 ^ m)).1 * 4))))
      (radix4PerformOop (radix4Base T (2 ^ m)).2 (radix4Base T (2 ^ m)).1 (2 ^ m)
        (radix4Twiddles T (2 ^ m) (2 ^ m / ((radix4Base T (2 ^ m)).1 * 4)))) := by
  obtain ⟨hb1, hb2, hb3, hb4⟩ := radix4Base_eq (T := T) m
  rw [hb1]
  have hbpos := r4BaseLen_pos m
  have hlen := r4_len m
  have hlb := hb4.length
  rw [hb2] at hlb
  set d := (radix4Base T (2 ^ m)).2 with hd
  set tw := radix4Twiddles T (2 ^ m) (2 ^ m / (r4BaseLen m * 4)) with htw
  have h0 : ∀ x : List T, (tab (2 ^ m) fun p => nth x (r4Index (r4BaseLen m) (r4Levels m) false p)).length = 2 ^ m :=
    fun x => length_tab _ _
  have h1 : ∀ x : List T, (mapChunks (r4BaseLen m) (r4BaseFn T m)
      (tab (2 ^ m) fun p => nth x (r4Index (r4BaseLen m) (r4Levels m) false p))).length = 2 ^ m := fun x => by
    rw [length_mapChunks hbpos hlb, length_tab]
  have hgl : ∀ x : List T, (radix4Fn T m x).length = 2 ^ m := fun x => by
    rw [radix4Fn, r4Fn, length_r4Layers hbpos, ← hlen, h1]
  have hlayers : ∀ out : List T, out.length = 2 ^ m →
      radix4Layers (2 ^ m) (r4BaseLen m * 4) tw out = .ok (r4Layers T (r4BaseLen m) (r4Levels m) out) := by
    intro out ho
    by_cases hm : m < 3
    · have hl0 : r4Levels m = 0 := by rw [r4Levels, if_pos hm]
      rw [radix4Layers, dif_neg (by rw [hlen, hl0]; omega), hl0]
      rfl
    · have hb8 : 2 ≤ r4BaseLen m := by
        unfold r4BaseLen
        split
        · omega
        · omega
        · omega
        · split <;> omega
      refine radix4Layers_ok hb8 hlen ?_ ho
      intro hl
      obtain ⟨k, hk⟩ : ∃ k, r4Levels m = k + 1 := ⟨r4Levels m - 1, by omega⟩
      rw [htw, hk, Nat.add_sub_cancel]
      congr 1
      rw [hlen, hk, pow_succ, Nat.mul_comm (4 ^ k), ← Nat.mul_assoc, Nat.mul_div_cancel_left _ (by omega)]
  have hoop : ∀ inp out s : List T, inp.length = 2 ^ m → out.length = 2 ^ m →
      radix4PerformOop d (r4BaseLen m) (2 ^ m) tw inp out s = .ok (inp, radix4Fn T m inp, s) := by
    intro inp out s hi ho
    unfold radix4PerformOop
    have hprep := prepareRadix4_ok hbpos (r4Levels m) false 1 inp out
      (by rw [← hlen, hi]; have := Nat.two_pow_pos m; omega) (by rw [← hlen, ho])
    rw [← hlen] at hprep
    simp only [Nat.mul_one] at hprep
    rw [hprep, ok_bind, List.drop_eq_nil_of_le (by omega), List.append_nil]
    obtain ⟨s', e, _, _⟩ := hb4.inplace (tab (2 ^ m) fun p => nth inp (r4Index (r4BaseLen m) (r4Levels m) false p)) []
      (by rw [h0, hb2, hlen]; exact Nat.le_mul_of_pos_right _ (by positivity))
      (by rw [h0, hb2, hlen]; exact dvd_mul_right _ _) (by rw [hb3]; exact Nat.zero_le _)
    rw [hb2] at e
    rw [e, ok_bind]
    simp only
    rw [hlayers _ (h1 inp), ok_bind, radix4Fn, r4Fn, ← hlen]
  refine ⟨fun x _ => hgl x, ?_, ?_⟩
  · intro c s hc hs
    refine ⟨c, ?_, hc⟩
    unfold radix4PerformInplace
    rw [if_pos (by omega), ok_bind, hoop c c [] hc hc, ok_bind]
  · intro i o s hi ho hs
    exact ⟨i, s, hoop i o s hi ho, hi, hs⟩

theorem radix4_eq (m : Nat) : radix4 T (2 ^ m) = .ok (boilerplateDht (2 ^ m) (2 ^ m) 0
    (radix4PerformInplace (radix4Base T (2 ^ m)).2 (radix4Base T (2 ^ m)).1 (2 ^ m)
      (radix4Twiddles T (2 ^ m) (2 ^ m / ((radix4Base T (2 ^ m)).1 * 4))))
    (radix4PerformOop (radix4Base T (2 ^ m)).2 (radix4Base T (2 ^ m)).1 (2 ^ m)
      (radix4Twiddles T (2 ^ m) (2 ^ m / ((radix4Base T (2 ^ m)).1 * 4))))) := by
  unfold radix4
  rw [(isPowerOfTwo_iff _).2 ⟨m, rfl⟩, assert_true, ok_bind]

theorem radix4_isPow {n : Nat} {d : Dht T} (h : radix4 T n = .ok d) : ∃ m, n = 2 ^ m := by
  rw [← isPowerOfTwo_iff]
  by_contra hc
  rw [Bool.not_eq_true] at hc
  unfold radix4 at h
  rw [hc, assert_false, panic_bind] at h
  cases h

theorem radix4_implements {m : Nat} {d : Dht T} (h : radix4 T (2 ^ m) = .ok d) : Implements d (radix4Fn T m) := by
  rw [radix4_eq] at h
  cases h
  exact boilerplateDht_implements (fun _ => radix4_performs m) (fun h => by
    have := Nat.two_pow_pos m; omega)

theorem radix4_rejects {m : Nat} {d : Dht T} (h : radix4 T (2 ^ m) = .ok d) : Rejects d := by
  rw [radix4_eq] at h
  cases h
  exact boilerplateDht_rejects (Nat.two_pow_pos m) (radix4_performs m)

end RustDHT
