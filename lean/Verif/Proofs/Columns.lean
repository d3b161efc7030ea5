import Verif.Proofs.ArrayUtils
import Verif.Proofs.Leaves
import Verif.Model.MixedRadixN

/-! # `apply_twiddles` of `MixedRadixNxn`: closed form, for every number type -/

set_option linter.unusedSectionVars false

namespace RustDHT

variable {T : Type} [Zero T]

/-- Column `c` of the first `k` rows of length `h`. -/
def col (k h : Nat) (buf : List T) (c : Nat) : List T := tab k fun r => nth buf (r * h + c)

@[simp] theorem length_col {k h c : Nat} {buf : List T} : (col k h buf c).length = k := by simp [col]

theorem nth_col {k h c r : Nat} {buf : List T} (hr : r < k) : nth (col k h buf c) r = nth buf (r * h + c) := by
  rw [col, nth_tab hr]

theorem getCol_ok {k h c : Nat} {buf : List T} (hc : c < h) (hl : k * h ≤ buf.length) :
    getCol k h buf c = .ok (col k h buf c) := by
  unfold getCol col tab
  apply mapM_ok
  intro r hr
  rw [List.mem_range] at hr
  have := pos_lt hr hc
  rw [rowGet, if_pos hc, getI_nth (by omega)]

theorem setCol_ok {h c : Nat} (hc : c < h) (vals : List T) (r : Nat) (buf : List T)
    (hl : (r + vals.length) * h ≤ buf.length) :
    ∃ buf', setCol h c r vals buf = .ok buf' ∧ buf'.length = buf.length ∧
      ∀ p, nth buf' p = if p % h = c ∧ r ≤ p / h ∧ p / h < r + vals.length
        then nth vals (p / h - r) else nth buf p := by
  induction vals generalizing r buf with
  | nil =>
    refine ⟨buf, rfl, rfl, fun p => ?_⟩
    rw [if_neg]; simp
  | cons v vs ih =>
    have hpos : r * h + c < buf.length := by
      have := pos_lt (w := r + (v :: vs).length) (h := h) (c := r) (q := c) (by simp) hc
      omega
    obtain ⟨b, e, hb, hv⟩ := ih (r + 1) (buf.set (r * h + c) v) (by
      simp only [List.length_set, List.length_cons] at hl ⊢
      rw [show r + 1 + vs.length = r + (vs.length + 1) by omega]; exact hl)
    refine ⟨b, ?_, by simpa using hb, fun p => ?_⟩
    · rw [setCol, rowSet, if_pos hc, setI_ok hpos, ok_bind, e]
    · rw [hv p, nth_set hpos]
      have hpe := div_mod_eq h p
      by_cases h1 : p % h = c
      · by_cases h2 : p / h = r
        · have : p = r * h + c := by rw [← hpe, h1, h2]
          rw [if_neg (by omega), if_pos this, if_pos (by simp; omega), h2]
          simp [nth]
        · have : p ≠ r * h + c := by
            intro h3
            apply h2
            rw [h3, div_of_lt hc]
          rw [if_neg this]
          by_cases h4 : r + 1 ≤ p / h ∧ p / h < r + 1 + vs.length
          · rw [if_pos ⟨h1, h4⟩, if_pos ⟨h1, by omega, by simp; omega⟩]
            rw [show p / h - r = (p / h - (r + 1)) + 1 by omega]
            simp [nth]
          · rw [if_neg (by tauto), if_neg (by simp; omega)]
      · have : p ≠ r * h + c := by
          intro h3
          apply h1
          rw [h3, mod_of_lt hc]
        rw [if_neg (by tauto), if_neg this, if_neg (by tauto)]

/-- The result of a kernel that succeeds. -/
def runK (kernel : List (Cx T) → List T → List T → Res (List T × List T)) (tw : List (Cx T)) (fwd rev : List T) :
    List T × List T :=
  match kernel tw fwd rev with
  | .ok r => r
  | .error _ => (fwd, rev)

/-- The kernel succeeds on all columns of length `k`, for the twiddle chunk `tw`. -/
def KernelTotal (k : Nat) (kernel : List (Cx T) → List T → List T → Res (List T × List T)) (tw : List (Cx T)) : Prop :=
  ∀ fwd rev, fwd.length = k → rev.length = k →
    ∃ a b, kernel tw fwd rev = .ok (a, b) ∧ a.length = k ∧ b.length = k

theorem KernelTotal.eq {k : Nat} {kernel : List (Cx T) → List T → List T → Res (List T × List T)} {tw : List (Cx T)}
    (h : KernelTotal k kernel tw) {fwd rev : List T} (hf : fwd.length = k) (hr : rev.length = k) :
    kernel tw fwd rev = .ok (runK kernel tw fwd rev) ∧ (runK kernel tw fwd rev).1.length = k ∧
      (runK kernel tw fwd rev).2.length = k := by
  obtain ⟨a, b, e, h1, h2⟩ := h fwd rev hf hr
  simp [runK, e, h1, h2]

/-- Value at column `c`, row `r` after the twiddle step. -/
def columnVal (k h : Nat) (col0 : List T → Res (List T))
    (kernel : List (Cx T) → List T → List T → Res (List T × List T)) (twChunks : List (List (Cx T)))
    (buf : List T) (r c : Nat) : T :=
  if c = 0 then nth (run col0 (col k h buf 0)) r
  else if 2 * c < h then nth (runK kernel (twChunks[c - 1]?.getD []) (col k h buf c) (col k h buf (h - c))).1 r
  else nth (runK kernel (twChunks[h - c - 1]?.getD []) (col k h buf (h - c)) (col k h buf c)).2 r

theorem applyColumns_ok {k h : Nat} {col0 : List T → Res (List T)}
    {kernel : List (Cx T) → List T → List T → Res (List T × List T)} {twChunks : List (List (Cx T))}
    (hh : 0 < h) (h0 : Total k col0) (htw : twChunks.length = h / 2)
    (hk : ∀ tw ∈ twChunks, KernelTotal k kernel tw) (buf : List T) (hl : k * h ≤ buf.length) :
    ∃ buf', applyColumns k h col0 kernel twChunks buf = .ok buf' ∧ buf'.length = buf.length ∧
      ∀ p, nth buf' p = if p < k * h then columnVal k h col0 kernel twChunks buf (p / h) (p % h)
        else nth buf p := by
  have hdiv : ¬ buf.length / h < k := by
    rw [not_lt, Nat.le_div_iff_mul_le hh]; exact hl
  have hplt : ∀ p, p < k * h ↔ p / h < k := by
    intro p; exact (Nat.div_lt_iff_lt_mul hh).symm
  have hc0 := h0.length (l := col k h buf 0) (by simp)
  obtain ⟨b0, e0, l0, v0⟩ := setCol_ok hh (run col0 (col k h buf 0)) 0 buf (by rw [hc0]; simpa using hl)
  have hv0 : ∀ p, nth b0 p = if p % h = 0 ∧ p / h < k then nth (run col0 (col k h buf 0)) (p / h)
      else nth buf p := by
    intro p; rw [v0 p, hc0]; simp
  have hkeys : ((List.range' 1 (h / 2)).zip twChunks).length = h / 2 := by simp [htw]
  obtain ⟨b', e', l', v'⟩ := forList_ok (xs := (List.range' 1 (h / 2)).zip twChunks) (s := b0)
    (body := fun (column, tw) buf => do
      let fwd ← getCol k h buf column
      let rev ← getCol k h buf (h - column)
      let (outFwd, outRev) ← kernel tw fwd rev
      let buf ← setCol h column 0 outFwd buf
      setCol h (h - column) 0 outRev buf)
    (fun i b => b.length = buf.length ∧ ∀ p, nth b p =
      if p < k * h ∧ (p % h = 0 ∨ p % h ≤ i ∨ h - p % h ≤ i)
      then columnVal k h col0 kernel twChunks buf (p / h) (p % h) else nth buf p)
    ⟨l0, fun p => by
      have hq := Nat.mod_lt p hh
      rw [hv0 p]
      simp only [hplt]
      by_cases h1 : p % h = 0 ∧ p / h < k
      · rw [if_pos h1, if_pos ⟨h1.2, Or.inl h1.1⟩, columnVal, if_pos h1.1]
      · rw [if_neg h1, if_neg (by omega)]⟩
    (by
      rintro i hi b ⟨hlb, hvb⟩
      rw [hkeys] at hi
      have hxs : ((List.range' 1 (h / 2)).zip twChunks)[i]'(by rw [hkeys]; exact hi)
          = (1 + i, twChunks[i]'(by omega)) := by
        simp [List.getElem_range']
      rw [hxs]
      have htwi : twChunks[i]?.getD [] = twChunks[i]'(by omega) := by
        rw [List.getElem?_eq_getElem (by omega)]; rfl
      have hcol : ∀ c, (c = 1 + i ∨ c = h - (1 + i)) → col k h b c = col k h buf c := by
        intro c hc
        unfold col
        apply tab_congr
        intro r hr
        have hch : c < h := by omega
        rw [hvb, mod_of_lt hch, if_neg]
        omega
      obtain ⟨ek, lk1, lk2⟩ := (hk (twChunks[i]'(by omega)) (List.getElem_mem _)).eq
        (fwd := col k h buf (1 + i)) (rev := col k h buf (h - (1 + i))) (by simp) (by simp)
      obtain ⟨b1, e1, l1, v1⟩ := setCol_ok (h := h) (c := 1 + i) (by omega)
        (runK kernel (twChunks[i]'(by omega)) (col k h buf (1 + i)) (col k h buf (h - (1 + i)))).1 0 b
        (by rw [lk1, hlb]; simpa using hl)
      obtain ⟨b2, e2, l2, v2⟩ := setCol_ok (h := h) (c := h - (1 + i)) (by omega)
        (runK kernel (twChunks[i]'(by omega)) (col k h buf (1 + i)) (col k h buf (h - (1 + i)))).2 0 b1
        (by rw [lk2, l1, hlb]; simpa using hl)
      refine ⟨b2, ?_, by rw [l2, l1, hlb], ?_⟩
      · simp only
        rw [getCol_ok (by omega) (by omega), ok_bind, getCol_ok (by omega) (by omega), ok_bind,
          hcol _ (Or.inl rfl), hcol _ (Or.inr rfl), ek, ok_bind]
        simp only [e1, ok_bind, e2]
      · intro p
        have hq := Nat.mod_lt p hh
        rw [v2 p, v1 p, hvb p, lk1, lk2]
        simp only [Nat.zero_le, true_and, Nat.zero_add, Nat.sub_zero, hplt]
        by_cases hr : p / h < k
        · by_cases hA : p % h = h - (1 + i)
          · rw [if_pos ⟨hA, hr⟩, if_pos ⟨hr, by omega⟩, columnVal, if_neg (by omega), if_neg (by omega)]
            have hi2 : h - p % h = 1 + i := by omega
            rw [hi2, hA, show 1 + i - 1 = i by omega, htwi]
          · rw [if_neg (by tauto)]
            by_cases hB : p % h = 1 + i
            · rw [if_pos ⟨hB, hr⟩, if_pos ⟨hr, by omega⟩, columnVal, if_neg (by omega), if_pos (by omega)]
              rw [hB, show 1 + i - 1 = i by omega, htwi]
            · rw [if_neg (by tauto)]
              by_cases hC : p % h = 0 ∨ p % h ≤ i ∨ h - p % h ≤ i
              · rw [if_pos ⟨hr, hC⟩, if_pos ⟨hr, by omega⟩]
              · rw [if_neg (by tauto), if_neg (by omega)]
        · rw [if_neg (by tauto), if_neg (by tauto), if_neg (by tauto), if_neg (by tauto)])
  refine ⟨b', ?_, l', fun p => ?_⟩
  · unfold applyColumns
    rw [if_neg (by omega), if_neg hdiv]
    rw [getCol_ok hh hl, ok_bind, h0.eq (by simp), ok_bind, e0, ok_bind, e']
  · rw [v' p, hkeys]
    have hq := Nat.mod_lt p hh
    by_cases h1 : p < k * h
    · rw [if_pos ⟨h1, by omega⟩, if_pos h1]
    · rw [if_neg (by tauto), if_neg h1]

theorem applyColumns_total {k h : Nat} {col0 : List T → Res (List T)}
    {kernel : List (Cx T) → List T → List T → Res (List T × List T)} {twChunks : List (List (Cx T))}
    (hh : 0 < h) (h0 : Total k col0) (htw : twChunks.length = h / 2)
    (hk : ∀ tw ∈ twChunks, KernelTotal k kernel tw) :
    Total (k * h) (applyColumns k h col0 kernel twChunks) := by
  intro l hl
  obtain ⟨l', e, h1, _⟩ := applyColumns_ok hh h0 htw hk l (by omega)
  exact ⟨l', e, by omega⟩

theorem nth_run_applyColumns {k h : Nat} {col0 : List T → Res (List T)}
    {kernel : List (Cx T) → List T → List T → Res (List T × List T)} {twChunks : List (List (Cx T))}
    (hh : 0 < h) (h0 : Total k col0) (htw : twChunks.length = h / 2)
    (hk : ∀ tw ∈ twChunks, KernelTotal k kernel tw) {buf : List T} (hl : buf.length = k * h) {p : Nat}
    (hp : p < k * h) :
    nth (run (applyColumns k h col0 kernel twChunks) buf) p
      = columnVal k h col0 kernel twChunks buf (p / h) (p % h) := by
  obtain ⟨l', e, _, h2⟩ := applyColumns_ok hh h0 htw hk buf (by omega)
  rw [run_eq e, h2, if_pos hp]

/-! ## The five instances -/

variable [Add T] [Sub T] [Mul T] [Neg T] [FftNum T]

theorem total_of_performs {n : Nat} {g : List T → List T} {c : RawIO T → Res (RawIO T)} (h : PerformsBfly n g c) :
    Total n (performInPlace c) := fun l hl => ⟨g l, h.aliased l hl, h.length l hl⟩

theorem mr2Kernel_total (t : Cx T) : KernelTotal 2 mr2Kernel [t] := by
  intro f r hf hr
  obtain ⟨a, b, rfl⟩ := list2 hf
  obtain ⟨c, d, rfl⟩ := list2 hr
  exact ⟨_, _, rfl, rfl, rfl⟩

theorem mr3Kernel_total (t : Cx T) : KernelTotal 3 mr3Kernel [t] := by
  intro f r hf hr
  obtain ⟨a, b, c, rfl⟩ := list3 hf
  obtain ⟨a', b', c', rfl⟩ := list3 hr
  exact ⟨_, _, rfl, rfl, rfl⟩

theorem mr4Kernel_total (t u : Cx T) : KernelTotal 4 mr4Kernel [t, u] := by
  intro f r hf hr
  obtain ⟨a, b, c, d, rfl⟩ := list4 hf
  obtain ⟨a', b', c', d', rfl⟩ := list4 hr
  exact ⟨_, _, rfl, rfl, rfl⟩

theorem mr5Kernel_total (t u : Cx T) : KernelTotal 5 mr5Kernel [t, u] := by
  intro f r hf hr
  obtain ⟨a, b, c, d, e, rfl⟩ := list5 hf
  obtain ⟨a', b', c', d', e', rfl⟩ := list5 hr
  exact ⟨_, _, rfl, rfl, rfl⟩

theorem mr6Kernel_total (t u v : Cx T) : KernelTotal 6 mr6Kernel [t, u, v] := by
  intro f r hf hr
  obtain ⟨a, b, c, d, e, g, rfl⟩ := list6 hf
  obtain ⟨a', b', c', d', e', g', rfl⟩ := list6 hr
  exact ⟨_, _, rfl, rfl, rfl⟩

omit [Zero T] [Add T] [Sub T] [Mul T] [Neg T] [FftNum T] in
theorem chunks_pairs {α : Type} {f g : Nat → α} (l : List Nat) :
    chunksExactAux 2 (l.flatMap fun c => [f c, g c]) = l.map fun c => [f c, g c] := by
  induction l with
  | nil => rw [chunksExactAux]; simp
  | cons a l ih =>
    rw [chunksExactAux]
    simp [ih]

omit [Zero T] [Add T] [Sub T] [Mul T] [Neg T] [FftNum T] in
theorem chunks_triples {α : Type} {f g i : Nat → α} (l : List Nat) :
    chunksExactAux 3 (l.flatMap fun c => [f c, g c, i c]) = l.map fun c => [f c, g c, i c] := by
  induction l with
  | nil => rw [chunksExactAux]; simp
  | cons a l ih =>
    rw [chunksExactAux]
    simp [ih]

/-- The twiddle chunks of the five types, column `c + 1` at index `c`. -/
def mr2Chunks (T : Type) [FftNum T] (h : Nat) : List (List (Cx T)) :=
  (List.range' 1 (h / 2)).map fun c => [computeDftTwiddleInverse T c (2 * h)]

/-- See `mr2Chunks`. -/
def mr3Chunks (T : Type) [Mul T] [FftNum T] (h : Nat) : List (List (Cx T)) :=
  (List.range' 1 (h / 2)).map fun c =>
    [(computeDftTwiddleInverse T (c * 1 * 8 + 3 * h) (3 * h * 8)).scale FftNum.sqrtHalfF32]

/-- See `mr2Chunks`. -/
def mr4Chunks (T : Type) [FftNum T] (h : Nat) : List (List (Cx T)) :=
  (List.range' 1 (h / 2)).map fun c =>
    [computeDftTwiddleInverse T (1 * c) (4 * h), computeDftTwiddleInverse T (2 * c) (4 * h)]

/-- See `mr2Chunks`. -/
def mr5Chunks (T : Type) [Mul T] [FftNum T] (h : Nat) : List (List (Cx T)) :=
  (List.range' 1 (h / 2)).map fun c =>
    [(computeDftTwiddleInverse T (c * 1 * 8 + 5 * h) (5 * h * 8)).scale FftNum.sqrtHalfF32,
     (computeDftTwiddleInverse T (c * 2 * 8 + 5 * h) (5 * h * 8)).scale FftNum.sqrtHalfF32]

/-- See `mr2Chunks`. -/
def mr6Chunks (T : Type) [Mul T] [FftNum T] (h : Nat) : List (List (Cx T)) :=
  (List.range' 1 (h / 2)).map fun c =>
    [(computeDftTwiddleInverse T (1 * c * 8 + 6 * h) (6 * h * 8)).scale FftNum.sqrtHalfF32,
     (computeDftTwiddleInverse T (2 * c * 8 + 6 * h) (6 * h * 8)).scale FftNum.sqrtHalfF32,
     (computeDftTwiddleInverse T (3 * c * 8 + 6 * h) (6 * h * 8)).scale FftNum.sqrtHalfF32]

theorem mr2_chunks (h : Nat) : ((mr2Twiddles T h).map fun t => [t]) = mr2Chunks T h := by
  simp [mr2Twiddles, mr2Chunks]

theorem mr3_chunks (h : Nat) : ((mr3Twiddles T h).map fun t => [t]) = mr3Chunks T h := by
  simp [mr3Twiddles, mr3Chunks]

theorem mr4_chunks (h : Nat) : chunksExactAux 2 (mr4Twiddles T h) = mr4Chunks T h := by
  rw [mr4Twiddles, chunks_pairs]; rfl

theorem mr5_chunks (h : Nat) : chunksExactAux 2 (mr5Twiddles T h) = mr5Chunks T h := by
  rw [mr5Twiddles, chunks_pairs]; rfl

theorem mr6_chunks (h : Nat) : chunksExactAux 3 (mr6Twiddles T h) = mr6Chunks T h := by
  rw [mr6Twiddles, chunks_triples]; rfl

omit [Zero T] [Add T] [Sub T] [Mul T] [Neg T] [FftNum T] in
theorem chunk_get {α : Type} {f : Nat → List α} {n c : Nat} (h1 : 1 ≤ c) (h2 : c ≤ n) :
    ((List.range' 1 n).map f)[c - 1]?.getD [] = f c := by
  rw [List.getElem?_map, List.getElem?_range' (by omega)]
  simp; congr 1; omega

/-! ## The shared `perform` functions -/

/-- The chunk transform of `MixedRadixNxn`: half-reversed transpose, inner transforms of the rows, twiddles. -/
def mrnFn (k h : Nat) (f : List T → List T) (ap : List T → Res (List T)) (x : List T) : List T :=
  run ap (mapChunks h f (tab (k * h) fun p => nth x (revRow k h (p / h) (p % h) * k + p / h)))

theorem mrn_performs {k : Nat} {hd : Dht T} {f : List T → List T} {ap : List T → Res (List T)}
    (hk : 2 ≤ k) (hi : Implements hd f) (hh : 0 < hd.len) (hin : hd.inplaceScratchLen ≤ k * hd.len)
    (hoop : hd.oopScratchLen = 0) (hap : Total (k * hd.len) ap) :
    Performs (k * hd.len) (mrnInplaceScratch (k * hd.len) hd) (mrnOopScratch (k * hd.len) hd)
      (mrnFn k hd.len f ap) (mrnPerformInplace k hd hd.len ap) (mrnPerformOop k hd hd.len ap) := by
  have hle : hd.len ≤ k * hd.len := Nat.le_mul_of_pos_left _ (by omega)
  have hdv : hd.len ∣ k * hd.len := dvd_mul_left _ _
  have hs1 : mrnInplaceScratch (k * hd.len) hd = k * hd.len := by
    rw [mrnInplaceScratch, if_neg (by omega), Nat.add_zero]
  have hs2 : mrnOopScratch (k * hd.len) hd = 0 := by
    rw [mrnOopScratch, if_neg (by omega)]
  refine ⟨?_, ?_, ?_⟩
  · intro x hx
    exact hap.length (by rw [length_mapChunks hh hi.length, length_tab])
  · intro c s hc hs
    rw [hs1] at hs ⊢
    obtain ⟨i', s', e, hi', _, _⟩ := hi.oop
      (tab (k * hd.len) fun p => nth c (revRow k hd.len (p / hd.len) (p % hd.len) * k + p / hd.len)) c []
      (by rw [length_tab, hc]) (by rw [length_tab]; exact hle) (by rw [length_tab]; exact hdv) (by simp [hoop])
    refine ⟨i', ?_, by rw [hi', length_tab]⟩
    unfold mrnPerformInplace
    rw [transposeHalfRevOut_ok hk hc hs, ok_bind, e, ok_bind]
    simp only
    rw [hap.eq (by rw [length_mapChunks hh hi.length, length_tab]), ok_bind]
    rfl
  · intro i o s hil hol hs
    obtain ⟨i', e, hi', _⟩ := hi.inplace
      (tab (k * hd.len) fun p => nth i (revRow k hd.len (p / hd.len) (p % hd.len) * k + p / hd.len)) i
      (by rw [length_tab]; exact hle) (by rw [length_tab]; exact hdv) (by omega)
    refine ⟨i', s, ?_, by omega, hs⟩
    unfold mrnPerformOop
    rw [transposeHalfRevOut_ok hk hil hol, ok_bind, e, ok_bind]
    simp only
    rw [hap.eq (by rw [length_mapChunks hh hi.length, length_tab]), ok_bind]
    rfl

theorem mrn_implements {k : Nat} {hd : Dht T} {f : List T → List T} {ap : List T → Res (List T)}
    (hk : 2 ≤ k) (hi : Implements hd f) (hin : 0 < hd.len → hd.inplaceScratchLen ≤ k * hd.len)
    (hoop : 0 < hd.len → hd.oopScratchLen = 0) (hap : 0 < hd.len → Total (k * hd.len) ap)
    (hap0 : hd.len = 0 → (run ap []).length = 0) :
    Implements (mixedRadixN k hd ap) (mrnFn k hd.len f ap) := by
  refine boilerplateDht_implements (fun h => ?_) (fun h => ?_)
  · have hh : 0 < hd.len := Nat.pos_of_mul_pos_left h
    exact mrn_performs hk hi hh (hin hh) (hoop hh) (hap hh)
  · have hh : hd.len = 0 := by
      rcases Nat.mul_eq_zero.1 h with h | h
      · omega
      · exact h
    rw [mrnFn, hh, mapChunks_zero]
    simpa [tab] using hap0 hh

theorem mrn_rejects {k : Nat} {hd : Dht T} {f : List T → List T} {ap : List T → Res (List T)}
    (hk : 2 ≤ k) (hi : Implements hd f) (hh : 0 < hd.len) (hin : hd.inplaceScratchLen ≤ k * hd.len)
    (hoop : hd.oopScratchLen = 0) (hap : Total (k * hd.len) ap) : Rejects (mixedRadixN k hd ap) :=
  boilerplateDht_rejects (Nat.mul_pos (by omega) hh) (mrn_performs hk hi hh hin hoop hap)

/-- The five `apply_twiddles`. -/
def mr2Apply (T : Type) [Add T] [Sub T] [Mul T] [FftNum T] (h : Nat) : List T → Res (List T) :=
  applyColumns 2 h (performInPlace contiguous2) mr2Kernel (mr2Chunks T h)
/-- See `mr2Apply`. -/
def mr3Apply (T : Type) [Add T] [Sub T] [Mul T] [FftNum T] (h : Nat) : List T → Res (List T) :=
  applyColumns 3 h (performInPlace contiguous3) mr3Kernel (mr3Chunks T h)
/-- See `mr2Apply`. -/
def mr4Apply (T : Type) [Add T] [Sub T] [Mul T] [FftNum T] (h : Nat) : List T → Res (List T) :=
  applyColumns 4 h (performInPlace contiguous4) mr4Kernel (mr4Chunks T h)
/-- See `mr2Apply`. -/
def mr5Apply (T : Type) [Add T] [Sub T] [Mul T] [FftNum T] (h : Nat) : List T → Res (List T) :=
  applyColumns 5 h (performInPlace contiguous5) mr5Kernel (mr5Chunks T h)
/-- See `mr2Apply`. -/
def mr6Apply (T : Type) [Add T] [Sub T] [Mul T] [Neg T] [FftNum T] (h : Nat) : List T → Res (List T) :=
  applyColumns 6 h (performInPlace contiguous6) mr6Kernel (mr6Chunks T h)

theorem mixedRadix2xn_eq (d : Dht T) : mixedRadix2xn d = mixedRadixN 2 d (mr2Apply T d.len) := by
  rw [mr2Apply, ← mr2_chunks]; rfl
theorem mixedRadix3xn_eq (d : Dht T) : mixedRadix3xn d = mixedRadixN 3 d (mr3Apply T d.len) := by
  rw [mr3Apply, ← mr3_chunks]; rfl
theorem mixedRadix4xn_eq (d : Dht T) : mixedRadix4xn d = mixedRadixN 4 d (mr4Apply T d.len) := by
  rw [mr4Apply, ← mr4_chunks]; rfl
theorem mixedRadix5xn_eq (d : Dht T) : mixedRadix5xn d = mixedRadixN 5 d (mr5Apply T d.len) := by
  rw [mr5Apply, ← mr5_chunks]; rfl
theorem mixedRadix6xn_eq (d : Dht T) : mixedRadix6xn d = mixedRadixN 6 d (mr6Apply T d.len) := by
  rw [mr6Apply, ← mr6_chunks]; rfl

theorem mem_map_range {α : Type} {f : Nat → List α} {n : Nat} {P : List α → Prop} (h : ∀ c, P (f c)) :
    ∀ tw ∈ (List.range' 1 n).map f, P tw := by
  intro tw htw
  obtain ⟨c, _, rfl⟩ := List.mem_map.1 htw
  exact h c

theorem mr2Apply_total {h : Nat} (hh : 0 < h) : Total (2 * h) (mr2Apply T h) :=
  applyColumns_total hh (total_of_performs performs2) (by simp [mr2Chunks]) (mem_map_range fun _ => mr2Kernel_total _)
theorem mr3Apply_total {h : Nat} (hh : 0 < h) : Total (3 * h) (mr3Apply T h) :=
  applyColumns_total hh (total_of_performs performs3) (by simp [mr3Chunks]) (mem_map_range fun _ => mr3Kernel_total _)
theorem mr4Apply_total {h : Nat} (hh : 0 < h) : Total (4 * h) (mr4Apply T h) :=
  applyColumns_total hh (total_of_performs performs4) (by simp [mr4Chunks]) (mem_map_range fun _ => mr4Kernel_total _ _)
theorem mr5Apply_total {h : Nat} (hh : 0 < h) : Total (5 * h) (mr5Apply T h) :=
  applyColumns_total hh (total_of_performs performs5) (by simp [mr5Chunks]) (mem_map_range fun _ => mr5Kernel_total _ _)
theorem mr6Apply_total {h : Nat} (hh : 0 < h) : Total (6 * h) (mr6Apply T h) :=
  applyColumns_total hh (total_of_performs performs6) (by simp [mr6Chunks])
    (mem_map_range fun _ => mr6Kernel_total _ _ _)

/-- With zero columns the twiddle step panics, so `run` gives back the (empty) list. -/
theorem run_applyColumns_zero {k : Nat} {col0 : List T → Res (List T)}
    {kernel : List (Cx T) → List T → List T → Res (List T × List T)} {twChunks : List (List (Cx T))} (l : List T) :
    run (applyColumns k 0 col0 kernel twChunks) l = l := rfl

end RustDHT
