import Verif.Proofs.Columns
import Verif.Model.MixedRadix

/-! # `MixedRadix`: closed form and contract, for every number type -/

set_option linter.unusedSectionVars false

namespace RustDHT

theorem chunks_flatMap {α β : Type} {n : Nat} (hn : 0 < n) {f : α → List β} (l : List α)
    (hf : ∀ a ∈ l, (f a).length = n) : chunksExactAux n (l.flatMap f) = l.map f := by
  induction l with
  | nil => rw [chunksExactAux]; simp
  | cons a l ih =>
    have ha := hf a (by simp)
    rw [chunksExactAux, if_neg (by omega), if_pos (by simp [ha]), List.flatMap_cons, List.map_cons,
      List.take_left' ha, List.drop_left' ha, ih fun b hb => hf b (by simp [hb])]

variable {T : Type} [Zero T] [Add T] [Sub T] [Mul T] [FftNum T]

/-- The twiddle of row `r`, column `c`. -/
def mrTw (T : Type) [Mul T] [FftNum T] (w h r c : Nat) : Cx T :=
  (computeDftTwiddleInverse T (r * c * 8 + w * h) (w * h * 8)).scale FftNum.sqrtHalfF32

/-- Value at row `r`, column `c` after `apply_twiddles`. -/
def mrVal (w h : Nat) (buf : List T) (r c : Nat) : T :=
  let g (r c : Nat) := nth buf (r * h + c)
  if r = 0 ∨ c = 0 then g r c
  else if 2 * r < w then
    if 2 * c < h then
      let t := mrTw T w h r c
      t.re * (g r c + g (w - r) (h - c)) - t.im * (g (w - r) c - g r (h - c))
    else
      let c := h - c
      let t := mrTw T w h r c
      t.re * (g (w - r) c + g r (h - c)) - t.im * (g r c - g (w - r) (h - c))
  else if w < 2 * r then
    let r := w - r
    if 2 * c < h then
      let t := mrTw T w h r c
      t.re * (g (w - r) c - g r (h - c)) + t.im * (g r c + g (w - r) (h - c))
    else
      let c := h - c
      let t := mrTw T w h r c
      t.re * (g r c - g (w - r) (h - c)) + t.im * (g (w - r) c + g r (h - c))
  else
    if 2 * c < h then
      let t := mrTw T w h r c
      t.re * (g r c - g r (h - c)) + t.im * (g r c + g r (h - c))
    else
      let c := h - c
      let t := mrTw T w h r c
      t.re * (g r c + g r (h - c)) - t.im * (g r c - g r (h - c))

theorem mrCell_ok {w h r c : Nat} {t : Cx T} {buf : List T} (hl : buf.length = w * h) (hr0 : 0 < r)
    (hr : 2 * r < w) (hc0 : 0 < c) (hc : 2 * c ≤ h) :
    ∃ buf', mrCell w h r c t buf = .ok buf' ∧ buf'.length = w * h ∧
      ∀ p, nth buf' p =
        if p / h = w - r ∧ p % h = h - c then
          t.re * (nth buf (r * h + c) - nth buf ((w - r) * h + (h - c)))
            + t.im * (nth buf ((w - r) * h + c) + nth buf (r * h + (h - c)))
        else if p / h = w - r ∧ p % h = c then
          t.re * (nth buf ((w - r) * h + c) - nth buf (r * h + (h - c)))
            + t.im * (nth buf (r * h + c) + nth buf ((w - r) * h + (h - c)))
        else if p / h = r ∧ p % h = h - c then
          t.re * (nth buf ((w - r) * h + c) + nth buf (r * h + (h - c)))
            - t.im * (nth buf (r * h + c) - nth buf ((w - r) * h + (h - c)))
        else if p / h = r ∧ p % h = c then
          t.re * (nth buf (r * h + c) + nth buf ((w - r) * h + (h - c)))
            - t.im * (nth buf ((w - r) * h + c) - nth buf (r * h + (h - c)))
        else nth buf p := by
  have e1 : r * h + c < buf.length := by rw [hl]; exact pos_lt (by omega) (by omega)
  have e2 : r * h + (h - c) < buf.length := by rw [hl]; exact pos_lt (by omega) (by omega)
  have e3 : (w - r) * h + c < buf.length := by rw [hl]; exact pos_lt (by omega) (by omega)
  have e4 : (w - r) * h + (h - c) < buf.length := by rw [hl]; exact pos_lt (by omega) (by omega)
  have hpos : ∀ a b p, b < h → (p = a * h + b ↔ p / h = a ∧ p % h = b) := by
    intro a b p hb
    constructor
    · rintro rfl; exact ⟨div_of_lt hb, mod_of_lt hb⟩
    · rintro ⟨h1, h2⟩; rw [← h1, ← h2, div_mod_eq]
  refine ⟨?bb, ?e, ?l, ?v⟩
  case e =>
    unfold mrCell
    simp only [Nat.mul_comm h]
    rw [getI_nth e1, ok_bind, getI_nth e2, ok_bind, getI_nth e3, ok_bind, getI_nth e4, ok_bind,
      setI_ok e1, ok_bind, setI_ok (by simpa using e2), ok_bind, setI_ok (by simpa using e3), ok_bind,
      setI_ok (by simpa using e4)]
  case l => simpa using hl
  case v =>
    intro p
    rw [nth_set (by simpa using e4), nth_set (by simpa using e3), nth_set (by simpa using e2), nth_set e1]
    simp only [hpos _ _ p (show c < h by omega), hpos _ _ p (show h - c < h by omega)]

theorem mrMidCell_ok {w h r c : Nat} {t : Cx T} {buf : List T} (hl : buf.length = w * h)
    (hr : r < w) (hc0 : 0 < c) (hc : 2 * c ≤ h) :
    ∃ buf', mrMidCell h r c t buf = .ok buf' ∧ buf'.length = w * h ∧
      ∀ p, nth buf' p =
        if p / h = r ∧ p % h = h - c then
          t.re * (nth buf (r * h + c) + nth buf (r * h + (h - c)))
            - t.im * (nth buf (r * h + c) - nth buf (r * h + (h - c)))
        else if p / h = r ∧ p % h = c then
          t.re * (nth buf (r * h + c) - nth buf (r * h + (h - c)))
            + t.im * (nth buf (r * h + c) + nth buf (r * h + (h - c)))
        else nth buf p := by
  have e1 : r * h + c < buf.length := by rw [hl]; exact pos_lt (by omega) (by omega)
  have e2 : r * h + (h - c) < buf.length := by rw [hl]; exact pos_lt (by omega) (by omega)
  have hpos : ∀ a b p, b < h → (p = a * h + b ↔ p / h = a ∧ p % h = b) := by
    intro a b p hb
    constructor
    · rintro rfl; exact ⟨div_of_lt hb, mod_of_lt hb⟩
    · rintro ⟨h1, h2⟩; rw [← h1, ← h2, div_mod_eq]
  refine ⟨?bb, ?e, ?l, ?v⟩
  case e =>
    unfold mrMidCell
    simp only [Nat.mul_comm h]
    rw [getI_nth e1, ok_bind, getI_nth e2, ok_bind, setI_ok e1, ok_bind, setI_ok (by simpa using e2)]
  case l => simpa using hl
  case v =>
    intro p
    rw [nth_set (by simpa using e2), nth_set e1]
    simp only [hpos _ _ p (show c < h by omega), hpos _ _ p (show h - c < h by omega)]

/-- The row loop body: all columns of the rows `r` and `w - r`. -/
theorem mrRow_ok {w h r : Nat} {buf0 b : List T} (hl : b.length = w * h) (hr0 : 0 < r) (hr : 2 * r < w)
    (horig : ∀ p, (p / h = r ∨ p / h = w - r) → nth b p = nth buf0 p) :
    ∃ b', forList ((List.range' 1 (h / 2)).zip ((List.range' 1 (h / 2)).map fun c => mrTw T w h r c)) b
        (fun (column, twiddle) buffer => mrCell w h r column twiddle buffer) = .ok b' ∧
      b'.length = w * h ∧
      ∀ p, p < w * h → nth b' p =
        if p / h = r ∨ p / h = w - r then mrVal w h buf0 (p / h) (p % h) else nth b p := by
  have hkeys : ((List.range' 1 (h / 2)).zip ((List.range' 1 (h / 2)).map fun c => mrTw T w h r c)).length
      = h / 2 := by simp
  obtain ⟨b', e, l', v'⟩ := forList_ok
    (xs := (List.range' 1 (h / 2)).zip ((List.range' 1 (h / 2)).map fun c => mrTw T w h r c)) (s := b)
    (body := fun (column, twiddle) buffer => mrCell w h r column twiddle buffer)
    (fun i b' => b'.length = w * h ∧ ∀ p, p < w * h → nth b' p =
      if (p / h = r ∨ p / h = w - r) ∧ (p % h = 0 ∨ p % h ≤ i ∨ h - p % h ≤ i)
      then mrVal w h buf0 (p / h) (p % h) else nth b p)
    ⟨hl, fun p hp => by
      have hq := mod_lt_of_lt_mul hp
      by_cases h1 : (p / h = r ∨ p / h = w - r) ∧ p % h = 0
      · rw [if_pos ⟨h1.1, Or.inl h1.2⟩, mrVal]
        simp only
        rw [if_pos (Or.inr h1.2), div_mod_eq, horig p h1.1]
      · rw [if_neg (by omega)]⟩
    (by
      rintro i hi b1 ⟨hl1, hv1⟩
      rw [hkeys] at hi
      have hxs : ((List.range' 1 (h / 2)).zip ((List.range' 1 (h / 2)).map fun c => mrTw T w h r c))[i]'(by
          rw [hkeys]; exact hi) = (1 + i, mrTw T w h r (1 + i)) := by
        simp [List.getElem_range']
      rw [hxs]
      obtain ⟨b2, e2, l2, v2⟩ := mrCell_ok (t := mrTw T w h r (1 + i)) hl1 hr0 hr (c := 1 + i)
        (by omega) (by omega)
      have hor : ∀ a c, (a = r ∨ a = w - r) → (c = 1 + i ∨ c = h - (1 + i)) →
          nth b1 (a * h + c) = nth buf0 (a * h + c) := by
        intro a c ha hc
        have hch : c < h := by omega
        rw [hv1 _ (pos_lt (by omega) hch), div_of_lt hch, mod_of_lt hch, if_neg (by omega)]
        exact horig _ (by rw [div_of_lt hch]; exact ha)
      rw [hor r (1 + i) (by omega) (by omega), hor r (h - (1 + i)) (by omega) (by omega),
        hor (w - r) (1 + i) (by omega) (by omega), hor (w - r) (h - (1 + i)) (by omega) (by omega)] at v2
      refine ⟨b2, e2, l2, fun p hp => ?_⟩
      have hq := mod_lt_of_lt_mul hp
      rw [v2 p]
      by_cases hrow : p / h = r ∨ p / h = w - r
      · by_cases hcol : p % h = h - (1 + i) ∨ p % h = 1 + i
        · have hi2 : h - (h - (1 + i)) = 1 + i := by omega
          have hcol0 : ¬ (p / h = 0 ∨ p % h = 0) := by omega
          rcases hrow with hrow | hrow
          · have hlt : 2 * (p / h) < w := by omega
            by_cases hA : p % h = h - (1 + i)
            · rw [if_neg (show ¬ (p / h = w - r ∧ p % h = h - (1 + i)) by omega),
                if_neg (show ¬ (p / h = w - r ∧ p % h = 1 + i) by omega), if_pos ⟨hrow, hA⟩,
                if_pos ⟨Or.inl hrow, by omega⟩, mrVal]
              simp only
              rw [if_neg hcol0, if_pos hlt, if_neg (show ¬ 2 * (p % h) < h by omega), hrow, hA, hi2]
            · have hA' : p % h = 1 + i := by tauto
              rw [if_neg (show ¬ (p / h = w - r ∧ p % h = h - (1 + i)) by omega),
                if_neg (show ¬ (p / h = w - r ∧ p % h = 1 + i) by omega), if_neg (by tauto), if_pos ⟨hrow, hA'⟩,
                if_pos ⟨Or.inl hrow, by omega⟩, mrVal]
              simp only
              rw [if_neg hcol0, if_pos hlt, if_pos (show 2 * (p % h) < h by omega), hrow, hA']
          · have hw2 : w - (w - r) = r := by omega
            have hlt : ¬ 2 * (p / h) < w := by omega
            have hlt' : w < 2 * (p / h) := by omega
            by_cases hA : p % h = h - (1 + i)
            · rw [if_pos ⟨hrow, hA⟩, if_pos ⟨Or.inr hrow, by omega⟩, mrVal]
              simp only
              rw [if_neg hcol0, if_neg hlt, if_pos hlt', if_neg (show ¬ 2 * (p % h) < h by omega), hrow, hA, hi2, hw2]
            · have hA' : p % h = 1 + i := by tauto
              rw [if_neg (by tauto), if_pos ⟨hrow, hA'⟩, if_pos ⟨Or.inr hrow, by omega⟩, mrVal]
              simp only
              rw [if_neg hcol0, if_neg hlt, if_pos hlt', if_pos (show 2 * (p % h) < h by omega), hrow, hA', hw2]
        · rw [if_neg (by tauto), if_neg (by tauto), if_neg (by tauto), if_neg (by tauto), hv1 p hp]
          by_cases hC : p % h = 0 ∨ p % h ≤ i ∨ h - p % h ≤ i
          · rw [if_pos ⟨hrow, hC⟩, if_pos ⟨hrow, by omega⟩]
          · rw [if_neg (by tauto), if_neg (by omega)]
      · rw [if_neg (by tauto), if_neg (by tauto), if_neg (by tauto), if_neg (by tauto), hv1 p hp,
          if_neg (by tauto), if_neg (by tauto)])
  refine ⟨b', e, l', fun p hp => ?_⟩
  have hq := mod_lt_of_lt_mul hp
  rw [v' p hp, hkeys]
  by_cases h1 : p / h = r ∨ p / h = w - r
  · rw [if_pos ⟨h1, by omega⟩, if_pos h1]
  · rw [if_neg (by tauto), if_neg h1]

/-- The middle row. -/
theorem mrMid_ok {w h r : Nat} {buf0 b : List T} (hl : b.length = w * h) (hr0 : 0 < r) (hr : 2 * r = w)
    (horig : ∀ p, p / h = r → nth b p = nth buf0 p) :
    ∃ b', forList ((List.range' 1 (h / 2)).zip ((List.range' 1 (h / 2)).map fun c => mrTw T w h r c)) b
        (fun (column, twiddle) buffer => mrMidCell h r column twiddle buffer) = .ok b' ∧
      b'.length = w * h ∧
      ∀ p, p < w * h → nth b' p = if p / h = r then mrVal w h buf0 (p / h) (p % h) else nth b p := by
  have hkeys : ((List.range' 1 (h / 2)).zip ((List.range' 1 (h / 2)).map fun c => mrTw T w h r c)).length
      = h / 2 := by simp
  obtain ⟨b', e, l', v'⟩ := forList_ok
    (xs := (List.range' 1 (h / 2)).zip ((List.range' 1 (h / 2)).map fun c => mrTw T w h r c)) (s := b)
    (body := fun (column, twiddle) buffer => mrMidCell h r column twiddle buffer)
    (fun i b' => b'.length = w * h ∧ ∀ p, p < w * h → nth b' p =
      if p / h = r ∧ (p % h = 0 ∨ p % h ≤ i ∨ h - p % h ≤ i)
      then mrVal w h buf0 (p / h) (p % h) else nth b p)
    ⟨hl, fun p hp => by
      have hq := mod_lt_of_lt_mul hp
      by_cases h1 : p / h = r ∧ p % h = 0
      · rw [if_pos ⟨h1.1, Or.inl h1.2⟩, mrVal]
        simp only
        rw [if_pos (Or.inr h1.2), div_mod_eq, horig p h1.1]
      · rw [if_neg (by omega)]⟩
    (by
      rintro i hi b1 ⟨hl1, hv1⟩
      rw [hkeys] at hi
      have hxs : ((List.range' 1 (h / 2)).zip ((List.range' 1 (h / 2)).map fun c => mrTw T w h r c))[i]'(by
          rw [hkeys]; exact hi) = (1 + i, mrTw T w h r (1 + i)) := by
        simp [List.getElem_range']
      rw [hxs]
      obtain ⟨b2, e2, l2, v2⟩ := mrMidCell_ok (t := mrTw T w h r (1 + i)) hl1 (show r < w by omega) (c := 1 + i)
        (by omega) (by omega)
      have hor : ∀ c, (c = 1 + i ∨ c = h - (1 + i)) → nth b1 (r * h + c) = nth buf0 (r * h + c) := by
        intro c hc
        have hch : c < h := by omega
        rw [hv1 _ (pos_lt (by omega) hch), div_of_lt hch, mod_of_lt hch, if_neg (by omega)]
        exact horig _ (div_of_lt hch)
      rw [hor (1 + i) (by omega), hor (h - (1 + i)) (by omega)] at v2
      refine ⟨b2, e2, l2, fun p hp => ?_⟩
      have hq := mod_lt_of_lt_mul hp
      rw [v2 p]
      by_cases hrow : p / h = r
      · by_cases hcol : p % h = h - (1 + i) ∨ p % h = 1 + i
        · have hi2 : h - (h - (1 + i)) = 1 + i := by omega
          have hcol0 : ¬ (p / h = 0 ∨ p % h = 0) := by omega
          have hlt : ¬ 2 * (p / h) < w := by omega
          have hlt' : ¬ w < 2 * (p / h) := by omega
          by_cases hA : p % h = h - (1 + i)
          · rw [if_pos ⟨hrow, hA⟩, if_pos ⟨hrow, by omega⟩, mrVal]
            simp only
            rw [if_neg hcol0, if_neg hlt, if_neg hlt', if_neg (show ¬ 2 * (p % h) < h by omega), hrow, hA, hi2]
          · have hA' : p % h = 1 + i := by tauto
            rw [if_neg (by tauto), if_pos ⟨hrow, hA'⟩, if_pos ⟨hrow, by omega⟩, mrVal]
            simp only
            rw [if_neg hcol0, if_neg hlt, if_neg hlt', if_pos (show 2 * (p % h) < h by omega), hrow, hA']
        · rw [if_neg (by tauto), if_neg (by tauto), hv1 p hp]
          by_cases hC : p % h = 0 ∨ p % h ≤ i ∨ h - p % h ≤ i
          · rw [if_pos ⟨hrow, hC⟩, if_pos ⟨hrow, by omega⟩]
          · rw [if_neg (by tauto), if_neg (by omega)]
      · rw [if_neg (by tauto), if_neg (by tauto), hv1 p hp, if_neg (by tauto), if_neg (by tauto)])
  refine ⟨b', e, l', fun p hp => ?_⟩
  have hq := mod_lt_of_lt_mul hp
  rw [v' p hp, hkeys]
  by_cases h1 : p / h = r
  · rw [if_pos ⟨h1, by omega⟩, if_pos h1]
  · rw [if_neg (by tauto), if_neg h1]

theorem mr_chunks {w h : Nat} (hh : 2 ≤ h) :
    chunksExact (h / 2) (mrTwiddles T w h)
      = .ok ((List.range' 1 (w / 2)).map fun r => (List.range' 1 (h / 2)).map fun c => mrTw T w h r c) := by
  unfold chunksExact
  rw [if_neg (by omega)]
  congr 1
  exact chunks_flatMap (by omega) _ (fun r _ => by simp)

theorem mrApplyTwiddles_ok {w h : Nat} (hw : 0 < w) (hh : 0 < h) {buf : List T} (hl : buf.length = w * h) :
    mrApplyTwiddles w h (mrTwiddles T w h) buf = .ok (tab (w * h) fun p => mrVal w h buf (p / h) (p % h)) := by
  unfold mrApplyTwiddles
  by_cases hsmall : w < 2 ∨ h < 2
  · simp only [if_pos hsmall]
    congr 1
    refine eq_tab hl fun p hp => ?_
    have hq := mod_lt_of_lt_mul hp
    have hr := div_lt_of_lt_mul' hp
    have h0 := Nat.zero_le (p / h)
    rw [mrVal]
    simp only
    rw [if_pos (by omega), div_mod_eq]
  · simp only [if_neg hsmall]
    rw [show h / 2 + 1 - 1 = h / 2 by omega, mr_chunks (by omega), ok_bind]
    have hkeys : ((List.range' 1 ((w + 1) / 2 - 1)).zip
        ((List.range' 1 (w / 2)).map fun r => (List.range' 1 (h / 2)).map fun c => mrTw T w h r c)).length
        = (w + 1) / 2 - 1 := by
      simp; omega
    obtain ⟨b1, e1, l1, v1⟩ := forList_ok
      (xs := (List.range' 1 ((w + 1) / 2 - 1)).zip
        ((List.range' 1 (w / 2)).map fun r => (List.range' 1 (h / 2)).map fun c => mrTw T w h r c)) (s := buf)
      (body := fun (row, twiddleChunk) buffer =>
        forList ((List.range' 1 (h / 2)).zip twiddleChunk) buffer fun (column, twiddle) buffer =>
          mrCell w h row column twiddle buffer)
      (fun i b => b.length = w * h ∧ ∀ p, p < w * h → nth b p =
        if p / h = 0 ∨ p / h ≤ i ∨ w - p / h ≤ i then mrVal w h buf (p / h) (p % h) else nth buf p)
      ⟨hl, fun p hp => by
        have hr := div_lt_of_lt_mul' hp
        have h00 := Nat.zero_le (p / h)
        by_cases h0 : p / h = 0
        · rw [if_pos (Or.inl h0), mrVal]
          simp only
          rw [if_pos (Or.inl h0), div_mod_eq]
        · rw [if_neg (by omega)]⟩
      (by
        rintro i hi b ⟨hlb, hvb⟩
        rw [hkeys] at hi
        have hxs : ((List.range' 1 ((w + 1) / 2 - 1)).zip
            ((List.range' 1 (w / 2)).map fun r => (List.range' 1 (h / 2)).map fun c => mrTw T w h r c))[i]'(by
              rw [hkeys]; exact hi)
            = (1 + i, (List.range' 1 (h / 2)).map fun c => mrTw T w h (1 + i) c) := by
          simp [List.getElem_range']
        rw [hxs]
        obtain ⟨b2, e2, l2, v2⟩ := mrRow_ok (r := 1 + i) (buf0 := buf) hlb (by omega) (by omega) (by
          intro p hp
          by_cases hpl : p < w * h
          · rw [hvb p hpl, if_neg (by omega)]
          · rw [nth_of_ge (by omega), nth_of_ge (by omega)])
        refine ⟨b2, e2, l2, fun p hp => ?_⟩
        have hr := div_lt_of_lt_mul' hp
        rw [v2 p hp]
        by_cases hrow : p / h = 1 + i ∨ p / h = w - (1 + i)
        · rw [if_pos hrow, if_pos (by omega)]
        · rw [if_neg hrow, hvb p hp]
          by_cases hC : p / h = 0 ∨ p / h ≤ i ∨ w - p / h ≤ i
          · rw [if_pos hC, if_pos (by omega)]
          · rw [if_neg hC, if_neg (by omega)])
    simp only [e1, ok_bind, hkeys] at v1 ⊢
    by_cases heven : w % 2 = 0
    · rw [if_pos heven]
      have hdrop : ((List.map (fun r => (List.range' 1 (h / 2)).map fun c => mrTw T w h r c)
          (List.range' 1 (w / 2))).drop ((w + 1) / 2 - 1)).head?
          = some ((List.range' 1 (h / 2)).map fun c => mrTw T w h (w / 2) c) := by
        rw [List.head?_drop, List.getElem?_map, List.getElem?_range' (by omega)]
        simp; intro a _ _; congr 1; omega
      rw [hdrop]
      simp only
      obtain ⟨b2, e2, l2, v2⟩ := mrMid_ok (r := w / 2) (buf0 := buf) l1 (by omega) (by omega) (by
        intro p hp
        by_cases hpl : p < w * h
        · rw [v1 p hpl, if_neg (by omega)]
        · rw [nth_of_ge (by omega), nth_of_ge (by omega)])
      rw [e2]
      congr 1
      refine eq_tab l2 fun p hp => ?_
      have hr := div_lt_of_lt_mul' hp
      rw [v2 p hp]
      by_cases h1 : p / h = w / 2
      · rw [if_pos h1]
      · rw [if_neg h1, v1 p hp, if_pos (by omega)]
    · rw [if_neg heven]
      congr 1
      refine eq_tab l1 fun p hp => ?_
      have hr := div_lt_of_lt_mul' hp
      rw [v1 p hp, if_pos (by omega)]

/-! ## The whole algorithm -/

/-- Rows after the transpose and the reversal of the rows behind the middle (steps 1 and 2). -/
def mrStep1 (w h : Nat) (x : List T) : List T :=
  tab (w * h) fun p => nth x (revRow w h (p / h) (p % h) * w + p / h)

/-- The chunk transform of `MixedRadix`. -/
def mrFn (w h : Nat) (fw fh : List T → List T) (x : List T) : List T :=
  let a3 := mapChunks h fh (mrStep1 w h x)
  let a4 := tab (w * h) fun p => mrVal w h a3 (p / h) (p % h)
  let a5 := tab (h * w) fun p => nth a4 (p % w * h + p / w)
  let a6 := mapChunks w fw a5
  let a7 := tab (h * w) fun p => nth a6 (p / w * w + (if p / w < (h + 1) / 2 then p % w else w - 1 - p % w))
  tab (w * h) fun p => nth a7 (p % h * w + p / h)

theorem mrStep12_ok {w h : Nat} (hw : 0 < w) (hh : 0 < h) {x out : List T} (hx : x.length = w * h)
    (ho : out.length = w * h) :
    (transpose x out w h >>= fun s => reverseChunksFrom (mrReversalRowBegin w * h) h s)
      = .ok (mrStep1 w h x) := by
  have hb : mrReversalRowBegin w = w / 2 + 1 := by unfold mrReversalRowBegin; split <;> omega
  rw [transpose_ok hx ho, ok_bind, hb, reverseChunksFrom_tab hh (show w / 2 + 1 ≤ w ∨ w = 1 by omega |>.elim id
    (fun h => by omega)) (by simp)]
  congr 1
  apply tab_congr
  intro p hp
  have hq := mod_lt_of_lt_mul hp
  have hc := div_lt_of_lt_mul' hp
  have : revRow w h (p / h) (p % h) = if p / h < w / 2 + 1 then p % h else h - 1 - p % h := rfl
  have hlt : revRow w h (p / h) (p % h) < h := by rw [this]; split <;> omega
  rw [← this, nth_tab (pos_lt hc hlt), div_of_lt hlt, mod_of_lt hlt]

theorem mr_performs {wd hd : Dht T} {fw fh : List T → List T} (iw : Implements wd fw) (ih : Implements hd fh)
    (hw : 0 < wd.len) (hh : 0 < hd.len) :
    Performs (wd.len * hd.len) (mrInplaceScratch (wd.len * hd.len) wd hd) (mrOopScratch (wd.len * hd.len) wd hd)
      (mrFn wd.len hd.len fw fh)
      (mrPerformInplace wd hd wd.len hd.len (wd.len * hd.len) (mrTwiddles T wd.len hd.len))
      (mrPerformOop wd hd wd.len hd.len (mrTwiddles T wd.len hd.len)) := by
  obtain ⟨w, hwe⟩ : ∃ w, wd.len = w := ⟨_, rfl⟩
  obtain ⟨h, hhe⟩ : ∃ h, hd.len = h := ⟨_, rfl⟩
  have lw := iw.length
  have lh := ih.length
  rw [hwe] at hw lw ⊢
  rw [hhe] at hh lh ⊢
  have hcomm : h * w = w * h := Nat.mul_comm h w
  have hleh : h ≤ w * h := Nat.le_mul_of_pos_left _ hw
  have hlew : w ≤ w * h := Nat.le_mul_of_pos_right _ hh
  have h1 : ∀ x, (mrStep1 w h x : List T).length = w * h := fun x => length_tab _ _
  have h3 : ∀ x, (mapChunks h fh (mrStep1 w h x)).length = w * h := fun x => by
    rw [length_mapChunks hh lh, h1]
  have h6 : ∀ f : Nat → T, (mapChunks w fw (tab (h * w) f)).length = h * w := fun f => by
    rw [length_mapChunks hw lw, length_tab]
  refine ⟨fun x _ => by simp [mrFn], ?_, ?_⟩
  · intro x s hx hs
    have hcase : ∃ L, mrInplaceScratch (w * h) wd hd = w * h + L ∧ wd.oopScratchLen ≤ L ∧
        (L > w * h → hd.inplaceScratchLen ≤ L) ∧ (¬ L > w * h → hd.inplaceScratchLen ≤ w * h) := by
      refine ⟨max (if hd.inplaceScratchLen > w * h then hd.inplaceScratchLen else 0) wd.oopScratchLen, rfl,
        le_max_right _ _, ?_, ?_⟩
      · intro hL
        by_cases hg : hd.inplaceScratchLen > w * h
        · simp only [if_pos hg]; omega
        · omega
      · intro hL; by_contra hc
        exact hL (lt_of_lt_of_le (show w * h < hd.inplaceScratchLen by omega)
          (le_trans (le_of_eq (if_pos (by omega)).symm) (le_max_left _ _)))
    obtain ⟨L, hL, hL1, hL2, hL3⟩ := hcase
    rw [hL] at hs ⊢
    have hs1 : (s.take (w * h)).length = w * h := by rw [List.length_take]; omega
    have hs2 : (s.drop (w * h)).length = L := by rw [List.length_drop]; omega
    have step12 := mrStep12_ok hw hh hx hs1
    have tail : ∀ b inner : List T, b.length = w * h → inner.length = L → ∃ s', (do
        let scratch ← mrApplyTwiddles w h (mrTwiddles T w h) (mapChunks h fh (mrStep1 w h x))
        let buffer ← transpose scratch b h w
        let (buffer, scratch, innerScratch) ← wd.processOop buffer scratch inner
        let scratch ← reverseChunksFrom ((h + 1) / 2 * w) w scratch
        let buffer ← transpose scratch buffer w h
        Except.ok (buffer, scratch ++ innerScratch) : Res (List T × List T))
          = .ok (mrFn w h fw fh x, s') ∧ s'.length = w * h + L := by
      intro b inner lb li
      obtain ⟨i', s', e5, l5, ls5, _⟩ := iw.oop
        (tab (h * w) fun p => nth (tab (w * h) fun p => mrVal w h (mapChunks h fh (mrStep1 w h x)) (p / h) (p % h))
          (p % w * h + p / w))
        (tab (w * h) fun p => mrVal w h (mapChunks h fh (mrStep1 w h x)) (p / h) (p % h)) inner
        (by simp [hcomm]) (by rw [length_tab, hwe, hcomm]; exact hlew)
        (by rw [length_tab, hwe]; exact dvd_mul_left _ _) (by omega)
      rw [hwe] at e5
      refine ⟨?s, ?e, ?l⟩
      case e =>
        rw [mrApplyTwiddles_ok hw hh (h3 x), ok_bind, transpose_ok (by simp [hcomm]) (by omega), ok_bind]
        simp only [e5, ok_bind]
        rw [reverseChunksFrom_tab (m := h) hw (by omega) (h6 _), ok_bind,
          transpose_ok (by simp [hcomm]) (by rw [l5, length_tab, hcomm]), ok_bind]
        rfl
      case l => rw [List.length_append, length_tab, ls5, li, hcomm]
    unfold mrPerformInplace
    rw [splitAt_ok (by omega), ok_bind]
    simp only
    rw [← bind_assoc (x := transpose x _ w h), step12, ok_bind]
    by_cases hgt : (s.drop (w * h)).length > x.length
    · rw [if_pos hgt]
      rw [hs2, hx] at hgt
      obtain ⟨s', e, ls, _⟩ := ih.inplace (mrStep1 w h x) (s.drop (w * h)) (by rw [h1, hhe]; exact hleh)
        (by rw [h1, hhe]; exact dvd_mul_left _ _) (by rw [hs2]; exact hL2 hgt)
      rw [e, ok_bind, hhe]
      exact tail x s' hx (by rw [ls, hs2])
    · rw [if_neg hgt]
      rw [hs2, hx] at hgt
      obtain ⟨s', e, ls, _⟩ := ih.inplace (mrStep1 w h x) x (by rw [h1, hhe]; exact hleh)
        (by rw [h1, hhe]; exact dvd_mul_left _ _) (by rw [hx]; exact hL3 hgt)
      rw [e, ok_bind, hhe]
      exact tail s' _ (by rw [ls, hx]) hs2
  · intro x o s hx ho hs
    have hcase : (s.length > w * h → hd.inplaceScratchLen ≤ s.length ∧ wd.inplaceScratchLen ≤ s.length) ∧
        (¬ s.length > w * h → hd.inplaceScratchLen ≤ w * h ∧ wd.inplaceScratchLen ≤ w * h) := by
      rw [hs, mrOopScratch]
      split <;> omega
    have step12 := mrStep12_ok hw hh hx ho
    have tail2 : ∀ a o s1 : List T, a.length = h * w → o.length = w * h → s1.length = s.length →
        ∃ i' s', (do
          let (input, output, scratch) ← if s1.length > o.length then do
              let (input, scratch) ← wd.processWithScratch a s1
              Except.ok (input, o, scratch)
            else do
              let (input, output) ← wd.processWithScratch a o
              Except.ok (input, output, s1)
          let input ← reverseChunksFrom ((h + 1) / 2 * w) w input
          let output ← transpose input output w h
          Except.ok (input, output, scratch) : Res (List T × List T × List T)) = .ok (i', tab (w * h) (fun p =>
            nth (tab (h * w) fun p => nth (mapChunks w fw a)
              (p / w * w + (if p / w < (h + 1) / 2 then p % w else w - 1 - p % w))) (p % h * w + p / h)), s') ∧
          i'.length = w * h ∧ s'.length = s.length := by
      intro a o s1 ha ho ls1
      have hlen : (mapChunks w fw a).length = h * w := by rw [length_mapChunks hw lw, ha]
      by_cases hgt : s1.length > o.length
      · rw [if_pos hgt]
        rw [ho, ls1] at hgt
        obtain ⟨s', e, ls, _⟩ := iw.inplace a s1 (by rw [ha, hwe, hcomm]; exact hlew)
          (by rw [ha, hwe]; exact dvd_mul_left _ _) (by rw [ls1]; exact (hcase.1 hgt).2)
        refine ⟨?i, s', ?e, ?l, by rw [ls, ls1]⟩
        case e =>
          rw [e, ok_bind, hwe]
          simp only [ok_bind]
          rw [reverseChunksFrom_tab (m := h) hw (by omega) hlen, ok_bind, transpose_ok (by simp [hcomm]) ho, ok_bind]
        case l => simp [hcomm]
      · rw [if_neg hgt]
        rw [ho, ls1] at hgt
        obtain ⟨s', e, ls, _⟩ := iw.inplace a o (by rw [ha, hwe, hcomm]; exact hlew)
          (by rw [ha, hwe]; exact dvd_mul_left _ _) (by rw [ho]; exact (hcase.2 hgt).2)
        refine ⟨?i, s1, ?e, ?l, ls1⟩
        case e =>
          rw [e, ok_bind, hwe]
          simp only [ok_bind]
          rw [reverseChunksFrom_tab (m := h) hw (by omega) hlen, ok_bind,
            transpose_ok (by simp [hcomm]) (by rw [ls, ho]), ok_bind]
        case l => simp [hcomm]
    have tail : ∀ i1 s1 : List T, i1.length = w * h → s1.length = s.length → ∃ i' s', (do
        let output ← mrApplyTwiddles w h (mrTwiddles T w h) (mapChunks h fh (mrStep1 w h x))
        let input ← transpose output i1 h w
        let (input, output, scratch) ← if s1.length > output.length then do
            let (input, scratch) ← wd.processWithScratch input s1
            Except.ok (input, output, scratch)
          else do
            let (input, output) ← wd.processWithScratch input output
            Except.ok (input, output, s1)
        let input ← reverseChunksFrom ((h + 1) / 2 * w) w input
        let output ← transpose input output w h
        Except.ok (input, output, scratch) : Res (List T × List T × List T))
          = .ok (i', mrFn w h fw fh x, s') ∧ i'.length = w * h ∧ s'.length = s.length := by
      intro i1 s1 l1 ls1
      rw [mrApplyTwiddles_ok hw hh (h3 x), ok_bind, transpose_ok (by simp [hcomm]) (by omega), ok_bind]
      exact tail2 _ _ s1 (by simp) (by simp) ls1
    rw [← hs]
    unfold mrPerformOop
    rw [← bind_assoc (x := transpose x _ w h), step12, ok_bind]
    by_cases hgt : s.length > x.length
    · rw [if_pos hgt]
      rw [hx] at hgt
      obtain ⟨s', e, ls, _⟩ := ih.inplace (mrStep1 w h x) s (by rw [h1, hhe]; exact hleh)
        (by rw [h1, hhe]; exact dvd_mul_left _ _) (hcase.1 hgt).1
      rw [e, ok_bind, hhe]
      exact tail x s' hx ls
    · rw [if_neg hgt]
      rw [hx] at hgt
      obtain ⟨s', e, ls, _⟩ := ih.inplace (mrStep1 w h x) x (by rw [h1, hhe]; exact hleh)
        (by rw [h1, hhe]; exact dvd_mul_left _ _) (by rw [hx]; exact (hcase.2 hgt).1)
      rw [e, ok_bind, hhe]
      exact tail s' s (by rw [ls, hx]) rfl

theorem mixedRadix_implements {wd hd : Dht T} {fw fh : List T → List T} (iw : Implements wd fw)
    (ih : Implements hd fh) : Implements (mixedRadix wd hd) (mrFn wd.len hd.len fw fh) := by
  refine boilerplateDht_implements (fun h => ?_) (fun h => ?_)
  · exact mr_performs iw ih (Nat.pos_of_mul_pos_right h) (Nat.pos_of_mul_pos_left h)
  · simp [mrFn]; simpa using h

theorem mixedRadix_rejects {wd hd : Dht T} {fw fh : List T → List T} (iw : Implements wd fw)
    (ih : Implements hd fh) (hpos : 0 < (mixedRadix wd hd).len) : Rejects (mixedRadix wd hd) :=
  boilerplateDht_rejects hpos (mr_performs iw ih (Nat.pos_of_mul_pos_right hpos) (Nat.pos_of_mul_pos_left hpos))

end RustDHT
