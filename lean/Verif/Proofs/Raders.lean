import Verif.Proofs.Boilerplate
import Verif.Proofs.PrimitiveRoot

/-! # `RadersAlgorithm`: closed form and contract, for every number type -/

set_option linter.unusedSectionVars false

namespace RustDHT

variable {T : Type}

theorem set_tab {α : Type} {n i : Nat} {f : Nat → α} {v : α} :
    (tab n f).set i v = tab n fun j => if j = i then v else f j := by
  apply List.ext_getElem
  · simp
  · intro j h1 h2
    rw [List.getElem_set, getElem_tab, getElem_tab]
    by_cases h : i = j
    · subst h; simp
    · rw [if_neg h, if_neg (Ne.symm h)]

theorem tab_congr' {α : Type} {n : Nat} {f g : Nat → α} (h : ∀ i < n, f i = g i) : tab n f = tab n g := by
  apply List.ext_getElem
  · simp
  · intro j h1 h2
    rw [getElem_tab, getElem_tab]
    exact h j (by simpa using h1)

theorem tab_const {α : Type} {n : Nat} {v : α} : tab n (fun _ => v) = List.replicate n v := by
  apply List.ext_getElem
  · simp
  · intro j h1 h2
    rw [getElem_tab, List.getElem_replicate]

/-! ## Powers and discrete logarithms -/

/-- The products of all residues with `g` fit into 64 bits. -/
theorem steps_lt {g p : Nat} (hp : p ≤ 2 ^ 32) (hg : g < p) : (p - 1) * g < 2 ^ 64 := mul_lt_of_lt_two_pow hp (by omega) hg

theorem stepIndex_ok {a f p : Nat} (hp : (p - 1) * f < 2 ^ 64) (h0 : 0 < p) :
    stepIndex (a % p) f p = .ok (a * f % p) := by
  have : a % p * f ≤ (p - 1) * f := Nat.mul_le_mul_right _ (by have := Nat.mod_lt a h0; omega)
  rw [stepIndex, mulU64_ok (by omega), ok_bind, remU64_ok h0, Nat.mod_mul_mod]

theorem stepIndex_pow {g j p : Nat} (hp : (p - 1) * g < 2 ^ 64) (hf : g < p) :
    stepIndex (g ^ j % p) g p = .ok (g ^ (j + 1) % p) := by
  rw [stepIndex_ok hp (by omega), pow_succ]

theorem pow_mod_pos {g p : Nat} (hp : p.Prime) (h0 : 0 < g) (hg : g < p) (j : Nat) : 0 < g ^ j % p := by
  rw [Nat.pos_iff_ne_zero]
  intro h
  have := hp.dvd_of_dvd_pow (Nat.dvd_of_mod_eq_zero h)
  exact Nat.not_dvd_of_pos_of_lt h0 hg this

theorem pow_mod_inj {g p : Nat} (ho : orderOf (g : ZMod p) = p - 1) {i j : Nat} (hi : i < p - 1)
    (hj : j < p - 1) (h : g ^ i % p = g ^ j % p) : i = j := by
  have h2 : (g : ZMod p) ^ i = (g : ZMod p) ^ j := by
    have := (ZMod.natCast_eq_natCast_iff' (g ^ i) (g ^ j) p).2 h
    push_cast at this
    exact this
  exact pow_injOn_Iio_orderOf (by simpa [ho] using hi) (by simpa [ho] using hj) h2

theorem pow_mod_surj {g p : Nat} (hp : p.Prime) (h0 : 0 < g) (hg : g < p) (ho : orderOf (g : ZMod p) = p - 1)
    {q : Nat} (hq0 : 0 < q) (hq : q < p) : ∃ j, j < p - 1 ∧ g ^ j % p = q := by
  have hsub : (Finset.range (p - 1)).image (fun j => g ^ j % p) ⊆ Finset.Ico 1 p := by
    intro y hy
    obtain ⟨j, _, rfl⟩ := Finset.mem_image.1 hy
    rw [Finset.mem_Ico]
    exact ⟨pow_mod_pos hp h0 hg j, Nat.mod_lt _ hp.pos⟩
  have hcard : ((Finset.range (p - 1)).image (fun j => g ^ j % p)).card = p - 1 := by
    rw [Finset.card_image_of_injOn, Finset.card_range]
    intro i hi j hj h
    simp only [Finset.coe_range, Set.mem_Iio] at hi hj
    exact pow_mod_inj ho hi hj h
  have heq := Finset.eq_of_subset_of_card_le hsub (by rw [hcard]; simp)
  have : q ∈ (Finset.range (p - 1)).image (fun j => g ^ j % p) := by
    rw [heq, Finset.mem_Ico]; exact ⟨hq0, hq⟩
  obtain ⟨j, hj, h⟩ := Finset.mem_image.1 this
  exact ⟨j, Finset.mem_range.1 hj, h⟩

/-- The exponent `j < p - 1` with `g ^ j % p = q`. -/
def dlog (g p q : Nat) : Nat := (List.range (p - 1)).findIdx fun j => decide (g ^ j % p = q)

theorem dlog_spec {g p : Nat} (hp : p.Prime) (h0 : 0 < g) (hg : g < p) (ho : orderOf (g : ZMod p) = p - 1)
    {q : Nat} (hq0 : 0 < q) (hq : q < p) : dlog g p q < p - 1 ∧ g ^ dlog g p q % p = q := by
  obtain ⟨j, hj, hjq⟩ := pow_mod_surj hp h0 hg ho hq0 hq
  have hlt : dlog g p q < (List.range (p - 1)).length := by
    rw [dlog, List.findIdx_lt_length]
    exact ⟨j, by simpa using hj, by simpa using hjq⟩
  have := List.findIdx_getElem (xs := List.range (p - 1)) (p := fun j => decide (g ^ j % p = q)) (w := hlt)
  have h2 : (List.range (p - 1))[dlog g p q] = dlog g p q := List.getElem_range hlt
  have h3 : g ^ (List.range (p - 1))[dlog g p q] % p = q := decide_eq_true_iff.1 this
  rw [h2] at h3
  rw [List.length_range] at hlt
  exact ⟨hlt, h3⟩

theorem orderOf_inverse {g gi p : Nat} (hmul : (g : ZMod p) * (gi : ZMod p) = 1) :
    orderOf (gi : ZMod p) = orderOf (g : ZMod p) := by
  let u : (ZMod p)ˣ := ⟨g, gi, hmul, by rw [mul_comm]; exact hmul⟩
  have h1 : (g : ZMod p) = (u : ZMod p) := rfl
  have h2 : (gi : ZMod p) = ((u⁻¹ : (ZMod p)ˣ) : ZMod p) := rfl
  rw [h1, h2, orderOf_units, orderOf_units, orderOf_inv]

variable [Add T] [Sub T] [Mul T] [Zero T] [FftNum T]

/-! ## The constructor's table -/

/-- The input of the constructor's inner transform. -/
def rdKernel (T : Type) [Add T] [Mul T] [FftNum T] (p gi : Nat) : List T :=
  tab (p - 1) fun i => computeDhtTwiddle T (gi ^ i % p) p *
    FftNum.fromF64 ((FftNum.f64 (T := T)).div ((FftNum.f64 (T := T)).ofNat 1) ((FftNum.f64 (T := T)).ofNat (p - 1)))

theorem radersKernelInput_ok {p gi : Nat} (hp : (p - 1) * gi < 2 ^ 64) (h1 : 1 < p) (hgi : gi < p) :
    radersKernelInput T (p - 1) p gi = .ok (rdKernel T p gi) := by
  unfold radersKernelInput
  simp only
  obtain ⟨⟨b, t⟩, e, hb, ht⟩ := forRange_ok (lo := 0) (hi := p - 1) (s := (List.replicate (p - 1) (0 : T), 1))
    (body := fun i (input, twiddleInput) => do
      let input ← setI input i (computeDhtTwiddle T twiddleInput p * FftNum.fromF64
        ((FftNum.f64 (T := T)).div ((FftNum.f64 (T := T)).ofNat 1) ((FftNum.f64 (T := T)).ofNat (p - 1))))
      let twiddleInput ← stepIndex twiddleInput gi p
      .ok (input, twiddleInput))
    (fun i s => s.1 = tab (p - 1) (fun j => if j < i then computeDhtTwiddle T (gi ^ j % p) p * FftNum.fromF64
        ((FftNum.f64 (T := T)).div ((FftNum.f64 (T := T)).ofNat 1) ((FftNum.f64 (T := T)).ofNat (p - 1))) else 0) ∧
      s.2 = gi ^ i % p) (by omega)
    ⟨by rw [← tab_const]; rfl, by simp [Nat.mod_eq_of_lt h1]⟩
    (by
      rintro i ⟨b, t⟩ _ hi ⟨hb, ht⟩
      simp only at hb ht
      subst hb ht
      refine ⟨⟨_, _⟩, ?_, rfl, rfl⟩
      simp only
      rw [setI_ok (by simpa using hi), ok_bind, stepIndex_pow hp hgi, ok_bind, set_tab]
      congr 2
      apply tab_congr'
      intro j hj
      by_cases hji : j = i
      · subst hji; rw [if_pos rfl, if_pos (by omega)]
      · rw [if_neg hji]
        by_cases hlt : j < i
        · rw [if_pos hlt, if_pos (by omega)]
        · rw [if_neg hlt, if_neg (by omega)])
  rw [e, ok_bind]
  simp only at hb
  rw [hb]
  congr 1
  exact tab_congr' fun j hj => if_pos hj

/-- Entry `i` of the table, from the transformed kernel `x` of length `n`. -/
def rdTw (x : List T) (n i : Nat) : Cx T :=
  if i = 0 ∨ i = n / 2 then { re := nth x i, im := 0 } else
    { re := (nth x i + nth x (n - i)) * FftNum.halfF32, im := (nth x i - nth x (n - i)) * FftNum.halfF32 }

theorem radersTwiddles_ok {x : List T} {n : Nat} (hx : x.length = n) (hn : 2 ≤ n) :
    radersTwiddles x = .ok (tab (n / 2 + 1) (rdTw x n)) := by
  unfold radersTwiddles
  rw [hx]
  simp only
  rw [getI_nth (by omega), ok_bind, setI_ok (by simp), ok_bind, ← tab_const, set_tab]
  obtain ⟨b, e, hb⟩ := forRange_ok (lo := 1) (hi := n / 2)
    (s := tab (n / 2 + 1) fun j => if j = 0 then ({ re := nth x 0, im := 0 } : Cx T) else { re := 0, im := 0 })
    (body := fun i tw => do
      let a ← getI x i
      let b ← getI x (n - i)
      setI tw i { re := (a + b) * FftNum.halfF32, im := (a - b) * FftNum.halfF32 })
    (fun i s => s = tab (n / 2 + 1) fun j => if j < i then rdTw x n j else { re := 0, im := 0 }) (by omega)
    (tab_congr' fun j _ => by
      by_cases h : j = 0
      · subst h; rw [if_pos rfl, if_pos (by omega), rdTw, if_pos (.inl rfl)]
      · rw [if_neg h, if_neg (by omega)])
    (by
      rintro i _ hi1 hi2 rfl
      refine ⟨_, ?_, rfl⟩
      rw [getI_nth (by omega), ok_bind, getI_nth (by omega), ok_bind, setI_ok (by simp; omega), set_tab]
      congr 1
      apply tab_congr'
      intro j _
      by_cases hji : j = i
      · subst hji; rw [if_pos rfl, if_pos (by omega), rdTw, if_neg (by omega)]
      · rw [if_neg hji]
        by_cases hlt : j < i
        · rw [if_pos hlt, if_pos (by omega)]
        · rw [if_neg hlt, if_neg (by omega)])
  rw [e, ok_bind, getI_nth (by omega), ok_bind, hb, setI_ok (by simp), set_tab]
  congr 1
  apply tab_congr'
  intro j hj
  by_cases hji : j = n / 2
  · rw [if_pos hji, rdTw, if_pos (.inr hji), hji]
  · rw [if_neg hji, if_pos (by omega)]

/-! ## The steps -/

theorem radersGather_ok {g p : Nat} (hp : p.Prime) (h32 : (p - 1) * g < 2 ^ 64) (h0 : 0 < g) (hg : g < p) {src dst : List T}
    (hs : src.length = p - 1) (hd : dst.length = p - 1) :
    radersGather g p src dst = .ok (tab (p - 1) fun j => nth src (g ^ j % p - 1)) := by
  unfold radersGather
  rw [hd]
  obtain ⟨⟨b, t⟩, e, hb1, hb2, _⟩ := forRange_ok (lo := 0) (hi := p - 1) (s := (dst, 1))
    (body := fun j (dst, inputIndex) => do
      let p' ← pred inputIndex
      let v ← getI src p'
      let dst ← setI dst j v
      let inputIndex ← stepIndex inputIndex g p
      .ok (dst, inputIndex))
    (fun i s => s.1.length = p - 1 ∧ (∀ j, j < i → nth s.1 j = nth src (g ^ j % p - 1)) ∧ s.2 = g ^ i % p) (by omega)
    ⟨hd, by omega, by simp [Nat.mod_eq_of_lt hp.one_lt]⟩
    (by
      rintro i ⟨b, t⟩ _ hi ⟨hb1, hb2, ht⟩
      simp only at hb1 hb2 ht
      subst ht
      have hpos := pow_mod_pos hp h0 hg i
      have hlt : g ^ i % p < p := Nat.mod_lt _ hp.pos
      refine ⟨⟨b.set i (nth src (g ^ i % p - 1)), _⟩, ?_, by simpa using hb1, ?_, rfl⟩
      · simp only
        rw [pred, if_neg (by omega), ok_bind, getI_nth (by omega), ok_bind, setI_ok (by omega), ok_bind,
          stepIndex_pow h32 hg, ok_bind]
      · intro j hj
        simp only
        rw [nth_set (by omega)]
        by_cases hji : j = i
        · rw [if_pos hji, hji]
        · rw [if_neg hji, hb2 j (by omega)])
  rw [e, ok_bind]
  simp only
  congr 1
  exact eq_tab hb1 hb2

theorem radersScatter_ok {g p : Nat} (hp : p.Prime) (h32 : (p - 1) * g < 2 ^ 64) (h0 : 0 < g) (hg : g < p)
    (ho : orderOf (g : ZMod p) = p - 1) {src dst : List T} (hs : src.length = p - 1) (hd : dst.length = p - 1) :
    radersScatter g p src dst = .ok (tab (p - 1) fun q => nth src (dlog g p (q + 1))) := by
  unfold radersScatter
  obtain ⟨⟨b, t⟩, e, hb1, hb2, _⟩ := forList_ok (xs := src) (s := (dst, 1))
    (body := fun v (dst, outputIndex) => do
      let p' ← pred outputIndex
      let dst ← setI dst p' v
      let outputIndex ← stepIndex outputIndex g p
      .ok (dst, outputIndex))
    (fun i s => s.1.length = p - 1 ∧ (∀ j, j < i → nth s.1 (g ^ j % p - 1) = nth src j) ∧ s.2 = g ^ i % p)
    ⟨hd, by omega, by simp [Nat.mod_eq_of_lt hp.one_lt]⟩
    (by
      rintro i hi ⟨b, t⟩ ⟨hb1, hb2, ht⟩
      simp only at hb1 hb2 ht
      subst ht
      have hpos := pow_mod_pos hp h0 hg i
      have hlt : g ^ i % p < p := Nat.mod_lt _ hp.pos
      refine ⟨⟨b.set (g ^ i % p - 1) src[i], _⟩, ?_, by simpa using hb1, ?_, rfl⟩
      · simp only
        rw [pred, if_neg (by omega), ok_bind, setI_ok (by omega), ok_bind, stepIndex_pow h32 hg, ok_bind]
      · intro j hj
        simp only
        rw [nth_set (by omega)]
        by_cases hji : j = i
        · subst hji; rw [if_pos rfl, nth_eq_getElem hi]
        · have hposj := pow_mod_pos hp h0 hg j
          rw [if_neg, hb2 j (by omega)]
          intro hc
          exact hji (pow_mod_inj ho (by omega) (by omega) (by omega)))
  rw [e, ok_bind]
  simp only
  congr 1
  refine eq_tab hb1 fun q hq => ?_
  obtain ⟨h1, h2⟩ := dlog_spec hp h0 hg ho (q := q + 1) (by omega) (by omega)
  have := hb2 (dlog g p (q + 1)) (by omega)
  rw [h2] at this
  exact this

/-- The product of the transformed input `y` with the table, entry `i` of `n`. -/
def rdMul (y : List T) (tw : Nat → Cx T) (n i : Nat) : T :=
  if i = 0 then nth y 0 * (tw 0).re
  else if i < n / 2 then (tw i).re * nth y i + (tw i).im * nth y (n - i)
  else if i = n / 2 then nth y i * (tw i).re
  else (tw (n - i)).re * nth y i - (tw (n - i)).im * nth y (n - i)

theorem radersMulInplace_ok {y : List T} {tw : Nat → Cx T} {n : Nat} (hy : y.length = n) (hn : 2 ≤ n)
    (he : n % 2 = 0) : radersMulInplace (tab (n / 2 + 1) tw) y = .ok (tab n (rdMul y tw n)) := by
  have htw : ∀ i, i ≤ n / 2 → getI (tab (n / 2 + 1) tw) i = .ok (tw i) := by
    intro i hi
    rw [getI_ok (by simp; omega), getElem_tab]
  unfold radersMulInplace
  simp only [hy]
  rw [getI_nth (by omega), ok_bind, htw 0 (by omega), ok_bind, setI_ok (by omega), ok_bind]
  obtain ⟨b, e, hb1, hb2⟩ := forRange_ok (lo := 1) (hi := n / 2) (s := y.set 0 (nth y 0 * (tw 0).re))
    (body := fun i b => do
      let inputFwd ← getI b i
      let inputRev ← getI b (n - i)
      let twiddle ← getI (tab (n / 2 + 1) tw) i
      let b ← setI b i (twiddle.re * inputFwd + twiddle.im * inputRev)
      setI b (n - i) (twiddle.re * inputRev - twiddle.im * inputFwd))
    (fun i b => b.length = n ∧ ∀ j, j < n → nth b j = if j < i ∨ n - i < j then rdMul y tw n j else nth y j) (by omega)
    ⟨by simpa using hy, fun j hj => by
      rw [nth_set (by omega)]
      by_cases h : j = 0
      · subst h; rw [if_pos rfl, if_pos (by omega), rdMul, if_pos rfl]
      · rw [if_neg h, if_neg (by omega)]⟩
    (by
      rintro i b hi1 hi2 ⟨hb1, hb2⟩
      have v1 : nth b i = nth y i := by rw [hb2 i (by omega), if_neg (by omega)]
      have v2 : nth b (n - i) = nth y (n - i) := by rw [hb2 _ (by omega), if_neg (by omega)]
      refine ⟨_, by
        rw [getI_nth (by omega), ok_bind, getI_nth (by omega), ok_bind, htw i (by omega), ok_bind, setI_ok (by omega),
          ok_bind, setI_ok (by simp; omega)], by simpa using hb1, fun j hj => ?_⟩
      rw [nth_set (by simp; omega), nth_set (by omega), v1, v2]
      by_cases h1 : j = n - i
      · rw [if_pos h1, if_pos (by omega), rdMul, if_neg (by omega), if_neg (by omega), if_neg (by omega), h1,
          show n - (n - i) = i by omega]
      · rw [if_neg h1]
        by_cases h2 : j = i
        · rw [if_pos h2, if_pos (by omega), rdMul, if_neg (by omega), if_pos (by omega), h2]
        · rw [if_neg h2, hb2 j hj]
          by_cases h3 : j < i ∨ n - i < j
          · rw [if_pos h3, if_pos (by omega)]
          · rw [if_neg h3, if_neg (by omega)])
  rw [e, ok_bind, if_pos he, getI_nth (by omega), ok_bind, htw _ le_rfl, ok_bind, setI_ok (by omega)]
  congr 1
  refine eq_tab (by simpa using hb1) fun j hj => ?_
  rw [nth_set (by omega)]
  by_cases h1 : j = n / 2
  · rw [if_pos h1, hb2 _ (by omega), if_neg (by omega), rdMul, if_neg (by omega), if_neg (by omega), if_pos h1, h1]
  · rw [if_neg h1, hb2 j hj, if_pos (by omega)]

theorem radersMulOop_ok {y : List T} {tw : Nat → Cx T} {n : Nat} (hy : y.length = n) (hn : 2 ≤ n)
    (he : n % 2 = 0) {inp : List T} (hi : inp.length = n) :
    radersMulOop (tab (n / 2 + 1) tw) y inp = .ok (tab n (rdMul y tw n)) := by
  have htw : ∀ i, i ≤ n / 2 → getI (tab (n / 2 + 1) tw) i = .ok (tw i) := by
    intro i hi
    rw [getI_ok (by simp; omega), getElem_tab]
  unfold radersMulOop
  simp only [hy]
  rw [getI_nth (by omega), ok_bind, htw 0 (by omega), ok_bind, setI_ok (by omega), ok_bind]
  obtain ⟨b, e, hb1, hb2⟩ := forRange_ok (lo := 1) (hi := n / 2) (s := inp.set 0 (nth y 0 * (tw 0).re))
    (body := fun i input => do
      let inputFwd ← getI y i
      let inputRev ← getI y (n - i)
      let twiddle ← getI (tab (n / 2 + 1) tw) i
      let input ← setI input i (twiddle.re * inputFwd + twiddle.im * inputRev)
      setI input (n - i) (twiddle.re * inputRev - twiddle.im * inputFwd))
    (fun i b => b.length = n ∧ ∀ j, j < n → j < i ∨ n - i < j → nth b j = rdMul y tw n j) (by omega)
    ⟨by simpa using hi, fun j hj h => by
      have : j = 0 := by omega
      subst this
      rw [nth_set (by omega), if_pos rfl, rdMul, if_pos rfl]⟩
    (by
      rintro i b hi1 hi2 ⟨hb1, hb2⟩
      refine ⟨_, by
        rw [getI_nth (by omega), ok_bind, getI_nth (by omega), ok_bind, htw i (by omega), ok_bind, setI_ok (by omega),
          ok_bind, setI_ok (by simp; omega)], by simpa using hb1, fun j hj h => ?_⟩
      rw [nth_set (by simp; omega), nth_set (by omega)]
      by_cases h1 : j = n - i
      · rw [if_pos h1, rdMul, if_neg (by omega), if_neg (by omega), if_neg (by omega), h1,
          show n - (n - i) = i by omega]
      · rw [if_neg h1]
        by_cases h2 : j = i
        · rw [if_pos h2, rdMul, if_neg (by omega), if_pos (by omega), h2]
        · rw [if_neg h2, hb2 j hj (by omega)])
  rw [e, ok_bind, hb1, if_pos he, getI_nth (by omega), ok_bind, htw _ le_rfl, ok_bind, setI_ok (by omega)]
  congr 1
  refine eq_tab (by simpa using hb1) fun j hj => ?_
  rw [nth_set (by omega)]
  by_cases h1 : j = n / 2
  · rw [if_pos h1, rdMul, if_neg (by omega), if_neg (by omega), if_pos h1, h1]
  · rw [if_neg h1, hb2 j hj (by omega)]

/-! ## The whole algorithm -/

/-- The reordered input. -/
def rdIn (p g : Nat) (x : List T) : List T := tab (p - 1) fun j => nth x (g ^ j % p)

/-- The input of the second inner transform. -/
def rdMid (p : Nat) (tw : Nat → Cx T) (x0 : T) (y : List T) : List T :=
  tab (p - 1) fun i => if i = 0 then rdMul y tw (p - 1) 0 + x0 else rdMul y tw (p - 1) i

/-- The chunk transform of `RadersAlgorithm`. -/
def rdFn (p g gi : Nat) (tw : Nat → Cx T) (f : List T → List T) (x : List T) : List T :=
  (nth x 0 + nth (f (rdIn p g x)) 0) ::
    tab (p - 1) fun q => nth (f (rdMid p tw (nth x 0) (f (rdIn p g x)))) (dlog gi p (q + 1))

/-- The inner transform, applied to exactly one chunk. -/
theorem Implements.one {d : Dht T} {f : List T → List T} (h : Implements d f) (hpos : 0 < d.len) {b s : List T}
    (hb : b.length = d.len) (hs : d.inplaceScratchLen ≤ s.length) :
    ∃ s', d.processWithScratch b s = .ok (f b, s') ∧ s'.length = s.length := by
  obtain ⟨s', e, hl, _⟩ := h.inplace b s (by omega) (by rw [hb]) hs
  rw [mapChunks_single hpos hb] at e
  exact ⟨s', e, hl⟩

theorem set_zero_tab {n : Nat} {f : Nat → T} {v : T} :
    (tab n f).set 0 v = tab n fun i => if i = 0 then v else f i := set_tab

theorem rd_tail_nth {x0 : T} {x : List T} {q : Nat} (hq : 0 < q) : nth x (q - 1) = nth (x0 :: x) q := by
  obtain ⟨k, rfl⟩ : ∃ k, q = k + 1 := ⟨q - 1, by omega⟩
  simp [nth]

/-- `radersPerformInplace` with different inner objects for the two calls. -/
def radersPerformInplace2 (innerDht innerDht2 : Dht T) (len root rootInv : Nat) (twiddles : List (Cx T))
    (buffer scratch : List T) : Res (List T × List T) :=
  match buffer with
  | [] => panic .unwrapNone
  | bufferFirst :: buffer => do
    let bufferFirstVal := bufferFirst
    let (innerBuf, extra) ← splitAt scratch (len - 1)
    let innerBuf ← radersGather root len buffer innerBuf
    -- `inner_scratch` borrows `extra_scratch` or `buffer`
    let useExtra := extra.length > 0
    let (innerBuf, innerScratch) ← innerDht.processWithScratch innerBuf (if useExtra then extra else buffer)
    let (extra, buffer) := if useExtra then (innerScratch, buffer) else (extra, innerScratch)
    let b0 ← getI innerBuf 0
    let bufferFirst := bufferFirst + b0
    let innerBuf ← radersMulInplace twiddles innerBuf
    let b0 ← getI innerBuf 0
    let innerBuf ← setI innerBuf 0 (b0 + bufferFirstVal)
    let (innerBuf, innerScratch) ← innerDht2.processWithScratch innerBuf (if useExtra then extra else buffer)
    let (extra, buffer) := if useExtra then (innerScratch, buffer) else (extra, innerScratch)
    let buffer ← radersScatter rootInv len innerBuf buffer
    .ok (bufferFirst :: buffer, innerBuf ++ extra)

/-- `radersPerformOop` with different inner objects for the two calls. -/
def radersPerformOop2 (innerDht innerDht2 : Dht T) (len root rootInv : Nat) (twiddles : List (Cx T))
    (input output scratch : List T) : Res (List T × List T × List T) :=
  match output, input with
  | [], _ => panic .unwrapNone
  | _, [] => panic .unwrapNone
  | _ :: output, inputFirst :: input => do
    let output ← radersGather root len input output
    let useScratch := scratch.length > 0
    let (output, innerScratch) ← innerDht.processWithScratch output (if useScratch then scratch else input)
    let (scratch, input) := if useScratch then (innerScratch, input) else (scratch, innerScratch)
    let o0 ← getI output 0
    let outputFirst := inputFirst + o0
    let input ← radersMulOop twiddles output input
    let i0 ← getI input 0
    let input ← setI input 0 (i0 + inputFirst)
    let useScratch := scratch.length > 0
    let (input, innerScratch) ← innerDht2.processWithScratch input (if useScratch then scratch else output)
    let (scratch, output) := if useScratch then (innerScratch, output) else (scratch, innerScratch)
    let output ← radersScatter rootInv len input output
    .ok (inputFirst :: input, outputFirst :: output, scratch)

theorem raders_performs2 {d d2 : Dht T} {f : List T → List T} (hd : Implements d f) (hd2 : Implements d2 f)
    (hlen2 : d2.len = d.len) (hs2 : d2.inplaceScratchLen = d.inplaceScratchLen) {p g gi : Nat} (hlen : d.len = p - 1)
    (hp : p.Prime) (h2 : p ≠ 2) (h32 : (p - 1) * g < 2 ^ 64) (h32' : (p - 1) * gi < 2 ^ 64) (hg0 : 0 < g) (hg : g < p) (hgi0 : 0 < gi) (hgi : gi < p)
    (hgio : orderOf (gi : ZMod p) = p - 1) (tw : Nat → Cx T) {extra : Nat}
    (hextra : extra = if d.inplaceScratchLen ≤ p - 1 then 0 else d.inplaceScratchLen) :
    Performs p (p - 1 + extra) extra (rdFn p g gi tw f)
      (radersPerformInplace2 d d2 p g gi (tab ((p - 1) / 2 + 1) tw))
      (radersPerformOop2 d d2 p g gi (tab ((p - 1) / 2 + 1) tw)) := by
  have hp2 := hp.two_le
  have hodd : p % 2 = 1 := hp.eq_two_or_odd.resolve_left h2
  have hlf := hd.length
  rw [hlen] at hlf
  have hpos : 0 < d.len := by omega
  have hl1 : ∀ x : List T, (rdIn p g x).length = p - 1 := fun x => length_tab _ _
  have hl2 : ∀ x : List T, (f (rdIn p g x)).length = p - 1 := fun x => hlf _ (hl1 x)
  have hl3 : ∀ x0 (y : List T), (rdMid p tw x0 y).length = p - 1 := fun _ _ => length_tab _ _
  have hgather : ∀ (x0 : T) (x dst : List T), x.length = p - 1 → dst.length = p - 1 →
      radersGather g p x dst = .ok (rdIn p g (x0 :: x)) := by
    intro x0 x dst hx hdst
    rw [radersGather_ok hp h32 hg0 hg hx hdst]
    congr 1
    exact tab_congr fun j _ => rd_tail_nth (pow_mod_pos hp hg0 hg j)
  -- `b[0] += first`
  have hset : ∀ (x0 : T) (y : List T), (do
      let b0 ← getI (tab (p - 1) (rdMul y tw (p - 1))) 0
      setI (tab (p - 1) (rdMul y tw (p - 1))) 0 (b0 + x0)) = .ok (rdMid p tw x0 y) := by
    intro x0 y
    rw [getI_nth (by simp; omega), ok_bind, setI_ok (by simp; omega), set_zero_tab, nth_tab (by omega)]
    rfl
  refine ⟨fun x _ => by simp [rdFn]; omega, ?_, ?_⟩
  · intro c s hc hs
    obtain ⟨x0, x, rfl⟩ : ∃ x0 x, c = x0 :: x := by
      cases c with
      | nil => simp at hc; omega
      | cons a l => exact ⟨a, l, rfl⟩
    have hx : x.length = p - 1 := by simp at hc; omega
    have hsc : ∀ e b : List T, e.length = extra → b.length = p - 1 →
        d.inplaceScratchLen ≤ (if e.length > 0 then e else b).length := by
      intro e b he hb
      split
      · rename_i h
        rw [he, hextra] at *
        split at h
        · omega
        · rw [if_neg (by assumption)]
      · rename_i h
        rw [he, hextra] at h
        split at h
        · omega
        · omega
    unfold radersPerformInplace2
    simp only
    have hse : (s.drop (p - 1)).length = extra := by simp; omega
    rw [splitAt_ok (by omega), ok_bind]
    simp only
    rw [hgather x0 x _ hx (by simp; omega), ok_bind]
    set y := f (rdIn p g (x0 :: x)) with hy
    have hyl : y.length = p - 1 := hl2 _
    obtain ⟨s1, e1, hs1⟩ := hd.one hpos (b := rdIn p g (x0 :: x)) (s := if (s.drop (p - 1)).length > 0 then s.drop (p - 1) else x)
      (by rw [hl1, hlen]) (hsc _ _ hse hx)
    rw [e1, ok_bind]
    simp only
    rw [← hy]
    -- after the first inner transform the two scratch candidates keep their lengths
    obtain ⟨e2, b2, he2, hb2, heq⟩ : ∃ e2 b2 : List T, e2.length = extra ∧ b2.length = p - 1 ∧
        (if (s.drop (p - 1)).length > 0 then (s1, x) else (s.drop (p - 1), s1)) = (e2, b2) := by
      by_cases h : (s.drop (p - 1)).length > 0
      · rw [if_pos h] at hs1 ⊢
        exact ⟨s1, x, by omega, hx, rfl⟩
      · rw [if_neg h] at hs1 ⊢
        exact ⟨_, s1, hse, by omega, rfl⟩
    rw [heq]
    simp only
    rw [getI_nth (by omega), ok_bind, radersMulInplace_ok hyl (by omega) (by omega), ok_bind]
    have hset' := hset x0 y
    rw [getI_nth (by simp; omega), ok_bind] at hset' ⊢
    rw [hset', ok_bind]
    have hcond : ((s.drop (p - 1)).length > 0) = (e2.length > 0) := by rw [hse, he2]
    simp only [hcond]
    obtain ⟨s3, e3, hs3⟩ := hd2.one (by omega) (b := rdMid p tw x0 y) (s := if e2.length > 0 then e2 else b2)
      (by rw [hl3, hlen2, hlen]) (by rw [hs2]; exact hsc _ _ he2 hb2)
    rw [e3, ok_bind]
    simp only
    obtain ⟨e4, b4, he4, hb4, heq4⟩ : ∃ e4 b4 : List T, e4.length = extra ∧ b4.length = p - 1 ∧
        (if e2.length > 0 then (s3, b2) else (e2, s3)) = (e4, b4) := by
      by_cases h : e2.length > 0
      · rw [if_pos h] at hs3 ⊢
        exact ⟨s3, b2, by omega, hb2, rfl⟩
      · rw [if_neg h] at hs3 ⊢
        exact ⟨_, s3, he2, by omega, rfl⟩
    rw [heq4]
    simp only
    rw [radersScatter_ok hp h32' hgi0 hgi hgio (hlf _ (hl3 _ _)) hb4, ok_bind]
    refine ⟨_, rfl, ?_⟩
    rw [List.length_append, hlf _ (hl3 _ _), he4]
  · intro inp out s hi ho hs
    obtain ⟨x0, x, rfl⟩ : ∃ x0 x, inp = x0 :: x := by
      cases inp with
      | nil => simp at hi; omega
      | cons a l => exact ⟨a, l, rfl⟩
    obtain ⟨o0, o, rfl⟩ : ∃ x0 x, out = x0 :: x := by
      cases out with
      | nil => simp at ho; omega
      | cons a l => exact ⟨a, l, rfl⟩
    have hx : x.length = p - 1 := by simp at hi; omega
    have hol : o.length = p - 1 := by simp at ho; omega
    have hsc : ∀ e b : List T, e.length = extra → b.length = p - 1 →
        d.inplaceScratchLen ≤ (if e.length > 0 then e else b).length := by
      intro e b he hb
      split
      · rename_i h
        rw [he, hextra] at *
        split at h
        · omega
        · rw [if_neg (by assumption)]
      · rename_i h
        rw [he, hextra] at h
        split at h
        · omega
        · omega
    unfold radersPerformOop2
    simp only
    rw [hgather x0 x _ hx hol, ok_bind]
    set y := f (rdIn p g (x0 :: x)) with hy
    have hyl : y.length = p - 1 := hl2 _
    obtain ⟨s1, e1, hs1⟩ := hd.one hpos (b := rdIn p g (x0 :: x)) (s := if s.length > 0 then s else x)
      (by rw [hl1, hlen]) (hsc _ _ hs hx)
    rw [e1, ok_bind]
    simp only
    rw [← hy]
    obtain ⟨e2, b2, he2, hb2, heq⟩ : ∃ e2 b2 : List T, e2.length = extra ∧ b2.length = p - 1 ∧
        (if s.length > 0 then (s1, x) else (s, s1)) = (e2, b2) := by
      by_cases h : s.length > 0
      · rw [if_pos h] at hs1 ⊢
        exact ⟨s1, x, by omega, hx, rfl⟩
      · rw [if_neg h] at hs1 ⊢
        exact ⟨_, s1, hs, by omega, rfl⟩
    rw [heq]
    simp only
    rw [getI_nth (by omega), ok_bind, radersMulOop_ok hyl (by omega) (by omega) hb2, ok_bind]
    have hset' := hset x0 y
    rw [getI_nth (by simp; omega), ok_bind] at hset' ⊢
    rw [hset', ok_bind]
    obtain ⟨s3, e3, hs3⟩ := hd2.one (by omega) (b := rdMid p tw x0 y) (s := if e2.length > 0 then e2 else y)
      (by rw [hl3, hlen2, hlen]) (by rw [hs2]; exact hsc _ _ he2 hyl)
    rw [e3, ok_bind]
    simp only
    obtain ⟨e4, b4, he4, hb4, heq4⟩ : ∃ e4 b4 : List T, e4.length = extra ∧ b4.length = p - 1 ∧
        (if e2.length > 0 then (s3, y) else (e2, s3)) = (e4, b4) := by
      by_cases h : e2.length > 0
      · rw [if_pos h] at hs3 ⊢
        exact ⟨s3, y, by omega, hyl, rfl⟩
      · rw [if_neg h] at hs3 ⊢
        exact ⟨_, s3, he2, by omega, rfl⟩
    rw [heq4]
    simp only
    rw [radersScatter_ok hp h32' hgi0 hgi hgio (hlf _ (hl3 _ _)) hb4, ok_bind]
    refine ⟨_, _, rfl, ?_, he4⟩
    rw [List.length_cons, hlf _ (hl3 _ _)]
    omega

theorem raders_performs {d : Dht T} {f : List T → List T} (hd : Implements d f) {p g gi : Nat} (hlen : d.len = p - 1)
    (hp : p.Prime) (h2 : p ≠ 2) (h32 : (p - 1) * g < 2 ^ 64) (h32' : (p - 1) * gi < 2 ^ 64) (hg0 : 0 < g) (hg : g < p) (hgi0 : 0 < gi) (hgi : gi < p)
    (hgio : orderOf (gi : ZMod p) = p - 1) (tw : Nat → Cx T) {extra : Nat}
    (hextra : extra = if d.inplaceScratchLen ≤ p - 1 then 0 else d.inplaceScratchLen) :
    Performs p (p - 1 + extra) extra (rdFn p g gi tw f)
      (radersPerformInplace d p g gi (tab ((p - 1) / 2 + 1) tw))
      (radersPerformOop d p g gi (tab ((p - 1) / 2 + 1) tw)) :=
  raders_performs2 hd hd rfl rfl hlen hp h2 h32 h32' hg0 hg hgi0 hgi hgio tw hextra

/-! ## The constructor -/

/-- What the constructor of Rader's algorithm produces when it returns. -/
structure RadersData (d : Dht T) (f : List T → List T) (p g gi : Nat) (d' : Dht T) : Prop where
  len : d.len + 1 = p
  prime : p.Prime
  odd : p ≠ 2
  small : p < 2 ^ 32
  g_gt : 1 < g
  g_lt : g < p
  g_order : orderOf (g : ZMod p) = p - 1
  gi_pos : 0 < gi
  gi_lt : gi < p
  g_mul : (g : ZMod p) * (gi : ZMod p) = 1
  gi_order : orderOf (gi : ZMod p) = p - 1
  eq : d' = boilerplateDht p (p - 1 + if d.inplaceScratchLen ≤ p - 1 then 0 else d.inplaceScratchLen)
    (if d.inplaceScratchLen ≤ p - 1 then 0 else d.inplaceScratchLen)
    (radersPerformInplace d p g gi (tab ((p - 1) / 2 + 1) (rdTw (f (rdKernel T p gi)) (p - 1))))
    (radersPerformOop d p g gi (tab ((p - 1) / 2 + 1) (rdTw (f (rdKernel T p gi)) (p - 1))))

theorem raders_new_root {d : Dht T} {f : List T → List T} (hd : Implements d f) (hp : (d.len + 1).Prime)
    (h2 : d.len + 1 ≠ 2) (h32 : d.len + 1 < 2 ^ 32) :
    ∃ g d', raders d = .ok d' ∧ primitiveRoot (d.len + 1) = .ok (some g) ∧
      RadersData d f (d.len + 1) g (rootInverse g (d.len + 1)) d' := by
  obtain ⟨g, eg, hg1, hg, ho, _⟩ := primitiveRoot_ok hp h2 h32
  obtain ⟨hi0, hi, him⟩ := rootInverse_ok hp (by omega) hg
  have hio := (orderOf_inverse him).trans ho
  have hp2 := hp.two_le
  refine ⟨g, _, ?_, eg, ⟨rfl, hp, h2, h32, hg1, hg, ho, hi0, hi, him, hio, rfl⟩⟩
  unfold raders
  simp only
  have hk := radersKernelInput_ok (T := T) (p := d.len + 1) (steps_lt h32.le hi) (by omega) hi
  have hkl : (rdKernel T (d.len + 1) (rootInverse g (d.len + 1))).length = d.len := by simp [rdKernel]
  rw [millerRabin, decide_eq_true hp, assert_true, ok_bind, eg, ok_bind]
  simp only
  rw [Nat.add_sub_cancel] at hk
  rw [hk, ok_bind, hd.process (by omega) (by rw [hkl]), ok_bind, mapChunks_single (by omega) hkl,
    radersTwiddles_ok (hd.length _ hkl) (by omega), ok_bind]
  simp only [Nat.add_sub_cancel]

theorem raders_new {d : Dht T} {f : List T → List T} (hd : Implements d f) (hp : (d.len + 1).Prime)
    (h2 : d.len + 1 ≠ 2) (h32 : d.len + 1 < 2 ^ 32) :
    ∃ g gi d', raders d = .ok d' ∧ RadersData d f (d.len + 1) g gi d' := by
  obtain ⟨g, d', e, _, h⟩ := raders_new_root hd hp h2 h32
  exact ⟨g, _, d', e, h⟩

/-- The constructor returns only for odd primes below `2^32`. -/
theorem raders_new_only {d d' : Dht T} (h : raders d = .ok d') :
    (d.len + 1).Prime ∧ d.len + 1 ≠ 2 ∧ d.len + 1 < 2 ^ 32 := by
  have hp : (d.len + 1).Prime := by
    by_contra hc
    unfold raders at h
    simp only at h
    rw [millerRabin, decide_eq_false hc, assert_false, panic_bind] at h
    cases h
  unfold raders at h
  simp only at h
  rw [millerRabin, decide_eq_true hp, assert_true, ok_bind] at h
  refine ⟨hp, ?_, ?_⟩
  · intro h2
    rw [h2, primitiveRoot_two, ok_bind] at h
    cases h
  · by_contra hc
    have hne : d.len + 1 ≠ 2 ^ 32 := by
      intro he
      rw [he] at hp
      exact absurd hp (Nat.Prime.not_prime_pow (by norm_num))
    obtain ⟨k, e⟩ := primitiveRoot_overflow hp (by omega)
    rw [e, error_bind] at h
    cases h

theorem raders_data {d d' : Dht T} {f : List T → List T} (hd : Implements d f) (h : raders d = .ok d') :
    ∃ g gi, RadersData d f (d.len + 1) g gi d' := by
  obtain ⟨h1, h2, h3⟩ := raders_new_only h
  obtain ⟨g, gi, d'', e, hdata⟩ := raders_new hd h1 h2 h3
  rw [h] at e
  cases e
  exact ⟨g, gi, hdata⟩

theorem raders_data_root {d d' : Dht T} {f : List T → List T} (hd : Implements d f) (h : raders d = .ok d') :
    ∃ g, primitiveRoot (d.len + 1) = .ok (some g) ∧ RadersData d f (d.len + 1) g (rootInverse g (d.len + 1)) d' := by
  obtain ⟨h1, h2, h3⟩ := raders_new_only h
  obtain ⟨g, d'', e, eg, hdata⟩ := raders_new_root hd h1 h2 h3
  rw [h] at e
  cases e
  exact ⟨g, eg, hdata⟩

theorem RadersData.implements {d d' : Dht T} {f : List T → List T} {p g gi : Nat} (hd : Implements d f)
    (h : RadersData d f p g gi d') : Implements d' (rdFn p g gi (rdTw (f (rdKernel T p gi)) (p - 1)) f) := by
  rw [h.eq]
  have := h.prime.two_le
  refine boilerplateDht_implements (fun _ => ?_) (fun h0 => by omega)
  exact raders_performs hd (by have := h.len; omega) h.prime h.odd (steps_lt h.small.le h.g_lt) (steps_lt h.small.le h.gi_lt) (by have := h.g_gt; omega)
    h.g_lt h.gi_pos h.gi_lt h.gi_order _ rfl

theorem RadersData.rejects {d d' : Dht T} {f : List T → List T} {p g gi : Nat} (hd : Implements d f)
    (h : RadersData d f p g gi d') : Rejects d' := by
  rw [h.eq]
  have := h.prime.two_le
  exact boilerplateDht_rejects (by omega)
    (raders_performs hd (by have := h.len; omega) h.prime h.odd (steps_lt h.small.le h.g_lt) (steps_lt h.small.le h.gi_lt) (by have := h.g_gt; omega)
    h.g_lt h.gi_pos h.gi_lt h.gi_order _ rfl)

end RustDHT
