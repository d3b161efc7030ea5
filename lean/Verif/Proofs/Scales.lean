import Verif.Proofs.LocalStage
import Verif.Proofs.Plan

/-! # Steps with exact numbers that multiply all distances by the same factor -/

set_option linter.unusedSectionVars false

namespace RustDHT

open Finset

/-- `E` multiplies norms and distances by `a`. -/
structure Scales (n : ℕ) (a : ℝ) (E : List ℝ → List ℝ) : Prop where
  len : ∀ X, X.length = n → (E X).length = n
  dist : ∀ X Y, X.length = n → Y.length = n →
    nrm n (fun i => nth (E X) i - nth (E Y) i) = a * nrm n (fun i => nth X i - nth Y i)
  norm : ∀ X, X.length = n → nrm n (nth (E X)) = a * nrm n (nth X)

/-- Every list of length `n` is a value. -/
def Onto (n : ℕ) (J : List ℝ → List ℝ) : Prop := ∀ Y, Y.length = n → ∃ X, X.length = n ∧ J X = Y

theorem Scales.congr {n : ℕ} {a : ℝ} {E E' : List ℝ → List ℝ} (h : Scales n a E) (he : ∀ X, X.length = n → E' X = E X) :
    Scales n a E' := by
  refine ⟨fun X hX => by rw [he X hX, h.len X hX], fun X Y hX hY => ?_, fun X hX => ?_⟩
  · rw [he X hX, he Y hY, h.dist X Y hX hY]
  · rw [he X hX, h.norm X hX]

theorem Scales.comp {n : ℕ} {a b : ℝ} {E J : List ℝ → List ℝ} (h : Scales n a E) (hJ : Scales n b J) :
    Scales n (a * b) (fun x => E (J x)) := by
  refine ⟨fun X hX => h.len _ (hJ.len X hX), fun X Y hX hY => ?_, fun X hX => ?_⟩
  · rw [h.dist _ _ (hJ.len X hX) (hJ.len Y hY), hJ.dist X Y hX hY, mul_assoc]
  · rw [h.norm _ (hJ.len X hX), hJ.norm X hX, mul_assoc]

theorem Scales.of_comp_right {n : ℕ} {a b : ℝ} {E J : List ℝ → List ℝ} (h : Scales n (a * b) (fun x => E (J x)))
    (hJ : Scales n b J) (ho : Onto n J) : Scales n a E := by
  refine ⟨fun X hX => ?_, fun X Y hX hY => ?_, fun X hX => ?_⟩
  · obtain ⟨x, hx, rfl⟩ := ho X hX
    exact h.len x hx
  · obtain ⟨x, hx, rfl⟩ := ho X hX
    obtain ⟨y, hy, rfl⟩ := ho Y hY
    rw [h.dist x y hx hy, hJ.dist x y hx hy, mul_assoc]
  · obtain ⟨x, hx, rfl⟩ := ho X hX
    rw [h.norm x hx, hJ.norm x hx, mul_assoc]

theorem Scales.of_comp_left {n : ℕ} {a b : ℝ} {E L : List ℝ → List ℝ} (h : Scales n (b * a) (fun x => L (E x)))
    (hL : Scales n b L) (hb : 0 < b) (hE : ∀ X, X.length = n → (E X).length = n) : Scales n a E := by
  refine ⟨hE, fun X Y hX hY => ?_, fun X hX => ?_⟩
  · have h1 := h.dist X Y hX hY
    rw [hL.dist _ _ (hE X hX) (hE Y hY), mul_assoc] at h1
    exact mul_left_cancel₀ hb.ne' h1
  · have h1 := h.norm X hX
    rw [hL.norm _ (hE X hX), mul_assoc] at h1
    exact mul_left_cancel₀ hb.ne' h1

theorem Onto.comp {n : ℕ} {E J : List ℝ → List ℝ} (h : Onto n E) (hJ : Onto n J) : Onto n (fun x => E (J x)) := by
  intro Y hY
  obtain ⟨y, hy, rfl⟩ := h Y hY
  obtain ⟨x, hx, rfl⟩ := hJ y hy
  exact ⟨x, hx, rfl⟩

theorem scales_dht (n : ℕ) : Scales n √n dht :=
  ⟨fun X hX => by rw [length_dht, hX], fun _ _ hX hY => nrm_dht_sub hX hY, fun _ hX => nrm_dht hX⟩

theorem scales_perm {n : ℕ} {σ : ℕ → ℕ} (h : ∀ i < n, σ i < n) (hi : ∀ i < n, ∀ j < n, σ i = σ j → i = j) :
    Scales n 1 (fun x => tab n fun i => nth x (σ i)) := by
  refine ⟨fun _ _ => length_tab _ _, fun X Y _ _ => ?_, fun X _ => ?_⟩
  · rw [one_mul, ← nrm_perm (f := fun i => nth X i - nth Y i) h hi]
    exact nrm_congr fun i hi => by rw [nth_tab hi, nth_tab hi]
  · rw [one_mul, ← nrm_perm (f := nth X) h hi]
    exact nrm_congr fun i hi => by rw [nth_tab hi]

theorem onto_perm {n : ℕ} {σ : ℕ → ℕ} (h : ∀ i < n, σ i < n) (hi : ∀ i < n, ∀ j < n, σ i = σ j → i = j) :
    Onto n (fun x => tab n fun i => nth x (σ i)) := by
  intro Y hY
  have himg : ∀ j < n, ∃ i < n, σ i = j := by
    have himg : (range n).image σ = range n := by
      refine eq_of_subset_of_card_le (fun j hj => ?_) ?_
      · obtain ⟨i, hi', rfl⟩ := mem_image.1 hj
        exact mem_range.2 (h i (mem_range.1 hi'))
      · rw [card_image_of_injOn fun i h1 j h2 e => hi i (mem_range.1 (mem_coe.1 h1)) j (mem_range.1 (mem_coe.1 h2)) e]
    intro j hj
    rw [← mem_range, ← himg] at hj
    obtain ⟨i, hi', e⟩ := mem_image.1 hj
    exact ⟨i, mem_range.1 hi', e⟩
  choose! τ ht using himg
  refine ⟨tab n fun j => nth Y (τ j), length_tab _ _, ?_⟩
  refine (eq_tab hY fun i hi' => ?_).symm
  rw [nth_tab (h i hi')]
  congr 1
  exact (hi _ (ht _ (h i hi')).1 i hi' (ht _ (h i hi')).2).symm

theorem scales_chunks {k h : ℕ} {a : ℝ} {E : List ℝ → List ℝ} (st : Scales h a E) (hh : 0 < h) (ha : 0 ≤ a) :
    Scales (k * h) a (mapChunks h E) := by
  have bound : ∀ {r : ℕ}, r < k → (r + 1) * h ≤ k * h := fun hr => Nat.mul_le_mul_right h hr
  have clen : ∀ {r : ℕ} (x : List ℝ), x.length = k * h → r < k → ((x.drop (r * h)).take h).length = h := by
    intro r x hx hr
    have := bound hr
    rw [List.length_take, List.length_drop, hx]
    rw [Nat.add_mul] at this
    omega
  have cnth : ∀ {r c : ℕ} (X : List ℝ), X.length = k * h → r < k → c < h →
      nth (mapChunks h E X) (r * h + c) = nth (E ((X.drop (r * h)).take h)) c :=
    fun X hX hr hc => nth_mapChunks st.len hc (by rw [hX]; exact bound hr)
  have dnth : ∀ {r c : ℕ} (X : List ℝ), c < h → nth ((X.drop (r * h)).take h) c = nth X (r * h + c) :=
    fun X hc => by rw [nth_take hc, nth_drop]
  refine ⟨fun x hx => by rw [length_mapChunks hh st.len, hx], fun X Y hX hY => ?_, fun X hX => ?_⟩
  · rw [nrm_blocks, nrm_blocks, ← nrm_mul _ ha]
    refine nrm_congr fun r hr => ?_
    refine Eq.trans (nrm_congr fun c hc => ?_) ((st.dist _ _ (clen X hX hr) (clen Y hY hr)).trans ?_)
    · rw [cnth X hX hr hc, cnth Y hY hr hc]
    · congr 1
      exact nrm_congr fun c hc => by rw [dnth X hc, dnth Y hc]
  · rw [nrm_blocks, nrm_blocks, ← nrm_mul _ ha]
    refine nrm_congr fun r hr => ?_
    refine Eq.trans (nrm_congr fun c hc => ?_) ((st.norm _ (clen X hX hr)).trans ?_)
    · rw [cnth X hX hr hc]
    · congr 1
      exact nrm_congr fun c hc => by rw [dnth X hc]

theorem nth_map_zero {α β : Type} [Zero α] [Zero β] {f : α → β} (h : f 0 = 0) (l : List α) (i : ℕ) : nth (l.map f) i = f (nth l i) := by
  unfold nth
  rw [List.getElem?_map]
  cases l[i]? with
  | none => exact h.symm
  | some a => rfl

theorem onto_dht {n : ℕ} (hn : 0 < n) : Onto n dht := by
  intro Y hY
  have hn' : (n : ℝ) ≠ 0 := by exact_mod_cast hn.ne'
  refine ⟨(dht Y).map fun a => a / n, by simp [hY], ?_⟩
  have hl : ((dht Y).map fun a => a / (n : ℝ)).length = n := by simp [hY]
  refine list_ext_nth (by rw [length_dht, hl, hY]) fun k hk => ?_
  rw [length_dht, hl] at hk
  have hd := dht_dht Y
  have e1 : nth (dht (dht Y)) k = n * nth Y k := by
    rw [hd, nth_map_zero (by simp) , hY]
  have e2 : nth (dht (dht Y)) k = hart n (nth (dht Y)) k := nth_dht (by rw [length_dht, hY]) hk
  rw [nth_dht hl hk]
  have e3 : hart n (nth ((dht Y).map fun a => a / (n : ℝ))) k = hart n (nth (dht Y)) k / n := by
    unfold hart
    rw [sum_div]
    refine sum_congr rfl fun i _ => ?_
    rw [nth_map_zero (by simp)]
    ring
  rw [e3, ← e2, e1]
  field_simp

theorem onto_chunks {k h : ℕ} {E : List ℝ → List ℝ} (st : Onto h E) (hl : ∀ x, x.length = h → (E x).length = h) (hh : 0 < h) :
    Onto (k * h) (mapChunks h E) := by
  intro Y hY
  choose! J hJ using st
  refine ⟨mapChunks h J Y, by rw [length_mapChunks hh fun x hx => (hJ x hx).1, hY], ?_⟩
  have hl1 : (mapChunks h J Y).length = k * h := by rw [length_mapChunks hh fun x hx => (hJ x hx).1, hY]
  refine list_ext_nth (by rw [length_mapChunks hh hl, hl1, hY]) fun p hp => ?_
  rw [length_mapChunks hh hl, hl1] at hp
  have h1 : p / h < k := (Nat.div_lt_iff_lt_mul hh).2 hp
  have h2 := Nat.mod_lt p hh
  have hb : (p / h + 1) * h ≤ k * h := Nat.mul_le_mul_right h h1
  have hcl : ((Y.drop (p / h * h)).take h).length = h := by
    rw [List.length_take, List.length_drop, hY]
    rw [Nat.add_mul] at hb
    omega
  rw [← div_mod_eq h p, nth_mapChunks hl h2 (by rw [hl1]; exact hb)]
  have e : ((mapChunks h J Y).drop (p / h * h)).take h = J ((Y.drop (p / h * h)).take h) := by
    refine list_ext_nth ?_ fun c hc => ?_
    · rw [(hJ _ hcl).1, List.length_take, List.length_drop, hl1]
      rw [Nat.add_mul] at hb
      omega
    · have hc' : c < h := lt_of_lt_of_le hc (List.length_take_le _ _)
      rw [nth_take hc', nth_drop, nth_mapChunks (fun x hx => (hJ x hx).1) hc' (by rw [hY]; exact hb)]
  rw [e, (hJ _ hcl).2, nth_take h2, nth_drop]

end RustDHT
