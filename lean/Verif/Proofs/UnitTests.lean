import Verif.Proofs.Harness
import Verif.Proofs.DhtLaws
import Verif.Model.UnitTests

/-! # The unit tests as programs, for every number type -/

set_option linter.unusedSectionVars false

namespace RustDHT

section
variable {T : Type} [Zero T] [Add T] [Sub T] [Mul T] [Neg T] [FftNum T] [TestNum T]

theorem chunksAux_map {n : ℕ} (hn : 0 < n) (f : List T → List T) (l : List T) (hd : n ∣ l.length) :
    (((chunksAux n l).zip (chunksAux n l)).map fun p => f p.1).flatten = mapChunks n f l := by
  induction l using chunk_induction hn with
  | hlt l h =>
    have : l = [] := List.length_eq_zero_iff.1 (Nat.eq_zero_of_dvd_of_lt hd h)
    subst this
    rw [chunksAux, mapChunks_nil]
    simp
  | hge l h ih =>
    rw [chunksAux, if_neg (by omega), mapChunks_of_ge hn h, ← ih (by rw [List.length_drop]; exact Nat.dvd_sub hd (dvd_refl _))]
    simp

theorem testMatches_ok [TestTrig T] {n : ℕ} (hn : 0 < n) {input : List T} (hl : n ≤ input.length) (hd : n ∣ input.length)
    {g : List T → List T} (hg : Implements (dhtNaive T n) g)
    (hc : compareRealVectors (mapChunks n (fun c => referenceDht c c) input) (mapChunks n g input) = .ok true) :
    testMatchesDhtLen n input = .ok () := by
  have hlen : (dhtNaive T n).len = n := dhtNaive_len _
  have hs0 : (dhtNaive T n).oopScratchLen = 0 := rfl
  have one : ∀ s : List T, (dhtNaive T n).inplaceScratchLen ≤ s.length →
      ∃ s', (dhtNaive T n).processWithScratch input s = .ok (mapChunks n g input, s') ∧ s'.length = s.length := by
    intro s hsl
    obtain ⟨s', e, ls, _⟩ := hg.inplace input s (by omega) (by rwa [hlen]) hsl
    rw [hlen] at e
    exact ⟨s', e, ls⟩
  have hfl : (mapChunks n (fun c : List T => referenceDht c c) input).length = input.length :=
    length_mapChunks hn (fun x hx => by simp [referenceDht, hx]) input
  have hgl : (mapChunks n g input).length = input.length := length_mapChunks hn (by simpa [hlen] using hg.length) input
  obtain ⟨s1, e1, l1⟩ := one (List.replicate (dhtNaive T n).inplaceScratchLen 0) (by simp)
  obtain ⟨s2, e2, l2⟩ := one (List.replicate s1.length TestNum.dirty) (by rw [l1]; simp)
  obtain ⟨i3, s3, e3, -⟩ := hg.oop input (mapChunks n (fun c => referenceDht c c) input) [] hfl (by omega) (by rwa [hlen])
    (by rw [hs0]; simp)
  rw [hlen] at e3
  have hexp : ((((chunksAux n input).zip (chunksAux n input)).map fun x : List T × List T => referenceDht x.1 x.2)).flatten
      = mapChunks n (fun c => referenceDht c c) input := by
    rw [← chunksAux_map hn _ _ hd]
    congr 1
    refine List.map_congr_left fun p hp => ?_
    have : p.1 = p.2 := by
      generalize chunksAux n input = L at hp
      induction L with
      | nil => simp at hp
      | cons a L ih =>
        rw [List.zip_cons_cons, List.mem_cons] at hp
        rcases hp with rfl | hp
        · rfl
        · exact ih hp
    rw [this]
  unfold testMatchesDhtLen
  simp only [chunks, if_neg hn.ne', ok_bind, hlen, beq_self_eq_true, assert_true]
  rw [hexp]
  simp only [Dht.process, e1, ok_bind, hc, assert_true, copyFromSlice, hgl, if_true, e2, e3]

theorem testZeroLength_ok (T : Type) [Add T] [Mul T] [Zero T] [FftNum T] : testZeroLength T = .ok () := rfl

theorem reversalTwiddles_eq {n : ℕ} {x : List T} (hx : x.length = n) :
    reversalTwiddles n x = .ok (tab n fun i =>
      (computeDftTwiddleForward T i n).im * nth x i + (computeDftTwiddleForward T i n).re * nth x ((n - i) % n)) := by
  refine forRange_setI_tab (fun i out hi ho => ?_) _ (by simp)
  have : (n - i) % n < n := Nat.mod_lt _ (by omega)
  simp only [getI_nth (show i < x.length by omega), getI_nth (show (n - i) % n < x.length by omega), ok_bind, setI,
    if_pos (show i < out.length by omega)]

/-- Every element of `twiddled_output2` is written, some twice. -/
theorem reversalTwiddles2_ok {n : ℕ} (hn : 0 < n) {x : List T} (hx : x.length = n) (P : ℕ → T → Prop)
    (h1 : ∀ i < n, P i ((computeDftTwiddleForward T i n).im * nth x i + (computeDftTwiddleForward T i n).re * nth x ((n - i) % n)))
    (h2 : ∀ i < n, P ((n - i) % n)
      (-(computeDftTwiddleForward T i n).im * nth x ((n - i) % n) + (computeDftTwiddleForward T i n).re * nth x i)) :
    ∃ y, reversalTwiddles2 n x = .ok y ∧ y.length = n ∧ ∀ j < n, P j (nth y j) := by
  have hbody : ∀ i < n, ∀ l : List T, l.length = n →
      (do
        let a ← getI x i
        let b ← getI x ((n - i) % n)
        let buffer ← setI l i ((computeDftTwiddleForward T i n).im * a + (computeDftTwiddleForward T i n).re * b)
        setI buffer ((n - i) % n) (-(computeDftTwiddleForward T i n).im * b + (computeDftTwiddleForward T i n).re * a))
      = .ok ((l.set i ((computeDftTwiddleForward T i n).im * nth x i + (computeDftTwiddleForward T i n).re * nth x ((n - i) % n))).set
          ((n - i) % n) (-(computeDftTwiddleForward T i n).im * nth x ((n - i) % n) + (computeDftTwiddleForward T i n).re * nth x i)) := by
    intro i hi l hl
    have : (n - i) % n < n := Nat.mod_lt _ (by omega)
    simp only [getI_nth (show i < x.length by omega), getI_nth (show (n - i) % n < x.length by omega), ok_bind, setI,
      List.length_set, if_pos (show i < l.length by omega), if_pos (show (n - i) % n < l.length by omega)]
  have hin : n / 2 + 1 ≤ n ∨ n = 1 := by omega
  obtain ⟨y, e, hy, hP⟩ := forRange_ok (lo := 0) (hi := n / 2 + 1) (s := List.replicate n (0 : T))
    (body := fun i l => do
        let a ← getI x i
        let b ← getI x ((n - i) % n)
        let buffer ← setI l i ((computeDftTwiddleForward T i n).im * a + (computeDftTwiddleForward T i n).re * b)
        setI buffer ((n - i) % n) (-(computeDftTwiddleForward T i n).im * b + (computeDftTwiddleForward T i n).re * a))
    (fun i l => l.length = n ∧ ∀ j < n, j < i ∨ (n - j) % n < i → P j (nth l j)) (by omega)
    ⟨by simp, by intro j _ h; omega⟩ (fun i l _ hi hl => by
      have hin : i < n := by omega
      have hr : (n - i) % n < n := Nat.mod_lt _ (by omega)
      refine ⟨_, hbody i hin l hl.1, by simpa using hl.1, fun j hj hc => ?_⟩
      rw [nth_set (by simp; omega)]
      split
      · next h => rw [h]; exact h2 i hin
      · next h =>
        rw [nth_set (by omega)]
        split
        · next h' => rw [h']; exact h1 i hin
        · next h' =>
          refine hl.2 j hj ?_
          rcases hc with hc | hc
          · left; omega
          · right
            refine lt_of_le_of_ne (by omega) fun he => h ?_
            rw [← he]
            rcases Nat.eq_zero_or_pos j with rfl | hj0
            · simp
            · rw [Nat.mod_eq_of_lt (show n - j < n by omega), Nat.sub_sub_self hj.le, Nat.mod_eq_of_lt hj])
  refine ⟨y, e, hy, fun j hj => hP j hj ?_⟩
  rcases Nat.eq_zero_or_pos j with rfl | hj0
  · left; omega
  · rw [Nat.mod_eq_of_lt (show n - j < n by omega)]
    omega

/-- Three comparisons make the test of the reversal property. -/
theorem testReversal_ok {n : ℕ} (hn : 0 < n) {x : List T} (hx : x.length = n) {g : List T → List T}
    (hg : Implements (dhtNaive T n) g) {t y y2 : List T} (ht : reversalTwiddles n x = .ok t) (hlt : t.length = n)
    (hy : reversalTwiddles n (g x) = .ok y) (hy2 : reversalTwiddles2 n (g x) = .ok y2)
    (c1 : compareRealVectors (g t) (g x).reverse = .ok true) (c2 : compareRealVectors y (g x.reverse) = .ok true)
    (c3 : compareRealVectors y2 (g x.reverse) = .ok true) : testReversalLen n x = .ok () := by
  have hlen : (dhtNaive T n).len = n := dhtNaive_len _
  have one : ∀ x : List T, x.length = n → (dhtNaive T n).process x = .ok (g x) := by
    intro x hx
    rw [hg.process (by omega) (by rw [hlen, hx]), hlen, mapChunks_single hn hx]
  unfold testReversalLen
  simp only [ht, one t hlt, one x hx, one x.reverse (by simpa using hx), ok_bind, c1, hy, hy2, c2, c3, assert_true]

theorem reverseTail_eq {x : List T} (hx : 0 < x.length) : reverseTail x = .ok (x.take 1 ++ (x.drop 1).reverse) := by
  unfold reverseTail
  simp only [splitAt, if_pos (show 1 ≤ x.length from hx), ok_bind]

theorem testDoubleReversal_ok {n : ℕ} (hn : 0 < n) {x : List T} (hx : x.length = n) {g : List T → List T}
    (hg : Implements (dhtNaive T n) g)
    (c : compareRealVectors (g x) ((g (x.take 1 ++ (x.drop 1).reverse)).take 1
      ++ ((g (x.take 1 ++ (x.drop 1).reverse)).drop 1).reverse) = .ok true) : testDoubleReversalLen n x = .ok () := by
  have hlen : (dhtNaive T n).len = n := dhtNaive_len _
  have one : ∀ x : List T, x.length = n → (dhtNaive T n).process x = .ok (g x) := by
    intro x hx
    rw [hg.process (by omega) (by rw [hlen, hx]), hlen, mapChunks_single hn hx]
  have hl : (x.take 1 ++ (x.drop 1).reverse).length = n := by simp; omega
  have hgl := hg.length _ (hl.trans hlen.symm)
  unfold testDoubleReversalLen
  dsimp only
  rw [one x hx, ok_bind, reverseTail_eq (by omega), ok_bind, one _ hl, ok_bind, reverseTail_eq (by omega), ok_bind, c, ok_bind,
    assert_true]

/-- A loop whose body never fails. -/
theorem forList_unit {α : Type} {xs : List α} {body : α → Unit → Res Unit} (h : ∀ a ∈ xs, body a () = .ok ()) :
    forList xs () body = .ok () := by
  induction xs with
  | nil => rfl
  | cons x xs ih => rw [forList_cons, h x List.mem_cons_self]; exact ih fun a ha => h a (List.mem_cons_of_mem _ ha)

theorem forRange_unit {lo hi : ℕ} {body : ℕ → Unit → Res Unit} (h : ∀ i, lo ≤ i → i < hi → body i () = .ok ()) :
    forRange lo hi () body = .ok () := by
  rw [forRange_eq]
  refine forList_unit fun i hi => ?_
  rw [List.mem_range'_1] at hi
  exact h i hi.1 (by omega)

end

end RustDHT
