import Verif.Proofs.ColumnStage
import Verif.Proofs.PlanDht

/-! # `MixedRadix` in stages -/

set_option linter.unusedSectionVars false

namespace RustDHT

open Finset

/-- Row or column `-r`. -/
def mirror (n r : ℕ) : ℕ := (n - r) % n

theorem mirror_lt {n : ℕ} (hn : 0 < n) (r : ℕ) : mirror n r < n := Nat.mod_lt _ hn

theorem mirror_pos {n r : ℕ} (h0 : r ≠ 0) (hr : r < n) : mirror n r = n - r := Nat.mod_eq_of_lt (by omega)

/-- The positions on which position `p` depends after `apply_twiddles`. -/
def mrσ (w h j p : ℕ) : ℕ :=
  (if j % 2 = 0 then p / h else mirror w (p / h)) * h + (if j / 2 = 0 then p % h else mirror h (p % h))

/-- `apply_twiddles`. -/
def mrTwist (w h : ℕ) : Poly := fun _ _ _ _ _ _ _ x => tab (w * h) fun p => mrVal w h x (p / h) (p % h)

section
variable {T T' : Type} [Zero T] [Add T] [Sub T] [Mul T] [Neg T] [FftNum T] [Zero T'] [Add T'] [Sub T'] [Mul T'] [Neg T'] [FftNum T']

theorem mrVal_rel {C R : T → T' → Prop} (hr : Respects C R) {w h : ℕ} {x : List T} {x' : List T'} (hl : LR R x x')
    (hx : x.length = w * h) {r c : ℕ} (hrw : r < w) (hch : c < h) : R (mrVal w h x r c) (mrVal w h x' r c) := by
  have hg : ∀ k, R (nth x k) (nth x' k) := by
    intro k
    rcases Nat.lt_or_ge k x.length with hk | hk
    · exact hl.nth hk
    · have hk' : x'.length ≤ k := by rw [← hl.length]; exact hk
      rw [nth, nth, List.getElem?_eq_none hk, List.getElem?_eq_none hk']
      exact hr.zero
  have ht : ∀ r c, 2 * r ≤ w → 2 * c ≤ h → CxRel C (mrTw T w h r c) (mrTw T' w h r c) := by
    intro a b ha hb
    refine hr.scaled ?_
    have h1 : 4 * (a * b) ≤ w * h := by
      calc 4 * (a * b) = (2 * a) * (2 * b) := by ring
        _ ≤ w * h := Nat.mul_le_mul ha hb
    have h2 : 0 < w * h := Nat.mul_pos (by omega) (by omega)
    omega
  unfold mrVal
  simp only
  split
  · exact hg _
  · split
    · split
      · exact hr.sub (hr.cmul (ht _ _ (by omega) (by omega)).re (hr.add (hg _) (hg _)))
          (hr.cmul (ht _ _ (by omega) (by omega)).im (hr.sub (hg _) (hg _)))
      · exact hr.sub (hr.cmul (ht _ _ (by omega) (by omega)).re (hr.add (hg _) (hg _)))
          (hr.cmul (ht _ _ (by omega) (by omega)).im (hr.sub (hg _) (hg _)))
    · split
      · split
        · exact hr.add (hr.cmul (ht _ _ (by omega) (by omega)).re (hr.sub (hg _) (hg _)))
            (hr.cmul (ht _ _ (by omega) (by omega)).im (hr.add (hg _) (hg _)))
        · exact hr.add (hr.cmul (ht _ _ (by omega) (by omega)).re (hr.sub (hg _) (hg _)))
            (hr.cmul (ht _ _ (by omega) (by omega)).im (hr.add (hg _) (hg _)))
      · split
        · exact hr.add (hr.cmul (ht _ _ (by omega) (by omega)).re (hr.sub (hg _) (hg _)))
            (hr.cmul (ht _ _ (by omega) (by omega)).im (hr.add (hg _) (hg _)))
        · exact hr.sub (hr.cmul (ht _ _ (by omega) (by omega)).re (hr.add (hg _) (hg _)))
            (hr.cmul (ht _ _ (by omega) (by omega)).im (hr.sub (hg _) (hg _)))

theorem tab_rel {R : T → T' → Prop} {n : ℕ} {f : ℕ → T} {g : ℕ → T'} (h : ∀ i < n, R (f i) (g i)) : LR R (tab n f) (tab n g) :=
  LR.table fun i hi => h i (List.mem_range.1 hi)

theorem mrVal_congr {w h r c : ℕ} (hr : r < w) (hc : c < h) {x y : List T}
    (e0 : nth x (r * h + c) = nth y (r * h + c)) (e1 : nth x (mirror w r * h + c) = nth y (mirror w r * h + c))
    (e2 : nth x (r * h + mirror h c) = nth y (r * h + mirror h c))
    (e3 : nth x (mirror w r * h + mirror h c) = nth y (mirror w r * h + mirror h c)) :
    mrVal w h x r c = mrVal w h y r c := by
  unfold mrVal
  simp only
  by_cases h0 : r = 0 ∨ c = 0
  · rw [if_pos h0, if_pos h0, e0]
  rw [if_neg h0, if_neg h0]
  rw [mirror_pos (by omega) hr] at e1 e3
  rw [mirror_pos (by omega) hc] at e2 e3
  have k1 : h - (h - c) = c := by omega
  have k2 : w - (w - r) = r := by omega
  simp only [k1, k2, e0, e1, e2, e3]

end

theorem mrTwist_local {w h : ℕ} (hw : 0 < w) (hh : 0 < h) :
    Local (w * h) (w * h) 4 (mrσ w h) ⟨4, 6, 6, 1, 1⟩ (mrTwist w h) := by
  refine ⟨fun U _ _ _ _ _ _ x hx => length_tab _ _, fun U U' _ _ _ _ _ _ _ _ _ _ _ _ C R hr x x' hx hl => ?_,
    fun U _ _ _ _ _ _ x y p hx hy hp e => ?_, fun b x hb hx hl => ?_, fun j _ p hp => ?_, fun j _ p hp p' hp' e => ?_⟩
  · refine tab_rel fun p hp => mrVal_rel hr hl hx ?_ ?_
    · exact (Nat.div_lt_iff_lt_mul hh).2 hp
    · exact Nat.mod_lt p hh
  · have h1 : p / h < w := (Nat.div_lt_iff_lt_mul hh).2 hp
    have h2 := Nat.mod_lt p hh
    show nth (tab _ _) p = nth (tab _ _) p
    rw [nth_tab hp, nth_tab hp]
    exact mrVal_congr h1 h2 (by simpa [mrσ] using e 0 (by omega)) (by simpa [mrσ] using e 1 (by omega))
      (by simpa [mrσ] using e 2 (by omega)) (by simpa [mrσ] using e 3 (by omega))
  · exact Below.tab fun p _ => mrVal_cost hb hl _ _
  · have h1 : p / h < w := (Nat.div_lt_iff_lt_mul hh).2 hp
    have h2 := Nat.mod_lt p hh
    refine pos_lt ?_ ?_
    · split
      · exact h1
      · exact mirror_lt hw _
    · split
      · exact h2
      · exact mirror_lt hh _
  · have h1 : p / h < w := (Nat.div_lt_iff_lt_mul hh).2 hp
    have h1' : p' / h < w := (Nat.div_lt_iff_lt_mul hh).2 hp'
    have h2 := Nat.mod_lt p hh
    have h2' := Nat.mod_lt p' hh
    unfold mrσ at e
    obtain ⟨e1, e2⟩ := split_inj (by split; exacts [h2, mirror_lt hh _]) (by split; exacts [h2', mirror_lt hh _]) e
    have k1 : p / h = p' / h := by
      split at e1
      · exact e1
      · exact neg_mod_inj h1 h1' e1
    have k2 : p % h = p' % h := by
      split at e2
      · exact e2
      · exact neg_mod_inj h2 h2' e2
    rw [← div_mod_eq h p, ← div_mod_eq h p', k1, k2]

/-! ## The permutations -/

theorem transp_lt {w h p : ℕ} (hh : 0 < h) (hp : p < w * h) : p % h * w + p / h < w * h := by
  rw [Nat.mul_comm w h]
  exact pos_lt (Nat.mod_lt p hh) ((Nat.div_lt_iff_lt_mul hh).2 hp)

theorem transp_inj {w h p p' : ℕ} (hh : 0 < h) (hp : p < w * h) (hp' : p' < w * h)
    (e : p % h * w + p / h = p' % h * w + p' / h) : p = p' := by
  obtain ⟨e1, e2⟩ := split_inj ((Nat.div_lt_iff_lt_mul hh).2 hp) ((Nat.div_lt_iff_lt_mul hh).2 hp') e
  rw [← div_mod_eq h p, ← div_mod_eq h p', e1, e2]

theorem revr_lt {w h p : ℕ} (hw : 0 < w) (hp : p < h * w) :
    p / w * w + (if p / w < (h + 1) / 2 then p % w else w - 1 - p % w) < h * w := by
  have h2 := Nat.mod_lt p hw
  exact pos_lt ((Nat.div_lt_iff_lt_mul hw).2 hp) (by split <;> omega)

theorem revr_inj {w h p p' : ℕ} (hw : 0 < w)
    (e : p / w * w + (if p / w < (h + 1) / 2 then p % w else w - 1 - p % w)
      = p' / w * w + (if p' / w < (h + 1) / 2 then p' % w else w - 1 - p' % w)) : p = p' := by
  have h2 := Nat.mod_lt p hw
  have h2' := Nat.mod_lt p' hw
  obtain ⟨e1, e2⟩ := split_inj (by split <;> omega) (by split <;> omega) e
  rw [e1] at e2
  have e3 : p % w = p' % w := by split at e2 <;> omega
  rw [← div_mod_eq w p, ← div_mod_eq w p', e1, e3]

/-- What follows after `apply_twiddles`. -/
def mrTail {U : Type} [Zero U] (w h : ℕ) (fw : List U → List U) (x : List U) : List U :=
  tab (w * h) fun p => nth (tab (h * w) fun p => nth (mapChunks w fw (tab (h * w) fun p => nth x (p % w * h + p / w)))
    (p / w * w + (if p / w < (h + 1) / 2 then p % w else w - 1 - p % w))) (p % h * w + p / h)

theorem mrFn_eq {U : Type} [Zero U] [Add U] [Sub U] [Mul U] [Neg U] [FftNum U] (w h : ℕ) (fw fh : List U → List U) (x : List U) :
    mrFn w h fw fh x = mrTail w h fw (mrTwist w h U (mapChunks h fh (mrStep1 w h x))) := rfl

theorem mrTail_scales {w h : ℕ} (hw : 0 < w) (hh : 0 < h) : Scales (w * h) √w (mrTail w h dht) := by
  have hc : h * w = w * h := Nat.mul_comm h w
  have s5 : Scales (h * w) 1 _ := scales_perm (fun p hp => by have := transp_lt hw hp; exact this) (fun p hp p' hp' e => transp_inj hw hp hp' e)
  have s6 := scales_chunks (k := h) (scales_dht w) hw (Real.sqrt_nonneg _)
  have s7 : Scales (h * w) 1 _ := scales_perm (fun p hp => revr_lt hw hp) (fun p _ p' _ e => revr_inj hw e)
  have s8 : Scales (w * h) 1 _ := scales_perm (fun p hp => transp_lt hh hp) (fun p hp p' hp' e => transp_inj hh hp hp' e)
  have s := s7.comp (s6.comp s5)
  rw [hc] at s
  have := s8.comp s
  rw [mul_one, one_mul, one_mul] at this
  refine this.congr fun X hX => ?_
  unfold mrTail
  rw [hc]

theorem mrTwist_scales {w h : ℕ} (hw : 0 < w) (hh : 0 < h) : Scales (w * h) 1 (mrTwist w h ℝ) := by
  have s1 : Scales (w * h) 1 (mrStep1 w h) :=
    scales_perm (fun p hp => revRow_lt hh hp) (fun p hp p' hp' e => revRow_inj hh hp hp' e)
  have o1 : Onto (w * h) (mrStep1 w h) :=
    onto_perm (fun p hp => revRow_lt hh hp) (fun p hp p' hp' e => revRow_inj hh hp hp' e)
  have s2 := scales_chunks (k := w) (scales_dht h) hh (Real.sqrt_nonneg _)
  have o2 := onto_chunks (k := w) (onto_dht hh) (fun x hx => by rw [length_dht, hx]) hh
  have hwpos : (0 : ℝ) < √w := Real.sqrt_pos.2 (by exact_mod_cast hw)
  refine Scales.of_comp_left (b := √w) (L := mrTail w h dht) ?_ (mrTail_scales hw hh) hwpos (fun X _ => length_tab _ _)
  refine Scales.of_comp_right (b := √h) (J := fun x => mapChunks h dht (mrStep1 w h x)) ?_ (by simpa using s2.comp s1) (o2.comp o1)
  have e : √(w : ℝ) * 1 * √h = √(w * h : ℕ) := by push_cast; rw [Real.sqrt_mul (Nat.cast_nonneg _), mul_one]
  rw [e]
  exact (scales_dht (w * h)).congr fun X hX => mrFn_dht (fun _ _ => rfl) (fun _ _ => rfl) hX

section
variable {T : Type} [Zero T] [Add T] [Sub T] [Mul T] [Neg T] [FftNum T]
variable {fin : T → Prop} {val : T → ℝ} {u η Ω : ℝ} {t s : ℕ}
variable (hm : FloatModel fin val u η Ω t s)
include hm

/-- `MixedRadix`. -/
theorem mr_stage {w h : ℕ} (hw : 0 < w) (hh : 0 < h) {fw fh : List T → List T} {ew eh : List ℝ → List ℝ} {G D C D' C' : ℕ}
    (sw : Stage fin val u η Ω G √w (nrm w) (nrm w) w w fw ew √w D C)
    (sh : Stage fin val u η Ω G √h (nrm h) (nrm h) h h fh eh √h D' C') (hG : 4 ≤ G) :
    Stage fin val u η Ω G √(w * h : ℕ) (nrm (w * h)) (nrm (w * h)) (w * h) (w * h) (mrFn w h fw fh) (mrFn w h ew eh)
      √(w * h : ℕ) (D' + 8 * (6 + t + s) + D) (C' + 6 + C) := by
  have hc : h * w = w * h := Nat.mul_comm h w
  have hM := Real.sqrt_nonneg ((w * h : ℕ) : ℝ)
  have n0 := nrm_isNrm (w * h)
  have w1 := one_le_sqrt_nat hm hw
  have h1 := one_le_sqrt_nat hm hh
  have s1 : Stage fin val u η Ω G √(w * h : ℕ) (nrm (w * h)) (nrm (w * h)) (w * h) (w * h) (mrStep1 w h) (mrStep1 w h) 1 0 0 :=
    perm_stage hm (fun p hp => revRow_lt hh hp) (fun p hp p' hp' e => revRow_inj hh hp hp' e) hM
  have s3 := sh.chunks hm (k := w) hh (Real.sqrt_nonneg _)
  have sc := mrTwist_scales hw hh
  have s4 := (mrTwist_local hw hh).stage (Ω := Ω) (G := G) (a := 1) (K := 8) hm (Nat.mul_pos hw hh) le_rfl (by omega) (by
      have : √(4 : ℕ) = (2 : ℝ) := by
        rw [show ((4 : ℕ) : ℝ) = 2 ^ 2 by norm_num]; exact Real.sqrt_sq (by norm_num)
      rw [this]; norm_num) hG (by omega)
    (fun X Y hX hY => (sc.dist X Y hX hY).le) (fun X hX => (sc.norm X hX).le)
  have s5 : Stage fin val u η Ω G √(h * w : ℕ) (nrm (h * w)) (nrm (h * w)) (h * w) (h * w) _ _ 1 0 0 :=
    perm_stage hm (fun p hp => by have := transp_lt hw hp; exact this) (fun p hp p' hp' e => transp_inj hw hp hp' e) (Real.sqrt_nonneg _)
  have s6 := sw.chunks hm (k := h) hw (Real.sqrt_nonneg _)
  have s7 : Stage fin val u η Ω G √(h * w : ℕ) (nrm (h * w)) (nrm (h * w)) (h * w) (h * w) _ _ 1 0 0 :=
    perm_stage hm (fun p hp => revr_lt hw hp) (fun p _ p' _ e => revr_inj hw e) (Real.sqrt_nonneg _)
  have s8 : Stage fin val u η Ω G √(w * h : ℕ) (nrm (w * h)) (nrm (w * h)) (w * h) (w * h) _ _ 1 0 0 :=
    perm_stage hm (fun p hp => transp_lt hh hp) (fun p hp p' hp' e => transp_inj hh hp hp' e) hM
  have n1 := nrm_isNrm (h * w)
  have hM1 := Real.sqrt_nonneg ((h * w : ℕ) : ℝ)
  have s56 := s5.comp hm s6 n1 n1 n1 hM1 le_rfl w1
  have s567 := s56.comp hm s7 n1 n1 n1 hM1 (by rw [one_mul]; exact w1) le_rfl
  rw [hc] at s567
  have s58 := s567.comp hm s8 n0 n0 n0 hM (by rw [one_mul, mul_one]; exact w1) le_rfl
  have s13 := s1.comp hm s3 n0 n0 n0 hM le_rfl h1
  have s14 := s13.comp hm s4 n0 n0 n0 hM (by rw [one_mul]; exact h1) le_rfl
  have st := s14.comp hm s58 n0 n0 n0 hM (by rw [one_mul, mul_one]; exact h1) (by rw [one_mul, mul_one, mul_one]; exact w1)
  have e : 1 * √(h : ℝ) * 1 * (1 * √w * 1 * 1) = √(w * h : ℕ) := by push_cast; rw [Real.sqrt_mul (Nat.cast_nonneg _)]; ring
  have eD : 0 + D' + 8 * Cost.depth t s ⟨4, 6, 6, 1, 1⟩ + (0 + D + 0 + 0) = D' + 8 * (6 + t + s) + D := by
    simp only [Cost.depth, one_mul]; ring
  have eC : 0 + C' + 6 + (0 + C + 0 + 0) = C' + 6 + C := by omega
  rw [e] at st
  simp only [eD, eC] at st
  refine st.congr hm (fun x _ => ?_) (fun x _ => ?_)
  · rw [mrFn_eq]; unfold mrTail; rw [hc]
  · rw [mrFn_eq]; unfold mrTail; rw [hc]

end

end RustDHT
