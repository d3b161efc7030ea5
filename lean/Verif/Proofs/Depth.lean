import Verif.Proofs.Circuit
import Verif.Proofs.CircuitNaive
import Verif.Proofs.GrowthPlan
import Verif.Spec.Depth

/-! # The depth of the circuits -/

set_option linter.unusedSectionVars false

namespace RustDHT

namespace Circ

variable {S : Type}

theorem depth_pure {t : Circ S} (h : t.uses = false) : t.depth = 0 := by
  induction t with
  | inp i => rfl
  | num c => rfl
  | add a b | sub a b | mul a b => simp only [uses] at h; simp [depth, h]
  | neg a ih => exact ih h

theorem depth_step {p : Prop} [Decidable p] {a b : ℕ} : (if p then max a b + 1 else 0) ≤ max a b + 1 := by
  split <;> omega

/-- The number of roundings bounds the depth. -/
theorem depth_respects [Zero S] [FftNum S] :
    Respects (fun (t : Circ S) (_ : Cost) => t.uses = false) (fun (t : Circ S) (q : Cost) => t.depth ≤ q.d) where
  zero := Nat.zero_le _
  add := by
    rintro a q b r ha hb
    exact depth_step.trans (show _ ≤ max q.d r.d + 1 by omega)
  sub := by
    rintro a q b r ha hb
    exact depth_step.trans (show _ ≤ max q.d r.d + 1 by omega)
  neg := fun h => h
  cmul := by
    rintro c q a r hc ha
    refine depth_step.trans (show _ ≤ q.d + r.d + 2 from ?_)
    rw [depth_pure hc]
    omega
  mulc := by
    rintro c q a r hc ha
    refine depth_step.trans (show _ ≤ r.d + q.d + 2 from ?_)
    rw [depth_pure ha]
    omega
  zeroC := rfl
  addC := by rintro _ _ _ _ h h'; simp [uses, h, h']
  subC := by rintro _ _ _ _ h h'; simp [sub_def, uses, h, h']
  negC := by rintro _ _ h; simp [uses, h]
  mulC := by rintro _ _ _ _ h h'; simp [uses, h, h']
  inv _ _ _ := ⟨rfl, rfl⟩
  fwd _ _ _ := ⟨rfl, rfl⟩
  sqrtHalf := rfl
  half := rfl
  norm _ _ := rfl

/-- At most `2 ^ depth` entries of the buffer occur. -/
def inputs : Circ S → Finset ℕ
  | inp i => {i}
  | num _ => ∅
  | add a b | sub a b | mul a b => a.inputs ∪ b.inputs
  | neg a => a.inputs

theorem inputs_pure {t : Circ S} (h : t.uses = false) : t.inputs = ∅ := by
  induction t with
  | inp i => cases h
  | num c => rfl
  | add a b iha ihb | sub a b iha ihb | mul a b iha ihb =>
    simp only [uses, Bool.or_eq_false_iff] at h
    simp [inputs, iha h.1, ihb h.2]
  | neg a ih => exact ih h

theorem card_inputs (t : Circ S) : t.inputs.card ≤ 2 ^ t.depth := by
  induction t with
  | inp i => simp [inputs, depth]
  | num c => simp [inputs]
  | add a b iha ihb | sub a b iha ihb | mul a b iha ihb =>
    cases hu : (a.uses || b.uses)
    · rw [Bool.or_eq_false_iff] at hu
      simp [inputs, inputs_pure hu.1, inputs_pure hu.2]
    · simp only [inputs, depth, hu, if_true]
      refine (Finset.card_union_le _ _).trans ?_
      have h1 := iha.trans (Nat.pow_le_pow_right (show 0 < 2 by omega) (le_max_left a.depth b.depth))
      have h2 := ihb.trans (Nat.pow_le_pow_right (show 0 < 2 by omega) (le_max_right a.depth b.depth))
      rw [pow_succ]
      omega
  | neg a ih => exact ih

/-- The value depends on the entries that occur only. -/
theorem eval_congr [Add S] [_root_.Sub S] [Mul S] [Neg S] {t : Circ S} {x y : ℕ → S} (h : ∀ i ∈ t.inputs, x i = y i) :
    t.eval x = t.eval y := by
  induction t with
  | inp i => exact h i (by simp [inputs])
  | num c => rfl
  | add a b iha ihb | sub a b iha ihb | mul a b iha ihb =>
    simp only [inputs, Finset.mem_union] at h
    simp only [eval]
    rw [iha fun i hi => h i (.inl hi), ihb fun i hi => h i (.inr hi)]
  | neg a ih => simp only [eval]; rw [ih h]

variable [Zero S] [FftNum S]

theorem plan_depth (p : Plan) {c : Dht (Circ S)} (hc : p.build (Circ S) = .ok c) {n : ℕ} (h1 : c.len ≤ n) (h2 : c.len ∣ n)
    {y : List (Circ S)} (hy : c.process (buffer S n) = .ok y) : ∀ t ∈ y, t.depth ≤ p.growth.d := by
  have hr := plan_rel p (depth_respects (S := S))
  rw [hc] at hr
  rcases e : p.build Cost with er | q
  · rw [e] at hr; cases hr
  rw [e] at hr
  cases hr with
  | ok hr =>
    have hl : LR (fun (t : Circ S) (q : Cost) => t.depth ≤ q.d) (buffer S n) (List.replicate n Cost.input) := by
      rw [buffer, ← List.length_range (n := n), List.length_range]
      have : ∀ l : List ℕ, LR (fun (t : Circ S) (q : Cost) => t.depth ≤ q.d) (l.map inp) (List.replicate l.length Cost.input) := by
        intro l
        induction l with
        | nil => exact .nil
        | cons a l ih => exact .cons (Nat.zero_le _) ih
      simpa using this (List.range n)
    have r := dht_process_rel hr (Nat.zero_le _) hl
    rw [hy] at r
    rcases e2 : q.process (List.replicate n Cost.input) with er | z
    · rw [e2] at r; cases r
    rw [e2] at r
    cases r with
    | ok r =>
      have hb := growth_process p e e2 (by rw [← hr.len]; exact h1) (by rw [← hr.len]; exact h2)
      intro t ht
      clear e2 hy
      induction r with
      | nil => cases ht
      | cons h _ ih =>
        rcases List.mem_cons.1 ht with rfl | ht
        · exact h.trans (hb _ (by simp)).2.2.1
        · exact ih (fun q hq => hb q (by simp [hq])) ht

theorem uses_chain (n k j : ℕ) : (chain S n k (j + 1)).uses = true := by
  rw [chain_succ]; simp [uses]

theorem depth_chain (n k j : ℕ) : j + 1 ≤ (chain S n k (j + 1)).depth := by
  induction j with
  | zero => rw [chain_succ]; simp [depth, uses]
  | succ j ih =>
    rw [chain_succ]
    simp only [depth, uses, Bool.or_true, if_true]
    omega

end Circ

/-- What is proved by induction: depth `x` for length `n`. -/
structure DepthLog (L n : ℕ) (x : ℕ) : Prop where
  one : n = 1 → x ≤ 4
  two : 2 ≤ n → (x : ℝ) + 6 ≤ (L + 14) * lg n

variable {L : ℕ}

theorem DepthLog.leaf {n x : ℕ} (m : ℕ) (h2 : 2 ≤ n) (hm : 2 ^ m ≤ n) (hx : x + 6 ≤ 14 * m) : DepthLog L n x := by
  refine ⟨fun h => by omega, fun _ => ?_⟩
  have hl := le_lg hm
  have hx : (x : ℝ) + 6 ≤ 14 * m := by exact_mod_cast hx
  have h0 : (0 : ℝ) ≤ lg n := le_trans (by positivity) hl
  nlinarith [mul_nonneg (show (0 : ℝ) ≤ L by positivity) h0]

theorem DepthLog.naive {n : ℕ} (h : n ≤ L) : DepthLog L n (n + 3) := by
  refine ⟨fun h => by omega, fun h2 => ?_⟩
  have hl : ((1 : ℕ) : ℝ) ≤ lg n := le_lg (by omega)
  have hL : (n : ℝ) ≤ L := by exact_mod_cast h
  push_cast at hl ⊢
  nlinarith [mul_le_mul_of_nonneg_left hl (show (0 : ℝ) ≤ L + 14 by positivity)]

theorem DepthLog.mix {w h x y : ℕ} (hx : DepthLog L w x) (hy : DepthLog L h y) (hw : 2 ≤ w) (hh : 2 ≤ h) :
    DepthLog L (w * h) (x + (6 + y)) := by
  refine ⟨fun e => ?_, fun _ => ?_⟩
  · have := Nat.mul_le_mul hw hh
    omega
  · have h1 := hx.two hw
    have h2 := hy.two hh
    rw [lg_mul (by omega) (by omega)]
    push_cast
    linarith

theorem DepthLog.mrk {k h x B : ℕ} (hx : DepthLog L h x) (hh : 0 < h) (c : ℝ) (hc : c ≤ lg k) (hc0 : 0 ≤ c) (h2 : 2 ≤ k)
    (h0 : (B : ℝ) + 10 ≤ 14 * c) : DepthLog L (k * h) (B + x) := by
  have hL : (0 : ℝ) ≤ L := by positivity
  have hk : (B : ℝ) + 10 ≤ (L + 14) * lg k := by nlinarith [mul_nonneg hL (hc0.trans hc)]
  refine ⟨fun e => ?_, fun _ => ?_⟩
  · have := Nat.le_mul_of_pos_right k hh
    omega
  · rw [lg_mul (by omega) hh]
    push_cast
    rcases Nat.lt_or_ge h 2 with h3 | h3
    · obtain rfl : h = 1 := by omega
      have hx1 : (x : ℝ) ≤ 4 := by exact_mod_cast hx.one rfl
      have e0 : lg 1 = 0 := by simp [lg]
      rw [e0]
      linarith
    · have := hx.two h3
      linarith

theorem DepthLog.split {q x y : ℕ} (hx : DepthLog L q x) (hy : DepthLog L (2 * q) y) :
    DepthLog L (4 * q) (max (y + 1) (x + 5)) := by
  refine ⟨fun e => by omega, fun h4 => ?_⟩
  have hq : 0 < q := by omega
  have hL : (0 : ℝ) ≤ L := by positivity
  have e2 : lg 2 = 1 := by simpa using lg_pow 1
  have e4 : lg 4 = 2 := by simpa using lg_pow 2
  have h1 := hy.two (by omega)
  rw [lg_mul (by norm_num) hq, e2] at h1
  rw [lg_mul (by norm_num) hq, e4]
  rcases max_cases (y + 1) (x + 5) with ⟨e, -⟩ | ⟨e, -⟩ <;> rw [e] <;> push_cast
  · linarith
  · rcases Nat.lt_or_ge q 2 with h3 | h3
    · obtain rfl : q = 1 := by omega
      have hx1 : (x : ℝ) ≤ 4 := by exact_mod_cast hx.one rfl
      have e0 : lg 1 = 0 := by simp [lg]
      rw [e0]
      linarith
    · have h2 := hx.two h3
      linarith

theorem times_d (a : Cost) (l : ℕ) : (a.times l).d = a.d * l := by
  induction l with
  | zero => rfl
  | succ l ih =>
    show (a.times l).d + a.d = _
    rw [ih]; ring

theorem DepthLog.radix4 (m : ℕ) : DepthLog L (2 ^ m) (radix4Growth (2 ^ m)).d := by
  match m with
  | 0 => exact ⟨fun _ => by decide, fun h => by norm_num at h⟩
  | 1 => exact .leaf 1 (by norm_num) (by norm_num) (by decide)
  | 2 => exact .leaf 2 (by norm_num) (by norm_num) (by decide)
  | m + 3 =>
    have h8 : 8 * 2 ^ m = 2 ^ (m + 3) := by ring
    have hp : 1 ≤ 2 ^ m := Nat.one_le_two_pow
    have hlog : Nat.log 2 (2 ^ (m + 3)) = m + 3 := Nat.log_pow (by norm_num) _
    refine .leaf (m + 3) (by omega) le_rfl ?_
    rw [radix4Growth, if_neg (by omega), if_neg (by omega), if_neg (by omega), hlog]
    split
    · show (Cost.times _ _).d + 5 + 6 ≤ _
      rw [times_d]
      show 5 * _ + _ + _ ≤ _
      omega
    · show (Cost.times _ _).d + 7 + 6 ≤ _
      rw [times_d]
      show 5 * _ + _ + _ ≤ _
      omega

variable {T : Type} [Zero T] [Add T] [Sub T] [Mul T] [Neg T] [FftNum T]

theorem plan_depthLog (p : Plan) : p.Fast L → ∀ d : Dht T, p.build T = .ok d → DepthLog L d.len p.growth.d := by
  have zero : ∀ {k N x : ℕ}, N = k * 0 → DepthLog L N x := fun h => ⟨fun e => by omega, fun e => by omega⟩
  have l2 : ((1 : ℕ) : ℝ) ≤ lg 2 := le_lg (by norm_num)
  have l4 : ((2 : ℕ) : ℝ) ≤ lg 4 := le_lg (by norm_num)
  have l5 : ((2 : ℕ) : ℝ) ≤ lg 5 := le_lg (by norm_num)
  have l6 : ((2 : ℕ) : ℝ) ≤ lg 6 := le_lg (by norm_num)
  have l3 := le_lg3
  induction p with
  | naive n => rintro h d ⟨⟩; rw [dhtNaive_len]; exact .naive h
  | b1 => rintro - d ⟨⟩; exact ⟨fun _ => by decide, fun h => absurd h (by show ¬ 2 ≤ 1; omega)⟩
  | b2 => rintro - d ⟨⟩; exact .leaf (n := 2) 1 (by norm_num) (by norm_num) (by decide)
  | b3 => rintro - d ⟨⟩; exact .leaf (n := 3) 1 (by norm_num) (by norm_num) (by decide)
  | b4 => rintro - d ⟨⟩; exact .leaf (n := 4) 2 (by norm_num) (by norm_num) (by decide)
  | b5 => rintro - d ⟨⟩; exact .leaf (n := 5) 2 (by norm_num) (by norm_num) (by decide)
  | b6 => rintro - d ⟨⟩; exact .leaf (n := 6) 2 (by norm_num) (by norm_num) (by decide)
  | b8 => rintro - d ⟨⟩; exact .leaf (n := 8) 3 (by norm_num) (by norm_num) (by decide)
  | b9 => rintro - d ⟨⟩; exact .leaf (n := 9) 3 (by norm_num) (by norm_num) (by decide)
  | b16 => rintro - d ⟨⟩; exact .leaf (n := 16) 4 (by norm_num) (by norm_num) (by decide)
  | mixedRadix w h ihw ihh =>
    rintro ⟨fw, fh, lw, lh⟩ d e
    obtain ⟨wd, ew, e⟩ := bind_eq_ok e
    obtain ⟨hd, eh, e⟩ := bind_eq_ok e
    cases e
    rw [← plan_len w wd ew] at lw
    rw [← plan_len h hd eh] at lh
    exact (ihw fw wd ew).mix (ihh fh hd eh) lw lh
  | mr2 h ihh =>
    intro f d e
    obtain ⟨hd, eh, e⟩ := bind_eq_ok e
    cases e
    rcases Nat.eq_zero_or_pos hd.len with h0 | h0
    · exact zero (k := 2) (by rw [← h0]; rfl)
    · exact (ihh f hd eh).mrk (k := 2) (B := 4) h0 (1) (by exact_mod_cast l2) (by norm_num) (by omega) (by norm_num)
  | mr3 h ihh =>
    intro f d e
    obtain ⟨hd, eh, e⟩ := bind_eq_ok e
    cases e
    rcases Nat.eq_zero_or_pos hd.len with h0 | h0
    · exact zero (k := 3) (by rw [← h0]; rfl)
    · exact (ihh f hd eh).mrk (k := 3) (B := 11) h0 (3 / 2) (by exact_mod_cast l3) (by norm_num) (by omega) (by norm_num)
  | mr4 h ihh =>
    intro f d e
    obtain ⟨hd, eh, e⟩ := bind_eq_ok e
    cases e
    rcases Nat.eq_zero_or_pos hd.len with h0 | h0
    · exact zero (k := 4) (by rw [← h0]; rfl)
    · exact (ihh f hd eh).mrk (k := 4) (B := 5) h0 (2) (by exact_mod_cast l4) (by norm_num) (by omega) (by norm_num)
  | mr5 h ihh =>
    intro f d e
    obtain ⟨hd, eh, e⟩ := bind_eq_ok e
    cases e
    rcases Nat.eq_zero_or_pos hd.len with h0 | h0
    · exact zero (k := 5) (by rw [← h0]; rfl)
    · exact (ihh f hd eh).mrk (k := 5) (B := 12) h0 (2) (by exact_mod_cast l5) (by norm_num) (by omega) (by norm_num)
  | mr6 h ihh =>
    intro f d e
    obtain ⟨hd, eh, e⟩ := bind_eq_ok e
    cases e
    rcases Nat.eq_zero_or_pos hd.len with h0 | h0
    · exact zero (k := 6) (by rw [← h0]; rfl)
    · exact (ihh f hd eh).mrk (k := 6) (B := 15) h0 (2) (by exact_mod_cast l6) (by norm_num) (by omega) (by norm_num)
  | radix4 n =>
    intro _ d e
    obtain ⟨m, rfl⟩ := radix4_isPow e
    rw [plan_len _ d e]
    exact .radix4 m
  | splitRadix q h ihq ihh =>
    rintro ⟨fq, fh⟩ d e
    obtain ⟨qd, eq, e⟩ := bind_eq_ok e
    obtain ⟨hd, eh, e⟩ := bind_eq_ok e
    have hlen := (splitRadix_eq e).1
    have hdl : d.len = 4 * qd.len := by rw [(splitRadix_eq e).2]; rfl
    rw [hdl]
    exact (ihq fq qd eq).split (by rw [← hlen]; exact ihh fh hd eh)
  | raders i _ => exact fun h => h.elim

end RustDHT
