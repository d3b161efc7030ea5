import Verif.Spec.Linear
import Verif.Proofs.Circuit
import Verif.Proofs.Ieee

/-! # Circuits are linear forms; scaling by powers of two -/

set_option linter.unusedSectionVars false

namespace RustDHT

namespace Circ

variable {S : Type} [Zero S] [FftNum S]

theorem linear_respects (n : ℕ) : Respects (fun t u : Circ S => t = u ∧ t.uses = false) (fun t u => t = u ∧ Linear n t) where
  zero := ⟨rfl, .zero⟩
  add := by rintro _ _ _ _ ⟨rfl, h⟩ ⟨rfl, h'⟩; exact ⟨rfl, .add h h'⟩
  sub := by rintro _ _ _ _ ⟨rfl, h⟩ ⟨rfl, h'⟩; exact ⟨rfl, .sub h h'⟩
  neg := by rintro _ _ ⟨rfl, h⟩; exact ⟨rfl, .neg h⟩
  cmul := by rintro _ _ _ _ ⟨rfl, h⟩ ⟨rfl, h'⟩; exact ⟨rfl, .cmul h h'⟩
  mulc := by rintro _ _ _ _ ⟨rfl, h⟩ ⟨rfl, h'⟩; exact ⟨rfl, .mulc h h'⟩
  zeroC := pure_respects.zeroC
  addC := pure_respects.addC
  subC := pure_respects.subC
  negC := pure_respects.negC
  mulC := pure_respects.mulC
  inv := pure_respects.inv
  fwd := pure_respects.fwd
  sqrtHalf := pure_respects.sqrtHalf
  half := pure_respects.half
  norm := pure_respects.norm

theorem plan_linear (p : Plan) (d : Dht (Circ S)) (hd : p.build (Circ S) = .ok d) (n : ℕ) (y : List (Circ S))
    (hy : d.process (buffer S n) = .ok y) : ∀ t ∈ y, Linear n t := by
  have h := plan_rel p (linear_respects (S := S) n)
  rw [hd] at h
  cases h with
  | ok h =>
    have hl : LR (fun t u : Circ S => t = u ∧ Linear n t) (buffer S n) (buffer S n) := by
      have : ∀ l : List ℕ, (∀ i ∈ l, i < n) → LR (fun t u : Circ S => t = u ∧ Linear n t) (l.map inp) (l.map inp) := by
        intro l
        induction l with
        | nil => exact fun _ => .nil
        | cons a l ih => exact fun h => .cons ⟨rfl, .inp (h a (by simp))⟩ (ih fun i hi => h i (by simp [hi]))
      exact this _ fun i hi => List.mem_range.1 hi
    have r := dht_process_rel h (linear_respects n).zero hl
    rw [hy] at r
    cases r with
    | ok r =>
      intro t ht
      have : ∀ l l' : List (Circ S), LR (fun t u : Circ S => t = u ∧ Linear n t) l l' → t ∈ l → Linear n t := by
        intro l l' h
        induction h with
        | nil => intro h; cases h
        | cons h _ ih =>
          intro hm
          rcases List.mem_cons.1 hm with rfl | hm
          · exact h.2
          · exact ih hm
      exact this _ _ r ht

theorem eval_pure {S : Type} [Add S] [Sub S] [Mul S] [Neg S] (x x' : ℕ → S) {t : Circ S} (h : t.uses = false) : t.eval x = t.eval x' := by
  induction t with
  | inp i => cases h
  | num c => rfl
  | add a b iha ihb | sub a b iha ihb | mul a b iha ihb =>
    rw [uses, Bool.or_eq_false_iff] at h
    simp only [eval, iha h.1, ihb h.2]
  | neg a iha => rw [uses] at h; simp only [eval, iha h]

end Circ

namespace Flt

variable {F : Fmt}

/-! ## Zeros -/

/-- Zero of either sign, or NaN. -/
def ZN (a : Flt F) : Prop := (∃ s h, a = num s 0 h) ∨ a = nan

theorem rep_nought (F : Fmt) : F.Rep 0 := ⟨0, F.emin, by positivity, le_rfl, by simp, by positivity⟩

theorem round_nought (s : Bool) : round F s (0 : ℚ) = num s 0 (rep_nought F) := round_rep s _

theorem roundSigned_zero (s : Bool) : roundSigned F s (0 : ℚ) = num s 0 (rep_nought F) := by
  rw [roundSigned, if_pos rfl, round_nought]

theorem zero_eq : (0 : Flt F) = num false 0 (rep_nought F) := round_nought false

theorem ZN.neg {a : Flt F} (h : ZN a) : ZN (-a) := by
  rcases h with ⟨s, h, rfl⟩ | rfl
  · exact .inl ⟨!s, h, rfl⟩
  · exact .inr rfl

theorem ZN.add {a b : Flt F} (ha : ZN a) (hb : ZN b) : ZN (a + b) := by
  rcases ha with ⟨s, h, rfl⟩ | rfl
  · rcases hb with ⟨s', h', rfl⟩ | rfl
    · refine .inl ⟨s && s', rep_nought F, ?_⟩
      show roundSigned F (s && s') ((num s 0 h : Flt F).value + (num s' 0 h' : Flt F).value) = _
      rw [show (num s 0 h : Flt F).value + (num s' 0 h' : Flt F).value = 0 by cases s <;> cases s' <;> simp [value]]
      exact roundSigned_zero _
    · exact .inr rfl
  · exact .inr (by cases b <;> rfl)

theorem ZN.sub {a b : Flt F} (ha : ZN a) (hb : ZN b) : ZN (a - b) := ha.add hb.neg

theorem ZN.mul_left (c : Flt F) {a : Flt F} (ha : ZN a) : ZN (c * a) := by
  rcases ha with ⟨s, h, rfl⟩ | rfl
  · match c with
    | num s' m h' =>
      refine .inl ⟨xor s' s, rep_nought F, ?_⟩
      show round F (xor s' s) (m * 0) = _
      rw [mul_zero, round_nought]
    | inf s' =>
      refine .inr ?_
      show (if (0 : ℚ) = 0 then nan else inf (xor s' s)) = nan
      rw [if_pos rfl]
    | nan => exact .inr rfl
  · exact .inr (by cases c <;> rfl)

theorem ZN.mul_right (c : Flt F) {a : Flt F} (ha : ZN a) : ZN (a * c) := by
  rcases ha with ⟨s, h, rfl⟩ | rfl
  · match c with
    | num s' m h' =>
      refine .inl ⟨xor s s', rep_nought F, ?_⟩
      show round F (xor s s') (0 * m) = _
      rw [zero_mul, round_nought]
    | inf s' =>
      refine .inr ?_
      show (if (0 : ℚ) = 0 then nan else inf (xor s s')) = nan
      rw [if_pos rfl]
    | nan => exact .inr rfl
  · exact .inr (by cases c <;> rfl)

/-- A linear form of zeros is zero or NaN. -/
theorem ZN.linear {n : ℕ} {x : ℕ → Flt F} (hx : ∀ i < n, ZN (x i)) {t : Circ (Flt F)} (h : Circ.Linear n t) : ZN (t.eval x) := by
  induction h with
  | zero => exact .inl ⟨_, _, zero_eq⟩
  | inp h => exact hx _ h
  | add _ _ iha ihb => exact iha.add ihb
  | sub _ _ iha ihb => exact iha.sub ihb
  | neg _ ih => exact ih.neg
  | cmul _ _ ih => exact ih.mul_left _
  | mulc _ _ ih => exact ih.mul_right _

/-- A linear form without entries, likewise. -/
theorem ZN.pure {n : ℕ} {x : ℕ → Flt F} {t : Circ (Flt F)} (h : Circ.Linear n t) (hu : t.uses = false) : ZN (t.eval x) := by
  rw [Circ.eval_pure x (fun _ => 0) hu]
  exact ZN.linear (fun _ _ => .inl ⟨_, _, zero_eq⟩) h

/-! ## Scaling -/

variable {e : ℤ}

theorem pow2_eq (h1 : F.emin ≤ e) (h2 : e < F.emax) : ∃ h, pow2 F e = num false (2 ^ e) h := by
  have : F.Rep (2 ^ e) := ⟨1, e, Nat.one_lt_two_pow (by have := F.prec_pos; omega), h1, by simp, zpow_lt_zpow_right₀ (by norm_num) h2⟩
  exact ⟨this, round_rep false this⟩

end Flt

theorem Fmt.Normal.abs {F : Fmt} {r : ℚ} (h : F.Normal r) : F.Normal |r| := by
  rcases h with rfl | h
  · exact .inl abs_zero
  · exact .inr (by rwa [abs_abs])

theorem Fmt.Scales.abs {F : Fmt} {e : ℤ} {r : ℚ} (h : F.Scales e r) : F.Scales e |r| := by
  refine ⟨h.1.abs, ?_⟩
  have := h.2.abs
  rwa [abs_mul, abs_of_pos (by positivity : (0 : ℚ) < 2 ^ e)] at this

theorem Fmt.exponent_normal {F : Fmt} {r : ℚ} (h0 : r ≠ 0) (h : F.Normal r) : F.exponent |r| = Int.log 2 |r| - F.prec + 1 := by
  rcases h with h | h
  · exact absurd h h0
  · have : F.emin + F.prec - 1 ≤ Int.log 2 |r| :=
      (Int.zpow_le_iff_le_log (b := 2) (by norm_num) (abs_pos.2 h0)).1 (by exact_mod_cast h.1)
    rw [exponent, max_eq_left (by omega)]

theorem Int.log_scale (e : ℤ) {r : ℚ} (h0 : 0 < r) : Int.log 2 (2 ^ e * r) = e + Int.log 2 r := by
  have hp : 0 < 2 ^ e * r := by positivity
  refine le_antisymm ?_ ?_
  · rw [← sub_le_iff_le_add', ← Int.zpow_le_iff_le_log (b := 2) (by norm_num) h0]
    have := (Int.zpow_le_iff_le_log (b := 2) (by norm_num) hp).2 le_rfl
    push_cast at this ⊢
    rw [zpow_sub₀ (by norm_num), div_le_iff₀ (by positivity), mul_comm r]
    exact this
  · rw [← Int.zpow_le_iff_le_log (b := 2) (by norm_num) hp]
    have := (Int.zpow_le_iff_le_log (b := 2) (by norm_num) h0).2 le_rfl
    push_cast at this ⊢
    rw [zpow_add₀ (by norm_num)]
    gcongr

namespace Flt

variable {F : Fmt} {e : ℤ}

/-- Rounding commutes with scaling. -/
theorem round_scales (hF : F.emin + 2 ≤ F.emax) {r : ℚ} (h : F.Scales e r) (s : Bool) :
    ∃ m h h', round F s r = num s m h ∧ round F s (2 ^ e * r) = num s (2 ^ e * m) h' := by
  rcases eq_or_ne r 0 with rfl | h0
  · refine ⟨0, rep_nought F, by rw [mul_zero]; exact rep_nought F, round_nought s, ?_⟩
    have : round F s (2 ^ e * (0 : ℚ)) = num s 0 (rep_nought F) := by rw [mul_zero, round_nought]
    exact this.trans (num_congr (mul_zero _).symm _ _)
  have h2 : (2 : ℚ) ^ e * r ≠ 0 := mul_ne_zero (by positivity) h0
  have ea : |(2 : ℚ) ^ e * r| = 2 ^ e * |r| := by rw [abs_mul, abs_of_pos (by positivity : (0 : ℚ) < 2 ^ e)]
  have hE : F.exponent |2 ^ e * r| = e + F.exponent |r| := by
    rw [Fmt.exponent_normal h0 h.1, Fmt.exponent_normal h2 h.2, ea, Int.log_scale e (abs_pos.2 h0)]
    ring
  have hm : F.mantissa (2 ^ e * r) = F.mantissa r := by
    rw [Fmt.mantissa, Fmt.mantissa, hE, ea, zpow_add₀ (by norm_num), mul_div_mul_left _ _ (by positivity)]
  have o1 := F.no_overflow hF r ((h.1.resolve_left h0).2)
  have o2 := F.no_overflow hF (2 ^ e * r) ((h.2.resolve_left h2).2)
  have e2 : (F.mantissa (2 ^ e * r) : ℚ) * 2 ^ F.exponent |2 ^ e * r| = 2 ^ e * (F.mantissa r * 2 ^ F.exponent |r|) := by
    rw [hm, hE, zpow_add₀ (by norm_num)]; ring
  have r1 := F.rep_of (F.mantissa_nonneg r) (F.mantissa_le r) (le_max_right _ _) o1
  have r2 := F.rep_of (F.mantissa_nonneg (2 ^ e * r)) (F.mantissa_le (2 ^ e * r)) (le_max_right _ _) o2
  refine ⟨F.mantissa r * 2 ^ F.exponent |r|, r1, e2 ▸ r2, ?_, ?_⟩
  · rw [round, dif_pos o1]
  · rw [round, dif_pos o2]
    exact num_congr e2 _ _

theorem roundSigned_scales (hF : F.emin + 2 ≤ F.emax) {r : ℚ} (h : F.Scales e r) (z : Bool) :
    ∃ s m h h', roundSigned F z r = num s m h ∧ roundSigned F z (2 ^ e * r) = num s (2 ^ e * m) h' := by
  obtain ⟨m, a, b, h1, h2⟩ := round_scales hF h (if r = 0 then z else decide (r < 0))
  refine ⟨if r = 0 then z else decide (r < 0), m, a, b, ?_, ?_⟩
  · rw [roundSigned_eq]; exact h1
  · rw [roundSigned_eq, ← h2]
    have hp : (0 : ℚ) < 2 ^ e := by positivity
    have e1 : (2 ^ e * r = 0) = (r = 0) := by simp [hp.ne']
    have e2 : (2 ^ e * r < 0) = (r < 0) := by
      rw [eq_iff_iff]; exact smul_neg_iff_of_pos_left hp
    simp only [e1, e2]

/-- Multiplying the number by `2^e` is exact. -/
def Sc (e : ℤ) (a b : Flt F) : Prop := ∃ s m h h', a = num s m h ∧ b = num s (2 ^ e * m) h'

theorem Sc.eq_mul (h1 : F.emin ≤ e) (h2 : e < F.emax) {a b : Flt F} (h : Sc e a b) : b = pow2 F e * a := by
  obtain ⟨s, m, r, r', rfl, rfl⟩ := h
  obtain ⟨hp, h⟩ := pow2_eq (F := F) h1 h2
  rw [h]
  show _ = round F (xor false s) (2 ^ e * m)
  rw [Bool.false_xor, round_rep s r']

theorem Sc.zero {a : Flt F} (h : ZN a) (hf : a.fin) : Sc e a a := by
  rcases h with ⟨s, h, rfl⟩ | rfl
  · exact ⟨s, 0, h, by rwa [mul_zero], rfl, num_congr (mul_zero _).symm _ _⟩
  · exact hf.elim

theorem ZN.eq_mul (h1 : F.emin ≤ e) (h2 : e < F.emax) {a : Flt F} (h : ZN a) : a = pow2 F e * a := by
  obtain h | rfl := id h
  · obtain ⟨s, r, rfl⟩ := h
    exact (Sc.zero h trivial).eq_mul h1 h2
  · obtain ⟨hp, h⟩ := pow2_eq (F := F) h1 h2
    rw [h]; rfl

theorem value_num (s : Bool) (m : ℚ) (h h') : (num s (2 ^ e * m) h' : Flt F).value = 2 ^ e * (num s m h : Flt F).value := by
  cases s <;> simp [value]

theorem Sc.value {a b : Flt F} (h : Sc e a b) : b.value = 2 ^ e * a.value := by
  obtain ⟨s, m, r, r', rfl, rfl⟩ := h
  exact value_num ..

theorem Sc.neg {a b : Flt F} (h : Sc e a b) : Sc e (-a) (-b) := by
  obtain ⟨s, m, r, r', rfl, rfl⟩ := h
  exact ⟨!s, m, r, r', rfl, rfl⟩

theorem value_neg' (a : Flt F) : (-a).value = -a.value := by
  match a with
  | num s m h => show (num (!s) m h : Flt F).value = _; cases s <;> simp [Flt.value]
  | inf s => show (0 : ℚ) = -0; simp
  | nan => show (0 : ℚ) = -0; simp

theorem Sc.add (hF : F.emin + 2 ≤ F.emax) {a b a' b' : Flt F} (h : Sc e a b) (h' : Sc e a' b')
    (hs : F.Scales e (a.value + a'.value)) : Sc e (a + a') (b + b') := by
  have v := h.value
  have v' := h'.value
  obtain ⟨s, m, r, r', rfl, rfl⟩ := h
  obtain ⟨s', m', q, q', rfl, rfl⟩ := h'
  obtain ⟨t, k, p, p', e1, e2⟩ := roundSigned_scales hF hs (s && s')
  refine ⟨t, k, p, p', e1, ?_⟩
  show roundSigned F (s && s') (_ + _) = _
  rw [v, v', ← mul_add, e2]

theorem Sc.sub (hF : F.emin + 2 ≤ F.emax) {a b a' b' : Flt F} (h : Sc e a b) (h' : Sc e a' b')
    (hs : F.Scales e (a.value - a'.value)) : Sc e (a - a') (b - b') :=
  h.add hF h'.neg (by rwa [value_neg', ← sub_eq_add_neg])

theorem abs_value (s : Bool) (m : ℚ) (h) : |(num s m h : Flt F).value| = m := by
  have hm : 0 ≤ m := by obtain ⟨_, _, _, _, rfl, _⟩ := h; positivity
  cases s <;> simp [Flt.value, abs_of_nonneg hm]

theorem Sc.mul_right (hF : F.emin + 2 ≤ F.emax) {c a b : Flt F} (hc : c.fin) (h : Sc e a b)
    (hs : F.Scales e (c.value * a.value)) : Sc e (c * a) (c * b) := by
  obtain ⟨s, m, r, r', rfl, rfl⟩ := h
  match c with
  | num s' k q =>
    have := hs.abs
    rw [abs_mul, abs_value, abs_value] at this
    obtain ⟨t, p, p', e1, e2⟩ := round_scales hF this (xor s' s)
    refine ⟨xor s' s, t, p, p', e1, ?_⟩
    show round F (xor s' s) (k * (2 ^ e * m)) = _
    rw [← e2]; congr 1; ring

theorem Sc.mul_left (hF : F.emin + 2 ≤ F.emax) {c a b : Flt F} (hc : c.fin) (h : Sc e a b)
    (hs : F.Scales e (a.value * c.value)) : Sc e (a * c) (b * c) := by
  obtain ⟨s, m, r, r', rfl, rfl⟩ := h
  match c with
  | num s' k q =>
    have := hs.abs
    rw [abs_mul, abs_value, abs_value] at this
    obtain ⟨t, p, p', e1, e2⟩ := round_scales hF this (xor s s')
    refine ⟨xor s s', t, p, p', e1, ?_⟩
    show round F (xor s s') ((2 ^ e * m) * k) = _
    rw [← e2]; congr 1; ring

/-- Entries of the range are scaled exactly. -/
theorem Sc.entry (hF : F.emin + 2 ≤ F.emax) (h1 : F.emin ≤ e) (h2 : e < F.emax) {a : Flt F} (hf : a.fin) (hs : F.Scales e a.value) :
    Sc e a (pow2 F e * a) := by
  match a with
  | num s m h =>
    have := hs.abs
    rw [abs_value] at this
    obtain ⟨t, p, p', e1, e2⟩ := round_scales hF this s
    obtain ⟨hp, hh⟩ := pow2_eq (F := F) h1 h2
    refine ⟨s, t, p, p', ?_, ?_⟩
    · rw [← e1, round_rep s h]
    · rw [hh, ← e2]
      show round F (xor false s) _ = _
      rw [Bool.false_xor]

/-- What scaling the buffer does to a linear form all whose operations can be scaled. -/
theorem linear_scales (hF : F.emin + 2 ≤ F.emax) (h1 : F.emin ≤ e) (h2 : e < F.emax) {n : ℕ} (x : ℕ → Flt F)
    (hx : ∀ i < n, (x i).fin ∧ F.Scales e (x i).value) {t : Circ (Flt F)} (h : Circ.Linear n t)
    (hg : ∀ g ∈ t.gates, g.ScalesGate e x) :
    (ZN (t.eval x) ∧ t.eval (fun i => pow2 F e * x i) = t.eval x) ∨ Sc e (t.eval x) (t.eval fun i => pow2 F e * x i) := by
  have fin {a b : Flt F} (h : (ZN a ∧ b = a) ∨ Sc e a b) (hf : a.fin) : Sc e a b := by
    rcases h with ⟨h, rfl⟩ | h
    · exact .zero h hf
    · exact h
  induction h with
  | zero => exact .inl ⟨.inl ⟨_, _, zero_eq⟩, rfl⟩
  | inp h => exact .inr (.entry hF h1 h2 (hx _ h).1 (hx _ h).2)
  | @add a b ha hb iha ihb =>
    rcases hu : (Circ.add a b).uses with _ | _
    · exact .inl ⟨.pure (.add ha hb) hu, Circ.eval_pure _ _ hu⟩
    rw [Circ.uses] at hu
    obtain ⟨fa, fb, s⟩ := hg (.add a b) (by simp [Circ.gates, hu])
    exact .inr (.add hF (fin (iha fun g h => hg g (by simp [Circ.gates, h])) fa)
      (fin (ihb fun g h => hg g (by simp [Circ.gates, h])) fb) s)
  | @sub a b ha hb iha ihb =>
    rcases hu : (Circ.sub a b).uses with _ | _
    · exact .inl ⟨.pure (.sub ha hb) hu, Circ.eval_pure _ _ hu⟩
    rw [Circ.uses] at hu
    obtain ⟨fa, fb, s⟩ := hg (.sub a b) (by simp [Circ.gates, hu])
    exact .inr (.sub hF (fin (iha fun g h => hg g (by simp [Circ.gates, h])) fa)
      (fin (ihb fun g h => hg g (by simp [Circ.gates, h])) fb) s)
  | @neg a ha ih =>
    rcases ih fun g h => hg g (by simp [Circ.gates, h]) with ⟨z, q⟩ | h
    · exact .inl ⟨z.neg, by rw [Circ.eval, q]; rfl⟩
    · exact .inr h.neg
  | @cmul c a hc ha ih =>
    rcases hu : (Circ.mul c a).uses with _ | _
    · exact .inl ⟨.pure (.cmul hc ha) hu, Circ.eval_pure _ _ hu⟩
    rw [Circ.uses] at hu
    obtain ⟨fc, fa, s⟩ := hg (.mul c a) (by simp [Circ.gates, hu])
    rw [Circ.eval, Circ.eval, Circ.eval_pure (fun i => pow2 F e * x i) x hc]
    exact .inr (.mul_right hF fc (fin (ih fun g h => hg g (by simp [Circ.gates, h])) fa) s)
  | @mulc a c ha hc ih =>
    rcases hu : (Circ.mul a c).uses with _ | _
    · exact .inl ⟨.pure (.mulc ha hc) hu, Circ.eval_pure _ _ hu⟩
    rw [Circ.uses] at hu
    obtain ⟨fa, fc, s⟩ := hg (.mul a c) (by simp [Circ.gates, hu])
    rw [Circ.eval, Circ.eval, Circ.eval_pure (fun i => pow2 F e * x i) x hc]
    exact .inr (.mul_left hF fc (fin (ih fun g h => hg g (by simp [Circ.gates, h])) fa) s)

end Flt

end RustDHT
