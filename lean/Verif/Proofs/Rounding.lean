import Verif.Spec.Rounding
import Verif.Proofs.ParamPlan

/-! # Rounding errors, by relating three arithmetics -/

set_option linter.unusedSectionVars false
set_option linter.style.haveILetI false

namespace RustDHT

theorem Cost.add_def (a b : Cost) : a + b = ⟨a.g + b.g, a.c + b.c, max a.d b.d + 1, max a.e b.e, max a.r b.r⟩ := rfl
theorem Cost.sub_def (a b : Cost) : a - b = ⟨a.g + b.g, a.c + b.c, max a.d b.d + 1, max a.e b.e, max a.r b.r⟩ := rfl
theorem Cost.neg_def (a : Cost) : -a = a := rfl
theorem Cost.mul_def (a b : Cost) : a * b
    = ⟨max 1 a.g * max 1 b.g, max 1 a.g * b.c + a.c * max 1 b.g + 1, a.d + b.d + 2, a.e + b.e, a.r + b.r⟩ := rfl
theorem Cost.zero_def : (0 : Cost) = ⟨0, 0, 0, 0, 0⟩ := rfl

theorem Cost.depth_add (t s : ℕ) (a b : Cost) : max (a.depth t s) (b.depth t s) + 1 ≤ (a + b).depth t s := by
  have h1 : a.e * t ≤ max a.e b.e * t := Nat.mul_le_mul_right _ (le_max_left _ _)
  have h2 : b.e * t ≤ max a.e b.e * t := Nat.mul_le_mul_right _ (le_max_right _ _)
  have h3 : a.r * s ≤ max a.r b.r * s := Nat.mul_le_mul_right _ (le_max_left _ _)
  have h4 : b.r * s ≤ max a.r b.r * s := Nat.mul_le_mul_right _ (le_max_right _ _)
  simp only [Cost.depth, Cost.add_def]
  omega

theorem Cost.depth_mul (t s : ℕ) (a b : Cost) : (a * b).depth t s = a.depth t s + b.depth t s + 2 := by
  simp only [Cost.depth, Cost.mul_def]
  ring

/-- A cost with a single count of roundings. -/
structure Cost3 where
  g : ℕ
  c : ℕ
  d : ℕ

instance : Zero Cost3 := ⟨⟨0, 0, 0⟩⟩
instance : Add Cost3 := ⟨fun a b => ⟨a.g + b.g, a.c + b.c, max a.d b.d + 1⟩⟩
instance : Sub Cost3 := ⟨fun a b => ⟨a.g + b.g, a.c + b.c, max a.d b.d + 1⟩⟩
instance : Neg Cost3 := ⟨fun a => a⟩
instance : Mul Cost3 := ⟨fun a b => ⟨max 1 a.g * max 1 b.g, max 1 a.g * b.c + a.c * max 1 b.g + 1, a.d + b.d + 2⟩⟩

theorem Cost3.add_def (a b : Cost3) : a + b = ⟨a.g + b.g, a.c + b.c, max a.d b.d + 1⟩ := rfl
theorem Cost3.sub_def (a b : Cost3) : a - b = ⟨a.g + b.g, a.c + b.c, max a.d b.d + 1⟩ := rfl
theorem Cost3.neg_def (a : Cost3) : -a = a := rfl
theorem Cost3.mul_def (a b : Cost3) :
    a * b = ⟨max 1 a.g * max 1 b.g, max 1 a.g * b.c + a.c * max 1 b.g + 1, a.d + b.d + 2⟩ := rfl
theorem Cost3.zero_def : (0 : Cost3) = ⟨0, 0, 0⟩ := rfl

/-- Exact values together with costs. -/
@[instance_reducible] noncomputable def pairCost (t s : ℕ) : FftNum (ℝ × Cost3) where
  F64 := ℝ
  f64 := exactReal.f64
  fromF64 a := (a, ⟨1, 0, t⟩)
  sqrtHalfF32 := (√(1 / 2), ⟨1, 0, s⟩)
  halfF32 := (1 / 2, ⟨1, 0, 0⟩)

section
variable {T : Type} [Zero T] [Add T] [Sub T] [Mul T] [Neg T] [FftNum T]
variable {fin : T → Prop} {val : T → ℝ} {u η Ω : ℝ} {t s : ℕ}

/-- Data. -/
def FR (fin : T → Prop) (val : T → ℝ) (u η Ω A : ℝ) (a : T) (x : ℝ × Cost3) : Prop :=
  (1 + u) ^ x.2.d * (x.2.g * max A 1 + η * x.2.c) ≤ Ω →
    fin a ∧ |x.1| ≤ x.2.g * A ∧ |val a - x.1| ≤ (1 + u) ^ x.2.d * (x.2.g * A + η * x.2.c) - x.2.g * A

/-- Constants: no underflows are counted, as the roundings of a product of constants are counted twice. -/
def FC (fin : T → Prop) (val : T → ℝ) (u Ω : ℝ) : T → ℝ × Cost3 → Prop := FR fin val u 0 Ω 1

theorem fc_iff {a : T} {x : ℝ × Cost3} : FC fin val u Ω a x ↔ ((1 + u) ^ x.2.d * x.2.g ≤ Ω →
    fin a ∧ |x.1| ≤ x.2.g ∧ |val a - x.1| ≤ (1 + u) ^ x.2.d * x.2.g - x.2.g) := by
  simp [FC, FR]

variable (hm : FloatModel fin val u η Ω t s)
include hm

theorem FloatModel.one_le : 1 ≤ 1 + u := by linarith [hm.u_nonneg]

theorem FloatModel.pow_le {d d' : ℕ} (h : d ≤ d') : (1 + u) ^ d ≤ (1 + u) ^ d' := pow_le_pow_right₀ hm.one_le h

theorem FloatModel.pow_pos (d : ℕ) : 0 < (1 + u) ^ d := by have := hm.one_le; positivity

theorem FloatModel.one_le_pow (d : ℕ) : 1 ≤ (1 + u) ^ d := one_le_pow₀ hm.one_le

/-- `x`, perturbed: from the two bounds of a relation to a bound of the computed value. -/
theorem abs_le_of_err {x y m b : ℝ} (h1 : |x| ≤ m) (h2 : |y - x| ≤ b - m) : |y| ≤ b := by
  have := abs_add_le (y - x) x
  rw [sub_add_cancel] at this
  linarith

/-- A sum of two related values, before and after the rounding. -/
theorem FloatModel.sum_bound {a1 a2 x1 x2 y m1 m2 w1 w2 : ℝ} {d1 d2 : ℕ} (h1 : |x1| ≤ m1) (h2 : |x2| ≤ m2)
    (hw1 : 0 ≤ w1) (hw2 : 0 ≤ w2)
    (e1 : |a1 - x1| ≤ (1 + u) ^ d1 * w1 - m1) (e2 : |a2 - x2| ≤ (1 + u) ^ d2 * w2 - m2)
    (hr : |y - (a1 + a2)| ≤ u * |a1 + a2|) :
    |y - (x1 + x2)| ≤ (1 + u) ^ (max d1 d2 + 1) * (w1 + w2) - (m1 + m2) := by
  have f1 := abs_le_of_err hm h1 e1
  have f2 := abs_le_of_err hm h2 e2
  have g1 : (1 + u) ^ d1 * w1 ≤ (1 + u) ^ max d1 d2 * w1 := mul_le_mul_of_nonneg_right (hm.pow_le (le_max_left _ _)) hw1
  have g2 : (1 + u) ^ d2 * w2 ≤ (1 + u) ^ max d1 d2 * w2 := mul_le_mul_of_nonneg_right (hm.pow_le (le_max_right _ _)) hw2
  have k1 := abs_add_le a1 a2
  have k2 := abs_add_le (a1 - x1) (a2 - x2)
  have k3 := abs_add_le (y - (a1 + a2)) ((a1 - x1) + (a2 - x2))
  rw [show y - (a1 + a2) + (a1 - x1 + (a2 - x2)) = y - (x1 + x2) by ring] at k3
  have k4 : u * |a1 + a2| ≤ u * ((1 + u) ^ max d1 d2 * (w1 + w2)) :=
    mul_le_mul_of_nonneg_left (by linarith) hm.u_nonneg
  rw [pow_succ]
  linarith

theorem FloatModel.sum_size {a1 a2 x1 x2 m1 m2 w1 w2 W1 W2 : ℝ} {d1 d2 : ℕ} (h1 : |x1| ≤ m1) (h2 : |x2| ≤ m2)
    (e1 : |a1 - x1| ≤ (1 + u) ^ d1 * w1 - m1) (e2 : |a2 - x2| ≤ (1 + u) ^ d2 * w2 - m2)
    (hw1 : 0 ≤ w1) (hw2 : 0 ≤ w2) (hW1 : w1 ≤ W1) (hW2 : w2 ≤ W2)
    (hO : (1 + u) ^ (max d1 d2 + 1) * (W1 + W2) ≤ Ω) : |a1 + a2| ≤ Ω := by
  have f1 := abs_le_of_err hm h1 e1
  have f2 := abs_le_of_err hm h2 e2
  have k1 := abs_add_le a1 a2
  have g1 : (1 + u) ^ d1 * w1 ≤ (1 + u) ^ (max d1 d2 + 1) * W1 :=
    mul_le_mul (hm.pow_le (by omega)) hW1 hw1 (hm.pow_pos _).le
  have g2 : (1 + u) ^ d2 * w2 ≤ (1 + u) ^ (max d1 d2 + 1) * W2 :=
    mul_le_mul (hm.pow_le (by omega)) hW2 hw2 (hm.pow_pos _).le
  linarith

theorem FloatModel.big_mono {κ : ℝ} (hκ : 0 ≤ κ) {S : ℝ} (hS : 0 ≤ S) {g c d g' c' d' : ℕ} (hg : g ≤ g') (hc : c ≤ c') (hd : d ≤ d')
    (hO : (1 + u) ^ d' * (g' * S + κ * c') ≤ Ω) : (1 + u) ^ d * (g * S + κ * c) ≤ Ω := by
  refine le_trans (mul_le_mul (hm.pow_le hd) ?_ ?_ (hm.pow_pos _).le) hO
  · have h1 : (g : ℝ) ≤ g' := by exact_mod_cast hg
    have h2 : (c : ℝ) ≤ c' := by exact_mod_cast hc
    exact add_le_add (mul_le_mul_of_nonneg_right h1 hS) (mul_le_mul_of_nonneg_left h2 hκ)
  · have := hκ; positivity

theorem FloatModel.wle {κ A : ℝ} (g c : ℕ) : (g : ℝ) * A + κ * c ≤ g * max A 1 + κ * c := by
  have : (g : ℝ) * A ≤ g * max A 1 := mul_le_mul_of_nonneg_left (le_max_left _ _) (Nat.cast_nonneg _)
  linarith

theorem FloatModel.wnn {κ : ℝ} (hκ : 0 ≤ κ) {A : ℝ} (hA : 0 ≤ A) (g c : ℕ) : 0 ≤ (g : ℝ) * A + κ * c := by
  positivity

theorem FloatModel.addR {κ : ℝ} (hκ : 0 ≤ κ) {A : ℝ} (hA : 0 ≤ A) {a a' : T} {x x' : ℝ × Cost3} (h : FR fin val u κ Ω A a x)
    (h' : FR fin val u κ Ω A a' x') : FR fin val u κ Ω A (a + a') (x + x') := by
  intro hO
  obtain ⟨e, q⟩ := x
  obtain ⟨e', q'⟩ := x'
  have hS : (0 : ℝ) ≤ max A 1 := le_trans hA (le_max_left _ _)
  simp only [Prod.mk_add_mk, Cost3.add_def] at hO ⊢
  obtain ⟨f1, m1, e1⟩ := h (hm.big_mono hκ hS (Nat.le_add_right _ _) (Nat.le_add_right _ _) (by simp only; omega) hO)
  obtain ⟨f2, m2, e2⟩ := h' (hm.big_mono hκ hS (Nat.le_add_left _ _) (Nat.le_add_left _ _) (by simp only; omega) hO)
  simp only at f1 m1 e1 f2 m2 e2
  have hs := hm.sum_size m1 m2 e1 e2 (hm.wnn hκ hA _ _) (hm.wnn hκ hA _ _) (hm.wle _ _) (hm.wle _ _)
    (by push_cast at hO; refine le_trans (le_of_eq ?_) hO; ring)
  obtain ⟨f3, e3⟩ := hm.add a a' f1 f2 hs
  refine ⟨f3, ?_, ?_⟩
  · push_cast; rw [add_mul]; exact (abs_add_le _ _).trans (add_le_add m1 m2)
  · have := hm.sum_bound m1 m2 (hm.wnn hκ hA _ _) (hm.wnn hκ hA _ _) e1 e2 e3
    push_cast
    refine this.trans (le_of_eq ?_)
    ring

theorem FloatModel.negR {κ A : ℝ} {a : T} {x : ℝ × Cost3} (h : FR fin val u κ Ω A a x) :
    FR fin val u κ Ω A (-a) (-x) := by
  intro hO
  obtain ⟨f, m, e⟩ := h hO
  obtain ⟨f', e'⟩ := hm.neg a f
  refine ⟨f', ?_, ?_⟩
  · rw [Prod.fst_neg, abs_neg]; exact m
  · rw [e', Prod.fst_neg, show -val a - -x.1 = -(val a - x.1) by ring, abs_neg]; exact e

theorem FloatModel.subR {κ : ℝ} (hκ : 0 ≤ κ) {A : ℝ} (hA : 0 ≤ A) {a a' : T} {x x' : ℝ × Cost3} (h : FR fin val u κ Ω A a x)
    (h' : FR fin val u κ Ω A a' x') : FR fin val u κ Ω A (a - a') (x - x') := by
  intro hO
  obtain ⟨e, q⟩ := x
  obtain ⟨e', q'⟩ := x'
  have hS : (0 : ℝ) ≤ max A 1 := le_trans hA (le_max_left _ _)
  simp only [Prod.mk_sub_mk, Cost3.sub_def] at hO ⊢
  obtain ⟨f1, m1, e1⟩ := h (hm.big_mono hκ hS (Nat.le_add_right _ _) (Nat.le_add_right _ _) (by simp only; omega) hO)
  obtain ⟨f2, m2, e2⟩ := h' (hm.big_mono hκ hS (Nat.le_add_left _ _) (Nat.le_add_left _ _) (by simp only; omega) hO)
  simp only at f1 m1 e1 f2 m2 e2
  rw [← abs_neg] at m2
  rw [show val a' - e' = -(-val a' - -e') by ring, abs_neg] at e2
  have hs := hm.sum_size m1 m2 e1 e2 (hm.wnn hκ hA _ _) (hm.wnn hκ hA _ _) (hm.wle _ _) (hm.wle _ _)
    (by push_cast at hO; refine le_trans (le_of_eq ?_) hO; ring)
  obtain ⟨f3, e3⟩ := hm.sub a a' f1 f2 (by rw [sub_eq_add_neg]; exact hs)
  refine ⟨f3, ?_, ?_⟩
  · push_cast; rw [add_mul, sub_eq_add_neg]; exact (abs_add_le _ _).trans (add_le_add m1 m2)
  · rw [sub_eq_add_neg (val a)] at e3
    have := hm.sum_bound m1 m2 (hm.wnn hκ hA _ _) (hm.wnn hκ hA _ _) e1 e2 e3
    push_cast
    rw [sub_eq_add_neg e]
    refine this.trans (le_of_eq ?_)
    ring

/-- A product of a constant and a value, before and after the rounding. -/
theorem FloatModel.prod_bound {a1 a2 x1 x2 y m1 m2 b1 b2 : ℝ} (h1 : |x1| ≤ m1) (h2 : |x2| ≤ m2)
    (e1 : |a1 - x1| ≤ b1 - m1) (e2 : |a2 - x2| ≤ b2 - m2) (hr : |y - a1 * a2| ≤ u * |a1 * a2| + η) :
    |a1 * a2| ≤ b1 * b2 ∧ |y - x1 * x2| ≤ (1 + u) * (b1 * b2) + η - m1 * m2 := by
  have f1 := abs_le_of_err hm h1 e1
  have f2 := abs_le_of_err hm h2 e2
  have p : |a1 * a2| ≤ b1 * b2 := by
    rw [abs_mul]; exact mul_le_mul f1 f2 (abs_nonneg _) (le_trans (abs_nonneg _) f1)
  refine ⟨p, ?_⟩
  have k1 : |a1 * (a2 - x2)| ≤ b1 * (b2 - m2) := by
    rw [abs_mul]; exact mul_le_mul f1 e2 (abs_nonneg _) (le_trans (abs_nonneg _) f1)
  have k2 : |(a1 - x1) * x2| ≤ (b1 - m1) * m2 := by
    rw [abs_mul]; exact mul_le_mul e1 h2 (abs_nonneg _) (le_trans (abs_nonneg _) e1)
  have k3 := abs_add_le (a1 * (a2 - x2)) ((a1 - x1) * x2)
  have k4 := abs_add_le (y - a1 * a2) (a1 * (a2 - x2) + (a1 - x1) * x2)
  rw [show y - a1 * a2 + (a1 * (a2 - x2) + (a1 - x1) * x2) = y - x1 * x2 by ring] at k4
  have k5 := mul_le_mul_of_nonneg_left p hm.u_nonneg
  linarith

/-- The arithmetic of `cmulR`. -/
theorem FloatModel.prod_le {P G G' A S k q k' : ℝ} (hP : 1 ≤ P) (hG : 0 ≤ G) (hG' : 0 ≤ G') (hA : 0 ≤ A) (hS : A ≤ S)
    (hk : 0 ≤ k) (hq : 0 ≤ q) (hk' : k' = G * k + q * G' + 1) :
    P * (G * G' * A + η * (G * k)) ≤ P * (1 + u) * (1 + u) * (G * G' * S + η * k') ∧
    (1 + u) * (P * (G * G' * A + η * (G * k))) + η ≤ P * (1 + u) * (1 + u) * (G * G' * A + η * k') := by
  have hη := hm.η_nonneg
  have hu := hm.one_le
  have hP0 : 0 ≤ P := by linarith
  have h1 : η * (G * k) + η ≤ η * k' := by
    rw [hk']
    have : 0 ≤ η * (q * G') := by positivity
    linarith
  have hX : 0 ≤ G * G' * A := by positivity
  have hY : 0 ≤ η * (G * k) := by positivity
  have hPu : P ≤ P * (1 + u) := le_mul_of_one_le_right hP0 hu
  have hPuu : P * (1 + u) ≤ P * (1 + u) * (1 + u) := le_mul_of_one_le_right (by linarith) hu
  constructor
  · refine mul_le_mul (hPu.trans hPuu) ?_ (by linarith) (by linarith)
    have : G * G' * A ≤ G * G' * S := mul_le_mul_of_nonneg_left hS (by positivity)
    linarith
  · have h2 : η ≤ P * (1 + u) * η := le_mul_of_one_le_left hη (by linarith)
    have h3 : P * (1 + u) * (G * G' * A + η * k') ≤ P * (1 + u) * (1 + u) * (G * G' * A + η * k') :=
      mul_le_mul_of_nonneg_right hPuu (by linarith)
    have h4 : P * (1 + u) * (η * (G * k) + η) ≤ P * (1 + u) * (η * k') :=
      mul_le_mul_of_nonneg_left h1 (by linarith)
    linarith

theorem FloatModel.err_mono {x a g g' w : ℝ} {d : ℕ} (h : g ≤ g') (e : |a - x| ≤ (1 + u) ^ d * (g + w) - g) :
    |a - x| ≤ (1 + u) ^ d * (g' + w) - g' := by
  have := mul_le_mul_of_nonneg_left h (by linarith [hm.one_le_pow d] : (0 : ℝ) ≤ (1 + u) ^ d - 1)
  linarith

theorem FloatModel.cmulR {A : ℝ} (hA : 0 ≤ A) {c a : T} {x y : ℝ × Cost3} (h : FC fin val u Ω c x)
    (h' : FR fin val u η Ω A a y) : FR fin val u η Ω A (c * a) (x * y) ∧ FR fin val u η Ω A (a * c) (y * x) := by
  obtain ⟨e, q⟩ := x
  obtain ⟨e', q'⟩ := y
  obtain ⟨G, hG⟩ : ∃ G, max 1 q.g = G := ⟨_, rfl⟩
  obtain ⟨G', hG'⟩ : ∃ G, max 1 q'.g = G := ⟨_, rfl⟩
  obtain ⟨k, hk⟩ : ∃ k, G * q'.c + q.c * G' + 1 = k := ⟨_, rfl⟩
  have comm : (e', q') * (e, q) = (e, q) * (e', q') := by
    simp only [Prod.mk_mul_mk, Cost3.mul_def, hG, hG']
    rw [mul_comm e', Nat.mul_comm G', Nat.add_comm q'.d, Nat.add_comm (G' * q.c), Nat.mul_comm G', Nat.mul_comm q'.c]
  have prod : (e, q) * (e', q') = (e * e', (⟨G * G', k, q.d + q'.d + 2⟩ : Cost3)) := by
    simp only [Prod.mk_mul_mk, Cost3.mul_def, hG, hG', hk]
  rw [comm, prod]
  suffices main : (1 + u) ^ (q.d + q'.d + 2) * ((G * G' : ℕ) * max A 1 + η * k) ≤ Ω →
      fin c ∧ fin a ∧ |val c * val a| ≤ Ω ∧ |e * e'| ≤ (G * G' : ℕ) * A ∧
      ∀ y, |y - val c * val a| ≤ u * |val c * val a| + η →
        |y - e * e'| ≤ (1 + u) ^ (q.d + q'.d + 2) * ((G * G' : ℕ) * A + η * k) - (G * G' : ℕ) * A by
    constructor
    · intro hO
      obtain ⟨f1, f2, hs, hb, hy⟩ := main hO
      obtain ⟨f3, e3⟩ := hm.mul c a f1 f2 hs
      exact ⟨f3, hb, hy _ e3⟩
    · intro hO
      obtain ⟨f1, f2, hs, hb, hy⟩ := main hO
      rw [mul_comm (val c)] at hs hy
      obtain ⟨f3, e3⟩ := hm.mul a c f2 f1 hs
      exact ⟨f3, hb, hy _ e3⟩
  intro hO
  have hS : (1 : ℝ) ≤ max A 1 := le_max_right _ _
  have hS0 : (0 : ℝ) ≤ max A 1 := by linarith
  have hη := hm.η_nonneg
  have g1 : 1 ≤ G := hG ▸ le_max_left _ _
  have g2 : q.g ≤ G := hG ▸ le_max_right _ _
  have g3 : 1 ≤ G' := hG' ▸ le_max_left _ _
  have g4 : q'.g ≤ G' := hG' ▸ le_max_right _ _
  have n1 : G ≤ G * G' := Nat.le_mul_of_pos_right _ g3
  have n2 : G' ≤ G * G' := Nat.le_mul_of_pos_left _ g1
  have n3 : q'.c ≤ G * q'.c := Nat.le_mul_of_pos_left _ g1
  -- the operands are in range
  have o1 : (1 + u) ^ q.d * q.g ≤ Ω := by
    have := hm.big_mono hη (c := 0) (d := q.d) hS0 (g2.trans n1) (Nat.zero_le _) (by omega) hO
    refine le_trans (mul_le_mul_of_nonneg_left ?_ (hm.pow_pos _).le) this
    have : (q.g : ℝ) * 1 ≤ q.g * max A 1 := mul_le_mul_of_nonneg_left hS (Nat.cast_nonneg _)
    simp only [Nat.cast_zero, mul_zero, add_zero]
    linarith
  have o2 := hm.big_mono hη (c := q'.c) (d := q'.d) hS0 (g4.trans n2) (by omega) (by omega) hO
  obtain ⟨f1, m1, e1⟩ := fc_iff.1 h o1
  obtain ⟨f2, m2, e2⟩ := h' o2
  simp only at f1 m1 e1 f2 m2 e2
  have r2 : (q.g : ℝ) ≤ G := by exact_mod_cast g2
  have r4 : (q'.g : ℝ) * A ≤ G' * A := mul_le_mul_of_nonneg_right (by exact_mod_cast g4) hA
  have m1' : |e| ≤ G := m1.trans r2
  have m2' : |e'| ≤ G' * A := m2.trans r4
  have e1' : |val c - e| ≤ (1 + u) ^ q.d * G - G := by
    have := hm.err_mono (w := 0) r2 (by rwa [add_zero])
    rwa [add_zero] at this
  have e2' := hm.err_mono r4 e2
  have hpow : (1 + u) ^ (q.d + q'.d + 2) = (1 + u) ^ q.d * (1 + u) ^ q'.d * (1 + u) * (1 + u) := by ring
  have hk' : (k : ℝ) = G * q'.c + q.c * G' + 1 := by rw [← hk]; push_cast; ring
  obtain ⟨p1, p2⟩ := hm.prod_le (P := (1 + u) ^ q.d * (1 + u) ^ q'.d) (S := max A 1)
    (one_le_mul_of_one_le_of_one_le (hm.one_le_pow _) (hm.one_le_pow _)) (Nat.cast_nonneg G) (Nat.cast_nonneg G') hA
    (le_max_left _ _) (Nat.cast_nonneg q'.c) (Nat.cast_nonneg q.c) hk'
  rw [hpow] at hO ⊢
  rw [Nat.cast_mul] at hO ⊢
  have key : (1 + u) ^ q.d * G * ((1 + u) ^ q'.d * (G' * A + η * q'.c))
      = (1 + u) ^ q.d * (1 + u) ^ q'.d * (G * G' * A + η * (G * q'.c)) := by ring
  refine ⟨f1, f2, ?_, ?_, ?_⟩
  · have f1' := abs_le_of_err hm m1' e1'
    have f2' := abs_le_of_err hm m2' e2'
    rw [abs_mul]
    refine (mul_le_mul f1' f2' (abs_nonneg _) (le_trans (abs_nonneg _) f1')).trans ?_
    rw [key]
    exact p1.trans hO
  · rw [abs_mul, mul_assoc]
    exact mul_le_mul m1' m2' (abs_nonneg _) (Nat.cast_nonneg _)
  · intro y hy
    obtain ⟨_, e4⟩ := hm.prod_bound m1' m2' e1' e2' hy
    refine e4.trans ?_
    rw [key]
    linarith

theorem FloatModel.mulC {c c' : T} {x y : ℝ × Cost3} (h : FC fin val u Ω c x) (h' : FC fin val u Ω c' y) :
    FC fin val u Ω (c * c') (x * y) := by
  rw [fc_iff] at h h' ⊢
  obtain ⟨e, q⟩ := x
  obtain ⟨e', q'⟩ := y
  obtain ⟨G, hG⟩ : ∃ G, max 1 q.g = G := ⟨_, rfl⟩
  obtain ⟨G', hG'⟩ : ∃ G, max 1 q'.g = G := ⟨_, rfl⟩
  simp only [Prod.mk_mul_mk, Cost3.mul_def, hG, hG']
  simp only at h h'
  intro hO
  have g1 : 1 ≤ G := hG ▸ le_max_left _ _
  have g2 : q.g ≤ G := hG ▸ le_max_right _ _
  have g3 : 1 ≤ G' := hG' ▸ le_max_left _ _
  have g4 : q'.g ≤ G' := hG' ▸ le_max_right _ _
  have n1 : G ≤ G * G' := Nat.le_mul_of_pos_right _ g3
  have n2 : G' ≤ G * G' := Nat.le_mul_of_pos_left _ g1
  have range : ∀ {d g : ℕ}, d ≤ q.d + q'.d + 2 → g ≤ G * G' → (1 + u) ^ d * g ≤ Ω := by
    intro d g hd hg
    exact (mul_le_mul (hm.pow_le hd) (by exact_mod_cast hg) (Nat.cast_nonneg _) (hm.pow_pos _).le).trans hO
  obtain ⟨f1, m1, e1⟩ := h (range (by omega) (g2.trans n1))
  obtain ⟨f2, m2, e2⟩ := h' (range (by omega) (g4.trans n2))
  have r2 : (q.g : ℝ) ≤ G := by exact_mod_cast g2
  have r4 : (q'.g : ℝ) ≤ G' := by exact_mod_cast g4
  have r1 : (1 : ℝ) ≤ G := by exact_mod_cast g1
  have r3 : (1 : ℝ) ≤ G' := by exact_mod_cast g3
  have m1' : |e| ≤ G := m1.trans r2
  have m2' : |e'| ≤ G' := m2.trans r4
  have e1' : |val c - e| ≤ (1 + u) ^ q.d * G - G := by
    have := hm.err_mono (w := 0) r2 (by rwa [add_zero])
    rwa [add_zero] at this
  have e2' : |val c' - e'| ≤ (1 + u) ^ q'.d * G' - G' := by
    have := hm.err_mono (w := 0) r4 (by rwa [add_zero])
    rwa [add_zero] at this
  have hpow : (1 + u) ^ (q.d + q'.d + 2) = (1 + u) ^ q.d * (1 + u) ^ q'.d * (1 + u) * (1 + u) := by ring
  have hu := hm.u_nonneg
  have hP : 1 ≤ (1 + u) ^ q.d * (1 + u) ^ q'.d :=
    one_le_mul_of_one_le_of_one_le (hm.one_le_pow _) (hm.one_le_pow _)
  have key : (1 + u) ^ q.d * G * ((1 + u) ^ q'.d * G') = (1 + u) ^ q.d * (1 + u) ^ q'.d * (G * G') := by ring
  rw [hpow] at hO ⊢
  rw [Nat.cast_mul] at hO ⊢
  set P := (1 + u) ^ q.d * (1 + u) ^ q'.d
  have hGG : (1 : ℝ) ≤ G * G' := one_le_mul_of_one_le_of_one_le r1 r3
  have hPG : 1 ≤ P * (G * G') := one_le_mul_of_one_le_of_one_le hP hGG
  have s1 : P * (G * G') ≤ P * (G * G') * (1 + u) := le_mul_of_one_le_right (by linarith) hm.one_le
  have s2 : (1 + u) * (P * (G * G')) + η ≤ P * (1 + u) * (1 + u) * (G * G') := by
    have h1 : η ≤ u * (P * (G * G') * (1 + u)) :=
      hm.η_le.trans (le_mul_of_one_le_right hu (by linarith))
    linarith
  have hs : |val c * val c'| ≤ Ω := by
    have f1' := abs_le_of_err hm m1' e1'
    have f2' := abs_le_of_err hm m2' e2'
    rw [abs_mul]
    refine (mul_le_mul f1' f2' (abs_nonneg _) (le_trans (abs_nonneg _) f1')).trans ?_
    rw [key]
    have := hm.η_nonneg
    linarith
  obtain ⟨f3, e3⟩ := hm.mul c c' f1 f2 hs
  obtain ⟨_, e4⟩ := hm.prod_bound m1' m2' e1' e2' e3
  refine ⟨f3, ?_, e4.trans ?_⟩
  · rw [abs_mul]; exact mul_le_mul m1' m2' (abs_nonneg _) (Nat.cast_nonneg _)
  · rw [key]; linarith

/-- A constant of the tables. -/
theorem FloatModel.tableC {a : T} {e : ℝ} {t' : ℕ} (hf : fin a) (he : |e| ≤ 1) (h : |val a - e| ≤ t' * u) :
    FC fin val u Ω a (e, ⟨1, 0, t'⟩) := by
  rw [fc_iff]
  intro _
  refine ⟨hf, by simpa using he, ?_⟩
  have := one_add_mul_le_pow (a := u) (by linarith [hm.u_nonneg]) t'
  simp only [Nat.cast_one, mul_one]
  linarith

theorem floatModel_respects {A : ℝ} (hA : 0 ≤ A) :
    letI := pairCost t s
    Respects (FC fin val u Ω) (FR fin val u η Ω A) := by
  letI := pairCost t s
  have hη := hm.η_nonneg
  have hz : ∀ {κ A}, FR fin val u κ Ω A 0 0 := by
    intro κ A _
    refine ⟨hm.zero.1, ?_, ?_⟩ <;> simp [hm.zero.2, Cost3.zero_def]
  exact
  { zero := hz
    add := hm.addR hη hA
    sub := hm.subR hη hA
    neg := hm.negR
    cmul := fun h h' => (hm.cmulR hA h h').1
    mulc := fun h h' => (hm.cmulR hA h' h).2
    zeroC := hz
    addC := hm.addR le_rfl zero_le_one
    subC := hm.subR le_rfl zero_le_one
    negC := hm.negR
    mulC := hm.mulC
    inv := fun i n h => ⟨hm.tableC (hm.cos i n h).1 (Real.abs_cos_le_one _) (by
        have := (hm.cos i n h).2
        rwa [show 2 * Real.pi * i / n = 2 * Real.pi / n * i by ring] at this), hm.tableC (hm.sin i n h).1 (Real.abs_sin_le_one _) (by
        have := (hm.sin i n h).2
        rwa [show 2 * Real.pi * i / n = 2 * Real.pi / n * i by ring] at this)⟩
    fwd := fun i n h => ⟨hm.tableC (hm.cosFwd i n h).1 (Real.abs_cos_le_one _) (by
        have := (hm.cosFwd i n h).2
        rwa [show 2 * Real.pi * i / n = -(-2 * Real.pi / n * i) by ring, Real.cos_neg] at this),
        hm.tableC (hm.sinFwd i n h).1 (Real.abs_sin_le_one _) (by
        have := (hm.sinFwd i n h).2
        rwa [show 2 * Real.pi * i / n = -(-2 * Real.pi / n * i) by ring, Real.sin_neg, neg_neg] at this)⟩
    sqrtHalf := hm.tableC hm.sqrtHalf.1 (by
      rw [abs_of_nonneg (Real.sqrt_nonneg _)]; exact Real.sqrt_le_one.2 (by norm_num)) hm.sqrtHalf.2
    half := hm.tableC hm.half.1 (by rw [abs_of_pos] <;> norm_num) (by rw [hm.half.2]; simp)
    norm := fun n hn => hm.tableC (hm.norm n hn).1 (by
        have h0 : (0 : ℝ) < (1 : ℕ) / (n : ℝ) := by positivity
        have h1 : ((1 : ℕ) : ℝ) / (n : ℝ) ≤ 1 := by
          rw [div_le_one (by positivity)]; exact_mod_cast hn
        change |((1 : ℕ) : ℝ) / (n : ℝ)| ≤ 1
        rw [abs_of_pos h0]; exact h1) (by
        have := (hm.norm n hn).2
        rwa [show (1 : ℝ) / n = ((1 : ℕ) : ℝ) / n by simp] at this) }

end

/-! ## The two projections -/

theorem pairCost_fst (t s : ℕ) :
    letI := pairCost t s
    Respects (T := ℝ × Cost3) (T' := ℝ) (fun x y => y = x.1) (fun x y => y = x.1) := by
  letI := pairCost t s
  exact
  { zero := rfl
    add := by rintro _ _ _ _ rfl rfl; rfl
    sub := by rintro _ _ _ _ rfl rfl; rfl
    neg := by rintro _ _ rfl; rfl
    cmul := by rintro _ _ _ _ rfl rfl; rfl
    mulc := by rintro _ _ _ _ rfl rfl; rfl
    zeroC := rfl
    addC := by rintro _ _ _ _ rfl rfl; rfl
    subC := by rintro _ _ _ _ rfl rfl; rfl
    negC := by rintro _ _ rfl; rfl
    mulC := by rintro _ _ _ _ rfl rfl; rfl
    inv := fun _ _ _ => ⟨rfl, rfl⟩
    fwd := fun _ _ _ => ⟨rfl, rfl⟩
    sqrtHalf := rfl
    half := rfl
    norm := fun _ _ => rfl }

/-- The depth is at most the one of the symbolic cost. -/
def Fits (t s : ℕ) (x : ℝ × Cost3) (q : Cost) : Prop := x.2.g = q.g ∧ x.2.c = q.c ∧ x.2.d ≤ q.depth t s

theorem Fits.sum {t s : ℕ} {x x' : ℝ × Cost3} {q q' : Cost} {e : ℝ} (h : Fits t s x q) (h' : Fits t s x' q') :
    Fits t s (e, x.2 + x'.2) (q + q') := by
  obtain ⟨h1, h2, h3⟩ := h
  obtain ⟨h1', h2', h3'⟩ := h'
  refine ⟨?_, ?_, ?_⟩
  · show x.2.g + x'.2.g = q.g + q'.g
    rw [h1, h1']
  · show x.2.c + x'.2.c = q.c + q'.c
    rw [h2, h2']
  · refine le_trans ?_ (Cost.depth_add t s q q')
    show max x.2.d x'.2.d + 1 ≤ _
    omega

theorem Fits.prod {t s : ℕ} {x x' : ℝ × Cost3} {q q' : Cost} (h : Fits t s x q) (h' : Fits t s x' q') :
    Fits t s (x * x') (q * q') := by
  obtain ⟨h1, h2, h3⟩ := h
  obtain ⟨h1', h2', h3'⟩ := h'
  refine ⟨?_, ?_, ?_⟩
  · show max 1 x.2.g * max 1 x'.2.g = max 1 q.g * max 1 q'.g
    rw [h1, h1']
  · show max 1 x.2.g * x'.2.c + x.2.c * max 1 x'.2.g + 1 = max 1 q.g * q'.c + q.c * max 1 q'.g + 1
    rw [h1, h1', h2, h2']
  · rw [Cost.depth_mul]
    show x.2.d + x'.2.d + 2 ≤ _
    omega

theorem pairCost_snd (t s : ℕ) :
    letI := pairCost t s
    Respects (T := ℝ × Cost3) (T' := Cost) (Fits t s) (Fits t s) := by
  letI := pairCost t s
  have ht : ∀ e : ℝ, Fits t s (e, ⟨1, 0, t⟩) ⟨1, 0, 0, 1, 0⟩ := fun e => ⟨rfl, rfl, by simp [Cost.depth]⟩
  have hs : ∀ e : ℝ, Fits t s (e, ⟨1, 0, s⟩) ⟨1, 0, 0, 0, 1⟩ := fun e => ⟨rfl, rfl, by simp [Cost.depth]⟩
  have h0 : Fits t s 0 0 := ⟨rfl, rfl, Nat.zero_le _⟩
  exact
  { zero := h0
    add := fun h h' => h.sum h'
    sub := fun h h' => h.sum h'
    neg := fun h => h
    cmul := fun h h' => h.prod h'
    mulc := fun h h' => h.prod h'
    zeroC := h0
    addC := fun h h' => h.sum h'
    subC := fun h h' => h.sum h'
    negC := fun h => h
    mulC := fun h h' => h.prod h'
    inv := fun _ _ _ => ⟨ht _, ht _⟩
    fwd := fun _ _ _ => ⟨ht _, ht _⟩
    sqrtHalf := hs _
    half := ⟨rfl, rfl, Nat.zero_le _⟩
    norm := fun _ _ => ht _ }

end RustDHT
