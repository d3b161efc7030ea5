import Verif.Proofs.Rounding
import Verif.Proofs.Plan

/-! # Rounding errors of compositions -/

set_option linter.unusedSectionVars false
set_option linter.style.haveILetI false

namespace RustDHT

variable {T : Type} [Zero T] [Add T] [Sub T] [Mul T] [Neg T] [FftNum T]
variable {fin : T → Prop} {val : T → ℝ} {u η Ω : ℝ} {t s : ℕ}

theorem ResRel.ok_left {α β : Type} {P : α → β → Prop} {a : α} {r : Res β} (h : ResRel P (.ok a) r) : ∃ b, r = .ok b ∧ P a b := by
  cases h with
  | ok h => exact ⟨_, rfl, h⟩

theorem LR.nth {T T' : Type} [Zero T] [Zero T'] {R : T → T' → Prop} {l : List T} {l' : List T'} (h : LR R l l') {k : ℕ}
    (hk : k < l.length) : R (nth l k) (nth l' k) := by
  induction h generalizing k with
  | nil => simp at hk
  | cons h t ih =>
    cases k with
    | zero => exact h
    | succ k => exact ih (by simpa using hk)

theorem LR.map_right {α γ : Type} {R : α → γ → Prop} {l : List α} {f : α → γ} (h : ∀ a ∈ l, R a (f a)) : LR R l (l.map f) := by
  induction l with
  | nil => exact .nil
  | cons a l ih => exact .cons (h a (by simp)) (ih fun b hb => h b (by simp [hb]))

theorem LR.map_left {α β γ : Type} {R : γ → β → Prop} {l : List α} {f : α → γ} {g : α → β} (h : ∀ a ∈ l, R (f a) (g a)) :
    LR R (l.map f) (l.map g) := by
  induction l with
  | nil => exact .nil
  | cons a l ih => exact .cons (h a (by simp)) (ih fun b hb => h b (by simp [hb]))

/-- One chunk. -/
theorem process_single {U : Type} [Zero U] {d : Dht U} {f : List U → List U} (hi : Implements d f) {x : List U} (hx : x.length = d.len) :
    d.process x = .ok (f x) := by
  rw [hi.process hx.ge (by rw [hx])]
  rcases Nat.eq_zero_or_pos d.len with h | h
  · have h1 := hi.length x hx
    rw [h, List.length_eq_zero_iff] at h1 hx
    rw [h1, hx, mapChunks, if_pos (by rw [h]; exact .inl rfl)]
  · rw [mapChunks_single h hx]

/-- One composition in floating point, with exact numbers, and counting roundings. -/
theorem plan_rounding (p : Plan) (hm : FloatModel fin val u η Ω t s) {A : ℝ} (hA : 0 ≤ A) {d : Dht T} (hd : p.build T = .ok d)
    {x y : List T} (hx : ∀ a ∈ x, fin a ∧ |val a| ≤ A) (hy : d.process x = .ok y) :
    ∃ (dr : Dht ℝ) (X : List ℝ) (dq : Dht Cost) (q : List Cost),
      p.build ℝ = .ok dr ∧ dr.len = d.len ∧ dr.process (x.map val) = .ok X ∧
      p.build Cost = .ok dq ∧ dq.len = d.len ∧
      dq.process (List.replicate x.length Cost.input) = .ok q ∧
      X.length = y.length ∧ q.length = y.length ∧
      ∀ k < y.length, (nth q k).size u η t s A ≤ Ω →
        fin (nth y k) ∧ |val (nth y k) - nth X k| ≤ (nth q k).error u η t s A := by
  letI := pairCost t s
  have h1 := plan_rel p (floatModel_respects hm hA)
  have h2 := plan_rel p (pairCost_fst t s)
  have h3 := plan_rel p (pairCost_snd t s)
  rw [hd] at h1
  obtain ⟨dp, ep, rp⟩ := h1.ok_left
  rw [ep] at h2 h3
  obtain ⟨dr, er, rr⟩ := h2.ok_left
  obtain ⟨dq, eq, rq⟩ := h3.ok_left
  have lx : LR (FR fin val u η Ω A) x (x.map fun a => (val a, (⟨1, 0, 0⟩ : Cost3))) :=
    LR.map_right fun a ha _ => ⟨(hx a ha).1, by simpa using (hx a ha).2, by simp⟩
  have p1 := dht_process_rel rp (floatModel_respects hm hA).zero lx
  rw [hy] at p1
  obtain ⟨z, ez, lz⟩ := p1.ok_left
  have p2 := dht_process_rel rr (pairCost_fst t s).zero (b' := x.map val)
    (LR.map_left (f := fun a => (val a, (⟨1, 0, 0⟩ : Cost3))) fun a _ => rfl)
  have p3 := dht_process_rel rq (pairCost_snd t s).zero (b' := List.replicate x.length Cost.input) (by
    rw [show List.replicate x.length Cost.input = x.map fun _ => Cost.input by simp]
    exact LR.map_left (f := fun a => (val a, (⟨1, 0, 0⟩ : Cost3))) fun a _ => ⟨rfl, rfl, Nat.zero_le _⟩)
  rw [ez] at p2 p3
  obtain ⟨X, eX, lX⟩ := p2.ok_left
  obtain ⟨q, eq', lq⟩ := p3.ok_left
  have z1 := lz.length
  have z2 := lX.length
  have z3 := lq.length
  refine ⟨dr, X, dq, q, er, by rw [rp.len, rr.len], eX, eq, by rw [rp.len, rq.len], eq', by omega, by omega, fun k hk hO => ?_⟩
  have r1 := lz.nth hk
  have r2 := lX.nth (k := k) (by omega)
  have r3 := lq.nth (k := k) (by omega)
  obtain ⟨c1, c2, c3⟩ := r3
  have hη := hm.η_nonneg
  have hS : (0 : ℝ) ≤ max A 1 := le_trans hA (le_max_left _ _)
  rw [Cost.size] at hO
  obtain ⟨f, _, e⟩ := r1 (hm.big_mono hη hS c1.le c2.le c3 hO)
  refine ⟨f, ?_⟩
  rw [r2, Cost.error, ← c1, ← c2]
  refine e.trans (sub_le_sub_right (mul_le_mul_of_nonneg_right (hm.pow_le c3) ?_) _)
  positivity

end RustDHT
