import Verif.Proofs.Sign

/-! # C61: symmetry of the transforms in IEEE arithmetic

Every composition, long `Radix4` included, in every binary format, with infinities and NaN, and whatever `cos` and `sin`
return. -/

namespace RustDHT

open Flt

variable {F : Fmt}

theorem forall₂_map_iff {α β : Type} {R : α → α → Prop} {f g : α → β} (h : ∀ a b, R a b ↔ f a = g b) (x y : List α) :
    List.Forall₂ R x y ↔ x.map f = y.map g := by
  induction x generalizing y with
  | nil => cases y <;> simp
  | cons a x ih => cases y with
    | nil => simp
    | cons b y => simp [h, ih]

theorem opposite_iff (a b : Flt F) : Opposite a b ↔ -a.view = b.view := by
  unfold Opposite
  rw [view_alike, Val.view_neg, eq_comm]

theorem rep_one : binary32.Rep 1 := ⟨1, 0, by decide, by decide, by norm_num, by norm_num [binary32]⟩

variable [MathLib]

/-- The signs of zeros in the input influence only the signs of zeros in the output. -/
theorem C61_zero_signs (p : Plan) (d : Dht (Flt F)) (h : p.build (Flt F) = .ok d) (x y : List (Flt F))
    (hxy : List.Forall₂ Alike x y) : EndsAlike (List.Forall₂ Alike) (d.process x) (d.process y) := by
  obtain ⟨d', -, hd⟩ := Val.carries p d h
  have e : x.map view = y.map view := (forall₂_map_iff (fun a b => view_alike) x y).1 hxy
  refine endsAlike_of_map (f := fun X => X.map view) (g := fun X => X.map view)
    (fun X Y => (forall₂_map_iff (fun a b => view_alike) X Y).2) ?_
  rw [← hd.process, ← hd.process, e]

/-- Negating the input negates the output exactly, apart from the signs of zeros: rounding errors, infinities and NaN included. -/
theorem C61_odd (p : Plan) (d : Dht (Flt F)) (h : p.build (Flt F) = .ok d) (x y : List (Flt F))
    (hxy : List.Forall₂ Opposite x y) : EndsAlike (List.Forall₂ Opposite) (d.process x) (d.process y) := by
  obtain ⟨d', h', hd⟩ := Val.carries p d h
  have e : x.map (fun a => -a.view) = y.map view := (forall₂_map_iff opposite_iff x y).1 hxy
  refine endsAlike_of_map (f := fun X => X.map fun a => -a.view) (g := fun X => X.map view)
    (fun X Y => (forall₂_map_iff opposite_iff X Y).2) ?_
  have odd := C38_odd p (T := Val F) (show (-.fin 0 : Val F) = .fin 0 by rw [Val.neg_fin, neg_zero]) Val.neg_add Val.neg_sub
    Val.mul_neg Val.neg_mul d' h' (x.map view)
  rw [hd.process, List.map_map] at odd
  rw [← hd.process, ← e]
  refine Eq.trans ?_ odd.symm
  cases d.process x with
  | ok X => simp [Except.map]
  | error e => rfl

/-- The signs of zeros are a real exception: `1 - 1` and `(-1) - (-1)` are both `+0`, so that negating the input of `Butterfly2`
does not negate the second coefficient bit for bit. -/
theorem C61_signed_zero : ∃ x : List (Flt binary32), ∃ X Y, (butterfly2 (Flt binary32)).process x = .ok X ∧
    (butterfly2 (Flt binary32)).process (x.map fun a => -a) = .ok Y ∧ Y ≠ X.map fun a => -a := by
  have run : ∀ a b : Flt binary32, (butterfly2 (Flt binary32)).process [a, b] = .ok [a + b, a - b] := fun a b => by
    rw [butterfly2_implements.process (le_refl 2) (dvd_refl 2), mapChunks_single (n := (butterfly2 (Flt binary32)).len) (by decide) rfl]; rfl
  refine ⟨[.num false 1 rep_one, .num false 1 rep_one], _, _, run _ _, run _ _, fun h => ?_⟩
  have h2 := (List.cons.inj (List.cons.inj h).2).1
  have e1 : (.num false 1 rep_one - .num false 1 rep_one : Flt binary32) = .num false 0 rep_zero := by
    show roundSigned binary32 false ((1 : ℚ) + -1) = _
    rw [roundSigned, if_pos (by norm_num), show (1 : ℚ) + -1 = 0 by norm_num, Flt.round_zero]
  have e2 : (.num true 1 rep_one - .num true 1 rep_one : Flt binary32) = .num false 0 rep_zero := by
    show roundSigned binary32 (true && !true) ((-1 : ℚ) + 1) = _
    rw [roundSigned, if_pos (by norm_num), show (-1 : ℚ) + 1 = 0 by norm_num, Flt.round_zero]; rfl
  have h3 : (.num false 0 rep_zero : Flt binary32) = -.num false 0 rep_zero := by
    rw [← e1]
    refine Eq.trans ?_ h2
    rw [e1]
    exact e2.symm
  have h4 : false = true := by
    have : (.num false 0 rep_zero : Flt binary32) = .num true 0 rep_zero := h3
    injection this
  cases h4

/-- The hypotheses are met: `Radix4` of any length, and two opposite signals with a NaN and an infinity. -/
example (m : ℕ) : ∃ d, (Plan.radix4 (2 ^ m)).build (Flt binary32) = .ok d ∧ ∀ x y, List.Forall₂ Opposite x y →
    EndsAlike (List.Forall₂ Opposite) (d.process x) (d.process y) :=
  ⟨_, radix4_eq m, C61_odd (.radix4 (2 ^ m)) _ (radix4_eq m)⟩

example : List.Forall₂ (Opposite (F := binary32)) [.nan, .inf true, .num false 0 rep_zero] [.nan, .inf false, .num false 0 rep_zero] := by
  refine .cons (.inl rfl) (.cons (.inl rfl) (.cons (.inr ⟨trivial, trivial, ?_, ?_⟩) .nil)) <;> (simp [Flt.value, Neg.neg]; try rfl)

end RustDHT
