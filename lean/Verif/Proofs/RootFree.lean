import Verif.Spec.RootFree
import Verif.Proofs.Lengths

/-! # Compositions that do not use `sqrt(1/2)` -/

set_option linter.unusedSectionVars false

namespace RustDHT

variable {T : Type} [Zero T] [Add T] [Sub T] [Mul T] [Neg T] [i : FftNum T]

theorem radix4Twiddles_root (ρ : T) (len s : ℕ) : @radix4Twiddles T (i.withRoot ρ) len s = radix4Twiddles T len s := by
  induction s using Nat.strong_induction_on with
  | _ s ih =>
    rw [radix4Twiddles]
    conv_rhs => rw [radix4Twiddles]
    by_cases h : s > 0
    · rw [dif_pos h, dif_pos h, ih (s / 4) (by omega)]
      rfl
    · rw [dif_neg h, dif_neg h]

theorem radix4_root (ρ : T) (n : ℕ) : @radix4 T _ _ _ _ (i.withRoot ρ) n = radix4 T n := by
  unfold radix4
  rw [show @radix4Base T _ _ _ (i.withRoot ρ) n = radix4Base T n from rfl]
  simp only [radix4Twiddles_root]

theorem mrTwiddles_root (ρ : T) {w h : ℕ} (hs : w ≤ 1 ∨ h ≤ 1) : @mrTwiddles T _ (i.withRoot ρ) w h = mrTwiddles T w h := by
  unfold mrTwiddles
  dsimp only
  rcases hs with hs | hs
  · rw [show w / 2 + 1 - 1 = 0 by omega]
    rfl
  · rw [show h / 2 + 1 - 1 = 0 by omega]
    rfl

theorem mr3Twiddles_root (ρ : T) {h : ℕ} (hs : h ≤ 1) : @mr3Twiddles T _ (i.withRoot ρ) h = mr3Twiddles T h := by
  unfold mr3Twiddles
  dsimp only
  rw [show h / 2 + 1 - 1 = 0 by omega]
  rfl

theorem mr5Twiddles_root (ρ : T) {h : ℕ} (hs : h ≤ 1) : @mr5Twiddles T _ (i.withRoot ρ) h = mr5Twiddles T h := by
  unfold mr5Twiddles
  dsimp only
  rw [show h / 2 + 1 - 1 = 0 by omega]
  rfl

theorem mr6Twiddles_root (ρ : T) {h : ℕ} (hs : h ≤ 1) : @mr6Twiddles T _ (i.withRoot ρ) h = mr6Twiddles T h := by
  unfold mr6Twiddles
  dsimp only
  rw [show h / 2 + 1 - 1 = 0 by omega]
  rfl

theorem bind_congr' {α β : Type} {x : Res α} {f g : α → Res β} (h : ∀ a, x = .ok a → f a = g a) : (x >>= f) = x >>= g := by
  cases x with
  | error e => rfl
  | ok a => exact h a rfl

theorem build_rootFree (ρ : T) (p : Plan) : p.RootFree → @Plan.build T _ _ _ _ _ (i.withRoot ρ) p = p.build T := by
  induction p with
  | mixedRadix w h ihw ihh =>
    rintro ⟨hs, hw, hh⟩
    simp only [Plan.build]
    rw [ihw hw, ihh hh]
    refine bind_congr' fun wd ew => bind_congr' fun hd eh => ?_
    have lw := plan_len w wd ew
    have lh := plan_len h hd eh
    refine congrArg _ ?_
    unfold mixedRadix
    dsimp only
    rw [mrTwiddles_root ρ (w := wd.len) (h := hd.len) (by rwa [lw, lh])]
  | mr2 h ihh =>
    intro hh
    simp only [Plan.build]
    rw [ihh hh]
    rfl
  | mr3 h ihh =>
    rintro ⟨hs, hh⟩
    simp only [Plan.build]
    rw [ihh hh]
    refine bind_congr' fun hd eh => congrArg _ ?_
    unfold mixedRadix3xn
    dsimp only
    rw [mr3Twiddles_root ρ (h := hd.len) (by rwa [plan_len h hd eh])]
    rfl
  | mr4 h ihh =>
    intro hh
    simp only [Plan.build]
    rw [ihh hh]
    rfl
  | mr5 h ihh =>
    rintro ⟨hs, hh⟩
    simp only [Plan.build]
    rw [ihh hh]
    refine bind_congr' fun hd eh => congrArg _ ?_
    unfold mixedRadix5xn
    dsimp only
    rw [mr5Twiddles_root ρ (h := hd.len) (by rwa [plan_len h hd eh])]
    rfl
  | mr6 h ihh =>
    rintro ⟨hs, hh⟩
    simp only [Plan.build]
    rw [ihh hh]
    refine bind_congr' fun hd eh => congrArg _ ?_
    unfold mixedRadix6xn
    dsimp only
    rw [mr6Twiddles_root ρ (h := hd.len) (by rwa [plan_len h hd eh])]
    rfl
  | radix4 n => intro _; exact radix4_root ρ n
  | splitRadix q h ihq ihh =>
    rintro ⟨hq, hh⟩
    simp only [Plan.build]
    rw [ihq hq, ihh hh]
    rfl
  | raders j ihj =>
    intro hj
    simp only [Plan.build]
    rw [ihj hj]
    rfl
  | _ => intro _; rfl

end RustDHT
