import Verif.Proofs.OnlyIfStages
import Verif.Proofs.TableEntries
import Mathlib.Data.Nat.Prime.Factorial
import Mathlib.NumberTheory.Real.Irrational

/-! # Compositions that make the transform up to the order of its coefficients -/

open Finset

namespace RustDHT

/-- `f` makes the transform, with its coefficients in the order of the multiples of a unit. -/
def Reordered (n : ℕ) (f : List ℝ → List ℝ) : Prop := ∃ u : ℕ, u.Coprime n ∧ ∀ x, x.length = n → f x = reorderedDht u x

theorem IsDht.reordered {n : ℕ} {f : List ℝ → List ℝ} (h : IsDht n f) : Reordered n f :=
  ⟨1, Nat.coprime_one_left n, fun x hx => by rw [reorderedDht_one, h x hx]⟩

/-- The tables of all lengths up to `n`. -/
theorem factorial_tables (n : ℕ) : HasTables (tableField (8 * n.factorial)) n :=
  ⟨fun _ hm hmn => cs_sn_mem hm (by positivity) (Dvd.dvd.mul_left (Nat.dvd_factorial hm hmn) 8)
    (Dvd.dvd.mul_right (by norm_num) _)⟩

/-- Rader's algorithm around any composition. -/
theorem raders_reordered {ρ : ℝ} (hK : ∀ M, 0 < M → 8 ∣ M → ρ * √2 ∈ tableField M) {i : Plan} {id d : Dht ℝ}
    (ei : @Plan.build ℝ _ _ _ _ _ (realWithRoot ρ) i = .ok id) (e : @raders ℝ _ _ _ _ (realWithRoot ρ) id = .ok d)
    {f fi : List ℝ → List ℝ} (hf : Implements d f) (hi : Implements id fi) (hr : Reordered d.len f) : Reordered id.len fi := by
  let := realWithRoot ρ
  obtain ⟨u, hu, hr⟩ := hr
  obtain ⟨g, gi, hdata⟩ := raders_data hi e
  have hdl : d.len = id.len + 1 := by rw [hdata.eq]; rfl
  have hid : 0 < id.len := by have := hdata.prime.two_le; omega
  have hM : 0 < 8 * id.len.factorial := by positivity
  have hodd := hdata.prime.eq_two_or_odd'.resolve_left hdata.odd
  have hc : (id.len + 1).Coprime (8 * id.len.factorial) := by
    refine Nat.Coprime.mul_right ?_ ((Nat.Prime.coprime_iff_not_dvd hdata.prime).2 fun h => absurd ((Nat.Prime.dvd_factorial hdata.prime).1 h) (by omega))
    rw [show 8 = 2 ^ 3 by norm_num]
    exact Nat.Coprime.pow_right 3 (Nat.coprime_two_right.2 hodd)
  have hg : RadersGen id.len g gi :=
    ⟨hdata.prime, hdata.odd, by have := hdata.g_gt; omega, hdata.g_lt, hdata.g_order, hdata.gi_pos, hdata.gi_lt, hdata.g_mul,
      hdata.gi_order⟩
  have hcl := plan_closed (hK _ hM (Dvd.intro _ rfl)) i id ei hid (factorial_tables id.len) fi hi
  rw [hdl] at hu
  refine rd_inner hg hM (Dvd.dvd.mul_right (by norm_num) _) hc hi.length (@plan_linear (realWithRoot ρ) i id ei fi hi)
    (build_flat ρ ei hid hi) (fun j _ k _ => hcl _ (length_unitAt _ _) (inField_tab fun _ _ => ?_) k) hu fun x hx => ?_
  · split_ifs
    exacts [one_mem _, zero_mem _]
  · have h1 := hf.unique (hdata.implements hi) (hx.trans hdl.symm) (by omega)
    rw [Nat.add_sub_cancel] at h1
    exact h1.symm.trans (hr x (hx.trans hdl.symm))

/-- A composition makes the transform up to the order of the coefficients only without `Radix4` above 64, and with the right constant or
none. -/
theorem plan_reordered {ρ : ℝ} (hK : ∀ M, 0 < M → 8 ∣ M → ρ * √2 ∈ tableField M) (hδ : (ρ * √2) ^ 2 = 1 → ρ * √2 = 1) (p : Plan) :
    ∀ d : Dht ℝ, @Plan.build ℝ _ _ _ _ _ (realWithRoot ρ) p = .ok d → 0 < d.len → ∀ f, Implements d f → Reordered d.len f →
      p.SmallRadix4 ∧ (ρ * √2 = 1 ∨ p.RootFree) := by
  have right : ∀ p : Plan, p.SmallRadix4 → (ρ * √2 = 1 ∨ p.RootFree) → ∀ d : Dht ℝ,
      @Plan.build ℝ _ _ _ _ _ (realWithRoot ρ) p = .ok d → ComputesDht d := by
    intro p hs h d e
    rcases h with h | h
    · have h3 : √(1 / 2 : ℝ) * √2 = 1 := by
        rw [← Real.sqrt_mul (by norm_num), show (1 / 2 * 2 : ℝ) = 1 by norm_num, Real.sqrt_one]
      have : ρ = √(1 / 2) := mul_right_cancel₀ (Real.sqrt_ne_zero'.2 (by norm_num)) (h.trans h3.symm)
      subst this
      exact plan_dht p hs d e
    · rw [build_eq ρ h] at e
      exact plan_dht p hs d e
  have fixed : ∀ (k : ℕ) (δ : ℝ) (h : Plan) (hd d : Dht ℝ) (ap : List ℝ → Res (List ℝ)), 1 < k → 0 < hd.len → d.len = k * hd.len →
      @Plan.build ℝ _ _ _ _ _ (realWithRoot ρ) h = .ok hd →
      (∀ f, Implements hd f → Implements d (mrnFn k hd.len f ap)) →
      (∀ x, x.length = k * hd.len → mrnFn k hd.len dht ap x = rootDht k δ x) → ∀ f, Implements d f → Reordered d.len f →
      ∃ fh, Implements hd fh ∧ Reordered hd.len fh ∧ (h.expectedLen ≤ 1 ∨ δ ^ 2 = 1) := by
    intro k δ h hd d ap hk hh hlen e himp hL f hf hr
    obtain ⟨fh, hfh⟩ := (@plan_ok ℝ _ _ _ _ _ (realWithRoot ρ) h hd e).implements
    have hpos : 0 < d.len := by rw [hlen]; exact Nat.mul_pos (by omega) hh
    obtain ⟨u, hu, hr⟩ := hr
    have h1 : ∀ x, x.length = k * hd.len → mrnFn k hd.len fh ap x = reorderedDht u x := fun x hx =>
      ((himp fh hfh).unique hf (hx.trans hlen.symm) hpos).trans (hr x (hx.trans hlen.symm))
    rw [hlen] at hu
    obtain ⟨h2, h3⟩ := stage_reordered (L := run ap) (by omega) hh hfh.length hL hu h1
    have lh := @plan_len ℝ _ _ _ _ _ (realWithRoot ρ) h hd e
    refine ⟨fh, hfh, ⟨u, hu.coprime_mul_left_right, h2⟩, ?_⟩
    rcases h3 with h3 | h3 | h3
    · omega
    · exact Or.inl (by omega)
    · exact Or.inr h3
  have four : ∀ n (d : Dht ℝ), (Plan.radix4 n).build ℝ = .ok d → ∃ m, n = 2 ^ m ∧ Implements d (radix4Fn ℝ m) ∧ d.len = 2 ^ m := by
    intro n d e
    have e : radix4 ℝ n = .ok d := e
    obtain ⟨m, rfl⟩ := radix4_isPow e
    exact ⟨m, rfl, radix4_implements e, by rw [radix4_eq] at e; cases e; rfl⟩
  let := realWithRoot ρ
  induction p with
  | mixedRadix w h ihw ihh =>
    intro d e hpos f hf hr
    obtain ⟨wd, ew, e⟩ := bind_eq_ok e
    obtain ⟨hd, eh, e⟩ := bind_eq_ok e
    cases e
    have hpos' : 0 < wd.len * hd.len := hpos
    have pw : 0 < wd.len := Nat.pos_of_mul_pos_right hpos'
    have ph : 0 < hd.len := Nat.pos_of_mul_pos_left hpos'
    obtain ⟨fw, iw⟩ := (plan_ok w wd ew).implements
    obtain ⟨fh, ih⟩ := (plan_ok h hd eh).implements
    obtain ⟨u, hu, hr⟩ := hr
    have hu : u.Coprime (wd.len * hd.len) := hu
    have h1 : ∀ x, x.length = wd.len * hd.len → mrFn wd.len hd.len fw fh x = reorderedDht u x := fun x hx =>
      ((mixedRadix_implements iw ih).unique hf hx hpos).trans (hr x hx)
    have h2 := mr_width_reordered pw ph iw.length ih.length (root_sums ρ eh ih ph) h1
    obtain ⟨a1, a2⟩ := ihw wd ew pw fw iw ⟨u, hu.coprime_mul_right_right, h2⟩
    have h3 : IsDht wd.len fw := (only_of_fn iw pw).1 (right w a1 a2 wd ew)
    obtain ⟨h4, h5⟩ := stage_reordered (δ := ρ * √2) (L := fun z => mrTail wd.len hd.len fw (mrTwist wd.len hd.len ℝ z)) pw ph ih.length
      (fun x hx => mrFn_root ρ h3 (fun _ _ => rfl) hx) hu h1
    obtain ⟨b1, b2⟩ := ihh hd eh ph fh ih ⟨u, hu.coprime_mul_left_right, h4⟩
    have lw := plan_len w wd ew
    have lh := plan_len h hd eh
    refine ⟨⟨a1, b1⟩, ?_⟩
    rcases a2 with a2 | a2
    · exact Or.inl a2
    rcases b2 with b2 | b2
    · exact Or.inl b2
    rcases h5 with h5 | h5 | h5
    · exact Or.inr ⟨Or.inl (by omega), a2, b2⟩
    · exact Or.inr ⟨Or.inr (by omega), a2, b2⟩
    · exact Or.inl (hδ h5)
  | mr2 h ihh =>
    intro d e hpos f hf hr
    obtain ⟨hd, eh, e⟩ := bind_eq_ok e
    cases e
    have ph : 0 < hd.len := Nat.pos_of_mul_pos_left (show 0 < 2 * hd.len from hpos)
    obtain ⟨fh, h1, h2, -⟩ := fixed 2 1 h hd _ _ (by norm_num) ph rfl eh
      (fun f hf => mr2_implements hf (root_small ρ 2 (by norm_num) eh).1 (root_small ρ 2 (by norm_num) eh).2)
      (fun x hx => (@mr2Fn_dht hd.len x hx).trans (rootDht_one 2 x).symm) f hf hr
    exact ihh hd eh ph fh h1 h2
  | mr3 h ihh =>
    intro d e hpos f hf hr
    obtain ⟨hd, eh, e⟩ := bind_eq_ok e
    cases e
    have ph : 0 < hd.len := Nat.pos_of_mul_pos_left (show 0 < 3 * hd.len from hpos)
    obtain ⟨fh, h1, h2, h3⟩ := fixed 3 (ρ * √2) h hd _ _ (by norm_num) ph rfl eh
      (fun f hf => mr3_implements hf (root_small ρ 3 (by norm_num) eh).1 (root_small ρ 3 (by norm_num) eh).2)
      (fun x hx => mr3Fn_root ρ hx) f hf hr
    obtain ⟨b1, b2⟩ := ihh hd eh ph fh h1 h2
    refine ⟨b1, ?_⟩
    rcases h3 with h3 | h3
    · exact b2.imp_right fun b2 => ⟨h3, b2⟩
    · exact Or.inl (hδ h3)
  | mr4 h ihh =>
    intro d e hpos f hf hr
    obtain ⟨hd, eh, e⟩ := bind_eq_ok e
    cases e
    have ph : 0 < hd.len := Nat.pos_of_mul_pos_left (show 0 < 4 * hd.len from hpos)
    obtain ⟨fh, h1, h2, -⟩ := fixed 4 1 h hd _ _ (by norm_num) ph rfl eh
      (fun f hf => mr4_implements hf (root_small ρ 4 (by norm_num) eh).1 (root_small ρ 4 (by norm_num) eh).2)
      (fun x hx => (@mr4Fn_dht hd.len x hx).trans (rootDht_one 4 x).symm) f hf hr
    exact ihh hd eh ph fh h1 h2
  | mr5 h ihh =>
    intro d e hpos f hf hr
    obtain ⟨hd, eh, e⟩ := bind_eq_ok e
    cases e
    have ph : 0 < hd.len := Nat.pos_of_mul_pos_left (show 0 < 5 * hd.len from hpos)
    obtain ⟨fh, h1, h2, h3⟩ := fixed 5 (ρ * √2) h hd _ _ (by norm_num) ph rfl eh
      (fun f hf => mr5_implements hf (root_small ρ 5 (by norm_num) eh).1 (root_small ρ 5 (by norm_num) eh).2)
      (fun x hx => mr5Fn_root ρ hx) f hf hr
    obtain ⟨b1, b2⟩ := ihh hd eh ph fh h1 h2
    refine ⟨b1, ?_⟩
    rcases h3 with h3 | h3
    · exact b2.imp_right fun b2 => ⟨h3, b2⟩
    · exact Or.inl (hδ h3)
  | mr6 h ihh =>
    intro d e hpos f hf hr
    obtain ⟨hd, eh, e⟩ := bind_eq_ok e
    cases e
    have ph : 0 < hd.len := Nat.pos_of_mul_pos_left (show 0 < 6 * hd.len from hpos)
    obtain ⟨fh, h1, h2, h3⟩ := fixed 6 (ρ * √2) h hd _ _ (by norm_num) ph rfl eh
      (fun f hf => mr6_implements hf (root_small ρ 6 (by norm_num) eh).1 (root_small ρ 6 (by norm_num) eh).2)
      (fun x hx => mr6Fn_root ρ hx) f hf hr
    obtain ⟨b1, b2⟩ := ihh hd eh ph fh h1 h2
    refine ⟨b1, ?_⟩
    rcases h3 with h3 | h3
    · exact b2.imp_right fun b2 => ⟨h3, b2⟩
    · exact Or.inl (hδ h3)
  | radix4 n =>
    intro d e hpos f hf hr
    refine ⟨?_, Or.inr trivial⟩
    obtain ⟨m, rfl, himp, hdl⟩ := four n d ((build_eq ρ (p := .radix4 n) trivial).symm.trans e)
    obtain ⟨u, hu, hr⟩ := hr
    show 2 ^ m ≤ 64
    by_contra hm
    refine radix4_order (m := m) (u := u) ?_ fun x hx => (himp.unique hf (hx.trans hdl.symm) hpos).trans (hr x (hx.trans hdl.symm))
    by_contra h7
    have : 2 ^ m ≤ 2 ^ 6 := Nat.pow_le_pow_right (by norm_num) (by omega)
    omega
  | splitRadix q h ihq ihh =>
    intro d e hpos f hf hr
    obtain ⟨qd, eq, e⟩ := bind_eq_ok e
    obtain ⟨hd, eh, e⟩ := bind_eq_ok e
    have hlen := (splitRadix_eq e).1
    have hdl : d.len = 4 * qd.len := by rw [(splitRadix_eq e).2]; rfl
    have hq : 0 < qd.len := by omega
    obtain ⟨fq, iq⟩ := (plan_ok q qd eq).implements
    obtain ⟨fh, ih⟩ := (plan_ok h hd eh).implements
    have h1 := (plan_ok q qd eq).small hq
    have h2 := (plan_ok h hd eh).small (by omega)
    have himp := splitRadix_implements iq ih e fun _ => ⟨h1.1, by omega, by omega⟩
    obtain ⟨u, hu, hr⟩ := hr
    have hs : ∀ x, x.length = 4 * qd.len → srFn qd.len fq fh x = reorderedDht u x := fun x hx =>
      (himp.unique hf (hx.trans hdl.symm) hpos).trans (hr x (hx.trans hdl.symm))
    have hu1 := sr_order hq (root_sums ρ eq iq hq) hs
    have hc : ComputesDht d := (only_of_fn hf hpos).2 fun x hx => by
      rw [hr x hx]
      exact reordered_eq_dht hu1 (hx.trans hdl)
    obtain ⟨c1, c2⟩ := splitRadix_only iq ih e hq h1.1 (by omega) (by omega) hc
    obtain ⟨a1, a2⟩ := ihq qd eq hq fq iq ((only_of_fn iq hq).1 c1).reordered
    obtain ⟨b1, b2⟩ := ihh hd eh (by omega) fh ih ((only_of_fn ih (by omega)).1 c2).reordered
    refine ⟨⟨a1, b1⟩, ?_⟩
    rcases a2 with a2 | a2
    · exact Or.inl a2
    rcases b2 with b2 | b2
    · exact Or.inl b2
    exact Or.inr ⟨a2, b2⟩
  | raders i ihi =>
    intro d e hpos f hf hr
    obtain ⟨id, ei, e⟩ := bind_eq_ok e
    obtain ⟨fi, hi⟩ := (plan_ok i id ei).implements
    obtain ⟨g, gi, hdata⟩ := raders_data hi e
    have hid : 0 < id.len := by have := hdata.prime.two_le; omega
    exact ihi id ei hid fi hi (raders_reordered hK ei e hf hi hr)
  | _ => exact fun _ _ _ _ _ _ => ⟨trivial, Or.inr trivial⟩

theorem sqrt_two_mem {M : ℕ} (hM : 0 < M) (h8 : 8 ∣ M) : √2 ∈ tableField M := by
  have h := (cs_sn_mem (n := 8) (by norm_num) hM h8 (Dvd.dvd.trans (by norm_num) h8) 1).1
  have e : cs 8 1 = √2 / 2 := by
    rw [cs, show (2 : ℝ) * Real.pi * ((1 : ℤ) : ℝ) / ((8 : ℕ) : ℝ) = Real.pi / 4 by push_cast; ring, Real.cos_pi_div_four]
  rw [e] at h
  have := mul_mem h (ofNat_mem (tableField M) 2)
  rwa [div_mul_cancel₀ _ (by norm_num)] at this

/-- With the right constant. -/
theorem plan_reordered_exact (p : Plan) (d : Dht ℝ) (e : p.build ℝ = .ok d) (hpos : 0 < d.len) {f : List ℝ → List ℝ}
    (hf : Implements d f) (hr : Reordered d.len f) : p.SmallRadix4 := by
  have h3 : √(1 / 2 : ℝ) * √2 = 1 := by
    rw [← Real.sqrt_mul (by norm_num), show (1 / 2 * 2 : ℝ) = 1 by norm_num, Real.sqrt_one]
  exact (plan_reordered (ρ := √(1 / 2)) (fun M _ _ => by rw [h3]; exact one_mem _) (fun _ => h3) p d e hpos f hf hr).1

/-- With a rational one. -/
theorem plan_reordered_rat (q : ℚ) (p : Plan) (d : Dht ℝ) (e : @Plan.build ℝ _ _ _ _ _ (realWithRoot q) p = .ok d) (hpos : 0 < d.len)
    {f : List ℝ → List ℝ} (hf : Implements d f) (hr : Reordered d.len f) : p.SmallRadix4 ∧ p.RootFree := by
  have hne : ((q : ℝ) * √2) ^ 2 ≠ 1 := by
    intro h
    rw [mul_pow, Real.sq_sqrt (by norm_num)] at h
    have h1 : q ≠ 0 := by
      rintro rfl
      norm_num at h
    have h2 : (q : ℝ) ≠ 0 := by exact_mod_cast h1
    refine irrational_sqrt_two ⟨|q⁻¹|, ?_⟩
    rw [Rat.cast_abs, ← Real.sqrt_sq_eq_abs, Rat.cast_inv, inv_pow]
    congr 1
    rw [inv_eq_iff_eq_inv]
    linarith
  obtain ⟨h1, h2⟩ := plan_reordered (ρ := q) (fun M hM h8 => mul_mem (rat_mem M q) (sqrt_two_mem hM h8)) (fun h => absurd h hne) p d e hpos f hf hr
  refine ⟨h1, h2.resolve_left fun h => hne ?_⟩
  rw [h, one_pow]

end RustDHT
