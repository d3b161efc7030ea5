import Verif.Proofs.OnlyIfAll

/-! # Compositions with any real number as the constant -/

namespace RustDHT

/-- Only compositions without the constant are right if the constant is wrong. -/
theorem plan_root_only (ρ : ℝ) (hρ : (ρ * √2) ^ 2 ≠ 1) (p : Plan) : p.RadersKnown → ∀ d : Dht ℝ,
    @Plan.build ℝ _ _ _ _ _ (realWithRoot ρ) p = .ok d → 0 < d.len → ComputesDht d → p.SmallRadix4 ∧ p.RootFree := by
  have hρ1 : ρ * √2 ≠ 1 := fun h => hρ (by rw [h, one_pow])
  have fixed : ∀ (k : ℕ) (h : Plan) (hd d : Dht ℝ) (ap : List ℝ → Res (List ℝ)), 1 < k → 0 < hd.len → d.len = k * hd.len →
      @Plan.build ℝ _ _ _ _ _ (realWithRoot ρ) h = .ok hd →
      (∀ f, Implements hd f → Implements d (mrnFn k hd.len f ap)) →
      (∀ x, x.length = k * hd.len → mrnFn k hd.len dht ap x = rootDht k (ρ * √2) x) → ComputesDht d →
      ComputesDht hd ∧ h.expectedLen ≤ 1 := by
    intro k h hd d ap hk hh hlen e himp hL hc
    obtain ⟨f, hf⟩ := (@plan_ok ℝ _ _ _ _ _ (realWithRoot ρ) h hd e).implements
    have hpos : 0 < d.len := by rw [hlen]; exact Nat.mul_pos (by omega) hh
    have h1 := (only_of_fn (himp f hf) hpos).1 hc
    rw [hlen] at h1
    obtain ⟨h2, h3⟩ := stage_only (L := run ap) (by omega) hh hf.length hL h1
    have lh := @plan_len ℝ _ _ _ _ _ (realWithRoot ρ) h hd e
    refine ⟨(only_of_fn hf hh).2 h2, ?_⟩
    rcases h3 with h3 | h3 | h3
    · omega
    · omega
    · exact absurd h3 hρ1
  let := realWithRoot ρ
  induction p with
  | mixedRadix w h ihw ihh =>
    rintro ⟨sw, sh⟩ d e hpos hc
    obtain ⟨wd, ew, e⟩ := bind_eq_ok e
    obtain ⟨hd, eh, e⟩ := bind_eq_ok e
    cases e
    have hpos' : 0 < wd.len * hd.len := hpos
    have pw : 0 < wd.len := Nat.pos_of_mul_pos_right hpos'
    have ph : 0 < hd.len := Nat.pos_of_mul_pos_left hpos'
    obtain ⟨fw, iw⟩ := (plan_ok w wd ew).implements
    obtain ⟨fh, ih⟩ := (plan_ok h hd eh).implements
    have h1 := (only_of_fn (mixedRadix_implements iw ih) hpos).1 hc
    have h2 := mr_width_only pw ph iw.length ih.length (root_sums ρ eh ih ph) h1
    obtain ⟨h3, h4⟩ := stage_only (δ := ρ * √2) (L := fun z => mrTail wd.len hd.len fw (mrTwist wd.len hd.len ℝ z)) pw ph ih.length
      (fun x hx => mrFn_root ρ h2 (fun _ _ => rfl) hx) h1
    obtain ⟨a1, a2⟩ := ihw sw wd ew pw ((only_of_fn iw pw).2 h2)
    obtain ⟨b1, b2⟩ := ihh sh hd eh ph ((only_of_fn ih ph).2 h3)
    have lw := plan_len w wd ew
    have lh := plan_len h hd eh
    refine ⟨⟨a1, b1⟩, ?_, a2, b2⟩
    rcases h4 with h4 | h4 | h4
    · exact Or.inl (by omega)
    · exact Or.inr (by omega)
    · exact absurd h4 hρ1
  | mr2 h ihh =>
    intro s d e hpos hc
    obtain ⟨hd, eh, e⟩ := bind_eq_ok e
    cases e
    have ph : 0 < hd.len := Nat.pos_of_mul_pos_left (show 0 < 2 * hd.len from hpos)
    obtain ⟨f, hf⟩ := (plan_ok h hd eh).implements
    exact ihh s hd eh ph (mrn_only_object (by norm_num) rfl ph hf
      (mr2_implements hf (root_small ρ 2 (by norm_num) eh).1 (root_small ρ 2 (by norm_num) eh).2) (fun x hx => @mr2Fn_dht hd.len x hx) hc)
  | mr3 h ihh =>
    intro s d e hpos hc
    obtain ⟨hd, eh, e⟩ := bind_eq_ok e
    cases e
    have ph : 0 < hd.len := Nat.pos_of_mul_pos_left (show 0 < 3 * hd.len from hpos)
    obtain ⟨h1, h2⟩ := fixed 3 h hd _ _ (by norm_num) ph rfl eh
      (fun f hf => mr3_implements hf (root_small ρ 3 (by norm_num) eh).1 (root_small ρ 3 (by norm_num) eh).2)
      (fun x hx => mr3Fn_root ρ hx) hc
    exact ⟨(ihh s hd eh ph h1).1, h2, (ihh s hd eh ph h1).2⟩
  | mr4 h ihh =>
    intro s d e hpos hc
    obtain ⟨hd, eh, e⟩ := bind_eq_ok e
    cases e
    have ph : 0 < hd.len := Nat.pos_of_mul_pos_left (show 0 < 4 * hd.len from hpos)
    obtain ⟨f, hf⟩ := (plan_ok h hd eh).implements
    exact ihh s hd eh ph (mrn_only_object (by norm_num) rfl ph hf
      (mr4_implements hf (root_small ρ 4 (by norm_num) eh).1 (root_small ρ 4 (by norm_num) eh).2) (fun x hx => @mr4Fn_dht hd.len x hx) hc)
  | mr5 h ihh =>
    intro s d e hpos hc
    obtain ⟨hd, eh, e⟩ := bind_eq_ok e
    cases e
    have ph : 0 < hd.len := Nat.pos_of_mul_pos_left (show 0 < 5 * hd.len from hpos)
    obtain ⟨h1, h2⟩ := fixed 5 h hd _ _ (by norm_num) ph rfl eh
      (fun f hf => mr5_implements hf (root_small ρ 5 (by norm_num) eh).1 (root_small ρ 5 (by norm_num) eh).2)
      (fun x hx => mr5Fn_root ρ hx) hc
    exact ⟨(ihh s hd eh ph h1).1, h2, (ihh s hd eh ph h1).2⟩
  | mr6 h ihh =>
    intro s d e hpos hc
    obtain ⟨hd, eh, e⟩ := bind_eq_ok e
    cases e
    have ph : 0 < hd.len := Nat.pos_of_mul_pos_left (show 0 < 6 * hd.len from hpos)
    obtain ⟨h1, h2⟩ := fixed 6 h hd _ _ (by norm_num) ph rfl eh
      (fun f hf => mr6_implements hf (root_small ρ 6 (by norm_num) eh).1 (root_small ρ 6 (by norm_num) eh).2)
      (fun x hx => mr6Fn_root ρ hx) hc
    exact ⟨(ihh s hd eh ph h1).1, h2, (ihh s hd eh ph h1).2⟩
  | radix4 n =>
    intro _ d e hpos hc
    exact ⟨plan_reordered_exact (.radix4 n) d ((build_eq ρ (p := .radix4 n) trivial).symm.trans e) hpos hc (IsDht.reordered fun _ _ => rfl), trivial⟩
  | splitRadix q h ihq ihh =>
    rintro ⟨sq, sh⟩ d e hpos hc
    obtain ⟨qd, eq, e⟩ := bind_eq_ok e
    obtain ⟨hd, eh, e⟩ := bind_eq_ok e
    have hlen := (splitRadix_eq e).1
    have hdl : d.len = 4 * qd.len := by rw [(splitRadix_eq e).2]; rfl
    have hq : 0 < qd.len := by omega
    obtain ⟨fq, iq⟩ := (plan_ok q qd eq).implements
    obtain ⟨fh, ih⟩ := (plan_ok h hd eh).implements
    have h1 := (plan_ok q qd eq).small hq
    have h2 := (plan_ok h hd eh).small (by omega)
    obtain ⟨c1, c2⟩ := splitRadix_only iq ih e hq h1.1 (by omega) (by omega) hc
    obtain ⟨a1, a2⟩ := ihq sq qd eq hq c1
    obtain ⟨b1, b2⟩ := ihh sh hd eh (by omega) c2
    exact ⟨⟨a1, b1⟩, a2, b2⟩
  | raders i =>
    rintro s d e hpos hc
    by_cases hi : i.RootFree
    · have e' := build_eq ρ (p := .raders i) hi
      exact ⟨plan_reordered_exact (.raders i) d (e'.symm.trans e) hpos hc (IsDht.reordered fun _ _ => rfl), hi⟩
    · exfalso
      obtain ⟨id, ei, e1⟩ := bind_eq_ok e
      have hid : 0 < id.len := by
        obtain ⟨f, hf⟩ := (plan_ok i id ei).implements
        obtain ⟨g, gi, hdata⟩ := raders_data hf e1
        have := hdata.prime.two_le
        omega
      rcases s with s | s
      · exact hi s
      · have hcc : 0 < ((ρ * √2) ^ 2 - 1) * ((ρ * √2) ^ 2 - 1) := mul_self_pos.2 (sub_ne_zero.2 hρ)
        obtain ⟨f, hf, k1, k2⟩ := plan_gains ρ hcc i s.2 s.1 id ei hid
        exact raders_gains_wrong hf (build_flat ρ ei hid hf) k1 (k2 hi) e1 hc
  | _ => exact fun _ _ _ _ _ => ⟨trivial, trivial⟩

end RustDHT
