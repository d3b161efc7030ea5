import Verif.Proofs.Radix4Dht
import Verif.Proofs.RadersDht
import Verif.Proofs.SplitRadixDht
import Verif.Spec.Plan

/-! # Compositions of the public constructors compute the DHT -/

namespace RustDHT

theorem plan_dht (p : Plan) : p.SmallRadix4 → ∀ d : Dht ℝ, p.build ℝ = .ok d → ComputesDht d := by
  have small : ∀ {p : Plan} {d : Dht ℝ} {k : ℕ}, 1 ≤ k → p.build ℝ = .ok d →
      (0 < d.len → d.inplaceScratchLen ≤ k * d.len) ∧ (0 < d.len → d.oopScratchLen = 0) := by
    intro p d k hk e
    have h := (plan_ok p d e).small
    exact ⟨fun hpos => le_trans (h hpos).2 (Nat.le_mul_of_pos_left _ hk), fun hpos => (h hpos).1⟩
  induction p with
  | naive n => rintro _ d ⟨⟩; exact dhtNaive_dht n
  | b1 => rintro _ d ⟨⟩; exact butterfly1_dht
  | b2 => rintro _ d ⟨⟩; exact butterfly2_dht
  | b3 => rintro _ d ⟨⟩; exact butterfly3_dht
  | b4 => rintro _ d ⟨⟩; exact butterfly4_dht
  | b5 => rintro _ d ⟨⟩; exact butterfly5_dht
  | b6 => rintro _ d ⟨⟩; exact butterfly6_dht
  | b8 => rintro _ d ⟨⟩; exact butterfly8_dht
  | b9 => rintro _ d ⟨⟩; exact butterfly9_dht
  | b16 => rintro _ d ⟨⟩; exact butterfly16_dht
  | mixedRadix w h ihw ihh =>
    rintro ⟨sw, sh⟩ d e
    obtain ⟨wd, ew, e⟩ := bind_eq_ok e
    obtain ⟨hd, eh, e⟩ := bind_eq_ok e
    cases e
    exact mixedRadix_dht (ihw sw wd ew) (ihh sh hd eh)
  | mr2 h ihh =>
    intro s d e
    obtain ⟨hd, eh, e⟩ := bind_eq_ok e
    cases e
    exact mixedRadix2xn_dht (ihh s hd eh) (small (by norm_num) eh).1 (small (k := 1) (by norm_num) eh).2
  | mr3 h ihh =>
    intro s d e
    obtain ⟨hd, eh, e⟩ := bind_eq_ok e
    cases e
    exact mixedRadix3xn_dht (ihh s hd eh) (small (by norm_num) eh).1 (small (k := 1) (by norm_num) eh).2
  | mr4 h ihh =>
    intro s d e
    obtain ⟨hd, eh, e⟩ := bind_eq_ok e
    cases e
    exact mixedRadix4xn_dht (ihh s hd eh) (small (by norm_num) eh).1 (small (k := 1) (by norm_num) eh).2
  | mr5 h ihh =>
    intro s d e
    obtain ⟨hd, eh, e⟩ := bind_eq_ok e
    cases e
    exact mixedRadix5xn_dht (ihh s hd eh) (small (by norm_num) eh).1 (small (k := 1) (by norm_num) eh).2
  | mr6 h ihh =>
    intro s d e
    obtain ⟨hd, eh, e⟩ := bind_eq_ok e
    cases e
    exact mixedRadix6xn_dht (ihh s hd eh) (small (by norm_num) eh).1 (small (k := 1) (by norm_num) eh).2
  | radix4 n =>
    intro s d e
    have e' : radix4 ℝ n = .ok d := e
    obtain ⟨m, rfl⟩ := radix4_isPow e'
    have hm : 2 ^ m ≤ 2 ^ 6 := s
    exact radix4_dht_small ((Nat.pow_le_pow_iff_right (by norm_num)).1 hm) e'
  | splitRadix q h ihq ihh =>
    rintro ⟨sq, sh⟩ d e
    obtain ⟨qd, eq, e⟩ := bind_eq_ok e
    obtain ⟨hd, eh, e⟩ := bind_eq_ok e
    have hlen := (splitRadix_eq e).1
    refine splitRadix_dht (ihq sq qd eq) (ihh sh hd eh) e fun hq => ?_
    have h1 := (plan_ok q qd eq).small hq
    have h2 := (plan_ok h hd eh).small (by omega)
    omega
  | raders i ihi =>
    intro s d e
    obtain ⟨id, ei, e⟩ := bind_eq_ok e
    exact raders_dht (ihi s id ei) e

end RustDHT
