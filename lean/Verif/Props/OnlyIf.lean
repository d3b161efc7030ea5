import Verif.Proofs.OnlyIfAll
import Verif.Props.Exact

/-! # C79: a composition is right only if all of its parts are

The converse of C12.  No two defects cancel: around an inner object that does not compute the DHT, the mixed-radix algorithms with a
fixed radix and `SplitRadix` do not compute it either, whatever the inner object does instead; `MixedRadix` neither, if the first
coefficient of the inner object of the height is the sum of the signal, which it is for every composition of this crate (C69).  Hence
one `Radix4` of length 128 or more is enough to make a composition wrong.

For `RadersAlgorithm` there is no such statement about any inner object: its two inner transforms and the table, which is made by a
third, can make up for each other.  They do so around every object that has the coefficients in the order of the multiples of a unit
(`C79_raders_reordered`), or that computes the DHT with the other sign (`C79_raders_flipped`).  But around compositions of this crate
that is the only way (`C79_raders_inner`): the numbers of their tables are rational expressions in roots of unity of orders that the
prime does not divide, and the values of `cas` in the table of Rader's algorithm are independent over these.  And no composition has the
coefficients merely in another order (`C79_order`). -/

namespace RustDHT

/-- The algorithms with a fixed radix, around any inner object that honours the trait contract. -/
theorem C79_columns (hd : Dht ℝ) (f : List ℝ → List ℝ) (hf : Implements hd f) (hpos : 0 < hd.len) (h0 : hd.oopScratchLen = 0) :
    (hd.inplaceScratchLen ≤ 2 * hd.len → (ComputesDht (mixedRadix2xn hd) ↔ ComputesDht hd)) ∧
    (hd.inplaceScratchLen ≤ 3 * hd.len → (ComputesDht (mixedRadix3xn hd) ↔ ComputesDht hd)) ∧
    (hd.inplaceScratchLen ≤ 4 * hd.len → (ComputesDht (mixedRadix4xn hd) ↔ ComputesDht hd)) ∧
    (hd.inplaceScratchLen ≤ 5 * hd.len → (ComputesDht (mixedRadix5xn hd) ↔ ComputesDht hd)) ∧
    (hd.inplaceScratchLen ≤ 6 * hd.len → (ComputesDht (mixedRadix6xn hd) ↔ ComputesDht hd)) := by
  refine ⟨fun h => ⟨fun hc => ?_, fun hc => ?_⟩, fun h => ⟨fun hc => ?_, fun hc => ?_⟩, fun h => ⟨fun hc => ?_, fun hc => ?_⟩,
    fun h => ⟨fun hc => ?_, fun hc => ?_⟩, fun h => ⟨fun hc => ?_, fun hc => ?_⟩⟩
  · exact mrn_only_object (by norm_num) rfl hpos hf (mr2_implements hf (fun _ => h) (fun _ => h0)) (fun _ hx => mr2Fn_dht hx) hc
  · exact mixedRadix2xn_dht hc (fun _ => h) (fun _ => h0)
  · exact mrn_only_object (by norm_num) rfl hpos hf (mr3_implements hf (fun _ => h) (fun _ => h0)) (fun _ hx => mr3Fn_dht hx) hc
  · exact mixedRadix3xn_dht hc (fun _ => h) (fun _ => h0)
  · exact mrn_only_object (by norm_num) rfl hpos hf (mr4_implements hf (fun _ => h) (fun _ => h0)) (fun _ hx => mr4Fn_dht hx) hc
  · exact mixedRadix4xn_dht hc (fun _ => h) (fun _ => h0)
  · exact mrn_only_object (by norm_num) rfl hpos hf (mr5_implements hf (fun _ => h) (fun _ => h0)) (fun _ hx => mr5Fn_dht hx) hc
  · exact mixedRadix5xn_dht hc (fun _ => h) (fun _ => h0)
  · exact mrn_only_object (by norm_num) rfl hpos hf (mr6_implements hf (fun _ => h) (fun _ => h0)) (fun _ hx => mr6Fn_dht hx) hc
  · exact mixedRadix6xn_dht hc (fun _ => h) (fun _ => h0)

/-- `SplitRadix`, around any two inner objects. -/
theorem C79_splitRadix (qd hd d : Dht ℝ) (fq fh : List ℝ → List ℝ) (iq : Implements qd fq) (ih : Implements hd fh)
    (e : splitRadix qd hd = .ok d) (hpos : 0 < qd.len) (h1 : qd.oopScratchLen = 0) (h2 : qd.inplaceScratchLen ≤ 4 * qd.len)
    (h3 : hd.inplaceScratchLen ≤ 2 * qd.len) : ComputesDht d ↔ ComputesDht qd ∧ ComputesDht hd :=
  ⟨splitRadix_only iq ih e hpos h1 h2 h3, fun h => splitRadix_dht h.1 h.2 e fun _ => ⟨h1, h2, h3⟩⟩

/-- `MixedRadix`, around any inner object for the width, and any inner object for the height whose first coefficient is the sum. -/
theorem C79_mixedRadix (wd hd : Dht ℝ) (fw : List ℝ → List ℝ) (hw : Implements wd fw) (hh : SumsFirst hd) (pw : 0 < wd.len)
    (ph : 0 < hd.len) : ComputesDht (mixedRadix wd hd) ↔ ComputesDht wd ∧ ComputesDht hd :=
  ⟨mixedRadix_only hw hh pw ph, fun h => mixedRadix_dht h.1 h.2⟩

/-- Rader's algorithm is wrong around every composition that has a `Radix4` of length 128 or more anywhere. -/
theorem C79_raders_composition (p : Plan) (hs : ¬ p.SmallRadix4) (i d : Dht ℝ) (hi : p.build ℝ = .ok i) (hd : raders i = .ok d) :
    ¬ ComputesDht d := by
  intro hc
  obtain ⟨f, hf⟩ := (plan_ok p i hi).implements
  obtain ⟨g, gi, hdata⟩ := raders_data hf hd
  have hdl : d.len = i.len + 1 := by rw [hdata.eq]; rfl
  have e : (Plan.raders p).build ℝ = .ok d := by
    rw [Plan.build, hi]
    exact hd
  exact hs (plan_reordered_exact (.raders p) d e (by omega) hc (IsDht.reordered fun _ _ => rfl))

/-- So it is around such a `Radix4` itself. -/
theorem C79_raders (m : ℕ) (hm : 7 ≤ m) (i d : Dht ℝ) (hi : radix4 ℝ (2 ^ m) = .ok i) (hd : raders i = .ok d) : ¬ ComputesDht d := by
  refine C79_raders_composition (.radix4 (2 ^ m)) (fun h => ?_) i d hi hd
  have h1 : 2 ^ m ≤ 64 := h
  have h2 : 2 ^ 7 ≤ 2 ^ m := Nat.pow_le_pow_right (by norm_num) hm
  omega

/-- A composition computes the DHT if and only if it has no `Radix4` of length 128 or more. -/
theorem C79_plan (p : Plan) (d : Dht ℝ) (hd : p.build ℝ = .ok d) (hpos : 0 < d.len) : ComputesDht d ↔ p.SmallRadix4 :=
  ⟨fun h => plan_reordered_exact p d hd hpos h (IsDht.reordered fun _ _ => rfl), fun h => plan_dht p h d hd⟩

/-- If it has one, then there is a signal for which `process` returns something else than the DHT. -/
theorem C79_witness (p : Plan) (d : Dht ℝ) (hd : p.build ℝ = .ok d) (hpos : 0 < d.len) (h : ¬ p.SmallRadix4) :
    ∃ x X, x.length = d.len ∧ d.process x = .ok X ∧ X.length = d.len ∧ X ≠ dht x := by
  obtain ⟨f, hf⟩ := (plan_ok p d hd).implements
  by_contra hc
  push Not at hc
  exact h ((C79_plan p d hd hpos).1 ((only_of_fn hf hpos).2 fun x hx => hc x (f x) hx (process_single hf hx) (hf.length x hx)))

/-- Rader's algorithm around a composition is right if and only if the composition is. -/
theorem C79_raders_inner (p : Plan) (i d : Dht ℝ) (hi : p.build ℝ = .ok i) (hd : raders i = .ok d) : ComputesDht d ↔ ComputesDht i := by
  obtain ⟨f, hf⟩ := (plan_ok p i hi).implements
  obtain ⟨g, gi, hdata⟩ := raders_data hf hd
  have hpos : 0 < i.len := by have := hdata.prime.two_le; omega
  have hdl : d.len = i.len + 1 := by rw [hdata.eq]; rfl
  have e : (Plan.raders p).build ℝ = .ok d := by
    rw [Plan.build, hi]
    exact hd
  rw [C79_plan (.raders p) d e (by omega), C79_plan p i hi hpos]
  rfl

/-- No composition makes the DHT with its coefficients in another order. -/
theorem C79_order (p : Plan) (d : Dht ℝ) (hd : p.build ℝ = .ok d) (hpos : 0 < d.len) (u : ℕ) (hu : u.Coprime d.len)
    (h : Implements d (reorderedDht u)) : u % d.len = 1 % d.len := by
  by_contra hne
  have hs := plan_reordered_exact p d hd hpos h ⟨u, hu, fun _ _ => rfl⟩
  exact reorderedDht_wrong hpos hne ((only_of_fn h hpos).1 ((C79_plan p d hd hpos).2 hs))

/-- The condition on the height is needed: around two objects that compute the DHT with all signs changed, `MixedRadix` is right. -/
theorem C79_two_wrongs (wd hd : Dht ℝ) (hw : Implements wd fun x => (dht x).map (-·)) (hh : Implements hd fun x => (dht x).map (-·))
    (pw : 0 < wd.len) (ph : 0 < hd.len) : ¬ ComputesDht wd ∧ ¬ ComputesDht hd ∧ ComputesDht (mixedRadix wd hd) :=
  ⟨fun h => neg_dht_wrong pw ((only_of_fn hw pw).1 h), fun h => neg_dht_wrong ph ((only_of_fn hh ph).1 h),
    (mixedRadix_implements hw hh).congr fun _ hx => mrFn_neg pw ph hx⟩

/-- Rader's algorithm is right also around an object that computes the DHT with the other sign, `cos - sin`. -/
theorem C79_raders_flipped (id d : Dht ℝ) (hi : Implements id flippedDht) (hd : raders id = .ok d) (h3 : 3 ≤ id.len) :
    ¬ ComputesDht id ∧ ComputesDht d := by
  refine ⟨fun h => flippedDht_wrong h3 ((only_of_fn hi (by omega)).1 h), ?_⟩
  obtain ⟨g, gi, hdata⟩ := raders_data hi hd
  have he : id.len % 2 = 0 := by have := hdata.prime.eq_two_or_odd.resolve_left hdata.odd; omega
  have hdl : d.len = id.len + 1 := by rw [hdata.eq]; rfl
  refine (hdata.implements hi).congr fun x hx => ?_
  have hfun : flippedDht = fun x => revTail (dht x) := funext flippedDht_eq
  have h0 : 0 < g := by have := hdata.g_gt; omega
  rw [← rdFn_dht hdata.prime hdata.odd h0 hdata.g_lt hdata.g_order hdata.gi_pos hdata.gi_lt hdata.g_mul hdata.gi_order
    (hx.trans hdl), hfun, Nat.add_sub_cancel]
  exact rd_flip (by omega) he (by simp [rdKernel]) x

/-- And around an object that has the coefficients in another order: number `k` is that of the frequency `u k`, where `u` has no factor
in common with the length. -/
theorem C79_raders_reordered (id d : Dht ℝ) (u : ℕ) (hu : u.Coprime id.len) (hi : Implements id (reorderedDht u))
    (hd : raders id = .ok d) : (u % id.len ≠ 1 % id.len → ¬ ComputesDht id) ∧ ComputesDht d := by
  obtain ⟨g, gi, hdata⟩ := raders_data hi hd
  have hpos : 0 < id.len := by have := hdata.prime.two_le; omega
  refine ⟨fun h1 h => reorderedDht_wrong hpos h1 ((only_of_fn hi hpos).1 h), ?_⟩
  have he : id.len % 2 = 0 := by have := hdata.prime.eq_two_or_odd.resolve_left hdata.odd; omega
  have hdl : d.len = id.len + 1 := by rw [hdata.eq]; rfl
  refine (hdata.implements hi).congr fun x hx => ?_
  have h0 : 0 < g := by have := hdata.g_gt; omega
  rw [← rdFn_dht hdata.prime hdata.odd h0 hdata.g_lt hdata.g_order hdata.gi_pos hdata.gi_lt hdata.g_mul hdata.gi_order
    (hx.trans hdl), Nat.add_sub_cancel]
  exact rd_reordered hpos he hu (by simp [rdKernel]) x

/-! ## Cases -/

/-- The objects of `C79_two_wrongs` exist, of every length. -/
example (n : ℕ) : Implements ((dhtNaive ℝ n).after fun x => x.map (-·)) fun x => (dht x).map (-·) :=
  after_implements (C01_dhtNaive_dht n).2.1 fun _ hx => by simpa using hx

/-- And that of `C79_raders_flipped`. -/
example (n : ℕ) : Implements ((dhtNaive ℝ n).after revTail) flippedDht :=
  (after_implements (C01_dhtNaive_dht n).2.1 fun _ hx => by simpa using hx).congr fun _ _ => (flippedDht_eq _).symm

/-- Length 257: Rader's algorithm around `Radix4` of length 256 exists, and it is wrong. -/
example : ∃ i d, radix4 ℝ 256 = .ok i ∧ raders i = .ok d ∧ d.len = 257 ∧ ¬ ComputesDht d := by
  obtain ⟨i, hi⟩ : ∃ i, radix4 ℝ (2 ^ 8) = .ok i := ⟨_, radix4_eq 8⟩
  have hl : i.len = 256 := by rw [radix4_eq] at hi; cases hi; rfl
  obtain ⟨g, gi, d, e, hdata⟩ := raders_new (radix4_implements hi) (by rw [hl]; norm_num) (by rw [hl]; norm_num) (by rw [hl]; norm_num)
  refine ⟨i, d, hi, e, ?_, C79_raders 8 (by norm_num) i d hi e⟩
  rw [hdata.eq]
  show i.len + 1 = 257
  rw [hl]

/-- Those of `C79_raders_reordered` exist too. -/
example (n u : ℕ) : Implements ((dhtNaive ℝ n).after fun X => tab n fun k => nth X (u * k % n)) (reorderedDht u) := by
  have h := after_implements (C01_dhtNaive_dht n).2.1 (g := fun X => tab n fun k => nth X (u * k % n)) fun _ _ =>
    (length_tab n _).trans (C01_dhtNaive_dht n).1.symm
  refine h.congr fun x hx => ?_
  have hx : x.length = n := hx.trans (C01_dhtNaive_dht n).1
  rw [reorderedDht_eq, hx]
  refine tab_congr fun k hk => ?_
  rw [nth_dht hx (Nat.mod_lt _ (by omega))]
  refine (hart_mod _ ⟨-((u * k : ℕ) / n : ℤ), ?_⟩)
  have := Int.emod_add_mul_ediv ((u * k : ℕ) : ℤ) n
  rw [Int.natCast_mod]
  push_cast at this ⊢
  linarith

/-- Length 769: Rader's algorithm around `MixedRadix3xn` around `Radix4` of length 256 exists, and it is wrong. -/
example : ∃ d, (Plan.raders (.mr3 (.radix4 256))).build ℝ = .ok d ∧ d.len = 769 ∧ ¬ ComputesDht d := by
  obtain ⟨i, hi⟩ : ∃ i, radix4 ℝ (2 ^ 8) = .ok i := ⟨_, radix4_eq 8⟩
  have hl : i.len = 256 := by rw [radix4_eq] at hi; cases hi; rfl
  have e1 : (Plan.mr3 (.radix4 256)).build ℝ = .ok (mixedRadix3xn i) := by
    have hi' : radix4 ℝ 256 = .ok i := hi
    simp only [Plan.build, ok_bind, hi']
  have hl1 : (mixedRadix3xn i).len = 768 := by
    show 3 * i.len = 768
    rw [hl]
  obtain ⟨f, hf⟩ := (plan_ok _ _ e1).implements
  obtain ⟨g, gi, d, e, hdata⟩ := raders_new hf (by rw [hl1]; norm_num) (by rw [hl1]; norm_num) (by rw [hl1]; norm_num)
  refine ⟨d, ?_, ?_, C79_raders_composition (.mr3 (.radix4 256)) (by simp [Plan.SmallRadix4]) _ d e1 e⟩
  · rw [Plan.build, e1]
    exact e
  · rw [hdata.eq]
    show (mixedRadix3xn i).len + 1 = 769
    rw [hl1]

/-- Length 257 again, around `SplitRadix` with a `Radix4` of length 128 for the halves. -/
example : ∃ d, (Plan.raders (.splitRadix (.radix4 64) (.radix4 128))).build ℝ = .ok d ∧ d.len = 257 ∧ ¬ ComputesDht d := by
  obtain ⟨q, hq⟩ : ∃ q, radix4 ℝ (2 ^ 6) = .ok q := ⟨_, radix4_eq 6⟩
  obtain ⟨h, hh⟩ : ∃ h, radix4 ℝ (2 ^ 7) = .ok h := ⟨_, radix4_eq 7⟩
  have lq : q.len = 64 := by rw [radix4_eq] at hq; cases hq; rfl
  have lh : h.len = 128 := by rw [radix4_eq] at hh; cases hh; rfl
  obtain ⟨i, hi⟩ : ∃ i, splitRadix q h = .ok i := by
    unfold splitRadix
    simp only
    rw [lq, lh]
    exact ⟨_, rfl⟩
  have li : i.len = 256 := by
    rw [(splitRadix_eq hi).2]
    show 4 * q.len = 256
    rw [lq]
  have e1 : (Plan.splitRadix (.radix4 64) (.radix4 128)).build ℝ = .ok i := by
    have hq' : radix4 ℝ 64 = .ok q := hq
    have hh' : radix4 ℝ 128 = .ok h := hh
    simp only [Plan.build, ok_bind, hq', hh', hi]
  obtain ⟨f, hf⟩ := (plan_ok _ _ e1).implements
  obtain ⟨g, gi, d, e, hdata⟩ := raders_new hf (by rw [li]; norm_num) (by rw [li]; norm_num) (by rw [li]; norm_num)
  refine ⟨d, ?_, ?_, C79_raders_composition _ (by simp [Plan.SmallRadix4]) _ d e1 e⟩
  · rw [Plan.build, e1]
    exact e
  · rw [hdata.eq]
    show i.len + 1 = 257
    rw [li]

/-- Length 1543: Rader's algorithm around `MixedRadix6xn` around Rader's algorithm for 257. -/
example (d : Dht ℝ) (hd : (Plan.raders (.mr6 (.raders (.radix4 256)))).build ℝ = .ok d) : ¬ ComputesDht d := by
  have hl := plan_len _ d hd
  intro hc
  have := (C79_plan _ d hd (by rw [hl]; exact Nat.succ_pos _)).1 hc
  exact absurd (show 256 ≤ 64 from this) (by norm_num)

/-- A defect deep inside: `MixedRadix` of a `MixedRadix3xn` around `Radix4` of length 128, and a butterfly. -/
example : ∃ d, (Plan.mixedRadix (.mr3 (.radix4 128)) .b5).build ℝ = .ok d ∧ d.len = 1920 ∧
    ∃ x X, x.length = d.len ∧ d.process x = .ok X ∧ X.length = d.len ∧ X ≠ dht x := by
  obtain ⟨i, hi⟩ : ∃ i, radix4 ℝ (2 ^ 7) = .ok i := ⟨_, radix4_eq 7⟩
  have hl : i.len = 128 := by rw [radix4_eq] at hi; cases hi; rfl
  have e : (Plan.mixedRadix (.mr3 (.radix4 128)) .b5).build ℝ = .ok (mixedRadix (mixedRadix3xn i) (butterfly5 ℝ)) := by
    have hi' : radix4 ℝ 128 = .ok i := hi
    simp only [Plan.build, ok_bind, hi']
  have hlen : (mixedRadix (mixedRadix3xn i) (butterfly5 ℝ)).len = 1920 := by
    show 3 * i.len * 5 = 1920
    rw [hl]
  exact ⟨_, e, hlen, C79_witness _ _ e (by omega) (by simp [Plan.SmallRadix4])⟩

end RustDHT
