import Verif.Proofs.Cyclotomic
import Verif.Proofs.RootAffected

/-! # The numbers that compositions compute with

All tables consist of rational expressions in roots of unity, so from signals with numbers of that kind compositions compute numbers of
that kind. -/

open Finset

namespace RustDHT

/-- All numbers of the list are in the field. -/
def InField (K : Subfield ℝ) (x : List ℝ) : Prop := ∀ i, nth x i ∈ K

/-- The function does not leave the field. -/
def ClosedFn (K : Subfield ℝ) (n : ℕ) (f : List ℝ → List ℝ) : Prop := ∀ x, x.length = n → InField K x → InField K (f x)

variable {K : Subfield ℝ}

theorem nth_past {x : List ℝ} {i : ℕ} (h : x.length ≤ i) : nth x i = 0 := by rw [nth, List.getElem?_eq_none h, Option.getD_none]

theorem inField_tab {n : ℕ} {F : ℕ → ℝ} (h : ∀ i < n, F i ∈ K) : InField K (tab n F) := by
  intro i
  rcases Nat.lt_or_ge i n with hi | hi
  · rw [nth_tab hi]
    exact h i hi
  · rw [nth_past (by rw [length_tab]; exact hi)]
    exact zero_mem _

theorem inField_row {h r : ℕ} {x : List ℝ} (hx : InField K x) : InField K (rowOf h r x) := by
  intro i
  rcases Nat.lt_or_ge i h with hi | hi
  · rw [nth_rowOf hi]
    exact hx _
  · rw [nth_past (by rw [rowOf, List.length_take]; omega)]
    exact zero_mem _

theorem inField_chunks {k h : ℕ} (hh : 0 < h) {f : List ℝ → List ℝ} (hl : ∀ x, x.length = h → (f x).length = h) (hf : ClosedFn K h f)
    {x : List ℝ} (lx : x.length = k * h) (hx : InField K x) : InField K (mapChunks h f x) := by
  intro i
  rcases Nat.lt_or_ge i (k * h) with hi | hi
  · have h1 := div_lt_of_lt_mul' hi
    have h2 := Nat.mod_lt i hh
    have := nth_chunkRow hl lx h1 h2
    rw [Nat.mul_comm (i / h) h, Nat.div_add_mod] at this
    rw [this]
    exact hf _ (length_rowOf lx h1) (inField_row hx) _
  · rw [nth_past (by rw [length_mapChunks hh hl, lx]; exact hi)]
    exact zero_mem _

/-- A field with all numbers of tables up to a length. -/
structure HasTables (K : Subfield ℝ) (n : ℕ) : Prop where
  pair : ∀ m, 0 < m → m ≤ n → ∀ k, cs m k ∈ K ∧ sn m k ∈ K

theorem HasTables.ca {n m : ℕ} (h : HasTables K n) (hm : 0 < m) (hmn : m ≤ n) (k : ℤ) : RustDHT.ca m k ∈ K :=
  add_mem (h.pair m hm hmn k).1 (h.pair m hm hmn k).2

theorem HasTables.mono {n m : ℕ} (h : HasTables K n) (hmn : m ≤ n) : HasTables K m := ⟨fun k hk hkm => h.pair k hk (hkm.trans hmn)⟩

theorem hart_in {n : ℕ} (h : HasTables K n) {f : ℕ → ℝ} (hf : ∀ i < n, f i ∈ K) (k : ℤ) : hart n f k ∈ K :=
  sum_mem fun i hi => mul_mem (hf i (mem_range.1 hi)) (h.ca (by have := mem_range.1 hi; omega) le_rfl _)

theorem closed_dht {n : ℕ} (h : HasTables K n) : ClosedFn K n dht := by
  intro x lx hx
  rw [dht_eq' lx]
  exact inField_tab fun k _ => hart_in h (fun i _ => hx i) k

theorem inField_of_dht {n : ℕ} (hn : 0 < n) (h : HasTables K n) {x : List ℝ} (lx : x.length = n) (hx : InField K (dht x)) : InField K x := by
  intro i
  rcases Nat.lt_or_ge i n with hi | hi
  · have e : nth (dht (dht x)) i = n * nth x i := by
      rw [dht_dht, nth_map_zero (by simp), lx]
    have h1 := closed_dht h (dht x) (by rw [length_dht, lx]) hx i
    rw [e] at h1
    have hn' : (n : ℝ) ≠ 0 := by exact_mod_cast hn.ne'
    have h2 := div_mem h1 (natCast_mem K n)
    rwa [mul_div_cancel_left₀ _ hn'] at h2
  · rw [nth_past (by omega)]
    exact zero_mem _

/-- If the transformed rows are in the field, so is the signal. -/
theorem inField_of_rows {w h : ℕ} (hh : 0 < h) (ht : HasTables K h) {x : List ℝ} (lx : x.length = w * h)
    (hx : InField K (mapChunks h dht (mrStep1 w h x))) : InField K x := by
  have ld : ∀ x : List ℝ, x.length = h → (dht x).length = h := fun x hx => by rw [length_dht, hx]
  intro i
  rcases Nat.lt_or_ge i (w * h) with hi | hi
  · have himg : (range (w * h)).image (fun p => revRow w h (p / h) (p % h) * w + p / h) = range (w * h) := by
      refine eq_of_subset_of_card_le (fun j hj => ?_) ?_
      · obtain ⟨p, hp, rfl⟩ := mem_image.1 hj
        exact mem_range.2 (revRow_lt hh (mem_range.1 hp))
      · rw [card_image_of_injOn fun p h1 q h2 e => revRow_inj hh (mem_range.1 (mem_coe.1 h1)) (mem_range.1 (mem_coe.1 h2)) e]
    have hi' := hi
    rw [← mem_range, ← himg] at hi'
    obtain ⟨p, hp, e⟩ := mem_image.1 hi'
    have hp := mem_range.1 hp
    have h1 := div_lt_of_lt_mul' hp
    have h2 := Nat.mod_lt p hh
    have l1 := length_step1 w h x
    have e1 : nth x i = nth (rowOf h (p / h) (mrStep1 w h x)) (p % h) := by
      rw [nth_rowOf h2, Nat.mul_comm (p / h) h, Nat.div_add_mod, mrStep1, nth_tab hp]
      exact congrArg (nth x) e.symm
    rw [e1]
    refine inField_of_dht hh ht (length_rowOf l1 h1) (fun c => ?_) _
    rcases Nat.lt_or_ge c h with hc | hc
    · rw [← nth_chunkRow ld l1 h1 hc]
      exact hx _
    · rw [nth_past (by rw [length_dht, length_rowOf l1 h1]; exact hc)]
      exact zero_mem _
  · rw [nth_past (by omega)]
    exact zero_mem _

theorem inField_scl {w h : ℕ} {δ : ℝ} (hδ : δ ∈ K) {z : List ℝ} (hz : InField K z) : InField K (scl w h δ z) :=
  inField_tab fun p _ => mul_mem (by split_ifs; exacts [one_mem _, hδ]) (hz p)

theorem closed_stage {w h : ℕ} {δ : ℝ} (hh : 0 < h) (ht : HasTables K (w * h)) (hle : h ≤ w * h) (hδ : δ ∈ K) {L : List ℝ → List ℝ}
    (hL : ∀ x, x.length = w * h → L (mapChunks h dht (mrStep1 w h x)) = rootDht w δ x) : ClosedFn K (w * h) L := by
  intro z lz hz
  obtain ⟨x1, h1, e1, e2⟩ := stage_scaled hh hL lz
  rw [e2]
  refine closed_dht ht x1 h1 (inField_of_rows hh (ht.mono hle) h1 ?_)
  rw [e1]
  exact inField_scl hδ hz

theorem inField_step1 {w h : ℕ} {x : List ℝ} (hx : InField K x) : InField K (mrStep1 w h x) := inField_tab fun _ _ => hx _

theorem closed_tail {w h : ℕ} (hw : 0 < w) {fw : List ℝ → List ℝ} (lw : ∀ x, x.length = w → (fw x).length = w) (hf : ClosedFn K w fw)
    {x : List ℝ} (hx : InField K x) : InField K (mrTail w h fw x) :=
  inField_tab fun _ _ => inField_tab (fun _ _ => inField_chunks (k := h) hw lw hf (length_tab _ _) (inField_tab fun _ _ => hx _) _) _

theorem closed_twist {w h : ℕ} (ht : HasTables K (w * h)) {x : List ℝ} (hx : InField K x) : InField K (mrTwist w h ℝ x) := by
  refine inField_tab fun p hp => ?_
  have hn : 0 < w * h := by omega
  have hre : ∀ r c, (mrTw ℝ w h r c).re ∈ K := fun r c => by
    rw [mrTw, eighth_re hn]
    exact div_mem (sub_mem (ht.pair _ hn le_rfl _).1 (ht.pair _ hn le_rfl _).2) (ofNat_mem _ 2)
  have him : ∀ r c, (mrTw ℝ w h r c).im ∈ K := fun r c => by
    rw [mrTw, eighth_im hn]
    exact div_mem (add_mem (ht.pair _ hn le_rfl _).1 (ht.pair _ hn le_rfl _).2) (ofNat_mem _ 2)
  unfold mrVal
  generalize mrTw ℝ w h = tw at hre him
  simp only
  split_ifs <;> first
    | exact hx _
    | exact sub_mem (mul_mem (hre _ _) (add_mem (hx _) (hx _))) (mul_mem (him _ _) (sub_mem (hx _) (hx _)))
    | exact add_mem (mul_mem (hre _ _) (sub_mem (hx _) (hx _))) (mul_mem (him _ _) (add_mem (hx _) (hx _)))

theorem closed_sr {q : ℕ} (hq : 0 < q) (ht : HasTables K (4 * q)) {fq fh : List ℝ → List ℝ} (cq : ClosedFn K q fq)
    (ch : ClosedFn K (2 * q) fh) {x : List ℝ} (hx : InField K x) : InField K (srFn q fq fh x) := by
  have hre : ∀ a, (computeDftTwiddleInverse ℝ a (4 * q)).re ∈ K := fun a => by
    rw [inverse_re]
    exact (ht.pair _ (by omega) le_rfl _).1
  have him : ∀ a, (computeDftTwiddleInverse ℝ a (4 * q)).im ∈ K := fun a => by
    rw [inverse_im]
    exact (ht.pair _ (by omega) le_rfl _).2
  have hd : ∀ a b, nth x a - nth x b ∈ K := fun a b => sub_mem (hx _) (hx _)
  refine inField_tab fun p _ => ?_
  split_ifs
  · exact ch _ (length_tab _ _) (inField_tab fun i _ => add_mem (hx _) (hx _)) _
  · refine cq _ (length_tab _ _) (inField_tab fun c _ => ?_) _
    unfold srQ1
    simp only
    split_ifs
    · exact add_mem (hd _ _) (hd _ _)
    · exact sub_mem (mul_mem (add_mem (hd _ _) (hd _ _)) (hre _)) (mul_mem (sub_mem (hd _ _) (hd _ _)) (him _))
    · exact add_mem (mul_mem (add_mem (hd _ _) (hd _ _)) (him _)) (mul_mem (sub_mem (hd _ _) (hd _ _)) (hre _))
  · refine cq _ (length_tab _ _) (inField_tab fun c _ => ?_) _
    unfold srQ3
    simp only
    split_ifs
    · exact sub_mem (hd _ _) (hd _ _)
    · exact add_mem (mul_mem (sub_mem (hd _ _) (hd _ _)) (hre _)) (mul_mem (add_mem (hd _ _) (hd _ _)) (him _))
    · exact sub_mem (mul_mem (sub_mem (hd _ _) (hd _ _)) (him _)) (mul_mem (add_mem (hd _ _) (hd _ _)) (hre _))

theorem inField_cons {a : ℝ} {l : List ℝ} (ha : a ∈ K) (hl : InField K l) : InField K (a :: l) := by
  rintro (_ | i)
  · exact ha
  · rw [nth_cons_succ]
    exact hl i

theorem inField_kernel {n gi : ℕ} (ht : HasTables K (n + 1)) : InField K (rdKernel ℝ (n + 1) gi) := by
  rw [rdKernel, Nat.add_sub_cancel]
  refine inField_tab fun i _ => ?_
  rw [dht_twiddle]
  exact mul_mem (ht.ca (by omega) le_rfl _) (div_mem (natCast_mem _ 1) (natCast_mem _ n))

theorem closed_rd {n g gi : ℕ} {f : List ℝ → List ℝ} (cf : ClosedFn K n f) {κ : List ℝ} (hκ : InField K κ) {x : List ℝ} (hx : InField K x) :
    InField K (rdFn (n + 1) g gi (rdTw κ n) f x) := by
  have hhalf : (FftNum.halfF32 : ℝ) = 1 / 2 := rfl
  have half : (1 / 2 : ℝ) ∈ K := div_mem (one_mem _) (ofNat_mem _ 2)
  have hre : ∀ i, (rdTw κ n i).re ∈ K := by
    intro i
    unfold rdTw
    split_ifs
    · exact hκ _
    · rw [hhalf]
      exact mul_mem (add_mem (hκ _) (hκ _)) half
  have him : ∀ i, (rdTw κ n i).im ∈ K := by
    intro i
    unfold rdTw
    split_ifs
    · exact zero_mem _
    · rw [hhalf]
      exact mul_mem (sub_mem (hκ _) (hκ _)) half
  have hin : InField K (f (rdIn (n + 1) g x)) := cf _ (length_tab _ _) (inField_tab fun _ _ => hx _)
  have hmul : ∀ i, rdMul (f (rdIn (n + 1) g x)) (rdTw κ n) n i ∈ K := by
    intro i
    unfold rdMul
    split_ifs
    · exact mul_mem (hin _) (hre _)
    · exact add_mem (mul_mem (hre _) (hin _)) (mul_mem (him _) (hin _))
    · exact mul_mem (hin _) (hre _)
    · exact sub_mem (mul_mem (hre _) (hin _)) (mul_mem (him _) (hin _))
  refine inField_cons (add_mem (hx _) (hin _)) (inField_tab fun q _ => cf _ (length_tab _ _) (inField_tab fun i _ => ?_) _)
  rw [Nat.add_sub_cancel]
  split_ifs
  · exact add_mem (hmul _) (hx _)
  · exact hmul _

theorem closed_congr {n : ℕ} {f f' : List ℝ → List ℝ} (h : ∀ x, x.length = n → f' x = f x) (hf : ClosedFn K n f) : ClosedFn K n f' :=
  fun x lx hx => by rw [h x lx]; exact hf x lx hx

/-- Compositions do not leave the field. -/
theorem plan_closed {ρ : ℝ} (hρ : ρ * √2 ∈ K) (p : Plan) : ∀ d : Dht ℝ, @Plan.build ℝ _ _ _ _ _ (realWithRoot ρ) p = .ok d → 0 < d.len →
    HasTables K d.len → ∀ f, Implements d f → ClosedFn K d.len f := by
  have free : ∀ p : Plan, p.RootFree → p.SmallRadix4 → ∀ d : Dht ℝ, @Plan.build ℝ _ _ _ _ _ (realWithRoot ρ) p = .ok d → 0 < d.len →
      HasTables K d.len → ∀ f, Implements d f → ClosedFn K d.len f := by
    intro p hp hs d e hpos ht f hf
    rw [build_eq ρ hp] at e
    exact closed_congr (fun x hx => hf.unique (plan_dht p hs d e) hx hpos) (closed_dht ht)
  have fixed : ∀ (k : ℕ) (δ : ℝ) (h : Plan) (hd d : Dht ℝ) (ap : List ℝ → Res (List ℝ)), 0 < k → 0 < hd.len → d.len = k * hd.len →
      @Plan.build ℝ _ _ _ _ _ (realWithRoot ρ) h = .ok hd →
      (∀ f, Implements hd f → Implements d (mrnFn k hd.len f ap)) →
      (∀ x, x.length = k * hd.len → mrnFn k hd.len dht ap x = rootDht k δ x) → δ ∈ K →
      (HasTables K hd.len → ∀ f, Implements hd f → ClosedFn K hd.len f) →
      HasTables K d.len → ∀ f, Implements d f → ClosedFn K d.len f := by
    intro k δ h hd d ap hk hh hlen e himp hL hδ ih ht f hf
    have hle : hd.len ≤ k * hd.len := Nat.le_mul_of_pos_left _ hk
    have hpos : 0 < d.len := by omega
    obtain ⟨f0, hf0⟩ := (@plan_ok ℝ _ _ _ _ _ (realWithRoot ρ) h hd e).implements
    refine closed_congr (fun x hx => hf.unique (himp f0 hf0) hx hpos) ?_
    rw [hlen] at ht ⊢
    intro x lx hx
    refine closed_stage (L := run ap) hh ht hle hδ hL _ (by rw [length_mapChunks hh hf0.length, length_tab]) ?_
    exact inField_chunks hh hf0.length (ih (ht.mono hle) f0 hf0) (length_tab _ _) (inField_step1 hx)
  have pow : ∀ (n : ℕ) (d : Dht ℝ), (Plan.radix4 n).build ℝ = .ok d → 0 < d.len → HasTables K d.len → ∀ f, Implements d f →
      ClosedFn K d.len f := by
    intro n d e hpos ht f hf
    have e' : radix4 ℝ n = .ok d := e
    obtain ⟨m, rfl⟩ := radix4_isPow e'
    have hlen : d.len = 2 ^ m := by rw [radix4_eq] at e'; cases e'; rfl
    refine closed_congr (fun x hx => hf.unique (radix4_implements e') hx hpos) ?_
    intro x lx hx
    rw [radix4Fn_dht]
    rw [hlen] at ht
    exact closed_dht ht _ (length_tab _ _) (inField_tab fun _ _ => hx _)
  let := realWithRoot ρ
  induction p with
  | mixedRadix w h ihw ihh =>
    intro d e hpos ht f hf
    obtain ⟨wd, ew, e⟩ := bind_eq_ok e
    obtain ⟨hd, eh, e⟩ := bind_eq_ok e
    cases e
    have hpos' : 0 < wd.len * hd.len := hpos
    have pw : 0 < wd.len := Nat.pos_of_mul_pos_right hpos'
    have ph : 0 < hd.len := Nat.pos_of_mul_pos_left hpos'
    obtain ⟨fw, iw⟩ := (plan_ok w wd ew).implements
    obtain ⟨fh, ih⟩ := (plan_ok h hd eh).implements
    have ht' : HasTables K (wd.len * hd.len) := ht
    refine closed_congr (fun x hx => hf.unique (mixedRadix_implements iw ih) hx hpos) ?_
    intro x lx hx
    rw [mrFn_eq]
    refine closed_tail pw iw.length (ihw wd ew pw (ht'.mono (Nat.le_mul_of_pos_right _ ph)) fw iw) ?_
    have e1 := twist_root ρ (w := wd.len) (h := hd.len) (mapChunks hd.len fh (mrStep1 wd.len hd.len x))
    rw [show mrTwist wd.len hd.len ℝ (mapChunks hd.len fh (mrStep1 wd.len hd.len x)) = _ from e1]
    refine closed_twist ht' (inField_scl hρ (inField_chunks ph ih.length
      (ihh hd eh ph (ht'.mono (Nat.le_mul_of_pos_left _ pw)) fh ih) (length_step1 _ _ _) (inField_step1 hx)))
  | mr2 h ihh =>
    intro d e hpos
    obtain ⟨hd, eh, e⟩ := bind_eq_ok e
    cases e
    have ph : 0 < hd.len := Nat.pos_of_mul_pos_left (show 0 < 2 * hd.len from hpos)
    exact fixed 2 1 h hd _ _ (by norm_num) ph rfl eh
      (fun f hf => mr2_implements hf (root_small ρ 2 (by norm_num) eh).1 (root_small ρ 2 (by norm_num) eh).2)
      (fun x hx => (@mr2Fn_dht hd.len x hx).trans (rootDht_one 2 x).symm) (one_mem _) (ihh hd eh ph)
  | mr3 h ihh =>
    intro d e hpos
    obtain ⟨hd, eh, e⟩ := bind_eq_ok e
    cases e
    have ph : 0 < hd.len := Nat.pos_of_mul_pos_left (show 0 < 3 * hd.len from hpos)
    exact fixed 3 _ h hd _ _ (by norm_num) ph rfl eh
      (fun f hf => mr3_implements hf (root_small ρ 3 (by norm_num) eh).1 (root_small ρ 3 (by norm_num) eh).2)
      (fun x hx => mr3Fn_root ρ hx) hρ (ihh hd eh ph)
  | mr4 h ihh =>
    intro d e hpos
    obtain ⟨hd, eh, e⟩ := bind_eq_ok e
    cases e
    have ph : 0 < hd.len := Nat.pos_of_mul_pos_left (show 0 < 4 * hd.len from hpos)
    exact fixed 4 1 h hd _ _ (by norm_num) ph rfl eh
      (fun f hf => mr4_implements hf (root_small ρ 4 (by norm_num) eh).1 (root_small ρ 4 (by norm_num) eh).2)
      (fun x hx => (@mr4Fn_dht hd.len x hx).trans (rootDht_one 4 x).symm) (one_mem _) (ihh hd eh ph)
  | mr5 h ihh =>
    intro d e hpos
    obtain ⟨hd, eh, e⟩ := bind_eq_ok e
    cases e
    have ph : 0 < hd.len := Nat.pos_of_mul_pos_left (show 0 < 5 * hd.len from hpos)
    exact fixed 5 _ h hd _ _ (by norm_num) ph rfl eh
      (fun f hf => mr5_implements hf (root_small ρ 5 (by norm_num) eh).1 (root_small ρ 5 (by norm_num) eh).2)
      (fun x hx => mr5Fn_root ρ hx) hρ (ihh hd eh ph)
  | mr6 h ihh =>
    intro d e hpos
    obtain ⟨hd, eh, e⟩ := bind_eq_ok e
    cases e
    have ph : 0 < hd.len := Nat.pos_of_mul_pos_left (show 0 < 6 * hd.len from hpos)
    exact fixed 6 _ h hd _ _ (by norm_num) ph rfl eh
      (fun f hf => mr6_implements hf (root_small ρ 6 (by norm_num) eh).1 (root_small ρ 6 (by norm_num) eh).2)
      (fun x hx => mr6Fn_root ρ hx) hρ (ihh hd eh ph)
  | radix4 n =>
    exact fun d e => pow n d ((build_eq ρ (p := .radix4 n) trivial).symm.trans e)
  | splitRadix q h ihq ihh =>
    intro d e hpos ht f hf
    obtain ⟨qd, eq, e⟩ := bind_eq_ok e
    obtain ⟨hd, eh, e⟩ := bind_eq_ok e
    have hlen := (splitRadix_eq e).1
    have hdl : d.len = 4 * qd.len := by rw [(splitRadix_eq e).2]; rfl
    have hq : 0 < qd.len := by omega
    obtain ⟨fq, iq⟩ := (plan_ok q qd eq).implements
    obtain ⟨fh, ih⟩ := (plan_ok h hd eh).implements
    have h1 := (plan_ok q qd eq).small hq
    have h2 := (plan_ok h hd eh).small (by omega)
    have hi := splitRadix_implements iq ih e fun _ => ⟨h1.1, by omega, by omega⟩
    refine closed_congr (fun x hx => hf.unique hi hx hpos) ?_
    intro x lx hx
    have ch := ihh hd eh (by omega) (ht.mono (by omega)) fh ih
    rw [hlen] at ch
    rw [hdl] at ht
    exact closed_sr hq ht (ihq qd eq hq (ht.mono (by omega)) fq iq) ch hx
  | raders i ihi =>
    intro d e hpos ht f hf
    obtain ⟨id, ei, e⟩ := bind_eq_ok e
    obtain ⟨fi, hi⟩ := (plan_ok i id ei).implements
    obtain ⟨g, gi, hdata⟩ := raders_data hi e
    have hdl : d.len = id.len + 1 := by rw [hdata.eq]; rfl
    have hid : 0 < id.len := by have := hdata.prime.two_le; omega
    have ci := ihi id ei hid (ht.mono (by omega)) fi hi
    refine closed_congr (fun x hx => hf.unique (hdata.implements hi) hx hpos) ?_
    rw [hdl] at ht ⊢
    intro x lx hx
    have := closed_rd (g := g) (gi := gi) ci (ci _ (length_tab _ _) (inField_kernel (gi := gi) ht)) hx
    rw [Nat.add_sub_cancel]
    exact this
  | _ =>
    intro d e hpos ht f hf
    refine free _ ?_ ?_ d e hpos ht f hf <;> trivial

end RustDHT
