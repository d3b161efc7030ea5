import Verif.Proofs.Patched
import Verif.Spec.Patched
import Verif.Props.Radix4Repaired

/-! # Compositions of the patched algorithms -/

set_option linter.unusedSectionVars false

namespace RustDHT

section
variable {T : Type} [Zero T] [Add T] [Sub T] [Mul T] [Neg T] [FftNum T]

theorem mr2Patched_solid {d : Dht T} (h : Accepts d) : Solid (mixedRadix2xnPatched d) := by
  rw [mixedRadix2xnPatched_eq]; exact mrnPatched_solid (by omega) h mr2Apply_total
theorem mr3Patched_solid {d : Dht T} (h : Accepts d) : Solid (mixedRadix3xnPatched d) := by
  rw [mixedRadix3xnPatched_eq]; exact mrnPatched_solid (by omega) h mr3Apply_total
theorem mr4Patched_solid {d : Dht T} (h : Accepts d) : Solid (mixedRadix4xnPatched d) := by
  rw [mixedRadix4xnPatched_eq]; exact mrnPatched_solid (by omega) h mr4Apply_total
theorem mr5Patched_solid {d : Dht T} (h : Accepts d) : Solid (mixedRadix5xnPatched d) := by
  rw [mixedRadix5xnPatched_eq]; exact mrnPatched_solid (by omega) h mr5Apply_total
theorem mr6Patched_solid {d : Dht T} (h : Accepts d) : Solid (mixedRadix6xnPatched d) := by
  rw [mixedRadix6xnPatched_eq]; exact mrnPatched_solid (by omega) h mr6Apply_total

theorem mr2Patched_implements {d : Dht T} {f : List T → List T} (h : Implements d f) :
    Implements (mixedRadix2xnPatched d) (mrnFn 2 d.len f (mr2Apply T d.len)) := by
  rw [mixedRadix2xnPatched_eq]
  exact mrnPatched_implements (by omega) h mr2Apply_total (fun h => by rw [h]; simp [mr2Apply, run_applyColumns_zero])
theorem mr3Patched_implements {d : Dht T} {f : List T → List T} (h : Implements d f) :
    Implements (mixedRadix3xnPatched d) (mrnFn 3 d.len f (mr3Apply T d.len)) := by
  rw [mixedRadix3xnPatched_eq]
  exact mrnPatched_implements (by omega) h mr3Apply_total (fun h => by rw [h]; simp [mr3Apply, run_applyColumns_zero])
theorem mr4Patched_implements {d : Dht T} {f : List T → List T} (h : Implements d f) :
    Implements (mixedRadix4xnPatched d) (mrnFn 4 d.len f (mr4Apply T d.len)) := by
  rw [mixedRadix4xnPatched_eq]
  exact mrnPatched_implements (by omega) h mr4Apply_total (fun h => by rw [h]; simp [mr4Apply, run_applyColumns_zero])
theorem mr5Patched_implements {d : Dht T} {f : List T → List T} (h : Implements d f) :
    Implements (mixedRadix5xnPatched d) (mrnFn 5 d.len f (mr5Apply T d.len)) := by
  rw [mixedRadix5xnPatched_eq]
  exact mrnPatched_implements (by omega) h mr5Apply_total (fun h => by rw [h]; simp [mr5Apply, run_applyColumns_zero])
theorem mr6Patched_implements {d : Dht T} {f : List T → List T} (h : Implements d f) :
    Implements (mixedRadix6xnPatched d) (mrnFn 6 d.len f (mr6Apply T d.len)) := by
  rw [mixedRadix6xnPatched_eq]
  exact mrnPatched_implements (by omega) h mr6Apply_total (fun h => by rw [h]; simp [mr6Apply, run_applyColumns_zero])

theorem splitRadixPatched_len {qd hd d : Dht T} (h : splitRadixPatched qd hd = .ok d) : d.len = 4 * qd.len := by
  rw [(splitRadixPatched_eq h).2]; rfl

theorem radix4Repaired_isPow {n : Nat} {d : Dht T} (h : radix4Repaired T n = .ok d) : ∃ m, n = 2 ^ m := by
  rw [← isPowerOfTwo_iff]
  by_contra hc
  rw [Bool.not_eq_true] at hc
  unfold radix4Repaired at h
  rw [hc, assert_false, panic_bind] at h
  cases h

theorem implements_solid {d : Dht T} {f : List T → List T} (h : Implements d f) (h' : 0 < d.len → Rejects d) : Solid d :=
  ⟨h.accepts, h'⟩

/-- The result of a constructor call, when the call returns. -/
def Good (t : Prop) (n : ℕ) (r : Res (Dht T)) : Prop :=
  ((∃ d, r = .ok d) ↔ t) ∧ ∀ d, r = .ok d → d.len = n ∧ Solid d

theorem good_ok {n : ℕ} {d : Dht T} (h : d.len = n) (hs : Solid d) : Good True n (.ok d) :=
  ⟨⟨fun _ => trivial, fun _ => ⟨d, rfl⟩⟩, fun d' e => by cases e; exact ⟨h, hs⟩⟩

/-- As `Good`, without the claim that bad arguments are rejected. -/
def Fine (t : Prop) (n : ℕ) (r : Res (Dht T)) : Prop :=
  ((∃ d, r = .ok d) ↔ t) ∧ ∀ d, r = .ok d → d.len = n ∧ Accepts d

theorem Good.fine {t : Prop} {n : ℕ} {r : Res (Dht T)} (h : Good t n r) : Fine t n r :=
  ⟨h.1, fun d e => ⟨(h.2 d e).1, (h.2 d e).2.accepts⟩⟩

theorem good_map {t : Prop} {n m : ℕ} {r : Res (Dht T)} {g : Dht T → Dht T} (h : Fine t n r)
    (hg : ∀ d, d.len = n → Accepts d → (g d).len = m ∧ Solid (g d)) : Good t m (r >>= fun d => .ok (g d)) := by
  constructor
  · rw [← h.1]
    constructor
    · rintro ⟨d, e⟩
      obtain ⟨d', e', _⟩ := bind_eq_ok e
      exact ⟨d', e'⟩
    · rintro ⟨d, e⟩
      exact ⟨g d, by rw [e, ok_bind]⟩
  · intro d e
    obtain ⟨d', e', e⟩ := bind_eq_ok e
    cases e
    exact hg d' (h.2 d' e').1 (h.2 d' e').2

theorem good_mixedRadix {t t' : Prop} {n n' : ℕ} {r r' : Res (Dht T)} (h : Fine t n r) (h' : Fine t' n' r') :
    Good (t ∧ t') (n * n') (do let w ← r; let h ← r'; .ok (mixedRadix w h)) := by
  constructor
  · rw [← h.1, ← h'.1]
    constructor
    · rintro ⟨d, e⟩
      obtain ⟨w, ew, e⟩ := bind_eq_ok e
      obtain ⟨v, ev, e⟩ := bind_eq_ok e
      exact ⟨⟨w, ew⟩, ⟨v, ev⟩⟩
    · rintro ⟨⟨w, ew⟩, ⟨v, ev⟩⟩
      exact ⟨mixedRadix w v, by rw [ew, ok_bind, ev, ok_bind]⟩
  · intro d e
    obtain ⟨w, ew, e⟩ := bind_eq_ok e
    obtain ⟨v, ev, e⟩ := bind_eq_ok e
    cases e
    obtain ⟨l1, a1⟩ := h.2 w ew
    obtain ⟨l2, a2⟩ := h'.2 v ev
    exact ⟨by rw [← l1, ← l2]; rfl, mixedRadix_solid a1 a2⟩

theorem good_splitRadix {t t' : Prop} {n n' : ℕ} {r r' : Res (Dht T)} (h : Fine t n r) (h' : Fine t' n' r') :
    Good (t ∧ t' ∧ n' = 2 * n) (4 * n) (do let q ← r; let h ← r'; splitRadixPatched q h) := by
  constructor
  · rw [← h.1, ← h'.1]
    constructor
    · rintro ⟨d, e⟩
      obtain ⟨w, ew, e⟩ := bind_eq_ok e
      obtain ⟨v, ev, e⟩ := bind_eq_ok e
      refine ⟨⟨w, ew⟩, ⟨v, ev⟩, ?_⟩
      rw [← (h.2 w ew).1, ← (h'.2 v ev).1]
      exact (splitRadixPatched_eq e).1
    · rintro ⟨⟨w, ew⟩, ⟨v, ev⟩, hl⟩
      rw [← (h.2 w ew).1, ← (h'.2 v ev).1] at hl
      obtain ⟨d, e⟩ := splitRadixPatched_new hl
      exact ⟨d, by rw [ew, ok_bind, ev, ok_bind, e]⟩
  · intro d e
    obtain ⟨w, ew, e⟩ := bind_eq_ok e
    obtain ⟨v, ev, e⟩ := bind_eq_ok e
    obtain ⟨l1, a1⟩ := h.2 w ew
    obtain ⟨l2, a2⟩ := h'.2 v ev
    exact ⟨by rw [splitRadixPatched_len e, l1], splitRadixPatched_solid a1 a2 e⟩

theorem good_raders {t : Prop} {n : ℕ} {r : Res (Dht T)} (h : Fine t n r) :
    Good (t ∧ (n + 1).Prime ∧ n + 1 < 2 ^ 32) (n + 1) (do let i ← r; radersPatched i) := by
  constructor
  · rw [← h.1]
    constructor
    · rintro ⟨d, e⟩
      obtain ⟨w, ew, e⟩ := bind_eq_ok e
      refine ⟨⟨w, ew⟩, ?_⟩
      rw [← (h.2 w ew).1]
      exact radersPatched_new_only e
    · rintro ⟨⟨w, ew⟩, hl⟩
      rw [← (h.2 w ew).1] at hl
      obtain ⟨d, e, _⟩ := radersPatched_solid_new (h.2 w ew).2 hl.1 hl.2
      exact ⟨d, by rw [ew, ok_bind, e]⟩
  · intro d e
    obtain ⟨w, ew, e⟩ := bind_eq_ok e
    obtain ⟨l1, a1⟩ := h.2 w ew
    obtain ⟨hp, h32⟩ := radersPatched_new_only e
    obtain ⟨d', e', hl, hs⟩ := radersPatched_solid_new a1 hp h32
    rw [e] at e'
    cases e'
    exact ⟨by rw [hl, l1], hs⟩

theorem plan_patched_good (p : Plan) : Good p.Meets p.expectedLen (p.patched T) := by
  have leaf (p : Plan) (d : Dht T) (h : p.build T = .ok d) (h' : p ≠ .b1) : Solid d :=
    ⟨(plan_ok p d h).implements.choose_spec.accepts, (plan_ok p d h).rejects h'⟩
  induction p with
  | naive n => exact good_ok (dhtNaive_len n) (leaf (.naive n) _ rfl (by simp))
  | b1 => exact good_ok rfl ⟨butterfly1Patched_implements.accepts, fun _ => butterfly1Patched_rejects⟩
  | b2 => exact good_ok rfl (leaf .b2 _ rfl (by simp))
  | b3 => exact good_ok rfl (leaf .b3 _ rfl (by simp))
  | b4 => exact good_ok rfl (leaf .b4 _ rfl (by simp))
  | b5 => exact good_ok rfl (leaf .b5 _ rfl (by simp))
  | b6 => exact good_ok rfl (leaf .b6 _ rfl (by simp))
  | b8 => exact good_ok rfl (leaf .b8 _ rfl (by simp))
  | b9 => exact good_ok rfl (leaf .b9 _ rfl (by simp))
  | b16 => exact good_ok rfl (leaf .b16 _ rfl (by simp))
  | mixedRadix w h ihw ihh => exact good_mixedRadix ihw.fine ihh.fine
  | mr2 h ih => exact good_map ih.fine fun d l a => ⟨by rw [Plan.expectedLen, ← l]; rfl, mr2Patched_solid a⟩
  | mr3 h ih => exact good_map ih.fine fun d l a => ⟨by rw [Plan.expectedLen, ← l]; rfl, mr3Patched_solid a⟩
  | mr4 h ih => exact good_map ih.fine fun d l a => ⟨by rw [Plan.expectedLen, ← l]; rfl, mr4Patched_solid a⟩
  | mr5 h ih => exact good_map ih.fine fun d l a => ⟨by rw [Plan.expectedLen, ← l]; rfl, mr5Patched_solid a⟩
  | mr6 h ih => exact good_map ih.fine fun d l a => ⟨by rw [Plan.expectedLen, ← l]; rfl, mr6Patched_solid a⟩
  | radix4 n =>
    constructor
    · constructor
      · rintro ⟨d, e⟩; exact radix4Repaired_isPow e
      · rintro ⟨m, rfl⟩; exact ⟨_, radix4Repaired_eq m⟩
    · intro d e
      obtain ⟨m, rfl⟩ := radix4Repaired_isPow e
      refine ⟨?_, (radix4Repaired_implements e).accepts, fun _ => radix4Repaired_rejects e⟩
      have e' : radix4Repaired T (2 ^ m) = .ok d := e
      rw [radix4Repaired_eq] at e'
      cases e'
      rfl
  | splitRadix q h ihq ihh => exact good_splitRadix ihq.fine ihh.fine
  | raders i ih => exact good_raders ih.fine

theorem tree_patched_fine (t : Tree T) (hu : ∀ d ∈ t.users, Accepts d) :
    Fine t.Meets t.expectedLen t.patched ∧ ((∀ d, t ≠ .user d) → Good t.Meets t.expectedLen t.patched) := by
  have both : ∀ {P : Prop} {n : ℕ} {r : Res (Dht T)} {Q : Prop}, Good P n r → Fine P n r ∧ (Q → Good P n r) :=
    fun h => ⟨h.fine, fun _ => h⟩
  induction t with
  | plan p => exact both (plan_patched_good p)
  | user d =>
    exact ⟨⟨⟨fun _ => trivial, fun _ => ⟨d, rfl⟩⟩, fun d' e => by cases e; exact ⟨rfl, hu _ (by simp [Tree.users])⟩⟩,
      fun h => absurd rfl (h d)⟩
  | mixedRadix w h ihw ihh =>
    exact both (good_mixedRadix (ihw fun d hd => hu d (by simp [Tree.users, hd])).1 (ihh fun d hd => hu d (by simp [Tree.users, hd])).1)
  | mr2 h ih => exact both (good_map (ih hu).1 fun d l a => ⟨by rw [Tree.expectedLen, ← l]; rfl, mr2Patched_solid a⟩)
  | mr3 h ih => exact both (good_map (ih hu).1 fun d l a => ⟨by rw [Tree.expectedLen, ← l]; rfl, mr3Patched_solid a⟩)
  | mr4 h ih => exact both (good_map (ih hu).1 fun d l a => ⟨by rw [Tree.expectedLen, ← l]; rfl, mr4Patched_solid a⟩)
  | mr5 h ih => exact both (good_map (ih hu).1 fun d l a => ⟨by rw [Tree.expectedLen, ← l]; rfl, mr5Patched_solid a⟩)
  | mr6 h ih => exact both (good_map (ih hu).1 fun d l a => ⟨by rw [Tree.expectedLen, ← l]; rfl, mr6Patched_solid a⟩)
  | splitRadix q h ihq ihh =>
    exact both (good_splitRadix (ihq fun d hd => hu d (by simp [Tree.users, hd])).1 (ihh fun d hd => hu d (by simp [Tree.users, hd])).1)
  | raders i ih => exact both (good_raders (ih hu).1)

end

/-! ## The DHT -/

theorem dht_one (v : ℝ) : dht [v] = [v] :=
  ((butterfly1_implements (T := ℝ)).unique butterfly1_dht (x := [v]) rfl (by show 0 < 1; omega)).symm

theorem butterfly1Patched_dht : ComputesDht (butterfly1Patched ℝ) :=
  butterfly1Patched_implements.congr fun x hx => by
    obtain ⟨v, rfl⟩ := List.length_eq_one_iff.1 (show x.length = 1 from hx)
    exact (dht_one v).symm

theorem rd2Kernel_real : rd2Kernel ℝ = -1 := by
  unfold rd2Kernel
  rw [dht_twiddle]
  change ca 2 ((1 : ℕ) : ℤ) * (((1 : ℕ) : ℝ) / ((1 : ℕ) : ℝ)) = -1
  have h : ca 2 ((1 : ℕ) : ℤ) = -1 := by
    unfold ca cs sn
    rw [show 2 * Real.pi * (((1 : ℕ) : ℤ) : ℝ) / ((2 : ℕ) : ℝ) = Real.pi by push_cast; ring]
    simp
  rw [h]
  norm_num

theorem rd2Fn_dht {y : ℝ} (hy : dht [rd2Kernel ℝ] = [y]) {x : List ℝ} (hx : x.length = 2) : rd2Fn y dht x = dht x := by
  obtain ⟨a, b, rfl⟩ := List.length_eq_two.1 hx
  rw [dht_one, rd2Kernel_real] at hy
  cases hy
  rw [← bfly2_dht hx, rd2Fn, show nth [a, b] 1 = b from rfl, show nth [a, b] 0 = a from rfl, dht_one, show nth [b] 0 = b from rfl,
    dht_one]
  show [a + b, b * -1 + a] = [a + b, a - b]
  congr 2
  ring

theorem mr2Patched_dht {d : Dht ℝ} (h : ComputesDht d) : ComputesDht (mixedRadix2xnPatched d) :=
  (mr2Patched_implements h).congr fun _ hx => mr2Fn_dht hx
theorem mr3Patched_dht {d : Dht ℝ} (h : ComputesDht d) : ComputesDht (mixedRadix3xnPatched d) :=
  (mr3Patched_implements h).congr fun _ hx => mr3Fn_dht hx
theorem mr4Patched_dht {d : Dht ℝ} (h : ComputesDht d) : ComputesDht (mixedRadix4xnPatched d) :=
  (mr4Patched_implements h).congr fun _ hx => mr4Fn_dht hx
theorem mr5Patched_dht {d : Dht ℝ} (h : ComputesDht d) : ComputesDht (mixedRadix5xnPatched d) :=
  (mr5Patched_implements h).congr fun _ hx => mr5Fn_dht hx
theorem mr6Patched_dht {d : Dht ℝ} (h : ComputesDht d) : ComputesDht (mixedRadix6xnPatched d) :=
  (mr6Patched_implements h).congr fun _ hx => mr6Fn_dht hx

theorem splitRadixPatched_dht {qd hd d : Dht ℝ} (hq : ComputesDht qd) (hh : ComputesDht hd) (h : splitRadixPatched qd hd = .ok d) :
    ComputesDht d :=
  (splitRadixPatched_implements hq hh h).congr fun _ hx => srFn_dht (by rw [hx, splitRadixPatched_len h])

theorem radersPatched_dht {d d' : Dht ℝ} (hd : ComputesDht d) (h : radersPatched d = .ok d') : ComputesDht d' := by
  by_cases h1 : d.len = 1
  · obtain ⟨d'', y, e, hl, hy, hi⟩ := radersPatched_two_implements hd h1
    rw [h] at e
    cases e
    exact hi.congr fun x hx => rd2Fn_dht hy (by rw [hx, hl])
  · rw [radersPatched_eq h1] at h
    exact raders_dht hd h

theorem plan_patched_dht (p : Plan) : ∀ d : Dht ℝ, p.patched ℝ = .ok d → ComputesDht d := by
  induction p with
  | naive n => rintro d ⟨⟩; exact dhtNaive_dht n
  | b1 => rintro d ⟨⟩; exact butterfly1Patched_dht
  | b2 => rintro d ⟨⟩; exact butterfly2_dht
  | b3 => rintro d ⟨⟩; exact butterfly3_dht
  | b4 => rintro d ⟨⟩; exact butterfly4_dht
  | b5 => rintro d ⟨⟩; exact butterfly5_dht
  | b6 => rintro d ⟨⟩; exact butterfly6_dht
  | b8 => rintro d ⟨⟩; exact butterfly8_dht
  | b9 => rintro d ⟨⟩; exact butterfly9_dht
  | b16 => rintro d ⟨⟩; exact butterfly16_dht
  | mixedRadix w h ihw ihh =>
    intro d e
    obtain ⟨wd, ew, e⟩ := bind_eq_ok e
    obtain ⟨hd, eh, e⟩ := bind_eq_ok e
    cases e
    exact mixedRadix_dht (ihw wd ew) (ihh hd eh)
  | mr2 h ih => intro d e; obtain ⟨hd, eh, e⟩ := bind_eq_ok e; cases e; exact mr2Patched_dht (ih hd eh)
  | mr3 h ih => intro d e; obtain ⟨hd, eh, e⟩ := bind_eq_ok e; cases e; exact mr3Patched_dht (ih hd eh)
  | mr4 h ih => intro d e; obtain ⟨hd, eh, e⟩ := bind_eq_ok e; cases e; exact mr4Patched_dht (ih hd eh)
  | mr5 h ih => intro d e; obtain ⟨hd, eh, e⟩ := bind_eq_ok e; cases e; exact mr5Patched_dht (ih hd eh)
  | mr6 h ih => intro d e; obtain ⟨hd, eh, e⟩ := bind_eq_ok e; cases e; exact mr6Patched_dht (ih hd eh)
  | radix4 n =>
    intro d e
    obtain ⟨m, rfl⟩ := radix4Repaired_isPow e
    have hl : d.len = 2 ^ m := by
      have e' : radix4Repaired ℝ (2 ^ m) = .ok d := e
      rw [radix4Repaired_eq] at e'; cases e'; rfl
    exact (radix4Repaired_implements e).congr fun x hx => repairedFn_dht (m := m) (hx.trans hl)
  | splitRadix q h ihq ihh =>
    intro d e
    obtain ⟨qd, eq, e⟩ := bind_eq_ok e
    obtain ⟨hd, eh, e⟩ := bind_eq_ok e
    exact splitRadixPatched_dht (ihq qd eq) (ihh hd eh) e
  | raders i ih =>
    intro d e
    obtain ⟨id, ei, e⟩ := bind_eq_ok e
    exact radersPatched_dht (ih id ei) e

theorem tree_patched_dht (t : Tree ℝ) (hu : ∀ d ∈ t.users, ComputesDht d) : ∀ d : Dht ℝ, t.patched = .ok d → ComputesDht d := by
  induction t with
  | plan p => exact plan_patched_dht p
  | user d => rintro d' ⟨⟩; exact hu _ (by simp [Tree.users])
  | mixedRadix w h ihw ihh =>
    intro d e
    obtain ⟨wd, ew, e⟩ := bind_eq_ok e
    obtain ⟨hd, eh, e⟩ := bind_eq_ok e
    cases e
    exact mixedRadix_dht (ihw (fun d hd => hu d (by simp [Tree.users, hd])) wd ew) (ihh (fun d hd => hu d (by simp [Tree.users, hd])) hd eh)
  | mr2 h ih => intro d e; obtain ⟨hd, eh, e⟩ := bind_eq_ok e; cases e; exact mr2Patched_dht (ih hu hd eh)
  | mr3 h ih => intro d e; obtain ⟨hd, eh, e⟩ := bind_eq_ok e; cases e; exact mr3Patched_dht (ih hu hd eh)
  | mr4 h ih => intro d e; obtain ⟨hd, eh, e⟩ := bind_eq_ok e; cases e; exact mr4Patched_dht (ih hu hd eh)
  | mr5 h ih => intro d e; obtain ⟨hd, eh, e⟩ := bind_eq_ok e; cases e; exact mr5Patched_dht (ih hu hd eh)
  | mr6 h ih => intro d e; obtain ⟨hd, eh, e⟩ := bind_eq_ok e; cases e; exact mr6Patched_dht (ih hu hd eh)
  | splitRadix q h ihq ihh =>
    intro d e
    obtain ⟨qd, eq, e⟩ := bind_eq_ok e
    obtain ⟨hd, eh, e⟩ := bind_eq_ok e
    exact splitRadixPatched_dht (ihq (fun d hd => hu d (by simp [Tree.users, hd])) qd eq)
      (ihh (fun d hd => hu d (by simp [Tree.users, hd])) hd eh) e
  | raders i ih =>
    intro d e
    obtain ⟨id, ei, e⟩ := bind_eq_ok e
    exact radersPatched_dht (ih hu id ei) e

/-! ## The patches change no result -/

section
variable {T : Type} [Zero T] [Add T] [Sub T] [Mul T] [Neg T] [FftNum T]

/-- Two objects that do the same to every chunk. -/
def SameFn (d e : Dht T) : Prop := e.len = d.len ∧ ∃ f, Implements d f ∧ Implements e f

theorem sameFn_mrn {k : Nat} {d e : Dht T} (hs : SmallScratch d) (h : SameFn d e) {ap : Nat → List T → Res (List T)} {g g' : Dht T}
    (hk : 1 ≤ k) (lg : g.len = k * d.len) (lg' : g'.len = k * e.len)
    (i : ∀ f, Implements d f → (0 < d.len → d.inplaceScratchLen ≤ k * d.len) → (0 < d.len → d.oopScratchLen = 0) →
      Implements g (mrnFn k d.len f (ap d.len)))
    (i' : ∀ f, Implements e f → Implements g' (mrnFn k e.len f (ap e.len))) : SameFn g g' := by
  obtain ⟨hl, f, h1, h2⟩ := h
  refine ⟨by rw [lg, lg', hl], _, i f h1 (fun hpos => le_trans (hs hpos).2 (Nat.le_mul_of_pos_left _ hk)) fun hpos => (hs hpos).1, ?_⟩
  rw [← hl]
  exact i' f h2

theorem plan_patched_same (p : Plan) : p.SmallRadix4 → ∀ d : Dht T, p.build T = .ok d → ∃ e, p.patched T = .ok e ∧ SameFn d e := by
  have leaf (p : Plan) (d : Dht T) (h : p.build T = .ok d) : SameFn d d :=
    ⟨rfl, (plan_ok p d h).implements.choose, (plan_ok p d h).implements.choose_spec, (plan_ok p d h).implements.choose_spec⟩
  induction p with
  | naive n => rintro - d ⟨⟩; exact ⟨_, rfl, leaf (.naive n) _ rfl⟩
  | b1 => rintro - d ⟨⟩; exact ⟨_, rfl, rfl, id, butterfly1_implements, butterfly1Patched_implements⟩
  | b2 => rintro - d ⟨⟩; exact ⟨_, rfl, leaf .b2 _ rfl⟩
  | b3 => rintro - d ⟨⟩; exact ⟨_, rfl, leaf .b3 _ rfl⟩
  | b4 => rintro - d ⟨⟩; exact ⟨_, rfl, leaf .b4 _ rfl⟩
  | b5 => rintro - d ⟨⟩; exact ⟨_, rfl, leaf .b5 _ rfl⟩
  | b6 => rintro - d ⟨⟩; exact ⟨_, rfl, leaf .b6 _ rfl⟩
  | b8 => rintro - d ⟨⟩; exact ⟨_, rfl, leaf .b8 _ rfl⟩
  | b9 => rintro - d ⟨⟩; exact ⟨_, rfl, leaf .b9 _ rfl⟩
  | b16 => rintro - d ⟨⟩; exact ⟨_, rfl, leaf .b16 _ rfl⟩
  | mixedRadix w h ihw ihh =>
    rintro ⟨sw, sh⟩ d e
    obtain ⟨wd, ew, e⟩ := bind_eq_ok e
    obtain ⟨hd, eh, e⟩ := bind_eq_ok e
    cases e
    obtain ⟨wd', ew', lw, fw, iw, iw'⟩ := ihw sw wd ew
    obtain ⟨hd', eh', lh, fh, ih, ih'⟩ := ihh sh hd eh
    refine ⟨_, by rw [Plan.patched, ew', ok_bind, eh', ok_bind], by show wd'.len * hd'.len = wd.len * hd.len; rw [lw, lh], _,
      mixedRadix_implements iw ih, ?_⟩
    have := mixedRadix_implements iw' ih'
    rwa [lw, lh] at this
  | mr2 h ih =>
    intro s d e
    obtain ⟨hd, eh, e⟩ := bind_eq_ok e
    cases e
    obtain ⟨e', ee, hs⟩ := ih s hd eh
    exact ⟨_, by rw [Plan.patched, ee, ok_bind], sameFn_mrn (plan_ok h hd eh).small hs (k := 2) (ap := mr2Apply T) (by omega) rfl rfl
      (fun f => mr2_implements) fun f => mr2Patched_implements⟩
  | mr3 h ih =>
    intro s d e
    obtain ⟨hd, eh, e⟩ := bind_eq_ok e
    cases e
    obtain ⟨e', ee, hs⟩ := ih s hd eh
    exact ⟨_, by rw [Plan.patched, ee, ok_bind], sameFn_mrn (plan_ok h hd eh).small hs (k := 3) (ap := mr3Apply T) (by omega) rfl rfl
      (fun f => mr3_implements) fun f => mr3Patched_implements⟩
  | mr4 h ih =>
    intro s d e
    obtain ⟨hd, eh, e⟩ := bind_eq_ok e
    cases e
    obtain ⟨e', ee, hs⟩ := ih s hd eh
    exact ⟨_, by rw [Plan.patched, ee, ok_bind], sameFn_mrn (plan_ok h hd eh).small hs (k := 4) (ap := mr4Apply T) (by omega) rfl rfl
      (fun f => mr4_implements) fun f => mr4Patched_implements⟩
  | mr5 h ih =>
    intro s d e
    obtain ⟨hd, eh, e⟩ := bind_eq_ok e
    cases e
    obtain ⟨e', ee, hs⟩ := ih s hd eh
    exact ⟨_, by rw [Plan.patched, ee, ok_bind], sameFn_mrn (plan_ok h hd eh).small hs (k := 5) (ap := mr5Apply T) (by omega) rfl rfl
      (fun f => mr5_implements) fun f => mr5Patched_implements⟩
  | mr6 h ih =>
    intro s d e
    obtain ⟨hd, eh, e⟩ := bind_eq_ok e
    cases e
    obtain ⟨e', ee, hs⟩ := ih s hd eh
    exact ⟨_, by rw [Plan.patched, ee, ok_bind], sameFn_mrn (plan_ok h hd eh).small hs (k := 6) (ap := mr6Apply T) (by omega) rfl rfl
      (fun f => mr6_implements) fun f => mr6Patched_implements⟩
  | radix4 n =>
    intro s d e
    have e' : radix4 T n = .ok d := e
    obtain ⟨m, rfl⟩ := radix4_isPow e'
    have hm : 2 ^ m ≤ 2 ^ 6 := s
    have hr := radix4Repaired_eq (T := T) m
    obtain ⟨h1, h2⟩ := C62_unchanged_below_128 T m ((Nat.pow_le_pow_iff_right (by norm_num)).1 hm) d _ e' hr
    exact ⟨_, hr, h1.symm, h2⟩
  | splitRadix q h ihq ihh =>
    rintro ⟨sq, sh⟩ d e
    obtain ⟨qd, eq, e⟩ := bind_eq_ok e
    obtain ⟨hd, eh, e⟩ := bind_eq_ok e
    obtain ⟨qd', eq', lq, fq, iq, iq'⟩ := ihq sq qd eq
    obtain ⟨hd', eh', lh, fh, ih, ih'⟩ := ihh sh hd eh
    have hlen := splitRadix_eq e
    obtain ⟨r, er⟩ := splitRadixPatched_new (qd := qd') (hd := hd') (by rw [lq, lh]; exact hlen.1)
    refine ⟨r, by rw [Plan.patched, eq', ok_bind, eh', ok_bind, er], ?_, _, splitRadix_implements iq ih e fun hpos => ?_, ?_⟩
    · rw [splitRadixPatched_len er, lq, hlen.2]; rfl
    · have h1 := (plan_ok q qd eq).small hpos
      have h2 := (plan_ok h hd eh).small (by omega)
      omega
    · have := splitRadixPatched_implements iq' ih' er
      rwa [lq] at this
  | raders i ih =>
    intro s d e
    obtain ⟨id, ei, e⟩ := bind_eq_ok e
    obtain ⟨id', ei', li, f, h1, h2⟩ := ih s id ei
    obtain ⟨hp, hne, h32⟩ := raders_new_only e
    obtain ⟨g, eg, hdata⟩ := raders_data_root h1 e
    obtain ⟨g', r, er, eg', hdata'⟩ := raders_new_root h2 (by rw [li]; exact hp) (by rw [li]; exact hne) (by rw [li]; exact h32)
    rw [li] at eg' hdata'
    rw [eg] at eg'
    cases eg'
    refine ⟨r, by rw [Plan.patched, ei', ok_bind, radersPatched_eq (by omega), er], ?_, _, hdata.implements h1, hdata'.implements h2⟩
    rw [hdata.eq, hdata'.eq]
    rfl

end

end RustDHT
