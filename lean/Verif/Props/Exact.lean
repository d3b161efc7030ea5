import Verif.Proofs.PlanDht
import Verif.Proofs.Radix4Perm
import Verif.Proofs.User
import Mathlib.Tactic.NormNum.Prime

/-! # C01 - C12: the algorithms compute the discrete Hartley transform in exact arithmetic

`dht`, `ComputesDht` and `ProcessesDht` are defined in `Spec/Dht.lean`: both entry points with scratch, on every number of
chunks, whatever the scratch and the output hold, and `process`. -/

namespace RustDHT

/-! ## Two values of the transform, so that the definition is seen to be the intended one -/

theorem dht_pair (a b : ℝ) : dht [a, b] = [a + b, a - b] := by
  simp [dht, dhtCoeff, List.range_succ, Finset.sum_range_succ, cas]
  ring

example : dht [1, 0, 0, 0] = [1, 1, 1, 1] := by
  simp [dht, dhtCoeff, List.range_succ, Finset.sum_range_succ, cas]

theorem dhtNaive_scratch {T : Type} [Add T] [Mul T] [Zero T] [FftNum T] (n : ℕ) :
    (dhtNaive T n).inplaceScratchLen ≤ n ∧ (dhtNaive T n).oopScratchLen = 0 :=
  ⟨(dhtNaive_len n).le, rfl⟩

theorem ComputesDht.processes {d : Dht ℝ} (h : ComputesDht d) : ProcessesDht d := fun _ h1 h2 => h.process h1 h2

/-! ## C01 -/

theorem C01_dhtNaive_dht (n : ℕ) :
    (dhtNaive ℝ n).len = n ∧ ComputesDht (dhtNaive ℝ n) ∧ ProcessesDht (dhtNaive ℝ n) :=
  ⟨dhtNaive_len n, dhtNaive_dht n, (dhtNaive_dht n).processes⟩

/-- Two chunks of length 2. -/
example : (dhtNaive ℝ 2).process [3, 5, 1, 10] = .ok [8, -2, 11, -9] := by
  have h2 : (dhtNaive ℝ 2).len = 2 := dhtNaive_len 2
  rw [(C01_dhtNaive_dht 2).2.2 _ (by simp [h2]) (by rw [h2]; norm_num), h2, mapChunks, if_neg (by simp), mapChunks, if_neg (by simp), mapChunks, if_pos (by simp)]
  simp [dht_pair]
  norm_num

/-! ## C02 -/

theorem C02_butterflies_dht :
    ((butterfly1 ℝ).len = 1 ∧ ComputesDht (butterfly1 ℝ) ∧ ProcessesDht (butterfly1 ℝ)) ∧
    ((butterfly2 ℝ).len = 2 ∧ ComputesDht (butterfly2 ℝ) ∧ ProcessesDht (butterfly2 ℝ)) ∧
    ((butterfly3 ℝ).len = 3 ∧ ComputesDht (butterfly3 ℝ) ∧ ProcessesDht (butterfly3 ℝ)) ∧
    ((butterfly4 ℝ).len = 4 ∧ ComputesDht (butterfly4 ℝ) ∧ ProcessesDht (butterfly4 ℝ)) ∧
    ((butterfly5 ℝ).len = 5 ∧ ComputesDht (butterfly5 ℝ) ∧ ProcessesDht (butterfly5 ℝ)) ∧
    ((butterfly6 ℝ).len = 6 ∧ ComputesDht (butterfly6 ℝ) ∧ ProcessesDht (butterfly6 ℝ)) ∧
    ((butterfly8 ℝ).len = 8 ∧ ComputesDht (butterfly8 ℝ) ∧ ProcessesDht (butterfly8 ℝ)) ∧
    ((butterfly9 ℝ).len = 9 ∧ ComputesDht (butterfly9 ℝ) ∧ ProcessesDht (butterfly9 ℝ)) ∧
    ((butterfly16 ℝ).len = 16 ∧ ComputesDht (butterfly16 ℝ) ∧ ProcessesDht (butterfly16 ℝ)) :=
  ⟨⟨rfl, butterfly1_dht, butterfly1_dht.processes⟩,
    ⟨rfl, butterfly2_dht, butterfly2_dht.processes⟩,
    ⟨rfl, butterfly3_dht, butterfly3_dht.processes⟩,
    ⟨rfl, butterfly4_dht, butterfly4_dht.processes⟩,
    ⟨rfl, butterfly5_dht, butterfly5_dht.processes⟩,
    ⟨rfl, butterfly6_dht, butterfly6_dht.processes⟩,
    ⟨rfl, butterfly8_dht, butterfly8_dht.processes⟩,
    ⟨rfl, butterfly9_dht, butterfly9_dht.processes⟩,
    ⟨rfl, butterfly16_dht, butterfly16_dht.processes⟩⟩

example : (butterfly2 ℝ).process [3, 5] = .ok [8, -2] := by
  have h2 : (butterfly2 ℝ).len = 2 := rfl
  rw [C02_butterflies_dht.2.1.2.2 _ (by simp [h2]) (by simp [h2]), h2, mapChunks, if_neg (by simp), mapChunks, if_pos (by simp)]
  simp [dht_pair]
  norm_num

/-! ## C03 -/

theorem C03_mixedRadix_dht (wd hd : Dht ℝ) (hw : ComputesDht wd) (hh : ComputesDht hd) :
    (mixedRadix wd hd).len = wd.len * hd.len ∧ ComputesDht (mixedRadix wd hd) ∧ ProcessesDht (mixedRadix wd hd) :=
  ⟨rfl, mixedRadix_dht hw hh, (mixedRadix_dht hw hh).processes⟩

/-- Length 12 from 4 and 3, and inner objects of the user with any scratch requirements. -/
example : ComputesDht (mixedRadix (dhtNaive ℝ 4) (butterfly3 ℝ)) ∧
    ComputesDht (mixedRadix ((dhtNaive ℝ 4).greedy 100) ((butterfly3 ℝ).greedy 7)) :=
  ⟨(C03_mixedRadix_dht _ _ (dhtNaive_dht 4) butterfly3_dht).2.1,
    (C03_mixedRadix_dht _ _ (greedy_implements (dhtNaive_dht 4) 100) (greedy_implements butterfly3_dht 7)).2.1⟩

/-! ## C04 - C08 -/

theorem C04_mixedRadix2xn_dht (hd : Dht ℝ) (hh : ComputesDht hd)
    (hin : 0 < hd.len → hd.inplaceScratchLen ≤ 2 * hd.len) (hoop : 0 < hd.len → hd.oopScratchLen = 0) :
    (mixedRadix2xn hd).len = 2 * hd.len ∧ ComputesDht (mixedRadix2xn hd) ∧ ProcessesDht (mixedRadix2xn hd) :=
  ⟨rfl, mixedRadix2xn_dht hh hin hoop, (mixedRadix2xn_dht hh hin hoop).processes⟩

example : ComputesDht (mixedRadix2xn (dhtNaive ℝ 7)) :=
  (C04_mixedRadix2xn_dht _ (dhtNaive_dht 7)
    (fun _ => by rw [dhtNaive_len]; exact le_trans (dhtNaive_scratch 7).1 (by norm_num)) (fun _ => (dhtNaive_scratch 7).2)).2.1

theorem C05_mixedRadix3xn_dht (hd : Dht ℝ) (hh : ComputesDht hd)
    (hin : 0 < hd.len → hd.inplaceScratchLen ≤ 3 * hd.len) (hoop : 0 < hd.len → hd.oopScratchLen = 0) :
    (mixedRadix3xn hd).len = 3 * hd.len ∧ ComputesDht (mixedRadix3xn hd) ∧ ProcessesDht (mixedRadix3xn hd) :=
  ⟨rfl, mixedRadix3xn_dht hh hin hoop, (mixedRadix3xn_dht hh hin hoop).processes⟩

example : ComputesDht (mixedRadix3xn (dhtNaive ℝ 7)) :=
  (C05_mixedRadix3xn_dht _ (dhtNaive_dht 7)
    (fun _ => by rw [dhtNaive_len]; exact le_trans (dhtNaive_scratch 7).1 (by norm_num)) (fun _ => (dhtNaive_scratch 7).2)).2.1

theorem C06_mixedRadix4xn_dht (hd : Dht ℝ) (hh : ComputesDht hd)
    (hin : 0 < hd.len → hd.inplaceScratchLen ≤ 4 * hd.len) (hoop : 0 < hd.len → hd.oopScratchLen = 0) :
    (mixedRadix4xn hd).len = 4 * hd.len ∧ ComputesDht (mixedRadix4xn hd) ∧ ProcessesDht (mixedRadix4xn hd) :=
  ⟨rfl, mixedRadix4xn_dht hh hin hoop, (mixedRadix4xn_dht hh hin hoop).processes⟩

example : ComputesDht (mixedRadix4xn (dhtNaive ℝ 7)) :=
  (C06_mixedRadix4xn_dht _ (dhtNaive_dht 7)
    (fun _ => by rw [dhtNaive_len]; exact le_trans (dhtNaive_scratch 7).1 (by norm_num)) (fun _ => (dhtNaive_scratch 7).2)).2.1

theorem C07_mixedRadix5xn_dht (hd : Dht ℝ) (hh : ComputesDht hd)
    (hin : 0 < hd.len → hd.inplaceScratchLen ≤ 5 * hd.len) (hoop : 0 < hd.len → hd.oopScratchLen = 0) :
    (mixedRadix5xn hd).len = 5 * hd.len ∧ ComputesDht (mixedRadix5xn hd) ∧ ProcessesDht (mixedRadix5xn hd) :=
  ⟨rfl, mixedRadix5xn_dht hh hin hoop, (mixedRadix5xn_dht hh hin hoop).processes⟩

example : ComputesDht (mixedRadix5xn (dhtNaive ℝ 7)) :=
  (C07_mixedRadix5xn_dht _ (dhtNaive_dht 7)
    (fun _ => by rw [dhtNaive_len]; exact le_trans (dhtNaive_scratch 7).1 (by norm_num)) (fun _ => (dhtNaive_scratch 7).2)).2.1

theorem C08_mixedRadix6xn_dht (hd : Dht ℝ) (hh : ComputesDht hd)
    (hin : 0 < hd.len → hd.inplaceScratchLen ≤ 6 * hd.len) (hoop : 0 < hd.len → hd.oopScratchLen = 0) :
    (mixedRadix6xn hd).len = 6 * hd.len ∧ ComputesDht (mixedRadix6xn hd) ∧ ProcessesDht (mixedRadix6xn hd) :=
  ⟨rfl, mixedRadix6xn_dht hh hin hoop, (mixedRadix6xn_dht hh hin hoop).processes⟩

example : ComputesDht (mixedRadix6xn (dhtNaive ℝ 7)) :=
  (C08_mixedRadix6xn_dht _ (dhtNaive_dht 7)
    (fun _ => by rw [dhtNaive_len]; exact le_trans (dhtNaive_scratch 7).1 (by norm_num)) (fun _ => (dhtNaive_scratch 7).2)).2.1

/-! ## C09

False for lengths from 128 on: the permutation made by the constructor is not the one the layers expect.  The theorem
holds for lengths up to 64; and for every length, including those, the result is the DHT of a permutation of the
input (`C09_radix4_permuted_partial`), so that all but the order of the input is right. -/

theorem C09_radix4_dht_partial (m : ℕ) (hm : m ≤ 6) :
    ∃ d, radix4 ℝ (2 ^ m) = .ok d ∧ d.len = 2 ^ m ∧ ComputesDht d ∧ ProcessesDht d := by
  have h := radix4_dht_small hm (radix4_eq m)
  exact ⟨_, radix4_eq m, rfl, h, h.processes⟩

example : ∃ d, radix4 ℝ 64 = .ok d ∧ d.len = 64 ∧ ComputesDht d ∧ ProcessesDht d :=
  C09_radix4_dht_partial 6 (by norm_num)

/-- For no length from 128 on does `Radix4` compute the DHT: the unit impulse at index 3 is transformed wrongly. -/
theorem C09_radix4_refuted (m : ℕ) (hm : 7 ≤ m) :
    ∃ d, radix4 ℝ (2 ^ m) = .ok d ∧ d.len = 2 ^ m ∧
      d.process ((List.range (2 ^ m)).map fun i => if i = 3 then 1 else 0)
        ≠ .ok (dht ((List.range (2 ^ m)).map fun i => if i = 3 then 1 else 0)) := by
  refine ⟨_, radix4_eq m, rfl, fun h => ?_⟩
  have hi := radix4_implements (radix4_eq (T := ℝ) m)
  rw [hi.process (by simp [boilerplateDht]) (by simp [boilerplateDht])] at h
  injection h with h
  rw [mapChunks_single (by simp [boilerplateDht]) (by simp [boilerplateDht])] at h
  exact radix4Fn_wrong hm h

/-- Whatever the length, `Radix4` computes the DHT of a rearrangement of its input. -/
theorem C09_radix4_permuted_partial (m : ℕ) :
    ∃ σ : Equiv.Perm (Fin (2 ^ m)), ∃ d, radix4 ℝ (2 ^ m) = .ok d ∧ d.len = 2 ^ m ∧
      Implements d fun x => dht (List.ofFn fun i : Fin (2 ^ m) => x.getD (σ i) 0) := by
  exact ⟨r4SigmaPerm m, _, radix4_eq m, rfl, radix4_permuted (radix4_eq m)⟩

/-! ## C10 -/

theorem C10_splitRadix_dht (qd hd : Dht ℝ) (hq : ComputesDht qd) (hh : ComputesDht hd) (hlen : hd.len = 2 * qd.len)
    (hs : 0 < qd.len → qd.oopScratchLen = 0 ∧ qd.inplaceScratchLen ≤ 4 * qd.len ∧
      hd.inplaceScratchLen ≤ 2 * qd.len) :
    ∃ d, splitRadix qd hd = .ok d ∧ d.len = 4 * qd.len ∧ ComputesDht d ∧ ProcessesDht d := by
  obtain ⟨d, e⟩ := splitRadix_new hlen
  have h := splitRadix_dht hq hh e hs
  refine ⟨d, e, ?_, h, h.processes⟩
  rw [(splitRadix_eq e).2]; rfl

theorem mr2_naive3_len : (mixedRadix2xn (dhtNaive ℝ 3)).len = 2 * 3 := by
  show 2 * (dhtNaive ℝ 3).len = 2 * 3
  rw [dhtNaive_len]

theorem mr2_naive3_scratch : (mixedRadix2xn (dhtNaive ℝ 3)).inplaceScratchLen ≤ 2 * 3 := by
  have := dhtNaive_scratch (T := ℝ) 3
  simp [mixedRadix2xn, mixedRadixN, boilerplateDht, dhtNaive_len, mrnInplaceScratch]
  omega

example : ∃ d, splitRadix (butterfly3 ℝ) (mixedRadix2xn (dhtNaive ℝ 3)) = .ok d ∧ d.len = 12 ∧ ComputesDht d ∧
    ProcessesDht d :=
  C10_splitRadix_dht _ _ butterfly3_dht
    (mixedRadix2xn_dht (dhtNaive_dht 3) (fun _ => by rw [dhtNaive_len]; exact le_trans (dhtNaive_scratch 3).1 (by norm_num))
      (fun _ => (dhtNaive_scratch 3).2)) mr2_naive3_len (fun _ => ⟨rfl, Nat.zero_le _, mr2_naive3_scratch⟩)

/-! ## C11 -/

theorem C11_raders_dht (d : Dht ℝ) (hd : ComputesDht d) (hp : (d.len + 1).Prime) (h2 : d.len + 1 ≠ 2)
    (h32 : d.len + 1 < 2 ^ 32) :
    ∃ d', raders d = .ok d' ∧ d'.len = d.len + 1 ∧ ComputesDht d' ∧ ProcessesDht d' := by
  obtain ⟨g, gi, d', e, hdata⟩ := raders_new hd hp h2 h32
  have h := raders_dht hd e
  refine ⟨d', e, ?_, h, h.processes⟩
  rw [hdata.eq]; rfl

example : ∃ d', raders (dhtNaive ℝ 16) = .ok d' ∧ d'.len = 17 ∧ ComputesDht d' ∧ ProcessesDht d' :=
  C11_raders_dht _ (dhtNaive_dht 16) (by show (17 : ℕ).Prime; norm_num) (by show (17 : ℕ) ≠ 2; norm_num)
    (by show (17 : ℕ) < 2 ^ 32; norm_num)

/-- With a user-implemented inner object that requests a lot of scratch. -/
example : ∃ d', raders ((butterfly16 ℝ).greedy 1000) = .ok d' ∧ d'.len = 17 ∧ ComputesDht d' ∧ ProcessesDht d' :=
  C11_raders_dht _ (greedy_implements butterfly16_dht 1000) (by show (17 : ℕ).Prime; norm_num)
    (by show (17 : ℕ) ≠ 2; norm_num) (by show (17 : ℕ) < 2 ^ 32; norm_num)

/-! ## C12 -/

theorem C12_plan_dht (p : Plan) (hr : p.SmallRadix4) (d : Dht ℝ) (h : p.build ℝ = .ok d) :
    ComputesDht d ∧ ProcessesDht d :=
  ⟨plan_dht p hr d h, (plan_dht p hr d h).processes⟩

/-- A nesting of depth 4 with total length `(17 * 3) * (4 * 3)`. -/
example : ∃ d, (Plan.mixedRadix (.mr3 (.raders .b16)) (.splitRadix .b3 (.mr2 (.naive 3)))).build ℝ = .ok d ∧
    d.len = 612 ∧ ComputesDht d ∧ ProcessesDht d := by
  obtain ⟨r, er, hr, -, -⟩ := C11_raders_dht (butterfly16 ℝ) butterfly16_dht (by show (17 : ℕ).Prime; norm_num)
    (by show (17 : ℕ) ≠ 2; norm_num) (by show (17 : ℕ) < 2 ^ 32; norm_num)
  obtain ⟨s, es⟩ := splitRadix_new (qd := butterfly3 ℝ) (hd := mixedRadix2xn (dhtNaive ℝ 3)) mr2_naive3_len
  have e : (Plan.mixedRadix (.mr3 (.raders .b16)) (.splitRadix .b3 (.mr2 (.naive 3)))).build ℝ
      = .ok (mixedRadix (mixedRadix3xn r) s) := by
    simp only [Plan.build, ok_bind, er, es]
  refine ⟨_, e, ?_, C12_plan_dht _ (by simp [Plan.SmallRadix4]) _ e⟩
  show 3 * r.len * s.len = 612
  rw [hr, (splitRadix_eq es).2]
  rfl

end RustDHT
