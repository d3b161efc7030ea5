import Verif.Proofs.MachineRaders
import Verif.Props.Contract
import Verif.Props.Exact

/-! # C50: machine integers suffice

The theorems of the other files are about lengths and indices in `ℕ`.  `Machine.build m` is the same crate with the integers of a
64-bit or 32-bit target, where every operation can overflow: a debug build panics then, a release build wraps around.  `m.cap` is
`2^60` or `2^28`, the largest number of elements of a `Vec<Complex<f32>>`. -/

set_option linter.unusedSectionVars false

namespace RustDHT

variable {T : Type} [Zero T] [Add T] [Sub T] [Mul T] [Neg T] [FftNum T]

/-- As long as no object is longer than the largest possible slice of `f32`, and Rader's algorithm is used for primes `p` such that
`(p-1)^2` is a `usize`, no operation of a constructor or of a transform overflows: the objects are the same. -/
theorem C50_no_overflow (m : Machine.Mode) (p : Plan) (hf : p.Fits m) : Machine.build m T p = p.build T :=
  Machine.build_eq m p hf

/-- The ways of compiling the crate make no difference. -/
theorem C50_builds_agree (m m' : Machine.Mode) (p : Plan) (hf : p.Fits m) (hf' : p.Fits m') :
    Machine.build m T p = Machine.build m' T p := by
  rw [C50_no_overflow m p hf, C50_no_overflow m' p hf']

/-- What fits into the integers of a 32-bit target fits into all integers. -/
theorem C50_fits_of_short (m : Machine.Mode) (c : Bool) (p : Plan) (hf : p.Fits ⟨c, true⟩) : p.Fits m := by
  have hb : 2 ^ (Machine.Mode.mk c true).bits ≤ 2 ^ m.bits := by
    rw [Machine.size_eq, Machine.size_eq]
    exact Nat.mul_le_mul_left _ (Machine.le_cap m)
  have hc : Machine.Mode.cap ⟨c, true⟩ ≤ m.cap := Machine.le_cap m
  induction p with
  | mixedRadix w h iw ih => exact ⟨iw hf.1, ih hf.2.1, hf.2.2.1.trans_le (by omega), hf.2.2.2.trans_le hc⟩
  | splitRadix q h iq ih => exact ⟨iq hf.1, ih hf.2.1, hf.2.2.trans_le (by omega)⟩
  | mr2 h ih | mr3 h ih | mr4 h ih | mr5 h ih | mr6 h ih => exact ⟨ih hf.1, hf.2.trans_le (by omega)⟩
  | raders i ih =>
    refine ⟨ih hf.1, hf.2.1.trans_le (by omega), .inr ?_⟩
    rcases hf.2.2 with h | h
    · cases h
    · exact h.trans_le hb
  | naive n => exact (show n < _ from hf).trans_le (by omega)
  | radix4 n => exact (show n < _ from hf).trans_le hc
  | b1 | b2 | b3 | b4 | b5 | b6 | b8 | b9 | b16 => trivial

/-- So with machine integers every composition computes the transform. -/
theorem C50_computes_dht (m : Machine.Mode) (p : Plan) (hf : p.Fits m) (hr : p.SmallRadix4) (d : Dht ℝ)
    (h : Machine.build m ℝ p = .ok d) : ComputesDht d ∧ d.len = p.expectedLen := by
  rw [C50_no_overflow m p hf] at h
  exact ⟨(C12_plan_dht p hr d h).1, plan_len p d h⟩

/-! The same around inner objects written by the user. -/

theorem C50_mixedRadix2xn (m : Machine.Mode) (d : Dht T) (hl : 2 * d.len < 2 * m.cap) (hs : d.inplaceScratchLen < 8 * m.cap) :
    Machine.mixedRadix2xn m d = .ok (mixedRadix2xn d) := Machine.mixedRadix2xn_eq m hl hs

theorem C50_mixedRadix3xn (m : Machine.Mode) (d : Dht T) (hl : 3 * d.len < 2 * m.cap) (hs : d.inplaceScratchLen < 8 * m.cap) :
    Machine.mixedRadix3xn m d = .ok (mixedRadix3xn d) := Machine.mixedRadix3xn_eq m hl hs

theorem C50_mixedRadix4xn (m : Machine.Mode) (d : Dht T) (hl : 4 * d.len < 2 * m.cap) (hs : d.inplaceScratchLen < 8 * m.cap) :
    Machine.mixedRadix4xn m d = .ok (mixedRadix4xn d) := Machine.mixedRadix4xn_eq m hl hs

theorem C50_mixedRadix5xn (m : Machine.Mode) (d : Dht T) (hl : 5 * d.len < 2 * m.cap) (hs : d.inplaceScratchLen < 8 * m.cap) :
    Machine.mixedRadix5xn m d = .ok (mixedRadix5xn d) := Machine.mixedRadix5xn_eq m hl hs

theorem C50_mixedRadix6xn (m : Machine.Mode) (d : Dht T) (hl : 6 * d.len < 2 * m.cap) (hs : d.inplaceScratchLen < 8 * m.cap) :
    Machine.mixedRadix6xn m d = .ok (mixedRadix6xn d) := Machine.mixedRadix6xn_eq m hl hs

theorem C50_mixedRadix (m : Machine.Mode) (w h : Dht T) (hw : w.len < 2 * m.cap) (hh : h.len < 2 * m.cap)
    (hl : w.len * h.len < 2 * m.cap) (ha : (w.len / 2 + 1) * (h.len / 2 + 1) < m.cap) (hsw : w.oopScratchLen < 8 * m.cap)
    (hsh : h.inplaceScratchLen < 8 * m.cap) :
    Machine.mixedRadix m w h = .ok (mixedRadix w h) := Machine.mixedRadix_eq m hw hh hl ha hsw hsh

theorem C50_splitRadix (m : Machine.Mode) (D : Prop) (q h : Dht T) (hq : SafeDht D q) (hh : SafeDht D h)
    (hl : 4 * q.len < 2 * m.cap) : Machine.splitRadix m q h = splitRadix q h :=
  Machine.splitRadix_eq m hq hh (by omega)

theorem C50_raders (m : Machine.Mode) (D : Prop) (d : Dht T) (hd : SafeDht D d) (hl : d.len + 1 < 2 * m.cap)
    (hs : d.inplaceScratchLen < 8 * m.cap) (h32 : m = .debug ∨ d.len * d.len < 2 ^ m.bits) : Machine.raders m d = raders d :=
  Machine.raders_eq m hd hl hs h32

/-- The length `3 * 699051` times `11 * 5`, with a prime factor above 2^16 and Rader's algorithm inside. -/
example (m : Machine.Mode) : (Plan.mixedRadix (.mr3 (.naive 699051)) (.mixedRadix (.raders (.naive 10)) .b5)).Fits m := by
  refine C50_fits_of_short m true _ ?_
  simp only [Plan.Fits, Plan.expectedLen, Machine.Mode.cap, Machine.Mode.bits]
  norm_num

/-- A composition of length 33000 on a 32-bit target. -/
example (c : Bool) : ∃ d, Machine.build ⟨c, true⟩ ℝ (.mixedRadix (.mr3 (.naive 1000)) (.naive 11)) = .ok d ∧ ComputesDht d ∧ d.len = 33000 := by
  have hf : (Plan.mixedRadix (.mr3 (.naive 1000)) (.naive 11)).Fits ⟨c, true⟩ := by
    simp only [Plan.Fits, Plan.expectedLen, Machine.Mode.cap, Machine.Mode.bits]
    norm_num
  obtain ⟨d, e⟩ : ∃ d, Machine.build ⟨c, true⟩ ℝ (.mixedRadix (.mr3 (.naive 1000)) (.naive 11)) = .ok d :=
    ⟨_, C50_no_overflow _ _ hf⟩
  exact ⟨d, e, C50_computes_dht _ _ hf (by simp [Plan.SmallRadix4]) d e⟩

/-- Around `DhtNaive` of length 1000, on all targets. -/
example (m : Machine.Mode) : Machine.mixedRadix6xn m (dhtNaive T 1000) = .ok (mixedRadix6xn (dhtNaive T 1000)) ∧
    Machine.mixedRadix m (dhtNaive T 1000) (dhtNaive T 1001) = .ok (mixedRadix (dhtNaive T 1000) (dhtNaive T 1001)) ∧
    Machine.splitRadix m (dhtNaive T 1000) (dhtNaive T 2000) = splitRadix (dhtNaive T 1000) (dhtNaive T 2000) ∧
    Machine.raders m (dhtNaive T 1008) = raders (dhtNaive T 1008) := by
  have hs : ∀ n, (dhtNaive T n).inplaceScratchLen = n := fun n => by simp [dhtNaive, boilerplateDhtOop, naiveTwiddles]
  have ho : ∀ n, (dhtNaive T n).oopScratchLen = 0 := fun n => rfl
  have hc : 2 ^ 28 ≤ m.cap := by rcases Machine.cap_cases m with e | e <;> norm_num [e]
  refine ⟨C50_mixedRadix6xn m _ ?_ ?_, C50_mixedRadix m _ _ ?_ ?_ ?_ ?_ ?_ ?_,
    C50_splitRadix m True _ _ (dhtNaive_safe _) (dhtNaive_safe _) ?_, C50_raders m True _ (dhtNaive_safe _) ?_ ?_ (.inr ?_)⟩
  all_goals simp only [dhtNaive_len, hs, ho]
  all_goals first | omega | (rw [Machine.size_eq]; omega)

/-- The bound `2 * m.cap` cannot be raised: from there on the table of `MixedRadix3xn` needs numbers that are not representable. -/
theorem C50_bound_is_tight (m : Machine.Mode) (hm : m.checked = true) (d : Dht T) (h1 : 2 * m.cap ≤ 3 * d.len) (h2 : d.len < m.cap) :
    Machine.mixedRadix3xn m d = panic .overflow := by
  have hcap := Machine.le_cap m
  have hov : ∀ w, m.overflow w = panic .overflow := fun w => by rw [Machine.Mode.overflow, if_pos hm]
  unfold Machine.mixedRadix3xn
  simp only
  have e1 : Machine.eighthTwiddle m T 1 1 (3 * d.len) = panic .overflow := by
    unfold Machine.eighthTwiddle Machine.Mode.mulAdd
    rw [Machine.mul_eq _ (by omega), ok_bind, Machine.mul_eq _ (by omega), ok_bind]
    by_cases h : 1 * 1 * 8 + 3 * d.len < 16 * m.cap
    · rw [Machine.add_eq _ h, ok_bind, Machine.Mode.mul, if_neg (by rw [Machine.size_eq]; omega), hov]
      rfl
    · rw [Machine.Mode.add, if_neg (by rwa [Machine.size_eq]), hov]
      rfl
  obtain ⟨k, hk⟩ : ∃ k, d.len / 2 = k + 1 := ⟨d.len / 2 - 1, by omega⟩
  rw [Machine.mul_eq _ (by omega), ok_bind, Machine.add_eq _ (by omega), ok_bind, Machine.sub_eq _ (by omega), ok_bind,
    Machine.mul_eq _ (by omega), ok_bind, Machine.allocate_eq _ (by omega), ok_bind, Nat.add_sub_cancel, hk, List.range'_succ, List.mapM_cons, e1]
  rfl

/-- The length `3 * (2^60 - 1)` on a 64-bit target. -/
example : Machine.mixedRadix3xn .debug (dhtNaive T (2 ^ 60 - 1)) = panic .overflow := by
  have hc : Machine.Mode.debug.cap = 2 ^ 60 := rfl
  exact C50_bound_is_tight .debug rfl _ (by rw [dhtNaive_len, hc]; norm_num) (by rw [dhtNaive_len, hc]; norm_num)

end RustDHT
