import Verif.Proofs.MachineSafety
import Verif.Props.Safety

/-! # C52: no undefined behaviour with machine integers, also when they wrap around

The crate reads and writes without bounds checks (`get_unchecked`, raw pointers) after assertions that multiply lengths.  In a
release build such a product may wrap around, and the assertion may then hold of slices that are too short.  The theorem is about
`Machine.buildTree`, where every operation wraps (or, in a debug build, panics), and about all lengths: there is no bound on the
lengths of the objects but that they are `usize`, of 64 or 32 bits. -/

set_option linter.unusedSectionVars false

namespace RustDHT

variable {T : Type} [Zero T] [Add T] [Sub T] [Mul T] [Neg T] [FftNum T]

/-- Neither a constructor nor a call has undefined behaviour, whatever overflows, around arbitrary objects of the caller that
announce arbitrary lengths. -/
theorem C52_no_undefined_behaviour (m : Machine.Mode) (t : Tree T) (ht : t.Usize m) (hu : ∀ d ∈ t.users, SafeDht True d) :
    Machine.buildTree m t ≠ .error .ub ∧ ∀ d, Machine.buildTree m t = .ok d →
      (∀ buffer, d.process buffer ≠ .error .ub) ∧
      (∀ buffer scratch, d.processWithScratch buffer scratch ≠ .error .ub) ∧
      (∀ input output scratch, d.processOop input output scratch ≠ .error .ub) := by
  have h := Machine.buildTree_sound (D := True) m trivial t ht hu
  refine ⟨h.not_ub, fun d e => ?_⟩
  have hd : SafeDht True d := (h.of_ok e).safe
  exact ⟨fun b => (hd.process b).not_ub, fun b s => (hd.postInplace b s).not_ub, fun i o s => (hd.postOop i o s).not_ub⟩

/-- The result is again safe to use as an inner object, and its length is a `usize`. -/
theorem C52_slices_keep_length (m : Machine.Mode) (t : Tree T) (ht : t.Usize m) (hu : ∀ d ∈ t.users, SafeDht True d) (d : Dht T)
    (h : Machine.buildTree m t = .ok d) : SafeDht True d ∧ d.len < 2 ^ m.bits :=
  have := (Machine.buildTree_sound (D := True) m trivial t ht hu).of_ok h
  ⟨this.safe, by rw [Machine.size_eq]; exact this.len⟩

theorem assert_of {b : Bool} {k : PanicKind} (h : b = true) : assert b k = .ok () := by rw [h, assert_true]

/-- Lengths do wrap around: from objects that announce the lengths `2^62 + 1` and `2^63 + 2` (on a 32-bit target `2^30 + 1` and
`2^31 + 2`), a release build makes a `SplitRadix` of length 4, and a debug build panics. -/
theorem C52_wrapped_length (m : Machine.Mode) (a b : Dht T) (ha : a.len = 4 * m.cap + 1) (hb : b.len = 8 * m.cap + 2) :
    (m.checked = false → ∃ d, Machine.splitRadix m a b = .ok d ∧ d.len = 4) ∧
      (m.checked = true → Machine.splitRadix m a b = panic .overflow) := by
  have hcap := Machine.le_cap m
  refine ⟨fun hm => ?_, fun hm => ?_⟩
  · unfold Machine.splitRadix
    simp only
    have e : m.mul (4 * m.cap + 1) 4 = .ok 4 := by
      rw [Machine.Mode.mul, Machine.size_eq, if_neg (by omega), Machine.Mode.overflow, hm, if_neg (by simp),
        show (4 * m.cap + 1) * 4 = 4 + 16 * m.cap * 1 by ring, Nat.add_mul_mod_self_left, Nat.mod_eq_of_lt (by omega)]
    rw [ha, hb, Machine.mul_eq _ (by omega), ok_bind, assert_of (by simp; omega), ok_bind, e, ok_bind, Machine.add_eq _ (by omega),
      ok_bind, Machine.mul_eq _ (by omega), ok_bind, Machine.allocate_eq _ (by omega), ok_bind, Machine.srTable_eq _ (by omega),
      ok_bind]
    exact ⟨_, rfl, rfl⟩
  · unfold Machine.splitRadix
    simp only
    have e : m.mul (4 * m.cap + 1) 4 = panic .overflow := by
      rw [Machine.Mode.mul, Machine.size_eq, if_neg (by omega), Machine.Mode.overflow, hm, if_pos rfl]
    rw [ha, hb, Machine.mul_eq _ (by omega), ok_bind, assert_of (by simp; omega), ok_bind, e]
    rfl

/-- Such objects can be written. -/
example : ∃ d, Machine.splitRadix .release (wildDht T (2 ^ 62 + 1) 0) (wildDht T (2 ^ 63 + 2) 3) = .ok d ∧ d.len = 4 :=
  (C52_wrapped_length .release _ _ rfl rfl).1 rfl

/-- That object can be called like any other. -/
example : ∀ d, Machine.buildTree .release (.splitRadix (.user (wildDht T (2 ^ 62 + 1) 0)) (.user (wildDht T (2 ^ 63 + 2) 3))) = .ok d →
    ∀ buffer scratch, d.processWithScratch buffer scratch ≠ .error .ub := by
  intro d e
  refine ((C52_no_undefined_behaviour .release _ ?_ ?_).2 d e).2.1
  · simp [Tree.Usize, wildDht, Machine.Mode.bits, Machine.Mode.release]
  · simp [Tree.users, wildDht_safe]

/-- The assertion of `transpose_half_rev_out` alone does not protect it: where the product of the lengths wraps to 0, the function reads
outside of two empty slices.  What protects it is that the constructors allocate a table that grows with the length, so that an
object for such a length cannot be made. -/
theorem C52_assertion_is_not_enough (m : Machine.Mode) (hm : m.checked = false) :
    Machine.transposeHalfRevOut m ([] : List T) [] 4 (4 * m.cap) = .error .ub := by
  have hcap := Machine.le_cap m
  have e : m.mul 4 (4 * m.cap) = .ok 0 := by
    rw [Machine.Mode.mul, Machine.size_eq, if_neg (by omega), Machine.Mode.overflow, hm, if_neg (by simp),
      show 4 * (4 * m.cap) = 16 * m.cap by ring, Nat.mod_self]
  have r1 : List.range' 0 (4 * m.cap - 0) = 0 :: List.range' 1 (4 * m.cap - 1) := by
    rw [show 4 * m.cap - 0 = (4 * m.cap - 1) + 1 by omega, List.range'_succ]
  unfold Machine.transposeHalfRevOut
  rw [assert_of (by simp), ok_bind, e, ok_bind, assert_of (by simp), ok_bind, Machine.add_eq _ (by omega), ok_bind, forRange, r1, List.foldlM_cons,
    Machine.sub_eq _ (by omega), ok_bind, Machine.sub_eq _ (by omega), ok_bind]
  have r2 : List.range' 0 (4 / 2 + 1 - 0) = [0, 1, 2] := rfl
  rw [forRange, r2, List.foldlM_cons, Machine.Mode.mulAdd, Machine.mul_eq _ (by omega), ok_bind, Machine.add_eq _ (by omega), ok_bind]
  rfl

end RustDHT
