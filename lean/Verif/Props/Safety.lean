import Verif.Proofs.Safety

/-! # C22, C23: no call has undefined behaviour, and every call terminates

A `Tree` is any nesting of the crate's constructors around any number of objects implemented by the caller.  The only
assumption about these objects is `SafeDht`: safe Rust code, whatever it computes, has no undefined behaviour and does not
change the length of a slice. -/

namespace RustDHT

variable {T : Type} [Add T] [Sub T] [Mul T] [Neg T] [Zero T] [FftNum T]

/-- An object of the caller that returns garbage, and panics or runs for ever for some inputs. -/
def wildDht (T : Type) [Zero T] (n scratchLen : ℕ) : Dht T where
  len := n
  inplaceScratchLen := scratchLen
  oopScratchLen := 2 * scratchLen
  processWithScratch := fun b s => if b.length = 7 then panic .assertFailed
    else if b.length = 5 then .error .diverge else .ok (List.replicate b.length 0, s.reverse)
  processOop := fun i o s => if i.length = 9 then panic .index else .ok (i, o.reverse, s)

theorem wildDht_safe (n scratchLen : ℕ) : SafeDht True (wildDht T n scratchLen) := by
  refine SafeDht.mk' (fun b s => ?_) (fun i o s => ?_)
  · simp only [wildDht]
    split
    · exact Post.panic _
    · split
      · trivial
      · exact ⟨by simp, by simp⟩
  · simp only [wildDht]
    split
    · exact Post.panic _
    · exact ⟨rfl, by simp, rfl⟩

/-! ## C22 -/

/-- Neither a constructor nor a method performs an unchecked access out of bounds. -/
theorem C22_no_undefined_behaviour (t : Tree T) (hu : ∀ d ∈ t.users, SafeDht True d) :
    t.build ≠ .error .ub ∧ ∀ d, t.build = .ok d →
      (∀ buffer, d.process buffer ≠ .error .ub) ∧
      (∀ buffer scratch, d.processWithScratch buffer scratch ≠ .error .ub) ∧
      (∀ input output scratch, d.processOop input output scratch ≠ .error .ub) := by
  have h := tree_safe (D := True) t hu
  refine ⟨h.not_ub, fun d e => ?_⟩
  have hd : SafeDht True d := h.of_ok e
  exact ⟨fun b => (hd.process b).not_ub, fun b s => (hd.postInplace b s).not_ub, fun i o s => (hd.postOop i o s).not_ub⟩

/-- The result of a nesting is again safe to use as an inner object: slices keep their lengths. -/
theorem C22_slices_keep_length (t : Tree T) (hu : ∀ d ∈ t.users, SafeDht True d) (d : Dht T) (h : t.build = .ok d) :
    SafeDht True d :=
  (tree_safe t hu).of_ok h

example : ∀ d, (Tree.mixedRadix (.user (wildDht T 3 11)) (.mr6 (.splitRadix (.user (wildDht T 2 0))
    (.user (wildDht T 4 100))))).build = .ok d → ∀ buffer, d.process buffer ≠ .error .ub := by
  intro d e
  exact ((C22_no_undefined_behaviour _ (by simp [Tree.users, wildDht_safe])).2 d e).1

/-- What is excluded: an unchecked read or write, through a slice or through the raw pointers of the butterflies, is undefined
behaviour exactly if it is out of bounds, and otherwise it does what the checked one does. -/
theorem C22_unchecked (α : Type) (l : List α) (i : ℕ) (v : α) :
    (getU l i = .error .ub ↔ l.length ≤ i) ∧ (∀ h : i < l.length, getU l i = .ok l[i]) ∧
    (setU l i v = .error .ub ↔ l.length ≤ i) ∧ (i < l.length → setU l i v = .ok (l.set i v)) := by
  refine ⟨?_, fun h => by simp [getU, h], ?_, fun h => by simp [setU, h]⟩
  · rcases Nat.lt_or_ge i l.length with h | h
    · simp [getU, h]
    · simp [getU, h]
  · rcases Nat.lt_or_ge i l.length with h | h
    · simp [setU, h]
    · simp [setU, h, Nat.not_lt.2 h]

/-- The same for the raw pointers of the butterflies. -/
theorem C22_unchecked_raw (m : RawIO T) (i : ℕ) (v : T) :
    (m.load i = .error .ub ↔ (if m.aliased then m.out else m.inp).length ≤ i) ∧ (m.store v i = .error .ub ↔ m.out.length ≤ i) := by
  refine ⟨(C22_unchecked T _ i v).1, ?_⟩
  have h := C22_unchecked T m.out i v
  rcases Nat.lt_or_ge i m.out.length with h1 | h1
  · simp [RawIO.store, h.2.2.2 h1, ok_bind, Nat.not_le.2 h1]
  · simp only [RawIO.store, h.2.2.1.2 h1, h1, iff_true]; rfl

example : getU [1, 2, 3] 3 = .error .ub ∧ getU [1, 2, 3] 2 = .ok 3 ∧ setU [1, 2, 3] 3 0 = .error .ub := by decide

/-! ## C23 -/

/-- If the objects of the caller terminate, so do all constructors and methods. -/
theorem C23_terminates (t : Tree T) (hu : ∀ d ∈ t.users, SafeDht False d) :
    t.build ≠ .error .diverge ∧ ∀ d, t.build = .ok d →
      (∀ buffer, d.process buffer ≠ .error .diverge) ∧
      (∀ buffer scratch, d.processWithScratch buffer scratch ≠ .error .diverge) ∧
      (∀ input output scratch, d.processOop input output scratch ≠ .error .diverge) := by
  have h := tree_safe (D := False) t hu
  refine ⟨h.not_diverge, fun d e => ?_⟩
  have hd : SafeDht False d := h.of_ok e
  exact ⟨fun b => (hd.process b).not_diverge, fun b s => (hd.postInplace b s).not_diverge,
    fun i o s => (hd.postOop i o s).not_diverge⟩

/-- The loop of `iter_chunks` does spin for ever on chunk size 0, so that the statement excludes something. -/
example (f : List T → Unit → Res (List T × Unit)) : iterChunks 0 f [] () = .error .diverge := by
  rw [iterChunks]; simp

/-- A length-0 inner object. -/
example : ∀ d, (Tree.mixedRadix (.plan (.naive 0)) (.plan (.raders .b16))).build (T := T) = .ok d →
    ∀ buffer, d.process buffer ≠ .error .diverge :=
  fun d e => ((C23_terminates _ (by simp [Tree.users])).2 d e).1

end RustDHT
