import Verif.Proofs.Boilerplate
import Verif.Proofs.Butterfly16
import Verif.Model.Naive

/-! # Leaf algorithms: `DhtNaive` and the butterflies, for every number type -/

set_option linter.unusedSectionVars false

namespace RustDHT

variable {T : Type}

/-! ## Tables built by a loop -/

/-- A loop that stores `v k` at index `k`, for all `k`, computes a table. -/
theorem forRange_setI_tab [Zero T] {n : Nat} {g : Nat → List T → Res (List T)} {v : Nat → T}
    (hg : ∀ k out, k < n → out.length = n → g k out = .ok (out.set k (v k))) (out : List T) (hout : out.length = n) :
    forRange 0 n out g = .ok (tab n v) := by
  obtain ⟨l, e, hl, hv⟩ := forRange_ok (s := out) (body := g)
    (fun i l => l.length = n ∧ ∀ j < i, nth l j = v j) (Nat.zero_le n) ⟨hout, by simp⟩
    (fun i l _ hi hl => by
      refine ⟨_, hg i l hi hl.1, by simpa using hl.1, ?_⟩
      intro j hj
      rw [nth_set (by omega)]
      split
      · next h => rw [h]
      · exact hl.2 j (by omega))
  rw [e, eq_tab hl hv]

/-! ## DhtNaive -/

section Naive
variable [Add T] [Mul T] [Zero T] [FftNum T]

/-- What the inner loop of `DhtNaive` computes: a left-to-right sum of products with table entries `i*k mod n`. -/
def naiveVal (tw x : List T) (k : Nat) : T :=
  (List.range x.length).foldl (fun acc i => acc + nth tw (i * k % tw.length) * nth x i) 0

/-- The chunk transform of `DhtNaive`. -/
def naiveFn (T : Type) [Add T] [Mul T] [Zero T] [FftNum T] (n : Nat) (x : List T) : List T :=
  tab n (naiveVal (naiveTwiddles T n) x)

theorem length_naiveTwiddles (n : Nat) : (naiveTwiddles T n).length = n := by simp [naiveTwiddles]

theorem naiveInner_ok {tw x : List T} {k : Nat} (hk : k < tw.length) :
    naiveInner tw x k = .ok (naiveVal tw x k) := by
  obtain ⟨s', e, h1, _⟩ := forList_ok (xs := x) (s := ((0 : T), 0))
    (body := fun inputCell (outputValue, twiddleIndex) => do
      let twiddle ← getI tw twiddleIndex
      let outputValue := outputValue + twiddle * inputCell
      let twiddleIndex := twiddleIndex + k
      let twiddleIndex := if twiddleIndex ≥ tw.length then twiddleIndex - tw.length else twiddleIndex
      Except.ok (outputValue, twiddleIndex))
    (fun i s => s.1 = (List.range i).foldl (fun acc i => acc + nth tw (i * k % tw.length) * nth x i) 0 ∧
      s.2 = i * k % tw.length) ⟨rfl, by simp⟩
    (by
      rintro i hi ⟨acc, idx⟩ ⟨h1, h2⟩
      simp only at h1 h2
      have hidx : idx < tw.length := by rw [h2]; exact Nat.mod_lt _ (by omega)
      refine ⟨_, by simp only [getI_nth hidx, ok_bind]; rfl, ?_, ?_⟩
      · simp only [List.range_succ, List.foldl_append, List.foldl_cons, List.foldl_nil]
        rw [← h1, ← h2, nth_eq_getElem hi]
      · simp only
        rw [Nat.add_mul, Nat.one_mul]
        split
        · next h =>
          have h4 : (i * k + k) % tw.length = (idx + k) % tw.length := by
            rw [h2, Nat.mod_add_mod]
          rw [h4, Nat.mod_eq_sub_mod h, Nat.mod_eq_of_lt (by omega)]
        · next h =>
          have h4 : (i * k + k) % tw.length = (idx + k) % tw.length := by
            rw [h2, Nat.mod_add_mod]
          rw [h4, Nat.mod_eq_of_lt (by omega)])
  unfold naiveInner
  rw [e, ok_bind]
  simp only [naiveVal]
  rw [h1]

theorem naive_performs (n : Nat) :
    PerformsOop (naiveTwiddles T n).length (naiveFn T n) (naivePerform (naiveTwiddles T n)) := by
  refine ⟨fun x _ => by simp [naiveFn, length_naiveTwiddles], ?_⟩
  intro inp out hi ho
  rw [length_naiveTwiddles] at hi ho
  unfold naivePerform naiveFn
  rw [ho]
  refine forRange_setI_tab (fun k out hk hout => ?_) out ho
  rw [naiveInner_ok (by rw [length_naiveTwiddles]; exact hk), ok_bind, setI_ok (by omega)]

theorem dhtNaive_implements (n : Nat) : Implements (dhtNaive T n) (naiveFn T n) := by
  refine boilerplateDhtOop_implements (fun _ => naive_performs n) ?_
  intro h; rw [length_naiveTwiddles] at h; simp [naiveFn, h]

theorem dhtNaive_len (n : Nat) : (dhtNaive T n).len = n := length_naiveTwiddles n

theorem dhtNaive_rejects {n : Nat} (hn : 0 < n) : Rejects (dhtNaive T n) :=
  boilerplateDhtOop_rejects (by rw [length_naiveTwiddles]; exact hn) (naive_performs n)

end Naive

/-! ## Butterflies -/

section Butterflies

theorem butterfly1_implements : Implements (butterfly1 T) id := by
  have key : ∀ l : List T, mapChunks 1 id l = l := by
    intro l
    induction l using chunk_induction (n := 1) (by omega) with
    | hlt l h => rw [mapChunks_of_lt h]
    | hge l h ih => rw [mapChunks_of_ge (by omega) h, ih, id, List.take_append_drop]
  refine ⟨fun x hx => hx, ?_, ?_⟩
  · intro b s _ _ _
    exact ⟨s, by simp [butterfly1, key], rfl, rfl⟩
  · intro i o s hio _ _ _
    exact ⟨i, s, by simp [butterfly1, key, hio], rfl, rfl, rfl⟩

variable [Add T] [Sub T] [Mul T] [Neg T] [FftNum T]

/-- A list of known length, spelled out. -/
theorem list2 {l : List T} (h : l.length = 2) : ∃ a b, l = [a, b] := by
  match l, h with | [a, b], _ => exact ⟨a, b, rfl⟩
theorem list3 {l : List T} (h : l.length = 3) : ∃ a b c, l = [a, b, c] := by
  match l, h with | [a, b, c], _ => exact ⟨a, b, c, rfl⟩
theorem list4 {l : List T} (h : l.length = 4) : ∃ a b c d, l = [a, b, c, d] := by
  match l, h with | [a, b, c, d], _ => exact ⟨a, b, c, d, rfl⟩
theorem list5 {l : List T} (h : l.length = 5) : ∃ a b c d e, l = [a, b, c, d, e] := by
  match l, h with | [a, b, c, d, e], _ => exact ⟨a, b, c, d, e, rfl⟩
theorem list6 {l : List T} (h : l.length = 6) : ∃ a b c d e f, l = [a, b, c, d, e, f] := by
  match l, h with | [a, b, c, d, e, f], _ => exact ⟨a, b, c, d, e, f, rfl⟩
theorem list8 {l : List T} (h : l.length = 8) : ∃ a b c d e f g i, l = [a, b, c, d, e, f, g, i] := by
  match l, h with | [a, b, c, d, e, f, g, i], _ => exact ⟨a, b, c, d, e, f, g, i, rfl⟩
theorem list9 {l : List T} (h : l.length = 9) : ∃ a b c d e f g i j, l = [a, b, c, d, e, f, g, i, j] := by
  match l, h with | [a, b, c, d, e, f, g, i, j], _ => exact ⟨a, b, c, d, e, f, g, i, j, rfl⟩
theorem list16 {l : List T} (h : l.length = 16) :
    ∃ a0 a1 a2 a3 a4 a5 a6 a7 b0 b1 b2 b3 b4 b5 b6 b7,
      l = [a0, a1, a2, a3, a4, a5, a6, a7, b0, b1, b2, b3, b4, b5, b6, b7] := by
  match l, h with
  | [a0, a1, a2, a3, a4, a5, a6, a7, b0, b1, b2, b3, b4, b5, b6, b7], _ =>
    exact ⟨a0, a1, a2, a3, a4, a5, a6, a7, b0, b1, b2, b3, b4, b5, b6, b7, rfl⟩

/-- The chunk transform of a butterfly. -/
def bflyFn (contiguous : RawIO T → Res (RawIO T)) : List T → List T := run (performInPlace contiguous)

theorem performs2 : PerformsBfly 2 (bflyFn contiguous2) (contiguous2 : RawIO T → _) := by
  refine ⟨?_, ?_, ?_⟩
  · intro x hx; obtain ⟨a, b, rfl⟩ := list2 hx; rfl
  · intro x hx; obtain ⟨a, b, rfl⟩ := list2 hx; rfl
  · intro x y hx hy; obtain ⟨a, b, rfl⟩ := list2 hx; obtain ⟨c, d, rfl⟩ := list2 hy; rfl

theorem performs3 : PerformsBfly 3 (bflyFn contiguous3) (contiguous3 : RawIO T → _) := by
  refine ⟨?_, ?_, ?_⟩
  · intro x hx; obtain ⟨a, b, c, rfl⟩ := list3 hx; rfl
  · intro x hx; obtain ⟨a, b, c, rfl⟩ := list3 hx; rfl
  · intro x y hx hy; obtain ⟨a, b, c, rfl⟩ := list3 hx; obtain ⟨_, _, _, rfl⟩ := list3 hy; rfl

theorem performs4 : PerformsBfly 4 (bflyFn contiguous4) (contiguous4 : RawIO T → _) := by
  refine ⟨?_, ?_, ?_⟩
  · intro x hx; obtain ⟨a, b, c, d, rfl⟩ := list4 hx; rfl
  · intro x hx; obtain ⟨a, b, c, d, rfl⟩ := list4 hx; rfl
  · intro x y hx hy; obtain ⟨a, b, c, d, rfl⟩ := list4 hx; obtain ⟨_, _, _, _, rfl⟩ := list4 hy; rfl

theorem performs5 : PerformsBfly 5 (bflyFn contiguous5) (contiguous5 : RawIO T → _) := by
  refine ⟨?_, ?_, ?_⟩
  · intro x hx; obtain ⟨a, b, c, d, e, rfl⟩ := list5 hx; rfl
  · intro x hx; obtain ⟨a, b, c, d, e, rfl⟩ := list5 hx; rfl
  · intro x y hx hy; obtain ⟨a, b, c, d, e, rfl⟩ := list5 hx; obtain ⟨_, _, _, _, _, rfl⟩ := list5 hy; rfl

theorem performs6 : PerformsBfly 6 (bflyFn contiguous6) (contiguous6 : RawIO T → _) := by
  refine ⟨?_, ?_, ?_⟩
  · intro x hx; obtain ⟨a, b, c, d, e, f, rfl⟩ := list6 hx; rfl
  · intro x hx; obtain ⟨a, b, c, d, e, f, rfl⟩ := list6 hx; rfl
  · intro x y hx hy; obtain ⟨a, b, c, d, e, f, rfl⟩ := list6 hx; obtain ⟨_, _, _, _, _, _, rfl⟩ := list6 hy; rfl

theorem performs8 : PerformsBfly 8 (bflyFn contiguous8) (contiguous8 : RawIO T → _) := by
  refine ⟨?_, ?_, ?_⟩
  · intro x hx; obtain ⟨a, b, c, d, e, f, g, i, rfl⟩ := list8 hx; rfl
  · intro x hx; obtain ⟨a, b, c, d, e, f, g, i, rfl⟩ := list8 hx; rfl
  · intro x y hx hy
    obtain ⟨a, b, c, d, e, f, g, i, rfl⟩ := list8 hx; obtain ⟨_, _, _, _, _, _, _, _, rfl⟩ := list8 hy; rfl

theorem performs9 : PerformsBfly 9 (bflyFn contiguous9) (contiguous9 : RawIO T → _) := by
  refine ⟨?_, ?_, ?_⟩
  · intro x hx; obtain ⟨a, b, c, d, e, f, g, i, j, rfl⟩ := list9 hx; rfl
  · intro x hx; obtain ⟨a, b, c, d, e, f, g, i, j, rfl⟩ := list9 hx; rfl
  · intro x y hx hy
    obtain ⟨a, b, c, d, e, f, g, i, j, rfl⟩ := list9 hx; obtain ⟨_, _, _, _, _, _, _, _, _, rfl⟩ := list9 hy; rfl

theorem performs16 : PerformsBfly 16 (bflyFn contiguous16) (contiguous16 : RawIO T → _) := by
  have key : ∀ a0 a1 a2 a3 a4 a5 a6 a7 b0 b1 b2 b3 b4 b5 b6 b7 : T,
      performInPlace contiguous16 [a0, a1, a2, a3, a4, a5, a6, a7, b0, b1, b2, b3, b4, b5, b6, b7]
        = .ok (b16List a0 a1 a2 a3 a4 a5 a6 a7 b0 b1 b2 b3 b4 b5 b6 b7) := by
    intros
    rw [performInPlace, b16_eval (h := if_pos rfl), ok_bind]
  refine ⟨?_, ?_, ?_⟩
  · intro x hx
    obtain ⟨a0, a1, a2, a3, a4, a5, a6, a7, b0, b1, b2, b3, b4, b5, b6, b7, rfl⟩ := list16 hx
    rw [bflyFn, run_eq (key ..)]; rfl
  · intro x hx
    obtain ⟨a0, a1, a2, a3, a4, a5, a6, a7, b0, b1, b2, b3, b4, b5, b6, b7, rfl⟩ := list16 hx
    rw [bflyFn, run_eq (key ..), key]
  · intro x y hx hy
    obtain ⟨a0, a1, a2, a3, a4, a5, a6, a7, b0, b1, b2, b3, b4, b5, b6, b7, rfl⟩ := list16 hx
    obtain ⟨_, _, _, _, _, _, _, _, _, _, _, _, _, _, _, _, rfl⟩ := list16 hy
    rw [bflyFn, run_eq (key ..), b16_eval (h := if_neg (by simp))]

theorem butterfly2_implements : Implements (butterfly2 T) (bflyFn contiguous2) :=
  boilerplateFftButterfly_implements (by omega) performs2
theorem butterfly3_implements : Implements (butterfly3 T) (bflyFn contiguous3) :=
  boilerplateFftButterfly_implements (by omega) performs3
theorem butterfly4_implements : Implements (butterfly4 T) (bflyFn contiguous4) :=
  boilerplateFftButterfly_implements (by omega) performs4
theorem butterfly5_implements : Implements (butterfly5 T) (bflyFn contiguous5) :=
  boilerplateFftButterfly_implements (by omega) performs5
theorem butterfly6_implements : Implements (butterfly6 T) (bflyFn contiguous6) :=
  boilerplateFftButterfly_implements (by omega) performs6
theorem butterfly8_implements : Implements (butterfly8 T) (bflyFn contiguous8) :=
  boilerplateFftButterfly_implements (by omega) performs8
theorem butterfly9_implements : Implements (butterfly9 T) (bflyFn contiguous9) :=
  boilerplateFftButterfly_implements (by omega) performs9
theorem butterfly16_implements : Implements (butterfly16 T) (bflyFn contiguous16) :=
  boilerplateFftButterfly_implements (by omega) performs16

end Butterflies

end RustDHT
