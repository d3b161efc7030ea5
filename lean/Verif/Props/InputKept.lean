import Verif.Props.Contract
import Verif.Model.Patched
import Verif.Spec.Dht

/-! # C36: who leaves the input of an out-of-place call alone

`C36_input_preserved` (`Props/Contract.lean`) is about `DhtNaive` and the butterflies. -/

set_option linter.unusedSectionVars false

namespace RustDHT

variable {T : Type} [Add T] [Sub T] [Mul T] [Neg T] [Zero T] [FftNum T]

theorem iterChunksZippedLoop_keeps {σ : Type} {n : ℕ} {f : List T → List T → σ → Res (List T × List T × σ)}
    (hf : ∀ i o s i' o' s', f i o s = .ok (i', o', s') → i' = i) :
    ∀ (k : ℕ) (b1 b2 : List T) (s s' : σ) (b1' b2' : List T) (left : ℕ), b1.length ≤ k →
      iterChunksZippedLoop n f b1 b2 s = .ok (left, b1', b2', s') → b1' = b1 := by
  intro k
  induction k with
  | zero =>
    intro b1 b2 s s' b1' b2' left hk e
    rw [iterChunksZippedLoop] at e
    split at e
    · split at e
      · cases e
      · omega
    · cases e; rfl
  | succ k ih =>
    intro b1 b2 s s' b1' b2' left hk e
    rw [iterChunksZippedLoop] at e
    split at e
    · split at e
      · cases e
      · obtain ⟨⟨h1, h2, s1⟩, e1, e⟩ := bind_eq_ok e
        obtain ⟨⟨q, t1, t2, s2⟩, e2, e⟩ := bind_eq_ok e
        cases e
        rw [hf _ _ _ _ _ _ e1, ih _ _ _ _ _ _ _ (by simp; omega) e2, List.take_append_drop]
    · cases e; rfl

theorem boilerplateDht_keeps {n a b : ℕ} {pin : List T → List T → Res (List T × List T)}
    {poop : List T → List T → List T → Res (List T × List T × List T)}
    (hf : ∀ i o s i' o' s', poop i o s = .ok (i', o', s') → i' = i) {i o s i' o' s' : List T}
    (e : (boilerplateDht n a b pin poop).processOop i o s = .ok (i', o', s')) : i' = i := by
  simp only [boilerplateDht] at e
  split at e
  · cases e; rfl
  split at e
  · obtain ⟨_, _, e⟩ := bind_eq_ok e
    cases e; rfl
  · rename_i h0 hc
    obtain ⟨⟨ok, x1, x2, x3⟩, e1, e⟩ := bind_eq_ok e
    have key : x1 = i := by
      rw [iterChunksZipped, if_neg (by omega), if_neg (by omega)] at e1
      obtain ⟨⟨left, y1, y2, y3⟩, e2, e1⟩ := bind_eq_ok e1
      cases e1
      exact iterChunksZippedLoop_keeps hf _ _ _ _ _ _ _ _ le_rfl e2
    cases ok
    · obtain ⟨_, _, e⟩ := bind_eq_ok e
      cases e; exact key
    · cases e; exact key

/-- `Radix4`, of any length, as it stands and with the order of its blocks repaired, only reads the input. -/
theorem C36_radix4_input_preserved (n : ℕ) (d : Dht T) (h : radix4 T n = .ok d ∨ radix4Repaired T n = .ok d)
    (input output scratch input' output' scratch' : List T)
    (e : d.processOop input output scratch = .ok (input', output', scratch')) : input' = input := by
  rcases h with h | h
  · obtain ⟨_, _, h⟩ := bind_eq_ok h
    cases h
    refine boilerplateDht_keeps ?_ e
    intro i o s i' o' s' e
    obtain ⟨_, _, e⟩ := bind_eq_ok e
    obtain ⟨_, _, e⟩ := bind_eq_ok e
    obtain ⟨_, _, e⟩ := bind_eq_ok e
    cases e; rfl
  · obtain ⟨_, _, h⟩ := bind_eq_ok h
    cases h
    refine boilerplateDht_keeps ?_ e
    intro i o s i' o' s' e
    obtain ⟨_, _, e⟩ := bind_eq_ok e
    obtain ⟨_, _, e⟩ := bind_eq_ok e
    obtain ⟨_, _, e⟩ := bind_eq_ok e
    cases e; rfl

/-- `MixedRadix2xn` to `MixedRadix6xn` hand their input to the inner object as scratch.  So they leave it alone if the inner
object, which may come from outside the crate, leaves its scratch alone. -/
theorem C36_mixedRadixNxn_input_preserved (hd : Dht T)
    (hs : ∀ b s b' s', hd.processWithScratch b s = .ok (b', s') → s' = s) (d : Dht T)
    (h : d = mixedRadix2xn hd ∨ d = mixedRadix3xn hd ∨ d = mixedRadix4xn hd ∨ d = mixedRadix5xn hd ∨ d = mixedRadix6xn hd)
    (input output scratch input' output' scratch' : List T)
    (e : d.processOop input output scratch = .ok (input', output', scratch')) : input' = input := by
  have key : ∀ (k : ℕ) (ap : List T → Res (List T)), (mixedRadixN k hd ap).processOop input output scratch
      = .ok (input', output', scratch') → input' = input := by
    intro k ap e
    refine boilerplateDht_keeps ?_ e
    intro i o s i' o' s' e
    obtain ⟨o1, _, e⟩ := bind_eq_ok e
    obtain ⟨⟨o2, i2⟩, e2, e⟩ := bind_eq_ok e
    obtain ⟨_, _, e⟩ := bind_eq_ok e
    cases e
    exact hs _ _ _ _ e2
  rcases h with rfl | rfl | rfl | rfl | rfl <;> exact key _ _ e

/-- One of the butterflies. -/
def Plan.IsButterfly : Plan → Prop
  | .b1 | .b2 | .b3 | .b4 | .b5 | .b6 | .b8 | .b9 | .b16 => True
  | _ => False

/-- `DhtNaive`, a butterfly, `Radix4`, or one of `MixedRadix2xn` to `MixedRadix6xn` around a butterfly. -/
def Plan.KeepsInput : Plan → Prop
  | .radix4 _ => True
  | .mr2 h | .mr3 h | .mr4 h | .mr5 h | .mr6 h => h.IsButterfly
  | p => p.IsLeaf

theorem Plan.IsButterfly.keeps {p : Plan} (hp : p.IsButterfly) {d : Dht T} (h : p.build T = .ok d) (b s b' s' : List T)
    (e : d.processWithScratch b s = .ok (b', s')) : s' = s := by
  have := ((C19_surplus_scratch p d h).1 _ _ _ _ e).2.2
  have h0 : d.inplaceScratchLen = 0 := by
    cases p <;> simp only [IsButterfly] at hp <;> cases h <;> rfl
  simpa [h0] using this

/-- The compositions named above leave the input of every out-of-place call as it was. -/
theorem C36_compositions_input_preserved (p : Plan) (hp : p.KeepsInput) (d : Dht T) (h : p.build T = .ok d)
    (input output scratch input' output' scratch' : List T)
    (e : d.processOop input output scratch = .ok (input', output', scratch')) : input' = input := by
  cases p with
  | radix4 n => exact C36_radix4_input_preserved n d (.inl h) _ _ _ _ _ _ e
  | mr2 i =>
    obtain ⟨hd, e1, h⟩ := bind_eq_ok h
    cases h
    exact C36_mixedRadixNxn_input_preserved hd (Plan.IsButterfly.keeps (p := i) hp e1) _ (.inl rfl) _ _ _ _ _ _ e
  | mr3 i =>
    obtain ⟨hd, e1, h⟩ := bind_eq_ok h
    cases h
    exact C36_mixedRadixNxn_input_preserved hd (Plan.IsButterfly.keeps (p := i) hp e1) _ (.inr (.inl rfl)) _ _ _ _ _ _ e
  | mr4 i =>
    obtain ⟨hd, e1, h⟩ := bind_eq_ok h
    cases h
    exact C36_mixedRadixNxn_input_preserved hd (Plan.IsButterfly.keeps (p := i) hp e1) _ (.inr (.inr (.inl rfl))) _ _ _ _ _ _ e
  | mr5 i =>
    obtain ⟨hd, e1, h⟩ := bind_eq_ok h
    cases h
    exact C36_mixedRadixNxn_input_preserved hd (Plan.IsButterfly.keeps (p := i) hp e1) _ (.inr (.inr (.inr (.inl rfl))))
      _ _ _ _ _ _ e
  | mr6 i =>
    obtain ⟨hd, e1, h⟩ := bind_eq_ok h
    cases h
    exact C36_mixedRadixNxn_input_preserved hd (Plan.IsButterfly.keeps (p := i) hp e1) _ (.inr (.inr (.inr (.inr rfl))))
      _ _ _ _ _ _ e
  | mixedRadix w i => exact hp.elim
  | splitRadix q i => exact hp.elim
  | raders i => exact hp.elim
  | _ => exact (C36_input_preserved _ (by exact hp) d h _ _ _ _ _ _ e).1

example : (Plan.mr5 .b16).KeepsInput ∧ (Plan.radix4 1024).KeepsInput := ⟨trivial, trivial⟩

/-- `MixedRadix5xn` around `Butterfly16`, two chunks of length 80: the call succeeds, and the input is as before. -/
example (x o : List T) (hx : x.length = 160) (ho : o.length = 160) : ∃ d, (Plan.mr5 .b16).build T = .ok d ∧
    ∃ o' s', d.processOop x o [] = .ok (x, o', s') := by
  refine ⟨_, rfl, ?_⟩
  obtain ⟨f, hi⟩ := (plan_ok (T := T) (.mr5 .b16) _ rfl).implements
  have hl := plan_len (T := T) (.mr5 .b16) _ rfl
  obtain ⟨i', s', e, -⟩ := hi.oop x o [] (by rw [hx, ho]) (by rw [hl, hx]; decide) (by rw [hl, hx]; decide) (Nat.zero_le _)
  have := C36_compositions_input_preserved (.mr5 .b16) trivial _ rfl _ _ _ _ _ _ e
  subst this
  exact ⟨_, s', e⟩

theorem boilerplateDht_single {n a : ℕ} (hn : 0 < n) {pin : List T → List T → Res (List T × List T)}
    {poop : List T → List T → List T → Res (List T × List T × List T)} {i o i' o' s' : List T} (hi : i.length = n)
    (ho : o.length = n) (e : poop i o [] = .ok (i', o', s')) :
    (boilerplateDht n a 0 pin poop).processOop i o [] = .ok (i', o', s') := by
  have e1 : iterChunksZippedLoop n poop i o [] = .ok (0, i', o', s') := by
    have e0 : iterChunksZippedLoop n poop [] [] s' = .ok (0, [], [], s') := by
      rw [iterChunksZippedLoop, if_neg (by simp; omega)]; rfl
    rw [iterChunksZippedLoop, if_pos (by omega), if_neg (by omega), List.take_of_length_le (by omega),
      List.take_of_length_le (by omega), e, ok_bind]
    simp only [List.drop_of_length_le hi.le, List.drop_of_length_le ho.le, e0, ok_bind, List.append_nil]
  have e2 : iterChunksZipped n poop i o [] = .ok (true, i', o', s') := by
    rw [iterChunksZipped, if_neg (by omega), if_neg (by omega), e1]; rfl
  simp only [boilerplateDht]
  rw [if_neg (by omega), if_neg (by simp; omega)]
  simp only [List.take_nil, e2, ok_bind]
  simp

/-- `SplitRadix` does not: it leaves the transforms of its parts in the input. -/
theorem C36_splitRadix_overwrites : ∃ d : Dht ℝ, (Plan.splitRadix .b1 .b2).build ℝ = .ok d ∧
    ∃ output, d.processOop [1, 0, 0, 0] [0, 0, 0, 0] [] = .ok ([1, 1, 1, 1], output, []) := by
  refine ⟨_, rfl, [1, 1, 1, 1], ?_⟩
  refine boilerplateDht_single (by decide) rfl rfl ?_
  obtain ⟨s', e, -, e'⟩ := (butterfly2_implements (T := ℝ)).inplace [1, 0] [0, 0, 0, 0] (by decide) (by decide) (by decide)
  have e' : s' = [0, 0, 0, 0] := e'
  have e2 : mapChunks 2 (bflyFn contiguous2) [(1 : ℝ), 0] = [1, 1] := by
    rw [mapChunks_single (show 0 < 2 by decide) rfl]
    show [(1 : ℝ) + 0, 1 - 0] = [1, 1]
    norm_num
  rw [show (butterfly2 ℝ).len = 2 from rfl, e2, e'] at e
  have h1 : srApplyTwiddles (T := ℝ) 4 (srTwiddles ℝ 4) [1, 0, 0, 0] = .ok [1, 0, 1, 1] := by
    simp [srApplyTwiddles, srColumn0, splitAt, getI, setI, forRange, ok_bind]
  show srPerformOop _ _ 4 (srTwiddles ℝ 4) _ _ _ = _
  rw [srPerformOop, h1, ok_bind]
  simp [splitAt, e, butterfly1, ok_bind, forRange, getU, setU]

end RustDHT
