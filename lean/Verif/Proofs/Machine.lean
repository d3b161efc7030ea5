import Verif.Model.Machine.Raders
import Verif.Proofs.Basic

/-! # No overflow: the functions with machine integers agree with those on natural numbers -/

namespace RustDHT

variable {α β σ : Type}

theorem bind_congr_ok {x : Res α} {f g : α → Res β} (h : ∀ a, x = .ok a → f a = g a) : (x >>= f) = (x >>= g) := by
  cases x with
  | error e => rfl
  | ok a => exact h a rfl

theorem forList_congr {xs : List α} {s : σ} {f g : α → σ → Res σ} (h : ∀ x ∈ xs, ∀ s, f x s = g x s) :
    forList xs s f = forList xs s g := by
  induction xs generalizing s with
  | nil => rfl
  | cons x xs ih =>
    rw [forList_cons, forList_cons, h x List.mem_cons_self]
    exact bind_congr_ok fun a _ => ih fun y hy => h y (List.mem_cons_of_mem _ hy)

/-- As `forList_congr`, for states that satisfy an invariant. -/
theorem forList_congr_inv {xs : List α} {s : σ} {f g : α → σ → Res σ} (P : σ → Prop) (h0 : P s)
    (h : ∀ x ∈ xs, ∀ s, P s → f x s = g x s) (hP : ∀ x ∈ xs, ∀ s s', P s → g x s = .ok s' → P s') :
    forList xs s f = forList xs s g := by
  induction xs generalizing s with
  | nil => rfl
  | cons x xs ih =>
    rw [forList_cons, forList_cons, h x List.mem_cons_self s h0]
    exact bind_congr_ok fun a ha => ih (hP x List.mem_cons_self s a h0 ha) (fun y hy => h y (List.mem_cons_of_mem _ hy))
      (fun y hy => hP y (List.mem_cons_of_mem _ hy))

theorem forRange_congr {lo hi : Nat} {s : σ} {f g : Nat → σ → Res σ} (h : ∀ i, lo ≤ i → i < hi → ∀ s, f i s = g i s) :
    forRange lo hi s f = forRange lo hi s g := by
  rw [forRange_eq, forRange_eq]
  refine forList_congr fun i hi => ?_
  rw [List.mem_range'_1] at hi
  exact h i hi.1 (by omega)

theorem forRange_congr_inv {lo hi : Nat} {s : σ} {f g : Nat → σ → Res σ} (P : σ → Prop) (h0 : P s)
    (h : ∀ i, lo ≤ i → i < hi → ∀ s, P s → f i s = g i s) (hP : ∀ i, ∀ s s', P s → g i s = .ok s' → P s') :
    forRange lo hi s f = forRange lo hi s g := by
  rw [forRange_eq, forRange_eq]
  refine forList_congr_inv P h0 (fun i hi => ?_) (fun i _ => hP i)
  rw [List.mem_range'_1] at hi
  exact h i hi.1 (by omega)

theorem mapM_ok_map {xs : List α} {f : α → Res β} {g : α → β} (h : ∀ x ∈ xs, f x = .ok (g x)) :
    xs.mapM f = .ok (xs.map g) := by
  induction xs with
  | nil => rfl
  | cons x xs ih =>
    rw [List.mapM_cons, h x List.mem_cons_self, ih fun y hy => h y (List.mem_cons_of_mem _ hy)]
    rfl

namespace Machine

variable (m : Mode)

theorem size_eq : 2 ^ m.bits = 16 * m.cap := by
  obtain ⟨c, s⟩ := m
  cases s <;> norm_num [Mode.cap, Mode.bits]

theorem cap_cases : m.cap = 2 ^ 60 ∨ m.cap = 2 ^ 28 := by
  unfold Mode.cap Mode.bits
  split
  · exact .inr rfl
  · exact .inl rfl

theorem le_cap : 2 ^ 28 ≤ m.cap := by
  obtain ⟨c, s⟩ := m
  cases s <;> simp [Mode.cap, Mode.bits]

theorem cap_le : m.cap ≤ 2 ^ 60 := by
  obtain ⟨c, s⟩ := m
  cases s <;> simp [Mode.cap, Mode.bits]

theorem add_eq {a b : Nat} (h : a + b < 16 * m.cap) : m.add a b = .ok (a + b) := if_pos (by rwa [size_eq])

theorem sub_eq {a b : Nat} (h : b ≤ a) : m.sub a b = .ok (a - b) := if_pos h

theorem mul_eq {a b : Nat} (h : a * b < 16 * m.cap) : m.mul a b = .ok (a * b) := if_pos (by rwa [size_eq])

theorem mulAdd_eq {a b c : Nat} (h : a * b + c < 16 * m.cap) : m.mulAdd a b c = .ok (a * b + c) := by
  rw [Mode.mulAdd, mul_eq m (by omega), ok_bind, add_eq m h]

theorem allocate_eq {n : Nat} (h : n < m.cap) : allocate m n = .ok () := by
  rw [allocate, decide_eq_true h, assert_true]

variable {T : Type}

/-! ## The boilerplate calls its functions on chunks of the right length only -/

theorem iterChunks_congr {n : Nat} {f g : List T → σ → Res (List T × σ)} (P : σ → Prop)
    (h : ∀ c s, c.length = n → P s → f c s = g c s) (hP : ∀ c s c' s', c.length = n → P s → g c s = .ok (c', s') → P s')
    (buffer : List T) (s : σ) (hs : P s) : iterChunks n f buffer s = iterChunks n g buffer s := by
  induction k : buffer.length using Nat.strongRecOn generalizing buffer s with
  | ind k ih =>
    rw [iterChunks, iterChunks]
    split
    · split
      · rfl
      · have hl : (buffer.take n).length = n := by simp; omega
        rw [h _ s hl hs]
        refine bind_congr_ok fun a ha => ?_
        obtain ⟨c', s'⟩ := a
        simp only
        rw [ih (buffer.drop n).length (by simp; omega) _ s' (hP _ _ _ _ hl hs ha) rfl]
    · rfl

theorem iterChunksZippedLoop_congr {n : Nat} {f g : List T → List T → σ → Res (List T × List T × σ)}
    (h : ∀ c1 c2 s, c1.length = n → c2.length = n → f c1 c2 s = g c1 c2 s) (b1 b2 : List T) (s : σ) :
    iterChunksZippedLoop n f b1 b2 s = iterChunksZippedLoop n g b1 b2 s := by
  induction k : b1.length using Nat.strongRecOn generalizing b1 b2 s with
  | ind k ih =>
    rw [iterChunksZippedLoop, iterChunksZippedLoop]
    split
    · split
      · rfl
      · rw [h _ _ s (by simp; omega) (by simp; omega)]
        refine bind_congr_ok fun a _ => ?_
        obtain ⟨c1, c2, s'⟩ := a
        simp only
        rw [ih (b1.drop n).length (by simp; omega) _ _ s' rfl]
    · rfl

theorem iterChunksZipped_congr {n : Nat} {f g : List T → List T → σ → Res (List T × List T × σ)}
    (h : ∀ c1 c2 s, c1.length = n → c2.length = n → f c1 c2 s = g c1 c2 s) (b1 b2 : List T) (s : σ) :
    iterChunksZipped n f b1 b2 s = iterChunksZipped n g b1 b2 s := by
  unfold iterChunksZipped
  simp only [iterChunksZippedLoop_congr h]

theorem boilerplateDht_congr {len is os : Nat} {pi pi' : List T → List T → Res (List T × List T)}
    {po po' : List T → List T → List T → Res (List T × List T × List T)}
    (hi : 0 < len → ∀ c s, c.length = len → pi c s = pi' c s)
    (ho : 0 < len → ∀ c1 c2 s, c1.length = len → c2.length = len → po c1 c2 s = po' c1 c2 s) :
    boilerplateDht len is os pi po = boilerplateDht len is os pi' po' := by
  unfold boilerplateDht
  congr 1
  · funext buffer scratch
    split
    · rfl
    · rename_i h0
      have := iterChunks_congr (fun _ => True) (fun c s hc _ => hi (Nat.pos_of_ne_zero h0) c s hc) (fun _ _ _ _ _ _ _ => trivial)
        buffer (scratch.take is) trivial
      simp only [this]
  · funext input output scratch
    split
    · rfl
    · rename_i h0
      simp only [iterChunksZipped_congr (ho (Nat.pos_of_ne_zero h0))]

theorem boilerplateDhtOop_congr {len : Nat} {p p' : List T → List T → Res (List T)}
    (h : ∀ c1 c2, c1.length = len → c2.length = len → p c1 c2 = p' c1 c2) :
    boilerplateDhtOop len p = boilerplateDhtOop len p' := by
  unfold boilerplateDhtOop
  congr 1
  · funext buffer scratch
    split
    · rfl
    · simp only
      split
      · rfl
      · rename_i hs
        have := iterChunks_congr (n := len) (fun s : List T => s.length = len)
          (f := fun chunk scratch => do
            let scratch ← p chunk scratch
            if chunk.length = scratch.length then .ok (scratch, scratch) else panic .copyLength)
          (g := fun chunk scratch => do
            let scratch ← p' chunk scratch
            if chunk.length = scratch.length then .ok (scratch, scratch) else panic .copyLength)
          (fun c s hc hs => by simp only [h c s hc hs]) ?_ buffer (scratch.take len) (by simp; omega)
        · simp only [this]
        · intro c s c' s' hc hs e
          cases ep : p' c s with
          | error _ => rw [ep] at e; cases e
          | ok a =>
            rw [ep, ok_bind] at e
            split at e
            · injection e with e
              injection e with e1 e2
              subst e2
              omega
            · cases e
  · funext input output scratch
    split
    · rfl
    · split
      · rfl
      · have := iterChunksZipped_congr (n := len)
          (f := fun inChunk outChunk (_ : Unit) => do
            let outChunk ← p inChunk outChunk
            .ok (inChunk, outChunk, ()))
          (g := fun inChunk outChunk (_ : Unit) => do
            let outChunk ← p' inChunk outChunk
            .ok (inChunk, outChunk, ())) (fun c1 c2 _ h1 h2 => by simp only [h c1 c2 h1 h2]) input output ()
        simp only [this]

/-! ## src/array_utils.rs -/

theorem transposeHalfRevOut_eq (input output : List T) {width height : Nat} (hw : 2 ≤ width) (hw' : width < 16 * m.cap)
    (hb : width * height < 16 * m.cap) :
    transposeHalfRevOut m input output width height = RustDHT.transposeHalfRevOut input output width height := by
  unfold transposeHalfRevOut RustDHT.transposeHalfRevOut
  refine bind_congr_ok fun _ _ => ?_
  rw [mul_eq m hb, ok_bind]
  refine bind_congr_ok fun _ _ => ?_
  rw [add_eq m (by omega), ok_bind]
  refine forRange_congr fun i _ hi output => ?_
  rw [sub_eq m (by omega), ok_bind, sub_eq m (by omega), ok_bind]
  have h1 : ∀ c < width, i * width + c < 16 * m.cap := fun c hc => by nlinarith
  have h2 : ∀ c < width, ∀ r < height, c * height + r < 16 * m.cap := fun c hc r hr => by nlinarith
  have hl : ∀ c < width / 2 + 1, c < width := fun c hc => by omega
  rw [forRange_congr (g := fun outColumn output => do
      let v ← getU input (i * width + outColumn)
      setU output (outColumn * height + i) v)]
  · refine bind_congr_ok fun output _ => ?_
    refine forRange_congr fun c _ hc output => ?_
    rw [mulAdd_eq m (h1 c hc), ok_bind]
    refine bind_congr_ok fun v _ => ?_
    rw [mulAdd_eq m (h2 c hc _ (by omega)), ok_bind]
  · intro c _ hc output
    rw [mulAdd_eq m (h1 c (hl c hc)), ok_bind]
    refine bind_congr_ok fun v _ => ?_
    rw [mulAdd_eq m (h2 c (hl c hc) _ hi), ok_bind]

theorem mapM_congr_ok {α β : Type} {xs : List α} {f g : α → Res β} (h : ∀ x ∈ xs, f x = g x) : xs.mapM f = xs.mapM g := by
  induction xs with
  | nil => rfl
  | cons x xs ih =>
    rw [List.mapM_cons, List.mapM_cons, h x List.mem_cons_self, ih fun y hy => h y (List.mem_cons_of_mem _ hy)]

theorem transpose_eq (input output : List T) {width height : Nat} (h : width * height < 16 * m.cap) :
    transpose m input output width height = RustDHT.transpose input output width height := by
  unfold transpose RustDHT.transpose
  rw [mul_eq m h, ok_bind]
  refine bind_congr_ok fun _ hi => bind_congr_ok fun _ _ => mapM_congr_ok fun i hi' => ?_
  have hl : width * height = input.length := by
    unfold assert at hi
    split at hi
    · rename_i h; simpa using h
    · cases hi
  have hi' := List.mem_range.1 hi'
  have hh : 0 < height := by
    rcases Nat.eq_zero_or_pos height with h | h
    · subst h; omega
    · exact h
  have h1 : i % height < height := Nat.mod_lt _ hh
  have h2 : i / height < width := Nat.div_lt_of_lt_mul (by rw [Nat.mul_comm]; exact hi')
  have h3 : i % height * width + i / height < input.length := by rw [← hl]; nlinarith
  rw [getU_ok h3, getI_ok h3]

/-! ## src/scalar/dht_naive.rs -/

theorem dhtNaive_eq [Add T] [Mul T] [Zero T] [FftNum T] {len : Nat} (h : len < 2 * m.cap) :
    dhtNaive m T len = RustDHT.dhtNaive T len := by
  unfold dhtNaive RustDHT.dhtNaive
  have hl : (naiveTwiddles T len).length = len := by simp [naiveTwiddles]
  refine boilerplateDhtOop_congr fun input output _ ho => ?_
  unfold naivePerform RustDHT.naivePerform
  refine forRange_congr fun k _ hk output => ?_
  have : naiveInner m (naiveTwiddles T len) input k = RustDHT.naiveInner (naiveTwiddles T len) input k := by
    unfold naiveInner RustDHT.naiveInner
    rw [forList_congr]
    rintro x _ ⟨v, j⟩
    simp only
    refine bind_congr_ok fun t ht => ?_
    have hj : j < (naiveTwiddles T len).length := by
      by_contra hj
      rw [getI, List.getElem?_eq_none (by omega)] at ht
      cases ht
    rw [add_eq m (by omega), ok_bind]
    split
    · rw [sub_eq m (by assumption), ok_bind]
    · rfl
  rw [this]

/-! ## src/scalar/radix2.rs .. radix6.rs -/

section MixedRadixN

variable [Add T] [Sub T] [Mul T] [Neg T] [FftNum T]

theorem applyColumns_eq {k h : Nat} (hh : h < 16 * m.cap) (col0 : List T → Res (List T))
    (kernel : List (Cx T) → List T → List T → Res (List T × List T)) (tw : List (List (Cx T))) (buf : List T) :
    applyColumns m k h col0 kernel tw buf = RustDHT.applyColumns k h col0 kernel tw buf := by
  unfold applyColumns RustDHT.applyColumns
  by_cases h0 : h = 0
  · simp only [if_pos h0, panic_bind]
  by_cases h1 : buf.length / h < k
  · simp only [if_neg h0, if_pos h1, panic_bind]
  simp only [if_neg h0, if_neg h1]
  refine bind_congr_ok fun _ _ => bind_congr_ok fun _ _ => bind_congr_ok fun _ _ => ?_
  rw [add_eq m (by omega), ok_bind]
  refine forList_congr ?_
  rintro ⟨column, tw⟩ hm buf
  have hc := List.mem_range'_1.1 (List.of_mem_zip hm).1
  simp only
  refine bind_congr_ok fun _ _ => ?_
  rw [sub_eq m (by omega), ok_bind]

omit [Add T] [Sub T] [Mul T] [Neg T] [FftNum T] in
theorem mixedRadixN_eq {k len : Nat} {d : Dht T} {f f' : List T → Res (List T)} (hk : 2 ≤ k) (hk' : k ≤ 6) (hlen : len = k * d.len)
    (hl : len < 2 * m.cap) (hs : d.inplaceScratchLen < 8 * m.cap) (hf : ∀ b, f b = f' b) :
    mixedRadixN m k len d f = .ok (RustDHT.mixedRadixN k d f') := by
  obtain rfl : f = f' := funext hf
  subst hlen
  unfold mixedRadixN RustDHT.mixedRadixN
  simp only
  rw [add_eq m (by split <;> omega), ok_bind]
  congr 1
  refine boilerplateDht_congr (fun _ c s _ => ?_) (fun _ c1 c2 s _ _ => ?_)
  · unfold mrnPerformInplace RustDHT.mrnPerformInplace
    rw [transposeHalfRevOut_eq m _ _ hk (by omega) (by omega)]
  · unfold mrnPerformOop RustDHT.mrnPerformOop
    rw [transposeHalfRevOut_eq m _ _ hk (by omega) (by omega)]

omit [Add T] [Sub T] [Neg T] in
theorem eighthTwiddle_eq {c r len : Nat} (h : c * r * 8 + len < 16 * m.cap) (hl : len < 2 * m.cap) :
    eighthTwiddle m T c r len = .ok ((computeDftTwiddleInverse T (c * r * 8 + len) (len * 8)).scale FftNum.sqrtHalfF32) := by
  rw [eighthTwiddle, mul_eq m (by omega), ok_bind, mulAdd_eq m h, ok_bind, mul_eq m (by omega), ok_bind]

theorem mixedRadix2xn_eq {d : Dht T} (hl : 2 * d.len < 2 * m.cap) (hs : d.inplaceScratchLen < 8 * m.cap) :
    mixedRadix2xn m d = .ok (RustDHT.mixedRadix2xn d) := by
  have hcap := le_cap m
  unfold mixedRadix2xn RustDHT.mixedRadix2xn
  simp only
  rw [mul_eq m (by omega), ok_bind, add_eq m (by omega), ok_bind, sub_eq m (by omega), ok_bind, allocate_eq m (by omega), ok_bind]
  exact mixedRadixN_eq m (by omega) (by omega) rfl hl hs fun b => applyColumns_eq m (by omega) ..

theorem mixedRadix3xn_eq {d : Dht T} (hl : 3 * d.len < 2 * m.cap) (hs : d.inplaceScratchLen < 8 * m.cap) :
    mixedRadix3xn m d = .ok (RustDHT.mixedRadix3xn d) := by
  have hcap := le_cap m
  unfold mixedRadix3xn RustDHT.mixedRadix3xn
  simp only
  rw [mul_eq m (by omega), ok_bind, add_eq m (by omega), ok_bind, sub_eq m (by omega), ok_bind, mul_eq m (by omega), ok_bind,
    allocate_eq m (by omega), ok_bind]
  rw [mapM_ok_map fun c hc => eighthTwiddle_eq m (by have := List.mem_range'_1.1 hc; omega) hl, ok_bind]
  exact mixedRadixN_eq m (by omega) (by omega) rfl hl hs fun b => applyColumns_eq m (by omega) ..

theorem mixedRadix4xn_eq {d : Dht T} (hl : 4 * d.len < 2 * m.cap) (hs : d.inplaceScratchLen < 8 * m.cap) :
    mixedRadix4xn m d = .ok (RustDHT.mixedRadix4xn d) := by
  have hcap := le_cap m
  unfold mixedRadix4xn RustDHT.mixedRadix4xn
  simp only
  rw [mul_eq m (by omega), ok_bind, add_eq m (by omega), ok_bind, mul_eq m (by omega), ok_bind, allocate_eq m (by omega),
    ok_bind]
  rw [mapM_ok_map (g := fun column =>
    [computeDftTwiddleInverse T (1 * column) (4 * d.len), computeDftTwiddleInverse T (2 * column) (4 * d.len)]), ok_bind,
    ← List.flatMap_def, allocate_eq, ok_bind]
  · exact mixedRadixN_eq m (by omega) (by omega) rfl hl hs fun b => applyColumns_eq m (by omega) ..
  · simp; omega
  · intro c hc
    have := List.mem_range'_1.1 hc
    rw [mul_eq m (by omega), ok_bind, mul_eq m (by omega), ok_bind]

theorem mixedRadix5xn_eq {d : Dht T} (hl : 5 * d.len < 2 * m.cap) (hs : d.inplaceScratchLen < 8 * m.cap) :
    mixedRadix5xn m d = .ok (RustDHT.mixedRadix5xn d) := by
  have hcap := le_cap m
  unfold mixedRadix5xn RustDHT.mixedRadix5xn
  simp only
  rw [mul_eq m (by omega), ok_bind, add_eq m (by omega), ok_bind, sub_eq m (by omega), ok_bind, mul_eq m (by omega), ok_bind,
    allocate_eq m (by omega), ok_bind]
  rw [mapM_ok_map (g := fun column =>
    [(computeDftTwiddleInverse T (column * 1 * 8 + 5 * d.len) (5 * d.len * 8)).scale FftNum.sqrtHalfF32,
     (computeDftTwiddleInverse T (column * 2 * 8 + 5 * d.len) (5 * d.len * 8)).scale FftNum.sqrtHalfF32]), ok_bind,
    ← List.flatMap_def]
  · exact mixedRadixN_eq m (by omega) (by omega) rfl hl hs fun b => applyColumns_eq m (by omega) ..
  · intro c hc
    have := List.mem_range'_1.1 hc
    rw [eighthTwiddle_eq m (by omega) hl, ok_bind, eighthTwiddle_eq m (by omega) hl, ok_bind]

theorem mixedRadix6xn_eq {d : Dht T} (hl : 6 * d.len < 2 * m.cap) (hs : d.inplaceScratchLen < 8 * m.cap) :
    mixedRadix6xn m d = .ok (RustDHT.mixedRadix6xn d) := by
  have hcap := le_cap m
  unfold mixedRadix6xn RustDHT.mixedRadix6xn
  simp only
  rw [mul_eq m (by omega), ok_bind, add_eq m (by omega), ok_bind, sub_eq m (by omega), ok_bind, mul_eq m (by omega), ok_bind,
    allocate_eq m (by omega), ok_bind]
  rw [mapM_ok_map (g := fun column =>
    [(computeDftTwiddleInverse T (1 * column * 8 + 6 * d.len) (6 * d.len * 8)).scale FftNum.sqrtHalfF32,
     (computeDftTwiddleInverse T (2 * column * 8 + 6 * d.len) (6 * d.len * 8)).scale FftNum.sqrtHalfF32,
     (computeDftTwiddleInverse T (3 * column * 8 + 6 * d.len) (6 * d.len * 8)).scale FftNum.sqrtHalfF32]), ok_bind,
    ← List.flatMap_def, allocate_eq, ok_bind]
  · exact mixedRadixN_eq m (by omega) (by omega) rfl hl hs fun b => applyColumns_eq m (by omega) ..
  · simp; omega
  · intro c hc
    have := List.mem_range'_1.1 hc
    rw [eighthTwiddle_eq m (by omega) hl, ok_bind, eighthTwiddle_eq m (by omega) hl, ok_bind, eighthTwiddle_eq m (by omega) hl,
      ok_bind]

end MixedRadixN

/-! ## src/scalar/mixed_radix.rs -/

section MixedRadix

variable [Add T] [Sub T] [Mul T] [FftNum T]

omit [FftNum T] in
theorem mrCell_eq {width height row column : Nat} (tw : Cx T) (buf : List T) (hr : row ≤ width) (hc : column ≤ height)
    (hh : height < 2 * m.cap) (hl : width * height < 2 * m.cap) :
    mrCell m width height row column tw buf = RustDHT.mrCell width height row column tw buf := by
  have h1 : height * row ≤ width * height := by rw [Nat.mul_comm]; exact Nat.mul_le_mul_right _ hr
  have h2 : height * (width - row) ≤ width * height := by rw [Nat.mul_comm]; exact Nat.mul_le_mul_right _ (by omega)
  unfold mrCell RustDHT.mrCell
  rw [sub_eq m hr, ok_bind, sub_eq m hc, ok_bind, mulAdd_eq m (by omega), ok_bind]
  refine bind_congr_ok fun _ _ => ?_
  rw [mulAdd_eq m (by omega), ok_bind]
  refine bind_congr_ok fun _ _ => ?_
  rw [mulAdd_eq m (by omega), ok_bind]
  refine bind_congr_ok fun _ _ => ?_
  rw [mulAdd_eq m (by omega), ok_bind]

omit [FftNum T] in
theorem mrMidCell_eq {width height row column : Nat} (tw : Cx T) (buf : List T) (hr : row ≤ width) (hc : column ≤ height)
    (hh : height < 2 * m.cap) (hl : width * height < 2 * m.cap) :
    mrMidCell m height row column tw buf = RustDHT.mrMidCell height row column tw buf := by
  have h1 : height * row ≤ width * height := by rw [Nat.mul_comm]; exact Nat.mul_le_mul_right _ hr
  unfold mrMidCell RustDHT.mrMidCell
  rw [sub_eq m hc, ok_bind, mulAdd_eq m (by omega), ok_bind]
  refine bind_congr_ok fun _ _ => ?_
  rw [mulAdd_eq m (by omega), ok_bind]

omit [FftNum T] in
theorem mrApplyTwiddles_eq {width height : Nat} (tw : List (Cx T)) (buf : List T) (hw : width < 2 * m.cap) (hh : height < 2 * m.cap)
    (hl : width * height < 2 * m.cap) :
    mrApplyTwiddles m width height tw buf = RustDHT.mrApplyTwiddles width height tw buf := by
  unfold mrApplyTwiddles RustDHT.mrApplyTwiddles
  rw [add_eq m (by omega), ok_bind]
  simp only
  rw [add_eq m (by omega), ok_bind, sub_eq m (by omega), ok_bind]
  split
  · rfl
  refine bind_congr_ok fun chunks _ => ?_
  rw [forList_congr (g := fun (row, twiddleChunk) buffer =>
      forList ((List.range' 1 (height / 2 + 1 - 1)).zip twiddleChunk) buffer fun (column, twiddle) buffer =>
        RustDHT.mrCell width height row column twiddle buffer)]
  · refine bind_congr_ok fun buf _ => ?_
    split
    · generalize (List.drop _ chunks).head? = o
      cases o with
      | none => rfl
      | some chunk =>
        refine forList_congr ?_
        rintro ⟨column, t⟩ hm buf
        have := List.mem_range'_1.1 (List.of_mem_zip hm).1
        exact mrMidCell_eq m _ _ (by omega) (by omega) hh hl
    · rfl
  · rintro ⟨row, chunk⟩ hm buf
    have := List.mem_range'_1.1 (List.of_mem_zip hm).1
    refine forList_congr ?_
    rintro ⟨column, t⟩ hm buf
    have := List.mem_range'_1.1 (List.of_mem_zip hm).1
    exact mrCell_eq m _ _ (by omega) (by omega) hh hl

theorem mrFirstReversal_eq {width height : Nat} (hw : width < 2 * m.cap) (hh : height < 2 * m.cap) (hl : width * height < 2 * m.cap) :
    mrFirstReversal m width height = .ok (mrReversalRowBegin width * height) := by
  have h1 : (width + 1) * height < 16 * m.cap := by rw [Nat.add_mul]; omega
  unfold mrFirstReversal mrReversalRowBegin
  split
  · rw [add_eq m (by omega), ok_bind, mul_eq m (lt_of_le_of_lt (Nat.mul_le_mul_right _ (by omega)) h1)]
  · rw [add_eq m (by omega), ok_bind, ok_bind, mul_eq m (lt_of_le_of_lt (Nat.mul_le_mul_right _ (by omega)) h1)]

theorem mrSecondReversal_eq {width height : Nat} (hw : width < 2 * m.cap) (hh : height < 2 * m.cap) (hl : width * height < 2 * m.cap) :
    mrSecondReversal m width height = .ok ((height + 1) / 2 * width) := by
  have h1 : (height + 1) * width < 16 * m.cap := by rw [Nat.add_mul, Nat.mul_comm]; omega
  unfold mrSecondReversal
  rw [add_eq m (by omega), ok_bind, mul_eq m (lt_of_le_of_lt (Nat.mul_le_mul_right _ (by omega)) h1)]

theorem mixedRadix_eq {w h : Dht T} (hw : w.len < 2 * m.cap) (hh : h.len < 2 * m.cap) (hl : w.len * h.len < 2 * m.cap)
    (ha : (w.len / 2 + 1) * (h.len / 2 + 1) < m.cap) (hsw : w.oopScratchLen < 8 * m.cap) (hsh : h.inplaceScratchLen < 8 * m.cap) :
    mixedRadix m w h = .ok (RustDHT.mixedRadix w h) := by
  have h64 : w.len * h.len < 16 * m.cap := by omega
  have h64' : h.len * w.len < 16 * m.cap := by rw [Nat.mul_comm]; exact h64
  unfold mixedRadix RustDHT.mixedRadix
  simp only
  rw [mul_eq m (by omega), ok_bind, add_eq m (by omega), ok_bind, add_eq m (by omega), ok_bind, mul_eq m (by omega), ok_bind,
    allocate_eq m ha, ok_bind]
  rw [mapM_ok_map (g := fun row => (List.range' 1 (h.len / 2 + 1 - 1)).map fun column =>
    (computeDftTwiddleInverse T (row * column * 8 + w.len * h.len) (w.len * h.len * 8)).scale FftNum.sqrtHalfF32), ok_bind,
    ← List.flatMap_def, allocate_eq, ok_bind, add_eq m (by split <;> omega), ok_bind]
  · congr 1
    refine boilerplateDht_congr (fun _ c s _ => ?_) (fun _ c1 c2 s _ _ => ?_)
    · unfold mrPerformInplace RustDHT.mrPerformInplace
      simp only [mrFirstReversal_eq m hw hh hl, mrSecondReversal_eq m hw hh hl, mrApplyTwiddles_eq m _ _ hw hh hl, ok_bind,
        transpose_eq m _ _ h64, transpose_eq m _ _ h64']
      rfl
    · unfold mrPerformOop RustDHT.mrPerformOop
      simp only [mrFirstReversal_eq m hw hh hl, mrSecondReversal_eq m hw hh hl, mrApplyTwiddles_eq m _ _ hw hh hl, ok_bind,
        transpose_eq m _ _ h64, transpose_eq m _ _ h64']
      rfl
  · refine lt_of_le_of_lt ?_ ha
    simp [List.length_flatMap]
    exact Nat.mul_le_mul (by omega) (by omega)
  · intro row hr
    have hr := List.mem_range'_1.1 hr
    refine mapM_ok_map fun c hc => eighthTwiddle_eq m ?_ hl
    have hc := List.mem_range'_1.1 hc
    have : (2 * row) * (2 * c) ≤ w.len * h.len := Nat.mul_le_mul (by omega) (by omega)
    have e : (2 * row) * (2 * c) = 4 * (row * c) := by ring
    omega

end MixedRadix

/-! ## src/scalar/radix4.rs: `Radix4` -/

section Radix4

variable [Add T] [Sub T] [Mul T] [Neg T] [FftNum T]

omit [Add T] [Sub T] [Mul T] [Neg T] [FftNum T] in
theorem prepareRadix4_eq (rev : Bool) (size baseLen : Nat) (input output : List T) (stride : Nat)
    (h : stride * size < 2 * m.cap) (hsz : size < 2 * m.cap) :
    prepareRadix4 m rev size baseLen input output stride = RustDHT.prepareRadix4 rev size baseLen input output stride := by
  induction size using Nat.strong_induction_on generalizing rev input output stride with
  | _ size ih =>
    rw [prepareRadix4, RustDHT.prepareRadix4]
    split
    · refine forRange_congr fun i _ hi output => ?_
      cases rev
      · have : i * stride ≤ stride * size := by rw [Nat.mul_comm]; exact Nat.mul_le_mul_left _ (by omega)
        simp only [Bool.false_eq_true, if_false, ok_bind]
        rw [mul_eq m (by omega), ok_bind]
      · have : (size - i - 1) * stride ≤ stride * size := by rw [Nat.mul_comm]; exact Nat.mul_le_mul_left _ (by omega)
        simp only [if_true]
        rw [sub_eq m (by omega), ok_bind, sub_eq m (by omega), ok_bind, mul_eq m (by omega), ok_bind]
    · split
      · rfl
      · rename_i h0
        have hst : stride ≤ stride * size := Nat.le_mul_of_pos_right _ (by omega)
        have hs4 : stride * 4 * (size / 4) < 2 * m.cap :=
          lt_of_le_of_lt (by rw [Nat.mul_assoc]; exact Nat.mul_le_mul_left _ (by omega)) h
        have hih := fun rev input output => ih (size / 4) (by omega) rev input output (stride * 4) hs4 (by omega)
        simp only
        rw [mul_eq m (show 0 * stride < 16 * m.cap by omega), mul_eq m (show 0 * (size / 4) < 16 * m.cap by omega),
          mul_eq m (show 1 * stride < 16 * m.cap by omega), mul_eq m (show 1 * (size / 4) < 16 * m.cap by omega),
          mul_eq m (show 2 * stride < 16 * m.cap by omega), mul_eq m (show 2 * (size / 4) < 16 * m.cap by omega),
          mul_eq m (show 3 * stride < 16 * m.cap by omega), mul_eq m (show 3 * (size / 4) < 16 * m.cap by omega),
          mul_eq m (show stride * 4 < 16 * m.cap by omega)]
        simp only [ok_bind, hih]

omit [Add T] [Sub T] [Mul T] [Neg T] in
theorem radix4Twiddles_eq {len stride : Nat} (hl : len < 2 * m.cap) (hs : stride ≤ len) :
    radix4Twiddles m T len stride = .ok (RustDHT.radix4Twiddles T len stride) := by
  induction stride using Nat.strong_induction_on with
  | _ stride ih =>
    rw [radix4Twiddles, RustDHT.radix4Twiddles]
    split
    · rename_i h0
      rw [mul_eq m (by omega), ok_bind]
      rw [if_neg (by omega)]
      simp only
      rw [mapM_ok_map (g := fun i => (List.range' 1 2).map fun k => computeDftTwiddleInverse T (i * k * stride) len), ok_bind,
        ih (stride / 4) (by omega) (by omega), ok_bind, ← List.flatMap_def]
      intro i hi
      have hi := List.mem_range'_1.1 hi
      have h4 : i * (stride * 4) ≤ len :=
        le_trans (Nat.mul_le_mul_right _ (show i ≤ len / (stride * 4) by omega)) (Nat.div_mul_le_self _ _)
      refine mapM_ok_map fun k hk => ?_
      have hk := List.mem_range'_1.1 hk
      have hik : i * k * stride ≤ i * (stride * 4) := by
        calc i * k * stride = i * (stride * k) := by ring
          _ ≤ i * (stride * 4) := Nat.mul_le_mul_left _ (Nat.mul_le_mul_left _ (by omega))
      have hi4 : i * 4 ≤ i * (stride * 4) := Nat.mul_le_mul_left _ (by omega)
      have hk4 : i * k ≤ i * 4 := Nat.mul_le_mul_left _ (by omega)
      rw [mul_eq m (by omega), ok_bind, mul_eq m (by omega), ok_bind]
    · rfl

theorem radix4Layers_eq {len c : Nat} (hl : len < 2 * m.cap) (hc : 4 ≤ c) (tw : List (Cx T)) (output : List T) :
    radix4Layers m len c tw output = RustDHT.radix4Layers len c tw output := by
  induction hn : len + 1 - c using Nat.strong_induction_on generalizing c tw output with
  | _ n ih =>
    rw [radix4Layers, RustDHT.radix4Layers]
    split
    · rename_i hcl
      rw [dif_neg (by omega), dif_neg (by omega)]
      simp only
      rw [forRange_congr (g := fun i output => do
        let (front, data) ← splitAt output (i * c)
        let data ← RustDHT.radix4Butterfly4 data tw (c / 4)
        .ok (front ++ data))]
      · refine bind_congr_ok fun out _ => ?_
        rw [mul_eq m (by omega), ok_bind, sub_eq m (by omega), ok_bind, if_neg (by omega)]
        refine bind_congr_ok fun p _ => ?_
        rw [mul_eq m (by omega)]
        simp only
        rw [dif_pos (by omega)]
        exact ih _ (by omega) (by omega) _ _ rfl
      · intro i _ hi output
        have : i * c ≤ len := le_trans (Nat.mul_le_mul_right _ hi.le) (Nat.div_mul_le_self _ _)
        rw [mul_eq m (by omega), ok_bind]
        unfold radix4Butterfly4 RustDHT.radix4Butterfly4
        simp only [applyColumns_eq (T := T) m (show c / 4 < 16 * m.cap by omega)]
    · rfl

theorem radix4_eq {len : Nat} (hl : len < m.cap) : radix4 m T len = RustDHT.radix4 T len := by
  unfold radix4 RustDHT.radix4
  refine bind_congr_ok fun _ ha => ?_
  have h0 : len ≠ 0 := by
    rintro rfl
    simp [isPowerOfTwo, assert, panic] at ha
  have hcap := le_cap m
  have hb : 1 ≤ (radix4Base T len).1 ∧ (radix4Base T len).1 < 2 * m.cap := by
    unfold radix4Base
    split <;> try (constructor <;> simp only <;> omega)
    split <;> simp <;> omega
  generalize radix4Base T len = p at hb ⊢
  obtain ⟨baseLen, baseDht⟩ := p
  simp only at hb ⊢
  rw [mul_eq m (by omega), ok_bind, if_neg (by omega), allocate_eq m hl, ok_bind, radix4Twiddles_eq m (by omega) (Nat.div_le_self _ _), ok_bind]
  congr 1
  have key : ∀ c1 c2 s, radix4PerformOop m baseDht baseLen len (RustDHT.radix4Twiddles T len (len / (baseLen * 4))) c1 c2 s =
      RustDHT.radix4PerformOop baseDht baseLen len (RustDHT.radix4Twiddles T len (len / (baseLen * 4))) c1 c2 s := by
    intro c1 c2 s
    unfold radix4PerformOop RustDHT.radix4PerformOop
    rw [prepareRadix4_eq m _ _ _ _ _ _ (by omega) (by omega), mul_eq m (by omega)]
    simp only [ok_bind, radix4Layers_eq (T := T) m (show len < 2 * m.cap by omega) (show 4 ≤ baseLen * 4 by omega)]
  refine boilerplateDht_congr (fun _ c s _ => ?_) (fun _ c1 c2 s _ _ => key c1 c2 s)
  unfold radix4PerformInplace RustDHT.radix4PerformInplace
  simp only [key]

end Radix4

end Machine

end RustDHT
