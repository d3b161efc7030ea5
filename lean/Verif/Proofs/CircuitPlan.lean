import Verif.Proofs.CircuitFree
import Verif.Proofs.Length

/-! # The size of the circuit of a composition -/

set_option linter.unusedSectionVars false

namespace RustDHT

namespace Circ

variable {S : Type} [Zero S] [FftNum S]

theorem New.mem {x y : List (Circ S)} {N : ℕ} (h : New x y N) {t : Circ S} (ht : t ∈ y) : New x [t] N :=
  h.right fun u hu => by rw [List.mem_singleton.1 hu]; exact ht

/-- A step from `x`, by way of `y`. -/
theorem New.via {x y z : List (Circ S)} {N M : ℕ} (h : New x y N) (h' : New (x ++ y) z M) : New x z (N + M) := by
  have h0 : New x (x ++ y) (0 + N) := (New.of_sub fun _ h => h).append h
  exact (h0.trans h').mono (by omega)

theorem uses_naiveTwiddles (n i : ℕ) : (nth (naiveTwiddles (Circ S) n) i).uses = false := by
  rw [nth]
  rcases Nat.lt_or_ge i (naiveTwiddles (Circ S) n).length with h | h
  · rw [List.getElem?_eq_getElem h]
    simp [naiveTwiddles, computeDhtTwiddle]
    rfl
  · rw [List.getElem?_eq_none h]; rfl

theorem naive_costs (n : ℕ) : Costs (S := S) n (naiveFn (Circ S) n) (2 * n * n) := by
  intro x hx
  rw [show 2 * n * n = n * (2 * n) by ring]
  refine New.tab fun k _ => ?_
  rw [naiveVal, hx]
  have key : ∀ j, New x [(List.range j).foldl (fun acc i =>
      acc + nth (naiveTwiddles (Circ S) n) (i * k % (naiveTwiddles (Circ S) n).length) * nth x i) 0] (2 * j) := by
    intro j
    induction j with
    | zero => exact new_pure x rfl
    | succ j ih =>
      rw [List.range_succ, List.foldl_append, List.foldl_cons, List.foldl_nil]
      exact (ih.add ((new_pure x (uses_naiveTwiddles n _)).mul (new_nth x j))).mono (by omega)
  exact key n

theorem mrVal_costs (w h : ℕ) (x : List (Circ S)) (r c : ℕ) : New x [mrVal w h x r c] 5 := by
  have hg : ∀ k, New x [nth x k] 0 := new_nth x
  have ht : ∀ r c, New x [(mrTw (Circ S) w h r c).re] 0 ∧ New x [(mrTw (Circ S) w h r c).im] 0 :=
    fun r c => ⟨new_pure x rfl, new_pure x rfl⟩
  have h1 : ∀ r c q q', New x [q] 1 → New x [q'] 1 →
      New x [(mrTw (Circ S) w h r c).re * q - (mrTw (Circ S) w h r c).im * q'] 5 ∧
      New x [(mrTw (Circ S) w h r c).re * q + (mrTw (Circ S) w h r c).im * q'] 5 := fun r c q q' hq hq' =>
    ⟨((ht r c).1.mul hq).sub ((ht r c).2.mul hq'), ((ht r c).1.mul hq).add ((ht r c).2.mul hq')⟩
  unfold mrVal
  simp only
  split
  · exact (hg _).mono (by omega)
  · split
    · split
      · exact (h1 _ _ _ _ ((hg _).add (hg _)) ((hg _).sub (hg _))).1
      · exact (h1 _ _ _ _ ((hg _).add (hg _)) ((hg _).sub (hg _))).1
    · split
      · split
        · exact (h1 _ _ _ _ ((hg _).sub (hg _)) ((hg _).add (hg _))).2
        · exact (h1 _ _ _ _ ((hg _).sub (hg _)) ((hg _).add (hg _))).2
      · split
        · exact (h1 _ _ _ _ ((hg _).sub (hg _)) ((hg _).add (hg _))).2
        · exact (h1 _ _ _ _ ((hg _).add (hg _)) ((hg _).sub (hg _))).1

theorem mr_costs {w h N M : ℕ} {fw fh : List (Circ S) → List (Circ S)} (hw : Costs w fw N) (hh : Costs h fh M)
    (pw : 0 < w) (ph : 0 < h) : Costs (w * h) (mrFn w h fw fh) (h * N + w * M + 5 * (w * h)) := by
  intro x hx
  have s1 : New x (mrStep1 w h x) 0 := New.perm
  have s3 := s1.trans (hh.mapChunks ph (mrStep1 w h x))
  have e1 : (mrStep1 w h x).length / h = w := by simp [mrStep1, Nat.mul_div_cancel _ ph]
  rw [e1] at s3
  have s4 := s3.trans (New.tab (n := w * h) fun p _ => mrVal_costs w h _ (p / h) (p % h))
  have s5 := s4.trans (New.perm (n := h * w) (f := fun p => p % w * h + p / w))
  have s6 := s5.trans (hw.mapChunks pw _)
  rw [length_tab, Nat.mul_div_cancel _ pw] at s6
  have s7 := s6.trans (New.perm (n := h * w)
    (f := fun p => p / w * w + (if p / w < (h + 1) / 2 then p % w else w - 1 - p % w)))
  have s8 := s7.trans (New.perm (n := w * h) (f := fun p => p % h * w + p / h))
  refine New.mono s8 ?_
  rw [Nat.mul_comm (w * h) 5]
  omega

theorem mrn_costs {k h N M : ℕ} {f : List (Circ S) → List (Circ S)} {ap : List (Circ S) → Res (List (Circ S))}
    (hf : Costs h f N) (hh : 0 < h) (hlen : ∀ x, x.length = h → (f x).length = h) (hap : Costs (k * h) (run ap) M) :
    Costs (k * h) (mrnFn k h f ap) (k * N + M) := by
  intro x hx
  have s1 : New x (tab (k * h) fun p => nth x (revRow k h (p / h) (p % h) * k + p / h)) 0 := New.perm
  have s2 := s1.trans (hf.mapChunks hh _)
  rw [length_tab, Nat.mul_div_cancel _ hh, Nat.zero_add] at s2
  exact s2.trans (hap _ (by rw [length_mapChunks hh hlen, length_tab]))

/-! ## `Radix4` -/

theorem layers_costs (l : ℕ) : ∀ {h : ℕ}, 8 ≤ h → h % 2 = 0 → ∀ (x : List (Circ S)) (m : ℕ), x.length = m * (h * 4 ^ l) →
    New x (r4Layers (Circ S) h l x) (l * (9 * (x.length / 2))) := by
  induction l with
  | zero =>
    intro h _ _ x m _
    exact New.mono (.of_sub fun _ h => h) (Nat.zero_le _)
  | succ l ih =>
    intro h h8 h2 x m hx
    have hx' : x.length = m * 4 ^ l * (4 * h) := by rw [hx]; ring
    have h4 : 0 < 4 * h := by omega
    have s1 := (r4_costs (S := S) (t := 4 ^ l) (by omega : 0 < h)).mapChunks h4 x
    have hlen : (mapChunks (4 * h) (run (r4Apply (Circ S) h (4 ^ l))) x).length = x.length :=
      length_mapChunks h4 (fun y hy => (r4Apply_total (T := Circ S) (t := 4 ^ l) (by omega)).length hy) x
    have s2 := ih (h := 4 * h) (by omega) (by omega) (mapChunks (4 * h) (run (r4Apply (Circ S) h (4 ^ l))) x) m
      (by rw [hlen, hx]; ring)
    rw [hlen] at s2
    refine (s1.trans s2).mono ?_
    have e1 : x.length / (4 * h) = m * 4 ^ l := by rw [hx', Nat.mul_div_cancel _ h4]
    have e2 : x.length / 2 = m * 4 ^ l * (2 * h) := by
      rw [hx', show m * 4 ^ l * (4 * h) = m * 4 ^ l * (2 * h) * 2 by ring, Nat.mul_div_cancel _ (by omega)]
    rw [e1, e2]
    generalize m * 4 ^ l = k
    have e3 : 8 + h / 2 * 34 ≤ 18 * h := by omega
    calc k * (8 + h / 2 * 34) + l * (9 * (k * (2 * h))) ≤ k * (18 * h) + l * (9 * (k * (2 * h))) := by gcongr
      _ = (l + 1) * (9 * (k * (2 * h))) := by ring

theorem radix4Fn_costs (m : ℕ) : Costs (S := S) (2 ^ m) (radix4Fn (Circ S) m) (radix4Ops (2 ^ m)) := by
  intro x hx
  have s1 : New x (tab (r4BaseLen m * 4 ^ r4Levels m) fun p => nth x (r4Index (r4BaseLen m) (r4Levels m) false p)) 0 :=
    New.perm
  have main : ∀ N, Costs (S := S) (r4BaseLen m) (r4BaseFn (Circ S) m) N → (r4Levels m ≠ 0 → 8 ≤ r4BaseLen m ∧ r4BaseLen m % 2 = 0) →
      New x (radix4Fn (Circ S) m x) (2 ^ m / r4BaseLen m * N + r4Levels m * (9 * (2 ^ m / 2))) := by
    intro N hN hb
    have hpos := r4BaseLen_pos m
    have s2 := s1.trans (hN.mapChunks hpos _)
    rw [length_tab, ← r4_len, Nat.zero_add] at s2
    have hl : (mapChunks (r4BaseLen m) (r4BaseFn (Circ S) m)
        (tab (2 ^ m) fun p => nth x (r4Index (r4BaseLen m) (r4Levels m) false p))).length = 2 ^ m := by
      rw [length_mapChunks hpos (fun y hy => ((radix4Base_eq m).2.2.2.length y (by rw [(radix4Base_eq m).2.1]; exact hy)).trans
        (radix4Base_eq m).2.1), length_tab]
    rw [radix4Fn, r4Fn]
    rw [← r4_len]
    by_cases h0 : r4Levels m = 0
    · rw [h0] at s2 ⊢
      exact New.mono s2 (Nat.le_add_right _ _)
    · have s3 := layers_costs (S := S) (r4Levels m) (hb h0).1 (hb h0).2 _ 1 (by rw [hl, Nat.one_mul]; exact r4_len m)
      rw [hl] at s3
      exact s2.trans s3
  match m with
  | 0 => exact (main 0 (fun x _ => New.of_sub fun _ h => h) (fun h => absurd rfl h)).mono (by decide)
  | 1 => exact (main 2 b2_costs (fun h => absurd rfl h)).mono (by decide)
  | 2 => exact (main 8 b4_costs (fun h => absurd rfl h)).mono (by decide)
  | m + 3 =>
    have h8 : 8 * 2 ^ m = 2 ^ (m + 3) := by ring
    have hp : 1 ≤ 2 ^ m := Nat.one_le_two_pow
    have hlog : Nat.log 2 (2 ^ (m + 3)) = m + 3 := Nat.log_pow (by norm_num) _
    rw [radix4Ops, if_neg (by omega), if_neg (by omega), if_neg (by omega), hlog]
    by_cases hm : (m + 3) % 2 = 1
    · have hb : r4BaseLen (m + 3) = 8 := by simp only [r4BaseLen, if_pos hm]
      rw [if_pos hm]
      have := main 24 (by rw [hb]; simp only [r4BaseFn, if_pos hm]; exact b8_costs) (fun _ => by rw [hb]; omega)
      rwa [hb, r4Levels, if_neg (by omega), if_pos hm] at this
    · have hb : r4BaseLen (m + 3) = 16 := by simp only [r4BaseLen, if_neg hm]
      rw [if_neg hm]
      have := main 76 (by rw [hb]; simp only [r4BaseFn, if_neg hm]; exact b16_costs) (fun _ => by rw [hb]; omega)
      rwa [hb, r4Levels, if_neg (by omega), if_neg hm] at this

/-! ## `SplitRadix` -/

/-- The differences of the first with the third and of the second with the fourth quarter. -/
def srDiffs (q : ℕ) (x : List (Circ S)) : List (Circ S) :=
  (tab q fun i => nth x i - nth x (2 * q + i)) ++ tab q fun i => nth x (q + i) - nth x (3 * q + i)

theorem sr_costs_q {q : ℕ} (x : List (Circ S)) {c : ℕ} (hc : c < q) :
    New (x ++ srDiffs q x) [srQ1 q x c] 5 ∧ New (x ++ srDiffs q x) [srQ3 q x c] 5 := by
  have mem : ∀ {u}, u ∈ srDiffs q x → New (x ++ srDiffs q x) [u] 0 := fun h =>
    .of_sub fun t ht => by rw [List.mem_singleton.1 ht]; exact List.mem_append_right _ h
  have d0 : ∀ i < q, New (x ++ srDiffs q x) [nth x i - nth x (2 * q + i)] 0 := fun i hi =>
    mem (List.mem_append_left _ (List.mem_map.2 ⟨i, List.mem_range.2 (by omega), rfl⟩))
  have d1 : ∀ i < q, New (x ++ srDiffs q x) [nth x (q + i) - nth x (3 * q + i)] 0 := fun i hi =>
    mem (List.mem_append_right _ (List.mem_map.2 ⟨i, List.mem_range.2 (by omega), rfl⟩))
  have tw : ∀ i n, New (x ++ srDiffs q x) [(computeDftTwiddleInverse (Circ S) i n).re] 0 ∧
      New (x ++ srDiffs q x) [(computeDftTwiddleInverse (Circ S) i n).im] 0 := fun i n => ⟨new_pure _ rfl, new_pure _ rfl⟩
  constructor
  · unfold srQ1
    simp only
    split
    · exact ((d0 0 (by omega)).add (d1 0 (by omega))).mono (by omega)
    · split
      · exact (((d0 _ (by omega)).add (d0 _ (by omega))).mul (tw _ _).1).sub
          (((d1 _ (by omega)).sub (d1 _ (by omega))).mul (tw _ _).2)
      · exact (((d0 _ (by omega)).add (d0 _ (by omega))).mul (tw _ _).2).add
          (((d1 _ (by omega)).sub (d1 _ (by omega))).mul (tw _ _).1)
  · unfold srQ3
    simp only
    split
    · exact ((d0 0 (by omega)).sub (d1 0 (by omega))).mono (by omega)
    · split
      · exact (((d0 _ (by omega)).sub (d0 _ (by omega))).mul (tw _ _).1).add
          (((d1 _ (by omega)).add (d1 _ (by omega))).mul (tw _ _).2)
      · exact (((d0 _ (by omega)).sub (d0 _ (by omega))).mul (tw _ _).2).sub
          (((d1 _ (by omega)).add (d1 _ (by omega))).mul (tw _ _).1)

theorem sr_costs {q N M : ℕ} {fq fh : List (Circ S) → List (Circ S)} (hq : Costs q fq N) (hh : Costs (2 * q) fh M)
    (lq : ∀ x, x.length = q → (fq x).length = q) (lh : ∀ x, x.length = 2 * q → (fh x).length = 2 * q) :
    Costs (4 * q) (srFn q fq fh) (M + 2 * N + 14 * q) := by
  intro x hx
  have e0 : New x (tab (2 * q) (srEven q x)) (2 * q * 1) := New.tab fun i _ => (new_nth x _).add (new_nth x _)
  have e := e0.trans (hh (tab (2 * q) (srEven q x)) (by simp))
  have d : New x (srDiffs q x) (q * 1 + q * 1) :=
    (New.tab fun i _ => (new_nth x _).sub (new_nth x _)).append (New.tab fun i _ => (new_nth x _).sub (new_nth x _))
  have q1 := (New.tab fun c hc => (sr_costs_q (q := q) x hc).1).trans (hq (tab q (srQ1 q x)) (by simp))
  have q3 := (New.tab fun c hc => (sr_costs_q (q := q) x hc).2).trans (hq (tab q (srQ3 q x)) (by simp))
  have r := e.append (d.via (q1.append q3))
  refine (r.mono (by omega)).right fun t ht => ?_
  rw [srFn, tab, List.mem_map] at ht
  obtain ⟨p, hp, rfl⟩ := ht
  have hp := List.mem_range.1 hp
  have mem : ∀ {l : List (Circ S)} {i : ℕ}, i < l.length → nth l i ∈ l := by
    intro l i hi
    rw [nth, List.getElem?_eq_getElem hi]
    exact List.getElem_mem hi
  split
  · exact List.mem_append_left _ (mem (by rw [lh _ (by simp)]; omega))
  · refine List.mem_append_right _ ?_
    split
    · exact List.mem_append_left _ (mem (by rw [lq _ (by simp)]; omega))
    · exact List.mem_append_right _ (mem (by rw [lq _ (by simp)]; omega))

/-! ## `RadersAlgorithm` -/

theorem rdTw_pure {y : List (Circ S)} (hy : ∀ t ∈ y, t.uses = false) (n i : ℕ) :
    (rdTw y n i).re.uses = false ∧ (rdTw y n i).im.uses = false := by
  have hn : ∀ k, (nth y k).uses = false := fun k => by
    rcases nth_mem_or y k with h | h
    · exact hy _ h
    · exact h
  unfold rdTw
  split
  · exact ⟨hn _, rfl⟩
  · constructor <;> simp [sub_def, uses, hn, FftNum.halfF32]

theorem rd_costs {p g gi N : ℕ} (hp : 2 ≤ p) {tw : ℕ → Cx (Circ S)} {f : List (Circ S) → List (Circ S)} (hf : Costs (p - 1) f N)
    (htw : ∀ i, (tw i).re.uses = false ∧ (tw i).im.uses = false) :
    Costs p (rdFn p g gi tw f) (2 * N + 3 * (p - 1) + 2) := by
  intro x hx
  have s1 : New x (rdIn p g x) 0 := New.perm
  have s2 := s1.trans (hf (rdIn p g x) (by simp [rdIn]))
  rw [Nat.zero_add] at s2
  rw [rdFn]
  generalize f (rdIn p g x) = y at *
  have hy : ∀ k, New (x ++ y) [nth y k] 0 := fun k => (new_nth y k).left fun _ => List.mem_append_right _
  have hx0 : New (x ++ y) [nth x 0] 0 := (new_nth x 0).left fun _ => List.mem_append_left _
  have hre : ∀ i, New (x ++ y) [(tw i).re] 0 := fun i => new_pure _ (htw i).1
  have him : ∀ i, New (x ++ y) [(tw i).im] 0 := fun i => new_pure _ (htw i).2
  have hmul : ∀ i, New (x ++ y) [rdMul y tw (p - 1) i] 3 := by
    intro i
    unfold rdMul
    split
    · exact ((hy _).mul (hre _)).mono (by omega)
    · split
      · exact ((hre _).mul (hy _)).add ((him _).mul (hy _))
      · split
        · exact ((hy _).mul (hre _)).mono (by omega)
        · exact ((hre _).mul (hy _)).sub ((him _).mul (hy _))
  have hmid : New (x ++ y) (rdMid p tw (nth x 0) y) (3 * (p - 1) + 1) := by
    have h1 : New (x ++ y) (tab (p - 1) (rdMul y tw (p - 1))) ((p - 1) * 3) := New.tab fun i _ => hmul i
    have h2 : New (x ++ y ++ tab (p - 1) (rdMul y tw (p - 1))) [rdMul y tw (p - 1) 0 + nth x 0] (0 + 0 + 1) :=
      New.add (.of_sub fun t ht => by
        rw [List.mem_singleton.1 ht]
        exact List.mem_append_right _ (List.mem_map.2 ⟨0, List.mem_range.2 (by omega), rfl⟩))
        (hx0.left fun _ => List.mem_append_left _)
    have h3 : New (x ++ y ++ tab (p - 1) (rdMul y tw (p - 1))) (tab (p - 1) (rdMul y tw (p - 1))) 0 :=
      .of_sub fun _ => List.mem_append_right _
    refine ((h1.via (h2.append h3)).right fun t ht => ?_).mono (by omega)
    rw [rdMid, tab, List.mem_map] at ht
    obtain ⟨i, hi, rfl⟩ := ht
    split
    · exact List.mem_append_left _ (by simp)
    · exact List.mem_append_right _ (List.mem_map.2 ⟨i, hi, rfl⟩)
  have s3 := (hmid.trans (hf (rdMid p tw (nth x 0) y) (by simp [rdMid]))).trans
    (New.perm (n := p - 1) (f := fun q => dlog gi p (q + 1)))
  exact (s2.via ((hx0.add (hy 0)).append s3)).mono (by omega)

/-! ## Compositions -/

/-- Without the buffer in the input there is none in the output. -/
theorem pure_process {p : Plan} {d : Dht (Circ S)} (hd : p.build (Circ S) = .ok d) {f : List (Circ S) → List (Circ S)}
    (hi : Implements d f) (h0 : 0 < d.len) {x : List (Circ S)} (hx : x.length = d.len) (hu : ∀ t ∈ x, t.uses = false) :
    ∀ t ∈ f x, t.uses = false := by
  have h := plan_rel p (pure_respects (S := S))
  rw [hd] at h
  have hl : LR (fun t u : Circ S => t = u ∧ t.uses = false) x x := by
    clear hx
    induction x with
    | nil => exact .nil
    | cons a x ih => exact .cons ⟨rfl, hu a (by simp)⟩ (ih fun t ht => hu t (by simp [ht]))
  cases h with
  | ok h =>
    have hr := dht_process_rel h ⟨rfl, rfl⟩ hl
    rw [hi.process (b := x) (by omega) (by rw [hx]), mapChunks_single h0 hx] at hr
    cases hr with
    | ok hr =>
      generalize f x = y at hr
      intro t ht
      obtain ⟨i, hi, rfl⟩ := List.getElem_of_mem ht
      exact ((List.forall₂_iff_get.1 hr).2 i hi hi).2

theorem Costs.of_pos {d : Dht (Circ S)} {f : List (Circ S) → List (Circ S)} {N : ℕ} (hi : Implements d f)
    (h : 0 < d.len → Costs d.len f N) : Costs d.len f N := by
  rcases Nat.eq_zero_or_pos d.len with h0 | h0
  · intro x hx
    have := hi.length x hx
    rw [h0, List.length_eq_zero_iff] at this
    rw [this]
    exact New.mono (.of_sub fun t ht => by cases ht) (Nat.zero_le _)
  · exact h h0

theorem plan_costs (p : Plan) : ∀ d : Dht (Circ S), p.build (Circ S) = .ok d → ∃ f, Implements d f ∧ Costs d.len f p.ops := by
  have small : ∀ {p : Plan} {d : Dht (Circ S)} (k : ℕ), 1 ≤ k → p.build (Circ S) = .ok d →
      (0 < d.len → d.inplaceScratchLen ≤ k * d.len) ∧ (0 < d.len → d.oopScratchLen = 0) := by
    intro p d k hk e
    have h := (plan_ok p d e).small
    exact ⟨fun hpos => le_trans (h hpos).2 (Nat.le_mul_of_pos_left _ hk), fun hpos => (h hpos).1⟩
  have mrk : ∀ {k N : ℕ} {q p : Plan} {hd d : Dht (Circ S)} {ap : List (Circ S) → Res (List (Circ S))},
      p.ops = k * q.ops + N → (∃ f, Implements hd f ∧ Costs hd.len f q.ops) → d.len = k * hd.len →
      (∀ f, Implements hd f → Implements d (mrnFn k hd.len f ap)) → (0 < hd.len → Costs (k * hd.len) (run ap) N) →
      ∃ f, Implements d f ∧ Costs d.len f p.ops := by
    intro k N q p hd d ap e h hlen hi hg
    obtain ⟨f, i1, g1⟩ := h
    refine ⟨_, hi f i1, Costs.of_pos (hi f i1) fun h0 => ?_⟩
    have hh : 0 < hd.len := by
      rcases Nat.eq_zero_or_pos hd.len with h | h
      · rw [hlen, h] at h0; omega
      · exact h
    rw [e, hlen]
    exact mrn_costs g1 hh i1.length (hg hh)
  induction p with
  | naive n =>
    rintro d ⟨⟩
    exact ⟨_, dhtNaive_implements n, by rw [dhtNaive_len]; exact naive_costs n⟩
  | b1 => rintro d ⟨⟩; exact ⟨_, butterfly1_implements, fun x _ => .of_sub fun _ h => h⟩
  | b2 => rintro d ⟨⟩; exact ⟨_, boilerplateFftButterfly_implements (by omega) performs2, b2_costs⟩
  | b3 => rintro d ⟨⟩; exact ⟨_, boilerplateFftButterfly_implements (by omega) performs3, b3_costs⟩
  | b4 => rintro d ⟨⟩; exact ⟨_, boilerplateFftButterfly_implements (by omega) performs4, b4_costs⟩
  | b5 => rintro d ⟨⟩; exact ⟨_, boilerplateFftButterfly_implements (by omega) performs5, b5_costs⟩
  | b6 => rintro d ⟨⟩; exact ⟨_, boilerplateFftButterfly_implements (by omega) performs6, b6_costs⟩
  | b8 => rintro d ⟨⟩; exact ⟨_, boilerplateFftButterfly_implements (by omega) performs8, b8_costs⟩
  | b9 => rintro d ⟨⟩; exact ⟨_, boilerplateFftButterfly_implements (by omega) performs9, b9_costs⟩
  | b16 => rintro d ⟨⟩; exact ⟨_, boilerplateFftButterfly_implements (by omega) performs16, b16_costs⟩
  | mixedRadix w h ihw ihh =>
    intro d e
    obtain ⟨wd, ew, e⟩ := bind_eq_ok e
    obtain ⟨hd, eh, e⟩ := bind_eq_ok e
    cases e
    obtain ⟨fw, iw, gw⟩ := ihw wd ew
    obtain ⟨fh, ih, gh⟩ := ihh hd eh
    refine ⟨_, mixedRadix_implements iw ih, Costs.of_pos (mixedRadix_implements iw ih) fun h0 => ?_⟩
    have h0 : 0 < wd.len * hd.len := h0
    rw [Plan.ops, ← plan_len w wd ew, ← plan_len h hd eh]
    exact mr_costs gw gh (Nat.pos_of_mul_pos_right h0) (Nat.pos_of_mul_pos_left h0)
  | mr2 h ihh =>
    intro d e
    obtain ⟨hd, eh, e⟩ := bind_eq_ok e
    cases e
    exact mrk (by rw [Plan.ops, ← plan_len h hd eh]) (ihh hd eh) rfl
      (fun f i => mr2_implements i (small 2 (by omega) eh).1 (small 2 (by omega) eh).2) mr2_costs
  | mr3 h ihh =>
    intro d e
    obtain ⟨hd, eh, e⟩ := bind_eq_ok e
    cases e
    exact mrk (by rw [Plan.ops, ← plan_len h hd eh]) (ihh hd eh) rfl
      (fun f i => mr3_implements i (small 3 (by omega) eh).1 (small 2 (by omega) eh).2) mr3_costs
  | mr4 h ihh =>
    intro d e
    obtain ⟨hd, eh, e⟩ := bind_eq_ok e
    cases e
    exact mrk (by rw [Plan.ops, ← plan_len h hd eh]) (ihh hd eh) rfl
      (fun f i => mr4_implements i (small 4 (by omega) eh).1 (small 2 (by omega) eh).2) mr4_costs
  | mr5 h ihh =>
    intro d e
    obtain ⟨hd, eh, e⟩ := bind_eq_ok e
    cases e
    exact mrk (by rw [Plan.ops, ← plan_len h hd eh]) (ihh hd eh) rfl
      (fun f i => mr5_implements i (small 5 (by omega) eh).1 (small 2 (by omega) eh).2) mr5_costs
  | mr6 h ihh =>
    intro d e
    obtain ⟨hd, eh, e⟩ := bind_eq_ok e
    cases e
    exact mrk (by rw [Plan.ops, ← plan_len h hd eh]) (ihh hd eh) rfl
      (fun f i => mr6_implements i (small 6 (by omega) eh).1 (small 2 (by omega) eh).2) mr6_costs
  | radix4 n =>
    intro d e
    obtain ⟨m, rfl⟩ := radix4_isPow e
    have e' : RustDHT.radix4 (Circ S) (2 ^ m) = .ok d := e
    have hlen : d.len = 2 ^ m := by
      have h := e'
      rw [radix4_eq] at h
      cases h
      rfl
    exact ⟨_, radix4_implements e', by rw [hlen]; exact radix4Fn_costs m⟩
  | splitRadix q h ihq ihh =>
    intro d e
    obtain ⟨qd, eq, e⟩ := bind_eq_ok e
    obtain ⟨hd, eh, e⟩ := bind_eq_ok e
    obtain ⟨fq, iq, gq⟩ := ihq qd eq
    obtain ⟨fh, ih, gh⟩ := ihh hd eh
    have hlen := (splitRadix_eq e).1
    have hs : 0 < qd.len → qd.oopScratchLen = 0 ∧ qd.inplaceScratchLen ≤ 4 * qd.len ∧
        hd.inplaceScratchLen ≤ 2 * qd.len := by
      intro hq
      have h1 := (plan_ok q qd eq).small hq
      have h2 := (plan_ok h hd eh).small (by omega)
      omega
    have hdl : d.len = 4 * qd.len := by rw [(splitRadix_eq e).2]; rfl
    refine ⟨_, splitRadix_implements iq ih e hs, ?_⟩
    rw [hdl, Plan.ops, ← plan_len q qd eq]
    exact sr_costs gq (by rw [← hlen]; exact gh) iq.length (by rw [← hlen]; exact ih.length)
  | raders i ihi =>
    intro d e
    obtain ⟨id, ei, e⟩ := bind_eq_ok e
    obtain ⟨f, hf, gf⟩ := ihi id ei
    obtain ⟨g, gi, hdata⟩ := raders_data hf e
    have h1 := hdata.len
    have h2 := hdata.prime.two_le
    have hdl : d.len = id.len + 1 := by rw [hdata.eq]; rfl
    refine ⟨_, hdata.implements hf, ?_⟩
    rw [hdl, Plan.ops, ← plan_len i id ei]
    exact rd_costs h2 gf fun i => rdTw_pure (pure_process ei hf (by omega) (by simp [rdKernel]) (by
      intro t ht
      rw [rdKernel, tab, List.mem_map] at ht
      obtain ⟨i, _, rfl⟩ := ht
      rfl)) _ i

end Circ

end RustDHT
