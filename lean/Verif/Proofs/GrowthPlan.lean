import Verif.Proofs.Growth

/-! # Costs of compositions -/

set_option linter.unusedSectionVars false

namespace RustDHT

open Cost

/-! ## `DhtNaive` -/

theorem naive_grow (n : ℕ) : Grow n (naiveFn Cost n) ⟨2 * max 1 n, n, n + 3, 1, 0⟩ := by
  intro b x hb hx hl
  refine Below.tab fun k hk => ?_
  rw [naiveVal, hx, length_naiveTwiddles]
  have hstep : ∀ i, BR b ⟨2, 1, 3, 1, 0⟩ (nth (naiveTwiddles Cost n) (i * k % n) * nth x i) := by
    intro i
    have hmod : i * k % n < n := Nat.mod_lt _ (by omega)
    have hnt : nth (naiveTwiddles Cost n) (i * k % n) = computeDhtTwiddle Cost (i * k % n) n := by
      rw [show naiveTwiddles Cost n = tab n fun i => computeDhtTwiddle Cost i n from rfl, nth_tab hmod]
    rw [hnt]
    exact (br_respects hb).cmul (c := ⟨2, 0, 1, 1, 0⟩) (a := input) (Cost.le_refl _) (by
      show _ ≤ input.after b
      rw [input_after]; exact hl.nth i)
  have key : ∀ j, BR b ⟨2 * j, j, if j = 0 then 0 else j + 3, 1, 0⟩
      ((List.range j).foldl (fun acc i => acc + nth (naiveTwiddles Cost n) (i * k % n) * nth x i) 0) := by
    intro j
    induction j with
    | zero => exact Cost.zero_le _
    | succ j ih =>
      rw [List.range_succ, List.foldl_append, List.foldl_cons, List.foldl_nil]
      refine Cost.le_trans ((br_respects hb).add ih (hstep j)) (after_mono ?_ (Cost.le_refl _))
      simp only [le_def, add_def, Nat.add_eq_zero_iff, one_ne_zero, and_false, if_false]
      split <;> omega
  refine Cost.le_trans (key n) (after_mono ?_ (Cost.le_refl _))
  simp only [le_def]
  split <;> omega

/-! ## `MixedRadix` -/

theorem mrVal_cost {w h : ℕ} {b : Cost} (hb : 1 ≤ b.g) {x : List Cost} (hx : Below b x) (r c : ℕ) :
    BR b ⟨4, 6, 6, 1, 1⟩ (mrVal w h x r c) := by
  have hr := br_respects hb
  have hg : ∀ k, BR b input (nth x k) := fun k => by show _ ≤ input.after b; rw [input_after]; exact hx.nth k
  have hs : ∀ k k', BR b ⟨2, 0, 1, 0, 0⟩ (nth x k + nth x k') := fun k k' => hr.add (hg k) (hg k')
  have hd : ∀ k k', BR b ⟨2, 0, 1, 0, 0⟩ (nth x k - nth x k') := fun k k' => hr.sub (hg k) (hg k')
  have ht : ∀ r c, CR ⟨1, 1, 2, 1, 1⟩ (mrTw Cost w h r c).re ∧ CR ⟨1, 1, 2, 1, 1⟩ (mrTw Cost w h r c).im :=
    fun r c => ⟨Cost.le_refl _, Cost.le_refl _⟩
  have h1 : ∀ r c q q', BR b ⟨2, 0, 1, 0, 0⟩ q → BR b ⟨2, 0, 1, 0, 0⟩ q' →
      BR b ⟨4, 6, 6, 1, 1⟩ ((mrTw Cost w h r c).re * q - (mrTw Cost w h r c).im * q') ∧
      BR b ⟨4, 6, 6, 1, 1⟩ ((mrTw Cost w h r c).re * q + (mrTw Cost w h r c).im * q') := fun r c q q' hq hq' =>
    ⟨hr.sub (hr.cmul (ht r c).1 hq) (hr.cmul (ht r c).2 hq'), hr.add (hr.cmul (ht r c).1 hq) (hr.cmul (ht r c).2 hq')⟩
  unfold mrVal
  simp only
  split
  · exact Cost.le_trans (hg _) (after_mono (by decide) (Cost.le_refl _))
  · split
    · split
      · exact (h1 _ _ _ _ (hs _ _) (hd _ _)).1
      · exact (h1 _ _ _ _ (hs _ _) (hd _ _)).1
    · split
      · split
        · exact (h1 _ _ _ _ (hd _ _) (hs _ _)).2
        · exact (h1 _ _ _ _ (hd _ _) (hs _ _)).2
      · split
        · exact (h1 _ _ _ _ (hd _ _) (hs _ _)).2
        · exact (h1 _ _ _ _ (hs _ _) (hd _ _)).1

theorem mr_grow {w h : ℕ} {fw fh : List Cost → List Cost} {aw ah : Cost} (hw : Grow w fw aw) (hh : Grow h fh ah)
    (pw : 1 ≤ aw.g) (ph : 1 ≤ ah.g) :
    Grow (w * h) (mrFn w h fw fh) (aw.after ((⟨4, 6, 6, 1, 1⟩ : Cost).after ah)) := by
  intro b x hb hx hl
  rw [after_assoc, after_assoc]
  unfold mrFn
  simp only
  have h3 := hh.mapChunks ph hb (x := mrStep1 w h x) (Below.tab fun p _ => hl.nth _)
  have h4 : Below ((⟨4, 6, 6, 1, 1⟩ : Cost).after (ah.after b))
      (tab (w * h) fun p => mrVal w h (mapChunks h fh (mrStep1 w h x)) (p / h) (p % h)) :=
    Below.tab fun p _ => mrVal_cost (after_pos ph hb) h3 _ _
  refine Below.tab fun p _ => Below.nth (Below.tab fun p _ => Below.nth ?_ _) _
  exact hw.mapChunks pw (after_pos (by decide) (after_pos ph hb)) (Below.tab fun p _ => h4.nth _)

/-! ## `Radix4` -/

theorem layers_grow (l : ℕ) : ∀ {h : ℕ}, 0 < h → ∀ {b : Cost} {x : List Cost}, 1 ≤ b.g → Below b x →
    Below (((⟨7, 4, 5, 1, 0⟩ : Cost).times l).after b) (r4Layers Cost h l x) := by
  induction l with
  | zero => intro h _ b x _ hl; rw [Cost.times, input_after]; exact hl
  | succ l ih =>
    intro h hh b x hb hl
    rw [Cost.times, after_assoc]
    exact ih (by omega) (after_pos (by decide) hb) ((r4_grow hh).mapChunks (by decide) hb hl)

theorem radix4Fn_grow (m : ℕ) : Grow (2 ^ m) (radix4Fn Cost m) (radix4Growth (2 ^ m)) ∧ 1 ≤ (radix4Growth (2 ^ m)).g := by
  have main : ∀ a, Grow (r4BaseLen m) (r4BaseFn Cost m) a → 1 ≤ a.g →
      Grow (2 ^ m) (radix4Fn Cost m) (((⟨7, 4, 5, 1, 0⟩ : Cost).times (r4Levels m)).after a) := by
    intro a ha hpos b x hb hx hl
    rw [after_assoc]
    exact layers_grow _ (r4BaseLen_pos m) (after_pos hpos hb)
      (ha.mapChunks hpos hb (Below.tab fun p _ => hl.nth _))
  match m with
  | 0 => exact ⟨main input (fun b x hb hx hl => by rw [input_after]; exact hl) (by decide), by decide⟩
  | 1 => exact ⟨by have := main _ b2_grow (by decide); exact this, by decide⟩
  | 2 => exact ⟨by have := main _ b4_grow (by decide); exact this, by decide⟩
  | m + 3 =>
    have h8 : 8 * 2 ^ m = 2 ^ (m + 3) := by ring
    have hp : 1 ≤ 2 ^ m := Nat.one_le_two_pow
    have hlog : Nat.log 2 (2 ^ (m + 3)) = m + 3 := Nat.log_pow (by norm_num) _
    rw [radix4Growth, if_neg (by omega), if_neg (by omega), if_neg (by omega), hlog]
    by_cases hm : (m + 3) % 2 = 1
    · rw [if_pos hm]
      refine ⟨?_, after_pos (times_pos (by decide) _) (by decide)⟩
      have := main ⟨8, 1, 5, 1, 0⟩ (by simp only [r4BaseLen, r4BaseFn, if_pos hm]; exact b8_grow) (by decide)
      rwa [r4Levels, if_neg (by omega), if_pos hm] at this
    · rw [if_neg hm]
      refine ⟨?_, after_pos (times_pos (by decide) _) (by decide)⟩
      have := main ⟨24, 5, 7, 1, 0⟩ (by simp only [r4BaseLen, r4BaseFn, if_neg hm]; exact b16_grow) (by decide)
      rwa [r4Levels, if_neg (by omega), if_neg hm] at this

/-! ## `SplitRadix` -/

theorem sr_cost {q : ℕ} {b : Cost} (hb : 1 ≤ b.g) {x : List Cost} (hx : Below b x) (c : ℕ) :
    BR b ⟨8, 2, 5, 1, 0⟩ (srQ1 q x c) ∧ BR b ⟨8, 2, 5, 1, 0⟩ (srQ3 q x c) ∧ BR b ⟨2, 0, 1, 0, 0⟩ (srEven q x c) := by
  have hr := br_respects hb
  have hg : ∀ k, BR b input (nth x k) := fun k => by show _ ≤ input.after b; rw [input_after]; exact hx.nth k
  have hd : ∀ k k', BR b ⟨2, 0, 1, 0, 0⟩ (nth x k - nth x k') := fun k k' => hr.sub (hg k) (hg k')
  have up : ∀ {q}, BR b ⟨4, 0, 2, 0, 0⟩ q → BR b ⟨8, 2, 5, 1, 0⟩ q := fun h =>
    Cost.le_trans h (after_mono (by decide) (Cost.le_refl _))
  have ha : ∀ {q q' : Cost}, BR b ⟨2, 0, 1, 0, 0⟩ q → BR b ⟨2, 0, 1, 0, 0⟩ q' → BR b ⟨4, 0, 2, 0, 0⟩ (q + q') :=
    fun h h' => hr.add h h'
  have hs : ∀ {q q' : Cost}, BR b ⟨2, 0, 1, 0, 0⟩ q → BR b ⟨2, 0, 1, 0, 0⟩ q' → BR b ⟨4, 0, 2, 0, 0⟩ (q - q') :=
    fun h h' => hr.sub h h'
  have hc : ∀ i n, CR ⟨1, 0, 0, 1, 0⟩ (computeDftTwiddleInverse Cost i n).re ∧
      CR ⟨1, 0, 0, 1, 0⟩ (computeDftTwiddleInverse Cost i n).im := fun i n => ⟨Cost.le_refl _, Cost.le_refl _⟩
  have hsub : ∀ {q q' : Cost} (i n : ℕ), BR b ⟨4, 0, 2, 0, 0⟩ q → BR b ⟨4, 0, 2, 0, 0⟩ q' →
      BR b ⟨8, 2, 5, 1, 0⟩ (q * (computeDftTwiddleInverse Cost i n).re - q' * (computeDftTwiddleInverse Cost i n).im) :=
    fun i n h h' => hr.sub (hr.mulc h (hc i n).1) (hr.mulc h' (hc i n).2)
  have hadd : ∀ {q q' : Cost} (i n : ℕ), BR b ⟨4, 0, 2, 0, 0⟩ q → BR b ⟨4, 0, 2, 0, 0⟩ q' →
      BR b ⟨8, 2, 5, 1, 0⟩ (q * (computeDftTwiddleInverse Cost i n).re + q' * (computeDftTwiddleInverse Cost i n).im) :=
    fun i n h h' => hr.add (hr.mulc h (hc i n).1) (hr.mulc h' (hc i n).2)
  have hsub' : ∀ {q q' : Cost} (i n : ℕ), BR b ⟨4, 0, 2, 0, 0⟩ q → BR b ⟨4, 0, 2, 0, 0⟩ q' →
      BR b ⟨8, 2, 5, 1, 0⟩ (q * (computeDftTwiddleInverse Cost i n).im - q' * (computeDftTwiddleInverse Cost i n).re) :=
    fun i n h h' => hr.sub (hr.mulc h (hc i n).2) (hr.mulc h' (hc i n).1)
  have hadd' : ∀ {q q' : Cost} (i n : ℕ), BR b ⟨4, 0, 2, 0, 0⟩ q → BR b ⟨4, 0, 2, 0, 0⟩ q' →
      BR b ⟨8, 2, 5, 1, 0⟩ (q * (computeDftTwiddleInverse Cost i n).im + q' * (computeDftTwiddleInverse Cost i n).re) :=
    fun i n h h' => hr.add (hr.mulc h (hc i n).2) (hr.mulc h' (hc i n).1)
  refine ⟨?_, ?_, hr.add (hg _) (hg _)⟩
  · unfold srQ1
    simp only
    split
    · exact up (ha (hd _ _) (hd _ _))
    · split
      · exact hsub _ _ (ha (hd _ _) (hd _ _)) (hs (hd _ _) (hd _ _))
      · exact hadd' _ _ (ha (hd _ _) (hd _ _)) (hs (hd _ _) (hd _ _))
  · unfold srQ3
    simp only
    split
    · exact up (hs (hd _ _) (hd _ _))
    · split
      · exact hadd _ _ (hs (hd _ _) (hd _ _)) (ha (hd _ _) (hd _ _))
      · exact hsub' _ _ (hs (hd _ _) (hd _ _)) (ha (hd _ _) (hd _ _))

theorem sr_grow {q : ℕ} {fq fh : List Cost → List Cost} {aq ah : Cost} (hq : Grow q fq aq) (hh : Grow (2 * q) fh ah) :
    Grow (4 * q) (srFn q fq fh) ((ah.after ⟨2, 0, 1, 0, 0⟩).sup (aq.after ⟨8, 2, 5, 1, 0⟩)) := by
  intro b x hb hx hl
  have l := after_mono (le_sup_left (ah.after ⟨2, 0, 1, 0, 0⟩) (aq.after ⟨8, 2, 5, 1, 0⟩)) (Cost.le_refl b)
  have r := after_mono (le_sup_right (ah.after ⟨2, 0, 1, 0, 0⟩) (aq.after ⟨8, 2, 5, 1, 0⟩)) (Cost.le_refl b)
  rw [after_assoc] at l r
  refine Below.tab fun p _ => ?_
  split
  · exact Cost.le_trans ((hh _ _ (after_pos (by decide) hb) (by simp) (Below.tab fun c _ => (sr_cost hb hl c).2.2)).nth _) l
  · split
    · exact Cost.le_trans ((hq _ _ (after_pos (by decide) hb) (by simp) (Below.tab fun c _ => (sr_cost hb hl c).1)).nth _) r
    · exact Cost.le_trans ((hq _ _ (after_pos (by decide) hb) (by simp) (Below.tab fun c _ => (sr_cost hb hl c).2.1)).nth _) r

/-! ## `RadersAlgorithm` -/

/-- The cost of the entries of the table. -/
def rdCost (a : Cost) : Cost := (a.after ⟨2, 1, 3, 2, 0⟩ + a.after ⟨2, 1, 3, 2, 0⟩) * input

theorem rdTw_cost {p gi : ℕ} {f : List Cost → List Cost} {a : Cost} (hf : Grow (p - 1) f a) (i : ℕ) :
    (rdTw (f (rdKernel Cost p gi)) (p - 1) i).re ≤ rdCost a ∧ (rdTw (f (rdKernel Cost p gi)) (p - 1) i).im ≤ rdCost a := by
  have hk : Below (a.after ⟨2, 1, 3, 2, 0⟩) (f (rdKernel Cost p gi)) :=
    hf _ _ (by decide) (by simp [rdKernel]) (Below.tab fun i _ => Cost.le_refl _)
  generalize f (rdKernel Cost p gi) = y at *
  have hhalf : (FftNum.halfF32 : Cost) ≤ input := Cost.le_refl _
  unfold rdTw
  split
  · refine ⟨Cost.le_trans (hk.nth i) ?_, Cost.zero_le _⟩
    rw [rdCost]
    generalize a.after ⟨2, 1, 3, 2, 0⟩ = k
    simp only [le_def, add_def, mul_def, input, max_self, mul_one]
    omega
  · exact ⟨prod_mono (sum_mono (hk.nth _) (hk.nth _)) hhalf, prod_mono (sum_mono (hk.nth _) (hk.nth _)) hhalf⟩

theorem rd_grow {p g gi : ℕ} (hp : 2 ≤ p) {tw : ℕ → Cx Cost} {f : List Cost → List Cost} {a : Cost} (hf : Grow (p - 1) f a)
    (ha : 1 ≤ a.g) (htw : ∀ i, (tw i).re ≤ rdCost a ∧ (tw i).im ≤ rdCost a) :
    Grow p (rdFn p g gi tw f) ((input + a).sup (a.after (rdCost a * a + rdCost a * a + input))) := by
  intro b x hb hx hl
  have l := after_mono (le_sup_left (input + a) (a.after (rdCost a * a + rdCost a * a + input))) (Cost.le_refl b)
  have r := after_mono (le_sup_right (input + a) (a.after (rdCost a * a + rdCost a * a + input))) (Cost.le_refl b)
  rw [after_assoc] at r
  have hr := br_respects hb
  have hx0 : BR b input (nth x 0) := by show _ ≤ input.after b; rw [input_after]; exact hl.nth 0
  have hy : Below (a.after b) (f (rdIn p g x)) := hf b _ hb (by simp [rdIn]) (Below.tab fun j _ => hl.nth _)
  rw [rdFn]
  generalize f (rdIn p g x) = y at *
  have hn : ∀ k, BR b a (nth y k) := fun k => hy.nth k
  have hmul : ∀ i, BR b (rdCost a * a + rdCost a * a) (rdMul y tw (p - 1) i) := by
    intro i
    have one : ∀ k c, CR (rdCost a) c → BR b (rdCost a * a + rdCost a * a) (nth y k * c) := by
      intro k c hc
      refine Cost.le_trans (hr.mulc (hn k) hc) (after_mono ?_ (Cost.le_refl _))
      rw [mul_comm_cost]
      generalize rdCost a * a = k
      simp only [le_def, add_def]
      omega
    unfold rdMul
    split
    · exact one _ _ (htw 0).1
    · split
      · exact hr.add (hr.cmul (htw _).1 (hn _)) (hr.cmul (htw _).2 (hn _))
      · split
        · exact one _ _ (htw i).1
        · exact hr.sub (hr.cmul (htw _).1 (hn _)) (hr.cmul (htw _).2 (hn _))
  have hmid : Below ((rdCost a * a + rdCost a * a + input).after b) (rdMid p tw (nth x 0) y) := by
    refine Below.tab fun i _ => ?_
    split
    · exact hr.add (hmul 0) hx0
    · refine Cost.le_trans (hmul i) (after_mono ?_ (Cost.le_refl _))
      generalize rdCost a * a + rdCost a * a = k
      simp only [le_def, add_def, input]
      omega
  have hpos : 1 ≤ (rdCost a * a + rdCost a * a + input).g := by
    generalize rdCost a * a + rdCost a * a = k
    simp only [add_def, input]
    omega
  intro q hq
  rcases List.mem_cons.1 hq with rfl | hq
  · exact Cost.le_trans (hr.add hx0 (hn 0)) l
  · refine Below.tab (b := _) (fun k _ => ?_) q hq
    exact Cost.le_trans ((hf _ _ (after_pos hpos hb) (by simp [rdMid]) hmid).nth _) r

/-! ## Compositions -/

theorem Grow.of_pos {d : Dht Cost} {f : List Cost → List Cost} {a : Cost} (hi : Implements d f) (h : 0 < d.len → Grow d.len f a) :
    Grow d.len f a := by
  rcases Nat.eq_zero_or_pos d.len with h0 | h0
  · intro b x _ hx _
    have := hi.length x hx
    rw [h0, List.length_eq_zero_iff] at this
    rw [this]
    intro q hq
    cases hq
  · exact h h0

/-- What is proved by induction. -/
structure GrowthOk (p : Plan) (d : Dht Cost) : Prop where
  fn : ∃ f, Implements d f ∧ Grow d.len f p.growth
  pos : 1 ≤ p.growth.g

theorem plan_growth (p : Plan) : ∀ d : Dht Cost, p.build Cost = .ok d → GrowthOk p d := by
  have small : ∀ {p : Plan} {d : Dht Cost} (k : ℕ), 1 ≤ k → p.build Cost = .ok d →
      (0 < d.len → d.inplaceScratchLen ≤ k * d.len) ∧ (0 < d.len → d.oopScratchLen = 0) := by
    intro p d k hk e
    have h := (plan_ok p d e).small
    exact ⟨fun hpos => le_trans (h hpos).2 (Nat.le_mul_of_pos_left _ hk), fun hpos => (h hpos).1⟩
  have mrk : ∀ {k : ℕ} {q p : Plan} {hd d : Dht Cost} {ap : List Cost → Res (List Cost)} {a : Cost},
      p.growth = a.after q.growth → 1 ≤ a.g → GrowthOk q hd → d.len = k * hd.len →
      (∀ f, Implements hd f → Implements d (mrnFn k hd.len f ap)) → (0 < hd.len → Grow (k * hd.len) (run ap) a) →
      GrowthOk p d := by
    intro k q p hd d ap a e ha h hlen hi hg
    obtain ⟨⟨f, i1, g1⟩, p1⟩ := h
    refine ⟨⟨_, hi f i1, Grow.of_pos (hi f i1) fun h0 => ?_⟩, by rw [e]; exact after_pos ha p1⟩
    have hh : 0 < hd.len := by
      rcases Nat.eq_zero_or_pos hd.len with h | h
      · rw [hlen, h] at h0; omega
      · exact h
    rw [e, hlen]
    exact mrn_grow g1 hh p1 i1.length (hg hh)
  induction p with
  | naive n =>
    rintro d ⟨⟩
    exact ⟨⟨_, dhtNaive_implements n, by rw [dhtNaive_len]; exact naive_grow n⟩, by show 1 ≤ 2 * max 1 n; omega⟩
  | b1 => rintro d ⟨⟩; exact ⟨⟨_, butterfly1_implements, fun b x _ _ hl => by
      show Below (input.after b) x; rw [input_after]; exact hl⟩, by decide⟩
  | b2 => rintro d ⟨⟩; exact ⟨⟨_, boilerplateFftButterfly_implements (by omega) performs2, b2_grow⟩, by decide⟩
  | b3 => rintro d ⟨⟩; exact ⟨⟨_, boilerplateFftButterfly_implements (by omega) performs3, b3_grow⟩, by decide⟩
  | b4 => rintro d ⟨⟩; exact ⟨⟨_, boilerplateFftButterfly_implements (by omega) performs4, b4_grow⟩, by decide⟩
  | b5 => rintro d ⟨⟩; exact ⟨⟨_, boilerplateFftButterfly_implements (by omega) performs5, b5_grow⟩, by decide⟩
  | b6 => rintro d ⟨⟩; exact ⟨⟨_, boilerplateFftButterfly_implements (by omega) performs6, b6_grow⟩, by decide⟩
  | b8 => rintro d ⟨⟩; exact ⟨⟨_, boilerplateFftButterfly_implements (by omega) performs8, b8_grow⟩, by decide⟩
  | b9 => rintro d ⟨⟩; exact ⟨⟨_, boilerplateFftButterfly_implements (by omega) performs9, b9_grow⟩, by decide⟩
  | b16 => rintro d ⟨⟩; exact ⟨⟨_, boilerplateFftButterfly_implements (by omega) performs16, b16_grow⟩, by decide⟩
  | mixedRadix w h ihw ihh =>
    intro d e
    obtain ⟨wd, ew, e⟩ := bind_eq_ok e
    obtain ⟨hd, eh, e⟩ := bind_eq_ok e
    cases e
    obtain ⟨⟨fw, iw, gw⟩, pw⟩ := ihw wd ew
    obtain ⟨⟨fh, ih, gh⟩, ph⟩ := ihh hd eh
    exact ⟨⟨_, mixedRadix_implements iw ih, mr_grow gw gh pw ph⟩, after_pos pw (after_pos (by decide) ph)⟩
  | mr2 h ihh =>
    intro d e
    obtain ⟨hd, eh, e⟩ := bind_eq_ok e
    cases e
    exact mrk rfl (by decide) (ihh hd eh) rfl (fun f i => mr2_implements i (small 2 (by omega) eh).1 (small 2 (by omega) eh).2) mr2_grow
  | mr3 h ihh =>
    intro d e
    obtain ⟨hd, eh, e⟩ := bind_eq_ok e
    cases e
    exact mrk rfl (by decide) (ihh hd eh) rfl (fun f i => mr3_implements i (small 3 (by omega) eh).1 (small 2 (by omega) eh).2) mr3_grow
  | mr4 h ihh =>
    intro d e
    obtain ⟨hd, eh, e⟩ := bind_eq_ok e
    cases e
    exact mrk rfl (by decide) (ihh hd eh) rfl (fun f i => mr4_implements i (small 4 (by omega) eh).1 (small 2 (by omega) eh).2) mr4_grow
  | mr5 h ihh =>
    intro d e
    obtain ⟨hd, eh, e⟩ := bind_eq_ok e
    cases e
    exact mrk rfl (by decide) (ihh hd eh) rfl (fun f i => mr5_implements i (small 5 (by omega) eh).1 (small 2 (by omega) eh).2) mr5_grow
  | mr6 h ihh =>
    intro d e
    obtain ⟨hd, eh, e⟩ := bind_eq_ok e
    cases e
    exact mrk rfl (by decide) (ihh hd eh) rfl (fun f i => mr6_implements i (small 6 (by omega) eh).1 (small 2 (by omega) eh).2) mr6_grow
  | radix4 n =>
    intro d e
    obtain ⟨m, rfl⟩ := radix4_isPow e
    have e' : RustDHT.radix4 Cost (2 ^ m) = .ok d := e
    have hlen : d.len = 2 ^ m := by
      have h := e'
      rw [radix4_eq] at h
      cases h
      rfl
    exact ⟨⟨_, radix4_implements e', by rw [hlen]; exact (radix4Fn_grow m).1⟩, (radix4Fn_grow m).2⟩
  | splitRadix q h ihq ihh =>
    intro d e
    obtain ⟨qd, eq, e⟩ := bind_eq_ok e
    obtain ⟨hd, eh, e⟩ := bind_eq_ok e
    obtain ⟨⟨fq, iq, gq⟩, pq⟩ := ihq qd eq
    obtain ⟨⟨fh, ih, gh⟩, ph⟩ := ihh hd eh
    have hlen := (splitRadix_eq e).1
    have hs : 0 < qd.len → qd.oopScratchLen = 0 ∧ qd.inplaceScratchLen ≤ 4 * qd.len ∧
        hd.inplaceScratchLen ≤ 2 * qd.len := by
      intro hq
      have h1 := (plan_ok q qd eq).small hq
      have h2 := (plan_ok h hd eh).small (by omega)
      omega
    have hdl : d.len = 4 * qd.len := by rw [(splitRadix_eq e).2]; rfl
    refine ⟨⟨_, splitRadix_implements iq ih e hs, ?_⟩, le_trans (after_pos ph (by decide)) (le_sup_left _ _).1⟩
    rw [hdl]
    exact sr_grow gq (by rw [← hlen]; exact gh)
  | raders i ihi =>
    intro d e
    obtain ⟨id, ei, e⟩ := bind_eq_ok e
    obtain ⟨⟨f, hf, gf⟩, pf⟩ := ihi id ei
    obtain ⟨g, gi, hdata⟩ := raders_data hf e
    have h1 := hdata.len
    have h2 := hdata.prime.two_le
    have hpl : id.len = id.len + 1 - 1 := by omega
    have hdl : d.len = id.len + 1 := by rw [hdata.eq]; rfl
    refine ⟨⟨_, hdata.implements hf, ?_⟩, ?_⟩
    · rw [hdl]
      exact rd_grow h2 gf pf fun i => rdTw_cost (p := id.len + 1) gf i
    · exact le_trans (by show 1 ≤ 1 + _; omega) (le_sup_left _ _).1

theorem growth_process (p : Plan) {d : Dht Cost} (hd : p.build Cost = .ok d) {n : ℕ} {q : List Cost}
    (hq : d.process (List.replicate n input) = .ok q) (h1 : d.len ≤ n) (h2 : d.len ∣ n) : Below p.growth q := by
  obtain ⟨⟨f, hi, hg⟩, hp⟩ := plan_growth p d hd
  have hb := hi.process (b := List.replicate n input) (by simpa using h1) (by simpa using h2)
  rw [hb] at hq
  cases hq
  have := hg.mapChunks hp (b := input) (by decide) (x := List.replicate n input) (fun q hq => by
    rw [List.eq_of_mem_replicate hq]; exact Cost.le_refl _)
  rwa [after_input] at this

/-- Larger costs allow larger numbers and errors. -/
theorem FloatModel.cost_mono {T : Type} [Zero T] [Add T] [Sub T] [Mul T] [Neg T] [FftNum T] {fin : T → Prop} {val : T → ℝ}
    {u η Ω : ℝ} {t s : ℕ} (hm : FloatModel fin val u η Ω t s) {A : ℝ} (hA : 0 ≤ A) {q q' : Cost} (h : q ≤ q') :
    q.size u η t s A ≤ q'.size u η t s A ∧ q.error u η t s A ≤ q'.error u η t s A := by
  obtain ⟨h1, h2, h3, h4, h5⟩ := h
  have hη := hm.η_nonneg
  have hd : q.depth t s ≤ q'.depth t s := by
    unfold Cost.depth
    exact add_le_add (add_le_add h3 (Nat.mul_le_mul_right _ h4)) (Nat.mul_le_mul_right _ h5)
  have hS : (0 : ℝ) ≤ max A 1 := le_trans hA (le_max_left _ _)
  have hp := hm.pow_le hd
  have hp1 := hm.one_le_pow (q'.depth t s)
  have hg : (q.g : ℝ) ≤ q'.g := by exact_mod_cast h1
  have hc : (q.c : ℝ) ≤ q'.c := by exact_mod_cast h2
  have hg' := mul_le_mul_of_nonneg_right hg hS
  have hc' := mul_le_mul_of_nonneg_left hc hη
  refine ⟨mul_le_mul hp (by linarith) (by positivity) (by linarith), ?_⟩
  unfold Cost.error
  have e1 := mul_le_mul_of_nonneg_right hp (show (0 : ℝ) ≤ q.g * A + η * q.c by positivity)
  have e2 := mul_le_mul_of_nonneg_left (mul_le_mul_of_nonneg_right hg hA) (by linarith : 0 ≤ (1 + u) ^ q'.depth t s - 1)
  have e3 := mul_le_mul_of_nonneg_left (mul_le_mul_of_nonneg_left hc hη) (by linarith : 0 ≤ (1 + u) ^ q'.depth t s)
  linarith

end RustDHT
