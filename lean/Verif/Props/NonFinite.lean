import Verif.Proofs.NonFinite
import Verif.Props.FirstCoefficient

/-! # C72: NaN and infinities

A number that is not finite cannot disappear in a transform: it shows in coefficient 0 of its chunk.  It need not show in every
coefficient, and it shows in no other chunk. -/

namespace RustDHT

/-- A NaN in a chunk makes coefficient 0 of the chunk NaN, an infinity makes it that infinity or NaN, two opposite infinities make
it NaN, and the results in the other chunks of the buffer are the same whatever the chunk holds. -/
theorem C72_shows {F : Fmt} [MathLib] (hz : MathLib.AtZero) (hF1 : F.emin ≤ 0) (hF2 : 0 < F.emax) (p : Plan)
    (d : Dht (Flt F)) (hd : p.build (Flt F) = .ok d) (hpos : 0 < d.len) (pre post : List (Flt F)) (h1 : d.len ∣ pre.length)
    (h2 : d.len ∣ post.length) :
    ∃ P Q, P.length = pre.length ∧ Q.length = post.length ∧ ∀ x, x.length = d.len →
      ∃ X X₀, d.process (pre ++ x ++ post) = .ok (P ++ X ++ Q) ∧ X.length = d.len ∧ X[0]? = some X₀ ∧
        (.nan ∈ x → X₀ = .nan) ∧ (∀ s, .inf s ∈ x → X₀ = .inf s ∨ X₀ = .nan) ∧
        (.inf true ∈ x → .inf false ∈ x → X₀ = .nan) := by
  obtain ⟨f, hf, h⟩ := plan_dc (fun n hn a => Flt.twiddle_zero hz hF1 hF2 hn a) p d hd hpos
  refine ⟨mapChunks d.len f pre, mapChunks d.len f post, length_mapChunks hpos hf.length pre, length_mapChunks hpos hf.length post,
    fun x hx => ?_⟩
  have hl := hf.length x hx
  have hs := h x hx
  rw [← hx, ms_nth, nth_eq_getElem (by omega)] at hs
  refine ⟨f x, (f x)[0], ?_, hl, List.getElem?_eq_getElem (by omega), fun hn => Flt.addsUp_nan hs hn,
    fun s hn => Flt.addsUp_inf hs s hn, fun ht hf' => ?_⟩
  · have hlen : (pre ++ x ++ post).length = pre.length + d.len + post.length := by simp [hx]; omega
    rw [hf.process (by omega) (by
      rw [hlen]; exact dvd_add (dvd_add h1 dvd_rfl) h2), mapChunks_append (by
      rw [List.length_append, hx]; exact dvd_add h1 dvd_rfl), mapChunks_append h1, mapChunks_single hpos hx]
  · rcases Flt.addsUp_inf hs true ht with e | e
    · rcases Flt.addsUp_inf hs false hf' with e' | e'
      · rw [e] at e'; cases e'
      · exact e'
    · exact e

/-- So if coefficient 0 is finite then all entries of the chunk are. -/
theorem C72_finite {F : Fmt} [MathLib] (hz : MathLib.AtZero) (hF1 : F.emin ≤ 0) (hF2 : 0 < F.emax) (p : Plan)
    (d : Dht (Flt F)) (hd : p.build (Flt F) = .ok d) (hpos : 0 < d.len) (x : List (Flt F)) (hx : x.length = d.len) :
    ∃ X X₀, d.process x = .ok X ∧ X[0]? = some X₀ ∧ (X₀.fin → ∀ a ∈ x, a.fin) := by
  obtain ⟨P, Q, hP, hQ, h⟩ := C72_shows hz hF1 hF2 p d hd hpos [] [] (dvd_zero _) (dvd_zero _)
  obtain ⟨X, X₀, h1, -, h2, h3, h4, -⟩ := h x hx
  rw [List.length_nil, List.length_eq_zero_iff] at hP hQ
  subst hP hQ
  refine ⟨X, X₀, by simpa using h1, h2, fun hfin a ha => ?_⟩
  cases a with
  | num => trivial
  | inf s =>
    rcases h4 s ha with e | e <;> (rw [e] at hfin; exact hfin)
  | nan => rw [h3 ha] at hfin; exact hfin

/-- `DhtNaive`: nothing finite is left in the chunk, whatever the table holds. -/
theorem C72_naive {F : Fmt} [MathLib] (n : ℕ) (x : List (Flt F)) (hx : x.length = n) (hb : ∃ a ∈ x, ¬a.fin) :
    ∃ X, (dhtNaive (Flt F) n).process x = .ok X ∧ X.length = n ∧ ∀ a ∈ X, ¬a.fin := by
  refine ⟨naiveFn _ n x, process_single (dhtNaive_implements n) (by rw [hx, dhtNaive_len]), length_tab _ _, fun a ha => ?_⟩
  obtain ⟨k, -, rfl⟩ : ∃ k, k < n ∧ naiveVal (naiveTwiddles (Flt F) n) x k = a := by
    obtain ⟨k, hk, rfl⟩ := List.getElem_of_mem ha
    have hk' : k < n := by simpa [naiveFn, length_tab] using hk
    refine ⟨k, hk', ?_⟩
    have := nth_tab (f := naiveVal (naiveTwiddles (Flt F) n) x) hk'
    rw [← this]
    exact nth_eq_getElem hk
  obtain ⟨b, hb, hn⟩ := hb
  obtain ⟨i, hi, rfl⟩ := List.getElem_of_mem hb
  have step : ∀ m, i < m → ¬((List.range m).foldl
      (fun acc i => acc + nth (naiveTwiddles (Flt F) n) (i * k % (naiveTwiddles (Flt F) n).length) * nth x i) 0).fin := by
    intro m hm
    induction m with
    | zero => omega
    | succ m ih =>
      rw [List.range_succ, List.foldl_append]
      refine Flt.not_fin_add ?_
      rcases Nat.lt_or_ge i m with h | h
      · exact .inl (ih h)
      · have e : i = m := by omega
        subst e
        right
        refine Flt.not_fin_mul ?_
        rwa [nth_eq_getElem hi]
  exact step _ hi

/-- This is not so of every composition: coefficients 1 and 5 of `Butterfly8` do not depend on the entries 3 and 7, whose factors in
the DHT are zero.  A NaN there leaves them as they are. -/
theorem C72_butterfly8 {T : Type} [Zero T] [Add T] [Sub T] [Mul T] [Neg T] [FftNum T] (x0 x1 x2 x4 x5 x6 : T) :
    ∃ X1 X5, ∀ x3 x7, ∃ X, (butterfly8 T).process [x0, x1, x2, x3, x4, x5, x6, x7] = .ok X ∧ X[1]? = some X1 ∧ X[5]? = some X5 :=
  ⟨_, _, fun _ _ => ⟨_, process_single butterfly8_implements rfl, rfl, rfl⟩⟩

/-! ## Cases -/

/-- `MixedRadix2xn` of `Butterfly3` in `f32`, three chunks, with an infinity and a NaN in the second one. -/
example [MathLib] (hz : MathLib.AtZero) : ∃ P Q : List (Flt binary32), P.length = 6 ∧ Q.length = 6 ∧
    (∀ a : Flt binary32, ∃ X, (mixedRadix2xn (butterfly3 (Flt binary32))).process
      (List.replicate 6 0 ++ [a, .inf true, 0, 0, a, 0] ++ List.replicate 6 0) = .ok (P ++ X ++ Q) ∧
        (X[0]? = some (.inf true) ∨ X[0]? = some .nan)) ∧
    ∃ X, (mixedRadix2xn (butterfly3 (Flt binary32))).process
      (List.replicate 6 0 ++ [0, .inf true, 0, .nan, 0, 0] ++ List.replicate 6 0) = .ok (P ++ X ++ Q) ∧ X[0]? = some .nan := by
  obtain ⟨P, Q, hP, hQ, h⟩ := C72_shows (F := binary32) hz (by decide) (by decide) (.mr2 .b3) (mixedRadix2xn (butterfly3 _)) rfl
    (show 0 < 6 by decide) (List.replicate 6 0) (List.replicate 6 0) (show 6 ∣ 6 by decide) (show 6 ∣ 6 by decide)
  refine ⟨P, Q, hP, hQ, fun a => ?_, ?_⟩
  · obtain ⟨X, X₀, h1, -, h2, -, h4, -⟩ := h [a, .inf true, 0, 0, a, 0] rfl
    exact ⟨X, h1, by rcases h4 true (by simp) with e | e <;> rw [h2, e] <;> simp⟩
  · obtain ⟨X, X₀, h1, -, h2, h3, -⟩ := h [0, .inf true, 0, .nan, 0, 0] rfl
    exact ⟨X, h1, by rw [h2, h3 (by simp)]⟩

/-- Two lists to which `C72_naive` applies. -/
example [MathLib] : ∃ X, (dhtNaive (Flt binary64) 3).process [0, .nan, 0] = .ok X ∧ X.length = 3 ∧ ∀ a ∈ X, ¬a.fin :=
  C72_naive 3 _ rfl ⟨.nan, by simp, id⟩
example [MathLib] : ∃ X, (dhtNaive (Flt binary64) 4).process [0, 0, .inf false, 0] = .ok X ∧ X.length = 4 ∧ ∀ a ∈ X, ¬a.fin :=
  C72_naive 4 _ rfl ⟨.inf false, by simp, id⟩

end RustDHT
