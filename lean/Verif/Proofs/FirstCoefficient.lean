import Verif.Spec.Sums
import Verif.Proofs.Plan
import Verif.Proofs.Radix4Perm
import Verif.Proofs.PlanRounding
import Mathlib.Data.Multiset.Range
import Mathlib.Algebra.BigOperators.Group.Multiset.Basic
import Mathlib.Data.Multiset.ZeroCons

/-! # The first output is a plain sum of the inputs -/

set_option linter.unusedSectionVars false

namespace RustDHT

section Sums
variable {T : Type} [Zero T] [Add T]

/-- Sums of sums. -/
theorem AddsUp.sums {s : Multiset T} {a : T} (h : AddsUp s a) :
    ∀ {S : Multiset (Multiset T)}, Multiset.Rel AddsUp S s → AddsUp S.sum a := by
  induction h with
  | one a =>
    intro S hS
    rw [← Multiset.cons_zero, Multiset.rel_cons_right] at hS
    obtain ⟨u, S', h1, h2, rfl⟩ := hS
    rw [Multiset.rel_zero_right] at h2
    subst h2
    simpa using h1
  | zero _ ih => intro S hS; exact .zero (ih hS)
  | add _ _ ih1 ih2 =>
    intro S hS
    rw [Multiset.rel_add_right] at hS
    obtain ⟨S1, S2, h1, h2, rfl⟩ := hS
    rw [Multiset.sum_add]
    exact .add (ih1 h1) (ih2 h2)

/-- The numbers `f 0, ..., f (n - 1)`. -/
def ms (n : Nat) (f : Nat → T) : Multiset T := (Multiset.range n).map f

omit [Zero T] [Add T] in
theorem ms_tab (n : Nat) (f : Nat → T) : (tab n f : Multiset T) = ms n f := rfl

omit [Add T] in
theorem ms_nth (x : List T) : ms x.length (nth x) = (x : Multiset T) := by rw [← ms_tab, tab_nth]

omit [Zero T] [Add T] in
theorem ms_congr {n : Nat} {f g : Nat → T} (h : ∀ i < n, f i = g i) : ms n f = ms n g :=
  Multiset.map_congr rfl fun i hi => h i (Multiset.mem_range.1 hi)

omit [Zero T] [Add T] in
theorem ms_add (n m : Nat) (f : Nat → T) : ms (n + m) f = ms n f + ms m fun i => f (n + i) := by
  induction m with
  | zero => simp [ms]
  | succ m ih =>
    have h : ∀ (k : Nat) (g : Nat → T), ms (k + 1) g = g k ::ₘ ms k g := fun k g => by simp [ms, Multiset.range_succ]
    rw [← Nat.add_assoc, h, ih, h, Multiset.add_cons]

omit [Zero T] [Add T] in
theorem ms_mul (n m : Nat) (f : Nat → T) :
    ((Multiset.range n).map fun p => ms m fun i => f (p * m + i)).sum = ms (n * m) f := by
  induction n with
  | zero => simp [ms]
  | succ n ih => rw [Multiset.range_succ, Multiset.map_cons, Multiset.sum_cons, ih, Nat.add_mul, Nat.one_mul, ms_add, add_comm]

omit [Zero T] [Add T] in
/-- Reordering. -/
theorem ms_perm {n : Nat} {σ : Nat → Nat} (hlt : ∀ i < n, σ i < n) (hinj : ∀ i < n, ∀ j < n, σ i = σ j → i = j) (f : Nat → T) :
    ms n (fun i => f (σ i)) = ms n f := by
  have h : (Multiset.range n).map σ = Multiset.range n := by
    refine Multiset.eq_of_le_of_card_le ((Multiset.le_iff_subset ?_).2 ?_) (by simp)
    · exact Multiset.Nodup.map_on
        (fun i hi j hj => hinj i (Multiset.mem_range.1 hi) j (Multiset.mem_range.1 hj)) (Multiset.nodup_range n)
    · intro i hi
      obtain ⟨j, hj, rfl⟩ := Multiset.mem_map.1 hi
      exact Multiset.mem_range.2 (hlt j (Multiset.mem_range.1 hj))
  conv_rhs => rw [ms, ← h, Multiset.map_map]
  rfl

theorem rel_range {n : Nat} {S : Nat → Multiset T} {b : Nat → T} (h : ∀ p < n, AddsUp (S p) (b p)) :
    Multiset.Rel AddsUp ((Multiset.range n).map S) (ms n b) := by
  induction n with
  | zero => simp [ms]
  | succ n ih =>
    rw [ms, Multiset.range_succ, Multiset.map_cons, Multiset.map_cons]
    exact .cons (h n (by omega)) (ih fun p hp => h p (by omega))

theorem AddsUp.nest {w h : Nat} {a : T} {b g : Nat → T} (ha : AddsUp (ms w b) a)
    (hb : ∀ p < w, AddsUp (ms h fun i => g (p * h + i)) (b p)) : AddsUp (ms (w * h) g) a := by
  have := ha.sums (rel_range hb)
  rwa [ms_mul] at this

theorem AddsUp.pairs {n : Nat} {a : T} {u v : Nat → T} (ha : AddsUp (ms n fun p => u p + v p) a) :
    AddsUp (ms n u + ms n v) a := by
  have := ha.sums (rel_range (S := fun p => {u p} + {v p}) fun p _ => .add (.one _) (.one _))
  rw [Multiset.sum_map_add] at this
  have e : ∀ f : Nat → T, ((Multiset.range n).map fun p => ({f p} : Multiset T)).sum = ms n f := fun f => by
    have := Multiset.sum_map_singleton (ms n f)
    rwa [ms, Multiset.map_map] at this
  rwa [e, e] at this

theorem AddsUp.cast {s t : Multiset T} {a : T} (h : AddsUp s a) (e : s = t) : AddsUp t a := e ▸ h

/-- The first output of `f` adds up the inputs. -/
def Dc (n : Nat) (f : List T → List T) : Prop := ∀ x, x.length = n → AddsUp (ms n (nth x)) (nth (f x) 0)

end Sums

variable {T : Type} [Zero T] [Add T] [Sub T] [Mul T] [Neg T] [FftNum T]

/-! ## Leaves -/

theorem naive_dc {n : Nat} (hn : 0 < n) (h1 : ∀ a : T, computeDhtTwiddle T 0 n * a = a) : Dc n (naiveFn T n) := by
  intro x hx
  rw [naiveFn, nth_tab hn, naiveVal, hx]
  have hlen : (naiveTwiddles T n).length = n := length_naiveTwiddles n
  have ht : nth (naiveTwiddles T n) 0 = computeDhtTwiddle T 0 n := by
    rw [show naiveTwiddles T n = tab n fun i => computeDhtTwiddle T i n from rfl, nth_tab hn]
  have key : ∀ m, AddsUp (ms (m + 1) (nth x))
      ((List.range (m + 1)).foldl (fun acc i => acc + nth (naiveTwiddles T n) (i * 0 % (naiveTwiddles T n).length) * nth x i) 0) := by
    intro m
    induction m with
    | zero =>
      simp only [List.range_succ, List.range_zero, List.nil_append, List.foldl_cons, List.foldl_nil, Nat.mul_zero, Nat.zero_mod,
        ht, h1]
      exact .zero (.one _)
    | succ m ih =>
      rw [List.range_succ, List.foldl_append, ms_add (m + 1) 1]
      refine .add ih ?_
      simp only [Nat.mul_zero, Nat.zero_mod, ht, h1]
      exact .one _
  have := key (n - 1)
  rwa [Nat.sub_add_cancel hn] at this

theorem b1_dc : Dc 1 (id : List T → List T) := by
  intro x _
  exact .one _

/-- Finds the order in which a literal list is added up. -/
macro "adds_up" : tactic => `(tactic| (
  apply AddsUp.cast
  · repeat first | apply AddsUp.add | exact AddsUp.one _
  · simp only [ms, nth, Multiset.range_succ, Multiset.range_zero, Multiset.map_cons, Multiset.map_zero, List.getElem?_cons_zero,
      List.getElem?_cons_succ, Option.getD_some]
    simp only [← Multiset.singleton_add]
    abel))

theorem b2_dc : Dc 2 (bflyFn contiguous2 : List T → List T) := by
  intro x hx
  obtain ⟨a, b, rfl⟩ := list2 hx
  adds_up

theorem b3_dc : Dc 3 (bflyFn contiguous3 : List T → List T) := by
  intro x hx
  obtain ⟨a, b, c, rfl⟩ := list3 hx
  adds_up

theorem b4_dc : Dc 4 (bflyFn contiguous4 : List T → List T) := by
  intro x hx
  obtain ⟨a, b, c, d, rfl⟩ := list4 hx
  adds_up

theorem b5_dc : Dc 5 (bflyFn contiguous5 : List T → List T) := by
  intro x hx
  obtain ⟨a, b, c, d, e, rfl⟩ := list5 hx
  adds_up

theorem b6_dc : Dc 6 (bflyFn contiguous6 : List T → List T) := by
  intro x hx
  obtain ⟨a, b, c, d, e, f, rfl⟩ := list6 hx
  adds_up

theorem b8_dc : Dc 8 (bflyFn contiguous8 : List T → List T) := by
  intro x hx
  obtain ⟨a, b, c, d, e, f, g, h, rfl⟩ := list8 hx
  adds_up

theorem b9_dc : Dc 9 (bflyFn contiguous9 : List T → List T) := by
  intro x hx
  obtain ⟨a, b, c, d, e, f, g, h, i, rfl⟩ := list9 hx
  adds_up

theorem b16_dc : Dc 16 (bflyFn contiguous16 : List T → List T) := by
  intro x hx
  obtain ⟨a, b, c, d, e, f, g, h, i, j, k, l, m, n, o, p, rfl⟩ := list16 hx
  have key : bflyFn contiguous16 [a, b, c, d, e, f, g, h, i, j, k, l, m, n, o, p]
      = b16List a b c d e f g h i j k l m n o p := by
    refine run_eq ?_
    rw [performInPlace, b16_eval (h := if_pos rfl), ok_bind]
  have e0 : nth (b16List a b c d e f g h i j k l m n o p) 0
      = ((a + i) + (e + m) + ((c + k) + (g + o))) + ((b + j) + (f + n) + ((d + l) + (h + p))) := rfl
  rw [key, e0]
  adds_up

/-! ## Columns -/

theorem columns_dc {k h : Nat} {c : RawIO T → Res (RawIO T)}
    {kernel : List (Cx T) → List T → List T → Res (List T × List T)} {tw : List (List (Cx T))} (hk0 : 0 < k) (hh : 0 < h)
    (hc : Dc k (bflyFn c)) (h0 : Total k (performInPlace c)) (htw : tw.length = h / 2)
    (hk : ∀ t ∈ tw, KernelTotal k kernel t) {x : List T} (hx : x.length = k * h) :
    AddsUp (ms k fun r => nth x (r * h)) (nth (run (applyColumns k h (performInPlace c) kernel tw) x) 0) := by
  rw [nth_run_applyColumns hh h0 htw hk hx (Nat.mul_pos hk0 hh), columnVal, Nat.zero_mod, if_pos rfl, Nat.zero_div]
  exact (hc (col k h x 0) (by simp)).cast (ms_congr fun i hi => by rw [col, nth_tab hi]; rfl)

theorem mr2_dc {h : Nat} (hh : 0 < h) {x : List T} (hx : x.length = 2 * h) :
    AddsUp (ms 2 fun r => nth x (r * h)) (nth (run (mr2Apply T h) x) 0) :=
  columns_dc (by omega) hh b2_dc (total_of_performs performs2) (by simp [mr2Chunks]) (mem_map_range fun _ => mr2Kernel_total _) hx
theorem mr3_dc {h : Nat} (hh : 0 < h) {x : List T} (hx : x.length = 3 * h) :
    AddsUp (ms 3 fun r => nth x (r * h)) (nth (run (mr3Apply T h) x) 0) :=
  columns_dc (by omega) hh b3_dc (total_of_performs performs3) (by simp [mr3Chunks]) (mem_map_range fun _ => mr3Kernel_total _) hx
theorem mr4_dc {h : Nat} (hh : 0 < h) {x : List T} (hx : x.length = 4 * h) :
    AddsUp (ms 4 fun r => nth x (r * h)) (nth (run (mr4Apply T h) x) 0) :=
  columns_dc (by omega) hh b4_dc (total_of_performs performs4) (by simp [mr4Chunks]) (mem_map_range fun _ => mr4Kernel_total _ _) hx
theorem mr5_dc {h : Nat} (hh : 0 < h) {x : List T} (hx : x.length = 5 * h) :
    AddsUp (ms 5 fun r => nth x (r * h)) (nth (run (mr5Apply T h) x) 0) :=
  columns_dc (by omega) hh b5_dc (total_of_performs performs5) (by simp [mr5Chunks]) (mem_map_range fun _ => mr5Kernel_total _ _) hx
theorem mr6_dc {h : Nat} (hh : 0 < h) {x : List T} (hx : x.length = 6 * h) :
    AddsUp (ms 6 fun r => nth x (r * h)) (nth (run (mr6Apply T h) x) 0) :=
  columns_dc (by omega) hh b6_dc (total_of_performs performs6) (by simp [mr6Chunks])
    (mem_map_range fun _ => mr6Kernel_total _ _ _) hx
theorem r4Apply_dc {h t : Nat} (hh : 0 < h) {x : List T} (hx : x.length = 4 * h) :
    AddsUp (ms 4 fun r => nth x (r * h)) (nth (run (r4Apply T h t) x) 0) :=
  columns_dc (by omega) hh b4_dc (total_of_performs performs4) (by simp [r4Chunks]) r4Chunks_total hx

/-! ## Reorderings -/

theorem step1_perm {w h : Nat} (g : Nat → T) :
    ms (w * h) (fun p => g (revRow w h (p / h) (p % h) * w + p / h)) = ms (w * h) g := by
  have hlt : ∀ p < w * h, revRow w h (p / h) (p % h) < h ∧ p / h < w ∧ p % h < h := by
    intro p hp
    have hq := mod_lt_of_lt_mul hp
    have hc := div_lt_of_lt_mul' hp
    refine ⟨?_, hc, hq⟩
    unfold revRow
    split <;> omega
  refine ms_perm (fun p hp => ?_) (fun p hp q hq e => ?_) g
  · obtain ⟨h1, h2, _⟩ := hlt p hp
    calc _ < revRow w h (p / h) (p % h) * w + w := by omega
      _ = (revRow w h (p / h) (p % h) + 1) * w := by rw [Nat.add_mul, Nat.one_mul]
      _ ≤ h * w := Nat.mul_le_mul_right _ h1
      _ = w * h := Nat.mul_comm _ _
  · obtain ⟨h1, h2, h5⟩ := hlt p hp
    obtain ⟨h3, h4, h6⟩ := hlt q hq
    have hw : 0 < w := Nat.zero_lt_of_lt h2
    have e1 := congrArg (· / w) e
    have e2 := congrArg (· % w) e
    simp only [Nat.mul_comm _ w, Nat.mul_add_div hw, Nat.mul_add_mod, Nat.div_eq_of_lt h2, Nat.div_eq_of_lt h4,
      Nat.mod_eq_of_lt h2, Nat.mod_eq_of_lt h4, Nat.add_zero] at e1 e2
    have e3 : p % h = q % h := by
      rw [e2] at e1
      unfold revRow at e1
      split at e1 <;> omega
    rw [← Nat.div_add_mod p h, ← Nat.div_add_mod q h, e2, e3]

/-- Chunks. -/
theorem chunk_dc {w h : Nat} (hh : 0 < h) {f : List T → List T} (hf : Dc h f) (hl : ∀ x, x.length = h → (f x).length = h)
    {x : List T} (hx : x.length = w * h) {p : Nat} (hp : p < w) :
    AddsUp (ms h fun i => nth x (p * h + i)) (nth (mapChunks h f x) (p * h)) := by
  have hc : (p + 1) * h ≤ x.length := by rw [hx]; exact Nat.mul_le_mul_right _ hp
  have := nth_mapChunks hl (l := x) (c := p) (i := 0) hh hc
  rw [Nat.add_zero] at this
  rw [this]
  have hlen : ((x.drop (p * h)).take h).length = h := by
    rw [Nat.add_mul] at hc
    rw [List.length_take, List.length_drop]; omega
  exact (hf _ hlen).cast (ms_congr fun i hi => by rw [nth_take hi, nth_drop])

/-! ## Algorithms -/

theorem mrn_dc {k h : Nat} (hh : 0 < h) {f : List T → List T} (hf : Dc h f) (hl : ∀ x, x.length = h → (f x).length = h)
    {ap : List T → Res (List T)}
    (ha : ∀ {x : List T}, x.length = k * h → AddsUp (ms k fun r => nth x (r * h)) (nth (run ap x) 0)) :
    Dc (k * h) (mrnFn k h f ap) := by
  intro x hx
  rw [mrnFn]
  have h1 : (tab (k * h) fun p => nth x (revRow k h (p / h) (p % h) * k + p / h)).length = k * h := by simp
  have h2 := ha (x := mapChunks h f (tab (k * h) fun p => nth x (revRow k h (p / h) (p % h) * k + p / h)))
    (by rw [length_mapChunks hh hl, h1])
  refine (h2.nest fun p hp => chunk_dc hh hf hl h1 hp).cast ?_
  rw [← step1_perm (nth x)]
  exact ms_congr fun i hi => nth_tab hi

theorem mr_dc {w h : Nat} (hw : 0 < w) (hh : 0 < h) {fw fh : List T → List T} (gw : Dc w fw)
    (lw : ∀ x, x.length = w → (fw x).length = w) (gh : Dc h fh) (lh : ∀ x, x.length = h → (fh x).length = h) :
    Dc (w * h) (mrFn w h fw fh) := by
  intro x hx
  have hwh : 0 < w * h := Nat.mul_pos hw hh
  have hhw : 0 < h * w := Nat.mul_pos hh hw
  simp only [mrFn]
  rw [nth_tab hwh]
  simp only [Nat.zero_mod, Nat.zero_div, Nat.zero_mul, Nat.zero_add]
  rw [nth_tab hhw]
  simp only [Nat.zero_mod, Nat.zero_div, Nat.zero_mul, Nat.zero_add, if_pos (show 0 < (h + 1) / 2 by omega)]
  have h1 : (mrStep1 w h x).length = w * h := by simp [mrStep1]
  have h2 := chunk_dc (w := h) hw gw lw (x := tab (h * w) fun p =>
    nth (tab (w * h) fun p => mrVal w h (mapChunks h fh (mrStep1 w h x)) (p / h) (p % h)) (p % w * h + p / w)) (by simp) hh
  rw [Nat.zero_mul] at h2
  refine (h2.nest (h := h) (g := nth (mrStep1 w h x)) fun p hp => ?_).cast ?_
  · have hp' : p * h < w * h := Nat.mul_lt_mul_of_pos_right hp hh
    have hp'' : p < h * w := lt_of_lt_of_le hp (Nat.le_mul_of_pos_left _ hh)
    rw [Nat.zero_add, nth_tab hp'', Nat.mod_eq_of_lt hp, Nat.div_eq_of_lt hp, Nat.add_zero, nth_tab hp', Nat.mul_div_cancel _ hh,
      Nat.mul_mod_left, mrVal, if_pos (Or.inr rfl)]
    exact chunk_dc hh gh lh h1 hp
  · rw [← step1_perm (nth x)]
    exact ms_congr fun i hi => nth_tab hi

theorem layers_dc (l : Nat) : ∀ {h : Nat}, 0 < h → ∀ {x : List T}, x.length = h * 4 ^ l →
    AddsUp (ms (4 ^ l) fun p => nth x (p * h)) (nth (r4Layers T h l x) 0) := by
  induction l with
  | zero =>
    intro h hh x hx
    have e : nth x 0 = nth x (0 * h) := by rw [Nat.zero_mul]
    show AddsUp _ (nth x 0)
    rw [e]
    exact .one _
  | succ l ih =>
    intro h hh x hx
    have hl : ∀ y : List T, y.length = 4 * h → (run (r4Apply T h (4 ^ l)) y).length = 4 * h :=
      fun y hy => (r4Apply_total hh).length hy
    have hx' : x.length = 4 ^ l * (4 * h) := by rw [hx, pow_succ]; ring
    have h2 := ih (h := 4 * h) (by omega) (x := mapChunks (4 * h) (run (r4Apply T h (4 ^ l))) x)
      (by rw [length_mapChunks (by omega) hl, hx']; ring)
    rw [pow_succ]
    refine h2.nest (g := fun q => nth x (q * h)) fun p hp => ?_
    have hc : (p + 1) * (4 * h) ≤ x.length := by rw [hx']; exact Nat.mul_le_mul_right _ hp
    have e := nth_mapChunks hl (l := x) (c := p) (i := 0) (by omega) hc
    rw [Nat.add_zero] at e
    rw [e]
    have hlen : ((x.drop (p * (4 * h))).take (4 * h)).length = 4 * h := by
      rw [Nat.add_mul] at hc
      rw [List.length_take, List.length_drop]; omega
    refine (r4Apply_dc hh hlen).cast (ms_congr fun i hi => ?_)
    rw [nth_take (Nat.mul_lt_mul_of_pos_right hi hh), nth_drop]
    congr 1
    ring

theorem radix4_dc (m : Nat) : Dc (2 ^ m) (radix4Fn T m) := by
  have hb : Dc (r4BaseLen m) (r4BaseFn T m) ∧ ∀ x : List T, x.length = r4BaseLen m → (r4BaseFn T m x).length = r4BaseLen m := by
    match m with
    | 0 => exact ⟨b1_dc, fun _ h => h⟩
    | 1 => exact ⟨b2_dc, performs2.length⟩
    | 2 => exact ⟨b4_dc, performs4.length⟩
    | m + 3 =>
      by_cases hm : (m + 3) % 2 = 1
      · simp only [r4BaseLen, r4BaseFn, if_pos hm]; exact ⟨b8_dc, performs8.length⟩
      · simp only [r4BaseLen, r4BaseFn, if_neg hm]; exact ⟨b16_dc, performs16.length⟩
  have hpos := r4BaseLen_pos m
  rw [r4_len m]
  unfold radix4Fn
  generalize r4BaseLen m = base at *
  generalize r4Levels m = l at *
  generalize r4BaseFn T m = f at *
  intro x hx
  rw [r4Fn]
  have h1 : (tab (base * 4 ^ l) fun p => nth x (r4Index base l false p)).length = 4 ^ l * base := by simp [Nat.mul_comm]
  have h2 := layers_dc l hpos (x := mapChunks base f (tab (base * 4 ^ l) fun p => nth x (r4Index base l false p)))
    (by rw [length_mapChunks hpos hb.2, h1, Nat.mul_comm])
  refine (h2.nest fun p hp => chunk_dc hpos hb.1 hb.2 h1 hp).cast ?_
  rw [Nat.mul_comm (4 ^ l), ← ms_perm (fun i hi => r4Index_lt hpos l false i hi)
    (fun i hi j hj e => r4Index_inj hpos l false hi hj e) (nth x)]
  exact ms_congr fun i hi => nth_tab hi

theorem sr_dc {q : Nat} (hq : 0 < q) {fq fh : List T → List T} (hh : Dc (2 * q) fh) : Dc (4 * q) (srFn q fq fh) := by
  intro x hx
  rw [srFn, nth_tab (by omega), if_pos rfl]
  have h1 := hh (tab (2 * q) (srEven q x)) (by simp)
  have h2 : AddsUp (ms (2 * q) fun p => nth x p + nth x (2 * q + p)) (nth (fh (tab (2 * q) (srEven q x))) 0) :=
    h1.cast (ms_congr fun i hi => by rw [nth_tab hi]; rfl)
  exact h2.pairs.cast (by rw [← ms_add, ← Nat.two_mul, ← Nat.mul_assoc])

theorem rd_dc {p g gi : Nat} (hp : p.Prime) (hg0 : 0 < g) (hgp : g < p) (hg : orderOf (g : ZMod p) = p - 1) {tw : Nat → Cx T} {f : List T → List T}
    (hf : Dc (p - 1) f) : Dc p (rdFn p g gi tw f) := by
  intro x hx
  have h2 := hp.two_le
  have h1 := hf (rdIn p g x) (by simp [rdIn])
  have e : nth (rdFn p g gi tw f x) 0 = nth x 0 + nth (f (rdIn p g x)) 0 := rfl
  rw [e]
  refine (AddsUp.add (.one _) h1).cast ?_
  have hpow := fun j => pow_mod_pos hp hg0 hgp j
  have e1 : ms p (nth x) = ms (1 + (p - 1)) (nth x) := by rw [Nat.add_sub_cancel' (by omega)]
  rw [e1, ← ms_perm (n := 1 + (p - 1)) (σ := fun j => if j = 0 then 0 else g ^ (j - 1) % p) ?_ ?_ (nth x), ms_add]
  · congr 1
    refine ms_congr fun j hj => ?_
    rw [rdIn, nth_tab hj, if_neg (by omega), Nat.add_sub_cancel_left]
  · intro i _
    split
    · omega
    · have := Nat.mod_lt (g ^ (i - 1)) hp.pos; omega
  · intro i hi j hj e
    have h3 := hpow (i - 1)
    have h4 := hpow (j - 1)
    split at e <;> split at e
    · omega
    · omega
    · omega
    · have := pow_mod_inj hg (i := i - 1) (j := j - 1) (by omega) (by omega) e
      omega

/-! ## Compositions -/

theorem plan_dc (h1 : ∀ n, 0 < n → ∀ a : T, computeDhtTwiddle T 0 n * a = a) (p : Plan) :
    ∀ d : Dht T, p.build T = .ok d → 0 < d.len → ∃ f, Implements d f ∧ Dc d.len f := by
  have small : ∀ {p : Plan} {d : Dht T} (k : ℕ), 1 ≤ k → p.build T = .ok d →
      (0 < d.len → d.inplaceScratchLen ≤ k * d.len) ∧ (0 < d.len → d.oopScratchLen = 0) := by
    intro p d k hk e
    have h := (plan_ok p d e).small
    exact ⟨fun hpos => le_trans (h hpos).2 (Nat.le_mul_of_pos_left _ hk), fun hpos => (h hpos).1⟩
  have mrk : ∀ {k : ℕ} {hd d : Dht T} {ap : List T → Res (List T)}, d.len = k * hd.len → 0 < d.len →
      (0 < hd.len → ∃ f, Implements hd f ∧ Dc hd.len f) →
      (∀ f, Implements hd f → Implements d (mrnFn k hd.len f ap)) →
      (0 < hd.len → ∀ {x : List T}, x.length = k * hd.len → AddsUp (ms k fun r => nth x (r * hd.len)) (nth (run ap x) 0)) →
      ∃ f, Implements d f ∧ Dc d.len f := by
    intro k hd d ap hlen hpos ih hi ha
    have hh : 0 < hd.len := Nat.pos_of_mul_pos_left (lt_of_lt_of_eq hpos hlen)
    obtain ⟨f, i1, g1⟩ := ih hh
    exact ⟨_, hi f i1, by rw [hlen]; exact mrn_dc hh g1 i1.length (ha hh)⟩
  induction p with
  | naive n =>
    rintro d ⟨⟩ hpos
    rw [dhtNaive_len] at hpos ⊢
    exact ⟨_, dhtNaive_implements n, naive_dc hpos (h1 n hpos)⟩
  | b1 => rintro d ⟨⟩ _; exact ⟨_, butterfly1_implements, b1_dc⟩
  | b2 => rintro d ⟨⟩ _; exact ⟨_, boilerplateFftButterfly_implements (by omega) performs2, b2_dc⟩
  | b3 => rintro d ⟨⟩ _; exact ⟨_, boilerplateFftButterfly_implements (by omega) performs3, b3_dc⟩
  | b4 => rintro d ⟨⟩ _; exact ⟨_, boilerplateFftButterfly_implements (by omega) performs4, b4_dc⟩
  | b5 => rintro d ⟨⟩ _; exact ⟨_, boilerplateFftButterfly_implements (by omega) performs5, b5_dc⟩
  | b6 => rintro d ⟨⟩ _; exact ⟨_, boilerplateFftButterfly_implements (by omega) performs6, b6_dc⟩
  | b8 => rintro d ⟨⟩ _; exact ⟨_, boilerplateFftButterfly_implements (by omega) performs8, b8_dc⟩
  | b9 => rintro d ⟨⟩ _; exact ⟨_, boilerplateFftButterfly_implements (by omega) performs9, b9_dc⟩
  | b16 => rintro d ⟨⟩ _; exact ⟨_, boilerplateFftButterfly_implements (by omega) performs16, b16_dc⟩
  | mixedRadix w h ihw ihh =>
    intro d e hpos
    obtain ⟨wd, ew, e⟩ := bind_eq_ok e
    obtain ⟨hd, eh, e⟩ := bind_eq_ok e
    cases e
    have hpos' : 0 < wd.len * hd.len := hpos
    have hw : 0 < wd.len := Nat.pos_of_mul_pos_right hpos'
    have hh : 0 < hd.len := Nat.pos_of_mul_pos_left hpos'
    obtain ⟨fw, iw, gw⟩ := ihw wd ew hw
    obtain ⟨fh, ih, gh⟩ := ihh hd eh hh
    exact ⟨_, mixedRadix_implements iw ih, mr_dc hw hh gw iw.length gh ih.length⟩
  | mr2 h ihh =>
    intro d e hpos
    obtain ⟨hd, eh, e⟩ := bind_eq_ok e
    cases e
    exact mrk rfl hpos (ihh hd eh) (fun f i => mr2_implements i (small 2 (by omega) eh).1 (small 2 (by omega) eh).2) mr2_dc
  | mr3 h ihh =>
    intro d e hpos
    obtain ⟨hd, eh, e⟩ := bind_eq_ok e
    cases e
    exact mrk rfl hpos (ihh hd eh) (fun f i => mr3_implements i (small 3 (by omega) eh).1 (small 2 (by omega) eh).2) mr3_dc
  | mr4 h ihh =>
    intro d e hpos
    obtain ⟨hd, eh, e⟩ := bind_eq_ok e
    cases e
    exact mrk rfl hpos (ihh hd eh) (fun f i => mr4_implements i (small 4 (by omega) eh).1 (small 2 (by omega) eh).2) mr4_dc
  | mr5 h ihh =>
    intro d e hpos
    obtain ⟨hd, eh, e⟩ := bind_eq_ok e
    cases e
    exact mrk rfl hpos (ihh hd eh) (fun f i => mr5_implements i (small 5 (by omega) eh).1 (small 2 (by omega) eh).2) mr5_dc
  | mr6 h ihh =>
    intro d e hpos
    obtain ⟨hd, eh, e⟩ := bind_eq_ok e
    cases e
    exact mrk rfl hpos (ihh hd eh) (fun f i => mr6_implements i (small 6 (by omega) eh).1 (small 2 (by omega) eh).2) mr6_dc
  | radix4 n =>
    intro d e hpos
    obtain ⟨m, rfl⟩ := radix4_isPow e
    have e' : RustDHT.radix4 T (2 ^ m) = .ok d := e
    have hlen : d.len = 2 ^ m := by
      have h := e'
      rw [radix4_eq] at h
      cases h
      rfl
    exact ⟨_, radix4_implements e', by rw [hlen]; exact radix4_dc m⟩
  | splitRadix q h ihq ihh =>
    intro d e hpos
    obtain ⟨qd, eq, e⟩ := bind_eq_ok e
    obtain ⟨hd, eh, e⟩ := bind_eq_ok e
    have hlen := (splitRadix_eq e).1
    have hdl : d.len = 4 * qd.len := by rw [(splitRadix_eq e).2]; rfl
    have hq : 0 < qd.len := by omega
    obtain ⟨fq, iq, gq⟩ := ihq qd eq hq
    obtain ⟨fh, ih, gh⟩ := ihh hd eh (by omega)
    have hs : 0 < qd.len → qd.oopScratchLen = 0 ∧ qd.inplaceScratchLen ≤ 4 * qd.len ∧
        hd.inplaceScratchLen ≤ 2 * qd.len := by
      intro hq
      have h1 := (plan_ok q qd eq).small hq
      have h2 := (plan_ok h hd eh).small (by omega)
      omega
    refine ⟨_, splitRadix_implements iq ih e hs, ?_⟩
    rw [hdl]
    exact sr_dc hq (by rw [← hlen]; exact gh)
  | raders i ihi =>
    intro d e hpos
    obtain ⟨id, ei, e⟩ := bind_eq_ok e
    obtain ⟨f0, i0⟩ : ∃ f, Implements id f := (plan_ok i id ei).implements
    obtain ⟨_, _, hdata0⟩ := raders_data i0 e
    have h2 := hdata0.prime.two_le
    obtain ⟨f, hf, gf⟩ := ihi id ei (by omega)
    obtain ⟨g, gi, hdata⟩ := raders_data hf e
    have hdl : d.len = id.len + 1 := by rw [hdata.eq]; rfl
    refine ⟨_, hdata.implements hf, ?_⟩
    rw [hdl]
    exact rd_dc hdata.prime (by have := hdata.g_gt; omega) hdata.g_lt hdata.g_order gf

theorem sumsFirst_iff {d : Dht T} {f : List T → List T} (hf : Implements d f) :
    (∀ x, x.length = d.len → 0 < d.len → ∃ a, (f x)[0]? = some a ∧ AddsUp (x : Multiset T) a) ↔ (0 < d.len → Dc d.len f) := by
  constructor
  · intro h hpos x hx
    obtain ⟨a, e, ha⟩ := h x hx hpos
    have hl := hf.length x hx
    rw [List.getElem?_eq_getElem (by omega)] at e
    cases e
    rwa [← hx, ms_nth, nth_eq_getElem (by omega)]
  · intro h x hx hpos
    have hl := hf.length x hx
    refine ⟨(f x)[0], List.getElem?_eq_getElem (by omega), ?_⟩
    have := h hpos x hx
    rwa [← hx, ms_nth, nth_eq_getElem (by omega)] at this

theorem sumsFirst_columns {k : ℕ} {hd d : Dht T} {ap : List T → Res (List T)} (hlen : d.len = k * hd.len) (hh : SumsFirst hd)
    (hi : ∀ f, Implements hd f → Implements d (mrnFn k hd.len f ap))
    (ha : 0 < hd.len → ∀ {x : List T}, x.length = k * hd.len → AddsUp (ms k fun r => nth x (r * hd.len)) (nth (run ap x) 0)) :
    SumsFirst d := by
  obtain ⟨f, i1, g1⟩ := hh
  refine ⟨_, hi f i1, (sumsFirst_iff (hi f i1)).2 fun hpos => ?_⟩
  have h0 : 0 < hd.len := Nat.pos_of_mul_pos_left (lt_of_lt_of_eq hpos hlen)
  rw [hlen]
  exact mrn_dc h0 ((sumsFirst_iff i1).1 g1 h0) i1.length (ha h0)

end RustDHT
