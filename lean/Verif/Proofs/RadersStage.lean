import Verif.Proofs.LeafStage
import Verif.Proofs.RadersDht

/-! # `RadersAlgorithm` in stages

Three stages: the first inner transform, the multiplication by the table, and the second inner transform.  The first element is
carried along, and between the stages it has another weight than the rest. -/

set_option linter.unusedSectionVars false
set_option linter.style.haveILetI false

namespace RustDHT

open Finset

/-! ## Norms that treat the first element separately -/

/-- The norm of `f 0, c * f 1, ..., c * f n`. -/
noncomputable def hnrm (c : ℝ) (n : ℕ) (f : ℕ → ℝ) : ℝ := √(f 0 ^ 2 + (c * nrm n fun i => f (i + 1)) ^ 2)

theorem hnrm_nonneg (c : ℝ) (n : ℕ) (f : ℕ → ℝ) : 0 ≤ hnrm c n f := Real.sqrt_nonneg _

theorem hnrm_sq (c : ℝ) (n : ℕ) (f : ℕ → ℝ) : hnrm c n f ^ 2 = f 0 ^ 2 + (c * nrm n fun i => f (i + 1)) ^ 2 :=
  Real.sq_sqrt (by positivity)

theorem hnrm_eq {c : ℝ} (n : ℕ) (f : ℕ → ℝ) : hnrm c n f = nrm (n + 1) (fun i => (if i = 0 then 1 else c) * f i) := by
  rw [hnrm, mul_pow, nrm_sq, nrm, sum_range_succ', mul_sum, add_comm]
  congr 2
  · refine sum_congr rfl fun i _ => ?_
    rw [if_neg (by omega)]
    ring
  · rw [if_pos rfl, one_mul]

theorem hnrm_one (n : ℕ) (f : ℕ → ℝ) : hnrm 1 n f = nrm (n + 1) f := by
  rw [hnrm_eq]
  exact nrm_congr fun i _ => by rw [ite_self, one_mul]

theorem hnrm_isNrm (c : ℝ) (n : ℕ) : IsNrm (hnrm c n) := by
  have h := nrm_isNrm (n + 1)
  have e : ∀ f g : ℕ → ℝ, hnrm c n (fun i => f i - g i)
      = nrm (n + 1) (fun i => (if i = 0 then 1 else c) * f i - (if i = 0 then 1 else c) * g i) := by
    intro f g
    rw [hnrm_eq]
    exact nrm_congr fun i _ => by ring
  refine ⟨hnrm_nonneg c n, fun f g k => ?_, fun f g => ?_⟩
  · rw [e, e, e]; exact h.sub _ _ _
  · rw [e, hnrm_eq, hnrm_eq]; exact h.tri _ _

theorem hnrm_le {c c' a : ℝ} {n : ℕ} {f g : ℕ → ℝ} (hc : 0 ≤ c) (ha : 0 ≤ a) (h0 : |f 0| ≤ a * |g 0|)
    (h1 : c * nrm n (fun i => f (i + 1)) ≤ a * (c' * nrm n fun i => g (i + 1))) : hnrm c n f ≤ a * hnrm c' n g := by
  rw [← sq_le_sq₀ (hnrm_nonneg _ _ _) (mul_nonneg ha (hnrm_nonneg _ _ _)), mul_pow, hnrm_sq, hnrm_sq, mul_add]
  refine add_le_add ?_ ?_
  · rw [← sq_abs (f 0), ← sq_abs (g 0), ← mul_pow]
    exact pow_le_pow_left₀ (abs_nonneg _) h0 2
  · rw [← mul_pow a]
    exact pow_le_pow_left₀ (mul_nonneg hc (nrm_nonneg _ _)) h1 2

theorem hnrm_congr {c c' : ℝ} {n : ℕ} {f g : ℕ → ℝ} (h0 : f 0 = g 0)
    (h1 : c * nrm n (fun i => f (i + 1)) = c' * nrm n (fun i => g (i + 1))) : hnrm c n f = hnrm c' n g := by
  rw [hnrm, hnrm, h0, h1]

theorem hnrm_tail {c : ℝ} {n : ℕ} {f : ℕ → ℝ} (hc : 0 ≤ c) (h0 : f 0 = 0) : hnrm c n f = c * nrm n fun i => f (i + 1) := by
  rw [hnrm, h0, zero_pow (by omega), zero_add, Real.sqrt_sq (mul_nonneg hc (nrm_nonneg _ _))]

theorem head_le_hnrm (c : ℝ) (n : ℕ) (f : ℕ → ℝ) : |f 0| ≤ hnrm c n f := by
  rw [← sq_le_sq₀ (abs_nonneg _) (hnrm_nonneg _ _ _), hnrm_sq, sq_abs]
  have := sq_nonneg (c * nrm n fun i => f (i + 1))
  linarith

theorem tail_le_hnrm {c : ℝ} (hc : 0 ≤ c) (n : ℕ) (f : ℕ → ℝ) : c * nrm n (fun i => f (i + 1)) ≤ hnrm c n f := by
  rw [← sq_le_sq₀ (mul_nonneg hc (nrm_nonneg _ _)) (hnrm_nonneg _ _ _), hnrm_sq]
  have := sq_nonneg (f 0)
  linarith

/-! ## The three steps -/

section
variable {U : Type} [Zero U]

theorem nth_cons_zero (a : U) (l : List U) : nth (a :: l) 0 = a := rfl
theorem nth_cons_succ (a : U) (l : List U) (i : ℕ) : nth (a :: l) (i + 1) = nth l i := rfl
theorem nth_tail (l : List U) (i : ℕ) : nth l.tail i = nth l (i + 1) := by
  cases l with
  | nil => rfl
  | cons a l => rfl

/-- The first inner transform. -/
def rd1 (p g : ℕ) (f : List U → List U) (x : List U) : List U := nth x 0 :: f (rdIn p g x)

/-- The multiplication. -/
def rd2 [Add U] [Sub U] [Mul U] (p : ℕ) (tw : ℕ → Cx U) (v : List U) : List U :=
  (nth v 0 + nth v 1) :: rdMid p tw (nth v 0) v.tail

/-- The second inner transform. -/
def rd3 (p gi : ℕ) (f : List U → List U) (z : List U) : List U :=
  nth z 0 :: tab (p - 1) fun q => nth (f z.tail) (dlog gi p (q + 1))

theorem rdFn_eq [Add U] [Sub U] [Mul U] (p g gi : ℕ) (tw : ℕ → Cx U) (f : List U → List U) (x : List U) :
    rdFn p g gi tw f x = rd3 p gi f (rd2 p tw (rd1 p g f x)) := rfl

end

/-- What is known of the generator and its inverse. -/
structure RadersGen (n g gi : ℕ) : Prop where
  prime : (n + 1).Prime
  odd : n + 1 ≠ 2
  g0 : 0 < g
  glt : g < n + 1
  gord : orderOf (g : ZMod (n + 1)) = n + 1 - 1
  gi0 : 0 < gi
  gilt : gi < n + 1
  gmul : (g : ZMod (n + 1)) * (gi : ZMod (n + 1)) = 1
  giord : orderOf (gi : ZMod (n + 1)) = n + 1 - 1

namespace RadersGen
variable {n g gi : ℕ} (hg : RadersGen n g gi)
include hg

theorem two_le : 2 ≤ n := by have := hg.prime.two_le; have := hg.odd; omega

theorem even : n % 2 = 0 := by
  have := hg.prime.eq_two_or_odd.resolve_left hg.odd
  omega

theorem pow_lt (j : ℕ) : g ^ j % (n + 1) - 1 < n := by
  have := pow_mod_pos hg.prime hg.g0 hg.glt j
  have := Nat.mod_lt (g ^ j) (show 0 < n + 1 by omega)
  omega

theorem pow_inj {i j : ℕ} (hi : i < n) (hj : j < n) (e : g ^ i % (n + 1) - 1 = g ^ j % (n + 1) - 1) : i = j := by
  have h1 := pow_mod_pos hg.prime hg.g0 hg.glt i
  have h2 := pow_mod_pos hg.prime hg.g0 hg.glt j
  exact pow_mod_inj hg.gord hi hj (by omega)

theorem nrm_in (f : ℕ → ℝ) : nrm n (fun j => f (g ^ j % (n + 1))) = nrm n (fun i => f (i + 1)) := by
  rw [← nrm_perm (fun i _ => hg.pow_lt i) (fun i hi j hj e => hg.pow_inj hi hj e) (fun i => f (i + 1))]
  refine nrm_congr fun j _ => ?_
  have := pow_mod_pos hg.prime hg.g0 hg.glt j
  congr 1
  omega

theorem dlog_lt {q : ℕ} (hq : q < n) : dlog gi (n + 1) (q + 1) < n :=
  (dlog_spec hg.prime hg.gi0 hg.gilt hg.giord (q := q + 1) (by omega) (by omega)).1

theorem nrm_out (f : ℕ → ℝ) : nrm n (fun q => f (dlog gi (n + 1) (q + 1))) = nrm n f := by
  refine nrm_perm (fun q hq => hg.dlog_lt hq) (fun q hq q' hq' e => ?_) f
  have h1 := (dlog_spec hg.prime hg.gi0 hg.gilt hg.giord (q := q + 1) (by omega) (by omega)).2
  have h2 := (dlog_spec hg.prime hg.gi0 hg.gilt hg.giord (q := q' + 1) (by omega) (by omega)).2
  rw [e, h2] at h1
  omega

/-- Every list is a result of the first step. -/
theorem rd1_onto : Onto (n + 1) (rd1 (n + 1) g dht) := by
  intro V hV
  obtain ⟨W, hW, e1⟩ := onto_dht (by have := hg.two_le; omega : 0 < n) V.tail (by simp [hV])
  obtain ⟨X, hX, e2⟩ := onto_perm (fun i _ => hg.pow_lt i) (fun i hi j hj e => hg.pow_inj hi hj e) W hW
  refine ⟨nth V 0 :: X, by simp [hX], ?_⟩
  have e3 : rdIn (n + 1) g (nth V 0 :: X) = W := by
    rw [← e2, rdIn]
    refine tab_congr fun j _ => ?_
    have := pow_mod_pos hg.prime hg.g0 hg.glt j
    rw [show g ^ j % (n + 1) = g ^ j % (n + 1) - 1 + 1 by omega, nth_cons_succ, Nat.add_sub_cancel]
  rw [rd1, e3, e1, nth_cons_zero]
  cases V with
  | nil => simp at hV
  | cons a l => rfl

theorem sqrt_pos : (0 : ℝ) < √n := Real.sqrt_pos.2 (by have := hg.two_le; exact_mod_cast (by omega : 0 < n))

theorem rd1_dist (X Y : List ℝ) : hnrm (√n)⁻¹ n (fun i => nth (rd1 (n + 1) g dht X) i - nth (rd1 (n + 1) g dht Y) i)
    = nrm (n + 1) (fun i => nth X i - nth Y i) := by
  rw [← hnrm_one]
  refine hnrm_congr rfl ?_
  have hl : ∀ X : List ℝ, (rdIn (n + 1) g X).length = n := fun X => length_tab _ _
  simp only [rd1, nth_cons_succ]
  rw [nrm_dht_sub (hl X) (hl Y), ← mul_assoc, inv_mul_cancel₀ hg.sqrt_pos.ne', one_mul, one_mul,
    ← hg.nrm_in fun i => nth X i - nth Y i]
  exact nrm_congr fun j hj => by rw [rdIn, rdIn, nth_tab (n := n + 1 - 1) hj, nth_tab (n := n + 1 - 1) hj]

theorem rd1_norm (X : List ℝ) : hnrm (√n)⁻¹ n (nth (rd1 (n + 1) g dht X)) = nrm (n + 1) (nth X) := by
  rw [← hnrm_one]
  refine hnrm_congr rfl ?_
  have hl : (rdIn (n + 1) g X).length = n := length_tab _ _
  simp only [rd1, nth_cons_succ]
  rw [show (fun i => nth (dht (rdIn (n + 1) g X)) i) = nth (dht (rdIn (n + 1) g X)) from rfl, nrm_dht hl, ← mul_assoc,
    inv_mul_cancel₀ hg.sqrt_pos.ne', one_mul, one_mul, ← hg.nrm_in fun i => nth X i]
  exact nrm_congr fun j hj => by rw [rdIn, nth_tab (n := n + 1 - 1) hj]

theorem rd3_dist {X Y : List ℝ} (hX : X.length = n + 1) (hY : Y.length = n + 1) :
    nrm (n + 1) (fun i => nth (rd3 (n + 1) gi dht X) i - nth (rd3 (n + 1) gi dht Y) i)
      = hnrm √n n (fun i => nth X i - nth Y i) := by
  rw [← hnrm_one]
  refine hnrm_congr rfl ?_
  simp only [rd3, nth_cons_succ]
  have e := nrm_dht_sub (x := X.tail) (y := Y.tail) (n := n) (by simp [hX]) (by simp [hY])
  simp only [nth_tail] at e
  rw [one_mul, ← e, ← hg.nrm_out fun i => nth (dht X.tail) i - nth (dht Y.tail) i]
  refine nrm_congr fun q hq => ?_
  rw [nth_tab (n := n + 1 - 1) hq, nth_tab (n := n + 1 - 1) hq]

theorem rd3_norm {X : List ℝ} (hX : X.length = n + 1) : nrm (n + 1) (nth (rd3 (n + 1) gi dht X)) = hnrm √n n (nth X) := by
  rw [← hnrm_one]
  refine hnrm_congr rfl ?_
  simp only [rd3, nth_cons_succ]
  have e := nrm_dht (x := X.tail) (n := n) (by simp [hX])
  rw [show (nth X.tail) = fun i => nth X (i + 1) from funext (nth_tail X)] at e
  rw [one_mul, ← e, ← hg.nrm_out (nth (dht X.tail))]
  refine nrm_congr fun q hq => ?_
  rw [nth_tab (n := n + 1 - 1) hq]

theorem length_rd2 {U : Type} [Zero U] [Add U] [Sub U] [Mul U] (tw : ℕ → Cx U) (v : List U) : (rd2 (n + 1) tw v).length = n + 1 := by
  simp [rd2, rdMid]

/-- The table with exact numbers. -/
theorem rd2_dist {X Y : List ℝ} (hX : X.length = n + 1) (hY : Y.length = n + 1) :
    hnrm √n n (fun i => nth (rd2 (n + 1) (rdTw (dht (rdKernel ℝ (n + 1) gi)) n) X) i
        - nth (rd2 (n + 1) (rdTw (dht (rdKernel ℝ (n + 1) gi)) n) Y) i)
      = √(n + 1 : ℕ) * hnrm (√n)⁻¹ n (fun i => nth X i - nth Y i) := by
  obtain ⟨x, hx, rfl⟩ := hg.rd1_onto X hX
  obtain ⟨y, hy, rfl⟩ := hg.rd1_onto Y hY
  have key : ∀ {x : List ℝ}, x.length = n + 1 →
      rd3 (n + 1) gi dht (rd2 (n + 1) (rdTw (dht (rdKernel ℝ (n + 1) gi)) n) (rd1 (n + 1) g dht x)) = dht x := fun h =>
    rdFn_dht hg.prime hg.odd hg.g0 hg.glt hg.gord hg.gi0 hg.gilt hg.gmul hg.giord h
  rw [← hg.rd3_dist (hg.length_rd2 _ _) (hg.length_rd2 _ _), key hx, key hy, nrm_dht_sub hx hy, hg.rd1_dist]

theorem rd2_norm {X : List ℝ} (hX : X.length = n + 1) :
    hnrm √n n (nth (rd2 (n + 1) (rdTw (dht (rdKernel ℝ (n + 1) gi)) n) X)) = √(n + 1 : ℕ) * hnrm (√n)⁻¹ n (nth X) := by
  obtain ⟨x, hx, rfl⟩ := hg.rd1_onto X hX
  have key : rd3 (n + 1) gi dht (rd2 (n + 1) (rdTw (dht (rdKernel ℝ (n + 1) gi)) n) (rd1 (n + 1) g dht x)) = dht x :=
    rdFn_dht hg.prime hg.odd hg.g0 hg.glt hg.gord hg.gi0 hg.gilt hg.gmul hg.giord hx
  rw [← hg.rd3_norm (hg.length_rd2 _ _), key, nrm_dht hx, hg.rd1_norm]

/-- Entries of the exact kernel. -/
theorem kernel_le {i : ℕ} (hi : i < n) : |nth (rdKernel ℝ (n + 1) gi) i| ≤ 2 / n := by
  have e : nth (rdKernel ℝ (n + 1) gi) i = computeDhtTwiddle ℝ (gi ^ i % (n + 1)) (n + 1) * (((1 : ℕ) : ℝ) / ((n : ℕ) : ℝ)) := by
    rw [rdKernel, nth_tab (n := n + 1 - 1) hi]
    rfl
  rw [e, dht_twiddle, abs_mul, Nat.cast_one, div_eq_mul_one_div (2 : ℝ), abs_of_nonneg (by positivity : (0 : ℝ) ≤ 1 / n)]
  refine mul_le_mul_of_nonneg_right ?_ (by positivity)
  unfold ca cs sn
  refine (abs_add_le _ _).trans ?_
  exact (add_le_add (Real.abs_cos_le_one _) (Real.abs_sin_le_one _)).trans (by norm_num)

end RadersGen

/-! ## Relations with larger costs -/

section
variable {T : Type} [Zero T] [Add T] [Sub T] [Mul T] [Neg T] [FftNum T]
variable {fin : T → Prop} {val : T → ℝ} {u η Ω : ℝ} {t s : ℕ}
variable (hm : FloatModel fin val u η Ω t s)
include hm

theorem FloatModel.mono3 {κ A : ℝ} (hκ : 0 ≤ κ) (hA : 0 ≤ A) {a : T} {x : ℝ} {g c d g' c' d' : ℕ} (hg : g ≤ g') (hc : c ≤ c')
    (hd : d ≤ d') (h : FR fin val u κ Ω A a (x, ⟨g, c, d⟩)) : FR fin val u κ Ω A a (x, ⟨g', c', d'⟩) := by
  intro hO
  have hS : (0 : ℝ) ≤ max A 1 := le_trans hA (le_max_left _ _)
  obtain ⟨h1, h2, h3⟩ := h (hm.big_mono hκ hS hg hc hd hO)
  have hgr : (g : ℝ) * A ≤ g' * A := mul_le_mul_of_nonneg_right (by exact_mod_cast hg) hA
  have hcr : κ * c ≤ κ * c' := mul_le_mul_of_nonneg_left (by exact_mod_cast hc) hκ
  refine ⟨h1, h2.trans hgr, h3.trans ?_⟩
  show (1 + u) ^ d * (g * A + κ * c) - g * A ≤ (1 + u) ^ d' * (g' * A + κ * c') - g' * A
  have p1 := hm.pow_le hd
  have p2 := hm.one_le_pow d'
  have e1 : (1 + u) ^ d * (g * A + κ * c) ≤ (1 + u) ^ d' * (g * A + κ * c) := mul_le_mul_of_nonneg_right p1 (by positivity)
  have e2 := mul_le_mul_of_nonneg_left hgr (by linarith : (0 : ℝ) ≤ (1 + u) ^ d' - 1)
  have e3 := mul_le_mul_of_nonneg_left hcr (by linarith : (0 : ℝ) ≤ (1 + u) ^ d')
  linarith

theorem FloatModel.monoC {a : T} {x : ℝ} {g c d g' c' d' : ℕ} (hg : g ≤ g') (hd : d ≤ d')
    (h : FC fin val u Ω a (x, ⟨g, c, d⟩)) : FC fin val u Ω a (x, ⟨g', c', d'⟩) := by
  have h' : FC fin val u Ω a (x, ⟨g, 0, d⟩) := by
    rw [fc_iff] at h ⊢; exact h
  have := hm.mono3 (c := 0) (c' := c') le_rfl zero_le_one hg (Nat.zero_le _) hd h'
  exact this

/-! ## The table -/

theorem table_arith {r PD Pk Pn Pc S e w C n : ℝ} (hr : r * r = n) (hn : 0 ≤ n) (hr0 : 0 < r) (hPD : 1 ≤ PD) (hPk : 1 ≤ Pk)
    (hPc : 1 ≤ Pc) (hS : S ≤ r * (2 * (Pk - 1)) + 2 / r) (he : e ≤ r * (2 * (Pk - 1))) (hw : C * w * n ≤ Pc - 1)
    (hn' : n * (Pk - 1) ≤ Pn - 1) : r * (PD * (S + C * w * r) - S) + r * e ≤ PD * (Pn * Pc) * 2 - 2 := by
  have h1 : r * S ≤ n * (2 * (Pk - 1)) + 2 := by
    have := mul_le_mul_of_nonneg_left hS hr0.le
    rw [mul_add, mul_div_cancel₀ _ hr0.ne', ← mul_assoc, hr] at this
    exact this
  have h2 : r * e ≤ n * (2 * (Pk - 1)) := by
    have := mul_le_mul_of_nonneg_left he hr0.le
    rw [← mul_assoc, hr] at this
    exact this
  have h3 := mul_le_mul_of_nonneg_left h1 (by linarith : 0 ≤ PD - 1)
  have h4 : r * (PD * (S + C * w * r) - S) + r * e = (PD - 1) * (r * S) + PD * (C * w * (r * r)) + r * e := by ring
  rw [h4, hr]
  have h5 := mul_le_mul_of_nonneg_left hw (by linarith : 0 ≤ PD)
  have hk : 0 ≤ n * (Pk - 1) := mul_nonneg hn (by linarith)
  have h6 : 1 + n * (Pk - 1) + (Pc - 1) ≤ Pn * Pc := by nlinarith
  have h7 := mul_le_mul_of_nonneg_left h6 (by linarith : 0 ≤ PD)
  have h8 : 0 ≤ PD * (Pc - 1) := mul_nonneg (by linarith) (by linarith)
  nlinarith

/-- The entries of the transformed kernel. -/
theorem kernel_table {n g gi G D C : ℕ} (hg : RadersGen n g gi) (hG : 1 ≤ G) {f : List T → List T}
    (st : Stage fin val u η Ω G √n (nrm n) (nrm n) n n f dht √n D C)
    (hO : G * (2 * n * (1 + u) ^ (D + n * (3 + 2 * t + C))) ≤ Ω) {i : ℕ} (hi : i < n) :
    FC fin val u Ω (nth (f (rdKernel T (n + 1) gi)) i) (nth (dht (rdKernel ℝ (n + 1) gi)) i, ⟨2, 0, D + n * (3 + 2 * t + C)⟩) := by
  letI := pairCost t s
  have hn2 := hg.two_le
  have hn1 : (1 : ℝ) ≤ n := by exact_mod_cast (by omega : 1 ≤ n)
  have hη := hm.η_nonneg
  have hηu := hm.η_le
  have hu := hm.u_nonneg
  have hGr : (1 : ℝ) ≤ G := by exact_mod_cast hG
  set dk := 3 + 2 * t with hdk
  have hPk := hm.one_le_pow dk
  have hPD := hm.one_le_pow D
  have hPc := hm.one_le_pow (n * C)
  have hP1 := hm.one_le_pow (D + n * (dk + C))
  have split : (1 + u) ^ (D + n * (dk + C)) = (1 + u) ^ D * ((1 + u) ^ (n * dk) * (1 + u) ^ (n * C)) := by
    rw [pow_add, Nat.mul_add, pow_add]
  have hbern := hm.bernoulli dk n
  have hbernC : C * η * n ≤ (1 + u) ^ (n * C) - 1 := by
    have h1 := hm.bernoulli 1 (n * C)
    rw [pow_one, add_sub_cancel_left, Nat.mul_one] at h1
    push_cast at h1
    have : (C : ℝ) * η * n ≤ C * u * n := by gcongr
    linarith
  -- the kernel
  have hle : (1 + u) ^ dk * (2 : ℕ) ≤ Ω := by
    refine le_trans ?_ hO
    have h1 : (1 + u) ^ dk ≤ (1 + u) ^ (D + n * (dk + C)) := hm.pow_le (by
      have : dk + C ≤ n * (dk + C) := Nat.le_mul_of_pos_left _ (by omega)
      omega)
    have h2 : (1 + u) ^ dk * 2 ≤ 2 * n * (1 + u) ^ (D + n * (dk + C)) := by nlinarith
    have h3 : 0 ≤ 2 * n * (1 + u) ^ (D + n * (dk + C)) := by positivity
    push_cast
    nlinarith
  have ker : ∀ i < n, fin (nth (rdKernel T (n + 1) gi) i) ∧
      |val (nth (rdKernel T (n + 1) gi) i) - nth (rdKernel ℝ (n + 1) gi) i| ≤ 2 * ((1 + u) ^ dk - 1) := by
    intro i hi
    have hr := floatModel_respects hm zero_le_one
    have h1 := hr.mulC (hr.dht (Nat.mod_lt (gi ^ i) (Nat.succ_pos n))) (hr.norm n (by omega))
    have h2 : FC fin val u Ω (nth (rdKernel T (n + 1) gi) i) (nth (rdKernel ℝ (n + 1) gi) i, ⟨2, 0, dk⟩) := by
      rw [rdKernel, rdKernel, nth_tab (n := n + 1 - 1) hi, nth_tab (n := n + 1 - 1) hi]
      exact hm.monoC (g := max 1 (1 + 1) * max 1 1) (d := max t t + 1 + t + 2) (by decide) (by rw [max_self]; omega) h1
    rw [fc_iff] at h2
    obtain ⟨f1, _, f2⟩ := h2 hle
    refine ⟨f1, f2.trans (le_of_eq ?_)⟩
    push_cast
    ring
  have kl : (rdKernel T (n + 1) gi).length = n := length_tab _ _
  have kl' : (rdKernel ℝ (n + 1) gi).length = n := length_tab _ _
  set k := rdKernel T (n + 1) gi with hk
  set K := rdKernel ℝ (n + 1) gi with hK
  have hr0 := hg.sqrt_pos
  have hrr : √(n : ℝ) * √n = n := Real.mul_self_sqrt (Nat.cast_nonneg n)
  have hr1 : (1 : ℝ) ≤ √n := by rw [Real.one_le_sqrt]; exact hn1
  have e1 : nrm n (fun i => val (nth k i) - nth K i) ≤ √n * (2 * ((1 + u) ^ dk - 1)) := by
    rw [← nrm_const n (by linarith : (0 : ℝ) ≤ 2 * ((1 + u) ^ dk - 1))]
    exact nrm_mono fun i hi => (ker i hi).2
  have e2 : nrm n (nth K) ≤ 2 / √n := by
    have h1 := nrm_mono (n := n) (f := nth K) (g := fun _ => 2 / (n : ℝ)) fun i hi => hg.kernel_le hi
    rw [nrm_const n (by positivity)] at h1
    refine h1.trans (le_of_eq ?_)
    rw [mul_div_assoc', div_eq_div_iff (by positivity) hr0.ne', mul_right_comm, hrr, mul_comm]
  have hS : nrm n (fun i => val (nth k i)) ≤ √n * (2 * ((1 + u) ^ dk - 1)) + 2 / √n :=
    ((nrm_isNrm n).tri (fun i => val (nth k i)) (nth K)).trans (add_le_add e1 e2)
  have hS0 := nrm_nonneg n fun i => val (nth k i)
  have hdiv : 2 / √(n : ℝ) ≤ 2 * √n := by
    rw [div_le_iff₀ hr0, mul_assoc, hrr]; linarith
  have hcond : G * (√n * bnd u η D C √n (max (nrm n fun i => val (nth k i)) 1)) ≤ Ω := by
    refine le_trans (mul_le_mul_of_nonneg_left ?_ (by linarith)) hO
    have h1 : max (nrm n fun i => val (nth k i)) 1 ≤ √n * (2 * (1 + u) ^ dk) := by
      refine max_le ?_ (by nlinarith)
      linarith
    have h2 : C * η ≤ (1 + u) ^ (n * C) - 1 := by
      have : (C : ℝ) * η * 1 ≤ C * η * n := mul_le_mul_of_nonneg_left hn1 (by positivity)
      linarith
    have h3 : max (nrm n fun i => val (nth k i)) 1 + C * η * √n ≤ √n * (2 * ((1 + u) ^ (n * dk) * (1 + u) ^ (n * C))) := by
      have h4 : (1 + u) ^ dk ≤ (1 + u) ^ (n * dk) := hm.pow_le (Nat.le_mul_of_pos_left _ (by omega))
      have h5 : 2 * (1 + u) ^ dk + C * η ≤ 2 * ((1 + u) ^ (n * dk) * (1 + u) ^ (n * C)) := by nlinarith
      have := mul_le_mul_of_nonneg_left h5 hr0.le
      linarith
    rw [bnd]
    calc √n * ((1 + u) ^ D * (max (nrm n fun i => val (nth k i)) 1 + C * η * √n))
        ≤ √n * ((1 + u) ^ D * (√n * (2 * ((1 + u) ^ (n * dk) * (1 + u) ^ (n * C))))) := by gcongr
      _ = 2 * (√n * √n) * ((1 + u) ^ D * ((1 + u) ^ (n * dk) * (1 + u) ^ (n * C))) := by ring
      _ = _ := by rw [hrr, split]
  obtain ⟨f1, f2⟩ := st.err k kl (fun i hi => (ker i hi).1) hcond
  rw [fc_iff]
  intro _
  refine ⟨f1 i hi, ?_, ?_⟩
  · have h1 := abs_le_nrm hi (nth (dht K))
    rw [nrm_dht kl'] at h1
    have h2 := mul_le_mul_of_nonneg_left e2 hr0.le
    rw [mul_div_cancel₀ _ hr0.ne'] at h2
    push_cast
    linarith
  · have h1 := abs_le_nrm hi fun i => val (nth (f k) i) - nth (dht K) i
    have h2 := (nrm_isNrm n).sub (fun i => val (nth (f k) i)) (nth (dht (k.map val))) (nth (dht K))
    have h3 := nrm_dht_sub (x := k.map val) (y := K) (by simpa using kl) kl'
    rw [hm.nth_map' k] at h3
    refine h1.trans (h2.trans ((add_le_add f2 h3.le).trans ?_))
    rw [bnd]
    show _ ≤ (1 + u) ^ (D + n * (dk + C)) * ((2 : ℕ) : ℝ) - ((2 : ℕ) : ℝ)
    rw [split]
    push_cast
    exact table_arith hm hrr (Nat.cast_nonneg n) hr0 hPD hPk hPc hS e1 hbernC hbern

/-- The entries of the table. -/
theorem tw_table {n g gi G D C : ℕ} (hg : RadersGen n g gi) (hG : 1 ≤ G) {f : List T → List T}
    (st : Stage fin val u η Ω G √n (nrm n) (nrm n) n n f dht √n D C)
    (hO : G * (2 * n * (1 + u) ^ (D + n * (3 + 2 * t + C))) ≤ Ω) {i : ℕ} (hi : i ≤ n / 2) :
    FC fin val u Ω (rdTw (f (rdKernel T (n + 1) gi)) n i).re
      ((rdTw (dht (rdKernel ℝ (n + 1) gi)) n i).re, ⟨4, 0, D + n * (3 + 2 * t + C) + 3⟩) ∧
    FC fin val u Ω (rdTw (f (rdKernel T (n + 1) gi)) n i).im
      ((rdTw (dht (rdKernel ℝ (n + 1) gi)) n i).im, ⟨4, 0, D + n * (3 + 2 * t + C) + 3⟩) := by
  letI := pairCost t s
  have hn2 := hg.two_le
  have hr := floatModel_respects hm zero_le_one
  have tab := fun {i : ℕ} (hi : i < n) => kernel_table (s := s) hm hg hG st hO hi
  generalize hD1 : D + n * (3 + 2 * t + C) = D1 at *
  unfold rdTw
  split
  · refine ⟨hm.monoC (by omega) (by omega) (tab (by omega)), ?_⟩
    exact hm.monoC (g := 0) (c := 0) (d := 0) (by omega) (by omega) hr.zeroC
  · have h1 := tab (i := i) (by omega)
    have h2 := tab (i := n - i) (by omega)
    have k1 := hr.mulC (hr.addC h1 h2) hr.half
    have k2 := hr.mulC (hr.subC h1 h2) hr.half
    refine ⟨hm.monoC (g := max 1 (2 + 2) * max 1 1) (d := max D1 D1 + 1 + 0 + 2) (by decide) (by rw [max_self]) k1,
      hm.monoC (g := max 1 (2 + 2) * max 1 1) (d := max D1 D1 + 1 + 0 + 2) (by decide) (by rw [max_self]) k2⟩

/-! ## The stages -/

/-- The other position on which position `k` of the second step depends. -/
def rdσ (n k : ℕ) : ℕ := if k = 0 then 1 else if k = 1 then 0 else n + 2 - k

theorem rd2_FR {n d : ℕ} (hn : 2 ≤ n) {tw : ℕ → Cx T} {TW : ℕ → Cx ℝ}
    (htw : ∀ i ≤ n / 2, FC fin val u Ω (tw i).re ((TW i).re, ⟨4, 0, d⟩) ∧ FC fin val u Ω (tw i).im ((TW i).im, ⟨4, 0, d⟩))
    {A : ℝ} (hA : 0 ≤ A) {v : List T} {V : List ℝ} {k : ℕ} (hk : k < n + 1)
    (h1 : FR fin val u η Ω A (nth v k) (nth V k, ⟨1, 0, 0⟩)) (h2 : FR fin val u η Ω A (nth v (rdσ n k)) (nth V (rdσ n k), ⟨1, 0, 0⟩)) :
    FR fin val u η Ω A (nth (rd2 (n + 1) tw v) k) (nth (rd2 (n + 1) TW V) k, ⟨9, 2, d + 4⟩) := by
  letI := pairCost t s
  have hr := floatModel_respects hm hA
  have hη := hm.η_nonneg
  have up := fun {a : T} {x : ℝ} {g c d' : ℕ} (hg : g ≤ 9) (hc : c ≤ 2) (hd : d' ≤ d + 4)
    (h : FR fin val u η Ω A a (x, ⟨g, c, d'⟩)) => hm.mono3 (Ω := Ω) hη hA hg hc hd h
  rcases Nat.eq_zero_or_pos k with rfl | hpos
  · rw [rd2, rd2, nth_cons_zero, nth_cons_zero]
    exact up (g := 1 + 1) (c := 0 + 0) (d' := max 0 0 + 1) (by decide) (by decide) (by omega) (hr.add h1 h2)
  obtain ⟨i, rfl⟩ : ∃ i, k = i + 1 := ⟨k - 1, by omega⟩
  have hi : i < n := by omega
  rw [rd2, rd2, nth_cons_succ, nth_cons_succ, rdMid, rdMid, nth_tab (n := n + 1 - 1) hi, nth_tab (n := n + 1 - 1) hi,
    Nat.add_sub_cancel]
  by_cases h0 : i = 0
  · subst h0
    rw [if_pos rfl, if_pos rfl, rdMul, rdMul, if_pos rfl, if_pos rfl, nth_tail, nth_tail]
    have k1 := hr.add (hr.mulc h1 (htw 0 (by omega)).1) h2
    exact up (g := 1 * 4 + 1) (c := 1 * 0 + 0 * 4 + 1 + 0) (d' := max (0 + d + 2) 0 + 1) (by decide) (by decide) (by omega) k1
  rw [if_neg h0, if_neg h0]
  have hσ : rdσ n (i + 1) = n - i + 1 := by
    rw [rdσ, if_neg (by omega), if_neg (by omega)]; omega
  rw [hσ] at h2
  unfold rdMul
  rw [if_neg h0, if_neg h0, nth_tail, nth_tail, nth_tail, nth_tail]
  split
  · have k1 := hr.add (hr.cmul (htw i (by omega)).1 h1) (hr.cmul (htw i (by omega)).2 h2)
    exact up (g := 4 * 1 + 4 * 1) (c := 4 * 0 + 0 * 1 + 1 + (4 * 0 + 0 * 1 + 1)) (d' := max (d + 0 + 2) (d + 0 + 2) + 1)
      (by decide) (by decide) (by rw [max_self]; omega) k1
  · split
    · have k1 := hr.mulc h1 (htw i (by omega)).1
      exact up (g := 1 * 4) (c := 1 * 0 + 0 * 4 + 1) (d' := 0 + d + 2) (by decide) (by decide) (by omega) k1
    · have k1 := hr.sub (hr.cmul (htw (n - i) (by omega)).1 h1) (hr.cmul (htw (n - i) (by omega)).2 h2)
      exact up (g := 4 * 1 + 4 * 1) (c := 4 * 0 + 0 * 1 + 1 + (4 * 0 + 0 * 1 + 1)) (d' := max (d + 0 + 2) (d + 0 + 2) + 1)
        (by decide) (by decide) (by rw [max_self]; omega) k1

theorem rd1_stage {n g gi G G' D C : ℕ} (hg : RadersGen n g gi) {f : List T → List T}
    (st : Stage fin val u η Ω G √n (nrm n) (nrm n) n n f dht √n D C) (hG : G * √n ≤ G') :
    Stage fin val u η Ω G' √(n + 1 : ℕ) (nrm (n + 1)) (hnrm (√n)⁻¹ n) (n + 1) (n + 1) (rd1 (n + 1) g f) (rd1 (n + 1) g dht) 1 D C := by
  have hη := hm.η_nonneg
  have hP := hm.one_le_pow D
  have hr0 := hg.sqrt_pos
  have il : ∀ {U : Type} [Zero U] (x : List U), (rdIn (n + 1) g x).length = n := fun x => length_tab _ _
  have inth : ∀ {U : Type} [Zero U] (x : List U) {j : ℕ}, j < n → nth (rdIn (n + 1) g x) j = nth x (g ^ j % (n + 1)) := by
    intro U _ x j hj
    rw [rdIn, nth_tab (n := n + 1 - 1) hj]
  refine ⟨fun x _ => by simp [rd1, st.lenF _ (il x)], fun x _ => by simp [rd1, st.lenE _ (il x)],
    fun X Y _ _ => by rw [one_mul]; exact (hg.rd1_dist X Y).le, fun X _ => by rw [one_mul]; exact (hg.rd1_norm X).le,
    fun x hx hf hO => ?_⟩
  set S := nrm (n + 1) fun i => val (nth x i) with hS
  have hSi : nrm n (fun j => val (nth (rdIn (n + 1) g x) j)) ≤ S := by
    rw [nrm_congr (g := fun j => val (nth x (g ^ j % (n + 1)))) fun j hj => by rw [inth x hj], hg.nrm_in fun i => val (nth x i),
      hS, ← hnrm_one]
    have := tail_le_hnrm zero_le_one n fun i => val (nth x i)
    rwa [one_mul] at this
  have hS0 := nrm_nonneg n fun j => val (nth (rdIn (n + 1) g x) j)
  set S' := nrm n fun j => val (nth (rdIn (n + 1) g x) j) with hS'
  have hsq : √(n : ℝ) ≤ √(n + 1 : ℕ) := Real.sqrt_le_sqrt (by push_cast; linarith)
  obtain ⟨f1, f2⟩ := st.err (rdIn (n + 1) g x) (il x) (fun j hj => by
      rw [inth x hj]; exact hf _ (Nat.mod_lt _ (Nat.succ_pos n))) (by
    refine le_trans ?_ hO
    rw [← hS', one_mul, ← mul_assoc]
    have hb : bnd u η D C √n (max S' 1) ≤ bnd u η D C √(n + 1 : ℕ) (max S 1) := by
      unfold bnd
      have : max S' 1 ≤ max S 1 := max_le_max hSi le_rfl
      gcongr
    have h0 : 0 ≤ bnd u η D C √n (max S' 1) := by unfold bnd; positivity
    exact mul_le_mul hG hb h0 (Nat.cast_nonneg _))
  refine ⟨fun i hi => ?_, ?_⟩
  · rcases Nat.eq_zero_or_pos i with rfl | hpos
    · exact hf 0 (by omega)
    · obtain ⟨j, rfl⟩ : ∃ j, i = j + 1 := ⟨i - 1, by omega⟩
      exact f1 j (by omega)
  · have hmap : rdIn (n + 1) g (x.map val) = (rdIn (n + 1) g x).map val := by
      refine list_ext_nth (by rw [il, List.length_map, il]) fun j hj => ?_
      rw [il] at hj
      rw [hm.nth_map, inth _ hj, inth _ hj, hm.nth_map]
    rw [hnrm_tail (inv_nonneg.2 hr0.le) (by
      simp only [rd1, nth_cons_zero]; rw [hm.nth_map, sub_self])]
    simp only [rd1, nth_cons_succ]
    rw [hmap, one_mul, inv_mul_le_iff₀ hr0]
    refine f2.trans (mul_le_mul_of_nonneg_left ?_ hr0.le)
    unfold bnd
    have h1 := mul_le_mul_of_nonneg_left hSi (by linarith : (0 : ℝ) ≤ (1 + u) ^ D - 1)
    have h2 : (1 + u) ^ D * (C * η * √n) ≤ (1 + u) ^ D * (C * η * √(n + 1 : ℕ)) := by gcongr
    linarith

theorem rd3_stage {n g gi G G' D C : ℕ} (hg : RadersGen n g gi) {f : List T → List T}
    (st : Stage fin val u η Ω G √n (nrm n) (nrm n) n n f dht √n D C) (hG : G * √n ≤ G') :
    Stage fin val u η Ω G' (√(n + 1 : ℕ) * √(n + 1 : ℕ)) (hnrm √n n) (nrm (n + 1)) (n + 1) (n + 1) (rd3 (n + 1) gi f)
      (rd3 (n + 1) gi dht) 1 D C := by
  have hη := hm.η_nonneg
  have hP := hm.one_le_pow D
  have hr0 := hg.sqrt_pos
  have hn1 : (1 : ℝ) ≤ n := by have := hg.two_le; exact_mod_cast (by omega : 1 ≤ n)
  have hr1 : (1 : ℝ) ≤ √n := by rw [Real.one_le_sqrt]; exact hn1
  have hrr : √(n : ℝ) * √n = n := Real.mul_self_sqrt (Nat.cast_nonneg n)
  have hsq : √(n : ℝ) ≤ √(n + 1 : ℕ) := Real.sqrt_le_sqrt (by push_cast; linarith)
  have hss : √(n : ℝ) * √n ≤ √(n + 1 : ℕ) * √(n + 1 : ℕ) := mul_le_mul hsq hsq hr0.le (Real.sqrt_nonneg _)
  refine ⟨fun x _ => by simp [rd3], fun x _ => by simp [rd3],
    fun X Y hX hY => by rw [one_mul]; exact (hg.rd3_dist hX hY).le, fun X hX => by rw [one_mul]; exact (hg.rd3_norm hX).le,
    fun x hx hf hO => ?_⟩
  have tl : x.tail.length = n := by simp [hx]
  set S := hnrm √n n fun i => val (nth x i) with hS
  have hSi : √n * nrm n (fun j => val (nth x.tail j)) ≤ S := by
    simp only [nth_tail]
    exact tail_le_hnrm hr0.le n fun i => val (nth x i)
  have hS0 := nrm_nonneg n fun j => val (nth x.tail j)
  set S' := nrm n fun j => val (nth x.tail j) with hS'
  obtain ⟨f1, f2⟩ := st.err x.tail tl (fun j hj => by rw [nth_tail]; exact hf _ (by omega)) (by
    refine le_trans ?_ hO
    rw [← hS', one_mul, ← mul_assoc]
    have hSS : S' ≤ S := le_trans (le_mul_of_one_le_left hS0 hr1) hSi
    have hb : bnd u η D C √n (max S' 1) ≤ bnd u η D C (√(n + 1 : ℕ) * √(n + 1 : ℕ)) (max S 1) := by
      unfold bnd
      have h1 : max S' 1 ≤ max S 1 := max_le_max hSS le_rfl
      have h2 : √(n : ℝ) ≤ √(n + 1 : ℕ) * √(n + 1 : ℕ) := le_trans (le_mul_of_one_le_left hr0.le hr1) hss
      gcongr
    have h0 : 0 ≤ bnd u η D C √n (max S' 1) := by unfold bnd; positivity
    exact mul_le_mul hG hb h0 (Nat.cast_nonneg _))
  refine ⟨fun i hi => ?_, ?_⟩
  · rcases Nat.eq_zero_or_pos i with rfl | hpos
    · exact hf 0 (by omega)
    · obtain ⟨j, rfl⟩ : ∃ j, i = j + 1 := ⟨i - 1, by omega⟩
      have hj : j < n := by omega
      rw [rd3, nth_cons_succ, nth_tab (n := n + 1 - 1) hj]
      exact f1 _ (hg.dlog_lt hj)
  · rw [← hnrm_one, hnrm_tail zero_le_one (by
      simp only [rd3, nth_cons_zero]; rw [hm.nth_map, sub_self]), one_mul, one_mul]
    simp only [rd3, nth_cons_succ]
    have e : (x.map val).tail = x.tail.map val := by cases x <;> rfl
    rw [nrm_congr (g := fun q => val (nth (f x.tail) (dlog gi (n + 1) (q + 1))) - nth (dht (x.tail.map val)) (dlog gi (n + 1) (q + 1)))
      fun q hq => by rw [nth_tab (n := n + 1 - 1) hq, nth_tab (n := n + 1 - 1) hq, e],
      hg.nrm_out fun i => val (nth (f x.tail) i) - nth (dht (x.tail.map val)) i]
    refine f2.trans ?_
    unfold bnd
    have h1 := mul_le_mul_of_nonneg_left hSi (by linarith : (0 : ℝ) ≤ (1 + u) ^ D - 1)
    have h2 : (1 + u) ^ D * (C * η * (√n * √n)) ≤ (1 + u) ^ D * (C * η * (√(n + 1 : ℕ) * √(n + 1 : ℕ))) := by gcongr
    linarith

theorem rd2_arith {r P Q S A e η K : ℝ} (hP : 1 ≤ P) (hQ : P ≤ Q) (hη : 0 ≤ η) (hS : 0 ≤ S) (hr : 0 ≤ r)
    (hA : A ≤ √2 * (r * S)) (he : e ≤ r * ((P - 1) * 9 * A + r * (P * (η * 2)))) (hK : 13 * r ≤ K) (hb : K * (P - 1) ≤ Q - 1) :
    e ≤ r * (Q * (S + 2 * η * r) - S) := by
  have h2 : √2 ≤ (1.44 : ℝ) := by rw [Real.sqrt_le_left (by norm_num)]; norm_num
  have hrS : 0 ≤ r * S := mul_nonneg hr hS
  have h1 : 9 * A ≤ 13 * (r * S) := by nlinarith
  have h3 : (P - 1) * (9 * A) ≤ (P - 1) * (13 * (r * S)) := mul_le_mul_of_nonneg_left h1 (by linarith)
  have h4 : 13 * r * ((P - 1) * S) ≤ K * ((P - 1) * S) := mul_le_mul_of_nonneg_right hK (mul_nonneg (by linarith) hS)
  have h5 : K * (P - 1) * S ≤ (Q - 1) * S := mul_le_mul_of_nonneg_right hb hS
  have h6 : P * (η * 2) ≤ Q * (η * 2) := mul_le_mul_of_nonneg_right hQ (by positivity)
  have h7 : r * (P * (η * 2)) ≤ r * (Q * (η * 2)) := mul_le_mul_of_nonneg_left h6 hr
  have h8 : (P - 1) * 9 * A + r * (P * (η * 2)) ≤ Q * (S + 2 * η * r) - S := by nlinarith
  exact he.trans (mul_le_mul_of_nonneg_left h8 hr)

theorem sqrt_le_natSqrt (n : ℕ) : √(n : ℝ) ≤ (Nat.sqrt n + 1 : ℕ) := by
  rw [Real.sqrt_le_left (by positivity)]
  have := Nat.lt_succ_sqrt' n
  exact_mod_cast this.le

theorem rd2_stage {n g gi G G' D C : ℕ} (hg : RadersGen n g gi) (hG1 : 1 ≤ G) {f : List T → List T}
    (st : Stage fin val u η Ω G √n (nrm n) (nrm n) n n f dht √n D C) (hG : 18 ≤ G') (hGG : 2 * (Nat.sqrt (n + 1) + 1) * G ≤ G') :
    Stage fin val u η Ω G' √(n + 1 : ℕ) (hnrm (√n)⁻¹ n) (hnrm √n n) (n + 1) (n + 1)
      (rd2 (n + 1) (rdTw (f (rdKernel T (n + 1) gi)) n)) (rd2 (n + 1) (rdTw (dht (rdKernel ℝ (n + 1) gi)) n)) √(n + 1 : ℕ)
      (13 * (Nat.sqrt (n + 1) + 1) * (D + n * (3 + 2 * t + C) + 7)) 2 := by
  refine ⟨fun v _ => hg.length_rd2 _ _, fun v _ => hg.length_rd2 _ _, fun X Y hX hY => (hg.rd2_dist hX hY).le,
    fun X hX => (hg.rd2_norm hX).le, fun v hv hf hO => ?_⟩
  have hη := hm.η_nonneg
  have hn2 := hg.two_le
  have hr0 := hg.sqrt_pos
  set K := 13 * (Nat.sqrt (n + 1) + 1) with hK
  set D1 := D + n * (3 + 2 * t + C) with hD1
  set r := √((n + 1 : ℕ) : ℝ) with hr
  set S := hnrm (√n)⁻¹ n fun i => val (nth v i) with hS
  have hS0 : 0 ≤ S := hnrm_nonneg _ _ _
  have hr1 : 1 ≤ r := one_le_sqrt_nat hm (by omega)
  have hrz : 0 ≤ r := zero_le_one.trans hr1
  have hrr : r * r = (n + 1 : ℕ) := Real.mul_self_sqrt (Nat.cast_nonneg _)
  have hnr : √(n : ℝ) ≤ r := Real.sqrt_le_sqrt (by push_cast; linarith)
  have hsr : r ≤ (Nat.sqrt (n + 1) + 1 : ℕ) := sqrt_le_natSqrt hm (n + 1)
  have hK1 : 1 ≤ K := by omega
  have hP := hm.one_le_pow (D1 + 7)
  have hPQ : (1 + u) ^ (D1 + 7) ≤ (1 + u) ^ (K * (D1 + 7)) := hm.pow_le (Nat.le_mul_of_pos_left _ hK1)
  have hbern := hm.bernoulli (D1 + 7) K
  have hG18 : (18 : ℝ) ≤ G' := by exact_mod_cast hG
  have hm1 : 1 ≤ max S 1 := le_max_right _ _
  have hmS : S ≤ max S 1 := le_max_left _ _
  have ebnd : ∀ N, bnd u η (K * (D1 + 7)) 2 r N = (1 + u) ^ (K * (D1 + 7)) * (N + 2 * η * r) := fun N => by
    rw [bnd]; push_cast; rfl
  rw [ebnd] at hO ⊢
  -- the table
  have htw := fun (i : ℕ) (hi : i ≤ n / 2) => tw_table (s := s) hm hg hG1 st (by
    refine le_trans ?_ hO
    have h1 : (1 + u) ^ D1 ≤ (1 + u) ^ (K * (D1 + 7)) := (hm.pow_le (by omega)).trans hPQ
    have h2 : (1 + u) ^ D1 ≤ (1 + u) ^ (K * (D1 + 7)) * (max S 1 + 2 * η * r) := by
      have : (0 : ℝ) ≤ 2 * η * r := by positivity
      refine h1.trans (le_mul_of_one_le_right (hm.pow_pos _).le (by linarith))
    have h3 : (G : ℝ) * (2 * n) ≤ G' * r := by
      have h4 : 2 * (Nat.sqrt (n + 1) + 1 : ℕ) * (G : ℝ) ≤ G' := by exact_mod_cast hGG
      have h5 : (n : ℝ) ≤ r * r := by rw [hrr]; push_cast; linarith
      have h6 : 2 * r * G ≤ G' := by
        have : 2 * r * (G : ℝ) ≤ 2 * (Nat.sqrt (n + 1) + 1 : ℕ) * (G : ℝ) := by gcongr
        linarith
      have h7 := mul_le_mul_of_nonneg_right h6 hrz
      have h8 := mul_le_mul_of_nonneg_left h5 (Nat.cast_nonneg G : (0 : ℝ) ≤ G)
      linarith
    calc (G : ℝ) * (2 * n * (1 + u) ^ D1) = G * (2 * n) * (1 + u) ^ D1 := by ring
      _ ≤ G' * r * ((1 + u) ^ (K * (D1 + 7)) * (max S 1 + 2 * η * r)) := mul_le_mul h3 h2 (hm.pow_pos _).le (by positivity)
      _ = _ := by ring) hi
  -- sizes of elements
  have hvr : ∀ j < n + 1, |val (nth v j)| ≤ r * S := by
    intro j hj
    rcases Nat.eq_zero_or_pos j with rfl | hpos
    · exact (head_le_hnrm _ n fun i => val (nth v i)).trans (le_mul_of_one_le_left hS0 hr1)
    · obtain ⟨i, rfl⟩ : ∃ i, j = i + 1 := ⟨j - 1, by omega⟩
      have h1 := abs_le_nrm (show i < n by omega) fun i => val (nth v (i + 1))
      have h2 := tail_le_hnrm (inv_nonneg.2 hr0.le) n fun i => val (nth v i)
      rw [inv_mul_le_iff₀ hr0] at h2
      exact h1.trans (h2.trans (mul_le_mul_of_nonneg_right hnr hS0))
  set σ : ℕ → ℕ → ℕ := fun j k => if j = 0 then k else rdσ n k with hσ
  have hσlt : ∀ j < 2, ∀ k < n + 1, σ j k < n + 1 := by
    intro j _ k hk
    simp only [hσ, rdσ]
    split
    · exact hk
    · split
      · omega
      · split <;> omega
  have hσinj : ∀ j < 2, ∀ k < n + 1, ∀ k' < n + 1, σ j k = σ j k' → k = k' := by
    intro j _ k hk k' hk' e
    simp only [hσ, rdσ] at e
    split at e
    · exact e
    · split at e <;> split at e <;> (try split at e) <;> (try split at e) <;> omega
  set A : ℕ → ℝ := fun k => nrm 2 fun j => val (nth v (σ j k)) with hA
  have hA0 : ∀ k, 0 ≤ A k := fun k => nrm_nonneg _ _
  have hgather : nrm (n + 1) A ≤ √(2 : ℕ) * nrm (n + 1) fun i => val (nth v i) := nrm_gather (f := fun i => val (nth v i)) hσlt hσinj
  have hvS : nrm (n + 1) (fun i => val (nth v i)) ≤ r * S := by
    rw [← hnrm_one]
    refine hnrm_le zero_le_one hrz (le_mul_of_one_le_left (abs_nonneg _) hr1) ?_
    have h0 := nrm_nonneg n fun i => val (nth v (i + 1))
    rw [one_mul, ← mul_assoc]
    refine le_mul_of_one_le_left h0 ?_
    rw [← div_eq_mul_inv, one_le_div hr0]
    exact hnr
  have hA2 : ∀ k < n + 1, A k ≤ 2 * (r * S) := by
    intro k hk
    have h1 : A k ≤ √(2 : ℕ) * (r * S) := by
      rw [← nrm_const 2 (by positivity : 0 ≤ r * S)]
      exact nrm_mono fun j hj => hvr _ (hσlt j hj k hk)
    have h2 : √((2 : ℕ) : ℝ) ≤ 2 := by rw [Real.sqrt_le_left (by norm_num)]; norm_num
    have h3 : 0 ≤ r * S := by positivity
    nlinarith
  have elem : ∀ k < n + 1, fin (nth (rd2 (n + 1) (rdTw (f (rdKernel T (n + 1) gi)) n) v) k) ∧
      |val (nth (rd2 (n + 1) (rdTw (f (rdKernel T (n + 1) gi)) n) v) k)
        - nth (rd2 (n + 1) (rdTw (dht (rdKernel ℝ (n + 1) gi)) n) (v.map val)) k|
        ≤ (1 + u) ^ (D1 + 7) * (9 * A k + η * 2) - 9 * A k := by
    intro k hk
    have data : ∀ j < 2, FR fin val u η Ω (A k) (nth v (σ j k)) (nth (v.map val) (σ j k), ⟨1, 0, 0⟩) := by
      intro j hj _
      refine ⟨hf _ (hσlt j hj k hk), ?_, ?_⟩
      · rw [hm.nth_map]
        have := abs_le_nrm hj fun j => val (nth v (σ j k))
        simpa using this
      · rw [hm.nth_map]
        simp
    have h := rd2_FR hm hn2 htw (hA0 k) hk (data 0 (by omega)) (data 1 (by omega)) (by
      refine le_trans ?_ hO
      show (1 + u) ^ (D1 + 3 + 4) * (((9 : ℕ) : ℝ) * max (A k) 1 + η * ((2 : ℕ) : ℝ)) ≤ _
      have h1 : max (A k) 1 ≤ 2 * r * max S 1 := by
        refine max_le ((hA2 k hk).trans ?_) ?_
        · rw [mul_assoc]
          have := mul_le_mul_of_nonneg_left hmS hrz
          linarith
        · nlinarith
      have h2 : 9 * max (A k) 1 + η * 2 ≤ 18 * (r * (max S 1 + 2 * η * r)) := by
        have h3 : η ≤ η * (r * r) := le_mul_of_one_le_right hη (by nlinarith)
        nlinarith
      have h0 : 0 ≤ r * (max S 1 + 2 * η * r) := by positivity
      push_cast
      calc (1 + u) ^ (D1 + 3 + 4) * (9 * max (A k) 1 + η * 2)
          ≤ (1 + u) ^ (K * (D1 + 7)) * (18 * (r * (max S 1 + 2 * η * r))) :=
            mul_le_mul hPQ h2 (by have := hA0 k; positivity) (hm.pow_pos _).le
        _ ≤ (1 + u) ^ (K * (D1 + 7)) * (G' * (r * (max S 1 + 2 * η * r))) :=
            mul_le_mul_of_nonneg_left (mul_le_mul_of_nonneg_right hG18 h0) (hm.pow_pos _).le
        _ = _ := by ring)
    refine ⟨h.1, h.2.2.trans (le_of_eq ?_)⟩
    push_cast
    rfl
  refine ⟨fun k hk => (elem k hk).1, ?_⟩
  set P := (1 + u) ^ (D1 + 7) with hPd
  refine rd2_arith hm (A := nrm (n + 1) A) hP hPQ hη hS0 hrz ?_ ?_ (by rw [hK]; push_cast at hsr ⊢; linarith) hbern
  · refine hgather.trans ?_
    push_cast
    exact mul_le_mul_of_nonneg_left hvS (Real.sqrt_nonneg _)
  · have hw : ∀ e : ℕ → ℝ, hnrm √n n e ≤ r * nrm (n + 1) e := by
      intro e
      rw [← hnrm_one]
      refine hnrm_le hr0.le hrz (le_mul_of_one_le_left (abs_nonneg _) hr1) ?_
      rw [one_mul]
      exact mul_le_mul_of_nonneg_right hnr (nrm_nonneg _ _)
    refine le_trans (hw _) (mul_le_mul_of_nonneg_left ?_ hrz)
    have hc0 : 0 ≤ P * (η * 2) := by positivity
    have hc1 : 0 ≤ (P - 1) * 9 := by linarith
    rw [hr, ← nrm_const (n + 1) hc0, ← nrm_mul _ hc1]
    refine le_trans (nrm_mono fun k hk => ?_) (nrm_add_le (n + 1) _ _)
    refine (elem k hk).2.trans (le_of_eq ?_)
    ring

/-- `RadersAlgorithm` around an inner object that computes the transform. -/
theorem rd_stage {n g gi G D C : ℕ} (hg : RadersGen n g gi) (hG1 : 1 ≤ G) {f : List T → List T} {e : List ℝ → List ℝ}
    (st : Stage fin val u η Ω G √n (nrm n) (nrm n) n n f e √n D C) (he : ∀ X, X.length = n → e X = dht X) :
    Stage fin val u η Ω (max 18 (2 * (Nat.sqrt (n + 1) + 1) * G)) √(n + 1 : ℕ) (nrm (n + 1)) (nrm (n + 1)) (n + 1) (n + 1)
      (rdFn (n + 1) g gi (rdTw (f (rdKernel T (n + 1) gi)) n) f) dht √(n + 1 : ℕ)
      (D + 13 * (Nat.sqrt (n + 1) + 1) * (D + n * (3 + 2 * t + C) + 7) + D) (C + 2 + C) := by
  have st' := st.congr hm (F' := f) (E' := dht) (fun _ _ => rfl) (fun X hX => (he X hX).symm)
  have hGn : (G : ℝ) * √n ≤ (max 18 (2 * (Nat.sqrt (n + 1) + 1) * G) : ℕ) := by
    have h1 : √(n : ℝ) ≤ √(n + 1 : ℕ) := Real.sqrt_le_sqrt (by push_cast; linarith)
    have h2 := sqrt_le_natSqrt hm (n + 1)
    have h3 : ((2 * (Nat.sqrt (n + 1) + 1) * G : ℕ) : ℝ) ≤ (max 18 (2 * (Nat.sqrt (n + 1) + 1) * G) : ℕ) := by
      exact_mod_cast le_max_right _ _
    have h4 : (G : ℝ) * √n ≤ G * (Nat.sqrt (n + 1) + 1 : ℕ) := mul_le_mul_of_nonneg_left (h1.trans h2) (Nat.cast_nonneg _)
    have h5 : (0 : ℝ) ≤ G * (Nat.sqrt (n + 1) + 1 : ℕ) := by positivity
    push_cast at h3 h4 h5 ⊢
    linarith
  have hr1 := one_le_sqrt_nat hm (Nat.succ_pos n)
  have hM := Real.sqrt_nonneg ((n + 1 : ℕ) : ℝ)
  have n0 := nrm_isNrm (n + 1)
  have s1 := rd1_stage hm hg st' hGn
  have s2 := rd2_stage hm hg hG1 st' (le_max_left _ _) (le_max_right 18 _)
  have s3 := rd3_stage hm hg st' hGn
  have s12 := s1.comp hm s2 n0 (hnrm_isNrm _ n) (hnrm_isNrm _ n) hM le_rfl hr1
  have s := s12.comp' hm s3 n0 (hnrm_isNrm _ n) n0 hM (by rw [one_mul]; exact hr1) le_rfl (by rw [one_mul])
  rw [one_mul, mul_one] at s
  exact s.congr hm (fun x _ => rdFn_eq _ _ _ _ _ _) (fun x hx =>
    (rdFn_dht hg.prime hg.odd hg.g0 hg.glt hg.gord hg.gi0 hg.gilt hg.gmul hg.giord hx).symm)

end

end RustDHT
