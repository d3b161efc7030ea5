import Verif.Proofs.PlanStability
import Verif.Proofs.DhtLaws

/-! # The Euclidean norm of lists -/

namespace RustDHT

theorem norm2_nonneg (x : List ℝ) : 0 ≤ norm2 x := Real.sqrt_nonneg _

theorem norm2_dht {x : List ℝ} {n : ℕ} (hx : x.length = n) : norm2 (dht x) = √n * norm2 x := by
  rw [norm2_eq (n := n) (by rw [length_dht, hx]), norm2_eq hx, nrm_dht hx]

theorem norm2_zip_le {x y z : List ℝ} {n : ℕ} (hx : x.length = n) (hy : y.length = n) (hz : z.length = n) :
    norm2 (List.zipWith (· - ·) x z) ≤ norm2 (List.zipWith (· - ·) x y) + norm2 (List.zipWith (· - ·) y z) := by
  rw [norm2_sub hx hz, norm2_sub hx hy, norm2_sub hy hz]
  exact nrm_sub_le n _ _ _

theorem norm2_zip_comm {x y : List ℝ} {n : ℕ} (hx : x.length = n) (hy : y.length = n) :
    norm2 (List.zipWith (· - ·) x y) = norm2 (List.zipWith (· - ·) y x) := by
  rw [norm2_sub hx hy, norm2_sub hy hx]
  unfold nrm
  congr 1
  exact Finset.sum_congr rfl fun i _ => by ring

theorem norm2_le_add {x y : List ℝ} {n : ℕ} (hx : x.length = n) (hy : y.length = n) :
    norm2 x ≤ norm2 y + norm2 (List.zipWith (· - ·) x y) := by
  rw [norm2_sub hx hy, norm2_eq hx, norm2_eq hy, add_comm]
  refine le_trans (le_of_eq (nrm_congr fun i _ => ?_)) (nrm_add_le n _ _)
  ring

theorem dht_smul (c : ℝ) (x : List ℝ) : dht (x.map fun v => c * v) = (dht x).map fun v => c * v := by
  have h := dht_linear (x := x) (y := x) rfl c 0
  have e : ∀ l : List ℝ, List.zipWith (fun u v => c * u + 0 * v) l l = l.map fun v => c * v := by
    intro l
    rw [List.zipWith_self]
    simp
  rwa [e, e] at h

end RustDHT
