import Verif.Lbm.Model

/-! # Helper lemmas for the LBM model -/
namespace Verif.Lbm
open Finset

section Moments
variable {K : Type*} [Field K]

/-- The 19-point lattice sum written out. -/
def S19 (F : K → K → K → K) : K :=
      1/3 * F 0 0 0
      + 1/18 * (F 1 0 0 + F (-1) 0 0 + F 0 1 0 + F 0 (-1) 0 + F 0 0 1 + F 0 0 (-1))
      + 1/36 * (F 1 1 0 + F (-1) (-1) 0 + F 1 (-1) 0 + F (-1) 1 0
          + F 1 0 1 + F (-1) 0 (-1) + F (-1) 0 1 + F 1 0 (-1)
          + F 0 1 1 + F 0 (-1) (-1) + F 0 1 (-1) + F 0 (-1) 1)

/-- Explicit form of a weighted lattice sum. -/
theorem sum19 (F : K → K → K → K) :
    ∑ q, (weights q : K) * F (vels 0 q : ℤ) (vels 1 q : ℤ) (vels 2 q : ℤ) =
      S19 F := by
  have h : ∑ q, (weights q : K) * F (vels 0 q : ℤ) (vels 1 q : ℤ) (vels 2 q : ℤ) =
      1/3 * F (0:ℤ) (0:ℤ) (0:ℤ) + (1/18 * F (1:ℤ) (0:ℤ) (0:ℤ) + (1/18 * F (-1:ℤ) (0:ℤ) (0:ℤ)
      + (1/18 * F (0:ℤ) (1:ℤ) (0:ℤ) + (1/18 * F (0:ℤ) (-1:ℤ) (0:ℤ)
      + (1/18 * F (0:ℤ) (0:ℤ) (1:ℤ) + (1/18 * F (0:ℤ) (0:ℤ) (-1:ℤ)
      + (1/36 * F (1:ℤ) (1:ℤ) (0:ℤ) + (1/36 * F (-1:ℤ) (-1:ℤ) (0:ℤ)
      + (1/36 * F (1:ℤ) (-1:ℤ) (0:ℤ) + (1/36 * F (-1:ℤ) (1:ℤ) (0:ℤ)
      + (1/36 * F (1:ℤ) (0:ℤ) (1:ℤ) + (1/36 * F (-1:ℤ) (0:ℤ) (-1:ℤ)
      + (1/36 * F (-1:ℤ) (0:ℤ) (1:ℤ) + (1/36 * F (1:ℤ) (0:ℤ) (-1:ℤ)
      + (1/36 * F (0:ℤ) (1:ℤ) (1:ℤ) + (1/36 * F (0:ℤ) (-1:ℤ) (-1:ℤ)
      + (1/36 * F (0:ℤ) (1:ℤ) (-1:ℤ) + (1/36 * F (0:ℤ) (-1:ℤ) (1:ℤ) + 0)))))))))))))))))) := by
    simp only [Fin.sum_univ_succ, Fin.sum_univ_zero]
    rfl
  rw [h, S19]
  push_cast
  ring

end Moments
end Verif.Lbm
