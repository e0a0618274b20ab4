import Verif.PhaseField.AllenCahn

/-!
# C66: the fourth-order Runge–Kutta step
-/
namespace Verif.PhaseField
variable {S : Type*} [AddCommGroup S] [Module ℝ S]

/-- **C66 (linear problems).** For `y' = A y` with any linear `A` the step is the Taylor polynomial of degree 4 of `exp(hA)`, and the time is the requested one. -/
theorem C66_rk4_linear (A : S →ₗ[ℝ] S) (y : S) (t0 t1 : ℝ) :
    rk4 (fun y _ => A y) (y, t0) t1 =
      (y + (t1 - t0) • A y + ((t1 - t0) ^ 2 / 2) • A (A y) + ((t1 - t0) ^ 3 / 6) • A (A (A y))
        + ((t1 - t0) ^ 4 / 24) • A (A (A (A y))), t1) := by
  unfold rk4
  simp only [map_add, map_smul, Prod.mk.injEq, and_true]
  module

/-- **C66 (quadrature).** For a right-hand side that is a cubic polynomial of time only, the step is the exact integral. -/
theorem C66_rk4_cubic (c0 c1 c2 c3 y : S) (t0 t1 : ℝ) :
    (rk4 (fun _ t => c0 + t • c1 + t ^ 2 • c2 + t ^ 3 • c3) (y, t0) t1).1 =
      y + (t1 - t0) • c0 + ((t1 ^ 2 - t0 ^ 2) / 2) • c1 + ((t1 ^ 3 - t0 ^ 3) / 3) • c2 + ((t1 ^ 4 - t0 ^ 4) / 4) • c3 := by
  unfold rk4
  simp only
  module

/-- **C66 (fixed points).** A state where the right-hand side vanishes at all times is left unchanged by both integrators. -/
theorem C66_fixed_point (f : S → ℝ → S) (y : S) (h : ∀ t, f y t = 0) (t0 t1 : ℝ) :
    rk4 f (y, t0) t1 = (y, t1) ∧ explicitEuler f (y, t0) t1 = (y, t1) := by
  constructor
  · unfold rk4; simp [h]
  · unfold explicitEuler; simp [h]

/-- Instance: `f(y, t) = t·y` vanishes at `y = 0`. -/
example : ∀ t : ℝ, (fun (y t : ℝ) => t * y) 0 t = 0 := by intro t; simp

end Verif.PhaseField
