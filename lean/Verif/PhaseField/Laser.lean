import Verif.PhaseField.AllenCahnProps
import Mathlib.Analysis.SpecialFunctions.Sqrt
import Mathlib.Analysis.SpecialFunctions.ExpDeriv
import Mathlib.Analysis.Calculus.IteratedDeriv.Defs

/-!
# The temperature fields given to the phase-field solver (model of applications/phase_field/{simple/example.py, simple/example_grf.py, multi_scan/example.py, solidification/example.py})
-/

namespace Verif.PhaseField
open Finset Filter Topology

/-! ## Model -/

/-- Lines 39-48 of multi_scan/example.py for one cell centroid `c`, before the cap: distance `R` to the laser at `l`, projection on the direction `u`. -/
noncomputable def laserT (Tamb Q kappa alpha vel : ℝ) (u l c : Fin 3 → ℝ) : ℝ :=
  let X := c 0 - l 0
  let Y := c 1 - l 1
  let Z := c 2 - l 2
  let R := √(X ^ 2 + Y ^ 2 + Z ^ 2)
  let projection := X * u 0 + Y * u 1 + Z * u 2
  Tamb + Q / (2 * Real.pi * kappa) / R * Real.exp (-vel / (2 * alpha) * (R + projection))

/-- `get_T_laser` of multi_scan/example.py (34-48), with `Q = 25`, `alpha = 5.2e-6`, `kappa = 27` and the cap; `power` and `t` are not used. -/
noncomputable def scanT (Tamb vel : ℝ) (_t : ℝ) (l : Fin 3 → ℝ) (_power : ℝ) (u c : Fin 3 → ℝ) : ℝ :=
  let T := laserT Tamb 25 27 5.2e-6 vel u l c
  if T > 2000 then 2000 else T

/-- `get_T_laser` of simple/example.py (22-35). -/
noncomputable def simpleT (Tamb tOff : ℝ) (dom : Fin 3 → ℝ) (t : ℝ) (c : Fin 3 → ℝ) : ℝ :=
  let Q : ℝ := 25
  let alpha : ℝ := 5.2e-6
  let kappa : ℝ := 27
  let x0 := 0.2 * dom 0
  let vel := 0.6 * dom 0 / tOff
  let X := c 0 - x0 - vel * t
  let Y := c 1 - 0.5 * dom 1
  let Z := c 2 - dom 2
  let R := √(X ^ 2 + Y ^ 2 + Z ^ 2)
  Tamb + Q / (2 * Real.pi * kappa) / R * Real.exp (-vel / (2 * alpha) * (R + X))

/-- The power and the speed at time `t` (simple/example_grf.py 29-37). -/
noncomputable def grfQ (tOff t : ℝ) : ℝ := t / tOff * (15 - 35) + 35
noncomputable def grfVel (tOff dx t : ℝ) : ℝ :=
  let vel_avg := 0.6 * dx / tOff
  t / tOff * (vel_avg * 1.5 - vel_avg * 0.5) + vel_avg * 0.5

/-- Where the laser is (`x0 + (vel + vel_min)/2*t`, simple/example_grf.py 28, 39). -/
noncomputable def grfX (tOff dx t : ℝ) : ℝ := 0.2 * dx + (grfVel tOff dx t + 0.6 * dx / tOff * 0.5) / 2 * t

/-- `get_T_laser` of simple/example_grf.py (22-44). -/
noncomputable def grfT (Tamb tOff : ℝ) (dom : Fin 3 → ℝ) (t : ℝ) (c : Fin 3 → ℝ) : ℝ :=
  let X := c 0 - 0.2 * dom 0 - (grfVel tOff (dom 0) t + 0.6 * dom 0 / tOff * 0.5) / 2 * t
  let Y := c 1 - 0.5 * dom 1
  let Z := c 2 - dom 2
  let R := √(X ^ 2 + Y ^ 2 + Z ^ 2)
  Tamb + grfQ tOff t / (2 * Real.pi * 27) / R * Real.exp (-grfVel tOff (dom 0) t / (2 * 5.2e-6) * (R + X))

/-- `get_T_quench` (solidification/example.py 23-34). -/
noncomputable def quenchT (Tliq : ℝ) (t : ℝ) (c : Fin 3 → ℝ) : ℝ :=
  let z := c 2
  let vel : ℝ := 0.2
  let thermal_grad : ℝ := 5e5
  let cooling_rate := thermal_grad * vel
  Tliq + thermal_grad * z - cooling_rate * t

/-! ## Specification -/

/-- Squared distance. -/
def dist2 (a b : Fin 3 → ℝ) : ℝ := ∑ i, (a i - b i) ^ 2

/-- The sum of the second derivatives along the axes. -/
noncomputable def lap (f : (Fin 3 → ℝ) → ℝ) (c : Fin 3 → ℝ) : ℝ := ∑ i, deriv (deriv fun s => f (Function.update c i s)) (c i)

/-- The laser at time `t`, moving from `p` with speed `v` in direction `u`. -/
def moved (p u : Fin 3 → ℝ) (v t : ℝ) : Fin 3 → ℝ := fun i => p i + v * t * u i

/-! ## The field around a moving source -/

/-- The kernel `exp(-k(R + S))/R` and its derivatives along a curve on which `R² = W`, `W' = 2ρ`, `S' = σ`. -/
theorem kernel_hasDerivAt (k : ℝ) (W S : ℝ → ℝ) (rho sig s : ℝ) (hW : HasDerivAt W (2 * rho) s) (hS : HasDerivAt S sig s) (h0 : 0 < W s) :
    HasDerivAt (fun s => (√(W s))⁻¹) (-(rho * (√(W s))⁻¹ ^ 3)) s ∧ HasDerivAt (fun s => Real.exp (-k * (√(W s) + S s))) (Real.exp (-k * (√(W s) + S s)) * (-k * (rho * (√(W s))⁻¹ + sig))) s := by
  have hR : 0 < √(W s) := Real.sqrt_pos.mpr h0
  have h1 : HasDerivAt (fun s => √(W s)) (rho * (√(W s))⁻¹) s := by
    refine (hW.sqrt h0.ne').congr_deriv ?_
    field_simp
  refine ⟨?_, ((h1.add hS).const_mul (-k)).exp⟩
  refine (h1.inv hR.ne').congr_deriv ?_
  field_simp

/-- First derivative of the kernel. -/
theorem kernel_first (k : ℝ) (W S : ℝ → ℝ) (rho sig s : ℝ) (hW : HasDerivAt W (2 * rho) s) (hS : HasDerivAt S sig s) (h0 : 0 < W s) :
    HasDerivAt (fun s => (√(W s))⁻¹ * Real.exp (-k * (√(W s) + S s)))
      (Real.exp (-k * (√(W s) + S s)) * (-(rho * (√(W s))⁻¹ ^ 3) - k * (rho * (√(W s))⁻¹ + sig) * (√(W s))⁻¹)) s := by
  obtain ⟨h1, h2⟩ := kernel_hasDerivAt k W S rho sig s hW hS h0
  refine (h1.mul h2).congr_deriv ?_
  ring

/-- Second derivative along an axis: `W = w + (s - a)²`, `S = b + σ s`. -/
theorem kernel_second (k w a b sig s : ℝ) (h0 : 0 < w + (s - a) ^ 2) :
    deriv (deriv fun s => (√(w + (s - a) ^ 2))⁻¹ * Real.exp (-k * (√(w + (s - a) ^ 2) + (b + sig * s)))) s =
      Real.exp (-k * (√(w + (s - a) ^ 2) + (b + sig * s))) *
        (k * ((s - a) * (√(w + (s - a) ^ 2))⁻¹ + sig) * (k * ((s - a) * (√(w + (s - a) ^ 2))⁻¹ + sig) * (√(w + (s - a) ^ 2))⁻¹ + 2 * ((s - a) * (√(w + (s - a) ^ 2))⁻¹ ^ 3)) -
          k * ((√(w + (s - a) ^ 2))⁻¹ - (s - a) ^ 2 * (√(w + (s - a) ^ 2))⁻¹ ^ 3) * (√(w + (s - a) ^ 2))⁻¹ -
          (√(w + (s - a) ^ 2))⁻¹ ^ 3 + 3 * ((s - a) ^ 2 * (√(w + (s - a) ^ 2))⁻¹ ^ 5)) := by
  have hW : ∀ s, HasDerivAt (fun s => w + (s - a) ^ 2) (2 * (s - a)) s := fun s => by
    refine ((((hasDerivAt_id s).sub_const a).pow 2).const_add w).congr_deriv ?_
    simp
  have hS : ∀ s, HasDerivAt (fun s => b + sig * s) sig s := fun s => by
    refine (((hasDerivAt_id s).const_mul sig).const_add b).congr_deriv ?_
    simp
  have hev : (deriv fun s => (√(w + (s - a) ^ 2))⁻¹ * Real.exp (-k * (√(w + (s - a) ^ 2) + (b + sig * s)))) =ᶠ[𝓝 s]
      fun s => Real.exp (-k * (√(w + (s - a) ^ 2) + (b + sig * s))) *
        (-((s - a) * (√(w + (s - a) ^ 2))⁻¹ ^ 3) - k * ((s - a) * (√(w + (s - a) ^ 2))⁻¹ + sig) * (√(w + (s - a) ^ 2))⁻¹) := by
    have hc : Continuous fun s => w + (s - a) ^ 2 := by fun_prop
    filter_upwards [hc.continuousAt.eventually (lt_mem_nhds h0)] with x hx
    exact (kernel_first k _ _ (x - a) sig x (hW x) (hS x) hx).deriv
  rw [hev.deriv_eq]
  obtain ⟨h1, h2⟩ := kernel_hasDerivAt k _ _ (s - a) sig s (hW s) (hS s) h0
  have h3 : HasDerivAt (fun s : ℝ => s - a) 1 s := (hasDerivAt_id s).sub_const a
  refine (h2.mul (((h3.mul (h1.pow 3)).neg).sub ((((h3.mul h1).add_const sig).const_mul k).mul h1))).deriv.trans ?_
  simp only [Pi.pow_apply, Pi.mul_apply, Pi.sub_apply, Pi.neg_apply, Nat.cast_ofNat]
  ring

theorem laserT_eq (Tamb Q kappa alpha vel : ℝ) (u l c : Fin 3 → ℝ) :
    laserT Tamb Q kappa alpha vel u l c = Tamb + Q / (2 * Real.pi * kappa) * ((√(dist2 c l))⁻¹ * Real.exp (-(vel / (2 * alpha)) * (√(dist2 c l) + ∑ i, (c i - l i) * u i))) := by
  unfold laserT dist2
  simp only [Fin.sum_univ_three]
  rw [neg_div]
  ring

theorem dist2_update (c l : Fin 3 → ℝ) (i : Fin 3) (s : ℝ) : dist2 (Function.update c i s) l = (dist2 c l - (c i - l i) ^ 2) + (s - l i) ^ 2 := by
  unfold dist2
  fin_cases i <;> simp [Fin.sum_univ_three, Function.update] <;> ring

theorem proj_update (c l u : Fin 3 → ℝ) (i : Fin 3) (s : ℝ) : ∑ j, (Function.update c i s j - l j) * u j = (∑ j, (c j - l j) * u j - c i * u i) + u i * s := by
  fin_cases i <;> simp [Fin.sum_univ_three, Function.update] <;> ring

/-- The second derivative along axis `i`. -/
theorem laser_second (Tamb Q kappa alpha vel : ℝ) (u l c : Fin 3 → ℝ) (h0 : 0 < dist2 c l) (i : Fin 3) (k y E : ℝ) (hk : k = vel / (2 * alpha)) (hy : y = (√(dist2 c l))⁻¹)
    (hE : E = Real.exp (-k * (√(dist2 c l) + ∑ j, (c j - l j) * u j))) :
    deriv (deriv fun s => laserT Tamb Q kappa alpha vel u l (Function.update c i s)) (c i) = Q / (2 * Real.pi * kappa) * (E *
      (k * ((c i - l i) * y + u i) * (k * ((c i - l i) * y + u i) * y + 2 * ((c i - l i) * y ^ 3)) - k * (y - (c i - l i) ^ 2 * y ^ 3) * y - y ^ 3 + 3 * ((c i - l i) ^ 2 * y ^ 5))) := by
  have hd : dist2 c l - (c i - l i) ^ 2 + (c i - l i) ^ 2 = dist2 c l := by ring
  have hp : ∑ j, (c j - l j) * u j - c i * u i + u i * c i = ∑ j, (c j - l j) * u j := by ring
  have hf : (fun s => laserT Tamb Q kappa alpha vel u l (Function.update c i s)) = fun s => Tamb + Q / (2 * Real.pi * kappa) *
      ((√(dist2 c l - (c i - l i) ^ 2 + (s - l i) ^ 2))⁻¹ * Real.exp (-k * (√(dist2 c l - (c i - l i) ^ 2 + (s - l i) ^ 2) + ((∑ j, (c j - l j) * u j - c i * u i) + u i * s)))) := by
    funext s
    rw [laserT_eq, dist2_update, proj_update, hk]
  have hdd : ∀ (f : ℝ → ℝ) (a b : ℝ), (deriv fun s => a + b * f s) = fun s => b * deriv f s := by
    intro f a b
    funext s
    rw [deriv_const_add, deriv_const_mul_field]
  rw [hf, hdd, deriv_const_mul_field, kernel_second k _ _ _ _ _ (by rw [hd]; exact h0), hd, hp, ← hy, ← hE]

theorem dist2_pos {c l : Fin 3 → ℝ} (h0 : c ≠ l) : 0 < dist2 c l := by
  by_contra hn
  refine h0 (funext fun i => ?_)
  have h1 : ∀ i ∈ univ, (0 : ℝ) ≤ (c i - l i) ^ 2 := fun i _ => sq_nonneg _
  have h2 := (sum_eq_zero_iff_of_nonneg h1).mp (le_antisymm (not_lt.mp hn) (sum_nonneg h1)) i (mem_univ i)
  exact sub_eq_zero.mp (by simpa using h2)

/-- By how much the field fails to solve the heat equation. -/
theorem heat_defect (Tamb Q kappa alpha vel : ℝ) (ha : alpha ≠ 0) (u p c : Fin 3 → ℝ) (t : ℝ) (h0 : c ≠ moved p u vel t) :
    ∃ e > 0, deriv (fun t => laserT Tamb Q kappa alpha vel u (moved p u vel t) c) t =
      alpha * lap (laserT Tamb Q kappa alpha vel u (moved p u vel t)) c + alpha * (Q / (2 * Real.pi * kappa)) * (vel / (2 * alpha)) ^ 2 * e * (∑ i, u i ^ 2 - 1) := by
  have hpos := dist2_pos h0
  set l := moved p u vel t with hl
  set k := vel / (2 * alpha) with hk
  set y := (√(dist2 c l))⁻¹ with hy
  set E := Real.exp (-k * (√(dist2 c l) + ∑ j, (c j - l j) * u j)) with hE
  have hyR : dist2 c l * y ^ 2 = 1 := by
    rw [hy, inv_pow, Real.sq_sqrt hpos.le, mul_inv_cancel₀ hpos.ne']
  unfold lap
  simp only [laser_second Tamb Q kappa alpha vel u l c hpos _ k y E hk hy hE]
  have hder : deriv (fun t => laserT Tamb Q kappa alpha vel u (moved p u vel t) c) t = Q / (2 * Real.pi * kappa) *
      (E * (-((-vel * ∑ j, (c j - l j) * u j) * y ^ 3) - k * ((-vel * ∑ j, (c j - l j) * u j) * y + -vel * ∑ i, u i ^ 2) * y)) := by
    have hf : (fun t => laserT Tamb Q kappa alpha vel u (moved p u vel t) c) = fun t => Tamb + Q / (2 * Real.pi * kappa) *
        ((√(dist2 c (moved p u vel t)))⁻¹ * Real.exp (-k * (√(dist2 c (moved p u vel t)) + ∑ j, (c j - moved p u vel t j) * u j))) := by
      funext t
      rw [laserT_eq]
    have hm : ∀ i, HasDerivAt (fun t => c i - moved p u vel t i) (-vel * u i) t := fun i => by
      unfold moved
      refine (((((hasDerivAt_id t).const_mul vel).mul_const (u i)).const_add (p i)).const_sub (c i)).congr_deriv ?_
      simp
    have hW : HasDerivAt (fun t => dist2 c (moved p u vel t)) (2 * (-vel * ∑ j, (c j - l j) * u j)) t := by
      unfold dist2
      refine (HasDerivAt.fun_sum fun i (_ : i ∈ univ) => (hm i).pow 2).congr_deriv ?_
      simp only [Fin.sum_univ_three, hl]
      push_cast
      ring
    have hS : HasDerivAt (fun t => ∑ j, (c j - moved p u vel t j) * u j) (-vel * ∑ i, u i ^ 2) t := by
      refine (HasDerivAt.fun_sum fun i (_ : i ∈ univ) => (hm i).mul_const (u i)).congr_deriv ?_
      rw [mul_sum]
      exact sum_congr rfl fun i _ => by ring
    rw [hf]
    refine (((kernel_first k _ _ _ _ t hW hS hpos).const_mul (Q / (2 * Real.pi * kappa))).const_add Tamb).deriv.trans ?_
    rfl
  rw [hder]
  have hv : vel = 2 * alpha * k := by rw [hk]; field_simp
  have hd3 : (c 0 - l 0) ^ 2 * y ^ 2 + (c 1 - l 1) ^ 2 * y ^ 2 + (c 2 - l 2) ^ 2 * y ^ 2 = 1 := by
    rw [← hyR]; unfold dist2; simp only [Fin.sum_univ_three]; ring
  have hyp : 0 < y := by rw [hy]; exact inv_pos.mpr (Real.sqrt_pos.mpr hpos)
  have hEp : 0 < E := by rw [hE]; exact Real.exp_pos _
  refine ⟨E * y, mul_pos hEp hyp, ?_⟩
  clear_value y E k l
  simp only [Fin.sum_univ_three]
  generalize c 0 - l 0 = a at *
  generalize c 1 - l 1 = b at *
  generalize c 2 - l 2 = d at *
  generalize u 0 = u0 at *
  generalize u 1 = u1 at *
  generalize u 2 = u2 at *
  rw [hv]
  generalize Q / (2 * Real.pi * kappa) = C
  linear_combination (-(alpha * C * E) * (k ^ 2 * y + 3 * k * y ^ 2 + 3 * y ^ 3)) * hd3

/-- **C140 (heat equation).** The field around a source that moves with speed `vel` in a direction of length one solves the heat equation with diffusivity `alpha` everywhere outside the source. -/
theorem C140_heat (Tamb Q kappa alpha vel : ℝ) (ha : alpha ≠ 0) (u p c : Fin 3 → ℝ) (hu : ∑ i, u i ^ 2 = 1) (t : ℝ) (h0 : c ≠ moved p u vel t) :
    deriv (fun t => laserT Tamb Q kappa alpha vel u (moved p u vel t) c) t = alpha * lap (laserT Tamb Q kappa alpha vel u (moved p u vel t)) c := by
  obtain ⟨e, _, h⟩ := heat_defect Tamb Q kappa alpha vel ha u p c t h0
  rw [h, hu, sub_self, mul_zero, add_zero]

/-- **C140 (unit direction).** For a moving source it does so only if the direction has length one. -/
theorem C140_unit (Tamb Q kappa alpha vel : ℝ) (ha : alpha ≠ 0) (hQ : Q ≠ 0) (hk : kappa ≠ 0) (hv : vel ≠ 0) (u p c : Fin 3 → ℝ) (t : ℝ) (h0 : c ≠ moved p u vel t)
    (h : deriv (fun t => laserT Tamb Q kappa alpha vel u (moved p u vel t) c) t = alpha * lap (laserT Tamb Q kappa alpha vel u (moved p u vel t)) c) : ∑ i, u i ^ 2 = 1 := by
  obtain ⟨e, he, h'⟩ := heat_defect Tamb Q kappa alpha vel ha u p c t h0
  rw [h'] at h
  have hpi := Real.pi_ne_zero
  have h1 : alpha * (Q / (2 * Real.pi * kappa)) * (vel / (2 * alpha)) ^ 2 * e ≠ 0 := by
    have := he.ne'
    positivity
  have h2 := add_eq_left.mp h
  exact sub_eq_zero.mp ((mul_eq_zero.mp h2).resolve_left h1)

/-- **C140 (insulated surface).** If the laser moves in the plane of the top surface, no heat crosses that plane. -/
theorem C140_insulated (Tamb Q kappa alpha vel : ℝ) (u l c : Fin 3 → ℝ) (hu : u 2 = 0) (hz : c 2 = l 2) (h0 : c ≠ l) :
    HasDerivAt (fun s => laserT Tamb Q kappa alpha vel u l (Function.update c 2 s)) 0 (c 2) := by
  have hpos := dist2_pos h0
  have hd : dist2 c l - (c 2 - l 2) ^ 2 + (c 2 - l 2) ^ 2 = dist2 c l := by ring
  have hf : (fun s => laserT Tamb Q kappa alpha vel u l (Function.update c 2 s)) = fun s => Tamb + Q / (2 * Real.pi * kappa) *
      ((√(dist2 c l - (c 2 - l 2) ^ 2 + (s - l 2) ^ 2))⁻¹ * Real.exp (-(vel / (2 * alpha)) * (√(dist2 c l - (c 2 - l 2) ^ 2 + (s - l 2) ^ 2) + ((∑ j, (c j - l j) * u j - c 2 * u 2) + u 2 * s)))) := by
    funext s
    rw [laserT_eq, dist2_update, proj_update]
  rw [hf]
  have hW : HasDerivAt (fun s => dist2 c l - (c 2 - l 2) ^ 2 + (s - l 2) ^ 2) (2 * 0) (c 2) := by
    refine ((((hasDerivAt_id (c 2)).sub_const (l 2)).pow 2).const_add _).congr_deriv ?_
    simp [hz]
  have hS : HasDerivAt (fun s => (∑ j, (c j - l j) * u j - c 2 * u 2) + u 2 * s) 0 (c 2) := by
    rw [hu]
    refine (((hasDerivAt_id (c 2)).const_mul 0).const_add _).congr_deriv ?_
    simp
  refine (((kernel_first _ _ _ _ _ (c 2) hW hS (by rw [hd]; exact hpos)).const_mul (Q / (2 * Real.pi * kappa))).const_add Tamb).congr_deriv ?_
  simp

/-- **C140 (power).** Towards the source the heat crossing the lower half of a small sphere tends to `Q`, in every direction `n`. -/
theorem C140_power (Tamb Q kappa alpha vel : ℝ) (hk : kappa ≠ 0) (u l n : Fin 3 → ℝ) (hn : ∑ i, n i ^ 2 = 1) :
    Tendsto (fun r => -kappa * deriv (fun r => laserT Tamb Q kappa alpha vel u l fun i => l i + r * n i) r * (2 * Real.pi * r ^ 2)) (𝓝[>] 0) (𝓝 Q) := by
  set k := vel / (2 * alpha) with hkk
  set g := 1 + ∑ i, n i * u i with hg
  have hpi := Real.pi_ne_zero
  have hf : ∀ r : ℝ, 0 < r → laserT Tamb Q kappa alpha vel u l (fun i => l i + r * n i) = Tamb + Q / (2 * Real.pi * kappa) * (r⁻¹ * Real.exp (-k * (r * g))) := by
    intro r hr
    have h1 : dist2 (fun i => l i + r * n i) l = r ^ 2 := by
      unfold dist2
      rw [show (∑ i, (l i + r * n i - l i) ^ 2) = r ^ 2 * ∑ i, n i ^ 2 by rw [mul_sum]; exact sum_congr rfl fun i _ => by ring, hn, mul_one]
    have h2 : ∑ i, (l i + r * n i - l i) * u i = r * ∑ i, n i * u i := by rw [mul_sum]; exact sum_congr rfl fun i _ => by ring
    rw [laserT_eq, h1, Real.sqrt_sq hr.le, h2, hg, ← hkk, mul_add r, mul_one]
  have hd : ∀ r : ℝ, 0 < r → -kappa * deriv (fun r => laserT Tamb Q kappa alpha vel u l fun i => l i + r * n i) r * (2 * Real.pi * r ^ 2) = Q * (1 + k * g * r) * Real.exp (-k * (r * g)) := by
    intro r hr
    have hev : (fun r => laserT Tamb Q kappa alpha vel u l fun i => l i + r * n i) =ᶠ[𝓝 r] fun r => Tamb + Q / (2 * Real.pi * kappa) * (r⁻¹ * Real.exp (-k * (r * g))) := by
      filter_upwards [lt_mem_nhds hr] with x hx using hf x hx
    have hd : HasDerivAt (fun r => Tamb + Q / (2 * Real.pi * kappa) * (r⁻¹ * Real.exp (-k * (r * g)))) (Q / (2 * Real.pi * kappa) * (-(r ^ 2)⁻¹ * Real.exp (-k * (r * g)) + r⁻¹ * (Real.exp (-k * (r * g)) * (-k * (1 * g))))) r :=
      (((hasDerivAt_inv hr.ne').mul ((((hasDerivAt_id r).mul_const g).const_mul (-k)).exp)).const_mul (Q / (2 * Real.pi * kappa))).const_add Tamb
    rw [hev.deriv_eq, hd.deriv]
    field_simp
    ring
  refine Tendsto.congr' (f₁ := fun r => Q * (1 + k * g * r) * Real.exp (-k * (r * g))) ?_ ?_
  · filter_upwards [self_mem_nhdsWithin] with r hr using (hd r hr).symm
  · have hc : Continuous fun r : ℝ => Q * (1 + k * g * r) * Real.exp (-k * (r * g)) := by fun_prop
    have := hc.tendsto 0
    simp only [mul_zero, add_zero, zero_mul, Real.exp_zero, mul_one] at this
    exact this.mono_left nhdsWithin_le_nhds

/-- **C140 (range).** The field is above the ambient temperature and no larger than that of a source at rest; of two points opposite each other with respect to the source the one in front is not hotter. -/
theorem C140_range (Tamb Q kappa alpha vel : ℝ) (hQ : 0 < Q) (hk : 0 < kappa) (ha : 0 < alpha) (hv : 0 ≤ vel) (u l c : Fin 3 → ℝ) (hu : ∑ i, u i ^ 2 = 1) (h0 : c ≠ l) :
    Tamb < laserT Tamb Q kappa alpha vel u l c ∧ laserT Tamb Q kappa alpha vel u l c ≤ Tamb + Q / (2 * Real.pi * kappa) / √(dist2 c l) ∧
      (0 ≤ ∑ i, (c i - l i) * u i → laserT Tamb Q kappa alpha vel u l c ≤ laserT Tamb Q kappa alpha vel u l fun i => 2 * l i - c i) := by
  have hpos := dist2_pos h0
  have hR := Real.sqrt_pos.mpr hpos
  have hpi := Real.pi_pos
  have hC : 0 < Q / (2 * Real.pi * kappa) := by positivity
  have hcs : -√(dist2 c l) ≤ ∑ i, (c i - l i) * u i := by
    have h1 := sum_mul_sq_le_sq_mul_sq univ (fun i => c i - l i) u
    rw [hu, mul_one] at h1
    exact (abs_le.mp (Real.abs_le_sqrt h1)).1
  have hkn : 0 ≤ vel / (2 * alpha) := by positivity
  rw [laserT_eq, laserT_eq]
  refine ⟨by have := mul_pos hC (mul_pos (inv_pos.mpr hR) (Real.exp_pos (-(vel / (2 * alpha)) * (√(dist2 c l) + ∑ i, (c i - l i) * u i)))); linarith, ?_, fun hf => ?_⟩
  · rw [div_eq_mul_inv (Q / (2 * Real.pi * kappa)) (√(dist2 c l))]
    have : Real.exp (-(vel / (2 * alpha)) * (√(dist2 c l) + ∑ i, (c i - l i) * u i)) ≤ 1 := by
      rw [Real.exp_le_one_iff]
      nlinarith
    gcongr
    exact mul_le_of_le_one_right (inv_nonneg.mpr hR.le) this
  · have h1 : dist2 (fun i => 2 * l i - c i) l = dist2 c l := sum_congr rfl fun i _ => by ring
    have h2 : ∑ i, (2 * l i - c i - l i) * u i = -∑ i, (c i - l i) * u i := by rw [← sum_neg_distrib]; exact sum_congr rfl fun i _ => by ring
    rw [h1, h2]
    have : Real.exp (-(vel / (2 * alpha)) * (√(dist2 c l) + ∑ i, (c i - l i) * u i)) ≤ Real.exp (-(vel / (2 * alpha)) * (√(dist2 c l) + -∑ i, (c i - l i) * u i)) := by
      rw [Real.exp_le_exp]
      nlinarith
    gcongr

/-! ## The programs -/

/-- The start of the laser of simple/example.py. -/
noncomputable def simpleStart (dom : Fin 3 → ℝ) : Fin 3 → ℝ := ![0.2 * dom 0, 0.5 * dom 1, dom 2]

theorem simpleT_eq (Tamb tOff : ℝ) (dom : Fin 3 → ℝ) (t : ℝ) (c : Fin 3 → ℝ) :
    simpleT Tamb tOff dom t c = laserT Tamb 25 27 5.2e-6 (0.6 * dom 0 / tOff) ![1, 0, 0] (moved (simpleStart dom) ![1, 0, 0] (0.6 * dom 0 / tOff) t) c := by
  unfold simpleT laserT moved simpleStart
  simp
  ring_nf

/-- **C140 (single track).** The temperature of simple/example.py solves the heat equation with diffusivity 5.2e-6 at every cell centroid and time; the laser starts at 20 % and ends at 80 % of the length. -/
theorem C140_simple (Tamb tOff : ℝ) (dom : Fin 3 → ℝ) (t : ℝ) (c : Fin 3 → ℝ) (hc : c 2 < dom 2) :
    deriv (fun t => simpleT Tamb tOff dom t c) t = 5.2e-6 * lap (simpleT Tamb tOff dom t) c ∧
      (0 < tOff → moved (simpleStart dom) ![1, 0, 0] (0.6 * dom 0 / tOff) 0 = ![0.2 * dom 0, 0.5 * dom 1, dom 2] ∧
        moved (simpleStart dom) ![1, 0, 0] (0.6 * dom 0 / tOff) tOff = ![0.8 * dom 0, 0.5 * dom 1, dom 2]) := by
  refine ⟨?_, fun ht => ⟨?_, ?_⟩⟩
  · have h1 : (fun t => simpleT Tamb tOff dom t c) = fun t => laserT Tamb 25 27 5.2e-6 (0.6 * dom 0 / tOff) ![1, 0, 0] (moved (simpleStart dom) ![1, 0, 0] (0.6 * dom 0 / tOff) t) c := funext fun t => simpleT_eq ..
    have h2 : simpleT Tamb tOff dom t = laserT Tamb 25 27 5.2e-6 (0.6 * dom 0 / tOff) ![1, 0, 0] (moved (simpleStart dom) ![1, 0, 0] (0.6 * dom 0 / tOff) t) := funext fun c => simpleT_eq ..
    rw [h1, h2]
    refine C140_heat Tamb 25 27 5.2e-6 _ (by norm_num) _ _ c (by simp [Fin.sum_univ_three]) t fun he => ?_
    have := congrFun he 2
    simp [moved, simpleStart] at this
    exact absurd this hc.ne
  · funext i
    fin_cases i <;> simp [moved, simpleStart]
  · funext i
    fin_cases i <;> simp [moved, simpleStart]
    field_simp
    ring

/-- **C140 (varying speed and power).** In example_grf.py the laser is where the integral of its speed puts it, covers the same 20 % to 80 % of the length, its speed rises from half to one and a half times the average of simple/example.py and
its power falls from 35 to 15; the field is the one of a uniformly moving source with the speed, power and position of the moment. -/
theorem C140_grf (Tamb tOff : ℝ) (ht : 0 < tOff) (dom : Fin 3 → ℝ) :
    (∀ t, HasDerivAt (grfX tOff (dom 0)) (grfVel tOff (dom 0) t) t) ∧ grfX tOff (dom 0) 0 = 0.2 * dom 0 ∧ grfX tOff (dom 0) tOff = 0.8 * dom 0 ∧
      grfVel tOff (dom 0) 0 = 0.5 * (0.6 * dom 0 / tOff) ∧ grfVel tOff (dom 0) tOff = 1.5 * (0.6 * dom 0 / tOff) ∧ grfQ tOff 0 = 35 ∧ grfQ tOff tOff = 15 ∧
      (∀ t ∈ Set.Icc 0 tOff, 15 ≤ grfQ tOff t ∧ grfQ tOff t ≤ 35) ∧
      ∀ t c, grfT Tamb tOff dom t c = laserT Tamb (grfQ tOff t) 27 5.2e-6 (grfVel tOff (dom 0) t) ![1, 0, 0] ![grfX tOff (dom 0) t, 0.5 * dom 1, dom 2] c := by
  refine ⟨fun t => ?_, by simp [grfX], ?_, ?_, ?_, by simp [grfQ], ?_, fun t ht' => ?_, fun t c => ?_⟩
  · have he : grfX tOff (dom 0) = fun t => 0.2 * dom 0 + (0.3 * dom 0 / tOff ^ 2 * t ^ 2 + 0.3 * dom 0 / tOff * t) := by
      funext t
      unfold grfX grfVel
      field_simp
      ring
    rw [he]
    refine ((((hasDerivAt_id t).pow 2).const_mul (0.3 * dom 0 / tOff ^ 2)).add ((hasDerivAt_id t).const_mul (0.3 * dom 0 / tOff)) |>.const_add (0.2 * dom 0)).congr_deriv ?_
    unfold grfVel
    simp
    field_simp
    ring
  · unfold grfX grfVel
    field_simp
    ring
  · unfold grfVel
    ring
  · unfold grfVel
    field_simp
    ring
  · unfold grfQ
    field_simp
    ring
  · have h1 : 0 ≤ t / tOff := div_nonneg ht'.1 ht.le
    have h2 : t / tOff ≤ 1 := (div_le_one ht).mpr ht'.2
    unfold grfQ
    constructor <;> linarith
  · unfold grfT laserT grfX
    simp
    ring_nf

/-- **C140 (quenching).** In solidification/example.py the liquidus isotherm is the plane `z = 0.2 t`: below it the metal is solid, above it liquid, and the gradient is 5e5. -/
theorem C140_quench (Tliq t : ℝ) (c : Fin 3 → ℝ) :
    (quenchT Tliq t c < Tliq ↔ c 2 < 0.2 * t) ∧ (quenchT Tliq t c = Tliq ↔ c 2 = 0.2 * t) ∧ (∀ c', quenchT Tliq t c' - quenchT Tliq t c = 5e5 * (c' 2 - c 2)) ∧
      ∀ s, quenchT Tliq (t + s) (Function.update c 2 (c 2 + 0.2 * s)) = quenchT Tliq t c := by
  unfold quenchT
  refine ⟨⟨fun h => ?_, fun h => ?_⟩, ⟨fun h => ?_, fun h => ?_⟩, fun c' => by ring, fun s => ?_⟩
  · norm_num at h ⊢; linarith
  · norm_num at h ⊢; linarith
  · norm_num at h ⊢; linarith
  · norm_num at h ⊢; linarith
  · simp; ring

/-- The centre of the unit cube with a laser on its top. -/
example : deriv (fun t => simpleT 300 1 (fun _ => 1) t fun _ => 1 / 2) 0 = 5.2e-6 * lap (simpleT 300 1 (fun _ => 1) 0) fun _ => 1 / 2 := (C140_simple 300 1 (fun _ => 1) 0 (fun _ => 1 / 2) (by norm_num)).1

/-- **C140 (cap).** The cap of multi_scan/example.py does not influence the evolution: the solver applies the same cap. Only what is written to the files changes. -/
theorem C140_cap {m d : ℕ} (th : ℝ → ℝ) (P : PfArgs m d) (T T' : ℕ → ℝ) (h : ∀ n, T' n = if T n > 2000 then 2000 else T n) (eta : ℕ → Fin m → ℝ) : stateRhs th P T' eta = stateRhs th P T eta := by
  have hc : ∀ n, capT (T' n) = capT (T n) := fun n => by
    rw [h]
    unfold capT
    split_ifs <;> first | rfl | linarith
  have h1 : zetaOf th P T' = zetaOf th P T := funext fun n => by unfold zetaOf; rw [hc]
  have h2 : LgOf P T' = LgOf P T := funext fun n => by unfold LgOf; rw [hc]
  unfold stateRhs
  rw [h1, h2]

end Verif.PhaseField
