import Verif.Fem.ThermalFaces
import Verif.Fem.NewtonLinear
import Verif.Fem.ThermoFaces
import Verif.Fem.PropsLinear2
import Mathlib.Analysis.SpecialFunctions.Gaussian.GaussianIntegral

/-!
# The heat problem of the thermo-mechanical demo (model of demos/fem/thermal_mechanical/example.py 19-47, 153-222, 249-251)

One implicit Euler step of the heat equation, boundary fluxes with the old temperature; the lower side is kept at the ambient temperature.
-/
namespace Verif.Fem
open Finset

variable {nn nq nf nfq : ℕ}

/-! ## Model -/

/-- `Thermal` (example.py 19-47) after `set_params([sol_T_old, ..])`: `k*grad T`, mass map `rho*Cp*(T - T_old)/dt` with the old temperature at the quadrature points as `internal_vars['mass']`, and the two
Neumann boundaries with the old temperature on their faces as `internal_vars['neumann']`. -/
noncomputable def tmThermal (F : Fem nn nq nf nfq 3 1) (k rho Cp dt : ℝ) (top walls : Loc 3) (gTop gWalls : FluxFn) (old : ℕ → Fin 1 → ℝ) : Fem nn nq nf nfq 3 1 :=
  { F with
    tensorMap := some fun _ _ u_grad i d => k * u_grad i d
    massMap := some fun c q T i => rho * Cp * (T i - ((F.convertFromDofToQuad old).getD c 0) q i) / dt
    lapRows := none
    massRows := some (F.convertFromDofToQuad old).length
    source := none
    bodyVar := none
    neumann := some ([top, walls],
      [fun j q x => gTop x (((F.convertNeumannFromDof old (F.boundaryInds top)).getD j 0) q), fun j q x => gWalls x (((F.convertNeumannFromDof old (F.boundaryInds walls)).getD j 0) q)])
    cauchy := none }

/-- `q_conv + q_rad` (example.py 196-197, 204-205): `h = 100`, `SB_constant = 5.67e-8`, `emissivity = 0.3`, `T0 = 300` (lines 157-161). -/
noncomputable def tmLoss (T : ℝ) : ℝ := 100 * (300 - T) + 5.67e-8 * 0.3 * (300 ^ 4 - T ^ 4)

/-- `q_laser` (example.py 194-195): `eta = 0.25`, `P = 50`, `rb = 0.05e-3` (lines 158, 167-168). -/
noncomputable def tmLaser (laser_center : Fin 3 → ℝ) (switch : ℝ) (x y : ℝ) : ℝ :=
  let d2 := (x - laser_center 0) ^ 2 + (y - laser_center 1) ^ 2
  2 * 0.25 * 50 / (Real.pi * (0.05e-3) ^ 2) * Real.exp (-2 * d2 / (0.05e-3) ^ 2) * switch

/-- `get_thermal_neumann_top` (example.py 190-200). -/
noncomputable def tmTopFlux (laser_center : Fin 3 → ℝ) (switch : ℝ) : FluxFn := fun point old_T _ => tmLoss (old_T 0) + tmLaser laser_center switch (point 0) (point 1)

/-- `thermal_neumann_walls` (example.py 202-207). -/
noncomputable def tmWallFlux : FluxFn := fun _ old_T _ => tmLoss (old_T 0)

/-! ## Weak form -/

theorem neumannRows (F : Fem nn nq nf nfq 3 1) (loc : Loc 3) (g : FluxFn) (old v : ℕ → Fin 1 → ℝ) :
    ((F.selected loc).zipIdx.map fun p => ∑ q, (∑ i, g (F.xFace p.1 q) (((F.convertNeumannFromDof old (F.boundaryInds loc)).getD p.2 0) q) i * F.uFace v p.1 q i) * F.nansonScale p.1.1 p.1.2 q).sum
      = fluxWork F (F.boundaryInds loc) g old v := by
  unfold fluxWork Fem.convertNeumannFromDof
  rw [selectFaces_boundaryInds]
  have hz : ∀ (l : List ((Fin nn → ℕ) × Fin nf)) (G : (Fin nn → ℕ) × Fin nf → ℝ), (l.map G).sum = (l.zipIdx.map fun p => G p.1).sum := by
    intro l G
    conv_lhs => rw [← List.zipIdx_map_fst 0 l, List.map_map]
    rfl
  rw [hz]
  refine sum_map_congr fun p hp => ?_
  have hget := List.mem_zipIdx_iff_getElem?.mp (show (p.1, p.2) ∈ (F.selected loc).zipIdx from hp)
  refine sum_congr rfl fun q _ => ?_
  rw [Fin.sum_univ_one, List.getD_eq_getElem?_getD, List.getElem?_map, hget]
  rfl

theorem tm_work (F : Fem nn nq nf nfq 3 1) (hmesh : ∀ c ∈ F.cells, ∀ a, c a < F.numTotal) (k rho Cp dt : ℝ) (top walls : Loc 3) (gTop gWalls : FluxFn) (old sol R v : ℕ → Fin 1 → ℝ)
    (h : (tmThermal F k rho Cp dt top walls gTop gWalls old).computeResidual sol = .ok R) :
    ∑ n ∈ range F.numTotal, R n 0 * v n 0 = heatOf F (fun c q => k * (∑ d, F.gradAt sol c q 0 d * F.gradAt v c q 0 d) + rho * Cp / dt * (F.uAt sol c q 0 - F.uAt old c q 0) * F.uAt v c q 0)
      - (fluxWork F (F.boundaryInds top) gTop old v + fluxWork F (F.boundaryInds walls) gWalls old v) := by
  set G := tmThermal F k rho Cp dt top walls gTop gWalls old with hG
  have h1 := C71_virtual_work G hmesh sol v R h
  have hp : G.cauchy = none := rfl
  have hn : Fem.pairs G.neumann = [(top, fun j q x => gTop x (((F.convertNeumannFromDof old (F.boundaryInds top)).getD j 0) q)),
    (walls, fun j q x => gWalls x (((F.convertNeumannFromDof old (F.boundaryInds walls)).getD j 0) q))] := rfl
  have hl : ∀ c q i, G.load c q i = 0 := fun _ _ _ => rfl
  have hN : G.numTotal = F.numTotal := rfl
  have hsel : ∀ l, G.selected l = F.selected l := fun _ => rfl
  have hx : ∀ s q, G.xFace s q = F.xFace s q := fun _ _ => rfl
  have hu : ∀ v s q, G.uFace v s q = F.uFace v s q := fun _ _ _ => rfl
  have hns : ∀ c f q, G.nansonScale c f q = F.nansonScale c f q := fun _ _ _ => rfl
  rw [hp, hn, hN] at h1
  simp only [hl, zero_mul, sum_const_zero, Fem.pairs, Option.elim_none, List.map_nil, List.sum_nil, add_zero, List.map_cons, List.sum_cons, hsel, hx, hu, hns] at h1
  rw [neumannRows F top gTop old v, neumannRows F walls gWalls old v] at h1
  have h2 : ∑ n ∈ range F.numTotal, R n 0 * v n 0 = ∑ n ∈ range F.numTotal, ∑ i, R n i * v n i := sum_congr rfl fun n _ => (Fin.sum_univ_one fun i => R n i * v n i).symm
  rw [h2, h1]
  have hcells : G.cells = F.cells := rfl
  have hzero : (G.cells.map fun _ => (0 : ℝ)).sum = 0 := by simp
  rw [hzero, sub_zero, hcells]
  congr 1
  unfold heatOf
  have hz : ∀ (l : List (Fin nn → ℕ)) (W : (Fin nn → ℕ) → ℝ), (l.map W).sum = (l.zipIdx.map fun p => W p.1).sum := by
    intro l W
    conv_lhs => rw [← List.zipIdx_map_fst 0 l, List.map_map]
    rfl
  rw [hz]
  refine sum_map_congr fun p hp => ?_
  have hget := List.mem_zipIdx_iff_getElem?.mp (show (p.1, p.2) ∈ F.cells.zipIdx from hp)
  refine sum_congr rfl fun q _ => ?_
  have hs : ∀ i d, G.stress p.2 q (G.gradAt sol p.1 q) i d = k * F.gradAt sol p.1 q i d := fun _ _ => rfl
  have hrow : ((F.convertFromDofToQuad old).getD p.2 0) q = F.uAt old p.1 q := by
    unfold Fem.convertFromDofToQuad
    rw [List.getD_eq_getElem?_getD, List.getElem?_map, hget]
    rfl
  have hm : ∀ i, G.massAt p.2 q (G.uAt sol p.1 q) i = rho * Cp * (F.uAt sol p.1 q i - F.uAt old p.1 q i) / dt := fun i => by
    rw [← hrow]
    rfl
  have hgv : ∀ i d, G.gradAt v p.1 q i d = F.gradAt v p.1 q i d := fun _ _ => rfl
  have huv : ∀ i, G.uAt v p.1 q i = F.uAt v p.1 q i := fun _ => rfl
  have hJ : G.JxW p.1 q = F.JxW p.1 q := rfl
  simp only [hs, hm, hgv, huv, hJ, Fin.sum_univ_one, mul_sum]
  congr 1
  congr 1
  · exact sum_congr rfl fun d _ => by ring
  · ring

/-- **C108 (no exception).** On a mesh with a cell whose selected faces have no singular Jacobian the residual can be computed, at every state. -/
theorem C108_returns (F : Fem nn nq nf nfq 3 1) (k rho Cp dt : ℝ) (top walls : Loc 3) (gTop gWalls : FluxFn) (old sol : ℕ → Fin 1 → ℝ) :
    (∃ R, (tmThermal F k rho Cp dt top walls gTop gWalls old).computeResidual sol = .ok R) ↔
      F.cells ≠ [] ∧ ∀ l ∈ [top, walls], ∀ p ∈ F.selected l, ∀ q, (F.faceJacobian p.1 p.2 q).det ≠ 0 := by
  rw [C13_returns]
  constructor
  · rintro ⟨h1, -, -, -, h2⟩
    exact ⟨h1, (h2 _ rfl).2⟩
  · rintro ⟨h1, h2⟩
    refine ⟨h1, fun m hm => ?_, fun m hm => (by cases hm), fun lv hlv => (by cases hlv), fun lv hlv => ?_⟩
    · have : m = (F.convertFromDofToQuad old).length := (Option.some.inj hm).symm
      rw [this]
      show (List.map _ F.cells).length = F.cells.length
      exact List.length_map _
    · have : lv = _ := (Option.some.inj hlv).symm
      rw [this]
      exact ⟨le_rfl, h2⟩

/-- **C108 (energy balance).** At every state, solution or not: the heat content differs from the old one by `dt` times the power through the selected faces, plus `dt` times the sum of all residuals. At a
solution the residuals are zero except at the nodes held at the ambient temperature, where they are the power that flows in there. -/
theorem C108_energy (F : Fem nn nq nf nfq 3 1) (hmesh : ∀ c ∈ F.cells, ∀ a, c a < F.numTotal) (hgrad : ∀ q b, ∑ n, F.shapeGradsRef q n b = 0) (hone : ∀ q, ∑ n, F.shapeVals q n = 1)
    (hface : ∀ f q, ∑ n, F.faceShapeVals f q n = 1) (k rho Cp dt : ℝ) (hdt : dt ≠ 0) (top walls : Loc 3) (gTop gWalls : FluxFn) (old sol R : ℕ → Fin 1 → ℝ)
    (h : (tmThermal F k rho Cp dt top walls gTop gWalls old).computeResidual sol = .ok R) :
    heatOf F (fun c q => rho * Cp * F.uAt sol c q 0) - heatOf F (fun c q => rho * Cp * F.uAt old c q 0) =
      dt * (fluxPower F (F.boundaryInds top) gTop old + fluxPower F (F.boundaryInds walls) gWalls old + ∑ n ∈ range F.numTotal, R n 0) := by
  have h1 := tm_work F hmesh k rho Cp dt top walls gTop gWalls old sol R (fun _ _ => 1) h
  have hg1 : ∀ c q d, F.gradAt (fun _ (_ : Fin 1) => (1 : ℝ)) c q 0 d = 0 := by
    intro c q d
    unfold Fem.gradAt
    simp only [one_mul]
    exact grad_sum_zero F hgrad c q d
  have hu1 : ∀ c q, F.uAt (fun _ (_ : Fin 1) => (1 : ℝ)) c q 0 = 1 := by
    intro c q
    unfold Fem.uAt
    simp only [one_mul]
    exact hone q
  have hf1 : ∀ s q, F.uFace (fun _ (_ : Fin 1) => (1 : ℝ)) s q 0 = 1 := by
    intro s q
    unfold Fem.uFace
    simp only [one_mul]
    exact hface _ q
  unfold fluxWork at h1
  simp only [hg1, hu1, hf1, mul_zero, sum_const_zero, zero_add, mul_one] at h1
  have h2 := heatOf_lin F 1 (-1) (fun c q => rho * Cp * F.uAt sol c q 0) (fun c q => rho * Cp * F.uAt old c q 0)
  have h3 : heatOf F (fun c q => 1 * (rho * Cp * F.uAt sol c q 0) + -1 * (rho * Cp * F.uAt old c q 0)) = dt * heatOf F (fun c q => rho * Cp / dt * (F.uAt sol c q 0 - F.uAt old c q 0)) := by
    have h4 := heatOf_lin F dt 0 (fun c q => rho * Cp / dt * (F.uAt sol c q 0 - F.uAt old c q 0)) (fun _ _ => 0)
    simp only [zero_mul, add_zero] at h4
    rw [← h4]
    congr 1
    funext c q
    field_simp
    ring
  unfold fluxPower
  rw [h1, ← sub_eq_zero]
  rw [h3] at h2
  linarith

theorem uAt_const (F : Fem nn nq nf nfq 3 1) (hone : ∀ q, ∑ n, F.shapeVals q n = 1) (u : ℕ → Fin 1 → ℝ) (T0 : ℝ) (c : Fin nn → ℕ) (q : Fin nq) : F.uAt (fun n i => u n i - T0) c q 0 = F.uAt u c q 0 - T0 := by
  unfold Fem.uAt
  simp only [sub_mul, sum_sub_distrib]
  rw [← mul_sum, hone, mul_one]

theorem gradAt_const (F : Fem nn nq nf nfq 3 1) (hgrad : ∀ q b, ∑ n, F.shapeGradsRef q n b = 0) (u : ℕ → Fin 1 → ℝ) (T0 : ℝ) (c : Fin nn → ℕ) (q : Fin nq) (d : Fin 3) :
    F.gradAt (fun n i => u n i - T0) c q 0 d = F.gradAt u c q 0 d := by
  unfold Fem.gradAt
  simp only [sub_mul, sum_sub_distrib]
  rw [← mul_sum, grad_sum_zero F hgrad c q d, mul_zero, sub_zero]

/-- **C108 (stability).** At a solution with the fixed nodes at `T0`: the quadratic distance from the ambient temperature grows by no more than the work of the boundary fluxes, less the conduction losses; for every step size and
mesh. Without boundary fluxes it cannot grow. -/
theorem C108_stable (F : Fem nn nq nf nfq 3 1) (hmesh : ∀ c ∈ F.cells, ∀ a, c a < F.numTotal) (hvol : ∀ c ∈ F.cells, ∀ q, 0 < F.JxW c q) (hgrad : ∀ q b, ∑ n, F.shapeGradsRef q n b = 0)
    (hone : ∀ q, ∑ n, F.shapeVals q n = 1) (k rho Cp dt T0 : ℝ) (hrc : 0 ≤ rho * Cp) (hdt : 0 < dt) (top walls : Loc 3) (gTop gWalls : FluxFn) (old sol R : ℕ → Fin 1 → ℝ)
    (h : (tmThermal F k rho Cp dt top walls gTop gWalls old).computeResidual sol = .ok R) (hz : ∀ n < F.numTotal, R n 0 = 0 ∨ sol n 0 = T0) :
    heatOf F (fun c q => rho * Cp / 2 * (F.uAt sol c q 0 - T0) ^ 2) + dt * heatOf F (fun c q => k * ∑ d, F.gradAt sol c q 0 d ^ 2) ≤
      heatOf F (fun c q => rho * Cp / 2 * (F.uAt old c q 0 - T0) ^ 2) +
        dt * (fluxWork F (F.boundaryInds top) gTop old (fun n i => sol n i - T0) + fluxWork F (F.boundaryInds walls) gWalls old (fun n i => sol n i - T0)) := by
  have h1 := tm_work F hmesh k rho Cp dt top walls gTop gWalls old sol R (fun n i => sol n i - T0) h
  rw [sum_eq_zero fun n hn => by
    rcases hz n (Finset.mem_range.mp hn) with e | e
    · rw [e, zero_mul]
    · rw [e, sub_self, mul_zero]] at h1
  simp only [uAt_const F hone, gradAt_const F hgrad] at h1
  have h2 : 0 ≤ heatOf F (fun c q => rho * Cp / 2 * (F.uAt sol c q 0 - F.uAt old c q 0) ^ 2) := heatOf_nonneg F hvol _ fun c q => by positivity
  have e1 := heatOf_lin F dt 1 (fun c q => k * (∑ d, F.gradAt sol c q 0 d * F.gradAt sol c q 0 d) + rho * Cp / dt * (F.uAt sol c q 0 - F.uAt old c q 0) * (F.uAt sol c q 0 - T0))
    (fun c q => rho * Cp / 2 * (F.uAt old c q 0 - T0) ^ 2)
  have e2 := heatOf_lin F 1 1 (fun c q => rho * Cp / 2 * (F.uAt sol c q 0 - T0) ^ 2) (fun c q => rho * Cp / 2 * (F.uAt sol c q 0 - F.uAt old c q 0) ^ 2)
  have e3 := heatOf_lin F 1 dt (fun c q => 1 * (rho * Cp / 2 * (F.uAt sol c q 0 - T0) ^ 2) + 1 * (rho * Cp / 2 * (F.uAt sol c q 0 - F.uAt old c q 0) ^ 2)) (fun c q => k * ∑ d, F.gradAt sol c q 0 d ^ 2)
  have e4 : (fun c q => dt * (k * (∑ d, F.gradAt sol c q 0 d * F.gradAt sol c q 0 d) + rho * Cp / dt * (F.uAt sol c q 0 - F.uAt old c q 0) * (F.uAt sol c q 0 - T0)) + 1 * (rho * Cp / 2 * (F.uAt old c q 0 - T0) ^ 2)) =
      fun c q => 1 * (1 * (rho * Cp / 2 * (F.uAt sol c q 0 - T0) ^ 2) + 1 * (rho * Cp / 2 * (F.uAt sol c q 0 - F.uAt old c q 0) ^ 2)) + dt * (k * ∑ d, F.gradAt sol c q 0 d ^ 2) := by
    funext c q
    have : ∑ d, F.gradAt sol c q 0 d ^ 2 = ∑ d, F.gradAt sol c q 0 d * F.gradAt sol c q 0 d := sum_congr rfl fun d _ => by ring
    rw [this]
    field_simp
    ring
  rw [e4] at e1
  have h3 : heatOf F (fun c q => k * (∑ d, F.gradAt sol c q 0 d * F.gradAt sol c q 0 d) + rho * Cp / dt * (F.uAt sol c q 0 - F.uAt old c q 0) * (F.uAt sol c q 0 - T0)) =
      fluxWork F (F.boundaryInds top) gTop old (fun n i => sol n i - T0) + fluxWork F (F.boundaryInds walls) gWalls old (fun n i => sol n i - T0) := by linarith
  rw [h3] at e1
  linarith

/-- **C108 (uniqueness).** On a sound mesh at most one temperature takes the prescribed values and has zero residual at the other nodes, whatever is prescribed. -/
theorem C108_determined (F : Fem nn nq nf nfq 3 1) (hF : F.Sound) (k rho Cp dt : ℝ) (hk : 0 < k) (hrc : 0 < rho * Cp) (hdt : 0 < dt) (top walls : Loc 3) (gTop gWalls : FluxFn) (old : ℕ → Fin 1 → ℝ)
    (pres : List (ℕ × ℝ)) : (tmThermal F k rho Cp dt top walls gTop gWalls old).Determined pres := by
  intro T T' R R' h h' hfix hfree n hn i
  have hi : i = 0 := Subsingleton.elim _ _
  subst hi
  have h1 := tm_work F hF.mesh k rho Cp dt top walls gTop gWalls old T R (fun n i => T n i - T' n i) h
  have h2 := tm_work F hF.mesh k rho Cp dt top walls gTop gWalls old T' R' (fun n i => T n i - T' n i) h'
  have hR : ∑ n ∈ range F.numTotal, R n 0 * (T n 0 - T' n 0) = ∑ n ∈ range F.numTotal, R' n 0 * (T n 0 - T' n 0) := by
    refine sum_congr rfl fun n hn => ?_
    by_cases hf : FreeAt pres (1 * n + (0 : Fin 1))
    · rw [hfree n (Finset.mem_range.mp hn) 0 hf]
    · rw [hfix n (Finset.mem_range.mp hn) 0 hf, sub_self, mul_zero, mul_zero]
  simp only [gradAt_sub, uAt_sub] at h1 h2
  have h3 : heatOf F (fun c q => k * ∑ d, (F.gradAt T c q 0 d - F.gradAt T' c q 0 d) ^ 2 + rho * Cp / dt * (F.uAt T c q 0 - F.uAt T' c q 0) ^ 2) = 0 := by
    have e := heatOf_lin F 1 (-1) (fun c q => k * (∑ d, F.gradAt T c q 0 d * (F.gradAt T c q 0 d - F.gradAt T' c q 0 d)) + rho * Cp / dt * (F.uAt T c q 0 - F.uAt old c q 0) * (F.uAt T c q 0 - F.uAt T' c q 0))
      (fun c q => k * (∑ d, F.gradAt T' c q 0 d * (F.gradAt T c q 0 d - F.gradAt T' c q 0 d)) + rho * Cp / dt * (F.uAt T' c q 0 - F.uAt old c q 0) * (F.uAt T c q 0 - F.uAt T' c q 0))
    have e2 : (fun c q => k * ∑ d, (F.gradAt T c q 0 d - F.gradAt T' c q 0 d) ^ 2 + rho * Cp / dt * (F.uAt T c q 0 - F.uAt T' c q 0) ^ 2) =
        fun c q => 1 * (k * (∑ d, F.gradAt T c q 0 d * (F.gradAt T c q 0 d - F.gradAt T' c q 0 d)) + rho * Cp / dt * (F.uAt T c q 0 - F.uAt old c q 0) * (F.uAt T c q 0 - F.uAt T' c q 0))
          + -1 * (k * (∑ d, F.gradAt T' c q 0 d * (F.gradAt T c q 0 d - F.gradAt T' c q 0 d)) + rho * Cp / dt * (F.uAt T' c q 0 - F.uAt old c q 0) * (F.uAt T c q 0 - F.uAt T' c q 0)) := by
      funext c q
      have : ∑ d, (F.gradAt T c q 0 d - F.gradAt T' c q 0 d) ^ 2 = ∑ d, F.gradAt T c q 0 d * (F.gradAt T c q 0 d - F.gradAt T' c q 0 d) - ∑ d, F.gradAt T' c q 0 d * (F.gradAt T c q 0 d - F.gradAt T' c q 0 d) := by
        rw [← sum_sub_distrib]
        exact sum_congr rfl fun d _ => by ring
      rw [this]
      ring
    rw [e2, e]
    linarith
  have hterm : ∀ c ∈ F.cells, ∀ q, 0 ≤ (k * ∑ d, (F.gradAt T c q 0 d - F.gradAt T' c q 0 d) ^ 2 + rho * Cp / dt * (F.uAt T c q 0 - F.uAt T' c q 0) ^ 2) * F.JxW c q := by
    intro c hc q
    have := hF.vol c hc q
    have : 0 ≤ ∑ d, (F.gradAt T c q 0 d - F.gradAt T' c q 0 d) ^ 2 := sum_nonneg fun _ _ => sq_nonneg _
    positivity
  obtain ⟨c, hc, a, rfl⟩ := hF.used n hn
  have h4 := list_sum_eq_zero _ _ (fun c hc => sum_nonneg fun q _ => hterm c hc q) h3 c hc
  have h5 : ∀ q, (∀ d, F.gradAt T c q 0 d - F.gradAt T' c q 0 d = 0) ∧ F.uAt T c q 0 - F.uAt T' c q 0 = 0 := by
    intro q
    have h6 := (sum_eq_zero_iff_of_nonneg fun q _ => hterm c hc q).mp h4 q (mem_univ q)
    have h7 := (mul_eq_zero.mp h6).resolve_right (hF.vol c hc q).ne'
    have hs : 0 ≤ ∑ d, (F.gradAt T c q 0 d - F.gradAt T' c q 0 d) ^ 2 := sum_nonneg fun _ _ => sq_nonneg _
    have hk2 : 0 < rho * Cp / dt := by positivity
    have hu := mul_nonneg hk2.le (sq_nonneg (F.uAt T c q 0 - F.uAt T' c q 0))
    have hks := mul_nonneg hk.le hs
    have h8 : k * ∑ d, (F.gradAt T c q 0 d - F.gradAt T' c q 0 d) ^ 2 = 0 := by linarith
    have h9 : rho * Cp / dt * (F.uAt T c q 0 - F.uAt T' c q 0) ^ 2 = 0 := by linarith
    have h8' := (mul_eq_zero.mp h8).resolve_left hk.ne'
    refine ⟨fun d => ?_, ?_⟩
    · exact pow_eq_zero_iff (two_ne_zero) |>.mp ((sum_eq_zero_iff_of_nonneg fun j _ => sq_nonneg _).mp h8' d (mem_univ d))
    · exact pow_eq_zero_iff (two_ne_zero) |>.mp ((mul_eq_zero.mp h9).resolve_left hk2.ne')
  have hconst := hF.modes c hc (fun a => T (c a) 0 - T' (c a) 0) (fun q j => by
    have := (h5 q).1 j
    simp only [Fem.gradAt, ← sum_sub_distrib, ← sub_mul] at this
    exact this)
  have hval := (h5 ⟨0, hF.quads⟩).2
  simp only [Fem.uAt, ← sum_sub_distrib, ← sub_mul] at hval
  have : ∀ b, T (c b) 0 - T' (c b) 0 = T (c a) 0 - T' (c a) 0 := fun b => hconst b a
  simp only [this] at hval
  rw [← mul_sum, hF.unity, mul_one] at hval
  exact sub_eq_zero.mp hval

theorem tm_linear (F : Fem nn nq nf nfq 3 1) (k rho Cp dt : ℝ) (top walls : Loc 3) (gTop gWalls : FluxFn) (old : ℕ → Fin 1 → ℝ) : (tmThermal F k rho Cp dt top walls gTop gWalls old).Linear := by
  refine ⟨fun tm htm c q => ?_, fun mm hmm c q => ?_, fun lv hlv => by cases hlv⟩
  · have : tm = fun _ _ u_grad i d => k * u_grad i d := (Option.some.inj htm).symm
    rw [this]
    refine ⟨by fun_prop, fun x y => ?_⟩
    funext i d
    simp only [Pi.add_apply, Pi.zero_apply]
    ring
  · have : mm = fun c q T i => rho * Cp * (T i - ((F.convertFromDofToQuad old).getD c 0) q i) / dt := (Option.some.inj hmm).symm
    rw [this]
    refine ⟨by fun_prop, fun x y => ?_⟩
    funext i
    simp only [Pi.add_apply, Pi.zero_apply]
    ring

/-- **C108 (solution).** On a sound mesh: with the default branch of `solver` and any exact linear solver (one exists) a step returns after at most one Newton iteration, with the prescribed temperatures and the residual at the
other nodes met to `1e-6`; if the linear starting guess was not good enough, the returned temperature is the exact solution of the step. -/
theorem C108_solve (F : Fem nn nq nf nfq 3 1) (hF : F.Sound) (k rho Cp dt : ℝ) (hk : 0 < k) (hrc : 0 < rho * Cp) (hdt : 0 < dt) (top walls : Loc 3) (gTop gWalls : FluxFn) (old : ℕ → Fin 1 → ℝ)
    (hfaces : ∀ l ∈ [top, walls], ∀ p ∈ F.selected l, ∀ q, (F.faceJacobian p.1 p.2 q).det ≠ 0) (groups : List (Group ℝ))
    (hwf : ((tmThermal F k rho Cp dt top walls gTop gWalls old).toProb groups).WF) (usePetsc : Bool) :
    let G := tmThermal F k rho Cp dt top walls gTop gWalls old
    (∃ lin, (G.toProb groups).ExactFor usePetsc lin) ∧
    ∀ lin, (G.toProb groups).ExactFor usePetsc lin → ∀ (precond : Bool) (fuel : ℕ),
      ∃ u, (G.toProb groups).rowSolver realArith lin false precond usePetsc none (fuel + 1) = .ok u ∧
        (∃ R, G.computeResidual (fun n i => u (1 * n + i)) = .ok R ∧ ∀ n < F.numTotal, ∀ i : Fin 1,
          (∀ v, LastAt (G.toProb groups).prescriptions (1 * n + i) v → |u (1 * n + i) - v| ≤ 1e-6) ∧ (FreeAt (G.toProb groups).prescriptions (1 * n + i) → |R n i| ≤ 1e-6)) ∧
        ((∃ nw, (G.toProb groups).newton (fun _ => 0) = .ok nw ∧ u = (G.toProb groups).linearGuess realArith lin 0 precond usePetsc nw) ∨ G.Solves (G.toProb groups).prescriptions (fun n i => u (1 * n + i)) ∧
          ∀ s, G.Solves (G.toProb groups).prescriptions s → ∀ n < F.numTotal, ∀ i : Fin 1, u (1 * n + i) = s n i) := by
  intro G
  have h0 : ∃ s R, G.computeResidual s = .ok R := ⟨old, (C108_returns F k rho Cp dt top walls gTop gWalls old old).mpr ⟨hF.cells, hfaces⟩⟩
  obtain ⟨h1, h2⟩ := C108_newton G (tm_linear F k rho Cp dt top walls gTop gWalls old) groups hwf hF.mesh h0
    (C108_determined F hF k rho Cp dt hk hrc hdt top walls gTop gWalls old (G.toProb groups).prescriptions) usePetsc
  exact ⟨h1, fun lin hlin precond fuel => h2 lin hlin precond none fuel⟩

/-! ## Boundary fluxes -/

/-- **C108 (losses).** Convection and radiation vanish at the ambient temperature, take heat out above it and bring heat in below it (temperatures in Kelvin, not negative). -/
theorem C108_loss (T : ℝ) (hT : 0 ≤ T) : (tmLoss T = 0 ↔ T = 300) ∧ (tmLoss T < 0 ↔ 300 < T) ∧ (0 < tmLoss T ↔ T < 300) := by
  have hf : tmLoss T = (300 - T) * (100 + 5.67e-8 * 0.3 * ((300 + T) * (300 ^ 2 + T ^ 2))) := by
    unfold tmLoss
    ring
  have hp : 0 < 100 + 5.67e-8 * 0.3 * ((300 + T) * (300 ^ 2 + T ^ 2)) := by positivity
  rw [hf]
  refine ⟨?_, ?_, ?_⟩
  · rw [mul_eq_zero, or_iff_left hp.ne']
    constructor <;> intro h <;> linarith
  · rw [mul_neg_iff]
    constructor
    · rintro (⟨-, h⟩ | ⟨h, -⟩) <;> linarith
    · exact fun h => .inr ⟨by linarith, hp⟩
  · rw [mul_pos_iff]
    constructor
    · rintro (⟨h, -⟩ | ⟨-, h⟩) <;> linarith
    · exact fun h => .inl ⟨by linarith, hp⟩

/-- **C108 (laser).** The flux of the laser is not negative, largest in its centre, symmetric about it, and its integral over the plane is the absorbed power `eta*P = 12.5` W times the switch. -/
theorem C108_laser (c : Fin 3 → ℝ) (s : ℝ) (hs : 0 ≤ s) :
    (∀ x y, 0 ≤ tmLaser c s x y) ∧ (∀ x y, tmLaser c s x y ≤ tmLaser c s (c 0) (c 1)) ∧ (∀ x y, tmLaser c s (c 0 + x) (c 1 + y) = tmLaser c s (c 0 - x) (c 1 + y)) ∧
    ∫ x, ∫ y, tmLaser c s x y = 0.25 * 50 * s := by
  refine ⟨fun x y => ?_, fun x y => ?_, fun x y => ?_, ?_⟩
  · unfold tmLaser
    have := Real.pi_pos
    positivity
  · unfold tmLaser
    have := Real.pi_pos
    dsimp only
    refine mul_le_mul_of_nonneg_right (mul_le_mul_of_nonneg_left (Real.exp_le_exp.mpr ?_) (by positivity)) hs
    rw [sub_self, sub_self]
    have : 0 ≤ (x - c 0) ^ 2 + (y - c 1) ^ 2 := by positivity
    have : -2 * ((x - c 0) ^ 2 + (y - c 1) ^ 2) ≤ 0 := by linarith
    have h2 : (0 : ℝ) < (0.05e-3) ^ 2 := by norm_num
    calc _ ≤ (0 : ℝ) := div_nonpos_of_nonpos_of_nonneg this h2.le
      _ = _ := by norm_num
  · unfold tmLaser
    dsimp only
    rw [show c 0 + x - c 0 = x by ring, show c 0 - x - c 0 = -x by ring, neg_sq]
  · have hb : (0 : ℝ) < 2 / (0.05e-3) ^ 2 := by norm_num
    have hsplit : ∀ x y, tmLaser c s x y = (2 * 0.25 * 50 / (Real.pi * (0.05e-3) ^ 2) * s * Real.exp (-(2 / (0.05e-3) ^ 2) * (x - c 0) ^ 2)) * Real.exp (-(2 / (0.05e-3) ^ 2) * (y - c 1) ^ 2) := by
      intro x y
      unfold tmLaser
      dsimp only
      rw [show -2 * ((x - c 0) ^ 2 + (y - c 1) ^ 2) / (0.05e-3) ^ 2 = -(2 / (0.05e-3) ^ 2) * (x - c 0) ^ 2 + -(2 / (0.05e-3) ^ 2) * (y - c 1) ^ 2 by ring, Real.exp_add]
      ring
    have hint : ∀ c : ℝ, ∫ y, Real.exp (-(2 / (0.05e-3) ^ 2) * (y - c) ^ 2) = Real.sqrt (Real.pi / (2 / (0.05e-3) ^ 2)) := fun c => by
      rw [MeasureTheory.integral_sub_right_eq_self (fun y => Real.exp (-(2 / (0.05e-3) ^ 2) * y ^ 2)) c]
      exact integral_gaussian _
    simp only [hsplit]
    simp only [MeasureTheory.integral_const_mul, MeasureTheory.integral_mul_const, hint]
    have hsq : Real.sqrt (Real.pi / (2 / (0.05e-3) ^ 2)) * Real.sqrt (Real.pi / (2 / (0.05e-3) ^ 2)) = Real.pi / (2 / (0.05e-3) ^ 2) := Real.mul_self_sqrt (by positivity)
    have hpi := Real.pi_pos.ne'
    calc _ = 2 * 0.25 * 50 / (Real.pi * (0.05e-3) ^ 2) * s * (Real.sqrt (Real.pi / (2 / (0.05e-3) ^ 2)) * Real.sqrt (Real.pi / (2 / (0.05e-3) ^ 2))) := by ring
      _ = _ := by
        rw [hsq]
        field_simp

/-! ## Concrete cases -/

/-- At 1300 K the loss is 148.4 kW per square metre. -/
example : tmLoss 1300 = -148444.48 := by unfold tmLoss; norm_num

/-- The laser of the file brings 12.5 W to an unbounded surface. -/
example : ∫ x, ∫ y, tmLaser ![1.25e-4, 1e-4, 5e-5] 1 x y = 12.5 := by rw [(C108_laser _ 1 (by norm_num)).2.2.2]; norm_num

end Verif.Fem
