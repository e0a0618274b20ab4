import Verif.Fem.ActiveMesh
import Verif.Fem.AdWrapper
import Verif.Fem.PropsElastic2
import Mathlib.Analysis.Calculus.Deriv.Pow

/-!
# C102, C103: topology optimisation (`demos/fem/topology_optimization/example.py`, `applications/fem/top_opt/fem_model.py`): the model and its material laws

The density `theta` of a cell scales Young's modulus; `set_params` writes the densities into the internal variables of the problem, `compute_compliance` is the objective.
The exponents (`3.`, `5.`) are natural numbers here; for the densities in question `**` with such an exponent is the power.
-/
namespace Verif.Fem
open Finset

variable {nn nq nf nfq dim vec : ℕ}

/-! ## Material laws -/

/-- `E = Emin + (Emax - Emin)*theta[0]**penal` (example.py 33, fem_model.py 38, 60, 74). -/
def simpModulus (Emin Emax : ℝ) (penal : ℕ) (theta : ℝ) : ℝ := Emin + (Emax - Emin) * theta ^ penal

/-- `E = Emin + theta1**penal*(theta2**penal*E1 + (1 - theta2**penal)*E2)` with `E1 = Emax`, `E2 = 0.2*Emax` (fem_model.py 89-93). -/
def multiModulus (Emin Emax : ℝ) (penal : ℕ) (theta1 theta2 : ℝ) : ℝ :=
  let E1 := Emax
  let E2 := 0.2 * Emax
  Emin + theta1 ^ penal * (theta2 ^ penal * E1 + (1 - theta2 ^ penal) * E2)

/-- The stress in plane stress (example.py 34-41, fem_model.py 39-49), line by line. -/
noncomputable def planeStress (E nu : ℝ) (u_grad : Fin 2 → Fin 2 → ℝ) : Fin 2 → Fin 2 → ℝ :=
  let epsilon : Fin 2 → Fin 2 → ℝ := fun i j => 0.5 * (u_grad i j + u_grad j i)
  let eps11 := epsilon 0 0
  let eps22 := epsilon 1 1
  let eps12 := epsilon 0 1
  let sig11 := E / (1 + nu) / (1 - nu) * (eps11 + nu * eps22)
  let sig22 := E / (1 + nu) / (1 - nu) * (nu * eps11 + eps22)
  let sig12 := E / (1 + nu) * eps12
  ![![sig11, sig12], ![sig12, sig22]]

/-- The isotropic stress (fem_model.py 61-64, 75-78, 95-98). -/
noncomputable def isoStress (E nu : ℝ) (u_grad : Fin dim → Fin dim → ℝ) : Fin dim → Fin dim → ℝ :=
  let mu := E / (2 * (1 + nu))
  let lmbda := E * nu / ((1 + nu) * (1 - 2 * nu))
  let epsilon : Fin dim → Fin dim → ℝ := fun i j => 0.5 * (u_grad i j + u_grad j i)
  fun i j => lmbda * (∑ d, epsilon d d) * (if i = j then 1 else 0) + 2 * mu * epsilon i j

/-- `get_tensor_map` of the demo (example.py 23-43). -/
noncomputable def demoStress (u_grad : Fin 2 → Fin 2 → ℝ) (theta : ℕ → ℝ) : Fin 2 → Fin 2 → ℝ :=
  let Emax := 70e3
  let Emin := 1e-3 * Emax
  planeStress (simpModulus Emin Emax 3 (theta 0)) 0.3 u_grad

/-- `get_tensor_map_plane_stress` (fem_model.py 28-51) with `self.penal` as argument. -/
noncomputable def planeMap (penal : ℕ) (u_grad : Fin 2 → Fin 2 → ℝ) (theta : ℕ → ℝ) : Fin 2 → Fin 2 → ℝ :=
  let Emax := 70e9
  let Emin := 1e-3 * Emax
  planeStress (simpModulus Emin Emax penal (theta 0)) 0.3 u_grad

/-- `get_tensor_map_freecad` (fem_model.py 53-66). -/
noncomputable def freecadMap (u_grad : Fin dim → Fin dim → ℝ) (theta : ℕ → ℝ) : Fin dim → Fin dim → ℝ := isoStress (simpModulus 70 70e3 3 (theta 0)) 0.3 u_grad

/-- `get_tensor_map_box` (fem_model.py 68-80). -/
noncomputable def boxMap (u_grad : Fin dim → Fin dim → ℝ) (theta : ℕ → ℝ) : Fin dim → Fin dim → ℝ := isoStress (simpModulus 70 70e9 3 (theta 0)) 0.3 u_grad

/-- `get_tensor_map_multi_material` (fem_model.py 82-100). -/
noncomputable def multiMap (u_grad : Fin dim → Fin dim → ℝ) (theta : ℕ → ℝ) : Fin dim → Fin dim → ℝ := isoStress (multiModulus 70 70e3 3 (theta 0) (theta 1)) 0.3 u_grad

/-- `custom_init` (fem_model.py 9-26): the tensor map chosen by `case_flag`, `none` for the `ValueError`. Plane problems (`dim = 2`). -/
noncomputable def caseMap2 (case_flag : String) : Option ((Fin 2 → Fin 2 → ℝ) → (ℕ → ℝ) → Fin 2 → Fin 2 → ℝ) :=
  if case_flag = "freecad" then some freecadMap
  else if case_flag = "box" then some boxMap
  else if case_flag = "multi_material" then some multiMap
  else if case_flag = "plate" ∨ case_flag = "L_shape" ∨ case_flag = "eigen" then
    if case_flag = "eigen" then some (planeMap 5) else some (planeMap 3)
  else none

/-- `custom_init` (fem_model.py 9-26) for `dim = 3`; with the plane stress maps the assembly of a three-dimensional problem cannot run (shapes), `none` as well. -/
noncomputable def caseMap3 (case_flag : String) : Option ((Fin 3 → Fin 3 → ℝ) → (ℕ → ℝ) → Fin 3 → Fin 3 → ℝ) :=
  if case_flag = "freecad" then some freecadMap
  else if case_flag = "box" then some boxMap
  else if case_flag = "multi_material" then some multiMap
  else none

/-! ## The problem object -/

/-- `full_params` of `set_params` (example.py 48-49, fem_model.py 103-104): ones, and `params` at `flex_inds`. Row `k` belongs to cell `k`. -/
def fullParams (flex : List ℕ) (params : ℕ → ℕ → ℝ) : ℕ → ℕ → ℝ := scatterSet (fun _ _ => 1) flex params

/-- The object after `set_params` (example.py 45-52, fem_model.py 102-107): the densities of a cell reach the tensor map at all its quadrature points; no mass map. -/
def topFem (F : Fem nn nq nf nfq dim dim) (stress : (Fin dim → Fin dim → ℝ) → (ℕ → ℝ) → Fin dim → Fin dim → ℝ) (flex : List ℕ) (params : ℕ → ℕ → ℝ) : Fem nn nq nf nfq dim dim :=
  { F with tensorMap := some fun k _ g => stress g (fullParams flex params k), lapRows := some F.cells.length, massMap := none, massRows := none }

/-- `compute_compliance` (example.py 54-66, fem_model.py 109-119). Without Neumann boundary the attribute does not exist, with an empty list there is no entry 0 (both `index` here).
The traction has `vec` components, the solution as well. -/
noncomputable def computeCompliance (F : Fem nn nq nf nfq dim vec) (neumann_fn : (Fin dim → ℝ) → Fin vec → ℝ) (sol : ℕ → Fin vec → ℝ) : Except FemErr ℝ :=
  match F.neumann with
  | none => .error .index
  | some ([], _) => .error .index
  | some (loc :: _, _) => do
    let boundary_inds := F.selectFaces (F.boundaryInds loc)
    let (_, nanson_scale) ← F.getFaceShapeGrads boundary_inds
    let u_face : List (Fin nfq → Fin vec → ℝ) := boundary_inds.map fun p q i => ∑ n, sol (p.1 n) i * F.faceShapeVals p.2 q n
    let subset_quad_points := F.surfaceQuadPoints boundary_inds
    let traction := subset_quad_points.map fun x q => neumann_fn (x q)
    .ok ((traction.zip (u_face.zip nanson_scale)).map fun r => ∑ q, ∑ i, r.1 q i * r.2.1 q i * r.2.2 q).sum

/-! ## The material laws are a positive modulus times a fixed law -/

/-- Specification: an elastic law, linear and symmetric, whose work is nonnegative and vanishes only for rotations. -/
structure ElasticLaw (C : (Fin dim → Fin dim → ℝ) → Fin dim → Fin dim → ℝ) : Prop where
  add : ∀ A B, C (A + B) = C A + C B
  smul : ∀ (a : ℝ) A, C (a • A) = a • C A
  symm : ∀ A B, ∑ i, ∑ d, C A i d * B i d = ∑ i, ∑ d, C B i d * A i d
  nonneg : ∀ A, 0 ≤ ∑ i, ∑ d, C A i d * A i d
  strict : ∀ A, ∑ i, ∑ d, C A i d * A i d = 0 → ∀ i j, A i j + A j i = 0

theorem planeStress_scale (E nu : ℝ) (g : Fin 2 → Fin 2 → ℝ) : planeStress E nu g = E • planeStress 1 nu g := by
  funext i j
  fin_cases i <;> fin_cases j <;> simp [planeStress] <;> ring

theorem isoStress_scale (E nu : ℝ) (g : Fin dim → Fin dim → ℝ) : isoStress E nu g = E • isoStress 1 nu g := by
  funext i j
  simp only [isoStress, Pi.smul_apply, smul_eq_mul]
  ring

/-- **C102 (plane stress).** With `-1 < nu < 1` the plane stress law is an elastic law. -/
theorem C102_plane (nu : ℝ) (h1 : -1 < nu) (h2 : nu < 1) : ElasticLaw (planeStress 1 nu) := by
  have hp : 0 < 1 + nu := by linarith
  have hm : 0 < 1 - nu := by linarith
  have hw : ∀ A B : Fin 2 → Fin 2 → ℝ, ∑ i, ∑ d, planeStress 1 nu A i d * B i d =
      1 / (1 + nu) / (1 - nu) * ((A 0 0 + nu * A 1 1) * B 0 0 + (nu * A 0 0 + A 1 1) * B 1 1) + 1 / (1 + nu) * ((A 0 1 + A 1 0) * (B 0 1 + B 1 0)) / 2 := by
    intro A B
    simp only [planeStress, Fin.sum_univ_two, Matrix.cons_val_zero, Matrix.cons_val_one]
    ring
  have hself : ∀ A : Fin 2 → Fin 2 → ℝ, ∑ i, ∑ d, planeStress 1 nu A i d * A i d =
      1 / (1 - nu) * (A 0 0 + A 1 1) ^ 2 / 2 + 1 / (1 + nu) * (A 0 0 - A 1 1) ^ 2 / 2 + 1 / (1 + nu) * (A 0 1 + A 1 0) ^ 2 / 2 := by
    intro A
    rw [hw]
    field_simp
    ring
  have c1 : 0 < 1 / (1 - nu) := by positivity
  have c2 : 0 < 1 / (1 + nu) := by positivity
  refine ⟨fun A B => ?_, fun a A => ?_, fun A B => ?_, fun A => ?_, fun A h => ?_⟩
  · funext i j
    fin_cases i <;> fin_cases j <;> simp [planeStress] <;> ring
  · funext i j
    fin_cases i <;> fin_cases j <;> simp [planeStress] <;> ring
  · rw [hw, hw]
    ring
  · rw [hself]
    positivity
  · rw [hself] at h
    have t1 := mul_nonneg c1.le (sq_nonneg (A 0 0 + A 1 1))
    have t2 := mul_nonneg c2.le (sq_nonneg (A 0 0 - A 1 1))
    have t3 := mul_nonneg c2.le (sq_nonneg (A 0 1 + A 1 0))
    have e1 : (A 0 0 + A 1 1) ^ 2 = 0 := (mul_eq_zero.mp (by linarith : 1 / (1 - nu) * (A 0 0 + A 1 1) ^ 2 = 0)).resolve_left c1.ne'
    have e2 : (A 0 0 - A 1 1) ^ 2 = 0 := (mul_eq_zero.mp (by linarith : 1 / (1 + nu) * (A 0 0 - A 1 1) ^ 2 = 0)).resolve_left c2.ne'
    have e3 : (A 0 1 + A 1 0) ^ 2 = 0 := (mul_eq_zero.mp (by linarith : 1 / (1 + nu) * (A 0 1 + A 1 0) ^ 2 = 0)).resolve_left c2.ne'
    rw [sq_eq_zero_iff] at e1 e2 e3
    intro i j
    fin_cases i <;> fin_cases j <;> simp <;> linarith

/-- **C102 (isotropic).** With `0 ≤ nu < 1/2` the isotropic law is an elastic law in every dimension. -/
theorem C102_iso (nu : ℝ) (h1 : 0 ≤ nu) (h2 : nu < 1 / 2) : ElasticLaw (isoStress (dim := dim) 1 nu) := by
  have hp : 0 < 1 + nu := by linarith
  have hm : 0 < 1 - 2 * nu := by linarith
  have hl : 0 ≤ 1 * nu / ((1 + nu) * (1 - 2 * nu)) := by positivity
  have hu : 0 < 1 / (2 * (1 + nu)) := by positivity
  have hw : ∀ A B : Fin dim → Fin dim → ℝ, ∑ i, ∑ d, isoStress 1 nu A i d * B i d =
      1 * nu / ((1 + nu) * (1 - 2 * nu)) * (∑ d, A d d) * (∑ d, B d d) + 1 / (2 * (1 + nu)) / 2 * ∑ i, ∑ d, (A i d + A d i) * (B i d + B d i) := by
    intro A B
    have e1 : ∀ i, ∑ d, isoStress 1 nu A i d * B i d = 1 * nu / ((1 + nu) * (1 - 2 * nu)) * (∑ d, A d d) * B i i + 1 / (2 * (1 + nu)) * ∑ d, (A i d + A d i) * B i d := by
      intro i
      have : ∀ d, isoStress 1 nu A i d * B i d = (if i = d then 1 * nu / ((1 + nu) * (1 - 2 * nu)) * (∑ d, A d d) * B i d else 0) + 1 / (2 * (1 + nu)) * ((A i d + A d i) * B i d) := by
        intro d
        simp only [isoStress, ← mul_sum, ← two_mul]
        split_ifs <;> ring
      simp only [this, sum_add_distrib, sum_ite_eq, mem_univ, if_true, ← mul_sum]
    simp only [e1, sum_add_distrib, ← mul_sum]
    congr 1
    have e2 : ∑ i, ∑ d, (A i d + A d i) * B d i = ∑ i, ∑ d, (A i d + A d i) * B i d := by
      rw [sum_comm]
      exact sum_congr rfl fun i _ => sum_congr rfl fun d _ => by ring
    simp only [mul_add, sum_add_distrib] at e2 ⊢
    linear_combination -(1 / (2 * (1 + nu)) / 2) * e2
  refine ⟨fun A B => ?_, fun a A => ?_, fun A B => ?_, fun A => ?_, fun A h => ?_⟩
  · funext i j
    simp only [isoStress, Pi.add_apply, ← mul_sum, sum_add_distrib]
    ring
  · funext i j
    simp only [isoStress, Pi.smul_apply, smul_eq_mul, ← mul_sum, ← mul_add, sum_add_distrib]
    ring
  · rw [hw, hw]
    have : ∑ i, ∑ d, (A i d + A d i) * (B i d + B d i) = ∑ i, ∑ d, (B i d + B d i) * (A i d + A d i) := sum_congr rfl fun i _ => sum_congr rfl fun d _ => mul_comm _ _
    rw [this]
    ring
  · rw [hw]
    have t1 : 0 ≤ 1 * nu / ((1 + nu) * (1 - 2 * nu)) * (∑ d, A d d) * ∑ d, A d d := by
      rw [mul_assoc]
      exact mul_nonneg hl (mul_self_nonneg _)
    have t2 : 0 ≤ ∑ i, ∑ d, (A i d + A d i) * (A i d + A d i) := sum_nonneg fun i _ => sum_nonneg fun d _ => mul_self_nonneg _
    have := mul_nonneg (by linarith : 0 ≤ 1 / (2 * (1 + nu)) / 2) t2
    linarith
  · rw [hw] at h
    have t1 : 0 ≤ 1 * nu / ((1 + nu) * (1 - 2 * nu)) * (∑ d, A d d) * ∑ d, A d d := by
      rw [mul_assoc]
      exact mul_nonneg hl (mul_self_nonneg _)
    have t2 : 0 ≤ ∑ i, ∑ d, (A i d + A d i) * (A i d + A d i) := sum_nonneg fun i _ => sum_nonneg fun d _ => mul_self_nonneg _
    have t3 := mul_nonneg (by linarith : 0 ≤ 1 / (2 * (1 + nu)) / 2) t2
    have t4 : ∑ i, ∑ d, (A i d + A d i) * (A i d + A d i) = 0 :=
      (mul_eq_zero.mp (by linarith : 1 / (2 * (1 + nu)) / 2 * ∑ i, ∑ d, (A i d + A d i) * (A i d + A d i) = 0)).resolve_left (by linarith [hu])
    intro i j
    have t5 := (sum_eq_zero_iff_of_nonneg fun i _ => sum_nonneg fun d _ => mul_self_nonneg _).mp t4 i (mem_univ i)
    have t6 := (sum_eq_zero_iff_of_nonneg fun d _ => mul_self_nonneg _).mp t5 j (mem_univ j)
    exact mul_self_eq_zero.mp t6

/-- Specification: a tensor map is a modulus, depending on the cell's densities, times a fixed elastic law; between `Emin > 0` and `Emax` for densities in the unit interval, increasing in the first density,
and equal to `Emax` for full material. -/
structure DensityLaw (stress : (Fin dim → Fin dim → ℝ) → (ℕ → ℝ) → Fin dim → Fin dim → ℝ) (E : (ℕ → ℝ) → ℝ) (C : (Fin dim → Fin dim → ℝ) → Fin dim → Fin dim → ℝ) (Emin Emax : ℝ) : Prop where
  eq : ∀ g theta, stress g theta = E theta • C g
  law : ElasticLaw C
  lower : 0 < Emin ∧ ∀ theta : ℕ → ℝ, (∀ j, 0 ≤ theta j ∧ theta j ≤ 1) → Emin ≤ E theta ∧ E theta ≤ Emax
  mono : ∀ theta theta' : ℕ → ℝ, (∀ j, 0 ≤ theta j ∧ theta j ≤ 1) → (∀ j, 0 ≤ theta' j ∧ theta' j ≤ 1) → (∀ j, theta j ≤ theta' j) → E theta ≤ E theta'
  full : E (fun _ => 1) = Emax

theorem simp_density (stress : (Fin dim → Fin dim → ℝ) → (ℕ → ℝ) → Fin dim → Fin dim → ℝ) (C : (Fin dim → Fin dim → ℝ) → Fin dim → Fin dim → ℝ) (Emin Emax : ℝ) (penal : ℕ)
    (h0 : 0 < Emin) (h1 : Emin ≤ Emax) (hC : ElasticLaw C) (heq : ∀ g theta, stress g theta = simpModulus Emin Emax penal (theta 0) • C g) :
    DensityLaw stress (fun theta => simpModulus Emin Emax penal (theta 0)) C Emin Emax := by
  have hd : 0 ≤ Emax - Emin := by linarith
  refine ⟨heq, hC, ⟨h0, fun theta ht => ⟨?_, ?_⟩⟩, fun theta theta' h h' hle => ?_, ?_⟩
  · have := mul_nonneg hd (pow_nonneg (ht 0).1 penal)
    simp only [simpModulus]
    linarith
  · have := mul_le_mul_of_nonneg_left (pow_le_one₀ (n := penal) (ht 0).1 (ht 0).2) hd
    simp only [simpModulus]
    linarith
  · have := mul_le_mul_of_nonneg_left (pow_le_pow_left₀ (h 0).1 (hle 0) penal) hd
    simp only [simpModulus]
    linarith
  · simp [simpModulus]

/-- **C102 (materials).** Every tensor map of the two files is a modulus times a fixed elastic law; the modulus lies between the two stated values, does not decrease with the densities and is the upper value for
full material. For two materials the upper value is `Emin + Emax`. -/
theorem C102_materials :
    DensityLaw demoStress (fun theta => simpModulus (1e-3 * 70e3) 70e3 3 (theta 0)) (planeStress 1 0.3) (1e-3 * 70e3) 70e3 ∧
    (∀ flag stress, caseMap2 flag = some stress → ∃ E C Emin Emax, DensityLaw stress E C Emin Emax) ∧
    (∀ flag stress, caseMap3 flag = some stress → ∃ E C Emin Emax, DensityLaw stress E C Emin Emax) ∧
    DensityLaw (multiMap (dim := dim)) (fun theta => multiModulus 70 70e3 3 (theta 0) (theta 1)) (isoStress 1 0.3) 70 (70 + 70e3) := by
  have hmulti : ∀ {dim : ℕ}, DensityLaw (multiMap (dim := dim)) (fun theta => multiModulus 70 70e3 3 (theta 0) (theta 1)) (isoStress 1 0.3) 70 (70 + 70e3) := by
    intro dim
    have hf : ∀ theta : ℕ → ℝ, multiModulus 70 70e3 3 (theta 0) (theta 1) = 70 + theta 0 ^ 3 * (14e3 + 56e3 * theta 1 ^ 3) := by
      intro theta
      simp only [multiModulus]
      ring
    refine ⟨fun g theta => isoStress_scale _ _ g, C102_iso 0.3 (by norm_num) (by norm_num), ⟨by norm_num, fun theta h => ?_⟩, fun theta theta' h h' hle => ?_, ?_⟩
    · rw [hf]
      have a1 := pow_nonneg (h 0).1 3
      have a2 := pow_le_one₀ (n := 3) (h 0).1 (h 0).2
      have b1 := pow_nonneg (h 1).1 3
      have b2 := pow_le_one₀ (n := 3) (h 1).1 (h 1).2
      constructor
      · have := mul_nonneg a1 (by linarith : 0 ≤ 14e3 + 56e3 * theta 1 ^ 3)
        linarith
      · have := mul_le_mul a2 (by linarith : 14e3 + 56e3 * theta 1 ^ 3 ≤ 70e3) (by linarith) (by norm_num)
        linarith
    · simp only [hf]
      have a1 := pow_le_pow_left₀ (h 0).1 (hle 0) 3
      have b1 := pow_le_pow_left₀ (h 1).1 (hle 1) 3
      have b0 := pow_nonneg (h 1).1 3
      have := mul_le_mul a1 (by linarith : 14e3 + 56e3 * theta 1 ^ 3 ≤ 14e3 + 56e3 * theta' 1 ^ 3) (by linarith) (pow_nonneg (h' 0).1 3)
      linarith
    · norm_num [multiModulus]
  have hfree : ∀ {dim : ℕ}, DensityLaw (freecadMap (dim := dim)) (fun theta => simpModulus 70 70e3 3 (theta 0)) (isoStress 1 0.3) 70 70e3 := fun {dim} =>
    simp_density _ _ _ _ _ (by norm_num) (by norm_num) (C102_iso 0.3 (by norm_num) (by norm_num)) fun g theta => isoStress_scale _ _ g
  have hbox : ∀ {dim : ℕ}, DensityLaw (boxMap (dim := dim)) (fun theta => simpModulus 70 70e9 3 (theta 0)) (isoStress 1 0.3) 70 70e9 := fun {dim} =>
    simp_density _ _ _ _ _ (by norm_num) (by norm_num) (C102_iso 0.3 (by norm_num) (by norm_num)) fun g theta => isoStress_scale _ _ g
  have hplane : ∀ penal, DensityLaw (planeMap penal) (fun theta => simpModulus (1e-3 * 70e9) 70e9 penal (theta 0)) (planeStress 1 0.3) (1e-3 * 70e9) 70e9 := fun penal =>
    simp_density _ _ _ _ _ (by norm_num) (by norm_num) (C102_plane 0.3 (by norm_num) (by norm_num)) fun g theta => planeStress_scale _ _ g
  refine ⟨?_, fun flag stress h => ?_, fun flag stress h => ?_, hmulti⟩
  · exact simp_density _ _ _ _ _ (by norm_num) (by norm_num) (C102_plane 0.3 (by norm_num) (by norm_num)) fun g theta => planeStress_scale _ _ g
  · unfold caseMap2 at h
    split_ifs at h
    · cases h; exact ⟨_, _, _, _, hfree⟩
    · cases h; exact ⟨_, _, _, _, hbox⟩
    · cases h; exact ⟨_, _, _, _, hmulti⟩
    · cases h; exact ⟨_, _, _, _, hplane 5⟩
    · cases h; exact ⟨_, _, _, _, hplane 3⟩
  · unfold caseMap3 at h
    split_ifs at h
    · cases h; exact ⟨_, _, _, _, hfree⟩
    · cases h; exact ⟨_, _, _, _, hbox⟩
    · cases h; exact ⟨_, _, _, _, hmulti⟩

/-- The upper value of the two-material law is above the modulus `E1 = Emax` of the stiffer material. -/
example : multiModulus 70 70e3 3 1 1 = 70e3 + 70 := by norm_num [multiModulus]

/-- Unknown flags raise. -/
example : caseMap2 "beam" = none := by simp [caseMap2]

/-- **C102 (parameters).** The densities written by `set_params`: cell `flex[k]` has row `k` of the parameters, all cells outside `flex_inds` have density 1. With `flex_inds = arange(num_cells)` cell `k` has row `k`. -/
theorem C102_params (flex : List ℕ) (hnd : flex.Nodup) (params : ℕ → ℕ → ℝ) :
    (∀ k (h : k < flex.length), fullParams flex params flex[k] = params k) ∧ (∀ c, c ∉ flex → fullParams flex params c = fun _ => 1) ∧
    ∀ N k, k < N → fullParams (List.range N) params k = params k := by
  refine ⟨fun k h => scatterSet_getElem _ _ hnd _ k h, fun c hc => scatterSet_notMem _ _ _ c hc, fun N k hk => ?_⟩
  have := scatterSet_getElem (fun _ _ => (1 : ℝ)) (List.range N) List.nodup_range params k (by simpa using hk)
  rwa [List.getElem_range] at this

end Verif.Fem
