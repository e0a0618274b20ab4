import Verif.Fem.TopOptMesh
import Mathlib.LinearAlgebra.UnitaryGroup

/-!
# C106: the von Mises stress of the topology optimisation applications (applications/fem/top_opt/fem_model.py 121-160)
-/
namespace Verif.Fem
open Finset Matrix

variable {nn nq nf nfq dim : ℕ}

/-- `vm_stress_fn_helper` (fem_model.py 133-137). -/
noncomputable def vmHelper (sigma : Fin 3 → Fin 3 → ℝ) : ℝ :=
  let s_dev : Fin 3 → Fin 3 → ℝ := fun i j => sigma i j - 1 / 3 * (∑ d, sigma d d) * (if i = j then 1 else 0)
  Real.sqrt (3 / 2 * ∑ i, ∑ j, s_dev i j * s_dev i j)

/-- `stress_fn` (fem_model.py 122-131); `theta[0]**0.5` is the square root (a float power of a negative number is nan in the code, `0` here). -/
noncomputable def vmBaseStress (u_grad : Fin dim → Fin dim → ℝ) (theta : ℕ → ℝ) : Fin dim → Fin dim → ℝ := isoStress (Real.sqrt (theta 0) * 70e9) 0.3 u_grad

/-- `vm_stress_fn` of the plane cases (fem_model.py 139-143). -/
noncomputable def vmPlate (u_grad : Fin 2 → Fin 2 → ℝ) (theta : ℕ → ℝ) : ℝ :=
  let sigma2d := vmBaseStress u_grad theta
  vmHelper ![![sigma2d 0 0, sigma2d 0 1, 0], ![sigma2d 1 0, sigma2d 1 1, 0], ![0, 0, 0]]

/-- `get_von_mises_stress_fn` for plane problems (fem_model.py 121-149). In the other plane cases (`'eigen'`, and the isotropic ones with `dim = 2`) `sigma` has shape (2, 2) and `np.eye(3)` (3, 3): the
subtraction raises, `none`. -/
noncomputable def vmFn2 (case_flag : String) : Option ((Fin 2 → Fin 2 → ℝ) → (ℕ → ℝ) → ℝ) :=
  if case_flag = "plate" ∨ case_flag = "L_shape" then some vmPlate else none

/-- `get_von_mises_stress_fn` in space (fem_model.py 144-149). -/
noncomputable def vmFn3 (case_flag : String) : Option ((Fin 3 → Fin 3 → ℝ) → (ℕ → ℝ) → ℝ) :=
  (caseMap3 case_flag).map fun stress u_grad theta => vmHelper (stress u_grad theta)

/-- `compute_von_mises_stress` (fem_model.py 151-160): one average per cell; `theta k` are the parameters of cell `k` (equal at its quadrature points, `set_params`). -/
noncomputable def computeVonMises (F : Fem nn nq nf nfq dim dim) (vm_stress_fn : (Fin dim → Fin dim → ℝ) → (ℕ → ℝ) → ℝ) (theta : ℕ → ℕ → ℝ) (sol : ℕ → Fin dim → ℝ) : List ℝ :=
  F.cells.zipIdx.map fun c =>
    let u_grads : Fin nq → Fin dim → Fin dim → ℝ := fun q i d => ∑ n, sol (c.1 n) i * F.shapeGrad c.1 q n d
    (∑ q, vm_stress_fn (u_grads q) (theta c.2) * F.JxW c.1 q) / ∑ q, F.JxW c.1 q

/-! ## The formula -/

theorem vmHelper_sq (sigma : Fin 3 → Fin 3 → ℝ) (hs : ∀ i j, sigma i j = sigma j i) :
    3 / 2 * ∑ i, ∑ j, (sigma i j - 1 / 3 * (∑ d, sigma d d) * (if i = j then 1 else 0)) * (sigma i j - 1 / 3 * (∑ d, sigma d d) * (if i = j then 1 else 0)) =
      ((sigma 0 0 - sigma 1 1) ^ 2 + (sigma 1 1 - sigma 2 2) ^ 2 + (sigma 2 2 - sigma 0 0) ^ 2) / 2 + 3 * (sigma 0 1 ^ 2 + sigma 1 2 ^ 2 + sigma 2 0 ^ 2) := by
  simp only [Fin.sum_univ_three]
  rw [hs 1 0, hs 2 1, hs 0 2]
  simp
  ring

/-- **C106 (formula).** The helper computes the equivalent stress of von Mises: the textbook formula for symmetric stresses, unchanged by hydrostatic pressure and by rotations, absolutely homogeneous, `|T|` for a bar
pulled with stress `T`, `√3 |τ|` in pure shear, and zero exactly for hydrostatic stresses. -/
theorem C106_formula (sigma : Fin 3 → Fin 3 → ℝ) :
    ((∀ i j, sigma i j = sigma j i) → vmHelper sigma = Real.sqrt (((sigma 0 0 - sigma 1 1) ^ 2 + (sigma 1 1 - sigma 2 2) ^ 2 + (sigma 2 2 - sigma 0 0) ^ 2) / 2 + 3 * (sigma 0 1 ^ 2 + sigma 1 2 ^ 2 + sigma 2 0 ^ 2))) ∧
    (∀ p : ℝ, vmHelper (fun i j => sigma i j + if i = j then p else 0) = vmHelper sigma) ∧
    (∀ Q : Matrix (Fin 3) (Fin 3) ℝ, Q * Qᵀ = 1 → vmHelper (fun i j => (Q * Matrix.of sigma * Qᵀ) i j) = vmHelper sigma) ∧
    (∀ a : ℝ, vmHelper (fun i j => a * sigma i j) = |a| * vmHelper sigma) ∧
    (vmHelper sigma = 0 ↔ ∃ p : ℝ, ∀ i j, sigma i j = if i = j then p else 0) := by
  refine ⟨fun hs => ?_, fun p => ?_, fun Q hQ => ?_, fun a => ?_, ?_⟩
  · unfold vmHelper
    dsimp only
    rw [vmHelper_sq sigma hs]
  · unfold vmHelper
    dsimp only
    congr 2
    refine sum_congr rfl fun i _ => sum_congr rfl fun j _ => ?_
    have : (sigma i j + if i = j then p else 0) - 1 / 3 * (∑ d, (sigma d d + if d = d then p else 0)) * (if i = j then 1 else 0) = sigma i j - 1 / 3 * (∑ d, sigma d d) * (if i = j then 1 else 0) := by
      simp only [if_true, sum_add_distrib, sum_const, card_univ, Fintype.card_fin, nsmul_eq_mul]
      split_ifs
      · push_cast
        ring
      · ring
    rw [this]
  · have hQ' : Qᵀ * Q = 1 := mul_eq_one_comm.mp hQ
    have key : ∀ s : Matrix (Fin 3) (Fin 3) ℝ, vmHelper (fun i j => s i j) = Real.sqrt (3 / 2 * ((s - (1 / 3 * s.trace) • (1 : Matrix (Fin 3) (Fin 3) ℝ)) * (s - (1 / 3 * s.trace) • (1 : Matrix (Fin 3) (Fin 3) ℝ))ᵀ).trace) := by
      intro s
      unfold vmHelper
      dsimp only
      congr 2
    have htr : (Q * Matrix.of sigma * Qᵀ).trace = (Matrix.of sigma).trace := by
      rw [Matrix.trace_mul_comm, ← Matrix.mul_assoc, hQ', Matrix.one_mul]
    rw [key, htr]
    have e : Q * Matrix.of sigma * Qᵀ - (1 / 3 * (Matrix.of sigma).trace) • (1 : Matrix (Fin 3) (Fin 3) ℝ) = Q * (Matrix.of sigma - (1 / 3 * (Matrix.of sigma).trace) • (1 : Matrix (Fin 3) (Fin 3) ℝ)) * Qᵀ := by
      rw [Matrix.mul_sub, Matrix.sub_mul, Matrix.mul_smul, Matrix.smul_mul, Matrix.mul_one, hQ]
    rw [e]
    set S := Matrix.of sigma - (1 / 3 * (Matrix.of sigma).trace) • (1 : Matrix (Fin 3) (Fin 3) ℝ) with hS
    have e2 : (Q * S * Qᵀ * (Q * S * Qᵀ)ᵀ).trace = (S * Sᵀ).trace := by
      rw [Matrix.transpose_mul, Matrix.transpose_mul, Matrix.transpose_transpose]
      rw [show Q * S * Qᵀ * (Q * (Sᵀ * Qᵀ)) = Q * (S * (Qᵀ * Q) * Sᵀ) * Qᵀ by simp only [Matrix.mul_assoc], hQ', Matrix.mul_one, Matrix.trace_mul_comm, ← Matrix.mul_assoc, hQ', Matrix.one_mul]
    rw [e2]
    exact (key (Matrix.of sigma)).symm
  · unfold vmHelper
    dsimp only
    have : ∀ i j, (a * sigma i j - 1 / 3 * (∑ d, a * sigma d d) * (if i = j then 1 else 0)) * (a * sigma i j - 1 / 3 * (∑ d, a * sigma d d) * (if i = j then 1 else 0))
        = a ^ 2 * ((sigma i j - 1 / 3 * (∑ d, sigma d d) * (if i = j then 1 else 0)) * (sigma i j - 1 / 3 * (∑ d, sigma d d) * (if i = j then 1 else 0))) := by
      intro i j
      rw [← mul_sum]
      ring
    rw [sum_congr rfl fun i _ => sum_congr rfl fun j _ => this i j]
    simp only [← mul_sum]
    rw [show ∀ x : ℝ, 3 / 2 * (a ^ 2 * x) = a ^ 2 * (3 / 2 * x) from fun x => by ring, Real.sqrt_mul (sq_nonneg a), Real.sqrt_sq_eq_abs]
  · unfold vmHelper
    dsimp only
    have hn : ∀ i ∈ (univ : Finset (Fin 3)), 0 ≤ ∑ j, (sigma i j - 1 / 3 * (∑ d, sigma d d) * (if i = j then 1 else 0)) * (sigma i j - 1 / 3 * (∑ d, sigma d d) * (if i = j then 1 else 0)) :=
      fun i _ => sum_nonneg fun j _ => mul_self_nonneg _
    rw [Real.sqrt_eq_zero (mul_nonneg (by norm_num) (sum_nonneg hn)), mul_eq_zero, or_iff_right (by norm_num), sum_eq_zero_iff_of_nonneg hn]
    constructor
    · intro h
      refine ⟨1 / 3 * ∑ d, sigma d d, fun i j => ?_⟩
      have h1 := (sum_eq_zero_iff_of_nonneg fun j _ => mul_self_nonneg _).mp (h i (mem_univ i)) j (mem_univ j)
      have h2 := mul_self_eq_zero.mp h1
      split_ifs with hij
      · simp only [hij, if_true, mul_one] at h2 ⊢
        linarith
      · simp only [hij, if_false, mul_zero, sub_zero] at h2
        exact h2
    · rintro ⟨p, hp⟩ i -
      refine sum_eq_zero fun j _ => ?_
      have ht : ∑ d, sigma d d = 3 * p := by
        simp only [hp, if_true, sum_const, card_univ, Fintype.card_fin, nsmul_eq_mul]
        push_cast
        ring
      rw [ht, hp i j]
      split_ifs <;> ring

/-- A bar pulled with stress `T`, and pure shear. -/
example (T : ℝ) : vmHelper ![![T, 0, 0], ![0, 0, 0], ![0, 0, 0]] = |T| := by
  rw [(C106_formula _).1 (by intro i j; fin_cases i <;> fin_cases j <;> rfl)]
  simp [Real.sqrt_sq_eq_abs]

example (τ : ℝ) : vmHelper ![![0, τ, 0], ![τ, 0, 0], ![0, 0, 0]] = Real.sqrt 3 * |τ| := by
  rw [(C106_formula _).1 (by intro i j; fin_cases i <;> fin_cases j <;> rfl)]
  simp
  rw [Real.sqrt_sq_eq_abs]

/-! ## The cell averages -/

/-- **C106 (average).** On cells of positive volume the value of a cell lies between every lower and every upper bound of the function at its quadrature points: equal values are returned unchanged. -/
theorem C106_average (F : Fem nn nq nf nfq dim dim) (hq : 0 < nq) (vm : (Fin dim → Fin dim → ℝ) → (ℕ → ℝ) → ℝ) (theta : ℕ → ℕ → ℝ) (sol : ℕ → Fin dim → ℝ) (hvol : ∀ c ∈ F.cells, ∀ q, 0 < F.JxW c q) :
    (computeVonMises F vm theta sol).length = F.cells.length ∧
    ∀ (k : ℕ) (c : Fin nn → ℕ), F.cells[k]? = some c → ∃ s, (computeVonMises F vm theta sol)[k]? = some s ∧
      (∀ lo, (∀ q, lo ≤ vm (F.gradAt sol c q) (theta k)) → lo ≤ s) ∧ (∀ hi, (∀ q, vm (F.gradAt sol c q) (theta k) ≤ hi) → s ≤ hi) := by
  refine ⟨by simp [computeVonMises], fun k c hc => ?_⟩
  have hmem : c ∈ F.cells := List.mem_of_getElem? hc
  have hpos : 0 < ∑ q, F.JxW c q := sum_pos (fun q _ => hvol c hmem q) ⟨⟨0, hq⟩, mem_univ _⟩
  refine ⟨(∑ q, vm (F.gradAt sol c q) (theta k) * F.JxW c q) / ∑ q, F.JxW c q, ?_, fun lo hlo => ?_, fun hi hhi => ?_⟩
  · simp only [computeVonMises, List.getElem?_map, List.getElem?_zipIdx, hc, Option.map_some]
    simp only [zero_add]
    rfl
  · rw [le_div_iff₀ hpos, mul_sum]
    exact sum_le_sum fun q _ => mul_le_mul_of_nonneg_right (hlo q) (hvol c hmem q).le
  · rw [div_le_iff₀ hpos, mul_sum]
    exact sum_le_sum fun q _ => mul_le_mul_of_nonneg_right (hhi q) (hvol c hmem q).le

/-! ## The plane cases -/

/-- **C106 (plane cases).** In the cases `'plate'` and `'L_shape'` the displacement is computed in plane stress, the von Mises stress from another stress. A bar of full material pulled with stress `T` (plane
stress: strains `T/E` and `-0.3 T/E`): the tensor map gives the stress `diag(T, 0)`, whose von Mises stress is `T`; the function returns `√(3253/2704) T`, about ten percent more. -/
theorem C106_plate (T : ℝ) (hT : 0 < T) :
    let g : Fin 2 → Fin 2 → ℝ := ![![T / 70e9, 0], ![0, -(0.3 * T / 70e9)]]
    planeMap 3 g (fun _ => 1) = ![![T, 0], ![0, 0]] ∧ vmHelper ![![T, 0, 0], ![0, 0, 0], ![0, 0, 0]] = T ∧
    vmPlate g (fun _ => 1) = Real.sqrt (3253 / 2704) * T ∧ 1.09 * T < vmPlate g (fun _ => 1) := by
  intro g
  have h3 : vmPlate g (fun _ => 1) = Real.sqrt (3253 / 2704) * T := by
    have hs : vmBaseStress g (fun _ => 1) = ![![61 / 52 * T, 0], ![0, 9 / 52 * T]] := by
      funext i j
      fin_cases i <;> fin_cases j <;> simp [vmBaseStress, isoStress, g, Fin.sum_univ_two] <;> ring
    unfold vmPlate
    dsimp only
    rw [hs, (C106_formula _).1 (by intro i j; fin_cases i <;> fin_cases j <;> rfl)]
    rw [← Real.sqrt_sq hT.le, ← Real.sqrt_mul (by norm_num), Real.sqrt_sq hT.le]
    congr 1
    simp
    ring
  refine ⟨?_, ?_, h3, ?_⟩
  · funext i j
    fin_cases i <;> fin_cases j <;> norm_num [planeMap, planeStress, simpModulus, g] <;> ring
  · rw [(C106_formula _).1 (by intro i j; fin_cases i <;> fin_cases j <;> rfl)]
    simp [Real.sqrt_sq hT.le]
  · rw [h3]
    refine mul_lt_mul_of_pos_right ?_ hT
    rw [show (1.09 : ℝ) = Real.sqrt (1.09 ^ 2) by rw [Real.sqrt_sq (by norm_num)]]
    exact Real.sqrt_lt_sqrt (by norm_num) (by norm_num)

/-- **C106 (cases).** In space every accepted case has a von Mises function; in the plane the case `'eigen'`, accepted by `custom_init`, has none. -/
theorem C106_cases :
    (∀ flag, (vmFn3 flag).isSome = (caseMap3 flag).isSome) ∧ (caseMap2 "eigen").isSome = true ∧ vmFn2 "eigen" = none ∧ (vmFn2 "plate").isSome = true ∧ (vmFn2 "L_shape").isSome = true := by
  refine ⟨fun flag => by simp [vmFn3], ?_, ?_, ?_, ?_⟩
  · simp [caseMap2]
  · simp [vmFn2]
  · simp [vmFn2]
  · simp [vmFn2]

end Verif.Fem
