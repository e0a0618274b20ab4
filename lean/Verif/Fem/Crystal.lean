import Verif.Fem.Models
import Mathlib.Analysis.SpecialFunctions.Pow.Real
import Mathlib.Algebra.Quaternion
import Mathlib.LinearAlgebra.Matrix.Determinant.Basic
import Mathlib.Analysis.Calculus.Deriv.Basic
import Mathlib.Data.Real.Sign

/-!
# Crystal plasticity (model of applications/fem/crystal_plasticity/models.py), rotations and elastic constants

The slip systems are read from a file that is not in the repository: they are a parameter.
-/
namespace Verif.Fem
open Finset Matrix

abbrev M3 := Matrix (Fin 3) (Fin 3) ℝ
abbrev T4 := Fin 3 → Fin 3 → Fin 3 → Fin 3 → ℝ

/-! ## Model -/

/-- `rotate_tensor_rank_4` (models.py 21-26). -/
def rotate4 (R : M3) (T : T4) : T4 := fun i k m o => ∑ j, ∑ l, ∑ n, ∑ p, R i j * R k l * R m n * R o p * T j l n p

/-- `rotate_tensor_rank_2` (models.py 29-32). -/
def rotate2 (R T : M3) : M3 := Matrix.of fun i k => ∑ j, ∑ l, R i j * R k l * T j l

/-- `get_rot_mat` (models.py 37-44). -/
def getRotMat (q : Fin 4 → ℝ) : M3 :=
  !![q 0 * q 0 + q 1 * q 1 - q 2 * q 2 - q 3 * q 3, 2 * q 1 * q 2 - 2 * q 0 * q 3, 2 * q 1 * q 3 + 2 * q 0 * q 2;
     2 * q 1 * q 2 + 2 * q 0 * q 3, q 0 * q 0 - q 1 * q 1 + q 2 * q 2 - q 3 * q 3, 2 * q 2 * q 3 - 2 * q 0 * q 1;
     2 * q 1 * q 3 - 2 * q 0 * q 2, 2 * q 2 * q 3 + 2 * q 0 * q 1, q 0 * q 0 - q 1 * q 1 - q 2 * q 2 + q 3 * q 3]

/-- Division of a row by its norm (models.py 59, 61). -/
noncomputable def unitRow (v : Fin 3 → ℝ) : Fin 3 → ℝ := fun i => v i / Real.sqrt (∑ j, v j ^ 2)

/-- One entry of `Schmid_tensors` (models.py 58-62) for a row of the file: three entries of the normal, three of the direction. -/
noncomputable def schmidTensor (row : Fin 6 → ℝ) : M3 :=
  let slip_direction := unitRow fun i => row (Fin.natAdd 3 i)
  let slip_normal := unitRow fun i => row (Fin.castAdd 3 i)
  Matrix.of fun i j => slip_direction i * slip_normal j

/-- `self.q` (models.py 52, 64-69): the writes raise if an index is out of range. -/
def hardeningMatrix (num_slip_sys : ℕ) : Except FemErr (ℕ → ℕ → ℝ) :=
  let r : ℝ := 1
  (List.range num_slip_sys).foldlM (fun q i => (List.range 3).foldlM (fun q j =>
    let c := i / 3 * 3 + j
    if c < num_slip_sys then .ok (fun a b => if a = i ∧ b = c then 1 else q a b) else .error .index) q) (fun _ _ => r)

/-- Writing an entry of `self.C`. -/
def T4.set (C : T4) (a b c d : Fin 3) (v : ℝ) : T4 := fun i j k l => if i = a ∧ j = b ∧ k = c ∧ l = d then v else C i j k l

/-- `self.C` (models.py 77-115). -/
noncomputable def cubicC : T4 :=
  let C11 : ℝ := 1.684e5
  let C12 : ℝ := 1.214e5
  let C44 : ℝ := 0.754e5
  let C : T4 := fun _ _ _ _ => 0
  let C := T4.set C 0 0 0 0 C11
  let C := T4.set C 1 1 1 1 C11
  let C := T4.set C 2 2 2 2 C11
  let C := T4.set C 0 0 1 1 C12
  let C := T4.set C 1 1 0 0 C12
  let C := T4.set C 0 0 2 2 C12
  let C := T4.set C 2 2 0 0 C12
  let C := T4.set C 1 1 2 2 C12
  let C := T4.set C 2 2 1 1 C12
  let C := T4.set C 1 2 1 2 C44
  let C := T4.set C 1 2 2 1 C44
  let C := T4.set C 2 1 1 2 C44
  let C := T4.set C 2 1 2 1 C44
  let C := T4.set C 2 0 2 0 C44
  let C := T4.set C 2 0 0 2 C44
  let C := T4.set C 0 2 2 0 C44
  let C := T4.set C 0 2 0 2 C44
  let C := T4.set C 0 1 0 1 C44
  let C := T4.set C 0 1 1 0 C44
  let C := T4.set C 1 0 0 1 C44
  T4.set C 1 0 1 0 C44

/-! ## Rotations -/

/-- Specification: a rotation. -/
def IsRotation (R : M3) : Prop := R * Rᵀ = 1 ∧ R.det = 1

/-- Specification: the quaternion with the given entries, scalar first. -/
def quatOf (q : Fin 4 → ℝ) : Quaternion ℝ := ⟨q 0, q 1, q 2, q 3⟩

@[simp] theorem quatOf_re (q : Fin 4 → ℝ) : (quatOf q).re = q 0 := rfl
@[simp] theorem quatOf_imI (q : Fin 4 → ℝ) : (quatOf q).imI = q 1 := rfl
@[simp] theorem quatOf_imJ (q : Fin 4 → ℝ) : (quatOf q).imJ = q 2 := rfl
@[simp] theorem quatOf_imK (q : Fin 4 → ℝ) : (quatOf q).imK = q 3 := rfl

/-- **C112 (orientations).** The matrix of a quaternion acts as `v ↦ q v q*`. For a unit quaternion it is a rotation; `q` and `-q` give the same one, and products go to products. In general it is `|q|²` times a rotation. -/
theorem C112_rotation (q : Fin 4 → ℝ) :
    (∀ v : Fin 3 → ℝ, quatOf (Fin.cons 0 (getRotMat q *ᵥ v)) = quatOf q * quatOf (Fin.cons 0 v) * star (quatOf q)) ∧
    getRotMat q * (getRotMat q)ᵀ = ((∑ i, q i ^ 2) ^ 2) • (1 : M3) ∧ (getRotMat q).det = (∑ i, q i ^ 2) ^ 3 ∧
    (∑ i, q i ^ 2 = 1 → IsRotation (getRotMat q)) ∧ getRotMat (-q) = getRotMat q ∧
    ∀ p r : Fin 4 → ℝ, quatOf r = quatOf q * quatOf p → getRotMat r = getRotMat q * getRotMat p := by
  have h2 : getRotMat q * (getRotMat q)ᵀ = ((∑ i, q i ^ 2) ^ 2) • (1 : M3) := by
    ext i j
    fin_cases i <;> fin_cases j <;> simp [getRotMat, Matrix.mul_apply, Fin.sum_univ_succ] <;> ring
  have h3 : (getRotMat q).det = (∑ i, q i ^ 2) ^ 3 := by
    rw [Matrix.det_fin_three]
    simp [getRotMat, Fin.sum_univ_succ]
    ring
  refine ⟨fun v => ?_, h2, h3, fun h => ⟨by rw [h2, h]; simp, by rw [h3, h]; norm_num⟩, ?_, fun p r h => ?_⟩
  · have c0 : ∀ w : Fin 3 → ℝ, (Fin.cons 0 w : Fin 4 → ℝ) 0 = 0 := fun w => rfl
    have c1 : ∀ w : Fin 3 → ℝ, (Fin.cons 0 w : Fin 4 → ℝ) 1 = w 0 := fun w => rfl
    have c2 : ∀ w : Fin 3 → ℝ, (Fin.cons 0 w : Fin 4 → ℝ) 2 = w 1 := fun w => rfl
    have c3 : ∀ w : Fin 3 → ℝ, (Fin.cons 0 w : Fin 4 → ℝ) 3 = w 2 := fun w => rfl
    ext <;> simp [c0, c1, c2, c3, getRotMat, Matrix.mulVec, dotProduct, Fin.sum_univ_succ, Quaternion.re_mul, Quaternion.imI_mul, Quaternion.imJ_mul, Quaternion.imK_mul] <;> ring
  · ext i j
    fin_cases i <;> fin_cases j <;> simp [getRotMat]
  · have e0 : r 0 = (quatOf r).re := rfl
    have e1 : r 1 = (quatOf r).imI := rfl
    have e2 : r 2 = (quatOf r).imJ := rfl
    have e3 : r 3 = (quatOf r).imK := rfl
    rw [h] at e0 e1 e2 e3
    simp only [Quaternion.re_mul, Quaternion.imI_mul, Quaternion.imJ_mul, Quaternion.imK_mul, quatOf_re, quatOf_imI, quatOf_imJ, quatOf_imK] at e0 e1 e2 e3
    ext i j
    fin_cases i <;> fin_cases j <;> simp [getRotMat, Matrix.mul_apply, Fin.sum_univ_succ, e0, e1, e2, e3] <;> ring

/-! ## Tensors -/

theorem rotate2_eq (R T : M3) : rotate2 R T = R * T * Rᵀ := by
  ext i k
  simp only [rotate2, Matrix.of_apply, Matrix.mul_apply, Matrix.transpose_apply, sum_mul]
  rw [sum_comm]
  exact sum_congr rfl fun l _ => sum_congr rfl fun j _ => by ring

/-- Specification: a tensor of rank four applied to a matrix. -/
def T4.app (C : T4) (E : M3) : M3 := Matrix.of fun i k => ∑ m, ∑ o, C i k m o * E m o

/-- **C112 (rotated tensors).** Rotating a matrix is `R T Rᵀ`; the rotated tensor of rank four applied to `E` is the tensor applied in the frame of the crystal and turned back. -/
theorem C112_rotate (R T : M3) (C : T4) (E : M3) : rotate2 R T = R * T * Rᵀ ∧ (rotate4 R C).app E = R * C.app (Rᵀ * E * R) * Rᵀ := by
  refine ⟨rotate2_eq R T, ?_⟩
  rw [← rotate2_eq]
  ext i k
  simp only [T4.app, rotate4, rotate2, Matrix.of_apply, Matrix.mul_apply, Matrix.transpose_apply, Fin.sum_univ_three]
  ring

/-- Specification: the symmetries of an elastic tensor. -/
structure T4.Elastic (C : T4) : Prop where
  left : ∀ i j k l, C i j k l = C j i k l
  right : ∀ i j k l, C i j k l = C i j l k
  major : ∀ i j k l, C i j k l = C k l i j

theorem rotate4_elastic (R : M3) (C : T4) (h : C.Elastic) : (rotate4 R C).Elastic := by
  refine ⟨fun i k m o => ?_, fun i k m o => ?_, fun i k m o => ?_⟩
  · unfold rotate4
    rw [sum_comm]
    exact sum_congr rfl fun j _ => sum_congr rfl fun l _ => sum_congr rfl fun n _ => sum_congr rfl fun p _ => by rw [h.left]; ring
  · unfold rotate4
    refine sum_congr rfl fun j _ => sum_congr rfl fun l _ => ?_
    rw [sum_comm]
    exact sum_congr rfl fun n _ => sum_congr rfl fun p _ => by rw [h.right]; ring
  · unfold rotate4
    have e : ∀ f : Fin 3 → Fin 3 → Fin 3 → Fin 3 → ℝ, ∑ j, ∑ l, ∑ n, ∑ p, f j l n p = ∑ n, ∑ p, ∑ j, ∑ l, f j l n p := fun f => by
      simp only [Fin.sum_univ_three]
      ring
    rw [e]
    exact sum_congr rfl fun j _ => sum_congr rfl fun l _ => sum_congr rfl fun n _ => sum_congr rfl fun p _ => by rw [h.major]; ring

/-- The tensor in closed form. -/
theorem cubicC_app (E : M3) : cubicC.app E = Matrix.of fun i k => if i = k then 4.7e4 * E i i + 1.214e5 * E.trace else 0.754e5 * (E i k + E k i) := by
  ext i k
  fin_cases i <;> fin_cases k <;> simp [T4.app, cubicC, T4.set, Fin.sum_univ_three, Matrix.trace] <;> ring

theorem cube_z (E : M3) : let R : M3 := !![0, -1, 0; 1, 0, 0; 0, 0, 1]
    (R * Matrix.of (fun i k => if i = k then 4.7e4 * (Rᵀ * E * R) i i + 1.214e5 * (Rᵀ * E * R).trace else 0.754e5 * ((Rᵀ * E * R) i k + (Rᵀ * E * R) k i)) * Rᵀ) =
      Matrix.of fun i k => if i = k then 4.7e4 * E i i + 1.214e5 * E.trace else 0.754e5 * (E i k + E k i) := by
  intro R
  have hG : ∃ G : M3, Rᵀ * E * R = G ∧ G = !![E 1 1, -E 1 0, E 1 2; -E 0 1, E 0 0, -E 0 2; E 2 1, -E 2 0, E 2 2] := by
    refine ⟨_, rfl, ?_⟩
    ext i k
    fin_cases i <;> fin_cases k <;> simp [R, Matrix.mul_apply, Fin.sum_univ_three]
  obtain ⟨G, h1, h2⟩ := hG
  rw [h1, h2]
  ext i k
  rw [Matrix.mul_apply]
  simp only [Matrix.mul_apply, Fin.sum_univ_three, Matrix.of_apply, Matrix.trace, Matrix.diag_apply, Matrix.transpose_apply]
  fin_cases i <;> fin_cases k <;> simp [R] <;> first | ring1 | (left; ring1)

theorem cube_d (E : M3) : let R : M3 := !![0, 0, 1; 1, 0, 0; 0, 1, 0]
    (R * Matrix.of (fun i k => if i = k then 4.7e4 * (Rᵀ * E * R) i i + 1.214e5 * (Rᵀ * E * R).trace else 0.754e5 * ((Rᵀ * E * R) i k + (Rᵀ * E * R) k i)) * Rᵀ) =
      Matrix.of fun i k => if i = k then 4.7e4 * E i i + 1.214e5 * E.trace else 0.754e5 * (E i k + E k i) := by
  intro R
  have hG : ∃ G : M3, Rᵀ * E * R = G ∧ G = !![E 1 1, E 1 2, E 1 0; E 2 1, E 2 2, E 2 0; E 0 1, E 0 2, E 0 0] := by
    refine ⟨_, rfl, ?_⟩
    ext i k
    fin_cases i <;> fin_cases k <;> simp [R, Matrix.mul_apply, Fin.sum_univ_three]
  obtain ⟨G, h1, h2⟩ := hG
  rw [h1, h2]
  ext i k
  rw [Matrix.mul_apply]
  simp only [Matrix.mul_apply, Fin.sum_univ_three, Matrix.of_apply, Matrix.trace, Matrix.diag_apply, Matrix.transpose_apply]
  fin_cases i <;> fin_cases k <;> simp [R] <;> first | ring1 | (left; ring1)

/-- **C112 (elastic constants).** The tensor has the symmetries of elasticity, in every orientation; it is unchanged by the rotations of the cube; and it is positive: the energy of a symmetric strain is at least half of `47000 |E|²`, in every orientation. -/
theorem C112_elastic :
    cubicC.Elastic ∧ (∀ R, (rotate4 R cubicC).Elastic) ∧ rotate4 !![0, -1, 0; 1, 0, 0; 0, 0, 1] cubicC = cubicC ∧ rotate4 !![0, 0, 1; 1, 0, 0; 0, 1, 0] cubicC = cubicC ∧
    ∀ R E : M3, IsRotation R → Eᵀ = E → 4.7e4 * ∑ i, ∑ j, E i j ^ 2 ≤ ∑ i, ∑ j, (rotate4 R cubicC).app E i j * E i j := by
  have h1 : cubicC.Elastic := by
    refine ⟨fun i j k l => ?_, fun i j k l => ?_, fun i j k l => ?_⟩ <;>
      fin_cases i <;> fin_cases j <;> fin_cases k <;> fin_cases l <;> simp [cubicC, T4.set]
  have hex : ∀ C D : T4, (∀ E, C.app E = D.app E) → C = D := by
    intro C D h
    funext i k m o
    have := congrFun (congrFun (h (Matrix.single m o 1)) i) k
    simpa [T4.app, Matrix.single_apply, ite_and] using this
  have htr : ∀ R E : M3, R * Rᵀ = 1 → (Rᵀ * E * R).trace = E.trace := fun R E hR => by
    rw [Matrix.trace_mul_comm, ← Matrix.mul_assoc, hR, Matrix.one_mul]
  refine ⟨h1, fun R => rotate4_elastic R _ h1, hex _ _ fun E => ?_, hex _ _ fun E => ?_, fun R E hR hE => ?_⟩
  · rw [(C112_rotate _ 0 cubicC E).2, cubicC_app, cubicC_app]
    exact cube_z E
  · rw [(C112_rotate _ 0 cubicC E).2, cubicC_app, cubicC_app]
    exact cube_d E
  · rw [(C112_rotate R 0 cubicC E).2]
    have hR' : Rᵀ * R = 1 := mul_eq_one_comm.mp hR.1
    set G := Rᵀ * E * R with hG
    have hGs : Gᵀ = G := by rw [hG]; simp [Matrix.transpose_mul, hE, Matrix.mul_assoc]
    have hd : ∀ A B : M3, ∑ i, ∑ j, A i j * B i j = (A * Bᵀ).trace := fun A B => by
      simp only [Matrix.trace, Matrix.diag_apply, Matrix.mul_apply, Matrix.transpose_apply]
    have e1 : ∑ i, ∑ j, (R * cubicC.app G * Rᵀ) i j * E i j = ∑ i, ∑ j, cubicC.app G i j * G i j := by
      rw [hd, hd, hE, hGs, hG]
      rw [show R * cubicC.app (Rᵀ * E * R) * Rᵀ * E = R * (cubicC.app (Rᵀ * E * R) * Rᵀ * E) by simp only [Matrix.mul_assoc], Matrix.trace_mul_comm]
      simp only [Matrix.mul_assoc]
    have e2 : ∑ i, ∑ j, E i j ^ 2 = ∑ i, ∑ j, G i j ^ 2 := by
      simp only [pow_two]
      rw [hd, hd, hE, hGs, hG]
      rw [show Rᵀ * E * R * (Rᵀ * E * R) = Rᵀ * (E * (R * Rᵀ) * E * R) by simp only [Matrix.mul_assoc], hR.1, Matrix.mul_one,
        Matrix.trace_mul_comm (Rᵀ), Matrix.mul_assoc (E * E), hR.1, Matrix.mul_one]
    rw [e1, e2, cubicC_app]
    have s : ∀ i j, G i j = G j i := fun i j => by conv_lhs => rw [← hGs, Matrix.transpose_apply]
    simp only [Fin.sum_univ_three, Matrix.of_apply, Matrix.trace, Matrix.diag_apply]
    simp only [Fin.isValue, ite_true, show ((0 : Fin 3) = 1) = False by simp, show ((0 : Fin 3) = 2) = False by simp, show ((1 : Fin 3) = 0) = False by simp, show ((1 : Fin 3) = 2) = False by simp,
      show ((2 : Fin 3) = 0) = False by simp, show ((2 : Fin 3) = 1) = False by simp, ite_false]
    rw [s 1 0, s 2 0, s 2 1]
    have k1 := sq_nonneg (G 0 0 + G 1 1 + G 2 2)
    have k2 := sq_nonneg (G 0 1)
    have k3 := sq_nonneg (G 0 2)
    have k4 := sq_nonneg (G 1 2)
    have e : (4.7e4 * G 0 0 + 1.214e5 * (G 0 0 + G 1 1 + G 2 2)) * G 0 0 + 0.754e5 * (G 0 1 + G 0 1) * G 0 1 + 0.754e5 * (G 0 2 + G 0 2) * G 0 2 +
        (0.754e5 * (G 0 1 + G 0 1) * G 0 1 + (4.7e4 * G 1 1 + 1.214e5 * (G 0 0 + G 1 1 + G 2 2)) * G 1 1 + 0.754e5 * (G 1 2 + G 1 2) * G 1 2) +
        (0.754e5 * (G 0 2 + G 0 2) * G 0 2 + 0.754e5 * (G 1 2 + G 1 2) * G 1 2 + (4.7e4 * G 2 2 + 1.214e5 * (G 0 0 + G 1 1 + G 2 2)) * G 2 2) -
        4.7e4 * (G 0 0 ^ 2 + G 0 1 ^ 2 + G 0 2 ^ 2 + (G 0 1 ^ 2 + G 1 1 ^ 2 + G 1 2 ^ 2) + (G 0 2 ^ 2 + G 1 2 ^ 2 + G 2 2 ^ 2)) =
        1.214e5 * (G 0 0 + G 1 1 + G 2 2) ^ 2 + 2.076e5 * (G 0 1 ^ 2 + G 0 2 ^ 2 + G 1 2 ^ 2) := by ring
    have e' : (0 : ℝ) ≤ 1.214e5 * (G 0 0 + G 1 1 + G 2 2) ^ 2 + 2.076e5 * (G 0 1 ^ 2 + G 0 2 ^ 2 + G 1 2 ^ 2) := by positivity
    rw [← e] at e'
    linarith

/-! ## Concrete cases -/

/-- A quarter-like turn about the third axis with rational entries. -/
example : getRotMat ![3 / 5, 0, 0, 4 / 5] = !![-7 / 25, -24 / 25, 0; 24 / 25, -7 / 25, 0; 0, 0, 1] ∧ IsRotation (getRotMat ![3 / 5, 0, 0, 4 / 5]) := by
  refine ⟨?_, (C112_rotation _).2.2.2.1 (by simp [Fin.sum_univ_succ]; norm_num)⟩
  ext i j
  fin_cases i <;> fin_cases j <;> simp [getRotMat] <;> norm_num

end Verif.Fem
