import Verif.Fem.HyperProps
import Verif.Fem.Work
import Verif.Fem.TopOptMesh

/-!
# Two-scale hyperelasticity (model of `applications/fem/multi_scale/fem_model.py`, `utils.py`), C120

The neural network is an arbitrary function of six numbers here; `MultiScaleTrain.lean` models the networks built by `get_mlp`. `J ** (-2/3)` is NaN in the code for `J < 0`; the theorems assume `J > 0`.
-/
namespace Verif.Fem
open Finset Matrix

variable {nn nq nf nfq : ℕ}

/-- Deformation gradients and stresses. -/
abbrev T33 := Matrix (Fin 3) (Fin 3) ℝ

/-- `flat_to_tensor` (utils.py 6-9). -/
def flatToTensor (x : Fin 6 → ℝ) : T33 := !![x 0, x 3, x 4; x 3, x 1, x 5; x 4, x 5, x 2]

/-- `tensor_to_flat` (utils.py 12-13). -/
def tensorToFlat (X : T33) : Fin 6 → ℝ := ![X 0 0, X 1 1, X 2 2, X 0 1, X 0 2, X 1 2]

/-- The command line arguments used by the material (arguments.py 21-28) and the numbers of units set by the drivers. -/
structure MsArgs where
  L : ℝ
  units : Fin 3 → ℕ
  E_in : ℝ
  E_out : ℝ
  nu_in : ℝ
  nu_out : ℝ
  ratio : ℝ

/-- `hit` (fem_model.py 140-141). -/
noncomputable def msHit (a : MsArgs) (point : Fin 3 → ℝ) (i j k : ℕ) : Bool :=
  let center : Fin 3 → ℝ := ![(i + 0.5) * a.L, (j + 0.5) * a.L, (k + 0.5) * a.L]
  open Classical in decide (max (max |point 0 - center 0| |point 1 - center 1|) |point 2 - center 2| < a.L * a.ratio)

/-- `inclusion` after the three loops of `moduli_map` (fem_model.py 136-142). -/
noncomputable def msInclusion (a : MsArgs) (point : Fin 3 → ℝ) : Bool :=
  (List.range (a.units 0)).foldl (fun inc i => (List.range (a.units 1)).foldl (fun inc j => (List.range (a.units 2)).foldl (fun inc k => inc || msHit a point i j k) inc) inc) false

/-- `moduli_map` (fem_model.py 135-145). -/
noncomputable def msModuliMap (a : MsArgs) (point : Fin 3 → ℝ) : ℝ × ℝ :=
  let inclusion := msInclusion a point
  (if inclusion then a.E_in else a.E_out, if inclusion then a.nu_in else a.nu_out)

/-- `compute_moduli` (fem_model.py 134-157) on the array of quadrature points. -/
noncomputable def msModuli (a : MsArgs) (dns_info : Option String) (X : List (Fin nq → Fin 3 → ℝ)) : List (Fin nq → ℝ × ℝ) :=
  let En := X.map fun x q => msModuliMap a (x q)
  let En := if dns_info = some "in" then En.map fun _ _ => (a.E_in * 1, a.nu_in * 1) else En
  if dns_info = some "out" then En.map fun _ _ => (a.E_out * 1, a.nu_out * 1) else En

/-- `psi` of `maps_rve` and `maps_dns` (fem_model.py 67-74, 86-93). -/
noncomputable def msPsi (E nu : ℝ) (F : T33) : ℝ :=
  let mu := E / (2 * (1 + nu))
  let kappa := E / (3 * (1 - 2 * nu))
  let J := F.det
  let Jinv := J ^ (-2 / 3 : ℝ)
  let I1 := (Fᵀ * F).trace
  mu / 2 * (Jinv * I1 - 3) + kappa / 2 * (J - 1) ^ 2

/-- `jax.grad` of an energy: the partial derivatives (fem_model.py 75, 94, 110). -/
noncomputable def gradOf (psi : T33 → ℝ) (F : T33) : T33 := Matrix.of fun i j => deriv (fun t : ℝ => psi (F + t • Matrix.single i j 1)) 0

/-- `psi` of `maps_nn` (fem_model.py 105-109): the batch holds one row. -/
def nnPsi (net : (Fin 6 → ℝ) → ℝ) (F : T33) : ℝ := net (tensorToFlat (Fᵀ * F))

inductive MsMode
  | rve
  | dns
  | nn
  deriving DecidableEq

/-- Exceptions: `NotImplementedError`, and `TypeError` from adding `H_bar = None`. -/
inductive MsErr
  | notImplemented
  | typeError
  deriving DecidableEq

/-- The `HyperElasticity` object: the `FEM` part, the mode, `H_bar`, `E` and `nu` per cell and quadrature point, the network. -/
structure Ms (nn nq nf nfq : ℕ) where
  fem : Fem nn nq nf nfq 3 3
  mode : MsMode
  hbar : Option T33
  moduli : List (Fin nq → ℝ × ℝ)
  net : (Fin 6 → ℝ) → ℝ

/-- `custom_init` (fem_model.py 15-33); `net` is what `get_nn_batch_forward('MLP2')` reads from disk. -/
noncomputable def msInit (a : MsArgs) (fem : Fem nn nq nf nfq 3 3) (net : (Fin 6 → ℝ) → ℝ) (mode : String) (dns_info : Option String) : Except MsErr (Ms nn nq nf nfq) :=
  if mode = "rve" then .ok ⟨fem, .rve, none, msModuli a dns_info fem.quadPoints, net⟩
  else if mode = "dns" then .ok ⟨fem, .dns, none, msModuli a dns_info fem.quadPoints, net⟩
  else if mode = "nn" then .ok ⟨fem, .nn, none, [], net⟩
  else .error .notImplemented

namespace Ms
variable (s : Ms nn nq nf nfq)

/-- Row `k`, column `q` of `self.E`, `self.nu`. -/
def en (k : ℕ) (q : Fin nq) : ℝ × ℝ := (s.moduli.getD k fun _ => (0, 0)) q

/-- The map `psi` of the mode with the row of moduli inserted, as called by `vmap_energy` (fem_model.py 49-64): in mode `rve` the macroscopic gradient is added to the argument. -/
noncomputable def energyFn : Except MsErr (ℕ → Fin nq → T33 → ℝ) :=
  match s.mode with
  | .rve =>
    match s.hbar with
    | none => .error .typeError
    | some H => .ok fun k q x => msPsi (s.en k q).1 (s.en k q).2 (x + H)
  | .dns => .ok fun k q x => msPsi (s.en k q).1 (s.en k q).2 x
  | .nn => .ok fun _ _ x => nnPsi s.net x

/-- `first_PK_stress` of the mode (fem_model.py 77-81, 96-100, 112-116), `get_tensor_map` (35-37). -/
noncomputable def stressFn : Except MsErr (ℕ → Fin nq → T33 → T33) :=
  match s.mode with
  | .rve =>
    match s.hbar with
    | none => .error .typeError
    | some H => .ok fun k q g => gradOf (msPsi (s.en k q).1 (s.en k q).2) (g + 1 + H)
  | .dns => .ok fun k q g => gradOf (msPsi (s.en k q).1 (s.en k q).2) (g + 1)
  | .nn => .ok fun _ _ g => gradOf (nnPsi s.net) (g + 1)

/-- `compute_energy` (fem_model.py 120-128). -/
noncomputable def computeEnergy (sol : ℕ → Fin 3 → ℝ) : Except MsErr ℝ := do
  let psi ← s.energyFn
  pure (s.fem.cells.zipIdx.map fun p => ∑ q, psi p.2 q (Matrix.of (fun i d => ∑ n, sol (p.1 n) i * s.fem.shapeGrad p.1 q n d) + 1) * s.fem.JxW p.1 q).sum

/-- `fluc_to_disp` (fem_model.py 130-132). -/
noncomputable def flucToDisp (fluc : ℕ → Fin 3 → ℝ) : Except MsErr (ℕ → Fin 3 → ℝ) :=
  match s.hbar with
  | none => .error .typeError
  | some H => .ok fun n i => ∑ d, H i d * s.fem.points n d + fluc n i

/-- The object as seen by the solver: the tensor map of the mode with its internal variables. -/
noncomputable def asFem : Except MsErr (Fem nn nq nf nfq 3 3) := do
  let P ← s.stressFn
  pure { s.fem with
    tensorMap := some fun k q g => P k q (Matrix.of g)
    lapRows := match s.mode with
      | .nn => none
      | _ => some s.moduli.length }

end Ms

/-! ## Derivatives of the energies -/

/-- Specification: `P` is the gradient of `psi` at `F`. -/
def IsGradAt (psi : T33 → ℝ) (P F : T33) : Prop := ∀ H : T33, HasDerivAt (fun t : ℝ => psi (F + t • H)) (ddot P H) 0

theorem ddot_single (P : T33) (i j : Fin 3) : ddot P (Matrix.single i j 1) = P i j := by
  unfold ddot
  simp [Matrix.single_apply, ite_and]

theorem IsGradAt.eq {psi : T33 → ℝ} {P F : T33} (h : IsGradAt psi P F) : gradOf psi F = P := by
  ext i j
  show deriv _ 0 = _
  rw [(h (Matrix.single i j 1)).deriv, ddot_single]

/-- The stress formula with general moduli. -/
noncomputable def neoStress (mu kappa : ℝ) (F : T33) : T33 :=
  (mu * F.det ^ (-2 / 3 : ℝ)) • (F - ((Fᵀ * F).trace / 3) • (F⁻¹)ᵀ) + (kappa * (F.det - 1) * F.det) • (F⁻¹)ᵀ

theorem msPsi_grad (E nu : ℝ) (F : T33) (hJ : 0 < F.det) : IsGradAt (msPsi E nu) (neoStress (E / (2 * (1 + nu))) (E / (3 * (1 - 2 * nu))) F) F := by
  intro H
  set mu := E / (2 * (1 + nu)) with hmu
  set kappa := E / (3 * (1 - 2 * nu)) with hkappa
  set c := ∑ i, ∑ j, F.adjugate j i * H i j with hc
  have hd : HasDerivAt (fun t : ℝ => (F + t • H).det) c 0 := by
    have hfun : (fun t : ℝ => (F + t • H).det) = fun t => F.det + t * c + t ^ 2 * (∑ i, ∑ j, H.adjugate j i * F i j) + t ^ 3 * H.det := funext fun t => det3_line F H t
    rw [hfun]
    have h1 : HasDerivAt (fun t : ℝ => t * c) c 0 := by simpa using (hasDerivAt_id (0 : ℝ)).mul_const c
    have h2 := (hasDerivAt_pow 2 (0 : ℝ)).mul_const (∑ i, ∑ j, H.adjugate j i * F i j)
    have h3 := (hasDerivAt_pow 3 (0 : ℝ)).mul_const H.det
    simpa using ((h1.const_add F.det).fun_add h2).fun_add h3
  have ht : HasDerivAt (fun t : ℝ => ((F + t • H)ᵀ * (F + t • H)).trace) (2 * ddot F H) 0 := by
    have hfun : (fun t : ℝ => ((F + t • H)ᵀ * (F + t • H)).trace) = fun t => (Fᵀ * F).trace + t * (2 * ddot F H) + t ^ 2 * (Hᵀ * H).trace := by
      funext t
      simp only [Matrix.trace, Matrix.diag_apply, Matrix.mul_apply, Matrix.transpose_apply, Matrix.add_apply, Matrix.smul_apply, smul_eq_mul, ddot, Fin.sum_univ_three]
      ring
    rw [hfun]
    have h1 : HasDerivAt (fun t : ℝ => t * (2 * ddot F H)) (2 * ddot F H) 0 := by simpa using (hasDerivAt_id (0 : ℝ)).mul_const (2 * ddot F H)
    have h2 := (hasDerivAt_pow 2 (0 : ℝ)).mul_const ((Hᵀ * H).trace)
    simpa using (h1.const_add ((Fᵀ * F).trace)).fun_add h2
  have hne : (F + (0 : ℝ) • H).det ≠ 0 := by simpa using hJ.ne'
  have hp := hd.rpow_const (p := (-2 / 3 : ℝ)) (Or.inl hne)
  have hfull := ((((hp.mul ht).sub_const 3).const_mul (mu / 2)).add (((hd.sub_const 1).pow 2).const_mul (kappa / 2)))
  refine HasDerivAt.congr_deriv (f := fun t : ℝ => msPsi E nu (F + t • H)) hfull ?_
  have hpow : F.det ^ ((-2 / 3 : ℝ) - 1) * F.det = F.det ^ (-2 / 3 : ℝ) := by
    rw [Real.rpow_sub_one hJ.ne']
    field_simp
  have hcinv : c = F.det * ddot (F⁻¹)ᵀ H := by
    rw [hc, ddot, mul_sum]
    refine sum_congr rfl fun i _ => ?_
    rw [mul_sum]
    refine sum_congr rfl fun j _ => ?_
    rw [Matrix.transpose_apply, Matrix.inv_def, Matrix.smul_apply, Ring.inverse_eq_inv', smul_eq_mul]
    field_simp
  have hlin : ∀ (x y : ℝ) (A B : T33), ddot (x • A + y • B) H = x * ddot A H + y * ddot B H := by
    intro x y A B
    simp only [ddot, Matrix.add_apply, Matrix.smul_apply, smul_eq_mul, Fin.sum_univ_three]
    ring
  have hlin2 : ∀ (x : ℝ) (A B : T33), ddot (A - x • B) H = ddot A H - x * ddot B H := by
    intro x A B
    simp only [ddot, Matrix.sub_apply, Matrix.smul_apply, smul_eq_mul, Fin.sum_univ_three]
    ring
  rw [neoStress, hlin, hlin2, hcinv]
  simp only [zero_smul, add_zero]
  have e : F.det * ddot (F⁻¹)ᵀ H * (-2 / 3) * F.det ^ ((-2 / 3 : ℝ) - 1) = (-2 / 3) * F.det ^ (-2 / 3 : ℝ) * ddot (F⁻¹)ᵀ H := by rw [← hpow]; ring
  rw [e]
  norm_num
  ring

/-! ### The network -/

/-- Specification: the rate of `tensor_to_flat(Fᵀ F)` in direction `H`. -/
def cRate (F H : T33) : Fin 6 → ℝ := tensorToFlat (Hᵀ * F + Fᵀ * H)

theorem flat_hasDeriv (F H : T33) : HasDerivAt (fun t : ℝ => tensorToFlat ((F + t • H)ᵀ * (F + t • H))) (cRate F H) 0 := by
  have hfun : (fun t : ℝ => tensorToFlat ((F + t • H)ᵀ * (F + t • H))) = fun t => tensorToFlat (Fᵀ * F) + t • cRate F H + t ^ 2 • tensorToFlat (Hᵀ * H) := by
    funext t k
    fin_cases k <;> simp [tensorToFlat, cRate, Matrix.mul_apply, Fin.sum_univ_three] <;> ring
  rw [hfun]
  have h1 : HasDerivAt (fun t : ℝ => t • cRate F H) (cRate F H) 0 := by simpa using (hasDerivAt_id (0 : ℝ)).smul_const (cRate F H)
  have h2 : HasDerivAt (fun t : ℝ => t ^ 2 • tensorToFlat (Hᵀ * H)) 0 0 := by simpa using (hasDerivAt_pow 2 (0 : ℝ)).smul_const (tensorToFlat (Hᵀ * H))
  simpa using (h1.const_add (tensorToFlat (Fᵀ * F))).fun_add h2

theorem nn_line (net : (Fin 6 → ℝ) → ℝ) (F H : T33) (hn : DifferentiableAt ℝ net (tensorToFlat (Fᵀ * F))) :
    HasDerivAt (fun t : ℝ => nnPsi net (F + t • H)) (fderiv ℝ net (tensorToFlat (Fᵀ * F)) (cRate F H)) 0 := by
  have h := hn.hasFDerivAt
  have h' : HasFDerivAt net (fderiv ℝ net (tensorToFlat (Fᵀ * F))) ((fun t : ℝ => tensorToFlat ((F + t • H)ᵀ * (F + t • H))) 0) := by simpa using h
  exact h'.comp_hasDerivAt 0 (flat_hasDeriv F H)

theorem nnPk_apply (net : (Fin 6 → ℝ) → ℝ) (F : T33) (hn : DifferentiableAt ℝ net (tensorToFlat (Fᵀ * F))) (i j : Fin 3) :
    gradOf (nnPsi net) F i j = fderiv ℝ net (tensorToFlat (Fᵀ * F)) (cRate F (Matrix.single i j 1)) := (nn_line net F _ hn).deriv

theorem cRate_sum (F H : T33) : cRate F H = ∑ i, ∑ j, H i j • cRate F (Matrix.single i j 1) := by
  funext k
  simp only [Finset.sum_apply, Pi.smul_apply, smul_eq_mul, Fin.sum_univ_three]
  fin_cases k <;> simp [tensorToFlat, cRate, Matrix.mul_apply, Fin.sum_univ_three, Matrix.single_apply] <;> ring

theorem nnPsi_grad (net : (Fin 6 → ℝ) → ℝ) (F : T33) (hn : DifferentiableAt ℝ net (tensorToFlat (Fᵀ * F))) : IsGradAt (nnPsi net) (gradOf (nnPsi net) F) F := by
  intro H
  refine (nn_line net F H hn).congr_deriv ?_
  rw [cRate_sum F H]
  unfold ddot
  simp only [map_sum, map_smul, smul_eq_mul, nnPk_apply net F hn]
  exact sum_congr rfl fun i _ => sum_congr rfl fun j _ => mul_comm _ _

end Verif.Fem
