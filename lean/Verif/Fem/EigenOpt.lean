import Verif.Fem.TopOptMesh
import Mathlib.Analysis.SpecialFunctions.Log.Deriv
import Mathlib.Analysis.SpecialFunctions.ExpDeriv

/-!
# C133: eigenvalues as constraints (model of applications/fem/top_opt/eigen.py)

Not modelled: the eigenvalue solver (an oracle that returns a list of pairs), its printing, the output files, and the optimiser (see `Mma.lean`). The compliance part is that of C103 and C104 with exponent 5.
-/
namespace Verif.Fem
open Finset Filter Topology

variable {nn nq nf nfq m : ℕ}

/-- The object of `Stiffness` after `set_params` (eigen.py 26-50): one density per cell, exponent 5. -/
noncomputable def stiffFem (F : Fem nn nq nf nfq 2 2) (p : Fin m → ℝ) : Fem nn nq nf nfq 2 2 :=
  { F with tensorMap := some fun k _ g => planeMap 5 g (fun _ => ext p k), lapRows := some m, massMap := none, massRows := none }

/-- The object of `Mass` after `set_params` (eigen.py 53-62). -/
noncomputable def massFem (F : Fem nn nq nf nfq 2 2) (p : Fin m → ℝ) : Fem nn nq nf nfq 2 2 :=
  { F with tensorMap := none, lapRows := none, massMap := some fun k _ u i => ext p k * 2.7e3 * u i, massRows := some m }

/-- `vAv_fn` (eigen.py 108-113) for an object after `set_params`. -/
noncomputable def vAv (G : Fem nn nq nf nfq 2 2) (v : ℕ → ℝ) : Except FemErr ℝ :=
  match G.computeResidual (fun n i => v (2 * n + i)) with
  | .error e => .error e
  | .ok R => .ok (∑ d ∈ range (G.numTotal * 2), v d * (G.toProb []).applyBcVec realArith (fun d => R (d / 2) (Fin.ofNat 2 d)) v d)

/-- The value of a computation that does not fail. -/
def okVal {E : Type} : Except E ℝ → ℝ
  | .ok a => a
  | .error _ => 0

/-- `jax.grad(vAv_fn)(params, v)` for a family of objects. -/
noncomputable def gradVAv (G : (Fin m → ℝ) → Fem nn nq nf nfq 2 2) (p : Fin m → ℝ) (v : ℕ → ℝ) (j : Fin m) : ℝ := fderiv ℝ (fun q => okVal (vAv (G q) v)) p (Pi.single j 1)

/-- `d_eigen_val` (eigen.py 185). -/
noncomputable def dEigenVal (F : Fem nn nq nf nfq 2 2) (p : Fin m → ℝ) (eigen_val : ℝ) (eigen_vec : ℕ → ℝ) : Except FemErr (Fin m → ℝ) :=
  match vAv (stiffFem F p) eigen_vec with
  | .error e => .error e
  | .ok _ =>
    match vAv (massFem F p) eigen_vec with
    | .error e => .error e
    | .ok vMv => .ok fun j => (gradVAv (stiffFem F) p eigen_vec j - eigen_val * gradVAv (massFem F) p eigen_vec j) / vMv

/-- Errors of `eigen_analysis`: those of the assembly, `np.stack` of an empty list, a pair that the solver does not have. -/
inductive EigErr | fem (e : FemErr) | emptyStack | noPair

/-- `eigen_analysis` (eigen.py 104-195) for the pairs which the solver has found: values and derivatives of numbers 3, 4, 5 of the ten requested. The matrices are assembled first. -/
noncomputable def eigenAnalysis (F : Fem nn nq nf nfq 2 2) (p : Fin m → ℝ) (eps : List (ℝ × (ℕ → ℝ))) : Except EigErr ((Fin 3 → ℝ) × (Fin 3 → Fin m → ℝ)) :=
  match ((stiffFem F p).toProb []).newton 0, ((massFem F p).toProb []).newton 0 with
  | .error e, _ => .error (.fem e)
  | .ok _, .error e => .error (.fem e)
  | .ok _, .ok _ =>
    if eps = [] then .error .emptyStack
    else if eps.length < 10 then .error .noPair
    else
      let pair : Fin 3 → ℝ × (ℕ → ℝ) := fun i => eps.getD (3 + i) (0, 0)
      match dEigenVal F p (pair 0).1 (pair 0).2, dEigenVal F p (pair 1).1 (pair 1).2, dEigenVal F p (pair 2).1 (pair 2).2 with
      | .ok d0, .ok d1, .ok d2 => .ok (fun i => (pair i).1, ![d0, d1, d2])
      | .error e, _, _ => .error (.fem e)
      | _, .error e, _ => .error (.fem e)
      | _, _, .error e => .error (.fem e)

/-- `g2` (eigen.py 248-249), with `alpha = 10`. -/
noncomputable def smoothMin (eigen_vals : Fin 3 → ℝ) : ℝ := -(1 / 10) * Real.log (∑ i, Real.exp (-(10 * eigen_vals i)))

/-- `min_eigen_vals_cstr` (eigen.py 247-250), with `min_freq = 1e6`. -/
noncomputable def eigenCstr (eigen_vals : Fin 3 → ℝ) : ℝ := 1 - smoothMin eigen_vals / 1e6

/-- `computeConstraints` (eigen.py 239-265): values and gradients of the volume constraint and of the eigenvalue constraint. -/
noncomputable def eigenConstraints (F : Fem nn nq nf nfq 2 2) (vf : ℝ) (rho : Fin m → ℝ) (eps : List (ℝ × (ℕ → ℝ))) : Except EigErr ((Fin 2 → ℝ) × (Fin 2 → Fin m → ℝ)) :=
  match eigenAnalysis F rho eps with
  | .error e => .error e
  | .ok (eigen_vals, d_eigen_vals) =>
    let c2 := eigenCstr eigen_vals
    let gradc2 : Fin m → ℝ := fun k => ∑ j, fderiv ℝ eigenCstr eigen_vals (Pi.single j 1) * d_eigen_vals j k
    .ok (![(consHandle vf rho).1 0, c2], ![(consHandle vf rho).2 0, gradc2])

/-! ## Specification -/

/-- Specification: a mesh without any load or condition, with positive volumes. -/
structure FreeBody (F : Fem nn nq nf nfq 2 2) : Prop where
  neumann : F.neumann = none
  cauchy : F.cauchy = none
  source : F.source = none
  body : F.bodyVar = none
  mesh : ∀ c ∈ F.cells, ∀ a, c a < F.numTotal
  cells : 0 < F.cells.length
  vol : ∀ c ∈ F.cells, ∀ q, 0 < F.JxW c q

/-- Specification: `∫_c u · v`. -/
noncomputable def cellMass (F : Fem nn nq nf nfq 2 2) (u v : ℕ → Fin 2 → ℝ) (c : Fin nn → ℕ) : ℝ := ∑ q, (∑ i, F.uAt u c q i * F.uAt v c q i) * F.JxW c q

/-- Specification: `∑ₖ rₖ ∫_cₖ u · v`, the kinetic product for the mass densities `r`. -/
noncomputable def totalMass (F : Fem nn nq nf nfq 2 2) (r : ℕ → ℝ) (u v : ℕ → Fin 2 → ℝ) : ℝ := (F.cells.zipIdx.map fun p => r p.2 * cellMass F u v p.1).sum

/-- The modulus and the mass density of cell `k` for the densities `p`. -/
noncomputable def eigE (p : Fin m → ℝ) (k : ℕ) : ℝ := simpModulus (1e-3 * 70e9) 70e9 5 (ext p k)
noncomputable def eigR (p : Fin m → ℝ) (k : ℕ) : ℝ := ext p k * 2.7e3

/-- Specification: the elastic product of the program. -/
noncomputable def eigA (F : Fem nn nq nf nfq 2 2) (p : Fin m → ℝ) (u v : ℕ → Fin 2 → ℝ) : ℝ := totalWork F (planeStress 1 0.3) (eigE p) u v
/-- Specification: the kinetic product of the program. -/
noncomputable def eigB (F : Fem nn nq nf nfq 2 2) (p : Fin m → ℝ) (u v : ℕ → Fin 2 → ℝ) : ℝ := totalMass F (eigR p) u v

/-- Specification: `v` is a mode with eigenvalue `lam` of the discrete body: virtual work of the elastic forces equals `lam` times that of the inertia, for every test field. -/
def IsMode (F : Fem nn nq nf nfq 2 2) (p : Fin m → ℝ) (lam : ℝ) (v : ℕ → Fin 2 → ℝ) : Prop := ∀ w, eigA F p v w = lam * eigB F p v w

/-- What the solver is asked for: `K x = lam M x` for the matrices of `get_A_fn` (eigen.py 119-125, 139, 144). -/
def IsPair (F : Fem nn nq nf nfq 2 2) (p : Fin m → ℝ) (lam : ℝ) (x : ℕ → ℝ) : Prop :=
  ∃ nwK nwM, ((stiffFem F p).toProb []).newton 0 = .ok nwK ∧ ((massFem F p).toProb []).newton 0 = .ok nwM ∧
    ∀ d < F.numTotal * 2, ((stiffFem F p).toProb []).getAFn realArith true nwK x d = lam * ((massFem F p).toProb []).getAFn realArith true nwM x d

/-! ## The objects -/

theorem stiff_eq (F : Fem nn nq nf nfq 2 2) (p : Fin m → ℝ) (hm : F.cells.length = m) : stiffFem F p = scaledFem F (planeStress 1 0.3) (eigE p) := by
  unfold stiffFem scaledFem
  rw [hm]
  congr 2
  funext k _ g
  unfold planeMap eigE
  exact planeStress_scale _ _ _

section
variable {F : Fem nn nq nf nfq 2 2} (hF : FreeBody F)

theorem planeLaw : ElasticLaw (planeStress 1 0.3) := C102_plane 0.3 (by norm_num) (by norm_num)

include hF in
theorem stiff_linear (p : Fin m → ℝ) (hm : F.cells.length = m) : (stiffFem F p).Linear := by
  rw [stiff_eq F p hm]
  exact scaled_linear F planeLaw hF.cauchy _

include hF in
theorem mass_linear (p : Fin m → ℝ) : (massFem F p).Linear := by
  refine ⟨fun tm h => by simp [massFem] at h, fun mm h k q => ?_, fun lv hlv => ?_⟩
  · have : mm = fun k _ u i => ext p k * 2.7e3 * u i := (Option.some.inj h).symm
    subst this
    refine ⟨differentiable_pi.mpr fun i => by fun_prop, fun x y => ?_⟩
    funext i
    simp only [Pi.add_apply, Pi.zero_apply]
    ring
  · have : (massFem F p).cauchy = none := hF.cauchy
    simp [this, Fem.pairs] at hlv

include hF in
theorem stiff_returns (p : Fin m → ℝ) (hm : F.cells.length = m) (u : ℕ → Fin 2 → ℝ) : ∃ R, (stiffFem F p).computeResidual u = .ok R := by
  refine ⟨_, (computeResidual_ok_iff _ _ _).mpr ⟨⟨hF.cells, rfl, by show m = F.cells.length; exact hm.symm⟩, ?_, ?_, rfl⟩⟩
  · intro locs vals h
    rw [show (stiffFem F p).cauchy = none from hF.cauchy] at h
    cases h
  · intro locs vals h
    rw [show (stiffFem F p).neumann = none from hF.neumann] at h
    cases h

include hF in
theorem mass_returns (p : Fin m → ℝ) (hm : F.cells.length = m) (u : ℕ → Fin 2 → ℝ) : ∃ R, (massFem F p).computeResidual u = .ok R := by
  refine ⟨_, (computeResidual_ok_iff _ _ _).mpr ⟨⟨hF.cells, by show m = F.cells.length; exact hm.symm, rfl⟩, ?_, ?_, rfl⟩⟩
  · intro locs vals h
    rw [show (massFem F p).cauchy = none from hF.cauchy] at h
    cases h
  · intro locs vals h
    rw [show (massFem F p).neumann = none from hF.neumann] at h
    cases h

include hF in
/-- The residual of `Stiffness`, tested with a field. -/
theorem stiff_test (p : Fin m → ℝ) (hm : F.cells.length = m) (u v R : ℕ → Fin 2 → ℝ) (h : (stiffFem F p).computeResidual u = .ok R) : ∑ n ∈ range F.numTotal, ∑ i, R n i * v n i = eigA F p u v := by
  have h1 := C71_virtual_work (stiffFem F p) hF.mesh u v R h
  have hc : (stiffFem F p).cauchy = none := hF.cauchy
  have hn : (stiffFem F p).neumann = none := hF.neumann
  have hl : ∀ c q i, (stiffFem F p).load c q i = 0 := by
    intro c q i
    have hs : (stiffFem F p).source = none := hF.source
    have hb : (stiffFem F p).bodyVar = none := hF.body
    simp [Fem.load, hs, hb]
  rw [hc, hn] at h1
  refine Eq.trans h1 ?_
  simp only [hl, zero_mul, sum_const_zero, List.map_const', List.sum_replicate, smul_zero, Fem.pairs, Option.elim_none, List.map_nil, List.sum_nil, add_zero, sub_zero]
  unfold eigA totalWork
  congr 1
  refine List.map_congr_left fun c _ => ?_
  unfold cellWork
  rw [mul_sum]
  refine sum_congr rfl fun q _ => ?_
  have hmz : ∀ i, (stiffFem F p).massAt c.2 q ((stiffFem F p).uAt u c.1 q) i = 0 := fun i => rfl
  have hst : ∀ g, (stiffFem F p).stress c.2 q g = eigE p c.2 • planeStress 1 0.3 g := by
    intro g
    rw [stiff_eq F p hm]
    rfl
  simp only [hmz, zero_mul, sum_const_zero, add_zero, hst]
  rw [← mul_assoc, mul_sum]
  congr 1
  refine sum_congr rfl fun i _ => ?_
  rw [mul_sum]
  refine sum_congr rfl fun d _ => ?_
  rw [← mul_assoc]
  rfl

include hF in
/-- The residual of `Mass`, tested with a field. -/
theorem mass_test (p : Fin m → ℝ) (u v R : ℕ → Fin 2 → ℝ) (h : (massFem F p).computeResidual u = .ok R) : ∑ n ∈ range F.numTotal, ∑ i, R n i * v n i = eigB F p u v := by
  have h1 := C71_virtual_work (massFem F p) hF.mesh u v R h
  have hc : (massFem F p).cauchy = none := hF.cauchy
  have hn : (massFem F p).neumann = none := hF.neumann
  have hl : ∀ c q i, (massFem F p).load c q i = 0 := by
    intro c q i
    have hs : (massFem F p).source = none := hF.source
    have hb : (massFem F p).bodyVar = none := hF.body
    simp [Fem.load, hs, hb]
  rw [hc, hn] at h1
  refine Eq.trans h1 ?_
  simp only [hl, zero_mul, sum_const_zero, List.map_const', List.sum_replicate, smul_zero, Fem.pairs, Option.elim_none, List.map_nil, List.sum_nil, add_zero, sub_zero]
  unfold eigB totalMass
  congr 1
  refine List.map_congr_left fun c _ => ?_
  unfold cellMass
  rw [mul_sum]
  refine sum_congr rfl fun q _ => ?_
  have hst : ∀ g i d, (massFem F p).stress c.2 q g i d = 0 := fun g i d => rfl
  have hma : ∀ i, (massFem F p).massAt c.2 q ((massFem F p).uAt u c.1 q) i = eigR p c.2 * F.uAt u c.1 q i := fun i => rfl
  simp only [hst, zero_mul, sum_const_zero, zero_add, hma]
  rw [← mul_assoc, mul_sum]
  congr 1
  refine sum_congr rfl fun i _ => ?_
  rw [← mul_assoc]
  rfl

theorem sum_dofs2 (N : ℕ) (f : ℕ → ℝ) : ∑ d ∈ range (N * 2), f d = ∑ n ∈ range N, ∑ i : Fin 2, f (2 * n + i) := by
  induction N with
  | zero => simp
  | succ N ih =>
    rw [show (N + 1) * 2 = N * 2 + 1 + 1 by ring, sum_range_succ, sum_range_succ, ih, sum_range_succ, Fin.sum_univ_two]
    simp only [Fin.val_zero, Fin.val_one, add_zero, mul_comm N 2]
    ring

theorem cooMul_zero (I J : List ℕ) (V : List ℝ) (r : ℕ) : cooMul I J V 0 r = 0 := by
  have h := cooMul_linear I J V 0 0 0 0 r
  simp only [zero_mul, add_zero] at h
  exact h

/-- The operator of `get_A_fn` without prescribed values. -/
theorem getA_nil (G : Fem nn nq nf nfq 2 2) (nw : Newton ℝ) (hJ : ∀ j ∈ nw.J, j < G.numTotal * 2) (x : ℕ → ℝ) (d : ℕ) (hd : d < G.numTotal * 2) :
    (G.toProb []).getAFn realArith true nw x d = cooMul nw.I nw.J nw.V x d := by
  have hwf : (G.toProb []).WF := by intro g hg; cases hg
  have h1 := C20_petsc_eq_jax (G.toProb []) hwf nw hJ x d hd
  rw [h1]
  have hA : (G.toProb []).getAFn realArith false nw x d = _ := (G.toProb []).rowElimination_eq hwf (Prob.spMul realArith nw.I nw.J nw.V) x d
  rw [hA]
  exact spMul_real _ _ _ _ _

/-- The nodal field of a list of degrees of freedom. -/
def fieldOf (v : ℕ → ℝ) : ℕ → Fin 2 → ℝ := fun n i => v (2 * n + i)
/-- The degrees of freedom of a nodal field. -/
def dofsOf (w : ℕ → Fin 2 → ℝ) : ℕ → ℝ := fun d => w (d / 2) (Fin.ofNat 2 d)

theorem fin_ofNat2 (n : ℕ) (i : Fin 2) : Fin.ofNat 2 (2 * n + i) = i := by
  apply Fin.ext
  show (2 * n + i) % 2 = i
  omega

theorem field_dofs (w : ℕ → Fin 2 → ℝ) : fieldOf (dofsOf w) = w := by
  funext n i
  unfold fieldOf dofsOf
  rw [fin_ofNat2, show (2 * n + (i : ℕ)) / 2 = n by omega]

theorem dofs_field (v : ℕ → ℝ) : dofsOf (fieldOf v) = v := by
  funext d
  show v (2 * (d / 2) + d % 2) = v d
  congr 1
  omega

include hF in
/-- **C133 (the quadratic forms).** `vKv_fn` returns the elastic product of the vector with itself and `vMv_fn` the kinetic product. -/
theorem C133_forms (p : Fin m → ℝ) (hm : F.cells.length = m) (v : ℕ → ℝ) :
    vAv (stiffFem F p) v = .ok (eigA F p (fieldOf v) (fieldOf v)) ∧ vAv (massFem F p) v = .ok (eigB F p (fieldOf v) (fieldOf v)) := by
  have key : ∀ (G : Fem nn nq nf nfq 2 2) (R : ℕ → Fin 2 → ℝ), ∑ d ∈ range (G.numTotal * 2), v d * (G.toProb []).applyBcVec realArith (fun d => R (d / 2) (Fin.ofNat 2 d)) v d = ∑ n ∈ range G.numTotal, ∑ i, R n i * fieldOf v n i := by
    intro G R
    rw [sum_dofs2]
    refine sum_congr rfl fun n _ => sum_congr rfl fun i _ => ?_
    show v (2 * n + i) * R ((2 * n + (i : ℕ)) / 2) (Fin.ofNat 2 (2 * n + i)) = R n i * v (2 * n + i)
    rw [fin_ofNat2, show (2 * n + (i : ℕ)) / 2 = n by omega, mul_comm]
  obtain ⟨R, hR⟩ := stiff_returns hF p hm (fieldOf v)
  obtain ⟨S, hS⟩ := mass_returns hF p hm (fieldOf v)
  constructor
  · unfold vAv
    rw [show (fun n i => v (2 * n + (i : Fin 2))) = fieldOf v from rfl, hR]
    show Except.ok _ = Except.ok _
    rw [key, ← stiff_test hF p hm _ _ R hR]
    rfl
  · unfold vAv
    rw [show (fun n i => v (2 * n + (i : Fin 2))) = fieldOf v from rfl, hS]
    show Except.ok _ = Except.ok _
    rw [key, ← mass_test hF p _ _ S hS]
    rfl

theorem totalWork_zero_left (hC : ElasticLaw (planeStress 1 0.3)) (e : ℕ → ℝ) (w : ℕ → Fin 2 → ℝ) : totalWork F (planeStress 1 0.3) e 0 w = 0 := by
  have h := totalWork_smul F hC e 0 w 0
  rw [zero_mul, zero_smul] at h
  rw [totalWork_symm F hC, h]

include hF in
/-- The matrices of `get_A_fn` represent the two products. -/
theorem assembled (p : Fin m → ℝ) (hm : F.cells.length = m) : ∃ nwK nwM, ((stiffFem F p).toProb []).newton 0 = .ok nwK ∧ ((massFem F p).toProb []).newton 0 = .ok nwM ∧
    (∀ x w, ∑ d ∈ range (F.numTotal * 2), ((stiffFem F p).toProb []).getAFn realArith true nwK x d * w d = eigA F p (fieldOf x) (fieldOf w)) ∧
    ∀ x w, ∑ d ∈ range (F.numTotal * 2), ((massFem F p).toProb []).getAFn realArith true nwM x d * w d = eigB F p (fieldOf x) (fieldOf w) := by
  obtain ⟨I, J, V, f, load, hJ, hN, hR⟩ := C87_affine (stiffFem F p) (stiff_linear hF p hm) [] hF.mesh ⟨0, stiff_returns hF p hm 0⟩
  obtain ⟨I', J', V', f', load', hJ', hN', hR'⟩ := C87_affine (massFem F p) (mass_linear hF p) [] hF.mesh ⟨0, mass_returns hF p hm 0⟩
  refine ⟨_, _, hN 0, hN' 0, fun x w => ?_, fun x w => ?_⟩
  · obtain ⟨R, h1, h2⟩ := hR x
    obtain ⟨R0, h3, h4⟩ := hR 0
    have e1 := stiff_test hF p hm _ (fieldOf w) R h1
    have e0 := stiff_test hF p hm _ (fieldOf w) R0 h3
    have z : eigA F p (fun n i => (0 : ℕ → ℝ) (2 * n + (i : Fin 2))) (fieldOf w) = 0 := totalWork_zero_left planeLaw _ _
    rw [z] at e0
    rw [show eigA F p (fieldOf x) (fieldOf w) = eigA F p (fun n i => x (2 * n + (i : Fin 2))) (fieldOf w) from rfl, ← e1, ← sub_zero (∑ n ∈ _, ∑ i, R n i * _), ← e0, ← sum_sub_distrib, sum_dofs2]
    refine sum_congr rfl fun n hn => ?_
    rw [← sum_sub_distrib]
    refine sum_congr rfl fun i _ => ?_
    have hd : 2 * n + (i : ℕ) < (stiffFem F p).numTotal * 2 := by
      have := mem_range.mp hn
      have e : (stiffFem F p).numTotal = F.numTotal := rfl
      omega
    rw [getA_nil (stiffFem F p) _ hJ x _ hd, h2, h4]
    have z2 : cooMul I J V 0 (2 * n + i) = 0 := cooMul_zero _ _ _ _
    rw [z2]
    show cooMul I J V x (2 * n + i) * fieldOf w n i = _
    ring
  · obtain ⟨R, h1, h2⟩ := hR' x
    obtain ⟨R0, h3, h4⟩ := hR' 0
    have e1 := mass_test hF p _ (fieldOf w) R h1
    have e0 := mass_test hF p _ (fieldOf w) R0 h3
    have z : eigB F p (fun n i => (0 : ℕ → ℝ) (2 * n + (i : Fin 2))) (fieldOf w) = 0 := by
      simp [eigB, totalMass, cellMass, Fem.uAt]
    rw [z] at e0
    rw [show eigB F p (fieldOf x) (fieldOf w) = eigB F p (fun n i => x (2 * n + (i : Fin 2))) (fieldOf w) from rfl, ← e1, ← sub_zero (∑ n ∈ _, ∑ i, R n i * _), ← e0, ← sum_sub_distrib, sum_dofs2]
    refine sum_congr rfl fun n hn => ?_
    rw [← sum_sub_distrib]
    refine sum_congr rfl fun i _ => ?_
    have hd : 2 * n + (i : ℕ) < (massFem F p).numTotal * 2 := by
      have := mem_range.mp hn
      have e : (massFem F p).numTotal = F.numTotal := rfl
      omega
    rw [getA_nil (massFem F p) _ hJ' x _ hd, h2, h4]
    have z2 : cooMul I' J' V' 0 (2 * n + i) = 0 := cooMul_zero _ _ _ _
    rw [z2]
    show cooMul I' J' V' x (2 * n + i) * fieldOf w n i = _
    ring

include hF in
/-- **C133 (what is solved).** The pairs `K x = λ M x` of the two assembled matrices are exactly the modes of the discrete body: the elastic virtual work is `λ` times that of the inertia, for every test field. -/
theorem C133_weak (p : Fin m → ℝ) (hm : F.cells.length = m) (lam : ℝ) (x : ℕ → ℝ) : IsPair F p lam x ↔ IsMode F p lam (fieldOf x) := by
  obtain ⟨nwK, nwM, hK, hM, eK, eM⟩ := assembled hF p hm
  constructor
  · rintro ⟨nwK', nwM', hK', hM', h⟩ w
    rw [hK] at hK'; rw [hM] at hM'
    cases hK'; cases hM'
    rw [← field_dofs w, ← eK, ← eM, mul_sum]
    refine sum_congr rfl fun d hd => ?_
    rw [h d (mem_range.mp hd)]
    ring
  · intro h
    refine ⟨nwK, nwM, hK, hM, fun d hd => ?_⟩
    have h1 := h (fieldOf (Pi.single d 1))
    rw [← eK, ← eM] at h1
    simpa [Pi.single_apply, hd] using h1

end

end Verif.Fem
