import Verif.Fem.MultiScale
import Verif.Fem.PropsPatch
import Verif.Fem.TopOptProps

/-!
# C120: energies and stresses of the two-scale material
-/
namespace Verif.Fem
open Finset Matrix

variable {nn nq nf nfq : ℕ}

/-- Specification: the object carries no loads, as constructed by `rve_problem` and `homogenization_problem` (only Dirichlet and periodic conditions). -/
structure Ms.Unloaded (s : Ms nn nq nf nfq) : Prop where
  mesh : ∀ c ∈ s.fem.cells, ∀ a, c a < s.fem.numTotal
  mass : s.fem.massMap = none
  source : s.fem.source = none
  body : s.fem.bodyVar = none
  neumann : s.fem.neumann = none
  cauchy : s.fem.cauchy = none

/-- Specification: the deformation gradient at a quadrature point: identity, gradient of the field and, for the representative volume, the macroscopic gradient. -/
noncomputable def Ms.defGrad (s : Ms nn nq nf nfq) (sol : ℕ → Fin 3 → ℝ) (c : Fin nn → ℕ) (q : Fin nq) : T33 :=
  1 + Matrix.of (s.fem.gradAt sol c q) + match s.mode with
    | .rve => s.hbar.getD 0
    | _ => 0

/-- Specification: the energy can be differentiated at the field: no element is inverted, or the network is smooth. -/
def Ms.Admissible (s : Ms nn nq nf nfq) (sol : ℕ → Fin 3 → ℝ) : Prop :=
  match s.mode with
  | .nn => Differentiable ℝ s.net
  | _ => ∀ c ∈ s.fem.cells, ∀ q, 0 < (s.defGrad sol c q).det

theorem hasDerivAt_list_sum {α : Type*} (l : List α) (f : α → ℝ → ℝ) (f' : α → ℝ) (x : ℝ) (h : ∀ a ∈ l, HasDerivAt (f a) (f' a) x) :
    HasDerivAt (fun t => (l.map fun a => f a t).sum) (l.map f').sum x := by
  induction l with
  | nil => simpa using hasDerivAt_const x (0 : ℝ)
  | cons a l ih =>
    simp only [List.map_cons, List.sum_cons]
    exact (h a (by simp)).fun_add (ih fun b hb => h b (by simp [hb]))

/-- Energy and stress of every mode: one density per cell and point whose gradient is the stress. -/
theorem Ms.density (s : Ms nn nq nf nfq) (F : Fem nn nq nf nfq 3 3) (hF : s.asFem = .ok F) :
    ∃ (W : ℕ → Fin nq → T33 → ℝ) (P : ℕ → Fin nq → T33 → T33), (∀ sol, s.computeEnergy sol = .ok (s.fem.cells.zipIdx.map fun p => ∑ q, W p.2 q (s.defGrad sol p.1 q) * s.fem.JxW p.1 q).sum) ∧
      (∀ k q sol c i d, F.stress k q (s.fem.gradAt sol c q) i d = P k q (s.defGrad sol c q) i d) ∧
      (∀ sol, s.Admissible sol → ∀ k, ∀ c ∈ s.fem.cells, ∀ q, IsGradAt (W k q) (P k q (s.defGrad sol c q)) (s.defGrad sol c q)) ∧
      (∃ tm lr, F = { s.fem with tensorMap := tm, lapRows := lr }) := by
  unfold Ms.asFem at hF
  unfold Ms.computeEnergy Ms.Admissible Ms.defGrad Ms.energyFn Fem.stress
  unfold Ms.stressFn at hF
  dsimp only [bind, Except.bind, pure, Except.pure] at hF ⊢
  cases hm : s.mode with
  | rve =>
    cases hh : s.hbar with
    | none => simp only [hm, hh] at hF; cases hF
    | some H =>
      simp only [hm, hh, Except.ok.injEq] at hF
      subst hF
      refine ⟨fun k q x => msPsi (s.en k q).1 (s.en k q).2 x, fun k q => gradOf (msPsi (s.en k q).1 (s.en k q).2), fun sol => ?_, fun k q sol c i d => ?_, fun sol hadm k c hc q => ?_, _, _, rfl⟩
      · refine congrArg _ (congrArg List.sum (List.map_congr_left fun p _ => sum_congr rfl fun q _ => ?_))
        simp only [Option.getD_some]
        rw [add_comm (1 : T33)]
        rfl
      · simp only [Option.elim_some, Option.getD_some]
        rw [add_comm (1 : T33)]
        rfl
      · have h := msPsi_grad (s.en k q).1 (s.en k q).2 _ (hadm c hc q)
        have e := h.eq
        rw [← e] at h
        exact h
  | dns =>
    simp only [hm, Except.ok.injEq] at hF
    subst hF
    refine ⟨fun k q x => msPsi (s.en k q).1 (s.en k q).2 x, fun k q => gradOf (msPsi (s.en k q).1 (s.en k q).2), fun sol => ?_, fun k q sol c i d => ?_, fun sol hadm k c hc q => ?_, _, _, rfl⟩
    · refine congrArg _ (congrArg List.sum (List.map_congr_left fun p _ => sum_congr rfl fun q _ => ?_))
      rw [add_comm (1 : T33), add_zero]
      rfl
    · simp only [Option.elim_some]
      rw [add_comm (1 : T33), add_zero]
      rfl
    · have h := msPsi_grad (s.en k q).1 (s.en k q).2 _ (hadm c hc q)
      have e := h.eq
      rw [← e] at h
      exact h
  | nn =>
    simp only [hm, Except.ok.injEq] at hF
    subst hF
    refine ⟨fun k q x => nnPsi s.net x, fun k q => gradOf (nnPsi s.net), fun sol => ?_, fun k q sol c i d => ?_, fun sol hadm k c hc q => ?_, _, _, rfl⟩
    · refine congrArg _ (congrArg List.sum (List.map_congr_left fun p _ => sum_congr rfl fun q _ => ?_))
      rw [add_comm (1 : T33), add_zero]
      rfl
    · simp only [Option.elim_some]
      rw [add_comm (1 : T33), add_zero]
      rfl
    · exact nnPsi_grad s.net _ (hadm _)

/-- **C120 (the residual is the gradient of the reported energy).** In every mode, on every mesh: along every direction of nodal displacements the derivative of `compute_energy` is the assembled residual applied to it. -/
theorem C120_gradient (s : Ms nn nq nf nfq) (hs : s.Unloaded) (F : Fem nn nq nf nfq 3 3) (hF : s.asFem = .ok F) (sol R : ℕ → Fin 3 → ℝ) (hR : F.computeResidual sol = .ok R) (hadm : s.Admissible sol) :
    ∃ W : (ℕ → Fin 3 → ℝ) → ℝ, (∀ u, s.computeEnergy u = .ok (W u)) ∧ ∀ v : ℕ → Fin 3 → ℝ, HasDerivAt (fun t : ℝ => W (sol + t • v)) (∑ n ∈ range s.fem.numTotal, ∑ i, R n i * v n i) 0 := by
  obtain ⟨W, P, hW, hP, hg, tm, lr, hFe⟩ := s.density F hF
  refine ⟨_, hW, fun v => ?_⟩
  have hgrad : ∀ u c q, F.gradAt u c q = s.fem.gradAt u c q := by intro u c q; rw [hFe]; rfl
  have hJ : ∀ c q, F.JxW c q = s.fem.JxW c q := by intro c q; rw [hFe]; rfl
  have hwork := C71_virtual_work F (by rw [hFe]; exact hs.mesh) sol v R hR
  have e1 : F.massMap = none := by rw [hFe]; exact hs.mass
  have e2 : F.cauchy = none := by rw [hFe]; exact hs.cauchy
  have e3 : F.neumann = none := by rw [hFe]; exact hs.neumann
  have e4 : F.source = none := by rw [hFe]; exact hs.source
  have e5 : F.bodyVar = none := by rw [hFe]; exact hs.body
  have e6 : F.numTotal = s.fem.numTotal := by rw [hFe]
  have e7 : F.cells = s.fem.cells := by rw [hFe]
  have hm : ∀ k q u i, F.massAt k q u i = 0 := by intro k q u i; simp [Fem.massAt, e1]
  have hl : ∀ c q i, F.load c q i = 0 := by intro c q i; simp [Fem.load, e4, e5]
  simp only [e2, e3, hm, hl, Fem.pairs, Option.elim_none, List.map_nil, List.sum_nil, zero_mul, sum_const_zero, List.map_const', List.sum_replicate, smul_zero, add_zero, sub_zero, hgrad, hJ, e6, e7, hP] at hwork
  rw [hwork]
  refine hasDerivAt_list_sum _ (fun (p : (Fin nn → ℕ) × ℕ) t => ∑ q, W p.2 q (s.defGrad (sol + t • v) p.1 q) * s.fem.JxW p.1 q) _ 0 fun p hp => ?_
  refine HasDerivAt.fun_sum fun q _ => HasDerivAt.mul_const ?_ _
  have hline : ∀ t : ℝ, s.defGrad (sol + t • v) p.1 q = s.defGrad sol p.1 q + t • Matrix.of (s.fem.gradAt v p.1 q) := by
    intro t
    unfold Ms.defGrad
    rw [gradAt_add, gradAt_smul]
    ext i j
    simp only [Matrix.add_apply, Matrix.of_apply, Pi.add_apply, Matrix.smul_apply, Pi.smul_apply]
    ring
  simp only [hline]
  exact hg sol hadm p.2 p.1 (zipIdx_mem hp) q (Matrix.of (s.fem.gradAt v p.1 q))

/-- Two problems that differ in the tensor map only: equal internal forces give equal residuals. -/
theorem residual_eq_of_vol (f : Fem nn nq nf nfq 3 3) (hc : f.cauchy = none) (tm tm') (lr lr') (u u' R R' : ℕ → Fin 3 → ℝ)
    (h : ({ f with tensorMap := tm, lapRows := lr } : Fem nn nq nf nfq 3 3).computeResidual u = .ok R)
    (h' : ({ f with tensorMap := tm', lapRows := lr' } : Fem nn nq nf nfq 3 3).computeResidual u' = .ok R')
    (hv : ∀ p ∈ f.cells.zipIdx, ∀ a i, ({ f with tensorMap := tm, lapRows := lr } : Fem nn nq nf nfq 3 3).volTerm u p.1 p.2 a i =
      ({ f with tensorMap := tm', lapRows := lr' } : Fem nn nq nf nfq 3 3).volTerm u' p.1 p.2 a i) : R = R' := by
  funext n i
  have e := C13_residual _ u R h n i
  have e' := C13_residual _ u' R' h' n i
  have h1 : Fem.pairs ({ f with tensorMap := tm, lapRows := lr } : Fem nn nq nf nfq 3 3).cauchy = [] := by show Fem.pairs f.cauchy = []; rw [hc]; rfl
  have h2 : Fem.pairs ({ f with tensorMap := tm', lapRows := lr' } : Fem nn nq nf nfq 3 3).cauchy = [] := by show Fem.pairs f.cauchy = []; rw [hc]; rfl
  rw [h1] at e
  rw [h2] at e'
  rw [e, e']
  have h3 : (f.cells.zipIdx.map fun p => nodal n p.1 fun a => ({ f with tensorMap := tm, lapRows := lr } : Fem nn nq nf nfq 3 3).volTerm u p.1 p.2 a i).sum =
      (f.cells.zipIdx.map fun p => nodal n p.1 fun a => ({ f with tensorMap := tm', lapRows := lr' } : Fem nn nq nf nfq 3 3).volTerm u' p.1 p.2 a i).sum := by
    refine congrArg List.sum (List.map_congr_left fun p hp => ?_)
    congr 1
    funext a
    exact hv p hp a i
  exact congrArg (fun x => x + _ - _ - _) h3

/-- **C120 (two descriptions of the volume element).** On a mesh with regular elements, energy and residual of the representative volume at a fluctuation are energy and residual of the direct simulation with the same
moduli at the displacement returned by `fluc_to_disp`; before `H_bar` is assigned, energy, tensor map and `fluc_to_disp` raise. -/
theorem C120_two_views (s : Ms nn nq nf nfq) (hmode : s.mode = .rve) (hsum : ∀ q b, ∑ n, s.fem.shapeGradsRef q n b = 0) (hdet : ∀ c ∈ s.fem.cells, ∀ q, (s.fem.jacobian c q).det ≠ 0)
    (hc : s.fem.cauchy = none) (hmass : s.fem.massMap = none) (fluc : ℕ → Fin 3 → ℝ) :
    (s.hbar = none → s.computeEnergy fluc = .error .typeError ∧ (∃ e, s.asFem = .error e) ∧ s.flucToDisp fluc = .error .typeError) ∧
    ∀ H, s.hbar = some H → ∃ disp, s.flucToDisp fluc = .ok disp ∧ s.computeEnergy fluc = ({ s with mode := .dns } : Ms nn nq nf nfq).computeEnergy disp ∧
      ∀ F F' R R', s.asFem = .ok F → ({ s with mode := .dns } : Ms nn nq nf nfq).asFem = .ok F' → F.computeResidual fluc = .ok R → F'.computeResidual disp = .ok R' → R = R' := by
  constructor
  · intro hh
    simp [Ms.computeEnergy, Ms.energyFn, Ms.asFem, Ms.stressFn, Ms.flucToDisp, hmode, hh, bind, Except.bind]
  · intro H hH
    refine ⟨fun n i => ∑ d, H i d * s.fem.points n d + fluc n i, by simp [Ms.flucToDisp, hH], ?_⟩
    set disp : ℕ → Fin 3 → ℝ := fun n i => ∑ d, H i d * s.fem.points n d + fluc n i with hdisp
    set s' : Ms nn nq nf nfq := { s with mode := .dns } with hs'
    have hgrad : ∀ c ∈ s.fem.cells, ∀ q, s.fem.gradAt disp c q = fun i d => H i d + s.fem.gradAt fluc c q i d := by
      intro c hcc q
      have h1 : disp = (fun n i => ∑ d, H i d * s.fem.points n d + (0 : Fin 3 → ℝ) i) + fluc := by
        funext n i
        simp [hdisp]
      rw [h1, gradAt_add, gradAt_affine s.fem hsum (fun i d => H i d) 0 _ c (fun n i => rfl) q (hdet c hcc q)]
      rfl
    have hdg : ∀ c ∈ s.fem.cells, ∀ q, s'.defGrad disp c q = s.defGrad fluc c q := by
      intro c hcc q
      unfold Ms.defGrad
      rw [hmode, hH]
      show 1 + Matrix.of (s.fem.gradAt disp c q) + 0 = 1 + Matrix.of (s.fem.gradAt fluc c q) + H
      rw [hgrad c hcc q]
      ext i j
      simp only [Matrix.add_apply, Matrix.of_apply, Matrix.zero_apply]
      ring
    constructor
    · simp only [Ms.computeEnergy, Ms.energyFn, hmode, hH, hs', bind, Except.bind, pure, Except.pure]
      refine congrArg _ (congrArg List.sum (List.map_congr_left fun p hp => sum_congr rfl fun q _ => ?_))
      have h := hdg p.1 (zipIdx_mem hp) q
      unfold Ms.defGrad at h
      rw [hmode, hH] at h
      have h' : (1 : T33) + Matrix.of (s.fem.gradAt disp p.1 q) + 0 = 1 + Matrix.of (s.fem.gradAt fluc p.1 q) + H := h
      rw [add_zero, add_comm (1 : T33), add_comm (1 : T33)] at h'
      have e : (Matrix.of fun i d => ∑ n, disp (p.1 n) i * s.fem.shapeGrad p.1 q n d) + 1 = (Matrix.of fun i d => ∑ n, fluc (p.1 n) i * s.fem.shapeGrad p.1 q n d) + 1 + H := h'
      show msPsi _ _ _ * _ = msPsi _ _ _ * _
      rw [e]
      rfl
    · intro F F' R R' hF hF' hR hR'
      simp only [Ms.asFem, Ms.stressFn, hmode, hH, bind, Except.bind, pure, Except.pure, Except.ok.injEq] at hF
      simp only [Ms.asFem, Ms.stressFn, hs', bind, Except.bind, pure, Except.pure, Except.ok.injEq] at hF'
      have hv : ∀ p ∈ s.fem.cells.zipIdx, ∀ a i, F.volTerm fluc p.1 p.2 a i = F'.volTerm disp p.1 p.2 a i := by
        intro p hp a i
        have h := hdg p.1 (zipIdx_mem hp)
        unfold Fem.volTerm
        refine sum_congr rfl fun q _ => ?_
        have hq := h q
        unfold Ms.defGrad at hq
        rw [hmode, hH] at hq
        have h' : (1 : T33) + Matrix.of (s.fem.gradAt disp p.1 q) + 0 = 1 + Matrix.of (s.fem.gradAt fluc p.1 q) + H := hq
        rw [add_zero, add_comm (1 : T33), add_comm (1 : T33)] at h'
        have hst : F.stress p.2 q (F.gradAt fluc p.1 q) = F'.stress p.2 q (F'.gradAt disp p.1 q) := by
          subst hF hF'
          show gradOf _ (Matrix.of (s.fem.gradAt fluc p.1 q) + 1 + H) = gradOf _ (Matrix.of (s.fem.gradAt disp p.1 q) + 1)
          rw [h']
          rfl
        rw [hst]
        have hm1 : ∀ u, F.massAt p.2 q u i = 0 := by intro u; subst hF; simp [Fem.massAt, hmass]
        have hm2 : ∀ u, F'.massAt p.2 q u i = 0 := by intro u; subst hF'; simp [Fem.massAt, hmass]
        rw [hm1, hm2]
        have g1 : F.shapeGrad = s.fem.shapeGrad := by subst hF; rfl
        have g2 : F'.shapeGrad = s.fem.shapeGrad := by subst hF'; rfl
        have g3 : F.JxW = s.fem.JxW := by subst hF; rfl
        have g4 : F'.JxW = s.fem.JxW := by subst hF'; rfl
        have g5 : F.shapeVals = s.fem.shapeVals := by subst hF; rfl
        have g6 : F'.shapeVals = s.fem.shapeVals := by subst hF'; rfl
        rw [g1, g2, g3, g4, g5, g6]
      subst hF hF'
      exact residual_eq_of_vol s.fem hc _ _ _ _ fluc disp R R' hR hR' hv

/-- **C120 (network energy).** For every network: rotating the body after the deformation leaves the energy unchanged; if the network is differentiable, `jax.grad` is the full gradient, the stress rotates with the body
and the Kirchhoff stress is symmetric. -/
theorem C120_network (net : (Fin 6 → ℝ) → ℝ) (F Q : T33) (hQ : Qᵀ * Q = 1) :
    nnPsi net (Q * F) = nnPsi net F ∧
    (Differentiable ℝ net → IsGradAt (nnPsi net) (gradOf (nnPsi net) F) F ∧ gradOf (nnPsi net) (Q * F) = Q * gradOf (nnPsi net) F ∧
      (gradOf (nnPsi net) F * Fᵀ)ᵀ = gradOf (nnPsi net) F * Fᵀ) := by
  have hC : (Q * F)ᵀ * (Q * F) = Fᵀ * F := by
    rw [Matrix.transpose_mul, Matrix.mul_assoc, ← Matrix.mul_assoc Qᵀ, hQ, Matrix.one_mul]
  refine ⟨by unfold nnPsi; rw [hC], fun hn => ⟨nnPsi_grad net F (hn _), ?_, ?_⟩⟩
  · ext i j
    rw [nnPk_apply net _ (hn _), hC, Matrix.mul_apply]
    simp only [nnPk_apply net F (hn _)]
    have h1 : cRate (Q * F) (Matrix.single i j 1) = cRate F (Qᵀ * Matrix.single i j 1) := by
      unfold cRate
      rw [Matrix.transpose_mul, Matrix.transpose_mul, Matrix.transpose_transpose, Matrix.mul_assoc, Matrix.mul_assoc]
    have h2 : ∀ k l : Fin 3, (Qᵀ * Matrix.single i j (1 : ℝ)) k l = if l = j then Q i k else 0 := by
      intro k l
      by_cases hl : l = j
      · subst hl
        simp
      · rw [Matrix.mul_single_apply_of_ne (hbj := hl), if_neg hl]
    rw [h1, cRate_sum]
    simp only [h2, ite_smul, zero_smul, sum_ite_eq', mem_univ, if_true, map_sum, map_smul, smul_eq_mul]
  · have hz : ∀ i j : Fin 3, cRate F ((Matrix.single i j 1 - Matrix.single j i 1) * F) = 0 := by
      intro i j
      unfold cRate
      rw [Matrix.transpose_mul, Matrix.transpose_sub, Matrix.transpose_single, Matrix.transpose_single, Matrix.mul_assoc, ← Matrix.mul_add, ← Matrix.add_mul, sub_add_sub_cancel', sub_self, Matrix.zero_mul, Matrix.mul_zero]
      funext m
      fin_cases m <;> rfl
    have hp : ∀ i j : Fin 3, ddot (gradOf (nnPsi net) F) ((Matrix.single i j 1 - Matrix.single j i 1) * F) = 0 := by
      intro i j
      have h1 := nnPsi_grad net F (hn _) ((Matrix.single i j 1 - Matrix.single j i 1) * F)
      have h2 := nn_line net F ((Matrix.single i j 1 - Matrix.single j i 1) * F) (hn _)
      rw [hz, map_zero] at h2
      exact h1.unique h2
    ext i j
    have h := hp j i
    set P := gradOf (nnPsi net) F
    have hd : ∀ a b : Fin 3, ddot P (Matrix.single a b 1 * F) = (P * Fᵀ) a b := by
      intro a b
      simp only [ddot, Matrix.mul_apply, Matrix.transpose_apply, Matrix.single_apply]
      rw [sum_eq_single a (fun x _ hx => sum_eq_zero fun y _ => by simp [Ne.symm hx]) (by simp)]
      refine sum_congr rfl fun y _ => ?_
      simp
    have hl : ddot P ((Matrix.single j i 1 - Matrix.single i j 1) * F) = ddot P (Matrix.single j i 1 * F) - ddot P (Matrix.single i j 1 * F) := by
      rw [Matrix.sub_mul]
      simp only [ddot, Matrix.sub_apply, mul_sub, sum_sub_distrib]
    rw [hl, hd, hd] at h
    rw [Matrix.transpose_apply]
    linarith

/-- **C120 (flat storage).** `tensor_to_flat` undoes `flat_to_tensor`; the other way round exactly for symmetric tensors. `flat_to_tensor` yields symmetric tensors. -/
theorem C120_flat (x : Fin 6 → ℝ) (X : T33) : tensorToFlat (flatToTensor x) = x ∧ (flatToTensor x)ᵀ = flatToTensor x ∧ (flatToTensor (tensorToFlat X) = X ↔ Xᵀ = X) := by
  refine ⟨?_, ?_, ?_, ?_⟩
  · funext k
    fin_cases k <;> rfl
  · ext i j
    fin_cases i <;> fin_cases j <;> rfl
  · intro h
    rw [← h]
    ext i j
    fin_cases i <;> fin_cases j <;> rfl
  · intro h
    have h' : ∀ i j, X j i = X i j := fun i j => congrFun (congrFun h i) j
    ext i j
    fin_cases i <;> fin_cases j <;> simp [flatToTensor, tensorToFlat, h' 0 1, h' 0 2, h' 1 2]

/-- **C120 (modes).** The constructor accepts exactly the three documented modes. -/
theorem C120_modes (a : MsArgs) (fem : Fem nn nq nf nfq 3 3) (net : (Fin 6 → ℝ) → ℝ) (mode : String) (info : Option String) :
    ((∃ s, msInit a fem net mode info = .ok s) ↔ mode = "rve" ∨ mode = "dns" ∨ mode = "nn") ∧
    (∀ s, msInit a fem net mode info = .ok s → s.fem = fem ∧ s.hbar = none ∧ (s.mode ≠ .nn → s.moduli.length = fem.cells.length)) := by
  have hlen : (msModuli a info fem.quadPoints).length = fem.cells.length := by
    unfold msModuli Fem.quadPoints
    dsimp only
    split_ifs <;> simp
  unfold msInit
  constructor
  · by_cases h1 : mode = "rve"
    · simp [h1]
    by_cases h2 : mode = "dns"
    · simp [h2]
    by_cases h3 : mode = "nn"
    · simp [h3]
    simp [h1, h2, h3]
  · intro s h
    by_cases h1 : mode = "rve"
    · rw [if_pos h1] at h; obtain rfl := Except.ok.inj h
      exact ⟨rfl, rfl, fun _ => hlen⟩
    by_cases h2 : mode = "dns"
    · rw [if_neg h1, if_pos h2] at h; obtain rfl := Except.ok.inj h
      exact ⟨rfl, rfl, fun _ => hlen⟩
    by_cases h3 : mode = "nn"
    · rw [if_neg h1, if_neg h2, if_pos h3] at h; obtain rfl := Except.ok.inj h
      exact ⟨rfl, rfl, fun h => absurd rfl h⟩
    rw [if_neg h1, if_neg h2, if_neg h3] at h
    cases h

/-- A stretched body under the network `x ↦ x 0`: the stress at rest is not zero. -/
example : gradOf (nnPsi fun x => x 0) 1 = Matrix.single 0 0 2 := by
  ext i j
  have hd : Differentiable ℝ (fun x : Fin 6 → ℝ => x 0) := by fun_prop
  rw [nnPk_apply _ _ (hd _)]
  have : fderiv ℝ (fun x : Fin 6 → ℝ => x 0) (tensorToFlat ((1 : T33)ᵀ * 1)) = ContinuousLinearMap.proj 0 := (ContinuousLinearMap.proj (R := ℝ) (φ := fun _ : Fin 6 => ℝ) 0).fderiv
  rw [this]
  fin_cases i <;> fin_cases j <;> simp [cRate, tensorToFlat, Matrix.mul_apply, Fin.sum_univ_three, Matrix.single_apply] <;> norm_num

end Verif.Fem
