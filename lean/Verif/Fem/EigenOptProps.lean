import Verif.Fem.EigenOpt
import Verif.Fem.Pencil

/-!
# C133: derivatives of the eigenvalues

The derivatives which eigen.py computes are those of the eigenvalues, for every differentiable branch; a simple eigenvalue has exactly one branch.
-/
namespace Verif.Fem
open Finset Filter Topology Verif.Pencil

variable {nn nq nf nfq m : ℕ}

/-- The field of a vector of `N` degrees of freedom. -/
def vecField {N : ℕ} (x : Vec N) : ℕ → Fin 2 → ℝ := fieldOf (ext x)

theorem vecField_add {N : ℕ} (x y : Vec N) : vecField (x + y) = vecField x + vecField y := by
  funext n i
  simp only [vecField, fieldOf, ext, Pi.add_apply]
  split <;> simp

theorem vecField_smul {N : ℕ} (a : ℝ) (x : Vec N) : vecField (a • x) = a • vecField x := by
  funext n i
  simp only [vecField, fieldOf, ext, Pi.smul_apply, smul_eq_mul]
  split <;> simp

/-- The field with the value 1 at one degree of freedom. -/
def unitField (d : ℕ) : ℕ → Fin 2 → ℝ := fieldOf (Pi.single d 1)

section
variable (F : Fem nn nq nf nfq 2 2)

theorem cellMass_symm (u v : ℕ → Fin 2 → ℝ) (c : Fin nn → ℕ) : cellMass F u v c = cellMass F v u c := by
  unfold cellMass
  refine sum_congr rfl fun q _ => ?_
  congr 1
  exact sum_congr rfl fun i _ => mul_comm _ _

theorem uAt_add2 (u v : ℕ → Fin 2 → ℝ) (c : Fin nn → ℕ) (q : Fin nq) : F.uAt (u + v) c q = F.uAt u c q + F.uAt v c q := by
  funext i
  simp [Fem.uAt, add_mul, sum_add_distrib]

theorem uAt_smul2 (a : ℝ) (u : ℕ → Fin 2 → ℝ) (c : Fin nn → ℕ) (q : Fin nq) : F.uAt (a • u) c q = a • F.uAt u c q := by
  funext i
  simp [Fem.uAt, mul_sum, mul_assoc]

theorem cellMass_add (u v w : ℕ → Fin 2 → ℝ) (c : Fin nn → ℕ) : cellMass F u (v + w) c = cellMass F u v c + cellMass F u w c := by
  simp only [cellMass, uAt_add2, Pi.add_apply, mul_add, sum_add_distrib, add_mul]

theorem cellMass_smul (a : ℝ) (u v : ℕ → Fin 2 → ℝ) (c : Fin nn → ℕ) : cellMass F u (a • v) c = a * cellMass F u v c := by
  simp only [cellMass, uAt_smul2, Pi.smul_apply, smul_eq_mul, mul_sum, sum_mul]
  refine sum_congr rfl fun q _ => sum_congr rfl fun i _ => by ring

theorem totalMass_symm (r : ℕ → ℝ) (u v : ℕ → Fin 2 → ℝ) : totalMass F r u v = totalMass F r v u := by
  simp only [totalMass, fun c => cellMass_symm F u v c]

theorem totalMass_add (r : ℕ → ℝ) (u v w : ℕ → Fin 2 → ℝ) : totalMass F r u (v + w) = totalMass F r u v + totalMass F r u w := by
  simp only [totalMass, cellMass_add F, mul_add, List.sum_map_add]

theorem totalMass_smul (r : ℕ → ℝ) (a : ℝ) (u v : ℕ → Fin 2 → ℝ) : totalMass F r u (a • v) = a * totalMass F r u v := by
  simp only [totalMass, cellMass_smul F, ← List.sum_map_mul_left]
  congr 1
  refine List.map_congr_left fun c _ => by ring

theorem eigA_symm (p : Fin m → ℝ) (u v : ℕ → Fin 2 → ℝ) : eigA F p u v = eigA F p v u := totalWork_symm F planeLaw _ u v
theorem eigB_symm (p : Fin m → ℝ) (u v : ℕ → Fin 2 → ℝ) : eigB F p u v = eigB F p v u := totalMass_symm F _ u v

/-- The matrix of one cell, elastic and inertial. -/
noncomputable def cellK (N : ℕ) (c : Fin nn → ℕ) : Vec N →L[ℝ] Vec N := LinearMap.toContinuousLinearMap
  { toFun := fun x d => cellWork F (planeStress 1 0.3) (unitField d) (vecField x) c
    map_add' := fun x y => by funext d; rw [vecField_add, cellWork_add F planeLaw]; rfl
    map_smul' := fun a x => by funext d; rw [vecField_smul, cellWork_smul F planeLaw]; rfl }

noncomputable def cellM (N : ℕ) (c : Fin nn → ℕ) : Vec N →L[ℝ] Vec N := LinearMap.toContinuousLinearMap
  { toFun := fun x d => cellMass F (unitField d) (vecField x) c
    map_add' := fun x y => by funext d; rw [vecField_add, cellMass_add F]; rfl
    map_smul' := fun a x => by funext d; rw [vecField_smul, cellMass_smul F]; rfl }

noncomputable def matK (N : ℕ) (p : Fin m → ℝ) : Vec N →L[ℝ] Vec N := (F.cells.zipIdx.map fun c => eigE p c.2 • cellK F N c.1).sum
noncomputable def matM (N : ℕ) (p : Fin m → ℝ) : Vec N →L[ℝ] Vec N := (F.cells.zipIdx.map fun c => eigR p c.2 • cellM F N c.1).sum

theorem list_clm_vec {α : Type*} {N : ℕ} (l : List α) (f : α → Vec N →L[ℝ] Vec N) (x : Vec N) (d : Fin N) : (l.map f).sum x d = (l.map fun a => f a x d).sum := by
  induction l with
  | nil => rfl
  | cons a l ih => simp [ih]

theorem matK_apply (N : ℕ) (p : Fin m → ℝ) (x : Vec N) (d : Fin N) : matK F N p x d = eigA F p (unitField d) (vecField x) := by
  unfold matK
  rw [list_clm_vec]
  rfl

theorem matM_apply (N : ℕ) (p : Fin m → ℝ) (x : Vec N) (d : Fin N) : matM F N p x d = eigB F p (unitField d) (vecField x) := by
  unfold matM
  rw [list_clm_vec]
  rfl

theorem vecField_sum {N : ℕ} (y : Vec N) : vecField y = ∑ d : Fin N, y d • unitField d := by
  funext n i
  rw [Finset.sum_apply, Finset.sum_apply]
  simp only [vecField, fieldOf, ext, unitField, Pi.smul_apply, smul_eq_mul, Pi.single_apply, mul_ite, mul_one, mul_zero]
  split
  · rename_i h
    rw [sum_eq_single (⟨2 * n + i, h⟩ : Fin N)]
    · simp
    · intro b _ hb
      rw [if_neg]
      intro e
      exact hb (Fin.ext e.symm)
    · simp
  · rename_i h
    symm
    refine sum_eq_zero fun b _ => ?_
    rw [if_neg]
    intro e
    have := b.2
    omega

theorem eigA_sum {N : ℕ} (p : Fin m → ℝ) (u : ℕ → Fin 2 → ℝ) (y : Vec N) : eigA F p u (vecField y) = ∑ d : Fin N, y d * eigA F p u (unitField d) := by
  have h0 : eigA F p u 0 = 0 := by
    have h := totalWork_smul F planeLaw (eigE p) 0 u 0
    rw [zero_smul, zero_mul] at h
    exact h
  have : ∀ s : Finset (Fin N), eigA F p u (∑ d ∈ s, y d • unitField d) = ∑ d ∈ s, y d * eigA F p u (unitField d) := by
    intro s
    induction s using Finset.induction with
    | empty => simp [h0]
    | insert a s ha ih =>
      rw [sum_insert ha, sum_insert ha, ← ih]
      unfold eigA
      rw [totalWork_add F planeLaw, totalWork_smul F planeLaw]
  rw [vecField_sum, this]

theorem eigB_sum {N : ℕ} (p : Fin m → ℝ) (u : ℕ → Fin 2 → ℝ) (y : Vec N) : eigB F p u (vecField y) = ∑ d : Fin N, y d * eigB F p u (unitField d) := by
  have h0 : eigB F p u 0 = 0 := by
    have h := totalMass_smul F (eigR p) 0 u 0
    rw [zero_smul, zero_mul] at h
    exact h
  have : ∀ s : Finset (Fin N), eigB F p u (∑ d ∈ s, y d • unitField d) = ∑ d ∈ s, y d * eigB F p u (unitField d) := by
    intro s
    induction s using Finset.induction with
    | empty => simp [h0]
    | insert a s ha ih =>
      rw [sum_insert ha, sum_insert ha, ← ih]
      unfold eigB
      rw [totalMass_add F, totalMass_smul F]
  rw [vecField_sum, this]

theorem dot_matK (N : ℕ) (p : Fin m → ℝ) (x y : Vec N) : dotL y (matK F N p x) = eigA F p (vecField x) (vecField y) := by
  rw [dotL_apply, eigA_sum]
  refine sum_congr rfl fun d _ => ?_
  rw [matK_apply, eigA_symm]

theorem dot_matM (N : ℕ) (p : Fin m → ℝ) (x y : Vec N) : dotL y (matM F N p x) = eigB F p (vecField x) (vecField y) := by
  rw [dotL_apply, eigB_sum]
  refine sum_congr rfl fun d _ => ?_
  rw [matM_apply, eigB_symm]

theorem matK_symm (N : ℕ) (p : Fin m → ℝ) : Symm (matK F N p) := fun x y => by rw [dot_matK, dot_matK, eigA_symm]
theorem matM_symm (N : ℕ) (p : Fin m → ℝ) : Symm (matM F N p) := fun x y => by rw [dot_matM, dot_matM, eigB_symm]

theorem ext_contDiff (k : ℕ) : ContDiff ℝ 1 fun q : Fin m → ℝ => ext q k := by
  unfold ext
  by_cases h : k < m
  · simp only [dif_pos h]; fun_prop
  · simp only [dif_neg h]; fun_prop

theorem eigE_contDiff (k : ℕ) : ContDiff ℝ 1 fun q : Fin m → ℝ => eigE q k := by
  unfold eigE simpModulus
  exact contDiff_const.add (contDiff_const.mul ((ext_contDiff k).pow 5))

theorem eigR_contDiff (k : ℕ) : ContDiff ℝ 1 fun q : Fin m → ℝ => eigR q k := by
  unfold eigR
  exact (ext_contDiff k).mul contDiff_const

theorem list_contDiff {α : Type*} {N : ℕ} (l : List α) (e : α → (Fin m → ℝ) → ℝ) (he : ∀ a, ContDiff ℝ 1 (e a)) (A : α → Vec N →L[ℝ] Vec N) : ContDiff ℝ 1 fun q : Fin m → ℝ => (l.map fun a => e a q • A a).sum := by
  induction l with
  | nil => exact contDiff_const
  | cons a l ih =>
    simp only [List.map_cons, List.sum_cons]
    exact ((he a).smul contDiff_const).add ih

theorem matK_contDiff (N : ℕ) : ContDiff ℝ 1 fun q : Fin m → ℝ => matK F N q := by
  unfold matK
  generalize F.cells.zipIdx = l
  exact list_contDiff l (fun c q => eigE q c.2) (fun c => eigE_contDiff c.2) fun c => cellK F N c.1

theorem matM_contDiff (N : ℕ) : ContDiff ℝ 1 fun q : Fin m → ℝ => matM F N q := by
  unfold matM
  generalize F.cells.zipIdx = l
  exact list_contDiff l (fun c q => eigR q c.2) (fun c => eigR_contDiff c.2) fun c => cellM F N c.1

end

section
variable {F : Fem nn nq nf nfq 2 2} (hF : FreeBody F)

/-- The number of degrees of freedom. -/
abbrev dofs (F : Fem nn nq nf nfq 2 2) : ℕ := F.numTotal * 2

/-- Values outside the mesh do not matter. -/
theorem field_agree (hmesh : ∀ c ∈ F.cells, ∀ a, c a < F.numTotal) (p : Fin m → ℝ) (w : ℕ → Fin 2 → ℝ) : ∃ y : Vec (dofs F), ∀ u, eigA F p u w = eigA F p u (vecField y) ∧ eigB F p u w = eigB F p u (vecField y) := by
  refine ⟨fun d => dofsOf w d, fun u => ?_⟩
  have hval : ∀ c ∈ F.cells, ∀ a, vecField (fun d : Fin (dofs F) => dofsOf w d) (c a) = w (c a) := by
    intro c hc a
    funext i
    have hlt : 2 * c a + (i : ℕ) < dofs F := by
      have := hmesh c hc a
      unfold dofs
      omega
    simp only [vecField, fieldOf, ext, dif_pos hlt]
    exact congrFun (congrFun (field_dofs w) (c a)) i
  have hmem : ∀ c ∈ F.cells.zipIdx, c.1 ∈ F.cells := fun c hc => by
    have := List.mem_zipIdx hc
    rw [this.2.2]
    exact List.getElem_mem _
  constructor
  · unfold eigA totalWork
    congr 1
    refine List.map_congr_left fun c hc => ?_
    congr 1
    unfold cellWork
    refine sum_congr rfl fun q _ => ?_
    have : F.gradAt w c.1 q = F.gradAt (vecField fun d : Fin (dofs F) => dofsOf w d) c.1 q := by
      funext i d
      simp only [Fem.gradAt]
      refine sum_congr rfl fun a _ => ?_
      rw [hval c.1 (hmem c hc) a]
    rw [this]
  · unfold eigB totalMass
    congr 1
    refine List.map_congr_left fun c hc => ?_
    congr 1
    unfold cellMass
    refine sum_congr rfl fun q _ => ?_
    have : F.uAt w c.1 q = F.uAt (vecField fun d : Fin (dofs F) => dofsOf w d) c.1 q := by
      funext i
      simp only [Fem.uAt]
      refine sum_congr rfl fun a _ => ?_
      rw [hval c.1 (hmem c hc) a]
    rw [this]

theorem mode_iff (hmesh : ∀ c ∈ F.cells, ∀ a, c a < F.numTotal) (p : Fin m → ℝ) (lam : ℝ) (x : Vec (dofs F)) : IsMode F p lam (vecField x) ↔ matK F _ p x = lam • matM F _ p x := by
  constructor
  · intro h
    funext d
    rw [matK_apply, Pi.smul_apply, matM_apply, eigA_symm, eigB_symm, smul_eq_mul]
    exact h _
  · intro h w
    obtain ⟨y, hy⟩ := field_agree hmesh p w
    rw [(hy _).1, (hy _).2, ← dot_matK, ← dot_matM, h, map_smul, smul_eq_mul]

include hF in
theorem pair_iff (p : Fin m → ℝ) (hm : F.cells.length = m) (lam : ℝ) (x : Vec (dofs F)) : IsPair F p lam (ext x) ↔ matK F _ p x = lam • matM F _ p x := by
  rw [C133_weak hF p hm, ← mode_iff hF.mesh]
  rfl

include hF in
theorem gradVKv_eq (p : Fin m → ℝ) (hm : F.cells.length = m) (x : Vec (dofs F)) (j : Fin m) : gradVAv (stiffFem F) p (ext x) j = dotL x (fderiv ℝ (fun q : Fin m → ℝ => matK F (dofs F) q) p (Pi.single j 1) x) := by
  have e : (fun q : Fin m → ℝ => okVal (vAv (stiffFem F q) (ext x))) = fun q => dotL x (matK F (dofs F) q x) := by
    funext q
    rw [(C133_forms hF q hm (ext x)).1, dot_matK]
    rfl
  unfold gradVAv
  rw [e]
  have h1 := ((matK_contDiff (m := m) F (dofs F)).differentiable (by norm_num)).differentiableAt (x := p) |>.hasFDerivAt
  have h2 := (dotL x).hasFDerivAt.comp p (h1.clm_apply (hasFDerivAt_const x p))
  rw [show (fun q : Fin m → ℝ => dotL x (matK F (dofs F) q x)) = (dotL x) ∘ fun q => matK F (dofs F) q x from rfl, h2.fderiv]
  simp

include hF in
theorem gradVMv_eq (p : Fin m → ℝ) (hm : F.cells.length = m) (x : Vec (dofs F)) (j : Fin m) : gradVAv (massFem F) p (ext x) j = dotL x (fderiv ℝ (fun q : Fin m → ℝ => matM F (dofs F) q) p (Pi.single j 1) x) := by
  have e : (fun q : Fin m → ℝ => okVal (vAv (massFem F q) (ext x))) = fun q => dotL x (matM F (dofs F) q x) := by
    funext q
    rw [(C133_forms hF q hm (ext x)).2, dot_matM]
    rfl
  unfold gradVAv
  rw [e]
  have h1 := ((matM_contDiff (m := m) F (dofs F)).differentiable (by norm_num)).differentiableAt (x := p) |>.hasFDerivAt
  have h2 := (dotL x).hasFDerivAt.comp p (h1.clm_apply (hasFDerivAt_const x p))
  rw [show (fun q : Fin m → ℝ => dotL x (matM F (dofs F) q x)) = (dotL x) ∘ fun q => matM F (dofs F) q x from rfl, h2.fderiv]
  simp

include hF in
/-- **C133 (derivatives).** Along any differentiable curve of densities, for any differentiable branch of pairs of the assembled matrices with nonzero kinetic product, the derivative of the eigenvalue is the
product of the program's `d_eigen_val` with the direction. -/
theorem C133_derivative (hm : F.cells.length = m) (q : ℝ → Fin m → ℝ) (h : Fin m → ℝ) (hq : HasDerivAt q h 0) (lam : ℝ → ℝ) (lam' : ℝ) (hl : HasDerivAt lam lam' 0)
    (x : ℝ → Fin (dofs F) → ℝ) (x' : Fin (dofs F) → ℝ) (hx : HasDerivAt x x' 0) (hpair : ∀ᶠ t in 𝓝 0, IsPair F (q t) (lam t) (ext (x t)))
    (hn : eigB F (q 0) (fieldOf (ext (x 0))) (fieldOf (ext (x 0))) ≠ 0) :
    ∃ G, dEigenVal F (q 0) (lam 0) (ext (x 0)) = .ok G ∧ lam' = ∑ j, G j * h j := by
  have hK := ((matK_contDiff (m := m) F (dofs F)).differentiable (by norm_num)).differentiableAt (x := q 0) |>.hasFDerivAt
  have hM := ((matM_contDiff (m := m) F (dofs F)).differentiable (by norm_num)).differentiableAt (x := q 0) |>.hasFDerivAt
  have hp : ∀ᶠ t in 𝓝 0, matK F (dofs F) (q t) (x t) = lam t • matM F (dofs F) (q t) (x t) := hpair.mono fun t ht => (pair_iff hF _ hm _ _).mp ht
  have key := eigen_deriv _ _ q h hq _ _ hK hM (matK_symm F _ _) (matM_symm F _ _) lam lam' hl x x' hx hp
  obtain ⟨e1, e2⟩ := C133_forms hF (q 0) hm (ext (x 0))
  refine ⟨_, by unfold dEigenVal; rw [e1, e2], ?_⟩
  rw [dot_matM] at key
  have hn' : eigB F (q 0) (vecField (x 0)) (vecField (x 0)) ≠ 0 := hn
  have hexp : ∀ (L : (Fin m → ℝ) →L[ℝ] Vec (dofs F) →L[ℝ] Vec (dofs F)), dotL (x 0) (L h (x 0)) = ∑ j, dotL (x 0) (L (Pi.single j 1) (x 0)) * h j := by
    intro L
    have : h = ∑ j, h j • (Pi.single j 1 : Fin m → ℝ) := pi_eq_sum_univ' h
    conv_lhs => rw [this]
    simp only [map_sum, map_smul, _root_.sum_apply, _root_.smul_apply, smul_eq_mul]
    exact sum_congr rfl fun j _ => mul_comm _ _
  rw [hexp, hexp] at key
  simp only [gradVKv_eq hF (q 0) hm, gradVMv_eq hF (q 0) hm]
  have : ∀ j, (dotL (x 0) (fderiv ℝ (fun q : Fin m → ℝ => matK F (dofs F) q) (q 0) (Pi.single j 1) (x 0)) - lam 0 * dotL (x 0) (fderiv ℝ (fun q : Fin m → ℝ => matM F (dofs F) q) (q 0) (Pi.single j 1) (x 0))) /
      eigB F (q 0) (fieldOf (ext (x 0))) (fieldOf (ext (x 0))) * h j = (dotL (x 0) (fderiv ℝ (fun q : Fin m → ℝ => matK F (dofs F) q) (q 0) (Pi.single j 1) (x 0)) * h j -
        lam 0 * (dotL (x 0) (fderiv ℝ (fun q : Fin m → ℝ => matM F (dofs F) q) (q 0) (Pi.single j 1) (x 0)) * h j)) / eigB F (q 0) (vecField (x 0)) (vecField (x 0)) := by
    intro j
    rw [show eigB F (q 0) (fieldOf (ext (x 0))) (fieldOf (ext (x 0))) = eigB F (q 0) (vecField (x 0)) (vecField (x 0)) from rfl]
    ring
  rw [sum_congr rfl fun j _ => this j, ← sum_div, sum_sub_distrib, ← mul_sum, eq_div_iff hn']
  exact key

include hF in
/-- **C133 (simple eigenvalues).** A simple eigenvalue with nonzero kinetic product has one branch of normalised pairs near the given densities; the branch contains every pair close to the given one, it is differentiable,
and the gradient of its eigenvalue is the program's `d_eigen_val`. -/
theorem C133_simple (hm : F.cells.length = m) (p : Fin m → ℝ) (lam : ℝ) (x : Fin (dofs F) → ℝ) (hpair : IsPair F p lam (ext x)) (hn : eigB F p (fieldOf (ext x)) (fieldOf (ext x)) ≠ 0)
    (hs : ∀ y : Fin (dofs F) → ℝ, IsPair F p lam (ext y) → ∃ a : ℝ, y = a • x) :
    ∃ (X : (Fin m → ℝ) → Fin (dofs F) → ℝ) (L : (Fin m → ℝ) → ℝ) (G : Fin m → ℝ), X p = x ∧ L p = lam ∧ DifferentiableAt ℝ X p ∧ DifferentiableAt ℝ L p ∧ (∀ᶠ q in 𝓝 p, IsPair F q (L q) (ext (X q))) ∧
      (∀ᶠ v in 𝓝 (p, (x, lam)), IsPair F v.1 v.2.2 (ext v.2.1) → eigB F p (fieldOf (ext x)) (fieldOf (ext v.2.1)) = eigB F p (fieldOf (ext x)) (fieldOf (ext x)) → v.2.1 = X v.1 ∧ v.2.2 = L v.1) ∧
      dEigenVal F p lam (ext x) = .ok G ∧ ∀ j, fderiv ℝ L p (Pi.single j 1) = G j := by
  have hn' : dotL x (matM F (dofs F) p x) ≠ 0 := by rw [dot_matM]; exact hn
  obtain ⟨X, L, hX, hL, ⟨X', hX'⟩, ⟨L', hL'⟩, hev, huniq⟩ := simple_branch (matK F (dofs F)) (matM F (dofs F)) (matK_contDiff F _) (matM_contDiff F _) p (matK_symm F _ p) (matM_symm F _ p) x lam
    ((pair_iff hF p hm lam x).mp hpair) hn' fun y hy => hs y ((pair_iff hF p hm lam y).mpr hy)
  have hpairs : ∀ᶠ q in 𝓝 p, IsPair F q (L q) (ext (X q)) := hev.mono fun q hq => (pair_iff hF q hm _ _).mpr hq.1
  obtain ⟨e1, e2⟩ := C133_forms hF p hm (ext x)
  refine ⟨X, L, _, hX, hL, hX'.differentiableAt, hL'.differentiableAt, hpairs, ?_, by unfold dEigenVal; rw [e1, e2], fun j => ?_⟩
  · filter_upwards [huniq] with v hv h1 h2
    refine hv ((pair_iff hF _ hm _ _).mp h1) ?_
    have e : ∀ y : Vec (dofs F), dotL (matM F (dofs F) p x) y = eigB F p (fieldOf (ext x)) (fieldOf (ext y)) := by
      intro y
      rw [dotL_comm, dot_matM]
      rfl
    rw [e, e]
    exact h2
  · have hline : HasDerivAt (fun t : ℝ => p + t • (Pi.single j 1 : Fin m → ℝ)) (Pi.single j 1) 0 := by
      simpa using ((hasDerivAt_id (0 : ℝ)).smul_const (Pi.single j 1 : Fin m → ℝ)).const_add p
    have h0 : p + (0 : ℝ) • (Pi.single j 1 : Fin m → ℝ) = p := by simp
    have hl : HasDerivAt (fun t : ℝ => L (p + t • (Pi.single j 1 : Fin m → ℝ))) (fderiv ℝ L p (Pi.single j 1)) 0 := by
      have h1 : HasFDerivAt L (fderiv ℝ L p) (p + (0 : ℝ) • (Pi.single j 1 : Fin m → ℝ)) := by rw [h0]; exact hL'.differentiableAt.hasFDerivAt
      exact h1.comp_hasDerivAt (0 : ℝ) hline
    have hxd : HasDerivAt (fun t : ℝ => X (p + t • (Pi.single j 1 : Fin m → ℝ))) (fderiv ℝ X p (Pi.single j 1)) 0 := by
      have h1 : HasFDerivAt X (fderiv ℝ X p) (p + (0 : ℝ) • (Pi.single j 1 : Fin m → ℝ)) := by rw [h0]; exact hX'.differentiableAt.hasFDerivAt
      exact h1.comp_hasDerivAt (0 : ℝ) hline
    have hc : Tendsto (fun t : ℝ => p + t • (Pi.single j 1 : Fin m → ℝ)) (𝓝 0) (𝓝 p) := by
      have := hline.continuousAt.tendsto
      rwa [h0] at this
    obtain ⟨G, hG, hlam⟩ := C133_derivative hF hm (fun t => p + t • (Pi.single j 1 : Fin m → ℝ)) _ hline _ _ hl _ _ hxd (hc.eventually hpairs) (by
      show eigB F (p + (0 : ℝ) • (Pi.single j 1 : Fin m → ℝ)) (fieldOf (ext (X (p + (0 : ℝ) • (Pi.single j 1 : Fin m → ℝ))))) (fieldOf (ext (X (p + (0 : ℝ) • (Pi.single j 1 : Fin m → ℝ))))) ≠ 0
      rw [h0, hX]
      exact hn)
    rw [hlam]
    simp only [h0, hX, hL] at hG
    unfold dEigenVal at hG
    rw [e1, e2] at hG
    have hG' := Except.ok.inj hG
    rw [← hG']
    simp [Pi.single_apply]

end

end Verif.Fem
