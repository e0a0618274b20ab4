import Verif.Fem.Work
import Verif.Fem.PlasticDemo
import Verif.Fem.HyperProps
import Verif.Fem.TopOptMesh
import Verif.Fem.PropsElastic2
import Verif.Fem.PropsUnique
import Mathlib.Analysis.SpecialFunctions.Trigonometric.Basic

/-!
# C131: balance of forces and moments of the nodal reactions

The residual at a held degree of freedom is the force which the support has to apply. Model of demos/fem/linear_elasticity/example.py, demos/fem/hyperelasticity/example.py and applications/fem/buckling/beam3d.py; not modelled: the
mesh generator, logging and VTK output.
-/
namespace Verif.Fem
open Finset Matrix

variable {nn nq nf nfq dim vec : ℕ}

/-! ## Specification -/

/-- Specification: the moment of `f` at the position `x`, component in the plane of the axes `i`, `j`. -/
def turn (x f : Fin dim → ℝ) (i j : Fin dim) : ℝ := x i * f j - x j * f i

/-- Specification: total moment of the nodal forces `R` at the nodal positions `x`. -/
def nodalMoment (N : ℕ) (x R : ℕ → Fin dim → ℝ) (i j : Fin dim) : ℝ := ∑ n ∈ range N, turn (x n) (R n) i j

/-- Specification: moment of the mass term and of the Cauchy fluxes minus the moment of the volume load and of the tractions, taken with the position field `x`. -/
noncomputable def loadMoment (F : Fem nn nq nf nfq dim dim) (sol x : ℕ → Fin dim → ℝ) (i j : Fin dim) : ℝ :=
  (F.cells.zipIdx.map fun p => ∑ q, turn (F.uAt x p.1 q) (F.massAt p.2 q (F.uAt sol p.1 q)) i j * F.JxW p.1 q).sum
    + ((Fem.pairs F.cauchy).map fun lv => ((F.selected lv.1).map fun p => ∑ q, turn (F.uFace x p q) (lv.2 (F.uFace sol p q)) i j * F.nansonScale p.1 p.2 q).sum).sum
    - (F.cells.map fun c => ∑ q, turn (F.uAt x c q) (F.load c q) i j * F.JxW c q).sum
    - ((Fem.pairs F.neumann).map fun lv => ((F.selected lv.1).zipIdx.map fun p => ∑ q, turn (F.uFace x p.1 q) (lv.2 p.2 q (F.xFace p.1 q)) i j * F.nansonScale p.1.1 p.1.2 q).sum).sum

/-- The nodal field with values `x i` in component `j` and `-x j` in component `i`. -/
def turnField (x : ℕ → Fin dim → ℝ) (i j : Fin dim) : ℕ → Fin dim → ℝ := fun n k => (if k = j then x n i else 0) - if k = i then x n j else 0

theorem sum_turn (a f : Fin dim → ℝ) (i j : Fin dim) : ∑ k, f k * ((if k = j then a i else 0) - if k = i then a j else 0) = turn a f i j := by
  simp only [mul_sub, sum_sub_distrib, mul_ite, mul_zero, sum_ite_eq', mem_univ, if_true, turn]
  ring

theorem weighted_turn {m : ℕ} (w : Fin m → ℝ) (x : Fin m → Fin dim → ℝ) (i j k : Fin dim) :
    ∑ n, ((if k = j then x n i else 0) - if k = i then x n j else 0) * w n = (if k = j then ∑ n, x n i * w n else 0) - if k = i then ∑ n, x n j * w n else 0 := by
  simp only [sub_mul, sum_sub_distrib, ite_mul, zero_mul]
  by_cases h1 : k = j <;> by_cases h2 : k = i <;> simp [h1, h2]

/-- **C131 (moments, general).** For every mesh with node numbers in range, every solution and every nodal position field `x`: if `stress · (∇x)ᵀ` is symmetric at each quadrature point, the moment of the residual at the positions `x` is
the moment of the loads. -/
theorem C131_moment (F : Fem nn nq nf nfq dim dim) (hmesh : ∀ c ∈ F.cells, ∀ a, c a < F.numTotal) (sol x R : ℕ → Fin dim → ℝ) (h : F.computeResidual sol = .ok R)
    (hsym : ∀ p ∈ F.cells.zipIdx, ∀ q, (Matrix.of (F.stress p.2 q (F.gradAt sol p.1 q)) * (Matrix.of (F.gradAt x p.1 q))ᵀ).IsSymm) (i j : Fin dim) :
    nodalMoment F.numTotal x R i j = loadMoment F sol x i j := by
  have hw := C71_virtual_work F hmesh sol (turnField x i j) R h
  have hu : ∀ c q, F.uAt (turnField x i j) c q = fun k => (if k = j then F.uAt x c q i else 0) - if k = i then F.uAt x c q j else 0 := by
    intro c q
    funext k
    exact weighted_turn (F.shapeVals q) (fun n => x (c n)) i j k
  have hf : ∀ p q, F.uFace (turnField x i j) p q = fun k => (if k = j then F.uFace x p q i else 0) - if k = i then F.uFace x p q j else 0 := by
    intro p q
    funext k
    exact weighted_turn (F.faceShapeVals p.2 q) (fun n => x (p.1 n)) i j k
  have hg : ∀ c q k d, F.gradAt (turnField x i j) c q k d = (if k = j then F.gradAt x c q i d else 0) - if k = i then F.gradAt x c q j d else 0 := by
    intro c q k d
    exact weighted_turn (fun n => F.shapeGrad c q n d) (fun n => x (c n)) i j k
  have hl : ∑ n ∈ range F.numTotal, ∑ k, R n k * turnField x i j n k = nodalMoment F.numTotal x R i j := sum_congr rfl fun n _ => sum_turn (x n) (R n) i j
  rw [hl] at hw
  rw [hw]
  unfold loadMoment
  have hst : ∀ p ∈ F.cells.zipIdx, ∀ q, ∑ k, ∑ d, F.stress p.2 q (F.gradAt sol p.1 q) k d * F.gradAt (turnField x i j) p.1 q k d = 0 := by
    intro p hp q
    have hs := congrFun (congrFun (hsym p hp q) i) j
    simp only [Matrix.transpose_apply, Matrix.mul_apply, Matrix.of_apply] at hs
    simp only [hg, mul_sub, sum_sub_distrib, mul_ite, mul_zero]
    rw [sum_comm, sum_comm (f := fun k d => if k = i then _ else _)]
    simp only [sum_ite_eq', mem_univ, if_true]
    linarith
  congr 1
  · congr 1
    · congr 1
      · refine sum_map_congr fun p hp => sum_congr rfl fun q _ => ?_
        rw [hst p hp q, zero_add, hu, sum_turn]
      · refine sum_map_congr fun lv _ => sum_map_congr fun p _ => sum_congr rfl fun q _ => ?_
        rw [hf, sum_turn]
    · refine sum_map_congr fun c _ => sum_congr rfl fun q _ => ?_
      rw [hu, sum_turn]
  · refine sum_map_congr fun lv _ => sum_map_congr fun p _ => sum_congr rfl fun q _ => ?_
    rw [hf, sum_turn]

theorem gradAt_points (F : Fem nn nq nf nfq dim dim) (c : Fin nn → ℕ) (q : Fin nq) (hdet : (F.jacobian c q).det ≠ 0) : Matrix.of (F.gradAt F.points c q) = 1 := by
  ext a d
  rw [Matrix.of_apply, Matrix.one_apply]
  exact grad_dual F c q hdet a d

theorem gradAt_deformed (F : Fem nn nq nf nfq dim dim) (sol : ℕ → Fin dim → ℝ) (c : Fin nn → ℕ) (q : Fin nq) (hdet : (F.jacobian c q).det ≠ 0) :
    Matrix.of (F.gradAt (fun n => F.points n + sol n) c q) = Matrix.of (F.gradAt sol c q) + 1 := by
  rw [← gradAt_points F c q hdet]
  ext a d
  simp only [Matrix.of_apply, Matrix.add_apply, Fem.gradAt, Pi.add_apply, add_mul, sum_add_distrib]
  ring

/-- **C131 (moments, small strain).** For every law with a symmetric stress, and every mesh with regular elements, the moment of the residual at the nodes is the moment of the loads at their points of action in the reference configuration. -/
theorem C131_reference (F : Fem nn nq nf nfq dim dim) (hmesh : ∀ c ∈ F.cells, ∀ a, c a < F.numTotal) (hdet : ∀ c ∈ F.cells, ∀ q, (F.jacobian c q).det ≠ 0) (sol R : ℕ → Fin dim → ℝ)
    (h : F.computeResidual sol = .ok R) (hsym : ∀ p ∈ F.cells.zipIdx, ∀ q, (Matrix.of (F.stress p.2 q (F.gradAt sol p.1 q))).IsSymm) (i j : Fin dim) :
    nodalMoment F.numTotal F.points R i j = loadMoment F sol F.points i j := by
  refine C131_moment F hmesh sol F.points R h (fun p hp q => ?_) i j
  rw [gradAt_points F p.1 q (hdet _ (zipIdx_mem hp) q), Matrix.transpose_one, Matrix.mul_one]
  exact hsym p hp q

/-- **C131 (moments, finite strain).** For every law whose first Piola stress has `P Fᵀ` symmetric, the moment of the residual at the deformed nodes `x + u` is the moment of the loads at their points of action in the deformed configuration. -/
theorem C131_deformed (F : Fem nn nq nf nfq dim dim) (hmesh : ∀ c ∈ F.cells, ∀ a, c a < F.numTotal) (hdet : ∀ c ∈ F.cells, ∀ q, (F.jacobian c q).det ≠ 0) (sol R : ℕ → Fin dim → ℝ)
    (h : F.computeResidual sol = .ok R)
    (hsym : ∀ p ∈ F.cells.zipIdx, ∀ q, (Matrix.of (F.stress p.2 q (F.gradAt sol p.1 q)) * (Matrix.of (F.gradAt sol p.1 q) + 1)ᵀ).IsSymm) (i j : Fin dim) :
    nodalMoment F.numTotal (fun n => F.points n + sol n) R i j = loadMoment F sol (fun n => F.points n + sol n) i j := by
  refine C131_moment F hmesh sol _ R h (fun p hp q => ?_) i j
  rw [gradAt_deformed F sol p.1 q (hdet _ (zipIdx_mem hp) q)]
  exact hsym p hp q

/-! ## The two laws -/

theorem isSymm_mul_transpose_of_form (A : Matrix (Fin dim) (Fin dim) ℝ) (hA : A.det ≠ 0) (a b : ℝ) : ((a • A + b • (A⁻¹)ᵀ) * Aᵀ).IsSymm := by
  have h1 : (A⁻¹)ᵀ * Aᵀ = 1 := by rw [← Matrix.transpose_mul, Matrix.mul_nonsing_inv _ (isUnit_iff_ne_zero.mpr hA), Matrix.transpose_one]
  rw [Matrix.add_mul, Matrix.smul_mul, Matrix.smul_mul, h1]
  unfold Matrix.IsSymm
  simp [Matrix.transpose_mul]

/-- **C131 (neo-Hookean law, library).** The Kirchhoff stress `P Fᵀ` of the hyperelastic class is symmetric wherever `det F > 0`, in every dimension. -/
theorem C131_kirchhoff (g : Matrix (Fin dim) (Fin dim) ℝ) (hJ : 0 < (g + 1).det) : (firstPK g * (g + 1)ᵀ).IsSymm := by
  unfold firstPK
  rw [C31_stress _ hJ]
  have := isSymm_mul_transpose_of_form (g + 1) hJ.ne' (hyperMu * (g + 1).det ^ (-2 / 3 : ℝ))
    (hyperKappa * ((g + 1).det - 1) * (g + 1).det - hyperMu * (g + 1).det ^ (-2 / 3 : ℝ) * (((g + 1)ᵀ * (g + 1)).trace / 3))
  convert this using 2
  rw [smul_sub, smul_smul, sub_smul]
  abel

/-- The same with general moduli, dimension 3. -/
theorem kirchhoff_symm (E nu : ℝ) (g : T33) (hJ : 0 < (g + 1).det) : (gradOf (msPsi E nu) (g + 1) * (g + 1)ᵀ).IsSymm := by
  rw [(msPsi_grad E nu (g + 1) hJ).eq, neoStress]
  set mu := E / (2 * (1 + nu))
  set kappa := E / (3 * (1 - 2 * nu))
  have := isSymm_mul_transpose_of_form (g + 1) hJ.ne' (mu * (g + 1).det ^ (-2 / 3 : ℝ))
    (kappa * ((g + 1).det - 1) * (g + 1).det - mu * (g + 1).det ^ (-2 / 3 : ℝ) * (((g + 1)ᵀ * (g + 1)).trace / 3))
  convert this using 2
  rw [smul_sub, smul_smul, sub_smul]
  abel

theorem elasticStress_symm (g : Matrix (Fin dim) (Fin dim) ℝ) : (elasticStress g).IsSymm := by
  unfold elasticStress hooke strain Matrix.IsSymm
  simp [Matrix.transpose_add, Matrix.transpose_smul, add_comm]

/-! ## The demos -/

/-- Specification: `u` takes the prescribed values and its residual `R` vanishes at every degree of freedom which is not prescribed. -/
structure Held (F : Fem nn nq nf nfq 3 3) (info : List (Loc 3) × List ℕ × List ((Fin 3 → ℝ) → ℝ)) (u R : ℕ → Fin 3 → ℝ) : Prop where
  residual : F.computeResidual u = .ok R
  prescribed : ∀ t ∈ info.1.zip (info.2.1.zip info.2.2), ∀ n < F.numTotal, t.1 (F.points n) = true → ∀ i : Fin 3, (i : ℕ) = t.2.1 → u n i = t.2.2 (F.points n)
  free : ∀ n < F.numTotal, ∀ i : Fin 3, (∀ t ∈ info.1.zip (info.2.1.zip info.2.2), t.1 (F.points n) = true → (i : ℕ) ≠ t.2.1) → R n i = 0

/-- A mesh whose element tables are those of a Lagrange element, with regular elements. -/
structure Regular (F : Fem nn nq nf nfq dim vec) : Prop where
  nodes : ∀ c ∈ F.cells, ∀ a, c a < F.numTotal
  det : ∀ c ∈ F.cells, ∀ q, (F.jacobian c q).det ≠ 0
  grads : ∀ q b, ∑ n, F.shapeGradsRef q n b = 0
  vals : ∀ q, ∑ n, F.shapeVals q n = 1
  faces : ∀ f q, ∑ n, F.faceShapeVals f q n = 1

/-- `left`, `right` (linear_elasticity/example.py 46-51, hyperelasticity/example.py 52-57, beam3d.py 45-49). -/
noncomputable def edLeft : Loc 3 := fun point => isclose (point 0) 0 1e-5
@[inherit_doc edLeft] noncomputable def edRight (Lx : ℝ) : Loc 3 := fun point => isclose (point 0) Lx 1e-5

/-- `problem` of the linear demo (linear_elasticity/example.py 13-27, 61-73) on a mesh: the class is `LinearElasticity` of models.py with the same constants, and a traction on the right end. -/
noncomputable def leProblem (F : Fem nn nq nf nfq 3 3) (Lx : ℝ) : Fem nn nq nf nfq 3 3 :=
  { elasticFem F with source := none, bodyVar := none, cauchy := none, neumann := some ([edRight Lx], [fun _ _ _ => ![0, 0, -100]]) }

/-- `dirichlet_bc_info` (linear_elasticity/example.py 54-58). -/
noncomputable def leInfo : List (Loc 3) × List ℕ × List ((Fin 3 → ℝ) → ℝ) := ([edLeft, edLeft, edLeft], [0, 1, 2], [fun _ => 0, fun _ => 0, fun _ => 0])

/-- `HyperElasticity` of the demos (hyperelasticity/example.py 11-34, beam3d.py 12-31) on a mesh: no loads. -/
noncomputable def heProblem (F : Fem nn nq nf nfq 3 3) : Fem nn nq nf nfq 3 3 :=
  { F with tensorMap := some fun _ _ g => gradOf (msPsi 10 0.3) (Matrix.of g + 1), massMap := none, lapRows := none, massRows := none, source := none, bodyVar := none, cauchy := none, neumann := none }

/-- `dirichlet_val_x2` (hyperelasticity/example.py 64-66). -/
noncomputable def heVal2 (point : Fin 3 → ℝ) : ℝ := (0.5 + (point 1 - 0.5) * Real.cos (Real.pi / 3) - (point 2 - 0.5) * Real.sin (Real.pi / 3) - point 1) / 2

/-- `dirichlet_val_x3` (hyperelasticity/example.py 69-71). -/
noncomputable def heVal3 (point : Fin 3 → ℝ) : ℝ := (0.5 + (point 1 - 0.5) * Real.sin (Real.pi / 3) + (point 2 - 0.5) * Real.cos (Real.pi / 3) - point 2) / 2

/-- `dirichlet_bc_info` (hyperelasticity/example.py 74-76), with `Lx = 1`. -/
noncomputable def heInfo : List (Loc 3) × List ℕ × List ((Fin 3 → ℝ) → ℝ) :=
  ([edLeft, edLeft, edLeft, edRight 1, edRight 1, edRight 1], [0, 1, 2, 0, 1, 2], [fun _ => 0, heVal2, heVal3, fun _ => 0, fun _ => 0, fun _ => 0])

/-- `dirichlet_bc_info` (beam3d.py 51-73). -/
noncomputable def beamInfo (Lx Ly Lz : ℝ) : List (Loc 3) × List ℕ × List ((Fin 3 → ℝ) → ℝ) :=
  ([edLeft, edLeft, edLeft, edRight Lx, edRight Lx, edRight Lx], [0, 1, 2, 0, 1, 2], [fun _ => 0, fun _ => 0, fun _ => 0, fun _ => -0.2 * Lx, fun _ => 2 * Ly, fun _ => 0 * Lz])

/-- The nodes selected by a location function. -/
noncomputable def nodesAt (F : Fem nn nq nf nfq dim vec) (loc : Loc dim) : Finset ℕ := (range F.numTotal).filter fun n => loc (F.points n) = true

theorem nodalMoment_zero (F : Fem nn nq nf nfq dim dim) (hm : F.massMap = none) (hc : F.cauchy = none) (hn : F.neumann = none) (hb : F.bodyVar = none) (hs : F.source = none) (sol x : ℕ → Fin dim → ℝ) (i j : Fin dim) :
    loadMoment F sol x i j = 0 := by
  have hl : ∀ c q k, F.load c q k = 0 := by intro c q k; simp [Fem.load, hb, hs]
  have hmm : ∀ k q u i, F.massAt k q u i = 0 := by intro k q u i; simp [Fem.massAt, hm]
  simp [loadMoment, turn, hl, hmm, hc, hn, Fem.pairs]

theorem force_zero (F : Fem nn nq nf nfq dim dim) (hr : Regular F) (hm : F.massMap = none) (hc : F.cauchy = none) (hn : F.neumann = none) (hb : F.bodyVar = none) (hs : F.source = none) (sol R : ℕ → Fin dim → ℝ)
    (h : F.computeResidual sol = .ok R) (i : Fin dim) : ∑ n ∈ range F.numTotal, R n i = 0 := by
  rw [C15_balance F hr.nodes hr.grads hr.vals hr.faces sol R h i]
  have hl : ∀ c q k, F.load c q k = 0 := by intro c q k; simp [Fem.load, hb, hs]
  have hmm : ∀ k q u i, F.massAt k q u i = 0 := by intro k q u i; simp [Fem.massAt, hm]
  simp [hl, hmm, hc, hn, Fem.pairs]

/-- **C131 (cantilever of the linear demo).** For every mesh of any element type with regular elements, whose nodes taken as left end have `x = 0` and whose loaded faces lie at `x = Lx`, every solution of the posed problem has these
reactions at the left end, `A` being the loaded area as computed by the quadrature: force `(0, 0, 100 A)`, bending moment `Σ z R_x = -100 Lx A`, no bending about the other axis, and the torque which balances that of the traction. -/
theorem C131_cantilever (F : Fem nn nq nf nfq 3 3) (hr : Regular F) (Lx : ℝ) (hleft : ∀ n < F.numTotal, edLeft (F.points n) = true → F.points n 0 = 0)
    (hflat : ∀ p ∈ F.selected (edRight Lx), ∀ q, F.xFace p q 0 = Lx) (u R : ℕ → Fin 3 → ℝ) (h : Held (leProblem F Lx) leInfo u R) :
    let A := F.selectedArea (edRight Lx)
    ∑ n ∈ nodesAt F edLeft, R n 0 = 0 ∧ ∑ n ∈ nodesAt F edLeft, R n 1 = 0 ∧ ∑ n ∈ nodesAt F edLeft, R n 2 = 100 * A ∧
      ∑ n ∈ nodesAt F edLeft, F.points n 2 * R n 0 = -(100 * Lx * A) ∧ ∑ n ∈ nodesAt F edLeft, F.points n 1 * R n 0 = 0 ∧
      ∑ n ∈ nodesAt F edLeft, (F.points n 1 * R n 2 - F.points n 2 * R n 1) =
        100 * ((F.selected (edRight Lx)).map fun p => ∑ q, F.xFace p q 1 * F.nansonScale p.1 p.2 q).sum := by
  intro A
  set G := leProblem F Lx with hG
  have hload : ∀ c q k, G.load c q k = 0 := fun c q k => rfl
  have hmass : ∀ k q u i, G.massAt k q u i = 0 := fun k q u i => rfl
  have hcau : Fem.pairs G.cauchy = [] := rfl
  have hneu : Fem.pairs G.neumann = [(edRight Lx, fun _ _ _ => ![0, 0, -100])] := rfl
  have hsel : ∀ loc, G.selected loc = F.selected loc := fun _ => rfl
  have hnan : ∀ c f q, G.nansonScale c f q = F.nansonScale c f q := fun _ _ _ => rfl
  have hxf : ∀ p q, G.xFace p q = F.xFace p q := fun _ _ => rfl
  have hnt : G.numTotal = F.numTotal := rfl
  have hpt : G.points = F.points := rfl
  have hforce : ∀ i, ∑ n ∈ range F.numTotal, R n i = -((![0, 0, -100] : Fin 3 → ℝ) i * A) := by
    intro i
    have hb := C15_balance G hr.nodes hr.grads hr.vals hr.faces u R h.residual i
    rw [hnt] at hb
    rw [hb]
    simp only [hload, hmass, hcau, hneu, zero_mul, sum_const_zero, List.map_nil, List.map_cons, List.sum_nil, List.sum_cons, List.map_const', List.sum_replicate, smul_zero, add_zero, sub_zero, zero_sub, hsel, hnan, ← mul_sum]
    rw [sum_zipIdx_fst (F.selected (edRight Lx)) fun p => (![0, 0, -100] : Fin 3 → ℝ) i * ∑ q, F.nansonScale p.1 p.2 q, List.sum_map_mul_left]
    rfl
  have hfree : ∀ n ∈ range F.numTotal, n ∉ nodesAt F edLeft → ∀ i, R n i = 0 := by
    intro n hn hn' i
    refine h.free n (mem_range.mp hn) i fun t ht hsel => ?_
    exfalso
    have : t.1 = edLeft := by
      have := (List.of_mem_zip ht).1
      simpa [leInfo] using this
    rw [this] at hsel
    exact hn' (mem_filter.mpr ⟨hn, hsel⟩)
  have hrestrict : ∀ f : ℕ → ℝ, (∀ n, (∀ i, R n i = 0) → f n = 0) → ∑ n ∈ range F.numTotal, f n = ∑ n ∈ nodesAt F edLeft, f n := by
    intro f hf
    symm
    exact sum_subset (filter_subset _ _) fun n hn hn' => hf n (hfree n hn hn')
  have hmom : ∀ i j, nodalMoment F.numTotal F.points R i j =
      -((F.selected (edRight Lx)).map fun p => ∑ q, turn (F.xFace p q) ![0, 0, -100] i j * F.nansonScale p.1 p.2 q).sum := by
    intro i j
    have hm := C131_reference G hr.nodes hr.det u R h.residual (fun p hp q => elasticStress_symm _) i j
    rw [hnt, hpt] at hm
    rw [hm]
    have hux : ∀ p q, G.uFace F.points p q = F.xFace p q := by
      intro p q
      funext d
      exact sum_congr rfl fun n _ => mul_comm _ _
    have ht0 : ∀ (x f : Fin 3 → ℝ), (∀ k, f k = 0) → turn x f i j = 0 := by intro x f hf; simp [turn, hf]
    simp only [loadMoment, hcau, hneu, List.map_nil, List.map_cons, List.sum_nil, List.sum_cons, add_zero, hsel, hnan, hux, ht0 _ _ (hload _ _), ht0 _ _ (hmass _ _ _), zero_mul, sum_const_zero, List.map_const', List.sum_replicate,
      smul_zero, sub_zero, zero_sub]
    rw [sum_zipIdx_fst (F.selected (edRight Lx)) fun p => ∑ q, turn (F.xFace p q) ![0, 0, -100] i j * F.nansonScale p.1 p.2 q]
  have hL0 : ∀ n ∈ nodesAt F edLeft, F.points n 0 = 0 := fun n hn => hleft n (mem_range.mp (mem_filter.mp hn).1) (mem_filter.mp hn).2
  have hturn : ∀ i j, ∑ n ∈ range F.numTotal, turn (F.points n) (R n) i j = ∑ n ∈ nodesAt F edLeft, turn (F.points n) (R n) i j := fun i j => hrestrict _ fun n hn => by simp [turn, hn]
  refine ⟨?_, ?_, ?_, ?_, ?_, ?_⟩
  · rw [← hrestrict (fun n => R n 0) fun n hn => hn 0, hforce]; simp
  · rw [← hrestrict (fun n => R n 1) fun n hn => hn 1, hforce]; simp
  · rw [← hrestrict (fun n => R n 2) fun n hn => hn 2, hforce]; simp
  · have hm := hmom 0 2
    unfold nodalMoment at hm
    rw [hturn] at hm
    have e1 : ∑ n ∈ nodesAt F edLeft, turn (F.points n) (R n) 0 2 = -∑ n ∈ nodesAt F edLeft, F.points n 2 * R n 0 := by
      rw [← sum_neg_distrib]
      exact sum_congr rfl fun n hn => by rw [turn, hL0 n hn]; ring
    have e2 : ((F.selected (edRight Lx)).map fun p => ∑ q, turn (F.xFace p q) ![0, 0, -100] 0 2 * F.nansonScale p.1 p.2 q).sum = -100 * Lx * A := by
      show _ = -100 * Lx * ((F.selected (edRight Lx)).map fun p => ∑ q, F.nansonScale p.1 p.2 q).sum
      rw [← List.sum_map_mul_left]
      refine sum_map_congr fun p hp => ?_
      rw [mul_sum]
      refine sum_congr rfl fun q _ => ?_
      rw [turn, hflat p hp q]
      show (Lx * (-100 : ℝ) - F.xFace p q 2 * 0) * _ = _
      ring
    rw [e1, e2] at hm
    linarith
  · have hm := hmom 0 1
    unfold nodalMoment at hm
    rw [hturn] at hm
    have e1 : ∑ n ∈ nodesAt F edLeft, turn (F.points n) (R n) 0 1 = -∑ n ∈ nodesAt F edLeft, F.points n 1 * R n 0 := by
      rw [← sum_neg_distrib]
      exact sum_congr rfl fun n hn => by rw [turn, hL0 n hn]; ring
    have e2 : ((F.selected (edRight Lx)).map fun p => ∑ q, turn (F.xFace p q) ![0, 0, -100] 0 1 * F.nansonScale p.1 p.2 q).sum = 0 := by
      simp [turn]
    rw [e1, e2] at hm
    linarith
  · have hm := hmom 1 2
    unfold nodalMoment at hm
    rw [hturn] at hm
    rw [show ∑ n ∈ nodesAt F edLeft, (F.points n 1 * R n 2 - F.points n 2 * R n 1) = ∑ n ∈ nodesAt F edLeft, turn (F.points n) (R n) 1 2 from rfl, hm, ← neg_one_mul, ← List.sum_map_mul_left, ← List.sum_map_mul_left]
    refine sum_map_congr fun p hp => ?_
    rw [mul_sum, mul_sum]
    refine sum_congr rfl fun q _ => ?_
    simp [turn]
    ring

/-! ## The box -/

/-- The object for `box_mesh` with HEX8 cells (core.py 94-134; linear_elasticity/example.py 30-43 uses TET10 cells on the same box, hyperelasticity/example.py 37-48 and beam3d.py 39-43 use HEX8). -/
noncomputable def boxObj (N : Fin 3 → ℕ) (L : Fin 3 → ℝ) : Fem 8 (2 ^ 3) 6 (2 ^ 2) 3 3 :=
  Fem.ofElement 8 6 3 3 hex8 (gaussRule 3) (gaussRule 2) ((N 0 + 1) * (N 1 + 1) * (N 2 + 1)) (Verif.Mesh.boxMesh (N 0) (N 1) (N 2) (L 0) (L 1) (L 2)).points.get
    (Verif.Mesh.boxMesh (N 0) (N 1) (N 2) (L 0) (L 1) (L 2)).cells.toList

section
variable {N : Fin 3 → ℕ} {L : Fin 3 → ℝ}

theorem boxObj_onBox (N : Fin 3 → ℕ) (L : Fin 3 → ℝ) : OnBox (boxObj N L) N L := ⟨rfl, rfl⟩

theorem boxObj_tables (N : Fin 3 → ℕ) (L : Fin 3 → ℝ) : CellTables (boxObj N L) hex8 (gaussRule 3) := ⟨fun _ _ => rfl, fun _ _ _ => rfl, fun _ => rfl⟩

theorem boxObj_faces (N : Fin 3 → ℕ) (L : Fin 3 → ℝ) : FaceTables (boxObj N L) hex8 (gaussRule 2) := ofElement_hex8_face _ _ _ _ _

theorem boxObj_nonempty (hN : ∀ a, 0 < N a) : (boxObj N L).cells ≠ [] := by
  intro h
  have := ((boxObj_onBox N L).mem_cells (boxCell N fun _ => 0)).mpr ⟨_, (mem_boxGrid _ _).mpr fun a => hN a, rfl⟩
  rw [h] at this
  cases this

theorem boxObj_regular (hN : ∀ a, 0 < N a) (hL : ∀ a, 0 < L a) : Regular (boxObj N L) := by
  have hs := Tabulated.sums (F := boxObj N L) (name := "HEX8") (by decide) getElements_hex8 (by decide) (pts := (gaussRule 3).pt) ⟨(boxObj_tables N L).vals, (boxObj_tables N L).grads⟩
  refine ⟨fun c hc a => ?_, fun c hc q => ?_, hs.1, hs.2, fun f q => faceTables_valSum _ "HEX8" (by decide) hex8 getElements_hex8 (by decide) _ (boxObj_faces N L) f q⟩
  · obtain ⟨g, hg, rfl⟩ := ((boxObj_onBox N L).mem_cells c).mp hc
    refine gridNode_lt N _ fun b => ?_
    have h1 := (mem_boxGrid N g).mp hg b
    have h2 := hexCorner_le a b
    omega
  · obtain ⟨g, hg, rfl⟩ := ((boxObj_onBox N L).mem_cells c).mp hc
    rw [(boxObj_onBox N L).jacobian _ (boxObj_tables N L) g hg, Matrix.det_diagonal]
    exact prod_ne_zero_iff.mpr fun b _ => div_ne_zero (hL b).ne' (by exact_mod_cast (hN b).ne')

theorem ed_tol (n k : ℕ) (l : ℝ) (hn : 0 < n) (hl : 0 < l) (ht : 1e-5 + 1e-5 * l < l / n) (hk : k ≤ n) :
    (isclose ((k : ℝ) * (l / n)) 0 1e-5 = true ↔ k = 0) ∧ (isclose ((k : ℝ) * (l / n)) l 1e-5 = true ↔ k = n) := by
  have hN' : (0 : ℝ) < n := by exact_mod_cast hn
  have hh : 0 < l / n := div_pos hl hN'
  rw [isclose_iff, isclose_iff, abs_zero, abs_of_pos hl, sub_zero, abs_of_nonneg (by positivity), mul_zero, add_zero]
  constructor
  · constructor
    · intro h
      by_contra hne
      have h1 : (1 : ℝ) ≤ k := by exact_mod_cast Nat.one_le_iff_ne_zero.mpr hne
      have h2 : l / n ≤ k * (l / n) := le_mul_of_one_le_left hh.le h1
      have h3 : (0 : ℝ) ≤ 1e-5 * l := by positivity
      linarith
    · rintro rfl
      norm_num
  · have e : (k : ℝ) * (l / n) - l = -((n - k) * (l / n)) := by
      field_simp
      ring
    have hk' : (k : ℝ) ≤ n := by exact_mod_cast hk
    rw [e, abs_neg, abs_of_nonneg (mul_nonneg (by linarith) hh.le)]
    constructor
    · intro h
      by_contra hne
      have h1 : (1 : ℝ) ≤ n - k := by
        have : (k : ℝ) + 1 ≤ n := by exact_mod_cast (show k + 1 ≤ n by omega)
        linarith
      have h2 : l / n ≤ (n - k) * (l / n) := le_mul_of_one_le_left hh.le h1
      linarith
    · rintro rfl
      rw [sub_self, zero_mul]
      positivity

theorem ed_locs (hN : ∀ a, 0 < N a) (hL : ∀ a, 0 < L a) (ht : 1e-5 + 1e-5 * L 0 < L 0 / N 0) (m : Fin 3 → ℕ) (hm : ∀ a, m a ≤ N a) :
    (edLeft ((boxObj N L).points (gridNode N m)) = true ↔ m 0 = 0) ∧ (edRight (L 0) ((boxObj N L).points (gridNode N m)) = true ↔ m 0 = N 0) := by
  unfold edLeft edRight
  rw [(boxObj_onBox N L).point m hm 0]
  exact ed_tol (N 0) (m 0) (L 0) (hN 0) (hL 0) ht (hm 0)

/-- On elements of degree 1 the faces selected at a plane lie in it, if the nodes do. -/
theorem xFace_flat (F : Fem nn nq nf nfq dim vec) (name : String) (hn : name ∈ linearNames) (e : Elem) (he : getElements name = some e) (hnn : nn = (meshioNodes name).length)
    (hnf : nf = (basixFacets e.cell).length) (rule : QuadRule nfq) (ht : FaceTables F e rule) (loc : Loc dim) (d : Fin dim) (x : ℝ)
    (hloc : ∀ c ∈ F.cells, ∀ a, loc (F.points (c a)) = true → F.points (c a) d = x) : ∀ p ∈ F.selected loc, ∀ q, F.xFace p q d = x := by
  intro p hp q
  have hl : name ∈ lagrangeNames := by
    have : ∀ s ∈ linearNames, s ∈ lagrangeNames := by decide
    exact this name hn
  have hsum := faceTables_valSum F name hl e he hnn rule ht p.2 q
  have key : ∀ a, F.faceShapeVals p.2 q a * F.points (p.1 a) d = F.faceShapeVals p.2 q a * x := by
    intro a
    by_cases ha : a ∈ F.faceInds p.2
    · obtain ⟨k, hk, hsel⟩ := (C13_selected F loc p).mp hp
      obtain ⟨h1, h2⟩ := hsel
      have h3 := h2 a ha
      obtain ⟨h4, h5⟩ := List.getElem?_eq_some_iff.mp hk
      rw [h5] at h3
      rw [hloc p.1 (selected_mem F hp) a h3]
    · rw [faceVals_off F name hn e he hnn rule ht p.2 (hnf ▸ p.2.2) q a ha, zero_mul, zero_mul]
  unfold Fem.xFace
  rw [sum_congr rfl fun a _ => key a, ← sum_mul, hsum, one_mul]

/-- **C131 (the linear demo, HEX8 cells).** On a box of any size and number of cells: the Dirichlet data are accepted, and with any exact linear solver (one exists) the linear branch of `solver` returns a field which solves the posed
problem; its reactions at the clamped end are the force `(0, 0, 100 Ly Lz)` and the bending moment `Σ z R_x = -100 Lx Ly Lz`. -/
theorem C131_program (hN : ∀ a, 0 < N a) (hL : ∀ a, 0 < L a) (ht : 1e-5 + 1e-5 * L 0 < L 0 / N 0) : ∃ ns cs ws,
    dirichletBC ((N 0 + 1) * (N 1 + 1) * (N 2 + 1)) (boxObj N L).points (some leInfo) = .ok (ns, cs, ws) ∧ ∀ usePetsc,
    (∃ lin, ((leProblem (boxObj N L) (L 0)).toProb (groupsOf ns cs ws)).ExactFor usePetsc lin) ∧
    ∀ lin, ((leProblem (boxObj N L) (L 0)).toProb (groupsOf ns cs ws)).ExactFor usePetsc lin → ∀ (precond : Bool) (guess : Option (ℕ → ℝ)) (fuel : ℕ),
      ∃ u R, ((leProblem (boxObj N L) (L 0)).toProb (groupsOf ns cs ws)).rowSolver realArith lin true precond usePetsc guess fuel = .ok u ∧ Held (leProblem (boxObj N L) (L 0)) leInfo (fun n i => u (3 * n + i)) R ∧
        ∑ n ∈ nodesAt (boxObj N L) edLeft, R n 0 = 0 ∧ ∑ n ∈ nodesAt (boxObj N L) edLeft, R n 1 = 0 ∧ ∑ n ∈ nodesAt (boxObj N L) edLeft, R n 2 = 100 * (L 1 * L 2) ∧
        ∑ n ∈ nodesAt (boxObj N L) edLeft, (boxObj N L).points n 2 * R n 0 = -(100 * L 0 * (L 1 * L 2)) ∧ ∑ n ∈ nodesAt (boxObj N L) edLeft, (boxObj N L).points n 1 * R n 0 = 0 := by
  set F := boxObj N L with hF
  set F' : Fem 8 (2 ^ 3) 6 (2 ^ 2) 3 3 := { F with source := none, bodyVar := none, cauchy := none, neumann := some ([edRight (L 0)], [fun _ _ _ => ![0, 0, -100]]) } with hF'
  have hprob : leProblem F (L 0) = elasticFem F' := rfl
  obtain ⟨⟨ns, cs, ws⟩, hbc⟩ := (C17_accepted ((N 0 + 1) * (N 1 + 1) * (N 2 + 1)) F.points leInfo.1 leInfo.2.1 leInfo.2.2).1.mpr ⟨rfl, rfl⟩
  refine ⟨ns, cs, ws, hbc, fun usePetsc => ?_⟩
  have hb : OnBox F N L := boxObj_onBox N L
  have hr : Regular F := boxObj_regular hN hL
  have hloc := ed_locs (N := N) (L := L) hN hL ht
  have hok : ∃ s R, (elasticFem F').computeResidual s = .ok R := by
    refine ⟨fun _ _ => 0, (C13_returns _ _).mpr ⟨boxObj_nonempty hN, ?_, ?_, ?_, ?_⟩⟩
    · intro m h; cases h
    · intro m h; cases h
    · intro lv h; cases h
    · intro lv h
      cases h
      refine ⟨le_refl _, fun l _ p hp q => ?_⟩
      obtain ⟨g, hg, hpg⟩ := (hb.mem_cells p.1).mp (selected_mem F hp)
      show (F.faceJacobian p.1 p.2 q).det ≠ 0
      rw [hpg, hb.faceJacobian _ (boxObj_faces N L) g hg, Matrix.det_diagonal]
      exact prod_ne_zero_iff.mpr fun b _ => div_ne_zero (hL b).ne' (by exact_mod_cast (hN b).ne')
  obtain ⟨h1, h2⟩ := C88_solution F' N L ⟨hb.points, hb.cells⟩ rfl hN hL ⟨(boxObj_tables N L).vals, (boxObj_tables N L).grads, (boxObj_tables N L).weights⟩ rfl hok leInfo.1 leInfo.2.1 leInfo.2.2 (by simp [leInfo]) 0 0 (Nat.zero_le _) (by
    intro m hm h0 i
    have hl := (hloc m hm).1.mpr h0
    fin_cases i
    · exact ⟨(edLeft, 0, fun _ => 0), by simp [leInfo], hl, rfl⟩
    · exact ⟨(edLeft, 1, fun _ => 0), by simp [leInfo], hl, rfl⟩
    · exact ⟨(edLeft, 2, fun _ => 0), by simp [leInfo], hl, rfl⟩) ns cs ws hbc usePetsc
  refine ⟨h1, fun lin hl precond guess fuel => ?_⟩
  obtain ⟨u, hu, ⟨R, hR, hs⟩, -⟩ := h2 lin hl precond guess fuel
  have hup := fun n (hn : n < F.numTotal) (i : Fin 3) => (user_prescriptions ((elasticFem F').toProb (groupsOf ns cs ws)) F.points leInfo.1 leInfo.2.1 leInfo.2.2 (by intro v hv; show v < 3; simp [leInfo] at hv; omega) ns cs ws hbc rfl n i hn i.isLt).1
  have hz := zero_prescriptions ((elasticFem F').toProb (groupsOf ns cs ws)) _ F.points leInfo.1 leInfo.2.1 leInfo.2.2 (by simp [leInfo]) ns cs ws hbc rfl
  have hheld : Held (leProblem F (L 0)) leInfo (fun n i => u (3 * n + i)) R := by
    refine ⟨hR, fun t ht n hn hsel i hi => ?_, fun n hn i h => ?_⟩
    · have hval : t.2.2 (F.points n) = 0 := by
        have := (List.of_mem_zip (List.of_mem_zip ht).2).2
        have h3 : ∀ v ∈ leInfo.2.2, ∀ x, v x = 0 := by simp [leInfo]
        exact h3 _ this _
      show u (3 * n + i) = t.2.2 (F.points n)
      rw [hval]
      cases hlv : lastVal ((elasticFem F').toProb (groupsOf ns cs ws)).prescriptions (3 * n + (i : ℕ)) with
      | none => exact absurd ⟨hsel, hi.symm⟩ ((hup n hn i).mp ((lastVal_none _ _).mp hlv) t ht)
      | some v =>
        have hla := (lastVal_some _ _ _).mp hlv
        refine ((hs n hn i).1 v hla).trans ?_
        obtain ⟨l1, l2, e, -⟩ := hla
        exact hz _ (e ▸ List.mem_append_right _ List.mem_cons_self)
    · refine (hs n hn i).2 ((hup n hn i).mpr fun t ht hh => h t ht hh.1 hh.2.symm)
  have hleft : ∀ n < F.numTotal, edLeft (F.points n) = true → F.points n 0 = 0 := by
    intro n hn h
    obtain ⟨m, hm, rfl⟩ := gridNode_surj N n hn
    rw [hb.point m hm 0, (hloc m hm).1.mp h]
    simp
  have hflat : ∀ p ∈ F.selected (edRight (L 0)), ∀ q, F.xFace p q 0 = L 0 := by
    refine xFace_flat F "HEX8" (by decide) hex8 getElements_hex8 (by decide) (by decide) _ (boxObj_faces N L) _ 0 _ fun c hc a h => ?_
    obtain ⟨m, hm, he⟩ := gridNode_surj N (c a) (hr.nodes c hc a)
    rw [he] at h ⊢
    rw [hb.point m hm 0, (hloc m hm).2.mp h]
    have : (N 0 : ℝ) ≠ 0 := by exact_mod_cast (hN 0).ne'
    field_simp
  have hA : F.selectedArea (edRight (L 0)) = L 1 * L 2 := by
    have h3 := (C83_area F (edRight (L 0)) (fun _ _ => 0) _).mp (C83_box_area F N L hb hN hL _ (boxObj_faces N L) (gaussRule_sum 2) (edRight (L 0)) 0 (N 0) (.inr rfl) (fun m hm => (hloc m hm).2) fun _ _ => 0)
    have h4 := congrFun h3.2.2 (0 : Fin 3)
    rw [← h4, show (univ : Finset (Fin 3)).erase 0 = {1, 2} by decide, prod_pair (by decide)]
  obtain ⟨a1, a2, a3, a4, a5, -⟩ := C131_cantilever F hr (L 0) hleft hflat _ R hheld
  rw [hA] at a3 a4
  exact ⟨u, R, hu, hheld, a1, a2, a3, a4, a5⟩

/-- The demo's box with HEX8 cells: force 400 and bending moment 4000. -/
example : ∃ ns cs ws, dirichletBC (26 * 6 * 6) (boxObj ![25, 5, 5] ![10, 2, 2]).points (some leInfo) = .ok (ns, cs, ws) ∧
    ∃ lin u R, ((leProblem (boxObj ![25, 5, 5] ![10, 2, 2]) 10).toProb (groupsOf ns cs ws)).rowSolver realArith lin true true true none 0 = .ok u ∧ Held (leProblem (boxObj ![25, 5, 5] ![10, 2, 2]) 10) leInfo (fun n i => u (3 * n + i)) R ∧
      ∑ n ∈ nodesAt (boxObj ![25, 5, 5] ![10, 2, 2]) edLeft, R n 2 = 400 ∧ ∑ n ∈ nodesAt (boxObj ![25, 5, 5] ![10, 2, 2]) edLeft, (boxObj ![25, 5, 5] ![10, 2, 2]).points n 2 * R n 0 = -4000 := by
  have h3 : ∀ P : Fin 3 → Prop, P 0 → P 1 → P 2 → ∀ a, P a := fun P h0 h1 h2 a => by fin_cases a <;> assumption
  obtain ⟨ns, cs, ws, hbc, h⟩ := C131_program (N := ![25, 5, 5]) (L := ![10, 2, 2]) (h3 _ (by decide) (by decide) (by decide)) (h3 _ (show (0 : ℝ) < 10 by norm_num) (show (0 : ℝ) < 2 by norm_num) (show (0 : ℝ) < 2 by norm_num)) (by norm_num)
  obtain ⟨⟨lin, hl⟩, h⟩ := h true
  obtain ⟨u, R, hu, hheld, -, -, a3, a4, -⟩ := h lin hl true none 0
  refine ⟨ns, cs, ws, hbc, lin, u, R, hu, hheld, a3.trans (show (100 : ℝ) * (2 * 2) = 400 by norm_num), a4.trans (show -((100 : ℝ) * 10 * (2 * 2)) = -4000 by norm_num)⟩

end

/-! ## The two hyperelastic problems -/

theorem he_reactions (F : Fem nn nq nf nfq 3 3) (hr : Regular F) (Lx : ℝ) (info : List (Loc 3) × List ℕ × List ((Fin 3 → ℝ) → ℝ)) (hinfo : ∀ t ∈ info.1.zip (info.2.1.zip info.2.2), t.1 = edLeft ∨ t.1 = edRight Lx)
    (hdis : ∀ x, edLeft x = true → edRight Lx x = true → False) (u R : ℕ → Fin 3 → ℝ) (h : Held (heProblem F) info u R)
    (hdet : ∀ c ∈ F.cells, ∀ q, 0 < (Matrix.of (F.gradAt u c q) + 1 : T33).det) :
    (∀ i, ∑ n ∈ nodesAt F edLeft, R n i + ∑ n ∈ nodesAt F (edRight Lx), R n i = 0) ∧
    ∀ i j, ∑ n ∈ nodesAt F edLeft, turn (F.points n + u n) (R n) i j + ∑ n ∈ nodesAt F (edRight Lx), turn (F.points n + u n) (R n) i j = 0 := by
  have hr' : Regular (heProblem F) := ⟨hr.nodes, hr.det, hr.grads, hr.vals, hr.faces⟩
  have hfree : ∀ n ∈ range F.numTotal, n ∉ nodesAt F edLeft ∪ nodesAt F (edRight Lx) → ∀ i, R n i = 0 := by
    intro n hn hn' i
    refine h.free n (mem_range.mp hn) i fun t ht hsel => ?_
    exfalso
    rcases hinfo t ht with e | e
    · rw [e] at hsel
      exact hn' (mem_union_left _ (mem_filter.mpr ⟨hn, hsel⟩))
    · rw [e] at hsel
      exact hn' (mem_union_right _ (mem_filter.mpr ⟨hn, hsel⟩))
  have hdj : Disjoint (nodesAt F edLeft) (nodesAt F (edRight Lx)) := by
    rw [disjoint_left]
    intro n h1 h2
    exact hdis _ (mem_filter.mp h1).2 (mem_filter.mp h2).2
  have hrestrict : ∀ f : ℕ → ℝ, (∀ n, (∀ i, R n i = 0) → f n = 0) → ∑ n ∈ range F.numTotal, f n = ∑ n ∈ nodesAt F edLeft, f n + ∑ n ∈ nodesAt F (edRight Lx), f n := by
    intro f hf
    rw [← sum_union hdj]
    symm
    exact sum_subset (union_subset (filter_subset _ _) (filter_subset _ _)) fun n hn hn' => hf n (hfree n hn hn')
  constructor
  · intro i
    rw [← hrestrict (fun n => R n i) fun n hn => hn i]
    exact force_zero (heProblem F) hr' rfl rfl rfl rfl rfl u R h.residual i
  · intro i j
    rw [← hrestrict (fun n => turn (F.points n + u n) (R n) i j) fun n hn => by simp [turn, hn]]
    have hm := C131_deformed (heProblem F) hr'.nodes hr'.det u R h.residual (fun p hp q => kirchhoff_symm 10 0.3 _ (hdet _ (zipIdx_mem hp) q)) i j
    rw [nodalMoment_zero (heProblem F) rfl rfl rfl rfl rfl] at hm
    exact hm

theorem ed_disjoint (Lx : ℝ) (hL : 1e-3 ≤ Lx) (x : Fin 3 → ℝ) (h1 : edLeft x = true) (h2 : edRight Lx x = true) : False := by
  unfold edLeft at h1
  unfold edRight at h2
  rw [isclose_iff] at h1 h2
  rw [abs_of_nonneg (by linarith : (0 : ℝ) ≤ Lx)] at h2
  have h3 := abs_le.mp h1
  have h4 := abs_le.mp h2
  norm_num at h3 h4 hL
  linarith [h3.2, h4.1]

/-- **C131 (twisted block).** For every mesh with regular elements and every solution of the twist demo with positive determinants: the prescribed motion of the left face, "half of the displacement of a rotation by 60 degrees", is a
rotation by 30 degrees with a contraction by `cos 30°`; the reactions of the two faces have zero sum, and zero total moment about every point when taken at the deformed positions. -/
theorem C131_twist (F : Fem nn nq nf nfq 3 3) (hr : Regular F) (u R : ℕ → Fin 3 → ℝ) (h : Held (heProblem F) heInfo u R) (hdet : ∀ c ∈ F.cells, ∀ q, 0 < (Matrix.of (F.gradAt u c q) + 1 : T33).det) :
    let k := Real.cos (Real.pi / 6)
    let y : ℕ → Fin 3 → ℝ := fun n => ![F.points n 0, 0.5 + k * (k * (F.points n 1 - 0.5) - 0.5 * (F.points n 2 - 0.5)), 0.5 + k * (0.5 * (F.points n 1 - 0.5) + k * (F.points n 2 - 0.5))]
    k ^ 2 + 0.5 ^ 2 = 1 ∧ (∀ n ∈ nodesAt F edLeft, F.points n + u n = y n) ∧ (∀ n ∈ nodesAt F (edRight 1), F.points n + u n = F.points n) ∧
    (∀ i, ∑ n ∈ nodesAt F edLeft, R n i + ∑ n ∈ nodesAt F (edRight 1), R n i = 0) ∧
    ∀ (o : Fin 3 → ℝ) i j, ∑ n ∈ nodesAt F edLeft, turn (y n - o) (R n) i j + ∑ n ∈ nodesAt F (edRight 1), turn (F.points n - o) (R n) i j = 0 := by
  intro k y
  obtain ⟨h1, h2⟩ := he_reactions F hr 1 heInfo (by simp [heInfo]) (fun x => ed_disjoint 1 (by norm_num) x) u R h hdet
  have hk : k ^ 2 = 3 / 4 := by
    show Real.cos (Real.pi / 6) ^ 2 = 3 / 4
    rw [Real.cos_pi_div_six, div_pow, Real.sq_sqrt (by norm_num)]
    norm_num
  have hs3 : Real.sin (Real.pi / 3) = k := by
    show _ = Real.cos (Real.pi / 6)
    rw [Real.sin_pi_div_three, Real.cos_pi_div_six]
  have hl : ∀ n ∈ nodesAt F edLeft, F.points n + u n = y n := by
    intro n hn
    obtain ⟨hn1, hn2⟩ := mem_filter.mp hn
    have a0 := h.prescribed (edLeft, 0, fun _ => 0) (by simp [heInfo]) n (mem_range.mp hn1) hn2 0 rfl
    have a1 := h.prescribed (edLeft, 1, heVal2) (by simp [heInfo]) n (mem_range.mp hn1) hn2 1 rfl
    have a2 := h.prescribed (edLeft, 2, heVal3) (by simp [heInfo]) n (mem_range.mp hn1) hn2 2 rfl
    have e1 : (heProblem F).points = F.points := rfl
    simp only [e1, heVal2, heVal3, hs3, Real.cos_pi_div_three] at a0 a1 a2
    funext i
    fin_cases i
    · show F.points n 0 + u n 0 = F.points n 0
      rw [a0, add_zero]
    · show F.points n 1 + u n 1 = 0.5 + k * (k * (F.points n 1 - 0.5) - 0.5 * (F.points n 2 - 0.5))
      rw [a1]
      linear_combination (-(F.points n 1 - 0.5)) * hk
    · show F.points n 2 + u n 2 = 0.5 + k * (0.5 * (F.points n 1 - 0.5) + k * (F.points n 2 - 0.5))
      rw [a2]
      linear_combination (-(F.points n 2 - 0.5)) * hk
  have hrr : ∀ n ∈ nodesAt F (edRight 1), F.points n + u n = F.points n := by
    intro n hn
    obtain ⟨hn1, hn2⟩ := mem_filter.mp hn
    have a0 := h.prescribed (edRight 1, 0, fun _ => 0) (by simp [heInfo]) n (mem_range.mp hn1) hn2 0 rfl
    have a1 := h.prescribed (edRight 1, 1, fun _ => 0) (by simp [heInfo]) n (mem_range.mp hn1) hn2 1 rfl
    have a2 := h.prescribed (edRight 1, 2, fun _ => 0) (by simp [heInfo]) n (mem_range.mp hn1) hn2 2 rfl
    funext i
    fin_cases i <;> simp_all
  refine ⟨by rw [hk]; norm_num, hl, hrr, h1, fun o i j => ?_⟩
  have hsub : ∀ x f : Fin 3 → ℝ, turn (x - o) f i j = turn x f i j - (o i * f j - o j * f i) := by
    intro x f
    simp only [turn, Pi.sub_apply]
    ring
  have h3 := h2 i j
  rw [sum_congr rfl fun n hn => by rw [hl n hn], sum_congr (s₁ := nodesAt F (edRight 1)) rfl fun n hn => by rw [hrr n hn]] at h3
  simp only [hsub, sum_sub_distrib, ← mul_sum]
  linear_combination h3 - o i * h1 j + o j * h1 i

/-- **C131 (buckled beam).** For every mesh with regular elements and every solution of the problem of the buckling application with positive determinants: the end forces are opposite, and the end moments about the undeformed
positions differ by the moment of the end force acting at the prescribed end displacement. -/
theorem C131_beam (F : Fem nn nq nf nfq 3 3) (hr : Regular F) (Lx Ly Lz : ℝ) (hLx : 1e-3 ≤ Lx) (u R : ℕ → Fin 3 → ℝ) (h : Held (heProblem F) (beamInfo Lx Ly Lz) u R)
    (hdet : ∀ c ∈ F.cells, ∀ q, 0 < (Matrix.of (F.gradAt u c q) + 1 : T33).det) :
    let f : Fin 3 → ℝ := fun i => ∑ n ∈ nodesAt F (edRight Lx), R n i
    (∀ i, ∑ n ∈ nodesAt F edLeft, R n i = -f i) ∧
    ∀ i j, ∑ n ∈ nodesAt F edLeft, turn (F.points n) (R n) i j + ∑ n ∈ nodesAt F (edRight Lx), turn (F.points n) (R n) i j = -turn ![-0.2 * Lx, 2 * Ly, 0] f i j := by
  intro f
  obtain ⟨h1, h2⟩ := he_reactions F hr Lx (beamInfo Lx Ly Lz) (by simp [beamInfo]) (fun x => ed_disjoint Lx hLx x) u R h hdet
  refine ⟨fun i => eq_neg_of_add_eq_zero_left (h1 i), fun i j => ?_⟩
  have hl : ∀ n ∈ nodesAt F edLeft, F.points n + u n = F.points n := by
    intro n hn
    obtain ⟨hn1, hn2⟩ := mem_filter.mp hn
    have a0 := h.prescribed (edLeft, 0, fun _ => 0) (by simp [beamInfo]) n (mem_range.mp hn1) hn2 0 rfl
    have a1 := h.prescribed (edLeft, 1, fun _ => 0) (by simp [beamInfo]) n (mem_range.mp hn1) hn2 1 rfl
    have a2 := h.prescribed (edLeft, 2, fun _ => 0) (by simp [beamInfo]) n (mem_range.mp hn1) hn2 2 rfl
    funext i
    fin_cases i <;> simp_all
  have hrr : ∀ n ∈ nodesAt F (edRight Lx), F.points n + u n = F.points n + ![-0.2 * Lx, 2 * Ly, 0] := by
    intro n hn
    obtain ⟨hn1, hn2⟩ := mem_filter.mp hn
    have a0 := h.prescribed (edRight Lx, 0, fun _ => -0.2 * Lx) (by simp [beamInfo]) n (mem_range.mp hn1) hn2 0 rfl
    have a1 := h.prescribed (edRight Lx, 1, fun _ => 2 * Ly) (by simp [beamInfo]) n (mem_range.mp hn1) hn2 1 rfl
    have a2 := h.prescribed (edRight Lx, 2, fun _ => 0 * Lz) (by simp [beamInfo]) n (mem_range.mp hn1) hn2 2 rfl
    congr 1
    funext i
    fin_cases i
    · exact a0
    · exact a1
    · exact a2.trans (zero_mul _)
  have h3 := h2 i j
  rw [sum_congr rfl fun n hn => by rw [hl n hn], sum_congr (s₁ := nodesAt F (edRight Lx)) rfl fun n hn => by rw [hrr n hn]] at h3
  have hadd : ∀ x d g : Fin 3 → ℝ, turn (x + d) g i j = turn x g i j + (d i * g j - d j * g i) := by
    intro x d g
    simp only [turn, Pi.add_apply]
    ring
  simp only [hadd, sum_add_distrib, sum_sub_distrib, ← mul_sum] at h3
  show _ = -(_ * f j - _ * f i)
  linear_combination h3

theorem he_ok (F : Fem nn nq nf nfq 3 3) (hne : F.cells ≠ []) (u : ℕ → Fin 3 → ℝ) : ∃ R, (heProblem F).computeResidual u = .ok R :=
  (C13_returns _ _).mpr ⟨hne, fun _ h => (by cases h), fun _ h => (by cases h), fun _ h => (by cases h), fun _ h => (by cases h)⟩

/-- One cell: the twist is a solution with positive determinants. -/
example : ∃ u R, Held (heProblem (boxObj (fun _ => 1) fun _ => 1)) heInfo u R ∧ ∀ c ∈ (boxObj (fun _ => 1) fun _ => 1).cells, ∀ q, 0 < (Matrix.of ((boxObj (fun _ => 1) fun _ => 1).gradAt u c q) + 1 : T33).det := by
  set F := boxObj (fun _ => 1) fun _ => 1 with hF
  have hb : OnBox F (fun _ => 1) fun _ => 1 := boxObj_onBox _ _
  have hN : ∀ a : Fin 3, 0 < (fun _ => 1 : Fin 3 → ℕ) a := fun _ => by norm_num
  have hL : ∀ a : Fin 3, (0 : ℝ) < (fun _ => 1 : Fin 3 → ℝ) a := fun _ => by norm_num
  set u : ℕ → Fin 3 → ℝ := fun n => ![0, (1 - F.points n 0) * heVal2 (F.points n), (1 - F.points n 0) * heVal3 (F.points n)] with hu
  obtain ⟨R, hR⟩ := he_ok F (boxObj_nonempty hN) u
  have hloc := fun m hm => ed_locs (N := fun _ => 1) (L := fun _ => 1) hN hL (by norm_num) m hm
  have hpt : ∀ n < F.numTotal, (edLeft (F.points n) = true → F.points n 0 = 0) ∧ (edRight 1 (F.points n) = true → F.points n 0 = 1) ∧ (edLeft (F.points n) = true ∨ edRight 1 (F.points n) = true) := by
    intro n hn
    obtain ⟨m, hm, rfl⟩ := gridNode_surj (fun _ => 1) n hn
    have h0 := hm 0
    refine ⟨fun h => ?_, fun h => ?_, ?_⟩
    · rw [hb.point m hm 0, (hloc m hm).1.mp h]; simp
    · rw [hb.point m hm 0, (hloc m hm).2.mp h]; simp
    · rcases Nat.le_one_iff_eq_zero_or_eq_one.mp h0 with h | h
      · exact .inl ((hloc m hm).1.mpr h)
      · exact .inr ((hloc m hm).2.mpr h)
  refine ⟨u, R, ⟨hR, fun t ht n hn hsel i hi => ?_, fun n hn i h => ?_⟩, fun c hc q => ?_⟩
  · have hn' : n < F.numTotal := hn
    obtain ⟨h1, h2, -⟩ := hpt n hn'
    simp only [heInfo, List.zip_cons_cons, List.zip_nil_left, List.mem_cons, List.not_mem_nil, or_false] at ht
    show u n i = t.2.2 (F.points n)
    have hsel' : t.1 (F.points n) = true := hsel
    rcases ht with rfl | rfl | rfl | rfl | rfl | rfl
    · obtain rfl : i = 0 := Fin.ext hi
      rfl
    · obtain rfl : i = 1 := Fin.ext hi
      show (1 - F.points n 0) * _ = _
      rw [h1 hsel', sub_zero, one_mul]
    · obtain rfl : i = 2 := Fin.ext hi
      show (1 - F.points n 0) * _ = _
      rw [h1 hsel', sub_zero, one_mul]
    · obtain rfl : i = 0 := Fin.ext hi
      rfl
    · obtain rfl : i = 1 := Fin.ext hi
      show (1 - F.points n 0) * _ = _
      rw [h2 hsel', sub_self, zero_mul]
    · obtain rfl : i = 2 := Fin.ext hi
      show (1 - F.points n 0) * _ = _
      rw [h2 hsel', sub_self, zero_mul]
  · exfalso
    have hall : ∀ loc : Loc 3, loc = edLeft ∨ loc = edRight 1 → ∀ k : Fin 3, ∃ t ∈ heInfo.1.zip (heInfo.2.1.zip heInfo.2.2), t.1 = loc ∧ (k : ℕ) = t.2.1 := by
      rintro loc (rfl | rfl) k <;> fin_cases k <;> simp [heInfo]
    rcases (hpt n hn).2.2 with hs | hs
    · obtain ⟨t, ht, e, hk⟩ := hall edLeft (.inl rfl) i
      exact h t ht (by rw [e]; exact hs) hk
    · obtain ⟨t, ht, e, hk⟩ := hall (edRight 1) (.inr rfl) i
      exact h t ht (by rw [e]; exact hs) hk
  · obtain ⟨g, hg, rfl⟩ := (hb.mem_cells c).mp hc
    have hg0 : ∀ a, g a = 0 := fun a => by have := (mem_boxGrid _ g).mp hg a; omega
    have hgrad : ∀ i d, F.gradAt u (boxCell (fun _ => 1) g) q i d = ∑ n, u (boxCell (fun _ => 1) g n) i * shapeGradRef hex8 n ((gaussRule 3).pt q) d := by
      intro i d
      unfold Fem.gradAt
      refine sum_congr rfl fun n _ => ?_
      rw [hb.shapeGrad _ (boxObj_tables _ _) hN hL g hg]
      norm_num
    have hp : ∀ n a, F.points (boxCell (fun _ => 1) g n) a = Verif.Mesh.hexCorner n a := by
      intro n a
      rw [hb.corner g hg n a, hg0]
      norm_num
    set x := (gaussRule 3).pt q with hx
    obtain ⟨-, e11, e12⟩ := hex8_grads (fun n => u (boxCell (fun _ => 1) g n) 1) x
    obtain ⟨-, e21, e22⟩ := hex8_grads (fun n => u (boxCell (fun _ => 1) g n) 2) x
    have z : ∀ d, F.gradAt u (boxCell (fun _ => 1) g) q 0 d = 0 := by
      intro d
      rw [hgrad]
      exact sum_eq_zero fun n _ => by simp [hu]
    have hv1 : ∀ n, u (boxCell (fun _ => 1) g n) 1 = (1 - (Verif.Mesh.hexCorner n 0 : ℝ)) * ((0.5 + ((Verif.Mesh.hexCorner n 1 : ℝ) - 0.5) * (1 / 2) - ((Verif.Mesh.hexCorner n 2 : ℝ) - 0.5) * Real.sin (Real.pi / 3) - (Verif.Mesh.hexCorner n 1 : ℝ)) / 2) := by
      intro n
      simp only [hu, heVal2, hp, Real.cos_pi_div_three, Matrix.cons_val_one, Matrix.cons_val_zero]
    have hv2 : ∀ n, u (boxCell (fun _ => 1) g n) 2 = (1 - (Verif.Mesh.hexCorner n 0 : ℝ)) * ((0.5 + ((Verif.Mesh.hexCorner n 1 : ℝ) - 0.5) * Real.sin (Real.pi / 3) + ((Verif.Mesh.hexCorner n 2 : ℝ) - 0.5) * (1 / 2) - (Verif.Mesh.hexCorner n 2 : ℝ)) / 2) := by
      intro n
      simp only [hu, heVal3, hp, Real.cos_pi_div_three]
      rfl
    simp only [hv1, Verif.Mesh.hexCorner] at e11 e12
    simp only [hv2, Verif.Mesh.hexCorner] at e21 e22
    have f11 : F.gradAt u (boxCell (fun _ => 1) g) q 1 1 = -(1 - x 0) / 4 := by
      rw [hgrad]; simp only [hv1]; refine e11.trans ?_; simp; ring
    have f12 : F.gradAt u (boxCell (fun _ => 1) g) q 1 2 = -(1 - x 0) / 2 * Real.sin (Real.pi / 3) := by
      rw [hgrad]; simp only [hv1]; refine e12.trans ?_; simp; ring
    have f21 : F.gradAt u (boxCell (fun _ => 1) g) q 2 1 = (1 - x 0) / 2 * Real.sin (Real.pi / 3) := by
      rw [hgrad]; simp only [hv2]; refine e21.trans ?_; simp; ring
    have f22 : F.gradAt u (boxCell (fun _ => 1) g) q 2 2 = -(1 - x 0) / 4 := by
      rw [hgrad]; simp only [hv2]; refine e22.trans ?_; simp; ring
    have hs : Real.sin (Real.pi / 3) ^ 2 = 3 / 4 := by rw [Real.sin_pi_div_three, div_pow, Real.sq_sqrt (by norm_num)]; norm_num
    have hd : (Matrix.of (F.gradAt u (boxCell (fun _ => 1) g) q) + 1 : T33).det = 3 / 4 + (1 - x 0 - 1) ^ 2 / 4 := by
      rw [Matrix.det_fin_three]
      simp only [Matrix.add_apply, Matrix.of_apply, z, f11, f12, f21, f22]
      rw [Matrix.one_apply_eq, Matrix.one_apply_eq, Matrix.one_apply_eq, Matrix.one_apply_ne (by decide : (1 : Fin 3) ≠ 2), Matrix.one_apply_ne (by decide : (2 : Fin 3) ≠ 1), Matrix.one_apply_ne (by decide : (0 : Fin 3) ≠ 1),
        Matrix.one_apply_ne (by decide : (0 : Fin 3) ≠ 2)]
      linear_combination ((1 - x 0) ^ 2 / 4) * hs
    rw [hd]
    positivity

/-- One cell, the beam's size: the affine motion of the end is a solution with determinant 0.8. -/
example : ∃ u R, Held (heProblem (boxObj (fun _ => 1) ![20, 1, 1])) (beamInfo 20 1 1) u R ∧ ∀ c ∈ (boxObj (fun _ => 1) ![20, 1, 1]).cells, ∀ q, (Matrix.of ((boxObj (fun _ => 1) ![20, 1, 1]).gradAt u c q) + 1 : T33).det = 0.8 := by
  have h3 : ∀ P : Fin 3 → Prop, P 0 → P 1 → P 2 → ∀ a, P a := fun P h0 h1 h2 a => by fin_cases a <;> assumption
  set F := boxObj (fun _ => 1) ![20, 1, 1] with hF
  have hb : OnBox F (fun _ => 1) ![20, 1, 1] := boxObj_onBox _ _
  have hN : ∀ a : Fin 3, 0 < (fun _ => 1 : Fin 3 → ℕ) a := fun _ => by norm_num
  have hL : ∀ a : Fin 3, (0 : ℝ) < (![20, 1, 1] : Fin 3 → ℝ) a := h3 _ (show (0 : ℝ) < 20 by norm_num) (show (0 : ℝ) < 1 by norm_num) (show (0 : ℝ) < 1 by norm_num)
  have hr : Regular F := boxObj_regular hN hL
  set A : Fin 3 → Fin 3 → ℝ := ![![-0.2, 0, 0], ![0.1, 0, 0], ![0, 0, 0]] with hA
  set u : ℕ → Fin 3 → ℝ := fun n i => ∑ d, A i d * F.points n d + 0 with hu
  have hu3 : ∀ n, u n 0 = -0.2 * F.points n 0 ∧ u n 1 = 0.1 * F.points n 0 ∧ u n 2 = 0 := by
    intro n
    simp [hu, hA, Fin.sum_univ_three]
  obtain ⟨R, hR⟩ := he_ok F (boxObj_nonempty hN) u
  have hloc := fun m hm => ed_locs (N := fun _ => 1) (L := ![20, 1, 1]) hN hL (show (1e-5 : ℝ) + 1e-5 * 20 < 20 / ((1 : ℕ) : ℝ) by norm_num) m hm
  have hpt : ∀ n < F.numTotal, (edLeft (F.points n) = true → F.points n 0 = 0) ∧ (edRight 20 (F.points n) = true → F.points n 0 = 20) ∧ (edLeft (F.points n) = true ∨ edRight 20 (F.points n) = true) := by
    intro n hn
    obtain ⟨m, hm, rfl⟩ := gridNode_surj (fun _ => 1) n hn
    have h0 := hm 0
    refine ⟨fun h => ?_, fun h => ?_, ?_⟩
    · rw [hb.point m hm 0, (hloc m hm).1.mp h]; simp
    · rw [hb.point m hm 0, (hloc m hm).2.mp h]; simp
    · rcases Nat.le_one_iff_eq_zero_or_eq_one.mp h0 with h | h
      · exact .inl ((hloc m hm).1.mpr h)
      · exact .inr ((hloc m hm).2.mpr h)
  refine ⟨u, R, ⟨hR, fun t ht n hn hsel i hi => ?_, fun n hn i h => ?_⟩, fun c hc q => ?_⟩
  · have hn' : n < F.numTotal := hn
    obtain ⟨h1, h2, -⟩ := hpt n hn'
    obtain ⟨u0, u1, u2⟩ := hu3 n
    simp only [beamInfo, List.zip_cons_cons, List.zip_nil_left, List.mem_cons, List.not_mem_nil, or_false] at ht
    show u n i = t.2.2 (F.points n)
    have hsel' : t.1 (F.points n) = true := hsel
    rcases ht with rfl | rfl | rfl | rfl | rfl | rfl
    · obtain rfl : i = 0 := Fin.ext hi
      rw [u0, h1 hsel']; simp
    · obtain rfl : i = 1 := Fin.ext hi
      rw [u1, h1 hsel']; simp
    · obtain rfl : i = 2 := Fin.ext hi
      exact u2
    · obtain rfl : i = 0 := Fin.ext hi
      rw [u0, h2 hsel']
    · obtain rfl : i = 1 := Fin.ext hi
      rw [u1, h2 hsel']; norm_num
    · obtain rfl : i = 2 := Fin.ext hi
      rw [u2]; simp
  · exfalso
    have hall : ∀ loc : Loc 3, loc = edLeft ∨ loc = edRight 20 → ∀ k : Fin 3, ∃ t ∈ (beamInfo 20 1 1).1.zip ((beamInfo 20 1 1).2.1.zip (beamInfo 20 1 1).2.2), t.1 = loc ∧ (k : ℕ) = t.2.1 := by
      rintro loc (rfl | rfl) k <;> fin_cases k <;> simp [beamInfo]
    rcases (hpt n hn).2.2 with hs | hs
    · obtain ⟨t, ht, e, hk⟩ := hall edLeft (.inl rfl) i
      exact h t ht (by rw [e]; exact hs) hk
    · obtain ⟨t, ht, e, hk⟩ := hall (edRight 20) (.inr rfl) i
      exact h t ht (by rw [e]; exact hs) hk
  · rw [gradAt_affine F hr.grads A (fun _ => 0) u c (fun n i => rfl) q (hr.det c hc q), Matrix.det_fin_three]
    simp [hA]
    norm_num

end Verif.Fem
