import Verif.Fem.Lemmas
import Verif.Fem.BasisProps
import Verif.Mesh.Props
import Mathlib.Data.List.Sort
import Mathlib.LinearAlgebra.Matrix.Determinant.Basic

/-!
# C10 (patch test), C11 (volumes), C12 (batching), C16 (face selection)
-/
namespace Verif.Fem
open Finset

variable {nn nq nf nfq dim vec : ℕ}

/-! ## C10 -/

theorem getShapeGrads_ok_iff (F : Fem nn nq nf nfq dim vec) (G : List (Fin nq → Fin nn → Fin dim → ℝ) × List (Fin nq → ℝ)) :
    F.getShapeGrads = .ok G ↔ (∀ c ∈ F.cells, ∀ q, (F.jacobian c q).det ≠ 0) ∧ G = (F.cells.map F.shapeGrad, F.cells.map F.JxW) := by
  unfold Fem.getShapeGrads
  split_ifs with h
  · simp only [reduceCtorEq, false_iff, not_and]
    obtain ⟨c, hc, q, hq⟩ := h
    exact fun h' => absurd hq (h' c hc q)
  · push Not at h
    simp only [Except.ok.injEq]
    exact ⟨fun e => ⟨h, e.symm⟩, fun e => e.2.symm⟩

/-- The chain rule at one quadrature point: the physical gradients are dual to the node coordinates. -/
theorem grad_dual (F : Fem nn nq nf nfq dim vec) (c : Fin nn → ℕ) (q : Fin nq) (hdet : (F.jacobian c q).det ≠ 0) (a d : Fin dim) :
    ∑ n, F.points (c n) a * F.shapeGrad c q n d = if a = d then 1 else 0 := by
  have h := Matrix.mul_nonsing_inv (F.jacobian c q) (isUnit_iff_ne_zero.mpr hdet)
  have h2 := congrFun (congrFun h a) d
  rw [Matrix.mul_apply, Matrix.one_apply] at h2
  rw [← h2]
  unfold Fem.shapeGrad
  simp only [mul_sum]
  rw [sum_comm]
  refine sum_congr rfl fun b _ => ?_
  simp only [Fem.jacobian, Matrix.of_apply, sum_mul, Fem.coos]
  exact sum_congr rfl fun n _ => by ring

theorem grad_sum_zero (F : Fem nn nq nf nfq dim vec) (hsum : ∀ q b, ∑ n, F.shapeGradsRef q n b = 0) (c : Fin nn → ℕ) (q : Fin nq) (d : Fin dim) :
    ∑ n, F.shapeGrad c q n d = 0 := by
  unfold Fem.shapeGrad
  rw [sum_comm]
  exact sum_eq_zero fun b _ => by rw [← sum_mul, hsum, zero_mul]

/-- **C10 (gradients).** If the object could be built (all Jacobians invertible) and the reference gradients of the shape functions sum to zero, the FEM gradient of an
affine nodal field `A x + b` is `A` at every quadrature point of every cell. -/
theorem C10_gradient (F : Fem nn nq nf nfq dim vec) (G) (hok : F.getShapeGrads = .ok G) (hsum : ∀ q b, ∑ n, F.shapeGradsRef q n b = 0)
    (A : Fin vec → Fin dim → ℝ) (b : Fin vec → ℝ) (sol : ℕ → Fin vec → ℝ)
    (hsol : ∀ c ∈ F.cells, ∀ n i, sol (c n) i = ∑ d, A i d * F.points (c n) d + b i) :
    F.solToGrad sol = List.replicate F.cells.length fun _ => A := by
  obtain ⟨hdet, -⟩ := (getShapeGrads_ok_iff F G).mp hok
  refine List.eq_replicate_iff.mpr ⟨by simp [Fem.solToGrad], fun g hg => ?_⟩
  obtain ⟨c, hc, rfl⟩ := List.mem_map.mp hg
  funext q i d
  calc ∑ n, sol (c n) i * F.shapeGrad c q n d
      = ∑ n, (∑ a, A i a * (F.points (c n) a * F.shapeGrad c q n d) + b i * F.shapeGrad c q n d) := by
        refine sum_congr rfl fun n _ => ?_
        rw [hsol c hc, add_mul, sum_mul]
        simp only [mul_assoc]
    _ = ∑ a, A i a * (∑ n, F.points (c n) a * F.shapeGrad c q n d) + b i * ∑ n, F.shapeGrad c q n d := by
        rw [sum_add_distrib, sum_comm, mul_sum]
        simp only [mul_sum]
    _ = A i d := by
        simp only [grad_dual F c q (hdet c hc q), grad_sum_zero F hsum, mul_zero, add_zero, mul_ite, mul_one]
        simp

/-- **C10 (values).** If the shape values sum to one, interpolating an affine nodal field to the quadrature points gives the field at the interpolated positions. -/
theorem C10_values (F : Fem nn nq nf nfq dim vec) (hone : ∀ q, ∑ n, F.shapeVals q n = 1)
    (A : Fin vec → Fin dim → ℝ) (b : Fin vec → ℝ) (sol : ℕ → Fin vec → ℝ)
    (hsol : ∀ c ∈ F.cells, ∀ n i, sol (c n) i = ∑ d, A i d * F.points (c n) d + b i) :
    F.convertFromDofToQuad sol = F.quadPoints.map fun X q i => ∑ d, A i d * X q d + b i := by
  unfold Fem.convertFromDofToQuad Fem.quadPoints
  rw [List.map_map]
  refine List.map_congr_left fun c hc => ?_
  funext q i
  simp only [Function.comp, hsol c hc, mul_sum, Fem.coos]
  rw [sum_comm]
  have : b i = ∑ n, b i * F.shapeVals q n := by rw [← mul_sum, hone, mul_one]
  conv_rhs => rw [this, ← sum_add_distrib]
  refine sum_congr rfl fun n _ => ?_
  rw [add_mul, sum_mul]
  congr 1
  exact sum_congr rfl fun d _ => by ring

/-- **C10 (surface values).** The same on the selected faces of a Neumann boundary. -/
theorem C10_surface_values (F : Fem nn nq nf nfq dim vec) (hone : ∀ f q, ∑ n, F.faceShapeVals f q n = 1)
    (A : Fin vec → Fin dim → ℝ) (b : Fin vec → ℝ) (sol : ℕ → Fin vec → ℝ) (inds : List (ℕ × Fin nf))
    (hsol : ∀ c ∈ F.cells, ∀ n i, sol (c n) i = ∑ d, A i d * F.points (c n) d + b i) :
    F.convertNeumannFromDof sol inds = (F.surfaceQuadPoints (F.selectFaces inds)).map fun X q i => ∑ d, A i d * X q d + b i := by
  unfold Fem.convertNeumannFromDof Fem.surfaceQuadPoints
  rw [List.map_map]
  refine List.map_congr_left fun p hp => ?_
  have hc : p.1 ∈ F.cells := by
    obtain ⟨r, -, hr⟩ := List.mem_filterMap.mp hp
    obtain ⟨c, hc, rfl⟩ := Option.map_eq_some_iff.mp hr
    exact List.mem_of_getElem? hc
  funext q i
  simp only [Function.comp, hsol p.1 hc, mul_sum, Fem.coos]
  rw [sum_comm]
  have : b i = ∑ n, b i * F.faceShapeVals p.2 q n := by rw [← mul_sum, hone, mul_one]
  conv_rhs => rw [this, ← sum_add_distrib]
  refine sum_congr rfl fun n _ => ?_
  rw [add_mul, sum_mul]
  congr 1
  exact sum_congr rfl fun d _ => by ring

/-- The tabulated data of the object is that of element `e` at some reference points. -/
structure Tabulated (F : Fem nn nq nf nfq dim vec) (e : Elem) (pts : Fin nq → ℕ → ℝ) : Prop where
  vals : ∀ q n, F.shapeVals q n = shapeVal e n (pts q)
  grads : ∀ q n b, F.shapeGradsRef q n b = shapeGradRef e n (pts q) b

theorem Tabulated.sums {F : Fem nn nq nf nfq dim vec} {name : String} (hn : name ∈ lagrangeNames) {e : Elem} (he : getElements name = some e)
    (hnn : nn = (meshioNodes name).length) {pts : Fin nq → ℕ → ℝ} (h : Tabulated F e pts) :
    (∀ q b, ∑ n, F.shapeGradsRef q n b = 0) ∧ ∀ q, ∑ n, F.shapeVals q n = 1 := by
  constructor
  · intro q b
    simp only [h.grads]
    rw [Fin.sum_univ_eq_sum_range (fun n => shapeGradRef e n (pts q) b), hnn]
    exact (C09_gradients name hn e he _ _).1
  · intro q
    simp only [h.vals]
    rw [Fin.sum_univ_eq_sum_range (fun n => shapeVal e n (pts q)), hnn]
    exact C09_partition name hn e he _

/-- **C10 (supported elements).** For every Lagrange element of `get_elements`, every set of quadrature points and every mesh the object can be built for, affine
fields have exact gradients and exact quadrature point values. -/
theorem C10_elements (F : Fem nn nq nf nfq dim vec) (G) (hok : F.getShapeGrads = .ok G) (name : String) (hn : name ∈ lagrangeNames) (e : Elem)
    (he : getElements name = some e) (hnn : nn = (meshioNodes name).length) (pts : Fin nq → ℕ → ℝ) (ht : Tabulated F e pts)
    (A : Fin vec → Fin dim → ℝ) (b : Fin vec → ℝ) (sol : ℕ → Fin vec → ℝ)
    (hsol : ∀ c ∈ F.cells, ∀ n i, sol (c n) i = ∑ d, A i d * F.points (c n) d + b i) :
    (F.solToGrad sol = List.replicate F.cells.length fun _ => A) ∧
    F.convertFromDofToQuad sol = F.quadPoints.map fun X q i => ∑ d, A i d * X q d + b i :=
  ⟨C10_gradient F G hok (ht.sums hn he hnn).1 A b sol hsol, C10_values F (ht.sums hn he hnn).2 A b sol hsol⟩

/-- Instance of C10: one distorted triangle with corners (0,0), (2,0), (1,3); the object can be built and the field `3x - y + 5` has gradient `(3, -1)`. -/
noncomputable def triExample : Fem 3 1 3 1 2 1 where
  numTotal := 3
  points := fun n => if n = 0 then ![0, 0] else if n = 1 then ![2, 0] else ![1, 3]
  cells := [![0, 1, 2]]
  shapeVals := fun _ => ![1 / 3, 1 / 3, 1 / 3]
  shapeGradsRef := fun _ => ![![-1, -1], ![1, 0], ![0, 1]]
  quadWeights := fun _ => 1 / 2
  faceShapeVals := fun _ _ _ => 0
  faceShapeGradsRef := fun _ _ _ _ => 0
  faceWeights := fun _ _ => 0
  faceNormals := fun _ _ => 0
  faceInds := ![[1, 2], [0, 2], [0, 1]]
  tensorMap := none
  massMap := none
  lapRows := none
  massRows := none
  source := none
  bodyVar := none
  neumann := none
  cauchy := none

theorem triExample_jacobian (q : Fin 1) : triExample.jacobian ![0, 1, 2] q = !![2, 1; 0, 3] := by
  ext i j
  fin_cases i <;> fin_cases j <;> simp [Fem.jacobian, Fem.coos, triExample, Fin.sum_univ_three]

example : triExample.solToGrad (fun n _ => if n = 0 then 5 else if n = 1 then 11 else 5) = [fun _ _ => ![3, -1]] := by
  have hdet : ∀ c ∈ triExample.cells, ∀ q, (triExample.jacobian c q).det ≠ 0 := by
    intro c hc q
    obtain rfl : c = ![0, 1, 2] := by simpa [triExample] using hc
    rw [triExample_jacobian, Matrix.det_fin_two_of]
    norm_num
  refine C10_gradient triExample _ ((getShapeGrads_ok_iff _ _).mpr ⟨hdet, rfl⟩) ?_ (fun _ => ![3, -1]) (fun _ => 5) _ ?_
  · intro q b
    fin_cases b <;> simp [triExample, Fin.sum_univ_three]
  · intro c hc n i
    obtain rfl : c = ![0, 1, 2] := by simpa [triExample] using hc
    fin_cases n <;> simp [triExample, Fin.sum_univ_two] <;> norm_num

/-! ## C11 -/

/-- On a brick of spacing `h` the Jacobian of a Lagrange element is `diag(h)` at every reference point, if the cell's nodes are at the meshio positions. -/
theorem jacobian_brick (F : Fem nn nq nf nfq dim vec) (name : String) (hn : name ∈ lagrangeNames) (e : Elem) (he : getElements name = some e)
    (hnn : nn = (meshioNodes name).length) (hdim : dim = ((meshioCorners name).headD []).length) (pts : Fin nq → ℕ → ℝ) (ht : Tabulated F e pts)
    (c : Fin nn → ℕ) (h o : Fin dim → ℝ)
    (hc : ∀ p a, F.points (c p) a = o a + (((meshioNodes name).getD p []).getD a 0 : ℝ) / 2 * h a) (q : Fin nq) :
    F.jacobian c q = Matrix.diagonal h := by
  ext i j
  have hg := C09_gradients name hn e he (pts q) j
  have h1 : ∑ n : Fin nn, shapeGradRef e n (pts q) j = 0 := by
    rw [Fin.sum_univ_eq_sum_range (fun n => shapeGradRef e n (pts q) j), hnn]; exact hg.1
  have h2 : ∑ n : Fin nn, (((meshioNodes name).getD n []).getD i 0 : ℝ) / 2 * shapeGradRef e n (pts q) j = if (i : ℕ) = j then 1 else 0 := by
    rw [Fin.sum_univ_eq_sum_range (fun n => (((meshioNodes name).getD n []).getD i 0 : ℝ) / 2 * shapeGradRef e n (pts q) j), hnn]
    exact hg.2 i (hdim ▸ i.isLt)
  simp only [Fem.jacobian, Matrix.of_apply, Fem.coos, hc, ht.grads]
  have : ∀ n : Fin nn, (o i + (((meshioNodes name).getD n []).getD i 0 : ℝ) / 2 * h i) * shapeGradRef e n (pts q) j
      = o i * shapeGradRef e n (pts q) j + h i * ((((meshioNodes name).getD n []).getD i 0 : ℝ) / 2 * shapeGradRef e n (pts q) j) := fun n => by ring
  simp only [this, sum_add_distrib, ← mul_sum, h1, h2, mul_zero, zero_add]
  by_cases hij : i = j
  · subst hij; simp
  · rw [Matrix.diagonal_apply_ne _ hij, if_neg (fun hh => hij (Fin.ext hh)), mul_zero]

/-- **C11.** HEX8 on `box_mesh`: at every quadrature point of every cell the Jacobian is `diag(Lx/Nx, Ly/Ny, Lz/Nz)`; so the object can always be built, `JxW` is the weight times
the brick volume (positive for a positive weight), the `JxW` of a cell add up to its volume when the weights add up to one, and all together to `Lx Ly Lz`. -/
theorem C11_box_volumes (Nx Ny Nz : ℕ) (Lx Ly Lz : ℝ) (hNx : 0 < Nx) (hNy : 0 < Ny) (hNz : 0 < Nz) (hLx : 0 < Lx) (hLy : 0 < Ly) (hLz : 0 < Lz)
    (F : Fem 8 nq nf nfq 3 vec) (hpts : F.points = (Verif.Mesh.boxMesh Nx Ny Nz Lx Ly Lz).points.get)
    (hcells : F.cells = (Verif.Mesh.boxMesh Nx Ny Nz Lx Ly Lz).cells.toList) (e : Elem) (he : getElements "HEX8" = some e)
    (pts : Fin nq → ℕ → ℝ) (ht : Tabulated F e pts) :
    (∀ c ∈ F.cells, ∀ q, F.jacobian c q = Matrix.diagonal ![Lx / Nx, Ly / Ny, Lz / Nz]) ∧
    F.getShapeGrads = .ok (F.cells.map F.shapeGrad, List.replicate (Nx * Ny * Nz) fun q => Lx / Nx * (Ly / Ny) * (Lz / Nz) * F.quadWeights q) ∧
    (∀ c ∈ F.cells, ∀ q, 0 < F.quadWeights q → 0 < F.JxW c q) ∧
    (∑ q, F.quadWeights q = 1 → (∀ c ∈ F.cells, ∑ q, F.JxW c q = Lx / Nx * (Ly / Ny) * (Lz / Nz)) ∧
      (F.cells.map fun c => ∑ q, F.JxW c q).sum = Lx * Ly * Lz) := by
  have hbox := Verif.Mesh.C01_box_mesh Nx Ny Nz Lx Ly Lz
  obtain ⟨-, hn, hpos, hbrick, -, -⟩ := hbox
  have hlen : F.cells.length = Nx * Ny * Nz := by rw [hcells]; simp [Arr1.toList, hn]
  have hjac : ∀ c ∈ F.cells, ∀ q, F.jacobian c q = Matrix.diagonal ![Lx / Nx, Ly / Ny, Lz / Nz] := by
    intro c hc q
    rw [hcells] at hc
    obtain ⟨k, hk, rfl⟩ := List.mem_map.mp hc
    obtain ⟨g, ⟨g1, g2, g3, hg⟩, -⟩ := hpos k (List.mem_range.mp hk)
    obtain ⟨-, -, -, hb⟩ := hbrick g.1 g.2.1 g.2.2 g1 g2 g3
    rw [← hg] at hb
    refine jacobian_brick F "HEX8" (by decide) e he (by decide) (by decide) pts ht _ _ (fun a => ((![g.1, g.2.1, g.2.2] a : ℕ) : ℝ) * ![Lx / Nx, Ly / Ny, Lz / Nz] a) ?_ q
    intro p a
    rw [hpts, hb p a]
    have hcorner : ∀ (p : Fin 8) (a : Fin 3), ((meshioNodes "HEX8").getD p []).getD a 0 = 2 * Verif.Mesh.hexCorner p a := by decide +kernel
    rw [hcorner]
    push_cast
    ring
  have hdet : ∀ c ∈ F.cells, ∀ q, (F.jacobian c q).det = Lx / Nx * (Ly / Ny) * (Lz / Nz) := by
    intro c hc q
    rw [hjac c hc q, Matrix.det_diagonal, Fin.prod_univ_three]
    rfl
  have hvol : 0 < Lx / Nx * (Ly / Ny) * (Lz / Nz) := by
    have : (0 : ℝ) < Nx := by exact_mod_cast hNx
    have : (0 : ℝ) < Ny := by exact_mod_cast hNy
    have : (0 : ℝ) < Nz := by exact_mod_cast hNz
    positivity
  have hJ : ∀ c ∈ F.cells, F.JxW c = fun q => Lx / Nx * (Ly / Ny) * (Lz / Nz) * F.quadWeights q := by
    intro c hc
    funext q
    rw [Fem.JxW, hdet c hc q]
  refine ⟨hjac, ?_, ?_, ?_⟩
  · rw [getShapeGrads_ok_iff]
    refine ⟨fun c hc q => by rw [hdet c hc q]; exact hvol.ne', ?_⟩
    congr 1
    rw [← hlen]
    exact (List.eq_replicate_iff.mpr ⟨by simp, fun b hb => by
      obtain ⟨c, hc, rfl⟩ := List.mem_map.mp hb
      exact hJ c hc⟩).symm
  · intro c hc q hq
    rw [hJ c hc]
    exact mul_pos hvol hq
  · intro hw
    have hcell : ∀ c ∈ F.cells, ∑ q, F.JxW c q = Lx / Nx * (Ly / Ny) * (Lz / Nz) := by
      intro c hc
      rw [hJ c hc, ← mul_sum, hw, mul_one]
    refine ⟨hcell, ?_⟩
    rw [List.map_congr_left hcell, List.map_const', List.sum_replicate, hlen, nsmul_eq_mul]
    have : (Nx : ℝ) ≠ 0 := by exact_mod_cast hNx.ne'
    have : (Ny : ℝ) ≠ 0 := by exact_mod_cast hNy.ne'
    have : (Nz : ℝ) ≠ 0 := by exact_mod_cast hNz.ne'
    push_cast
    field_simp

/-- **C11 (two dimensions).** The same for QUAD4 on `rectangle_mesh`. -/
theorem C11_rectangle_areas (Nx Ny : ℕ) (Lx Ly : ℝ) (hNx : 0 < Nx) (hNy : 0 < Ny) (hLx : 0 < Lx) (hLy : 0 < Ly)
    (F : Fem 4 nq nf nfq 2 vec) (hpts : F.points = (Verif.Mesh.rectangleMesh Nx Ny Lx Ly).points.get)
    (hcells : F.cells = (Verif.Mesh.rectangleMesh Nx Ny Lx Ly).cells.toList) (e : Elem) (he : getElements "QUAD4" = some e)
    (pts : Fin nq → ℕ → ℝ) (ht : Tabulated F e pts) :
    (∀ c ∈ F.cells, ∀ q, F.jacobian c q = Matrix.diagonal ![Lx / Nx, Ly / Ny]) ∧
    (∀ c ∈ F.cells, ∀ q, 0 < F.quadWeights q → 0 < F.JxW c q) ∧
    (∑ q, F.quadWeights q = 1 → (F.cells.map fun c => ∑ q, F.JxW c q).sum = Lx * Ly) := by
  have hbox := Verif.Mesh.C02_rectangle_mesh Nx Ny Lx Ly
  obtain ⟨-, hn, hpos, hbrick, -⟩ := hbox
  have hlen : F.cells.length = Nx * Ny := by rw [hcells]; simp [Arr1.toList, hn]
  have hjac : ∀ c ∈ F.cells, ∀ q, F.jacobian c q = Matrix.diagonal ![Lx / Nx, Ly / Ny] := by
    intro c hc q
    rw [hcells] at hc
    obtain ⟨k, hk, rfl⟩ := List.mem_map.mp hc
    obtain ⟨g, ⟨g1, g2, hg⟩, -⟩ := hpos k (List.mem_range.mp hk)
    obtain ⟨-, -, -, hb⟩ := hbrick g.1 g.2 g1 g2
    rw [← hg] at hb
    refine jacobian_brick F "QUAD4" (by decide) e he (by decide) (by decide) pts ht _ _ (fun a => ((![g.1, g.2] a : ℕ) : ℝ) * ![Lx / Nx, Ly / Ny] a) ?_ q
    intro p a
    rw [hpts, hb p a]
    have hcorner : ∀ (p : Fin 4) (a : Fin 2), ((meshioNodes "QUAD4").getD p []).getD a 0 = 2 * Verif.Mesh.quadCorner p a := by decide +kernel
    rw [hcorner]
    push_cast
    ring
  have hJ : ∀ c ∈ F.cells, ∀ q, F.JxW c q = Lx / Nx * (Ly / Ny) * F.quadWeights q := by
    intro c hc q
    rw [Fem.JxW, hjac c hc q, Matrix.det_diagonal, Fin.prod_univ_two]
    rfl
  have hx : (0 : ℝ) < Nx := by exact_mod_cast hNx
  have hy : (0 : ℝ) < Ny := by exact_mod_cast hNy
  refine ⟨hjac, fun c hc q hq => ?_, fun hw => ?_⟩
  · rw [hJ c hc]
    positivity
  · have hcell : ∀ c ∈ F.cells, ∑ q, F.JxW c q = Lx / Nx * (Ly / Ny) := by
      intro c hc
      simp only [hJ c hc, ← mul_sum, hw, mul_one]
    rw [List.map_congr_left hcell, List.map_const', List.sum_replicate, hlen, nsmul_eq_mul]
    push_cast
    field_simp

/-- The tabulation hypothesis of C11 is satisfiable for any reference points, and the weights may sum to one: the 2x1x1 box of size 4x3x5. -/
example : ∃ F : Fem 8 1 6 1 3 1, F.points = (Verif.Mesh.boxMesh 2 1 1 (4 : ℝ) 3 5).points.get ∧ F.cells = (Verif.Mesh.boxMesh 2 1 1 (4 : ℝ) 3 5).cells.toList ∧
    Tabulated F ⟨.P, .hexahedron, .quadrilateral, 2, 1, [0, 1, 3, 2, 4, 5, 7, 6]⟩ (fun _ _ => 1 / 3) ∧ ∑ q, F.quadWeights q = 1 ∧
    (F.cells.map fun c => ∑ q, F.JxW c q).sum = 60 := by
  set e : Elem := ⟨.P, .hexahedron, .quadrilateral, 2, 1, [0, 1, 3, 2, 4, 5, 7, 6]⟩
  set F : Fem 8 1 6 1 3 1 := ⟨12, (Verif.Mesh.boxMesh 2 1 1 (4 : ℝ) 3 5).points.get, (Verif.Mesh.boxMesh 2 1 1 (4 : ℝ) 3 5).cells.toList,
    fun _ n => shapeVal e n (fun _ => 1 / 3), fun _ n b => shapeGradRef e n (fun _ => 1 / 3) b, fun _ => 1, fun _ _ _ => 0, fun _ _ _ _ => 0, fun _ _ => 0,
    fun _ _ => 0, fun _ => [], none, none, none, none, none, none, none, none⟩ with hF
  have ht : Tabulated F e (fun _ _ => 1 / 3) := ⟨fun _ _ => rfl, fun _ _ _ => rfl⟩
  have hw : ∑ q, F.quadWeights q = 1 := by simp [hF]
  refine ⟨F, rfl, rfl, ht, hw, ?_⟩
  rw [((C11_box_volumes 2 1 1 4 3 5 (by norm_num) (by norm_num) (by norm_num) (by norm_num) (by norm_num) (by norm_num) F rfl rfl e rfl _ ht).2.2.2 hw).2]
  norm_num

/-! ## C12 -/

/-- **C12 (values).** For any number of cells, any kernel and any inputs: the batched evaluation fails iff there is no cell or the leading sizes of the inputs differ;
otherwise it returns exactly the kernel of every row, in order (`n = len(self.cells)` is the size of the first input). -/
theorem C12_values {γ δ : Type} (n : ℕ) (f : γ → δ) (t : Tree γ) (hhead : t.sizes.headD 0 = n) (out : List δ) :
    splitCompute n f t = .ok out ↔ 0 < n ∧ (∀ s ∈ t.sizes, s = n) ∧ out = (List.range n).map fun k => f (t.row k) := by
  have hne : 0 < n → t.sizes ≠ [] := by
    rintro h0 h
    rw [h] at hhead
    simp at hhead
    omega
  constructor
  · intro h
    cases hb : splitBatches n f t with
    | error e => rw [splitCompute, hb] at h; cases h
    | ok res =>
      obtain ⟨h1, h2⟩ := splitBatches_sizes n f t hhead res hb
      refine ⟨h1, h2, ?_⟩
      rw [splitCompute_ok n h1 f t n (hne h1) h2] at h
      injection h with h
      exact h.symm
  · rintro ⟨h1, h2, rfl⟩
    exact splitCompute_ok n h1 f t n (hne h1) h2

/-- **C12 (values and Jacobians).** Likewise with the Jacobian flag: both lists are complete, in order and aligned. -/
theorem C12_jacobians {γ δ ε : Type} (n : ℕ) (f : γ → δ × ε) (t : Tree γ) (hhead : t.sizes.headD 0 = n) (out : List δ × List ε) :
    splitComputeJac n f t = .ok out ↔
      0 < n ∧ (∀ s ∈ t.sizes, s = n) ∧ out = ((List.range n).map fun k => (f (t.row k)).1, (List.range n).map fun k => (f (t.row k)).2) := by
  have hne : 0 < n → t.sizes ≠ [] := by
    rintro h0 h
    rw [h] at hhead
    simp at hhead
    omega
  constructor
  · intro h
    cases hb : splitBatches n f t with
    | error e => rw [splitComputeJac, hb] at h; cases h
    | ok res =>
      obtain ⟨h1, h2⟩ := splitBatches_sizes n f t hhead res hb
      refine ⟨h1, h2, ?_⟩
      rw [splitComputeJac_ok n h1 f t n (hne h1) h2] at h
      injection h with h
      exact h.symm
  · rintro ⟨h1, h2, rfl⟩
    exact splitComputeJac_ok n h1 f t n (hne h1) h2

/-- **C12 (no cells).** With zero cells the batch size computation divides by zero. -/
theorem C12_empty {γ δ ε : Type} (f : γ → δ) (g : γ → δ × ε) (t : Tree γ) :
    splitCompute 0 f t = .error .zeroDivision ∧ splitComputeJac 0 g t = .error .zeroDivision := ⟨rfl, rfl⟩

/-- Instance: 47 cells are cut into 19 batches of two and one of nine, and nothing is lost. -/
example : splitCompute 47 (fun k : ℕ => k * k) ⟨[47, 47], fun k => k⟩ = .ok ((List.range 47).map fun k => k * k) :=
  (C12_values 47 _ _ rfl _).mpr ⟨by norm_num, by simp, rfl⟩

/-- Instance: an internal variable with one row too few is rejected, not silently cut. -/
example : ∀ out, splitCompute 47 (fun k : ℕ => k * k) ⟨[47, 46], fun k => k⟩ ≠ .ok out := by
  intro out h
  have := ((C12_values 47 _ _ rfl _).mp h).2.1 46 (by simp)
  omega

/-! ## C16 -/

/-- All vertices of face `f` of the cell satisfy the predicate (specification of a selected face). -/
def FaceSelected (F : Fem nn nq nf nfq dim vec) (loc : Loc dim) (k : ℕ) (f : Fin nf) : Prop :=
  ∃ h : k < F.cells.length, ∀ v ∈ F.faceInds f, loc (F.points (F.cells[k] v)) = true

theorem C16_mem (F : Fem nn nq nf nfq dim vec) (loc : Loc dim) (p : ℕ × Fin nf) :
    p ∈ F.boundaryInds loc ↔ FaceSelected F loc p.1 p.2 := by
  obtain ⟨k, f⟩ := p
  unfold Fem.boundaryInds
  rw [List.mem_flatMap]
  constructor
  · rintro ⟨⟨c, k'⟩, hc, h⟩
    obtain ⟨f', -, hf⟩ := List.mem_filterMap.mp h
    split_ifs at hf with hb
    simp only [Option.some.injEq, Prod.mk.injEq] at hf
    obtain ⟨rfl, rfl⟩ := hf
    have hc := List.mem_zipIdx_iff_getElem?.mp hc
    obtain ⟨h1, h2⟩ := List.getElem?_eq_some_iff.mp hc
    simp only at h1 h2
    refine ⟨h1, fun v hv => ?_⟩
    simp only [h2]
    exact List.all_eq_true.mp hb v hv
  · rintro ⟨hk, h⟩
    refine ⟨(F.cells[k], k), List.mem_zipIdx_iff_getElem?.mpr (List.getElem?_eq_getElem hk), ?_⟩
    refine List.mem_filterMap.mpr ⟨f, List.mem_finRange f, ?_⟩
    exact if_pos (List.all_eq_true.mpr h)

/-- **C16.** `get_boundary_conditions_inds` returns one list per location function; each one holds exactly the (cell, local face) pairs all of whose vertices satisfy the predicate, in strictly
increasing (cell, face) order (so without repetition). -/
theorem C16_selection (F : Fem nn nq nf nfq dim vec) (locs : List (Loc dim)) :
    List.Forall₂ (fun loc inds => (∀ p, p ∈ inds ↔ FaceSelected F loc p.1 p.2) ∧
      inds.Pairwise fun p q => p.1 < q.1 ∨ p.1 = q.1 ∧ p.2 < q.2) locs (F.getBoundaryConditionsInds locs) := by
  unfold Fem.getBoundaryConditionsInds
  rw [List.forall₂_map_right_iff, List.forall₂_same]
  intro loc _
  refine ⟨C16_mem F loc, ?_⟩
  unfold Fem.boundaryInds
  rw [List.pairwise_flatMap]
  constructor
  · rintro ⟨c, k⟩ -
    rw [List.pairwise_filterMap]
    refine (List.pairwise_lt_finRange nf).imp ?_
    intro f g hfg p hp q hq
    split_ifs at hp with h1
    split_ifs at hq with h2
    simp only [Option.some.injEq] at hp hq
    subst hp hq
    exact Or.inr ⟨rfl, hfg⟩
  · have hz : ∀ (l : List (Fin nn → ℕ)) (j : ℕ), (l.zipIdx j).Pairwise fun p q => p.2 < q.2 := by
      intro l j
      rw [List.pairwise_iff_getElem]
      intro a b ha hb hab
      simp only [List.getElem_zipIdx]
      omega
    refine (hz F.cells 0).imp ?_
    intro a b hab p hp q hq
    obtain ⟨f, -, hf⟩ := List.mem_filterMap.mp hp
    obtain ⟨g, -, hg⟩ := List.mem_filterMap.mp hq
    split_ifs at hf with h1
    split_ifs at hg with h2
    simp only [Option.some.injEq] at hf hg
    subst hf hg
    exact Or.inl hab

open Classical in
/-- **C16 (count).** `Mesh.count_selected_faces` is the number of (cell, local face) pairs all of whose vertices satisfy the predicate. -/
theorem C16_count (points : ℕ → Fin dim → ℝ) (cells : List (Fin nn → ℕ)) (faces : Fin nf → List (Fin nn)) (loc : Loc dim) :
    Fem.countSelectedFaces points cells faces loc
      = (univ.filter fun p : Fin cells.length × Fin nf => ∀ v ∈ faces p.2, loc (points (cells[p.1] v)) = true).card := by
  unfold Fem.countSelectedFaces
  rw [List.length_flatMap, List.map_map, List.map_map]
  have h1 : ∀ c : Fin nn → ℕ, ((List.finRange nf).filter fun f => (faces f).all fun v => loc (points (c v))).length
      = (univ.filter fun f : Fin nf => ∀ v ∈ faces f, loc (points (c v)) = true).card := by
    intro c
    rw [← List.toFinset_card_of_nodup ((List.nodup_finRange nf).filter _)]
    congr 1
    ext f
    simp
  have h2 : (univ.filter fun p : Fin cells.length × Fin nf => ∀ v ∈ faces p.2, loc (points (cells[p.1] v)) = true).card
      = ∑ k : Fin cells.length, (univ.filter fun f : Fin nf => ∀ v ∈ faces f, loc (points (cells[k] v)) = true).card := by
    simp only [card_filter]
    rw [← univ_product_univ, sum_product]
  rw [h2]
  have h3 := List.sum_ofFn (f := fun k : Fin cells.length => (univ.filter fun f : Fin nf => ∀ v ∈ faces f, loc (points (cells[k] v)) = true).card)
  rw [← h3]
  congr 1
  refine List.ext_getElem (by simp) fun i hi1 hi2 => ?_
  simp only [List.getElem_map, List.getElem_ofFn, Function.comp]
  exact h1 _

/-- Both agree: the length of the list of the location function is the count. -/
theorem C16_consistent (F : Fem nn nq nf nfq dim vec) (loc : Loc dim) :
    (F.boundaryInds loc).length = Fem.countSelectedFaces F.points F.cells F.faceInds loc := by
  unfold Fem.boundaryInds Fem.countSelectedFaces
  rw [List.length_flatMap, List.length_flatMap, List.map_map, List.map_map]
  congr 1
  refine List.ext_getElem (by simp) fun i hi1 hi2 => ?_
  simp only [List.getElem_map, List.getElem_zipIdx, Function.comp]
  have : ∀ (P : Fin nf → Bool) (k : ℕ) (l : List (Fin nf)), (l.filterMap fun f => if P f then some (k, f) else none).length = (l.filter P).length := by
    intro P k l
    induction l with
    | nil => rfl
    | cons a l ih =>
      by_cases h : P a
      · simp [h, ih]
      · simp [h, ih]
  exact this _ _ _

/-- Instance: on the triangle example the predicate `y = 0` selects exactly face 2 (nodes 0 and 1). -/
example : triExample.boundaryInds (fun x => decide (x 1 = 0)) = [(0, 2)] := by
  have h0 : triExample.cells.zipIdx = [(![0, 1, 2], 0)] := rfl
  unfold Fem.boundaryInds
  rw [h0]
  have h3 : List.finRange 3 = [0, 1, 2] := rfl
  simp [h3, Fem.onBoundary, triExample, Fem.coos]

end Verif.Fem
