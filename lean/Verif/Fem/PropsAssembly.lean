import Verif.Fem.Assembly
import Verif.Fem.PropsGeom

/-!
# C13 (assembly) and C15 (balance of loads)
-/
namespace Verif.Fem
open Finset

variable {nn nq nf nfq dim vec : ℕ}

/-! ## Specification: the weak form, written as integrals -/

/-- Sum of nodal contributions `v a` over the local nodes `a` of a cell which are the node `n`. -/
def nodal (n : ℕ) (c : Fin nn → ℕ) (v : Fin nn → ℝ) : ℝ := ∑ a ∈ univ.filter (fun a => c a = n), v a

namespace Fem
variable (F : Fem nn nq nf nfq dim vec)

/-- Field values and gradient at a quadrature point of a cell. -/
def uAt (sol : ℕ → Fin vec → ℝ) (c : Fin nn → ℕ) (q : Fin nq) (i : Fin vec) : ℝ := ∑ n, sol (c n) i * F.shapeVals q n

@[inherit_doc uAt]
noncomputable def gradAt (sol : ℕ → Fin vec → ℝ) (c : Fin nn → ℕ) (q : Fin nq) (i : Fin vec) (d : Fin dim) : ℝ := ∑ n, sol (c n) i * F.shapeGrad c q n d

/-- The "stress" of cell `k` (zero without a tensor map). -/
def stress (k : ℕ) (q : Fin nq) (g : Fin vec → Fin dim → ℝ) (i : Fin vec) (d : Fin dim) : ℝ := (F.tensorMap.elim 0 fun tm => tm k q g) i d

/-- The "mass" term of cell `k` (zero without a mass map). -/
def massAt (k : ℕ) (q : Fin nq) (u : Fin vec → ℝ) (i : Fin vec) : ℝ := (F.massMap.elim 0 fun mm => mm k q u) i

/-- `∫_cell stress(∇u) : ∇v + mass(u) v` with the test function of local node `a`, component `i`. -/
noncomputable def volTerm (sol : ℕ → Fin vec → ℝ) (c : Fin nn → ℕ) (k : ℕ) (a : Fin nn) (i : Fin vec) : ℝ :=
  ∑ q, ((∑ d, F.stress k q (F.gradAt sol c q) i d * F.shapeGrad c q a d) + F.massAt k q (F.uAt sol c q) i * F.shapeVals q a) * F.JxW c q

/-- Field value at a face quadrature point. -/
def uFace (sol : ℕ → Fin vec → ℝ) (p : (Fin nn → ℕ) × Fin nf) (q : Fin nfq) (i : Fin vec) : ℝ := ∑ n, sol (p.1 n) i * F.faceShapeVals p.2 q n

/-- Position of a face quadrature point. -/
def xFace (p : (Fin nn → ℕ) × Fin nf) (q : Fin nfq) (d : Fin dim) : ℝ := ∑ n, F.faceShapeVals p.2 q n * F.points (p.1 n) d

/-- Position of a quadrature point. -/
def xAt (c : Fin nn → ℕ) (q : Fin nq) (d : Fin dim) : ℝ := ∑ n, F.shapeVals q n * F.points (c n) d

/-- The volume load density at a quadrature point: `internal_vars['body']` replaces the source function. -/
def load (c : Fin nn → ℕ) (q : Fin nq) (i : Fin vec) : ℝ :=
  match F.bodyVar, F.source with
  | some (s, mm), _ => mm (F.uAt s c q) i
  | none, some f => f (F.xAt c q) i
  | none, none => 0

/-- The pairs (location function, value function) of an optional boundary specification. -/
def pairs {α β : Type} (o : Option (List α × List β)) : List (α × β) := o.elim [] fun lv => lv.1.zip lv.2

end Fem

theorem nodal_eq (n : ℕ) (c : Fin nn → ℕ) (v : Fin nn → ℝ) : (∑ a, if c a = n then v a else 0) = nodal n c v := (sum_filter _ _).symm

theorem kernel_eq_volTerm (F : Fem nn nq nf nfq dim vec) (sol : ℕ → Fin vec → ℝ) (c : Fin nn → ℕ) (k : ℕ) (a : Fin nn) (i : Fin vec) :
    F.kernel (F.cellRow k c sol) (fun n => sol (c n)) a i = F.volTerm sol c k a i := by
  unfold Fem.kernel Fem.volTerm Fem.stress Fem.massAt
  simp only [add_mul, sum_add_distrib]
  congr 1
  · cases F.tensorMap with
    | none => simp
    | some tm =>
      simp only [Fem.laplaceKernel, Fem.cellRow, Fem.vGradsJxW, Option.elim, sum_mul]
      exact sum_congr rfl fun q _ => sum_congr rfl fun d _ => (mul_assoc _ _ _).symm
  · cases F.massMap with
    | none => simp
    | some mm => rfl

/-- **C13.** Whenever `compute_residual` returns, its entry at node `n`, component `i` is the sum over all (cell, local node) pairs attached to `n` of the element integrals, plus the same
over the selected Cauchy faces, minus the volume loads and minus the Neumann loads: every contribution exactly once, repeated nodes included. -/
theorem C13_residual (F : Fem nn nq nf nfq dim vec) (sol R : ℕ → Fin vec → ℝ) (h : F.computeResidual sol = .ok R) (n : ℕ) (i : Fin vec) :
    R n i = (F.cells.zipIdx.map fun p => nodal n p.1 fun a => F.volTerm sol p.1 p.2 a i).sum
      + ((Fem.pairs F.cauchy).map fun lv => ((F.selected lv.1).map fun p => nodal n p.1 fun a =>
          ∑ q, lv.2 (F.uFace sol p q) i * F.faceShapeVals p.2 q a * F.nansonScale p.1 p.2 q).sum).sum
      - (F.cells.map fun c => nodal n c fun a => ∑ q, F.shapeVals q a * F.load c q i * F.JxW c q).sum
      - ((Fem.pairs F.neumann).map fun lv => ((F.selected lv.1).zipIdx.map fun p => nodal n p.1.1 fun a =>
          ∑ q, F.faceShapeVals p.1.2 q a * lv.2 p.2 q (F.xFace p.1 q) i * F.nansonScale p.1.1 p.1.2 q).sum).sum := by
  obtain ⟨-, -, -, rfl⟩ := (computeResidual_ok_iff F sol R).mp h
  beta_reduce
  congr 1
  · congr 1
    · congr 1
      · unfold Fem.cellSum
        congr 1
        refine List.map_congr_left fun p _ => ?_
        rw [nodal_eq]
        simp only [kernel_eq_volTerm]
      · unfold Fem.faceSum
        cases F.cauchy with
        | none => rfl
        | some lv =>
          obtain ⟨l, v⟩ := lv
          show ((l.zip v).map _).sum = ((l.zip v).map _).sum
          congr 1
          refine List.map_congr_left fun p _ => ?_
          congr 1
          refine List.map_congr_left fun p _ => ?_
          rw [nodal_eq]
          rfl
    · unfold Fem.bodySum Fem.load
      cases F.bodyVar with
      | some sm =>
        obtain ⟨s, mm⟩ := sm
        dsimp only
        congr 1
        refine List.map_congr_left fun p _ => ?_
        rw [nodal_eq]
        unfold Fem.massKernel
        congr 1
        funext a
        exact sum_congr rfl fun q _ => by rw [mul_comm (F.shapeVals q a)]; rfl
      | none =>
        cases F.source with
        | none => simp [nodal]
        | some f =>
          dsimp only
          congr 1
          refine List.map_congr_left fun p _ => ?_
          rw [nodal_eq]
          rfl
  · unfold Fem.neumannSum
    cases F.neumann with
    | none => rfl
    | some lv =>
      obtain ⟨l, v⟩ := lv
      show ((l.zip v).map _).sum = ((l.zip v).map _).sum
      congr 1
      refine List.map_congr_left fun p _ => ?_
      unfold Fem.neumannTerm
      congr 1
      refine List.map_congr_left fun p _ => ?_
      rw [nodal_eq]
      rfl

/-- **C13 (when it returns).** `compute_residual` returns iff there is a cell, the internal variables have one row per cell, every given Cauchy specification is nonempty, every location function
has a value function, and the Jacobians on all selected faces are invertible; this does not depend on the solution. -/
theorem C13_returns (F : Fem nn nq nf nfq dim vec) (sol : ℕ → Fin vec → ℝ) :
    (∃ R, F.computeResidual sol = .ok R) ↔
      F.cells ≠ [] ∧ (∀ m, F.massRows = some m → m = F.cells.length) ∧ (∀ m, F.lapRows = some m → m = F.cells.length) ∧
      (∀ lv, F.cauchy = some lv → lv.1 ≠ [] ∧ lv.1.length ≤ lv.2.length ∧ ∀ l ∈ lv.1, ∀ p ∈ F.selected l, ∀ q, (F.faceJacobian p.1 p.2 q).det ≠ 0) ∧
      (∀ lv, F.neumann = some lv → lv.1.length ≤ lv.2.length ∧ ∀ l ∈ lv.1, ∀ p ∈ F.selected l, ∀ q, (F.faceJacobian p.1 p.2 q).det ≠ 0) := by
  have hrows : F.RowsOk ↔ F.cells ≠ [] ∧ (∀ m, F.massRows = some m → m = F.cells.length) ∧ (∀ m, F.lapRows = some m → m = F.cells.length) := by
    have hg : ∀ o : Option ℕ, o.getD F.cells.length = F.cells.length ↔ ∀ m, o = some m → m = F.cells.length := by
      intro o
      cases o <;> simp
    constructor
    · rintro ⟨h1, h2, h3⟩
      exact ⟨List.length_pos_iff.mp h1, (hg _).mp h2, (hg _).mp h3⟩
    · rintro ⟨h1, h2, h3⟩
      exact ⟨List.length_pos_iff.mpr h1, (hg _).mpr h2, (hg _).mpr h3⟩
  constructor
  · rintro ⟨R, h⟩
    obtain ⟨h1, h2, h3, -⟩ := (computeResidual_ok_iff F sol R).mp h
    obtain ⟨r1, r2, r3⟩ := hrows.mp h1
    refine ⟨r1, r2, r3, ?_, ?_⟩
    · rintro ⟨l, v⟩ hlv
      obtain ⟨a, b, c⟩ := h2 l v hlv
      exact ⟨a, c, b⟩
    · rintro ⟨l, v⟩ hlv
      obtain ⟨b, c⟩ := h3 l v hlv
      exact ⟨c, b⟩
  · rintro ⟨r1, r2, r3, h2, h3⟩
    refine ⟨_, (computeResidual_ok_iff F sol _).mpr ⟨hrows.mpr ⟨r1, r2, r3⟩, ?_, ?_, rfl⟩⟩
    · intro l v hlv
      obtain ⟨a, c, b⟩ := h2 (l, v) hlv
      exact ⟨a, b, c⟩
    · intro l v hlv
      obtain ⟨c, b⟩ := h3 (l, v) hlv
      exact ⟨b, c⟩

/-- The selected faces are those of `get_boundary_conditions_inds` (C16), with the cell number replaced by the cell's nodes. -/
theorem C13_selected (F : Fem nn nq nf nfq dim vec) (loc : Loc dim) (p : (Fin nn → ℕ) × Fin nf) :
    p ∈ F.selected loc ↔ ∃ k, F.cells[k]? = some p.1 ∧ FaceSelected F loc k p.2 := by
  unfold Fem.selected
  simp only [List.mem_flatMap, List.mem_map, List.mem_filter, List.mem_finRange, true_and]
  constructor
  · rintro ⟨c, hc, f, hf, rfl⟩
    obtain ⟨k, hk, rfl⟩ := List.mem_iff_getElem.mp hc
    exact ⟨k, List.getElem?_eq_getElem hk, hk, List.all_eq_true.mp hf⟩
  · rintro ⟨k, hk, h1, h2⟩
    obtain ⟨h3, h4⟩ := List.getElem?_eq_some_iff.mp hk
    exact ⟨p.1, by rw [← h4]; exact List.getElem_mem h3, p.2, by
      rw [← h4]; exact List.all_eq_true.mpr h2, rfl⟩

/-! ## C15 -/

theorem sum_nodal (N : ℕ) (c : Fin nn → ℕ) (hc : ∀ a, c a < N) (v : Fin nn → ℝ) : ∑ n ∈ range N, nodal n c v = ∑ a, v a := by
  unfold nodal
  simp only [sum_filter]
  rw [sum_comm]
  refine sum_congr rfl fun a _ => ?_
  rw [sum_ite_eq]
  simp [hc a]

theorem selected_mem (F : Fem nn nq nf nfq dim vec) {loc : Loc dim} {p : (Fin nn → ℕ) × Fin nf} (hp : p ∈ F.selected loc) : p.1 ∈ F.cells := by
  obtain ⟨c, hc, h⟩ := List.mem_flatMap.mp hp
  obtain ⟨f, -, rfl⟩ := List.mem_map.mp h
  exact hc

theorem sum_map_congr {α M : Type*} [AddCommMonoid M] {l : List α} {f g : α → M} (h : ∀ a ∈ l, f a = g a) : (l.map f).sum = (l.map g).sum := by
  rw [List.map_congr_left h]

/-- **C13 (total).** Summed over all nodes, the residual is the sum of all element and face contributions, each local node once. -/
theorem C13_total (F : Fem nn nq nf nfq dim vec) (hmesh : ∀ c ∈ F.cells, ∀ a, c a < F.numTotal) (sol R : ℕ → Fin vec → ℝ) (h : F.computeResidual sol = .ok R) (i : Fin vec) :
    ∑ n ∈ range F.numTotal, R n i = (F.cells.zipIdx.map fun p => ∑ a, F.volTerm sol p.1 p.2 a i).sum
      + ((Fem.pairs F.cauchy).map fun lv => ((F.selected lv.1).map fun p => ∑ a, ∑ q, lv.2 (F.uFace sol p q) i * F.faceShapeVals p.2 q a * F.nansonScale p.1 p.2 q).sum).sum
      - (F.cells.map fun c => ∑ a, ∑ q, F.shapeVals q a * F.load c q i * F.JxW c q).sum
      - ((Fem.pairs F.neumann).map fun lv => ((F.selected lv.1).zipIdx.map fun p =>
          ∑ a, ∑ q, F.faceShapeVals p.1.2 q a * lv.2 p.2 q (F.xFace p.1 q) i * F.nansonScale p.1.1 p.1.2 q).sum).sum := by
  simp only [C13_residual F sol R h, sum_sub_distrib, sum_add_distrib, list_sum_sum]
  congr 1
  · congr 1
    · congr 1
      · refine sum_map_congr fun p hp => sum_nodal _ _ (hmesh _ ?_) _
        exact List.mem_of_getElem? (List.mem_zipIdx_iff_getElem?.mp (show (p.1, p.2) ∈ F.cells.zipIdx from hp))
      · exact sum_map_congr fun lv _ => sum_map_congr fun p hp => sum_nodal _ _ (hmesh _ (selected_mem F hp)) _
    · exact sum_map_congr fun c hc => sum_nodal _ _ (hmesh _ hc) _
  · refine sum_map_congr fun lv _ => sum_map_congr fun p hp => sum_nodal _ _ (hmesh _ (selected_mem F (loc := lv.1) (p := p.1) ?_)) _
    exact List.mem_of_getElem? (List.mem_zipIdx_iff_getElem?.mp (show (p.1, p.2) ∈ (F.selected lv.1).zipIdx from hp))

/-- **C15 (global balance).** For a mesh with node numbers in range and shape functions which form a partition of unity (reference gradients summing to zero), the sum of the residual over all nodes is:
integral of the mass term, plus integral of the Cauchy flux over its faces, minus the integral of the volume load, minus the integral of the tractions. The internal forces drop out, whatever the
constitutive law and the solution. -/
theorem C15_balance (F : Fem nn nq nf nfq dim vec) (hmesh : ∀ c ∈ F.cells, ∀ a, c a < F.numTotal)
    (hgrad : ∀ q b, ∑ n, F.shapeGradsRef q n b = 0) (hone : ∀ q, ∑ n, F.shapeVals q n = 1) (hface : ∀ f q, ∑ n, F.faceShapeVals f q n = 1)
    (sol R : ℕ → Fin vec → ℝ) (h : F.computeResidual sol = .ok R) (i : Fin vec) :
    ∑ n ∈ range F.numTotal, R n i = (F.cells.zipIdx.map fun p => ∑ q, F.massAt p.2 q (F.uAt sol p.1 q) i * F.JxW p.1 q).sum
      + ((Fem.pairs F.cauchy).map fun lv => ((F.selected lv.1).map fun p => ∑ q, lv.2 (F.uFace sol p q) i * F.nansonScale p.1 p.2 q).sum).sum
      - (F.cells.map fun c => ∑ q, F.load c q i * F.JxW c q).sum
      - ((Fem.pairs F.neumann).map fun lv => ((F.selected lv.1).zipIdx.map fun p => ∑ q, lv.2 p.2 q (F.xFace p.1 q) i * F.nansonScale p.1.1 p.1.2 q).sum).sum := by
  simp only [C13_residual F sol R h, sum_sub_distrib, sum_add_distrib, list_sum_sum]
  congr 1
  · congr 1
    · congr 1
      · refine sum_map_congr fun p hp => ?_
        have hc : p.1 ∈ F.cells := by
          have := List.mem_zipIdx_iff_getElem?.mp (show (p.1, p.2) ∈ F.cells.zipIdx from hp)
          exact List.mem_of_getElem? this
        rw [sum_nodal _ _ (hmesh _ hc)]
        unfold Fem.volTerm
        rw [sum_comm]
        refine sum_congr rfl fun q _ => ?_
        rw [← sum_mul, sum_add_distrib, sum_comm, ← mul_sum, hone, mul_one]
        simp only [← mul_sum, grad_sum_zero F hgrad, mul_zero, sum_const_zero, zero_add]
      · refine sum_map_congr fun lv _ => sum_map_congr fun p hp => ?_
        rw [sum_nodal _ _ (hmesh _ (selected_mem F hp)), sum_comm]
        refine sum_congr rfl fun q _ => ?_
        rw [← sum_mul, ← mul_sum, hface, mul_one]
    · refine sum_map_congr fun c hc => ?_
      rw [sum_nodal _ _ (hmesh _ hc), sum_comm]
      refine sum_congr rfl fun q _ => ?_
      rw [← sum_mul, ← sum_mul, hone, one_mul]
  · refine sum_map_congr fun lv _ => sum_map_congr fun p hp => ?_
    have hc : p.1 ∈ F.selected lv.1 := by
      have := List.mem_zipIdx_iff_getElem?.mp (show (p.1, p.2) ∈ (F.selected lv.1).zipIdx from hp)
      exact List.mem_of_getElem? this
    rw [sum_nodal _ _ (hmesh _ (selected_mem F hc)), sum_comm]
    refine sum_congr rfl fun q _ => ?_
    rw [← sum_mul, ← sum_mul, hface, one_mul]

/-- **C15 (body force).** The body force vector alone: its sum over the nodes is the integral of the load. -/
theorem C15_body_force (F : Fem nn nq nf nfq dim vec) (hmesh : ∀ c ∈ F.cells, ∀ a, c a < F.numTotal) (hone : ∀ q, ∑ n, F.shapeVals q n = 1)
    (f : (Fin dim → ℝ) → Fin vec → ℝ) (hf : F.source = some f) (i : Fin vec) :
    ∑ n ∈ range F.numTotal, F.bodyForceFn n i = (F.cells.map fun c => ∑ q, f (F.xAt c q) i * F.JxW c q).sum := by
  have h1 : ∀ n, F.bodyForceFn n i = (F.cells.map fun c => nodal n c fun a => ∑ q, F.shapeVals q a * f (F.xAt c q) i * F.JxW c q).sum := by
    intro n
    simp only [Fem.bodyForceFn, hf, Fem.quadPoints]
    rw [scatter_rows _ _ _ (by simp), zip_map_self, List.map_map, zip_map_self, List.map_map]
    simp only [Pi.zero_apply, zero_add, Function.comp_def, nodal_eq]
    rfl
  simp only [h1, list_sum_sum]
  refine sum_map_congr fun c hc => ?_
  rw [sum_nodal _ _ (hmesh _ hc), sum_comm]
  refine sum_congr rfl fun q _ => ?_
  rw [← sum_mul, ← sum_mul, hone, one_mul]

/-- **C15 (body force from a solution).** Likewise for `compute_body_force_by_sol`. -/
theorem C15_body_force_sol (F : Fem nn nq nf nfq dim vec) (hmesh : ∀ c ∈ F.cells, ∀ a, c a < F.numTotal) (hone : ∀ q, ∑ n, F.shapeVals q n = 1)
    (s : ℕ → Fin vec → ℝ) (mm : (Fin vec → ℝ) → Fin vec → ℝ) (i : Fin vec) :
    ∑ n ∈ range F.numTotal, F.bodyForceSol s mm n i = (F.cells.map fun c => ∑ q, mm (F.uAt s c q) i * F.JxW c q).sum := by
  have h1 : ∀ n, F.bodyForceSol s mm n i = (F.cells.map fun c => nodal n c fun a => ∑ q, mm (F.uAt s c q) i * F.shapeVals q a * F.JxW c q).sum := by
    intro n
    simp only [Fem.bodyForceSol]
    rw [scatter_rows _ _ _ (by simp), zip_map_self, List.map_map]
    simp only [Pi.zero_apply, zero_add, Function.comp_def, nodal_eq]
    rfl
  simp only [h1, list_sum_sum]
  refine sum_map_congr fun c hc => ?_
  rw [sum_nodal _ _ (hmesh _ hc), sum_comm]
  refine sum_congr rfl fun q _ => ?_
  rw [← sum_mul, ← mul_sum, hone, mul_one]

/-- **C15 (Neumann loads).** Whenever the Neumann vector is computed its sum over the nodes is the integral of the tractions over the selected faces. -/
theorem C15_neumann (F : Fem nn nq nf nfq dim vec) (hmesh : ∀ c ∈ F.cells, ∀ a, c a < F.numTotal) (hface : ∀ f q, ∑ n, F.faceShapeVals f q n = 1)
    (v : ℕ → Fin vec → ℝ) (h : F.neumannIntegral = .ok v) (i : Fin vec) :
    ∑ n ∈ range F.numTotal, v n i =
      ((Fem.pairs F.neumann).map fun lv => ((F.selected lv.1).zipIdx.map fun p => ∑ q, lv.2 p.2 q (F.xFace p.1 q) i * F.nansonScale p.1.1 p.1.2 q).sum).sum := by
  obtain ⟨-, rfl⟩ := (neumannIntegral_ok_iff F v).mp h
  have h1 : ∀ n, F.neumannSum n i = ((Fem.pairs F.neumann).map fun lv => ((F.selected lv.1).zipIdx.map fun p => nodal n p.1.1 fun a =>
          ∑ q, F.faceShapeVals p.1.2 q a * lv.2 p.2 q (F.xFace p.1 q) i * F.nansonScale p.1.1 p.1.2 q).sum).sum := by
    intro n
    unfold Fem.neumannSum
    cases F.neumann with
    | none => rfl
    | some lv =>
      obtain ⟨l, w⟩ := lv
      show ((l.zip w).map _).sum = ((l.zip w).map _).sum
      refine sum_map_congr fun p _ => ?_
      unfold Fem.neumannTerm
      refine sum_map_congr fun p _ => ?_
      rw [nodal_eq]
      rfl
  simp only [h1, list_sum_sum]
  refine sum_map_congr fun lv _ => sum_map_congr fun p hp => ?_
  have hc : p.1 ∈ F.selected lv.1 := by
    have := List.mem_zipIdx_iff_getElem?.mp (show (p.1, p.2) ∈ (F.selected lv.1).zipIdx from hp)
    exact List.mem_of_getElem? this
  rw [sum_nodal _ _ (hmesh _ (selected_mem F hc)), sum_comm]
  refine sum_congr rfl fun q _ => ?_
  rw [← sum_mul, ← sum_mul, hface, one_mul]

/-- **C15 (equilibrium).** Without mass term, Cauchy boundary and loads the residual sums to zero for every constitutive law and every solution. -/
theorem C15_internal_forces (F : Fem nn nq nf nfq dim vec) (hmesh : ∀ c ∈ F.cells, ∀ a, c a < F.numTotal)
    (hgrad : ∀ q b, ∑ n, F.shapeGradsRef q n b = 0) (hm : F.massMap = none) (hc : F.cauchy = none) (hn : F.neumann = none) (hs : F.source = none) (hb : F.bodyVar = none)
    (sol R : ℕ → Fin vec → ℝ) (h : F.computeResidual sol = .ok R) (i : Fin vec) : ∑ n ∈ range F.numTotal, R n i = 0 := by
  simp only [C13_residual F sol R h, hc, hn, Fem.pairs, Option.elim, List.map_nil, List.sum_nil, sub_zero, add_zero, sum_sub_distrib, list_sum_sum]
  have h2 : (F.cells.map fun c => ∑ n ∈ range F.numTotal, nodal n c fun a => ∑ q, F.shapeVals q a * F.load c q i * F.JxW c q).sum = 0 := by
    refine List.sum_eq_zero fun x hx => ?_
    obtain ⟨c, -, rfl⟩ := List.mem_map.mp hx
    simp [Fem.load, hs, hb, nodal]
  rw [h2, sub_zero]
  refine List.sum_eq_zero fun x hx => ?_
  obtain ⟨p, hp, rfl⟩ := List.mem_map.mp hx
  have hc : p.1 ∈ F.cells := by
    have := List.mem_zipIdx_iff_getElem?.mp (show (p.1, p.2) ∈ F.cells.zipIdx from hp)
    exact List.mem_of_getElem? this
  rw [sum_nodal _ _ (hmesh _ hc)]
  unfold Fem.volTerm
  rw [sum_comm]
  refine sum_eq_zero fun q _ => ?_
  rw [← sum_mul, sum_add_distrib, sum_comm]
  simp only [← mul_sum, grad_sum_zero F hgrad, mul_zero, sum_const_zero, zero_add, Fem.massAt, hm, Option.elim, Pi.zero_apply, zero_mul]

/-! ## Example: two bar elements on `[0, 2]`, unit conductivity and unit source -/

noncomputable def barExample : Fem 2 1 2 1 1 1 where
  numTotal := 3
  points := fun n _ => n
  cells := [![0, 1], ![1, 2]]
  shapeVals := fun _ _ => 1 / 2
  shapeGradsRef := fun _ => ![fun _ => -1, fun _ => 1]
  quadWeights := fun _ => 1
  faceShapeVals := fun _ _ _ => 0
  faceShapeGradsRef := fun _ _ _ _ => 0
  faceWeights := fun _ _ => 0
  faceNormals := fun _ _ => 0
  faceInds := ![[0], [1]]
  tensorMap := some fun _ _ g => g
  massMap := none
  lapRows := none
  massRows := some 2
  source := some fun _ _ => 1
  bodyVar := none
  neumann := none
  cauchy := none

theorem barExample_jacobian (c : Fin 2 → ℕ) (hc : c ∈ barExample.cells) (q : Fin 1) : barExample.jacobian c q = 1 := by
  have hc : c = ![0, 1] ∨ c = ![1, 2] := by simpa [barExample] using hc
  ext i j
  fin_cases i; fin_cases j
  rcases hc with rfl | rfl <;> norm_num [Fem.jacobian, Fem.coos, barExample, Fin.sum_univ_two]

/-- Node 1 belongs to both elements: it gets both internal forces and both halves of the load. -/
example : ∃ R, barExample.computeResidual (fun n _ => (n : ℝ) ^ 2) = .ok R ∧ R 1 0 = -3 := by
  obtain ⟨R, hR⟩ := (C13_returns barExample fun n _ => (n : ℝ) ^ 2).mpr ⟨by simp [barExample], by simp [barExample], by simp [barExample], by simp [barExample], by simp [barExample]⟩
  refine ⟨R, hR, ?_⟩
  rw [C13_residual _ _ _ hR]
  have h0 : barExample.cells.zipIdx = [(![0, 1], 0), (![1, 2], 1)] := rfl
  have h1 : barExample.cells = [![0, 1], ![1, 2]] := rfl
  have j0 := barExample_jacobian ![0, 1] (by simp [h1]) 0
  have j1 := barExample_jacobian ![1, 2] (by simp [h1]) 0
  have g0 : barExample.gradAt (fun n _ => (n : ℝ) ^ 2) ![0, 1] 0 = fun _ _ => 1 := by
    funext i d
    fin_cases i; fin_cases d
    simp only [Fem.gradAt, Fem.shapeGrad, j0, Fin.sum_univ_two, Fin.sum_univ_one]
    norm_num [barExample]
  have g1 : barExample.gradAt (fun n _ => (n : ℝ) ^ 2) ![1, 2] 0 = fun _ _ => 3 := by
    funext i d
    fin_cases i; fin_cases d
    simp only [Fem.gradAt, Fem.shapeGrad, j1, Fin.sum_univ_two, Fin.sum_univ_one]
    norm_num [barExample]
  rw [h0, h1]
  simp only [g0, g1, List.map_cons, List.map_nil, List.sum_cons, List.sum_nil, nodal, sum_filter, Fin.sum_univ_two, Fin.sum_univ_one, Fem.volTerm, Fem.load, Fem.JxW, Fem.shapeGrad, j0, j1]
  norm_num [barExample, Fem.pairs, Fem.stress, Fem.massAt]

/-- The residual of the same bar without source sums to zero, as `C15_internal_forces` says, for a nonlinear law too. -/
example (σ : (Fin 1 → Fin 1 → ℝ) → Fin 1 → Fin 1 → ℝ) (sol R : ℕ → Fin 1 → ℝ)
    (h : ({ barExample with tensorMap := some fun _ _ => σ, source := none } : Fem 2 1 2 1 1 1).computeResidual sol = .ok R) : R 0 0 + R 1 0 + R 2 0 = 0 := by
  have := C15_internal_forces _ (by simp [barExample]) (by simp [barExample]) rfl rfl rfl rfl rfl sol R h 0
  simpa [barExample, sum_range_succ] using this

end Verif.Fem
