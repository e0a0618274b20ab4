import Verif.Fem.Thermal

/-!
# Which faces get which flux (C100, continued)

`Thermal.update_Neumann_boundary_inds` gives every external face to the first boundary function and the faces accepted by `top` to the others. thin_wall.py passes `[neumann_walls, neumann_top]` (line 78),
bare_plate.py `[neumann_top, neumann_walls]` (line 64).
-/
namespace Verif.Fem
open Finset

variable {nn nq nf nfq : ℕ}

/-- The object is built on the active mesh. -/
structure OnActive (F : Fem nn nq nf nfq 3 1) (M : ActiveMesh nn 3) (faces : Fin nf → List (Fin nn)) : Prop where
  points : ∀ n, F.points n = M.points.getD n 0
  cells : F.cells = M.cells
  faceInds : F.faceInds = faces

/-- **C100 (boundary sets).** The first set holds exactly the external faces of the active part, the second those of them which `top` accepts, judged by the positions in the full mesh. -/
theorem C100_sets (points : List (Fin 3 → ℝ)) (cells : List (Fin nn → ℕ)) (faces : Fin nf → List (Fin nn)) (act : ℕ → Bool) (M : ActiveMesh nn 3) (hM : getActiveMesh points cells act = .ok M)
    (F : Fem nn nq nf nfq 3 1) (hF : OnActive F M faces) (ext : List (ℕ × Fin nf)) (hext : ExternalFaces cells faces act M.cellsMap ext) (c : ℕ) (hc : c < cells.length) (ha : act c = true) (f : Fin nf) :
    ((M.cellsMap c, f) ∈ ext ↔ IsExternal cells faces act (c, f)) ∧
    ((M.cellsMap c, f) ∈ topFaces F ext ↔ IsExternal cells faces act (c, f) ∧ isTop ((faceNodes cells faces (c, f)).map fun n => points.getD n 0)) := by
  obtain ⟨h1, h2, -, -, -, -⟩ := C99_active_mesh points cells act M hM
  have hinj := map_inj_of_mono _ _ _ h2
  have hin : (M.cellsMap c, f) ∈ ext ↔ IsExternal cells faces act (c, f) := by
    rw [hext.2]
    constructor
    · rintro ⟨p, hp, e⟩
      injection e with e1 e2
      have := hinj c p.1 hc hp.1.1 ha hp.1.2 e1
      rwa [show (c, f) = p from Prod.ext this e2]
    · intro h
      exact ⟨_, h, rfl⟩
  refine ⟨hin, ?_⟩
  have hpts : facePointsOf F (M.cellsMap c, f) = (faceNodes cells faces (c, f)).map fun n => points.getD n 0 := by
    unfold facePointsOf faceNodes
    rw [hF.faceInds, hF.cells, List.map_map]
    refine List.map_congr_left fun v _ => ?_
    obtain ⟨hp, -, e, -⟩ := (h1 c hc ha).2 v
    rw [hF.points, Function.comp_apply, List.getD_eq_getElem?_getD, e, ← List.getD_eq_getElem?_getD]
  unfold topFaces
  simp only [List.mem_filter, decide_eq_true_eq, hin, hpts]

variable (N : Fin 3 → ℕ) (L : Fin 3 → ℝ)

theorem box_point_getD (m : Fin 3 → ℕ) (hm : ∀ a, m a ≤ N a) (a : Fin 3) :
    (Verif.Mesh.boxMesh (N 0) (N 1) (N 2) (L 0) (L 1) (L 2)).points.toList.getD (gridNode N m) 0 a = m a * (L a / N a) := by
  have hget : (Verif.Mesh.boxMesh (N 0) (N 1) (N 2) (L 0) (L 1) (L 2)).points.toList.getD (gridNode N m) 0 = (Verif.Mesh.boxMesh (N 0) (N 1) (N 2) (L 0) (L 1) (L 2)).points.get (gridNode N m) := by
    unfold Arr1.toList
    have hlt : gridNode N m < (Verif.Mesh.boxMesh (N 0) (N 1) (N 2) (L 0) (L 1) (L 2)).points.n := gridNode_lt N m hm
    rw [List.getD_eq_getElem?_getD, List.getElem?_map, List.getElem?_range hlt]
    rfl
  have hp := Verif.Mesh.boxMesh_point (N 0) (N 1) (N 2) (L 0) (L 1) (L 2) (i := m 0) (Nat.lt_succ_of_le (hm 1)) (Nat.lt_succ_of_le (hm 2))
  rw [hget]
  change (Verif.Mesh.boxMesh (N 0) (N 1) (N 2) (L 0) (L 1) (L 2)).points.get ((m 0 * (N 1 + 1) + m 1) * (N 2 + 1) + m 2) a = _
  rw [hp]
  fin_cases a <;> rfl

/-- `top` on a brick: a horizontal face above the ground, facing up or down. -/
theorem isTop_box (hz : 1e-5 < L 2 / N 2) (g : Fin 3 → ℕ) (hg : ∀ a, g a < N a) (f : Fin 6) :
    isTop ((faceNodes (Verif.Mesh.boxMesh (N 0) (N 1) (N 2) (L 0) (L 1) (L 2)).cells.toList hexFaces (boxIndex N g, f)).map
      fun n => (Verif.Mesh.boxMesh (N 0) (N 1) (N 2) (L 0) (L 1) (L 2)).points.toList.getD n 0) ↔ hexAxis f = 2 ∧ 0 < g 2 + hexSide f := by
  have hl : (faceNodes (Verif.Mesh.boxMesh (N 0) (N 1) (N 2) (L 0) (L 1) (L 2)).cells.toList hexFaces (boxIndex N g, f)).map
      (fun n => (Verif.Mesh.boxMesh (N 0) (N 1) (N 2) (L 0) (L 1) (L 2)).points.toList.getD n 0) =
      (hexFaces f).map fun p => (Verif.Mesh.boxMesh (N 0) (N 1) (N 2) (L 0) (L 1) (L 2)).points.toList.getD (boxCell N g p) 0 := by
    unfold faceNodes
    rw [boxIndex_cell N L g hg, List.map_map]
    rfl
  rw [hl]
  have hpt : ∀ p, (Verif.Mesh.boxMesh (N 0) (N 1) (N 2) (L 0) (L 1) (L 2)).points.toList.getD (boxCell N g p) 0 2 = (g 2 + Verif.Mesh.hexCorner p 2 : ℕ) * (L 2 / N 2) :=
    fun p => box_point_getD N L _ (fun b => by have := hg b; have := hexCorner_le p b; omega) 2
  obtain ⟨p0, rest, hp0⟩ : ∃ p0 rest, hexFaces f = p0 :: rest := by
    have : ∀ f, hexFaces f ≠ [] := by decide +kernel
    exact List.exists_cons_of_ne_nil (this f)
  have hp0m : p0 ∈ hexFaces f := by rw [hp0]; simp
  unfold isTop
  have h0 : ((hexFaces f).map fun p => (Verif.Mesh.boxMesh (N 0) (N 1) (N 2) (L 0) (L 1) (L 2)).points.toList.getD (boxCell N g p) 0).getD 0 0 2 = (g 2 + Verif.Mesh.hexCorner p0 2 : ℕ) * (L 2 / N 2) := by
    rw [hp0, List.map_cons, List.getD_cons_zero]
    exact hpt p0
  rw [h0]
  simp only [List.mem_map, forall_exists_index, and_imp, forall_apply_eq_imp_iff₂, hpt]
  have hh : (0 : ℝ) < L 2 / N 2 := lt_trans (by norm_num) hz
  have hpos : ∀ k : ℕ, 0 < (k : ℝ) * (L 2 / N 2) ↔ 0 < k := by
    intro k
    rw [mul_pos_iff_of_pos_right hh]
    exact Nat.cast_pos
  rw [hpos]
  constructor
  · rintro ⟨h1, h2⟩
    have hax : hexAxis f = 2 := by
      by_contra hne
      have ex : ∀ f, hexAxis f ≠ 2 → ∃ p p', p ∈ hexFaces f ∧ p' ∈ hexFaces f ∧ Verif.Mesh.hexCorner p 2 = 0 ∧ Verif.Mesh.hexCorner p' 2 = 1 := by decide +kernel
      obtain ⟨p, p', a1, a2, a3, a4⟩ := ex f hne
      have e1 := h1 p a1
      have e2 := h1 p' a2
      rw [a3] at e1
      rw [a4] at e2
      have hle := hexCorner_le p0 2
      interval_cases hc : Verif.Mesh.hexCorner p0 2
      · push_cast at e2
        rw [show ((g 2 : ℝ) + 1) * (L 2 / N 2) - ((g 2 : ℝ) + 0) * (L 2 / N 2) = L 2 / N 2 by ring, abs_of_pos hh] at e2
        linarith
      · push_cast at e1
        rw [show ((g 2 : ℝ) + 0) * (L 2 / N 2) - ((g 2 : ℝ) + 1) * (L 2 / N 2) = -(L 2 / N 2) by ring, abs_neg, abs_of_pos hh] at e1
        linarith
    refine ⟨hax, ?_⟩
    have := (mem_hexFaces f p0).mp hp0m
    rw [hax] at this
    rwa [← this]
  · rintro ⟨hax, hpos'⟩
    have hs : ∀ p ∈ hexFaces f, Verif.Mesh.hexCorner p 2 = hexSide f := by
      intro p hp
      have := (mem_hexFaces f p).mp hp
      rwa [hax] at this
    refine ⟨fun p hp => ?_, ?_⟩
    · rw [hs p hp, hs p0 hp0m, sub_self, abs_zero]
      norm_num
    · rwa [hs p0 hp0m]

/-- **C100 (brick).** On `box_mesh` with cells higher than `1e-5` and any set of active cells: the second boundary function acts on the horizontal faces above the ground with no active cell on the other
side, those facing down (undersides of overhangs) included. -/
theorem C100_brick (hz : 1e-5 < L 2 / N 2) (act : ℕ → Bool) (M : ActiveMesh 8 3)
    (hM : getActiveMesh (Verif.Mesh.boxMesh (N 0) (N 1) (N 2) (L 0) (L 1) (L 2)).points.toList (Verif.Mesh.boxMesh (N 0) (N 1) (N 2) (L 0) (L 1) (L 2)).cells.toList act = .ok M)
    (F : Fem 8 nq 6 nfq 3 1) (hF : OnActive F M hexFaces) (ext : List (ℕ × Fin 6))
    (hext : ExternalFaces (Verif.Mesh.boxMesh (N 0) (N 1) (N 2) (L 0) (L 1) (L 2)).cells.toList hexFaces act M.cellsMap ext) (g : Fin 3 → ℕ) (hg : ∀ a, g a < N a) (ha : act (boxIndex N g) = true) (f : Fin 6) :
    ((M.cellsMap (boxIndex N g), f) ∈ ext ↔ ¬ ∃ g', (∀ a, g' a < N a) ∧ act (boxIndex N g') = true ∧ Across g f g') ∧
    ((M.cellsMap (boxIndex N g), f) ∈ topFaces F ext ↔ (hexAxis f = 2 ∧ 0 < g 2 + hexSide f) ∧ ¬ ∃ g', (∀ a, g' a < N a) ∧ act (boxIndex N g') = true ∧ Across g f g') := by
  obtain ⟨h1, h2⟩ := C100_sets _ _ hexFaces act M hM F hF ext hext (boxIndex N g) (boxIndex_lt N L g hg) ha f
  rw [h1, h2, isTop_box N L hz g hg, C99_box N L act g hg f]
  simp only [ha, true_and]
  exact and_comm

/-- **C100 (bare plate).** With all cells active the first function acts on the whole surface, bottom included, the second on the upper side only. In bare_plate.py (line 64) the first function is the laser
and the second the heat loss: the laser heats the side walls and the bottom as well, and heat is lost through the upper side only. -/
theorem C100_plate (hz : 1e-5 < L 2 / N 2) (M : ActiveMesh 8 3)
    (hM : getActiveMesh (Verif.Mesh.boxMesh (N 0) (N 1) (N 2) (L 0) (L 1) (L 2)).points.toList (Verif.Mesh.boxMesh (N 0) (N 1) (N 2) (L 0) (L 1) (L 2)).cells.toList (fun _ => true) = .ok M)
    (F : Fem 8 nq 6 nfq 3 1) (hF : OnActive F M hexFaces) (ext : List (ℕ × Fin 6))
    (hext : ExternalFaces (Verif.Mesh.boxMesh (N 0) (N 1) (N 2) (L 0) (L 1) (L 2)).cells.toList hexFaces (fun _ => true) M.cellsMap ext) (g : Fin 3 → ℕ) (hg : ∀ a, g a < N a) (f : Fin 6) :
    ((M.cellsMap (boxIndex N g), f) ∈ ext ↔ g (hexAxis f) + hexSide f = 0 ∨ g (hexAxis f) + hexSide f = N (hexAxis f)) ∧
    ((M.cellsMap (boxIndex N g), f) ∈ topFaces F ext ↔ hexAxis f = 2 ∧ g 2 + hexSide f = N 2) := by
  obtain ⟨h1, h2⟩ := C100_sets _ _ hexFaces (fun _ => true) M hM F hF ext hext (boxIndex N g) (boxIndex_lt N L g hg) rfl f
  rw [h1, h2, isTop_box N L hz g hg, C99_plate N L g hg f]
  refine ⟨Iff.rfl, ?_⟩
  constructor
  · rintro ⟨h | h, hax, hp⟩
    · rw [hax] at h; omega
    · rw [hax] at h; exact ⟨hax, h⟩
  · rintro ⟨hax, h⟩
    rw [hax]
    have := hg 2
    exact ⟨Or.inr h, rfl, by omega⟩

/-! ## No exception, and the box mesh -/

theorem neumannPart_returns (F : Fem nn nq nf nfq 3 1) (I : List (ℕ × Fin nf)) (g : ℕ → Fin nfq → (Fin 3 → ℝ) → Fin 1 → ℝ) (x : ℕ → Fin 1 → ℝ) :
    (∃ y, F.neumannPart I g x = .ok y) ↔ ∀ p ∈ F.selectFaces I, ∀ q, (F.faceJacobian p.1 p.2 q).det ≠ 0 := by
  unfold Fem.neumannPart
  dsimp only [bind, Except.bind, pure, Except.pure]
  constructor
  · rintro ⟨y, h⟩
    cases hg : F.getFaceShapeGrads (F.selectFaces I) with
    | error e => rw [hg] at h; cases h
    | ok gr => exact ((getFaceShapeGrads_ok_iff F _ _).mp hg).1
  · intro h
    rw [(getFaceShapeGrads_ok_iff F _ _).mpr ⟨h, rfl⟩]
    exact ⟨_, rfl⟩

/-- **C100 (no exception).** With two boundary functions the residual can be computed whenever the mesh has a cell and no external face has a singular Jacobian. -/
theorem C100_returns (F : Fem nn nq nf nfq 3 1) (rho Cp dt : ℝ) (ext : List (ℕ × Fin nf)) (g0 g1 : FluxFn) (old sol : ℕ → Fin 1 → ℝ) :
    (∃ R, thermalResidual F rho Cp dt ext [g0, g1] old sol = .ok R) ↔ F.cells ≠ [] ∧ ∀ p ∈ F.selectFaces ext, ∀ q, (F.faceJacobian p.1 p.2 q).det ≠ 0 := by
  have hr := C13_returns (thermalFem F rho Cp dt old) sol
  have hr' : (∃ R, (thermalFem F rho Cp dt old).computeResidual sol = .ok R) ↔ F.cells ≠ [] := by
    rw [hr]
    exact ⟨fun h => h.1, fun h => ⟨h, fun m hm => (by cases hm), fun m hm => (by cases hm), fun lv hlv => (by cases hlv), fun lv hlv => (by cases hlv)⟩⟩
  have hsub : (∀ p ∈ F.selectFaces ext, ∀ q, (F.faceJacobian p.1 p.2 q).det ≠ 0) → ∀ p ∈ F.selectFaces (topFaces F ext), ∀ q, (F.faceJacobian p.1 p.2 q).det ≠ 0 := by
    intro h p hp
    refine h p ?_
    unfold Fem.selectFaces at hp ⊢
    obtain ⟨a, ha, hap⟩ := List.mem_filterMap.mp hp
    exact List.mem_filterMap.mpr ⟨a, List.mem_of_mem_filter ha, hap⟩
  unfold thermalResidual thermalNeumann
  dsimp only [bind, Except.bind, pure, Except.pure, List.length_cons, List.length_nil]
  rw [show thermalInds F ext (0 + 1 + 1) = [ext, topFaces F ext] from rfl]
  rw [show thermalIntVars F [ext, topFaces F ext] old = .ok [F.convertNeumannFromDof old ext, F.convertNeumannFromDof old (topFaces F ext)] from rfl]
  dsimp only
  simp only [List.zipIdx_cons, List.zipIdx_nil, List.foldlM_cons, List.foldlM_nil, Nat.zero_add]
  dsimp only [bind, Except.bind, pure, Except.pure, List.getElem?_cons_zero, List.getElem?_cons_succ]
  constructor
  · rintro ⟨R, h⟩
    cases h0 : (thermalFem F rho Cp dt old).computeResidual sol with
    | error e => rw [h0] at h; cases h
    | ok R0 =>
      rw [h0] at h
      dsimp only at h
      refine ⟨hr'.mp ⟨R0, h0⟩, (neumannPart_returns F ext (fun k q x => g0 x (((F.convertNeumannFromDof old ext).getD k 0) q)) 0).mp ?_⟩
      cases h1 : F.neumannPart ext (fun k q x => g0 x (((F.convertNeumannFromDof old ext).getD k 0) q)) 0 with
      | error e => rw [h1] at h; cases h
      | ok y => exact ⟨y, rfl⟩
  · rintro ⟨hc, hd⟩
    obtain ⟨R0, h0⟩ := hr'.mpr hc
    obtain ⟨y, h1⟩ := (neumannPart_returns F ext (fun k q x => g0 x (((F.convertNeumannFromDof old ext).getD k 0) q)) 0).mpr hd
    obtain ⟨z, h2⟩ := (neumannPart_returns F (topFaces F ext) (fun k q x => g1 x (((F.convertNeumannFromDof old (topFaces F ext)).getD k 0) q)) y).mpr (hsub hd)
    rw [h0, h1]
    dsimp only
    rw [h2]
    exact ⟨_, rfl⟩

/-- **C100 (box mesh).** On `box_mesh` with the rules of basix all hypotheses above hold: every step can be evaluated, at most one temperature solves it, and it obeys the energy balance. -/
theorem C100_box (F : Fem 8 (2 ^ 3) 6 nfq 3 1) (hbox : OnBox F N L) (hnum : F.numTotal = (N 0 + 1) * (N 1 + 1) * (N 2 + 1)) (hN : ∀ a, 0 < N a) (hL : ∀ a, 0 < L a) (ht : CellTables F hex8 (gaussRule 3))
    (frule : QuadRule nfq) (hf : FaceTables F hex8 frule) (rho Cp dt : ℝ) (hrc : 0 < rho * Cp) (hdt : 0 < dt) (ext : List (ℕ × Fin 6)) (g0 g1 : FluxFn) (old : ℕ → Fin 1 → ℝ) :
    (∀ sol, ∃ R, thermalResidual F rho Cp dt ext [g0, g1] old sol = .ok R ∧ ((∀ n < F.numTotal, R n 0 = 0) →
      heatOf F (fun c q => rho * Cp * F.uAt sol c q 0) - heatOf F (fun c q => rho * Cp * F.uAt old c q 0) = dt * (fluxPower F ext g0 old + fluxPower F (topFaces F ext) g1 old))) ∧
    ∀ T T' R R', thermalResidual F rho Cp dt ext [g0, g1] old T = .ok R → thermalResidual F rho Cp dt ext [g0, g1] old T' = .ok R' → (∀ n < F.numTotal, R n 0 = 0) → (∀ n < F.numTotal, R' n 0 = 0) →
      ∀ n < F.numTotal, T n 0 = T' n 0 := by
  have hS := C98_box F N L hbox hnum hN hL ht
  have hsum := Tabulated.sums (name := "HEX8") (by decide) getElements_hex8 (by rw [meshioNodes_HEX8]; rfl) (pts := (gaussRule 3).pt) ⟨ht.vals, ht.grads⟩
  have hfs := faceTables_valSum F "HEX8" (by decide) hex8 getElements_hex8 (by decide) frule hf
  refine ⟨fun sol => ?_, fun T T' R R' h h' hz hz' n hn => C100_unique F hS rho Cp dt hrc hdt ext g0 g1 old T T' R R' h h' hz hz' n hn⟩
  obtain ⟨R, hR⟩ := (C100_returns F rho Cp dt ext g0 g1 old sol).mpr ⟨hS.cells, fun p hp q => by
    obtain ⟨g, hg, hpg⟩ := (hbox.mem_cells p.1).mp (selectFaces_mem F ext p hp)
    rw [hpg, hbox.faceJacobian _ hf g hg, Matrix.det_diagonal]
    exact (prod_pos fun a _ => div_pos (hL a) (by exact_mod_cast hN a)).ne'⟩
  exact ⟨R, hR, fun hz => C100_energy F hS.mesh hsum.1 hsum.2 hfs rho Cp dt hdt.ne' ext g0 g1 old sol R hR hz⟩

/-! ## Examples -/

/-- The object of a 2x1x3 mesh of the box 4x3x6: the hypotheses of `C100_box` hold. -/
noncomputable def thermalExample : Fem 8 (2 ^ 3) 6 4 3 1 :=
  Fem.ofElement 8 6 3 1 hex8 (gaussRule 3) (gaussRule 2) 24 (Verif.Mesh.boxMesh 2 1 3 (4 : ℝ) 3 6).points.get (Verif.Mesh.boxMesh 2 1 3 (4 : ℝ) 3 6).cells.toList

example (old sol : ℕ → Fin 1 → ℝ) : ∃ R, thermalResidual thermalExample 8440 500 1e-2 [(0, 0), (2, 5)] [fun _ T _ => 50 * (300 - T 0), fun x _ _ => x 0] old sol = .ok R := by
  obtain ⟨R, hR, -⟩ := (C100_box ![2, 1, 3] ![4, 3, 6] thermalExample ⟨rfl, rfl⟩ rfl (by decide) (by intro a; fin_cases a <;> norm_num) ⟨fun _ _ => rfl, fun _ _ _ => rfl, fun _ => rfl⟩ (gaussRule 2)
    (ofElement_hex8_face _ _ _ _ _) 8440 500 1e-2 (by norm_num) (by norm_num) [(0, 0), (2, 5)] (fun _ T _ => 50 * (300 - T 0)) (fun x _ _ => x 0) old).1 sol
  exact ⟨R, hR⟩

/-- With the laser-off list of thin_wall.py there is no residual. -/
example (old sol R : ℕ → Fin 1 → ℝ) : thermalResidual thermalExample 8440 500 1e-2 [(0, 0), (2, 5)] [fun _ T _ => 50 * (300 - T 0)] old sol ≠ .ok R := fun h => by
  simpa using (C100_two thermalExample 8440 500 1e-2 [(0, 0), (2, 5)] [fun _ T _ => 50 * (300 - T 0)] old).2 sol R h

/-- An overhang: the underside of a cell that sticks out at height 2 is a `top` face, the bottom and the side of the plate are not. -/
example : isTop ((faceNodes (Verif.Mesh.boxMesh 2 1 3 (4 : ℝ) 3 6).cells.toList hexFaces (boxIndex ![2, 1, 3] ![1, 0, 1], 0)).map fun n => (Verif.Mesh.boxMesh 2 1 3 (4 : ℝ) 3 6).points.toList.getD n 0) ∧
    ¬ isTop ((faceNodes (Verif.Mesh.boxMesh 2 1 3 (4 : ℝ) 3 6).cells.toList hexFaces (boxIndex ![2, 1, 3] ![1, 0, 0], 0)).map fun n => (Verif.Mesh.boxMesh 2 1 3 (4 : ℝ) 3 6).points.toList.getD n 0) := by
  have hz : (1e-5 : ℝ) < (![4, 3, 6] : Fin 3 → ℝ) 2 / ((![2, 1, 3] : Fin 3 → ℕ) 2 : ℕ) := by
    show (1e-5 : ℝ) < 6 / ((3 : ℕ) : ℝ)
    norm_num
  constructor
  · exact (isTop_box ![2, 1, 3] ![4, 3, 6] hz ![1, 0, 1] (by decide) 0).mpr (by decide +kernel)
  · exact fun h => absurd ((isTop_box ![2, 1, 3] ![4, 3, 6] hz ![1, 0, 0] (by decide) 0).mp h) (by decide +kernel)

end Verif.Fem
