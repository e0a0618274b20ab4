import Verif.Mesh.Lemmas
import Mathlib.Algebra.Field.Rat
import Mathlib.Algebra.Order.Ring.Rat

/-!
# Properties C01, C02, C03, C06: structured meshes and lattice numbering
-/
namespace Verif.Mesh
open Verif

/-! ## Specification (independent of the model helpers) -/

/-- Corner offsets of the meshio/VTK hexahedron: bottom face counter-clockwise, then top face. -/
def hexCorner : Fin 8 → Fin 3 → ℕ :=
  ![![0,0,0], ![1,0,0], ![1,1,0], ![0,1,0], ![0,0,1], ![1,0,1], ![1,1,1], ![0,1,1]]

/-- Corner offsets of the meshio/VTK quad, counter-clockwise. -/
def quadCorner : Fin 4 → Fin 2 → ℕ := ![![0,0], ![1,0], ![1,1], ![0,1]]

/-- `c` is the brick at grid position `g` of a grid with spacing `h` (`d` dimensions): node `p` is a valid point
with coordinate `(g + corner p) * h`. -/
def IsBrick {K : Type*} [Field K] {d m : ℕ} (M : FMesh K d m) (corner : Fin m → Fin d → ℕ)
    (h : Fin d → K) (g : Fin d → ℕ) (c : Fin m → ℕ) : Prop :=
  (∀ p, c p < M.points.n) ∧ Function.Injective c ∧
    ∀ p a, M.points.get (c p) a = ((g a + corner p a : ℕ) : K) * h a

variable {K : Type*} [Field K]

/-- **C01.** `box_mesh`: sizes; the cells are in one-to-one correspondence with grid positions; each
one is the correctly ordered brick at its position; the points are exactly the grid points. -/
theorem C01_box_mesh (Nx Ny Nz : ℕ) (Lx Ly Lz : K) :
    let M := boxMesh Nx Ny Nz Lx Ly Lz
    let h : Fin 3 → K := ![Lx / Nx, Ly / Ny, Lz / Nz]
    M.points.n = (Nx + 1) * (Ny + 1) * (Nz + 1) ∧ M.cells.n = Nx * Ny * Nz ∧
    (∀ n < M.cells.n, ∃! g : ℕ × ℕ × ℕ, g.1 < Nx ∧ g.2.1 < Ny ∧ g.2.2 < Nz ∧
        n = (g.1 * Ny + g.2.1) * Nz + g.2.2) ∧
    (∀ i j k, i < Nx → j < Ny → k < Nz → (i * Ny + j) * Nz + k < M.cells.n ∧
        IsBrick M hexCorner h ![i, j, k] (M.cells.get ((i * Ny + j) * Nz + k))) ∧
    (∀ t < M.points.n, ∃ i j k, i ≤ Nx ∧ j ≤ Ny ∧ k ≤ Nz ∧
        M.points.get t = ![(i : K) * h 0, (j : K) * h 1, (k : K) * h 2]) ∧
    (∀ i j k, i ≤ Nx → j ≤ Ny → k ≤ Nz → ∃ t < M.points.n,
        M.points.get t = ![(i : K) * h 0, (j : K) * h 1, (k : K) * h 2]) := by
  intro M h
  refine ⟨rfl, rfl, ?_, ?_, ?_, ?_⟩
  · intro n hn
    obtain ⟨i, j, k, hi, hj, hk, rfl⟩ := idx3_surj hn
    refine ⟨(i, j, k), ⟨hi, hj, hk, rfl⟩, ?_⟩
    rintro ⟨i', j', k'⟩ ⟨_, hj', hk', e⟩
    obtain ⟨rfl, rfl, rfl⟩ := idx3_inj hj hk hj' hk' e
    rfl
  · intro i j k hi hj hk
    have hc : ∀ p, M.cells.get ((i * Ny + j) * Nz + k) p = ((i + hexCorner p 0) * (Ny + 1)
        + (j + hexCorner p 1)) * (Nz + 1) + (k + hexCorner p 2) := by
      intro p
      have hc := congrFun (boxMesh_cell Nx Ny Nz Lx Ly Lz (i := i) hj hk) p
      refine Eq.trans hc ?_
      fin_cases p <;> rfl
    have hle : ∀ p a, hexCorner p a ≤ 1 := by decide
    refine ⟨idx3_lt hi hj hk, ?_, ?_, ?_⟩
    · intro p
      have h0 := hle p 0; have h1 := hle p 1; have h2 := hle p 2
      rw [hc]
      exact idx3_lt (n0 := Nx + 1) (n1 := Ny + 1) (n2 := Nz + 1) (by omega) (by omega) (by omega)
    · intro p q hpq
      have h1 := hle p 1; have h2 := hle p 2
      have h1' := hle q 1; have h2' := hle q 2
      rw [hc, hc] at hpq
      obtain ⟨e0, e1, e2⟩ := idx3_inj (by omega) (by omega) (by omega) (by omega) hpq
      have : ∀ p q, hexCorner p 0 = hexCorner q 0 → hexCorner p 1 = hexCorner q 1 →
        hexCorner p 2 = hexCorner q 2 → p = q := by decide
      exact this p q (by omega) (by omega) (by omega)
    · intro p a
      have h1 := hle p 1; have h2 := hle p 2
      rw [hc]
      refine (congrFun (boxMesh_point Nx Ny Nz Lx Ly Lz (by omega) (by omega)) a).trans ?_
      fin_cases a <;> rfl
  · intro t ht
    have ht' : t < (Nx + 1) * (Ny + 1) * (Nz + 1) := ht
    obtain ⟨i, j, k, hi, hj, hk, rfl⟩ := idx3_surj ht'
    exact ⟨i, j, k, by omega, by omega, by omega, boxMesh_point Nx Ny Nz Lx Ly Lz hj hk⟩
  · intro i j k hi hj hk
    exact ⟨(i * (Ny + 1) + j) * (Nz + 1) + k,
      idx3_lt (n0 := Nx + 1) (n1 := Ny + 1) (n2 := Nz + 1) (by omega) (by omega) (by omega),
      boxMesh_point Nx Ny Nz Lx Ly Lz (by omega) (by omega)⟩

/-- Concrete non-trivial case: the 3×2×2 mesh of the box 3×4×6; cell 7 = grid position (1,1,1). -/
example : (boxMesh 3 2 2 (3:ℚ) 4 6).cells.get 7 = ![13, 22, 25, 16, 14, 23, 26, 17] := by
  funext c; fin_cases c <;> rfl
example : (boxMesh 3 2 2 (3:ℚ) 4 6).points.get 22 = ![2, 2, 3] := by
  refine (boxMesh_point 3 2 2 (3:ℚ) 4 6 (i := 2) (j := 1) (k := 1) (by norm_num) (by norm_num)).trans ?_
  funext c; fin_cases c <;> norm_num

/-- C01, continued: the point coordinates are pairwise distinct when the spacings are non-zero. -/
theorem C01_points_distinct {K : Type*} [Field K] [CharZero K] (Nx Ny Nz : ℕ) (Lx Ly Lz : K)
    (hx : Lx ≠ 0) (hy : Ly ≠ 0) (hz : Lz ≠ 0) (hNx : Nx ≠ 0) (hNy : Ny ≠ 0) (hNz : Nz ≠ 0) :
    let M := boxMesh Nx Ny Nz Lx Ly Lz
    ∀ s t, s < M.points.n → t < M.points.n → M.points.get s = M.points.get t → s = t := by
  intro M s t hs ht e
  have hs' : s < (Nx + 1) * (Ny + 1) * (Nz + 1) := hs
  have ht' : t < (Nx + 1) * (Ny + 1) * (Nz + 1) := ht
  obtain ⟨i, j, k, hi, hj, hk, rfl⟩ := idx3_surj hs'
  obtain ⟨i', j', k', hi', hj', hk', rfl⟩ := idx3_surj ht'
  have e1 := (boxMesh_point Nx Ny Nz Lx Ly Lz (i := i) hj hk).symm.trans
    (e.trans (boxMesh_point Nx Ny Nz Lx Ly Lz (i := i') hj' hk'))
  have a0 := congrFun e1 0
  have a1 := congrFun e1 1
  have a2 := congrFun e1 2
  simp only [Matrix.cons_val_zero, Matrix.cons_val_one, Matrix.cons_val] at a0 a1 a2
  have n0 : Lx / (Nx : K) ≠ 0 := div_ne_zero hx (by exact_mod_cast hNx)
  have n1 : Ly / (Ny : K) ≠ 0 := div_ne_zero hy (by exact_mod_cast hNy)
  have n2 : Lz / (Nz : K) ≠ 0 := div_ne_zero hz (by exact_mod_cast hNz)
  have b0 : i = i' := by exact_mod_cast mul_right_cancel₀ n0 a0
  have b1 : j = j' := by exact_mod_cast mul_right_cancel₀ n1 a1
  have b2 : k = k' := by exact_mod_cast mul_right_cancel₀ n2 a2
  rw [b0, b1, b2]

/-- **C02.** `rectangle_mesh`: sizes, bijection of cells with grid positions, every cell the
counter-clockwise rectangle at its position, points = grid points. -/
theorem C02_rectangle_mesh (Nx Ny : ℕ) (Lx Ly : K) :
    let M := rectangleMesh Nx Ny Lx Ly
    let h : Fin 2 → K := ![Lx / Nx, Ly / Ny]
    M.points.n = (Nx + 1) * (Ny + 1) ∧ M.cells.n = Nx * Ny ∧
    (∀ n < M.cells.n, ∃! g : ℕ × ℕ, g.1 < Nx ∧ g.2 < Ny ∧ n = g.1 * Ny + g.2) ∧
    (∀ i j, i < Nx → j < Ny → i * Ny + j < M.cells.n ∧
        IsBrick M quadCorner h ![i, j] (M.cells.get (i * Ny + j))) ∧
    (∀ t < M.points.n, ∃ i j, i ≤ Nx ∧ j ≤ Ny ∧ M.points.get t = ![(i : K) * h 0, (j : K) * h 1]) := by
  intro M h
  refine ⟨rfl, rfl, ?_, ?_, ?_⟩
  · intro n hn
    obtain ⟨i, j, hi, hj, rfl⟩ := idx2_surj hn
    refine ⟨(i, j), ⟨hi, hj, rfl⟩, ?_⟩
    rintro ⟨i', j'⟩ ⟨_, hj', e⟩
    obtain ⟨rfl, rfl⟩ := idx_inj hj hj' e
    rfl
  · intro i j hi hj
    have hc : ∀ p, M.cells.get (i * Ny + j) p = (i + quadCorner p 0) * (Ny + 1)
        + (j + quadCorner p 1) := by
      intro p
      refine (congrFun (rectangleMesh_cell Nx Ny Lx Ly (i := i) hj) p).trans ?_
      fin_cases p <;> rfl
    have hle : ∀ p a, quadCorner p a ≤ 1 := by decide
    refine ⟨idx2_lt hi hj, ?_, ?_, ?_⟩
    · intro p
      have h0 := hle p 0; have h1 := hle p 1
      rw [hc]
      exact idx2_lt (n0 := Nx + 1) (n1 := Ny + 1) (by omega) (by omega)
    · intro p q hpq
      have h1 := hle p 1; have h1' := hle q 1
      rw [hc, hc] at hpq
      obtain ⟨e0, e1⟩ := idx_inj (by omega) (by omega) hpq
      have : ∀ p q, quadCorner p 0 = quadCorner q 0 → quadCorner p 1 = quadCorner q 1 → p = q := by
        decide
      exact this p q (by omega) (by omega)
    · intro p a
      have h1 := hle p 1
      rw [hc]
      refine (congrFun (rectangleMesh_point Nx Ny Lx Ly (by omega)) a).trans ?_
      fin_cases a <;> rfl
  · intro t ht
    have ht' : t < (Nx + 1) * (Ny + 1) := ht
    obtain ⟨i, j, hi, hj, rfl⟩ := idx2_surj ht'
    exact ⟨i, j, by omega, by omega, rectangleMesh_point Nx Ny Lx Ly hj⟩

example : (rectangleMesh 3 2 (3:ℚ) 4).cells.get 3 = ![4, 7, 8, 5] := by
  funext c; fin_cases c <;> rfl

/-- **C03a.** `to_id` and `to_id_xyz` are mutually inverse bijections grid ↔ `{0..Nx*Ny*Nz-1}`. -/
theorem C03_numbering_bijection (Nx Ny Nz : ℕ) :
    (∀ ix iy iz, ix < Nx → iy < Ny → iz < Nz →
      toId Ny Nz ix iy iz < Nx * Ny * Nz ∧ toIdXyz Ny Nz (toId Ny Nz ix iy iz) = (ix, iy, iz)) ∧
    (∀ n, n < Nx * Ny * Nz →
      (toIdXyz Ny Nz n).1 < Nx ∧ (toIdXyz Ny Nz n).2.1 < Ny ∧ (toIdXyz Ny Nz n).2.2 < Nz ∧
      toId Ny Nz (toIdXyz Ny Nz n).1 (toIdXyz Ny Nz n).2.1 (toIdXyz Ny Nz n).2.2 = n) := by
  have key : ∀ ix iy iz, toId Ny Nz ix iy iz = (ix * Ny + iy) * Nz + iz := by
    intros; unfold toId; ring
  have inv : ∀ ix iy iz, iy < Ny → iz < Nz →
      toIdXyz Ny Nz ((ix * Ny + iy) * Nz + iz) = (ix, iy, iz) := by
    intro ix iy iz hy hz
    simp only [toIdXyz, idx_div _ hz, idx_mod _ hz, idx_div _ hy, idx_mod _ hy]
  constructor
  · intro ix iy iz hx hy hz
    rw [key]
    exact ⟨idx3_lt hx hy hz, inv ix iy iz hy hz⟩
  · intro n hn
    obtain ⟨i, j, k, hi, hj, hk, rfl⟩ := idx3_surj hn
    rw [inv i j k hj hk, key]
    exact ⟨hi, hj, hk, rfl⟩

example : toId 5 7 2 3 4 = 95 ∧ toIdXyz 5 7 95 = (2, 3, 4) := by decide

/-- **C03b.** The value `f n` computed for lattice id `n` lands at grid entry `to_id_xyz(n)`. -/
theorem C03_shape_wrapper {α : Type*} (Nx Ny Nz : ℕ) (f : ℕ → α) (n : ℕ) (hn : n < Nx * Ny * Nz) :
    let A := shapeWrapper Nx Ny Nz f
    (A.n0, A.n1, A.n2) = (Nx, Ny, Nz) ∧
    A.get (toIdXyz Ny Nz n).1 (toIdXyz Ny Nz n).2.1 (toIdXyz Ny Nz n).2.2 = f n := by
  refine ⟨rfl, ?_⟩
  have h := ((C03_numbering_bijection Nx Ny Nz).2 n hn).2.2.2
  show f _ = f n
  congr 1
  rw [← h]
  conv_lhs => rw [h]
  simp only [toId] at h
  simp only [Arr1.arange, toId]
  ring

/-- **C03c.** Cell `n` of `box_mesh` has its centroid at the centre of grid cell `to_id_xyz(n)`. -/
theorem C03_centroid {K : Type*} [Field K] [CharZero K] (Nx Ny Nz : ℕ) (Lx Ly Lz : K) (n : ℕ)
    (hn : n < Nx * Ny * Nz) :
    (cellCentroid (boxMesh Nx Ny Nz Lx Ly Lz)).n = Nx * Ny * Nz ∧
    (cellCentroid (boxMesh Nx Ny Nz Lx Ly Lz)).get n =
      ![((toIdXyz Ny Nz n).1 + 1/2 : K) * (Lx / Nx), ((toIdXyz Ny Nz n).2.1 + 1/2 : K) * (Ly / Ny),
        ((toIdXyz Ny Nz n).2.2 + 1/2 : K) * (Lz / Nz)] := by
  refine ⟨rfl, ?_⟩
  obtain ⟨i, j, k, hi, hj, hk, rfl⟩ := idx3_surj hn
  have hb := (C01_box_mesh Nx Ny Nz Lx Ly Lz).2.2.2.1 i j k hi hj hk
  obtain ⟨_, _, _, hpos⟩ := hb
  simp only [toIdXyz, idx_div _ hk, idx_mod _ hk, idx_div _ hj, idx_mod _ hj]
  funext a
  have h4 : ∀ a, ∑ p, hexCorner p a = 4 := by decide
  have hsum : ∀ (g : ℕ) (a : Fin 3), ∑ p, ((g + hexCorner p a : ℕ) : K) = 8 * ((g : K) + 1/2) := by
    intro g a
    have : ∑ p, (g + hexCorner p a) = 8 * g + 4 := by
      rw [Finset.sum_add_distrib, h4]; simp
    rw [← Nat.cast_sum, this]; push_cast; ring
  have h8 : (8 : K) ≠ 0 := by norm_num
  simp only [cellCentroid, Arr1.map, hpos, ← Finset.sum_mul, hsum]
  rw [mul_assoc, mul_div_cancel_left₀ _ h8]
  fin_cases a <;> rfl

example : (cellCentroid (boxMesh 2 1 1 (2:ℚ) 2 2)).get 1 = ![3/2, 1, 1] := by
  have := (C03_centroid 2 1 1 (2:ℚ) 2 2 1 (by norm_num)).2
  rw [this]; funext a; fin_cases a <;> norm_num [toIdXyz]

/-- **C06.** The transferred temperature of phase-field cell with flat index `(k*Ny+j)*Nx+i`
(x fastest, the phase-field `(Nz,Ny,Nx)` layout) is the CFD value of cell `(i,j,k)`; no cell is lost. -/
theorem C06_convert_temperature {α : Type*} (T : Arr3 α) :
    (convertTemperature T).n = T.n0 * T.n1 * T.n2 ∧
    ∀ i j k, i < T.n0 → j < T.n1 → k < T.n2 →
      (k * T.n1 + j) * T.n0 + i < (convertTemperature T).n ∧
      (convertTemperature T).get ((k * T.n1 + j) * T.n0 + i) = T.get i j k := by
  have hn : (convertTemperature T).n = T.n0 * T.n1 * T.n2 := by
    show T.n2 * T.n1 * T.n0 = _; ring
  refine ⟨hn, fun i j k hi hj hk => ⟨?_, Arr3.flatten_get T.transpose210 hj hi⟩⟩
  have := idx3_lt hk hj hi
  rw [hn]; calc _ < _ := this
    _ = _ := by ring

example : (convertTemperature (⟨2, 3, 4, fun i j k => (i, j, k)⟩ : Arr3 (ℕ × ℕ × ℕ))).toList.take 3
    = [(0,0,0), (1,0,0), (0,1,0)] := by decide

end Verif.Mesh
