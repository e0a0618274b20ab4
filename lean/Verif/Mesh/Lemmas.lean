import Verif.Mesh.Model

/-! # Helper lemmas for structured meshes (index arithmetic) -/
namespace Verif.Mesh
open Verif

theorem idx2_lt {n0 n1 i j : ℕ} (hi : i < n0) (hj : j < n1) : i * n1 + j < n0 * n1 := by
  calc i * n1 + j < i * n1 + n1 := by omega
    _ = (i + 1) * n1 := by ring
    _ ≤ n0 * n1 := Nat.mul_le_mul_right _ hi

theorem idx3_lt {n0 n1 n2 i j k : ℕ} (hi : i < n0) (hj : j < n1) (hk : k < n2) :
    (i * n1 + j) * n2 + k < n0 * n1 * n2 := idx2_lt (idx2_lt hi hj) hk

theorem idx_div {n1 j : ℕ} (i : ℕ) (hj : j < n1) : (i * n1 + j) / n1 = i := by
  rw [Nat.mul_comm, Nat.mul_add_div (by omega), Nat.div_eq_of_lt hj, Nat.add_zero]

theorem idx_mod {n1 j : ℕ} (i : ℕ) (hj : j < n1) : (i * n1 + j) % n1 = j := by
  rw [Nat.add_comm, Nat.add_mul_mod_self_right, Nat.mod_eq_of_lt hj]

theorem idx_inj {n1 i j i' j' : ℕ} (hj : j < n1) (hj' : j' < n1)
    (h : i * n1 + j = i' * n1 + j') : i = i' ∧ j = j' := by
  have h1 := idx_div i hj
  have h2 := idx_div i' hj'
  have h3 := idx_mod i hj
  have h4 := idx_mod i' hj'
  rw [h] at h1 h3
  exact ⟨h1.symm.trans h2, h3.symm.trans h4⟩

theorem idx3_inj {n1 n2 i j k i' j' k' : ℕ} (hj : j < n1) (hk : k < n2) (hj' : j' < n1)
    (hk' : k' < n2) (h : (i * n1 + j) * n2 + k = (i' * n1 + j') * n2 + k') :
    i = i' ∧ j = j' ∧ k = k' := by
  obtain ⟨h1, h2⟩ := idx_inj hk hk' h
  obtain ⟨h3, h4⟩ := idx_inj hj hj' h1
  exact ⟨h3, h4, h2⟩

/-- every flat index below `n0*n1*n2` is a grid index. -/
theorem idx3_surj {n0 n1 n2 t : ℕ} (h : t < n0 * n1 * n2) :
    ∃ i j k, i < n0 ∧ j < n1 ∧ k < n2 ∧ t = (i * n1 + j) * n2 + k := by
  have h2 : 0 < n2 := Nat.pos_of_ne_zero (by rintro rfl; simp at h)
  have h1 : 0 < n1 := Nat.pos_of_ne_zero (by rintro rfl; simp at h)
  refine ⟨t / n2 / n1, t / n2 % n1, t % n2, ?_, Nat.mod_lt _ h1, Nat.mod_lt _ h2, ?_⟩
  · rw [Nat.div_lt_iff_lt_mul h1, Nat.div_lt_iff_lt_mul h2]; exact h
  · have := Nat.div_add_mod (t / n2) n1
    have := Nat.div_add_mod t n2
    nlinarith

theorem idx2_surj {n0 n1 t : ℕ} (h : t < n0 * n1) :
    ∃ i j, i < n0 ∧ j < n1 ∧ t = i * n1 + j := by
  have h1 : 0 < n1 := Nat.pos_of_ne_zero (by rintro rfl; simp at h)
  refine ⟨t / n1, t % n1, ?_, Nat.mod_lt _ h1, ?_⟩
  · rw [Nat.div_lt_iff_lt_mul h1]; exact h
  · have := Nat.div_add_mod t n1
    nlinarith

theorem Arr3.flatten_get {α : Type*} (a : Arr3 α) {i j k : ℕ} (hj : j < a.n1) (hk : k < a.n2) :
    a.flatten.get ((i * a.n1 + j) * a.n2 + k) = a.get i j k := by
  simp only [Verif.Arr3.flatten, idx_div _ hk, idx_mod _ hk, idx_div _ hj, idx_mod _ hj]

theorem Arr2.flatten_get {α : Type*} (a : Arr2 α) {i j : ℕ} (hj : j < a.n1) :
    a.flatten.get (i * a.n1 + j) = a.get i j := by
  simp only [Verif.Arr2.flatten, idx_div _ hj, idx_mod _ hj]

variable {K : Type*} [Field K]

theorem boxMesh_points_n (Nx Ny Nz : ℕ) (Lx Ly Lz : K) :
    (boxMesh Nx Ny Nz Lx Ly Lz).points.n = (Nx + 1) * (Ny + 1) * (Nz + 1) := rfl

theorem boxMesh_cells_n (Nx Ny Nz : ℕ) (Lx Ly Lz : K) :
    (boxMesh Nx Ny Nz Lx Ly Lz).cells.n = Nx * Ny * Nz := rfl

theorem boxMesh_point (Nx Ny Nz : ℕ) (Lx Ly Lz : K) {i j k : ℕ} (hj : j < Ny + 1)
    (hk : k < Nz + 1) :
    (boxMesh Nx Ny Nz Lx Ly Lz).points.get ((i * (Ny + 1) + j) * (Nz + 1) + k)
      = ![(i : K) * (Lx / Nx), (j : K) * (Ly / Ny), (k : K) * (Lz / Nz)] := by
  have h := Arr3.flatten_get (Arr3.stack (meshgrid3 (Arr1.linspace 0 Lx (Nx + 1))
    (Arr1.linspace 0 Ly (Ny + 1)) (Arr1.linspace 0 Lz (Nz + 1)))) (i := i) (j := j) (k := k)
    hj hk
  refine Eq.trans h ?_
  funext c
  fin_cases c <;> simp [Arr3.stack, meshgrid3, Arr1.linspace]

theorem boxMesh_cell (Nx Ny Nz : ℕ) (Lx Ly Lz : K) {i j k : ℕ} (hj : j < Ny) (hk : k < Nz) :
    (boxMesh Nx Ny Nz Lx Ly Lz).cells.get ((i * Ny + j) * Nz + k)
      = ![(i * (Ny + 1) + j) * (Nz + 1) + k,
          ((i + 1) * (Ny + 1) + j) * (Nz + 1) + k,
          ((i + 1) * (Ny + 1) + (j + 1)) * (Nz + 1) + k,
          (i * (Ny + 1) + (j + 1)) * (Nz + 1) + k,
          (i * (Ny + 1) + j) * (Nz + 1) + (k + 1),
          ((i + 1) * (Ny + 1) + j) * (Nz + 1) + (k + 1),
          ((i + 1) * (Ny + 1) + (j + 1)) * (Nz + 1) + (k + 1),
          (i * (Ny + 1) + (j + 1)) * (Nz + 1) + (k + 1)] := by
  let P := (Arr1.arange ((Nx + 1) * (Ny + 1) * (Nz + 1))).reshape3 (Nx + 1) (Ny + 1) (Nz + 1)
  have h := Arr3.flatten_get (Arr3.stack ![P.init0.init1.init2, P.tail0.init1.init2,
    P.tail0.tail1.init2, P.init0.tail1.init2, P.init0.init1.tail2, P.tail0.init1.tail2,
    P.tail0.tail1.tail2, P.init0.tail1.tail2]) (i := i) (j := j) (k := k) hj hk
  refine Eq.trans h ?_
  funext c
  fin_cases c <;> rfl

theorem rectangleMesh_point (Nx Ny : ℕ) (Lx Ly : K) {i j : ℕ} (hj : j < Ny + 1) :
    (rectangleMesh Nx Ny Lx Ly).points.get (i * (Ny + 1) + j)
      = ![(i : K) * (Lx / Nx), (j : K) * (Ly / Ny)] := by
  have h := Arr2.flatten_get (Arr2.stack (meshgrid2 (Arr1.linspace 0 Lx (Nx + 1))
    (Arr1.linspace 0 Ly (Ny + 1)))) (i := i) (j := j) hj
  refine Eq.trans h ?_
  funext c
  fin_cases c <;> simp [Arr2.stack, meshgrid2, Arr1.linspace]

theorem rectangleMesh_cell (Nx Ny : ℕ) (Lx Ly : K) {i j : ℕ} (hj : j < Ny) :
    (rectangleMesh Nx Ny Lx Ly).cells.get (i * Ny + j)
      = ![i * (Ny + 1) + j, (i + 1) * (Ny + 1) + j, (i + 1) * (Ny + 1) + (j + 1),
          i * (Ny + 1) + (j + 1)] := by
  let P := (Arr1.arange ((Nx + 1) * (Ny + 1))).reshape2 (Nx + 1) (Ny + 1)
  have h := Arr2.flatten_get (Arr2.stack ![P.init0.init1, P.tail0.init1,
    P.tail0.tail1, P.init0.tail1]) (i := i) (j := j) hj
  refine Eq.trans h ?_
  funext c
  fin_cases c <;> rfl

end Verif.Mesh
