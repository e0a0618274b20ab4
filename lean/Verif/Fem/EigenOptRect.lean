import Verif.Fem.EigenOptCons
import Mathlib.LinearAlgebra.Dimension.StrongRankCondition
import Mathlib.LinearAlgebra.FiniteDimensional.Lemmas

/-!
# C133: the rigid motions on the mesh of eigen.py

On a rectangle of QUAD4 cells the eigenvalue 0 belongs exactly to the plane rigid motions, which form a space of dimension three; this is why the program skips the first three pairs.
-/
namespace Verif.Fem
open Finset Filter Topology Verif.Pencil

variable {nf nfq m : ℕ}

/-- Specification: a plane rigid motion with velocity `(a, b)` and angular velocity `w`, at the nodes of the mesh. -/
def IsRigid {nn nq : ℕ} (F : Fem nn nq nf nfq 2 2) (a b w : ℝ) (v : ℕ → Fin 2 → ℝ) : Prop := ∀ n < F.numTotal, v n 0 = a - w * F.points n 1 ∧ v n 1 = b + w * F.points n 0

section
variable {F : Fem 4 (2 ^ 2) nf nfq 2 2} {Nx Ny : ℕ} {Lx Ly : ℝ} (hR : OnRect F Nx Ny Lx Ly) (ht : CellTables F quad4 (gaussRule 2)) (hNx : 0 < Nx) (hNy : 0 < Ny) (hLx : 0 < Lx) (hLy : 0 < Ly)

theorem zipIdx_weighted_zero {nn : ℕ} (cells : List (Fin nn → ℕ)) (e : ℕ → ℝ) (W : (Fin nn → ℕ) → ℝ) (he : ∀ k < cells.length, 0 < e k) (hW : ∀ c ∈ cells, 0 ≤ W c) :
    (cells.zipIdx.map fun c => e c.2 * W c.1).sum = 0 ↔ ∀ c ∈ cells, W c = 0 := by
  have hmem : ∀ c ∈ cells.zipIdx, c.1 ∈ cells ∧ c.2 < cells.length := fun c hc => by
    have := List.mem_zipIdx hc
    exact ⟨by rw [this.2.2]; exact List.getElem_mem _, by omega⟩
  constructor
  · intro h c hc
    obtain ⟨k, hk, rfl⟩ := List.getElem_of_mem hc
    have hin : (cells[k], k) ∈ cells.zipIdx := by
      rw [List.mem_zipIdx_iff_getElem?]
      simp [hk]
    have h1 : ∀ x ∈ cells.zipIdx.map (fun c => e c.2 * W c.1), (0 : ℝ) ≤ x := by
      intro x hx
      obtain ⟨c, hc, rfl⟩ := List.mem_map.mp hx
      exact mul_nonneg (he _ (hmem c hc).2).le (hW _ (hmem c hc).1)
    have h2 := (List.all_zero_of_le_zero_le_of_sum_eq_zero (fun x hx => h1 x hx)) h (List.mem_map.mpr ⟨_, hin, rfl⟩)
    exact (mul_eq_zero.mp h2).resolve_left (he k hk).ne'
  · intro h
    refine List.sum_eq_zero fun x hx => ?_
    obtain ⟨c, hc, rfl⟩ := List.mem_map.mp hx
    rw [h _ (hmem c hc).1, mul_zero]

include hR ht hNx hNy hLx hLy

theorem rect_det (c : Fin 4 → ℕ) (hc : c ∈ F.cells) (q : Fin (2 ^ 2)) : 0 < (F.jacobian c q).det := by
  obtain ⟨i, j, hi, hj, rfl⟩ := (hR.mem_cells c).mp hc
  rw [hR.jacobian _ ht i j hj, Matrix.det_diagonal, Fin.prod_univ_two]
  exact mul_pos (div_pos hLx (by exact_mod_cast hNx)) (div_pos hLy (by exact_mod_cast hNy))

theorem rect_vol (c : Fin 4 → ℕ) (hc : c ∈ F.cells) (q : Fin (2 ^ 2)) : 0 < F.JxW c q := by
  have h := rect_det hR ht hNx hNy hLx hLy c hc q
  unfold Fem.JxW
  rw [ht.weights]
  exact mul_pos h (gauss_w_pos 2 q)

theorem rect_rigid : F.RigidModes := by
  refine C88_rigid_quad4 F ht fun c hc => ?_
  obtain ⟨i, j, hi, hj, rfl⟩ := (hR.mem_cells c).mp hc
  refine ⟨![(i : ℝ) * (Lx / Nx), (j : ℝ) * (Ly / Ny)], ![Lx / Nx, Ly / Ny], fun a => ?_, fun p a => hR.corner i j hj p a⟩
  fin_cases a
  · exact (div_pos hLx (by exact_mod_cast hNx)).ne'
  · exact (div_pos hLy (by exact_mod_cast hNy)).ne'

/-- In one cell: no work exactly for rigid motions of the cell. -/
theorem cell_rigid (v : ℕ → Fin 2 → ℝ) (c : Fin 4 → ℕ) (hc : c ∈ F.cells) :
    cellWork F (planeStress 1 0.3) v v c = 0 ↔ ∃ s : ℝ × ℝ × ℝ, ∀ p, v (c p) 0 = s.1 - s.2.2 * F.points (c p) 1 ∧ v (c p) 1 = s.2.1 + s.2.2 * F.points (c p) 0 := by
  have hvol := rect_vol hR ht hNx hNy hLx hLy c hc
  constructor
  · intro h
    have h1 : ∀ q i j, F.gradAt v c q i j + F.gradAt v c q j i = 0 := by
      intro q
      have h2 := (sum_eq_zero_iff_of_nonneg fun q _ => mul_nonneg (planeLaw.nonneg (F.gradAt v c q)) (hvol q).le).mp h q (mem_univ q)
      exact planeLaw.strict _ ((mul_eq_zero.mp h2).resolve_right (hvol q).ne')
    obtain ⟨W, t, hW, hv⟩ := rect_rigid hR ht hNx hNy hLx hLy c hc (fun a => v (c a)) h1
    refine ⟨(t 0, t 1, W 1 0), fun p => ?_⟩
    rw [hv p 0, hv p 1, Fin.sum_univ_two, Fin.sum_univ_two]
    have w0 := hW 0 0
    have w1 := hW 1 1
    have z0 : W 0 0 = 0 := by linarith
    have z1 : W 1 1 = 0 := by linarith
    rw [z0, z1, hW 0 1]
    constructor <;> ring
  · rintro ⟨⟨a, b, w⟩, hs⟩
    have hg : ∀ q, F.gradAt v c q = ![![0, -w], ![w, 0]] := by
      intro q
      refine gradAt_affine F (fun q b => ?_) _ ![a, b] v c (fun n i => ?_) q (rect_det hR ht hNx hNy hLx hLy c hc q).ne'
      · simp only [ht.grads]
        fin_cases b
        · refine (sum_congr rfl fun a _ => (shapeGradRef_quad4 a ((gaussRule 2).pt q)).1).trans ?_
          rw [Fin.sum_univ_four]
          simp [Verif.Mesh.quadCorner, lin, slope]
        · refine (sum_congr rfl fun a _ => (shapeGradRef_quad4 a ((gaussRule 2).pt q)).2).trans ?_
          rw [Fin.sum_univ_four]
          simp [Verif.Mesh.quadCorner, lin, slope]
      · obtain ⟨h0, h1⟩ := hs n
        fin_cases i
        · show v (c n) 0 = _
          rw [h0]
          simp
          ring
        · show v (c n) 1 = _
          rw [h1]
          simp
          ring
    unfold cellWork
    refine sum_eq_zero fun q _ => ?_
    rw [hg q]
    simp [planeStress]

theorem rigid_of_cells (v : ℕ → Fin 2 → ℝ) (h : ∀ c ∈ F.cells, cellWork F (planeStress 1 0.3) v v c = 0) : ∃ a b w, IsRigid F a b w v := by
  have hx : 0 < Lx / Nx := div_pos hLx (by exact_mod_cast hNx)
  have hy : 0 < Ly / Ny := div_pos hLy (by exact_mod_cast hNy)
  have hcell : ∀ i j, ∃ s : ℝ × ℝ × ℝ, i < Nx → j < Ny → ∀ p, v (rectCell Ny i j p) 0 = s.1 - s.2.2 * F.points (rectCell Ny i j p) 1 ∧ v (rectCell Ny i j p) 1 = s.2.1 + s.2.2 * F.points (rectCell Ny i j p) 0 := by
    intro i j
    by_cases hij : i < Nx ∧ j < Ny
    · have hc : rectCell Ny i j ∈ F.cells := (hR.mem_cells _).mpr ⟨i, j, hij.1, hij.2, rfl⟩
      obtain ⟨s, hs⟩ := (cell_rigid hR ht hNx hNy hLx hLy v _ hc).mp (h _ hc)
      exact ⟨s, fun _ _ => hs⟩
    · exact ⟨0, fun h1 h2 => absurd ⟨h1, h2⟩ hij⟩
  choose s hs using hcell
  have glue : ∀ (s s' : ℝ × ℝ × ℝ) (n n' : ℕ), F.points n ≠ F.points n' → (∀ k ∈ [n, n'], v k 0 = s.1 - s.2.2 * F.points k 1 ∧ v k 1 = s.2.1 + s.2.2 * F.points k 0) →
      (∀ k ∈ [n, n'], v k 0 = s'.1 - s'.2.2 * F.points k 1 ∧ v k 1 = s'.2.1 + s'.2.2 * F.points k 0) → s = s' := by
    rintro ⟨a, b, w⟩ ⟨a', b', w'⟩ n n' hne h1 h2
    obtain ⟨p1, p2⟩ := h1 n (by simp)
    obtain ⟨p3, p4⟩ := h1 n' (by simp)
    obtain ⟨r1, r2⟩ := h2 n (by simp)
    obtain ⟨r3, r4⟩ := h2 n' (by simp)
    simp only at p1 p2 p3 p4 r1 r2 r3 r4
    have hw : w = w' := by
      by_contra hne'
      refine hne (funext fun d => ?_)
      have hd := sub_ne_zero.mpr hne'
      fin_cases d
      · have : (w - w') * (F.points n 0 - F.points n' 0) = 0 := by linear_combination p4 - p2 + r2 - r4
        exact sub_eq_zero.mp ((mul_eq_zero.mp this).resolve_left hd)
      · have : (w - w') * (F.points n 1 - F.points n' 1) = 0 := by linear_combination p1 - p3 - r1 + r3
        exact sub_eq_zero.mp ((mul_eq_zero.mp this).resolve_left hd)
    subst hw
    have e1 : a = a' := by linarith
    have e2 : b = b' := by linarith
    rw [e1, e2]
  have hright : ∀ i j, i + 1 < Nx → j < Ny → s (i + 1) j = s i j := by
    intro i j hi hj
    refine glue _ _ (rectCell Ny (i + 1) j 0) (rectCell Ny (i + 1) j 3) (fun e => ?_) (fun k hk => ?_) (fun k hk => ?_)
    · have e1 := congrFun e 1
      rw [hR.corner _ j hj, hR.corner _ j hj] at e1
      simp [Verif.Mesh.quadCorner] at e1
      rcases e1 with e1 | e1
      · exact hLy.ne' e1
      · omega
    · simp only [List.mem_cons, List.not_mem_nil, or_false] at hk
      rcases hk with rfl | rfl
      · exact hs (i + 1) j hi hj 0
      · exact hs (i + 1) j hi hj 3
    · simp only [List.mem_cons, List.not_mem_nil, or_false] at hk
      rcases hk with rfl | rfl
      · exact hs i j (by omega) hj 1
      · exact hs i j (by omega) hj 2
  have hup : ∀ j, j + 1 < Ny → s 0 (j + 1) = s 0 j := by
    intro j hj
    refine glue _ _ (rectCell Ny 0 (j + 1) 0) (rectCell Ny 0 (j + 1) 1) (fun e => ?_) (fun k hk => ?_) (fun k hk => ?_)
    · have e1 := congrFun e 0
      rw [hR.corner _ _ hj, hR.corner _ _ hj] at e1
      simp [Verif.Mesh.quadCorner] at e1
      exact hx.ne e1
    · simp only [List.mem_cons, List.not_mem_nil, or_false] at hk
      rcases hk with rfl | rfl
      · exact hs 0 (j + 1) hNx hj 0
      · exact hs 0 (j + 1) hNx hj 1
    · simp only [List.mem_cons, List.not_mem_nil, or_false] at hk
      rcases hk with rfl | rfl
      · exact hs 0 j hNx (by omega) 3
      · exact hs 0 j hNx (by omega) 2
  have hcol : ∀ j, j < Ny → s 0 j = s 0 0 := by
    intro j
    induction j with
    | zero => exact fun _ => rfl
    | succ j ih => exact fun hj => (hup j hj).trans (ih (by omega))
  have hall : ∀ i j, i < Nx → j < Ny → s i j = s 0 0 := by
    intro i j
    induction i with
    | zero => exact fun _ hj => hcol j hj
    | succ i ih => exact fun hi hj => (hright i j hi hj).trans (ih (by omega) hj)
  refine ⟨(s 0 0).1, (s 0 0).2.1, (s 0 0).2.2, fun n hn => ?_⟩
  rw [hR.num] at hn
  obtain ⟨i, j, p, hi, hj, hp⟩ : ∃ i j p, i < Nx ∧ j < Ny ∧ n = rectCell Ny i j p := by
    set I := n / (Ny + 1) with hI
    set J := n % (Ny + 1) with hJ
    have hJlt : J < Ny + 1 := Nat.mod_lt _ (by omega)
    have hIlt : I < Nx + 1 := Nat.div_lt_of_lt_mul (by rw [mul_comm]; exact hn)
    have hn' : n = I * (Ny + 1) + J := by rw [mul_comm]; exact (Nat.div_add_mod n (Ny + 1)).symm
    by_cases h1 : I < Nx
    · by_cases h2 : J < Ny
      · exact ⟨I, J, 0, h1, h2, hn'⟩
      · refine ⟨I, J - 1, 3, h1, by omega, ?_⟩
        show n = I * (Ny + 1) + (J - 1 + 1)
        omega
    · by_cases h2 : J < Ny
      · refine ⟨I - 1, J, 1, by omega, h2, ?_⟩
        show n = (I - 1 + 1) * (Ny + 1) + J
        rw [show I - 1 + 1 = I by omega]
        exact hn'
      · refine ⟨I - 1, J - 1, 2, by omega, by omega, ?_⟩
        show n = (I - 1 + 1) * (Ny + 1) + (J - 1 + 1)
        rw [show I - 1 + 1 = I by omega, show J - 1 + 1 = J by omega]
        exact hn'
  have := hs i j hi hj p
  rw [hall i j hi hj, ← hp] at this
  exact this

/-- **C133 (rigid motions).** For nonnegative densities the elastic form of a field vanishes exactly for the plane rigid motions. -/
theorem C133_rigid (p : Fin m → ℝ) (hp : ∀ j, 0 ≤ p j) (v : ℕ → Fin 2 → ℝ) : eigA F p v v = 0 ↔ ∃ a b w, IsRigid F a b w v := by
  have hW : ∀ c ∈ F.cells, 0 ≤ cellWork F (planeStress 1 0.3) v v c := fun c hc => cellWork_nonneg F planeLaw (rect_vol hR ht hNx hNy hLx hLy c hc) v
  unfold eigA totalWork
  rw [zipIdx_weighted_zero F.cells _ (cellWork F (planeStress 1 0.3) v v) (fun k _ => eigE_pos p hp k) hW]
  constructor
  · exact rigid_of_cells hR ht hNx hNy hLx hLy v
  · rintro ⟨a, b, w, h⟩ c hc
    exact (cell_rigid hR ht hNx hNy hLx hLy v c hc).mpr ⟨(a, b, w), fun q => h _ (hR.mesh c hc q)⟩

/-- In one cell: no mass only for the zero field. -/
theorem cell_mass_zero (v : ℕ → Fin 2 → ℝ) (c : Fin 4 → ℕ) (hc : c ∈ F.cells) (h : cellMass F v v c = 0) (a : Fin 4) (i : Fin 2) : v (c a) i = 0 := by
  have hvol := rect_vol hR ht hNx hNy hLx hLy c hc
  have h1 : ∀ q i, F.uAt v c q i = 0 := by
    intro q i
    have h2 := (sum_eq_zero_iff_of_nonneg fun q _ => mul_nonneg (sum_nonneg fun i _ => mul_self_nonneg (F.uAt v c q i)) (hvol q).le).mp h q (mem_univ q)
    have h3 := (mul_eq_zero.mp h2).resolve_right (hvol q).ne'
    have h4 := (sum_eq_zero_iff_of_nonneg fun i _ => mul_self_nonneg (F.uAt v c q i)).mp h3 i (mem_univ i)
    exact mul_self_eq_zero.mp h4
  have h5 := bilin_zero (v (c 0) i) (v (c 1) i) (v (c 3) i) (v (c 2) i) fun b b' => by
    obtain ⟨q, hq⟩ := gauss_pt2 ![b, b']
    have h6 := h1 q i
    have e0 := hq 0
    have e1 := hq 1
    simp only [Fem.uAt, ht.vals, shapeVal_quad4, Fin.sum_univ_four] at h6
    simp at e0 e1
    rw [e0, e1] at h6
    simp [Verif.Mesh.quadCorner, lin] at h6
    linear_combination h6
  obtain ⟨z0, z1, z3, z2⟩ := h5
  fin_cases a
  · exact z0
  · exact z1
  · exact z2
  · exact z3

/-- **C133 (mass).** For positive densities the kinetic form is positive for every field which is not zero on the mesh, so `vMv` never vanishes at an eigenvector. -/
theorem C133_mass (p : Fin m → ℝ) (hm : F.cells.length = m) (hp : ∀ j, 0 < p j) (v : ℕ → Fin 2 → ℝ) (hv : ∃ n < F.numTotal, v n ≠ 0) : 0 < eigB F p v v := by
  have hW : ∀ c ∈ F.cells, 0 ≤ cellMass F v v c := fun c hc => cellMass_nonneg c (rect_vol hR ht hNx hNy hLx hLy c hc) v
  have hr : ∀ k < F.cells.length, 0 < eigR p k := by
    intro k hk
    unfold eigR ext
    rw [dif_pos (by omega)]
    exact mul_pos (hp _) (by norm_num)
  have h0 : 0 ≤ eigB F p v v := by
    unfold eigB totalMass
    refine List.sum_nonneg fun x hx => ?_
    obtain ⟨c, hc, rfl⟩ := List.mem_map.mp hx
    have := (List.mem_zipIdx hc).2.1
    exact mul_nonneg (hr _ (by omega)).le (hW _ (zip_mem_cells hc))
  refine lt_of_le_of_ne h0 fun e => ?_
  have h1 := (zipIdx_weighted_zero F.cells (eigR p) (cellMass F v v) hr hW).mp e.symm
  have h2 : ∀ c ∈ F.cells, cellWork F (planeStress 1 0.3) v v c = 0 := fun c hc => (cell_rigid hR ht hNx hNy hLx hLy v c hc).mpr ⟨0, fun a => by
    have z := cell_mass_zero hR ht hNx hNy hLx hLy v c hc (h1 c hc) a
    simp [z]⟩
  obtain ⟨a, b, w, hrig⟩ := rigid_of_cells hR ht hNx hNy hLx hLy v h2
  have hx : 0 < Lx / Nx := div_pos hLx (by exact_mod_cast hNx)
  have hc : rectCell Ny 0 0 ∈ F.cells := (hR.mem_cells _).mpr ⟨0, 0, hNx, hNy, rfl⟩
  have z := cell_mass_zero hR ht hNx hNy hLx hLy v _ hc (h1 _ hc)
  have p0 := hrig _ (hR.mesh _ hc 0)
  have p1 := hrig _ (hR.mesh _ hc 1)
  rw [z 0, z 0, hR.corner 0 0 hNy, hR.corner 0 0 hNy] at p0
  rw [z 1, z 1, hR.corner 0 0 hNy, hR.corner 0 0 hNy] at p1
  simp [Verif.Mesh.quadCorner] at p0 p1
  obtain ⟨q1, q2⟩ := p0
  obtain ⟨q3, q4⟩ := p1
  have hw : w = 0 := by
    have : w * (Lx / Nx) = 0 := by linarith
    exact (mul_eq_zero.mp this).resolve_right hx.ne'
  obtain ⟨n, hn, hne⟩ := hv
  obtain ⟨r1, r2⟩ := hrig n hn
  refine hne (funext fun i => ?_)
  fin_cases i
  · show v n 0 = 0
    rw [r1, hw]; linarith
  · show v n 1 = 0
    rw [r2, hw]; linarith

/-- **C133 (the eigenvalue zero).** For positive densities the pairs with eigenvalue 0 are exactly the plane rigid motions; all others have positive eigenvalues. -/
theorem C133_zero (hF : FreeBody F) (p : Fin m → ℝ) (hm : F.cells.length = m) (hp : ∀ j, 0 < p j) (lam : ℝ) (x : ℕ → ℝ) :
    (IsPair F p 0 x ↔ ∃ a b w, IsRigid F a b w (fieldOf x)) ∧ (IsPair F p lam x → (∃ n < F.numTotal, fieldOf x n ≠ 0) → (¬ ∃ a b w, IsRigid F a b w (fieldOf x)) → 0 < lam) := by
  have hp' : ∀ j, 0 ≤ p j := fun j => (hp j).le
  have hrig := C133_rigid hR ht hNx hNy hLx hLy p hp'
  constructor
  · rw [C133_weak hF p hm, ← hrig]
    constructor
    · intro h
      rw [h, zero_mul]
    · intro h w
      rw [zero_mul]
      -- a nonnegative form which vanishes at a field vanishes against every field
      have key : ∀ t : ℝ, 0 ≤ eigA F p w w + 2 * t * eigA F p (fieldOf x) w := by
        intro t
        have h1 : 0 ≤ eigA F p (w + t • fieldOf x) (w + t • fieldOf x) := totalWork_nonneg F planeLaw hF.vol _ (fun k => (eigE_pos p hp' k).le) _
        have h2 : eigA F p (w + t • fieldOf x) (w + t • fieldOf x) = eigA F p w w + 2 * t * eigA F p (fieldOf x) w + t * t * eigA F p (fieldOf x) (fieldOf x) := by
          have ad : ∀ u v w, eigA F p u (v + w) = eigA F p u v + eigA F p u w := totalWork_add F planeLaw _
          have sm : ∀ (a : ℝ) u v, eigA F p u (a • v) = a * eigA F p u v := totalWork_smul F planeLaw _
          rw [ad, sm, eigA_symm F p (w + t • fieldOf x) w, eigA_symm F p (w + t • fieldOf x) (fieldOf x), ad, ad, sm, sm, eigA_symm F p w (fieldOf x)]
          ring
        rw [h2, h] at h1
        linarith
      by_contra hne
      have h1 := key (-(eigA F p w w + 1) / (2 * eigA F p (fieldOf x) w))
      have h2 : 2 * (-(eigA F p w w + 1) / (2 * eigA F p (fieldOf x) w)) * eigA F p (fieldOf x) w = -(eigA F p w w + 1) := by field_simp
      rw [h2] at h1
      linarith
  · intro h hx hnr
    have h1 := (C133_weak hF p hm lam x).mp h (fieldOf x)
    have hB := C133_mass hR ht hNx hNy hLx hLy p hm hp (fieldOf x) hx
    have hA : 0 ≤ eigA F p (fieldOf x) (fieldOf x) := totalWork_nonneg F planeLaw hF.vol _ (fun k => (eigE_pos p hp' k).le) _
    have hA' : eigA F p (fieldOf x) (fieldOf x) ≠ 0 := fun e => hnr ((hrig _).mp e)
    have hpos : 0 < lam * eigB F p (fieldOf x) (fieldOf x) := h1 ▸ lt_of_le_of_ne hA (Ne.symm hA')
    exact (mul_pos_iff_of_pos_right hB).mp hpos

/-! ## The order of the pairs -/

/-- Specification: what a correct solver returns for the target 10 (eigen.py 141-144): pairs whose vectors are orthonormal for the kinetic product, by increasing distance of the eigenvalue from 10, and no pair orthogonal to
all the listed vectors is closer than a listed one. -/
structure Closest (F : Fem 4 (2 ^ 2) nf nfq 2 2) (p : Fin m → ℝ) (eps : List (ℝ × (ℕ → ℝ))) : Prop where
  pair : ∀ e ∈ eps, IsPair F p e.1 e.2
  ortho : ∀ i j (hi : i < eps.length) (hj : j < eps.length), eigB F p (fieldOf eps[i].2) (fieldOf eps[j].2) = if i = j then 1 else 0
  sorted : ∀ i j (hi : i < eps.length) (hj : j < eps.length), i ≤ j → |eps[i].1 - 10| ≤ |eps[j].1 - 10|
  nearest : ∀ mu y, IsPair F p mu y → (∃ n < F.numTotal, fieldOf y n ≠ 0) → (∀ e ∈ eps, eigB F p (fieldOf e.2) (fieldOf y) = 0) → ∀ e ∈ eps, |e.1 - 10| ≤ |mu - 10|

/-- The rigid motion as a vector of degrees of freedom. -/
def rigidVec (F : Fem 4 (2 ^ 2) nf nfq 2 2) (s : Fin 3 → ℝ) : ℕ → ℝ := dofsOf fun n => ![s 0 - s 2 * F.points n 1, s 1 + s 2 * F.points n 0]

omit hR ht hNx hNy hLx hLy in
theorem rigidVec_field (s : Fin 3 → ℝ) : fieldOf (rigidVec F s) = fun n => ![s 0 - s 2 * F.points n 1, s 1 + s 2 * F.points n 0] := field_dofs _

omit ht hLy in
/-- A nonzero rigid motion is not zero on the mesh. -/
theorem rigid_nonzero (s : Fin 3 → ℝ) (h : ∀ n < F.numTotal, fieldOf (rigidVec F s) n = 0) : s = 0 := by
  have hx : 0 < Lx / Nx := div_pos hLx (by exact_mod_cast hNx)
  have hc : rectCell Ny 0 0 ∈ F.cells := (hR.mem_cells _).mpr ⟨0, 0, hNx, hNy, rfl⟩
  have p0 := h _ (hR.mesh _ hc 0)
  have p1 := h _ (hR.mesh _ hc 1)
  rw [rigidVec_field] at p0 p1
  have a0 := congrFun p0 0
  have a1 := congrFun p0 1
  have b1 := congrFun p1 1
  simp only [Matrix.cons_val_zero, Matrix.cons_val_one, hR.corner 0 0 hNy, Pi.zero_apply] at a0 a1 b1
  simp [Verif.Mesh.quadCorner] at a0 a1 b1
  have hw : s 2 = 0 := by
    have : s 2 * (Lx / Nx) = 0 := by linarith
    exact (mul_eq_zero.mp this).resolve_right hx.ne'
  funext i
  fin_cases i
  · exact a0
  · exact a1
  · exact hw

/-- **C133 (why three pairs are skipped).** If every nonzero eigenvalue exceeds 20, then in the list of a correct solver the pairs number 0, 1, 2 are the rigid motions and all the later ones, among them the three used by the program,
have eigenvalues above 20. -/
theorem C133_order (hF : FreeBody F) (p : Fin m → ℝ) (hm : F.cells.length = m) (hp : ∀ j, 0 < p j) (eps : List (ℝ × (ℕ → ℝ))) (hE : Closest F p eps) (h3 : 3 ≤ eps.length)
    (hgap : ∀ mu y, IsPair F p mu y → (∃ n < F.numTotal, fieldOf y n ≠ 0) → mu ≠ 0 → 20 < mu) :
    ∀ k (hk : k < eps.length), (k < 3 → eps[k].1 = 0 ∧ ∃ a b w, IsRigid F a b w (fieldOf eps[k].2)) ∧ (3 ≤ k → 20 < eps[k].1) := by
  have hzero := fun lam x => (C133_zero hR ht hNx hNy hLx hLy hF p hm hp lam x).1
  have adB : ∀ u v w, eigB F p u (v + w) = eigB F p u v + eigB F p u w := totalMass_add F _
  have smB : ∀ (a : ℝ) u v, eigB F p u (a • v) = a * eigB F p u v := totalMass_smul F _
  have hagree : ∀ u v w : ℕ → Fin 2 → ℝ, (∀ n < F.numTotal, v n = w n) → eigB F p u v = eigB F p u w := by
    intro u v w h
    unfold eigB totalMass
    congr 1
    refine List.map_congr_left fun c hc => ?_
    congr 1
    unfold cellMass
    refine sum_congr rfl fun q _ => ?_
    have : F.uAt v c.1 q = F.uAt w c.1 q := by
      funext i
      simp only [Fem.uAt]
      refine sum_congr rfl fun a _ => ?_
      rw [h _ (hR.mesh _ (zip_mem_cells hc) a)]
    rw [this]
  have hnz : ∀ k (hk : k < eps.length), ∃ n < F.numTotal, fieldOf eps[k].2 n ≠ 0 := by
    intro k hk
    by_contra hcon
    push Not at hcon
    have h1 := hE.ortho k k hk hk
    rw [if_pos rfl, hagree _ _ ((0 : ℝ) • fieldOf eps[k].2) (fun n hn => by rw [hcon n hn]; funext i; simp [hcon n hn]), smB, zero_mul] at h1
    exact zero_ne_one h1
  have hval : ∀ k (hk : k < eps.length), eps[k].1 = 0 ∨ 20 < eps[k].1 := by
    intro k hk
    by_cases h : eps[k].1 = 0
    · exact .inl h
    · exact .inr (hgap _ _ (hE.pair _ (List.getElem_mem hk)) (hnz k hk) h)
  have hlater : ∀ k (hk : k < eps.length), eps[k].1 ≠ 0 → ∀ l (hl : l < eps.length), k ≤ l → 20 < eps[l].1 := by
    intro k hk hne l hl hkl
    rcases hval l hl with h | h
    · exfalso
      have h1 := hE.sorted k l hk hl hkl
      have h2 := (hval k hk).resolve_left hne
      rw [h, abs_of_pos (by linarith : (0 : ℝ) < eps[k].1 - 10)] at h1
      norm_num at h1
      linarith
    · exact h
  have hrigid : ∀ k (hk : k < eps.length), eps[k].1 = 0 → ∃ s : Fin 3 → ℝ, ∀ n < F.numTotal, fieldOf eps[k].2 n = fieldOf (rigidVec F s) n := by
    intro k hk h
    have h1 := hE.pair _ (List.getElem_mem hk)
    rw [h] at h1
    obtain ⟨a, b, w, hr⟩ := (hzero 0 _).mp h1
    refine ⟨![a, b, w], fun n hn => ?_⟩
    obtain ⟨e0, e1⟩ := hr n hn
    rw [rigidVec_field]
    funext i
    fin_cases i
    · exact e0
    · exact e1
  -- the first three are rigid
  have hfirst : ∀ k (hk : k < eps.length), k < 3 → eps[k].1 = 0 := by
    intro k hk hk3
    by_contra hne
    -- at most two listed vectors can be rigid; take a rigid motion orthogonal to the first two
    have hlin : ∀ u, ∃ T : (Fin 3 → ℝ) →ₗ[ℝ] ℝ, ∀ s, T s = eigB F p u (fieldOf (rigidVec F s)) := by
      intro u
      refine ⟨⟨⟨fun s => eigB F p u (fieldOf (rigidVec F s)), fun s t => ?_⟩, fun a s => ?_⟩, fun s => rfl⟩
      · rw [← adB]
        congr 1
        funext n i
        fin_cases i <;> simp [rigidVec_field] <;> ring
      · show eigB F p u (fieldOf (rigidVec F (a • s))) = a * eigB F p u (fieldOf (rigidVec F s))
        rw [← smB]
        congr 1
        funext n i
        fin_cases i <;> simp [rigidVec_field] <;> ring
    obtain ⟨T0, hT0⟩ := hlin (fieldOf eps[0].2)
    obtain ⟨T1, hT1⟩ := hlin (fieldOf eps[1].2)
    have hker : LinearMap.ker (LinearMap.prod T0 T1) ≠ ⊥ := LinearMap.ker_ne_bot_of_finrank_lt (by simp)
    obtain ⟨s, hs, hs0⟩ := Submodule.exists_mem_ne_zero_of_ne_bot hker
    have hs' : T0 s = 0 ∧ T1 s = 0 := by simpa using hs
    have hsn : ∃ n < F.numTotal, fieldOf (rigidVec F s) n ≠ 0 := by
      by_contra hcon
      push Not at hcon
      exact hs0 (rigid_nonzero hR hNx hNy hLx s hcon)
    have hspair : IsPair F p 0 (rigidVec F s) := (hzero 0 _).mpr ⟨s 0, s 1, s 2, fun n _ => by rw [rigidVec_field]; exact ⟨rfl, rfl⟩⟩
    have hperp : ∀ e ∈ eps, eigB F p (fieldOf e.2) (fieldOf (rigidVec F s)) = 0 := by
      intro e he
      obtain ⟨l, hl, rfl⟩ := List.getElem_of_mem he
      by_cases hl0 : eps[l].1 = 0
      · have hlk : l < k := by
          by_contra hge
          have := hlater k hk hne l hl (by omega)
          rw [hl0] at this
          norm_num at this
        have : l = 0 ∨ l = 1 := by omega
        rcases this with rfl | rfl
        · rw [← hT0]; exact hs'.1
        · rw [← hT1]; exact hs'.2
      · exact (C133_orthogonal hF p hm _ _ _ _ (hE.pair _ (List.getElem_mem hl)) hspair hl0).1
    have h1 := hE.nearest 0 _ hspair hsn hperp _ (List.getElem_mem hk)
    have h2 := (hval k hk).resolve_left hne
    rw [abs_of_pos (by linarith : (0 : ℝ) < eps[k].1 - 10)] at h1
    norm_num at h1
    linarith
  -- the fourth is not
  have hfourth : ∀ h : 3 < eps.length, eps[3].1 ≠ 0 := by
    intro h e
    have hz : ∀ k : Fin 4, eps[(k : ℕ)].1 = 0 := fun k => by
      by_cases hk : (k : ℕ) < 3
      · exact hfirst _ (by omega) hk
      · have : (k : ℕ) = 3 := by omega
        simpa [this] using e
    choose s hs using fun k : Fin 4 => hrigid k (by omega) (hz k)
    have hdep : LinearMap.ker (Fintype.linearCombination ℝ s : (Fin 4 → ℝ) →ₗ[ℝ] (Fin 3 → ℝ)) ≠ ⊥ := LinearMap.ker_ne_bot_of_finrank_lt (by simp)
    obtain ⟨c, hc, hc0⟩ := Submodule.exists_mem_ne_zero_of_ne_bot hdep
    have hc' : ∑ k, c k • s k = 0 := by
      have := LinearMap.mem_ker.mp hc
      rwa [Fintype.linearCombination_apply] at this
    refine hc0 (funext fun i => ?_)
    -- the combination of the vectors is zero on the mesh; test with vector i
    have hcomb : ∀ n < F.numTotal, (∑ k : Fin 4, c k • fieldOf eps[(k : ℕ)].2) n = 0 := by
      intro n hn
      have e1 : (∑ k : Fin 4, c k • fieldOf eps[(k : ℕ)].2) n = ∑ k : Fin 4, c k • fieldOf (rigidVec F (s k)) n := by
        rw [Finset.sum_apply]
        exact sum_congr rfl fun k _ => by rw [Pi.smul_apply, hs k n hn]
      rw [e1]
      have q0 := congrFun hc' 0
      have q1 := congrFun hc' 1
      have q2 := congrFun hc' 2
      simp only [Finset.sum_apply, Pi.smul_apply, smul_eq_mul, Pi.zero_apply, Fin.sum_univ_four] at q0 q1 q2
      funext d
      simp only [rigidVec_field]
      rw [Fin.sum_univ_four]
      simp only [Pi.add_apply, Pi.smul_apply, smul_eq_mul, Pi.zero_apply]
      fin_cases d
      · show c 0 * (s 0 0 - s 0 2 * F.points n 1) + c 1 * (s 1 0 - s 1 2 * F.points n 1) + c 2 * (s 2 0 - s 2 2 * F.points n 1) + c 3 * (s 3 0 - s 3 2 * F.points n 1) = 0
        linear_combination q0 - F.points n 1 * q2
      · show c 0 * (s 0 1 + s 0 2 * F.points n 0) + c 1 * (s 1 1 + s 1 2 * F.points n 0) + c 2 * (s 2 1 + s 2 2 * F.points n 0) + c 3 * (s 3 1 + s 3 2 * F.points n 0) = 0
        linear_combination q1 + F.points n 0 * q2
    have hB : eigB F p (fieldOf eps[(i : ℕ)].2) (∑ k : Fin 4, c k • fieldOf eps[(k : ℕ)].2) = c i := by
      have : ∀ S : Finset (Fin 4), eigB F p (fieldOf eps[(i : ℕ)].2) (∑ k ∈ S, c k • fieldOf eps[(k : ℕ)].2) = ∑ k ∈ S, c k * eigB F p (fieldOf eps[(i : ℕ)].2) (fieldOf eps[(k : ℕ)].2) := by
        intro S
        induction S using Finset.induction with
        | empty =>
          have := smB 0 (fieldOf eps[(i : ℕ)].2) 0
          rw [zero_smul, zero_mul] at this
          simpa using this
        | insert a S ha ih => rw [sum_insert ha, sum_insert ha, adB, smB, ih]
      rw [this]
      refine (sum_congr rfl fun k _ => by rw [hE.ortho i k (by omega) (by omega)]).trans ?_
      simp [Fin.val_inj]
    rw [hagree _ _ ((0 : ℝ) • fieldOf eps[(i : ℕ)].2) (fun n hn => by rw [hcomb n hn]; simp), smB, zero_mul] at hB
    exact hB.symm
  intro k hk
  refine ⟨fun h => ⟨hfirst k hk h, ?_⟩, fun h => hlater 3 (by omega) (hfourth (by omega)) k hk h⟩
  have h1 := hE.pair _ (List.getElem_mem hk)
  rw [hfirst k hk h] at h1
  exact (hzero 0 _).mp h1

end

/-! ## Uniform densities -/

section
variable {nn nq : ℕ} {F : Fem nn nq nf nfq 2 2}

theorem eigA_uniform (hm : F.cells.length = m) (c : ℝ) (u v : ℕ → Fin 2 → ℝ) : eigA F (fun _ : Fin m => c) u v = simpModulus (1e-3 * 70e9) 70e9 5 c * totalWork F (planeStress 1 0.3) (fun _ => 1) u v := by
  unfold eigA totalWork
  rw [← List.sum_map_mul_left]
  congr 1
  refine List.map_congr_left fun k hk => ?_
  have := (List.mem_zipIdx hk).2.1
  unfold eigE ext
  rw [dif_pos (by omega)]
  ring

theorem eigB_uniform (hm : F.cells.length = m) (c : ℝ) (u v : ℕ → Fin 2 → ℝ) : eigB F (fun _ : Fin m => c) u v = c * 2.7e3 * totalMass F (fun _ => 1) u v := by
  unfold eigB totalMass
  rw [← List.sum_map_mul_left]
  congr 1
  refine List.map_congr_left fun k hk => ?_
  have := (List.mem_zipIdx hk).2.1
  unfold eigR ext
  rw [dif_pos (by omega)]
  ring

/-- **C133 (uniform body).** At a uniform density `c`, changing all densities together changes an eigenvalue by the factor of modulus over density: the entries of the program's derivative sum to
`λ (5 (Emax − Emin) c⁴ / E(c) − 1 / c)`. -/
theorem C133_uniform (hF : FreeBody F) (hm : F.cells.length = m) (c : ℝ) (hc : 0 < c) (lam : ℝ) (x : Fin (dofs F) → ℝ) (h : IsPair F (fun _ : Fin m => c) lam (ext x))
    (hn : eigB F (fun _ : Fin m => c) (fieldOf (ext x)) (fieldOf (ext x)) ≠ 0) :
    ∃ G, dEigenVal F (fun _ : Fin m => c) lam (ext x) = .ok G ∧ ∑ j, G j = lam * (5 * (70e9 - 70e6) * c ^ 4 / (70e6 + (70e9 - 70e6) * c ^ 5) - 1 / c) := by
  set E : ℝ → ℝ := fun y => 70e6 + (70e9 - 70e6) * y ^ 5 with hE
  have hEs : ∀ y, simpModulus (1e-3 * 70e9) 70e9 5 y = E y := by intro y; unfold simpModulus; rw [hE]; norm_num
  have hEpos : ∀ y, 0 < y → 0 < E y := fun y hy => by
    have := pow_pos hy 5
    simp only [hE]
    positivity
  have hmode := (C133_weak hF _ hm lam (ext x)).mp h
  set L : ℝ → ℝ := fun t => lam * (c / E c) * (E (c + t) / (c + t)) with hL
  have hq : HasDerivAt (fun t : ℝ => fun _ : Fin m => c + t) (fun _ => 1) 0 := hasDerivAt_pi.mpr fun _ => by simpa using (hasDerivAt_id (0 : ℝ)).const_add c
  have hEd : HasDerivAt (fun t : ℝ => E (c + t)) (5 * (70e9 - 70e6) * c ^ 4) 0 := by
    have h1 : HasDerivAt (fun t : ℝ => c + t) 1 0 := by simpa using (hasDerivAt_id (0 : ℝ)).const_add c
    have h2 := ((h1.pow 5).const_mul ((70e9 : ℝ) - 70e6)).const_add (70e6 : ℝ)
    refine h2.congr_deriv ?_
    simp
    ring
  have hLd : HasDerivAt L (lam * (c / E c) * ((5 * (70e9 - 70e6) * c ^ 4 * c - E c) / c ^ 2)) 0 := by
    have h1 : HasDerivAt (fun t : ℝ => c + t) 1 0 := by simpa using (hasDerivAt_id (0 : ℝ)).const_add c
    have h2 := (hEd.div h1 (by simpa using hc.ne')).const_mul (lam * (c / E c))
    refine h2.congr_deriv ?_
    simp
  have hL0 : L 0 = lam := by
    have := (hEpos c hc).ne'
    simp only [hL, add_zero]
    field_simp
  have hev : ∀ᶠ t in 𝓝 (0 : ℝ), IsPair F (fun _ : Fin m => c + t) (L t) (ext x) := by
    filter_upwards [lt_mem_nhds (show -c < 0 by linarith)] with t ht
    have hct : 0 < c + t := by linarith
    refine (C133_weak hF _ hm _ _).mpr fun w => ?_
    have h1 := hmode w
    rw [eigA_uniform hm, eigB_uniform hm, hEs] at h1 ⊢
    have e1 := (hEpos c hc).ne'
    have e2 : totalWork F (planeStress 1 0.3) (fun _ => 1) (fieldOf (ext x)) w = lam * (c * 2.7e3 * totalMass F (fun _ => 1) (fieldOf (ext x)) w) / E c := by
      rw [eq_div_iff e1]; linarith
    rw [e2]
    simp only [hL]
    field_simp
  obtain ⟨G, hG, hsum⟩ := C133_derivative hF hm (fun t : ℝ => fun _ : Fin m => c + t) _ hq L _ hLd (fun _ => x) 0 (hasDerivAt_const 0 x) hev (by simpa using hn)
  rw [hL0] at hG
  simp only [add_zero] at hG
  refine ⟨G, hG, ?_⟩
  simp only [mul_one] at hsum
  rw [← hsum]
  have := (hEpos c hc).ne'
  rw [show (70e6 : ℝ) + (70e9 - 70e6) * c ^ 5 = E c from rfl]
  field_simp

end

/-! ## The program's mesh -/

/-- The objects `problem_K`, `problem_M` of eigen.py 75-80, 100-101 before the parameters are set (60 × 30 cells on 6 × 3 in the program). -/
noncomputable def eigenFem (Nx Ny : ℕ) (Lx Ly : ℝ) : Fem 4 (2 ^ 2) 4 (2 ^ 1) 2 2 :=
  Fem.ofElement 4 4 2 2 quad4 (gaussRule 2) (gaussRule 1) ((Nx + 1) * (Ny + 1)) (Verif.Mesh.rectangleMesh Nx Ny Lx Ly).points.get (Verif.Mesh.rectangleMesh Nx Ny Lx Ly).cells.toList

theorem eigen_rect (Nx Ny : ℕ) (Lx Ly : ℝ) : OnRect (eigenFem Nx Ny Lx Ly) Nx Ny Lx Ly := ⟨rfl, rfl, rfl⟩

theorem eigen_tables (Nx Ny : ℕ) (Lx Ly : ℝ) : CellTables (eigenFem Nx Ny Lx Ly) quad4 (gaussRule 2) := ⟨fun _ _ => rfl, fun _ _ _ => rfl, fun _ => rfl⟩

theorem eigen_free {Nx Ny : ℕ} {Lx Ly : ℝ} (hNx : 0 < Nx) (hNy : 0 < Ny) (hLx : 0 < Lx) (hLy : 0 < Ly) : FreeBody (eigenFem Nx Ny Lx Ly) := by
  have hR := eigen_rect Nx Ny Lx Ly
  exact ⟨rfl, rfl, rfl, rfl, hR.mesh, List.length_pos_of_mem ((hR.mem_cells (rectCell Ny 0 0)).mpr ⟨0, 0, hNx, hNy, rfl⟩), rect_vol hR (eigen_tables Nx Ny Lx Ly) hNx hNy hLx hLy⟩

theorem eigen_length (Nx Ny : ℕ) (Lx Ly : ℝ) : (eigenFem Nx Ny Lx Ly).cells.length = Nx * Ny := by
  have h := (eigen_rect Nx Ny Lx Ly).sum_cells (F := eigenFem Nx Ny Lx Ly) fun _ => (1 : ℝ)
  simp at h
  exact_mod_cast h

/-- **C133 (the program's mesh).** On the mesh of the program with its initial densities 1/2: the zero eigenvalue belongs exactly to the rigid motions, the others are positive, and the derivative of every nonzero pair exists with entries summing to
the uniform value. -/
theorem C133_program (lam : ℝ) (x : Fin (dofs (eigenFem 60 30 6 3)) → ℝ) (hx : ∃ n < (eigenFem 60 30 6 3).numTotal, fieldOf (ext x) n ≠ 0) (h : IsPair (eigenFem 60 30 6 3) (fun _ : Fin 1800 => 0.5) lam (ext x)) :
    (lam = 0 ↔ ∃ a b w, IsRigid (eigenFem 60 30 6 3) a b w (fieldOf (ext x))) ∧ 0 ≤ lam ∧
      ∃ G, dEigenVal (eigenFem 60 30 6 3) (fun _ : Fin 1800 => 0.5) lam (ext x) = .ok G ∧ ∑ j, G j = lam * (5 * (70e9 - 70e6) * 0.5 ^ 4 / (70e6 + (70e9 - 70e6) * 0.5 ^ 5) - 2) := by
  have hR := eigen_rect 60 30 6 3
  have ht := eigen_tables 60 30 6 3
  have hF : FreeBody (eigenFem 60 30 6 3) := eigen_free (by norm_num) (by norm_num) (by norm_num) (by norm_num)
  have hm : (eigenFem 60 30 6 3).cells.length = 1800 := eigen_length 60 30 6 3
  have hp : ∀ j : Fin 1800, (0 : ℝ) < (fun _ : Fin 1800 => (0.5 : ℝ)) j := fun _ => by norm_num
  have hB := C133_mass hR ht (by norm_num) (by norm_num) (by norm_num) (by norm_num) _ hm hp _ hx
  obtain ⟨z1, z2⟩ := C133_zero hR ht (by norm_num) (by norm_num) (by norm_num) (by norm_num) hF _ hm hp lam (ext x)
  have hiff : lam = 0 ↔ ∃ a b w, IsRigid (eigenFem 60 30 6 3) a b w (fieldOf (ext x)) := by
    constructor
    · intro e
      rw [e] at h
      exact z1.mp h
    · intro hr
      have h1 := (C133_weak hF _ hm lam (ext x)).mp h (fieldOf (ext x))
      have h2 := (C133_rigid hR ht (by norm_num) (by norm_num) (by norm_num) (by norm_num) (fun _ : Fin 1800 => (0.5 : ℝ)) (fun j => (hp j).le) (fieldOf (ext x))).mpr hr
      rw [h2] at h1
      exact (mul_eq_zero.mp h1.symm).resolve_right hB.ne'
  refine ⟨hiff, ?_, ?_⟩
  · by_cases hr : ∃ a b w, IsRigid (eigenFem 60 30 6 3) a b w (fieldOf (ext x))
    · exact (hiff.mpr hr).symm.le
    · exact (z2 h hx hr).le
  · obtain ⟨G, hG, hs⟩ := C133_uniform hF hm 0.5 (by norm_num) lam x h hB.ne'
    refine ⟨G, hG, hs.trans ?_⟩
    norm_num

/-- A case: the unit translation in the first direction is a pair with eigenvalue 0 of the program's mesh at the initial densities, and its kinetic form is positive. -/
example : IsPair (eigenFem 60 30 6 3) (fun _ : Fin 1800 => 0.5) 0 (rigidVec (eigenFem 60 30 6 3) ![1, 0, 0]) ∧
    0 < eigB (eigenFem 60 30 6 3) (fun _ : Fin 1800 => 0.5) (fieldOf (rigidVec (eigenFem 60 30 6 3) ![1, 0, 0])) (fieldOf (rigidVec (eigenFem 60 30 6 3) ![1, 0, 0])) := by
  have hR := eigen_rect 60 30 6 3
  have ht := eigen_tables 60 30 6 3
  have hF : FreeBody (eigenFem 60 30 6 3) := eigen_free (by norm_num) (by norm_num) (by norm_num) (by norm_num)
  have hm : (eigenFem 60 30 6 3).cells.length = 1800 := eigen_length 60 30 6 3
  refine ⟨(C133_zero hR ht (by norm_num) (by norm_num) (by norm_num) (by norm_num) hF _ hm (fun _ => by norm_num) 0 _).1.mpr ⟨1, 0, 0, fun n _ => ?_⟩, ?_⟩
  · rw [rigidVec_field]
    exact ⟨rfl, rfl⟩
  · refine C133_mass hR ht (by norm_num) (by norm_num) (by norm_num) (by norm_num) _ hm (fun _ => by norm_num) _ ?_
    by_contra hcon
    push Not at hcon
    have := congrFun (rigid_nonzero hR (by norm_num) (by norm_num) (by norm_num) _ hcon) 0
    norm_num at this

/-- A case: three equal eigenvalues of 2·10⁶ satisfy the constraint; one eigenvalue of 10⁶ violates it. -/
example : eigenCstr (fun _ => 2e6) ≤ 0 ∧ ∀ v : Fin 3 → ℝ, v 0 = 1e6 → 0 < eigenCstr v := by
  constructor
  · refine (C133_constraint _).2 fun i => ?_
    have : Real.log 3 ≤ 3 := (Real.log_le_sub_one_of_pos (by norm_num)).trans (by norm_num)
    linarith
  · intro v hv
    by_contra h
    have := (C133_constraint v).1 (not_lt.mp h) 0
    linarith

/-- A case of the derivative of a simple eigenvalue: the pencil `diag(q, 1) x = λ x` at `q = 2`, with `x = e₀`, `λ = q`. -/
example : ∃ (X : Vec 1 → Vec 2) (L : Vec 1 → ℝ), X (fun _ => 2) = Pi.single 0 1 ∧ L (fun _ => 2) = 2 ∧ ∀ᶠ q in 𝓝 (fun _ : Fin 1 => (2 : ℝ)), (fun d => (if d = 0 then q 0 else 1) * X q d) = L q • X q := by
  set P0 : Vec 2 →L[ℝ] Vec 2 := ContinuousLinearMap.pi fun d => if d = 0 then ContinuousLinearMap.proj 0 else 0 with hP0
  set P1 : Vec 2 →L[ℝ] Vec 2 := ContinuousLinearMap.pi fun d => if d = 0 then 0 else ContinuousLinearMap.proj 1 with hP1
  have hK : ContDiff ℝ 1 fun q : Vec 1 => q 0 • P0 + P1 := by fun_prop
  have ev : ∀ (q : Vec 1) (x : Vec 2), (q 0 • P0 + P1) x = fun d => (if d = 0 then q 0 else 1) * x d := by
    intro q x
    funext d
    fin_cases d <;> simp [hP0, hP1]
  have ev2 : ∀ x : Vec 2, ((2 : ℝ) • P0 + P1) x = fun d => (if d = 0 then 2 else 1) * x d := ev fun _ => 2
  obtain ⟨X, L, h1, h2, -, -, h3, -⟩ := simple_branch (fun q : Vec 1 => q 0 • P0 + P1) (fun _ => ContinuousLinearMap.id ℝ (Vec 2)) hK contDiff_const (fun _ => 2)
    (fun x y => by simp only [ev2, dotL_apply, Fin.sum_univ_two]; simp; ring) (fun x y => dotL_comm _ _) (Pi.single 0 1) 2
    (by
      simp only [ev2]
      funext d
      fin_cases d <;> simp)
    (by simp [dotL_apply])
    (fun y hy => ⟨y 0, by
      simp only [ev2] at hy
      have h := congrFun hy 1
      simp at h
      funext d
      fin_cases d
      · simp
      · simp; linarith⟩)
  refine ⟨X, L, h1, h2, h3.mono fun q hq => ?_⟩
  have h := hq.1
  rw [ev] at h
  exact h

end Verif.Fem
