import Verif.Fem.BodyTop

/-!
# C161: the mesh, supports, band and load of the bridge (applications/fem/aesthetic/bridge.py 86-113)
-/
namespace Verif.Fem.BodyTop
open Verif.Fem Verif.Fem.FlexTop Finset

/-- `fixed_location` (bridge.py 91-96). -/
noncomputable def bridgeFixed (Lx Ly : ℝ) : Loc 2 := fun point => open Classical in
  (isclose (point 0) 0 1e-5 && decide (point 1 < 0.05 * Ly)) || (isclose (point 0) Lx 1e-5 && decide (point 1 < 0.05 * Ly)) ||
  (isclose (point 1) 0 1e-5 && decide (point 0 < 0.05 * Lx)) || (isclose (point 1) 0 1e-5 && decide ((1 - 0.05) * Lx < point 0))

/-- The object of bridge.py 86-89, 111 for any number of cells and any size, before the parameters are set. -/
noncomputable def bridgeFem (Nx Ny : ℕ) (Lx Ly : ℝ) : Fem 4 (2 ^ 2) 4 (2 ^ 1) 2 2 :=
  { Fem.ofElement 4 4 2 2 quad4 (gaussRule 2) (gaussRule 1) ((Nx + 1) * (Ny + 1)) (Verif.Mesh.rectangleMesh Nx Ny Lx Ly).points.get (Verif.Mesh.rectangleMesh Nx Ny Lx Ly).cells.toList with
    source := some (bodyForce Ly) }

theorem bridge_rect (Nx Ny : ℕ) (Lx Ly : ℝ) : OnRect (bridgeFem Nx Ny Lx Ly) Nx Ny Lx Ly := ⟨rfl, rfl, rfl⟩

theorem bridge_tables (Nx Ny : ℕ) (Lx Ly : ℝ) : CellTables (bridgeFem Nx Ny Lx Ly) quad4 (gaussRule 2) := ⟨fun _ _ => rfl, fun _ _ _ => rfl, fun _ => rfl⟩

/-! ## Holding a rectangle by one edge of a cell -/

variable {nq nf nfq : ℕ}

theorem held_trans (F : Fem 4 nq nf nfq 2 2) (Z : ℕ → Prop) (n : ℕ) (h : F.Held (F.Held Z) n) : F.Held Z n := by
  induction h with
  | fixed n h => exact h
  | cell c S a hc hS _ hsp ih => exact .cell c S a hc hS ih hsp

section
variable {F : Fem 4 nq nf nfq 2 2} {Nx Ny : ℕ} {Lx Ly : ℝ} (h : OnRect F Nx Ny Lx Ly) (hNx : 0 < Nx) (hNy : 0 < Ny) (hLx : 0 < Lx) (hLy : 0 < Ly)
include h hNx hNy hLx hLy

theorem edge_cell (Z : ℕ → Prop) (i j : ℕ) (hi : i < Nx) (hj : j < Ny) (a b : Fin 4) (hab : a ≠ b) (ha : F.Held Z (rectCell Ny i j a)) (hb : F.Held Z (rectCell Ny i j b)) (p : Fin 4) :
    F.Held Z (rectCell Ny i j p) := by
  refine Fem.Held.cell (rectCell Ny i j) {a, b} p ((h.mem_cells _).mpr ⟨i, j, hi, hj, rfl⟩) ⟨a, by simp⟩ ?_ ?_
  · rintro c (rfl | rfl)
    · exact ha
    · exact hb
  · have hset : {x | ∃ c ∈ ({a, b} : Set (Fin 4)), x = F.points (rectCell Ny i j c)} = {F.points (rectCell Ny i j a), F.points (rectCell Ny i j b)} := by
      ext x
      simp
    rw [hset]
    refine spans_plane _ _ fun e => hab ?_
    have hx : (0 : ℝ) < Lx / Nx := div_pos hLx (by exact_mod_cast hNx)
    have hy : (0 : ℝ) < Ly / Ny := div_pos hLy (by exact_mod_cast hNy)
    have e0 := congrFun e 0
    have e1 := congrFun e 1
    rw [h.corner i j hj, h.corner i j hj] at e0 e1
    have e0' : (Verif.Mesh.quadCorner a 0 : ℝ) = Verif.Mesh.quadCorner b 0 := mul_right_cancel₀ hx.ne' (add_left_cancel e0)
    have e1' : (Verif.Mesh.quadCorner a 1 : ℝ) = Verif.Mesh.quadCorner b 1 := mul_right_cancel₀ hy.ne' (add_left_cancel e1)
    have f0 : Verif.Mesh.quadCorner a 0 = Verif.Mesh.quadCorner b 0 := by exact_mod_cast e0'
    have f1 : Verif.Mesh.quadCorner a 1 = Verif.Mesh.quadCorner b 1 := by exact_mod_cast e1'
    revert f0 f1
    clear * -
    revert a b
    decide

/-- Two held nodes at the lower left corner hold the whole rectangle. -/
theorem corner_held (Z : ℕ → Prop) (h0 : Z 0) (h1 : Z 1) (i j : ℕ) (hi : i ≤ Nx) (hj : j ≤ Ny) : F.Held Z (i * (Ny + 1) + j) := by
  have col : ∀ j, j + 1 ≤ Ny → F.Held Z j ∧ F.Held Z (j + 1) := by
    intro j
    induction j with
    | zero => exact fun _ => ⟨.fixed _ h0, .fixed _ h1⟩
    | succ j ih =>
      intro hj
      obtain ⟨k0, k1⟩ := ih (by omega)
      have r0 : rectCell Ny 0 j 0 = j := by simp [rectCell, Verif.Mesh.quadCorner]
      have r3 : rectCell Ny 0 j 3 = j + 1 := by simp [rectCell, Verif.Mesh.quadCorner]
      have k2 := edge_cell h hNx hNy hLx hLy Z 0 j hNx (by omega) 0 3 (by decide) (by rw [r0]; exact k0) (by rw [r3]; exact k1) 2
      have s0 : rectCell Ny 0 (j + 1) 0 = j + 1 := by simp [rectCell, Verif.Mesh.quadCorner]
      have s1 : rectCell Ny 0 (j + 1) 1 = rectCell Ny 0 j 2 := by simp [rectCell, Verif.Mesh.quadCorner]
      have s3 : rectCell Ny 0 (j + 1) 3 = j + 1 + 1 := by simp [rectCell, Verif.Mesh.quadCorner]
      have k3 := edge_cell h hNx hNy hLx hLy Z 0 (j + 1) hNx (by omega) 0 1 (by decide) (by rw [s0]; exact k1) (by rw [s1]; exact k2) 3
      rw [s3] at k3
      exact ⟨k1, k3⟩
  refine held_trans F Z _ (rect_held h hNy hLy (F.Held Z) (fun j hj => ?_) i hi j hj)
  by_cases hj0 : j = 0
  · subst hj0
    exact .fixed _ h0
  · have := (col (j - 1) (by omega)).2
    rwa [Nat.sub_add_cancel (by omega)] at this

end

/-! ## The program's data -/

/-- **C161 (supports).** More than 20 cells over the height (the file has 100): the object carries a body force only, the conditions of the file are accepted, are zero, and hold the whole body. -/
theorem C161_supports {Nx Ny : ℕ} {Lx Ly : ℝ} (hNx : 0 < Nx) (hNy : 20 < Ny) (hLx : 0 < Lx) (hLy : 0 < Ly) :
    Bodied (bridgeFem Nx Ny Lx Ly) (bodyForce Ly) ∧
    ∃ ns cs ws, dirichletBC (bridgeFem Nx Ny Lx Ly).numTotal (bridgeFem Nx Ny Lx Ly).points (some (exampleInfo (bridgeFixed Lx Ly))) = .ok (ns, cs, ws) ∧
      Clamped (bridgeFem Nx Ny Lx Ly) (groupsOf ns cs ws) := by
  set F := bridgeFem Nx Ny Lx Ly with hFdef
  have hNy0 : 0 < Ny := by omega
  have hR : OnRect F Nx Ny Lx Ly := bridge_rect Nx Ny Lx Ly
  have hx : 0 < Lx / Nx := div_pos hLx (by exact_mod_cast hNx)
  have hy : 0 < Ly / Ny := div_pos hLy (by exact_mod_cast hNy0)
  have hd : 0 < (Matrix.diagonal ![Lx / Nx, Ly / Ny]).det := by
    rw [Matrix.det_diagonal, Fin.prod_univ_two]
    exact mul_pos hx hy
  refine ⟨⟨rfl, rfl, rfl, rfl, hR.mesh, ?_, ?_⟩, ?_⟩
  · exact List.length_pos_of_mem ((hR.mem_cells (rectCell Ny 0 0)).mpr ⟨0, 0, hNx, hNy0, rfl⟩)
  · intro c hc q
    obtain ⟨i, j, hi, hj, rfl⟩ := (hR.mem_cells c).mp hc
    unfold Fem.JxW
    rw [hR.jacobian _ (bridge_tables Nx Ny Lx Ly) i j hj]
    exact mul_pos hd (gauss_w_pos 2 q)
  obtain ⟨⟨ns, cs, ws⟩, hbc⟩ := (C17_accepted F.numTotal F.points (exampleInfo (bridgeFixed Lx Ly)).1 (exampleInfo (bridgeFixed Lx Ly)).2.1 (exampleInfo (bridgeFixed Lx Ly)).2.2).1.mpr ⟨rfl, rfl⟩
  refine ⟨ns, cs, ws, hbc, ?_, ?_, ?_, ?_⟩
  · exact C19_groups_wf (F.toProb (groupsOf ns cs ws)) (show 0 < 2 by decide) F.numTotal F.points _ _ _ ns cs ws hbc rfl
  · exact zero_prescriptions (F.toProb (groupsOf ns cs ws)) F.numTotal F.points _ _ _ (by simp [exampleInfo]) ns cs ws hbc rfl
  · intro n hn
    rw [hR.num] at hn
    obtain ⟨i, j, hi, hj, rfl⟩ := Verif.Mesh.idx2_surj hn
    have key : ∀ j ≤ 1, j < F.numTotal ∧ ∀ c : Fin 2, ¬ FreeAt (F.toProb (groupsOf ns cs ws)).prescriptions (2 * j + c) := by
      intro j hj1
      have hlt : j < F.numTotal := by
        rw [hR.num]
        have := Verif.Mesh.idx2_lt (show 0 < Nx + 1 by omega) (show j < Ny + 1 by omega)
        simpa using this
      refine ⟨hlt, fun c hf => ?_⟩
      have hp := hR.point 0 j (by omega)
      have hx0 : F.points j 0 = 0 := by simpa using congrFun hp 0
      have hy0 : F.points j 1 = j * (Ly / Ny) := by simpa using congrFun hp 1
      have hfix : bridgeFixed Lx Ly (F.points j) = true := by
        have c1 : isclose (F.points j 0) 0 1e-5 = true := by
          rw [isclose_iff, hx0]
          norm_num
        have c2 : F.points j 1 < 0.05 * Ly := by
          rw [hy0]
          have h20 : (20 : ℝ) < Ny := by exact_mod_cast hNy
          have hj' : (j : ℝ) ≤ 1 := by exact_mod_cast hj1
          have h3 : Ly / Ny < 0.05 * Ly := by
            rw [div_lt_iff₀ (by linarith)]
            have := mul_lt_mul_of_pos_left h20 hLy
            linarith
          have h4 := mul_le_mul_of_nonneg_right hj' hy.le
          linarith
        unfold bridgeFixed
        simp only [c1, c2, decide_true, Bool.and_self, Bool.true_or]
      have hu := (user_prescriptions (F.toProb (groupsOf ns cs ws)) F.points _ _ _ (by simp [exampleInfo]; exact ⟨by show (0 : ℕ) < 2; decide, by show (1 : ℕ) < 2; decide⟩) ns cs ws hbc rfl j c hlt c.isLt).1.mp hf
      fin_cases c
      · exact hu (bridgeFixed Lx Ly, 0, fun _ => 0) (by simp [exampleInfo]) ⟨hfix, rfl⟩
      · exact hu (bridgeFixed Lx Ly, 1, fun _ => 0) (by simp [exampleInfo]) ⟨hfix, rfl⟩
    exact corner_held hR hNx hNy0 hLx hLy _ (key 0 (by omega)) (key 1 le_rfl) i j (by omega) (by omega)
  · refine C88_rigid_quad4 _ (bridge_tables Nx Ny Lx Ly) fun c hc => ?_
    obtain ⟨i, j, hi, hj, rfl⟩ := (hR.mem_cells c).mp hc
    refine ⟨![(i : ℝ) * (Lx / Nx), (j : ℝ) * (Ly / Ny)], ![Lx / Nx, Ly / Ny], fun a => ?_, fun p a => hR.corner i j hj p a⟩
    fin_cases a
    · exact hx.ne'
    · exact hy.ne'

theorem gauss_inner (b : Bool) : 0 < gaussPoint b ∧ gaussPoint b < 1 := by
  have h3 : 1 < Real.sqrt 3 := by
    rw [Real.lt_sqrt (by norm_num)]
    norm_num
  have h1 : 0 < 1 / Real.sqrt 3 := by positivity
  have h2 : 1 / Real.sqrt 3 < 1 := by rw [div_lt_one (by linarith)]; exact h3
  cases b <;> simp only [gaussPoint] <;> constructor <;> norm_num at h1 h2 ⊢ <;> have := inv_pos.mpr (zero_lt_one.trans h3) <;> linarith

theorem band_iff {Ly : ℝ} (x : Fin 2 → ℝ) : band Ly x = true ↔ 0.3 * Ly ≤ x 1 ∧ x 1 ≤ 0.4 * Ly := by
  simp [band]

/-- A height strictly inside the cells of row `j` is in the band exactly for the rows `3k, …, 4k - 1` of `10k`. -/
theorem row_band {k j : ℕ} {Ly s y : ℝ} (hk : 0 < k) (hLy : 0 < Ly) (h0 : 0 < s) (h1 : s < 1) (hy : y = (j + s) * (Ly / ((10 * k : ℕ) : ℝ))) : (0.3 * Ly ≤ y ∧ y ≤ 0.4 * Ly) ↔ 3 * k ≤ j ∧ j < 4 * k := by
  have hk' : (0 : ℝ) < k := by exact_mod_cast hk
  have e : y = (j + s) * Ly / (10 * k) := by rw [hy]; push_cast; ring
  have a1 : 0.3 * Ly ≤ y ↔ (3 * k : ℝ) ≤ j + s := by
    rw [e, le_div_iff₀ (by positivity)]
    constructor
    · intro h
      have : Ly * (3 * k) ≤ Ly * (j + s) := by linarith
      exact le_of_mul_le_mul_left this hLy
    · intro h
      have := mul_le_mul_of_nonneg_left h hLy.le
      linarith
  have a2 : y ≤ 0.4 * Ly ↔ (j + s : ℝ) ≤ 4 * k := by
    rw [e, div_le_iff₀ (by positivity)]
    constructor
    · intro h
      have : Ly * (j + s) ≤ Ly * (4 * k) := by linarith
      exact le_of_mul_le_mul_left this hLy
    · intro h
      have := mul_le_mul_of_nonneg_left h hLy.le
      linarith
  rw [a1, a2]
  constructor
  · rintro ⟨h2, h3⟩
    constructor
    · by_contra h
      have : (j : ℝ) + 1 ≤ 3 * k := by exact_mod_cast (by omega : j + 1 ≤ 3 * k)
      linarith
    · by_contra h
      have : (4 * k : ℝ) ≤ j := by exact_mod_cast (by omega : 4 * k ≤ j)
      linarith
  · rintro ⟨h2, h3⟩
    have h4 : (3 * k : ℝ) ≤ j := by exact_mod_cast h2
    have h5 : (j : ℝ) + 1 ≤ 4 * k := by exact_mod_cast h3
    constructor <;> linarith

section
variable {Nx k : ℕ} {Lx Ly : ℝ}

theorem quad_height (i j : ℕ) (hj : j < 10 * k) (q : Fin (2 ^ 2)) :
    (bridgeFem Nx (10 * k) Lx Ly).xAt (rectCell (10 * k) i j) q 1 = (j + (gaussRule 2).pt q 1) * (Ly / ((10 * k : ℕ) : ℝ)) := by
  have hR := bridge_rect Nx (10 * k) Lx Ly
  unfold Fem.xAt
  simp only [(bridge_tables Nx (10 * k) Lx Ly).vals, hR.corner i j hj, shapeVal_quad4, Fin.sum_univ_four]
  simp [Verif.Mesh.quadCorner, lin]
  ring

theorem centroid_height (i j : ℕ) (hj : j < 10 * k) : Mma.centroid (bridgeFem Nx (10 * k) Lx Ly).points (rectCell (10 * k) i j) 1 = (j + 1 / 2) * (Ly / ((10 * k : ℕ) : ℝ)) := by
  have hR := bridge_rect Nx (10 * k) Lx Ly
  unfold Mma.centroid
  simp only [hR.corner i j hj, Fin.sum_univ_four]
  simp [Verif.Mesh.quadCorner]
  ring

/-- **C161 (band).** With `10k` cells over the height (the file has 100): a cell is frozen exactly when it lies in the rows `3k, …, 4k - 1`; the body force is `-100` at all quadrature points of the frozen cells and
zero at all quadrature points of the flexible ones, so the design never carries the load itself. -/
theorem C161_band (hk : 0 < k) (hLy : 0 < Ly) (i j : ℕ) (hj : j < 10 * k) :
    (bridgeFlex Ly (Mma.centroid (bridgeFem Nx (10 * k) Lx Ly).points (rectCell (10 * k) i j)) = false ↔ 3 * k ≤ j ∧ j < 4 * k) ∧
    ∀ q, bodyForce Ly ((bridgeFem Nx (10 * k) Lx Ly).xAt (rectCell (10 * k) i j) q) = ![0, if 3 * k ≤ j ∧ j < 4 * k then -100 else 0] := by
  constructor
  · unfold bridgeFlex
    rw [Bool.not_eq_false', band_iff]
    exact row_band hk hLy (by norm_num) (by norm_num) (centroid_height i j hj)
  · intro q
    have hq := gauss_inner ((q : ℕ).testBit (2 - 1 - 1))
    have h := row_band hk hLy hq.1 hq.2 (quad_height (Nx := Nx) (Lx := Lx) i j hj q)
    rw [← band_iff] at h
    unfold bodyForce
    by_cases hb : 3 * k ≤ j ∧ j < 4 * k
    · rw [if_pos hb, if_pos (h.mpr hb)]
      norm_num
    · rw [if_neg hb, if_neg fun x => hb (h.mp x)]

/-- **C161 (load).** The body force is a dead load of `10·Lx·Ly` downwards (30 for the file): its work on a rigid translation `v` is `-10·Lx·Ly·v₁`. -/
theorem C161_load (hNx : 0 < Nx) (hk : 0 < k) (hLx : 0 < Lx) (hLy : 0 < Ly) (v : Fin 2 → ℝ) : bodyCompliance (bridgeFem Nx (10 * k) Lx Ly) (fun _ => v) = .ok (-(10 * Lx * Ly) * v 1) := by
  have hR := bridge_rect Nx (10 * k) Lx Ly
  rw [(C161_compliance _ _).1 (bodyForce Ly) rfl]
  congr 1
  unfold bodyWork
  rw [hR.sum_cells]
  have hN : (0 : ℝ) < Nx := by exact_mod_cast hNx
  have hk' : (0 : ℝ) < k := by exact_mod_cast hk
  have hcell : ∀ i, ∀ j ∈ range (10 * k), (∑ q, (∑ a, bodyForce Ly ((bridgeFem Nx (10 * k) Lx Ly).xAt (rectCell (10 * k) i j) q) a * (bridgeFem Nx (10 * k) Lx Ly).uAt (fun _ => v) (rectCell (10 * k) i j) q a) *
      (bridgeFem Nx (10 * k) Lx Ly).JxW (rectCell (10 * k) i j) q) = if 3 * k ≤ j ∧ j < 4 * k then -(10 * Lx * Ly) * v 1 / (Nx * k) else 0 := by
    intro i j hj
    have hj' := mem_range.mp hj
    have hu : ∀ q a, (bridgeFem Nx (10 * k) Lx Ly).uAt (fun _ => v) (rectCell (10 * k) i j) q a = v a := by
      intro q a
      unfold Fem.uAt
      simp only [(bridge_tables Nx (10 * k) Lx Ly).vals]
      rw [← mul_sum]
      have : ∑ n : Fin 4, shapeVal quad4 n ((gaussRule 2).pt q) = 1 := by
        simp only [shapeVal_quad4, Fin.sum_univ_four]
        simp [Verif.Mesh.quadCorner, lin]
        ring
      rw [this, mul_one]
    have hw : ∀ q, (bridgeFem Nx (10 * k) Lx Ly).JxW (rectCell (10 * k) i j) q = Lx / Nx * (Ly / ((10 * k : ℕ) : ℝ)) * (gaussRule 2).w q := by
      intro q
      unfold Fem.JxW
      rw [hR.jacobian _ (bridge_tables Nx (10 * k) Lx Ly) i j hj', (bridge_tables Nx (10 * k) Lx Ly).weights, Matrix.det_diagonal, Fin.prod_univ_two]
      rfl
    simp only [(C161_band (Nx := Nx) (Lx := Lx) hk hLy i j hj').2, hu, hw, Fin.sum_univ_two]
    rw [← mul_sum, ← mul_sum, gaussRule_sum]
    split_ifs
    · simp
      field_simp
      ring
    · simp
  rw [sum_congr rfl fun i _ => sum_congr rfl (hcell i)]
  have hcount : ((range (10 * k)).filter fun j => 3 * k ≤ j ∧ j < 4 * k).card = k := by
    have : ((range (10 * k)).filter fun j => 3 * k ≤ j ∧ j < 4 * k) = Ico (3 * k) (4 * k) := by
      ext j
      simp only [mem_filter, mem_range, mem_Ico]
      omega
    rw [this, Nat.card_Ico]
    omega
  simp only [← sum_filter, sum_const, hcount, card_range, nsmul_eq_mul]
  field_simp

end

/-- The law of the file. -/
theorem bridge_law : DensityLaw bridgeStress (fun theta => simpModulus (1e-3 * 1e3) 1e3 3 (theta 0)) (planeStress 1 0.3) (1e-3 * 1e3) 1e3 :=
  simp_density _ _ _ _ _ (by norm_num) (by norm_num) (C102_plane 0.3 (by norm_num) (by norm_num)) fun g theta => planeStress_scale _ _ g

/-- **C161 (program).** The program of bridge.py with its numbers (300 × 100 cells, 3 × 1): the supports are accepted, and for all densities `p ≥ 0` of the flexible cells reverse mode returns the derivative of
the compliance, without positive entries; the compliance is not negative and full material has the least one. -/
theorem C161_program (m : ℕ) (hm : (flexInds (bridgeFem 300 100 3 1) (bridgeFlex 1)).length = m) (lin : ℕ → LinCall ℝ → ℕ → ℝ) (hlin : ExactLin ((bridgeFem 300 100 3 1).numTotal * 2) lin) (fuel : ℕ) :
    ∃ ns cs ws, dirichletBC (bridgeFem 300 100 3 1).numTotal (bridgeFem 300 100 3 1).points (some (exampleInfo (bridgeFixed 3 1))) = .ok (ns, cs, ws) ∧
      let D := flexProb (bridgeFem 300 100 3 1) bridgeStress (groupsOf ns cs ws) (flexInds (bridgeFem 300 100 3 1) (bridgeFlex 1)) m
      ∀ p : Fin m → ℝ, (∀ j, 0 ≤ p j) → ∃ g : Fin m → ℝ, D.revGrad lin true false fuel (bodyObj (bridgeFem 300 100 3 1)) p = .ok g ∧
        HasFDerivAt (D.objective lin true false fuel (bodyObj (bridgeFem 300 100 3 1))) (∑ j, g j • (ContinuousLinearMap.proj j : (Fin m → ℝ) →L[ℝ] ℝ)) p ∧ (∀ j, g j ≤ 0) ∧
        0 ≤ D.objective lin true false fuel (bodyObj (bridgeFem 300 100 3 1)) p ∧
        ((∀ j, p j ≤ 1) → D.objective lin true false fuel (bodyObj (bridgeFem 300 100 3 1)) (fun _ => 1) ≤ D.objective lin true false fuel (bodyObj (bridgeFem 300 100 3 1)) p) := by
  obtain ⟨hB, ns, cs, ws, hbc, hcl⟩ := C161_supports (Nx := 300) (Ny := 100) (Lx := 3) (Ly := 1) (by norm_num) (by norm_num) (by norm_num) (by norm_num)
  have hgen := flexInds_sorted (bridgeFem 300 100 3 1) (bridgeFlex 1)
  refine ⟨ns, cs, ws, hbc, fun p hp => ?_⟩
  obtain ⟨u, g, -, -, h3, h4, h5⟩ := C161_gradient _ bridge_law hB _ hgen.2 (by norm_num) (groupsOf ns cs ws) hcl hm hgen.1 p hp lin hlin false fuel
  obtain ⟨k1, -, -, k4⟩ := C161_bounds _ bridge_law hB _ hgen.2 (by norm_num) (groupsOf ns cs ws) hcl hm hgen.1 p hp lin hlin false fuel
  exact ⟨g, h3, h4, fun j => (h5 j).2, k1, k4⟩

/-- `flex_location` of the building (applications/fem/aesthetic/building.py 117-122): `&` binds stronger than `|`, so `| True` applies to the whole conjunction. -/
noncomputable def buildingFlex (Lx Ly : ℝ) (point : Fin 2 → ℝ) : Bool := open Classical in
  (decide (0.025 * Lx < point 0) && decide (point 0 < Lx - 0.025 * Lx) && decide (0.025 * Lx < point 1) && decide (point 1 < Ly - 0.025 * Lx)) || true

/-- **C161 (no frame).** The solid frame that the four flags of building.py describe does not exist: every cell of every mesh is a design cell. -/
theorem C161_building {nn : ℕ} (F : Fem nn nq nf nfq 2 2) (Lx Ly : ℝ) : flexInds F (buildingFlex Lx Ly) = List.range F.cells.length := by
  unfold flexInds
  have h : (fun c : (Fin nn → ℕ) × ℕ => buildingFlex Lx Ly (Mma.centroid F.points c.1)) = fun _ => true := funext fun c => Bool.or_true _
  rw [h, List.filter_true, List.zipIdx_map_snd, List.range_eq_range']

/-- The load of the file: a force of 30 downwards. -/
example (v : Fin 2 → ℝ) : bodyCompliance (bridgeFem 300 (10 * 10) 3 1) (fun _ => v) = .ok (-30 * v 1) := by
  rw [C161_load (by norm_num) (by norm_num) (by norm_num) (by norm_num)]
  norm_num

end Verif.Fem.BodyTop
