import Verif.Fem.FormingCases
import Verif.Fem.Moments

/-!
# C135, continued: the forming problems on a mesh

Model of the load loop and of the boundary conditions of applications/fem/forming/example_disp.py and single.py. Not modelled: the nonlinear solver (its result is an argument), mesh generator, logging and VTK output.
-/
namespace Verif.Forming
open Finset Matrix Verif.Fem

variable {nn nq nf nfq : ℕ}

/-- applications/fem/forming/example_disp.py:22-26 `custom_init`: one row per cell. -/
def formInit (F : Fem nn nq nf nfq 3 3) : List (Fin nq → Pt) := F.cells.map fun _ _ => Pt.init

/-- The object `Plasticity` with the internal variables `st` (applications/fem/forming/example_disp.py:28-30, 96-98, 128-130 and 180): no loads. -/
noncomputable def formFem (F : Fem nn nq nf nfq 3 3) (st : List (Fin nq → Pt)) : Fem nn nq nf nfq 3 3 :=
  { F with
    tensorMap := some fun k q g => firstPK ((st.getD k fun _ => Pt.init) q) (Matrix.of g)
    massMap := none, lapRows := some st.length, massRows := none, source := none, bodyVar := none, cauchy := none, neumann := none }

/-- applications/fem/forming/example_disp.py:110-117 `update_int_vars_gp`: `vmap` raises if the numbers of rows differ. -/
noncomputable def updateGp (F : Fem nn nq nf nfq 3 3) (st : List (Fin nq → Pt)) (sol : ℕ → Fin 3 → ℝ) : Except FemErr (List (Fin nq → Pt)) :=
  let u_grads := F.solToGrad sol
  if u_grads.length = st.length then .ok ((u_grads.zip st).map fun p q => update (p.2 q) (Matrix.of (p.1 q))) else .error .shape

/-- applications/fem/forming/example_disp.py:119-126 `compute_stress`. -/
noncomputable def computeStress (F : Fem nn nq nf nfq 3 3) (st : List (Fin nq → Pt)) (sol : ℕ → Fin 3 → ℝ) : Except FemErr (List (Fin nq → T3)) :=
  let u_grads := F.solToGrad sol
  if u_grads.length = st.length then .ok ((u_grads.zip st).map fun p q => cauchy (p.2 q) (Matrix.of (p.1 q))) else .error .shape

/-- applications/fem/forming/example_disp.py:183-192: the internal variables after the load steps whose solutions are `sols`. -/
noncomputable def formRun (F : Fem nn nq nf nfq 3 3) (sols : List (ℕ → Fin 3 → ℝ)) : Except FemErr (List (Fin nq → Pt)) := sols.foldlM (updateGp F) (formInit F)

/-- applications/fem/forming/single.py:145-165: `dirichlet_bc_info` of the single element at the load `scale`, with `Lz = 1`. -/
noncomputable def singleInfo (scale : ℝ) : List (Loc 3) × List ℕ × List ((Fin 3 → ℝ) → ℝ) :=
  ([fun point => isclose (point 2) 0 1e-5, fun point => isclose (point 2) 1 1e-5], [2, 2], [fun _ => 0, fun _ => scale * 1])

/-- applications/fem/forming/example_disp.py:147-152 `walls`, with `Lx = Ly = 10`. -/
noncomputable def walls : Loc 3 := fun point => isclose (point 0) 0 1e-5 || isclose (point 0) 10 1e-5 || isclose (point 1) 0 1e-5 || isclose (point 1) 10 1e-5

/-- applications/fem/forming/example_disp.py:154-155 `top`, with `Lz = 0.25`. -/
noncomputable def sheetTop : Loc 3 := fun point => isclose (point 2) 0.25 1e-5

/-- applications/fem/forming/example_disp.py:160-169 `get_dirichlet_top`; the variable `alpha` there is never used. -/
noncomputable def dieVal (scale : ℝ) (point : Fin 3 → ℝ) : ℝ :=
  let x := point 0
  let y := point 1
  let sdf := min (min |x| |10 - x|) (min |y| |10 - y|)
  let scaled_sdf := sdf / (0.5 * min 10 10)
  (-scale) * 10 * (1 / (1 + (1 / (scaled_sdf + 1e-10) - 1)))

/-- applications/fem/forming/example_disp.py:157-158 and 175-178: `dirichlet_bc_info` of the sheet at the load `scale`. -/
noncomputable def sheetInfo (scale : ℝ) : List (Loc 3) × List ℕ × List ((Fin 3 → ℝ) → ℝ) := ([walls, walls, walls, sheetTop], [0, 1, 2, 2], [fun _ => 0, fun _ => 0, fun _ => 0, dieVal scale])

/-! ## The load loop -/

theorem updateGp_ok (F : Fem nn nq nf nfq 3 3) (st : List (Fin nq → Pt)) (hst : st.length = F.cells.length) (sol : ℕ → Fin 3 → ℝ) :
    updateGp F st sol = .ok (((F.solToGrad sol).zip st).map fun p q => update (p.2 q) (Matrix.of (p.1 q))) := by
  rw [updateGp, if_pos (by simp [Fem.solToGrad, hst])]

/-- **C135 (the load loop).** For every mesh and every list of solutions, the loop keeps one row per cell and its internal variables at each quadrature point are those of `run` for the displacement gradients of the solutions at this point. -/
theorem C135_loop (F : Fem nn nq nf nfq 3 3) (sols : List (ℕ → Fin 3 → ℝ)) :
    ∃ st, formRun F sols = .ok st ∧ st.length = F.cells.length ∧ ∀ (k : ℕ) c, F.cells[k]? = some c → ∃ row : Fin nq → Pt, st[k]? = some row ∧ ∀ q, row q = run (sols.map fun sol => Matrix.of (F.gradAt sol c q)) := by
  induction sols using List.reverseRecOn with
  | nil =>
    refine ⟨formInit F, rfl, by simp [formInit], fun k c hk => ⟨fun _ => Pt.init, by rw [formInit, List.getElem?_map, hk]; rfl, fun q => rfl⟩⟩
  | append_singleton sols sol ih =>
    obtain ⟨st, h1, h2, h3⟩ := ih
    refine ⟨((F.solToGrad sol).zip st).map fun p q => update (p.2 q) (Matrix.of (p.1 q)), ?_, ?_, ?_⟩
    · rw [formRun, List.foldlM_append, show sols.foldlM (updateGp F) (formInit F) = .ok st from h1]
      simp only [bind, Except.bind, List.foldlM_cons, List.foldlM_nil, pure, Except.pure, updateGp_ok F st h2]
    · simp [Fem.solToGrad, h2]
    · intro k c hk
      obtain ⟨row, h4, h5⟩ := h3 k c hk
      have hg : (F.solToGrad sol)[k]? = some fun q => F.gradAt sol c q := by simp only [Fem.solToGrad, List.getElem?_map, hk]; rfl
      refine ⟨fun q => update (row q) (Matrix.of (F.gradAt sol c q)), ?_, ?_⟩
      · have hz : ((F.solToGrad sol).zip st)[k]? = some (fun q => F.gradAt sol c q, row) := List.getElem?_zip_eq_some.mpr ⟨hg, h4⟩
        rw [List.getElem?_map, hz]
        rfl
      · intro q
        beta_reduce
        rw [h5]
        simp [run]

/-- **C135 (every state which the loop reaches is admissible).** -/
theorem C135_states (F : Fem nn nq nf nfq 3 3) (sols : List (ℕ → Fin 3 → ℝ)) (hdet : ∀ sol ∈ sols, ∀ c ∈ F.cells, ∀ q, (Matrix.of (F.gradAt sol c q) + 1 : T3).det ≠ 0) :
    ∃ st, formRun F sols = .ok st ∧ st.length = F.cells.length ∧ ∀ row ∈ st, ∀ q, Admissible (row q) := by
  obtain ⟨st, h1, h2, h3⟩ := C135_loop F sols
  refine ⟨st, h1, h2, fun row hrow q => ?_⟩
  obtain ⟨k, hk⟩ := List.mem_iff_getElem?.mp hrow
  have hlt : k < F.cells.length := h2 ▸ (List.getElem?_eq_some_iff.mp hk).1
  obtain ⟨row', hr, he⟩ := h3 k _ (List.getElem?_eq_getElem hlt)
  obtain rfl : row = row' := by rw [hk] at hr; exact Option.some.inj hr
  rw [he]
  refine (C135_path _ [] ?_).1
  simp only [List.append_nil, List.mem_map]
  rintro g ⟨sol, hs, rfl⟩
  exact hdet sol hs _ (List.getElem_mem hlt) q

/-! ## Turning a solution -/

/-- Specification: the displacement of the body turned by `Q` and shifted by `b`. -/
def turnedSol (F : Fem nn nq nf nfq 3 3) (Q : T3) (b : Fin 3 → ℝ) (u : ℕ → Fin 3 → ℝ) : ℕ → Fin 3 → ℝ := fun n i => (∑ j, Q i j * (F.points n j + u n j)) + b i - F.points n i

theorem gradAt_turned (F : Fem nn nq nf nfq 3 3) (hr : Regular F) (Q : T3) (b : Fin 3 → ℝ) (u : ℕ → Fin 3 → ℝ) (c : Fin nn → ℕ) (hc : c ∈ F.cells) (q : Fin nq) :
    Matrix.of (F.gradAt (turnedSol F Q b u) c q) + 1 = Q * (Matrix.of (F.gradAt u c q) + 1) := by
  rw [← gradAt_deformed F _ c q (hr.det c hc q), ← gradAt_deformed F u c q (hr.det c hc q)]
  ext i d
  rw [Matrix.mul_apply]
  simp only [Matrix.of_apply, Fem.gradAt, turnedSol, Pi.add_apply]
  have h0 : ∑ n, b i * F.shapeGrad c q n d = 0 := by rw [← mul_sum, grad_sum_zero F hr.grads c q d, mul_zero]
  have e : ∀ n, (F.points (c n) i + (∑ j, Q i j * (F.points (c n) j + u (c n) j) + b i - F.points (c n) i)) * F.shapeGrad c q n d
      = ∑ j, Q i j * ((F.points (c n) j + u (c n) j) * F.shapeGrad c q n d) + b i * F.shapeGrad c q n d := fun n => by
    rw [show F.points (c n) i + (∑ j, Q i j * (F.points (c n) j + u (c n) j) + b i - F.points (c n) i) = ∑ j, Q i j * (F.points (c n) j + u (c n) j) + b i by ring, add_mul, sum_mul]
    congr 1
    exact sum_congr rfl fun j _ => by ring
  simp only [e, sum_add_distrib, h0, add_zero, mul_sum]
  exact sum_comm

theorem formFem_ok (F : Fem nn nq nf nfq 3 3) (st : List (Fin nq → Pt)) (hne : F.cells ≠ []) (hst : st.length = F.cells.length) (u : ℕ → Fin 3 → ℝ) : ∃ R, (formFem F st).computeResidual u = .ok R :=
  (C13_returns _ _).mpr ⟨hne, fun _ h => (by cases h), fun _ h => (by cases h; exact hst), fun _ h => (by cases h), fun _ h => (by cases h)⟩

theorem formFem_residual (F : Fem nn nq nf nfq 3 3) (st : List (Fin nq → Pt)) (u R : ℕ → Fin 3 → ℝ) (h : (formFem F st).computeResidual u = .ok R) (n : ℕ) (i : Fin 3) :
    R n i = (F.cells.zipIdx.map fun p => nodal n p.1 fun a => ∑ q, (∑ d, firstPK ((st.getD p.2 fun _ => Pt.init) q) (Matrix.of (F.gradAt u p.1 q)) i d * F.shapeGrad p.1 q a d) * F.JxW p.1 q).sum := by
  rw [C13_residual _ u R h n i]
  have h1 : Fem.pairs (formFem F st).cauchy = [] := rfl
  have h2 : Fem.pairs (formFem F st).neumann = [] := rfl
  have h3 : ∀ c q, (formFem F st).load c q i = 0 := fun c q => by simp [Fem.load, formFem]
  rw [h1, h2]
  simp only [h3, mul_zero, zero_mul, sum_const_zero, List.map_nil, List.sum_nil, add_zero, sub_zero]
  have h4 : ((formFem F st).cells.map fun c => nodal n c fun _ => (0 : ℝ)).sum = 0 := List.sum_eq_zero fun x hx => by
    obtain ⟨c, -, rfl⟩ := List.mem_map.mp hx
    simp [nodal]
  rw [h4, sub_zero]
  refine sum_map_congr fun p _ => congrArg _ (funext fun a => sum_congr rfl fun q _ => ?_)
  have hm : (formFem F st).massAt p.2 q ((formFem F st).uAt u p.1 q) i = 0 := by simp [Fem.massAt, formFem]
  rw [hm, zero_mul, add_zero]
  rfl

/-- **C135 (turning a solution).** For every mesh with regular elements and all internal variables, turning and shifting the deformed body turns the nodal forces: the residual of the turned displacement is the turned residual. -/
theorem C135_turn (F : Fem nn nq nf nfq 3 3) (hr : Regular F) (st : List (Fin nq → Pt)) {Q : T3} (hQ : Orth Q) (b : Fin 3 → ℝ) (u R : ℕ → Fin 3 → ℝ) (h : (formFem F st).computeResidual u = .ok R) :
    ∃ R', (formFem F st).computeResidual (turnedSol F Q b u) = .ok R' ∧ ∀ n i, R' n i = ∑ j, Q i j * R n j := by
  obtain ⟨hne, -, hl, -⟩ := (C13_returns _ _).mp ⟨R, h⟩
  obtain ⟨R', hR'⟩ := formFem_ok F st hne (hl _ rfl) (turnedSol F Q b u)
  refine ⟨R', hR', fun n i => ?_⟩
  rw [formFem_residual F st _ R' hR' n i]
  simp only [formFem_residual F st u R h n]
  have e : ∀ p ∈ F.cells.zipIdx, (nodal n p.1 fun a => ∑ q, (∑ d, firstPK ((st.getD p.2 fun _ => Pt.init) q) (Matrix.of (F.gradAt (turnedSol F Q b u) p.1 q)) i d * F.shapeGrad p.1 q a d) * F.JxW p.1 q)
      = ∑ j, Q i j * nodal n p.1 fun a => ∑ q, (∑ d, firstPK ((st.getD p.2 fun _ => Pt.init) q) (Matrix.of (F.gradAt u p.1 q)) j d * F.shapeGrad p.1 q a d) * F.JxW p.1 q := by
    intro p hp
    simp only [← nodal_smul]
    rw [← nodal_sum]
    congr 1
    funext a
    simp only [mul_sum]
    rw [sum_comm]
    refine sum_congr rfl fun q _ => ?_
    have hpk := (C135_frame (show Orth 1 by simp [Orth]) hQ (⟨by simp, by simp, rfl⟩ : Turned 1 ((st.getD p.2 fun _ => Pt.init) q) ((st.getD p.2 fun _ => Pt.init) q)) (Matrix.of (F.gradAt u p.1 q))
      (Matrix.of (F.gradAt (turnedSol F Q b u) p.1 q)) (gradAt_turned F hr Q b u p.1 (zipIdx_mem hp) q)).2.1
    rw [hpk, sum_mul]
    simp only [Matrix.mul_apply, sum_mul, mul_sum]
    rw [sum_comm]
    exact sum_congr rfl fun j _ => sum_congr rfl fun d _ => by ring
  rw [sum_map_congr e]
  generalize F.cells.zipIdx = l
  induction l with
  | nil => simp
  | cons p l ih => simp only [List.map_cons, List.sum_cons, ih, mul_add, sum_add_distrib]

/-- **C135 (the single element is not held).** single.py prescribes vertical displacements only. On every mesh, at every load and for all internal variables, a solution turned about the vertical axis by any angle (or reflected in a vertical plane) and shifted horizontally is again a solution, so no solution is isolated. -/
theorem C135_single (F : Fem nn nq nf nfq 3 3) (hr : Regular F) (st : List (Fin nq → Pt)) (scale : ℝ) {Q : T3} (hQ : Orth Q) (hz : ∀ j, Q 2 j = if j = 2 then 1 else 0) (hz' : ∀ j, Q j 2 = if j = 2 then 1 else 0)
    (b : Fin 3 → ℝ) (hb : b 2 = 0) (u R : ℕ → Fin 3 → ℝ) (h : Held (formFem F st) (singleInfo scale) u R) : ∃ R', Held (formFem F st) (singleInfo scale) (turnedSol F Q b u) R' ∧ ∀ n, R' n 2 = R n 2 := by
  obtain ⟨R', h1, h2⟩ := C135_turn F hr st hQ b u R h.residual
  have hu : ∀ n, turnedSol F Q b u n 2 = u n 2 := fun n => by simp [turnedSol, hz, hb]
  have hR2 : ∀ n, R' n 2 = R n 2 := fun n => by simp [h2, hz]
  refine ⟨R', ⟨h1, ?_, ?_⟩, hR2⟩
  · intro t ht n hn hloc i hi
    have hp := h.prescribed t ht n hn hloc i hi
    have : t.2.1 = 2 := by
      simp only [singleInfo, List.zip_cons_cons, List.zip_nil_left, List.mem_cons, List.not_mem_nil, or_false] at ht
      rcases ht with rfl | rfl <;> rfl
    obtain rfl : i = 2 := Fin.ext (hi.trans this)
    rw [hu, hp]
  · intro n hn i hi
    by_cases h2' : i = 2
    · subst h2'
      rw [hR2]
      exact h.free n hn 2 hi
    · have hfree : ∀ j : Fin 3, j ≠ 2 → R n j = 0 := fun j hj => h.free n hn j fun t ht _ he => hj (by
        have : t.2.1 = 2 := by
          simp only [singleInfo, List.zip_cons_cons, List.zip_nil_left, List.mem_cons, List.not_mem_nil, or_false] at ht
          rcases ht with rfl | rfl <;> rfl
        exact Fin.ext (he.trans this))
      rw [h2, Fin.sum_univ_three, hfree 0 (by decide), hfree 1 (by decide), hz' i, if_neg h2']
      ring

/-! ## Balance -/

theorem firstPK_symm {p : Pt} (hp : Admissible p) (g : T3) (hg : (g + 1).det ≠ 0) : (firstPK p g * (g + 1)ᵀ).IsSymm := by
  have hspd := update_spd hp g hg
  have hP : firstPK p g * (g + 1)ᵀ = getTau (g + 1) (update p g).be := by
    rw [firstPK, Matrix.mul_assoc, inv_transpose_mul hg, Matrix.mul_one, returnMap_tau]
    rfl
  rw [hP]
  show (getTau (g + 1) (update p g).be)ᵀ = _
  rw [getTau, deviatoric, transpose_add, transpose_smul, transpose_smul, transpose_sub, transpose_smul, transpose_one, hspd.symm]

/-- **C135 (balance).** On every mesh with regular elements, for admissible internal variables, the nodal forces of every displacement have no resultant and no moment about the deformed positions, plastic flow or not. -/
theorem C135_balance (F : Fem nn nq nf nfq 3 3) (hr : Regular F) (st : List (Fin nq → Pt)) (hadm : ∀ row ∈ st, ∀ q, Admissible (row q)) (u R : ℕ → Fin 3 → ℝ) (h : (formFem F st).computeResidual u = .ok R)
    (hdet : ∀ c ∈ F.cells, ∀ q, (Matrix.of (F.gradAt u c q) + 1 : T3).det ≠ 0) (i j : Fin 3) :
    ∑ n ∈ range F.numTotal, R n i = 0 ∧ nodalMoment F.numTotal (fun n => F.points n + u n) R i j = 0 := by
  have hr' : Regular (formFem F st) := ⟨hr.nodes, hr.det, hr.grads, hr.vals, hr.faces⟩
  refine ⟨force_zero (formFem F st) hr' rfl rfl rfl rfl rfl u R h i, ?_⟩
  have := C131_deformed (formFem F st) hr'.nodes hr'.det u R h (fun p hp q => ?_) i j
  · rw [nodalMoment_zero (formFem F st) rfl rfl rfl rfl rfl] at this
    exact this
  · refine firstPK_symm (p := (st.getD p.2 fun _ => Pt.init) q) ?_ (Matrix.of (F.gradAt u p.1 q)) (hdet p.1 (zipIdx_mem hp) q)
    rw [List.getD_eq_getElem?_getD]
    cases hk : st[p.2]? with
    | none => exact Admissible.init
    | some row => exact hadm row (List.mem_of_getElem? hk) q

/-! ## The die -/

/-- **C135 (the die).** At every point over the sheet the prescribed displacement of `example_disp` is a pyramid: `-scale · Lx` times the distance to the nearest wall over half the width, plus `1e-10`. -/
theorem C135_die (scale : ℝ) (point : Fin 3 → ℝ) (hx : 0 ≤ point 0 ∧ point 0 ≤ 10) (hy : 0 ≤ point 1 ∧ point 1 ≤ 10) :
    dieVal scale point = -scale * 10 * (min (min (point 0) (10 - point 0)) (min (point 1) (10 - point 1)) / 5 + 1e-10)
      ∧ |dieVal scale point| ≤ |scale| * 10 * (1 + 1e-10) := by
  have h0 : 0 ≤ min (min (point 0) (10 - point 0)) (min (point 1) (10 - point 1)) := le_min (le_min hx.1 (by linarith)) (le_min hy.1 (by linarith))
  have h5 : min (min (point 0) (10 - point 0)) (min (point 1) (10 - point 1)) ≤ 5 := by
    refine (min_le_left _ _).trans ?_
    rcases le_total (point 0) 5 with h | h
    · exact (min_le_left _ _).trans h
    · exact (min_le_right _ _).trans (by linarith)
  have e : dieVal scale point = -scale * 10 * (min (min (point 0) (10 - point 0)) (min (point 1) (10 - point 1)) / 5 + 1e-10) := by
    rw [dieVal]
    rw [abs_of_nonneg hx.1, abs_of_nonneg (by linarith [hx.2] : 0 ≤ 10 - point 0), abs_of_nonneg hy.1, abs_of_nonneg (by linarith [hy.2] : 0 ≤ 10 - point 1), min_self, show (0.5 * 10 : ℝ) = 5 by norm_num]
    generalize min (min (point 0) (10 - point 0)) (min (point 1) (10 - point 1)) = s at *
    rw [add_sub_cancel, one_div_one_div]
  refine ⟨e, ?_⟩
  rw [e]
  generalize min (min (point 0) (10 - point 0)) (min (point 1) (10 - point 1)) = s at *
  rw [abs_mul, abs_mul, abs_neg, abs_of_pos (by norm_num : (0 : ℝ) < 10), abs_of_nonneg (show (0 : ℝ) ≤ s / 5 + 1e-10 by norm_num; linarith)]
  refine mul_le_mul_of_nonneg_left ?_ (mul_nonneg (abs_nonneg _) (by norm_num))
  linarith

/-- **C135 (conflicting conditions).** On the edge of the upper face both `walls` and `top` prescribe the vertical displacement, with the values `0` and `-scale · 1e-9`. So for every load but zero no displacement meets all conditions of `example_disp`, on any mesh with a node on that edge. -/
theorem C135_conflict (F : Fem nn nq nf nfq 3 3) (scale : ℝ) (hs : scale ≠ 0) (n : ℕ) (hn : n < F.numTotal) (hp : F.points n 0 = 0 ∧ 0 ≤ F.points n 1 ∧ F.points n 1 ≤ 10 ∧ F.points n 2 = 0.25) :
    dieVal scale (F.points n) = -scale * 1e-9 ∧ ∀ u R, ¬ Held F (sheetInfo scale) u R := by
  have hd : dieVal scale (F.points n) = -scale * 1e-9 := by
    rw [(C135_die scale (F.points n) ⟨hp.1.ge, by rw [hp.1]; norm_num⟩ ⟨hp.2.1, hp.2.2.1⟩).1, hp.1]
    have : min (min (0 : ℝ) (10 - 0)) (min (F.points n 1) (10 - F.points n 1)) = 0 := by
      rw [min_eq_left (by norm_num : (0 : ℝ) ≤ 10 - 0)]
      exact min_eq_left (le_min hp.2.1 (by linarith [hp.2.2.1]))
    rw [this]
    ring
  refine ⟨hd, fun u R h => ?_⟩
  have h1 := h.prescribed (walls, 2, fun _ => 0) (by simp [sheetInfo]) n hn (by simp [walls, isclose_iff, hp.1]; norm_num) 2 rfl
  have h2 := h.prescribed (sheetTop, 2, dieVal scale) (by simp [sheetInfo]) n hn (by simp [sheetTop, isclose_iff, hp.2.2.2]; norm_num) 2 rfl
  simp only at h1 h2
  rw [h1, hd] at h2
  exact mul_ne_zero (neg_ne_zero.mpr hs) (by norm_num : (1e-9 : ℝ) ≠ 0) h2.symm

/-! ## Cases -/

theorem firstPK_zero : firstPK Pt.init 0 = 0 := by
  have := firstPK_dg one_pos one_pos (dg_elastic (by norm_num))
  rw [dg_one, sub_self] at this
  rw [this]
  ext i j
  fin_cases i <;> fin_cases j <;> simp [Matrix.diagonal] <;> norm_num

/-- The first load step of single.py has the solution zero; by `C135_single` every quarter turn and shift of the element is another one. -/
example : ∃ R', Held (formFem (boxObj (fun _ => 1) fun _ => 1) (formInit (boxObj (fun _ => 1) fun _ => 1))) (singleInfo 0)
    (turnedSol (boxObj (fun _ => 1) fun _ => 1) !![0, -1, 0; 1, 0, 0; 0, 0, 1] ![5, 7, 0] fun _ _ => 0) R' := by
  set F := boxObj (fun _ => 1) fun _ => 1 with hF
  have hN : ∀ a : Fin 3, 0 < (fun _ => 1 : Fin 3 → ℕ) a := fun _ => by norm_num
  have hr : Regular F := boxObj_regular hN fun _ => by norm_num
  obtain ⟨R, hR⟩ := formFem_ok F (formInit F) (boxObj_nonempty hN) (by simp [formInit]) fun _ _ => 0
  have h0 : ∀ n i, R n i = 0 := fun n i => by
    rw [formFem_residual F _ _ R hR n i]
    refine List.sum_eq_zero fun x hx => ?_
    obtain ⟨p, hp, rfl⟩ := List.mem_map.mp hx
    have hg : ∀ q, Matrix.of (F.gradAt (fun _ _ => 0) p.1 q) = (0 : T3) := fun q => by ext a b; simp [Fem.gradAt]
    have hi : ∀ q, ((formInit F).getD p.2 fun _ => Pt.init) q = Pt.init := fun q => by
      rw [List.getD_eq_getElem?_getD, formInit, List.getElem?_map]
      cases F.cells[p.2]? <;> rfl
    simp only [hg, hi, firstPK_zero]
    simp [nodal]
  have hheld : Held (formFem F (formInit F)) (singleInfo 0) (fun _ _ => 0) R := by
    refine ⟨hR, ?_, fun n _ i _ => h0 n i⟩
    intro t ht n hn hloc i hi
    simp only [singleInfo, List.zip_cons_cons, List.zip_nil_left, List.mem_cons, List.not_mem_nil, or_false] at ht
    rcases ht with rfl | rfl <;> simp
  obtain ⟨R', h', -⟩ := C135_single F hr _ 0 (Q := !![0, -1, 0; 1, 0, 0; 0, 0, 1]) (by
      rw [Orth]
      ext i j
      fin_cases i <;> fin_cases j <;> simp [Matrix.mul_apply, Fin.sum_univ_three]) (fun j => by fin_cases j <;> simp) (fun j => by fin_cases j <;> simp) ![5, 7, 0] (by simp) _ R hheld
  exact ⟨R', h'⟩

/-- The deepest point of the die at full load: 2 below the sheet of width 10, up to `2e-10`. -/
example : dieVal 0.2 ![5, 5, 0.25] = -2 * (1 + 1e-10) := by
  rw [(C135_die 0.2 ![5, 5, 0.25] (by norm_num) (by norm_num)).1]
  norm_num

end Verif.Forming
