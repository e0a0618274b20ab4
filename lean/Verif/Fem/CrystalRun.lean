import Verif.Fem.CrystalStress

/-!
# Crystal plasticity: internal variables of all points, load histories and drivers (model of applications/fem/crystal_plasticity/models.py 71-76, 245-257, 269-291 and simple.py 24-106, calibration.py 74-102)
-/
namespace Verif.Fem
open Finset Matrix

variable {ns nn nq nf nfq : ℕ}

/-! ## Model -/

/-- `np.linalg.solve` of the local Newton method. -/
abbrev CpSolve := Matrix (Fin 3 × Fin 3) (Fin 3 × Fin 3) ℝ → M3 → M3

/-- `params`: per cell and quadrature point (the code keeps the four fields in four arrays, models.py 117). -/
abbrev CpParams (nq ns : ℕ) := List (Fin nq → CpState ns)

/-- `rot_mats` (models.py 71); indexing a jax array past its end takes the last entry. -/
def cpOrient (quat : List (Fin 4 → ℝ)) (cell_ori_inds : List ℕ) : List M3 := cell_ori_inds.map fun i => (quat.map getRotMat).getD (min i (quat.length - 1)) 0

/-- The initial `internal_vars` (models.py 53, 73-76, 117). -/
noncomputable def cpInit (nq ns : ℕ) (rot_mats : List M3) : CpParams nq ns := rot_mats.map fun R _ => ⟨1, fun _ => 60.8, 0, R⟩

/-- `update_int_vars_gp` (models.py 245-254); `none`: the lengths do not fit or a local solver is still running after `fuel` steps. -/
noncomputable def Fem.cpUpdate (F : Fem nn nq nf nfq 3 3) (m : CpMaterial ns) (solve : CpSolve) (fuel : ℕ) (sol : ℕ → Fin 3 → ℝ) (params : CpParams nq ns) : Option (CpParams nq ns) :=
  let u_grads := F.solToGrad sol
  let new : List (Fin nq → Option (CpState ns)) := (u_grads.zip params).map fun p q => m.update solve fuel (Matrix.of (p.1 q)) (p.2 q)
  open Classical in
  if u_grads.length = params.length ∧ ∀ f ∈ new, ∀ q, (f q).isSome then some (new.map fun f q => (f q).getD ⟨0, 0, 0, 0⟩) else none

/-- `compute_avg_stress` (models.py 269-291), the value returned; `none` as before. -/
noncomputable def Fem.cpStress (F : Fem nn nq nf nfq 3 3) (m : CpMaterial ns) (solve : CpSolve) (fuel : ℕ) (sol : ℕ → Fin 3 → ℝ) (params : CpParams nq ns) : Option (List M3) :=
  let u_grads := F.solToGrad sol
  let P := (u_grads.zip params).map fun p q => m.firstPK solve fuel (Matrix.of (p.1 q)) (p.2 q)
  open Classical in
  if u_grads.length = params.length ∧ ∀ f ∈ P, ∀ q, (f q).isSome then
    let sigma := (P.zip u_grads).map fun p q => pToSigma ((p.1 q).getD 0) (Matrix.of (p.2 q) + 1)
    some ((sigma.zip (F.cells.map F.JxW)).map fun p => Matrix.of fun i j => (∑ q, p.1 q i j * p.2 q) / ∑ q, p.2 q)
  else none

/-- The internal variables after each step of a load history: time increments and displacement fields (the loops of simple.py 94-99, calibration.py 80-90). -/
noncomputable def Fem.cpRun (F : Fem nn nq nf nfq 3 3) (m : CpMaterial ns) (solve : CpSolve) (fuel : ℕ) : List (ℝ × (ℕ → Fin 3 → ℝ)) → CpParams nq ns → Option (List (CpParams nq ns))
  | [], _ => some []
  | (dt, sol) :: rest, params => do
    let params' ← F.cpUpdate { m with dt := dt } solve fuel sol params
    let tl ← F.cpRun m solve fuel rest params'
    some (params' :: tl)

/-- `simulation` (simple.py 91-101): `iv` is `problem.internal_vars['laplace']` before the call; the result is the value returned and the same attribute after the call, which `set_params` (simple.py 26-30, called by `fwd_pred`) overwrites in each step. -/
def cpSimulation {P Sol V : Type} (fwd_pred : ℕ → ℝ → P → Option Sol) (update : ℕ → Sol → P → Option P) (targe_val : Sol → V) (disps : ℕ → ℝ) (scale_d : ℝ) (iv : P) : Option (Option V × P) :=
  let params := iv
  ((List.range 10).foldlM (fun (st : P × P × Option V) i =>
    let (params, _, _) := st
    let iv := params
    (fwd_pred i (scale_d * disps (i + 1)) params).bind fun sol => (update i sol params).map fun params => (params, iv, some (targe_val sol))) (params, iv, none)).map fun (st : P × P × Option V) => (st.2.2, st.2.1)

/-! ## C115: histories -/

theorem update_some (m : CpMaterial ns) (solve : CpSolve) (fuel : ℕ) (u_grad : M3) (st st' : CpState ns) (h : m.update solve fuel u_grad st = some st') : ∃ S, cpNewton (m.residual u_grad st) solve fuel = some S ∧ st' = (m.helper u_grad st S).1 := by
  obtain ⟨S, h1, h2⟩ := Option.map_eq_some_iff.mp h
  exact ⟨S, h1, h2.symm⟩

/-- One update, point by point. -/
theorem cpUpdate_point (F : Fem nn nq nf nfq 3 3) (m : CpMaterial ns) (solve : CpSolve) (fuel : ℕ) (sol : ℕ → Fin 3 → ℝ) (params params' : CpParams nq ns) (h : F.cpUpdate m solve fuel sol params = some params') :
    params.length = F.cells.length ∧ params'.length = F.cells.length ∧ ∀ (k : ℕ) (s s' : Fin nq → CpState ns), params[k]? = some s → params'[k]? = some s' →
      ∀ q, ∃ u_grad, m.update solve fuel u_grad (s q) = some (s' q) := by
  unfold Fem.cpUpdate at h
  simp only at h
  split_ifs at h with hc
  obtain ⟨hl, hs⟩ := hc
  have hu : (F.solToGrad sol).length = F.cells.length := by simp [Fem.solToGrad]
  injection h with h
  subst h
  refine ⟨by rw [← hl, hu], by simp [hl.symm, hu], fun k s s' hk hk' q => ?_⟩
  rw [List.getElem?_map, List.getElem?_map] at hk'
  rw [Option.map_map, Option.map_eq_some_iff] at hk'
  obtain ⟨⟨g, s0⟩, hz, he⟩ := hk'
  obtain ⟨hg, hs0⟩ := List.getElem?_zip_eq_some.mp hz
  have : s0 = s := by rw [hk] at hs0; exact (Option.some.inj hs0).symm
  subst this
  refine ⟨Matrix.of (g q), ?_⟩
  have hmem := hs _ (List.mem_map_of_mem (List.mem_of_getElem? hz)) q
  obtain ⟨x, hx⟩ := Option.isSome_iff_exists.mp hmem
  have : s' q = x := by
    rw [← he]
    simp only [Function.comp_apply] at hx ⊢
    rw [hx]
    rfl
  rw [this]
  exact hx

/-- **C115 (histories).** Whatever displacement fields and time steps a program passes, starting from the initial internal variables: if the run comes to its end, the orientation of every point is that of its cell forever; as long as the slip of no
step exceeds `t_sat / h`, all slip systems of a point have one common resistance after every step, which starts at 60.8, never decreases and never exceeds 109.8; and a step in which at most one system of a point slips keeps the plastic volume
of that point. -/
theorem C115_history (F : Fem nn nq nf nfq 3 3) (m : CpMaterial ns) (hq : ∀ a b, m.q a b = 1) (rows : Fin ns → Fin 6 → ℝ) (hm : ∀ a, m.schmid a = schmidTensor (rows a))
    (hperp : ∀ a, ∑ i : Fin 3, rows a (Fin.natAdd 3 i) * rows a (Fin.castAdd 3 i) = 0) (solve : CpSolve) (fuel : ℕ) (rot_mats : List M3) (hrot : ∀ R ∈ rot_mats, IsRotation R) (steps : List (ℝ × (ℕ → Fin 3 → ℝ)))
    (states : List (CpParams nq ns)) (hrun : F.cpRun m solve fuel steps (cpInit nq ns rot_mats) = some states)
    (hslip : ∀ (i : ℕ) (prev next : CpParams nq ns), (cpInit nq ns rot_mats :: states)[i]? = some prev → states[i]? = some next → ∀ (k : ℕ) (s s' : Fin nq → CpState ns), prev[k]? = some s → next[k]? = some s' → ∀ q, (541.5 : ℝ) * ∑ a, |(s' q).slip a - (s q).slip a| ≤ 109.8) :
    states.length = steps.length ∧ ∀ (i : ℕ) (prev next : CpParams nq ns), (cpInit nq ns rot_mats :: states)[i]? = some prev → states[i]? = some next → ∀ (k : ℕ) (s s' : Fin nq → CpState ns), prev[k]? = some s → next[k]? = some s' → ∀ q,
      rot_mats[k]? = some (s' q).rot_mat ∧ (∃ g g', (∀ a, (s q).resistance a = g) ∧ (∀ a, (s' q).resistance a = g') ∧ 60.8 ≤ g ∧ g ≤ g' ∧ g' ≤ 109.8) ∧
      ∀ a, (∀ b, b ≠ a → (s' q).slip b = (s q).slip b) → (s' q).Fp_inv.det = (s q).Fp_inv.det := by
  -- the invariant
  let Inv : CpParams nq ns → Prop := fun p => ∀ (k : ℕ) (s : Fin nq → CpState ns), p[k]? = some s → ∀ q, rot_mats[k]? = some (s q).rot_mat ∧ ∃ g, (∀ a, (s q).resistance a = g) ∧ 60.8 ≤ g ∧ g ≤ 109.8
  have key : ∀ (steps : List (ℝ × (ℕ → Fin 3 → ℝ))) (p0 : CpParams nq ns) (states : List (CpParams nq ns)), Inv p0 → F.cpRun m solve fuel steps p0 = some states →
      (∀ (i : ℕ) (prev next : CpParams nq ns), (p0 :: states)[i]? = some prev → states[i]? = some next → ∀ (k : ℕ) (s s' : Fin nq → CpState ns), prev[k]? = some s → next[k]? = some s' → ∀ q, (541.5 : ℝ) * ∑ a, |(s' q).slip a - (s q).slip a| ≤ 109.8) →
      states.length = steps.length ∧ ∀ (i : ℕ) (prev next : CpParams nq ns), (p0 :: states)[i]? = some prev → states[i]? = some next → ∀ (k : ℕ) (s s' : Fin nq → CpState ns), prev[k]? = some s → next[k]? = some s' → ∀ q,
        rot_mats[k]? = some (s' q).rot_mat ∧ (∃ g g', (∀ a, (s q).resistance a = g) ∧ (∀ a, (s' q).resistance a = g') ∧ 60.8 ≤ g ∧ g ≤ g' ∧ g' ≤ 109.8) ∧
        ∀ a, (∀ b, b ≠ a → (s' q).slip b = (s q).slip b) → (s' q).Fp_inv.det = (s q).Fp_inv.det := by
    intro steps
    induction steps with
    | nil =>
      intro p0 states _ hr _
      have : states = [] := by simpa [Fem.cpRun] using hr.symm
      subst this
      exact ⟨rfl, fun i prev next _ h => by simp at h⟩
    | cons st rest ih =>
      intro p0 states hI hr hsl
      obtain ⟨dt, sol⟩ := st
      simp only [Fem.cpRun, Option.bind_eq_bind, Option.bind_eq_some_iff, Option.some.injEq] at hr
      obtain ⟨p1, h1, tl, h2, rfl⟩ := hr
      have hp := cpUpdate_point F _ solve fuel sol p0 p1 h1
      -- one point of this step
      have hstep : ∀ (k : ℕ) (s s' : Fin nq → CpState ns), p0[k]? = some s → p1[k]? = some s' → ∀ q, rot_mats[k]? = some (s' q).rot_mat ∧
          (∃ g g', (∀ a, (s q).resistance a = g) ∧ (∀ a, (s' q).resistance a = g') ∧ 60.8 ≤ g ∧ g ≤ g' ∧ g' ≤ 109.8) ∧
          ∀ a, (∀ b, b ≠ a → (s' q).slip b = (s q).slip b) → (s' q).Fp_inv.det = (s q).Fp_inv.det := by
        intro k s s' hk hk' q
        obtain ⟨u, hu⟩ := hp.2.2 k s s' hk hk' q
        obtain ⟨S, _, hS⟩ := update_some _ solve fuel u _ _ hu
        obtain ⟨hR, g, hg, hg1, hg2⟩ := hI k s hk q
        have hslip' : ∀ b, (s' q).slip b - (s q).slip b = CpMaterial.gammaInc { m with dt := dt } (s q) S b := fun b => by
          rw [hS]
          show (s q).slip b + _ - (s q).slip b = _
          ring
        obtain ⟨g', e1, e2, _, e4⟩ := C113_hardening { m with dt := dt } hq (s q) g hg u S
        rw [← hS] at e1
        have hb := hsl 0 p0 p1 rfl rfl k s s' hk hk' q
        simp only [hslip'] at hb
        refine ⟨by rw [hR, hS]; rfl, ⟨g, g', hg, e1, hg1, e2 hg2, e4 (by linarith) hg2 hb⟩, fun a ha => ?_⟩
        have hRot := hrot _ (List.mem_of_getElem? hR)
        have := (C113_volume { m with dt := dt } (s q) (fun a => by
          show (rotate2 (s q).rot_mat (m.schmid a)).trace = 0 ∧ _
          have := C113_schmid (rows a) (hperp a) (s q).rot_mat hRot.1
          rw [← hm a] at this
          exact this) u S).2.2 a fun b hb => by rw [← hslip' b, ha b hb, sub_self]
        rw [hS]
        exact this
      have hI1 : Inv p1 := by
        intro k s' hk' q
        have hlt : k < p0.length := by
          have := (List.getElem?_eq_some_iff.mp hk').1
          rw [hp.2.1] at this
          rw [hp.1]
          exact this
        obtain ⟨a1, ⟨g, g', _, b2, b3, b4, b5⟩, _⟩ := hstep k p0[k] s' (List.getElem?_eq_getElem hlt) hk' q
        exact ⟨a1, g', b2, by linarith, b5⟩
      obtain ⟨hl, hrest⟩ := ih p1 tl hI1 h2 fun i prev next ha hb => hsl (i + 1) prev next (by simpa using ha) (by simpa using hb)
      refine ⟨by simp [hl], fun i prev next ha hb => ?_⟩
      cases i with
      | zero =>
        have e1 : p0 = prev := by simpa using ha
        have e2 : p1 = next := by simpa using hb
        subst e1; subst e2
        exact hstep
      | succ i => exact hrest i prev next (by simpa using ha) (by simpa using hb)
  refine key steps _ states ?_ hrun hslip
  intro k s hk q
  unfold cpInit at hk
  rw [List.getElem?_map, Option.map_eq_some_iff] at hk
  obtain ⟨R, hR, rfl⟩ := hk
  exact ⟨hR, 60.8, fun _ => rfl, le_rfl, by norm_num⟩

/-- **C115 (orientations of the cells).** With unit quaternions every cell gets a rotation: that of its index, or of the last quaternion if the index is too large. -/
theorem C115_orient (quat : List (Fin 4 → ℝ)) (h0 : quat ≠ []) (hu : ∀ q ∈ quat, ∑ i, q i ^ 2 = 1) (inds : List ℕ) :
    (∀ R ∈ cpOrient quat inds, IsRotation R) ∧ (cpOrient quat inds).length = inds.length ∧
    ∀ k i : ℕ, inds[k]? = some i → (∀ q, quat[i]? = some q → (cpOrient quat inds)[k]? = some (getRotMat q)) ∧ (quat.length ≤ i → (cpOrient quat inds)[k]? = some (getRotMat (quat.getLast h0))) := by
  have hpos : 0 < quat.length := List.length_pos_iff.mpr h0
  refine ⟨fun R hR => ?_, by simp [cpOrient], fun k i hk => ⟨fun q hq => ?_, fun hi => ?_⟩⟩
  · obtain ⟨i, _, rfl⟩ := List.mem_map.mp hR
    have hlt : min i (quat.length - 1) < (quat.map getRotMat).length := by simp; omega
    rw [List.getD_eq_getElem?_getD, List.getElem?_eq_getElem hlt, Option.getD_some, List.getElem_map]
    exact (C112_rotation _).2.2.2.1 (hu _ (List.getElem_mem _))
  · have hi := (List.getElem?_eq_some_iff.mp hq).1
    rw [cpOrient, List.getElem?_map, hk, Option.map_some, show min i (quat.length - 1) = i by omega, List.getD_eq_getElem?_getD, List.getElem?_map, hq]
    rfl
  · rw [cpOrient, List.getElem?_map, hk, Option.map_some, show min i (quat.length - 1) = quat.length - 1 by omega, List.getD_eq_getElem?_getD, List.getElem?_map, ← List.getLast?_eq_getElem?, List.getLast?_eq_some_getLast h0]
    rfl

/-- **C115 (average stress).** If the stress is returned, then per cell it is the mean of the Cauchy stresses of the quadrature points with the weights of the quadrature; in a cell with positive weights every component lies between the smallest
and the largest value of the points, and stress-free points give zero. -/
theorem C115_average (F : Fem nn nq nf nfq 3 3) (m : CpMaterial ns) (solve : CpSolve) (fuel : ℕ) (sol : ℕ → Fin 3 → ℝ) (params : CpParams nq ns) (avg : List M3) (h : F.cpStress m solve fuel sol params = some avg) :
    avg.length = F.cells.length ∧ ∀ (k : ℕ) (c : Fin nn → ℕ) (s : Fin nq → CpState ns) (T : M3), F.cells[k]? = some c → params[k]? = some s → avg[k]? = some T → ∃ (u_grad P : Fin nq → M3),
      (F.solToGrad sol)[k]? = some (fun q => u_grad q) ∧ (∀ q, m.firstPK solve fuel (u_grad q) (s q) = some (P q)) ∧
      ((∑ q, F.JxW c q ≠ 0) → (∑ q, F.JxW c q) • T = ∑ q, F.JxW c q • pToSigma (P q) (u_grad q + 1)) ∧
      ∀ (i j : Fin 3) (lo hi : ℝ), (∀ q, 0 ≤ F.JxW c q) → 0 < ∑ q, F.JxW c q → (∀ q, lo ≤ pToSigma (P q) (u_grad q + 1) i j ∧ pToSigma (P q) (u_grad q + 1) i j ≤ hi) → lo ≤ T i j ∧ T i j ≤ hi := by
  unfold Fem.cpStress at h
  simp only at h
  split_ifs at h with hc
  obtain ⟨hl, hs⟩ := hc
  have hu : (F.solToGrad sol).length = F.cells.length := by simp [Fem.solToGrad]
  injection h with h
  subst h
  refine ⟨by simp [← hl, hu], fun k c s T hk hsk hT => ?_⟩
  rw [List.getElem?_map, Option.map_eq_some_iff] at hT
  obtain ⟨⟨sig, w⟩, hz, rfl⟩ := hT
  obtain ⟨hsig, hw⟩ := List.getElem?_zip_eq_some.mp hz
  rw [List.getElem?_map, hk] at hw
  obtain rfl : F.JxW c = w := by simpa using hw
  rw [List.getElem?_map, Option.map_eq_some_iff] at hsig
  obtain ⟨⟨Po, g⟩, hz2, hse⟩ := hsig
  obtain ⟨hP, hg⟩ := List.getElem?_zip_eq_some.mp hz2
  have hPmem := List.mem_of_getElem? hP
  rw [List.getElem?_map, Option.map_eq_some_iff] at hP
  obtain ⟨⟨g', s'⟩, hz3, hPe⟩ := hP
  obtain ⟨hg', hs'⟩ := List.getElem?_zip_eq_some.mp hz3
  have e1 : g' = g := by simp only at hg'; rw [hg] at hg'; exact (Option.some.inj hg').symm
  have e2 : s' = s := by simp only at hs'; rw [hsk] at hs'; exact (Option.some.inj hs').symm
  subst e1; subst e2
  have hsome : ∀ q, m.firstPK solve fuel (Matrix.of (g' q)) (s' q) = some ((Po q).getD 0) := fun q => by
    obtain ⟨x, hx⟩ := Option.isSome_iff_exists.mp (hs _ hPmem q)
    have : Po q = m.firstPK solve fuel (Matrix.of (g' q)) (s' q) := by
      have := congrFun hPe q
      exact this.symm
    simp only at hx
    rw [← this, hx]
    rfl
  have hsg : ∀ q, sig q = pToSigma ((Po q).getD 0) (Matrix.of (g' q) + 1) := fun q => (congrFun hse q).symm
  refine ⟨fun q => Matrix.of (g' q), fun q => (Po q).getD 0, hg, hsome, fun hne => ?_, fun i j lo hi hw hpos hb => ?_⟩
  · ext i j
    simp only [Matrix.smul_apply, Matrix.of_apply, smul_eq_mul, Matrix.sum_apply, hsg]
    rw [mul_div_cancel₀ _ hne]
    exact sum_congr rfl fun q _ => mul_comm _ _
  · simp only [Matrix.of_apply, hsg]
    constructor
    · rw [le_div_iff₀ hpos, mul_sum]
      exact sum_le_sum fun q _ => mul_le_mul_of_nonneg_right (hb q).1 (hw q)
    · rw [div_le_iff₀ hpos, mul_sum]
      exact sum_le_sum fun q _ => mul_le_mul_of_nonneg_right (hb q).2 (hw q)

/-! ## C115: the driver -/

/-- Specification: the states a simulation from `p` passes through. -/
def CpTrace {P Sol : Type} (fwd_pred : ℕ → ℝ → P → Option Sol) (update : ℕ → Sol → P → Option P) (disps : ℕ → ℝ) (scale_d : ℝ) (p : P) (state : ℕ → P) (sol : ℕ → Sol) : Prop :=
  state 0 = p ∧ ∀ i < 10, fwd_pred i (scale_d * disps (i + 1)) (state i) = some (sol i) ∧ update i (sol i) (state i) = some (state (i + 1))

/-- **C115 (driver).** A call of `simulation` that returns evaluates the target at the last of ten solutions, each computed from the state before it and the next displacement, and leaves the problem with the state before the last step. So the
second call of simple.py, the one that is differentiated, does not start from the initial material but from the state reached after nine steps of the first. -/
theorem C115_simulation {P Sol V : Type} (fwd_pred : ℕ → ℝ → P → Option Sol) (update : ℕ → Sol → P → Option P) (targe_val : Sol → V) (disps : ℕ → ℝ) (scale_d : ℝ) (iv : P) (v : Option V) (iv' : P) :
    cpSimulation fwd_pred update targe_val disps scale_d iv = some (v, iv') ↔
      ∃ state sol, CpTrace fwd_pred update disps scale_d iv state sol ∧ v = some (targe_val (sol 9)) ∧ iv' = state 9 := by
  have key : ∀ n, ∀ r : P × P × Option V, (List.range n).foldlM (fun (st : P × P × Option V) i =>
      let (params, _, _) := st
      let iv := params
      (fwd_pred i (scale_d * disps (i + 1)) params).bind fun sol => (update i sol params).map fun params => (params, iv, some (targe_val sol))) (iv, iv, none) = some r ↔
      ∃ (state : ℕ → P) (sol : ℕ → Option Sol), state 0 = iv ∧ (∀ i < n, ∃ s, sol i = some s ∧ fwd_pred i (scale_d * disps (i + 1)) (state i) = some s ∧ update i s (state i) = some (state (i + 1))) ∧
        r = (state n, if n = 0 then iv else state (n - 1), if n = 0 then none else (sol (n - 1)).map targe_val) := by
    intro n
    induction n with
    | zero =>
      intro r
      constructor
      · intro h
        exact ⟨fun _ => iv, fun _ => none, rfl, fun i hi => absurd hi (Nat.not_lt_zero i), by simpa using h.symm⟩
      · rintro ⟨state, sol, h0, _, hr⟩
        rw [hr, h0]
        rfl
    | succ n ih =>
      intro r
      rw [List.range_succ, List.foldlM_append]
      simp only [List.foldlM_cons, List.foldlM_nil]
      constructor
      · intro h
        obtain ⟨r0, h1, h2⟩ := Option.bind_eq_some_iff.mp h
        obtain ⟨state, sol, h0, hs, hr0⟩ := (ih r0).mp h1
        subst hr0
        obtain ⟨r1, h3, h4⟩ := Option.bind_eq_some_iff.mp h2
        obtain ⟨s, h5, h6⟩ := Option.bind_eq_some_iff.mp h3
        obtain ⟨p, h7, h8⟩ := Option.map_eq_some_iff.mp h6
        have hr : r = r1 := by simpa using h4.symm
        refine ⟨fun i => if i = n + 1 then p else state i, fun i => if i = n then some s else sol i, by simp [h0], fun i hi => ?_, ?_⟩
        · rcases Nat.lt_succ_iff_lt_or_eq.mp hi with hi | rfl
          · obtain ⟨s', a, b, c⟩ := hs i hi
            refine ⟨s', by simp [hi.ne, a], ?_, ?_⟩
            · simp only [if_neg (show i ≠ n + 1 by omega)]
              exact b
            · simp only [if_neg (show i ≠ n + 1 by omega), if_neg (show i + 1 ≠ n + 1 by omega)]
              exact c
          · refine ⟨s, by simp, ?_, ?_⟩
            · simp only [if_neg (show i ≠ i + 1 by omega)]
              exact h5
            · simp only [if_neg (show i ≠ i + 1 by omega), if_true]
              exact h7
        · rw [hr, ← h8]
          simp
      · rintro ⟨state, sol, h0, hs, hr⟩
        refine Option.bind_eq_some_iff.mpr ⟨_, (ih _).mpr ⟨state, sol, h0, fun i hi => hs i (by omega), rfl⟩, ?_⟩
        obtain ⟨s, a, b, c⟩ := hs n (by omega)
        simp [b, c, hr, a]
  unfold cpSimulation
  simp only
  rw [Option.map_eq_some_iff]
  constructor
  · rintro ⟨r, h1, h2⟩
    obtain ⟨state, sol, h0, hs, hr⟩ := (key 10 r).mp h1
    have hsol : ∀ i < 10, (sol i).isSome := fun i hi => by obtain ⟨s, a, _⟩ := hs i hi; simp [a]
    obtain ⟨d, hd⟩ := Option.isSome_iff_exists.mp (hsol 9 (by norm_num))
    refine ⟨state, fun i => (sol i).getD d, ⟨h0, fun i hi => ?_⟩, ?_, ?_⟩
    · obtain ⟨s, a, b, c⟩ := hs i hi
      simp only [a, Option.getD_some]
      exact ⟨b, c⟩
    · have : v = r.2.2 := by rw [Prod.ext_iff] at h2; exact h2.1.symm
      rw [this, hr]
      simp [hd]
    · have : iv' = r.2.1 := by rw [Prod.ext_iff] at h2; exact h2.2.symm
      rw [this, hr]
      simp
  · rintro ⟨state, sol, ⟨h0, hs⟩, rfl, rfl⟩
    exact ⟨_, (key 10 _).mpr ⟨state, fun i => some (sol i), h0, fun i hi => ⟨sol i, rfl, hs i hi⟩, rfl⟩, rfl⟩

/-- **C115 (second call).** The two calls of simple.py in a row: if both return, the second passes through ten further steps from the state after nine steps of the first. -/
theorem C115_second {P Sol V : Type} (fwd_pred : ℕ → ℝ → P → Option Sol) (update : ℕ → Sol → P → Option P) (targe_val : Sol → V) (disps : ℕ → ℝ) (scale_d : ℝ) (iv iv1 iv2 : P) (v1 v2 : Option V)
    (h1 : cpSimulation fwd_pred update targe_val disps scale_d iv = some (v1, iv1)) (h2 : cpSimulation fwd_pred update targe_val disps scale_d iv1 = some (v2, iv2)) :
    ∃ state sol state' sol', CpTrace fwd_pred update disps scale_d iv state sol ∧ CpTrace fwd_pred update disps scale_d (state 9) state' sol' ∧ v1 = some (targe_val (sol 9)) ∧ v2 = some (targe_val (sol' 9)) := by
  obtain ⟨state, sol, a1, a2, rfl⟩ := (C115_simulation _ _ _ _ _ _ _ _).mp h1
  obtain ⟨state', sol', b1, b2, _⟩ := (C115_simulation _ _ _ _ _ _ _ _).mp h2
  exact ⟨state, sol, state', sol', a1, b1, a2, b2⟩

/-! ## Concrete cases -/

/-- A material without load: the run ends, and the state is the initial one. -/
example (F : Fem nn nq nf nfq 3 3) (m : CpMaterial ns) (solve : CpSolve) (rots : List M3) (hl : rots.length = F.cells.length) (dt : ℝ) :
    F.cpRun m solve 3 [(dt, fun _ _ => 0), (dt, fun _ _ => 0)] (cpInit nq ns rots) = some [cpInit nq ns rots, cpInit nq ns rots] := by
  have h : F.cpUpdate { m with dt := dt } solve 3 (fun _ _ => 0) (cpInit nq ns rots) = some (cpInit nq ns rots) := by
    have hmap : (((F.solToGrad fun _ _ => 0).zip (cpInit nq ns rots)).map fun p q => CpMaterial.update { m with dt := dt } solve 3 (Matrix.of (p.1 q)) (p.2 q)) = (cpInit nq ns rots).map fun s q => some (s q) := by
      refine List.ext_getElem? fun k => ?_
      rw [List.getElem?_map, List.getElem?_map]
      rcases lt_or_ge k F.cells.length with hk | hk
      · have h1 : (F.solToGrad fun _ _ => 0)[k]? = some fun _ _ _ => 0 := by
          rw [Fem.solToGrad, List.getElem?_map, List.getElem?_eq_getElem hk]
          simp
        have h2 : (cpInit nq ns rots)[k]? = some fun _ => ⟨1, fun _ => 60.8, 0, rots[k]'(hl ▸ hk)⟩ := by
          rw [cpInit, List.getElem?_map, List.getElem?_eq_getElem (hl ▸ hk)]
          rfl
        have hz : ((F.solToGrad fun _ _ => 0).zip (cpInit nq ns rots))[k]? = some ((fun _ _ _ => 0, fun _ => ⟨1, fun _ => 60.8, 0, rots[k]'(hl ▸ hk)⟩) : (Fin nq → Fin 3 → Fin 3 → ℝ) × (Fin nq → CpState ns)) :=
          List.getElem?_zip_eq_some.mpr ⟨h1, h2⟩
        rw [hz, h2]
        simp only [Option.map_some, Option.some.injEq]
        funext q
        refine (C114_natural { m with dt := dt } solve 3 _ _ ?_).2
        have : (Matrix.of fun (_ _ : Fin 3) => (0 : ℝ)) = 0 := rfl
        simp [this]
      · have h2 : (cpInit nq ns rots)[k]? = none := List.getElem?_eq_none (by simp [cpInit, hl]; exact hk)
        have h1 : ((F.solToGrad fun _ _ => 0).zip (cpInit nq ns rots))[k]? = none := List.getElem?_eq_none (by simp [Fem.solToGrad, cpInit, hl]; exact hk)
        rw [h1, h2]
        rfl
    unfold Fem.cpUpdate
    simp only [hmap]
    rw [if_pos ⟨by simp [Fem.solToGrad, cpInit, hl], fun f hf q => by
      obtain ⟨s, _, rfl⟩ := List.mem_map.mp hf
      rfl⟩, List.map_map]
    congr 1
    exact List.map_id _
  simp [Fem.cpRun, h]

/-- Two calls in a row with a state that counts the steps: the second result is not the first. -/
example : cpSimulation (fun _ d p => some (d + p)) (fun _ _ p => some (p + 1)) id (fun i => i) 1 (0 : ℝ) = some (some 19, 9) ∧
    cpSimulation (fun _ d p => some (d + p)) (fun _ _ p => some (p + 1)) id (fun i => i) 1 (9 : ℝ) = some (some 28, 18) := by
  constructor <;> norm_num [cpSimulation, List.range, List.range.loop, List.foldlM]

end Verif.Fem
