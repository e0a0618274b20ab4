import Verif.Fem.MultiScaleTrain
import Verif.Fem.MultiScaleBc

/-!
# C125: the tensile test of the two-scale material (model of applications/fem/multi_scale/deploy.py and of fem_model.py 134-185)

Not modelled: timing, printing, VTK output, `plot_results` (which uses an undefined name).
-/
namespace Verif.Fem
open Finset Matrix

variable {nn nq nf nfq : ℕ}

/-- The stress used inside `compute_traction` (fem_model.py 162-175). -/
noncomputable def tractionStress (a : MsArgs) (s : Ms nn nq nf nfq) (dns_info : Option String) : Except MsErr (T33 → T33) :=
  match s.mode with
  | .dns =>
    if dns_info = some "in" then .ok fun g => gradOf (msPsi (a.E_in * 1) (a.nu_in * 1)) (g + 1)
    else .ok fun g => gradOf (msPsi (a.E_out * 1) (a.nu_out * 1)) (g + 1)
  | .nn => .ok fun g => gradOf (nnPsi s.net) (g + 1)
  | .rve => .error .notImplemented

/-- `compute_traction` (fem_model.py 159-185); simplified: an unsupported mode is reported before the faces are selected. -/
noncomputable def Ms.computeTraction (a : MsArgs) (s : Ms nn nq nf nfq) (dns_info : Option String) (loc : Loc 3) (sol : ℕ → Fin 3 → ℝ) : Except (MsErr ⊕ FemErr) (Fin 3 → ℝ) :=
  match tractionStress a s dns_info with
  | .error e => .error (.inl e)
  | .ok P =>
    match s.fem.computeTraction (fun g => P (Matrix.of g)) loc sol with
    | .error e => .error (.inr e)
    | .ok t => .ok t

/-- `bottom`, `top` (deploy.py 68-72); `isclose` with the default relative tolerance. -/
noncomputable def tensileBottom : Loc 3 := fun x => open Classical in decide (|x 2 - 0| ≤ 1e-5 + 1e-5 * |(0 : ℝ)|)
noncomputable def tensileTop (H : ℝ) : Loc 3 := fun x => open Classical in decide (|x 2 - H| ≤ 1e-5 + 1e-5 * |H|)

/-- `dirichlet_bc_info` with the last value function for `rel_disp` (deploy.py 77-85, 102). -/
noncomputable def tensileBc (H rel_disp : ℝ) : List (Loc 3) × List ℕ × List ((Fin 3 → ℝ) → ℝ) :=
  ([tensileBottom, tensileBottom, tensileBottom, tensileTop H, tensileTop H, tensileTop H], [0, 1, 2, 0, 1, 2],
    [fun _ => 0, fun _ => 0, fun _ => 0, fun _ => 0, fun _ => 0, fun _ => rel_disp * H])

/-- `rel_disps = np.linspace(0., 0.1, 11)` (deploy.py 90). -/
noncomputable def relDisps : List ℝ := (List.range 11).map fun k : ℕ => 0 + (0.1 - 0) / 10 * (k : ℝ)

/-- State of the loop: the recorded energies and forces. -/
abbrev TensileRec := List ℝ × List ℝ

/-- One pass of the loop (deploy.py 102-108): energy and vertical force. -/
noncomputable def tensileStep {E S : Type} (H : ℝ) (solve : List (Loc 3) × List ℕ × List ((Fin 3 → ℝ) → ℝ) → Except E S) (energy : S → Except E ℝ) (traction : Loc 3 → S → Except E (Fin 3 → ℝ)) (rel_disp : ℝ) : Except E (ℝ × ℝ) := do
  let sol ← solve (tensileBc H rel_disp)
  let energy ← energy sol
  let traction ← traction (tensileTop H) sol
  pure (energy, traction 2)

/-- The loop of `homogenization_problem` (deploy.py 90-119) around oracles: `solve` for setting the boundary conditions and `solver(problem)`, `energy`, `traction`. The result is `data_to_save`. -/
noncomputable def tensileRun {E S : Type} (H : ℝ) (zero : S) (solve : List (Loc 3) × List ℕ × List ((Fin 3 → ℝ) → ℝ) → Except E S) (energy : S → Except E ℝ) (traction : Loc 3 → S → Except E (Fin 3 → ℝ)) :
    Except E (List ℝ × List ℝ × List ℝ) := do
  let e0 ← energy zero
  let t0 ← traction (tensileTop H) zero
  let r ← relDisps.tail.foldlM (fun (acc : TensileRec) r => do
    let p ← tensileStep H solve energy traction r
    pure (acc.1 ++ [p.1], acc.2 ++ [p.2])) ([e0], [t0 2])
  pure (relDisps, r.1, r.2)

/-! ## The microstructure -/

theorem foldl_or {α : Type*} (l : List α) (f : α → Bool) (b : Bool) : l.foldl (fun inc x => inc || f x) b = (b || l.any f) := by
  induction l generalizing b with
  | nil => simp
  | cons x l ih => simp [ih, Bool.or_assoc]

/-- **C125 (inclusions).** A point is in an inclusion iff it is in the open cube of half side `L ratio` around the centre of some unit; if `ratio ≤ 1/2` there is at most one such unit. -/
theorem C125_inclusion (a : MsArgs) (x : Fin 3 → ℝ) :
    (msInclusion a x = true ↔ ∃ u : Fin 3 → ℕ, (∀ d, u d < a.units d) ∧ ∀ d, |x d - (u d + 1 / 2) * a.L| < a.L * a.ratio) ∧
    (a.ratio ≤ 1 / 2 → ∀ u v : Fin 3 → ℕ, (∀ d, |x d - (u d + 1 / 2) * a.L| < a.L * a.ratio) → (∀ d, |x d - (v d + 1 / 2) * a.L| < a.L * a.ratio) → 0 < a.L → u = v) := by
  constructor
  · unfold msInclusion
    simp only [foldl_or, Bool.false_or, List.any_eq_true, List.mem_range]
    have hh : ∀ i j k : ℕ, msHit a x i j k = true ↔ ∀ d, |x d - ((![i, j, k] : Fin 3 → ℕ) d + 1 / 2) * a.L| < a.L * a.ratio := by
      intro i j k
      have e : msHit a x i j k = true ↔ (|x 0 - ((i : ℝ) + 1 / 2) * a.L| < a.L * a.ratio ∧ |x 1 - ((j : ℝ) + 1 / 2) * a.L| < a.L * a.ratio) ∧ |x 2 - ((k : ℝ) + 1 / 2) * a.L| < a.L * a.ratio := by
        unfold msHit
        simp only [decide_eq_true_eq, max_lt_iff]
        rw [show (0.5 : ℝ) = 1 / 2 by norm_num]
        rfl
      rw [e]
      constructor
      · rintro ⟨⟨h0, h1⟩, h2⟩ d
        fin_cases d
        exacts [h0, h1, h2]
      · intro h
        exact ⟨⟨h 0, h 1⟩, h 2⟩
    constructor
    · rintro ⟨i, hi, j, hj, k, hk, h⟩
      refine ⟨![i, j, k], fun d => ?_, (hh i j k).mp h⟩
      fin_cases d
      exacts [hi, hj, hk]
    · rintro ⟨u, hu, h⟩
      refine ⟨u 0, hu 0, u 1, hu 1, u 2, hu 2, (hh _ _ _).mpr ?_⟩
      have : ![u 0, u 1, u 2] = u := by funext d; fin_cases d <;> rfl
      rw [this]
      exact h
  · intro hr u v hu hv hL
    funext d
    have h1 := abs_lt.mp (hu d)
    have h2 := abs_lt.mp (hv d)
    have hb : a.L * a.ratio ≤ a.L * (1 / 2) := mul_le_mul_of_nonneg_left hr hL.le
    by_contra hne
    rcases Nat.lt_or_gt_of_ne hne with h | h
    · have : (u d : ℝ) + 1 ≤ v d := by exact_mod_cast h
      have := mul_le_mul_of_nonneg_right this hL.le
      nlinarith
    · have : (v d : ℝ) + 1 ≤ u d := by exact_mod_cast h
      have := mul_le_mul_of_nonneg_right this hL.le
      nlinarith

/-- **C125 (moduli on the loaded face).** On all planes between the units and on the outer faces (coordinate an integer multiple of `L`) there is no inclusion if `ratio ≤ 1/2`, so the matrix moduli used by
`compute_traction` are those of the material there; if `ratio > 1/2` the centre of the top of every unit lies in an inclusion and they are not. -/
theorem C125_face_moduli (a : MsArgs) (hL : 0 < a.L) :
    (a.ratio ≤ 1 / 2 → ∀ (x : Fin 3 → ℝ) (d : Fin 3) (k : ℕ), x d = k * a.L → msModuliMap a x = (a.E_out, a.nu_out)) ∧
    (1 / 2 < a.ratio → ∀ u : Fin 3 → ℕ, (∀ d, u d < a.units d) → msModuliMap a ![(u 0 + 1 / 2) * a.L, (u 1 + 1 / 2) * a.L, (u 2 + 1) * a.L] = (a.E_in, a.nu_in)) := by
  constructor
  · intro hr x d k hx
    have : msInclusion a x = false := by
      by_contra h
      obtain ⟨u, -, h⟩ := (C125_inclusion a x).1.mp (by simpa using h)
      have h1 := abs_lt.mp (h d)
      have hb : a.L * a.ratio ≤ a.L * (1 / 2) := mul_le_mul_of_nonneg_left hr hL.le
      rw [hx] at h1
      have l1 : (u d : ℝ) < k := by
        by_contra hc
        have := mul_le_mul_of_nonneg_right (not_lt.mp hc) hL.le
        nlinarith
      have l2 : (k : ℝ) < u d + 1 := by
        by_contra hc
        have := mul_le_mul_of_nonneg_right (not_lt.mp hc) hL.le
        nlinarith
      have l1' : u d < k := by exact_mod_cast l1
      have l2' : k < u d + 1 := by exact_mod_cast l2
      omega
    simp [msModuliMap, this]
  · intro hr u hu
    have : msInclusion a ![(u 0 + 1 / 2) * a.L, (u 1 + 1 / 2) * a.L, (u 2 + 1) * a.L] = true := by
      refine (C125_inclusion a _).1.mpr ⟨u, hu, fun d => ?_⟩
      have hb : a.L * (1 / 2) < a.L * a.ratio := mul_lt_mul_of_pos_left hr hL
      have h0 : 0 < a.L * a.ratio := by nlinarith
      fin_cases d
      · show |((u 0 : ℝ) + 1 / 2) * a.L - ((u 0 : ℝ) + 1 / 2) * a.L| < _
        rw [sub_self, abs_zero]
        exact h0
      · show |((u 1 : ℝ) + 1 / 2) * a.L - ((u 1 : ℝ) + 1 / 2) * a.L| < _
        rw [sub_self, abs_zero]
        exact h0
      · show |((u 2 : ℝ) + 1) * a.L - ((u 2 : ℝ) + 1 / 2) * a.L| < _
        rw [show ((u 2 : ℝ) + 1) * a.L - ((u 2 : ℝ) + 1 / 2) * a.L = a.L * (1 / 2) by ring, abs_of_pos (by positivity)]
        exact hb
    simp only [msModuliMap, this, if_true]

/-! ## Energies -/

theorem msPsi_nonneg (E nu : ℝ) (hE : 0 < E) (h1 : -1 < nu) (h2 : nu < 1 / 2) (F : T33) (hJ : 0 < F.det) : 0 ≤ msPsi E nu F ∧ (msPsi E nu F = 0 ↔ Fᵀ * F = 1) := by
  have hmu : 0 < E / (2 * (1 + nu)) := div_pos hE (by linarith)
  have hka : 0 < E / (3 * (1 - 2 * nu)) := div_pos hE (by linarith)
  have hs := psi_split F hJ
  have hsq := sq_nonneg (F.det - 1)
  have e : msPsi E nu F = E / (2 * (1 + nu)) / 2 * (F.det ^ (-2 / 3 : ℝ) * (Fᵀ * F).trace - 3) + E / (3 * (1 - 2 * nu)) / 2 * (F.det - 1) ^ 2 := rfl
  have t1 : 0 ≤ E / (2 * (1 + nu)) / 2 * (F.det ^ (-2 / 3 : ℝ) * (Fᵀ * F).trace - 3) := mul_nonneg (by positivity) (by linarith)
  have t2 : 0 ≤ E / (3 * (1 - 2 * nu)) / 2 * (F.det - 1) ^ 2 := mul_nonneg (by positivity) hsq
  refine ⟨by rw [e]; linarith, fun h0 => ?_, fun h0 => ?_⟩
  · rw [e] at h0
    have z1 : E / (2 * (1 + nu)) / 2 * (F.det ^ (-2 / 3 : ℝ) * (Fᵀ * F).trace - 3) = 0 := by linarith
    have z2 : E / (3 * (1 - 2 * nu)) / 2 * (F.det - 1) ^ 2 = 0 := by linarith
    have y1 : F.det ^ (-2 / 3 : ℝ) * (Fᵀ * F).trace - 3 = 0 := (mul_eq_zero.mp z1).resolve_left (by positivity)
    have y2 : (F.det - 1) ^ 2 = 0 := (mul_eq_zero.mp z2).resolve_left (by positivity)
    refine (C31_energy F hJ).2.mp ?_
    unfold psi
    simp only
    rw [y1, y2]
    ring
  · have hp := (C31_energy F hJ).2.mpr h0
    have hd : F.det ^ 2 = 1 := by
      have := congrArg Matrix.det h0
      rw [Matrix.det_mul, Matrix.det_transpose, Matrix.det_one] at this
      rw [sq]
      exact this
    have hd1 : F.det = 1 := by
      have : (F.det - 1) * (F.det + 1) = 0 := by ring_nf; rw [hd]; ring
      rcases mul_eq_zero.mp this with h | h
      · linarith
      · linarith
    rw [e, h0, hd1]
    simp

/-- The moduli assigned by `custom_init`. -/
theorem msInit_en (a : MsArgs) (fem : Fem nn nq nf nfq 3 3) (net) (info : Option String) (s : Ms nn nq nf nfq) (hs : msInit a fem net "dns" info = .ok s) :
    s.fem = fem ∧ s.mode = .dns ∧ ∀ p ∈ fem.cells.zipIdx, ∀ q, s.en p.2 q = (a.E_in, a.nu_in) ∨ s.en p.2 q = (a.E_out, a.nu_out) := by
  unfold msInit at hs
  rw [if_neg (by decide), if_pos rfl] at hs
  obtain rfl := Except.ok.inj hs
  refine ⟨rfl, rfl, fun p hp q => ?_⟩
  have hlt : p.2 < fem.cells.length := by
    have := (List.mem_zipIdx hp).2.1
    simpa using this
  have hrow : ∀ x, msModuliMap a x = (a.E_in, a.nu_in) ∨ msModuliMap a x = (a.E_out, a.nu_out) := by
    intro x
    unfold msModuliMap
    cases msInclusion a x <;> simp
  unfold Ms.en msModuli
  simp only
  by_cases h1 : info = some "in"
  · have h2 : info ≠ some "out" := by rw [h1]; decide
    rw [if_pos h1, if_neg h2]
    left
    simp [List.getD_eq_getElem?_getD, Fem.quadPoints, List.getElem?_eq_getElem hlt]
  · by_cases h2 : info = some "out"
    · rw [if_neg h1, if_pos h2]
      right
      simp [List.getD_eq_getElem?_getD, Fem.quadPoints, List.getElem?_eq_getElem hlt]
    · rw [if_neg h1, if_neg h2]
      simp only [List.getD_eq_getElem?_getD, Fem.quadPoints, List.getElem?_map, List.getElem?_eq_getElem hlt, Option.map_some, Option.getD_some]
      exact hrow _

theorem weighted_zero {α : Type*} (l : List α) (f : α × ℕ → Fin nq → ℝ) (w : α → Fin nq → ℝ) (hw : ∀ c ∈ l, ∀ q, 0 < w c q) (hf : ∀ p ∈ l.zipIdx, ∀ q, 0 ≤ f p q) :
    0 ≤ (l.zipIdx.map fun p => ∑ q, f p q * w p.1 q).sum ∧ ((l.zipIdx.map fun p => ∑ q, f p q * w p.1 q).sum = 0 ↔ ∀ p ∈ l.zipIdx, ∀ q, f p q = 0) := by
  have hterm : ∀ p ∈ l.zipIdx, ∀ q ∈ (univ : Finset (Fin nq)), 0 ≤ f p q * w p.1 q := fun p hp q _ => mul_nonneg (hf p hp q) (hw p.1 (zipIdx_mem hp) q).le
  have hnn : ∀ x ∈ l.zipIdx.map (fun p => ∑ q, f p q * w p.1 q), 0 ≤ x := by
    intro x hx
    obtain ⟨p, hp, rfl⟩ := List.mem_map.mp hx
    exact sum_nonneg (hterm p hp)
  refine ⟨List.sum_nonneg hnn, fun h0 p hp q => ?_, fun h0 => ?_⟩
  · have hle := List.single_le_sum hnn _ (List.mem_map.mpr ⟨p, hp, rfl⟩)
    rw [h0] at hle
    have hs0 := (sum_eq_zero_iff_of_nonneg (hterm p hp)).mp (le_antisymm hle (sum_nonneg (hterm p hp))) q (mem_univ q)
    exact (mul_eq_zero.mp hs0).resolve_right (hw p.1 (zipIdx_mem hp) q).ne'
  · refine List.sum_eq_zero fun x hx => ?_
    obtain ⟨p, hp, rfl⟩ := List.mem_map.mp hx
    refine sum_eq_zero fun q _ => ?_
    rw [h0 p hp q, zero_mul]

/-- **C125 (stored energy of the fully resolved material).** With positive Young's moduli and Poisson ratios in `(-1, 1/2)`, the energy of every field without inverted elements is non-negative and zero iff the deformation
gradient is a rotation at every quadrature point. -/
theorem C125_energy (a : MsArgs) (hin : 0 < a.E_in ∧ -1 < a.nu_in ∧ a.nu_in < 1 / 2) (hout : 0 < a.E_out ∧ -1 < a.nu_out ∧ a.nu_out < 1 / 2) (fem : Fem nn nq nf nfq 3 3) (net) (info : Option String)
    (s : Ms nn nq nf nfq) (hs : msInit a fem net "dns" info = .ok s) (hJ : ∀ c ∈ fem.cells, ∀ q, 0 < fem.JxW c q) (sol : ℕ → Fin 3 → ℝ) (hadm : ∀ c ∈ fem.cells, ∀ q, 0 < (1 + Matrix.of (fem.gradAt sol c q) : T33).det) :
    ∃ W, s.computeEnergy sol = .ok W ∧ 0 ≤ W ∧ (W = 0 ↔ ∀ c ∈ fem.cells, ∀ q, (1 + Matrix.of (fem.gradAt sol c q) : T33)ᵀ * (1 + Matrix.of (fem.gradAt sol c q)) = 1) := by
  obtain ⟨hf, hm, hen⟩ := msInit_en a fem net info s hs
  have hpt : ∀ p ∈ fem.cells.zipIdx, ∀ q, 0 ≤ msPsi (s.en p.2 q).1 (s.en p.2 q).2 (1 + Matrix.of (fem.gradAt sol p.1 q)) ∧
      (msPsi (s.en p.2 q).1 (s.en p.2 q).2 (1 + Matrix.of (fem.gradAt sol p.1 q)) = 0 ↔ (1 + Matrix.of (fem.gradAt sol p.1 q) : T33)ᵀ * (1 + Matrix.of (fem.gradAt sol p.1 q)) = 1) := by
    intro p hp q
    have hd := hadm p.1 (zipIdx_mem hp) q
    rcases hen p hp q with h | h
    · rw [h]; exact msPsi_nonneg _ _ hin.1 hin.2.1 hin.2.2 _ hd
    · rw [h]; exact msPsi_nonneg _ _ hout.1 hout.2.1 hout.2.2 _ hd
  have hE : s.computeEnergy sol = .ok (fem.cells.zipIdx.map fun p => ∑ q, msPsi (s.en p.2 q).1 (s.en p.2 q).2 (1 + Matrix.of (fem.gradAt sol p.1 q)) * fem.JxW p.1 q).sum := by
    simp only [Ms.computeEnergy, Ms.energyFn, hm, bind, Except.bind, pure, Except.pure, hf]
    refine congrArg _ (congrArg List.sum (List.map_congr_left fun p _ => sum_congr rfl fun q _ => ?_))
    rw [add_comm (1 : T33)]
    rfl
  refine ⟨_, hE, ?_⟩
  obtain ⟨h1, h2⟩ := weighted_zero fem.cells (fun p q => msPsi (s.en p.2 q).1 (s.en p.2 q).2 (1 + Matrix.of (fem.gradAt sol p.1 q))) (fun c q => fem.JxW c q) hJ fun p hp q => (hpt p hp q).1
  refine ⟨h1, h2.trans ⟨fun h c hc q => ?_, fun h p hp q => (hpt p hp q).2.mpr (h p.1 (zipIdx_mem hp) q)⟩⟩
  obtain ⟨k, hk, hck⟩ := List.getElem_of_mem hc
  have hp : (c, k) ∈ fem.cells.zipIdx := by
    rw [← hck]
    exact List.mem_iff_getElem.mpr ⟨k, by simpa using hk, by simp⟩
  exact (hpt (c, k) hp q).2.mp (h (c, k) hp q)

theorem neoStress_one (mu kappa : ℝ) : neoStress mu kappa 1 = 0 := by
  unfold neoStress
  simp [Matrix.trace_one]

theorem computeTraction_zero (F : Fem nn nq nf nfq 3 3) (P : T33 → T33) (hP : P 0 = 0) (loc : Loc 3) (t : Fin 3 → ℝ) (h : F.computeTraction (fun g => P (Matrix.of g)) loc 0 = .ok t) : t = 0 := by
  unfold Fem.computeTraction Fem.surfaceIntegral at h
  simp only [bind, Except.bind, pure, Except.pure, if_true] at h
  cases hg : F.getFaceShapeGrads (F.selectFaces (F.boundaryInds loc)) with
  | error e => rw [hg] at h; cases h
  | ok g =>
    rw [hg] at h
    simp only [Except.ok.injEq] at h
    rw [← h]
    funext i
    refine List.sum_eq_zero fun x hx => ?_
    obtain ⟨p, hp, rfl⟩ := List.mem_map.mp hx
    refine sum_eq_zero fun q _ => ?_
    obtain ⟨hp1, -⟩ := List.of_mem_zip hp
    obtain ⟨u, hu, hpu⟩ := List.mem_map.mp hp1
    obtain ⟨w, -, hw⟩ := List.mem_map.mp hu
    have hz : u q = 0 := by
      rw [← hw]
      funext i d
      simp
    rw [← hpu]
    simp only
    rw [hz]
    have : P (Matrix.of (0 : Fin 3 → Fin 3 → ℝ)) = 0 := hP
    rw [this]
    simp

/-- **C125 (first record).** For the fully resolved material the record at zero displacement is energy zero and force zero, whatever the mesh. -/
theorem C125_rest (a : MsArgs) (fem : Fem nn nq nf nfq 3 3) (net) (info : Option String) (s : Ms nn nq nf nfq) (hs : msInit a fem net "dns" info = .ok s) (loc : Loc 3) :
    s.computeEnergy 0 = .ok 0 ∧ ∀ t, s.computeTraction a info loc 0 = .ok t → t = 0 := by
  obtain ⟨hf, hm, -⟩ := msInit_en a fem net info s hs
  constructor
  · simp only [Ms.computeEnergy, Ms.energyFn, hm, bind, Except.bind, pure, Except.pure]
    congr 1
    refine List.sum_eq_zero fun x hx => ?_
    obtain ⟨p, hp, rfl⟩ := List.mem_map.mp hx
    refine sum_eq_zero fun q _ => ?_
    have : (Matrix.of (fun i d => ∑ n, (0 : ℕ → Fin 3 → ℝ) (p.1 n) i * s.fem.shapeGrad p.1 q n d) + 1 : T33) = 1 := by
      ext i j
      simp
    rw [this]
    simp [msPsi]
  · intro t ht
    have hst : ∀ E nu : ℝ, gradOf (msPsi E nu) (0 + 1) = 0 := by
      intro E nu
      rw [zero_add, (msPsi_grad E nu 1 (by simp)).eq, neoStress_one]
    unfold Ms.computeTraction tractionStress at ht
    rw [hm] at ht
    by_cases h1 : info = some "in"
    · simp only [h1, if_true] at ht
      cases hc : s.fem.computeTraction (fun g => gradOf (msPsi (a.E_in * 1) (a.nu_in * 1)) (Matrix.of g + 1)) loc 0 with
      | error e => rw [hc] at ht; cases ht
      | ok t' =>
        rw [hc] at ht
        obtain rfl := Except.ok.inj ht
        exact computeTraction_zero s.fem (fun g => gradOf (msPsi (a.E_in * 1) (a.nu_in * 1)) (g + 1)) (hst _ _) loc t' hc
    · simp only [h1, if_false] at ht
      cases hc : s.fem.computeTraction (fun g => gradOf (msPsi (a.E_out * 1) (a.nu_out * 1)) (Matrix.of g + 1)) loc 0 with
      | error e => rw [hc] at ht; cases ht
      | ok t' =>
        rw [hc] at ht
        obtain rfl := Except.ok.inj ht
        exact computeTraction_zero s.fem (fun g => gradOf (msPsi (a.E_out * 1) (a.nu_out * 1)) (g + 1)) (hst _ _) loc t' hc

/-- **C125 (force of a homogeneous state).** On the top of the box, for every affine displacement `x ↦ A x + b` and every mode with a traction, the result is the third column of the stress at `I + A` times the area of the
top; in mode `rve` the function raises. -/
theorem C125_traction (a : MsArgs) (s : Ms 8 nq 6 nfq) (info : Option String) (N : Fin 3 → ℕ) (L : Fin 3 → ℝ) (h : OnBox s.fem N L) (hN : ∀ b, 0 < N b) (hL : ∀ b, 0 < L b) (rule : QuadRule nfq)
    (ht : FaceTables s.fem hex8 rule) (hw : ∑ q, rule.w q = 1) (loc : Loc 3) (hloc : ∀ m : Fin 3 → ℕ, (∀ b, m b ≤ N b) → (loc (s.fem.points (gridNode N m)) = true ↔ m 2 = N 2))
    (A : T33) (b : Fin 3 → ℝ) (sol : ℕ → Fin 3 → ℝ) (hsol : ∀ c ∈ s.fem.cells, ∀ n i, sol (c n) i = ∑ d, A i d * s.fem.points (c n) d + b i) :
    (∀ P, tractionStress a s info = .ok P → s.computeTraction a info loc sol = .ok fun i => P A i 2 * (L 0 * L 1)) ∧ (s.mode = .rve → s.computeTraction a info loc sol = .error (.inl .notImplemented)) := by
  constructor
  · intro P hP
    unfold Ms.computeTraction
    rw [hP]
    simp only
    rw [C83_box_traction s.fem N L h hN hL rule ht hw loc 2 (N 2) (Or.inr rfl) hloc (fun g => P (Matrix.of g)) A b sol hsol]
    simp only
    congr 1
    funext i
    rw [show (univ.erase 2 : Finset (Fin 3)) = {0, 1} by decide, prod_pair (by decide)]
    rfl
  · intro hm
    unfold Ms.computeTraction tractionStress
    rw [hm]

/-- **C125 (reaction).** In every mode, at every field whose residual vanishes away from the clamped faces: along every family of fields that keeps the bottom fixed and moves the top upwards with unit speed, however the
rest of the body moves, the energy grows at the rate of the sum of the vertical residuals on the top, the reaction force; and the reactions of top and bottom add up to zero. -/
theorem C125_reaction (s : Ms nn nq nf nfq) (hs : s.Unloaded) (F : Fem nn nq nf nfq 3 3) (hF : s.asFem = .ok F) (sol R : ℕ → Fin 3 → ℝ) (hR : F.computeResidual sol = .ok R) (hadm : s.Admissible sol)
    (hsum : ∀ q d, ∑ n, s.fem.shapeGradsRef q n d = 0) (top bottom : ℕ → Prop) [DecidablePred top] [DecidablePred bottom] (hdis : ∀ n, ¬ (top n ∧ bottom n))
    (heq : ∀ n < s.fem.numTotal, ¬ top n → ¬ bottom n → R n = 0) :
    ∃ W : (ℕ → Fin 3 → ℝ) → ℝ, (∀ u, s.computeEnergy u = .ok (W u)) ∧
      (∀ v : ℕ → Fin 3 → ℝ, (∀ n, bottom n → v n = 0) → (∀ n, top n → v n = ![0, 0, 1]) → HasDerivAt (fun t : ℝ => W (sol + t • v)) (∑ n ∈ (range s.fem.numTotal).filter top, R n 2) 0) ∧
      ∑ n ∈ (range s.fem.numTotal).filter top, R n 2 + ∑ n ∈ (range s.fem.numTotal).filter bottom, R n 2 = 0 := by
  obtain ⟨W, hW, hd⟩ := C120_gradient s hs F hF sol R hR hadm
  refine ⟨W, hW, fun v hb ht => ?_, ?_⟩
  · have e : ∑ n ∈ range s.fem.numTotal, ∑ i, R n i * v n i = ∑ n ∈ (range s.fem.numTotal).filter top, R n 2 := by
      rw [sum_filter]
      refine sum_congr rfl fun n hn => ?_
      by_cases h1 : top n
      · rw [if_pos h1, ht n h1, Fin.sum_univ_three]
        simp
      · rw [if_neg h1]
        by_cases h2 : bottom n
        · rw [hb n h2]; simp
        · rw [heq n (mem_range.mp hn) h1 h2]; simp
    rw [← e]
    exact hd v
  · have hw := s.work hs F hF sol R hR fun _ => ![0, 0, 1]
    have hz : ∀ c q i d, F.gradAt (fun _ => ![0, 0, 1]) c q i d = 0 := by
      intro c q i d
      obtain ⟨_, _, _, _, _, tm, lr, hFe⟩ := s.density F hF
      have : F.gradAt (fun _ => ![0, 0, 1]) c q i d = s.fem.gradAt (fun _ => ![0, 0, 1]) c q i d := by rw [hFe]; rfl
      rw [this]
      unfold Fem.gradAt Fem.shapeGrad
      rw [← mul_sum, sum_comm]
      simp only [← sum_mul, hsum, zero_mul, sum_const_zero, mul_zero]
    simp only [hz, mul_zero, sum_const_zero, zero_mul, List.map_const', List.sum_replicate, smul_zero] at hw
    rw [sum_filter, sum_filter, ← sum_add_distrib]
    refine Eq.trans (sum_congr rfl fun n hn => ?_) hw
    rw [Fin.sum_univ_three]
    show _ = R n 0 * 0 + R n 1 * 0 + R n 2 * 1
    by_cases h1 : top n
    · have h2 : ¬ bottom n := fun h2 => hdis n ⟨h1, h2⟩
      simp [h1, h2]
    · by_cases h2 : bottom n
      · simp [h1, h2]
      · rw [heq n (mem_range.mp hn) h1 h2]
        simp [h1, h2]

/-! ## The run -/

theorem foldlM_rows {E S : Type} (f : ℝ → Except E (ℝ × ℝ)) (l : List ℝ) (acc out : TensileRec) (h : l.foldlM (fun (acc : TensileRec) r => do let p ← f r; pure (acc.1 ++ [p.1], acc.2 ++ [p.2])) acc = .ok out) :
    ∃ ps : List (ℝ × ℝ), l.mapM f = .ok ps ∧ out = (acc.1 ++ ps.map (·.1), acc.2 ++ ps.map (·.2)) := by
  induction l generalizing acc with
  | nil =>
    have : acc = out := Except.ok.inj h
    exact ⟨[], rfl, by rw [← this]; simp⟩
  | cons r l ih =>
    rw [List.foldlM_cons] at h
    cases hf : f r with
    | error e => simp only [hf, bind, Except.bind] at h; cases h
    | ok p =>
      simp only [hf, bind, Except.bind, pure, Except.pure] at h
      obtain ⟨ps, h1, h2⟩ := ih _ h
      refine ⟨p :: ps, ?_, ?_⟩
      · rw [List.mapM_cons, hf, h1]
        rfl
      · rw [h2]
        simp

theorem mapM_ok_getElem {E A B : Type} (f : A → Except E B) (l : List A) (ps : List B) (h : l.mapM f = .ok ps) : ps.length = l.length ∧ ∀ k (hk : k < l.length) (hk' : k < ps.length), f l[k] = .ok ps[k] := by
  induction l generalizing ps with
  | nil =>
    have : [] = ps := Except.ok.inj h
    subst this
    exact ⟨rfl, fun k hk => absurd hk (by simp)⟩
  | cons a l ih =>
    rw [List.mapM_cons] at h
    cases hf : f a with
    | error e => simp only [hf, bind, Except.bind] at h; cases h
    | ok b =>
      cases hl : l.mapM f with
      | error e => simp only [hf, hl, bind, Except.bind] at h; cases h
      | ok bs =>
        simp only [hf, hl, bind, Except.bind, pure, Except.pure, Except.ok.injEq] at h
        subst h
        obtain ⟨i1, i2⟩ := ih bs hl
        refine ⟨by simp [i1], fun k hk hk' => ?_⟩
        cases k with
        | zero => exact hf
        | succ k => simpa using i2 k (by simpa using hk) (by simpa using hk')

/-- **C125 (records).** A run that ends has three rows of eleven numbers. Record 0 belongs to the zero field; record `k ≥ 1` belongs to the field the solver returns for the boundary conditions with the top moved by
`k/100` of the height, and holds its energy and the vertical component of its traction on the top. No record depends on an earlier one. -/
theorem C125_run {E S : Type} (H : ℝ) (zero : S) (solve : List (Loc 3) × List ℕ × List ((Fin 3 → ℝ) → ℝ) → Except E S) (energy : S → Except E ℝ) (traction : Loc 3 → S → Except E (Fin 3 → ℝ)) (rows : List ℝ × List ℝ × List ℝ)
    (h : tensileRun H zero solve energy traction = .ok rows) :
    rows.1.length = 11 ∧ rows.2.1.length = 11 ∧ rows.2.2.length = 11 ∧ ∀ k : ℕ, k < 11 → rows.1.getD k 0 = k / 100 ∧
      ∃ sol t, (if k = 0 then sol = zero else solve (tensileBc H (k / 100)) = .ok sol) ∧ energy sol = .ok (rows.2.1.getD k 0) ∧ traction (tensileTop H) sol = .ok t ∧ rows.2.2.getD k 0 = t 2 := by
  unfold tensileRun at h
  cases he : energy zero with
  | error e => simp only [he, bind, Except.bind] at h; cases h
  | ok e0 =>
    cases ht : traction (tensileTop H) zero with
    | error e => simp only [he, ht, bind, Except.bind] at h; cases h
    | ok t0 =>
      rw [he, ht] at h
      cases hl : relDisps.tail.foldlM (fun (acc : TensileRec) r => do
          let p ← tensileStep H solve energy traction r
          pure (acc.1 ++ [p.1], acc.2 ++ [p.2])) ([e0], [t0 2]) with
      | error e =>
        have h' : (do let r ← (Except.error e : Except E TensileRec); pure (relDisps, r.1, r.2)) = Except.ok rows := by rw [← hl]; exact h
        cases h'
      | ok out =>
        have h' : (do let r ← (Except.ok out : Except E TensileRec); pure (relDisps, r.1, r.2)) = Except.ok rows := by rw [← hl]; exact h
        obtain rfl := Except.ok.inj h'
        set f := tensileStep H solve energy traction with hfdef
        obtain ⟨ps, hps, rfl⟩ := foldlM_rows (S := S) f _ _ _ hl
        obtain ⟨hlen, hget⟩ := mapM_ok_getElem f _ _ hps
        have h11 : relDisps.length = 11 := by simp [relDisps]
        have h10 : relDisps.tail.length = 10 := by rw [List.length_tail, h11]
        have hrel : ∀ k : ℕ, (hk : k < 11) → relDisps[k]'(by rw [h11]; exact hk) = k / 100 := by
          intro k hk
          have e : relDisps[k]'(by rw [h11]; exact hk) = 0 + (0.1 - 0) / 10 * (k : ℝ) := by
            unfold relDisps
            rw [List.getElem_map, List.getElem_range]
          rw [e]
          ring
        refine ⟨h11, by simp [hlen, h10], by simp [hlen, h10], fun k hk => ⟨?_, ?_⟩⟩
        · rw [List.getD_eq_getElem?_getD, List.getElem?_eq_getElem (by rw [h11]; exact hk), Option.getD_some, hrel k hk]
        · cases k with
          | zero => exact ⟨zero, t0, by simp, by simpa using he, ht, by simp⟩
          | succ k =>
            have hk1 : k < relDisps.tail.length := by rw [h10]; omega
            have hk2 : k < ps.length := by rw [hlen, h10]; omega
            have hg := hget k hk1 hk2
            have htail : relDisps.tail[k] = ((k + 1 : ℕ) : ℝ) / 100 := by rw [List.getElem_tail, hrel (k + 1) hk]
            rw [htail] at hg
            simp only [hfdef, tensileStep, bind, Except.bind, pure, Except.pure] at hg
            cases hs : solve (tensileBc H (((k + 1 : ℕ) : ℝ) / 100)) with
            | error e => rw [hs] at hg; cases hg
            | ok v =>
              rw [hs] at hg
              dsimp only at hg
              cases hev : energy v with
              | error e => rw [hev] at hg; cases hg
              | ok e =>
                rw [hev] at hg
                dsimp only at hg
                cases htv : traction (tensileTop H) v with
                | error e => rw [htv] at hg; cases hg
                | ok t =>
                  rw [htv] at hg
                  have hpk := Except.ok.inj hg
                  refine ⟨v, t, by simp, ?_, htv, ?_⟩
                  · simp [hev, List.getElem?_eq_getElem hk2, ← hpk]
                  · simp [List.getElem?_eq_getElem hk2, ← hpk]

/-- **C125 (conditions).** The conditions of the tensile test hold for a displacement field exactly if it is zero on the bottom and the vertical shift `rel_disp * H` on the top: all three components on both ends. -/
theorem C125_held (H rel_disp : ℝ) (u : (Fin 3 → ℝ) → ℕ → ℝ) :
    (∀ e ∈ (tensileBc H rel_disp).1.zip ((tensileBc H rel_disp).2.1.zip (tensileBc H rel_disp).2.2), ∀ x, e.1 x = true → u x e.2.1 = e.2.2 x) ↔
      (∀ x : Fin 3 → ℝ, |x 2| ≤ 1e-5 → u x 0 = 0 ∧ u x 1 = 0 ∧ u x 2 = 0) ∧ (∀ x : Fin 3 → ℝ, |x 2 - H| ≤ 1e-5 + 1e-5 * |H| → u x 0 = 0 ∧ u x 1 = 0 ∧ u x 2 = rel_disp * H) := by
  have hb : ∀ x : Fin 3 → ℝ, tensileBottom x = true ↔ |x 2| ≤ 1e-5 := by
    intro x
    simp [tensileBottom]
  have ht : ∀ x : Fin 3 → ℝ, tensileTop H x = true ↔ |x 2 - H| ≤ 1e-5 + 1e-5 * |H| := by
    intro x
    simp [tensileTop]
  simp only [tensileBc, List.zip_cons_cons, List.zip_nil_right, List.forall_mem_cons, List.not_mem_nil, false_imp_iff, implies_true, and_true, hb, ht]
  constructor
  · rintro ⟨h0, h1, h2, h3, h4, h5⟩
    exact ⟨fun x hx => ⟨h0 x hx, h1 x hx, h2 x hx⟩, fun x hx => ⟨h3 x hx, h4 x hx, h5 x hx⟩⟩
  · rintro ⟨h0, h1⟩
    exact ⟨fun x hx => (h0 x hx).1, fun x hx => (h0 x hx).2.1, fun x hx => (h0 x hx).2.2, fun x hx => (h1 x hx).1, fun x hx => (h1 x hx).2.1, fun x hx => (h1 x hx).2.2⟩

/-! ## Examples -/

/-- A field with these values, for a body of height 10 and 5 %: the upper half is moved by 1/2. -/
example : ∀ e ∈ (tensileBc 10 0.05).1.zip ((tensileBc 10 0.05).2.1.zip (tensileBc 10 0.05).2.2), ∀ x : Fin 3 → ℝ, e.1 x = true → (if e.2.1 = 2 ∧ 5 < x 2 then (1 / 2 : ℝ) else 0) = e.2.2 x := by
  refine (C125_held 10 0.05 fun x c => if c = 2 ∧ 5 < x 2 then (1 / 2 : ℝ) else 0).mpr ⟨fun x hx => ?_, fun x hx => ?_⟩
  · have : ¬ 5 < x 2 := by have := abs_le.mp hx; norm_num at this; linarith [this.2]
    simp [this]
  · have : 5 < x 2 := by
      have := abs_le.mp hx
      rw [abs_of_pos (by norm_num : (0 : ℝ) < 10)] at this
      norm_num at this
      linarith [this.1]
    norm_num [this]

/-- One unit of side 1 and `ratio = 0.3`: the centre is in the inclusion, the centre of the top is not. -/
example : msModuliMap ⟨1, fun _ => 1, 1000, 100, 0.3, 0.4, 0.3⟩ (fun _ => 1 / 2) = (1000, 0.3) ∧ msModuliMap ⟨1, fun _ => 1, 1000, 100, 0.3, 0.4, 0.3⟩ ![1 / 2, 1 / 2, 1] = (100, 0.4) := by
  constructor
  · have : msInclusion ⟨1, fun _ => 1, 1000, 100, 0.3, 0.4, 0.3⟩ (fun _ => 1 / 2) = true :=
      (C125_inclusion _ _).1.mpr ⟨fun _ => 0, fun _ => Nat.one_pos, fun _ => by norm_num⟩
    simp only [msModuliMap, this, if_true]
  · exact (C125_face_moduli ⟨1, fun _ => 1, 1000, 100, 0.3, 0.4, 0.3⟩ one_pos).1 (by norm_num) _ 2 1 (by simp)

/-- A run that ends: the solver returns the displacement of the top, the energy is its square, the force its double. -/
example : ∃ rows, tensileRun (E := Unit) (S := ℝ) 10 0 (fun bc => .ok ((bc.2.2.getLastD fun _ => 0) 0)) (fun x => .ok (x ^ 2)) (fun _ x => .ok fun _ => 2 * x) = .ok rows ∧ rows.2.1.getD 10 0 = 1 := by
  have hok : ∀ (l : List ℝ) (acc : TensileRec), ∃ out, l.foldlM (fun (acc : TensileRec) r => do
      let p ← tensileStep (E := Unit) (S := ℝ) 10 (fun bc => .ok ((bc.2.2.getLastD fun _ => 0) 0)) (fun x => .ok (x ^ 2)) (fun _ x => .ok fun _ => 2 * x) r
      pure (acc.1 ++ [p.1], acc.2 ++ [p.2])) acc = .ok out := by
    intro l
    induction l with
    | nil => intro acc; exact ⟨acc, rfl⟩
    | cons r l ih => intro acc; rw [List.foldlM_cons]; exact ih _
  obtain ⟨out, hout⟩ := hok relDisps.tail ([0 ^ 2], [2 * 0])
  have hr : tensileRun (E := Unit) (S := ℝ) 10 0 (fun bc => .ok ((bc.2.2.getLastD fun _ => 0) 0)) (fun x => .ok (x ^ 2)) (fun _ x => .ok fun _ => 2 * x) = .ok (relDisps, out.1, out.2) := by
    exact congrArg (fun x : Except Unit TensileRec => x.bind fun r => Except.ok (relDisps, r.1, r.2)) hout
  refine ⟨_, hr, ?_⟩
  obtain ⟨-, sol, t, h1, h2, -⟩ := (C125_run 10 _ _ _ _ _ hr).2.2.2 10 (by norm_num)
  rw [if_neg (by norm_num)] at h1
  have e1 : sol = ((10 : ℕ) : ℝ) / 100 * 10 := (Except.ok.inj h1).symm
  have e2 := Except.ok.inj h2
  rw [← e2, e1]
  norm_num

end Verif.Fem
