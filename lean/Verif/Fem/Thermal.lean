import Verif.Fem.FractureLoopProps
import Verif.Fem.ActiveBox

/-!
# The heat problem of the deposition examples (model of applications/fem/thermal/models.py 11-68, bare_plate.py, thin_wall.py)

`Thermal` overrides the selection of the boundary faces: it works on the external faces found by `hash_map_for_faces` (C99). The equation is one implicit Euler step of the heat equation; boundary fluxes are
evaluated with the old temperature.
-/
namespace Verif.Fem
open Finset

variable {nn nq nf nfq : ℕ}

/-- A boundary value function `(point, old_T) -> flux`. -/
abbrev FluxFn := (Fin 3 → ℝ) → (Fin 1 → ℝ) → Fin 1 → ℝ

/-- `Thermal` (models.py 11-35): `15*grad T`, mass and body map `rho*Cp*T/dt`, old temperature as `internal_vars['body']`. The Neumann part is separate (`thermalNeumann`). -/
noncomputable def thermalFem (F : Fem nn nq nf nfq 3 1) (rho Cp dt : ℝ) (old : ℕ → Fin 1 → ℝ) : Fem nn nq nf nfq 3 1 :=
  { F with
    tensorMap := some fun _ _ u_grad i d => 15 * u_grad i d
    massMap := some fun _ _ T i => rho * Cp * T i / dt
    lapRows := none
    massRows := none
    source := none
    bodyVar := some (old, fun T i => rho * Cp * T i / dt)
    neumann := none
    cauchy := none }

/-- `external_cell_face_points`, one face (models.py 44-46). -/
def facePointsOf (F : Fem nn nq nf nfq 3 1) (p : ℕ × Fin nf) : List (Fin 3 → ℝ) := (F.faceInds p.2).map fun v => F.points ((F.cells.getD p.1 fun _ => 0) v)

/-- `top` (models.py 48-52): all corners within `1e-5` of the height of the first one, and that height positive. -/
def isTop (X : List (Fin 3 → ℝ)) : Prop := (∀ x ∈ X, |x 2 - (X.getD 0 0) 2| ≤ 1e-5) ∧ 0 < (X.getD 0 0) 2

open Classical in
/-- `update_Neumann_boundary_inds` (models.py 43-68): the first set is every external face, each further one the faces accepted by `top`. -/
noncomputable def thermalInds (F : Fem nn nq nf nfq 3 1) (ext : List (ℕ × Fin nf)) (numFns : ℕ) : List (List (ℕ × Fin nf)) :=
  (List.range numFns).map fun i => if i = 0 then ext else ext.filter fun p => isTop (facePointsOf F p)

/-- `update_int_vars` (models.py 37-41): the old temperature on the faces of sets 0 and 1, whether or not there is a set 1. -/
def thermalIntVars (F : Fem nn nq nf nfq 3 1) (inds : List (List (ℕ × Fin nf))) (old : ℕ → Fin 1 → ℝ) : Except FemErr (List (List (Fin nfq → Fin 1 → ℝ))) :=
  match inds[0]?, inds[1]? with
  | some I0, some I1 => .ok [F.convertNeumannFromDof old I0, F.convertNeumannFromDof old I1]
  | _, _ => .error .index

/-- `compute_Neumann_integral_vars` (core.py 388-428) on given boundary sets and internal variables. -/
noncomputable def thermalNeumann (F : Fem nn nq nf nfq 3 1) (inds : List (List (ℕ × Fin nf))) (vars : List (List (Fin nfq → Fin 1 → ℝ))) (fns : List FluxFn) : Except FemErr (ℕ → Fin 1 → ℝ) :=
  inds.zipIdx.foldlM (fun integral p =>
    match vars[p.2]?, fns[p.2]? with
    | some v, some g => F.neumannPart p.1 (fun k q x => g x ((v.getD k 0) q)) integral
    | _, _ => .error .index) 0

/-- The residual of a `Thermal` object at `sol`: `custom_init` (models.py 12-19) and `compute_residual` (core.py 803-810, 850-851). -/
noncomputable def thermalResidual (F : Fem nn nq nf nfq 3 1) (rho Cp dt : ℝ) (ext : List (ℕ × Fin nf)) (fns : List FluxFn) (old sol : ℕ → Fin 1 → ℝ) : Except FemErr (ℕ → Fin 1 → ℝ) := do
  let inds := thermalInds F ext fns.length
  let vars ← thermalIntVars F inds old
  let R ← (thermalFem F rho Cp dt old).computeResidual sol
  let neu ← thermalNeumann F inds vars fns
  pure (R - neu)

/-! ## Specification of the boundary fluxes -/

/-- `∫ g v` over the given faces, the flux evaluated with the temperature `old`. -/
noncomputable def fluxWork (F : Fem nn nq nf nfq 3 1) (I : List (ℕ × Fin nf)) (g : FluxFn) (old v : ℕ → Fin 1 → ℝ) : ℝ :=
  ((F.selectFaces I).map fun s => ∑ q, g (F.xFace s q) (F.uFace old s q) 0 * F.uFace v s q 0 * F.nansonScale s.1 s.2 q).sum

/-- `∫ g` over the given faces: the power entering through them. -/
noncomputable def fluxPower (F : Fem nn nq nf nfq 3 1) (I : List (ℕ × Fin nf)) (g : FluxFn) (old : ℕ → Fin 1 → ℝ) : ℝ :=
  ((F.selectFaces I).map fun s => ∑ q, g (F.xFace s q) (F.uFace old s q) 0 * F.nansonScale s.1 s.2 q).sum

/-- `∫ c w` over the mesh. -/
noncomputable def heatOf (F : Fem nn nq nf nfq 3 1) (w : (Fin nn → ℕ) → Fin nq → ℝ) : ℝ := (F.cells.map fun c => ∑ q, w c q * F.JxW c q).sum

/-! ## Lemmas -/

theorem neumannPart_nodal (F : Fem nn nq nf nfq 3 1) (I : List (ℕ × Fin nf)) (g : FluxFn) (old x y : ℕ → Fin 1 → ℝ)
    (h : F.neumannPart I (fun k q z => g z (((F.convertNeumannFromDof old I).getD k 0) q)) x = .ok y) (n : ℕ) :
    y n 0 = x n 0 + ((F.selectFaces I).map fun s => nodal n s.1 fun a => ∑ q, F.faceShapeVals s.2 q a * g (F.xFace s q) (F.uFace old s q) 0 * F.nansonScale s.1 s.2 q).sum := by
  unfold Fem.neumannPart at h
  dsimp only at h
  cases hg : F.getFaceShapeGrads (F.selectFaces I) with
  | error e => rw [hg] at h; cases h
  | ok gr =>
    obtain ⟨h1, rfl⟩ := (getFaceShapeGrads_ok_iff F _ _).mp hg
    rw [hg] at h
    injection h with h
    rw [← h]
    have hlist : (((F.selectFaces I).zip (((F.surfaceQuadPoints (F.selectFaces I)).zipIdx.map fun p => fun q => g (p.1 q) (((F.convertNeumannFromDof old I).getD p.2 0) q)).zip
        ((F.selectFaces I).map fun p => F.nansonScale p.1 p.2))).map fun p => fun (n : Fin nn) (i : Fin 1) =>
          ∑ q, F.faceShapeVals p.1.2 q n * p.2.1 q i * p.2.2 q) = (F.selectFaces I).map fun s => fun (n : Fin nn) (i : Fin 1) =>
          ∑ q, F.faceShapeVals s.2 q n * g (F.xFace s q) (F.uFace old s q) i * F.nansonScale s.1 s.2 q := by
      refine List.ext_getElem (by simp [Fem.surfaceQuadPoints]) fun k h1 h2 => ?_
      have hk : k < (F.selectFaces I).length := by simpa using h2
      have hc : (F.convertNeumannFromDof old I).getD k 0 = F.uFace old (F.selectFaces I)[k] := by
        unfold Fem.convertNeumannFromDof
        rw [List.getD_eq_getElem?_getD, List.getElem?_map, List.getElem?_eq_getElem hk]
        rfl
      simp only [Fem.surfaceQuadPoints, List.getElem_map, List.getElem_zip, List.getElem_zipIdx, Nat.zero_add, hc]
      rfl
    rw [hlist, scatter_rows _ _ _ (by simp)]
    congr 1
    rw [List.zip_map', List.map_map]
    refine sum_map_congr fun s _ => ?_
    exact nodal_eq n s.1 _

/-- The nodal vector of one boundary set. -/
noncomputable def fluxNodal (F : Fem nn nq nf nfq 3 1) (I : List (ℕ × Fin nf)) (g : FluxFn) (old : ℕ → Fin 1 → ℝ) (n : ℕ) : ℝ :=
  ((F.selectFaces I).map fun s => nodal n s.1 fun a => ∑ q, F.faceShapeVals s.2 q a * g (F.xFace s q) (F.uFace old s q) 0 * F.nansonScale s.1 s.2 q).sum

open Classical in
/-- The set of faces for the second function. -/
noncomputable def topFaces (F : Fem nn nq nf nfq 3 1) (ext : List (ℕ × Fin nf)) : List (ℕ × Fin nf) := ext.filter fun p => isTop (facePointsOf F p)

theorem thermalInds_two (F : Fem nn nq nf nfq 3 1) (ext : List (ℕ × Fin nf)) : thermalInds F ext 2 = [ext, topFaces F ext] := rfl

/-- **C100 (number of boundary functions).** A `Thermal` object can be built and evaluated only with exactly two boundary functions: with fewer, `custom_init` raises (this is the laser-off case of
thin_wall.py, line 79), with more, the evaluation does. -/
theorem C100_two (F : Fem nn nq nf nfq 3 1) (rho Cp dt : ℝ) (ext : List (ℕ × Fin nf)) (fns : List FluxFn) (old : ℕ → Fin 1 → ℝ) :
    (fns.length < 2 → thermalIntVars F (thermalInds F ext fns.length) old = .error .index) ∧ ∀ sol R, thermalResidual F rho Cp dt ext fns old sol = .ok R → fns.length = 2 := by
  have hlen : (thermalInds F ext fns.length).length = fns.length := by simp [thermalInds]
  constructor
  · intro h
    unfold thermalIntVars
    have : (thermalInds F ext fns.length)[1]? = none := List.getElem?_eq_none (by omega)
    rw [this]
    cases (thermalInds F ext fns.length)[0]? <;> rfl
  · intro sol R h
    unfold thermalResidual at h
    dsimp only [bind, Except.bind, pure, Except.pure] at h
    cases hv : thermalIntVars F (thermalInds F ext fns.length) old with
    | error e => rw [hv] at h; cases h
    | ok vars =>
      rw [hv] at h
      dsimp only at h
      have h2 : 2 ≤ fns.length := by
        by_contra hlt
        unfold thermalIntVars at hv
        have : (thermalInds F ext fns.length)[1]? = none := List.getElem?_eq_none (by omega)
        rw [this] at hv
        cases h0 : (thermalInds F ext fns.length)[0]? <;> rw [h0] at hv <;> cases hv
      have hvl : vars.length = 2 := by
        unfold thermalIntVars at hv
        split at hv
        · injection hv with hv
          rw [← hv]
          rfl
        · cases hv
      cases hr : (thermalFem F rho Cp dt old).computeResidual sol with
      | error e => rw [hr] at h; cases h
      | ok R0 =>
        rw [hr] at h
        dsimp only at h
        cases hn : thermalNeumann F (thermalInds F ext fns.length) vars fns with
        | error e => rw [hn] at h; cases h
        | ok neu =>
          by_contra hne
          unfold thermalNeumann at hn
          obtain ⟨a, b, c, rest, hl⟩ : ∃ a b c rest, thermalInds F ext fns.length = a :: b :: c :: rest := by
            match hm : thermalInds F ext fns.length with
            | a :: b :: c :: rest => exact ⟨a, b, c, rest, rfl⟩
            | [] => rw [hm] at hlen; simp at hlen; omega
            | [_] => rw [hm] at hlen; simp at hlen; omega
            | [_, _] => rw [hm] at hlen; simp at hlen; omega
          rw [hl] at hn
          simp only [List.zipIdx_cons, List.foldlM_cons, Nat.zero_add] at hn
          have hv2 : vars[1 + 1]? = none := List.getElem?_eq_none (by omega)
          simp only [hv2] at hn
          dsimp only [bind, Except.bind] at hn
          split at hn
          · cases hn
          split at hn
          · cases hn
          · cases hn

theorem thermalResidual_ok (F : Fem nn nq nf nfq 3 1) (rho Cp dt : ℝ) (ext : List (ℕ × Fin nf)) (g0 g1 : FluxFn) (old sol R : ℕ → Fin 1 → ℝ)
    (h : thermalResidual F rho Cp dt ext [g0, g1] old sol = .ok R) :
    ∃ R0, (thermalFem F rho Cp dt old).computeResidual sol = .ok R0 ∧ ∀ n, R n 0 = R0 n 0 - fluxNodal F ext g0 old n - fluxNodal F (topFaces F ext) g1 old n := by
  unfold thermalResidual at h
  dsimp only [bind, Except.bind, pure, Except.pure, List.length_cons, List.length_nil] at h
  rw [show thermalInds F ext (0 + 1 + 1) = [ext, topFaces F ext] from rfl] at h
  rw [show thermalIntVars F [ext, topFaces F ext] old = .ok [F.convertNeumannFromDof old ext, F.convertNeumannFromDof old (topFaces F ext)] from rfl] at h
  dsimp only at h
  cases hr : (thermalFem F rho Cp dt old).computeResidual sol with
  | error e => rw [hr] at h; cases h
  | ok R0 =>
    rw [hr] at h
    dsimp only at h
    refine ⟨R0, rfl, fun n => ?_⟩
    cases hn : thermalNeumann F [ext, topFaces F ext] [F.convertNeumannFromDof old ext, F.convertNeumannFromDof old (topFaces F ext)] [g0, g1] with
    | error e => rw [hn] at h; cases h
    | ok neu =>
      rw [hn] at h
      injection h with h
      rw [← h]
      unfold thermalNeumann at hn
      simp only [List.zipIdx_cons, List.zipIdx_nil, List.foldlM_cons, List.foldlM_nil, Nat.zero_add] at hn
      dsimp only [bind, Except.bind, pure, Except.pure, List.getElem?_cons_zero, List.getElem?_cons_succ] at hn
      cases h1 : F.neumannPart ext (fun k q x => g0 x (((F.convertNeumannFromDof old ext).getD k 0) q)) 0 with
      | error e => rw [h1] at hn; cases hn
      | ok y =>
        rw [h1] at hn
        dsimp only at hn
        cases h2 : F.neumannPart (topFaces F ext) (fun k q x => g1 x (((F.convertNeumannFromDof old (topFaces F ext)).getD k 0) q)) y with
        | error e => rw [h2] at hn; cases hn
        | ok z =>
          rw [h2] at hn
          injection hn with hn
          rw [← hn]
          show R0 n 0 - z n 0 = _
          rw [neumannPart_nodal F _ g1 old y z h2 n, neumannPart_nodal F _ g0 old 0 y h1 n]
          unfold fluxNodal
          simp only [Pi.zero_apply]
          ring

theorem selectFaces_mem (F : Fem nn nq nf nfq 3 1) (I : List (ℕ × Fin nf)) (s : (Fin nn → ℕ) × Fin nf) (hs : s ∈ F.selectFaces I) : s.1 ∈ F.cells := by
  unfold Fem.selectFaces at hs
  obtain ⟨p, -, hp⟩ := List.mem_filterMap.mp hs
  cases hc : F.cells[p.1]? with
  | none => rw [hc] at hp; cases hp
  | some c =>
    rw [hc] at hp
    injection hp with hp
    rw [← hp]
    exact List.mem_of_getElem? hc

/-- The nodal flux vector tested with a field. -/
theorem fluxNodal_work (F : Fem nn nq nf nfq 3 1) (hmesh : ∀ c ∈ F.cells, ∀ a, c a < F.numTotal) (I : List (ℕ × Fin nf)) (g : FluxFn) (old v : ℕ → Fin 1 → ℝ) :
    ∑ n ∈ range F.numTotal, fluxNodal F I g old n * v n 0 = fluxWork F I g old v := by
  unfold fluxNodal fluxWork
  have h1 : ∀ n, ((F.selectFaces I).map fun s => nodal n s.1 fun a => ∑ q, F.faceShapeVals s.2 q a * g (F.xFace s q) (F.uFace old s q) 0 * F.nansonScale s.1 s.2 q).sum * v n 0
      = ((F.selectFaces I).map fun s => (nodal n s.1 fun a => ∑ q, F.faceShapeVals s.2 q a * g (F.xFace s q) (F.uFace old s q) 0 * F.nansonScale s.1 s.2 q) * v n 0).sum := by
    intro n
    rw [List.sum_map_mul_right]
  simp only [h1, list_sum_sum]
  refine sum_map_congr fun s hs => ?_
  rw [sum_nodal_mul _ _ (hmesh _ (selectFaces_mem F I s hs)) _ (fun n => v n 0)]
  simp only [sum_mul]
  rw [sum_comm]
  refine sum_congr rfl fun q _ => ?_
  unfold Fem.uFace
  rw [mul_sum, sum_mul]
  exact sum_congr rfl fun a _ => by ring

/-- The weak form of one time step, tested with a field. -/
theorem thermal_work (F : Fem nn nq nf nfq 3 1) (hmesh : ∀ c ∈ F.cells, ∀ a, c a < F.numTotal) (rho Cp dt : ℝ) (ext : List (ℕ × Fin nf)) (g0 g1 : FluxFn) (old sol R v : ℕ → Fin 1 → ℝ)
    (h : thermalResidual F rho Cp dt ext [g0, g1] old sol = .ok R) :
    ∑ n ∈ range F.numTotal, R n 0 * v n 0 = heatOf F (fun c q => 15 * (∑ d, F.gradAt sol c q 0 d * F.gradAt v c q 0 d) + rho * Cp / dt * (F.uAt sol c q 0 - F.uAt old c q 0) * F.uAt v c q 0)
      - fluxWork F ext g0 old v - fluxWork F (topFaces F ext) g1 old v := by
  obtain ⟨R0, hR0, hR⟩ := thermalResidual_ok F rho Cp dt ext g0 g1 old sol R h
  simp only [hR, sub_mul, sum_sub_distrib, fluxNodal_work F hmesh]
  congr 2
  have h1 := C71_virtual_work (thermalFem F rho Cp dt old) hmesh sol v R0 hR0
  simp only [Fin.sum_univ_one] at h1
  have hp : (thermalFem F rho Cp dt old).cauchy = none := rfl
  have hp2 : (thermalFem F rho Cp dt old).neumann = none := rfl
  simp only [hp, hp2, Fem.pairs, Option.elim_none, List.map_nil, List.sum_nil, add_zero, sub_zero] at h1
  have hn : (thermalFem F rho Cp dt old).numTotal = F.numTotal := rfl
  have hcl : (thermalFem F rho Cp dt old).cells = F.cells := rfl
  rw [hn, hcl] at h1
  rw [h1]
  have hz : ∀ w : (Fin nn → ℕ) → ℝ, (F.cells.zipIdx.map fun p => w p.1).sum = (F.cells.map w).sum := by
    intro w
    rw [show (F.cells.zipIdx.map fun p => w p.1) = (F.cells.zipIdx.map Prod.fst).map w by rw [List.map_map]; rfl, zipIdx_fst]
  have hs : ∀ k q gr i j, (thermalFem F rho Cp dt old).stress k q gr i j = 15 * gr i j := fun _ _ _ _ _ => rfl
  have hm : ∀ k q u i, (thermalFem F rho Cp dt old).massAt k q u i = rho * Cp * u i / dt := fun _ _ _ _ => rfl
  have hl : ∀ c q i, (thermalFem F rho Cp dt old).load c q i = rho * Cp * F.uAt old c q i / dt := fun _ _ _ => rfl
  have hg : ∀ u c q, (thermalFem F rho Cp dt old).gradAt u c q = F.gradAt u c q := fun _ _ _ => rfl
  have hu : ∀ u c q, (thermalFem F rho Cp dt old).uAt u c q = F.uAt u c q := fun _ _ _ => rfl
  have hJ : ∀ c q, (thermalFem F rho Cp dt old).JxW c q = F.JxW c q := fun _ _ => rfl
  simp only [hs, hm, hl, hg, hu, hJ]
  rw [hz fun c => ∑ q, (∑ d, 15 * F.gradAt sol c q 0 d * F.gradAt v c q 0 d + rho * Cp * F.uAt sol c q 0 / dt * F.uAt v c q 0) * F.JxW c q]
  unfold heatOf
  have hlist : ∀ (l : List (Fin nn → ℕ)) (f g u : (Fin nn → ℕ) → ℝ), (∀ p, f p - g p = u p) → (l.map f).sum - (l.map g).sum = (l.map u).sum := by
    intro l f g u hh
    induction l with
    | nil => simp
    | cons p l ih =>
      simp only [List.map_cons, List.sum_cons]
      linarith [hh p]
  refine hlist _ _ _ _ fun c => ?_
  rw [← sum_sub_distrib]
  refine sum_congr rfl fun q _ => ?_
  dsimp only
  rw [mul_sum]
  have e : ∑ d, 15 * F.gradAt sol c q 0 d * F.gradAt v c q 0 d = ∑ d, 15 * (F.gradAt sol c q 0 d * F.gradAt v c q 0 d) := sum_congr rfl fun d _ => by ring
  rw [e]
  ring

/-! ## Properties of a time step -/

/-- **C100 (energy balance).** Whenever the residual of a step vanishes, the heat content `∫ rho Cp T` changes by `dt` times the power entering through the boundary: the first function over all external
faces, plus the second over those accepted by `top`. -/
theorem C100_energy (F : Fem nn nq nf nfq 3 1) (hmesh : ∀ c ∈ F.cells, ∀ a, c a < F.numTotal) (hgrad : ∀ q b, ∑ n, F.shapeGradsRef q n b = 0) (hone : ∀ q, ∑ n, F.shapeVals q n = 1)
    (hface : ∀ f q, ∑ n, F.faceShapeVals f q n = 1) (rho Cp dt : ℝ) (hdt : dt ≠ 0) (ext : List (ℕ × Fin nf)) (g0 g1 : FluxFn) (old sol R : ℕ → Fin 1 → ℝ)
    (h : thermalResidual F rho Cp dt ext [g0, g1] old sol = .ok R) (hz : ∀ n < F.numTotal, R n 0 = 0) :
    heatOf F (fun c q => rho * Cp * F.uAt sol c q 0) - heatOf F (fun c q => rho * Cp * F.uAt old c q 0) = dt * (fluxPower F ext g0 old + fluxPower F (topFaces F ext) g1 old) := by
  have h1 := thermal_work F hmesh rho Cp dt ext g0 g1 old sol R (fun _ _ => 1) h
  rw [sum_eq_zero fun n hn => by rw [hz n (Finset.mem_range.mp hn), zero_mul]] at h1
  have hg1 : ∀ c q d, F.gradAt (fun _ (_ : Fin 1) => (1 : ℝ)) c q 0 d = 0 := by
    intro c q d
    unfold Fem.gradAt
    simp only [one_mul]
    exact grad_sum_zero F hgrad c q d
  have hu1 : ∀ c q, F.uAt (fun _ (_ : Fin 1) => (1 : ℝ)) c q 0 = 1 := by
    intro c q
    unfold Fem.uAt
    simp only [one_mul]
    exact hone q
  have hf1 : ∀ s q, F.uFace (fun _ (_ : Fin 1) => (1 : ℝ)) s q 0 = 1 := by
    intro s q
    unfold Fem.uFace
    simp only [one_mul]
    exact hface _ q
  unfold fluxWork at h1
  simp only [hg1, hu1, hf1, mul_zero, sum_const_zero, zero_add, mul_one] at h1
  unfold fluxPower
  have h2 : heatOf F (fun c q => rho * Cp * F.uAt sol c q 0) - heatOf F (fun c q => rho * Cp * F.uAt old c q 0) = dt * heatOf F (fun c q => rho * Cp / dt * (F.uAt sol c q 0 - F.uAt old c q 0)) := by
    unfold heatOf
    have hlist : ∀ (l : List (Fin nn → ℕ)) (f g u : (Fin nn → ℕ) → ℝ), (∀ p, f p - g p = dt * u p) → (l.map f).sum - (l.map g).sum = dt * (l.map u).sum := by
      intro l f g u hh
      induction l with
      | nil => simp
      | cons p l ih =>
        simp only [List.map_cons, List.sum_cons]
        linarith [hh p]
    refine hlist _ _ _ _ fun c => ?_
    rw [← sum_sub_distrib, mul_sum]
    refine sum_congr rfl fun q _ => ?_
    field_simp
  rw [h2]
  congr 1
  linarith

theorem heatOf_nonneg (F : Fem nn nq nf nfq 3 1) (hvol : ∀ c ∈ F.cells, ∀ q, 0 < F.JxW c q) (w : (Fin nn → ℕ) → Fin nq → ℝ) (hw : ∀ c q, 0 ≤ w c q) : 0 ≤ heatOf F w :=
  List.sum_nonneg fun x hx => by
    obtain ⟨c, hc, rfl⟩ := List.mem_map.mp hx
    exact sum_nonneg fun q _ => mul_nonneg (hw c q) (hvol c hc q).le

theorem heatOf_lin (F : Fem nn nq nf nfq 3 1) (a b : ℝ) (w w' : (Fin nn → ℕ) → Fin nq → ℝ) : heatOf F (fun c q => a * w c q + b * w' c q) = a * heatOf F w + b * heatOf F w' := by
  unfold heatOf
  generalize F.cells = l
  induction l with
  | nil => simp
  | cons c l ih =>
    simp only [List.map_cons, List.sum_cons, ih]
    rw [mul_add, mul_add, mul_sum, mul_sum]
    have : ∑ q, (a * w c q + b * w' c q) * F.JxW c q = ∑ q, a * (w c q * F.JxW c q) + ∑ q, b * (w' c q * F.JxW c q) := by
      rw [← sum_add_distrib]
      exact sum_congr rfl fun q _ => by ring
    rw [this]
    ring

/-- **C100 (unconditional stability).** For every step size, the quadratic heat content grows by no more than the work of the boundary fluxes on the new temperature, less the conduction losses:
`½∫ρCp T² - ½∫ρCp T_old² + dt ∫ 15|∇T|² ≤ dt (∫ g₀ T + ∫ g₁ T)`. Without boundary fluxes it cannot grow. -/
theorem C100_stable (F : Fem nn nq nf nfq 3 1) (hmesh : ∀ c ∈ F.cells, ∀ a, c a < F.numTotal) (hvol : ∀ c ∈ F.cells, ∀ q, 0 < F.JxW c q) (rho Cp dt : ℝ) (hrc : 0 ≤ rho * Cp) (hdt : 0 < dt)
    (ext : List (ℕ × Fin nf)) (g0 g1 : FluxFn) (old sol R : ℕ → Fin 1 → ℝ) (h : thermalResidual F rho Cp dt ext [g0, g1] old sol = .ok R) (hz : ∀ n < F.numTotal, R n 0 = 0) :
    heatOf F (fun c q => rho * Cp / 2 * F.uAt sol c q 0 ^ 2) - heatOf F (fun c q => rho * Cp / 2 * F.uAt old c q 0 ^ 2) + dt * heatOf F (fun c q => 15 * ∑ d, F.gradAt sol c q 0 d ^ 2) ≤
      dt * (fluxWork F ext g0 old sol + fluxWork F (topFaces F ext) g1 old sol) := by
  have h1 := thermal_work F hmesh rho Cp dt ext g0 g1 old sol R sol h
  rw [sum_eq_zero fun n hn => by rw [hz n (Finset.mem_range.mp hn), zero_mul]] at h1
  have h2 : fluxWork F ext g0 old sol + fluxWork F (topFaces F ext) g1 old sol
      = heatOf F (fun c q => 15 * (∑ d, F.gradAt sol c q 0 d * F.gradAt sol c q 0 d) + rho * Cp / dt * (F.uAt sol c q 0 - F.uAt old c q 0) * F.uAt sol c q 0) := by linarith
  rw [h2]
  have h3 := heatOf_nonneg F hvol (fun c q => rho * Cp / 2 * (F.uAt sol c q 0 - F.uAt old c q 0) ^ 2) (fun c q => by positivity)
  have h4 : dt * heatOf F (fun c q => 15 * (∑ d, F.gradAt sol c q 0 d * F.gradAt sol c q 0 d) + rho * Cp / dt * (F.uAt sol c q 0 - F.uAt old c q 0) * F.uAt sol c q 0)
      = heatOf F (fun c q => rho * Cp / 2 * F.uAt sol c q 0 ^ 2) - heatOf F (fun c q => rho * Cp / 2 * F.uAt old c q 0 ^ 2) + dt * heatOf F (fun c q => 15 * ∑ d, F.gradAt sol c q 0 d ^ 2)
        + heatOf F (fun c q => rho * Cp / 2 * (F.uAt sol c q 0 - F.uAt old c q 0) ^ 2) := by
    have e1 := heatOf_lin F 1 (-1) (fun c q => rho * Cp / 2 * F.uAt sol c q 0 ^ 2) (fun c q => rho * Cp / 2 * F.uAt old c q 0 ^ 2)
    have e2 := heatOf_lin F dt 1 (fun c q => 15 * ∑ d, F.gradAt sol c q 0 d ^ 2) (fun c q => rho * Cp / 2 * (F.uAt sol c q 0 - F.uAt old c q 0) ^ 2)
    have e3 := heatOf_lin F 1 1 (fun c q => 1 * (rho * Cp / 2 * F.uAt sol c q 0 ^ 2) + -1 * (rho * Cp / 2 * F.uAt old c q 0 ^ 2))
      (fun c q => dt * (15 * ∑ d, F.gradAt sol c q 0 d ^ 2) + 1 * (rho * Cp / 2 * (F.uAt sol c q 0 - F.uAt old c q 0) ^ 2))
    have e4 := heatOf_lin F dt 0 (fun c q => 15 * (∑ d, F.gradAt sol c q 0 d * F.gradAt sol c q 0 d) + rho * Cp / dt * (F.uAt sol c q 0 - F.uAt old c q 0) * F.uAt sol c q 0) (fun _ _ => 0)
    have e5 : heatOf F (fun c q => dt * (15 * (∑ d, F.gradAt sol c q 0 d * F.gradAt sol c q 0 d) + rho * Cp / dt * (F.uAt sol c q 0 - F.uAt old c q 0) * F.uAt sol c q 0) + 0 * 0)
        = heatOf F (fun c q => 1 * (1 * (rho * Cp / 2 * F.uAt sol c q 0 ^ 2) + -1 * (rho * Cp / 2 * F.uAt old c q 0 ^ 2))
          + 1 * (dt * (15 * ∑ d, F.gradAt sol c q 0 d ^ 2) + 1 * (rho * Cp / 2 * (F.uAt sol c q 0 - F.uAt old c q 0) ^ 2))) := by
      congr 1
      funext c q
      simp only [← pow_two]
      field_simp
      ring
    linarith
  linarith

/-- **C100 (uniqueness).** On a sound mesh, for `rho Cp > 0` and `dt > 0`, at most one temperature makes the residual of a step vanish. -/
theorem C100_unique (F : Fem nn nq nf nfq 3 1) (hF : F.Sound) (rho Cp dt : ℝ) (hrc : 0 < rho * Cp) (hdt : 0 < dt) (ext : List (ℕ × Fin nf)) (g0 g1 : FluxFn) (old T T' R R' : ℕ → Fin 1 → ℝ)
    (h : thermalResidual F rho Cp dt ext [g0, g1] old T = .ok R) (h' : thermalResidual F rho Cp dt ext [g0, g1] old T' = .ok R') (hz : ∀ n < F.numTotal, R n 0 = 0) (hz' : ∀ n < F.numTotal, R' n 0 = 0)
    (n : ℕ) (hn : n < F.numTotal) : T n 0 = T' n 0 := by
  have h1 := thermal_work F hF.mesh rho Cp dt ext g0 g1 old T R (fun n i => T n i - T' n i) h
  have h2 := thermal_work F hF.mesh rho Cp dt ext g0 g1 old T' R' (fun n i => T n i - T' n i) h'
  rw [sum_eq_zero fun n hn => by rw [hz n (Finset.mem_range.mp hn), zero_mul]] at h1
  rw [sum_eq_zero fun n hn => by rw [hz' n (Finset.mem_range.mp hn), zero_mul]] at h2
  simp only [gradAt_sub, uAt_sub] at h1 h2
  have h3 : heatOf F (fun c q => 15 * ∑ d, (F.gradAt T c q 0 d - F.gradAt T' c q 0 d) ^ 2 + rho * Cp / dt * (F.uAt T c q 0 - F.uAt T' c q 0) ^ 2) = 0 := by
    have e := heatOf_lin F 1 (-1) (fun c q => 15 * (∑ d, F.gradAt T c q 0 d * (F.gradAt T c q 0 d - F.gradAt T' c q 0 d)) + rho * Cp / dt * (F.uAt T c q 0 - F.uAt old c q 0) * (F.uAt T c q 0 - F.uAt T' c q 0))
      (fun c q => 15 * (∑ d, F.gradAt T' c q 0 d * (F.gradAt T c q 0 d - F.gradAt T' c q 0 d)) + rho * Cp / dt * (F.uAt T' c q 0 - F.uAt old c q 0) * (F.uAt T c q 0 - F.uAt T' c q 0))
    have e2 : (fun c q => 15 * ∑ d, (F.gradAt T c q 0 d - F.gradAt T' c q 0 d) ^ 2 + rho * Cp / dt * (F.uAt T c q 0 - F.uAt T' c q 0) ^ 2) =
        fun c q => 1 * (15 * (∑ d, F.gradAt T c q 0 d * (F.gradAt T c q 0 d - F.gradAt T' c q 0 d)) + rho * Cp / dt * (F.uAt T c q 0 - F.uAt old c q 0) * (F.uAt T c q 0 - F.uAt T' c q 0))
          + -1 * (15 * (∑ d, F.gradAt T' c q 0 d * (F.gradAt T c q 0 d - F.gradAt T' c q 0 d)) + rho * Cp / dt * (F.uAt T' c q 0 - F.uAt old c q 0) * (F.uAt T c q 0 - F.uAt T' c q 0)) := by
      funext c q
      have : ∑ d, (F.gradAt T c q 0 d - F.gradAt T' c q 0 d) ^ 2 = ∑ d, F.gradAt T c q 0 d * (F.gradAt T c q 0 d - F.gradAt T' c q 0 d) - ∑ d, F.gradAt T' c q 0 d * (F.gradAt T c q 0 d - F.gradAt T' c q 0 d) := by
        rw [← sum_sub_distrib]
        exact sum_congr rfl fun d _ => by ring
      rw [this]
      ring
    rw [e2, e]
    linarith
  have hterm : ∀ c ∈ F.cells, ∀ q, 0 ≤ (15 * ∑ d, (F.gradAt T c q 0 d - F.gradAt T' c q 0 d) ^ 2 + rho * Cp / dt * (F.uAt T c q 0 - F.uAt T' c q 0) ^ 2) * F.JxW c q := by
    intro c hc q
    have := hF.vol c hc q
    have : 0 ≤ ∑ d, (F.gradAt T c q 0 d - F.gradAt T' c q 0 d) ^ 2 := sum_nonneg fun _ _ => sq_nonneg _
    positivity
  obtain ⟨c, hc, a, rfl⟩ := hF.used n hn
  have h4 := list_sum_eq_zero _ _ (fun c hc => sum_nonneg fun q _ => hterm c hc q) h3 c hc
  have h5 : ∀ q, (∀ d, F.gradAt T c q 0 d - F.gradAt T' c q 0 d = 0) ∧ F.uAt T c q 0 - F.uAt T' c q 0 = 0 := by
    intro q
    have h6 := (sum_eq_zero_iff_of_nonneg fun q _ => hterm c hc q).mp h4 q (mem_univ q)
    have h7 := (mul_eq_zero.mp h6).resolve_right (hF.vol c hc q).ne'
    have hs : 0 ≤ ∑ d, (F.gradAt T c q 0 d - F.gradAt T' c q 0 d) ^ 2 := sum_nonneg fun _ _ => sq_nonneg _
    have hk : 0 < rho * Cp / dt := by positivity
    have hu := mul_nonneg hk.le (sq_nonneg (F.uAt T c q 0 - F.uAt T' c q 0))
    have h8 : ∑ d, (F.gradAt T c q 0 d - F.gradAt T' c q 0 d) ^ 2 = 0 := by linarith
    have h9 : rho * Cp / dt * (F.uAt T c q 0 - F.uAt T' c q 0) ^ 2 = 0 := by linarith
    refine ⟨fun d => ?_, ?_⟩
    · exact pow_eq_zero_iff (two_ne_zero) |>.mp ((sum_eq_zero_iff_of_nonneg fun j _ => sq_nonneg _).mp h8 d (mem_univ d))
    · exact pow_eq_zero_iff (two_ne_zero) |>.mp ((mul_eq_zero.mp h9).resolve_left hk.ne')
  have hconst := hF.modes c hc (fun a => T (c a) 0 - T' (c a) 0) (fun q j => by
    have := (h5 q).1 j
    simp only [Fem.gradAt, ← sum_sub_distrib, ← sub_mul] at this
    exact this)
  have hval := (h5 ⟨0, hF.quads⟩).2
  simp only [Fem.uAt, ← sum_sub_distrib, ← sub_mul] at hval
  have : ∀ b, T (c b) 0 - T' (c b) 0 = T (c a) 0 - T' (c a) 0 := fun b => hconst b a
  simp only [this] at hval
  rw [← mul_sum, hF.unity, mul_one] at hval
  exact sub_eq_zero.mp hval

/-- **C100 (equilibrium).** A uniform temperature at which both boundary functions vanish is kept. -/
theorem C100_equilibrium (F : Fem nn nq nf nfq 3 1) (hgrad : ∀ q b, ∑ n, F.shapeGradsRef q n b = 0) (hface : ∀ f q, ∑ n, F.faceShapeVals f q n = 1) (rho Cp dt T0 : ℝ) (ext : List (ℕ × Fin nf)) (g0 g1 : FluxFn)
    (hg0 : ∀ x, g0 x (fun _ => T0) 0 = 0) (hg1 : ∀ x, g1 x (fun _ => T0) 0 = 0) (R : ℕ → Fin 1 → ℝ)
    (h : thermalResidual F rho Cp dt ext [g0, g1] (fun _ _ => T0) (fun _ _ => T0) = .ok R) (n : ℕ) : R n 0 = 0 := by
  obtain ⟨R0, hR0, hR⟩ := thermalResidual_ok F rho Cp dt ext g0 g1 _ _ R h
  have hf1 : ∀ s q, F.uFace (fun _ (_ : Fin 1) => T0) s q = fun _ => T0 := by
    intro s q
    funext i
    unfold Fem.uFace
    rw [← mul_sum, hface, mul_one]
  have hfl : ∀ (I : List (ℕ × Fin nf)) (g : FluxFn), (∀ x, g x (fun _ => T0) 0 = 0) → fluxNodal F I g (fun _ _ => T0) n = 0 := by
    intro I g hg
    unfold fluxNodal
    simp only [hf1, hg, mul_zero, zero_mul, sum_const_zero]
    have : ∀ c : Fin nn → ℕ, nodal n c (fun _ => (0 : ℝ)) = 0 := fun c => by unfold nodal; simp
    simp [this]
  rw [hR, hfl _ _ hg0, hfl _ _ hg1, C13_residual (thermalFem F rho Cp dt _) _ R0 hR0 n 0]
  have hp : (thermalFem F rho Cp dt (fun _ _ => T0)).cauchy = none := rfl
  have hp2 : (thermalFem F rho Cp dt (fun _ _ => T0)).neumann = none := rfl
  simp only [hp, hp2, Fem.pairs, Option.elim_none, List.map_nil, List.sum_nil, add_zero, sub_zero]
  have hcl : (thermalFem F rho Cp dt (fun _ _ => T0)).cells = F.cells := rfl
  have hz : ∀ w : (Fin nn → ℕ) → ℝ, (F.cells.zipIdx.map fun p => w p.1).sum = (F.cells.map w).sum := by
    intro w
    rw [show (F.cells.zipIdx.map fun p => w p.1) = (F.cells.zipIdx.map Prod.fst).map w by rw [List.map_map]; rfl, zipIdx_fst]
  rw [hcl]
  have hg : ∀ c q i d, F.gradAt (fun _ (_ : Fin 1) => T0) c q i d = 0 := by
    intro c q i d
    unfold Fem.gradAt
    rw [← mul_sum, grad_sum_zero F hgrad, mul_zero]
  have hvol : ∀ c k a, (thermalFem F rho Cp dt (fun _ _ => T0)).volTerm (fun _ _ => T0) c k a 0 = ∑ q, F.shapeVals q a * (rho * Cp * F.uAt (fun _ _ => T0) c q 0 / dt) * F.JxW c q := by
    intro c k a
    unfold Fem.volTerm
    refine sum_congr rfl fun q _ => ?_
    have hs : ∀ k q gr i j, (thermalFem F rho Cp dt (fun _ _ => T0)).stress k q gr i j = 15 * gr i j := fun _ _ _ _ _ => rfl
    have hm : ∀ k q u i, (thermalFem F rho Cp dt (fun _ _ => T0)).massAt k q u i = rho * Cp * u i / dt := fun _ _ _ _ => rfl
    have hg' : ∀ u c q, (thermalFem F rho Cp dt (fun _ _ => T0)).gradAt u c q = F.gradAt u c q := fun _ _ _ => rfl
    have hu : ∀ u c q, (thermalFem F rho Cp dt (fun _ _ => T0)).uAt u c q = F.uAt u c q := fun _ _ _ => rfl
    have hJ : ∀ c q, (thermalFem F rho Cp dt (fun _ _ => T0)).JxW c q = F.JxW c q := fun _ _ => rfl
    have hsv : (thermalFem F rho Cp dt (fun _ _ => T0)).shapeVals = F.shapeVals := rfl
    simp only [hs, hm, hg', hu, hJ, hg, hsv, mul_zero, zero_mul, sum_const_zero, zero_add]
    ring
  simp only [hvol]
  rw [hz fun c => nodal n c fun a => ∑ q, F.shapeVals q a * (rho * Cp * F.uAt (fun _ _ => T0) c q 0 / dt) * F.JxW c q]
  exact sub_self _

end Verif.Fem
