import Verif.Fem.AdWrapper
import Verif.Fem.PlasticDemo
import Verif.Fem.MultiScaleProps
import Verif.Fem.PropsSurface

/-!
# C128: the inverse demo (demos/fem/inverse/example.py): derivatives with respect to material, support and loads
-/
namespace Verif.Fem
open Finset Matrix

variable {nn nq nf nfq M : ℕ}

/-! ## Model -/

/-- `params = [E, rho, scale_d, scale_n, scale_s]` (example.py 94-97) in the order of the flattened tree; `rho` has `num_cells` rows of `num_quads` entries. -/
def ivE (p : Fin (M + 4) → ℝ) : ℝ := p 0
def ivRho (p : Fin (M + 4) → ℝ) (k : ℕ) (q : Fin nq) : ℝ := if h : k * nq + q < M then p ⟨k * nq + q + 1, by omega⟩ else 0
def ivD (p : Fin (M + 4) → ℝ) : ℝ := p ⟨M + 1, by omega⟩
def ivN (p : Fin (M + 4) → ℝ) : ℝ := p ⟨M + 2, by omega⟩
def ivS (p : Fin (M + 4) → ℝ) : ℝ := p ⟨M + 3, by omega⟩

/-- `bottom`, `top` (example.py 80-85); `isclose` with `atol=1e-5` and the default relative tolerance. -/
noncomputable def ivBottom : Loc 3 := fun x => open Classical in decide (|x 2 - 0| ≤ 1e-5 + 1e-5 * |(0 : ℝ)|)
noncomputable def ivTop (Lz : ℝ) : Loc 3 := fun x => open Classical in decide (|x 2 - Lz| ≤ 1e-5 + 1e-5 * |Lz|)

/-- `first_PK_stress` (example.py 15-33): `jax.grad` of the energy with modulus `self.E * rho`. -/
noncomputable def ivStress (E rho : ℝ) (g : Fin 3 → Fin 3 → ℝ) : Fin 3 → Fin 3 → ℝ := fun i d => gradOf (msPsi (E * rho) 0.3) (Matrix.of g + 1) i d

/-- `dirichlet_bc_info` (example.py 53-57, 76-77, 88) with `get_dirichlet_bottom(scale_d)` as its last entry (line 39). -/
noncomputable def ivInfo (Lz d : ℝ) : List (Loc 3) × List ℕ × List ((Fin 3 → ℝ) → ℝ) :=
  ([ivBottom, ivBottom, ivBottom], [0, 1, 2], [fun _ => 0, fun _ => 0, fun _ => d * Lz])

/-- `set_params` (example.py 35-42): modulus, densities, traction `get_neumann_top(scale_n)` (60-65) and body force `get_body_force(scale_s)` (68-73) of the object. -/
noncomputable def ivFem (F : Fem nn nq nf nfq 3 3) (Lz : ℝ) (p : Fin (M + 4) → ℝ) : Fem nn nq nf nfq 3 3 :=
  { F with
    tensorMap := some fun k q => ivStress (ivE p) (ivRho p k q)
    massMap := none
    lapRows := some F.cells.length
    massRows := none
    source := some fun _ => ![ivS p * 100, 0, 0]
    bodyVar := none
    neumann := some ([ivTop Lz], [fun _ _ _ => ![0, 0, -(ivN p * 100)]])
    cauchy := none }

/-- `update_Dirichlet_boundary_conditions` in `set_params` (example.py 39-40). -/
noncomputable def ivGroups (F : Fem nn nq nf nfq 3 3) (Lz d : ℝ) : List (Group ℝ) :=
  match dirichletBC F.numTotal F.points (some (ivInfo Lz d)) with
  | .ok out => groupsOf out.1 out.2.1 out.2.2
  | .error _ => []

/-- The problem handed to `ad_wrapper` (example.py 90-100). -/
noncomputable def ivProb (F : Fem nn nq nf nfq 3 3) (Lz : ℝ) : ParamProb (F.cells.length * nq + 4) FemErr where
  prob p := (ivFem F Lz p).toProb (ivGroups F Lz (ivD p))
  res p x d := match (ivFem F Lz p).computeResidual (fun n i => x (3 * n + i)) with
    | .ok R => R (d / 3) (Fin.ofNat 3 d)
    | .error _ => 0

/-- `test_fn` (example.py 105-106). -/
def ivTest (N : ℕ) (u : ℕ → ℝ) : ℝ := ∑ d ∈ range N, u d ^ 2

/-- The change of one parameter in the finite differences (example.py 115-133): `x_plus = (1 + h)*x`. -/
noncomputable def ivPlus {m : ℕ} (h : ℝ) (p : Fin m → ℝ) (j : Fin m) : Fin m → ℝ := Function.update p j ((1 + h) * p j)

/-! ## Specification -/

/-- Specification: a mesh of the demo: it has cells, their nodes exist, the shape functions sum to one, and the top faces are regular. -/
structure IvMesh (F : Fem nn nq nf nfq 3 3) (Lz : ℝ) : Prop where
  cells : 0 < F.cells.length
  nodes : ∀ c ∈ F.cells, ∀ a, c a < F.numTotal
  sum : ∀ q b, ∑ n, F.shapeGradsRef q n b = 0
  faces : F.FacesOk (ivTop Lz)

/-- Specification: force at node `n` by the stress for unit modulus, in cell `c` at quadrature point `q`. -/
noncomputable def ivForce (F : Fem nn nq nf nfq 3 3) (u : ℕ → Fin 3 → ℝ) (c : Fin nn → ℕ) (q : Fin nq) (n : ℕ) (i : Fin 3) : ℝ :=
  nodal n c fun a => (∑ d, ivStress 1 1 (F.gradAt u c q) i d * F.shapeGrad c q a d) * F.JxW c q

/-- Specification: nodal forces of the unit body force along x and of the unit pressure on the top. -/
noncomputable def ivBody (F : Fem nn nq nf nfq 3 3) (n : ℕ) (i : Fin 3) : ℝ :=
  (F.cells.map fun c => nodal n c fun a => ∑ q, F.shapeVals q a * (if i = 0 then 100 else 0) * F.JxW c q).sum
noncomputable def ivPress (F : Fem nn nq nf nfq 3 3) (Lz : ℝ) (n : ℕ) (i : Fin 3) : ℝ :=
  ((F.selected (ivTop Lz)).map fun p => nodal n p.1 fun a => ∑ q, F.faceShapeVals p.2 q a * (if i = 2 then -100 else 0) * F.nansonScale p.1 p.2 q).sum

/-- Specification: out-of-balance force at node `n`. -/
noncomputable def ivBalance (F : Fem nn nq nf nfq 3 3) (Lz : ℝ) (p : Fin (M + 4) → ℝ) (u : ℕ → Fin 3 → ℝ) (n : ℕ) (i : Fin 3) : ℝ :=
  (F.cells.zipIdx.map fun ck => ∑ q, ivE p * ivRho p ck.2 q * ivForce F u ck.1 q n i).sum - ivS p * ivBody F n i - ivN p * ivPress F Lz n i

/-- Specification: an exact solution of the demo for the given parameters. -/
structure IvSolves (F : Fem nn nq nf nfq 3 3) (Lz : ℝ) (p : Fin (M + 4) → ℝ) (u : ℕ → Fin 3 → ℝ) : Prop where
  support : ∀ n < F.numTotal, ivBottom (F.points n) = true → u n 0 = 0 ∧ u n 1 = 0 ∧ u n 2 = ivD p * Lz
  balance : ∀ n < F.numTotal, ivBottom (F.points n) = false → ∀ i, ivBalance F Lz p u n i = 0

/-! ## The modified residual -/

theorem msPsi_scale (E : ℝ) (F : T33) : msPsi E 0.3 F = E * msPsi 1 0.3 F := by
  unfold msPsi
  ring

theorem ivStress_scale (E rho : ℝ) (g : Fin 3 → Fin 3 → ℝ) (i d : Fin 3) : ivStress E rho g i d = E * rho * ivStress 1 1 g i d := by
  unfold ivStress gradOf
  simp only [Matrix.of_apply]
  rw [show (fun t : ℝ => msPsi (E * rho) 0.3 (Matrix.of g + 1 + t • Matrix.single i d 1)) = fun t => (E * rho) * msPsi 1 0.3 (Matrix.of g + 1 + t • Matrix.single i d 1) from funext fun t => msPsi_scale _ _,
    deriv_const_mul_field, one_mul]

theorem ivRes_ok (F : Fem nn nq nf nfq 3 3) (Lz : ℝ) (hF : IvMesh F Lz) (p : Fin (M + 4) → ℝ) (u : ℕ → Fin 3 → ℝ) :
    (ivFem F Lz p).computeResidual u = .ok fun n i => ivBalance F Lz p u n i := by
  have hok : ∃ R, (ivFem F Lz p).computeResidual u = .ok R := by
    refine ⟨_, (computeResidual_ok_iff _ _ _).mpr ⟨⟨hF.cells, rfl, rfl⟩, ?_, ?_, rfl⟩⟩
    · intro locs vals h
      cases h
    · intro locs vals h
      cases h
      refine ⟨fun l hl => ?_, le_refl _⟩
      rw [List.mem_singleton.mp hl]
      exact hF.faces
  obtain ⟨R, hR⟩ := hok
  rw [hR]
  congr 1
  funext n i
  rw [C13_residual _ _ _ hR n i]
  have e1 : ∀ (c : Fin nn → ℕ) (k : ℕ), (nodal n c fun a => (ivFem F Lz p).volTerm u c k a i) = ∑ q, ivE p * ivRho p k q * ivForce F u c q n i := by
    intro c k
    unfold ivForce nodal
    simp only [mul_sum]
    rw [sum_comm]
    refine sum_congr rfl fun a _ => ?_
    unfold Fem.volTerm
    refine sum_congr rfl fun q _ => ?_
    have h1 : (ivFem F Lz p).massAt k q ((ivFem F Lz p).uAt u c q) i = 0 := rfl
    rw [h1, zero_mul, add_zero]
    have h2 : ∀ d, (ivFem F Lz p).stress k q ((ivFem F Lz p).gradAt u c q) i d = ivE p * ivRho p k q * ivStress 1 1 (F.gradAt u c q) i d := fun d => ivStress_scale _ _ _ _ _
    simp only [h2, sum_mul, mul_sum]
    refine sum_congr rfl fun d _ => ?_
    show _ * F.shapeGrad c q a d * F.JxW c q = _
    ring
  have e2 : ∀ c : Fin nn → ℕ, (nodal n c fun a => ∑ q, (ivFem F Lz p).shapeVals q a * (ivFem F Lz p).load c q i * (ivFem F Lz p).JxW c q) =
      ivS p * nodal n c fun a => ∑ q, F.shapeVals q a * (if i = 0 then 100 else 0) * F.JxW c q := by
    intro c
    unfold nodal
    simp only [mul_sum]
    refine sum_congr rfl fun a _ => sum_congr rfl fun q _ => ?_
    have h1 : (ivFem F Lz p).load c q i = ivS p * (if i = 0 then 100 else 0) := by
      show (![ivS p * 100, 0, 0] : Fin 3 → ℝ) i = _
      fin_cases i <;> simp
    rw [h1]
    show F.shapeVals q a * _ * F.JxW c q = _
    ring
  have e3 : ∀ pf : (Fin nn → ℕ) × Fin nf, (nodal n pf.1 fun a => ∑ q, (ivFem F Lz p).faceShapeVals pf.2 q a * (![0, 0, -(ivN p * 100)] : Fin 3 → ℝ) i *
      (ivFem F Lz p).nansonScale pf.1 pf.2 q) = ivN p * nodal n pf.1 fun a => ∑ q, F.faceShapeVals pf.2 q a * (if i = 2 then -100 else 0) * F.nansonScale pf.1 pf.2 q := by
    intro pf
    unfold nodal
    simp only [mul_sum]
    refine sum_congr rfl fun a _ => sum_congr rfl fun q _ => ?_
    have h1 : (![0, 0, -(ivN p * 100)] : Fin 3 → ℝ) i = ivN p * (if i = 2 then -100 else 0) := by
      fin_cases i <;> simp
    rw [h1]
    show F.faceShapeVals pf.2 q a * _ * F.nansonScale pf.1 pf.2 q = _
    ring
  have hsel : ∀ (l : List ((Fin nn → ℕ) × Fin nf)) (f : (Fin nn → ℕ) × Fin nf → ℝ), (l.zipIdx.map fun t => f t.1) = l.map f := by
    intro l f
    refine List.ext_getElem (by simp) fun j h1 h2 => by simp
  unfold ivBalance ivBody ivPress
  rw [← List.sum_map_mul_left, ← List.sum_map_mul_left]
  have hp : Fem.pairs (ivFem F Lz p).neumann = [(ivTop Lz, fun _ _ _ => ![0, 0, -(ivN p * 100)])] := rfl
  have hc : Fem.pairs (ivFem F Lz p).cauchy = [] := rfl
  rw [hp, hc]
  simp only [List.map_nil, List.sum_nil, add_zero, List.map_cons, List.sum_cons, e1, e2, e3]
  rw [hsel _ fun pf => ivN p * nodal n pf.1 fun a => ∑ q, F.faceShapeVals pf.2 q a * (if i = 2 then -100 else 0) * F.nansonScale pf.1 pf.2 q]
  rfl

theorem ivGroups_ok (F : Fem nn nq nf nfq 3 3) (Lz d : ℝ) : ∃ N C W, dirichletBC F.numTotal F.points (some (ivInfo Lz d)) = .ok (N, C, W) ∧ ivGroups F Lz d = groupsOf N C W := by
  obtain ⟨⟨N, C, W⟩, h⟩ := (C17_accepted F.numTotal F.points (ivInfo Lz d).1 (ivInfo Lz d).2.1 (ivInfo Lz d).2.2).1.mpr ⟨rfl, rfl⟩
  refine ⟨N, C, W, h, ?_⟩
  unfold ivGroups
  rw [show (some (ivInfo Lz d)) = some ((ivInfo Lz d).1, (ivInfo Lz d).2.1, (ivInfo Lz d).2.2) from rfl, h]

theorem ivWF (F : Fem nn nq nf nfq 3 3) (Lz : ℝ) (p : Fin (F.cells.length * nq + 4) → ℝ) : ((ivProb F Lz).prob p).WF := by
  obtain ⟨N, C, W, h, hg⟩ := ivGroups_ok F Lz (ivD p)
  exact C19_groups_wf ((ivProb F Lz).prob p) (by show 0 < 3; omega) F.numTotal F.points _ _ _ N C W h hg

/-- The modified residual of the demo, entry by entry. -/
theorem ivCon (F : Fem nn nq nf nfq 3 3) (Lz : ℝ) (hF : IvMesh F Lz) (p : Fin (F.cells.length * nq + 4) → ℝ) (u : ℕ → ℝ) (n : ℕ) (hn : n < F.numTotal) (i : Fin 3) :
    (ivProb F Lz).con u p (3 * n + i) = if ivBottom (F.points n) = true then u (3 * n + i) - (if i = 2 then ivD p * Lz else 0) else ivBalance F Lz p (fun n i => u (3 * n + i)) n i := by
  obtain ⟨N, C, W, h, hg⟩ := ivGroups_ok F Lz (ivD p)
  have huser := C19_user ((ivProb F Lz).prob p) F.points (ivInfo Lz (ivD p)).1 (ivInfo Lz (ivD p)).2.1 (ivInfo Lz (ivD p)).2.2 (by
    intro v hv
    show v < 3
    simp only [ivInfo, List.mem_cons, List.not_mem_nil, or_false] at hv
    omega) N C W h hg ((ivProb F Lz).res p u) u n i hn i.2
  have hres : (ivProb F Lz).res p u (3 * n + i) = ivBalance F Lz p (fun n i => u (3 * n + i)) n i := by
    show (match (ivFem F Lz p).computeResidual (fun n i => u (3 * n + i)) with
      | .ok R => R ((3 * n + i) / 3) (Fin.ofNat 3 (3 * n + i))
      | .error _ => 0) = _
    rw [ivRes_ok F Lz hF]
    have e1 : (3 * n + (i : ℕ)) / 3 = n := by omega
    have e2 : Fin.ofNat 3 (3 * n + i) = i := Fin.ext (by show (3 * n + (i : ℕ)) % 3 = i; omega)
    simp only [e1, e2]
  by_cases hb : ivBottom (F.points n) = true
  · rw [if_pos hb]
    refine Eq.trans (huser.1 (ivBottom, (i : ℕ), fun _ => if i = 2 then ivD p * Lz else 0) ?_) rfl
    fin_cases i
    · exact ⟨[], [(ivBottom, 1, fun _ => 0), (ivBottom, 2, fun _ => ivD p * Lz)], rfl, ⟨hb, rfl⟩, by simp⟩
    · exact ⟨[(ivBottom, 0, fun _ => 0)], [(ivBottom, 2, fun _ => ivD p * Lz)], rfl, ⟨hb, rfl⟩, by simp⟩
    · exact ⟨[(ivBottom, 0, fun _ => 0), (ivBottom, 1, fun _ => 0)], [], rfl, ⟨hb, rfl⟩, by simp⟩
  · rw [if_neg hb]
    refine Eq.trans (huser.2 ?_) hres
    intro t ht ht'
    simp only [ivInfo, List.zip_cons_cons, List.zip_nil_right, List.mem_cons, List.not_mem_nil, or_false] at ht
    rcases ht with rfl | rfl | rfl <;> exact hb ht'.1

/-! ## Rates with respect to the parameters -/

/-- Specification: rate of the out-of-balance force when the parameters change in direction `w`. -/
noncomputable def ivRate (F : Fem nn nq nf nfq 3 3) (Lz : ℝ) (p w : Fin (M + 4) → ℝ) (u : ℕ → Fin 3 → ℝ) (n : ℕ) (i : Fin 3) : ℝ :=
  (F.cells.zipIdx.map fun ck => ∑ q, (ivE w * ivRho p ck.2 q + ivE p * ivRho w ck.2 q) * ivForce F u ck.1 q n i).sum - ivS w * ivBody F n i - ivN w * ivPress F Lz n i

/-- Specification: rate of the modified residual: minus the rate of the support at the bottom, the rate of the force elsewhere. -/
noncomputable def ivConRate (F : Fem nn nq nf nfq 3 3) (Lz : ℝ) (p w : Fin (M + 4) → ℝ) (u : ℕ → Fin 3 → ℝ) (n : ℕ) (i : Fin 3) : ℝ :=
  if ivBottom (F.points n) = true then -(if i = 2 then ivD w * Lz else 0) else ivRate F Lz p w u n i

theorem ivRho_add (p w : Fin (M + 4) → ℝ) (k : ℕ) (q : Fin nq) : ivRho (p + w) k q = ivRho p k q + ivRho w k q := by
  unfold ivRho
  split_ifs <;> simp

theorem ivRho_smul (t : ℝ) (w : Fin (M + 4) → ℝ) (k : ℕ) (q : Fin nq) : ivRho (t • w) k q = t * ivRho w k q := by
  unfold ivRho
  split_ifs <;> simp

theorem list_sum_lin {α : Type*} (l : List α) (f g : α → ℝ) (t : ℝ) : (l.map fun a => f a + t * g a).sum = (l.map f).sum + t * (l.map g).sum := by
  rw [List.sum_map_add, List.sum_map_mul_left]

theorem ivBalance_line (F : Fem nn nq nf nfq 3 3) (Lz : ℝ) (p w : Fin (M + 4) → ℝ) (u : ℕ → Fin 3 → ℝ) (n : ℕ) (i : Fin 3) (t : ℝ) :
    ivBalance F Lz (p + t • w) u n i = ivBalance F Lz p u n i + t * ivRate F Lz p w u n i + t ^ 2 * (F.cells.zipIdx.map fun ck => ∑ q, ivE w * ivRho w ck.2 q * ivForce F u ck.1 q n i).sum := by
  unfold ivBalance ivRate
  have h1 : ∀ ck : (Fin nn → ℕ) × ℕ, ∑ q, ivE (p + t • w) * ivRho (p + t • w) ck.2 q * ivForce F u ck.1 q n i =
      (∑ q, ivE p * ivRho p ck.2 q * ivForce F u ck.1 q n i + t * ∑ q, (ivE w * ivRho p ck.2 q + ivE p * ivRho w ck.2 q) * ivForce F u ck.1 q n i) + t ^ 2 * ∑ q, ivE w * ivRho w ck.2 q * ivForce F u ck.1 q n i := by
    intro ck
    rw [mul_sum, mul_sum, ← sum_add_distrib, ← sum_add_distrib]
    refine sum_congr rfl fun q _ => ?_
    rw [ivRho_add, ivRho_smul]
    have : ivE (p + t • w) = ivE p + t * ivE w := rfl
    rw [this]
    ring
  simp only [h1]
  rw [list_sum_lin, list_sum_lin]
  have h2 : ivS (p + t • w) = ivS p + t * ivS w := rfl
  have h3 : ivN (p + t • w) = ivN p + t * ivN w := rfl
  rw [h2, h3]
  ring

theorem ivCon_rate (F : Fem nn nq nf nfq 3 3) (Lz : ℝ) (hF : IvMesh F Lz) (p w : Fin (F.cells.length * nq + 4) → ℝ) (u : ℕ → ℝ) (n : ℕ) (hn : n < F.numTotal) (i : Fin 3) :
    HasDerivAt (fun t : ℝ => (ivProb F Lz).con u (p + t • w) (3 * n + i)) (ivConRate F Lz p w (fun n i => u (3 * n + i)) n i) 0 := by
  have hfun : (fun t : ℝ => (ivProb F Lz).con u (p + t • w) (3 * n + i)) = _ := funext fun t => ivCon F Lz hF (p + t • w) u n hn i
  rw [hfun]
  unfold ivConRate
  have hid : HasDerivAt (fun t : ℝ => t) 1 0 := hasDerivAt_id 0
  split_ifs with hb hi
  · have h1 : (fun t : ℝ => u (3 * n + i) - ivD (p + t • w) * Lz) = fun t => (u (3 * n + i) - ivD p * Lz) + t * -(ivD w * Lz) := by
      funext t
      have : ivD (p + t • w) = ivD p + t * ivD w := rfl
      rw [this]
      ring
    rw [h1]
    simpa using (hid.mul_const (-(ivD w * Lz))).const_add (u (3 * n + i) - ivD p * Lz)
  · simpa using hasDerivAt_const (0 : ℝ) (u (3 * n + i) - 0)
  · simp only [ivBalance_line]
    have h2 := (hasDerivAt_pow 2 (0 : ℝ)).mul_const (F.cells.zipIdx.map fun ck => ∑ q, ivE w * ivRho w ck.2 q * ivForce F (fun n i => u (3 * n + i)) ck.1 q n i).sum
    have h3 := (hid.mul_const (ivRate F Lz p w (fun n i => u (3 * n + i)) n i)).const_add (ivBalance F Lz p (fun n i => u (3 * n + i)) n i)
    simpa using h3.fun_add h2

/-- The rate is linear in the direction. -/
theorem ivConRate_sum (F : Fem nn nq nf nfq 3 3) (Lz : ℝ) (p w : Fin (M + 4) → ℝ) (u : ℕ → Fin 3 → ℝ) (n : ℕ) (i : Fin 3) :
    ivConRate F Lz p w u n i = ∑ j, w j * ivConRate F Lz p (Pi.single j 1) u n i := by
  have hlin : ∀ (x y : Fin (M + 4) → ℝ) (t : ℝ), ivRate F Lz p (x + t • y) u n i = ivRate F Lz p x u n i + t * ivRate F Lz p y u n i := by
    intro x y t
    unfold ivRate
    have h1 : ∀ ck : (Fin nn → ℕ) × ℕ, ∑ q, (ivE (x + t • y) * ivRho p ck.2 q + ivE p * ivRho (x + t • y) ck.2 q) * ivForce F u ck.1 q n i =
        ∑ q, (ivE x * ivRho p ck.2 q + ivE p * ivRho x ck.2 q) * ivForce F u ck.1 q n i + t * ∑ q, (ivE y * ivRho p ck.2 q + ivE p * ivRho y ck.2 q) * ivForce F u ck.1 q n i := by
      intro ck
      rw [mul_sum, ← sum_add_distrib]
      refine sum_congr rfl fun q _ => ?_
      rw [ivRho_add, ivRho_smul]
      have : ivE (x + t • y) = ivE x + t * ivE y := rfl
      rw [this]
      ring
    simp only [h1]
    rw [list_sum_lin]
    have h2 : ivS (x + t • y) = ivS x + t * ivS y := rfl
    have h3 : ivN (x + t • y) = ivN x + t * ivN y := rfl
    rw [h2, h3]
    ring
  have hlin2 : ∀ (x y : Fin (M + 4) → ℝ) (t : ℝ), ivConRate F Lz p (x + t • y) u n i = ivConRate F Lz p x u n i + t * ivConRate F Lz p y u n i := by
    intro x y t
    unfold ivConRate
    rw [hlin]
    have : ivD (x + t • y) = ivD x + t * ivD y := rfl
    rw [this]
    split_ifs <;> ring
  have hzero : ivConRate F Lz p 0 u n i = 0 := by
    have := hlin2 0 0 1
    simp only [smul_zero, add_zero, one_mul] at this
    linarith
  let L : (Fin (M + 4) → ℝ) →ₗ[ℝ] ℝ :=
    { toFun := fun w => ivConRate F Lz p w u n i
      map_add' := fun x y => by have := hlin2 x y 1; simpa using this
      map_smul' := fun t y => by have := hlin2 0 y t; simpa [hzero] using this }
  have h := L.pi_apply_eq_sum_univ w
  refine h.trans (sum_congr rfl fun j _ => ?_)
  have : (fun k : Fin (M + 4) => if j = k then (1 : ℝ) else 0) = Pi.single j 1 := by
    funext k
    simp [Pi.single_apply, eq_comm]
  rw [this]
  rfl

theorem sum_range_rows (c : ℕ) (f : ℕ → ℝ) : ∑ j ∈ range (c * nq), f j = ∑ k ∈ range c, ∑ q : Fin nq, f (k * nq + q) := by
  induction c with
  | zero => simp
  | succ c ih => rw [Nat.succ_mul, Finset.sum_range_add, ih, sum_range_succ, Finset.sum_range fun x => f (c * nq + x)]

/-- The sum over all parameters, field by field. -/
theorem ivSum (c : ℕ) (w g : Fin (c * nq + 4) → ℝ) :
    ∑ j, w j * g j = ivE w * ivE g + ∑ k ∈ range c, ∑ q : Fin nq, ivRho w k q * ivRho g k q + ivD w * ivD g + ivN w * ivN g + ivS w * ivS g := by
  set f : ℕ → ℝ := fun j => if h : j < c * nq + 4 then w ⟨j, h⟩ * g ⟨j, h⟩ else 0 with hf
  have h1 : ∑ j, w j * g j = ∑ j ∈ range (c * nq + 4), f j := by
    rw [Finset.sum_range]
    refine sum_congr rfl fun j _ => ?_
    simp [hf]
  rw [h1, sum_range_succ, sum_range_succ, sum_range_succ, sum_range_succ', sum_range_rows]
  have h2 : ∀ k ∈ range c, ∀ q : Fin nq, f (k * nq + q + 1) = ivRho w k q * ivRho g k q := by
    intro k hk q
    have hlt : k * nq + (q : ℕ) < c * nq := by
      have h3 : k + 1 ≤ c := mem_range.mp hk
      have h4 := Nat.mul_le_mul_right nq h3
      have h5 := q.2
      rw [Nat.succ_mul] at h4
      omega
    have hlt' : k * nq + (q : ℕ) + 1 < c * nq + 4 := by omega
    simp only [hf, ivRho, hlt, hlt', dif_pos]
  rw [sum_congr rfl fun k hk => sum_congr rfl fun q _ => h2 k hk q]
  have e0 : f 0 = ivE w * ivE g := by simp [hf, ivE]
  have e1 : f (c * nq + 1) = ivD w * ivD g := by simp [hf, ivD]
  have e2 : f (c * nq + 2) = ivN w * ivN g := by simp [hf, ivN]
  have e3 : f (c * nq + 3) = ivS w * ivS g := by simp [hf, ivS]
  rw [e0, e1, e2, e3]
  ring

/-! ## The gradient returned by reverse mode -/

theorem sum_dofs3 (N : ℕ) (f : ℕ → ℝ) : ∑ d ∈ range (N * 3), f d = ∑ n ∈ range N, ∑ i : Fin 3, f (3 * n + i) := by
  rw [sum_range_rows (nq := 3)]
  refine sum_congr rfl fun n _ => sum_congr rfl fun i _ => ?_
  rw [mul_comm]

/-- The gradient in any direction: minus the pairing of whatever the linear solver returned with the rate of the modified residual. -/
theorem ivGrad (F : Fem nn nq nf nfq 3 3) (Lz : ℝ) (hF : IvMesh F Lz) (lin : LinCall ℝ → ℕ → ℝ) (u : ℕ → ℝ) (p g : Fin (F.cells.length * nq + 4) → ℝ) (v : ℕ → ℝ) (usePetsc : Bool)
    (hg : (ivProb F Lz).implicitVjp lin u p v usePetsc = .ok g) : ∃ nw call, ((ivProb F Lz).prob p).newton u = .ok nw ∧
      call.op = ParamProb.transposeOp (F.numTotal * 3) (((ivProb F Lz).prob p).getAFn realArith usePetsc nw) ∧ call.b = v ∧
      ∀ w, ∑ j, w j * g j = -∑ n ∈ range F.numTotal, ∑ i : Fin 3, lin call (3 * n + i) * ivConRate F Lz p w (fun n i => u (3 * n + i)) n i := by
  unfold ParamProb.implicitVjp at hg
  cases hn : ((ivProb F Lz).prob p).newton u with
  | error e => rw [hn] at hg; cases hg
  | ok nw =>
    rw [hn] at hg
    injection hg with hg
    refine ⟨nw, ⟨usePetsc, ParamProb.transposeOp (F.numTotal * 3) (((ivProb F Lz).prob p).getAFn realArith usePetsc nw), v, none, if usePetsc then none else some (((ivProb F Lz).prob p).jacobi realArith nw)⟩,
      rfl, rfl, rfl, fun w => ?_⟩
    have hN : ((ivProb F Lz).prob p).numDofs = F.numTotal * 3 := rfl
    rw [hN] at hg
    generalize lin ⟨usePetsc, ParamProb.transposeOp (F.numTotal * 3) (((ivProb F Lz).prob p).getAFn realArith usePetsc nw), v, none, if usePetsc then none else some (((ivProb F Lz).prob p).jacobi realArith nw)⟩ = lam at hg ⊢
    have h1 : ∀ j, g j = -∑ n ∈ range F.numTotal, ∑ i : Fin 3, lam (3 * n + i) * ivConRate F Lz p (Pi.single j 1) (fun n i => u (3 * n + i)) n i := by
      intro j
      rw [← hg]
      simp only
      rw [sum_dofs3]
      congr 1
      refine sum_congr rfl fun n hn => sum_congr rfl fun i _ => ?_
      rw [(ivCon_rate F Lz hF p (Pi.single j 1) u n (mem_range.mp hn) i).deriv]
    simp only [h1, mul_neg, sum_neg_distrib, mul_sum]
    congr 1
    rw [sum_comm]
    refine sum_congr rfl fun n _ => ?_
    rw [sum_comm]
    refine sum_congr rfl fun i _ => ?_
    rw [ivConRate_sum F Lz p w, mul_sum]
    exact sum_congr rfl fun j _ => by ring

/-- A vector of parameters with the same density everywhere, as in the demo (example.py 94-97). -/
noncomputable def ivMk (M : ℕ) (E rho d n s : ℝ) : Fin (M + 4) → ℝ := fun j =>
  if (j : ℕ) = 0 then E else if (j : ℕ) ≤ M then rho else if (j : ℕ) = M + 1 then d else if (j : ℕ) = M + 2 then n else s

theorem ivMk_fields (c nq : ℕ) (E rho d n s : ℝ) : ivE (ivMk (c * nq) E rho d n s) = E ∧ ivD (ivMk (c * nq) E rho d n s) = d ∧ ivN (ivMk (c * nq) E rho d n s) = n ∧ ivS (ivMk (c * nq) E rho d n s) = s ∧
    ∀ k < c, ∀ q : Fin nq, ivRho (ivMk (c * nq) E rho d n s) k q = rho := by
  refine ⟨by simp [ivE, ivMk], by simp [ivD, ivMk], ?_, ?_, fun k hk q => ?_⟩
  · simp [ivN, ivMk]
  · simp [ivS, ivMk]
  · have hlt : k * nq + (q : ℕ) < c * nq := by
      have h4 := Nat.mul_le_mul_right nq (show k + 1 ≤ c from hk)
      have h5 := q.2
      rw [Nat.succ_mul] at h4
      omega
    have hle : k * nq + (q : ℕ) + 1 ≤ c * nq := hlt
    simp [ivRho, ivMk, hlt, hle]

/-- The direction that scales one group of parameters by `a`, `b`, ... -/
def ivDir (a b c d e : ℝ) (p : Fin (M + 4) → ℝ) : Fin (M + 4) → ℝ := fun j =>
  (if (j : ℕ) = 0 then a else if (j : ℕ) ≤ M then b else if (j : ℕ) = M + 1 then c else if (j : ℕ) = M + 2 then d else e) * p j

theorem ivDir_fields (a b c d e : ℝ) (p : Fin (M + 4) → ℝ) : ivE (ivDir a b c d e p) = a * ivE p ∧ ivD (ivDir a b c d e p) = c * ivD p ∧ ivN (ivDir a b c d e p) = d * ivN p ∧
    ivS (ivDir a b c d e p) = e * ivS p ∧ ∀ k (q : Fin nq), ivRho (ivDir a b c d e p) k q = b * ivRho p k q := by
  refine ⟨by simp [ivE, ivDir], by simp [ivD, ivDir], by simp [ivN, ivDir], by simp [ivS, ivDir], fun k q => ?_⟩
  unfold ivRho ivDir
  split_ifs with h1 h2 h3 <;> simp_all <;> omega

/-- **C128 (modulus and density).** For every state, every right-hand side and every linear solver, exact or not, the gradient of reverse mode satisfies `E dE = ∑ rho drho`. At an exact solution it also satisfies
`E dE + scale_n dscale_n + scale_s dscale_s = 0`; at any other state the difference is the pairing of the vector returned by the linear solver with the remaining residual. -/
theorem C128_scaling (F : Fem nn nq nf nfq 3 3) (Lz : ℝ) (hF : IvMesh F Lz) (lin : LinCall ℝ → ℕ → ℝ) (u : ℕ → ℝ) (p g : Fin (F.cells.length * nq + 4) → ℝ) (v : ℕ → ℝ) (usePetsc : Bool)
    (hg : (ivProb F Lz).implicitVjp lin u p v usePetsc = .ok g) :
    ivE p * ivE g = ∑ k ∈ range F.cells.length, ∑ q : Fin nq, ivRho p k q * ivRho g k q ∧
    (IvSolves F Lz p (fun n i => u (3 * n + i)) → ivE p * ivE g + ivN p * ivN g + ivS p * ivS g = 0) ∧
    ∃ lam : ℕ → ℝ, ivE p * ivE g + ivN p * ivN g + ivS p * ivS g =
      -∑ n ∈ (range F.numTotal).filter (fun n => ivBottom (F.points n) = false), ∑ i : Fin 3, lam (3 * n + i) * (ivProb F Lz).con u p (3 * n + i) := by
  obtain ⟨nw, call, -, -, -, hw⟩ := ivGrad F Lz hF lin u p g v usePetsc hg
  have key : ivE p * ivE g + ivN p * ivN g + ivS p * ivS g =
      -∑ n ∈ (range F.numTotal).filter (fun n => ivBottom (F.points n) = false), ∑ i : Fin 3, lin call (3 * n + i) * (ivProb F Lz).con u p (3 * n + i) := by
    have h1 := hw (ivDir 1 0 0 1 1 p)
    obtain ⟨e1, e2, e3, e4, e5⟩ := ivDir_fields (nq := nq) 1 0 0 1 1 p
    rw [ivSum, e1, e2, e3, e4] at h1
    simp only [e5, zero_mul, sum_const_zero, one_mul, add_zero] at h1
    rw [h1, sum_filter]
    congr 1
    refine sum_congr rfl fun n hn => ?_
    by_cases hb : ivBottom (F.points n) = true
    · rw [if_neg (by simp [hb])]
      refine sum_eq_zero fun i _ => ?_
      unfold ivConRate
      rw [if_pos hb, e2]
      simp
    · rw [if_pos (by simpa using hb)]
      refine sum_congr rfl fun i _ => ?_
      rw [ivCon F Lz hF p u n (mem_range.mp hn) i, if_neg hb]
      unfold ivConRate ivRate ivBalance
      rw [if_neg hb, e1, e3, e4]
      simp only [e5, one_mul, zero_mul, mul_zero, add_zero]
  refine ⟨?_, fun hs => ?_, lin call, key⟩
  · have h1 := hw (ivDir 1 (-1) 0 0 0 p)
    obtain ⟨e1, e2, e3, e4, e5⟩ := ivDir_fields (nq := nq) 1 (-1) 0 0 0 p
    rw [ivSum, e1, e2, e3, e4] at h1
    simp only [e5, zero_mul, one_mul, add_zero, neg_mul, sum_neg_distrib] at h1
    have h2 : ∀ n i, ivConRate F Lz p (ivDir 1 (-1) 0 0 0 p) (fun n i => u (3 * n + i)) n i = 0 := by
      intro n i
      unfold ivConRate ivRate
      rw [e1, e2, e3, e4]
      have h3 : ∀ (ck : (Fin nn → ℕ) × ℕ) (q : Fin nq), 1 * ivE p * ivRho p ck.2 q + ivE p * ivRho (ivDir 1 (-1) 0 0 0 p) ck.2 q = 0 := by
        intro ck q
        rw [e5]
        ring
      simp only [h3]
      simp
    simp only [h2, mul_zero, sum_const_zero, neg_zero] at h1
    linarith
  · rw [key]
    rw [sum_eq_zero, neg_zero]
    intro n hn
    rw [mem_filter] at hn
    refine sum_eq_zero fun i _ => ?_
    rw [ivCon F Lz hF p u n (mem_range.mp hn.1) i, if_neg (by simp [hn.2]), hs.balance n (mem_range.mp hn.1) hn.2 i, mul_zero]

/-! ## Shifting the support -/

/-- Specification: the field moved by `s` along z. -/
def ivShift (s : ℝ) (u : ℕ → Fin 3 → ℝ) : ℕ → Fin 3 → ℝ := fun n i => u n i + if i = 2 then s else 0

theorem gradAt_ivShift (F : Fem nn nq nf nfq 3 3) (hsum : ∀ q b, ∑ n, F.shapeGradsRef q n b = 0) (s : ℝ) (u : ℕ → Fin 3 → ℝ) (c : Fin nn → ℕ) (q : Fin nq) : F.gradAt (ivShift s u) c q = F.gradAt u c q := by
  funext i d
  unfold Fem.gradAt ivShift
  simp only [add_mul, sum_add_distrib]
  rw [← mul_sum, grad_sum_zero F hsum, mul_zero, add_zero]

theorem ivBalance_shift (F : Fem nn nq nf nfq 3 3) (Lz : ℝ) (hsum : ∀ q b, ∑ n, F.shapeGradsRef q n b = 0) (p : Fin (M + 4) → ℝ) (s : ℝ) (u : ℕ → Fin 3 → ℝ) (n : ℕ) (i : Fin 3) :
    ivBalance F Lz p (ivShift s u) n i = ivBalance F Lz p u n i := by
  unfold ivBalance ivForce
  simp only [gradAt_ivShift F hsum]

/-- Index of `scale_d`. -/
def ivDIdx (M : ℕ) : Fin (M + 4) := ⟨M + 1, by omega⟩

theorem ivUpdate_fields (p : Fin (M + 4) → ℝ) (s : ℝ) : ivE (Function.update p (ivDIdx M) s) = ivE p ∧ ivD (Function.update p (ivDIdx M) s) = s ∧ ivN (Function.update p (ivDIdx M) s) = ivN p ∧
    ivS (Function.update p (ivDIdx M) s) = ivS p ∧ ∀ k (q : Fin nq), ivRho (Function.update p (ivDIdx M) s) k q = ivRho p k q := by
  refine ⟨?_, ?_, ?_, ?_, fun k q => ?_⟩
  · exact Function.update_of_ne (by simp [ivDIdx, Fin.ext_iff]) _ _
  · exact Function.update_self _ _ _
  · exact Function.update_of_ne (by simp [ivDIdx, Fin.ext_iff]) _ _
  · exact Function.update_of_ne (by simp [ivDIdx, Fin.ext_iff]) _ _
  · unfold ivRho
    split_ifs with h
    · exact Function.update_of_ne (by simp only [ivDIdx, ne_eq, Fin.ext_iff]; omega) _ _
    · rfl

/-- **C128 (support).** Changing `scale_d` moves the exact solutions rigidly: `u` solves the problem iff the field moved by the change of the prescribed displacement solves the changed one. -/
theorem C128_shift (F : Fem nn nq nf nfq 3 3) (Lz : ℝ) (hF : IvMesh F Lz) (p : Fin (M + 4) → ℝ) (s : ℝ) (u : ℕ → Fin 3 → ℝ) :
    IvSolves F Lz p u ↔ IvSolves F Lz (Function.update p (ivDIdx M) s) (ivShift ((s - ivD p) * Lz) u) := by
  obtain ⟨e1, e2, e3, e4, e5⟩ := ivUpdate_fields (nq := nq) p s
  have hb : ∀ n i, ivBalance F Lz (Function.update p (ivDIdx M) s) (ivShift ((s - ivD p) * Lz) u) n i = ivBalance F Lz p u n i := by
    intro n i
    rw [ivBalance_shift F Lz hF.sum]
    unfold ivBalance
    simp only [e1, e3, e4, e5]
  constructor
  · intro h
    refine ⟨fun n hn hbot => ?_, fun n hn hbot i => by rw [hb]; exact h.balance n hn hbot i⟩
    obtain ⟨h0, h1, h2⟩ := h.support n hn hbot
    refine ⟨by simp [ivShift, h0], by simp [ivShift, h1], ?_⟩
    simp only [ivShift, h2, if_true, e2]
    ring
  · intro h
    refine ⟨fun n hn hbot => ?_, fun n hn hbot i => by rw [← hb]; exact h.balance n hn hbot i⟩
    obtain ⟨h0, h1, h2⟩ := h.support n hn hbot
    refine ⟨by simpa [ivShift] using h0, by simpa [ivShift] using h1, ?_⟩
    simp only [ivShift, if_true, e2] at h2
    linarith

/-- **C128 (finite difference).** With the moved solution, the finite difference of the demo with respect to `scale_d` is `2 Lz ∑ u_z` plus the error `h scale_d Lz² num_nodes`, whatever the solution is. -/
theorem C128_fd (N : ℕ) (Lz h d : ℝ) (hh : h ≠ 0) (hd : d ≠ 0) (u : ℕ → Fin 3 → ℝ) (x x' : ℕ → ℝ) (hx : ∀ n (i : Fin 3), x (3 * n + i) = u n i) (hx' : ∀ n (i : Fin 3), x' (3 * n + i) = ivShift (((1 + h) * d - d) * Lz) u n i) :
    (ivTest (N * 3) x' - ivTest (N * 3) x) / (h * d) = 2 * Lz * ∑ n ∈ range N, u n 2 + h * d * Lz ^ 2 * N := by
  unfold ivTest
  rw [sum_dofs3, sum_dofs3, div_eq_iff (mul_ne_zero hh hd)]
  simp only [hx, hx', Fin.sum_univ_three, ivShift]
  rw [← sum_sub_distrib]
  refine Eq.trans (sum_congr rfl (g := fun n => (2 * Lz * u n 2 + h * d * Lz ^ 2) * (h * d)) fun n _ => ?_) ?_
  · simp
    ring
  · rw [← sum_mul, sum_add_distrib, ← mul_sum, sum_const, card_range, nsmul_eq_mul]
    ring

/-! ## Exact adjoint -/

/-- The stress is differentiable where the determinant of the deformation gradient is positive. -/
theorem ivStress_diff (E rho : ℝ) (g : Fin 3 → Fin 3 → ℝ) (hdet : 0 < (Matrix.of g + 1 : T33).det) : DifferentiableAt ℝ (ivStress E rho) g := by
  have hent : ∀ i j, Differentiable ℝ fun g : Fin 3 → Fin 3 → ℝ => (Matrix.of g + 1 : T33) i j := by
    intro i j
    simp only [Matrix.add_apply, Matrix.of_apply]
    fun_prop
  have hd : Differentiable ℝ fun g : Fin 3 → Fin 3 → ℝ => (Matrix.of g + 1 : T33).det := by
    simp only [Matrix.det_fin_three, Matrix.add_apply, Matrix.of_apply]
    generalize (1 : T33) = X
    fun_prop
  have hadj : ∀ i j, Differentiable ℝ fun g : Fin 3 → Fin 3 → ℝ => (Matrix.of g + 1 : T33).adjugate i j := by
    intro i j
    simp only [Matrix.adjugate_fin_three, Matrix.add_apply, Matrix.of_apply]
    generalize (1 : T33) = X
    fin_cases i <;> fin_cases j <;> simp only [Matrix.cons_val', Matrix.cons_val_zero, Matrix.cons_val_one, Matrix.cons_val, Fin.zero_eta, Fin.mk_one, Fin.reduceFinMk] <;> fun_prop
  have htr : Differentiable ℝ fun g : Fin 3 → Fin 3 → ℝ => ((Matrix.of g + 1 : T33)ᵀ * (Matrix.of g + 1 : T33)).trace := by
    simp only [Matrix.trace, Matrix.diag_apply, Matrix.mul_apply, Matrix.transpose_apply, Matrix.add_apply, Matrix.of_apply]
    generalize (1 : T33) = X
    fun_prop
  have hev : ∀ᶠ g' in nhds g, 0 < (Matrix.of g' + 1 : T33).det := hd.continuous.continuousAt.eventually (lt_mem_nhds hdet)
  set mu := E * rho / (2 * (1 + 0.3)) with hmu
  set kappa := E * rho / (3 * (1 - 2 * 0.3)) with hkappa
  have heq : ivStress E rho =ᶠ[nhds g] fun g' => fun i d => neoStress mu kappa (Matrix.of g' + 1) i d := by
    filter_upwards [hev] with g' hg'
    funext i d
    unfold ivStress
    rw [(msPsi_grad (E * rho) 0.3 (Matrix.of g' + 1) hg').eq]
  refine DifferentiableAt.congr_of_eventuallyEq ?_ heq
  rw [differentiableAt_pi]
  intro i
  rw [differentiableAt_pi]
  intro d
  have hinv : ∀ g' : Fin 3 → Fin 3 → ℝ, ((Matrix.of g' + 1 : T33)⁻¹)ᵀ i d = (Matrix.of g' + 1 : T33).det⁻¹ * (Matrix.of g' + 1 : T33).adjugate d i := by
    intro g'
    rw [Matrix.transpose_apply, Matrix.inv_def, Matrix.smul_apply, Ring.inverse_eq_inv', smul_eq_mul]
  unfold neoStress
  simp only [Matrix.add_apply (α := ℝ) (A := _ • _) , Matrix.smul_apply, Matrix.sub_apply, smul_eq_mul, hinv]
  have h1 : DifferentiableAt ℝ (fun g' : Fin 3 → Fin 3 → ℝ => (Matrix.of g' + 1 : T33).det ^ (-2 / 3 : ℝ)) g := (hd g).rpow_const (Or.inl hdet.ne')
  have h2 : DifferentiableAt ℝ (fun g' : Fin 3 → Fin 3 → ℝ => (Matrix.of g' + 1 : T33).det⁻¹) g := (hd g).inv hdet.ne'
  have h3 := hd g
  have h4 := hadj d i g
  have h5 : DifferentiableAt ℝ (fun g' : Fin 3 → Fin 3 → ℝ => ((Matrix.of g' + 1 : T33)ᵀ * (Matrix.of g' + 1 : T33)).trace / 3) g := by
    simp only [div_eq_mul_inv]
    exact (htr g).mul_const _
  have h6 := hent i d g
  have h7 := ((h1.const_mul mu).mul (h6.sub (h5.mul (h2.mul h4)))).add ((((h3.sub_const (1 : ℝ)).const_mul kappa).mul h3).mul (h2.mul h4))
  exact h7

/-- The operator of `get_A_fn` acts as a matrix. -/
theorem getAFn_sum {E : Type} (P : Prob ℝ E) (h : P.WF) (nw : Newton ℝ) (hJ : ∀ j ∈ nw.J, j < P.numDofs) (usePetsc : Bool) (x : ℕ → ℝ) (r : ℕ) (hr : r < P.numDofs) :
    P.getAFn realArith usePetsc nw x r = ∑ c ∈ range P.numDofs, P.getAFn realArith usePetsc nw (Pi.single c 1) r * x c := by
  have hred : ∀ y : ℕ → ℝ, P.getAFn realArith usePetsc nw y r = P.getAFn realArith false nw y r := by
    intro y
    cases usePetsc with
    | true => exact C20_petsc_eq_jax P h nw hJ y r hr
    | false => rfl
  simp only [hred]
  have hA : ∀ y : ℕ → ℝ, P.getAFn realArith false nw y r = _ := fun y => P.rowElimination_eq h (Prob.spMul realArith nw.I nw.J nw.V) y r
  simp only [hA]
  cases lastVal P.prescriptions r with
  | some v =>
    simp only
    rw [sum_eq_single r (fun c _ hc => by rw [Pi.single_eq_of_ne (Ne.symm hc), zero_mul]) (fun hc => absurd (mem_range.mpr hr) hc), Pi.single_eq_same, one_mul]
  | none =>
    simp only [spMul_real]
    have hcol : ∀ y : ℕ → ℝ, cooMul nw.I nw.J nw.V y r = ∑ c ∈ range P.numDofs, Prob.entry realArith nw.I nw.J nw.V r c * y c := fun y => (cooMul_dense nw.I nw.J nw.V P.numDofs hJ y r).symm
    rw [hcol]
    refine sum_congr rfl fun c hc => ?_
    rw [hcol, sum_eq_single c (fun d _ hd => by rw [Pi.single_eq_of_ne hd, mul_zero]) (fun hc' => absurd hc hc'), Pi.single_eq_same, mul_one]

/-- The unit translation along z, as a vector. -/
def ivUnit : ℕ → ℝ := fun d => if d % 3 = 2 then 1 else 0

theorem ivNewton (F : Fem nn nq nf nfq 3 3) (Lz : ℝ) (p : Fin (F.cells.length * nq + 4) → ℝ) (u : ℕ → ℝ) (nw : Newton ℝ) (hn : ((ivProb F Lz).prob p).newton u = .ok nw) :
    ∃ R I J V, (ivFem F Lz p).newtonUpdate (fun n i => u (3 * n + i)) = .ok (R, I, J, V) ∧ nw.I = I ∧ nw.J = J ∧ nw.V = V := by
  have hn' : ((ivFem F Lz p).toProb (ivGroups F Lz (ivD p))).newton u = .ok nw := hn
  simp only [Fem.toProb] at hn'
  cases hu : (ivFem F Lz p).newtonUpdate (fun n i => u (3 * n + i)) with
  | error e => rw [hu] at hn'; cases hn'
  | ok nu =>
    cases hneu : (ivFem F Lz p).neumannIntegral with
    | error e => rw [hu, hneu] at hn'; cases hn'
    | ok neu =>
      rw [hu, hneu] at hn'
      injection hn' with hn'
      obtain ⟨R, I, J, V⟩ := nu
      exact ⟨R, I, J, V, rfl, by rw [← hn'], by rw [← hn'], by rw [← hn']⟩

/-- Applied to the unit translation, the operator of the demo gives one at the supported vertical components and zero elsewhere. -/
theorem ivOp_unit (F : Fem nn nq nf nfq 3 3) (Lz : ℝ) (hF : IvMesh F Lz) (p : Fin (F.cells.length * nq + 4) → ℝ) (u : ℕ → ℝ) (nw : Newton ℝ) (hn : ((ivProb F Lz).prob p).newton u = .ok nw)
    (hdet : ∀ c ∈ F.cells, ∀ q, 0 < (Matrix.of (F.gradAt (fun n i => u (3 * n + i)) c q) + 1 : T33).det) (usePetsc : Bool) (n : ℕ) (hnn : n < F.numTotal) (i : Fin 3) :
    ((ivProb F Lz).prob p).getAFn realArith usePetsc nw ivUnit (3 * n + i) = if ivBottom (F.points n) = true then (if i = 2 then 1 else 0) else 0 := by
  have hwf := ivWF F Lz p
  obtain ⟨R, I, J, V, hu, rfl, rfl, rfl⟩ := ivNewton F Lz p u nw hn
  have hJ : ∀ j ∈ nw.J, j < ((ivProb F Lz).prob p).numDofs := by
    obtain ⟨-, -, hJ, -⟩ := (newtonUpdate_ok_iff _ _ _ _ _ _).mp hu
    rw [hJ]
    have hc : Fem.pairs (ivFem F Lz p).cauchy = [] := rfl
    rw [hc]
    simp only [List.flatMap_nil]
    intro j hj
    rcases List.mem_append.mp hj with hj | hj
    · exact cooJ_mem F.cells F.numTotal hF.nodes j hj
    · simp [Fem.cooJ] at hj
  have hr : 3 * n + (i : ℕ) < ((ivProb F Lz).prob p).numDofs := by
    show 3 * n + (i : ℕ) < F.numTotal * 3
    have := i.2
    omega
  have hred : ((ivProb F Lz).prob p).getAFn realArith usePetsc nw ivUnit (3 * n + i) = ((ivProb F Lz).prob p).getAFn realArith false nw ivUnit (3 * n + i) := by
    cases usePetsc with
    | true => exact C20_petsc_eq_jax _ hwf nw hJ _ _ hr
    | false => rfl
  rw [hred]
  obtain ⟨Rf, h1, -, h3⟩ := C14_tangent (ivFem F Lz p) _ R nw.I nw.J nw.V hu (fun k c hk => C14_kernel_differentiable (ivFem F Lz p) k c _ (by
    intro tm htm q
    cases htm
    exact ivStress_diff _ _ _ (hdet c (List.mem_of_getElem? hk) q)) (by intro mm hmm; cases hmm)) (by
    intro lv hlv
    cases hlv)
  have hD := C20_derivative ((ivProb F Lz).prob p) hwf nw ((ivProb F Lz).res p) u ivUnit (fun d => by
    have hflat : 3 * (d / 3) + (Fin.ofNat 3 d : ℕ) = d := Nat.div_add_mod d 3
    have h4 := h3 (fun n i => ivUnit (3 * n + i)) ivUnit (fun _ _ => rfl) (d / 3) (Fin.ofNat 3 d)
    rw [hflat] at h4
    have h5 : (fun t : ℝ => (ivProb F Lz).res p (u + t • ivUnit) d) = fun t : ℝ => Rf ((fun (n : ℕ) (i : Fin 3) => u (3 * n + i)) + t • fun n (i : Fin 3) => ivUnit (3 * n + i)) (d / 3) (Fin.ofNat 3 d) := by
      funext t
      show (match (ivFem F Lz p).computeResidual (fun n i => (u + t • ivUnit) (3 * n + i)) with
        | .ok R => R (d / 3) (Fin.ofNat 3 d)
        | .error _ => 0) = _
      have h6 := h1 ((fun (n : ℕ) (i : Fin 3) => u (3 * n + i)) + t • fun n (i : Fin 3) => ivUnit (3 * n + i))
      have h7 : ((fun (n : ℕ) (i : Fin 3) => u (3 * n + i)) + t • fun n (i : Fin 3) => ivUnit (3 * n + i)) = fun (n : ℕ) (i : Fin 3) => (u + t • ivUnit) (3 * n + i) := rfl
      rw [h7] at h6 ⊢
      rw [h6]
    rw [h5]
    exact h4) (3 * n + i)
  have hfun : (fun t : ℝ => ((ivProb F Lz).prob p).applyBcVec realArith ((ivProb F Lz).res p (u + t • ivUnit)) (u + t • ivUnit) (3 * n + i)) =
      fun t => if ivBottom (F.points n) = true then (u (3 * n + i) + t * (if i = 2 then 1 else 0)) - (if i = 2 then ivD p * Lz else 0) else ivBalance F Lz p (fun n i => u (3 * n + i)) n i := by
    funext t
    refine (ivCon F Lz hF p (u + t • ivUnit) n hnn i).trans ?_
    have hz : ∀ (m : ℕ) (j : Fin 3), ivUnit (3 * m + j) = if j = 2 then 1 else 0 := by
      intro m j
      have : (3 * m + (j : ℕ)) % 3 = j := by have := j.2; omega
      unfold ivUnit
      rw [this]
      simp only [Fin.ext_iff]
      rfl
    have e1 : (fun (n : ℕ) (i : Fin 3) => (u + t • ivUnit) (3 * n + i)) = ivShift t fun n i => u (3 * n + i) := by
      funext m j
      simp only [Pi.add_apply, Pi.smul_apply, smul_eq_mul, hz, ivShift, mul_ite, mul_one, mul_zero]
    rw [e1, ivBalance_shift F Lz hF.sum]
    simp only [Pi.add_apply, Pi.smul_apply, smul_eq_mul, hz]
  rw [hfun] at hD
  refine hD.unique ?_
  have hid : HasDerivAt (fun t : ℝ => t) 1 0 := hasDerivAt_id 0
  split_ifs with hb hi
  · simpa using ((hid.mul_const (1 : ℝ)).const_add (u (3 * n + i))).sub_const (ivD p * Lz)
  · simpa using hasDerivAt_const (0 : ℝ) (u (3 * n + i))
  · exact hasDerivAt_const _ _

/-- **C128 (support, reverse mode).** At a state with positive determinants, with a linear solver that solves the adjoint system, the derivative with respect to `scale_d` is `Lz` times the sum of the vertical components of
the cotangent: what a rigid motion along z gives. -/
theorem C128_support (F : Fem nn nq nf nfq 3 3) (Lz : ℝ) (hF : IvMesh F Lz) (lin : LinCall ℝ → ℕ → ℝ) (u : ℕ → ℝ) (p g : Fin (F.cells.length * nq + 4) → ℝ) (v : ℕ → ℝ) (usePetsc : Bool)
    (hg : (ivProb F Lz).implicitVjp lin u p v usePetsc = .ok g) (hdet : ∀ c ∈ F.cells, ∀ q, 0 < (Matrix.of (F.gradAt (fun n i => u (3 * n + i)) c q) + 1 : T33).det)
    (hlin : ∀ nw, ((ivProb F Lz).prob p).newton u = .ok nw → ∀ call : LinCall ℝ, call.op = ParamProb.transposeOp (F.numTotal * 3) (((ivProb F Lz).prob p).getAFn realArith usePetsc nw) →
      ∀ d < F.numTotal * 3, call.op (lin call) d = call.b d) :
    ivD g = Lz * ∑ n ∈ range F.numTotal, v (3 * n + 2) := by
  obtain ⟨nw, call, hn, hop, hb, hw⟩ := ivGrad F Lz hF lin u p g v usePetsc hg
  have hwf := ivWF F Lz p
  have h1 := hw (Pi.single (ivDIdx _) 1)
  have h2 : ∑ j, (Pi.single (ivDIdx (F.cells.length * nq)) 1 : Fin (F.cells.length * nq + 4) → ℝ) j * g j = ivD g := by
    rw [sum_eq_single (ivDIdx (F.cells.length * nq)) (fun j _ hj => by rw [Pi.single_eq_of_ne hj, zero_mul]) (fun h => absurd (mem_univ _) h), Pi.single_eq_same, one_mul]
    rfl
  rw [h2] at h1
  have hsingle : (Pi.single (ivDIdx (F.cells.length * nq)) 1 : Fin (F.cells.length * nq + 4) → ℝ) = Function.update (0 : Fin (F.cells.length * nq + 4) → ℝ) (ivDIdx _) (1 : ℝ) := rfl
  obtain ⟨e1, e2, e3, e4, e5⟩ := ivUpdate_fields (nq := nq) (0 : Fin (F.cells.length * nq + 4) → ℝ) (1 : ℝ)
  have hrate : ∀ n (i : Fin 3), ivConRate F Lz p (Pi.single (ivDIdx _) 1) (fun n i => u (3 * n + i)) n i = -(Lz * (if ivBottom (F.points n) = true then (if i = 2 then 1 else 0) else 0)) := by
    intro n i
    unfold ivConRate ivRate
    rw [hsingle, e1, e2, e3, e4]
    have z1 : ivE (0 : Fin (F.cells.length * nq + 4) → ℝ) = 0 := rfl
    have z2 : ivS (0 : Fin (F.cells.length * nq + 4) → ℝ) = 0 := rfl
    have z3 : ivN (0 : Fin (F.cells.length * nq + 4) → ℝ) = 0 := rfl
    have z4 : ∀ k (q : Fin nq), ivRho (0 : Fin (F.cells.length * nq + 4) → ℝ) k q = 0 := by
      intro k q
      unfold ivRho
      split_ifs <;> rfl
    simp only [e5, z1, z2, z3, z4]
    split_ifs <;> simp
  have hA : ∀ n ∈ range F.numTotal, ∀ i : Fin 3, ivConRate F Lz p (Pi.single (ivDIdx _) 1) (fun n i => u (3 * n + i)) n i =
      -(Lz * ((ivProb F Lz).prob p).getAFn realArith usePetsc nw ivUnit (3 * n + i)) := by
    intro n hnr i
    rw [hrate, ivOp_unit F Lz hF p u nw hn hdet usePetsc n (mem_range.mp hnr) i]
  have hJ : ∀ j ∈ nw.J, j < ((ivProb F Lz).prob p).numDofs := by
    obtain ⟨R, I, J, V, hu, rfl, rfl, rfl⟩ := ivNewton F Lz p u nw hn
    obtain ⟨-, -, hJ, -⟩ := (newtonUpdate_ok_iff _ _ _ _ _ _).mp hu
    rw [hJ]
    have hc : Fem.pairs (ivFem F Lz p).cauchy = [] := rfl
    rw [hc]
    simp only [List.flatMap_nil]
    intro j hj
    rcases List.mem_append.mp hj with hj | hj
    · exact cooJ_mem F.cells F.numTotal hF.nodes j hj
    · simp [Fem.cooJ] at hj
  rw [h1]
  rw [sum_congr rfl fun n hn => sum_congr rfl fun i _ => by rw [hA n hn i]]
  rw [← sum_dofs3 F.numTotal fun d => lin call d * -(Lz * ((ivProb F Lz).prob p).getAFn realArith usePetsc nw ivUnit d)]
  have hN : ((ivProb F Lz).prob p).numDofs = F.numTotal * 3 := rfl
  have h3 : ∀ d ∈ range (F.numTotal * 3), lin call d * -(Lz * ((ivProb F Lz).prob p).getAFn realArith usePetsc nw ivUnit d) =
      -(Lz * ∑ c ∈ range (F.numTotal * 3), ((ivProb F Lz).prob p).getAFn realArith usePetsc nw (Pi.single c 1) d * lin call d * ivUnit c) := by
    intro d hd
    rw [getAFn_sum _ hwf nw hJ usePetsc ivUnit d (by rw [hN]; exact mem_range.mp hd), hN]
    rw [mul_neg, mul_left_comm, mul_sum]
    congr 2
    exact sum_congr rfl fun c _ => by ring
  rw [sum_congr rfl h3, sum_neg_distrib, neg_neg, ← mul_sum, sum_comm]
  congr 1
  have h4 : ∀ c ∈ range (F.numTotal * 3), ∑ d ∈ range (F.numTotal * 3), ((ivProb F Lz).prob p).getAFn realArith usePetsc nw (Pi.single c 1) d * lin call d * ivUnit c = v c * ivUnit c := by
    intro c hc
    have h5 := hlin nw hn call hop c (mem_range.mp hc)
    rw [hb, hop] at h5
    rw [← sum_mul, ← h5]
    rfl
  rw [sum_congr rfl h4, sum_dofs3 F.numTotal fun c => v c * ivUnit c]
  refine sum_congr rfl fun n _ => ?_
  rw [Fin.sum_univ_three]
  have u0 : ivUnit (3 * n + ((0 : Fin 3) : ℕ)) = 0 := by unfold ivUnit; rw [if_neg]; show ¬ (3 * n + 0) % 3 = 2; omega
  have u1 : ivUnit (3 * n + ((1 : Fin 3) : ℕ)) = 0 := by unfold ivUnit; rw [if_neg]; show ¬ (3 * n + 1) % 3 = 2; omega
  have u2 : ivUnit (3 * n + ((2 : Fin 3) : ℕ)) = 1 := by unfold ivUnit; rw [if_pos]; show (3 * n + 2) % 3 = 2; omega
  rw [u0, u1, u2]
  simp

/-! ## The demo -/

theorem deriv_ivTest (N : ℕ) (x : ℕ → ℝ) (d : ℕ) (hd : d < N) : deriv (fun t : ℝ => ivTest N (x + t • Pi.single d 1)) 0 = 2 * x d := by
  have h1 : (fun t : ℝ => ivTest N (x + t • Pi.single d 1)) = fun t => ivTest N x + (2 * x d * t + t ^ 2) := by
    funext t
    unfold ivTest
    rw [← sub_eq_iff_eq_add', ← sum_sub_distrib, sum_eq_single d]
    · simp
      ring
    · intro c _ hc
      simp [Pi.single_eq_of_ne hc]
    · intro h
      exact absurd (mem_range.mpr hd) h
  rw [h1]
  have h2 : HasDerivAt (fun t : ℝ => t) 1 0 := hasDerivAt_id 0
  have h3 := ((h2.const_mul (2 * x d)).fun_add (hasDerivAt_pow 2 (0 : ℝ))).const_add (ivTest N x)
  have := h3.deriv
  simpa using this

/-- **C128 (the demo).** Whatever gradient the reverse mode of the demo prints: `E dE = ∑ rho drho`. If the forward solution is exact, `E dE + scale_n dscale_n + scale_s dscale_s = 0`. If its deformation gradients have positive
determinants and the adjoint system is solved exactly, `dscale_d = 2 Lz ∑ u_z`, and the finite difference taken with the moved solution, which
solves the changed problem, exceeds it by exactly `h scale_d Lz² num_nodes`. -/
theorem C128_demo (F : Fem nn nq nf nfq 3 3) (Lz : ℝ) (hF : IvMesh F Lz) (lin : ℕ → LinCall ℝ → ℕ → ℝ) (linear usePetsc : Bool) (fuel : ℕ) (p g : Fin (F.cells.length * nq + 4) → ℝ)
    (h : (ivProb F Lz).revGrad lin linear usePetsc fuel (ivTest (F.numTotal * 3)) p = .ok g) :
    ∃ u, (ivProb F Lz).fwdPred lin linear usePetsc fuel p = .ok u ∧ ivE p * ivE g = ∑ k ∈ range F.cells.length, ∑ q : Fin nq, ivRho p k q * ivRho g k q ∧
      (IvSolves F Lz p (fun n i => u (3 * n + i)) → ivE p * ivE g + ivN p * ivN g + ivS p * ivS g = 0) ∧
      ((∀ c ∈ F.cells, ∀ q, 0 < (Matrix.of (F.gradAt (fun n i => u (3 * n + i)) c q) + 1 : T33).det) →
        (∀ nw, ((ivProb F Lz).prob p).newton u = .ok nw → ∀ call : LinCall ℝ, call.op = ParamProb.transposeOp (F.numTotal * 3) (((ivProb F Lz).prob p).getAFn realArith usePetsc nw) →
          ∀ d < F.numTotal * 3, call.op (lin 1 call) d = call.b d) →
        ivD g = 2 * Lz * ∑ n ∈ range F.numTotal, u (3 * n + 2) ∧
        ∀ (hh : ℝ) (x' : ℕ → ℝ), hh ≠ 0 → ivD p ≠ 0 → (∀ n (i : Fin 3), x' (3 * n + i) = ivShift (((1 + hh) * ivD p - ivD p) * Lz) (fun n i => u (3 * n + i)) n i) →
          (ivTest (F.numTotal * 3) x' - ivTest (F.numTotal * 3) u) / (hh * ivD p) - ivD g = hh * ivD p * Lz ^ 2 * F.numTotal ∧
          (IvSolves F Lz p (fun n i => u (3 * n + i)) → IvSolves F Lz (ivPlus hh p (ivDIdx _)) fun n i => x' (3 * n + i))) := by
  unfold ParamProb.revGrad at h
  cases hu : (ivProb F Lz).fwdPred lin linear usePetsc fuel p with
  | error e => rw [hu] at h; cases h
  | ok u =>
    rw [hu] at h
    dsimp only [bind, Except.bind] at h
    set v : ℕ → ℝ := fun d => deriv (fun t : ℝ => ivTest (F.numTotal * 3) (u + t • Pi.single d 1)) 0 with hv
    cases hg : (ivProb F Lz).implicitVjp (lin 1) u p v usePetsc with
    | error e => rw [hg] at h; cases h
    | ok g' =>
      rw [hg] at h
      injection h with h
      subst h
      obtain ⟨h1, h2, -⟩ := C128_scaling F Lz hF (lin 1) u p g' v usePetsc hg
      refine ⟨u, rfl, h1, h2, fun hdet hlin => ?_⟩
      have h3 : ivD g' = 2 * Lz * ∑ n ∈ range F.numTotal, u (3 * n + 2) := by
        have h4 : ∀ n ∈ range F.numTotal, v (3 * n + 2) = 2 * u (3 * n + 2) := by
          intro n hn
          have := mem_range.mp hn
          exact deriv_ivTest _ _ _ (by omega)
        rw [C128_support F Lz hF (lin 1) u p g' v usePetsc hg hdet hlin, sum_congr rfl h4, ← mul_sum]
        ring
      refine ⟨h3, fun hh x' hne hd hx' => ?_⟩
      constructor
      · rw [C128_fd F.numTotal Lz hh (ivD p) hne hd (fun n i => u (3 * n + i)) u x' (fun _ _ => rfl) hx', h3]
        exact add_sub_cancel_left _ _
      · intro hs
        have e : (fun (n : ℕ) (i : Fin 3) => x' (3 * n + i)) = ivShift (((1 + hh) * ivD p - ivD p) * Lz) fun n i => u (3 * n + i) := by
          funext n i
          exact hx' n i
        rw [e]
        exact (C128_shift F Lz hF p ((1 + hh) * ivD p) _).mp hs

/-- The object of the demo for every grid and edge lengths (example.py 45-50, 88-91; the demo has 5 elements and length 1 in each direction). -/
noncomputable def ivObj (N : Fin 3 → ℕ) (L : Fin 3 → ℝ) : Fem 8 (2 ^ 3) 6 (2 ^ 2) 3 3 :=
  Fem.ofElement 8 6 3 3 hex8 (gaussRule 3) (gaussRule 2) ((N 0 + 1) * (N 1 + 1) * (N 2 + 1)) (Verif.Mesh.boxMesh (N 0) (N 1) (N 2) (L 0) (L 1) (L 2)).points.get
    (Verif.Mesh.boxMesh (N 0) (N 1) (N 2) (L 0) (L 1) (L 2)).cells.toList

theorem ivObj_onBox (N : Fin 3 → ℕ) (L : Fin 3 → ℝ) : OnBox (ivObj N L) N L := ⟨rfl, rfl⟩

/-- **C128 (mesh).** The box mesh of the demo satisfies the assumptions, for every positive number of elements and lengths. -/
theorem C128_mesh (N : Fin 3 → ℕ) (L : Fin 3 → ℝ) (hN : ∀ a, 0 < N a) (hL : ∀ a, 0 < L a) : IvMesh (ivObj N L) (L 2) := by
  have hb := ivObj_onBox N L
  have hne : (ivObj N L).cells ≠ [] := by
    intro h
    have := (hb.mem_cells (boxCell N fun _ => 0)).mpr ⟨_, (mem_boxGrid _ _).mpr fun a => hN a, rfl⟩
    rw [h] at this
    cases this
  refine ⟨List.length_pos_iff.mpr hne, ?_, ?_, ?_⟩
  · intro c hc a
    obtain ⟨g, hg, rfl⟩ := (hb.mem_cells c).mp hc
    refine gridNode_lt N _ fun b => ?_
    have h1 := (mem_boxGrid N g).mp hg b
    have h2 := hexCorner_le a b
    omega
  · exact (Tabulated.sums (F := ivObj N L) (name := "HEX8") (by decide) getElements_hex8 (by decide) (pts := (gaussRule 3).pt) ⟨fun _ _ => rfl, fun _ _ _ => rfl⟩).1
  · intro pf hpf q
    unfold Fem.selected at hpf
    obtain ⟨c, hc, hpf⟩ := List.mem_flatMap.mp hpf
    obtain ⟨f, -, rfl⟩ := List.mem_map.mp hpf
    obtain ⟨g, hg, rfl⟩ := (hb.mem_cells c).mp hc
    rw [hb.faceJacobian (gaussRule 2) (ofElement_hex8_face _ _ _ _ _) g hg, Matrix.det_diagonal]
    exact prod_ne_zero_iff.mpr fun b _ => div_ne_zero (hL b).ne' (by exact_mod_cast (hN b).ne')

/-- The unloaded block on a displaced support: the rigid motion is an exact solution, with deformation gradient one; on the mesh of the demo it moves 216 nodes, so that `test_fn` is 216 and the error of the finite difference 0.216. -/
example : IvSolves (ivObj (fun _ => 5) fun _ => 1) 1 (ivMk (125 * 2 ^ 3) 1e6 0.5 1 0 0) (ivShift 1 0) ∧ (∀ c q, (Matrix.of ((ivObj (fun _ => 5) fun _ => 1).gradAt (ivShift 1 0) c q) + 1 : T33).det = 1) ∧
    (1e-3 : ℝ) * 1 * 1 ^ 2 * ((ivObj (fun _ => 5) fun _ => 1).numTotal : ℝ) = 0.216 := by
  have hF := C128_mesh (fun _ => 5) (fun _ => 1) (fun _ => by omega) fun _ => one_pos
  have hg : ∀ c q, (ivObj (fun _ => 5) fun _ => 1).gradAt (ivShift 1 0) c q = 0 := by
    intro c q
    rw [gradAt_ivShift _ hF.sum]
    funext i d
    simp [Fem.gradAt]
  have hone : (Matrix.of (0 : Fin 3 → Fin 3 → ℝ) + 1 : T33) = 1 := by
    ext i j
    simp
  have hs : ivStress 1 1 0 = 0 := by
    funext i d
    unfold ivStress
    rw [hone, (msPsi_grad (1 * 1) 0.3 1 (by simp)).eq]
    unfold neoStress
    simp
  obtain ⟨-, e2, e3, e4, -⟩ := ivMk_fields 125 (2 ^ 3) 1e6 0.5 1 0 0
  refine ⟨⟨fun n _ _ => ?_, fun n _ _ i => ?_⟩, fun c q => ?_, ?_⟩
  · rw [e2]
    simp [ivShift]
  · unfold ivBalance ivForce
    rw [e3, e4]
    simp only [hg, hs]
    simp [nodal]
  · rw [hg, hone, Matrix.det_one]
  · show (1e-3 : ℝ) * 1 * 1 ^ 2 * (((5 + 1) * (5 + 1) * (5 + 1) : ℕ) : ℝ) = 0.216
    norm_num

end Verif.Fem
