import Verif.Fem.InverseDemo
import Verif.Fem.MultiScaleRve
import Verif.Fem.FractureLoopProps
import Verif.Fem.TopOptMesh
import Verif.Fem.TopOptGrad
import Mathlib.LinearAlgebra.FiniteDimensional.Lemmas

/-!
# C139: identification of a source (applications/fem/full_field_infer/poisson.py)
-/
namespace Verif.SourceId
open Verif.Fem Finset

variable {nn nq nf nfq : ℕ}

/-! ## Model -/

/-- `min_x_loc` ... `max_z_loc` (poisson.py 80-96). -/
noncomputable def faces (L : Fin 3 → ℝ) : List (Loc 3) :=
  [fun x => isclose (x 0) 0 1e-5, fun x => isclose (x 0) (L 0) 1e-5, fun x => isclose (x 1) 0 1e-5, fun x => isclose (x 1) (L 1) 1e-5,
    fun x => isclose (x 2) 0 1e-5, fun x => isclose (x 2) (L 2) 1e-5]

/-- `dirichlet_bc_info` (poisson.py 98-99, 108-110). -/
noncomputable def info (L : Fin 3 → ℝ) : List (Loc 3) × List ℕ × List ((Fin 3 → ℝ) → ℝ) := (faces L, List.replicate 6 0, List.replicate 6 fun _ => 0)

/-- The boundary conditions computed from it by the constructor (core.py 34-41). -/
noncomputable def groups (F : Fem nn nq nf nfq 3 1) (L : Fin 3 → ℝ) : List (Verif.Fem.Group ℝ) :=
  match dirichletBC F.numTotal F.points (some (info L)) with
  | .ok out => groupsOf out.1 out.2.1 out.2.2
  | .error _ => []

/-- `body_force` (poisson.py 101-106). -/
noncomputable def bodyForce (L : Fin 3 → ℝ) : (Fin 3 → ℝ) → Fin 1 → ℝ := fun x _ =>
  10 * Real.exp (-10 * ∑ d, (x d - ![L 0 / 4, L 1 / 4, L 2 / 2] d) ^ 2) + 10 * Real.exp (-10 * ∑ d, (x d - ![L 0 * 3 / 4, L 1 * 3 / 4, L 2 / 2] d) ^ 2)

/-- A `LinearPoisson` object (poisson.py 32-37) with source function `src` or body variable `bv`. -/
noncomputable def poisson (F : Fem nn nq nf nfq 3 1) (src : Option ((Fin 3 → ℝ) → Fin 1 → ℝ)) (bv : Option (ℕ → Fin 1 → ℝ)) : Fem nn nq nf nfq 3 1 :=
  { F with
    tensorMap := some fun _ _ g => g
    massMap := none
    lapRows := none
    massRows := none
    source := src
    bodyVar := bv.map fun s => (s, fun x => x)
    neumann := none
    cauchy := none }

/-- `problem_fwd` (poisson.py 112-114). -/
noncomputable def fwdObj (F : Fem nn nq nf nfq 3 1) (L : Fin 3 → ℝ) : Fem nn nq nf nfq 3 1 := poisson F (some (bodyForce L)) none

/-- `problem_inv` after `set_params(params)` (poisson.py 39-40, 48-49, 130-131): `params` reshaped to one value per node. -/
noncomputable def invObj (F : Fem nn nq nf nfq 3 1) (params : Fin F.numTotal → ℝ) : Fem nn nq nf nfq 3 1 := poisson F none (some fun n _ => ext params n)

/-- The problem given to `ad_wrapper` (poisson.py 130-132). -/
noncomputable def prob (F : Fem nn nq nf nfq 3 1) (L : Fin 3 → ℝ) : ParamProb F.numTotal FemErr where
  prob p := (invObj F p).toProb (groups F L)
  res p x d := match (invObj F p).computeResidual (fun n i => x (1 * n + i)) with
    | .ok R => R (d / 1) (Fin.ofNat 1 d)
    | .error _ => 0

/-- `true_sol = solver(problem_fwd, linear=True)` (poisson.py 115), an array with one value per node. -/
noncomputable def trueSol (F : Fem nn nq nf nfq 3 1) (L : Fin 3 → ℝ) (lin : ℕ → LinCall ℝ → ℕ → ℝ) (fuel : ℕ) : Except (SolveErr FemErr) (ℕ → ℝ) :=
  (((fwdObj F L).toProb (groups F L)).rowSolver realArith lin true true false none fuel).map (cut (F.numTotal * 1))

/-- `compute_L2` (poisson.py 42-46). -/
noncomputable def computeL2 (F : Fem nn nq nf nfq 3 1) (sol : ℕ → ℝ) : ℝ :=
  (F.cells.map fun c => ∑ a, ∑ i, Fem.massKernel F.shapeVals (fun _ x i => x i ^ 2) (fun n (_ : Fin 1) => sol (c n)) (F.JxW c) a i).sum

/-- `J_fn` (poisson.py 138-149) with `observed_inds = obs` and `true_vals` taken from `t` (line 128). -/
def jFn (obs : List ℕ) (t dofs : ℕ → ℝ) : ℝ := (obs.map fun o => (dofs o - t o) ^ 2).sum

/-- `J_total` (poisson.py 152-158). -/
noncomputable def jTotal (F : Fem nn nq nf nfq 3 1) (L : Fin 3 → ℝ) (lin : ℕ → LinCall ℝ → ℕ → ℝ) (fuel : ℕ) (obs : List ℕ) (t : ℕ → ℝ) : (Fin F.numTotal → ℝ) → ℝ :=
  (prob F L).objective lin true false fuel (jFn obs t)

/-- `jax.grad(J_total)` (poisson.py 179, 184); zero stands for an exception. -/
noncomputable def jGrad (F : Fem nn nq nf nfq 3 1) (L : Fin 3 → ℝ) (lin : ℕ → LinCall ℝ → ℕ → ℝ) (fuel : ℕ) (obs : List ℕ) (t : ℕ → ℝ) (p : Fin F.numTotal → ℝ) : Fin F.numTotal → ℝ :=
  match (prob F L).revGrad lin true false fuel (jFn obs t) p with
  | .ok g => g
  | .error _ => 0

/-- `taylor_tests` (poisson.py 51-66): the saved columns `h`, `res_zero`, `res_first`. -/
noncomputable def taylorTests {k : ℕ} (m : Fin k → ℝ) (fn : (Fin k → ℝ) → ℝ) (fnGrad : (Fin k → ℝ) → Fin k → ℝ) : List (ℝ × ℝ × ℝ) :=
  [1e-4, 1e-3, 1e-2, 1e-1].map fun h =>
    let direction : Fin k → ℝ := fun _ => 1
    let m_perturb : Fin k → ℝ := fun j => direction j * h + m j
    (h, |fn m_perturb - fn m|, |fn m_perturb - fn m - h * ∑ j, fnGrad m j * direction j|)

/-- `rel_error_sol`, `rel_error_force` (poisson.py 166-169). -/
noncomputable def relError (F : Fem nn nq nf nfq 3 1) (t s : ℕ → ℝ) : ℝ := Real.sqrt (computeL2 F fun n => t n - s n) / Real.sqrt (computeL2 F t)

/-- A call by the optimiser (poisson.py 199-205): of `fun` or of `jac`. -/
inductive Call (X : Type)
  | fn (x : X)
  | jac (x : X)

/-- What a call returns. `raised` is the `AttributeError` of `objective_wrapper.dJ` before the first evaluation. -/
inductive Answer (X : Type)
  | value (v : ℝ)
  | grad (g : X)
  | raised

/-- The cached gradient `objective_wrapper.dJ`, the counter of the files and the rows in `outputs` (poisson.py 160, 174-177, 185). -/
structure Cache (X : Type) where
  dJ : Option X
  counter : ℕ
  outputs : List (ℝ × ℝ × ℝ)

/-- `objective_wrapper` and `derivative_wrapper` (poisson.py 183-195); `out` gives the row appended by `output_sol` (line 174). -/
def answer {X : Type} (f : X → ℝ) (g : X → X) (out : X → ℝ × ℝ) (s : Cache X) : Call X → Cache X × Answer X
  | .fn x => (⟨some (g x), s.counter + 1, s.outputs ++ [(f x, out x)]⟩, .value (f x))
  | .jac _ => (s, match s.dJ with
    | some d => .grad d
    | none => .raised)

/-- All calls of a run, starting from the state before the minimisation (poisson.py 160, 177). -/
def session {X : Type} (f : X → ℝ) (g : X → X) (out : X → ℝ × ℝ) : List (Call X) → Cache X → Cache X × List (Answer X)
  | [], s => (s, [])
  | c :: cs, s => ((session f g out cs (answer f g out s c).1).1, (answer f g out s c).2 :: (session f g out cs (answer f g out s c).1).2)

/-! ## Specification -/

/-- Specification: value and slope of a nodal field at a quadrature point. -/
def val (F : Fem nn nq nf nfq 3 1) (u : ℕ → ℝ) (c : Fin nn → ℕ) (q : Fin nq) : ℝ := ∑ a, u (c a) * F.shapeVals q a
@[inherit_doc val]
noncomputable def slope (F : Fem nn nq nf nfq 3 1) (u : ℕ → ℝ) (c : Fin nn → ℕ) (q : Fin nq) (d : Fin 3) : ℝ := ∑ a, u (c a) * F.shapeGrad c q a d

/-- Specification: the point lies on one of the six faces, up to the tolerances. -/
def OnFace (L : Fin 3 → ℝ) (x : Fin 3 → ℝ) : Prop := ∃ a, |x a| ≤ 1e-5 ∨ |x a - L a| ≤ 1e-5 + 1e-5 * |L a|

/-- Specification: `u` is zero at the nodes on the faces and satisfies the weak form of `-Δu = b` for all test fields with that property. -/
structure Weak (F : Fem nn nq nf nfq 3 1) (L : Fin 3 → ℝ) (b : (Fin nn → ℕ) → Fin nq → ℝ) (u : ℕ → ℝ) : Prop where
  zero : ∀ n < F.numTotal, OnFace L (F.points n) → u n = 0
  balance : ∀ v : ℕ → ℝ, (∀ n < F.numTotal, OnFace L (F.points n) → v n = 0) →
    (F.cells.map fun c => ∑ q, (∑ d, slope F u c q d * slope F v c q d) * F.JxW c q).sum = (F.cells.map fun c => ∑ q, b c q * val F v c q * F.JxW c q).sum

/-- Specification: a mesh on which the fields are determined by their values at the quadrature points, and every node is connected to a face. -/
structure Mesh (F : Fem nn nq nf nfq 3 1) (L : Fin 3 → ℝ) : Prop where
  cells : F.cells ≠ []
  nodes : ∀ c ∈ F.cells, ∀ a, c a < F.numTotal
  vol : ∀ c ∈ F.cells, ∀ q, 0 < F.JxW c q
  modes : F.NoModes
  unity : ∀ q, ∑ a, F.shapeVals q a = 1
  points : ∀ u : ℕ → ℝ, (∀ c ∈ F.cells, ∀ q, val F u c q = 0) → ∀ n < F.numTotal, u n = 0
  linked : ∀ n < F.numTotal, ∃ m < F.numTotal, OnFace L (F.points m) ∧ Relation.ReflTransGen F.Adj n m

/-! ## Boundary conditions -/

theorem groups_ok (F : Fem nn nq nf nfq 3 1) (L : Fin 3 → ℝ) : ∃ N C W, dirichletBC F.numTotal F.points (some (info L)) = .ok (N, C, W) ∧ groups F L = groupsOf N C W := by
  obtain ⟨⟨N, C, W⟩, h⟩ := (C17_accepted F.numTotal F.points (info L).1 (info L).2.1 (info L).2.2).1.mpr ⟨rfl, rfl⟩
  refine ⟨N, C, W, h, ?_⟩
  unfold groups
  rw [show (some (info L)) = some ((info L).1, (info L).2.1, (info L).2.2) from rfl, h]

theorem faces_iff (L : Fin 3 → ℝ) (x : Fin 3 → ℝ) : (∃ t ∈ (info L).1.zip ((info L).2.1.zip (info L).2.2), t.1 x = true ∧ t.2.1 = 0) ↔ OnFace L x := by
  have e : (info L).1.zip ((info L).2.1.zip (info L).2.2) = (faces L).map fun l => (l, 0, fun _ => (0 : ℝ)) := rfl
  rw [e]
  simp only [List.mem_map, exists_exists_and_eq_and, and_true]
  unfold faces OnFace
  simp only [List.mem_cons, List.not_mem_nil, or_false, exists_eq_or_imp, exists_eq_left, isclose_iff, Fin.exists_fin_succ]
  simp only [sub_zero, abs_zero, mul_zero, add_zero]
  constructor
  · rintro (h | h | h | h | h | h)
    · exact .inl (.inl h)
    · exact .inl (.inr h)
    · exact .inr (.inl (.inl h))
    · exact .inr (.inl (.inr h))
    · exact .inr (.inr (.inl (.inl h)))
    · exact .inr (.inr (.inl (.inr h)))
  · rintro ((h | h) | (h | h) | (h | h) | ⟨a, _⟩)
    · exact .inl h
    · exact .inr (.inl h)
    · exact .inr (.inr (.inl h))
    · exact .inr (.inr (.inr (.inl h)))
    · exact .inr (.inr (.inr (.inr (.inl h))))
    · exact .inr (.inr (.inr (.inr (.inr h))))
    · exact a.elim0

theorem prescribed (F : Fem nn nq nf nfq 3 1) (L : Fin 3 → ℝ) (src bv) (n : ℕ) (hn : n < F.numTotal) :
    (FreeAt ((poisson F src bv).toProb (groups F L)).prescriptions (1 * n + 0) ↔ ¬ OnFace L (F.points n)) ∧
    ∀ v, LastAt ((poisson F src bv).toProb (groups F L)).prescriptions (1 * n + 0) v → v = 0 := by
  obtain ⟨N, C, W, h, hg⟩ := groups_ok F L
  obtain ⟨h1, h2⟩ := user_prescriptions ((poisson F src bv).toProb (groups F L)) F.points (info L).1 (info L).2.1 (info L).2.2 (by
    intro v hv
    show v < 1
    rw [List.eq_of_mem_replicate hv]
    omega) N C W h hg n 0 hn (by show 0 < 1; omega)
  refine ⟨?_, fun v hv => ?_⟩
  · refine h1.trans ?_
    rw [← faces_iff]
    push Not
    rfl
  · obtain ⟨t, ht, -, rfl⟩ := h2 v hv
    have e : (info L).1.zip ((info L).2.1.zip (info L).2.2) = (faces L).map fun l => (l, 0, fun _ => (0 : ℝ)) := rfl
    rw [e] at ht
    obtain ⟨l, -, rfl⟩ := List.mem_map.mp ht
    rfl

theorem wf (F : Fem nn nq nf nfq 3 1) (L : Fin 3 → ℝ) (src bv) : ((poisson F src bv).toProb (groups F L)).WF := by
  obtain ⟨N, C, W, h, hg⟩ := groups_ok F L
  exact C19_groups_wf ((poisson F src bv).toProb (groups F L)) (by show 0 < 1; omega) F.numTotal F.points _ _ _ N C W h hg

/-! ## The residual -/

/-- Specification: load density at a quadrature point. -/
noncomputable def density (F : Fem nn nq nf nfq 3 1) (src : Option ((Fin 3 → ℝ) → Fin 1 → ℝ)) (bv : Option (ℕ → Fin 1 → ℝ)) (c : Fin nn → ℕ) (q : Fin nq) : ℝ := (poisson F src bv).load c q 0

/-- Load vector. -/
noncomputable def loadVec (F : Fem nn nq nf nfq 3 1) (b : (Fin nn → ℕ) → Fin nq → ℝ) (n : ℕ) : ℝ := (F.cells.map fun c => nodal n c fun a => ∑ q, F.shapeVals q a * b c q * F.JxW c q).sum

theorem returns (F : Fem nn nq nf nfq 3 1) (hc : F.cells ≠ []) (src bv) (u : ℕ → Fin 1 → ℝ) : ∃ R, (poisson F src bv).computeResidual u = .ok R := by
  rw [C13_returns]
  exact ⟨hc, fun m hm => (by cases hm), fun m hm => (by cases hm), fun lv hlv => (by cases hlv), fun lv hlv => (by cases hlv)⟩

theorem work (F : Fem nn nq nf nfq 3 1) (hn : ∀ c ∈ F.cells, ∀ a, c a < F.numTotal) (src bv) (u v : ℕ → ℝ) (R : ℕ → Fin 1 → ℝ) (h : (poisson F src bv).computeResidual (fun n _ => u n) = .ok R) :
    ∑ n ∈ range F.numTotal, R n 0 * v n = (F.cells.map fun c => ∑ q, (∑ d, slope F u c q d * slope F v c q d) * F.JxW c q).sum - (F.cells.map fun c => ∑ q, density F src bv c q * val F v c q * F.JxW c q).sum := by
  have h1 := C71_virtual_work (poisson F src bv) hn (fun n _ => u n) (fun n _ => v n) R h
  have e1 : Fem.pairs (poisson F src bv).cauchy = [] := rfl
  have e2 : Fem.pairs (poisson F src bv).neumann = [] := rfl
  rw [e1, e2] at h1
  simp only [List.map_nil, List.sum_nil, add_zero, sub_zero, Finset.univ_unique, Finset.sum_singleton, Fin.default_eq_zero] at h1
  rw [show (poisson F src bv).numTotal = F.numTotal from rfl] at h1
  rw [h1]
  have e3 : ∀ p : (Fin nn → ℕ) × ℕ, (∑ q, ((∑ d, (poisson F src bv).stress p.2 q ((poisson F src bv).gradAt (fun n _ => u n) p.1 q) 0 d * (poisson F src bv).gradAt (fun n _ => v n) p.1 q 0 d)
      + (poisson F src bv).massAt p.2 q ((poisson F src bv).uAt (fun n _ => u n) p.1 q) 0 * (poisson F src bv).uAt (fun n _ => v n) p.1 q 0) * (poisson F src bv).JxW p.1 q) =
      ∑ q, (∑ d, slope F u p.1 q d * slope F v p.1 q d) * F.JxW p.1 q := by
    intro p
    refine sum_congr rfl fun q _ => ?_
    have : (poisson F src bv).massAt p.2 q ((poisson F src bv).uAt (fun n _ => u n) p.1 q) 0 = 0 := rfl
    rw [this, zero_mul, add_zero]
    rfl
  simp only [e3]
  rw [sum_zipIdx_fst (poisson F src bv).cells fun c => ∑ q, (∑ d, slope F u c q d * slope F v c q d) * F.JxW c q]
  rfl

theorem flat_one (x : ℕ → ℝ) : (fun (n : ℕ) (i : Fin 1) => x (1 * n + i)) = fun n _ => x n := by
  funext n i
  rw [Fin.fin_one_eq_zero i, one_mul]
  rfl

theorem loadVec_work (F : Fem nn nq nf nfq 3 1) (hn : ∀ c ∈ F.cells, ∀ a, c a < F.numTotal) (b : (Fin nn → ℕ) → Fin nq → ℝ) (v : ℕ → ℝ) :
    ∑ n ∈ range F.numTotal, loadVec F b n * v n = (F.cells.map fun c => ∑ q, b c q * val F v c q * F.JxW c q).sum := by
  unfold loadVec
  simp only [list_sum_mul', list_fin_sum]
  refine sum_map_congr fun c hc => ?_
  rw [sum_nodal_mul F.numTotal c (hn c hc) (fun a => ∑ q, F.shapeVals q a * b c q * F.JxW c q) v]
  simp only [val, sum_mul, mul_sum]
  rw [sum_comm]
  exact sum_congr rfl fun q _ => sum_congr rfl fun a _ => by ring

/-- A field solves the discrete problem iff it satisfies the weak form. -/
theorem weak_iff (F : Fem nn nq nf nfq 3 1) (L : Fin 3 → ℝ) (hF : Mesh F L) (src bv) (u : ℕ → ℝ) :
    Weak F L (density F src bv) u ↔ (poisson F src bv).Solves ((poisson F src bv).toProb (groups F L)).prescriptions fun n _ => u n := by
  constructor
  · intro h
    obtain ⟨R, hR⟩ := returns F hF.cells src bv fun n _ => u n
    refine ⟨R, hR, fun n hn i => ?_⟩
    have hn' : n < F.numTotal := hn
    obtain ⟨h1, h2⟩ := prescribed F L src bv n hn'
    rw [Fin.fin_one_eq_zero i]
    refine ⟨fun v hv => ?_, fun hf => ?_⟩
    · have h3 : OnFace L (F.points n) := by
        by_contra hno
        have := (lastVal_none _ _).mpr (h1.mpr hno)
        have h5 : lastVal ((poisson F src bv).toProb (groups F L)).prescriptions (1 * n + 0) = some v := (lastVal_some _ _ _).mpr hv
        rw [h5] at this
        cases this
      rw [h2 v hv]
      exact h.zero n hn' h3
    · have h4 := work F hF.nodes src bv u (Pi.single n 1) R hR
      rw [h.balance (Pi.single n 1) (fun m hm hface => by
        rw [Pi.single_apply, if_neg]
        rintro rfl
        exact h1.mp hf hface), sub_self] at h4
      rw [sum_eq_single n (fun m _ hm => by rw [Pi.single_apply, if_neg hm, mul_zero]) (fun hm => absurd (mem_range.mpr hn') hm), Pi.single_eq_same, mul_one] at h4
      exact h4
  · rintro ⟨R, hR, h⟩
    refine ⟨fun n hn hface => ?_, fun v hv => ?_⟩
    · rcases free_or_last ((poisson F src bv).toProb (groups F L)).prescriptions (1 * n + 0) with hf | ⟨w, hw⟩
      · exact absurd hface ((prescribed F L src bv n hn).1.mp hf)
      · exact ((h n hn 0).1 w hw).trans ((prescribed F L src bv n hn).2 w hw)
    · have h4 := work F hF.nodes src bv u v R hR
      rw [sum_eq_zero fun n hn => ?_] at h4
      · linarith
      · by_cases hface : OnFace L (F.points n)
        · rw [hv n (mem_range.mp hn) hface, mul_zero]
        · rw [(h n (mem_range.mp hn) 0).2 ((prescribed F L src bv n (mem_range.mp hn)).1.mpr hface), zero_mul]

theorem monotone (F : Fem nn nq nf nfq 3 1) (L : Fin 3 → ℝ) (hF : Mesh F L) (src bv) : (poisson F src bv).Monotone := by
  refine ⟨hF.nodes, hF.vol, fun k q A B => ?_, fun k q a b => ?_, fun lv hlv => ?_⟩
  · refine sum_nonneg fun i _ => sum_nonneg fun d _ => ?_
    exact mul_self_nonneg (A i d - B i d)
  · simp [Fem.massAt, poisson]
  · cases hlv

theorem determined (F : Fem nn nq nf nfq 3 1) (L : Fin 3 → ℝ) (hF : Mesh F L) (src bv) : (poisson F src bv).Determined ((poisson F src bv).toProb (groups F L)).prescriptions := by
  refine C87_determined _ (monotone F L hF src bv) (fun k q A B hne => ?_) hF.modes _ fun n hn i => ?_
  · obtain ⟨i, hi⟩ := Function.ne_iff.mp hne
    obtain ⟨d, hd⟩ := Function.ne_iff.mp hi
    refine sum_pos' (fun i _ => sum_nonneg fun d _ => mul_self_nonneg (A i d - B i d)) ⟨i, mem_univ i, ?_⟩
    exact sum_pos' (fun d _ => mul_self_nonneg (A i d - B i d)) ⟨d, mem_univ d, mul_self_pos.mpr (sub_ne_zero.mpr hd)⟩
  · obtain ⟨m, h1, h2, h3⟩ := hF.linked n hn
    refine ⟨m, h1, fun hf => ?_, h3⟩
    rw [Fin.fin_one_eq_zero i] at hf
    exact (prescribed F L src bv m h1).1.mp hf h2

theorem linear (F : Fem nn nq nf nfq 3 1) (src bv) : (poisson F src bv).Linear := by
  refine ⟨fun tm h k q => ?_, fun mm h => (by cases h), fun lv hlv => (by cases hlv)⟩
  injection h with h
  subst h
  exact ⟨differentiable_id, fun x y => by rw [add_zero]⟩

/-- What `newton_update` returns: a matrix that does not depend on the source, and the load vector. -/
theorem newton_eq (F : Fem nn nq nf nfq 3 1) (L : Fin 3 → ℝ) (hF : Mesh F L) (src bv) : ∃ load, ∀ x,
    ((poisson F src bv).toProb (groups F L)).newton x = .ok ⟨fun d => cooMul (Fem.cooI 1 F.cells) (Fem.cooJ 1 F.cells) (Fem.cooV ((poisson F none none).cellJacs 0)) x d - loadVec F (density F src bv) d,
      Fem.cooI 1 F.cells, Fem.cooJ 1 F.cells, Fem.cooV ((poisson F none none).cellJacs 0), load⟩ ∧
    ∃ R, (poisson F src bv).computeResidual (fun n i => x (1 * n + i)) = .ok R ∧
      ∀ d, R (d / 1) (Fin.ofNat 1 d) = cooMul (Fem.cooI 1 F.cells) (Fem.cooJ 1 F.cells) (Fem.cooV ((poisson F none none).cellJacs 0)) x d - loadVec F (density F src bv) d := by
  obtain ⟨I, J, V, f, load, hJ, hnew, hres⟩ := C87_affine (poisson F src bv) (linear F src bv) (groups F L) hF.nodes ⟨0, returns F hF.cells src bv 0⟩
  obtain ⟨R0, hR0⟩ := returns F hF.cells src bv 0
  have h0 : (poisson F src bv).newtonUpdate 0 = .ok (R0, Fem.cooI 1 F.cells, Fem.cooJ 1 F.cells, Fem.cooV ((poisson F none none).cellJacs 0)) := by
    refine (newtonUpdate_ok_iff _ _ _ _ _ _).mpr ⟨hR0, ?_, ?_, ?_⟩
    · show _ = Fem.cooI 1 F.cells ++ Fem.cooI 1 []
      simp [Fem.cooI]
    · show _ = Fem.cooJ 1 F.cells ++ Fem.cooJ 1 []
      simp [Fem.cooJ]
    · show _ = Fem.cooV ((poisson F src bv).cellJacs 0) ++ Fem.cooV []
      simp only [Fem.cooV, List.flatMap_nil, List.append_nil]
      rfl
  have h1 := hnew 0
  simp only [Fem.toProb] at h1
  rw [show (fun (n : ℕ) (i : Fin 1) => (0 : ℕ → ℝ) (1 * n + i)) = 0 from rfl, h0, (neumannIntegral_ok_iff (poisson F src bv) _).mpr ⟨fun _ _ h => (by cases h), rfl⟩] at h1
  have h2 := Except.ok.inj h1
  simp only [Newton.mk.injEq] at h2
  obtain ⟨k1, k2, k3, k4, -⟩ := h2
  have hR0v : ∀ n, R0 n 0 = -loadVec F (density F src bv) n := by
    intro n
    rw [C13_residual _ _ _ hR0 n 0]
    have e1 : Fem.pairs (poisson F src bv).cauchy = [] := rfl
    have e2 : Fem.pairs (poisson F src bv).neumann = [] := rfl
    have e3 : ∀ p : (Fin nn → ℕ) × ℕ, (nodal n p.1 fun a => (poisson F src bv).volTerm 0 p.1 p.2 a 0) = 0 := by
      intro p
      have : ∀ a, (poisson F src bv).volTerm 0 p.1 p.2 a 0 = 0 := by
        intro a
        simp [Fem.volTerm, Fem.stress, Fem.massAt, poisson, Fem.gradAt]
      simp only [this]
      simp [nodal]
    rw [e1, e2]
    simp only [e3, List.map_nil, List.sum_nil, List.map_const', List.sum_replicate, smul_zero, zero_add, add_zero, sub_zero, zero_sub]
    rfl
  have hf : f = fun d => loadVec F (density F src bv) d := by
    funext d
    have h3 := congrFun k1 d
    have h4 : cooMul I J V 0 d = 0 := by
      unfold cooMul
      refine List.sum_eq_zero fun y hy => ?_
      obtain ⟨p, -, rfl⟩ := List.mem_map.mp hy
      simp
    rw [h4, Fin.fin_one_eq_zero (Fin.ofNat 1 d), hR0v, Nat.div_one] at h3
    linarith
  subst hf
  subst k2 k3 k4
  refine ⟨load, fun x => ⟨hnew x, ?_⟩⟩
  obtain ⟨R, hR, hRv⟩ := hres x
  refine ⟨R, hR, fun d => ?_⟩
  have h5 := hRv (d / 1) (Fin.ofNat 1 d)
  rwa [show 1 * (d / 1) + (Fin.ofNat 1 d : ℕ) = d from Nat.div_add_mod d 1] at h5

/-! ## The solution -/

theorem exactFor (F : Fem nn nq nf nfq 3 1) (L : Fin 3 → ℝ) (hF : Mesh F L) (src bv) (lin : ℕ → LinCall ℝ → ℕ → ℝ) (hlin : ExactLin (F.numTotal * 1) lin) (usePetsc : Bool) :
    ((poisson F src bv).toProb (groups F L)).ExactFor usePetsc lin := by
  obtain ⟨load, h⟩ := newton_eq F L hF src bv
  rintro k call ⟨u, nw, hn, hop⟩ d hd
  rw [(h u).1] at hn
  injection hn with hn
  refine hlin k call ?_ d hd
  obtain ⟨x, hx⟩ := operator_surjective (poisson F src bv) (groups F L) (wf F L src bv) (determined F L hF src bv) (Fem.cooI 1 F.cells) (Fem.cooJ 1 F.cells) (Fem.cooV ((poisson F none none).cellJacs 0))
    (fun d => loadVec F (density F src bv) d) (cooJ_mem _ _ hF.nodes) (fun u => by
      obtain ⟨R, h1, h2⟩ := (h u).2
      refine ⟨R, h1, fun n i => ?_⟩
      have := h2 (1 * n + i)
      rw [Fin.fin_one_eq_zero (Fin.ofNat 1 _), Nat.div_one] at this
      rw [Fin.fin_one_eq_zero i] at this ⊢
      simpa using this) call.b
  refine ⟨x, fun e he => ?_⟩
  rw [hop, ← hn]
  exact hx _ _ usePetsc e he

/-- The linear solve returns a solution of the weak form, and there is no other. -/
theorem solves (F : Fem nn nq nf nfq 3 1) (L : Fin 3 → ℝ) (hF : Mesh F L) (src bv) (lin : ℕ → LinCall ℝ → ℕ → ℝ) (hlin : ExactLin (F.numTotal * 1) lin) (usePetsc : Bool) (fuel : ℕ) :
    ∃ s, (((poisson F src bv).toProb (groups F L)).rowSolver realArith lin true true usePetsc none fuel).map (cut (F.numTotal * 1)) = .ok s ∧ Weak F L (density F src bv) s ∧
      (∀ n, F.numTotal ≤ n → s n = 0) ∧ ∀ s', Weak F L (density F src bv) s' → ∀ n < F.numTotal, s n = s' n := by
  obtain ⟨u, h1, h2, h3⟩ := (C87_solution (poisson F src bv) (linear F src bv) (groups F L) (wf F L src bv) hF.nodes ⟨0, returns F hF.cells src bv 0⟩ (determined F L hF src bv) usePetsc).2 lin
    (exactFor F L hF src bv lin hlin usePetsc) true none fuel
  have hcut : ∀ n < F.numTotal, cut (F.numTotal * 1) u n = u n := fun n hn => by simp [cut, hn]
  have huniq : ∀ s', Weak F L (density F src bv) s' → ∀ n < F.numTotal, cut (F.numTotal * 1) u n = s' n := by
    intro s' hs' n hn
    have := h3 _ ((weak_iff F L hF src bv s').mp hs') n hn 0
    rw [hcut n hn]
    simpa using this
  rw [flat_one] at h2
  have hw := (weak_iff F L hF src bv u).mpr h2
  refine ⟨cut (F.numTotal * 1) u, by rw [h1]; rfl, ?_, fun n hn => ?_, huniq⟩
  · refine ⟨fun n hn hface => by rw [hcut n hn, hw.zero n hn hface], fun v hv => ?_⟩
    rw [← hw.balance v hv]
    refine sum_map_congr fun c hc => sum_congr rfl fun q _ => ?_
    have : ∀ d, slope F (cut (F.numTotal * 1) u) c q d = slope F u c q d := fun d => sum_congr rfl fun a _ => by rw [hcut _ (hF.nodes c hc a)]
    simp only [this]
  · simp [cut, not_lt.mpr hn]


theorem Weak.line {F : Fem nn nq nf nfq 3 1} {L : Fin 3 → ℝ} {b b' : (Fin nn → ℕ) → Fin nq → ℝ} {u u' : ℕ → ℝ} (h : Weak F L b u) (h' : Weak F L b' u') (a : ℝ) :
    Weak F L (fun c q => b c q + a * b' c q) fun n => u n + a * u' n := by
  refine ⟨fun n hn hface => by rw [h.zero n hn hface, h'.zero n hn hface]; ring, fun v hv => ?_⟩
  have e1 : ∀ c q d, slope F (fun n => u n + a * u' n) c q d = slope F u c q d + a * slope F u' c q d := by
    intro c q d
    simp only [slope, add_mul, sum_add_distrib, mul_sum, mul_assoc]
  have e2 : ∀ c, (∑ q, (∑ d, slope F (fun n => u n + a * u' n) c q d * slope F v c q d) * F.JxW c q) =
      (∑ q, (∑ d, slope F u c q d * slope F v c q d) * F.JxW c q) + a * ∑ q, (∑ d, slope F u' c q d * slope F v c q d) * F.JxW c q := by
    intro c
    simp only [e1, add_mul, sum_add_distrib, mul_sum, sum_mul, mul_assoc]
  have e3 : ∀ c, (∑ q, (b c q + a * b' c q) * val F v c q * F.JxW c q) = (∑ q, b c q * val F v c q * F.JxW c q) + a * ∑ q, b' c q * val F v c q * F.JxW c q := by
    intro c
    simp only [add_mul, sum_add_distrib, mul_sum, mul_assoc]
  simp only [e2, e3]
  rw [list_sum_lin, list_sum_lin, h.balance v hv, h'.balance v hv]

theorem val_lines (F : Fem nn nq nf nfq 3 1) (p d : Fin F.numTotal → ℝ) (a : ℝ) : val F (ext (p + a • d)) = fun c q => val F (ext p) c q + a * val F (ext d) c q := by
  have e : ∀ n, ext (p + a • d) n = ext p n + a * ext d n := by
    intro n
    by_cases hn : n < F.numTotal <;> simp [Fem.ext, hn]
  funext c q
  simp only [val, e, add_mul, sum_add_distrib, mul_sum, mul_assoc]

/-- **C139 (prediction).** With an exact linear solver, `fwd_pred(params)` returns the one and only solution of the weak form of `-Δu = b`, zero on the six faces, where `b` is the piecewise trilinear interpolation of
`params`. -/
theorem C139_solution (F : Fem nn nq nf nfq 3 1) (L : Fin 3 → ℝ) (hF : Mesh F L) (lin : ℕ → LinCall ℝ → ℕ → ℝ) (hlin : ExactLin (F.numTotal * 1) lin) (usePetsc : Bool) (fuel : ℕ) (p : Fin F.numTotal → ℝ) :
    ∃ s, (prob F L).fwdPred lin true usePetsc fuel p = .ok s ∧ Weak F L (val F (ext p)) s ∧ (∀ n, F.numTotal ≤ n → s n = 0) ∧ ∀ s', Weak F L (val F (ext p)) s' → ∀ n < F.numTotal, s n = s' n :=
  solves F L hF none (some fun n _ => ext p n) lin hlin usePetsc fuel

/-- **C139 (data).** `true_sol` is the one and only solution for the source function at the quadrature points. -/
theorem C139_data (F : Fem nn nq nf nfq 3 1) (L : Fin 3 → ℝ) (hF : Mesh F L) (lin : ℕ → LinCall ℝ → ℕ → ℝ) (hlin : ExactLin (F.numTotal * 1) lin) (fuel : ℕ) :
    ∃ s, trueSol F L lin fuel = .ok s ∧ Weak F L (fun c q => bodyForce L (fun d => ∑ a, F.shapeVals q a * F.points (c a) d) 0) s ∧ (∀ n, F.numTotal ≤ n → s n = 0) ∧
      ∀ s', Weak F L (fun c q => bodyForce L (fun d => ∑ a, F.shapeVals q a * F.points (c a) d) 0) s' → ∀ n < F.numTotal, s n = s' n :=
  solves F L hF (some (bodyForce L)) none lin hlin false fuel

/-- **C139 (superposition).** The prediction is a linear function of the parameters. -/
theorem C139_linear (F : Fem nn nq nf nfq 3 1) (L : Fin 3 → ℝ) (hF : Mesh F L) (lin : ℕ → LinCall ℝ → ℕ → ℝ) (hlin : ExactLin (F.numTotal * 1) lin) (usePetsc : Bool) (fuel : ℕ) (p d : Fin F.numTotal → ℝ) (a : ℝ)
    (sp sd : ℕ → ℝ) (hp : (prob F L).fwdPred lin true usePetsc fuel p = .ok sp) (hd : (prob F L).fwdPred lin true usePetsc fuel d = .ok sd) :
    (prob F L).fwdPred lin true usePetsc fuel (p + a • d) = .ok fun n => sp n + a * sd n := by
  obtain ⟨s1, h1, w1, z1, -⟩ := C139_solution F L hF lin hlin usePetsc fuel p
  obtain ⟨s2, h2, w2, z2, -⟩ := C139_solution F L hF lin hlin usePetsc fuel d
  obtain ⟨s3, h3, -, z3, u3⟩ := C139_solution F L hF lin hlin usePetsc fuel (p + a • d)
  rw [hp] at h1
  rw [hd] at h2
  cases h1
  cases h2
  rw [h3]
  congr 1
  funext n
  by_cases hn : n < F.numTotal
  · refine u3 (fun n => sp n + a * sd n) ?_ n hn
    rw [val_lines]
    exact w1.line w2 a
  · rw [z1 n (not_lt.mp hn), z2 n (not_lt.mp hn), z3 n (not_lt.mp hn), mul_zero, add_zero]

/-- **C139 (objective).** `J_total` is a quadratic function of the parameters. -/
theorem C139_quadratic (F : Fem nn nq nf nfq 3 1) (L : Fin 3 → ℝ) (hF : Mesh F L) (lin : ℕ → LinCall ℝ → ℕ → ℝ) (hlin : ExactLin (F.numTotal * 1) lin) (fuel : ℕ) (obs : List ℕ) (t : ℕ → ℝ)
    (p d : Fin F.numTotal → ℝ) (h : ℝ) (sp sd : ℕ → ℝ) (hp : (prob F L).fwdPred lin true false fuel p = .ok sp) (hd : (prob F L).fwdPred lin true false fuel d = .ok sd) :
    jTotal F L lin fuel obs t (p + h • d) = jTotal F L lin fuel obs t p + h * (obs.map fun o => 2 * (sp o - t o) * sd o).sum + h ^ 2 * (obs.map fun o => sd o ^ 2).sum := by
  unfold jTotal ParamProb.objective
  rw [C139_linear F L hF lin hlin false fuel p d h sp sd hp hd, hp]
  show jFn obs t _ = jFn obs t sp + _ + _
  unfold jFn
  rw [← list_sum_lin, ← list_sum_lin]
  exact sum_map_congr fun o _ => by ring

/-! ## The gradient -/

theorem loadVec_line (F : Fem nn nq nf nfq 3 1) (b b' : (Fin nn → ℕ) → Fin nq → ℝ) (a : ℝ) (n : ℕ) : loadVec F (fun c q => b c q + a * b' c q) n = loadVec F b n + a * loadVec F b' n := by
  unfold loadVec
  rw [← list_sum_lin]
  refine sum_map_congr fun c _ => ?_
  unfold nodal
  rw [mul_sum, ← sum_add_distrib]
  refine sum_congr rfl fun x _ => ?_
  rw [mul_sum, ← sum_add_distrib]
  exact sum_congr rfl fun q _ => by ring

/-- The load vector as a linear function of the nodal values of the source. -/
noncomputable def massMap (F : Fem nn nq nf nfq 3 1) (n : ℕ) : (Fin F.numTotal → ℝ) →ₗ[ℝ] ℝ where
  toFun p := loadVec F (val F (ext p)) n
  map_add' p d := by
    have := loadVec_line F (val F (ext p)) (val F (ext d)) 1 n
    rw [← val_lines, one_mul, one_smul] at this
    exact this
  map_smul' a d := by
    have h0 : val F (ext (0 : Fin F.numTotal → ℝ)) = fun _ _ => 0 := by
      funext c q
      simp [val, Fem.ext]
    have h1 : loadVec F (val F (ext (0 : Fin F.numTotal → ℝ))) n = 0 := by
      rw [h0]
      simp [loadVec, nodal]
    have := loadVec_line F (val F (ext (0 : Fin F.numTotal → ℝ))) (val F (ext d)) a n
    rw [h1, zero_add] at this
    rw [← val_lines, zero_add] at this
    exact this

theorem prescriptions_inv (F : Fem nn nq nf nfq 3 1) (L : Fin 3 → ℝ) (p q : Fin F.numTotal → ℝ) : ((prob F L).prob p).prescriptions = ((prob F L).prob q).prescriptions :=
  prescriptions_congr _ _ rfl rfl

/-- The family of linear problems. -/
noncomputable def family (F : Fem nn nq nf nfq 3 1) (L : Fin 3 → ℝ) (hF : Mesh F L) (p : Fin F.numTotal → ℝ) : LinearFamily (prob F L) (F.numTotal * 1) p where
  I := Fem.cooI 1 F.cells
  J := Fem.cooJ 1 F.cells
  V := (Fem.cooV ((poisson F none none).cellJacs 0)).map fun v _ => v
  f q d := massMap F d q
  load q := Classical.choose (newton_eq F L hF none (some fun n _ => ext q n))
  size _ := rfl
  wf q := wf F L none (some fun n _ => ext q n)
  cols := cooJ_mem _ _ hF.nodes
  res q x d := by
    obtain ⟨R, h1, h2⟩ := (Classical.choose_spec (newton_eq F L hF none (some fun n _ => ext q n)) x).2
    show (match (invObj F q).computeResidual (fun n i => x (1 * n + i)) with | .ok R => _ | .error _ => _) = _
    unfold invObj
    rw [h1, List.map_map, show ((fun v => v q) ∘ fun (v : ℝ) (_ : Fin F.numTotal → ℝ) => v) = id from rfl, List.map_id]
    exact h2 d
  newton q x := by
    rw [List.map_map, show ((fun v => v q) ∘ fun (v : ℝ) (_ : Fin F.numTotal → ℝ) => v) = id from rfl, List.map_id]
    exact (Classical.choose_spec (newton_eq F L hF none (some fun n _ => ext q n)) x).1
  smoothV := by
    intro v hv
    obtain ⟨w, -, rfl⟩ := List.mem_map.mp hv
    exact contDiffAt_const
  smoothF d _ := (massMap F d).toContinuousLinearMap.contDiff.contDiffAt
  pres d _ := by
    rcases free_or_last ((prob F L).prob 0).prescriptions d with h | ⟨v, h⟩
    · refine .inl fun q => ?_
      rw [prescriptions_inv F L q 0]
      exact h
    · refine .inr ⟨fun _ => v, contDiffAt_const, fun q => ?_⟩
      rw [prescriptions_inv F L q 0]
      exact h

theorem family_determined (F : Fem nn nq nf nfq 3 1) (L : Fin 3 → ℝ) (hF : Mesh F L) (p : Fin F.numTotal → ℝ) : (family F L hF p).Determined p := by
  intro x hx d hd
  obtain ⟨load, hnew⟩ := newton_eq F L hF none (some fun n _ => ext p n)
  obtain ⟨R, hR, hRv⟩ := (hnew x).2
  obtain ⟨R0, hR0, hRv0⟩ := (hnew 0).2
  have hd' : d < F.numTotal := by simpa using hd
  have key := determined F L hF none (some fun n _ => ext p n) _ _ R R0 hR hR0 (fun n hn i hf => ?_) (fun n hn i hf => ?_) d hd' 0
  · simpa using key
  · rcases free_or_last ((prob F L).prob p).prescriptions (1 * n + i) with h | ⟨v, h⟩
    · exact absurd h hf
    · have h1 := ((family F L hF p).op_last p x _ v h).symm.trans (hx _ (dof_lt _ n hn i))
      exact h1
  · have h1 := ((family F L hF p).op_free p x _ hf).symm.trans (hx _ (dof_lt _ n hn i))
    have h2 := hRv (1 * n + i)
    have h3 := hRv0 (1 * n + i)
    rw [Fin.fin_one_eq_zero i] at h1 h2 h3 ⊢
    rw [Fin.fin_one_eq_zero (Fin.ofNat 1 _), Nat.div_one] at h2 h3
    have h4 : cooMul (Fem.cooI 1 F.cells) (Fem.cooJ 1 F.cells) (Fem.cooV ((poisson F none none).cellJacs 0)) 0 (1 * n + ((0 : Fin 1) : ℕ)) = 0 := by
      unfold cooMul
      refine List.sum_eq_zero fun y hy => ?_
      obtain ⟨p, -, rfl⟩ := List.mem_map.mp hy
      simp
    have h5 : cooMul (Fem.cooI 1 F.cells) (Fem.cooJ 1 F.cells) (Fem.cooV ((poisson F none none).cellJacs 0)) x (1 * n + ((0 : Fin 1) : ℕ)) = 0 := by
      have e : (family F L hF p).V.map (· p) = Fem.cooV ((poisson F none none).cellJacs 0) := by
        show List.map _ (List.map _ _) = _
        rw [List.map_map]
        exact List.map_id _
      rw [e] at h1
      exact h1
    rw [h4] at h3
    rw [h5] at h2
    have e : 1 * n + ((0 : Fin 1) : ℕ) = n := by simp
    rw [e] at h2 h3
    rw [h2, h3]

/-- **C139 (gradient).** `jax.grad(J_total)` succeeds and is the derivative of `J_total`; along a direction `d` it is `2 Σ (predicted - true) (prediction for d)` over the observed nodes. -/
theorem C139_gradient (F : Fem nn nq nf nfq 3 1) (L : Fin 3 → ℝ) (hF : Mesh F L) (lin : ℕ → LinCall ℝ → ℕ → ℝ) (hlin : ExactLin (F.numTotal * 1) lin) (fuel : ℕ) (obs : List ℕ) (t : ℕ → ℝ)
    (p : Fin F.numTotal → ℝ) :
    (prob F L).revGrad lin true false fuel (jFn obs t) p = .ok (jGrad F L lin fuel obs t p) ∧
    HasFDerivAt (jTotal F L lin fuel obs t) (∑ j, jGrad F L lin fuel obs t p j • (ContinuousLinearMap.proj j : (Fin F.numTotal → ℝ) →L[ℝ] ℝ)) p ∧
    ∀ d sp sd, (prob F L).fwdPred lin true false fuel p = .ok sp → (prob F L).fwdPred lin true false fuel d = .ok sd →
      ∑ j, jGrad F L lin fuel obs t p j * d j = (obs.map fun o => 2 * (sp o - t o) * sd o).sum := by
  have hdiff : Differentiable ℝ fun x : Fin (F.numTotal * 1) → ℝ => jFn obs t (ext x) := by
    unfold jFn
    induction obs with
    | nil => exact differentiable_const _
    | cons o obs ih =>
      simp only [List.map_cons, List.sum_cons]
      refine Differentiable.add ?_ ih
      by_cases ho : o < F.numTotal * 1
      · have : (fun x : Fin (F.numTotal * 1) → ℝ => (ext x o - t o) ^ 2) = fun x => (x ⟨o, ho⟩ - t o) ^ 2 := by
          funext x
          simp only [Fem.ext, ho, dif_pos]
        rw [this]
        fun_prop
      · have : (fun x : Fin (F.numTotal * 1) → ℝ => (ext x o - t o) ^ 2) = fun _ => (0 - t o) ^ 2 := by
          funext x
          simp only [Fem.ext, ho, dif_neg, not_false_iff]
        rw [this]
        fun_prop
  obtain ⟨g, h1, h2⟩ := (family F L hF p).C94_gradient (family_determined F L hF p) lin hlin false fuel (jFn obs t) hdiff
  have hg : jGrad F L lin fuel obs t p = g := by
    unfold jGrad
    rw [h1]
  rw [hg]
  refine ⟨h1, h2, fun d sp sd hp hd => ?_⟩
  have h3 : HasDerivAt (fun h : ℝ => jTotal F L lin fuel obs t (p + h • d)) (∑ j, g j * d j) 0 := by
    have e0 : HasDerivAt (fun h : ℝ => p + h • d) d 0 := by
      simpa using ((hasDerivAt_id (0 : ℝ)).smul_const d).const_add p
    have h2' : HasFDerivAt (jTotal F L lin fuel obs t) (∑ j, g j • (ContinuousLinearMap.proj j : (Fin F.numTotal → ℝ) →L[ℝ] ℝ)) (p + (0 : ℝ) • d) := by
      rw [zero_smul, add_zero]
      exact h2
    refine (h2'.comp_hasDerivAt (0 : ℝ) e0).congr_deriv ?_
    simp [_root_.sum_apply]
  have h4 : HasDerivAt (fun h : ℝ => jTotal F L lin fuel obs t (p + h • d)) (obs.map fun o => 2 * (sp o - t o) * sd o).sum 0 := by
    have e : (fun h : ℝ => jTotal F L lin fuel obs t (p + h • d)) = fun h => jTotal F L lin fuel obs t p + h * (obs.map fun o => 2 * (sp o - t o) * sd o).sum + h ^ 2 * (obs.map fun o => sd o ^ 2).sum := by
      funext h
      exact C139_quadratic F L hF lin hlin fuel obs t p d h sp sd hp hd
    rw [e]
    have := (((hasDerivAt_id (0 : ℝ)).mul_const (obs.map fun o => 2 * (sp o - t o) * sd o).sum).const_add (jTotal F L lin fuel obs t p)).add
      (((hasDerivAt_id (0 : ℝ)).pow 2).mul_const (obs.map fun o => sd o ^ 2).sum)
    refine this.congr_deriv ?_
    simp
  exact h3.unique h4

/-- **C139 (Taylor test).** The saved columns: the first order remainder is exactly `h²` times a number that does not depend on `h`. -/
theorem C139_taylor (F : Fem nn nq nf nfq 3 1) (L : Fin 3 → ℝ) (hF : Mesh F L) (lin : ℕ → LinCall ℝ → ℕ → ℝ) (hlin : ExactLin (F.numTotal * 1) lin) (fuel : ℕ) (obs : List ℕ) (t : ℕ → ℝ)
    (m : Fin F.numTotal → ℝ) (sm s1 : ℕ → ℝ) (hm : (prob F L).fwdPred lin true false fuel m = .ok sm) (h1 : (prob F L).fwdPred lin true false fuel (fun _ => 1) = .ok s1) :
    taylorTests m (jTotal F L lin fuel obs t) (jGrad F L lin fuel obs t) = [1e-4, 1e-3, 1e-2, 1e-1].map fun h : ℝ =>
      (h, |h * (obs.map fun o => 2 * (sm o - t o) * s1 o).sum + h ^ 2 * (obs.map fun o => s1 o ^ 2).sum|, h ^ 2 * (obs.map fun o => s1 o ^ 2).sum) := by
  have hpos : 0 ≤ (obs.map fun o => s1 o ^ 2).sum := List.sum_nonneg fun x hx => by
    obtain ⟨o, -, rfl⟩ := List.mem_map.mp hx
    exact sq_nonneg _
  have hg := (C139_gradient F L hF lin hlin fuel obs t m).2.2 (fun _ => 1) sm s1 hm h1
  unfold taylorTests
  refine List.map_congr_left fun h _ => ?_
  have e : (fun j : Fin F.numTotal => (1 : ℝ) * h + m j) = m + h • fun _ => 1 := by
    funext j
    simp [add_comm]
  dsimp only
  rw [e, C139_quadratic F L hF lin hlin fuel obs t m (fun _ => 1) h sm s1 hm h1, hg]
  refine Prod.ext rfl (Prod.ext ?_ ?_)
  · dsimp only
    congr 1
    ring
  · dsimp only
    rw [show ∀ a b c : ℝ, a + b + c - a - b = c from fun a b c => by ring]
    exact abs_of_nonneg (mul_nonneg (sq_nonneg h) hpos)

/-! ## What can be identified -/

theorem square_zero (F : Fem nn nq nf nfq 3 1) (L : Fin 3 → ℝ) (hF : Mesh F L) (u : ℕ → ℝ) (h : (F.cells.map fun c => ∑ q, val F u c q * val F u c q * F.JxW c q).sum = 0) : ∀ n < F.numTotal, u n = 0 := by
  refine hF.points u fun c hc q => ?_
  have h1 := list_sum_eq_zero F.cells (fun c => ∑ q, val F u c q * val F u c q * F.JxW c q) (fun c hc => sum_nonneg fun q _ => mul_nonneg (mul_self_nonneg _) (hF.vol c hc q).le) h c hc
  have h2 := (sum_eq_zero_iff_of_nonneg fun q _ => mul_nonneg (mul_self_nonneg _) (hF.vol c hc q).le).mp h1 q (mem_univ q)
  exact mul_self_eq_zero.mp ((mul_eq_zero.mp h2).resolve_right (hF.vol c hc q).ne')

theorem ext_fin {N : ℕ} (p : Fin N → ℝ) (j : Fin N) : ext p j = p j := ext_lt p j

/-- Every load vector is the load vector of some nodal values. -/
theorem mass_onto (F : Fem nn nq nf nfq 3 1) (L : Fin 3 → ℝ) (hF : Mesh F L) (r : Fin F.numTotal → ℝ) : ∃ p : Fin F.numTotal → ℝ, ∀ n : Fin F.numTotal, loadVec F (val F (ext p)) n = r n := by
  let M : (Fin F.numTotal → ℝ) →ₗ[ℝ] (Fin F.numTotal → ℝ) := LinearMap.pi fun n => massMap F n
  have hinj : Function.Injective M := by
    rw [injective_iff_map_eq_zero]
    intro p hp
    have h1 := loadVec_work F hF.nodes (val F (ext p)) (ext p)
    rw [sum_eq_zero fun n hn => ?_] at h1
    · funext j
      rw [← ext_fin p j]
      exact square_zero F L hF (ext p) h1.symm j j.2
    · have : loadVec F (val F (ext p)) n = 0 := congrFun hp ⟨n, mem_range.mp hn⟩
      rw [this, zero_mul]
  obtain ⟨p, hp⟩ := (LinearMap.injective_iff_surjective.mp hinj) r
  exact ⟨p, fun n => congrFun hp n⟩

theorem Weak.congr {F : Fem nn nq nf nfq 3 1} {L : Fin 3 → ℝ} (hF : Mesh F L) {b b' : (Fin nn → ℕ) → Fin nq → ℝ} {u : ℕ → ℝ} (h : Weak F L b u)
    (hb : ∀ n < F.numTotal, ¬ OnFace L (F.points n) → loadVec F b n = loadVec F b' n) : Weak F L b' u := by
  refine ⟨h.zero, fun v hv => ?_⟩
  rw [h.balance v hv, ← loadVec_work F hF.nodes, ← loadVec_work F hF.nodes]
  refine sum_congr rfl fun n hn => ?_
  by_cases hface : OnFace L (F.points n)
  · rw [hv n (mem_range.mp hn) hface, mul_zero, mul_zero]
  · rw [hb n (mem_range.mp hn) hface]

/-- **C139 (attained).** Although the data come from a source that is not piecewise trilinear, some parameters reproduce `true_sol` exactly; the minimum of `J_total` is zero. -/
theorem C139_attained (F : Fem nn nq nf nfq 3 1) (L : Fin 3 → ℝ) (hF : Mesh F L) (lin : ℕ → LinCall ℝ → ℕ → ℝ) (hlin : ExactLin (F.numTotal * 1) lin) (fuel : ℕ) (obs : List ℕ) (t : ℕ → ℝ)
    (ht : trueSol F L lin fuel = .ok t) : ∃ p, (prob F L).fwdPred lin true false fuel p = .ok t ∧ jTotal F L lin fuel obs t p = 0 ∧ ∀ q, 0 ≤ jTotal F L lin fuel obs t q := by
  obtain ⟨t', h1, w1, z1, -⟩ := C139_data F L hF lin hlin fuel
  rw [ht] at h1
  cases h1
  obtain ⟨p, hp⟩ := mass_onto F L hF fun n => loadVec F (fun c q => bodyForce L (fun d => ∑ a, F.shapeVals q a * F.points (c a) d) 0) n
  obtain ⟨s, h2, -, z2, u2⟩ := C139_solution F L hF lin hlin false fuel p
  have hs : s = t := by
    funext n
    by_cases hn : n < F.numTotal
    · exact u2 t (w1.congr hF fun n hn _ => (hp ⟨n, hn⟩).symm) n hn
    · rw [z1 n (not_lt.mp hn), z2 n (not_lt.mp hn)]
  subst hs
  refine ⟨p, h2, ?_, fun q => ?_⟩
  · unfold jTotal ParamProb.objective
    rw [h2]
    show jFn obs s s = 0
    simp [jFn]
  · obtain ⟨r, h3, -⟩ := C139_solution F L hF lin hlin false fuel q
    unfold jTotal ParamProb.objective
    rw [h3]
    refine List.sum_nonneg fun x hx => ?_
    obtain ⟨o, -, rfl⟩ := List.mem_map.mp hx
    exact sq_nonneg _

/-- **C139 (stationary points).** The gradient vanishes exactly when the prediction agrees with the data at all observed nodes: every stationary point is a global minimum. -/
theorem C139_stationary (F : Fem nn nq nf nfq 3 1) (L : Fin 3 → ℝ) (hF : Mesh F L) (lin : ℕ → LinCall ℝ → ℕ → ℝ) (hlin : ExactLin (F.numTotal * 1) lin) (fuel : ℕ) (obs : List ℕ) (t : ℕ → ℝ)
    (ht : trueSol F L lin fuel = .ok t) (p : Fin F.numTotal → ℝ) (s : ℕ → ℝ) (hp : (prob F L).fwdPred lin true false fuel p = .ok s) :
    (jGrad F L lin fuel obs t p = 0 ↔ ∀ o ∈ obs, s o = t o) ∧ (jTotal F L lin fuel obs t p = 0 ↔ ∀ o ∈ obs, s o = t o) := by
  have key : (obs.map fun o => (s o - t o) ^ 2).sum = 0 → ∀ o ∈ obs, s o = t o := by
    intro h o ho
    have := list_sum_eq_zero obs (fun o => (s o - t o) ^ 2) (fun o _ => sq_nonneg _) h o ho
    exact sub_eq_zero.mp (pow_eq_zero_iff (two_ne_zero) |>.mp this)
  have hg := (C139_gradient F L hF lin hlin fuel obs t p).2.2
  refine ⟨⟨fun h0 => ?_, fun h => ?_⟩, ⟨fun h => key ?_, fun h => ?_⟩⟩
  · obtain ⟨p', h1, -⟩ := C139_attained F L hF lin hlin fuel obs t ht
    have h2 := hg (p + (-1 : ℝ) • p') s _ hp (C139_linear F L hF lin hlin false fuel p p' (-1) s t hp h1)
    rw [h0] at h2
    simp only [Pi.zero_apply, zero_mul, sum_const_zero] at h2
    apply key
    have e : (obs.map fun o => 2 * (s o - t o) * (s o + -1 * t o)).sum = 2 * (obs.map fun o => (s o - t o) ^ 2).sum := by
      rw [← List.sum_map_mul_left]
      exact sum_map_congr fun o _ => by ring
    rw [e] at h2
    linarith
  · funext j
    obtain ⟨sd, h3, -⟩ := C139_solution F L hF lin hlin false fuel (Pi.single j 1)
    have h4 := hg (Pi.single j 1) s sd hp h3
    rw [sum_map_congr (g := fun _ => 0) fun o ho => by rw [h o ho, sub_self, mul_zero, zero_mul]] at h4
    simpa [Pi.single_apply] using h4
  · unfold jTotal ParamProb.objective at h
    rw [hp] at h
    exact h
  · unfold jTotal ParamProb.objective
    rw [hp]
    show jFn obs t s = 0
    unfold jFn
    rw [sum_map_congr (g := fun _ => 0) fun o ho => by rw [h o ho, sub_self, zero_pow two_ne_zero]]
    simp

/-- **C139 (not unique).** Whatever nodes are observed — even all of them — the source is not determined: there is a change of the parameters, other than zero, that changes neither the prediction nor the objective. -/
theorem C139_silent (F : Fem nn nq nf nfq 3 1) (L : Fin 3 → ℝ) (hF : Mesh F L) (lin : ℕ → LinCall ℝ → ℕ → ℝ) (hlin : ExactLin (F.numTotal * 1) lin) (fuel : ℕ)
    (hface : ∃ n < F.numTotal, OnFace L (F.points n)) :
    ∃ d : Fin F.numTotal → ℝ, d ≠ 0 ∧ ∀ p (h : ℝ), (prob F L).fwdPred lin true false fuel (p + h • d) = (prob F L).fwdPred lin true false fuel p ∧
      ∀ obs t, jTotal F L lin fuel obs t (p + h • d) = jTotal F L lin fuel obs t p := by
  classical
  obtain ⟨n0, hn0, hf0⟩ := hface
  let M : (Fin F.numTotal → ℝ) →ₗ[ℝ] (Fin F.numTotal → ℝ) := LinearMap.pi fun n => if OnFace L (F.points n) then 0 else massMap F n
  have hns : ¬ Function.Injective M := by
    intro h
    obtain ⟨d, hd⟩ := (LinearMap.injective_iff_surjective.mp h) (Pi.single ⟨n0, hn0⟩ 1)
    have h1 := congrFun hd ⟨n0, hn0⟩
    have h2 : M d ⟨n0, hn0⟩ = 0 := by
      show (if OnFace L (F.points n0) then (0 : (Fin F.numTotal → ℝ) →ₗ[ℝ] ℝ) else massMap F n0) d = 0
      rw [if_pos hf0]
      rfl
    rw [h2, Pi.single_eq_same] at h1
    exact zero_ne_one h1
  rw [injective_iff_map_eq_zero] at hns
  push Not at hns
  obtain ⟨d, hd, hne⟩ := hns
  obtain ⟨sd, h2, -, z2, u2⟩ := C139_solution F L hF lin hlin false fuel d
  have hw : Weak F L (val F (ext d)) fun _ => 0 := by
    refine ⟨fun _ _ _ => rfl, fun v hv => ?_⟩
    rw [← loadVec_work F hF.nodes, sum_eq_zero fun n hn => ?_]
    · simp [slope]
    · by_cases hf : OnFace L (F.points n)
      · rw [hv n (mem_range.mp hn) hf, mul_zero]
      · have h3 : (if OnFace L (F.points n) then (0 : (Fin F.numTotal → ℝ) →ₗ[ℝ] ℝ) else massMap F n) d = 0 := congrFun hd ⟨n, mem_range.mp hn⟩
        rw [if_neg hf] at h3
        have h4 : loadVec F (val F (ext d)) n = 0 := h3
        rw [h4, zero_mul]
  have hs : ∀ n, sd n = 0 := by
    intro n
    by_cases hn : n < F.numTotal
    · exact u2 _ hw n hn
    · exact z2 n (not_lt.mp hn)
  have hall : ∀ p (h : ℝ), (prob F L).fwdPred lin true false fuel (p + h • d) = (prob F L).fwdPred lin true false fuel p := by
    intro p h
    obtain ⟨s, h3, -⟩ := C139_solution F L hF lin hlin false fuel p
    rw [C139_linear F L hF lin hlin false fuel p d h s sd h3 h2, h3]
    congr 1
    funext n
    rw [hs n, mul_zero, add_zero]
  refine ⟨d, hne, fun p h => ⟨hall p h, fun obs t => ?_⟩⟩
  unfold jTotal ParamProb.objective
  rw [hall p h]

/-! ## The norm and the reported errors -/

/-- **C139 (norm).** `compute_L2` is the sum of the squares at the quadrature points with the weights of the cells; it vanishes only for the zero field. -/
theorem C139_norm (F : Fem nn nq nf nfq 3 1) (L : Fin 3 → ℝ) (hF : Mesh F L) (u : ℕ → ℝ) :
    computeL2 F u = (F.cells.map fun c => ∑ q, val F u c q ^ 2 * F.JxW c q).sum ∧ 0 ≤ computeL2 F u ∧ (computeL2 F u = 0 ↔ ∀ n < F.numTotal, u n = 0) := by
  have h1 : computeL2 F u = (F.cells.map fun c => ∑ q, val F u c q ^ 2 * F.JxW c q).sum := by
    unfold computeL2
    refine sum_map_congr fun c _ => ?_
    unfold Fem.massKernel
    simp only [Finset.univ_unique, Finset.sum_singleton]
    rw [sum_comm]
    refine sum_congr rfl fun q _ => ?_
    have : ∀ a, (∑ n', u (c n') * F.shapeVals q n') ^ 2 * F.shapeVals q a * F.JxW c q = F.shapeVals q a * ((∑ n', u (c n') * F.shapeVals q n') ^ 2 * F.JxW c q) := fun a => by ring
    simp only [this, ← sum_mul, hF.unity, one_mul]
    rfl
  refine ⟨h1, ?_, fun h => square_zero F L hF u ?_, fun h => ?_⟩
  · rw [h1]
    refine List.sum_nonneg fun x hx => ?_
    obtain ⟨c, hc, rfl⟩ := List.mem_map.mp hx
    exact sum_nonneg fun q _ => mul_nonneg (sq_nonneg _) (hF.vol c hc q).le
  · rw [← h, h1]
    exact sum_map_congr fun c _ => sum_congr rfl fun q _ => by ring
  · rw [h1]
    refine List.sum_eq_zero fun x hx => ?_
    obtain ⟨c, hc, rfl⟩ := List.mem_map.mp hx
    refine sum_eq_zero fun q _ => ?_
    have : val F u c q = 0 := sum_eq_zero fun a _ => by rw [h _ (hF.nodes c hc a), zero_mul]
    rw [this]
    ring

/-- **C139 (reported errors).** For a reference field other than zero, a reported relative error is zero exactly when the two fields agree at all nodes. -/
theorem C139_error (F : Fem nn nq nf nfq 3 1) (L : Fin 3 → ℝ) (hF : Mesh F L) (t s : ℕ → ℝ) (ht : ∃ n < F.numTotal, t n ≠ 0) : relError F t s = 0 ↔ ∀ n < F.numTotal, s n = t n := by
  obtain ⟨n0, hn0, hne⟩ := ht
  obtain ⟨-, h1, h2⟩ := C139_norm F L hF t
  obtain ⟨-, h3, h4⟩ := C139_norm F L hF fun n => t n - s n
  have hpos : 0 < computeL2 F t := lt_of_le_of_ne h1 fun h => hne (h2.mp h.symm n0 hn0)
  unfold relError
  rw [div_eq_zero_iff, or_iff_left (Real.sqrt_pos.mpr hpos).ne', Real.sqrt_eq_zero h3, h4]
  exact ⟨fun h n hn => (sub_eq_zero.mp (h n hn)).symm, fun h n hn => by rw [h n hn, sub_self]⟩

/-- **C139 (data differ from zero).** The source function is positive; if a node of a cell is free, `true_sol` is not zero, so that the reported errors are defined. -/
theorem C139_nonzero (F : Fem nn nq nf nfq 3 1) (L : Fin 3 → ℝ) (hF : Mesh F L) (hq : 0 < nq) (hpos : ∀ q a, 0 < F.shapeVals q a) (lin : ℕ → LinCall ℝ → ℕ → ℝ) (hlin : ExactLin (F.numTotal * 1) lin) (fuel : ℕ)
    (t : ℕ → ℝ) (ht : trueSol F L lin fuel = .ok t) (hfree : ∃ c ∈ F.cells, ∃ a, ¬ OnFace L (F.points (c a))) : ∃ n < F.numTotal, t n ≠ 0 := by
  by_contra hno
  push Not at hno
  obtain ⟨t', h1, w1, -, -⟩ := C139_data F L hF lin hlin fuel
  rw [ht] at h1
  cases h1
  obtain ⟨c0, hc0, a0, hf⟩ := hfree
  have hb : ∀ x, 0 < bodyForce L x 0 := fun x => by unfold bodyForce; positivity
  have hv : ∀ c q, val F (Pi.single (c0 a0) 1) c q = ∑ a, if c a = c0 a0 then F.shapeVals q a else 0 := by
    intro c q
    unfold val
    refine sum_congr rfl fun a _ => ?_
    rw [Pi.single_apply]
    split_ifs <;> simp
  have hv0 : ∀ c q, 0 ≤ val F (Pi.single (c0 a0) 1) c q := by
    intro c q
    rw [hv]
    exact sum_nonneg fun a _ => by split_ifs <;> [exact (hpos q a).le; exact le_rfl]
  have h2 := w1.balance (Pi.single (c0 a0) 1) fun n _ hface => by
    rw [Pi.single_apply, if_neg]
    rintro rfl
    exact hf hface
  have h3 : (F.cells.map fun c => ∑ q, (∑ d, slope F t c q d * slope F (Pi.single (c0 a0) 1) c q d) * F.JxW c q).sum = 0 := by
    refine List.sum_eq_zero fun x hx => ?_
    obtain ⟨c, hc, rfl⟩ := List.mem_map.mp hx
    refine sum_eq_zero fun q _ => ?_
    have : ∀ d, slope F t c q d = 0 := fun d => sum_eq_zero fun a _ => by rw [hno _ (hF.nodes c hc a), zero_mul]
    simp [this]
  rw [h3] at h2
  have h4 := list_sum_eq_zero F.cells _ (fun c hc => sum_nonneg fun q _ => mul_nonneg (mul_nonneg (hb _).le (hv0 c q)) (hF.vol c hc q).le) h2.symm c0 hc0
  have h5 := (sum_eq_zero_iff_of_nonneg fun q _ => mul_nonneg (mul_nonneg (hb _).le (hv0 c0 q)) (hF.vol c0 hc0 q).le).mp h4 ⟨0, hq⟩ (mem_univ _)
  have h6 : 0 < val F (Pi.single (c0 a0) 1) c0 ⟨0, hq⟩ := by
    rw [hv]
    refine sum_pos' (fun a _ => by split_ifs <;> [exact (hpos _ a).le; exact le_rfl]) ⟨a0, mem_univ _, ?_⟩
    rw [if_pos rfl]
    exact hpos _ _
  exact (mul_pos (mul_pos (hb _) h6) (hF.vol c0 hc0 ⟨0, hq⟩)).ne' h5

/-! ## The calls of the optimiser -/

/-- Specification: the points at which `fun` was called. -/
def fnPoints {X : Type} (calls : List (Call X)) : List X := calls.filterMap fun
  | .fn x => some x
  | .jac _ => none

theorem session_append {X : Type} (f : X → ℝ) (g : X → X) (out : X → ℝ × ℝ) (cs ds : List (Call X)) (s : Cache X) :
    session f g out (cs ++ ds) s = ((session f g out ds (session f g out cs s).1).1, (session f g out cs s).2 ++ (session f g out ds (session f g out cs s).1).2) := by
  induction cs generalizing s with
  | nil => rfl
  | cons c cs ih =>
    have e : ∀ xs, session f g out (c :: xs) s = ((session f g out xs (answer f g out s c).1).1, (answer f g out s c).2 :: (session f g out xs (answer f g out s c).1).2) := fun _ => rfl
    rw [List.cons_append, e, e, ih]
    rfl

theorem session_length {X : Type} (f : X → ℝ) (g : X → X) (out : X → ℝ × ℝ) (cs : List (Call X)) (s : Cache X) : (session f g out cs s).2.length = cs.length := by
  induction cs generalizing s with
  | nil => rfl
  | cons c cs ih => simp [session, ih]

theorem session_state {X : Type} (f : X → ℝ) (g : X → X) (out : X → ℝ × ℝ) (cs : List (Call X)) (s : Cache X) :
    (session f g out cs s).1.dJ = (((fnPoints cs).getLast?).map g).or s.dJ ∧ (session f g out cs s).1.counter = s.counter + (fnPoints cs).length ∧
    (session f g out cs s).1.outputs = s.outputs ++ (fnPoints cs).map fun x => (f x, out x) := by
  induction cs generalizing s with
  | nil => simp [session, fnPoints]
  | cons c cs ih =>
    obtain ⟨h1, h2, h3⟩ := ih (answer f g out s c).1
    cases c with
    | fn x =>
      have e : fnPoints (.fn x :: cs) = x :: fnPoints cs := rfl
      rw [e]
      refine ⟨?_, ?_, ?_⟩
      · show (session f g out cs (answer f g out s (.fn x)).1).1.dJ = _
        rw [h1]
        cases hl : fnPoints cs with
        | nil => rfl
        | cons y ys => rw [List.getLast?_cons_cons]; cases hy : (y :: ys).getLast? with
          | none => simp at hy
          | some z => rfl
      · show (session f g out cs (answer f g out s (.fn x)).1).1.counter = _
        rw [h2]
        show s.counter + 1 + _ = _
        rw [List.length_cons]
        omega
      · show (session f g out cs (answer f g out s (.fn x)).1).1.outputs = _
        rw [h3]
        show s.outputs ++ [(f x, out x)] ++ _ = _
        simp
    | jac x => exact ⟨h1, h2, h3⟩

/-- **C139 (cached gradient).** `jac(x)` ignores `x`: it returns the gradient at the point of the last call of `fun`, and raises if there was none. Every call of `fun` — and no other — writes one file and one row. -/
theorem C139_cached {X : Type} (f : X → ℝ) (g : X → X) (out : X → ℝ × ℝ) (pre post : List (Call X)) :
    (∀ x, (session f g out (pre ++ .fn x :: post) ⟨none, 0, []⟩).2[pre.length]? = some (.value (f x))) ∧
    (∀ x, (session f g out (pre ++ .jac x :: post) ⟨none, 0, []⟩).2[pre.length]? = some (match (fnPoints pre).getLast? with
      | some y => .grad (g y)
      | none => .raised)) ∧
    (session f g out pre ⟨none, 0, []⟩).1.counter = (fnPoints pre).length ∧ (session f g out pre ⟨none, 0, []⟩).1.outputs = (fnPoints pre).map fun x => (f x, out x) := by
  obtain ⟨h1, h2, h3⟩ := session_state f g out pre ⟨none, 0, []⟩
  have key : ∀ c, (session f g out (pre ++ c :: post) ⟨none, 0, []⟩).2[pre.length]? = some (answer f g out (session f g out pre ⟨none, 0, []⟩).1 c).2 := by
    intro c
    rw [session_append]
    dsimp only
    rw [List.getElem?_append_right (by rw [session_length]), session_length, Nat.sub_self]
    rfl
  refine ⟨fun x => (key _).trans rfl, fun x => (key _).trans ?_, by simpa using h2, by simpa using h3⟩
  congr 1
  show (match (session f g out pre ⟨none, 0, []⟩).1.dJ with
    | some d => Answer.grad d
    | none => .raised) = _
  rw [h1]
  cases (fnPoints pre).getLast? <;> rfl

/-! ## The box -/

/-- A trilinear function that vanishes at the eight Gauss points is zero. -/
theorem hex8_points (w : Fin 8 → ℝ) (h : ∀ q, ∑ a, w a * shapeVal hex8 a ((gaussRule 3).pt q) = 0) : ∀ a, w a = 0 := by
  have h0 : ∀ b0 b1 b2 : Bool, (w 0 * (1 - gaussPoint b2) + w 4 * gaussPoint b2) * ((1 - gaussPoint b0) * (1 - gaussPoint b1)) + (w 1 * (1 - gaussPoint b2) + w 5 * gaussPoint b2) * (gaussPoint b0 * (1 - gaussPoint b1))
      + (w 3 * (1 - gaussPoint b2) + w 7 * gaussPoint b2) * ((1 - gaussPoint b0) * gaussPoint b1) + (w 2 * (1 - gaussPoint b2) + w 6 * gaussPoint b2) * (gaussPoint b0 * gaussPoint b1) = 0 := by
    intro b0 b1 b2
    obtain ⟨q, hq⟩ := gauss_pt3 ![b0, b1, b2]
    have e := h q
    have e0 := hq 0
    have e1 := hq 1
    have e2 := hq 2
    simp only [shapeVal_hex8, Fin.prod_univ_three] at e
    simp only [Fin.sum_univ_eight, Verif.Mesh.hexCorner, lin] at e
    simp at e e0 e1 e2
    rw [e0, e1, e2] at e
    linear_combination e
  have h1 := fun b2 => bilin_zero _ _ _ _ fun b0 b1 => h0 b0 b1 b2
  obtain ⟨a0, a4⟩ := lin_zero (w 0) (w 4) fun b => (h1 b).1
  obtain ⟨a1, a5⟩ := lin_zero (w 1) (w 5) fun b => (h1 b).2.1
  obtain ⟨a3, a7⟩ := lin_zero (w 3) (w 7) fun b => (h1 b).2.2.1
  obtain ⟨a2, a6⟩ := lin_zero (w 2) (w 6) fun b => (h1 b).2.2.2
  intro a
  fin_cases a <;> assumption

/-- **C139 (mesh).** Every box mesh with the 2x2x2 rule satisfies the assumptions. -/
theorem C139_box (F : Fem 8 (2 ^ 3) nf nfq 3 1) (N : Fin 3 → ℕ) (L : Fin 3 → ℝ) (hbox : OnBox F N L) (hnum : F.numTotal = (N 0 + 1) * (N 1 + 1) * (N 2 + 1)) (hN : ∀ a, 0 < N a)
    (hL : ∀ a, 0 < L a) (ht : CellTables F hex8 (gaussRule 3)) : Mesh F L := by
  have hs := C98_box F N L hbox hnum hN hL ht
  refine ⟨hs.cells, hs.mesh, hs.vol, hs.modes, hs.unity, fun u hu n hn => ?_, fun n hn => ?_⟩
  · obtain ⟨c, hc, a, rfl⟩ := hs.used n hn
    refine hex8_points (fun a => u (c a)) (fun q => ?_) a
    have := hu c hc q
    unfold val at this
    simpa only [ht.vals] using this
  · rw [hnum] at hn
    obtain ⟨m, hm, rfl⟩ := gridNode_surj N n hn
    have hle : ∀ a, ![0, m 1, m 2] a ≤ N a := by
      intro a
      fin_cases a
      · exact Nat.zero_le _
      · exact hm 1
      · exact hm 2
    refine ⟨gridNode N ![0, m 1, m 2], by rw [hnum]; exact gridNode_lt N _ hle, ⟨0, .inl ?_⟩, ?_⟩
    · rw [hbox.point _ hle 0]
      norm_num
    · have := box_connected hbox hN (m 1) (m 2) (hm 1) (hm 2) (m 0) (hm 0)
      have e : m = ![m 0, m 1, m 2] := by
        funext a
        fin_cases a <;> rfl
      rw [e]
      exact this

/-- **C139 (support).** If the cells are larger than the tolerances, the nodes that are fixed are exactly those on the surface of the grid. -/
theorem C139_support (F : Fem 8 nq nf nfq 3 1) (N : Fin 3 → ℕ) (L : Fin 3 → ℝ) (hbox : OnBox F N L) (hN : ∀ a, 0 < N a) (hh : ∀ a, 1e-5 + 1e-5 * |L a| < L a / N a) (m : Fin 3 → ℕ) (hm : ∀ a, m a ≤ N a) :
    OnFace L (F.points (gridNode N m)) ↔ ∃ a, m a = 0 ∨ m a = N a := by
  unfold OnFace
  refine exists_congr fun a => ?_
  have hNa : (0 : ℝ) < N a := by exact_mod_cast hN a
  have hpos : 0 < L a / N a := lt_of_le_of_lt (by positivity) (hh a)
  have h0 : 0 ≤ (1e-5 : ℝ) * |L a| := by positivity
  have hLa : L a = N a * (L a / N a) := by field_simp
  rw [hbox.point m hm a]
  constructor
  · rintro (h | h)
    · left
      by_contra hne
      have h1 : (1 : ℝ) ≤ m a := by exact_mod_cast Nat.pos_of_ne_zero hne
      rw [abs_of_nonneg (by positivity)] at h
      have := hh a
      nlinarith
    · right
      by_contra hne
      have h1 : (m a : ℝ) + 1 ≤ N a := by exact_mod_cast Nat.lt_of_le_of_ne (hm a) hne
      have h2 : (m a : ℝ) * (L a / N a) - L a = -((N a - m a) * (L a / N a)) := by
        rw [sub_mul, ← hLa]
        ring
      rw [h2, abs_neg, abs_of_nonneg (mul_nonneg (by linarith) hpos.le)] at h
      have := hh a
      nlinarith
  · rintro (h | h)
    · left
      rw [h]
      norm_num
    · right
      rw [h, ← hLa, sub_self, abs_zero]
      positivity

/-- A box with at least two cells in each direction has a free node. -/
theorem box_free (F : Fem 8 nq nf nfq 3 1) (N : Fin 3 → ℕ) (L : Fin 3 → ℝ) (hbox : OnBox F N L) (hN : ∀ a, 1 < N a) (hh : ∀ a, 1e-5 + 1e-5 * |L a| < L a / N a) :
    ∃ c ∈ F.cells, ∃ a, ¬ OnFace L (F.points (c a)) := by
  refine ⟨boxCell N fun _ => 1, (hbox.mem_cells _).mpr ⟨fun _ => 1, (mem_boxGrid _ _).mpr hN, rfl⟩, 0, ?_⟩
  unfold boxCell
  have e : (fun a => 1 + Verif.Mesh.hexCorner 0 a) = fun _ => 1 := by
    funext a
    fin_cases a <;> rfl
  rw [e, C139_support F N L hbox (fun a => by have := hN a; omega) hh _ fun a => by have := hN a; omega]
  rintro ⟨a, h⟩
  have := hN a
  omega

/-- The object of the program for every grid and edge lengths (poisson.py 75-78, 113; the program has 50, 50, 10 cells and lengths 1, 1, 0.2). -/
noncomputable def obj (N : Fin 3 → ℕ) (L : Fin 3 → ℝ) : Fem 8 (2 ^ 3) 6 (2 ^ 2) 3 1 :=
  Fem.ofElement 8 6 3 1 hex8 (gaussRule 3) (gaussRule 2) ((N 0 + 1) * (N 1 + 1) * (N 2 + 1)) (Verif.Mesh.boxMesh (N 0) (N 1) (N 2) (L 0) (L 1) (L 2)).points.get
    (Verif.Mesh.boxMesh (N 0) (N 1) (N 2) (L 0) (L 1) (L 2)).cells.toList

/-- The shape functions of the trilinear cell are positive at the Gauss points. -/
theorem hex8_pos (q : Fin (2 ^ 3)) (a : Fin 8) : 0 < shapeVal hex8 a ((gaussRule 3).pt q) := by
  have h1 : ∀ b, 0 < gaussPoint b ∧ gaussPoint b < 1 := by
    intro b
    have h3 : (1 : ℝ) < Real.sqrt 3 := by
      rw [show (1 : ℝ) = Real.sqrt 1 from Real.sqrt_one.symm]
      exact Real.sqrt_lt_sqrt (by norm_num) (by norm_num)
    have h4 : 1 / Real.sqrt 3 < 1 := (div_lt_one (by linarith)).mpr h3
    have h5 : 0 < 1 / Real.sqrt 3 := by positivity
    unfold gaussPoint
    cases b <;> simp only [if_true, Bool.false_eq_true, if_false] <;> constructor <;> linarith
  rw [shapeVal_hex8]
  refine prod_pos fun d _ => ?_
  obtain ⟨h6, h7⟩ := h1 ((q : ℕ).testBit (3 - 1 - d))
  show 0 < lin (Verif.Mesh.hexCorner a d) (gaussPoint ((q : ℕ).testBit (3 - 1 - d)))
  unfold lin
  split_ifs <;> linarith

theorem exact_exists (N : ℕ) : ∃ lin, ExactLin N lin := by
  classical
  refine ⟨fun _ call => if h : ∃ x, ∀ d < N, call.op x d = call.b d then Classical.choose h else 0, fun k call h d hd => ?_⟩
  beta_reduce
  rw [dif_pos h]
  exact Classical.choose_spec h d hd

theorem obj_num (N : Fin 3 → ℕ) (L : Fin 3 → ℝ) : (obj N L).numTotal = (N 0 + 1) * (N 1 + 1) * (N 2 + 1) := rfl

theorem obj_box (N : Fin 3 → ℕ) (L : Fin 3 → ℝ) : OnBox (obj N L) N L := ⟨rfl, rfl⟩

theorem obj_pos (N : Fin 3 → ℕ) (L : Fin 3 → ℝ) (q : Fin (2 ^ 3)) (a : Fin 8) : 0 < (obj N L).shapeVals q a := hex8_pos q a

theorem obj_mesh (N : Fin 3 → ℕ) (L : Fin 3 → ℝ) (hN : ∀ a, 0 < N a) (hL : ∀ a, 0 < L a) : Mesh (obj N L) L :=
  C139_box (obj N L) N L ⟨rfl, rfl⟩ rfl hN hL ⟨fun _ _ => rfl, fun _ _ _ => rfl, fun _ => rfl⟩

/-- The mesh of the program: 28611 nodes; the data are not zero and are reproduced by some source, and also by another one. -/
example : ∃ lin t, ExactLin ((obj ![50, 50, 10] ![1, 1, 0.2]).numTotal * 1) lin ∧ (obj ![50, 50, 10] ![1, 1, 0.2]).numTotal = 28611 ∧ trueSol (obj ![50, 50, 10] ![1, 1, 0.2]) ![1, 1, 0.2] lin 1 = .ok t ∧
    (∃ n < 28611, t n ≠ 0) ∧ ∃ p q, p ≠ q ∧ (prob (obj ![50, 50, 10] ![1, 1, 0.2]) ![1, 1, 0.2]).fwdPred lin true false 1 p = .ok t ∧
      (prob (obj ![50, 50, 10] ![1, 1, 0.2]) ![1, 1, 0.2]).fwdPred lin true false 1 q = .ok t := by
  set F := obj ![50, 50, 10] ![1, 1, 0.2] with hFdef
  have hN : ∀ a, 0 < (![50, 50, 10] : Fin 3 → ℕ) a := by intro a; fin_cases a <;> simp
  have hL : ∀ a, 0 < (![1, 1, 0.2] : Fin 3 → ℝ) a := by intro a; fin_cases a <;> norm_num
  have hbox : OnBox F ![50, 50, 10] ![1, 1, 0.2] := obj_box _ _
  have hnum : F.numTotal = 28611 := by
    rw [hFdef, obj_num]
    simp
  have hF : Mesh F ![1, 1, 0.2] := obj_mesh _ _ hN hL
  have hpos : ∀ q a, 0 < F.shapeVals q a := obj_pos _ _
  clear_value F
  obtain ⟨lin, hlin⟩ := exact_exists (F.numTotal * 1)
  obtain ⟨t, ht, -⟩ := C139_data F _ hF lin hlin 1
  have hh : ∀ a, 1e-5 + 1e-5 * |(![1, 1, 0.2] : Fin 3 → ℝ) a| < (![1, 1, 0.2] : Fin 3 → ℝ) a / ((![50, 50, 10] : Fin 3 → ℕ) a : ℝ) := by
    intro a
    rw [abs_of_pos (hL a)]
    fin_cases a <;> norm_num
  have hfree := box_free F ![50, 50, 10] ![1, 1, 0.2] hbox (fun a => by fin_cases a <;> simp) hh
  have hface : ∃ n < F.numTotal, OnFace ![1, 1, 0.2] (F.points n) := by
    obtain ⟨m, h1, h2, -⟩ := hF.linked 0 (by rw [hnum]; norm_num)
    exact ⟨m, h1, h2⟩
  obtain ⟨p, hp, -⟩ := C139_attained F _ hF lin hlin 1 [] t ht
  obtain ⟨d, hd, hall⟩ := C139_silent F _ hF lin hlin 1 hface
  refine ⟨lin, t, hlin, hnum, ht, ?_, p, p + (1 : ℝ) • d, ?_, hp, (hall p 1).1.trans hp⟩
  · rw [← hnum]
    exact C139_nonzero F _ hF (by norm_num) hpos lin hlin 1 t ht hfree
  · intro h
    rw [one_smul] at h
    exact hd (by simpa using h)

/-- `fun(1)`, `fun(2)`, `jac(1)` for `x²`: the gradient returned for 1 is the one at 2. -/
example : (session (fun x : ℝ => x ^ 2) (fun x => 2 * x) (fun _ => (0, 0)) [.jac 1, .fn 1, .fn 2, .jac 1] ⟨none, 0, []⟩).2 = [.raised, .value (1 ^ 2), .value (2 ^ 2), .grad (2 * 2)] := rfl

end Verif.SourceId
