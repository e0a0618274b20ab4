import Verif.Fem.MultiScaleBc
import Verif.Fem.CauchyExample
import Mathlib.LinearAlgebra.Dual.Lemmas

/-!
# C157: multipliers of the constraints, and the periodic Poisson problem (applications/fem/periodic_bc/example.py)
-/
namespace Verif.Fem.PeriodicExample
open Finset Verif.Fem

/-! ## Specification -/

/-- A variation of a field that keeps all conditions: zero where values are prescribed, equal on both sides of every tie. -/
def Admissible {E : Type} (P : LProb ℝ E) (v : ℕ → ℝ) : Prop := (∀ p ∈ P.prescriptions, v p.1 = 0) ∧ ∀ p ∈ P.ties, v p.1 = v p.2

/-! ## Multipliers -/

theorem zipIdx_sum {α : Type} (l : List α) (O : ℕ) (g : α × ℕ → ℝ) : ((l.zipIdx O).map g).sum = ∑ k : Fin l.length, g (l[k], O + k) := by
  rw [← List.sum_ofFn]
  congr 1
  refine List.ext_getElem (by simp) fun i hi hi' => ?_
  simp

theorem zipIdx_mem' {α : Type} {l : List α} {k : ℕ} {p : α × ℕ} (hp : p ∈ l.zipIdx k) : p.1 ∈ l := (List.mem_zipIdx hp).2.2 ▸ List.getElem_mem _

/-- **C157 (multipliers).** For every problem with well-formed constraints, redundant or not: a field can be completed by multipliers to a zero of the augmented residual exactly when it satisfies all Dirichlet and periodic conditions
and its residual does no work in any admissible variation. -/
theorem C157_multipliers {E : Type} (P : LProb ℝ E) (h : P.WF) (heps : P.eps ≠ 0) (res u : ℕ → ℝ) :
    (∃ x : ℕ → ℝ, (∀ d < P.numDofs, x d = u d) ∧ ∀ d < P.numDofs + P.augSize, P.residualLm res x d = 0) ↔
      (∀ p ∈ P.prescriptions, u p.1 = p.2) ∧ (∀ p ∈ P.ties, u p.1 = u p.2) ∧ ∀ v, Admissible P v → ∑ d ∈ range P.numDofs, res d * v d = 0 := by
  constructor
  · rintro ⟨x, hx, hz⟩
    obtain ⟨h1, h2, h3⟩ := (C24_zero_iff P h heps _ x).mp hz
    refine ⟨fun p hp => by rw [← hx _ (h.range p hp)]; exact h2 p hp, fun p hp => by rw [← hx _ (h.prange p hp).1, ← hx _ (h.prange p hp).2]; exact h3 p hp, fun v hv => ?_⟩
    have hf := forces_work P h x v
    have z1 : ((P.prescriptions.zipIdx P.numDofs).map fun p => x p.2 * v p.1.1).sum = 0 := by
      refine List.sum_eq_zero fun y hy => ?_
      obtain ⟨p, hp, rfl⟩ := List.mem_map.mp hy
      rw [hv.1 _ (zipIdx_mem' hp), mul_zero]
    have z2 : ((P.ties.zipIdx (P.numDofs + P.prescriptions.length)).map fun p => x p.2 * (v p.1.1 - v p.1.2)).sum = 0 := by
      refine List.sum_eq_zero fun y hy => ?_
      obtain ⟨p, hp, rfl⟩ := List.mem_map.mp hy
      rw [hv.2 _ (zipIdx_mem' hp), sub_self, mul_zero]
    rw [z1, z2, add_zero] at hf
    have hs1 : ∑ d ∈ range P.numDofs, (res d + P.eps * P.forces x d) * v d = 0 := sum_eq_zero fun d hd => by rw [h1 d (mem_range.mp hd), zero_mul]
    simp only [add_mul, sum_add_distrib, mul_assoc] at hs1
    rw [← mul_sum, hf, mul_zero, add_zero] at hs1
    exact hs1
  · rintro ⟨h2, h3, hw⟩
    let ext : (Fin P.numDofs → ℝ) →ₗ[ℝ] (ℕ → ℝ) := LinearMap.pi fun d => if hd : d < P.numDofs then LinearMap.proj ⟨d, hd⟩ else 0
    have hext : ∀ v (d : Fin P.numDofs), ext v d = v d := fun v d => by
      show (if hd : (d : ℕ) < P.numDofs then (LinearMap.proj ⟨d, hd⟩ : (Fin P.numDofs → ℝ) →ₗ[ℝ] ℝ) else 0) v = v d
      rw [dif_pos d.2]
      rfl
    let B : (Fin P.numDofs → ℝ) →ₗ[ℝ] (Fin P.prescriptions.length ⊕ Fin P.ties.length → ℝ) :=
      (LinearMap.pi fun k => Sum.elim (fun k => LinearMap.proj (P.prescriptions[k]).1) (fun k => LinearMap.proj (P.ties[k]).1 - LinearMap.proj (P.ties[k]).2) k : (ℕ → ℝ) →ₗ[ℝ] _) ∘ₗ ext
    have hB1 : ∀ v k, B v (Sum.inl k) = ext v (P.prescriptions[k]).1 := fun v k => rfl
    have hB2 : ∀ v k, B v (Sum.inr k) = ext v (P.ties[k]).1 - ext v (P.ties[k]).2 := fun v k => rfl
    let φ : Module.Dual ℝ (Fin P.numDofs → ℝ) := ∑ d : Fin P.numDofs, res d • LinearMap.proj d
    have hφ : ∀ v, φ v = ∑ d : Fin P.numDofs, res d * v d := fun v => by
      show (∑ d : Fin P.numDofs, res d • (LinearMap.proj d : (Fin P.numDofs → ℝ) →ₗ[ℝ] ℝ)) v = _
      rw [LinearMap.sum_apply]
      rfl
    have hmem : φ ∈ LinearMap.range B.dualMap := by
      rw [LinearMap.range_dualMap_eq_dualAnnihilator_ker, Submodule.mem_dualAnnihilator]
      intro v hv
      have hv0 : B v = 0 := LinearMap.mem_ker.mp hv
      have := hw (ext v) ⟨fun p hp => by
        obtain ⟨k, hk, rfl⟩ := List.mem_iff_getElem.mp hp
        have := congrFun hv0 (Sum.inl ⟨k, hk⟩)
        rwa [hB1] at this, fun p hp => by
        obtain ⟨k, hk, rfl⟩ := List.mem_iff_getElem.mp hp
        have := congrFun hv0 (Sum.inr ⟨k, hk⟩)
        rw [hB2] at this
        exact sub_eq_zero.mp this⟩
      rw [sum_range] at this
      rw [hφ, ← this]
      exact sum_congr rfl fun d _ => by rw [hext]
    obtain ⟨ψ, hψ⟩ := LinearMap.mem_range.mp hmem
    let c : Fin P.prescriptions.length ⊕ Fin P.ties.length → ℝ := fun k => ψ fun j => if k = j then 1 else 0
    have hc : ∀ y, ψ y = ∑ k, y k * c k := fun y => LinearMap.pi_apply_eq_sum_univ ψ y
    let x : ℕ → ℝ := fun d => if d < P.numDofs then u d else if h1 : d - P.numDofs < P.prescriptions.length then -c (Sum.inl ⟨_, h1⟩) / P.eps
      else if h2 : d - P.numDofs - P.prescriptions.length < P.ties.length then -c (Sum.inr ⟨_, h2⟩) / P.eps else 0
    have hx : ∀ d < P.numDofs, x d = u d := fun d hd => if_pos hd
    have hx1 : ∀ k : Fin P.prescriptions.length, x (P.numDofs + k) = -c (Sum.inl k) / P.eps := fun k => by
      show (if _ then _ else _) = _
      rw [if_neg (by omega), dif_pos (by rw [Nat.add_sub_cancel_left]; exact k.2)]
      congr 4
      exact Fin.ext (Nat.add_sub_cancel_left _ _)
    have hx2 : ∀ k : Fin P.ties.length, x (P.numDofs + P.prescriptions.length + k) = -c (Sum.inr k) / P.eps := fun k => by
      show (if _ then _ else _) = _
      rw [if_neg (by omega), dif_neg (by omega), dif_pos (by omega)]
      congr 4
      exact Fin.ext (by show P.numDofs + P.prescriptions.length + k - P.numDofs - P.prescriptions.length = k; omega)
    refine ⟨x, hx, (C24_zero_iff P h heps _ x).mpr ⟨fun d hd => ?_, fun p hp => by rw [hx _ (h.range p hp)]; exact h2 p hp, fun p hp => by rw [hx _ (h.prange p hp).1, hx _ (h.prange p hp).2]; exact h3 p hp⟩⟩
    let e : Fin P.numDofs → ℝ := Pi.single ⟨d, hd⟩ 1
    have hf := forces_work P h x (ext e)
    have hl : ∑ d' ∈ range P.numDofs, P.forces x d' * ext e d' = P.forces x d := by
      rw [sum_range, sum_eq_single ⟨d, hd⟩ (fun b _ hb => by rw [hext, show e b = 0 from Pi.single_eq_of_ne hb 1, mul_zero]) (fun hb => absurd (mem_univ _) hb), hext, show e ⟨d, hd⟩ = 1 from Pi.single_eq_same _ _, mul_one]
    rw [hl, zipIdx_sum, zipIdx_sum] at hf
    simp only [hx1, hx2] at hf
    have hres : ψ (B e) = res d := by
      have h1 : ψ (B e) = φ e := by rw [← hψ]; rfl
      rw [h1, hφ, sum_eq_single ⟨d, hd⟩ (fun b _ hb => by rw [show e b = 0 from Pi.single_eq_of_ne hb 1, mul_zero]) (fun hb => absurd (mem_univ _) hb), show e ⟨d, hd⟩ = 1 from Pi.single_eq_same _ _, mul_one]
    rw [hc, Fintype.sum_sum_type] at hres
    simp only [hB1, hB2] at hres
    rw [hf, ← hres, mul_add, mul_sum, mul_sum, add_add_add_comm, ← sum_add_distrib, ← sum_add_distrib]
    refine (congrArg₂ (· + ·) (sum_eq_zero fun k _ => ?_) (sum_eq_zero fun k _ => ?_)).trans (add_zero _)
    · field_simp
      ring
    · field_simp
      ring

/-- A tie between two positions with the same prescribed value makes the augmented matrix singular. -/
theorem redundant_singular {E : Type} (P : LProb ℝ E) (h : P.WF) (heps : P.eps ≠ 0) (a b : ℕ) (r : ℝ) (ha : (a, r) ∈ P.prescriptions) (hb : (b, r) ∈ P.prescriptions) (hab : (a, b) ∈ P.ties) (hne : a ≠ b) :
    ∃ lam : ℕ → ℝ, (∀ d < P.numDofs, lam d = 0) ∧ (∃ k < P.augSize, lam (P.numDofs + k) ≠ 0) ∧
      (∀ nw : Newton ℝ, (∀ j ∈ nw.J, j < P.numDofs) → ∀ e, P.augOp realArith nw lam e = 0) ∧
      ∀ (res x : ℕ → ℝ) (t : ℝ), (∀ d < P.numDofs + P.augSize, P.residualLm res x d = 0) → ∀ d < P.numDofs + P.augSize, P.residualLm res (x + t • lam) d = 0 := by
  obtain ⟨i1, l1, e1⟩ := List.mem_iff_getElem.mp ha
  obtain ⟨i2, l2, e2⟩ := List.mem_iff_getElem.mp hb
  obtain ⟨j, l3, e3⟩ := List.mem_iff_getElem.mp hab
  have n12 : i1 ≠ i2 := by rintro rfl; rw [e1] at e2; exact hne (Prod.mk.inj e2).1
  set N := P.numDofs with hN
  set O := N + P.prescriptions.length with hO
  have hlen := LProb.rows_length realArith h
  have hrows := LProb.rows_eq realArith P
  have haug : P.augSize = P.prescriptions.length + P.ties.length := by rw [← hlen, hrows, List.length_append, List.length_map, List.length_map]
  set lam : ℕ → ℝ := Pi.single (N + i1) 1 - Pi.single (N + i2) 1 - Pi.single (O + j) 1 with hlam
  have hlow : ∀ k < N, lam k = 0 := by
    intro k hk
    rw [hlam]
    simp only [Pi.sub_apply]
    rw [Pi.single_eq_of_ne (by omega), Pi.single_eq_of_ne (by omega), Pi.single_eq_of_ne (by omega)]
    ring
  have hs1 : ∀ g : ℕ × ℝ → ℝ, ((P.prescriptions.zipIdx N).map fun p => g p.1 * lam p.2).sum = g (a, r) - g (b, r) := by
    intro g
    have e : ∀ p ∈ P.prescriptions.zipIdx N, g p.1 * lam p.2 = g p.1 * (Pi.single (N + i1) (1 : ℝ) : ℕ → ℝ) p.2 + -g p.1 * (Pi.single (N + i2) (1 : ℝ) : ℕ → ℝ) p.2 := by
      intro p hp
      have := (LProb.mem_zipIdx_ge hp).2.1
      have h2 := List.mem_zipIdx hp
      rw [hlam]
      simp only [Pi.sub_apply]
      rw [Pi.single_eq_of_ne (i := O + j) (by omega)]
      ring
    rw [List.map_congr_left e, List.sum_map_add, zipIdx_single_sum g P.prescriptions N i1 l1, zipIdx_single_sum (fun p => -g p) P.prescriptions N i2 l2, e1, e2]
    ring
  have hs2 : ∀ g : ℕ × ℕ → ℝ, ((P.ties.zipIdx O).map fun p => g p.1 * lam p.2).sum = -g (a, b) := by
    intro g
    have e : ∀ p ∈ P.ties.zipIdx O, g p.1 * lam p.2 = -g p.1 * (Pi.single (O + j) (1 : ℝ) : ℕ → ℝ) p.2 := by
      intro p hp
      have h2 := List.mem_zipIdx hp
      rw [hlam]
      simp only [Pi.sub_apply]
      rw [Pi.single_eq_of_ne (i := N + i1) (by omega), Pi.single_eq_of_ne (i := N + i2) (by omega)]
      ring
    rw [List.map_congr_left e, zipIdx_single_sum (fun p => -g p) P.ties O j l3, e3]
  have hforce : ∀ d, P.forces lam d = 0 := fun d => by
    unfold LProb.forces
    have k1 : ((P.prescriptions.zipIdx N).map fun p => if p.1.1 = d then lam p.2 else 0) = (P.prescriptions.zipIdx N).map fun p => (if p.1.1 = d then 1 else 0) * lam p.2 :=
      List.map_congr_left fun p _ => by by_cases u1 : p.1.1 = d <;> simp [u1]
    have k2 : ((P.ties.zipIdx O).map fun p => (if p.1.1 = d then lam p.2 else 0) - (if p.1.2 = d then lam p.2 else 0)) = (P.ties.zipIdx O).map fun p => ((if p.1.1 = d then 1 else 0) - if p.1.2 = d then 1 else 0) * lam p.2 :=
      List.map_congr_left fun p _ => by by_cases u1 : p.1.1 = d <;> by_cases u2 : p.1.2 = d <;> simp [u1, u2]
    rw [k1, k2, hs1 fun p => if p.1 = d then 1 else 0, hs2 fun p => (if p.1 = d then 1 else 0) - if p.2 = d then 1 else 0]
    ring
  refine ⟨lam, hlow, ⟨i1, by omega, ?_⟩, fun nw hJ e => ?_, fun res x t hz => ?_⟩
  · rw [hlam]
    simp only [Pi.sub_apply]
    rw [Pi.single_eq_same, Pi.single_eq_of_ne (by omega), Pi.single_eq_of_ne (by omega)]
    norm_num
  · rw [augOp_real, LProb.augTriplets_sum h]
    have z1 : ((nw.I.zip (nw.J.zip nw.V)).map fun t => if t.1 = e then t.2.2 * lam t.2.1 else 0).sum = 0 := by
      refine List.sum_eq_zero fun y hy => ?_
      obtain ⟨t, ht, rfl⟩ := List.mem_map.mp hy
      have := hJ t.2.1 (List.of_mem_zip (List.of_mem_zip ht).2).1
      rw [hlow _ (by omega), mul_zero, ite_self]
    have z2 : ((P.prescriptions.zipIdx N).map fun p => (if p.1.1 = e then P.eps * lam p.2 else 0) + if p.2 = e then P.eps * lam p.1.1 else 0).sum = (if a = e then P.eps else 0) - if b = e then P.eps else 0 := by
      have k : ((P.prescriptions.zipIdx N).map fun p => (if p.1.1 = e then P.eps * lam p.2 else 0) + if p.2 = e then P.eps * lam p.1.1 else 0) = (P.prescriptions.zipIdx N).map fun p => (if p.1.1 = e then P.eps else 0) * lam p.2 := by
        refine List.map_congr_left fun p hp => ?_
        rw [hlow p.1.1 (h.range _ (zipIdx_mem' hp))]
        by_cases u1 : p.1.1 = e <;> simp [u1]
      rw [k, hs1 fun p => if p.1 = e then P.eps else 0]
    have z3 : ((P.ties.zipIdx O).map fun p => (if p.1.1 = e then P.eps * lam p.2 else 0) + (if p.1.2 = e then -P.eps * lam p.2 else 0)
        + ((if p.2 = e then P.eps * lam p.1.1 else 0) + if p.2 = e then -P.eps * lam p.1.2 else 0)).sum = -((if a = e then P.eps else 0) - if b = e then P.eps else 0) := by
      have k : ((P.ties.zipIdx O).map fun p => (if p.1.1 = e then P.eps * lam p.2 else 0) + (if p.1.2 = e then -P.eps * lam p.2 else 0)
          + ((if p.2 = e then P.eps * lam p.1.1 else 0) + if p.2 = e then -P.eps * lam p.1.2 else 0)) =
          (P.ties.zipIdx O).map fun p => ((if p.1.1 = e then P.eps else 0) - if p.1.2 = e then P.eps else 0) * lam p.2 := by
        refine List.map_congr_left fun p hp => ?_
        obtain ⟨k1, k2⟩ := h.prange _ (zipIdx_mem' hp)
        rw [hlow p.1.1 (by omega), hlow p.1.2 (by omega)]
        by_cases u1 : p.1.1 = e <;> by_cases u2 : p.1.2 = e <;> simp [u1, u2]
      rw [k, hs2 fun p => (if p.1 = e then P.eps else 0) - if p.2 = e then P.eps else 0]
    dsimp only
    rw [z1, z2, z3]
    ring
  · obtain ⟨h1, h2, h3⟩ := (C24_zero_iff P h heps _ x).mp hz
    refine (C24_zero_iff P h heps _ _).mpr ⟨fun d hd => ?_, fun p hp => ?_, fun p hp => ?_⟩
    · have : P.forces (x + t • lam) d = P.forces x d + t * P.forces lam d := by
        unfold LProb.forces
        simp only [Pi.add_apply, Pi.smul_apply, smul_eq_mul]
        rw [mul_add, ← List.sum_map_mul_left, ← List.sum_map_mul_left, add_add_add_comm, ← List.sum_map_add, ← List.sum_map_add]
        congr 2
        · refine List.map_congr_left fun p _ => ?_
          by_cases u1 : p.1.1 = d <;> simp [u1]
        · refine List.map_congr_left fun p _ => ?_
          by_cases u1 : p.1.1 = d <;> by_cases u2 : p.1.2 = d <;> simp [u1, u2] <;> ring
      rw [this, hforce, mul_zero, add_zero]
      exact h1 d hd
    · show x p.1 + t * lam p.1 = _
      rw [hlow _ (h.range p hp), mul_zero, add_zero]
      exact h2 p hp
    · show x p.1 + t * lam p.1 = x p.2 + t * lam p.2
      rw [hlow _ (h.prange p hp).1, hlow _ (h.prange p hp).2, mul_zero, add_zero, add_zero]
      exact h3 p hp

/-! ## The example -/

/-- `dirichlet_bc_info` (example.py 97-99; the location functions of lines 72-82 are those of the Poisson demo). -/
noncomputable def pbDirichlet : List (Loc 2) × List ℕ × List ((Fin 2 → ℝ) → ℝ) := ([pdBottom, pdTop 1], [0, 0], [fun _ => 0, fun _ => 0])

/-- `mapping_x` (example.py 87-89). -/
def pbMapping (point_A : Fin 2 → ℝ) : Fin 2 → ℝ := point_A + ![1, 0]

/-- `periodic_bc_info` (example.py 91-95). -/
noncomputable def pbPeriodic : List (Loc 2) × List (Loc 2) × List ((Fin 2 → ℝ) → Fin 2 → ℝ) × List ℕ := ([pdLeft], [pdRight 1], [pbMapping], [0])

/-- The problem of example.py 101-102 as seen by the solver, for any finite element object (mesh, element, source); `p_num_eps` is the default of solver.py 606-609. -/
noncomputable def pbProb {nn nq nf nfq : ℕ} (F : Fem nn nq nf nfq 2 1) : Except FemErr (LProb ℝ FemErr) := do
  let d ← dirichletBC F.numTotal F.points (some pbDirichlet)
  let p ← periodicBC F.numTotal F.points (some pbPeriodic)
  pure { F.toProb (groupsOf d.1 d.2.1 d.2.2) with pgroups := pgroupsOf p.1 p.2.1 p.2.2, eps := 1 }

section ex
variable {nn nq nf nfq : ℕ} (F : Fem nn nq nf nfq 2 1)

/-- The node of the right side whose point is the image of the point of `a`. -/
def Partner (a b : ℕ) : Prop := Candidate F.numTotal F.points (pdRight 1) (pbMapping (F.points a)) b

/-- `solve` (example.py 104) ends in an error, whatever the mesh (see C26). -/
example (P : LProb ℝ FemErr) (_ : pbProb F = .ok P) (lin : ℕ → LinCall ℝ → ℕ → ℝ) (fuel : ℕ) : ∃ e, P.solver realArith lin true true true true none fuel = .error e := (C26_petsc_periodic realArith P lin true true none fuel).1

/-- The problem is built exactly when every node of the left side has one partner. -/
theorem C157_built : (∃ P, pbProb F = .ok P) ↔ ∀ a < F.numTotal, pdLeft (F.points a) = true → ∃! b, Partner F a b := by
  obtain ⟨⟨N, C', W⟩, hd⟩ := (C17_accepted F.numTotal F.points pbDirichlet.1 pbDirichlet.2.1 pbDirichlet.2.2).1.mpr ⟨rfl, rfl⟩
  have hd' : dirichletBC F.numTotal F.points (some pbDirichlet) = .ok (N, C', W) := hd
  have hacc := C18_accepted F.numTotal F.points pbPeriodic.1 pbPeriodic.2.1 pbPeriodic.2.2.1 pbPeriodic.2.2.2
  have h1 : (∃ P, pbProb F = .ok P) ↔ ∃ out, periodicBC F.numTotal F.points (some (pbPeriodic.1, pbPeriodic.2.1, pbPeriodic.2.2.1, pbPeriodic.2.2.2)) = .ok out := by
    unfold pbProb
    rw [hd']
    constructor
    · rintro ⟨P, hP⟩
      cases hp : periodicBC F.numTotal F.points (some pbPeriodic) with
      | error e => rw [hp] at hP; cases hP
      | ok out => exact ⟨out, rfl⟩
    · rintro ⟨out, hp⟩
      have hp' : periodicBC F.numTotal F.points (some pbPeriodic) = .ok out := hp
      rw [hp']
      exact ⟨_, rfl⟩
  rw [h1, hacc]
  constructor
  · intro h a ha hl
    obtain ⟨locB, v, hB, -, hor⟩ := h 0 pdLeft rfl
    obtain rfl : pdRight 1 = locB := Option.some.inj hB
    rcases hor with h0 | ⟨m, hm, hall⟩
    · rw [h0 a ha] at hl; cases hl
    · obtain rfl : pbMapping = m := Option.some.inj hm
      exact hall a ha hl
  · intro h i locA hA
    match i with
    | 0 =>
      obtain rfl : pdLeft = locA := Option.some.inj hA
      exact ⟨pdRight 1, 0, rfl, rfl, Or.inr ⟨pbMapping, rfl, h⟩⟩
    | i + 1 => cases hA

/-- The lists the solver sees. -/
theorem lists (P : LProb ℝ FemErr) (hP : pbProb F = .ok P) : P.WF ∧ P.numDofs = F.numTotal ∧ P.eps = 1 ∧
    (∀ p, p ∈ P.prescriptions ↔ p.2 = 0 ∧ p.1 < F.numTotal ∧ (pdBottom (F.points p.1) = true ∨ pdTop 1 (F.points p.1) = true)) ∧
    ∀ p, p ∈ P.ties ↔ p.1 < F.numTotal ∧ pdLeft (F.points p.1) = true ∧ Partner F p.1 p.2 := by
  obtain ⟨⟨N, C', W⟩, hd⟩ := (C17_accepted F.numTotal F.points pbDirichlet.1 pbDirichlet.2.1 pbDirichlet.2.2).1.mpr ⟨rfl, rfl⟩
  have hd' : dirichletBC F.numTotal F.points (some pbDirichlet) = .ok (N, C', W) := hd
  unfold pbProb at hP
  rw [hd'] at hP
  cases hp : periodicBC F.numTotal F.points (some pbPeriodic) with
  | error e => rw [hp] at hP; cases hP
  | ok out =>
    obtain ⟨A, B, C⟩ := out
    rw [hp] at hP
    obtain rfl : { F.toProb (groupsOf N C' W) with pgroups := pgroupsOf A B C, eps := 1 } = P := Except.ok.inj hP
    obtain ⟨lA, lB, lC, hpair⟩ := C18_pairs F.numTotal F.points pbPeriodic.1 pbPeriodic.2.1 pbPeriodic.2.2.1 pbPeriodic.2.2.2 A B C hp
    obtain ⟨locB, v, as, bs, cs, hB, hv, hA1, hB1, hC1, -, hmem, hl, hcs, hF⟩ := hpair 0 pdLeft rfl
    obtain rfl : pdRight 1 = locB := Option.some.inj hB
    obtain rfl : 0 = v := Option.some.inj hv
    have one : ∀ {l : List (List ℕ)} {y : List ℕ}, l.length = 1 → l[0]? = some y → l = [y] := by
      intro l y h1 h2
      match l, h1 with
      | [z], _ => rw [show z = y from Option.some.inj h2]
    obtain rfl := one lA hA1
    obtain rfl := one lB hB1
    obtain rfl := one lC hC1
    classical
    let g : ℕ → ℕ := fun a => if h : ∃ b, Partner F a b then h.choose else 0
    have hF' : List.Forall₂ (fun a b => Partner F a b ∧ (∀ b', Partner F a b' → b' = b)) as bs := hF.imp fun a b ⟨m, hm, h1, h2⟩ => by
      obtain rfl : pbMapping = m := Option.some.inj hm
      exact ⟨h1, h2⟩
    have hg : List.Forall₂ (fun a b => b = g a) as bs := hF'.imp fun a b ⟨h1, h2⟩ => by
      have : ∃ b, Partner F a b := ⟨b, h1⟩
      show b = if h : ∃ b, Partner F a b then h.choose else 0
      rw [dif_pos this]
      exact (h2 _ this.choose_spec).symm
    have hpart : ∀ a ∈ as, Partner F a (g a) ∧ ∀ b', Partner F a b' → b' = g a := fun a ha => by
      obtain ⟨i, hi, rfl⟩ := List.mem_iff_getElem.mp ha
      have hib : i < bs.length := by rw [← hF.length_eq]; exact hi
      have h1 := (List.forall₂_iff_get.mp hF').2 i hi hib
      have h2 := (List.forall₂_iff_get.mp hg).2 i hi hib
      simp only [List.get_eq_getElem] at h1 h2
      rw [← h2]
      exact h1
    set P : LProb ℝ FemErr := { F.toProb (groupsOf N C' W) with pgroups := pgroupsOf [as] [bs] [cs], eps := 1 } with hPdef
    have hnum : P.numDofs = F.numTotal := by
      show F.numTotal * 1 = F.numTotal
      omega
    have hties : P.ties = as.map fun a => (a, g a) := by
      show [(⟨as, bs, cs⟩ : PGroup)].flatMap (fun g => (P.idxA g).zip (P.idxB g)) = _
      rw [List.flatMap_singleton]
      show (List.zipWith (fun n c => 1 * n + c) as cs).zip (List.zipWith (fun n c => 1 * n + c) bs cs) = _
      rw [zip_ties 0 1 g as bs cs hg hl hcs]
      exact List.map_congr_left fun a _ => by simp
    have hgr : P.groups = [⟨nodesWhere F.numTotal F.points pdBottom, (nodesWhere F.numTotal F.points pdBottom).map fun _ => 0, (nodesWhere F.numTotal F.points pdBottom).map fun _ => (0 : ℝ)⟩,
        ⟨nodesWhere F.numTotal F.points (pdTop 1), (nodesWhere F.numTotal F.points (pdTop 1)).map fun _ => 0, (nodesWhere F.numTotal F.points (pdTop 1)).map fun _ => (0 : ℝ)⟩] :=
      groups_of_dirichlet F.numTotal F.points pbDirichlet.1 pbDirichlet.2.1 pbDirichlet.2.2 N C' W hd
    have hzip : ∀ l : List ℕ, (List.zipWith (fun n c => 1 * n + c) l (l.map fun _ => 0)).zip (l.map fun _ => (0 : ℝ)) = l.map fun n => (n, (0 : ℝ)) := fun l => by
      induction l with
      | nil => rfl
      | cons a l ih => simp only [List.map_cons, List.zipWith_cons_cons, List.zip_cons_cons, ih]; simp
    have hpre : P.prescriptions = ((nodesWhere F.numTotal F.points pdBottom).map fun n => (n, (0 : ℝ))) ++ (nodesWhere F.numTotal F.points (pdTop 1)).map fun n => (n, (0 : ℝ)) := by
      unfold Prob.prescriptions
      rw [hgr, List.flatMap_cons, List.flatMap_singleton]
      exact congrArg₂ (· ++ ·) (hzip _) (hzip _)
    have hmemP : ∀ p, p ∈ P.prescriptions ↔ p.2 = 0 ∧ p.1 < F.numTotal ∧ (pdBottom (F.points p.1) = true ∨ pdTop 1 (F.points p.1) = true) := fun p => by
      rw [hpre, List.mem_append, List.mem_map, List.mem_map]
      constructor
      · rintro (⟨n, hn, rfl⟩ | ⟨n, hn, rfl⟩)
        · exact ⟨rfl, (mem_nodesWhere.mp hn).1, Or.inl (mem_nodesWhere.mp hn).2⟩
        · exact ⟨rfl, (mem_nodesWhere.mp hn).1, Or.inr (mem_nodesWhere.mp hn).2⟩
      · rintro ⟨h0, hn, h1 | h1⟩
        · exact Or.inl ⟨p.1, mem_nodesWhere.mpr ⟨hn, h1⟩, Prod.ext rfl h0.symm⟩
        · exact Or.inr ⟨p.1, mem_nodesWhere.mpr ⟨hn, h1⟩, Prod.ext rfl h0.symm⟩
    have hmemT : ∀ p, p ∈ P.ties ↔ p.1 < F.numTotal ∧ pdLeft (F.points p.1) = true ∧ Partner F p.1 p.2 := fun p => by
      rw [hties, List.mem_map]
      constructor
      · rintro ⟨a, ha, rfl⟩
        exact ⟨((hmem a).mp ha).1, ((hmem a).mp ha).2, (hpart a ha).1⟩
      · rintro ⟨h1, h2, h3⟩
        have ha := (hmem p.1).mpr ⟨h1, h2⟩
        exact ⟨p.1, ha, Prod.ext rfl ((hpart p.1 ha).2 _ h3).symm⟩
    refine ⟨⟨fun gr hgr' => ?_, fun gr hgr' => ?_, fun p hp => ?_, fun p hp => ?_⟩, hnum, rfl, hmemP, hmemT⟩
    · rw [hgr] at hgr'
      simp only [List.mem_cons, List.not_mem_nil, or_false] at hgr'
      rcases hgr' with rfl | rfl <;> simp
    · have : gr ∈ [(⟨as, bs, cs⟩ : PGroup)] := hgr'
      rw [List.mem_singleton] at this
      subst this
      exact ⟨hF.length_eq, by rw [← hF.length_eq]; exact hl.symm⟩
    · rw [hnum]
      exact ((hmemP p).mp hp).2.1
    · rw [hnum]
      exact ⟨((hmemT p).mp hp).1, ((hmemT p).mp hp).2.2.1⟩

/-- **C157 (weak form).** Whenever the problem of the example is built: a field can be completed to a zero of the augmented residual exactly when it vanishes on bottom and top, agrees at the paired nodes of left and right, and its
residual does no work in any variation of that kind. -/
theorem C157_weak (P : LProb ℝ FemErr) (hP : pbProb F = .ok P) (res u : ℕ → ℝ) :
    (∃ x : ℕ → ℝ, (∀ n < F.numTotal, x n = u n) ∧ ∀ d < P.numDofs + P.augSize, P.residualLm res x d = 0) ↔
      ((∀ n < F.numTotal, pdBottom (F.points n) = true ∨ pdTop 1 (F.points n) = true → u n = 0) ∧ ∀ a < F.numTotal, ∀ b, pdLeft (F.points a) = true → Partner F a b → u a = u b) ∧
      ∀ v : ℕ → ℝ, (∀ n < F.numTotal, pdBottom (F.points n) = true ∨ pdTop 1 (F.points n) = true → v n = 0) → (∀ a < F.numTotal, ∀ b, pdLeft (F.points a) = true → Partner F a b → v a = v b) →
        ∑ n ∈ range F.numTotal, res n * v n = 0 := by
  obtain ⟨hwf, hnum, heps, hp, ht⟩ := lists F P hP
  have k1 : ∀ w : ℕ → ℝ, (∀ p ∈ P.prescriptions, w p.1 = 0) ↔ ∀ n < F.numTotal, pdBottom (F.points n) = true ∨ pdTop 1 (F.points n) = true → w n = 0 := fun w =>
    ⟨fun h n hn hb => h (n, 0) ((hp _).mpr ⟨rfl, hn, hb⟩), fun h p hpp => h _ ((hp p).mp hpp).2.1 ((hp p).mp hpp).2.2⟩
  have k1' : ∀ w : ℕ → ℝ, (∀ p ∈ P.prescriptions, w p.1 = p.2) ↔ ∀ n < F.numTotal, pdBottom (F.points n) = true ∨ pdTop 1 (F.points n) = true → w n = 0 := fun w => by
    rw [← k1]
    exact forall₂_congr fun p hpp => by rw [((hp p).mp hpp).1]
  have k2 : ∀ w : ℕ → ℝ, (∀ p ∈ P.ties, w p.1 = w p.2) ↔ ∀ a < F.numTotal, ∀ b, pdLeft (F.points a) = true → Partner F a b → w a = w b := fun w =>
    ⟨fun h a ha b hl hb => h (a, b) ((ht _).mpr ⟨ha, hl, hb⟩), fun h p hpp => h _ ((ht p).mp hpp).1 _ ((ht p).mp hpp).2.1 ((ht p).mp hpp).2.2⟩
  have := C157_multipliers P hwf (by rw [heps]; norm_num) res u
  simp only [Admissible, k1, k1', k2, and_imp, hnum] at this
  rw [hnum, this, and_assoc]

/-- **C157 (redundant conditions).** If the mesh has a node at the origin, the condition that ties it to its partner at `(1, 0)` repeats the two Dirichlet conditions there: for every tangent the augmented matrix has a nonzero vector
in its kernel, and the multipliers of a solution are never unique. -/
theorem C157_singular (P : LProb ℝ FemErr) (hP : pbProb F = .ok P) (k : ℕ) (hk : k < F.numTotal) (h0 : F.points k = 0) :
    ∃ lam : ℕ → ℝ, (∀ d < P.numDofs, lam d = 0) ∧ (∃ k < P.augSize, lam (P.numDofs + k) ≠ 0) ∧
      (∀ nw : Newton ℝ, (∀ j ∈ nw.J, j < P.numDofs) → ∀ e, P.augOp realArith nw lam e = 0) ∧
      ∀ (res x : ℕ → ℝ) (t : ℝ), (∀ d < P.numDofs + P.augSize, P.residualLm res x d = 0) → ∀ d < P.numDofs + P.augSize, P.residualLm res (x + t • lam) d = 0 := by
  obtain ⟨hwf, hnum, heps, hp, ht⟩ := lists F P hP
  have hleft : pdLeft (F.points k) = true := by
    unfold pdLeft
    rw [isclose_iff, h0]
    norm_num
  obtain ⟨b, hb, -⟩ := (C157_built F).mp ⟨P, hP⟩ k hk hleft
  obtain ⟨hbN, hbr, hdist⟩ := hb
  rw [h0, Fin.sum_univ_two] at hdist
  have e0 : pbMapping 0 0 = 1 := by simp [pbMapping]
  have e1 : pbMapping 0 1 = 0 := by simp [pbMapping]
  rw [e0, e1] at hdist
  have hy : |F.points b 1| < 1e-5 := by
    refine lt_of_le_of_lt ?_ hdist
    rw [← Real.sqrt_sq_eq_abs]
    exact Real.sqrt_le_sqrt (by nlinarith [sq_nonneg (1 - F.points b 0)])
  have hbot : pdBottom (F.points b) = true := by
    unfold pdBottom
    rw [isclose_iff, sub_zero, abs_zero, mul_zero, add_zero]
    exact hy.le
  have hkb : k ≠ b := by
    rintro rfl
    unfold pdRight at hbr
    rw [isclose_iff, h0] at hbr
    norm_num at hbr
  refine redundant_singular P hwf (by rw [heps]; norm_num) k b 0 ((hp _).mpr ⟨rfl, hk, Or.inl ?_⟩) ((hp _).mpr ⟨rfl, hbN, Or.inl hbot⟩) ((ht _).mpr ⟨hk, hleft, hbN, hbr, ?_⟩) hkb
  · show pdBottom (F.points k) = true
    unfold pdBottom
    rw [isclose_iff, h0]
    norm_num
  · show Real.sqrt (∑ d, (pbMapping (F.points k) d - F.points b d) ^ 2) < 1e-5
    rw [h0, Fin.sum_univ_two, e0, e1]
    exact hdist

/-- `LinearPoisson` (models.py) without mass and Cauchy terms, on a mesh with positive volumes whose elements have no spurious modes and whose nodes are connected with the bottom or the top. -/
structure PoissonMesh : Prop where
  stress : ∀ k q A i d, F.stress k q A i d = A i d
  mass : ∀ k q a i, F.massAt k q a i = 0
  cauchy : Fem.pairs F.cauchy = []
  nodes : ∀ c ∈ F.cells, ∀ a, c a < F.numTotal
  vol : ∀ c ∈ F.cells, ∀ q, 0 < F.JxW c q
  modes : F.NoModes
  conn : ∀ n < F.numTotal, ∃ m < F.numTotal, (pdBottom (F.points m) = true ∨ pdTop 1 (F.points m) = true) ∧ Relation.ReflTransGen F.Adj n m

/-- **C157 (uniqueness).** Two zeros of the augmented residual have the same field, although their multipliers may differ. -/
theorem C157_unique (hM : PoissonMesh F) (P : LProb ℝ FemErr) (hP : pbProb F = .ok P) (x y : ℕ → ℝ) (Rx Ry : ℕ → Fin 1 → ℝ) (hx : F.computeResidual (fun n _ => x n) = .ok Rx) (hy : F.computeResidual (fun n _ => y n) = .ok Ry)
    (zx : ∀ d < P.numDofs + P.augSize, P.residualLm (fun n => Rx n 0) x d = 0) (zy : ∀ d < P.numDofs + P.augSize, P.residualLm (fun n => Ry n 0) y d = 0) : ∀ n < F.numTotal, x n = y n := by
  obtain ⟨⟨x1, x2⟩, x3⟩ := (C157_weak F P hP (fun n => Rx n 0) x).mp ⟨x, fun _ _ => rfl, zx⟩
  obtain ⟨⟨y1, y2⟩, y3⟩ := (C157_weak F P hP (fun n => Ry n 0) y).mp ⟨y, fun _ _ => rfl, zy⟩
  have w1 : ∀ n < F.numTotal, pdBottom (F.points n) = true ∨ pdTop 1 (F.points n) = true → x n - y n = 0 := fun n hn hb => by rw [x1 n hn hb, y1 n hn hb, sub_zero]
  have w2 : ∀ a < F.numTotal, ∀ b, pdLeft (F.points a) = true → Partner F a b → x a - y a = x b - y b := fun a ha b hl hb => by rw [x2 a ha b hl hb, y2 a ha b hl hb]
  have e1 := x3 (fun n => x n - y n) w1 w2
  have e2 := y3 (fun n => x n - y n) w1 w2
  let w : ℕ → Fin 1 → ℝ := fun n _ => x n - y n
  have h1 := C71_virtual_work F hM.nodes (fun n _ => x n) w Rx hx
  have h2 := C71_virtual_work F hM.nodes (fun n _ => y n) w Ry hy
  have l1 : ∑ n ∈ range F.numTotal, ∑ i, Rx n i * w n i = 0 := by rw [← e1]; exact sum_congr rfl fun n _ => Fin.sum_univ_one _
  have l2 : ∑ n ∈ range F.numTotal, ∑ i, Ry n i * w n i = 0 := by rw [← e2]; exact sum_congr rfl fun n _ => Fin.sum_univ_one _
  rw [l1] at h1
  rw [l2] at h2
  simp only [hM.stress, hM.mass, hM.cauchy, zero_mul, sum_const_zero, add_zero, List.map_nil, List.sum_nil] at h1 h2
  have hg : ∀ c q i d, F.gradAt (fun n _ => x n) c q i d - F.gradAt (fun n _ => y n) c q i d = F.gradAt w c q i d := fun c q i d => by
    simp only [Fem.gradAt, ← sum_sub_distrib, ← sub_mul]
    rfl
  have hz : (F.cells.zipIdx.map fun p => ∑ q, (∑ i, ∑ d, F.gradAt w p.1 q i d * F.gradAt w p.1 q i d) * F.JxW p.1 q).sum = 0 := by
    have : (F.cells.zipIdx.map fun p => ∑ q, (∑ i, ∑ d, F.gradAt w p.1 q i d * F.gradAt w p.1 q i d) * F.JxW p.1 q).sum
        = (F.cells.zipIdx.map fun p => ∑ q, (∑ i, ∑ d, F.gradAt (fun n _ => x n) p.1 q i d * F.gradAt w p.1 q i d) * F.JxW p.1 q).sum
          + (F.cells.zipIdx.map fun p => (-1) * ∑ q, (∑ i, ∑ d, F.gradAt (fun n _ => y n) p.1 q i d * F.gradAt w p.1 q i d) * F.JxW p.1 q).sum := by
      rw [← List.sum_map_add]
      refine congrArg List.sum (List.map_congr_left fun p _ => ?_)
      rw [neg_one_mul, ← sub_eq_add_neg, ← sum_sub_distrib]
      refine sum_congr rfl fun q _ => ?_
      rw [← sub_mul, ← sum_sub_distrib]
      congr 1
      refine sum_congr rfl fun i _ => ?_
      rw [← sum_sub_distrib]
      refine sum_congr rfl fun d _ => ?_
      rw [← sub_mul, hg]
    rw [this, List.sum_map_mul_left]
    linarith
  have hterm : ∀ p ∈ F.cells.zipIdx, 0 ≤ ∑ q, (∑ i, ∑ d, F.gradAt w p.1 q i d * F.gradAt w p.1 q i d) * F.JxW p.1 q := fun p hp => sum_nonneg fun q _ =>
    mul_nonneg (sum_nonneg fun i _ => sum_nonneg fun d _ => mul_self_nonneg _) (hM.vol _ (zipIdx_mem hp) q).le
  have hzero := list_sum_eq_zero _ _ hterm hz
  have hgrad : ∀ c ∈ F.cells, ∀ q d, F.gradAt w c q 0 d = 0 := fun c hc q d => by
    obtain ⟨k, hk⟩ := List.getElem?_of_mem hc
    have hmem : (c, k) ∈ F.cells.zipIdx := List.mem_zipIdx_iff_getElem?.mpr hk
    have h1 := hzero _ hmem
    have h2 := (sum_eq_zero_iff_of_nonneg fun q _ => mul_nonneg (sum_nonneg fun i _ => sum_nonneg fun d _ => mul_self_nonneg _) (hM.vol _ hc q).le).mp h1 q (mem_univ q)
    have h3 := (mul_eq_zero.mp h2).resolve_right (hM.vol _ hc q).ne'
    rw [Fin.sum_univ_one] at h3
    exact mul_self_eq_zero.mp ((sum_eq_zero_iff_of_nonneg fun d _ => mul_self_nonneg _).mp h3 d (mem_univ d))
  intro n hn
  obtain ⟨m, hm, hbt, hpath⟩ := hM.conn n hn
  have hp : ∀ m, Relation.ReflTransGen F.Adj n m → x n - y n = x m - y m := by
    intro m h
    induction h with
    | refl => rfl
    | tail _ h ih =>
      obtain ⟨c, hc, a, b, rfl, rfl⟩ := h
      exact ih.trans (hM.modes c hc (fun a => x (c a) - y (c a)) (fun q d => hgrad c hc q d) a b)
  have := hp m hpath
  rw [w1 m hm hbt] at this
  linarith

end ex

/-! ## The square of two triangles -/

/-- The corners of the unit square. -/
noncomputable def sqPoints (n : ℕ) : Fin 2 → ℝ := if n = 1 then ![1, 0] else if n = 2 then ![0, 1] else if n = 3 then ![1, 1] else ![0, 0]

@[inherit_doc sqPoints]
noncomputable def sqFem : Fem 3 1 3 1 2 1 :=
  { Fem.ofElement 3 3 2 1 tri3 (centreRule 2) (centreRule 1) 4 sqPoints [![0, 1, 2], ![1, 3, 2]] with
    tensorMap := some fun _ _ => poissonMap
    source := some fun x _ => CauchyExample.cbBody x }

theorem sqLeft (n : ℕ) (hn : n < 4) : pdLeft (sqPoints n) = true ↔ n = 0 ∨ n = 2 := by
  unfold pdLeft
  rw [isclose_iff]
  interval_cases n <;> simp [sqPoints] <;> norm_num

theorem sqPartner (a b : ℕ) (ha : a = 0 ∨ a = 2) : Partner sqFem a b ↔ b = a + 1 := by
  unfold Partner Candidate
  show (b < 4 ∧ pdRight 1 (sqPoints b) = true ∧ Real.sqrt (∑ d, (pbMapping (sqPoints a) d - sqPoints b d) ^ 2) < 1e-5) ↔ _
  rw [Fin.sum_univ_two]
  unfold pdRight
  rw [isclose_iff]
  constructor
  · rintro ⟨h1, h2, h3⟩
    rcases ha with rfl | rfl <;> interval_cases b <;> simp [sqPoints, pbMapping] at h2 h3 ⊢ <;> first | (exfalso; revert h2; norm_num; done) | (exfalso; revert h3; norm_num; done)
  · rintro rfl
    rcases ha with rfl | rfl <;> simp [sqPoints, pbMapping] <;> norm_num

theorem sqBuilt : ∃ P, pbProb sqFem = .ok P := (C157_built sqFem).mpr fun a ha hl => by
  have := (sqLeft a ha).mp hl
  exact ⟨a + 1, (sqPartner a _ this).mpr rfl, fun b hb => (sqPartner a b this).mp hb⟩

/-- On the square of two triangles the problem is built and its augmented matrix is singular. -/
example : ∃ P, pbProb sqFem = .ok P ∧ ∃ lam : ℕ → ℝ, (∃ k < P.augSize, lam (P.numDofs + k) ≠ 0) ∧ ∀ nw : Newton ℝ, (∀ j ∈ nw.J, j < P.numDofs) → ∀ e, P.augOp realArith nw lam e = 0 := by
  obtain ⟨P, hP⟩ := sqBuilt
  obtain ⟨lam, -, h1, h2, -⟩ := C157_singular sqFem P hP 0 (show 0 < 4 by norm_num) (by
    show sqPoints 0 = 0
    ext d
    fin_cases d <;> simp [sqPoints])
  exact ⟨P, hP, lam, h1, h2⟩

theorem sqTables : CellTables sqFem tri3 (centreRule 2) := ⟨fun _ _ => rfl, fun _ _ _ => rfl, fun _ => rfl⟩

theorem sqDet (c : Fin 3 → ℕ) (hc : c ∈ sqFem.cells) (q : Fin 1) : (sqFem.jacobian c q).det = 1 := by
  have : (sqFem.jacobian c q).det = triQuality fun n => sqPoints (c n) := by
    rw [← det_of_grads_tri3]
    congr 1
    ext i j
    simp only [Fem.jacobian, Fem.coos, sqTables.grads, Matrix.of_apply, shapeGradRef_tri3]
    rfl
  rw [this]
  have hc' : c ∈ [![0, 1, 2], ![1, 3, 2]] := hc
  simp only [List.mem_cons, List.not_mem_nil, or_false] at hc'
  rcases hc' with rfl | rfl <;> simp [triQuality, sqPoints]

/-- The square satisfies the conditions of the uniqueness theorem. -/
example : PoissonMesh sqFem where
  stress := fun _ _ _ _ _ => rfl
  mass := fun _ _ _ _ => rfl
  cauchy := rfl
  nodes := fun c hc a => by
    have hc' : c ∈ [![0, 1, 2], ![1, 3, 2]] := hc
    show c a < 4
    simp only [List.mem_cons, List.not_mem_nil, or_false] at hc'
    rcases hc' with rfl | rfl <;> fin_cases a <;> simp
  vol := fun c hc q => by
    unfold Fem.JxW
    rw [sqDet c hc]
    show 0 < 1 * (centreRule 2).w q
    simp [centreRule]
  modes := C86_modes_tri3 _ _ sqTables (by norm_num) fun c hc q => by rw [sqDet c hc]; norm_num
  conn := fun n hn => ⟨n, hn, by
    have hn' : n < 4 := hn
    show pdBottom (sqPoints n) = true ∨ pdTop 1 (sqPoints n) = true
    unfold pdBottom pdTop
    rw [isclose_iff, isclose_iff]
    interval_cases n <;> simp [sqPoints] <;> norm_num, Relation.ReflTransGen.refl⟩

end Verif.Fem.PeriodicExample
