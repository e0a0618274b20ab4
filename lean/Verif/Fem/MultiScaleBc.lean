import Verif.Fem.MultiScaleRve
import Verif.Fem.LagrangeProps

/-!
# C122: the constraints of the representative volume (`rve_problem`, applications/fem/multi_scale/rve.py 21-80)
-/
namespace Verif.Fem
open Finset Matrix

variable {nq nf nfq : ℕ}

/-- `corner` (rve.py 31-32). -/
noncomputable def rveCorner : Loc 3 := fun point => isclose (Real.sqrt (∑ d, point d ^ 2)) 0 1e-5

/-- `left`, `right`, `front`, `back`, `bottom`, `top` (rve.py 34-50): coordinate `a` close to `v`. -/
noncomputable def rveFace (a : Fin 3) (v : ℝ) : Loc 3 := fun point => isclose (point a) v 1e-5

/-- `mapping_x`, `mapping_y`, `mapping_z` (rve.py 55-65). -/
noncomputable def rveMapping (a : Fin 3) (L : ℝ) : (Fin 3 → ℝ) → Fin 3 → ℝ := fun p => p + Pi.single a L

/-- `dirichlet_bc_info` (rve.py 67-70). -/
noncomputable def rveDirichlet : List (Loc 3) × List ℕ × List ((Fin 3 → ℝ) → ℝ) := (List.replicate 3 rveCorner, [0, 1, 2], List.replicate 3 fun _ => 0)

/-- `periodic_bc_info` (rve.py 72-77). -/
noncomputable def rvePeriodic (L : ℝ) : List (Loc 3) × List (Loc 3) × List ((Fin 3 → ℝ) → Fin 3 → ℝ) × List ℕ :=
  (List.replicate 3 (rveFace 0 0) ++ List.replicate 3 (rveFace 1 0) ++ List.replicate 3 (rveFace 2 0),
   List.replicate 3 (rveFace 0 L) ++ List.replicate 3 (rveFace 1 L) ++ List.replicate 3 (rveFace 2 L),
   List.replicate 3 (rveMapping 0 L) ++ List.replicate 3 (rveMapping 1 L) ++ List.replicate 3 (rveMapping 2 L),
   [0, 1, 2] ++ [0, 1, 2] ++ [0, 1, 2])

/-- The periodic groups the solver sees: the three lists produced by `periodic_boundary_conditions`. -/
def pgroupsOf (A B C : List (List ℕ)) : List PGroup := (A.zip (B.zip C)).map fun t => ⟨t.1, t.2.1, t.2.2⟩

/-- `rve_problem` (rve.py 21-80) as seen by `lm_solver`, for the finite element object `F` (after `H_bar` is assigned): the constraint lists of the constructor and `p_num_eps = 1e2`. -/
noncomputable def rveProb (F : Fem 8 nq nf nfq 3 3) (L : ℝ) : Except FemErr (LProb ℝ FemErr) := do
  let d ← dirichletBC F.numTotal F.points (some rveDirichlet)
  let p ← periodicBC F.numTotal F.points (some (rvePeriodic L))
  pure { F.toProb (groupsOf d.1 d.2.1 d.2.2) with pgroups := pgroupsOf p.1 p.2.1 p.2.2, eps := 1e2 }

/-! ## Locations on the grid -/

/-- Specification: the mesh of `rve_problem`, `num_hex = n` elements along each edge of the cube of side `L`, resolved by the tolerances of the location functions. -/
structure RveMesh (F : Fem 8 nq nf nfq 3 3) (n : ℕ) (L : ℝ) : Prop where
  box : OnBox F (fun _ => n) fun _ => L
  num : F.numTotal = (n + 1) * (n + 1) * (n + 1)
  pos : 0 < n
  len : 0 < L
  res : 1e-5 * (1 + L) < L / n

theorem grid_abs_lt {h : ℝ} (hh : 0 < h) {m k : ℕ} {tol : ℝ} (ht : tol < h) (hle : |(m : ℝ) * h - k * h| ≤ tol) : m = k := by
  rw [← sub_mul, abs_mul, abs_of_pos hh] at hle
  have h1 : |(m : ℝ) - k| < 1 := by
    by_contra hne
    push Not at hne
    have := mul_le_mul_of_nonneg_right hne hh.le
    linarith
  have h2 : |((m : ℤ) - k : ℤ)| < 1 := by
    have : ((|((m : ℤ) - k : ℤ)| : ℤ) : ℝ) < 1 := by push_cast; exact h1
    exact_mod_cast this
  have h3 := Int.abs_lt_one_iff.mp h2
  omega

variable {F : Fem 8 nq nf nfq 3 3} {n : ℕ} {L : ℝ}

theorem RveMesh.step (h : RveMesh F n L) : 0 < L / n ∧ (n : ℝ) * (L / n) = L ∧ 1e-5 < L / n ∧ 1e-5 + 1e-5 * |L| < L / n := by
  have h1 : (n : ℝ) ≠ 0 := by exact_mod_cast h.pos.ne'
  have h2 := h.res
  have h3 := h.len
  refine ⟨div_pos h3 (by exact_mod_cast h.pos), mul_div_cancel₀ _ h1, ?_, ?_⟩
  · have : (0 : ℝ) < 1e-5 * L := by positivity
    linarith
  · rw [abs_of_pos h3]
    linarith

theorem RveMesh.point (h : RveMesh F n L) (m : Fin 3 → ℕ) (hm : ∀ a, m a ≤ n) (a : Fin 3) : F.points (gridNode (fun _ => n) m) a = m a * (L / n) := h.box.point m hm a

theorem RveMesh.low (h : RveMesh F n L) (m : Fin 3 → ℕ) (hm : ∀ a, m a ≤ n) (a : Fin 3) : rveFace a 0 (F.points (gridNode (fun _ => n) m)) = true ↔ m a = 0 := by
  unfold rveFace
  rw [isclose_iff, h.point m hm, abs_zero, mul_zero, add_zero]
  obtain ⟨h1, -, h3, -⟩ := h.step
  constructor
  · intro h4
    refine grid_abs_lt h1 h3 (k := 0) ?_
    simpa using h4
  · intro h4
    rw [h4]
    norm_num

theorem RveMesh.high (h : RveMesh F n L) (m : Fin 3 → ℕ) (hm : ∀ a, m a ≤ n) (a : Fin 3) : rveFace a L (F.points (gridNode (fun _ => n) m)) = true ↔ m a = n := by
  unfold rveFace
  rw [isclose_iff, h.point m hm]
  obtain ⟨h1, h2, -, h4⟩ := h.step
  constructor
  · intro h5
    refine grid_abs_lt h1 h4 (k := n) ?_
    rw [h2]
    exact h5
  · intro h5
    rw [h5, h2, sub_self, abs_zero]
    positivity

theorem coord_le_norm (x : Fin 3 → ℝ) (a : Fin 3) : |x a| ≤ Real.sqrt (∑ d, x d ^ 2) := by
  rw [← Real.sqrt_sq_eq_abs]
  exact Real.sqrt_le_sqrt (single_le_sum (f := fun d => x d ^ 2) (fun d _ => sq_nonneg _) (mem_univ a))

theorem RveMesh.corner (h : RveMesh F n L) (m : Fin 3 → ℕ) (hm : ∀ a, m a ≤ n) : rveCorner (F.points (gridNode (fun _ => n) m)) = true ↔ m = 0 := by
  unfold rveCorner
  rw [isclose_iff, abs_zero, mul_zero, add_zero, sub_zero, abs_of_nonneg (Real.sqrt_nonneg _)]
  obtain ⟨h1, -, h3, -⟩ := h.step
  constructor
  · intro h4
    funext a
    refine grid_abs_lt h1 h3 (k := 0) ?_
    have h5 := (coord_le_norm (F.points (gridNode (fun _ => n) m)) a).trans h4
    rw [h.point m hm] at h5
    simpa using h5
  · rintro rfl
    have : ∀ d, F.points (gridNode (fun _ => n) 0) d = 0 := by
      intro d
      rw [h.point 0 hm]
      simp
    simp only [this]
    norm_num

/-- Distance in node numbers between opposite nodes. -/
def rveStride (n : ℕ) : Fin 3 → ℕ := ![n * ((n + 1) * (n + 1)), n * (n + 1), n]

theorem gridNode_update (n : ℕ) (m : Fin 3 → ℕ) (a : Fin 3) (h0 : m a = 0) : gridNode (fun _ => n) (Function.update m a n) = gridNode (fun _ => n) m + rveStride n a := by
  unfold gridNode rveStride
  fin_cases a
  · simp only [Fin.zero_eta, Fin.isValue] at h0 ⊢
    simp [Function.update, h0]
    ring
  · simp only [Fin.mk_one, Fin.isValue] at h0 ⊢
    simp [Function.update, h0]
    ring
  · simp only [Fin.reduceFinMk, Fin.isValue] at h0 ⊢
    simp [Function.update, h0]

theorem update_le {n : ℕ} {m : Fin 3 → ℕ} (hm : ∀ a, m a ≤ n) (a : Fin 3) : ∀ b, Function.update m a n b ≤ n := by
  intro b
  by_cases hb : b = a
  · rw [hb, Function.update_self]
  · rw [Function.update_of_ne hb]; exact hm b

/-- The node found for a node of the lower face: the one opposite, and no other. -/
theorem RveMesh.candidate (h : RveMesh F n L) (a : Fin 3) (m : Fin 3 → ℕ) (hm : ∀ b, m b ≤ n) (h0 : m a = 0) (b : ℕ) :
    Candidate F.numTotal F.points (rveFace a L) (rveMapping a L (F.points (gridNode (fun _ => n) m))) b ↔ b = gridNode (fun _ => n) m + rveStride n a := by
  obtain ⟨s1, s2, s3, s4⟩ := h.step
  have hu := update_le hm a
  have hpt : ∀ d, rveMapping a L (F.points (gridNode (fun _ => n) m)) d = F.points (gridNode (fun _ => n) (Function.update m a n)) d := by
    intro d
    unfold rveMapping
    rw [h.point _ hu, Pi.add_apply, h.point m hm]
    by_cases hd : d = a
    · subst hd
      rw [Function.update_self, Pi.single_eq_same, h0, s2]
      simp
    · rw [Function.update_of_ne hd, Pi.single_eq_of_ne hd, add_zero]
  rw [← gridNode_update n m a h0]
  unfold Candidate
  simp only [hpt]
  constructor
  · rintro ⟨hb, -, hdist⟩
    obtain ⟨m', hm', rfl⟩ := gridNode_surj (fun _ => n) b (by rw [← h.num]; exact hb)
    congr 1
    funext d
    have h1 := (coord_le_norm (fun d => F.points (gridNode (fun _ => n) (Function.update m a n)) d - F.points (gridNode (fun _ => n) m') d) d).trans hdist.le
    simp only [h.point _ hu, h.point _ hm'] at h1
    exact (grid_abs_lt s1 s3 h1).symm
  · rintro rfl
    refine ⟨?_, ?_, ?_⟩
    · rw [h.num]
      exact gridNode_lt (fun _ => n) _ hu
    · rw [h.high _ hu]
      exact Function.update_self ..
    · simp only [sub_self]
      norm_num

/-! ## The constraint lists -/

theorem zip_ties (v vec : ℕ) (f : ℕ → ℕ) (as bs cs : List ℕ) (hb : List.Forall₂ (fun a b => b = f a) as bs) (hl : cs.length = as.length) (hc : ∀ x ∈ cs, x = v) :
    (List.zipWith (fun n c => vec * n + c) as cs).zip (List.zipWith (fun n c => vec * n + c) bs cs) = as.map fun a => (vec * a + v, vec * f a + v) := by
  induction hb generalizing cs with
  | nil => simp
  | cons h _ ih =>
    cases cs with
    | nil => simp at hl
    | cons c cs =>
      simp only [List.zipWith_cons_cons, List.zip_cons_cons, List.map_cons]
      rw [ih cs (by simpa using hl) fun x hx => hc x (by simp [hx]), h, hc c (by simp)]

theorem rve_lists (L : ℝ) (i : ℕ) (hi : i < 9) : ∃ (a c : Fin 3), i = 3 * a + c ∧ (rvePeriodic L).1[i]? = some (rveFace a 0) ∧ (rvePeriodic L).2.1[i]? = some (rveFace a L) ∧
    (rvePeriodic L).2.2.1[i]? = some (rveMapping a L) ∧ (rvePeriodic L).2.2.2[i]? = some (c : ℕ) := by
  interval_cases i
  exacts [⟨0, 0, rfl, rfl, rfl, rfl, rfl⟩, ⟨0, 1, rfl, rfl, rfl, rfl, rfl⟩, ⟨0, 2, rfl, rfl, rfl, rfl, rfl⟩, ⟨1, 0, rfl, rfl, rfl, rfl, rfl⟩, ⟨1, 1, rfl, rfl, rfl, rfl, rfl⟩,
    ⟨1, 2, rfl, rfl, rfl, rfl, rfl⟩, ⟨2, 0, rfl, rfl, rfl, rfl, rfl⟩, ⟨2, 1, rfl, rfl, rfl, rfl, rfl⟩, ⟨2, 2, rfl, rfl, rfl, rfl, rfl⟩]

theorem rve_lists_len (L : ℝ) : (rvePeriodic L).1.length = 9 := rfl

theorem RveMesh.periodic_ok (h : RveMesh F n L) : ∃ out, periodicBC F.numTotal F.points (some (rvePeriodic L)) = .ok out := by
  refine (C18_accepted F.numTotal F.points (rvePeriodic L).1 (rvePeriodic L).2.1 (rvePeriodic L).2.2.1 (rvePeriodic L).2.2.2).mpr fun i locA hA => ?_
  have hi : i < 9 := by
    have := (List.getElem?_eq_some_iff.mp hA).1
    rwa [rve_lists_len] at this
  obtain ⟨a, c, -, h1, h2, h3, h4⟩ := rve_lists L i hi
  obtain rfl : rveFace a 0 = locA := by rw [h1] at hA; exact Option.some.inj hA
  refine ⟨_, _, h2, h4, Or.inr ⟨_, h3, fun k hk hloc => ?_⟩⟩
  obtain ⟨m, hm, rfl⟩ := gridNode_surj (fun _ => n) k (by rw [← h.num]; exact hk)
  refine ⟨gridNode (fun _ => n) m + rveStride n a, (h.candidate a m hm ((h.low m hm a).mp hloc) _).mpr rfl, fun b hb => (h.candidate a m hm ((h.low m hm a).mp hloc) b).mp hb⟩

/-- The tied pairs of the nine groups. -/
theorem RveMesh.ties (h : RveMesh F n L) (P : Prob ℝ FemErr) (hvec : P.vec = 3) (eps : ℝ) (A B C : List (List ℕ)) (hp : periodicBC F.numTotal F.points (some (rvePeriodic L)) = .ok (A, B, C)) :
    (∀ p, p ∈ ({ P with pgroups := pgroupsOf A B C, eps := eps } : LProb ℝ FemErr).ties ↔
      ∃ (a c : Fin 3) (m : Fin 3 → ℕ), (∀ b, m b ≤ n) ∧ m a = 0 ∧ p = (3 * gridNode (fun _ => n) m + c, 3 * gridNode (fun _ => n) (Function.update m a n) + c)) ∧
    ∀ g ∈ pgroupsOf A B C, g.nodesA.length = g.nodesB.length ∧ g.nodesB.length = g.comps.length := by
  obtain ⟨l1, l2, l3, hpairs⟩ := C18_pairs F.numTotal F.points (rvePeriodic L).1 (rvePeriodic L).2.1 (rvePeriodic L).2.2.1 (rvePeriodic L).2.2.2 A B C hp
  rw [rve_lists_len] at l1 l2 l3
  have key : ∀ i : ℕ, i < 9 → ∃ (a c : Fin 3) (as bs cs : List ℕ), i = 3 * (a : ℕ) + c ∧ A[i]? = some as ∧ B[i]? = some bs ∧ C[i]? = some cs ∧ cs.length = as.length ∧ (∀ x ∈ cs, x = c) ∧
      List.Forall₂ (fun x y => y = x + rveStride n a) as bs ∧ (∀ k, k ∈ as ↔ ∃ m : Fin 3 → ℕ, (∀ b, m b ≤ n) ∧ m a = 0 ∧ k = gridNode (fun _ => n) m) := by
    intro i hi
    obtain ⟨a, c, hic, h1, h2, h3, h4⟩ := rve_lists L i hi
    obtain ⟨locB, v, as, bs, cs, hB, hv, e1, e2, e3, -, hmem, hlen, hcs, hF⟩ := hpairs i _ h1
    rw [h2] at hB
    rw [h4] at hv
    obtain rfl := Option.some.inj hB
    obtain rfl := Option.some.inj hv
    have hmem' : ∀ k, k ∈ as ↔ ∃ m : Fin 3 → ℕ, (∀ b, m b ≤ n) ∧ m a = 0 ∧ k = gridNode (fun _ => n) m := by
      intro k
      rw [hmem]
      constructor
      · rintro ⟨hk, hloc⟩
        obtain ⟨m, hm, rfl⟩ := gridNode_surj (fun _ => n) k (by rw [← h.num]; exact hk)
        exact ⟨m, hm, (h.low m hm a).mp hloc, rfl⟩
      · rintro ⟨m, hm, h0, rfl⟩
        exact ⟨by rw [h.num]; exact gridNode_lt (fun _ => n) m hm, (h.low m hm a).mpr h0⟩
    refine ⟨a, c, as, bs, cs, hic, e1, e2, e3, hlen, hcs, ?_, hmem'⟩
    rw [List.forall₂_iff_get] at hF ⊢
    refine ⟨hF.1, fun j hj hj' => ?_⟩
    obtain ⟨mp, hmp, hcand, -⟩ := hF.2 j hj hj'
    rw [h3] at hmp
    obtain rfl := Option.some.inj hmp
    obtain ⟨m, hm, h0, hk⟩ := (hmem' (as.get ⟨j, hj⟩)).mp (List.get_mem _ _)
    rw [hk] at hcand ⊢
    exact (h.candidate a m hm h0 _).mp hcand
  have hgrp : ∀ g, g ∈ pgroupsOf A B C ↔ ∃ i < 9, ∃ as bs cs, A[i]? = some as ∧ B[i]? = some bs ∧ C[i]? = some cs ∧ g = ⟨as, bs, cs⟩ := by
    intro g
    unfold pgroupsOf
    rw [List.mem_map]
    constructor
    · rintro ⟨t, ht, rfl⟩
      obtain ⟨i, hi⟩ := List.mem_iff_getElem?.mp ht
      have hi' := (List.getElem?_eq_some_iff.mp hi).1
      rw [List.length_zip, List.length_zip] at hi'
      rw [List.getElem?_zip_eq_some, List.getElem?_zip_eq_some] at hi
      exact ⟨i, by omega, _, _, _, hi.1, hi.2.1, hi.2.2, rfl⟩
    · rintro ⟨i, hi, as, bs, cs, h1, h2, h3, rfl⟩
      refine ⟨(as, bs, cs), List.mem_iff_getElem?.mpr ⟨i, ?_⟩, rfl⟩
      rw [List.getElem?_zip_eq_some, List.getElem?_zip_eq_some]
      exact ⟨h1, h2, h3⟩
  constructor
  · intro p
    unfold LProb.ties
    rw [List.mem_flatMap]
    constructor
    · rintro ⟨g, hg, hpg⟩
      obtain ⟨i, hi, as, bs, cs, h1, h2, h3, rfl⟩ := (hgrp g).mp hg
      obtain ⟨a, c, as', bs', cs', -, e1, e2, e3, hlen, hcs, hF, hmem⟩ := key i hi
      rw [h1] at e1; rw [h2] at e2; rw [h3] at e3
      obtain rfl := Option.some.inj e1
      obtain rfl := Option.some.inj e2
      obtain rfl := Option.some.inj e3
      unfold LProb.idxA LProb.idxB at hpg
      dsimp only at hpg
      rw [hvec, zip_ties c 3 (fun x => x + rveStride n a) as bs cs hF hlen hcs, List.mem_map] at hpg
      obtain ⟨k, hk, rfl⟩ := hpg
      obtain ⟨m, hm, h0, rfl⟩ := (hmem k).mp hk
      exact ⟨a, c, m, hm, h0, by rw [gridNode_update n m a h0]⟩
    · rintro ⟨a, c, m, hm, h0, rfl⟩
      have hi : 3 * (a : ℕ) + c < 9 := by omega
      obtain ⟨a', c', as, bs, cs, hic, e1, e2, e3, hlen, hcs, hF, hmem⟩ := key (3 * a + c) hi
      obtain rfl : a = a' := Fin.ext (by omega)
      obtain rfl : c = c' := Fin.ext (by omega)
      refine ⟨⟨as, bs, cs⟩, (hgrp _).mpr ⟨_, hi, as, bs, cs, e1, e2, e3, rfl⟩, ?_⟩
      unfold LProb.idxA LProb.idxB
      dsimp only
      rw [hvec, zip_ties c 3 (fun x => x + rveStride n a) as bs cs hF hlen hcs, List.mem_map]
      exact ⟨_, (hmem _).mpr ⟨m, hm, h0, rfl⟩, by rw [gridNode_update n m a h0]⟩
  · intro g hg
    obtain ⟨i, hi, as, bs, cs, h1, h2, h3, rfl⟩ := (hgrp g).mp hg
    obtain ⟨a, c, as', bs', cs', -, e1, e2, e3, hlen, hcs, hF, hmem⟩ := key i hi
    rw [h1] at e1; rw [h2] at e2; rw [h3] at e3
    obtain rfl := Option.some.inj e1
    obtain rfl := Option.some.inj e2
    obtain rfl := Option.some.inj e3
    exact ⟨hF.length_eq, by rw [← hF.length_eq]; exact hlen.symm⟩

/-- The prescriptions of the three corner groups. -/
theorem RveMesh.prescriptions (h : RveMesh F n L) (P : Prob ℝ FemErr) (hvec : P.vec = 3) (N C : List (List ℕ)) (W : List (List ℝ)) (hd : dirichletBC F.numTotal F.points (some rveDirichlet) = .ok (N, C, W))
    (hP : P.groups = groupsOf N C W) : P.prescriptions = [(0, 0), (1, 0), (2, 0)] ∧ ∀ g ∈ P.groups, g.nodes.length = g.comps.length ∧ g.comps.length = g.vals.length := by
  have hns : nodesWhere F.numTotal F.points rveCorner = [0] := by
    have h0 : ∀ k, k ∈ nodesWhere F.numTotal F.points rveCorner ↔ k = 0 := by
      intro k
      rw [mem_nodesWhere]
      constructor
      · rintro ⟨hk, hloc⟩
        obtain ⟨m, hm, rfl⟩ := gridNode_surj (fun _ => n) k (by rw [← h.num]; exact hk)
        rw [(h.corner m hm).mp hloc]
        simp [gridNode]
      · rintro rfl
        have hm : ∀ a, (0 : Fin 3 → ℕ) a ≤ n := fun a => Nat.zero_le _
        have e : gridNode (fun _ => n) 0 = 0 := by simp [gridNode]
        have h1 := (h.corner 0 hm).mpr rfl
        rw [e] at h1
        exact ⟨by rw [h.num]; positivity, h1⟩
    have hs := sorted_nodesWhere F.numTotal F.points rveCorner
    generalize nodesWhere F.numTotal F.points rveCorner = l at h0 hs
    match l with
    | [] => exact absurd ((h0 0).mpr rfl) (by simp)
    | [x] => rw [(h0 x).mp (by simp)]
    | x :: y :: l =>
      have h1 := (h0 x).mp (by simp)
      have h2 := (h0 y).mp (by simp)
      have h3 := (List.pairwise_cons.mp hs).1 y (by simp)
      omega
  have hg := groups_of_dirichlet F.numTotal F.points rveDirichlet.1 rveDirichlet.2.1 rveDirichlet.2.2 N C W hd
  have hgr : P.groups = [⟨[0], [0], [0]⟩, ⟨[0], [1], [0]⟩, ⟨[0], [2], [0]⟩] := by
    rw [hP, hg]
    simp [rveDirichlet, hns, List.replicate]
  constructor
  · unfold Prob.prescriptions
    rw [hgr]
    simp [Prob.idx, hvec]
  · rw [hgr]
    simp

/-- **C122 (constraints).** On its mesh, for every number of elements and edge length resolved by the tolerances, `rve_problem` succeeds; its constraint lists are well formed; and its Dirichlet and periodic conditions hold
exactly for the fields that agree on opposite faces and vanish at the corner at the origin. -/
theorem C122_constraints (F : Fem 8 nq nf nfq 3 3) (n : ℕ) (L : ℝ) (h : RveMesh F n L) : ∃ P, rveProb F L = .ok P ∧ P.WF ∧ P.numDofs = F.numTotal * 3 ∧ P.eps = 1e2 ∧
    (∀ x : ℕ → ℝ, ((∀ p ∈ P.prescriptions, x p.1 = p.2) ∧ ∀ p ∈ P.ties, x p.1 = x p.2) ↔
      Periodic3 (fun _ => n) (fun k (i : Fin 3) => x (3 * k + i)) ∧ ∀ i : Fin 3, x (3 * gridNode (fun _ => n) 0 + i) = 0) := by
  obtain ⟨⟨A, B, C⟩, hp⟩ := h.periodic_ok
  obtain ⟨⟨N, C', W⟩, hd⟩ := (C17_accepted F.numTotal F.points rveDirichlet.1 rveDirichlet.2.1 rveDirichlet.2.2).1.mpr ⟨rfl, rfl⟩
  have hd' : dirichletBC F.numTotal F.points (some rveDirichlet) = .ok (N, C', W) := hd
  refine ⟨{ F.toProb (groupsOf N C' W) with pgroups := pgroupsOf A B C, eps := 1e2 }, ?_, ?_⟩
  · simp only [rveProb, hd', hp, bind, Except.bind, pure, Except.pure]
  obtain ⟨ht, hpl⟩ := h.ties (F.toProb (groupsOf N C' W)) rfl 1e2 A B C hp
  obtain ⟨hpr, hl⟩ := h.prescriptions (F.toProb (groupsOf N C' W)) rfl N C' W hd' rfl
  have hdofs : (F.toProb (groupsOf N C' W)).numDofs = F.numTotal * 3 := rfl
  have hlt : ∀ m : Fin 3 → ℕ, (∀ b, m b ≤ n) → ∀ c : Fin 3, 3 * gridNode (fun _ => n) m + (c : ℕ) < F.numTotal * 3 := by
    intro m hm c
    have := gridNode_lt (fun _ => n) m hm
    rw [← h.num] at this
    omega
  have hpos : 0 < F.numTotal := by rw [h.num]; positivity
  refine ⟨⟨hl, hpl, ?_, ?_⟩, rfl, rfl, ?_⟩
  · show ∀ p ∈ (F.toProb (groupsOf N C' W)).prescriptions, p.1 < (F.toProb (groupsOf N C' W)).numDofs
    rw [hpr, hdofs]
    intro p hp
    simp only [List.mem_cons, List.not_mem_nil, or_false] at hp
    rcases hp with rfl | rfl | rfl <;> dsimp only <;> omega
  · intro p hp
    obtain ⟨a, c, m, hm, h0, rfl⟩ := (ht p).mp hp
    exact ⟨hlt m hm c, hlt _ (update_le hm a) c⟩
  · intro x
    have e1 : (∀ p ∈ (F.toProb (groupsOf N C' W)).prescriptions, x p.1 = p.2) ↔ ∀ i : Fin 3, x (3 * gridNode (fun _ => n) 0 + i) = 0 := by
      have e : gridNode (fun _ => n) 0 = 0 := by simp [gridNode]
      rw [hpr, e]
      constructor
      · intro hx i
        fin_cases i
        · exact hx (0, 0) (by simp)
        · exact hx (1, 0) (by simp)
        · exact hx (2, 0) (by simp)
      · intro hx p hp
        simp only [List.mem_cons, List.not_mem_nil, or_false] at hp
        rcases hp with rfl | rfl | rfl
        · exact hx 0
        · exact hx 1
        · exact hx 2
    rw [and_comm]
    refine and_congr ?_ e1
    constructor
    · intro hx a m hm h0
      funext c
      exact hx _ ((ht _).mpr ⟨a, c, m, hm, h0, rfl⟩)
    · intro hx p hp
      obtain ⟨a, c, m, hm, h0, rfl⟩ := (ht p).mp hp
      exact congrFun (hx a m hm h0) c

/-- The work of the constraint forces. -/
theorem forces_work {E : Type} (P : LProb ℝ E) (h : P.WF) (x v : ℕ → ℝ) : ∑ d ∈ range P.numDofs, P.forces x d * v d =
    ((P.prescriptions.zipIdx P.numDofs).map fun p => x p.2 * v p.1.1).sum + ((P.ties.zipIdx (P.numDofs + P.prescriptions.length)).map fun p => x p.2 * (v p.1.1 - v p.1.2)).sum := by
  have hmem : ∀ {α : Type} {l : List α} {k : ℕ} {p : α × ℕ}, p ∈ l.zipIdx k → p.1 ∈ l := fun hp => (List.mem_zipIdx hp).2.2 ▸ List.getElem_mem _
  unfold LProb.forces
  simp only [add_mul, sum_add_distrib, ← List.sum_map_mul_right, ← list_sum_comm]
  congr 1
  · refine congrArg List.sum (List.map_congr_left fun p hp => ?_)
    rw [sum_eq_single p.1.1 (fun b _ hb => by rw [if_neg (Ne.symm hb), zero_mul]) (fun hn => absurd (mem_range.mpr (h.range _ (hmem hp))) hn), if_pos rfl]
  · refine congrArg List.sum (List.map_congr_left fun p hp => ?_)
    obtain ⟨h1, h2⟩ := h.prange _ (hmem hp)
    simp only [sub_mul, sum_sub_distrib, mul_sub]
    rw [sum_eq_single p.1.1 (fun b _ hb => by rw [if_neg (Ne.symm hb), zero_mul]) (fun hn => absurd (mem_range.mpr h1) hn), if_pos rfl,
      sum_eq_single p.1.2 (fun b _ hb => by rw [if_neg (Ne.symm hb), zero_mul]) (fun hn => absurd (mem_range.mpr h2) hn), if_pos rfl]

theorem sum_dofs (M : ℕ) (f : ℕ → ℝ) : ∑ d ∈ range (M * 3), f d = ∑ k ∈ range M, ∑ i : Fin 3, f (3 * k + i) := by
  induction M with
  | zero => simp
  | succ M ih =>
    rw [sum_range_succ, ← ih, show (M + 1) * 3 = M * 3 + 1 + 1 + 1 by ring, sum_range_succ, sum_range_succ, sum_range_succ, Fin.sum_univ_three, show M * 3 = 3 * M by ring]
    simp only [Fin.coe_ofNat_eq_mod]
    norm_num
    ring

/-- **C122 (what the solver solves).** A zero of the augmented residual of `rve_problem` is a periodic fluctuation vanishing at the corner, in equilibrium with respect to all such fields. -/
theorem C122_equilibrium (F : Fem 8 nq nf nfq 3 3) (n : ℕ) (L : ℝ) (h : RveMesh F n L) (P : LProb ℝ FemErr) (hP : rveProb F L = .ok P) (x : ℕ → ℝ) (R : ℕ → Fin 3 → ℝ)
    (hz : ∀ d < P.numDofs + P.augSize, P.residualLm (fun d => R (d / 3) (Fin.ofNat 3 d)) x d = 0) :
    Periodic3 (fun _ => n) (fun k (i : Fin 3) => x (3 * k + i)) ∧ (∀ i : Fin 3, x (3 * gridNode (fun _ => n) 0 + i) = 0) ∧ Equilibrium (fun _ => n) F.numTotal R := by
  obtain ⟨P', hP', hwf, hnum, heps, hcon⟩ := C122_constraints F n L h
  rw [hP] at hP'
  obtain rfl := Except.ok.inj hP'
  obtain ⟨h1, h2, h3⟩ := (C24_zero_iff P hwf (by rw [heps]; norm_num) _ x).mp hz
  obtain ⟨h4, h5⟩ := (hcon x).mp ⟨h2, h3⟩
  refine ⟨h4, h5, fun v hv hv0 => ?_⟩
  set w : ℕ → ℝ := fun d => v (d / 3) (Fin.ofNat 3 d) with hw
  have hwi : ∀ (k : ℕ) (i : Fin 3), w (3 * k + i) = v k i := by
    intro k i
    rw [hw]
    have e1 : (3 * k + (i : ℕ)) / 3 = k := by omega
    have e2 : Fin.ofNat 3 (3 * k + (i : ℕ)) = i := by
      apply Fin.ext
      simp only [Fin.ofNat_eq_cast, Fin.val_natCast]
      omega
    dsimp only
    rw [e1, e2]
  have hRi : ∀ (k : ℕ) (i : Fin 3), R ((3 * k + (i : ℕ)) / 3) (Fin.ofNat 3 (3 * k + (i : ℕ))) = R k i := by
    intro k i
    have e1 : (3 * k + (i : ℕ)) / 3 = k := by omega
    have e2 : Fin.ofNat 3 (3 * k + (i : ℕ)) = i := by
      apply Fin.ext
      simp only [Fin.ofNat_eq_cast, Fin.val_natCast]
      omega
    rw [e1, e2]
  obtain ⟨c1, c2⟩ := (hcon w).mpr ⟨by
    have e : (fun k (i : Fin 3) => w (3 * k + i)) = v := by funext k i; exact hwi k i
    rw [e]; exact hv, fun i => by rw [hwi, hv0]; rfl⟩
  have hf := forces_work P hwf x w
  have hpz : ∀ p ∈ P.prescriptions, p.2 = 0 := by
    intro p hp
    have e1 := c1 p hp
    obtain ⟨k1, -⟩ := (hcon 0).mpr ⟨fun a m hm h0 => rfl, fun i => rfl⟩
    exact (k1 p hp).symm
  have hmem : ∀ {α : Type} {l : List α} {k : ℕ} {p : α × ℕ}, p ∈ l.zipIdx k → p.1 ∈ l := fun hp => (List.mem_zipIdx hp).2.2 ▸ List.getElem_mem _
  have hs0 : ∑ d ∈ range P.numDofs, P.forces x d * w d = 0 := by
    rw [hf]
    have z1 : ((P.prescriptions.zipIdx P.numDofs).map fun p => x p.2 * w p.1.1).sum = 0 := by
      refine List.sum_eq_zero fun y hy => ?_
      obtain ⟨p, hp, rfl⟩ := List.mem_map.mp hy
      rw [c1 _ (hmem hp), hpz _ (hmem hp), mul_zero]
    have z2 : ((P.ties.zipIdx (P.numDofs + P.prescriptions.length)).map fun p => x p.2 * (w p.1.1 - w p.1.2)).sum = 0 := by
      refine List.sum_eq_zero fun y hy => ?_
      obtain ⟨p, hp, rfl⟩ := List.mem_map.mp hy
      rw [c2 _ (hmem hp), sub_self, mul_zero]
    rw [z1, z2, add_zero]
  have hs1 : ∑ d ∈ range P.numDofs, (R (d / 3) (Fin.ofNat 3 d) + P.eps * P.forces x d) * w d = 0 :=
    sum_eq_zero fun d hd => by rw [h1 d (mem_range.mp hd), zero_mul]
  simp only [add_mul, sum_add_distrib, mul_assoc] at hs1
  rw [← mul_sum, hs0, mul_zero, add_zero, hnum, sum_dofs] at hs1
  simpa only [hwi, hRi] using hs1

theorem zipIdx_single_sum {α : Type} (g : α → ℝ) (l : List α) (O j : ℕ) (hj : j < l.length) : ((l.zipIdx O).map fun p => g p.1 * (Pi.single (O + j) (1 : ℝ) : ℕ → ℝ) p.2).sum = g l[j] := by
  have h := LProb.sum_zipIdx_single g l O (O + j)
  have e : ((l.zipIdx O).map fun p => g p.1 * (Pi.single (O + j) (1 : ℝ) : ℕ → ℝ) p.2) = (l.zipIdx O).map fun p => if p.2 = O + j then g p.1 else 0 := by
    refine List.map_congr_left fun p _ => ?_
    by_cases hp : p.2 = O + j
    · rw [if_pos hp, hp, Pi.single_eq_same, mul_one]
    · rw [if_neg hp, Pi.single_eq_of_ne hp, mul_zero]
  rw [e, h, if_pos (by omega), Nat.add_sub_cancel_left, List.getElem?_eq_getElem hj]

/-- A closed loop of ties makes the augmented matrix singular. -/
theorem loop_singular {E : Type} (P : LProb ℝ E) (h : P.WF) (a b c d : ℕ) (hab : (a, b) ∈ P.ties) (hbd : (b, d) ∈ P.ties) (hac : (a, c) ∈ P.ties) (hcd : (c, d) ∈ P.ties)
    (h1 : a ≠ b) (h2 : a ≠ c) (h3 : b ≠ c) :
    ∃ lam : ℕ → ℝ, (∃ k < P.augSize, lam (P.numDofs + k) ≠ 0) ∧
      (∀ nw : Newton ℝ, (∀ j ∈ nw.J, j < P.numDofs) → ∀ e, P.augOp realArith nw lam e = 0) ∧
      ∀ res x : ℕ → ℝ, ∑ k ∈ range P.augSize, lam (P.numDofs + k) * P.residualLm res x (P.numDofs + k) = 0 := by
  obtain ⟨j1, l1, e1⟩ := List.mem_iff_getElem.mp hab
  obtain ⟨j2, l2, e2⟩ := List.mem_iff_getElem.mp hbd
  obtain ⟨j3, l3, e3⟩ := List.mem_iff_getElem.mp hac
  obtain ⟨j4, l4, e4⟩ := List.mem_iff_getElem.mp hcd
  have n12 : j1 ≠ j2 := by rintro rfl; rw [e1] at e2; exact h1 (Prod.mk.inj e2).1
  have n13 : j1 ≠ j3 := by rintro rfl; rw [e1] at e3; exact h3 (Prod.mk.inj e3).2
  have n14 : j1 ≠ j4 := by rintro rfl; rw [e1] at e4; exact h2 (Prod.mk.inj e4).1
  set O := P.numDofs + P.prescriptions.length with hO
  have hlen := LProb.rows_length realArith h
  have hrows := LProb.rows_eq realArith P
  have haug : P.augSize = P.prescriptions.length + P.ties.length := by rw [← hlen, hrows, List.length_append, List.length_map, List.length_map]
  set lam : ℕ → ℝ := Pi.single (O + j1) 1 + Pi.single (O + j2) 1 - Pi.single (O + j3) 1 - Pi.single (O + j4) 1 with hlam
  have hlow : ∀ k < O, lam k = 0 := by
    intro k hk
    rw [hlam]
    simp only [Pi.add_apply, Pi.sub_apply]
    rw [Pi.single_eq_of_ne (by omega), Pi.single_eq_of_ne (by omega), Pi.single_eq_of_ne (by omega), Pi.single_eq_of_ne (by omega)]
    ring
  have hsum : ∀ g : ℕ × ℕ → ℝ, ((P.ties.zipIdx O).map fun p => g p.1 * lam p.2).sum = g (a, b) + g (b, d) - g (a, c) - g (c, d) := by
    intro g
    have e : ∀ p : (ℕ × ℕ) × ℕ, g p.1 * lam p.2 = g p.1 * (Pi.single (O + j1) (1 : ℝ) : ℕ → ℝ) p.2 + g p.1 * (Pi.single (O + j2) (1 : ℝ) : ℕ → ℝ) p.2
        + (-g p.1 * (Pi.single (O + j3) (1 : ℝ) : ℕ → ℝ) p.2 + -g p.1 * (Pi.single (O + j4) (1 : ℝ) : ℕ → ℝ) p.2) := by
      intro p
      rw [hlam]
      simp only [Pi.add_apply, Pi.sub_apply]
      ring
    simp only [e]
    rw [List.sum_map_add, List.sum_map_add, List.sum_map_add, zipIdx_single_sum g P.ties O j1 l1, zipIdx_single_sum g P.ties O j2 l2, zipIdx_single_sum (fun p => -g p) P.ties O j3 l3,
      zipIdx_single_sum (fun p => -g p) P.ties O j4 l4, e1, e2, e3, e4]
    ring
  have hmem : ∀ {α : Type} {l : List α} {k : ℕ} {p : α × ℕ}, p ∈ l.zipIdx k → p.1 ∈ l := fun hp => (List.mem_zipIdx hp).2.2 ▸ List.getElem_mem _
  refine ⟨lam, ⟨P.prescriptions.length + j1, by omega, ?_⟩, fun nw hJ e => ?_, fun res x => ?_⟩
  · rw [← Nat.add_assoc, ← hO, hlam]
    simp only [Pi.add_apply, Pi.sub_apply]
    rw [Pi.single_eq_same, Pi.single_eq_of_ne (by omega), Pi.single_eq_of_ne (by omega), Pi.single_eq_of_ne (by omega)]
    norm_num
  · rw [augOp_real, LProb.augTriplets_sum h]
    have z1 : ((nw.I.zip (nw.J.zip nw.V)).map fun t => if t.1 = e then t.2.2 * lam t.2.1 else 0).sum = 0 := by
      refine List.sum_eq_zero fun y hy => ?_
      obtain ⟨t, ht, rfl⟩ := List.mem_map.mp hy
      have := hJ t.2.1 (List.of_mem_zip (List.of_mem_zip ht).2).1
      rw [hlow _ (by omega), mul_zero, ite_self]
    have z2 : ((P.prescriptions.zipIdx P.numDofs).map fun p => (if p.1.1 = e then P.eps * lam p.2 else 0) + if p.2 = e then P.eps * lam p.1.1 else 0).sum = 0 := by
      refine List.sum_eq_zero fun y hy => ?_
      obtain ⟨p, hp, rfl⟩ := List.mem_map.mp hy
      have k1 := (LProb.mem_zipIdx_ge hp).2.1
      have k2 := h.range _ (hmem hp)
      rw [hlow _ (by omega), hlow p.1.1 (by omega)]
      simp
    have z3 : ((P.ties.zipIdx O).map fun p => (if p.1.1 = e then P.eps * lam p.2 else 0) + (if p.1.2 = e then -P.eps * lam p.2 else 0)
        + ((if p.2 = e then P.eps * lam p.1.1 else 0) + if p.2 = e then -P.eps * lam p.1.2 else 0)).sum = 0 := by
      have k : ((P.ties.zipIdx O).map fun p => (if p.1.1 = e then P.eps * lam p.2 else 0) + (if p.1.2 = e then -P.eps * lam p.2 else 0)
          + ((if p.2 = e then P.eps * lam p.1.1 else 0) + if p.2 = e then -P.eps * lam p.1.2 else 0)) =
          (P.ties.zipIdx O).map fun p => ((if p.1.1 = e then P.eps else 0) - if p.1.2 = e then P.eps else 0) * lam p.2 := by
        refine List.map_congr_left fun p hp => ?_
        obtain ⟨k1, k2⟩ := h.prange _ (hmem hp)
        rw [hlow p.1.1 (by omega), hlow p.1.2 (by omega)]
        by_cases u1 : p.1.1 = e <;> by_cases u2 : p.1.2 = e <;> simp [u1, u2]
      rw [k, hsum fun p => (if p.1 = e then P.eps else 0) - if p.2 = e then P.eps else 0]
      ring
    dsimp only
    rw [z1, z2, z3]
    ring
  · have hr : ∀ k < P.augSize, lam (P.numDofs + k) * P.residualLm res x (P.numDofs + k) =
        if hk : P.prescriptions.length ≤ k ∧ k - P.prescriptions.length < P.ties.length then lam (O + (k - P.prescriptions.length)) * (P.eps * (x (P.ties[k - P.prescriptions.length]'hk.2).1 - x (P.ties[k - P.prescriptions.length]'hk.2).2)) else 0 := by
      intro k hk
      by_cases hk' : P.prescriptions.length ≤ k
      · have hk2 : k - P.prescriptions.length < P.ties.length := by omega
        rw [dif_pos ⟨hk', hk2⟩, LProb.residual_mult h res x k ⟨(P.ties[k - P.prescriptions.length]).1, some (P.ties[k - P.prescriptions.length]).2, realArith.zero⟩ (by
          rw [hrows, List.getElem?_append_right (by rw [List.length_map]; exact hk'), List.length_map, List.getElem?_map, List.getElem?_eq_getElem hk2]; rfl)]
        rw [show O + (k - P.prescriptions.length) = P.numDofs + k by omega]
        rfl
      · rw [dif_neg (by omega), hlow _ (by omega), zero_mul]
    rw [sum_congr rfl fun k hk => hr k (mem_range.mp hk), haug, sum_range_add]
    have z1 : ∑ k ∈ range P.prescriptions.length, (if hk : P.prescriptions.length ≤ k ∧ k - P.prescriptions.length < P.ties.length then lam (O + (k - P.prescriptions.length)) * (P.eps * (x (P.ties[k - P.prescriptions.length]'hk.2).1 - x (P.ties[k - P.prescriptions.length]'hk.2).2)) else 0) = 0 :=
      sum_eq_zero fun k hk => dif_neg (by have := mem_range.mp hk; omega)
    rw [z1, zero_add]
    have hz := hsum fun p => P.eps * (x p.1 - x p.2)
    have hzip : ((P.ties.zipIdx O).map fun p => P.eps * (x p.1.1 - x p.1.2) * lam p.2).sum = ∑ k ∈ range P.ties.length, P.eps * (x (P.ties.getD k (0, 0)).1 - x (P.ties.getD k (0, 0)).2) * lam (O + k) := by
      rw [sum_range, ← List.sum_ofFn]
      congr 1
      refine List.ext_getElem (by simp) fun i hi hi' => ?_
      have hi2 : i < P.ties.length := by simpa using hi
      simp [List.getD_eq_getElem?_getD]
    rw [hzip] at hz
    rw [show (0 : ℝ) = P.eps * (x a - x b) + P.eps * (x b - x d) - P.eps * (x a - x c) - P.eps * (x c - x d) by ring]
    refine Eq.trans (sum_congr rfl fun k hk => ?_) hz
    have hk' := mem_range.mp hk
    rw [dif_pos ⟨by omega, by rw [Nat.add_sub_cancel_left]; exact hk'⟩]
    simp only [Nat.add_sub_cancel_left]
    rw [List.getD_eq_getElem?_getD, List.getElem?_eq_getElem hk', Option.getD_some]
    ring

/-- **C122 (redundant ties).** The ties of `rve_problem` contain closed loops along the edges of the cube: for every tangent the augmented matrix handed to the linear solver has a nonzero vector in its kernel, so the
system never has a unique solution; the corresponding combination of the constraint rows of the residual is always zero, so no inconsistency arises. -/
theorem C122_singular (F : Fem 8 nq nf nfq 3 3) (n : ℕ) (L : ℝ) (h : RveMesh F n L) (P : LProb ℝ FemErr) (hP : rveProb F L = .ok P) :
    ∃ lam : ℕ → ℝ, (∃ k < P.augSize, lam (P.numDofs + k) ≠ 0) ∧
      (∀ nw : Newton ℝ, (∀ j ∈ nw.J, j < P.numDofs) → ∀ e, P.augOp realArith nw lam e = 0) ∧
      ∀ res x : ℕ → ℝ, ∑ k ∈ range P.augSize, lam (P.numDofs + k) * P.residualLm res x (P.numDofs + k) = 0 := by
  obtain ⟨P', hP', hwf, hnum, heps, hcon⟩ := C122_constraints F n L h
  rw [hP] at hP'
  obtain rfl := Except.ok.inj hP'
  have hmem : ∀ (a : Fin 3) (m : Fin 3 → ℕ), (∀ b, m b ≤ n) → m a = 0 → (3 * gridNode (fun _ => n) m, 3 * gridNode (fun _ => n) (Function.update m a n)) ∈ P.ties := by
    intro a m hm h0
    obtain ⟨⟨A, B, C⟩, hp⟩ := h.periodic_ok
    obtain ⟨⟨N, C', W⟩, hd⟩ := (C17_accepted F.numTotal F.points rveDirichlet.1 rveDirichlet.2.1 rveDirichlet.2.2).1.mpr ⟨rfl, rfl⟩
    have hd' : dirichletBC F.numTotal F.points (some rveDirichlet) = .ok (N, C', W) := hd
    simp only [rveProb, hd', hp, bind, Except.bind, pure, Except.pure, Except.ok.injEq] at hP
    obtain ⟨ht, -⟩ := h.ties (F.toProb (groupsOf N C' W)) rfl 1e2 A B C hp
    rw [← hP]
    exact (ht _).mpr ⟨a, 0, m, hm, h0, rfl⟩
  have hn := h.pos
  have hle : ∀ x y : ℕ, x ≤ n → y ≤ n → ∀ b, (![x, y, 0] : Fin 3 → ℕ) b ≤ n := by
    intro x y hx hy b
    fin_cases b
    exacts [hx, hy, Nat.zero_le _]
  have u1 : ∀ x y z : ℕ, Function.update (![x, y, z] : Fin 3 → ℕ) 0 n = ![n, y, z] := by
    intro x y z; funext b; fin_cases b <;> simp [Function.update]
  have u2 : ∀ x y z : ℕ, Function.update (![x, y, z] : Fin 3 → ℕ) 1 n = ![x, n, z] := by
    intro x y z; funext b; fin_cases b <;> simp [Function.update]
  have m1 := hmem 0 ![0, 0, 0] (hle 0 0 (by omega) (by omega)) rfl
  have m2 := hmem 1 ![n, 0, 0] (hle n 0 le_rfl (by omega)) rfl
  have m3 := hmem 1 ![0, 0, 0] (hle 0 0 (by omega) (by omega)) rfl
  have m4 := hmem 0 ![0, n, 0] (hle 0 n (by omega) le_rfl) rfl
  rw [u1] at m1 m4
  rw [u2] at m2 m3
  refine loop_singular P hwf _ _ _ _ m1 m2 m3 m4 ?_ ?_ ?_ <;> simp [gridNode] <;> try omega
  nlinarith

/-- Every number of elements and edge length resolved by the tolerances has a mesh. -/
theorem rveMesh_exists (n : ℕ) (L : ℝ) (hn : 0 < n) (hL : 0 < L) (hr : 1e-5 * (1 + L) < L / n) : ∃ F : Fem 8 8 6 4 3 3, RveMesh F n L :=
  ⟨Fem.ofElement 8 6 3 3 hex8 (gaussRule 3) (gaussRule 2) ((n + 1) * (n + 1) * (n + 1)) (Verif.Mesh.boxMesh n n n L L L).points.get (Verif.Mesh.boxMesh n n n L L L).cells.toList, ⟨rfl, rfl⟩, rfl, hn, hL, hr⟩

/-- The mesh of `rve_problem` with ten elements along the edge of the unit cube; there `rve_problem` succeeds. -/
example : ∃ F : Fem 8 8 6 4 3 3, RveMesh F 10 1 ∧ ∃ P, rveProb F 1 = .ok P ∧ P.WF := by
  obtain ⟨F, h⟩ := rveMesh_exists 10 1 (by norm_num) (by norm_num) (by norm_num)
  obtain ⟨P, h1, h2, -⟩ := C122_constraints _ 10 1 h
  exact ⟨_, h, P, h1, h2⟩

end Verif.Fem
