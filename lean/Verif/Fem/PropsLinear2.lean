import Verif.Fem.PropsLinear
import Verif.Fem.PropsPatch
import Verif.Fem.PropsSurface
import Verif.Fem.Models

/-!
# C87, continued: the patch test on box meshes through the whole program, from the user's boundary conditions to the returned field
-/
namespace Verif.Fem
open Finset

variable {nn nq nf nfq dim vec : ℕ}

/-- A problem of C86 is determined. -/
theorem C87_determined (F : Fem nn nq nf nfq dim vec) (hF : F.Monotone) (hstrict : ∀ k q A B, A ≠ B → 0 < ∑ i, ∑ d, (F.stress k q A i d - F.stress k q B i d) * (A i d - B i d))
    (hmodes : F.NoModes) (pres : List (ℕ × ℝ)) (hconn : ∀ n < F.numTotal, ∀ i : Fin vec, ∃ m < F.numTotal, ¬ FreeAt pres (vec * m + i) ∧ Relation.ReflTransGen F.Adj n m) : F.Determined pres := by
  intro u v Ru Rv hu hv hfix hfree n hn i
  refine C86_unique F hF hstrict hmodes (fun n i => n < F.numTotal ∧ ¬ FreeAt pres (vec * n + i)) (fun n hn i => ?_) u v Ru Rv hu hv (fun n i h => hfix n h.1 i h.2) (fun n hn i h => ?_) n hn i
  · obtain ⟨m, h1, h2, h3⟩ := hconn n hn i
    exact ⟨m, ⟨h1, h2⟩, h3⟩
  · refine hfree n hn i ?_
    by_contra hne
    exact h ⟨hn, hne⟩

theorem last_triple_exists (T : List (Loc dim × ℕ × ((Fin dim → ℝ) → ℝ))) (x : Fin dim → ℝ) (c : ℕ) (h : ∃ t ∈ T, t.1 x = true ∧ t.2.1 = c) : ∃ t ∈ T, LastTriple T x c t := by
  induction T with
  | nil => simp at h
  | cons s T ih =>
    by_cases hT : ∃ t ∈ T, t.1 x = true ∧ t.2.1 = c
    · obtain ⟨t, ht, l₁, l₂, e, h1, h2⟩ := ih hT
      exact ⟨t, List.mem_cons_of_mem _ ht, s :: l₁, l₂, by rw [e]; rfl, h1, h2⟩
    · obtain ⟨t, ht, hc⟩ := h
      rcases List.mem_cons.mp ht with rfl | ht
      · exact ⟨t, List.mem_cons_self, [], T, rfl, hc, fun s hs hcs => hT ⟨s, hs, hcs⟩⟩
      · exact absurd ⟨t, ht, hc⟩ hT

/-- What the user's triples prescribe: a degree of freedom is free iff no triple applies; a prescribed value is the value of a triple that applies. -/
theorem user_prescriptions {E : Type} (P : Prob ℝ E) (points : ℕ → Fin dim → ℝ) (locs : List (Loc dim)) (vecs : List ℕ) (vals : List ((Fin dim → ℝ) → ℝ)) (hv : ∀ v ∈ vecs, v < P.vec)
    (N C : List (List ℕ)) (W : List (List ℝ)) (h : dirichletBC P.numNodes points (some (locs, vecs, vals)) = .ok (N, C, W)) (hP : P.groups = groupsOf N C W) (n c : ℕ) (hn : n < P.numNodes) (hc : c < P.vec) :
    (FreeAt P.prescriptions (P.vec * n + c) ↔ ∀ t ∈ locs.zip (vecs.zip vals), ¬ (t.1 (points n) = true ∧ t.2.1 = c)) ∧
    ∀ v, LastAt P.prescriptions (P.vec * n + c) v → ∃ t ∈ locs.zip (vecs.zip vals), LastTriple (locs.zip (vecs.zip vals)) (points n) c t ∧ v = t.2.2 (points n) := by
  have hwf := C19_groups_wf P (by omega) P.numNodes points locs vecs vals N C W h hP
  have key := fun res u => C19_user P points locs vecs vals hv N C W h hP res u n c hn hc
  have hval := fun res u => P.applyBcVec_eq realArith hwf res u (P.vec * n + c)
  have hlast : ∀ t, LastTriple (locs.zip (vecs.zip vals)) (points n) c t → lastVal P.prescriptions (P.vec * n + c) = some (t.2.2 (points n)) := by
    intro t ht
    have h1 := (key (fun _ => 0) (fun _ => 1 + t.2.2 (points n))).1 t ht
    have h2 := (key (fun _ => 2) (fun _ => 1 + t.2.2 (points n))).1 t ht
    rw [hval] at h1 h2
    cases hl : lastVal P.prescriptions (P.vec * n + c) with
    | none =>
      simp only [hl] at h1
      norm_num at h1
    | some v =>
      simp only [hl, realArith] at h1
      congr 1
      linarith
  have hnone : (∀ t ∈ locs.zip (vecs.zip vals), ¬ (t.1 (points n) = true ∧ t.2.1 = c)) → lastVal P.prescriptions (P.vec * n + c) = none := by
    intro ht
    have h1 := (key (fun _ => 0) (fun _ => 0)).2 ht
    have h2 := (key (fun _ => 1) (fun _ => 0)).2 ht
    rw [hval] at h1 h2
    cases hl : lastVal P.prescriptions (P.vec * n + c) with
    | none => rfl
    | some v =>
      simp only [hl] at h1 h2
      rw [h1] at h2
      norm_num at h2
  refine ⟨⟨fun hf t ht hcond => ?_, fun ht => (lastVal_none _ _).mp (hnone ht)⟩, fun v hl => ?_⟩
  · obtain ⟨s, -, hs⟩ := last_triple_exists _ (points n) c ⟨t, ht, hcond⟩
    rw [(lastVal_none _ _).mpr hf] at hlast
    exact absurd (hlast s hs) (by simp)
  · by_cases hex : ∃ t ∈ locs.zip (vecs.zip vals), t.1 (points n) = true ∧ t.2.1 = c
    · obtain ⟨s, hm, hs⟩ := last_triple_exists _ (points n) c hex
      refine ⟨s, hm, hs, ?_⟩
      have := hlast s hs
      rw [(lastVal_some _ _ _).mpr hl] at this
      exact Option.some.inj this
    · push Not at hex
      have := hnone fun t ht hc => hex t ht hc.1 hc.2
      rw [(lastVal_some _ _ _).mpr hl] at this
      simp at this

/-- On a box every node is connected to the side `x = 0`. -/
theorem box_connected {nq nf nfq : ℕ} {F : Fem 8 nq nf nfq 3 vec} {N : Fin 3 → ℕ} {L : Fin 3 → ℝ} (h : OnBox F N L) (hN : ∀ a, 0 < N a) (j k : ℕ) (hj : j ≤ N 1) (hk : k ≤ N 2) (i : ℕ) (hi : i ≤ N 0) :
    Relation.ReflTransGen F.Adj (gridNode N ![i, j, k]) (gridNode N ![0, j, k]) := by
  induction i with
  | zero => exact .refl
  | succ i ih =>
    refine Relation.ReflTransGen.head ?_ (ih (by omega))
    have h1 := hN 1
    have h2 := hN 2
    obtain ⟨bj, hbj, hbj1⟩ : ∃ b, b ≤ 1 ∧ min j (N 1 - 1) + b = j := ⟨j - min j (N 1 - 1), by omega, by omega⟩
    obtain ⟨bk, hbk, hbk1⟩ : ∃ b, b ≤ 1 ∧ min k (N 2 - 1) + b = k := ⟨k - min k (N 2 - 1), by omega, by omega⟩
    have hcor : ∀ b0 b1 b2 : ℕ, b0 ≤ 1 → b1 ≤ 1 → b2 ≤ 1 → ∃ p : Fin 8, ∀ a, Verif.Mesh.hexCorner p a = ![b0, b1, b2] a := by
      intro b0 b1 b2 h0 h1 h2
      interval_cases b0 <;> interval_cases b1 <;> interval_cases b2 <;> decide
    obtain ⟨p, hp⟩ := hcor 1 bj bk le_rfl hbj hbk
    obtain ⟨p', hp'⟩ := hcor 0 bj bk (by omega) hbj hbk
    refine ⟨boxCell N ![i, min j (N 1 - 1), min k (N 2 - 1)], (h.mem_cells _).mpr ⟨_, (mem_boxGrid _ _).mpr fun a => ?_, rfl⟩, p, p', ?_, ?_⟩
    · fin_cases a
      · show i < N 0; omega
      · show min j (N 1 - 1) < N 1; omega
      · show min k (N 2 - 1) < N 2; omega
    · unfold boxCell
      congr 1
      funext a
      rw [hp]
      fin_cases a
      · rfl
      · exact hbj1
      · exact hbk1
    · unfold boxCell
      congr 1
      funext a
      rw [hp']
      fin_cases a
      · rfl
      · exact hbj1
      · exact hbk1

theorem gauss_w_pos (d : ℕ) (q : Fin (2 ^ d)) : 0 < (gaussRule d).w q := by
  simp only [gaussRule]
  positivity

/-- **C87 (patch test, whole program).** A box meshed with HEX8 cells and the 2x2x2 rule; a linear, strictly monotone stress which has the same value `T` everywhere for the gradient `A`; no mass,
source or Robin terms, tractions only on boundary faces. The user prescribes the affine field `A x + b`, by any list of triples that covers all boundary nodes. Then exact linear solvers exist, and
with every one of them `solver` returns the affine field at every node — whatever the number of cells, the initial guess, the solver variant and the preconditioner. -/
theorem C87_patch [NeZero vec] (F : Fem 8 (2 ^ 3) 6 nfq 3 vec) (N : Fin 3 → ℕ) (L : Fin 3 → ℝ) (hbox : OnBox F N L) (hnum : F.numTotal = (N 0 + 1) * (N 1 + 1) * (N 2 + 1)) (hN : ∀ a, 0 < N a)
    (hL : ∀ a, 0 < L a) (ht : CellTables F hex8 (gaussRule 3)) (frule : QuadRule nfq) (hft : FaceTables F hex8 frule)
    (tm : ℕ → Fin (2 ^ 3) → (Fin vec → Fin 3 → ℝ) → Fin vec → Fin 3 → ℝ) (htm : F.tensorMap = some tm) (haff : ∀ k q, Affine (tm k q))
    (hstrict : ∀ k q A B, A ≠ B → 0 < ∑ i, ∑ d, (tm k q A i d - tm k q B i d) * (A i d - B i d))
    (hmass : F.massMap = none) (hsrc : F.source = none) (hbody : F.bodyVar = none) (hcauchy : F.cauchy = none) (h0 : ∃ s R, F.computeResidual s = .ok R)
    (hneu : ∀ lv ∈ Fem.pairs F.neumann, ∀ m : Fin 3 → ℕ, (∀ a, 0 < m a ∧ m a < N a) → lv.1 (F.points (gridNode N m)) = false)
    (A T : Fin vec → Fin 3 → ℝ) (b : Fin vec → ℝ) (hT : ∀ k q, tm k q A = T)
    (locs : List (Loc 3)) (vecs : List ℕ) (vals : List ((Fin 3 → ℝ) → ℝ)) (hv : ∀ v ∈ vecs, v < vec)
    (hvals : ∀ t ∈ locs.zip (vecs.zip vals), ∀ i : Fin vec, t.2.1 = i → ∀ x, t.2.2 x = ∑ d, A i d * x d + b i)
    (hcover : ∀ m : Fin 3 → ℕ, (∀ a, m a ≤ N a) → (∃ a, m a = 0 ∨ m a = N a) → ∀ i : Fin vec, ∃ t ∈ locs.zip (vecs.zip vals), t.1 (F.points (gridNode N m)) = true ∧ t.2.1 = i)
    (ns cs : List (List ℕ)) (ws : List (List ℝ)) (hbc : dirichletBC F.numTotal F.points (some (locs, vecs, vals)) = .ok (ns, cs, ws)) (usePetsc : Bool) :
    (∃ lin, (F.toProb (groupsOf ns cs ws)).ExactFor usePetsc lin) ∧
    ∀ lin, (F.toProb (groupsOf ns cs ws)).ExactFor usePetsc lin → ∀ (precond : Bool) (guess : Option (ℕ → ℝ)) (fuel : ℕ),
      ∃ u, (F.toProb (groupsOf ns cs ws)).rowSolver realArith lin true precond usePetsc guess fuel = .ok u ∧
        ∀ n < F.numTotal, ∀ i : Fin vec, u (vec * n + i) = ∑ d, A i d * F.points n d + b i := by
  have hstress : ∀ k q, F.stress k q = tm k q := fun k q => by
    unfold Fem.stress
    rw [htm]
    rfl
  have hmem : ∀ c ∈ F.cells, ∀ p, c p < F.numTotal := by
    intro c hc p
    obtain ⟨g, hg, rfl⟩ := (hbox.mem_cells c).mp hc
    rw [hnum]
    rw [mem_boxGrid] at hg
    exact gridNode_lt N _ fun a => by have := hg a; have := hexCorner_le p a; omega
  have hh : ∀ a, 0 < L a / N a := fun a => div_pos (hL a) (by exact_mod_cast hN a)
  have hmono : F.Monotone := by
    refine ⟨hmem, ?_, ?_, ?_, ?_⟩
    · intro c hc q
      obtain ⟨g, hg, rfl⟩ := (hbox.mem_cells c).mp hc
      rw [hbox.JxW _ ht g hg]
      exact mul_pos (prod_pos fun a _ => hh a) (gauss_w_pos 3 q)
    · intro k q A B
      rw [hstress]
      by_cases e : A = B
      · simp [e]
      · exact (hstrict k q A B e).le
    · intro k q a b
      simp [Fem.massAt, hmass]
    · intro lv hlv
      simp [hcauchy, Fem.pairs] at hlv
  have hdet : ∀ c ∈ F.cells, ∀ q, (F.jacobian c q).det ≠ 0 := by
    intro c hc q
    obtain ⟨g, hg, rfl⟩ := (hbox.mem_cells c).mp hc
    rw [hbox.jacobian _ ht g hg, Matrix.det_diagonal]
    exact prod_ne_zero_iff.mpr fun b _ => (hh b).ne'
  have hpres := fun n c hn hc => user_prescriptions (F.toProb (groupsOf ns cs ws)) F.points locs vecs vals hv ns cs ws hbc rfl n c hn hc
  have hwf := C19_groups_wf (F.toProb (groupsOf ns cs ws)) (Nat.pos_of_ne_zero (NeZero.ne vec)) F.numTotal F.points locs vecs vals ns cs ws hbc rfl
  have hdetm : F.Determined (F.toProb (groupsOf ns cs ws)).prescriptions := by
    refine C87_determined F hmono (fun k q A B hne => by rw [hstress]; exact hstrict k q A B hne) (C86_modes_hex8 F ht hdet) _ fun n hn i => ?_
    rw [hnum] at hn
    obtain ⟨m, hm, rfl⟩ := gridNode_surj N n hn
    have hle : ∀ a, ![0, m 1, m 2] a ≤ N a := by
      intro a
      fin_cases a
      · exact Nat.zero_le _
      · exact hm 1
      · exact hm 2
    have hlt : gridNode N ![0, m 1, m 2] < F.numTotal := by
      rw [hnum]
      exact gridNode_lt N _ hle
    refine ⟨gridNode N ![0, m 1, m 2], hlt, fun hf => ?_, ?_⟩
    · obtain ⟨t, h1, h2⟩ := hcover ![0, m 1, m 2] hle ⟨0, .inl rfl⟩ i
      exact (hpres _ i hlt i.isLt).1.mp hf t h1 h2
    · have := box_connected hbox hN (m 1) (m 2) (hm 1) (hm 2) (m 0) (hm 0)
      have e : m = ![m 0, m 1, m 2] := by
        funext a
        fin_cases a <;> rfl
      rw [e]
      exact this
  obtain ⟨hex, hall⟩ := C87_solution F
    ⟨fun tm' htm' k q => by rw [htm] at htm'; injection htm' with e; subst e; exact haff k q, fun mm hmm => by rw [hmass] at hmm; simp at hmm, fun lv hlv => by simp [hcauchy, Fem.pairs] at hlv⟩
    _ hwf hmem h0 hdetm usePetsc
  refine ⟨hex, fun lin hlin precond guess fuel => ?_⟩
  obtain ⟨u, h1, -, h3⟩ := hall lin hlin precond guess fuel
  refine ⟨u, h1, fun n hn i => h3 (fun n i => ∑ d, A i d * F.points n d + b i) ?_ n hn i⟩
  obtain ⟨s, R, hR⟩ := h0
  obtain ⟨R', hR'⟩ := (C13_returns F fun n i => ∑ d, A i d * F.points n d + b i).mpr ((C13_returns F s).mp ⟨R, hR⟩)
  refine ⟨R', hR', fun n hn i => ⟨fun v hl => ?_, fun hf => ?_⟩⟩
  · obtain ⟨t, ht, hlt, rfl⟩ := (hpres n i hn i.isLt).2 v hl
    obtain ⟨l₁, l₂, -, hc, -⟩ := hlt
    exact (hvals t ht i hc.2 _).symm
  · have hn' := hn
    rw [hnum] at hn'
    obtain ⟨m, hm, rfl⟩ := gridNode_surj N n hn'
    have hint : ∀ a, 0 < m a ∧ m a < N a := by
      intro a
      by_contra hne
      obtain ⟨t, h1, h2⟩ := hcover m hm ⟨a, by have := hm a; omega⟩ i
      exact (hpres _ i hn i.isLt).1.mp hf t h1 h2
    exact C85_patch_box F N L hbox hN hL (gaussRule 3) ht frule hft hmass hsrc hbody hcauchy A T b (fun k q => by rw [hstress]; exact hT k q) _ R' (fun _ _ _ _ => rfl) hR' m hint
      (fun lv hlv => hneu lv hlv m hint) i

/-- Heat conduction on the 2x2x2 mesh of the box 4x3x6: temperature `1 + 2x - y + 3z/2` prescribed on all sides with one predicate of the usual kind, no heat source. -/
noncomputable def patchExample : Fem 8 8 6 4 3 1 :=
  { Fem.ofElement 8 6 3 1 hex8 (gaussRule 3) (gaussRule 2) 27 (Verif.Mesh.boxMesh 2 2 2 (4 : ℝ) 3 6).points.get (Verif.Mesh.boxMesh 2 2 2 (4 : ℝ) 3 6).cells.toList with
    tensorMap := some fun _ _ => poissonMap }

/-- The boundary predicate of the example. -/
noncomputable def patchBoundary : Loc 3 := fun x => decide (∃ a, x a < 1 / 100 ∨ ![4, 3, 6] a - 1 / 100 < x a)

/-- All hypotheses of the theorem hold for the example; the only free node is the middle one, number 13, where every exact solver gives `1 + 2·2 - 3/2 + 3·3/2 = 8`. -/
example : ∃ ns cs ws, dirichletBC 27 patchExample.points (some ([patchBoundary], [0], [fun x => 1 + 2 * x 0 - x 1 + 3 / 2 * x 2])) = .ok (ns, cs, ws) ∧
    (∃ lin, (patchExample.toProb (groupsOf ns cs ws)).ExactFor false lin) ∧
    (∀ lin, (patchExample.toProb (groupsOf ns cs ws)).ExactFor false lin →
      ∃ u, (patchExample.toProb (groupsOf ns cs ws)).rowSolver realArith lin true false false none 0 = .ok u ∧ u 13 = 8) ∧
    FreeAt (patchExample.toProb (groupsOf ns cs ws)).prescriptions 13 := by
  have hbox : OnBox patchExample ![2, 2, 2] ![4, 3, 6] := ⟨rfl, rfl⟩
  have ht : CellTables patchExample hex8 (gaussRule 3) := ⟨fun _ _ => rfl, fun _ _ _ => rfl, fun _ => rfl⟩
  have hft : FaceTables patchExample hex8 (gaussRule 2) := by
    have h := ofElement_hex8_face (vec := 1) (gaussRule 3) (gaussRule 2) 27 (Verif.Mesh.boxMesh 2 2 2 (4 : ℝ) 3 6).points.get (Verif.Mesh.boxMesh 2 2 2 (4 : ℝ) 3 6).cells.toList
    exact ⟨h.vals, h.grads, h.weights, h.normals, h.inds⟩
  have hN : ∀ a, 0 < (![2, 2, 2] : Fin 3 → ℕ) a := by decide
  have hL : ∀ a, 0 < (![4, 3, 6] : Fin 3 → ℝ) a := by intro a; fin_cases a <;> norm_num
  have hret : ∃ s R, patchExample.computeResidual s = .ok R := by
    refine ⟨0, (C13_returns patchExample 0).mpr ⟨?_, ?_, ?_, ?_, ?_⟩⟩
    · show (Verif.Mesh.boxMesh 2 2 2 (4 : ℝ) 3 6).cells.toList ≠ []
      intro h0
      have : (Verif.Mesh.boxMesh 2 2 2 (4 : ℝ) 3 6).cells.toList.length = 8 := by simp [Arr1.toList, Verif.Mesh.boxMesh_cells_n]
      rw [h0] at this
      cases this
    all_goals
      intro k hk
      cases hk
  obtain ⟨⟨ns, cs, ws⟩, hbc⟩ := (C17_accepted 27 patchExample.points [patchBoundary] [0] [fun x => 1 + 2 * x 0 - x 1 + 3 / 2 * x 2]).1.mpr ⟨rfl, rfl⟩
  have hpt : ∀ m : Fin 3 → ℕ, (∀ a, m a ≤ (![2, 2, 2] : Fin 3 → ℕ) a) → (patchBoundary (patchExample.points (gridNode ![2, 2, 2] m)) = true ↔ ∃ a, m a = 0 ∨ m a = (![2, 2, 2] : Fin 3 → ℕ) a) := by
    intro m hm
    simp only [patchBoundary, decide_eq_true_eq, hbox.point m hm]
    refine exists_congr fun a => ?_
    have h2 := hm a
    fin_cases a <;> simp at h2 ⊢ <;> first | (interval_cases m 0 <;> norm_num) | (interval_cases m 1 <;> norm_num) | (interval_cases m 2 <;> norm_num)
  obtain ⟨h1, h2⟩ := C87_patch patchExample ![2, 2, 2] ![4, 3, 6] hbox rfl hN hL ht (gaussRule 2) hft (fun _ _ => poissonMap) rfl
    (fun _ _ => ⟨differentiable_id, fun x y => by show x + y + 0 = x + y; rw [add_zero]⟩)
    (fun _ _ A B hne => by
      obtain ⟨d, hd⟩ : ∃ d, A 0 d ≠ B 0 d := by
        by_contra hall
        push Not at hall
        exact hne (funext fun i => funext fun d => by rw [Subsingleton.elim i 0]; exact hall d)
      simp only [poissonMap, Fin.sum_univ_one, univ_unique, Fin.default_eq_zero, Fin.isValue, sum_singleton]
      exact sum_pos' (fun d _ => mul_self_nonneg _) ⟨d, mem_univ _, mul_self_pos.mpr (sub_ne_zero.mpr hd)⟩)
    rfl rfl rfl rfl hret (fun lv hlv => by cases hlv) (fun _ => ![2, -1, 3 / 2]) _ (fun _ => 1) (fun _ _ => rfl) [patchBoundary] [0] [fun x => 1 + 2 * x 0 - x 1 + 3 / 2 * x 2]
    (by simp) (fun t htm i _ x => by
      rw [List.mem_singleton.mp htm]
      simp [Fin.sum_univ_three]
      ring) (fun m hm hb i => ⟨_, List.mem_singleton.mpr rfl, (hpt m hm).mpr hb, by simp⟩) ns cs ws hbc false
  refine ⟨ns, cs, ws, hbc, h1, fun lin hlin => ?_, ?_⟩
  · obtain ⟨u, hu, huv⟩ := h2 lin hlin false none 0
    refine ⟨u, hu, ?_⟩
    have h3 := huv 13 (by decide) 0
    have h4 := hbox.point ![1, 1, 1] (by decide)
    rw [show gridNode ![2, 2, 2] ![1, 1, 1] = 13 by decide] at h4
    simp only [h4, Fin.sum_univ_three] at h3
    simp at h3
    rw [h3]
    norm_num
  · refine (user_prescriptions (patchExample.toProb (groupsOf ns cs ws)) patchExample.points _ _ _ (show ∀ v ∈ [0], v < 1 by decide) ns cs ws hbc rfl 13 0 (show 13 < 27 by decide) (show 0 < 1 by decide)).1.mpr fun t htm hc => ?_
    rw [List.mem_singleton.mp htm] at hc
    have h3 := hc.1
    rw [← show gridNode ![2, 2, 2] ![1, 1, 1] = 13 by decide, hpt ![1, 1, 1] (by decide)] at h3
    exact absurd h3 (by decide)

end Verif.Fem
