import Verif.Fem.PropsElastic

/-!
# C88, continued: elastic bodies meshed by `box_mesh`, held on one side
-/
namespace Verif.Fem
open Finset

variable {nn nq nf nfq dim vec : ℕ}

theorem hexCorner_surj (β : Fin 3 → ℕ) (h : ∀ a, β a ≤ 1) : ∃ p : Fin 8, ∀ a, Verif.Mesh.hexCorner p a = β a := by
  have hcor : ∀ b0 b1 b2 : ℕ, b0 ≤ 1 → b1 ≤ 1 → b2 ≤ 1 → ∃ p : Fin 8, ∀ a, Verif.Mesh.hexCorner p a = ![b0, b1, b2] a := by
    intro b0 b1 b2 h0 h1 h2
    interval_cases b0 <;> interval_cases b1 <;> interval_cases b2 <;> decide
  obtain ⟨p, hp⟩ := hcor (β 0) (β 1) (β 2) (h 0) (h 1) (h 2)
  refine ⟨p, fun a => ?_⟩
  rw [hp]
  fin_cases a <;> rfl

/-- On a box a held plane of nodes holds the neighbouring planes. -/
theorem held_step {F : Fem 8 nq nf nfq 3 3} {N : Fin 3 → ℕ} {L : Fin 3 → ℝ} (hbox : OnBox F N L) (hN : ∀ a, 0 < N a) (hL : ∀ a, 0 < L a) (Z : ℕ → Prop) (a : Fin 3) (s s' : ℕ)
    (hs : s ≤ N a) (hs' : s' ≤ N a) (hss : s' = s + 1 ∨ s = s' + 1) (h : ∀ m : Fin 3 → ℕ, (∀ b, m b ≤ N b) → m a = s → F.Held Z (gridNode N m))
    (m : Fin 3 → ℕ) (hm : ∀ b, m b ≤ N b) (hma : m a = s') : F.Held Z (gridNode N m) := by
  set g : Fin 3 → ℕ := fun b => if b = a then min s s' else min (m b) (N b - 1) with hg
  have hga : g a = min s s' := by simp [hg]
  have hgb : ∀ b, b ≠ a → g b = min (m b) (N b - 1) := fun b hb => by simp [hg, hb]
  have hgN : g ∈ boxGrid N := by
    rw [mem_boxGrid]
    intro b
    by_cases hb : b = a
    · subst hb; rw [hga]; omega
    · rw [hgb b hb]; have := hN b; omega
  obtain ⟨p, hp⟩ := hexCorner_surj (fun b => m b - g b) fun b => by
    by_cases hb : b = a
    · subst hb; rw [hga]; omega
    · rw [hgb b hb]; have := hm b; omega
  have hpm : boxCell N g p = gridNode N m := by
    unfold boxCell
    congr 1
    funext b
    rw [hp]
    by_cases hb : b = a
    · subst hb; rw [hga]; omega
    · rw [hgb b hb]; have := hm b; omega
  rw [← hpm]
  have hh : ∀ a, L a / N a ≠ 0 := fun a => (div_pos (hL a) (by exact_mod_cast hN a)).ne'
  refine Fem.Held.cell (boxCell N g) {p | Verif.Mesh.hexCorner p a = s - min s s'} p ((hbox.mem_cells _).mpr ⟨g, hgN, rfl⟩) ?_ ?_ ?_
  · obtain ⟨p', hp'⟩ := hexCorner_surj (fun _ => s - min s s') fun b => by omega
    exact ⟨p', hp' a⟩
  · intro b hb
    refine h _ (fun d => ?_) ?_
    · have h1 := (mem_boxGrid N g).mp hgN d
      have := hexCorner_le b d
      omega
    · have hb' : Verif.Mesh.hexCorner b a = s - min s s' := hb
      rw [hb', hga]
      omega
  · intro W hW h0
    have hcol : ∀ i d, d ≠ a → W i d = 0 := by
      intro i d hd
      obtain ⟨p1, hp1⟩ := hexCorner_surj (fun b => if b = a then s - min s s' else 0) fun b => by split_ifs <;> omega
      obtain ⟨p2, hp2⟩ := hexCorner_surj (fun b => if b = a then s - min s s' else if b = d then 1 else 0) fun b => by split_ifs <;> omega
      have h1 := h0 _ ⟨p2, show Verif.Mesh.hexCorner p2 a = _ by rw [hp2, if_pos rfl], rfl⟩ _ ⟨p1, show Verif.Mesh.hexCorner p1 a = _ by rw [hp1, if_pos rfl], rfl⟩ i
      have h2 : ∀ e, F.points (boxCell N g p2) e - F.points (boxCell N g p1) e = if e = d then L e / N e else 0 := by
        intro e
        rw [hbox.corner g hgN, hbox.corner g hgN, hp1, hp2]
        by_cases he : e = a
        · subst he
          rw [if_pos rfl, if_pos rfl, if_neg fun h => hd h.symm, sub_self]
        · rw [if_neg he, if_neg he]
          split_ifs with hed
          · push_cast; ring
          · rw [sub_self]
      simp only [h2, mul_ite, mul_zero, sum_ite_eq', mem_univ, if_true] at h1
      exact (mul_eq_zero.mp h1).resolve_right (hh d)
    funext i j
    by_cases hj : j = a
    · subst hj
      by_cases hi : i = j
      · subst hi
        have := hW i i
        simp only [Pi.zero_apply]
        linarith
      · rw [hW i j, hcol j i hi, neg_zero]
        rfl
    · exact hcol i j hj

/-- On a box one held plane of nodes holds all nodes. -/
theorem box_held {F : Fem 8 nq nf nfq 3 3} {N : Fin 3 → ℕ} {L : Fin 3 → ℝ} (hbox : OnBox F N L) (hN : ∀ a, 0 < N a) (hL : ∀ a, 0 < L a) (Z : ℕ → Prop) (a : Fin 3) (s : ℕ) (hs : s ≤ N a)
    (h : ∀ m : Fin 3 → ℕ, (∀ b, m b ≤ N b) → m a = s → Z (gridNode N m)) (m : Fin 3 → ℕ) (hm : ∀ b, m b ≤ N b) : F.Held Z (gridNode N m) := by
  have h0 : ∀ m : Fin 3 → ℕ, (∀ b, m b ≤ N b) → m a = s → F.Held Z (gridNode N m) := fun m hm hma => .fixed _ (h m hm hma)
  have hup : ∀ k, s + k ≤ N a → ∀ m : Fin 3 → ℕ, (∀ b, m b ≤ N b) → m a = s + k → F.Held Z (gridNode N m) := by
    intro k
    induction k with
    | zero => exact fun _ => h0
    | succ k ih => exact fun hk => held_step hbox hN hL Z a (s + k) (s + (k + 1)) (by omega) hk (.inl rfl) (ih (by omega))
  have hdown : ∀ k, k ≤ s → ∀ m : Fin 3 → ℕ, (∀ b, m b ≤ N b) → m a = s - k → F.Held Z (gridNode N m) := by
    intro k
    induction k with
    | zero => exact fun _ => h0
    | succ k ih => exact fun hk => held_step hbox hN hL Z a (s - k) (s - (k + 1)) (by omega) (by omega) (.inr (by omega)) (ih (by omega))
  rcases le_total s (m a) with hle | hle
  · exact hup (m a - s) (by have := hm a; omega) m hm (by omega)
  · exact hdown (s - m a) (by omega) m hm (by omega)

/-- **C88 (elasticity).** The elastic stress is strictly monotone up to rotations, and linear. -/
theorem C88_elastic_strict (F : Fem nn nq nf nfq dim dim) (k : ℕ) (q : Fin nq) (A B : Fin dim → Fin dim → ℝ) :
    0 ≤ ∑ i, ∑ d, ((elasticFem F).stress k q A i d - (elasticFem F).stress k q B i d) * (A i d - B i d) ∧
    (∑ i, ∑ d, ((elasticFem F).stress k q A i d - (elasticFem F).stress k q B i d) * (A i d - B i d) = 0 → ∀ i j, A i j + A j i = B i j + B j i) := by
  have hlin : ∀ i d, (elasticFem F).stress k q A i d - (elasticFem F).stress k q B i d = elasticStress (Matrix.of fun i d => A i d - B i d) i d := by
    intro i d
    show elasticStress (Matrix.of A) i d - elasticStress (Matrix.of B) i d = _
    simp only [elasticStress_apply, Matrix.of_apply, Matrix.trace, Matrix.diag]
    rw [sum_sub_distrib]
    split_ifs <;> ring
  simp only [hlin]
  obtain ⟨-, h1, h2⟩ := C29_energy (Matrix.of fun i d => A i d - B i d) 0
  refine ⟨h1, fun h0 i j => ?_⟩
  have := congrFun (congrFun (h2.mp h0) i) j
  simp only [Matrix.transpose_apply, Matrix.neg_apply, Matrix.of_apply] at this
  linarith

theorem elastic_linear (F : Fem nn nq nf nfq dim dim) (hcauchy : F.cauchy = none) : (elasticFem F).Linear := by
  refine ⟨?_, ?_, ?_⟩
  · intro tm htm k q
    have : tm = fun _ _ g => elasticStress (Matrix.of g) := (Option.some.inj htm).symm
    subst this
    constructor
    · refine differentiable_pi.mpr fun i => differentiable_pi.mpr fun d => ?_
      simp only [elasticStress_apply, Matrix.of_apply, Matrix.trace, Matrix.diag]
      split_ifs <;> fun_prop
    · intro x y
      funext i d
      show elasticStress (Matrix.of (x + y)) i d + elasticStress (Matrix.of 0) i d = elasticStress (Matrix.of x) i d + elasticStress (Matrix.of y) i d
      simp only [Pi.add_apply, elasticStress_apply, Matrix.of_apply, Matrix.trace, Matrix.diag, Pi.zero_apply, sum_add_distrib, sum_const_zero]
      split_ifs <;> ring
  · intro mm hmm
    simp [elasticFem] at hmm
  · intro lv hlv
    have : (elasticFem F).cauchy = none := hcauchy
    simp [this, Fem.pairs] at hlv

theorem elastic_determined (F : Fem 8 (2 ^ 3) nf nfq 3 3) (N : Fin 3 → ℕ) (L : Fin 3 → ℝ) (hbox : OnBox F N L) (hnum : F.numTotal = (N 0 + 1) * (N 1 + 1) * (N 2 + 1)) (hN : ∀ a, 0 < N a)
    (hL : ∀ a, 0 < L a) (ht : CellTables F hex8 (gaussRule 3)) (hcauchy : F.cauchy = none) (pres : List (ℕ × ℝ)) (a : Fin 3) (s : ℕ) (hs : s ≤ N a)
    (hpres : ∀ m : Fin 3 → ℕ, (∀ b, m b ≤ N b) → m a = s → ∀ i : Fin 3, ¬ FreeAt pres (3 * gridNode N m + i)) : (elasticFem F).Determined pres := by
  have hbox' : OnBox (elasticFem F) N L := ⟨hbox.points, hbox.cells⟩
  have ht' : CellTables (elasticFem F) hex8 (gaussRule 3) := ⟨ht.vals, ht.grads, ht.weights⟩
  have hh : ∀ a, 0 < L a / N a := fun a => div_pos (hL a) (by exact_mod_cast hN a)
  have hnum' : (elasticFem F).numTotal = (N 0 + 1) * (N 1 + 1) * (N 2 + 1) := hnum
  have hmono : (elasticFem F).Monotone := by
    refine ⟨?_, ?_, fun k q A B => (C88_elastic_strict F k q A B).1, ?_, ?_⟩
    · intro c hc p
      obtain ⟨g, hg, rfl⟩ := (hbox'.mem_cells c).mp hc
      rw [hnum']
      rw [mem_boxGrid] at hg
      exact gridNode_lt N _ fun a => by have := hg a; have := hexCorner_le p a; omega
    · intro c hc q
      obtain ⟨g, hg, rfl⟩ := (hbox'.mem_cells c).mp hc
      rw [hbox'.JxW _ ht' g hg]
      exact mul_pos (prod_pos fun a _ => hh a) (gauss_w_pos 3 q)
    · intro k q a b
      simp [Fem.massAt, elasticFem]
    · intro lv hlv
      have : (elasticFem F).cauchy = none := hcauchy
      simp [this, Fem.pairs] at hlv
  have hrigid : (elasticFem F).RigidModes := by
    refine C88_rigid_hex8 _ ht' fun c hc => ?_
    obtain ⟨g, hg, rfl⟩ := (hbox'.mem_cells c).mp hc
    refine ⟨fun a => g a * (L a / N a), fun a => L a / N a, fun a => (hh a).ne', fun p a => ?_⟩
    rw [hbox'.corner g hg]
    push_cast
    ring
  intro u v Ru Rv hu hv hfix hfree n hn i
  refine C88_unique (elasticFem F) hmono (fun k q A B => (C88_elastic_strict F k q A B).2) hrigid (fun n i => n < (elasticFem F).numTotal ∧ ¬ FreeAt pres (3 * n + i)) (fun n hn => ?_) u v Ru Rv hu hv
    (fun n i h => hfix n h.1 i h.2) (fun n hn i h => ?_) n hn i
  · rw [hnum'] at hn
    obtain ⟨m, hm, rfl⟩ := gridNode_surj N n hn
    refine box_held hbox' hN hL _ a s hs (fun m hm hma i => ⟨?_, hpres m hm hma i⟩) m hm
    rw [hnum']
    exact gridNode_lt N m hm
  · refine hfree n hn i ?_
    by_contra hne
    exact h ⟨hn, hne⟩

/-- **C88 (whole program).** `LinearElasticity` on a `box_mesh` of HEX8 cells with the 2x2x2 rule, any loads, and boundary conditions whose triples prescribe all three components at the nodes of at
least one grid plane (usually a side): exact linear solvers exist, and with every one of them `solver` returns the one and only discrete solution. -/
theorem C88_solution (F : Fem 8 (2 ^ 3) nf nfq 3 3) (N : Fin 3 → ℕ) (L : Fin 3 → ℝ) (hbox : OnBox F N L) (hnum : F.numTotal = (N 0 + 1) * (N 1 + 1) * (N 2 + 1)) (hN : ∀ a, 0 < N a)
    (hL : ∀ a, 0 < L a) (ht : CellTables F hex8 (gaussRule 3)) (hcauchy : F.cauchy = none) (h0 : ∃ s R, (elasticFem F).computeResidual s = .ok R)
    (locs : List (Loc 3)) (vecs : List ℕ) (vals : List ((Fin 3 → ℝ) → ℝ)) (hv : ∀ v ∈ vecs, v < 3) (a : Fin 3) (s : ℕ) (hs : s ≤ N a)
    (hcover : ∀ m : Fin 3 → ℕ, (∀ b, m b ≤ N b) → m a = s → ∀ i : Fin 3, ∃ t ∈ locs.zip (vecs.zip vals), t.1 (F.points (gridNode N m)) = true ∧ t.2.1 = i)
    (ns cs : List (List ℕ)) (ws : List (List ℝ)) (hbc : dirichletBC F.numTotal F.points (some (locs, vecs, vals)) = .ok (ns, cs, ws)) (usePetsc : Bool) :
    (∃ lin, ((elasticFem F).toProb (groupsOf ns cs ws)).ExactFor usePetsc lin) ∧
    ∀ lin, ((elasticFem F).toProb (groupsOf ns cs ws)).ExactFor usePetsc lin → ∀ (precond : Bool) (guess : Option (ℕ → ℝ)) (fuel : ℕ),
      ∃ u, ((elasticFem F).toProb (groupsOf ns cs ws)).rowSolver realArith lin true precond usePetsc guess fuel = .ok u ∧
        (elasticFem F).Solves ((elasticFem F).toProb (groupsOf ns cs ws)).prescriptions (fun n i => u (3 * n + i)) ∧
        ∀ w, (elasticFem F).Solves ((elasticFem F).toProb (groupsOf ns cs ws)).prescriptions w → ∀ n < F.numTotal, ∀ i : Fin 3, u (3 * n + i) = w n i := by
  have hwf := C19_groups_wf ((elasticFem F).toProb (groupsOf ns cs ws)) (show 0 < 3 by decide) F.numTotal F.points locs vecs vals ns cs ws hbc rfl
  have hbox' : OnBox (elasticFem F) N L := ⟨hbox.points, hbox.cells⟩
  have hdet := elastic_determined F N L hbox hnum hN hL ht hcauchy ((elasticFem F).toProb (groupsOf ns cs ws)).prescriptions a s hs fun m hm hma i hf => by
    obtain ⟨t, h1, h2⟩ := hcover m hm hma i
    exact (user_prescriptions ((elasticFem F).toProb (groupsOf ns cs ws)) F.points locs vecs vals hv ns cs ws hbc rfl (gridNode N m) i (by
      show gridNode N m < F.numTotal
      rw [hnum]
      exact gridNode_lt N m hm) i.isLt).1.mp hf t h1 h2
  refine C87_solution (elasticFem F) (elastic_linear F hcauchy) _ hwf ?_ h0 hdet usePetsc
  intro c hc p
  obtain ⟨g, hg, rfl⟩ := (hbox'.mem_cells c).mp hc
  show boxCell N g p < F.numTotal
  rw [hnum]
  rw [mem_boxGrid] at hg
  exact gridNode_lt N _ fun a => by have := hg a; have := hexCorner_le p a; omega

/-- **C88 (bars under tractions).** The same body with tractions `T·n` on the sides of a list, `T` the elastic stress of the gradient `A`, and the affine displacement `A x + b` prescribed on all other
sides, at least one: every exact linear solver makes `solver` return the displacement `A x + b` at all nodes, whatever the mesh. -/
theorem C88_bar (F : Fem 8 (2 ^ 3) 6 (2 ^ 2) 3 3) (N : Fin 3 → ℕ) (L : Fin 3 → ℝ) (hbox : OnBox F N L) (hnum : F.numTotal = (N 0 + 1) * (N 1 + 1) * (N 2 + 1)) (hN : ∀ a, 0 < N a)
    (hL : ∀ a, 0 < L a) (ht : CellTables F hex8 (gaussRule 3)) (hft : FaceTables F hex8 (gaussRule 2)) (hsrc : F.source = none) (hbody : F.bodyVar = none) (hcauchy : F.cauchy = none)
    (A : Fin 3 → Fin 3 → ℝ) (b : Fin 3 → ℝ) (sides : List (Fin 3 × Bool)) (hnd : sides.Nodup) (loc : Fin 3 × Bool → Loc 3)
    (hloc : ∀ s ∈ sides, ∀ m : Fin 3 → ℕ, (∀ b, m b ≤ N b) → (loc s (F.points (gridNode N m)) = true ↔ m s.1 = sidePlane N s))
    (hneu : F.neumann = some (sides.map loc, sides.map fun s _ _ _ i => if s.2 then elasticStress (Matrix.of A) i s.1 else -elasticStress (Matrix.of A) i s.1))
    (locs : List (Loc 3)) (vecs : List ℕ) (vals : List ((Fin 3 → ℝ) → ℝ)) (hv : ∀ v ∈ vecs, v < 3)
    (hvals : ∀ t ∈ locs.zip (vecs.zip vals), ∀ i : Fin 3, t.2.1 = i → ∀ x, t.2.2 x = ∑ d, A i d * x d + b i)
    (hcover : ∀ s, s ∉ sides → ∀ m : Fin 3 → ℕ, (∀ b, m b ≤ N b) → m s.1 = sidePlane N s → ∀ i : Fin 3, ∃ t ∈ locs.zip (vecs.zip vals), t.1 (F.points (gridNode N m)) = true ∧ t.2.1 = i)
    (hone : ∃ s, s ∉ sides)
    (ns cs : List (List ℕ)) (ws : List (List ℝ)) (hbc : dirichletBC F.numTotal F.points (some (locs, vecs, vals)) = .ok (ns, cs, ws)) (usePetsc : Bool) :
    (∃ lin, ((elasticFem F).toProb (groupsOf ns cs ws)).ExactFor usePetsc lin) ∧
    ∀ lin, ((elasticFem F).toProb (groupsOf ns cs ws)).ExactFor usePetsc lin → ∀ (precond : Bool) (guess : Option (ℕ → ℝ)) (fuel : ℕ),
      ∃ u, ((elasticFem F).toProb (groupsOf ns cs ws)).rowSolver realArith lin true precond usePetsc guess fuel = .ok u ∧
        ∀ n < F.numTotal, ∀ i : Fin 3, u (3 * n + i) = ∑ d, A i d * F.points n d + b i := by
  have hbox' : OnBox (elasticFem F) N L := ⟨hbox.points, hbox.cells⟩
  have ht' : CellTables (elasticFem F) hex8 (gaussRule 3) := ⟨ht.vals, ht.grads, ht.weights⟩
  have hft' : FaceTables (elasticFem F) hex8 (gaussRule 2) := ⟨hft.vals, hft.grads, hft.weights, hft.normals, hft.inds⟩
  have hret : ∀ u, ∃ R, (elasticFem F).computeResidual u = .ok R := by
    intro u
    refine (C13_returns _ u).mpr ⟨?_, fun m hm => by simp [elasticFem] at hm, fun m hm => by simp [elasticFem] at hm, fun lv hlv => ?_, fun lv hlv => ?_⟩
    · intro hnil
      have := (hbox'.mem_cells (boxCell N fun _ => 0)).mpr ⟨_, (mem_boxGrid _ _).mpr fun a => hN a, rfl⟩
      rw [hnil] at this
      simp at this
    · have : (elasticFem F).cauchy = none := hcauchy
      rw [this] at hlv
      simp at hlv
    · have h1 : (elasticFem F).neumann = _ := hneu
      rw [h1] at hlv
      injection hlv with hlv
      subst hlv
      refine ⟨by simp, fun l _ p hp q => ?_⟩
      obtain ⟨g, hg, hpg⟩ := (hbox'.mem_cells p.1).mp (selected_mem _ hp)
      rw [hpg, hbox'.faceJacobian _ hft' g hg, Matrix.det_diagonal]
      exact prod_ne_zero_iff.mpr fun b _ => div_ne_zero (hL b).ne' (by exact_mod_cast (hN b).ne')
  obtain ⟨s0, hs0⟩ := hone
  obtain ⟨h1, h2⟩ := C88_solution F N L hbox hnum hN hL ht hcauchy ⟨0, hret 0⟩ locs vecs vals hv s0.1 (sidePlane N s0) (by unfold sidePlane; split_ifs <;> omega) (hcover s0 hs0) ns cs ws hbc usePetsc
  refine ⟨h1, fun lin hlin precond guess fuel => ?_⟩
  obtain ⟨u, hu, -, huniq⟩ := h2 lin hlin precond guess fuel
  refine ⟨u, hu, fun n hn i => huniq (fun n i => ∑ d, A i d * F.points n d + b i) ?_ n hn i⟩
  obtain ⟨R, hR⟩ := hret fun n i => ∑ d, A i d * F.points n d + b i
  have hpres := fun n c hn hc => user_prescriptions ((elasticFem F).toProb (groupsOf ns cs ws)) F.points locs vecs vals hv ns cs ws hbc rfl n c hn hc
  refine ⟨R, hR, fun n hn i => ⟨fun v hl => ?_, fun hf => ?_⟩⟩
  · obtain ⟨t, htm, ⟨l₁, l₂, -, hc, -⟩, rfl⟩ := (hpres n i hn i.isLt).2 v hl
    exact (hvals t htm i hc.2 _).symm
  · have hn' : n < F.numTotal := hn
    rw [hnum] at hn'
    obtain ⟨m, hm, rfl⟩ := gridNode_surj N n hn'
    refine C85_patch_traction (elasticFem F) N L hbox' hN hL ht' hft' rfl hsrc hbody hcauchy A (elasticStress (Matrix.of A)) b (fun k q => rfl) sides hnd loc hloc hneu _ R (fun _ _ _ _ => rfl) hR m hm
      (fun s hms => ?_) i
    by_contra hns
    obtain ⟨t, h3, h4⟩ := hcover s hns m hm hms i
    exact (hpres _ i hn i.isLt).1.mp hf t h3 h4

/-- The gradient of the tension test: elongation `1e-3`, lateral contraction `0.3e-3`. -/
noncomputable def tensionGrad : Fin 3 → Fin 3 → ℝ := fun i d => if i = d then ![-3e-4, -3e-4, 1e-3] i else 0

theorem tension_stress (i d : Fin 3) : elasticStress (Matrix.of tensionGrad) i d = if i = 2 ∧ d = 2 then 70 else 0 := by
  rw [elasticStress_apply, Matrix.trace_fin_three]
  fin_cases i <;> fin_cases d <;> simp [tensionGrad, lame, shearMod, Matrix.of_apply] <;> norm_num

/-- The five loaded sides of the tension test and their location functions; the lower side `z = 0` is left. -/
def tensionSides : List (Fin 3 × Bool) := [(0, true), (0, false), (1, true), (1, false), (2, true)]
/-- Location functions of the usual kind for the box 4x3x6. -/
noncomputable def tensionLoc : Fin 3 × Bool → Loc 3 := fun s x => if s.2 then decide (![4, 3, 6] s.1 - 1 / 100 < x s.1) else decide (x s.1 < 1 / 100)

/-- Tension test: the bar 4x3x6 with 2x1x3 cells, pulled with 70 at the upper side (the four lateral sides are loaded with zero), lower side moved as in the exact solution. -/
noncomputable def tensionExample : Fem 8 8 6 4 3 3 :=
  { boxExample with neumann := some (tensionSides.map tensionLoc, tensionSides.map fun s _ _ _ i => if s.2 then elasticStress (Matrix.of tensionGrad) i s.1 else -elasticStress (Matrix.of tensionGrad) i s.1) }

/-- All hypotheses hold; the upper corner, node 23, moves by `(-0.0012, -0.0009, 0.006)`. -/
example : ∃ ns cs ws, dirichletBC 24 tensionExample.points (some (List.replicate 3 (tensionLoc (2, false)), [0, 1, 2], [fun x => -3e-4 * x 0, fun x => -3e-4 * x 1, fun x => 1e-3 * x 2])) = .ok (ns, cs, ws) ∧
    (∃ lin, ((elasticFem tensionExample).toProb (groupsOf ns cs ws)).ExactFor false lin) ∧
    ∀ lin, ((elasticFem tensionExample).toProb (groupsOf ns cs ws)).ExactFor false lin →
      ∃ u, ((elasticFem tensionExample).toProb (groupsOf ns cs ws)).rowSolver realArith lin true true false none 0 = .ok u ∧ u 69 = -0.0012 ∧ u 70 = -0.0009 ∧ u 71 = 0.006 := by
  have hbox : OnBox tensionExample ![2, 1, 3] ![4, 3, 6] := ⟨rfl, rfl⟩
  have ht : CellTables tensionExample hex8 (gaussRule 3) := ⟨fun _ _ => rfl, fun _ _ _ => rfl, fun _ => rfl⟩
  have hft : FaceTables tensionExample hex8 (gaussRule 2) := by
    have h := ofElement_hex8_face (vec := 3) (gaussRule 3) (gaussRule 2) 24 (Verif.Mesh.boxMesh 2 1 3 (4 : ℝ) 3 6).points.get (Verif.Mesh.boxMesh 2 1 3 (4 : ℝ) 3 6).cells.toList
    exact ⟨h.vals, h.grads, h.weights, h.normals, h.inds⟩
  have hN : ∀ a, 0 < (![2, 1, 3] : Fin 3 → ℕ) a := by decide
  have hL : ∀ a, 0 < (![4, 3, 6] : Fin 3 → ℝ) a := by intro a; fin_cases a <;> norm_num
  have hloc : ∀ s, ∀ m : Fin 3 → ℕ, (∀ b, m b ≤ (![2, 1, 3] : Fin 3 → ℕ) b) → (tensionLoc s (tensionExample.points (gridNode ![2, 1, 3] m)) = true ↔ m s.1 = sidePlane ![2, 1, 3] s) := by
    rintro ⟨a, s⟩ m hm
    have h2 := hm a
    simp only [tensionLoc, sidePlane, hbox.point m hm]
    fin_cases a <;> cases s <;> simp at h2 ⊢ <;> first | (interval_cases m 0 <;> norm_num) | (interval_cases m 1 <;> norm_num) | (interval_cases m 2 <;> norm_num)
  obtain ⟨⟨ns, cs, ws⟩, hbc⟩ := (C17_accepted 24 tensionExample.points (List.replicate 3 (tensionLoc (2, false))) [0, 1, 2] [fun x => -3e-4 * x 0, fun x => -3e-4 * x 1, fun x => 1e-3 * x 2]).1.mpr ⟨rfl, rfl⟩
  obtain ⟨h1, h2⟩ := C88_bar tensionExample ![2, 1, 3] ![4, 3, 6] hbox rfl hN hL ht hft rfl rfl rfl tensionGrad 0 tensionSides (by decide) tensionLoc (fun s _ => hloc s) rfl
    (List.replicate 3 (tensionLoc (2, false))) [0, 1, 2] [fun x => -3e-4 * x 0, fun x => -3e-4 * x 1, fun x => 1e-3 * x 2] (by decide)
    (fun t htm i hi x => by
      simp only [List.replicate, List.zip_cons_cons, List.zip_nil_right, List.mem_cons, List.not_mem_nil, or_false] at htm
      rcases htm with rfl | rfl | rfl
      · obtain rfl : i = 0 := Fin.ext hi.symm
        simp [tensionGrad, Fin.sum_univ_three]
      · obtain rfl : i = 1 := Fin.ext hi.symm
        simp [tensionGrad, Fin.sum_univ_three]
      · obtain rfl : i = 2 := Fin.ext hi.symm
        simp [tensionGrad, Fin.sum_univ_three])
    (fun s hs m hm hms i => by
      obtain rfl : s = (2, false) := (show ∀ s : Fin 3 × Bool, s ∉ tensionSides → s = (2, false) by decide) s hs
      have hb := (hloc (2, false) m hm).mpr hms
      fin_cases i
      · exact ⟨(tensionLoc (2, false), 0, _), List.mem_cons_self, hb, rfl⟩
      · exact ⟨(tensionLoc (2, false), 1, _), List.mem_cons_of_mem _ List.mem_cons_self, hb, rfl⟩
      · exact ⟨(tensionLoc (2, false), 2, _), List.mem_cons_of_mem _ (List.mem_cons_of_mem _ List.mem_cons_self), hb, rfl⟩)
    ⟨(2, false), by decide⟩ ns cs ws hbc false
  refine ⟨ns, cs, ws, hbc, h1, fun lin hlin => ?_⟩
  obtain ⟨u, hu, huv⟩ := h2 lin hlin true none 0
  have h4 := hbox.point ![2, 1, 3] (by decide)
  rw [show gridNode ![2, 1, 3] ![2, 1, 3] = 23 by decide] at h4
  have e0 := huv 23 (show 23 < 24 by decide) 0
  have e1 := huv 23 (show 23 < 24 by decide) 1
  have e2 := huv 23 (show 23 < 24 by decide) 2
  simp only [h4, Fin.sum_univ_three] at e0 e1 e2
  refine ⟨u, hu, ?_, ?_, ?_⟩
  · refine Eq.trans e0 ?_
    simp [tensionGrad]
    norm_num
  · refine Eq.trans e1 ?_
    simp [tensionGrad]
    norm_num
  · refine Eq.trans e2 ?_
    simp [tensionGrad]
    norm_num

end Verif.Fem
