import Verif.Fem.MultiScaleProps

/-!
# C121: periodic fluctuations on the box and the effective stress
-/
namespace Verif.Fem
open Finset Matrix

variable {nq nf nfq vec : ℕ}

/-- Specification: values on the grid nodes of the box that agree on opposite faces. -/
def Periodic3 {V : Type*} (N : Fin 3 → ℕ) (u : ℕ → V) : Prop :=
  ∀ (a : Fin 3) (m : Fin 3 → ℕ), (∀ b, m b ≤ N b) → m a = 0 → u (gridNode N m) = u (gridNode N (Function.update m a (N a)))

theorem sum_boxGrid {V : Type*} [AddCommMonoid V] (N : Fin 3 → ℕ) (G : (Fin 3 → ℕ) → V) :
    ∑ g ∈ boxGrid N, G g = ∑ x ∈ range (N 0), ∑ y ∈ range (N 1), ∑ z ∈ range (N 2), G ![x, y, z] := by
  rw [← sum_product', ← sum_product']
  refine sum_bij' (fun g _ => ((g 0, g 1), g 2)) (fun p _ => ![p.1.1, p.1.2, p.2]) ?_ ?_ ?_ ?_ ?_
  · intro g hg
    rw [mem_boxGrid] at hg
    simp [hg 0, hg 1, hg 2]
  · intro p hp
    simp only [mem_product, mem_range] at hp
    rw [mem_boxGrid]
    intro a
    fin_cases a
    · exact hp.1.1
    · exact hp.1.2
    · exact hp.2
  · intro g _
    funext a
    fin_cases a <;> rfl
  · intro p _
    rfl
  · intro g _
    congr 1
    funext a
    fin_cases a <;> rfl

theorem shift_sum {V : Type*} [AddCommGroup V] (n : ℕ) (f : ℕ → V) (h : f 0 = f n) : ∑ x ∈ range n, f (x + 1) = ∑ x ∈ range n, f x := by
  have h1 := sum_range_succ f n
  rw [sum_range_succ', h] at h1
  exact add_right_cancel h1

/-- The sum over all cells of a corner value does not depend on the corner. -/
theorem periodic_sum {V : Type*} [AddCommGroup V] (N : Fin 3 → ℕ) (u : ℕ → V) (hu : Periodic3 N u) (p : Fin 8) :
    ∑ g ∈ boxGrid N, u (boxCell N g p) = ∑ g ∈ boxGrid N, u (gridNode N g) := by
  have key : ∀ e : Fin 3 → ℕ, (∀ a, e a ≤ 1) → ∑ g ∈ boxGrid N, u (gridNode N fun a => g a + e a) = ∑ g ∈ boxGrid N, u (gridNode N g) := by
    intro e he
    rw [sum_boxGrid, sum_boxGrid]
    have hv : ∀ x y z : ℕ, (fun a => (![x, y, z] : Fin 3 → ℕ) a + e a) = ![x + e 0, y + e 1, z + e 2] := by
      intro x y z
      funext a
      fin_cases a <;> rfl
    simp only [hv]
    have hx : ∀ y ≤ N 1, ∀ z ≤ N 2, u (gridNode N ![0, y, z]) = u (gridNode N ![N 0, y, z]) := by
      intro y hy z hz
      have h := hu 0 ![0, y, z] (by intro b; fin_cases b; exacts [Nat.zero_le _, hy, hz]) rfl
      rw [h]
      congr 2
      funext a
      fin_cases a <;> simp [Function.update]
    have hy : ∀ x ≤ N 0, ∀ z ≤ N 2, u (gridNode N ![x, 0, z]) = u (gridNode N ![x, N 1, z]) := by
      intro x hx z hz
      have h := hu 1 ![x, 0, z] (by intro b; fin_cases b; exacts [hx, Nat.zero_le _, hz]) rfl
      rw [h]
      congr 2
      funext a
      fin_cases a <;> simp [Function.update]
    have hz : ∀ x ≤ N 0, ∀ y ≤ N 1, u (gridNode N ![x, y, 0]) = u (gridNode N ![x, y, N 2]) := by
      intro x hx y hy
      have h := hu 2 ![x, y, 0] (by intro b; fin_cases b; exacts [hx, hy, Nat.zero_le _]) rfl
      rw [h]
      congr 2
      funext a
      fin_cases a <;> simp [Function.update]
    have s2 : ∀ x ≤ N 0, ∀ y ≤ N 1, ∑ z ∈ range (N 2), u (gridNode N ![x, y, z + e 2]) = ∑ z ∈ range (N 2), u (gridNode N ![x, y, z]) := by
      intro x hx' y hy'
      rcases Nat.le_one_iff_eq_zero_or_eq_one.mp (he 2) with h | h
      · simp only [h, add_zero]
      · simp only [h]
        exact shift_sum (N 2) (fun z => u (gridNode N ![x, y, z])) (hz x hx' y hy')
    have s1 : ∀ x ≤ N 0, ∑ y ∈ range (N 1), ∑ z ∈ range (N 2), u (gridNode N ![x, y + e 1, z + e 2]) = ∑ y ∈ range (N 1), ∑ z ∈ range (N 2), u (gridNode N ![x, y, z]) := by
      intro x hx'
      have h1 := he 1
      rw [sum_congr rfl fun y hy' => s2 x hx' (y + e 1) (by have := mem_range.mp hy'; omega)]
      rcases Nat.le_one_iff_eq_zero_or_eq_one.mp (he 1) with h | h
      · simp only [h, add_zero]
      · simp only [h]
        refine shift_sum (N 1) (fun y => ∑ z ∈ range (N 2), u (gridNode N ![x, y, z])) (sum_congr rfl fun z hz' => hy x hx' z (mem_range.mp hz').le)
    have h0 := he 0
    rw [sum_congr rfl fun x hx' => s1 (x + e 0) (by have := mem_range.mp hx'; omega)]
    rcases Nat.le_one_iff_eq_zero_or_eq_one.mp (he 0) with h | h
    · simp only [h, add_zero]
    · simp only [h]
      exact shift_sum (N 0) (fun x => ∑ y ∈ range (N 1), ∑ z ∈ range (N 2), u (gridNode N ![x, y, z]))
        (sum_congr rfl fun y hy' => sum_congr rfl fun z hz' => hx y (mem_range.mp hy').le z (mem_range.mp hz').le)
  exact key (Verif.Mesh.hexCorner p) (hexCorner_le p)

/-- **C121 (no mean gradient).** On `box_mesh` with HEX8 and any quadrature rule, the integral of the gradient of every periodic nodal field is zero. -/
theorem C121_mean_gradient (F : Fem 8 nq nf nfq 3 vec) (N : Fin 3 → ℕ) (L : Fin 3 → ℝ) (h : OnBox F N L) (hN : ∀ a, 0 < N a) (hL : ∀ a, 0 < L a) (rule : QuadRule nq) (ht : CellTables F hex8 rule)
    (u : ℕ → Fin vec → ℝ) (hu : Periodic3 N u) (i : Fin vec) (d : Fin 3) : (F.cells.map fun c => ∑ q, F.gradAt u c q i d * F.JxW c q).sum = 0 := by
  rw [h.sum_cells, sum_comm]
  refine sum_eq_zero fun q _ => ?_
  have hsum : ∑ n, F.shapeGradsRef q n d = 0 :=
    (Tabulated.sums (F := F) (name := "HEX8") (by decide) getElements_hex8 (by decide) (pts := rule.pt) ⟨ht.vals, ht.grads⟩).1 q d
  have h1 : ∀ g ∈ boxGrid N, F.gradAt u (boxCell N g) q i d * F.JxW (boxCell N g) q =
      ∑ n, u (boxCell N g n) i * (F.shapeGradsRef q n d * ((L d / N d)⁻¹ * ((∏ a, (L a / N a)) * rule.w q))) := by
    intro g hg
    unfold Fem.gradAt
    rw [sum_mul]
    refine sum_congr rfl fun n _ => ?_
    rw [h.shapeGrad rule ht hN hL g hg, h.JxW rule ht g hg, ← ht.grads]
    ring
  rw [sum_congr rfl h1, sum_comm]
  have h2 : ∀ n : Fin 8, ∑ g ∈ boxGrid N, u (boxCell N g n) i * (F.shapeGradsRef q n d * ((L d / N d)⁻¹ * ((∏ a, (L a / N a)) * rule.w q))) =
      F.shapeGradsRef q n d * ((∑ g ∈ boxGrid N, u (gridNode N g) i) * ((L d / N d)⁻¹ * ((∏ a, (L a / N a)) * rule.w q))) := by
    intro n
    rw [← sum_mul, periodic_sum N (fun k => u k i) (fun a m hm h0 => congrFun (hu a m hm h0) i) n]
    ring
  rw [sum_congr rfl fun n _ => h2 n, ← sum_mul, hsum, zero_mul]

theorem box_volume (F : Fem 8 nq nf nfq 3 vec) (N : Fin 3 → ℕ) (L : Fin 3 → ℝ) (h : OnBox F N L) (hN : ∀ a, 0 < N a) (rule : QuadRule nq) (ht : CellTables F hex8 rule) (hw : ∑ q, rule.w q = 1) :
    (F.cells.map fun c => ∑ q, F.JxW c q).sum = ∏ a, L a := by
  rw [h.sum_cells]
  have h1 : ∀ g ∈ boxGrid N, ∑ q, F.JxW (boxCell N g) q = ∏ a, (L a / N a) := by
    intro g hg
    rw [sum_congr rfl fun q _ => h.JxW rule ht g hg q, ← mul_sum, hw, mul_one]
  rw [sum_congr rfl h1, sum_const]
  have hc : (boxGrid N).card = ∏ a, N a := by simp [boxGrid, Fintype.card_piFinset]
  rw [hc, nsmul_eq_mul, prod_div_distrib, Nat.cast_prod, mul_div_cancel₀]
  exact prod_ne_zero_iff.mpr fun a _ => by exact_mod_cast (hN a).ne'

/-- **C121 (average deformation).** For every periodic fluctuation, the volume average of the deformation gradient of the representative volume is `I + H_bar`. -/
theorem C121_average (s : Ms 8 nq nf nfq) (hmode : s.mode = .rve) (H : T33) (hH : s.hbar = some H) (N : Fin 3 → ℕ) (L : Fin 3 → ℝ) (h : OnBox s.fem N L) (hN : ∀ a, 0 < N a) (hL : ∀ a, 0 < L a)
    (rule : QuadRule nq) (ht : CellTables s.fem hex8 rule) (hw : ∑ q, rule.w q = 1) (fluc : ℕ → Fin 3 → ℝ) (hp : Periodic3 N fluc) (i j : Fin 3) :
    (s.fem.cells.map fun c => ∑ q, s.defGrad fluc c q i j * s.fem.JxW c q).sum / ∏ a, L a = ((1 : T33) + H) i j := by
  have h1 : ∀ c : Fin 8 → ℕ, ∑ q, s.defGrad fluc c q i j * s.fem.JxW c q = ((1 : T33) + H) i j * ∑ q, s.fem.JxW c q + ∑ q, s.fem.gradAt fluc c q i j * s.fem.JxW c q := by
    intro c
    rw [mul_sum, ← sum_add_distrib]
    refine sum_congr rfl fun q _ => ?_
    unfold Ms.defGrad
    rw [hmode, hH]
    show ((1 : T33) i j + s.fem.gradAt fluc c q i j + H i j) * _ = ((1 : T33) i j + H i j) * _ + _
    ring
  simp only [h1]
  rw [List.sum_map_add, List.sum_map_mul_left, C121_mean_gradient s.fem N L h hN hL rule ht fluc hp, box_volume s.fem N L h hN rule ht hw, add_zero, mul_div_assoc, div_self, mul_one]
  exact prod_ne_zero_iff.mpr fun a _ => (hL a).ne'

/-- Specification: the volume integral of the stress of the object (the effective first Piola-Kirchhoff stress times the volume). -/
noncomputable def totalStress {nn : ℕ} (F : Fem nn nq nf nfq 3 3) (sol : ℕ → Fin 3 → ℝ) : T33 :=
  Matrix.of fun i d => (F.cells.zipIdx.map fun p => ∑ q, F.stress p.2 q (F.gradAt sol p.1 q) i d * F.JxW p.1 q).sum

theorem list_sum_comm {α ι : Type*} (l : List α) (t : Finset ι) (f : α → ι → ℝ) : (l.map fun a => ∑ x ∈ t, f a x).sum = ∑ x ∈ t, (l.map fun a => f a x).sum := by
  induction l with
  | nil => simp
  | cons a l ih => simp only [List.map_cons, List.sum_cons, ih, sum_add_distrib]

theorem ddot_total {nn : ℕ} (F : Fem nn nq nf nfq 3 3) (sol : ℕ → Fin 3 → ℝ) (H : T33) :
    ddot (totalStress F sol) H = (F.cells.zipIdx.map fun p => ∑ q, (∑ i, ∑ d, F.stress p.2 q (F.gradAt sol p.1 q) i d * H i d) * F.JxW p.1 q).sum := by
  unfold ddot totalStress
  simp only [Matrix.of_apply]
  have h1 : ∀ i d, (F.cells.zipIdx.map fun p => ∑ q, F.stress p.2 q (F.gradAt sol p.1 q) i d * F.JxW p.1 q).sum * H i d =
      (F.cells.zipIdx.map fun p => ∑ q, F.stress p.2 q (F.gradAt sol p.1 q) i d * H i d * F.JxW p.1 q).sum := by
    intro i d
    rw [← List.sum_map_mul_right]
    refine congrArg List.sum (List.map_congr_left fun p _ => ?_)
    rw [sum_mul]
    exact sum_congr rfl fun q _ => by ring
  simp only [h1]
  simp only [← list_sum_comm]
  refine congrArg List.sum (List.map_congr_left fun p _ => ?_)
  simp only [sum_mul]
  rw [sum_comm]
  rw [sum_comm]
  simp only [sum_comm (s := (univ : Finset (Fin nq)))]

/-- The residual of an unloaded object does work on gradients only. -/
theorem Ms.work {nn : ℕ} (s : Ms nn nq nf nfq) (hs : s.Unloaded) (F : Fem nn nq nf nfq 3 3) (hF : s.asFem = .ok F) (sol R : ℕ → Fin 3 → ℝ) (hR : F.computeResidual sol = .ok R) (v : ℕ → Fin 3 → ℝ) :
    ∑ n ∈ range s.fem.numTotal, ∑ i, R n i * v n i =
      (F.cells.zipIdx.map fun p => ∑ q, (∑ i, ∑ d, F.stress p.2 q (F.gradAt sol p.1 q) i d * F.gradAt v p.1 q i d) * F.JxW p.1 q).sum := by
  obtain ⟨W, P, hW, hP, hg, tm, lr, hFe⟩ := s.density F hF
  have hwork := C71_virtual_work F (by rw [hFe]; exact hs.mesh) sol v R hR
  have e1 : F.massMap = none := by rw [hFe]; exact hs.mass
  have e2 : F.cauchy = none := by rw [hFe]; exact hs.cauchy
  have e3 : F.neumann = none := by rw [hFe]; exact hs.neumann
  have e4 : F.source = none := by rw [hFe]; exact hs.source
  have e5 : F.bodyVar = none := by rw [hFe]; exact hs.body
  have e6 : F.numTotal = s.fem.numTotal := by rw [hFe]
  have hm : ∀ k q u i, F.massAt k q u i = 0 := by intro k q u i; simp [Fem.massAt, e1]
  have hl : ∀ c q i, F.load c q i = 0 := by intro c q i; simp [Fem.load, e4, e5]
  simp only [e2, e3, hm, hl, Fem.pairs, Option.elim_none, List.map_nil, List.sum_nil, zero_mul, sum_const_zero, List.map_const', List.sum_replicate, smul_zero, add_zero, sub_zero, e6] at hwork
  exact hwork

/-- Specification: the fluctuation is in equilibrium among all periodic fields that vanish at the corner, as enforced by the Lagrange multipliers of `rve_problem`. -/
def Equilibrium (N : Fin 3 → ℕ) (M : ℕ) (R : ℕ → Fin 3 → ℝ) : Prop :=
  ∀ v : ℕ → Fin 3 → ℝ, Periodic3 N v → v (gridNode N 0) = 0 → ∑ n ∈ range M, ∑ i, R n i * v n i = 0

/-- **C121 (Hill-Mandel and effective stress).** At an equilibrium of the representative volume: the work of the stress on every macroscopic gradient plus every periodic field equals the work of the mean stress on the
macroscopic gradient; and the derivative of the energy stored as training data with respect to `H_bar`, in whatever way the periodic fluctuation follows, is the integral of the stress. -/
theorem C121_effective_stress (s : Ms 8 nq nf nfq) (hs : s.Unloaded) (hmode : s.mode = .rve) (H : T33) (hH : s.hbar = some H) (N : Fin 3 → ℕ) (L : Fin 3 → ℝ) (h : OnBox s.fem N L)
    (hN : ∀ a, 0 < N a) (hL : ∀ a, 0 < L a) (rule : QuadRule nq) (ht : CellTables s.fem hex8 rule) (fluc R : ℕ → Fin 3 → ℝ) (F : Fem 8 nq nf nfq 3 3) (hF : s.asFem = .ok F)
    (hR : F.computeResidual fluc = .ok R) (heq : Equilibrium N s.fem.numTotal R) (hadm : s.Admissible fluc) :
    (∀ (H' : T33) (v : ℕ → Fin 3 → ℝ), Periodic3 N v → (F.cells.zipIdx.map fun p => ∑ q, (∑ i, ∑ d, F.stress p.2 q (F.gradAt fluc p.1 q) i d * (H' i d + F.gradAt v p.1 q i d)) * F.JxW p.1 q).sum =
      ddot (totalStress F fluc) H') ∧
    ∃ W : T33 → (ℕ → Fin 3 → ℝ) → ℝ, (∀ K u, ({ s with hbar := some K } : Ms 8 nq nf nfq).computeEnergy u = .ok (W K u)) ∧
      ∀ (H' : T33) (v : ℕ → Fin 3 → ℝ), Periodic3 N v → HasDerivAt (fun t : ℝ => W (H + t • H') (fluc + t • v)) (ddot (totalStress F fluc) H') 0 := by
  obtain ⟨W, P, hW, hP, hg, tm, lr, hFe⟩ := s.density F hF
  have hgrad : ∀ u c q, F.gradAt u c q = s.fem.gradAt u c q := by intro u c q; rw [hFe]; rfl
  have hJ : ∀ c q, F.JxW c q = s.fem.JxW c q := by intro c q; rw [hFe]; rfl
  have hcells : F.cells = s.fem.cells := by rw [hFe]
  have hsum : ∀ q d, ∑ n, s.fem.shapeGradsRef q n d = 0 :=
    (Tabulated.sums (F := s.fem) (name := "HEX8") (by decide) getElements_hex8 (by decide) (pts := rule.pt) ⟨ht.vals, ht.grads⟩).1
  have hperp : ∀ v : ℕ → Fin 3 → ℝ, Periodic3 N v → ∑ n ∈ range s.fem.numTotal, ∑ i, R n i * v n i = 0 := by
    intro v hv
    set v' : ℕ → Fin 3 → ℝ := fun n i => v n i - v (gridNode N 0) i with hv'
    have h0 := heq v' (fun a m hm h0 => by rw [hv']; simp only [hv a m hm h0]) (by funext i; simp [hv'])
    have hc : ∑ n ∈ range s.fem.numTotal, ∑ i, R n i * v (gridNode N 0) i = 0 := by
      rw [s.work hs F hF fluc R hR fun _ => v (gridNode N 0)]
      have hz : ∀ c q i d, F.gradAt (fun _ => v (gridNode N 0)) c q i d = 0 := by
        intro c q i d
        rw [hgrad]
        unfold Fem.gradAt Fem.shapeGrad
        rw [← mul_sum, sum_comm]
        simp only [← sum_mul, hsum, zero_mul, sum_const_zero, mul_zero]
      simp [hz]
    have hsp : ∀ n i, R n i * v n i = R n i * v' n i + R n i * v (gridNode N 0) i := by intro n i; rw [hv']; ring
    simp only [hsp, sum_add_distrib]
    rw [h0, hc, add_zero]
  have hHM : ∀ (H' : T33) (v : ℕ → Fin 3 → ℝ), Periodic3 N v → (F.cells.zipIdx.map fun p => ∑ q, (∑ i, ∑ d, F.stress p.2 q (F.gradAt fluc p.1 q) i d * (H' i d + F.gradAt v p.1 q i d)) * F.JxW p.1 q).sum =
      ddot (totalStress F fluc) H' := by
    intro H' v hv
    have h0 := hperp v hv
    rw [s.work hs F hF fluc R hR v] at h0
    rw [ddot_total]
    refine Eq.trans ?_ (add_zero _)
    rw [← h0, ← List.sum_map_add]
    refine congrArg List.sum (List.map_congr_left fun p _ => ?_)
    rw [← sum_add_distrib]
    refine sum_congr rfl fun q _ => ?_
    rw [← add_mul]
    simp only [mul_add, sum_add_distrib]
  refine ⟨hHM, fun K u => (s.fem.cells.zipIdx.map fun p => ∑ q, msPsi (s.en p.2 q).1 (s.en p.2 q).2 (1 + Matrix.of (s.fem.gradAt u p.1 q) + K) * s.fem.JxW p.1 q).sum, fun K u => ?_, fun H' v hv => ?_⟩
  · simp only [Ms.computeEnergy, Ms.energyFn, hmode, bind, Except.bind, pure, Except.pure]
    refine congrArg _ (congrArg List.sum (List.map_congr_left fun p hp => sum_congr rfl fun q _ => ?_))
    rw [add_comm (1 : T33)]
    rfl
  · have hadm' : ∀ c ∈ s.fem.cells, ∀ q, 0 < (s.defGrad fluc c q).det := by
      unfold Ms.Admissible at hadm
      rw [hmode] at hadm
      exact hadm
    rw [← hHM H' v hv, hcells]
    refine hasDerivAt_list_sum _ (fun (p : (Fin 8 → ℕ) × ℕ) t => ∑ q, msPsi (s.en p.2 q).1 (s.en p.2 q).2 (1 + Matrix.of (s.fem.gradAt (fluc + t • v) p.1 q) + (H + t • H')) * s.fem.JxW p.1 q) _ 0 fun p hp => ?_
    refine HasDerivAt.fun_sum fun q _ => ?_
    rw [hJ]
    refine HasDerivAt.mul_const ?_ _
    have hdg : s.defGrad fluc p.1 q = 1 + Matrix.of (s.fem.gradAt fluc p.1 q) + H := by unfold Ms.defGrad; rw [hmode, hH]; rfl
    have hline : ∀ t : ℝ, 1 + Matrix.of (s.fem.gradAt (fluc + t • v) p.1 q) + (H + t • H') = s.defGrad fluc p.1 q + t • (H' + Matrix.of (s.fem.gradAt v p.1 q)) := by
      intro t
      rw [gradAt_add, gradAt_smul, hdg]
      ext i j
      simp only [Matrix.add_apply, Matrix.of_apply, Pi.add_apply, Matrix.smul_apply, Pi.smul_apply, smul_eq_mul]
      ring
    simp only [hline]
    have hst : ∀ i d, F.stress p.2 q (s.fem.gradAt fluc p.1 q) i d = gradOf (msPsi (s.en p.2 q).1 (s.en p.2 q).2) (s.defGrad fluc p.1 q) i d := by
      intro i d
      have hF' := hF
      simp only [Ms.asFem, Ms.stressFn, hmode, hH, bind, Except.bind, pure, Except.pure, Except.ok.injEq] at hF'
      rw [hdg, add_comm (1 : T33)]
      subst hF'
      rfl
    have hd := msPsi_grad (s.en p.2 q).1 (s.en p.2 q).2 _ (hadm' p.1 (zipIdx_mem hp) q)
    have e := hd.eq
    rw [← e] at hd
    have h2 := hd (H' + Matrix.of (s.fem.gradAt v p.1 q))
    simp only [hgrad, hst]
    exact h2

theorem sum_zipIdx_fst {α : Type*} (l : List α) (f : α → ℝ) : (l.zipIdx.map fun p => f p.1).sum = (l.map f).sum := by
  have : (l.zipIdx.map fun p => f p.1) = (l.zipIdx.map Prod.fst).map f := by rw [List.map_map]; rfl
  rw [this, List.zipIdx_map_fst]

/-- **C121 (homogeneous cell).** If the inclusion and the matrix have the same moduli, then for every `H_bar` with positive determinant of `I + H_bar` the zero fluctuation is admissible and in equilibrium, the stored energy is
the volume times the energy density at `I + H_bar` and the integral of the stress is the volume times the stress there. -/
theorem C121_homogeneous (s : Ms 8 nq nf nfq) (hs : s.Unloaded) (hmode : s.mode = .rve) (H : T33) (hH : s.hbar = some H) (N : Fin 3 → ℕ) (L : Fin 3 → ℝ) (h : OnBox s.fem N L)
    (hN : ∀ a, 0 < N a) (hL : ∀ a, 0 < L a) (rule : QuadRule nq) (ht : CellTables s.fem hex8 rule) (hw : ∑ q, rule.w q = 1) (E nu : ℝ) (hen : ∀ p ∈ s.fem.cells.zipIdx, ∀ q, s.en p.2 q = (E, nu))
    (F : Fem 8 nq nf nfq 3 3) (hF : s.asFem = .ok F) (R : ℕ → Fin 3 → ℝ) (hR : F.computeResidual 0 = .ok R) (hdet : 0 < (1 + H).det) :
    s.Admissible 0 ∧ Equilibrium N s.fem.numTotal R ∧ s.computeEnergy 0 = .ok ((∏ a, L a) * msPsi E nu (1 + H)) ∧
      totalStress F 0 = (∏ a, L a) • neoStress (E / (2 * (1 + nu))) (E / (3 * (1 - 2 * nu))) (1 + H) := by
  have hF' := hF
  simp only [Ms.asFem, Ms.stressFn, hmode, hH, bind, Except.bind, pure, Except.pure, Except.ok.injEq] at hF'
  have hz : ∀ c q, s.fem.gradAt 0 c q = 0 := by
    intro c q
    funext i d
    simp [Fem.gradAt]
  have hgrad : ∀ u c q, F.gradAt u c q = s.fem.gradAt u c q := by intro u c q; rw [← hF']; rfl
  have hJ : ∀ c q, F.JxW c q = s.fem.JxW c q := by intro c q; rw [← hF']; rfl
  have hcells : F.cells = s.fem.cells := by rw [← hF']
  have hst : ∀ p ∈ s.fem.cells.zipIdx, ∀ q i d, F.stress p.2 q (F.gradAt 0 p.1 q) i d = neoStress (E / (2 * (1 + nu))) (E / (3 * (1 - 2 * nu))) (1 + H) i d := by
    intro p hp q i d
    rw [hgrad, hz]
    have e : F.stress p.2 q 0 i d = gradOf (msPsi (s.en p.2 q).1 (s.en p.2 q).2) (Matrix.of 0 + 1 + H) i d := by rw [← hF']; rfl
    rw [e, hen p hp q, show (Matrix.of (0 : Fin 3 → Fin 3 → ℝ) : T33) = 0 from rfl, zero_add, (msPsi_grad E nu _ hdet).eq]
  have hvol := box_volume s.fem N L h hN rule ht hw
  refine ⟨?_, fun v hv _ => ?_, ?_, ?_⟩
  · unfold Ms.Admissible
    rw [hmode]
    intro c _ q
    unfold Ms.defGrad
    rw [hz, hmode, hH]
    simpa [show (Matrix.of (0 : Fin 3 → Fin 3 → ℝ) : T33) = 0 from rfl] using hdet
  · rw [s.work hs F hF 0 R hR v, hcells]
    have e1 : (s.fem.cells.zipIdx.map fun p => ∑ q, (∑ i, ∑ d, F.stress p.2 q (F.gradAt 0 p.1 q) i d * F.gradAt v p.1 q i d) * F.JxW p.1 q).sum =
        ∑ i, ∑ d, neoStress (E / (2 * (1 + nu))) (E / (3 * (1 - 2 * nu))) (1 + H) i d * (s.fem.cells.map fun c => ∑ q, s.fem.gradAt v c q i d * s.fem.JxW c q).sum := by
      simp only [← List.sum_map_mul_left, ← list_sum_comm, ← sum_zipIdx_fst s.fem.cells]
      refine congrArg List.sum (List.map_congr_left fun p hp => ?_)
      simp only [hst p hp]
      simp only [hgrad, hJ, sum_mul, mul_sum, mul_assoc]
      rw [sum_comm]
      refine sum_congr rfl fun i _ => sum_comm
    rw [e1]
    simp only [C121_mean_gradient s.fem N L h hN hL rule ht v hv, mul_zero, sum_const_zero]
  · simp only [Ms.computeEnergy, Ms.energyFn, hmode, hH, bind, Except.bind, pure, Except.pure]
    congr 1
    rw [← hvol, mul_comm, ← List.sum_map_mul_left, ← sum_zipIdx_fst s.fem.cells]
    refine congrArg List.sum (List.map_congr_left fun p hp => ?_)
    rw [mul_sum]
    refine sum_congr rfl fun q _ => ?_
    rw [hen p hp q]
    congr 2
    ext i j
    simp [Matrix.one_apply]
  · ext i d
    unfold totalStress
    rw [Matrix.of_apply, Matrix.smul_apply, smul_eq_mul, hcells, ← hvol, mul_comm, ← List.sum_map_mul_left, ← sum_zipIdx_fst s.fem.cells]
    refine congrArg List.sum (List.map_congr_left fun p hp => ?_)
    rw [mul_sum]
    refine sum_congr rfl fun q _ => ?_
    rw [hst p hp, hJ]

/-- The hypotheses hold on the 2x1x3 mesh of the box 4x3x6 with the rules of basix; for the stretch `H = diag(1, 0, 0)` with `E = 1`, `nu = 0` the stored energy is `72 psi`. -/
example : ∃ (s : Ms 8 8 6 4) (F : Fem 8 8 6 4 3 3) (R : ℕ → Fin 3 → ℝ), s.Unloaded ∧ s.mode = .rve ∧ s.asFem = .ok F ∧ F.computeResidual 0 = .ok R ∧ Equilibrium ![2, 1, 3] s.fem.numTotal R ∧ s.Admissible 0 ∧
    s.computeEnergy 0 = .ok (72 * msPsi 1 0 (Matrix.diagonal ![2, 1, 1])) ∧ totalStress F 0 = (72 : ℝ) • neoStress (1 / 2) (1 / 3) (Matrix.diagonal ![2, 1, 1]) := by
  set H : T33 := Matrix.diagonal ![1, 0, 0] with hH
  set s : Ms 8 8 6 4 := ⟨boxExample, .rve, some H, boxExample.cells.map fun _ _ => (1, 0), fun _ => 0⟩ with hs
  have hmem : ∀ c ∈ boxExample.cells, ∃ g ∈ boxGrid ![2, 1, 3], c = boxCell ![2, 1, 3] g := fun c hc => (boxExample_onBox.mem_cells c).mp hc
  have hN : ∀ a : Fin 3, 0 < (![2, 1, 3] : Fin 3 → ℕ) a := by decide
  have hL : ∀ a : Fin 3, 0 < (![4, 3, 6] : Fin 3 → ℝ) a := by intro a; fin_cases a <;> norm_num
  have hu : s.Unloaded := ⟨fun c hc a => by
    obtain ⟨g, hg, rfl⟩ := hmem c hc
    rw [mem_boxGrid] at hg
    exact gridNode_lt ![2, 1, 3] _ fun b => by have := hg b; have := hexCorner_le a b; omega, rfl, rfl, rfl, rfl, rfl⟩
  obtain ⟨F, hF⟩ : ∃ F, s.asFem = .ok F := ⟨_, rfl⟩
  have hret : ∃ R, F.computeResidual 0 = .ok R := by
    obtain rfl := Except.ok.inj hF
    refine (C13_returns _ 0).mpr ⟨?_, fun m hm => (by cases hm), fun m hm => ?_, fun lv hlv => (by cases hlv), fun lv hlv => (by cases hlv)⟩
    · intro hnil
      have := (boxExample_onBox.mem_cells (boxCell ![2, 1, 3] fun _ => 0)).mpr ⟨_, (mem_boxGrid _ _).mpr fun a => hN a, rfl⟩
      have hn : boxExample.cells = [] := hnil
      rw [hn] at this
      cases this
    · have hm' : some s.moduli.length = some m := hm
      rw [← Option.some.inj hm']
      show (boxExample.cells.map _).length = boxExample.cells.length
      rw [List.length_map]
  obtain ⟨R, hR⟩ := hret
  have hsum : (1 : T33) + H = Matrix.diagonal ![2, 1, 1] := by
    rw [hH]
    ext i j
    fin_cases i <;> fin_cases j <;> norm_num
  have hen : ∀ p ∈ s.fem.cells.zipIdx, ∀ q, s.en p.2 q = (1, 0) := by
    intro p hp q
    have hlt : p.2 < boxExample.cells.length := by
      have := (List.mem_zipIdx hp).2.1
      simpa using this
    show (List.getD (boxExample.cells.map fun _ _ => ((1 : ℝ), (0 : ℝ))) p.2 fun _ => (0, 0)) q = _
    rw [List.getD_eq_getElem?_getD, List.getElem?_map, List.getElem?_eq_getElem hlt]
    rfl
  have hdet : 0 < ((1 : T33) + H).det := by
    rw [hsum, Matrix.det_diagonal, Fin.prod_univ_three]
    show (0 : ℝ) < 2 * 1 * 1
    norm_num
  have hres := C121_homogeneous s hu rfl H rfl ![2, 1, 3] ![4, 3, 6] boxExample_onBox hN hL (gaussRule 3) ⟨fun _ _ => rfl, fun _ _ _ => rfl, fun _ => rfl⟩ (gaussRule_sum 3) 1 0 hen F hF R hR hdet
  have hV : ∏ a, (![4, 3, 6] : Fin 3 → ℝ) a = 72 := by
    rw [Fin.prod_univ_three]
    show (4 : ℝ) * 3 * 6 = 72
    norm_num
  rw [hV, hsum] at hres
  refine ⟨s, F, R, hu, rfl, hF, hR, hres.2.1, hres.1, hres.2.2.1, ?_⟩
  rw [hres.2.2.2]
  norm_num

end Verif.Fem
