import Verif.Fem.SmallLoads
import Verif.Fem.HyperProps

/-!
# The Neo-Hookean body under small loads (C152)
-/
namespace Verif.Fem.SmallLoads
open Set Filter Topology Verif.Fem Verif.Fem.NewtonLocal
open scoped Matrix

/-- The stress of the Neo-Hookean body in three dimensions. -/
noncomputable def pk (g : Fin 3 → Fin 3 → ℝ) : Fin 3 → Fin 3 → ℝ := firstPK (Matrix.of g)

/-- Hooke's law with the bulk modulus `κ` and the shear modulus `μ`. -/
noncomputable def hooke (κ μ : ℝ) (H : Fin 3 → Fin 3 → ℝ) (i j : Fin 3) : ℝ := (if i = j then (κ - 2 / 3 * μ) * ∑ k, H k k else 0) + μ * (H i j + H j i)

theorem adj_entry (H : Matrix (Fin 3) (Fin 3) ℝ) (t : ℝ) (i j : Fin 3) :
    ((1 : Matrix (Fin 3) (Fin 3) ℝ) + t • H).adjugate j i = (if i = j then 1 else 0) + t * ((if i = j then ∑ k, H k k else 0) - H j i) + t ^ 2 * H.adjugate j i := by
  fin_cases i <;> fin_cases j <;> simp [Matrix.adjugate_fin_three, Fin.sum_univ_three] <;> ring

theorem pk_eq (g : Fin 3 → Fin 3 → ℝ) (hJ : 0 < (Matrix.of g + 1).det) (i j : Fin 3) :
    pk g i j = hyperMu * (Matrix.of g + 1).det ^ (-2 / 3 : ℝ) * ((Matrix.of g + 1) i j - ((Matrix.of g + 1)ᵀ * (Matrix.of g + 1)).trace / 3 * ((Matrix.of g + 1).det⁻¹ * (Matrix.of g + 1).adjugate j i))
      + hyperKappa * ((Matrix.of g + 1).det - 1) * (Matrix.of g + 1).adjugate j i := by
  show pkOf (Matrix.of g + 1) i j = _
  have hinv : ((Matrix.of g + 1)⁻¹)ᵀ i j = (Matrix.of g + 1).det⁻¹ * (Matrix.of g + 1).adjugate j i := by
    rw [Matrix.transpose_apply, Matrix.inv_def, Matrix.smul_apply, Ring.inverse_eq_inv', smul_eq_mul]
  rw [C31_stress _ hJ, Matrix.add_apply, Matrix.smul_apply, Matrix.sub_apply, Matrix.smul_apply, Matrix.smul_apply, hinv]
  simp only [smul_eq_mul]
  field_simp

theorem det_smooth : ContDiff ℝ 1 fun g : Fin 3 → Fin 3 → ℝ => (Matrix.of g + 1).det := by
  simp only [Matrix.det_fin_three, Matrix.add_apply, Matrix.of_apply]
  fun_prop

theorem adj_smooth (i j : Fin 3) : ContDiff ℝ 1 fun g : Fin 3 → Fin 3 → ℝ => (Matrix.of g + 1).adjugate i j := by
  fin_cases i <;> fin_cases j <;> simp only [Matrix.adjugate_fin_three, Matrix.add_apply, Matrix.of_apply, Matrix.cons_val', Matrix.cons_val_zero, Matrix.cons_val_one, Matrix.cons_val, Fin.zero_eta, Fin.mk_one, Fin.reduceFinMk] <;> fun_prop

theorem trace_smooth : ContDiff ℝ 1 fun g : Fin 3 → Fin 3 → ℝ => ((Matrix.of g + 1)ᵀ * (Matrix.of g + 1)).trace := by
  simp only [Matrix.trace, Matrix.diag_apply, Matrix.mul_apply, Matrix.transpose_apply, Matrix.add_apply, Matrix.of_apply]
  fun_prop

theorem det_rest : (Matrix.of (0 : Fin 3 → Fin 3 → ℝ) + 1).det = 1 := by simp

theorem det_near : ∀ᶠ g in 𝓝 (0 : Fin 3 → Fin 3 → ℝ), 0 < (Matrix.of g + 1).det := by
  refine det_smooth.continuous.continuousAt.eventually (lt_mem_nhds ?_)
  show 0 < (Matrix.of (0 : Fin 3 → Fin 3 → ℝ) + 1).det
  rw [det_rest]; exact one_pos

theorem pk_smooth : ContDiffAt ℝ 1 pk 0 := by
  refine contDiffAt_pi.mpr fun i => contDiffAt_pi.mpr fun j => ?_
  have he : (fun g => pk g i j) =ᶠ[𝓝 0] fun g => hyperMu * (Matrix.of g + 1).det ^ (-2 / 3 : ℝ) * ((Matrix.of g + 1) i j - ((Matrix.of g + 1)ᵀ * (Matrix.of g + 1)).trace / 3 * ((Matrix.of g + 1).det⁻¹ * (Matrix.of g + 1).adjugate j i))
      + hyperKappa * ((Matrix.of g + 1).det - 1) * (Matrix.of g + 1).adjugate j i := det_near.mono fun g hg => pk_eq g hg i j
  refine ContDiffAt.congr_of_eventuallyEq ?_ he
  have hd := det_smooth.contDiffAt (x := (0 : Fin 3 → Fin 3 → ℝ))
  have h0 : (Matrix.of (0 : Fin 3 → Fin 3 → ℝ) + 1).det ≠ 0 := by rw [det_rest]; exact one_ne_zero
  have ha := (adj_smooth j i).contDiffAt (x := (0 : Fin 3 → Fin 3 → ℝ))
  have hi : ContDiffAt ℝ 1 (fun g : Fin 3 → Fin 3 → ℝ => (Matrix.of g + 1) i j) 0 := by
    simp only [Matrix.add_apply, Matrix.of_apply]
    fun_prop
  exact ((contDiffAt_const.mul (hd.rpow_const_of_ne h0)).mul (hi.sub ((trace_smooth.contDiffAt.div_const 3).mul ((hd.inv h0).mul ha)))).add ((contDiffAt_const.mul (hd.sub contDiffAt_const)).mul ha)

/-- **C152 (linearised law).** The tangent at rest of the Neo-Hookean stress of `HyperElasticity` in three dimensions is Hooke's law with the bulk and shear moduli of the code. -/
theorem C152_linearised (H : Fin 3 → Fin 3 → ℝ) : fderiv ℝ pk 0 H = hooke hyperKappa hyperMu H := by
  have h1 : HasDerivAt (fun t : ℝ => pk (0 + t • H)) (fderiv ℝ pk 0 H) 0 := (pk_smooth.differentiableAt one_ne_zero).hasFDerivAt.hasLineDerivAt H
  funext i j
  have h2 : HasDerivAt (fun t : ℝ => pk (0 + t • H) i j) (fderiv ℝ pk 0 H i j) 0 := (hasDerivAt_pi.mp (hasDerivAt_pi.mp h1 i)) j
  refine h2.unique ?_
  set M : Matrix (Fin 3) (Fin 3) ℝ := Matrix.of H with hM
  have hline : ∀ t : ℝ, Matrix.of (0 + t • H) + 1 = (1 : Matrix (Fin 3) (Fin 3) ℝ) + t • M := fun t => by
    ext a b
    simp [hM, add_comm]
  have hD : HasDerivAt (fun t : ℝ => ((1 : Matrix (Fin 3) (Fin 3) ℝ) + t • M).det) (∑ k, H k k) 0 := by
    have hfun : (fun t : ℝ => ((1 : Matrix (Fin 3) (Fin 3) ℝ) + t • M).det) = fun t => 1 + t * (∑ k, H k k) + t ^ 2 * (∑ i, ∑ j, M.adjugate j i * (1 : Matrix (Fin 3) (Fin 3) ℝ) i j) + t ^ 3 * M.det := by
      funext t
      rw [det3_line]
      simp [Matrix.one_apply, Fin.sum_univ_three, hM]
    rw [hfun]
    have a1 : HasDerivAt (fun t : ℝ => t * (∑ k, H k k)) (∑ k, H k k) 0 := by simpa using (hasDerivAt_id (0 : ℝ)).mul_const (∑ k, H k k)
    have a2 := (hasDerivAt_pow 2 (0 : ℝ)).mul_const (∑ i, ∑ j, M.adjugate j i * (1 : Matrix (Fin 3) (Fin 3) ℝ) i j)
    have a3 := (hasDerivAt_pow 3 (0 : ℝ)).mul_const M.det
    simpa using ((a1.const_add 1).fun_add a2).fun_add a3
  have hA : HasDerivAt (fun t : ℝ => ((1 : Matrix (Fin 3) (Fin 3) ℝ) + t • M).adjugate j i) ((if i = j then ∑ k, H k k else 0) - H j i) 0 := by
    simp only [adj_entry]
    have a1 : HasDerivAt (fun t : ℝ => t * ((if i = j then ∑ k, M k k else 0) - M j i)) ((if i = j then ∑ k, H k k else 0) - H j i) 0 := by
      simpa [hM] using (hasDerivAt_id (0 : ℝ)).mul_const ((if i = j then ∑ k, M k k else 0) - M j i)
    have a2 := (hasDerivAt_pow 2 (0 : ℝ)).mul_const (M.adjugate j i)
    simpa using (a1.const_add (if i = j then (1 : ℝ) else 0)).fun_add a2
  have hT : HasDerivAt (fun t : ℝ => (((1 : Matrix (Fin 3) (Fin 3) ℝ) + t • M)ᵀ * ((1 : Matrix (Fin 3) (Fin 3) ℝ) + t • M)).trace) (2 * ∑ k, H k k) 0 := by
    have hfun : (fun t : ℝ => (((1 : Matrix (Fin 3) (Fin 3) ℝ) + t • M)ᵀ * ((1 : Matrix (Fin 3) (Fin 3) ℝ) + t • M)).trace) = fun t => 3 + t * (2 * ∑ k, H k k) + t ^ 2 * (Mᵀ * M).trace := by
      funext t
      simp [Matrix.trace, Matrix.mul_apply, Fin.sum_univ_three, hM]
      ring
    rw [hfun]
    have a1 : HasDerivAt (fun t : ℝ => t * (2 * ∑ k, H k k)) (2 * ∑ k, H k k) 0 := by simpa using (hasDerivAt_id (0 : ℝ)).mul_const (2 * ∑ k, H k k)
    have a2 := (hasDerivAt_pow 2 (0 : ℝ)).mul_const ((Mᵀ * M).trace)
    simpa using (a1.const_add 3).fun_add a2
  have hE : HasDerivAt (fun t : ℝ => ((1 : Matrix (Fin 3) (Fin 3) ℝ) + t • M) i j) (H i j) 0 := by
    simp only [Matrix.add_apply, Matrix.smul_apply, smul_eq_mul]
    have := ((hasDerivAt_id (0 : ℝ)).mul_const (M i j)).const_add ((1 : Matrix (Fin 3) (Fin 3) ℝ) i j)
    simpa [hM] using this
  have d0 : ((1 : Matrix (Fin 3) (Fin 3) ℝ) + (0 : ℝ) • M).det = 1 := by simp
  have hP := hD.rpow_const (p := (-2 / 3 : ℝ)) (.inl (by rw [d0]; exact one_ne_zero))
  have hI := hD.fun_inv (by rw [d0]; exact one_ne_zero)
  have hfull := ((hP.const_mul hyperMu).fun_mul (hE.fun_sub ((hT.div_const 3).fun_mul (hI.fun_mul hA)))).fun_add (((hD.sub_const 1).const_mul hyperKappa).fun_mul hA)
  have hc : Tendsto (fun t : ℝ => (0 : Fin 3 → Fin 3 → ℝ) + t • H) (𝓝 0) (𝓝 0) := by
    have : Continuous fun t : ℝ => (0 : Fin 3 → Fin 3 → ℝ) + t • H := by fun_prop
    simpa using this.tendsto 0
  have hev := (hc.eventually det_near).mono fun t ht => pk_eq _ ht i j
  simp only [hline] at hev
  refine HasDerivAt.congr_of_eventuallyEq (hfull.congr_deriv ?_) hev
  have a0 : ((1 : Matrix (Fin 3) (Fin 3) ℝ) + (0 : ℝ) • M).adjugate j i = if i = j then 1 else 0 := by rw [adj_entry]; ring
  have t0 : (((1 : Matrix (Fin 3) (Fin 3) ℝ) + (0 : ℝ) • M)ᵀ * ((1 : Matrix (Fin 3) (Fin 3) ℝ) + (0 : ℝ) • M)).trace = 3 := by simp
  have e0 : ((1 : Matrix (Fin 3) (Fin 3) ℝ) + (0 : ℝ) • M) i j = if i = j then 1 else 0 := by simp [Matrix.one_apply]
  rw [d0, a0, t0, e0]
  unfold hooke
  simp only [Real.one_rpow]
  split_ifs <;> ring

/-- The moduli in terms of Young's modulus `1e3` and Poisson's ratio `0.3`: the law is that of `LinearElasticity` with these. -/
theorem hyper_lame : hyperKappa - 2 / 3 * hyperMu = 1e3 * 0.3 / ((1 + 0.3) * (1 - 2 * 0.3)) ∧ hyperMu = 1e3 / (2 * (1 + 0.3)) := by
  constructor <;> norm_num [hyperKappa, hyperMu]

theorem hooke_work (κ μ : ℝ) (H : Fin 3 → Fin 3 → ℝ) :
    ∑ i, ∑ d, hooke κ μ H i d * H i d = (κ - 2 / 3 * μ) * (∑ k, H k k) ^ 2 + μ / 2 * ∑ i, ∑ d, (H i d + H d i) ^ 2 := by
  simp [hooke, Fin.sum_univ_three]
  ring

variable {nn nq nf nfq : ℕ}

/-- **C152 (the Neo-Hookean material is stable).** -/
theorem C152_hyper (F : Fem nn nq nf nfq 3 3) (hcauchy : F.cauchy = none) : Stable (Moved.hyperFem F) (fun _ _ => pk) where
  map := rfl
  mass := rfl
  cauchy := hcauchy
  rest := fun _ _ => C31_rest
  smooth := fun _ _ => pk_smooth
  pos := fun k q H => by
    have hm := hyperMu_pos
    have hl : 0 < hyperKappa - 2 / 3 * hyperMu := by norm_num [hyperKappa, hyperMu]
    rw [C152_linearised, hooke_work]
    positivity
  strict := fun k q H h i j => by
    have hm := hyperMu_pos
    have hl : 0 < hyperKappa - 2 / 3 * hyperMu := by norm_num [hyperKappa, hyperMu]
    rw [C152_linearised, hooke_work] at h
    have h0 : 0 ≤ (hyperKappa - 2 / 3 * hyperMu) * (∑ k, H k k) ^ 2 := by positivity
    have h1 : 0 ≤ ∑ i, ∑ d, (H i d + H d i) ^ 2 := by positivity
    have h2 : ∑ i, ∑ d, (H i d + H d i) ^ 2 = 0 := by nlinarith
    have h3 := (Finset.sum_eq_zero_iff_of_nonneg fun i _ => by positivity).mp h2 i (Finset.mem_univ i)
    have h4 := (Finset.sum_eq_zero_iff_of_nonneg fun d _ => by positivity).mp h3 j (Finset.mem_univ j)
    exact pow_eq_zero_iff two_ne_zero |>.mp h4

/-- **C152 (box meshes).** A `box_mesh` of HEX8 cells with all three components prescribed at the nodes of a grid plane is supported. -/
theorem C152_box (F : Fem 8 (2 ^ 3) nf nfq 3 3) (N : Fin 3 → ℕ) (L : Fin 3 → ℝ) (hbox : OnBox F N L) (hnum : F.numTotal = (N 0 + 1) * (N 1 + 1) * (N 2 + 1)) (hN : ∀ a, 0 < N a)
    (hL : ∀ a, 0 < L a) (ht : CellTables F hex8 (gaussRule 3)) (Z : ℕ → Prop) (a : Fin 3) (s : ℕ) (hs : s ≤ N a)
    (hpres : ∀ m : Fin 3 → ℕ, (∀ b, m b ≤ N b) → m a = s → ∀ i : Fin 3, Z (3 * gridNode N m + i)) : Supported F Z := by
  have hh : ∀ a, 0 < L a / N a := fun a => div_pos (hL a) (by exact_mod_cast hN a)
  refine ⟨?_, ?_, ?_, ?_, ?_⟩
  · have : boxCell N 0 ∈ F.cells := (hbox.mem_cells _).mpr ⟨0, by rw [mem_boxGrid]; exact hN, rfl⟩
    exact List.ne_nil_of_mem this
  · intro c hc p
    obtain ⟨g, hg, rfl⟩ := (hbox.mem_cells c).mp hc
    rw [hnum]
    rw [mem_boxGrid] at hg
    exact gridNode_lt N _ fun a => by have := hg a; have := hexCorner_le p a; omega
  · intro c hc q
    obtain ⟨g, hg, rfl⟩ := (hbox.mem_cells c).mp hc
    rw [hbox.JxW _ ht g hg]
    exact mul_pos (Finset.prod_pos fun a _ => hh a) (gauss_w_pos 3 q)
  · refine C88_rigid_hex8 _ ht fun c hc => ?_
    obtain ⟨g, hg, rfl⟩ := (hbox.mem_cells c).mp hc
    refine ⟨fun a => g a * (L a / N a), fun a => L a / N a, fun a => (hh a).ne', fun p a => ?_⟩
    rw [hbox.corner g hg]
    push_cast
    ring
  · intro n hn
    rw [hnum] at hn
    obtain ⟨m, hm, rfl⟩ := gridNode_surj N n hn
    have := box_held hbox hN hL (fun n => ∀ i : Fin 3, Z (3 * n + i)) a s hs (fun m hm hma i => hpres m hm hma i) m hm
    exact this

/-- The residual of the first pass from the undeformed state is the data. -/
theorem start_norm {dim : ℕ} [NeZero dim] {F : Fem nn nq nf nfq dim dim} {tm : ℕ → Fin nq → (Fin dim → Fin dim → ℝ) → Fin dim → Fin dim → ℝ} (h : Stable F tm) {src : Option ((Fin dim → ℝ) → Fin dim → ℝ)} {bv : Option ((ℕ → Fin dim → ℝ) × ((Fin dim → ℝ) → Fin dim → ℝ))}
    {neu : Option (List (Loc dim) × List (ℕ → Fin nfq → (Fin dim → ℝ) → Fin dim → ℝ))} {groups : List (Group ℝ)} (hwf : ((loaded F src bv neu).toProb groups).WF) {nw : Newton ℝ}
    (hn : ((loaded F src bv neu).toProb groups).newton (arr (0 : Vc ((loaded F src bv neu).toProb groups).numDofs)) = .ok nw) :
    ((loaded F src bv neu).toProb groups).resNorm realArith (((loaded F src bv neu).toProb groups).applyBcVec realArith nw.res (arr (0 : Vc ((loaded F src bv neu).toProb groups).numDofs))) = ‖dataVec (loaded F src bv neu) groups‖ := by
  choose nwt R I J V h1 h2 h3 h4 h5 h6 using fun v : Vc ((loaded F src bv neu).toProb groups).numDofs => fem_newton (loaded F src bv neu) groups hn (arr v)
  have hm := loaded_modified (G := loaded F src bv neu) (Z := fun d => ¬ FreeAt ((loaded F src bv neu).toProb groups).prescriptions d) h.cauchy hwf (fun d _ => not_not.symm) (fun v => (C14_same_residual _ _ _).mpr ⟨_, _, _, h2 v⟩) h3 0
  have hz : Phi (loaded F src bv neu) (fun d => ¬ FreeAt ((loaded F src bv neu).toProb groups).prescriptions d) (0 : Vc ((loaded F src bv neu).toProb groups).numDofs) = 0 :=
    phi_zero (F := loaded F src bv neu) ⟨h.map, h.mass, h.cauchy, h.rest, h.smooth, h.pos, h.strict⟩
  rw [hz, zero_sub] at hm
  have hnw : nwt 0 = nw := by
    have := (h1 0).symm.trans hn
    injection this
  rw [resNorm_eq, ← hnw, ← norm_neg (dataVec _ _), ← hm]
  rfl

theorem outer_scale {dim : ℕ} {F : Fem nn nq nf nfq dim dim} (g : ℝ) (f : (Fin dim → ℝ) → Fin dim → ℝ) (n : ℕ) (i : Fin dim) :
    outerForce (loaded F (some fun x i => g * f x i) none none) n i = g * outerForce (loaded F (some f) none none) n i := by
  have hl : ∀ c q, (loaded F (some fun x i => g * f x i) none none).load c q i = g * (loaded F (some f) none none).load c q i := fun c q => rfl
  unfold outerForce
  have hp : ∀ f, Fem.pairs (loaded F (some f) none none).neumann = [] := fun f => rfl
  simp only [hp, List.map_nil, List.sum_nil, add_zero, hl]
  rw [← List.sum_map_mul_left]
  refine congrArg List.sum (List.map_congr_left fun c _ => ?_)
  unfold nodal
  rw [Finset.mul_sum]
  refine Finset.sum_congr rfl fun a _ => ?_
  rw [Finset.mul_sum]
  exact Finset.sum_congr rfl fun q _ => by
    show (loaded F (some f) none none).shapeVals q a * (g * _) * (loaded F (some f) none none).JxW c q = _
    ring

/-- **C152 (gravity).** A Neo-Hookean block, a `box_mesh` of HEX8 cells with all components held at the nodes of a grid plane, under a body force of fixed shape and strength `g`. For small `g` there is exactly one equilibrium near the
undeformed state, its displacements are at most proportional to `g`, they differ from those of Hooke's law with the same moduli by less than any multiple of `g`, and a fixed number of passes of the Newton loop of `solver`, started from the
undeformed state, returns it up to a constant times `1e-6`. -/
theorem C152_gravity (F : Fem 8 (2 ^ 3) nf nfq 3 3) (N : Fin 3 → ℕ) (L : Fin 3 → ℝ) (hbox : OnBox F N L) (hnum : F.numTotal = (N 0 + 1) * (N 1 + 1) * (N 2 + 1)) (hN : ∀ a, 0 < N a)
    (hL : ∀ a, 0 < L a) (ht : CellTables F hex8 (gaussRule 3)) (hcauchy : F.cauchy = none) (locs : List (Loc 3)) (vecs : List ℕ) (hlen : vecs.length = locs.length) (hv : ∀ v ∈ vecs, v < 3) (a : Fin 3) (s : ℕ) (hs : s ≤ N a)
    (hcover : ∀ m : Fin 3 → ℕ, (∀ b, m b ≤ N b) → m a = s → ∀ i : Fin 3, ∃ t ∈ locs.zip vecs, t.1 (F.points (gridNode N m)) = true ∧ t.2 = i)
    (ns cs : List (List ℕ)) (ws : List (List ℝ)) (hbc : dirichletBC F.numTotal F.points (some (locs, vecs, locs.map fun _ _ => 0)) = .ok (ns, cs, ws)) (f : (Fin 3 → ℝ) → Fin 3 → ℝ) {κ : ℝ} (hκ : 0 < κ) :
    let P := fun g : ℝ => (loaded (Moved.hyperFem F) (some fun x i => g * f x i) none none).toProb (groupsOf ns cs ws)
    let Plin := fun g : ℝ => (loaded (linearised (Moved.hyperFem F) fun _ _ => pk) (some fun x i => g * f x i) none none).toProb (groupsOf ns cs ws)
    ∃ γ C ρ : ℝ, ∃ passes : ℕ, 0 < γ ∧ 0 < ρ ∧ ∀ g, |g| ≤ γ → ∃ z : Vc (F.numTotal * 3), Solves (P g) z ∧ ‖z‖ ≤ C * |g| ∧ (∀ z', ‖z'‖ < ρ → Solves (P g) z' → z' = z) ∧
      (∀ w : Vc (F.numTotal * 3), Solves (Plin g) w → ‖z - w‖ ≤ κ * |g|) ∧
      ∀ lin, TolLin (F.numTotal * 3) 1e-10 1e-10 lin → ∀ precond usePetsc : Bool, ∃ u : Vc (F.numTotal * 3),
        (P g).rowSolver realArith lin false precond usePetsc (some fun _ => 0) passes = .ok (arr u) ∧ ‖u - z‖ ≤ C * 1e-6 := by
  intro P Plin
  have hst := C152_hyper F hcauchy
  set Z : ℕ → Prop := fun d => ¬ FreeAt (P 0).prescriptions d with hZ
  have hwf : ∀ g, (P g).WF := fun g => C19_groups_wf (P g) (show 0 < 3 by decide) F.numTotal F.points locs vecs _ ns cs ws hbc rfl
  have huser := user_prescriptions (P 0) F.points locs vecs _ hv ns cs ws hbc rfl
  have hlz : ∀ d < F.numTotal * 3, ∀ x, LastAt (P 0).prescriptions d x → x = 0 := by
    intro d hd x hx
    obtain ⟨t, htm, -, hxv⟩ := (huser (d / 3) (d % 3) (by show d / 3 < F.numTotal; omega) (by show d % 3 < 3; omega)).2 x (by
      have e : (P 0).vec * (d / 3) + d % 3 = d := by show 3 * (d / 3) + d % 3 = d; omega
      rw [e]; exact hx)
    have := (List.of_mem_zip (List.of_mem_zip htm).2).2
    obtain ⟨-, -, he⟩ := List.mem_map.mp this
    rw [hxv, ← he]
  have hsup : Supported (Moved.hyperFem F) Z := by
    refine C152_box (Moved.hyperFem F) N L ⟨hbox.points, hbox.cells⟩ hnum hN hL ⟨ht.vals, ht.grads, ht.weights⟩ Z a s hs fun m hm hma i hf => ?_
    obtain ⟨t, h1, h2⟩ := hcover m hm hma i
    obtain ⟨k, hk, hkt⟩ := List.mem_iff_getElem.mp h1
    have hk' : k < locs.length := by
      have := List.length_zip (l₁ := locs) (l₂ := vecs)
      omega
    have hk2 : k < vecs.length := by omega
    refine (huser (gridNode N m) i (by
      show gridNode N m < F.numTotal
      rw [hnum]
      exact gridNode_lt N m hm) i.isLt).1.mp hf (locs[k], vecs[k], fun _ => 0) ?_ ?_
    · refine List.mem_iff_getElem.mpr ⟨k, by simp [List.length_zip]; omega, by simp⟩
    · rw [List.getElem_zip] at hkt
      rw [← hkt] at h2
      exact h2
  have hdata : ∀ g, dataVec (loaded (Moved.hyperFem F) (some fun x i => g * f x i) none none) (groupsOf ns cs ws) = (g • dataVec (loaded (Moved.hyperFem F) (some f) none none) (groupsOf ns cs ws) : Vc (F.numTotal * 3)) := by
    intro g
    ext d
    show (lastVal (P 0).prescriptions d).getD _ = g * (lastVal (P 0).prescriptions d).getD _
    cases hl : lastVal (P 0).prescriptions d with
    | some x =>
      have := hlz d d.2 x ((lastVal_some _ _ _).mp hl)
      simp [this]
    | none =>
      simp only [Option.getD_none]
      exact outer_scale g f _ _
  set B := ‖dataVec (loaded (Moved.hyperFem F) (some f) none none) (groupsOf ns cs ws)‖ with hB
  have hnorm : ∀ g, ‖dataVec (loaded (Moved.hyperFem F) (some fun x i => g * f x i) none none) (groupsOf ns cs ws)‖ = |g| * B := by
    intro g
    have := norm_smul g (dataVec (loaded (Moved.hyperFem F) (some f) none none) (groupsOf ns cs ws) : Vc (F.numTotal * 3))
    rw [← hdata g] at this
    exact this
  have hret : ∀ g (u : ℕ → ℝ), ∃ nw, (P g).newton u = .ok nw := by
    intro g u
    obtain ⟨R, hR⟩ := (C13_returns (loaded (Moved.hyperFem F) (some fun x i => g * f x i) none none) fun n i => u (3 * n + i)).mpr
      ⟨hsup.cells, fun m hm => (by cases hm), fun m hm => (by cases hm), fun lv hlv => (by rw [show (loaded (Moved.hyperFem F) (some fun x i => g * f x i) none none).cauchy = none from hcauchy] at hlv; cases hlv), fun lv hlv => (by cases hlv)⟩
    have hnu := (newtonUpdate_ok_iff _ _ R _ _ _).mpr ⟨hR, rfl, rfl, rfl⟩
    have e : (P g).newton u = Bind.bind ((loaded (Moved.hyperFem F) (some fun x i => g * f x i) none none).newtonUpdate fun n i => u (3 * n + i)) _ := rfl
    rw [hnu] at e
    exact ⟨_, e⟩
  obtain ⟨δ, C, ρ, hδ, hρ, hmain⟩ := C152_small hst hsup
  obtain ⟨ρ', hρ', hlin⟩ := C152_linear hst hsup (κ := κ / (B + 1)) (by positivity)
  obtain ⟨passes, hp⟩ := pow_unbounded_of_one_lt (δ * 1e6) (by norm_num : (1 : ℝ) < 1000)
  have hB0 : 0 ≤ B := norm_nonneg _
  have hC : ∀ g, |g| ≤ min δ (min ρ ρ') / (2 * ((|C| + 1) * (B + 1))) → |g| * B ≤ δ ∧ |C| * (|g| * B) < ρ' := by
    intro g hg
    have e1 : |g| * (2 * ((|C| + 1) * (B + 1))) ≤ min δ (min ρ ρ') := (le_div_iff₀ (by positivity)).mp hg
    have e2 := e1.trans (min_le_left _ _)
    have e3 := (e1.trans (min_le_right _ _)).trans (min_le_right _ _)
    have hg0 := abs_nonneg g
    have hC0 := abs_nonneg C
    have a1 : |g| * B ≤ |g| * ((|C| + 1) * (B + 1)) := mul_le_mul_of_nonneg_left (by nlinarith) hg0
    have a2 : |g| * (|C| * B) ≤ |g| * ((|C| + 1) * (B + 1)) := mul_le_mul_of_nonneg_left (by nlinarith) hg0
    have a3 : 0 ≤ |g| * ((|C| + 1) * (B + 1)) := by positivity
    exact ⟨by linarith, by linarith⟩
  refine ⟨min δ (min ρ ρ') / (2 * ((|C| + 1) * (B + 1))), |C| * (B + 1), ρ, passes, by positivity, hρ, fun g hg => ?_⟩
  obtain ⟨hg1, hg2⟩ := hC g hg
  obtain ⟨nw0, hnw0⟩ := hret g (arr (0 : Vc (F.numTotal * 3)))
  obtain ⟨z, hz1, hz2, hz3, hz4, hz5⟩ := hmain (some fun x i => g * f x i) none none (groupsOf ns cs ws) (hwf g) (fun d _ => not_not.symm) ⟨_, nw0, hnw0⟩ ((hnorm g).trans_le hg1)
  rw [hnorm g] at hz2
  have hz2' : ‖z‖ ≤ |C| * (|g| * B) := hz2.trans (mul_le_mul_of_nonneg_right (le_abs_self C) (by positivity))
  refine ⟨z, hz1, ?_, hz4, fun w hw => ?_, fun lin hl precond usePetsc => ?_⟩
  · refine hz2'.trans ?_
    have : 0 ≤ |C| * |g| := by positivity
    nlinarith
  · have := hlin (some fun x i => g * f x i) none none (groupsOf ns cs ws) (hwf g) (fun d _ => not_not.symm) z w (hz2'.trans_lt hg2) hz1 hw
    rw [hnorm g] at this
    refine this.trans ?_
    have e : κ / (B + 1) * (|g| * B) = κ * |g| * (B / (B + 1)) := by ring
    rw [e]
    exact mul_le_of_le_one_right (by positivity) ((div_le_one (by positivity)).mpr (by linarith))
  · obtain ⟨u, hu, hun⟩ := hz5 lin hl precond usePetsc 0 nw0 passes (by rw [norm_zero]; exact hδ.le) hnw0 (by
      rw [start_norm hst (hwf g) hnw0, hnorm g]
      linarith)
    refine ⟨u, ?_, hun.trans ?_⟩
    · have e0 : arr (0 : Vc (F.numTotal * 3)) = fun _ => 0 := by
        funext d
        simp [arr, Fem.ext]
      have hu' : (P g).rowSolver realArith lin false precond usePetsc (some (arr (0 : Vc (F.numTotal * 3)))) passes = .ok (arr u) := hu
      rw [e0] at hu'
      exact hu'
    · refine mul_le_mul_of_nonneg_right ?_ (by norm_num)
      have := abs_nonneg C
      have := le_abs_self C
      nlinarith

/-- All hypotheses hold: the block 4x3x6 of 2x1x3 cells, clamped at `z = 0`, under its weight. -/
example : ∃ ns cs ws, dirichletBC 24 tensionExample.points (some (List.replicate 3 (tensionLoc (2, false)), [0, 1, 2], (List.replicate 3 (tensionLoc (2, false))).map fun _ _ => 0)) = .ok (ns, cs, ws) ∧
    ∃ γ C ρ : ℝ, 0 < γ ∧ 0 < ρ ∧ ∀ g, |g| ≤ γ → ∃ z : Vc (24 * 3),
      Solves ((loaded (Moved.hyperFem tensionExample) (some fun _ i => g * if i = 2 then -1 else 0) none none).toProb (groupsOf ns cs ws)) z ∧ ‖z‖ ≤ C * |g| := by
  have hbox : OnBox tensionExample ![2, 1, 3] ![4, 3, 6] := ⟨rfl, rfl⟩
  have hN : ∀ a, 0 < (![2, 1, 3] : Fin 3 → ℕ) a := by decide
  have hL : ∀ a, 0 < (![4, 3, 6] : Fin 3 → ℝ) a := by intro a; fin_cases a <;> norm_num
  have ht : CellTables tensionExample hex8 (gaussRule 3) := ⟨fun _ _ => rfl, fun _ _ _ => rfl, fun _ => rfl⟩
  obtain ⟨⟨ns, cs, ws⟩, hbc⟩ := (C17_accepted 24 tensionExample.points (List.replicate 3 (tensionLoc (2, false))) [0, 1, 2] ((List.replicate 3 (tensionLoc (2, false))).map fun _ _ => 0)).1.mpr ⟨rfl, rfl⟩
  obtain ⟨γ, C, ρ, passes, hγ, hρ, h⟩ := C152_gravity tensionExample ![2, 1, 3] ![4, 3, 6] hbox rfl hN hL ht rfl (List.replicate 3 (tensionLoc (2, false))) [0, 1, 2] rfl (by decide) 2 0 (Nat.zero_le _)
    (fun m hm hma i => by
      have hb : tensionLoc (2, false) (tensionExample.points (gridNode ![2, 1, 3] m)) = true := by
        simp [tensionLoc, hbox.point m hm, hma]
      refine ⟨(tensionLoc (2, false), i), ?_, hb, rfl⟩
      fin_cases i <;> simp) ns cs ws hbc (fun _ i => if i = 2 then -1 else 0) one_pos
  exact ⟨ns, cs, ws, hbc, γ, C, ρ, hγ, hρ, fun g hg => by
    obtain ⟨z, h1, h2, -⟩ := h g hg
    exact ⟨z, h1, h2⟩⟩

end Verif.Fem.SmallLoads
