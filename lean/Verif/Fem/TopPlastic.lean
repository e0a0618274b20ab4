import Verif.Fem.TopMulti
import Verif.Fem.RadialReturn
import Verif.Fem.Implicit
import Verif.Fem.PropsTangent

/-!
# C136: plasticity with a design (model of applications/fem/top_opt/plasticity.py)

The load is applied in five steps. The parameters of a step are the old stresses, the old strains and the design; `fwd_pred_seq` (142-154) solves and updates them step by step, and `jax.value_and_grad` runs backwards
through the steps. The value functions of the Neumann boundary are attributes of the problem, so in the backward pass every step sees the load of the last step (remark of the author in 146-148).
-/
namespace Verif.TopProg
open Finset Verif.Fem

variable {nn nq nf nfq dim vec M N : ℕ}

/-! ## The return map -/

/-- `stress` (plasticity.py 43-48). -/
noncomputable def plStress (eps : Matrix (Fin dim) (Fin dim) ℝ) (E : ℝ) : Matrix (Fin dim) (Fin dim) ℝ :=
  let nu : ℝ := 0.3
  let mu := E / (2 * (1 + nu))
  let lmbda := E * nu / ((1 + nu) * (1 - 2 * nu))
  (lmbda * eps.trace) • 1 + (2 * mu) • eps

/-- `stress_return_map` (plasticity.py 50-70). -/
noncomputable def plReturn (g so eo : Matrix (Fin dim) (Fin dim) ℝ) (theta : ℝ × ℝ) : Matrix (Fin dim) (Fin dim) ℝ :=
  let Emax : ℝ := 70e3
  let Emin : ℝ := 70
  let E := Emin + (Emax - Emin) * theta.1 ^ 3
  let sig0 : ℝ := 250 + theta.2 * 100
  let epsInc := strain g - eo
  let trial := plStress epsInc E + so
  let sDev := trial - (1 / (dim : ℝ) * trial.trace) • (1 : Matrix (Fin dim) (Fin dim) ℝ)
  let sNorm := safeSqrt (3 / 2 * ∑ i, ∑ j, sDev i j * sDev i j)
  let fYield := sNorm - sig0
  let fPlus := if fYield > 0 then fYield else 0
  Matrix.of fun i j => trial i j - safeDivide (fPlus * sDev i j) sNorm

/-- Specification: the shear modulus and the first Lamé constant of the cell. -/
noncomputable def plMu (th1 : ℝ) : ℝ := (70 + 69930 * th1 ^ 3) / 2.6
noncomputable def plLam (th1 : ℝ) : ℝ := (70 + 69930 * th1 ^ 3) * 0.3 / 0.52

theorem plReturn_radial (g so eo : Matrix (Fin dim) (Fin dim) ℝ) (theta : ℝ × ℝ) :
    plReturn g so eo theta = radial (250 + 100 * theta.2) (isoLaw (plLam theta.1) (plMu theta.1) (strain g - eo) + so) := by
  have hT : plStress (strain g - eo) (70 + (70e3 - 70) * theta.1 ^ 3) + so = isoLaw (plLam theta.1) (plMu theta.1) (strain g - eo) + so := by
    unfold plStress isoLaw plLam plMu
    norm_num
  show (Matrix.of fun i j => (plStress (strain g - eo) (70 + (70e3 - 70) * theta.1 ^ 3) + so) i j - safeDivide _ _) = _
  rw [hT]
  generalize isoLaw (plLam theta.1) (plMu theta.1) (strain g - eo) + so = T
  have hd : T - (1 / (dim : ℝ) * T.trace) • (1 : Matrix (Fin dim) (Fin dim) ℝ) = dev T := by
    unfold dev
    rw [one_div_mul_eq_div]
  ext i j
  show T i j - safeDivide ((if safeSqrt (3 / 2 * ∑ i, ∑ j, (T - (1 / (dim : ℝ) * T.trace) • (1 : Matrix (Fin dim) (Fin dim) ℝ)) i j * (T - (1 / (dim : ℝ) * T.trace) • (1 : Matrix (Fin dim) (Fin dim) ℝ)) i j) - (250 + theta.2 * 100) > 0 then
    safeSqrt (3 / 2 * ∑ i, ∑ j, (T - (1 / (dim : ℝ) * T.trace) • (1 : Matrix (Fin dim) (Fin dim) ℝ)) i j * (T - (1 / (dim : ℝ) * T.trace) • (1 : Matrix (Fin dim) (Fin dim) ℝ)) i j) - (250 + theta.2 * 100) else 0) *
    (T - (1 / (dim : ℝ) * T.trace) • (1 : Matrix (Fin dim) (Fin dim) ℝ)) i j)
    (safeSqrt (3 / 2 * ∑ i, ∑ j, (T - (1 / (dim : ℝ) * T.trace) • (1 : Matrix (Fin dim) (Fin dim) ℝ)) i j * (T - (1 / (dim : ℝ) * T.trace) • (1 : Matrix (Fin dim) (Fin dim) ℝ)) i j)) = _
  rw [hd, safeSqrt_eq, mul_comm theta.2 100]
  generalize 250 + 100 * theta.2 = sy
  change T i j - safeDivide ((if mises T - sy > 0 then mises T - sy else 0) * dev T i j) (mises T) = _
  have hm : (if mises T - sy > 0 then mises T - sy else 0) = max (mises T - sy) 0 := by
    split_ifs with h
    · rw [max_eq_left h.le]
    · rw [max_eq_right (not_lt.mp h)]
  rw [hm]
  unfold radial
  rw [Matrix.sub_apply, Matrix.smul_apply, smul_eq_mul]
  unfold safeDivide
  split_ifs with h
  · rw [h]; simp
  · ring

/-- **C136 (plasticity, stress).** For non-negative design variables, the returned stress is the one and only response (elastic law with the modulus of the cell, largest plastic work) for the yield stress `250 + 100 theta2`. -/
theorem C136_response (hdim : 0 < dim) (g so eo : Matrix (Fin dim) (Fin dim) ℝ) (theta : ℝ × ℝ) (h1 : 0 ≤ theta.1) (h2 : 0 ≤ theta.2) :
    ∀ s, s = plReturn g so eo theta ↔ ∃ dp, Response (plLam theta.1) (plMu theta.1) (250 + 100 * theta.2) so (strain g - eo) s dp := by
  have hmu : 0 < plMu theta.1 := by unfold plMu; positivity
  have hlam : 0 < plLam theta.1 := by unfold plLam; positivity
  obtain ⟨dp, hr, -⟩ := radial_response hdim (plLam theta.1) (plMu theta.1) (250 + 100 * theta.2) hmu (by positivity) so (strain g - eo)
  rw [← plReturn_radial] at hr
  exact fun s => ⟨fun h => ⟨dp, h ▸ hr⟩, fun ⟨dp', h'⟩ => Response.unique hdim hmu (by positivity) h' hr⟩

/-! ## The load steps -/

/-- The parameters at a quadrature point: old stress, old strain, design. -/
abbrev PtPar (dim : ℕ) := Matrix (Fin dim) (Fin dim) ℝ × Matrix (Fin dim) (Fin dim) ℝ × (ℝ × ℝ)

/-- `init_params` (plasticity.py 91-98), with `full_params` of `C102_params`. -/
def initPar (full : ℕ → ℝ × ℝ) : ℕ → Fin nq → PtPar dim := fun k _ => (0, 0, full k)

/-- `update_stress_strain` (plasticity.py 78-86), for the gradients `u_grads` of the solution. -/
noncomputable def updatePar (grad : ℕ → Fin nq → Matrix (Fin dim) (Fin dim) ℝ) (par : ℕ → Fin nq → PtPar dim) : ℕ → Fin nq → PtPar dim :=
  fun k q => (plReturn (grad k q) (par k q).1 (par k q).2.1 (par k q).2.2, strain (grad k q), (par k q).2.2)

/-- What the loop of `fwd_pred_seq` changes: the parameters, the last solution, and `problem.internal_vars` (set by `fwd_pred` through `set_params`, 91-92). -/
structure SeqSt (P U : Type) where
  par : P
  sol : Option U
  internal : Option P

/-- One pass of the loop (plasticity.py 147-153) for the load of step `i`. -/
def seqStep {P U Err : Type} (solve : ℕ → P → Except Err U) (upd : U → P → P) (s : SeqSt P U) (i : ℕ) : Except Err (SeqSt P U) := do
  let sol ← solve i s.par
  pure ⟨upd sol s.par, some sol, some s.par⟩

/-- `fwd_pred_seq` with `n` steps (plasticity.py 144-154). -/
def seqRun {P U Err : Type} (solve : ℕ → P → Except Err U) (upd : U → P → P) (par : P) (n : ℕ) : Except Err (SeqSt P U) := (List.range n).foldlM (seqStep solve upd) ⟨par, none, none⟩

theorem seqRun_succ {P U Err : Type} (solve : ℕ → P → Except Err U) (upd : U → P → P) (par : P) (n : ℕ) : seqRun solve upd par (n + 1) = (seqRun solve upd par n).bind fun s => seqStep solve upd s n := by
  unfold seqRun
  rw [List.range_succ, List.foldlM_append]
  simp only [List.foldlM_cons, List.foldlM_nil, bind_pure]
  rfl

/-- **C136 (plasticity, what is shown).** After `n + 1` load steps, `internal_vars`, which `inspect` (104-108) reads for the output `s`, still holds the state at the end of step `n`: the stresses shown belong to the last but one load. -/
theorem C136_inspect {P U Err : Type} (solve : ℕ → P → Except Err U) (upd : U → P → P) (par : P) (n : ℕ) (s : SeqSt P U) (h : seqRun solve upd par (n + 1) = .ok s) :
    ∃ s' u, seqRun solve upd par n = .ok s' ∧ s.internal = some s'.par ∧ solve n s'.par = .ok u ∧ s.sol = some u ∧ s.par = upd u s'.par := by
  rw [seqRun_succ] at h
  cases h1 : seqRun solve upd par n with
  | error e => rw [h1] at h; cases h
  | ok s' =>
    rw [h1] at h
    replace h : seqStep solve upd s' n = .ok s := h
    unfold seqStep at h
    cases h2 : solve n s'.par with
    | error e => rw [h2] at h; cases h
    | ok u =>
      rw [h2] at h
      cases h
      exact ⟨s', u, rfl, rfl, h2, rfl, rfl⟩

/-- **C136 (plasticity, states).** Whatever the solutions of the steps are, the design stays as it was, and no stress is ever beyond the yield stress of its cell. -/
theorem C136_states {U Err : Type} (hdim : 0 < dim) (solve : ℕ → (ℕ → Fin nq → PtPar dim) → Except Err U) (grad : U → ℕ → Fin nq → Matrix (Fin dim) (Fin dim) ℝ) (full : ℕ → ℝ × ℝ)
    (h0 : ∀ k, 0 ≤ (full k).1 ∧ 0 ≤ (full k).2) (n : ℕ) : ∀ s, seqRun solve (fun u => updatePar (grad u)) (initPar full) n = .ok s →
      ∀ k q, (s.par k q).2.2 = full k ∧ mises (s.par k q).1 ≤ 250 + 100 * (full k).2 := by
  induction n with
  | zero =>
    intro s h k q
    cases h
    refine ⟨rfl, ?_⟩
    have hz : mises (0 : Matrix (Fin dim) (Fin dim) ℝ) = 0 := by simp [mises, dev, ddot]
    show mises (0 : Matrix (Fin dim) (Fin dim) ℝ) ≤ _
    rw [hz]
    linarith [(h0 k).2]
  | succ n ih =>
    intro s h k q
    obtain ⟨s', u, h1, -, -, -, h5⟩ := C136_inspect _ _ _ _ _ h
    have h6 := (ih s' h1 k q).1
    rw [h5]
    refine ⟨h6, ?_⟩
    show mises (plReturn (grad u k q) (s'.par k q).1 (s'.par k q).2.1 (s'.par k q).2.2) ≤ _
    rw [h6]
    obtain ⟨dp, hr⟩ := (C136_response hdim (grad u k q) (s'.par k q).1 (s'.par k q).2.1 (full k) (h0 k).1 (h0 k).2 _).1 rfl
    exact hr.yield

/-- The loads of the five steps (plasticity.py 129-131, 151; `linspace(0.2, 1, 5)`). -/
noncomputable def stepLoad (i : ℕ) : ℝ := (0.2 + i * ((1 - 0.2) / 4)) * (4 * 1e2)

/-- The loads are 80, 160, 240, 320 and 400; the state shown belongs to 320 while the compliance is that of 400. -/
example : stepLoad 0 = 80 ∧ stepLoad 1 = 160 ∧ stepLoad 2 = 240 ∧ stepLoad 3 = 320 ∧ stepLoad 4 = 400 := by norm_num [stepLoad]

/-! ## Going back through the steps -/

/-- The problem of a step as `ad_wrapper` sees it: parameters in the tensor map, the given value functions on the Neumann boundary. -/
noncomputable def loadProb [NeZero vec] (F : Fem nn nq nf nfq dim vec) (groups : List (Fem.Group ℝ)) (tau : (Fin M → ℝ) → ℕ → Fin nq → (Fin vec → Fin dim → ℝ) → Fin vec → Fin dim → ℝ)
    (locs : List (Loc dim)) (vals : List (ℕ → Fin nfq → (Fin dim → ℝ) → Fin vec → ℝ)) : ParamProb M FemErr where
  prob q := ({ F with tensorMap := some (tau q), neumann := some (locs, vals) } : Fem nn nq nf nfq dim vec).toProb groups
  res q x d := match ({ F with tensorMap := some (tau q), neumann := some (locs, vals) } : Fem nn nq nf nfq dim vec).computeResidual (fun n i => x (vec * n + i)) with
    | .ok R => R (d / vec) (Fin.ofNat vec d)
    | .error _ => 0

section
variable [NeZero vec] (F : Fem nn nq nf nfq dim vec) (groups : List (Fem.Group ℝ)) (tau : (Fin M → ℝ) → ℕ → Fin nq → (Fin vec → Fin dim → ℝ) → Fin vec → Fin dim → ℝ) (locs : List (Loc dim))

theorem newton_loads {vals vals' : List (ℕ → Fin nfq → (Fin dim → ℝ) → Fin vec → ℝ)} (hl : vals.length = vals'.length) (p : Fin M → ℝ) (u : ℕ → ℝ) (nw : Newton ℝ)
    (h : ((loadProb F groups tau locs vals).prob p).newton u = .ok nw) :
    ∃ nw', ((loadProb F groups tau locs vals').prob p).newton u = .ok nw' ∧ nw'.I = nw.I ∧ nw'.J = nw.J ∧ nw'.V = nw.V ∧
      ∃ R R', ({ F with tensorMap := some (tau p), neumann := some (locs, vals) } : Fem nn nq nf nfq dim vec).computeResidual (fun n i => u (vec * n + i)) = .ok R ∧
        ({ F with tensorMap := some (tau p), neumann := some (locs, vals') } : Fem nn nq nf nfq dim vec).computeResidual (fun n i => u (vec * n + i)) = .ok R' := by
  set G : Fem nn nq nf nfq dim vec := { F with tensorMap := some (tau p), neumann := some (locs, vals) } with hG
  set G' : Fem nn nq nf nfq dim vec := { F with tensorMap := some (tau p), neumann := some (locs, vals') } with hG'
  set sol : ℕ → Fin vec → ℝ := fun n i => u (vec * n + i) with hsol
  replace h : (G.toProb groups).newton u = .ok nw := h
  unfold Fem.toProb at h
  dsimp only [bind, Except.bind] at h
  cases h1 : G.newtonUpdate sol with
  | error e => rw [h1] at h; cases h
  | ok nu =>
    rw [h1] at h
    cases h2 : G.neumannIntegral with
    | error e => rw [h2] at h; cases h
    | ok neu =>
      rw [h2] at h
      obtain ⟨R, I, J, V⟩ := nu
      obtain ⟨hR, hI, hJ, hV⟩ := (newtonUpdate_ok_iff G sol R I J V).1 h1
      obtain ⟨r1, r2, r3, -⟩ := (computeResidual_ok_iff G sol R).1 hR
      have r3' : G'.NeumannOk := by
        intro l v hlv
        rw [hG'] at hlv
        cases hlv
        obtain ⟨a, b⟩ := r3 locs vals rfl
        exact ⟨a, hl ▸ b⟩
      have hR' : G'.computeResidual sol = .ok (fun n i => G'.cellSum sol n i + G'.faceSum sol n i - G'.bodySum n i - G'.neumannSum n i) :=
        (computeResidual_ok_iff G' sol _).2 ⟨⟨r1.cells, r1.mass, r1.lap⟩, r2, r3', rfl⟩
      have hnu' : G'.newtonUpdate sol = .ok (_, I, J, V) := (newtonUpdate_ok_iff G' sol _ I J V).2 ⟨hR', hI, hJ, hV⟩
      have hneu' : G'.neumannIntegral = .ok G'.neumannSum := (neumannIntegral_ok_iff G' _).2 ⟨r3', rfl⟩
      cases h
      refine ⟨?_, ?_, ?_, ?_, ?_, R, _, hR, hR'⟩
      rotate_left
      · show (G'.toProb groups).newton u = .ok _
        unfold Fem.toProb
        dsimp only [bind, Except.bind]
        rw [hnu', hneu']
        rfl
      · rfl
      · rfl
      · rfl

theorem con_loads (vals vals' : List (ℕ → Fin nfq → (Fin dim → ℝ) → Fin vec → ℝ)) (hl : vals.length = vals'.length) (hwf : (F.toProb groups).WF) (p : Fin M → ℝ) (u : ℕ → ℝ)
    (hok : ∃ R, ({ F with tensorMap := some (tau p), neumann := some (locs, vals) } : Fem nn nq nf nfq dim vec).computeResidual (fun n i => u (vec * n + i)) = .ok R) (d : ℕ) :
    ∃ c : ℝ, ∀ q, (loadProb F groups tau locs vals).con u q d = (loadProb F groups tau locs vals').con u q d + c := by
  obtain ⟨R, hR⟩ := hok
  obtain ⟨r1, r2, r3, -⟩ := (computeResidual_ok_iff _ _ R).1 hR
  have hres : ∀ (v : List (ℕ → Fin nfq → (Fin dim → ℝ) → Fin vec → ℝ)), v.length = vals.length → ∀ q,
      (loadProb F groups tau locs v).res q u d = ({ F with tensorMap := some (tau q), neumann := some (locs, v) } : Fem nn nq nf nfq dim vec).cellSum (fun n i => u (vec * n + i)) (d / vec) (Fin.ofNat vec d) +
        F.faceSum (fun n i => u (vec * n + i)) (d / vec) (Fin.ofNat vec d) - F.bodySum (d / vec) (Fin.ofNat vec d) -
        ({ F with neumann := some (locs, v) } : Fem nn nq nf nfq dim vec).neumannSum (d / vec) (Fin.ofNat vec d) := by
    intro v hv q
    have h3 : ({ F with tensorMap := some (tau q), neumann := some (locs, v) } : Fem nn nq nf nfq dim vec).NeumannOk := by
      intro l w hlw
      cases hlw
      obtain ⟨a, b⟩ := r3 locs vals rfl
      exact ⟨a, hv ▸ b⟩
    have := (computeResidual_ok_iff ({ F with tensorMap := some (tau q), neumann := some (locs, v) } : Fem nn nq nf nfq dim vec) (fun n i => u (vec * n + i)) _).2 ⟨⟨r1.cells, r1.mass, r1.lap⟩, r2, h3, rfl⟩
    show (match ({ F with tensorMap := some (tau q), neumann := some (locs, v) } : Fem nn nq nf nfq dim vec).computeResidual (fun n i => u (vec * n + i)) with
      | .ok R => R (d / vec) (Fin.ofNat vec d)
      | .error _ => 0) = _
    rw [this]
    rfl
  have hcell : ∀ q, ({ F with tensorMap := some (tau q), neumann := some (locs, vals) } : Fem nn nq nf nfq dim vec).cellSum (fun n i => u (vec * n + i)) (d / vec) (Fin.ofNat vec d) =
      ({ F with tensorMap := some (tau q), neumann := some (locs, vals') } : Fem nn nq nf nfq dim vec).cellSum (fun n i => u (vec * n + i)) (d / vec) (Fin.ofNat vec d) := fun q => rfl
  have hw : ∀ (v : List (ℕ → Fin nfq → (Fin dim → ℝ) → Fin vec → ℝ)) q, (loadProb F groups tau locs v).con u q d =
      match lastVal (F.toProb groups).prescriptions d with
      | some x => u d + -x
      | none => (loadProb F groups tau locs v).res q u d := by
    intro v q
    show (F.toProb groups).applyBcVec realArith ((loadProb F groups tau locs v).res q u) u d = _
    rw [(F.toProb groups).applyBcVec_eq realArith hwf]
    cases lastVal (F.toProb groups).prescriptions d <;> rfl
  cases hlast : lastVal (F.toProb groups).prescriptions d with
  | some x => exact ⟨0, fun q => by rw [hw, hw, hlast]; simp⟩
  | none =>
    refine ⟨({ F with neumann := some (locs, vals') } : Fem nn nq nf nfq dim vec).neumannSum (d / vec) (Fin.ofNat vec d) - ({ F with neumann := some (locs, vals) } : Fem nn nq nf nfq dim vec).neumannSum (d / vec) (Fin.ofNat vec d), fun q => ?_⟩
    rw [hw, hw, hlast]
    show (loadProb F groups tau locs vals).res q u d = (loadProb F groups tau locs vals').res q u d + _
    rw [hres vals rfl q, hres vals' hl.symm q, hcell q]
    ring

/-- **C136 (stale loads, one step).** The backward pass of a step returns the same whichever value functions the Neumann boundary has at that time. -/
theorem C136_stale_step (vals vals' : List (ℕ → Fin nfq → (Fin dim → ℝ) → Fin vec → ℝ)) (hl : vals.length = vals'.length) (hwf : (F.toProb groups).WF) (lin : LinCall ℝ → ℕ → ℝ) (u : ℕ → ℝ) (p : Fin M → ℝ)
    (v : ℕ → ℝ) (usePetsc : Bool) (g : Fin M → ℝ) (h : (loadProb F groups tau locs vals).implicitVjp lin u p v usePetsc = .ok g) : (loadProb F groups tau locs vals').implicitVjp lin u p v usePetsc = .ok g := by
  unfold ParamProb.implicitVjp at h ⊢
  cases hn : ((loadProb F groups tau locs vals).prob p).newton u with
  | error e => rw [hn] at h; cases h
  | ok nw =>
    rw [hn] at h
    obtain ⟨nw', hn', hI, hJ, hV, R, R', hR, -⟩ := newton_loads F groups tau locs hl p u nw hn
    rw [hn']
    dsimp only at h ⊢
    have hA : ((loadProb F groups tau locs vals').prob p).getAFn realArith usePetsc nw' = ((loadProb F groups tau locs vals).prob p).getAFn realArith usePetsc nw := by
      unfold Prob.getAFn
      rw [hI, hJ, hV]
      rfl
    have hP : ((loadProb F groups tau locs vals').prob p).jacobi realArith nw' = ((loadProb F groups tau locs vals).prob p).jacobi realArith nw := by
      unfold Prob.jacobi
      rw [hI, hJ, hV]
      rfl
    have hN : ((loadProb F groups tau locs vals').prob p).numDofs = ((loadProb F groups tau locs vals).prob p).numDofs := rfl
    have hder : ∀ (j : Fin M) (d : ℕ), deriv (fun t : ℝ => (loadProb F groups tau locs vals').con u (p + t • Pi.single j 1) d) 0 = deriv (fun t : ℝ => (loadProb F groups tau locs vals).con u (p + t • Pi.single j 1) d) 0 := by
      intro j d
      obtain ⟨c, hc⟩ := con_loads F groups tau locs vals vals' hl hwf p u ⟨R, hR⟩ d
      simp only [hc]
      exact (deriv_add_const c).symm
    rw [hA, hP, hN]
    simp only [hder]
    exact h

end

/-- Reverse mode through `i` remaining load steps (what `jax.value_and_grad` does with the loop of `fwd_pred_seq`): the update of the parameters is differentiated, the solution is handed to `f_bwd` of `ad_wrapper`. `v` is the cotangent of the
solution from outside the loop, `pbar` that of the parameters. -/
noncomputable def backRun {Err : Type} (vjp : ℕ → (Fin N → ℝ) → Except Err (Fin M → ℝ)) (upd : (Fin N → ℝ) × (Fin M → ℝ) → Fin M → ℝ) (u : ℕ → Fin N → ℝ) (p : ℕ → Fin M → ℝ) :
    ℕ → (Fin N → ℝ) → (Fin M → ℝ) → Except Err (Fin M → ℝ)
  | 0, _, pbar => .ok pbar
  | i + 1, v, pbar => do
    let L := fderiv ℝ upd (u i, p i)
    let g ← vjp i fun d => v d + ∑ j, pbar j * L (Pi.single d 1, 0) j
    backRun vjp upd u p i 0 fun k => ∑ j, pbar j * L (0, Pi.single k 1) j + g k

theorem backRun_mono {Err : Type} (vjp vjp' : ℕ → (Fin N → ℝ) → Except Err (Fin M → ℝ)) (h : ∀ i v g, vjp i v = .ok g → vjp' i v = .ok g) (upd : (Fin N → ℝ) × (Fin M → ℝ) → Fin M → ℝ) (u : ℕ → Fin N → ℝ)
    (p : ℕ → Fin M → ℝ) (n : ℕ) : ∀ v pbar g, backRun vjp upd u p n v pbar = .ok g → backRun vjp' upd u p n v pbar = .ok g := by
  induction n with
  | zero => exact fun _ _ _ h => h
  | succ n ih =>
    intro v pbar g hg
    unfold backRun at hg ⊢
    dsimp only [bind, Except.bind] at hg ⊢
    cases h1 : vjp n fun d => v d + ∑ j, pbar j * fderiv ℝ upd (u n, p n) (Pi.single d 1, 0) j with
    | error e => rw [h1] at hg; cases hg
    | ok x =>
      rw [h1] at hg
      rw [h _ _ _ h1]
      exact ih _ _ _ hg

/-- **C136 (stale loads).** Going back through the load steps with the loads of the last step (`stale`) gives exactly what the loads of the steps themselves would give: the author is right that the result is not affected. -/
theorem C136_stale [NeZero vec] (F : Fem nn nq nf nfq dim vec) (groups : List (Fem.Group ℝ)) (tau : (Fin M → ℝ) → ℕ → Fin nq → (Fin vec → Fin dim → ℝ) → Fin vec → Fin dim → ℝ) (locs : List (Loc dim))
    (vals : ℕ → List (ℕ → Fin nfq → (Fin dim → ℝ) → Fin vec → ℝ)) (stale : List (ℕ → Fin nfq → (Fin dim → ℝ) → Fin vec → ℝ)) (hl : ∀ i, (vals i).length = stale.length) (hwf : (F.toProb groups).WF)
    (lin : LinCall ℝ → ℕ → ℝ) (usePetsc : Bool) (upd : (Fin N → ℝ) × (Fin M → ℝ) → Fin M → ℝ) (u : ℕ → Fin N → ℝ) (p : ℕ → Fin M → ℝ) (n : ℕ) (v : Fin N → ℝ) (pbar g : Fin M → ℝ) :
    backRun (fun i w => (loadProb F groups tau locs stale).implicitVjp lin (ext (u i)) (p i) (ext w) usePetsc) upd u p n v pbar = .ok g ↔
      backRun (fun i w => (loadProb F groups tau locs (vals i)).implicitVjp lin (ext (u i)) (p i) (ext w) usePetsc) upd u p n v pbar = .ok g :=
  ⟨backRun_mono _ _ (fun i _ g h => C136_stale_step F groups tau locs _ _ (hl i).symm hwf lin _ _ _ usePetsc g h) upd u p n v pbar g,
    backRun_mono _ _ (fun i _ g h => C136_stale_step F groups tau locs _ _ (hl i) hwf lin _ _ _ usePetsc g h) upd u p n v pbar g⟩

/-- Specification: the parameters after `i` steps as a function of the initial ones, `S i` being the solution of step `i`. -/
def parAfter (S : ℕ → (Fin M → ℝ) → Fin N → ℝ) (upd : (Fin N → ℝ) × (Fin M → ℝ) → Fin M → ℝ) : ℕ → (Fin M → ℝ) → Fin M → ℝ
  | 0, q => q
  | i + 1, q => upd (S i (parAfter S upd i q), parAfter S upd i q)

theorem sum_single_pair {A : ℕ} (f : Fin A → ℝ) (L : (Fin A → ℝ) →L[ℝ] ℝ) : L f = ∑ d, f d * L (Pi.single d 1) := by
  conv_lhs => rw [show f = ∑ d, f d • (Pi.single d 1 : Fin A → ℝ) by
    funext e
    simp [Finset.sum_apply, Pi.single_apply]]
  rw [map_sum]
  exact sum_congr rfl fun d _ => by rw [map_smul, smul_eq_mul]

/-- Differentiability of the parameters after each step, and the pullback through all steps from the cotangents of the solution and of the parameters. -/
theorem backRun_pull {Err : Type} (S : ℕ → (Fin M → ℝ) → Fin N → ℝ) (upd : (Fin N → ℝ) × (Fin M → ℝ) → Fin M → ℝ) (p0 : Fin M → ℝ) (n : ℕ)
    (hS : ∀ i ≤ n, DifferentiableAt ℝ (S i) (parAfter S upd i p0)) (hupd : ∀ i ≤ n, DifferentiableAt ℝ upd (S i (parAfter S upd i p0), parAfter S upd i p0))
    (vjp : ℕ → (Fin N → ℝ) → Except Err (Fin M → ℝ)) (hvjp : ∀ i ≤ n, ∀ w, ∃ g, vjp i w = .ok g ∧ ∀ x : Fin M → ℝ, ∑ k, g k * x k = ∑ d, w d * fderiv ℝ (S i) (parAfter S upd i p0) x d) :
    (∀ i ≤ n + 1, DifferentiableAt ℝ (parAfter S upd i) p0) ∧ ∀ i ≤ n, ∀ (v : Fin N → ℝ) (pbar : Fin M → ℝ), ∃ g, backRun vjp upd (fun i => S i (parAfter S upd i p0)) (fun i => parAfter S upd i p0) (i + 1) v pbar = .ok g ∧
      ∀ x, ∑ k, g k * x k = ∑ d, v d * fderiv ℝ (S i) (parAfter S upd i p0) (fderiv ℝ (parAfter S upd i) p0 x) d + ∑ j, pbar j * fderiv ℝ (parAfter S upd (i + 1)) p0 x j := by
  have hpar : ∀ i ≤ n + 1, DifferentiableAt ℝ (parAfter S upd i) p0 := by
    intro i
    induction i with
    | zero => exact fun _ => differentiableAt_id
    | succ i ih =>
      intro hi
      have hp := ih (by omega)
      have h1 : DifferentiableAt ℝ (fun q => (S i (parAfter S upd i q), parAfter S upd i q)) p0 := ((hS i (by omega)).comp p0 hp).prodMk hp
      exact DifferentiableAt.comp (g := upd) (f := fun q => (S i (parAfter S upd i q), parAfter S upd i q)) p0 (hupd i (by omega)) h1
  have hder : ∀ i ≤ n, ∀ x, fderiv ℝ (parAfter S upd (i + 1)) p0 x = fderiv ℝ upd (S i (parAfter S upd i p0), parAfter S upd i p0) (fderiv ℝ (S i) (parAfter S upd i p0) (fderiv ℝ (parAfter S upd i) p0 x), fderiv ℝ (parAfter S upd i) p0 x) := by
    intro i hi x
    have hp := (hpar i (by omega)).hasFDerivAt
    have h1 : HasFDerivAt (fun q => (S i (parAfter S upd i q), parAfter S upd i q)) _ p0 := ((hS i hi).hasFDerivAt.comp p0 hp).prodMk hp
    have h2 := HasFDerivAt.comp (g := upd) (f := fun q => (S i (parAfter S upd i q), parAfter S upd i q)) p0 (hupd i hi).hasFDerivAt h1
    have h3 : fderiv ℝ (parAfter S upd (i + 1)) p0 = _ := h2.fderiv
    rw [h3]
    rfl
  -- the pullback through `i` steps
  have back : ∀ i ≤ n, ∀ (v : Fin N → ℝ) (pbar : Fin M → ℝ), ∃ g, backRun vjp upd (fun i => S i (parAfter S upd i p0)) (fun i => parAfter S upd i p0) (i + 1) v pbar = .ok g ∧
      ∀ x, ∑ k, g k * x k = ∑ d, v d * fderiv ℝ (S i) (parAfter S upd i p0) (fderiv ℝ (parAfter S upd i) p0 x) d + ∑ j, pbar j * fderiv ℝ (parAfter S upd (i + 1)) p0 x j := by
    -- one step
    have one : ∀ i ≤ n, ∀ (v : Fin N → ℝ) (pbar : Fin M → ℝ), ∃ pb, (∀ g, backRun vjp upd (fun i => S i (parAfter S upd i p0)) (fun i => parAfter S upd i p0) (i + 1) v pbar = .ok g ↔
        backRun vjp upd (fun i => S i (parAfter S upd i p0)) (fun i => parAfter S upd i p0) i 0 pb = .ok g) ∧
        ∀ x, ∑ k, pb k * fderiv ℝ (parAfter S upd i) p0 x k = ∑ d, v d * fderiv ℝ (S i) (parAfter S upd i p0) (fderiv ℝ (parAfter S upd i) p0 x) d + ∑ j, pbar j * fderiv ℝ (parAfter S upd (i + 1)) p0 x j := by
      intro i hi v pbar
      set L := fderiv ℝ upd (S i (parAfter S upd i p0), parAfter S upd i p0) with hL
      obtain ⟨g, hg, hg'⟩ := hvjp i hi fun d => v d + ∑ j, pbar j * L (Pi.single d 1, 0) j
      refine ⟨fun k => ∑ j, pbar j * L (0, Pi.single k 1) j + g k, fun g' => ?_, fun x => ?_⟩
      · conv_lhs => unfold backRun
        dsimp only [bind, Except.bind]
        rw [← hL, hg]
      · set y := fderiv ℝ (parAfter S upd i) p0 x with hy
        set z := fderiv ℝ (S i) (parAfter S upd i p0) y with hz
        rw [hder i hi x, ← hL, ← hy, ← hz]
        simp only [add_mul, sum_add_distrib]
        rw [hg' y, ← hz]
        simp only [add_mul, sum_add_distrib]
        have e1 : ∀ j, L (z, y) j = ∑ d, z d * L (Pi.single d 1, 0) j + ∑ k, y k * L (0, Pi.single k 1) j := by
          intro j
          have h1 := sum_single_pair z ((ContinuousLinearMap.proj j : (Fin M → ℝ) →L[ℝ] ℝ).comp (L.comp (ContinuousLinearMap.inl ℝ (Fin N → ℝ) (Fin M → ℝ))))
          have h2 := sum_single_pair y ((ContinuousLinearMap.proj j : (Fin M → ℝ) →L[ℝ] ℝ).comp (L.comp (ContinuousLinearMap.inr ℝ (Fin N → ℝ) (Fin M → ℝ))))
          simp only [ContinuousLinearMap.comp_apply, ContinuousLinearMap.inl_apply, ContinuousLinearMap.inr_apply, ContinuousLinearMap.proj_apply] at h1 h2
          rw [← h1, ← h2, ← Pi.add_apply, ← map_add]
          simp
        simp only [e1, mul_add, sum_add_distrib, mul_sum, sum_mul]
        rw [sum_comm (f := fun (d : Fin N) (j : Fin M) => pbar j * L (Pi.single d 1, 0) j * z d), sum_comm (f := fun (k : Fin M) (j : Fin M) => pbar j * L (0, Pi.single k 1) j * y k)]
        have e2 : ∀ (a b c : ℝ), a * b * c = a * (c * b) := fun a b c => by ring
        simp only [e2]
        ring
    intro i
    induction i with
    | zero =>
      intro hi v pbar
      obtain ⟨pb, h1, h2⟩ := one 0 hi v pbar
      refine ⟨pb, (h1 pb).2 rfl, fun x => ?_⟩
      rw [← h2 x]
      have : fderiv ℝ (parAfter S upd 0) p0 x = x := by
        have : parAfter S upd 0 = id := rfl
        rw [this, fderiv_id]
        rfl
      rw [this]
    | succ i ih =>
      intro hi v pbar
      obtain ⟨pb, h1, h2⟩ := one (i + 1) hi v pbar
      obtain ⟨g, h3, h4⟩ := ih (by omega) 0 pb
      refine ⟨g, (h1 g).2 h3, fun x => ?_⟩
      rw [h4 x, ← h2 x]
      simp
  exact ⟨hpar, back⟩

/-- **C136 (plasticity, gradient).** If the solution of every step depends differentiably on its parameters, the update is differentiable where it is used, and `f_bwd` with the loads of the step is the adjoint of the solution (`C27_vjp`), then going back
through all steps returns the derivative of any differentiable function of the last solution with respect to the initial parameters. -/
theorem C136_chain {Err : Type} (S : ℕ → (Fin M → ℝ) → Fin N → ℝ) (upd : (Fin N → ℝ) × (Fin M → ℝ) → Fin M → ℝ) (p0 : Fin M → ℝ) (n : ℕ)
    (hS : ∀ i ≤ n, DifferentiableAt ℝ (S i) (parAfter S upd i p0)) (hupd : ∀ i ≤ n, DifferentiableAt ℝ upd (S i (parAfter S upd i p0), parAfter S upd i p0))
    (vjp : ℕ → (Fin N → ℝ) → Except Err (Fin M → ℝ)) (hvjp : ∀ i ≤ n, ∀ w, ∃ g, vjp i w = .ok g ∧ ∀ x : Fin M → ℝ, ∑ k, g k * x k = ∑ d, w d * fderiv ℝ (S i) (parAfter S upd i p0) x d)
    (obj : (Fin N → ℝ) → ℝ) (hobj : DifferentiableAt ℝ obj (S n (parAfter S upd n p0))) :
    ∃ g, backRun vjp upd (fun i => S i (parAfter S upd i p0)) (fun i => parAfter S upd i p0) (n + 1) (fun d => fderiv ℝ obj (S n (parAfter S upd n p0)) (Pi.single d 1)) 0 = .ok g ∧
      HasFDerivAt (fun q => obj (S n (parAfter S upd n q))) (∑ k, g k • (ContinuousLinearMap.proj k : (Fin M → ℝ) →L[ℝ] ℝ)) p0 := by
  obtain ⟨hpar, back⟩ := backRun_pull S upd p0 n hS hupd vjp hvjp
  obtain ⟨g, h1, h2⟩ := back n le_rfl (fun d => fderiv ℝ obj (S n (parAfter S upd n p0)) (Pi.single d 1)) 0
  refine ⟨g, h1, ?_⟩
  have h3 := HasFDerivAt.comp (g := obj) (f := fun q => S n (parAfter S upd n q)) p0 hobj.hasFDerivAt ((hS n le_rfl).hasFDerivAt.comp p0 (hpar n (by omega)).hasFDerivAt)
  refine HasFDerivAt.congr_fderiv h3 ?_
  ext1 x
  have h4 := h2 x
  simp only [Pi.zero_apply, zero_mul, sum_const_zero, add_zero] at h4
  rw [ContinuousLinearMap.comp_apply, ContinuousLinearMap.comp_apply, sum_single_pair (fderiv ℝ (S n) (parAfter S upd n p0) (fderiv ℝ (parAfter S upd n) p0 x))]
  simp only [_root_.sum_apply, _root_.smul_apply, ContinuousLinearMap.proj_apply, smul_eq_mul]
  rw [h4]
  exact sum_congr rfl fun d _ => mul_comm _ _

/-- **C136 (plasticity, gradient with stale loads).** Both together: the loop with the loads of the last step in the backward pass returns the derivative. -/
theorem C136_plastic [NeZero vec] (F : Fem nn nq nf nfq dim vec) (groups : List (Fem.Group ℝ)) (tau : (Fin M → ℝ) → ℕ → Fin nq → (Fin vec → Fin dim → ℝ) → Fin vec → Fin dim → ℝ) (locs : List (Loc dim))
    (vals : ℕ → List (ℕ → Fin nfq → (Fin dim → ℝ) → Fin vec → ℝ)) (hl : ∀ i j, (vals i).length = (vals j).length) (hwf : (F.toProb groups).WF) (lin : LinCall ℝ → ℕ → ℝ) (usePetsc : Bool)
    (S : ℕ → (Fin M → ℝ) → Fin N → ℝ) (upd : (Fin N → ℝ) × (Fin M → ℝ) → Fin M → ℝ) (p0 : Fin M → ℝ) (n : ℕ)
    (hS : ∀ i ≤ n, DifferentiableAt ℝ (S i) (parAfter S upd i p0)) (hupd : ∀ i ≤ n, DifferentiableAt ℝ upd (S i (parAfter S upd i p0), parAfter S upd i p0))
    (hvjp : ∀ i ≤ n, ∀ w, ∃ g, (loadProb F groups tau locs (vals i)).implicitVjp lin (ext (S i (parAfter S upd i p0))) (parAfter S upd i p0) (ext w) usePetsc = .ok g ∧
      ∀ x : Fin M → ℝ, ∑ k, g k * x k = ∑ d, w d * fderiv ℝ (S i) (parAfter S upd i p0) x d)
    (obj : (Fin N → ℝ) → ℝ) (hobj : DifferentiableAt ℝ obj (S n (parAfter S upd n p0))) :
    ∃ g, backRun (fun i w => (loadProb F groups tau locs (vals n)).implicitVjp lin (ext (S i (parAfter S upd i p0))) (parAfter S upd i p0) (ext w) usePetsc) upd (fun i => S i (parAfter S upd i p0)) (fun i => parAfter S upd i p0) (n + 1)
        (fun d => fderiv ℝ obj (S n (parAfter S upd n p0)) (Pi.single d 1)) 0 = .ok g ∧
      HasFDerivAt (fun q => obj (S n (parAfter S upd n q))) (∑ k, g k • (ContinuousLinearMap.proj k : (Fin M → ℝ) →L[ℝ] ℝ)) p0 := by
  obtain ⟨g, h1, h2⟩ := C136_chain S upd p0 n hS hupd _ hvjp obj hobj
  exact ⟨g, (C136_stale F groups tau locs vals (vals n) (fun i => hl i n) hwf lin usePetsc upd _ _ (n + 1) _ 0 g).2 h1, h2⟩

/-- One degree of freedom, two steps, `S i p = p + i`, update `p + u`: the last solution is `2 p + 1`, and going back returns 2. -/
example : ∃ g, backRun (Err := Unit) (N := 1) (M := 1) (fun _ w => .ok w) (fun x => x.1 + x.2) (fun i => parAfter (fun i p _ => p 0 + i) (fun x => x.1 + x.2) i 0 + fun _ => (i : ℝ)) (fun i => parAfter (fun i p _ => p 0 + i) (fun x => x.1 + x.2) i 0)
    2 (fun _ => 1) 0 = .ok g ∧ g 0 = 2 := by
  have hL : ∀ x : (Fin 1 → ℝ) × (Fin 1 → ℝ), fderiv ℝ (fun x : (Fin 1 → ℝ) × (Fin 1 → ℝ) => x.1 + x.2) x = ContinuousLinearMap.fst ℝ _ _ + ContinuousLinearMap.snd ℝ _ _ := fun x =>
    (hasFDerivAt_fst.add hasFDerivAt_snd).fderiv
  refine ⟨_, rfl, ?_⟩
  simp [hL]
  norm_num

end Verif.TopProg
