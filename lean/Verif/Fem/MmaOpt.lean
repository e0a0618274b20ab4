import Verif.Fem.MmaNewton
import Mathlib.Logic.Relation

/-!
# Totality, the optimisation loop and the sensitivity filter (C35, C37, C73)
-/
namespace Verif.Fem.Mma
open Finset

variable {ι κ : Type} [Fintype ι] [Fintype κ] [DecidableEq ι] [DecidableEq κ]

/-! ## C73: no exception -/

theorem whileE_total {σ : Type} {c : σ → Prop} {b : σ → Except MmaErr σ} (R : ℕ → σ → Prop) (h0 : ∀ s, R 0 s → ¬ c s) (hR : ∀ k s, R (k + 1) s → c s → ∃ s', b s = .ok s' ∧ R k s') :
    ∀ (k : ℕ) (s : σ), R k s → ∃ s', whileE c b k s = .ok s' := by
  intro k
  induction k with
  | zero =>
    intro s hs
    refine ⟨s, ?_⟩
    unfold whileE
    rw [if_neg (h0 s hs)]
  | succ k ih =>
    intro s hs
    unfold whileE
    split
    · rename_i hc
      obtain ⟨s1, hb, h1⟩ := hR k s hs hc
      obtain ⟨s2, h2⟩ := ih s1 h1
      refine ⟨s2, ?_⟩
      rw [hb]
      exact h2
    · exact ⟨s, rfl⟩

theorem newtonPass_total (solve : LinSolve) (hex : solve.Exact) [Nonempty ι] (S : Sub ι κ) (hS : S.WF) (epsi : ℝ) (st : Newton ι κ) (hp : Interior S st.p) (f : ℕ) (hf : 50 ≤ f) :
    ∃ st', newtonPass f solve S epsi st = .ok st' := by
  cases h : newtonPass f solve S epsi st with
  | ok st' => exact ⟨st', rfl⟩
  | error e =>
    rcases newtonPass_error f hf solve S epsi st e h with h | ⟨-, h⟩
    · obtain ⟨dx, dz, dlam, hr, -⟩ := reduced_spec solve hex S epsi st.p hS hp
      rw [hr] at h
      cases h
    · exact absurd h (not_isEmpty_of_nonempty ι)

theorem barrierPass_total (solve : LinSolve) (hex : solve.Exact) [Nonempty ι] (S : Sub ι κ) (hS : S.WF) (st : Pt ι κ × ℝ) (hp : Interior S st.1) : ∃ st', barrierPass 200 50 solve S st = .ok st' := by
  unfold barrierPass
  dsimp only [bind, Except.bind]
  cases h1 : npMax (fun k => |residu S st.2 st.1 k|) with
  | error e => exact absurd (npMax_error.mp h1).2 (not_isEmpty_of_nonempty _)
  | ok rm =>
  dsimp only
  obtain ⟨nw, hnw⟩ := whileE_total (c := fun s : Newton ι κ => s.residumax > 0.9 * st.2 ∧ s.ittt < 200) (b := newtonPass 50 solve S st.2) (fun k s => 200 ≤ k + s.ittt ∧ Interior S s.p)
    (fun s h0 hc => by have := h0.1; have := hc.2; omega)
    (fun k s hk _ => by
      obtain ⟨s', hs'⟩ := newtonPass_total solve hex S hS st.2 s hk.2 50 le_rfl
      refine ⟨s', hs', ?_, newtonPass_interior 50 solve S st.2 s s' hk.2 hs'⟩
      rw [newtonPass_ittt 50 solve S st.2 s s' hs']
      have := hk.1
      omega) 200 { p := st.1, residu := residu S st.2 st.1, residunorm := resNorm (residu S st.2 st.1), residumax := rm, ittt := 0 } ⟨by simp, hp⟩
  refine ⟨(nw.p, 0.1 * st.2), ?_⟩
  have : newtonLoop 200 50 solve S st.2 { p := st.1, residu := residu S st.2 st.1, residunorm := resNorm (residu S st.2 st.1), residumax := rm, ittt := 0 } = .ok nw := hnw
  rw [this]
  rfl

/-- **C73 (subproblem).** With a linear solver that solves every nonsingular system, `subsolv` never raises: the reduced matrices of both branches are nonsingular at every interior point. -/
theorem C73_subsolv (solve : LinSolve) (hex : solve.Exact) [Nonempty ι] (S : Sub ι κ) (hS : S.WF) : ∃ p, subsolv (7, 200, 50) solve 0.0000001 S = .ok p ∧ Interior S p := by
  obtain ⟨st, hst⟩ := whileE_total (c := fun st : Pt ι κ × ℝ => st.2 > 0.0000001) (b := barrierPass 200 50 solve S) (fun k s => 0.1 ^ k * s.2 ≤ 0.0000001 ∧ Interior S s.1)
    (fun s h0 hc => by
      have := h0.1
      rw [pow_zero, one_mul] at this
      exact absurd hc (not_lt.mpr this))
    (fun k s hk _ => by
      obtain ⟨s', hs'⟩ := barrierPass_total solve hex S hS s hk.2
      obtain ⟨i1, i2⟩ := barrierPass_interior 200 50 solve S s s' hk.2 hs'
      refine ⟨s', hs', ?_, i1⟩
      rw [i2, ← mul_assoc, ← pow_succ]
      exact hk.1) 7 (start S, 1) ⟨by norm_num, start_interior S hS.mid⟩
  have h : subsolv (7, 200, 50) solve 0.0000001 S = .ok st.1 := by
    unfold subsolv
    rw [hst]
    rfl
  exact ⟨st.1, h, C34_interior _ solve _ S hS.mid _ h⟩

/-- The subproblem built from a design within its bounds is well formed. -/
theorem subproblem_wf (A : Params ι κ) (st : State ι) (hb : ∀ j, A.xmin j < A.xmax j) (hm : 0 < A.move) (hx : ∀ j, A.xmin j ≤ st.xval j ∧ st.xval j ≤ A.xmax j) (hd : ∀ i, 0 ≤ A.d i) (df0dx : ι → ℝ) (fval : κ → ℝ)
    (dfdx : κ → ι → ℝ) :
    (subproblem A st.xval (asymptotes A st.epoch st.xval st.xold1 st.xold2 st.low st.upp).1 (asymptotes A st.epoch st.xval st.xold1 st.xold2 st.low st.upp).2 df0dx fval dfdx).WF := by
  have h := fun j => C33_bounds A st.epoch st.xval st.xold1 st.xold2 st.low st.upp j (hb j) hm (hx j).1 (hx j).2 (asymptotes A st.epoch st.xval st.xold1 st.xold2 st.low st.upp).1 (asymptotes A st.epoch st.xval st.xold1 st.xold2 st.low st.upp).2 Prod.mk.eta.symm
  exact ⟨fun j => (h j).2.2.1, fun j => (h j).2.2.2.2.2.2.2.2.1, fun j => (h j).2.2.2.1,
    fun j => ⟨(coef_pos A _ _ _ _ j (h j).1 (h j).2.1).1.le, (coef_pos A _ _ _ _ j (h j).1 (h j).2.1).2.le⟩,
    fun i j => ⟨(coef_pos A _ _ _ _ j (h j).1 (h j).2.1).1.le, (coef_pos A _ _ _ _ j (h j).1 (h j).2.1).2.le⟩, hd⟩

/-- **C73 (one iteration).** `mmasub` never raises for a design within its bounds. -/
theorem C73_mmasub (solve : LinSolve) (hex : solve.Exact) [Nonempty ι] (A : Params ι κ) (st : State ι) (hb : ∀ j, A.xmin j < A.xmax j) (hm : 0 < A.move) (hx : ∀ j, A.xmin j ≤ st.xval j ∧ st.xval j ≤ A.xmax j)
    (hd : ∀ i, 0 ≤ A.d i) (df0dx : ι → ℝ) (fval : κ → ℝ) (dfdx : κ → ι → ℝ) : ∃ r, mmasub solve A st df0dx fval dfdx = .ok r := by
  obtain ⟨p, hp, -⟩ := C73_subsolv solve hex _ (subproblem_wf A st hb hm hx hd df0dx fval dfdx)
  unfold mmasub
  dsimp only
  rw [hp]
  exact ⟨_, rfl⟩

/-- The design returned by `mmasub` lies strictly inside the trust interval. -/
theorem mmasub_bounds (solve : LinSolve) (A : Params ι κ) (st : State ι) (hb : ∀ j, A.xmin j < A.xmax j) (hm : 0 < A.move) (hx : ∀ j, A.xmin j ≤ st.xval j ∧ st.xval j ≤ A.xmax j) (df0dx : ι → ℝ) (fval : κ → ℝ)
    (dfdx : κ → ι → ℝ) (p : Pt ι κ) (low upp : ι → ℝ) (h : mmasub solve A st df0dx fval dfdx = .ok (p, low, upp)) :
    ∀ j, A.xmin j < p.x j ∧ p.x j < A.xmax j ∧ |p.x j - st.xval j| < A.move * (A.xmax j - A.xmin j) ∧ low j < p.x j ∧ p.x j < upp j := by
  unfold mmasub at h
  dsimp only [bind, Except.bind] at h
  cases h1 : subsolv (7, 200, 50) solve 0.0000001 (subproblem A st.xval (asymptotes A st.epoch st.xval st.xold1 st.xold2 st.low st.upp).1
    (asymptotes A st.epoch st.xval st.xold1 st.xold2 st.low st.upp).2 df0dx fval dfdx) with
  | error e => rw [h1] at h; cases h
  | ok q =>
  rw [h1] at h
  injection h with h
  simp only [Prod.mk.injEq] at h
  obtain ⟨rfl, rfl, rfl⟩ := h
  intro j
  have hbd := C33_bounds A st.epoch st.xval st.xold1 st.xold2 st.low st.upp
  have hint := C34_interior _ solve _ _ (fun j => (hbd j (hb j) hm (hx j).1 (hx j).2 (asymptotes A st.epoch st.xval st.xold1 st.xold2 st.low st.upp).1 (asymptotes A st.epoch st.xval st.xold1 st.xold2 st.low st.upp).2 Prod.mk.eta.symm).2.2.2.2.2.2.2.2.1) q h1
  obtain ⟨b1, b2, b3, b4, b5, b6, b7, b8, b9, b10, b11⟩ := hbd j (hb j) hm (hx j).1 (hx j).2 (asymptotes A st.epoch st.xval st.xold1 st.xold2 st.low st.upp).1 (asymptotes A st.epoch st.xval st.xold1 st.xold2 st.low st.upp).2 Prod.mk.eta.symm
  obtain ⟨i1, i2⟩ := hint.1 j
  have i1 : alfaOf A st.xval (asymptotes A st.epoch st.xval st.xold1 st.xold2 st.low st.upp).1 j < q.x j := i1
  have i2 : q.x j < betaOf A st.xval (asymptotes A st.epoch st.xval st.xold1 st.xold2 st.low st.upp).2 j := i2
  refine ⟨by linarith, by linarith, ?_, by linarith, by linarith⟩
  rw [abs_le] at b10 b11
  rw [abs_lt]
  constructor <;> linarith [b10.1, b11.2]

/-! ## C35 -/

variable {N k : ℕ}

theorem optStep_ok (solve : LinSolve) (move : ℝ) (hm : 0 < move) (H : Fin N → Fin N → ℝ) (U : Handles N k κ) (s s' : ℕ × State (Fin N × Fin k)) (hx : ∀ j, 0 ≤ s.2.xval j ∧ s.2.xval j ≤ 1)
    (h : optStep solve move H U s = .ok s') : s'.1 = s.1 + 1 ∧ ∀ j, 0 < s'.2.xval j ∧ s'.2.xval j < 1 ∧ |s'.2.xval j - s.2.xval j| < move := by
  unfold optStep at h
  dsimp only [bind, Except.bind] at h
  cases h1 : U.obj (s.1 + 1) s.2.xval with
  | error e => rw [h1] at h; cases h
  | ok dJ =>
  rw [h1] at h
  dsimp only at h
  cases h2 : U.cons (s.1 + 1) s.2.xval with
  | error e => rw [h2] at h; cases h
  | ok c =>
  rw [h2] at h
  dsimp only at h
  cases h3 : mmasub solve (optParams move) s.2 (applyFilter H s.2.xval dJ) c.1 (fun i => applyFilter H s.2.xval (c.2 i)) with
  | error e => rw [h3] at h; cases h
  | ok r =>
  obtain ⟨p, low, upp⟩ := r
  rw [h3] at h
  injection h with h
  subst h
  refine ⟨rfl, fun j => ?_⟩
  have := mmasub_bounds solve (optParams move) s.2 (fun _ => by simp [optParams]) hm hx _ _ _ p low upp h3 j
  simpa [optParams] using And.intro this.1 (And.intro this.2.1 this.2.2.1)

/-- **C35 (every design).** Whatever the objective and constraint callbacks return, whatever the filter matrix and the linear solver: every state reached by the optimisation loop has densities in `[0, 1]`; after the first iteration they are
strictly inside, and successive designs differ by less than the move limit. -/
theorem C35_designs (solve : LinSolve) (move : ℝ) (hm : 0 < move) (H : Fin N → Fin N → ℝ) (U : Handles N k κ) (rho : Fin N × Fin k → ℝ) (hrho : ∀ j, 0 ≤ rho j ∧ rho j ≤ 1) (s : ℕ × State (Fin N × Fin k))
    (hs : Relation.ReflTransGen (fun a b => optStep solve move H U a = .ok b) (0, optInit rho) s) :
    (∀ j, 0 ≤ s.2.xval j ∧ s.2.xval j ≤ 1) ∧ (0 < s.1 → ∀ j, 0 < s.2.xval j ∧ s.2.xval j < 1) ∧
    ∀ s', optStep solve move H U s = .ok s' → ∀ j, 0 ≤ s'.2.xval j ∧ s'.2.xval j ≤ 1 ∧ |s'.2.xval j - s.2.xval j| < move := by
  have hI : (∀ j, 0 ≤ s.2.xval j ∧ s.2.xval j ≤ 1) ∧ (0 < s.1 → ∀ j, 0 < s.2.xval j ∧ s.2.xval j < 1) := by
    induction hs with
    | refl => exact ⟨hrho, fun h => absurd h (lt_irrefl 0)⟩
    | tail _ hab ih =>
      obtain ⟨-, h⟩ := optStep_ok solve move hm H U _ _ ih.1 hab
      exact ⟨fun j => ⟨(h j).1.le, (h j).2.1.le⟩, fun _ j => ⟨(h j).1, (h j).2.1⟩⟩
  refine ⟨hI.1, hI.2, fun s' h j => ?_⟩
  obtain ⟨-, h⟩ := optStep_ok solve move hm H U _ _ hI.1 h
  exact ⟨(h j).1.le, (h j).2.1.le, (h j).2.2⟩

/-- **C35 (result).** If `optimize` returns, the returned design is in `[0, 1]` and, after `maxIters` iterations, within `maxIters` move limits of the initial one. -/
theorem C35_result (solve : LinSolve) (move : ℝ) (hm : 0 < move) (maxIters : ℕ) (filter : Except MmaErr (Fin N → Fin N → ℝ)) (U : Handles N k κ) (rho : Fin N × Fin k → ℝ) (hrho : ∀ j, 0 ≤ rho j ∧ rho j ≤ 1)
    (res : Fin N × Fin k → ℝ) (h : optimize solve move maxIters filter U rho = .ok res) : ∀ j, 0 ≤ res j ∧ res j ≤ 1 ∧ |res j - rho j| ≤ maxIters * move := by
  unfold optimize at h
  cases hf : filter with
  | error e => rw [hf] at h; cases h
  | ok H =>
  rw [hf] at h
  dsimp only [bind, Except.bind] at h
  cases hw : whileE (fun s : ℕ × State (Fin N × Fin k) => s.1 < maxIters) (optStep solve move H U) maxIters (0, optInit rho) with
  | error e => rw [hw] at h; cases h
  | ok s =>
  rw [hw] at h
  injection h with h
  subst h
  have := whileE_inv (fun s : ℕ × State (Fin N × Fin k) => s.1 ≤ maxIters ∧ ∀ j, 0 ≤ s.2.xval j ∧ s.2.xval j ≤ 1 ∧ |s.2.xval j - rho j| ≤ s.1 * move) (fun s hI hc s' hb => by
    obtain ⟨h1, h2⟩ := optStep_ok solve move hm H U s s' (fun j => ⟨(hI.2 j).1, (hI.2 j).2.1⟩) hb
    refine ⟨by rw [h1]; exact hc, fun j => ⟨(h2 j).1.le, (h2 j).2.1.le, ?_⟩⟩
    have e : s'.2.xval j - rho j = (s'.2.xval j - s.2.xval j) + (s.2.xval j - rho j) := by ring
    rw [e, h1]
    push_cast
    have := abs_add_le (s'.2.xval j - s.2.xval j) (s.2.xval j - rho j)
    have := (hI.2 j).2.2
    have := (h2 j).2.2
    linarith) maxIters _ s ⟨Nat.zero_le _, fun j => ⟨(hrho j).1, (hrho j).2, by simp [optInit]⟩⟩ hw
  intro j
  obtain ⟨⟨h1, h2⟩, -⟩ := this
  refine ⟨(h2 j).1, (h2 j).2.1, (h2 j).2.2.trans ?_⟩
  exact mul_le_mul_of_nonneg_right (by exact_mod_cast h1) hm.le

/-- **C73 (optimisation).** With callbacks that do not raise and a linear solver that solves every nonsingular system, `optimize` returns a design after `maxIters` iterations. -/
theorem C73_optimize [NeZero N] [NeZero k] (solve : LinSolve) (hex : solve.Exact) (move : ℝ) (hm : 0 < move) (maxIters : ℕ) (H : Fin N → Fin N → ℝ) (U : Handles N k κ) (rho : Fin N × Fin k → ℝ)
    (hrho : ∀ j, 0 ≤ rho j ∧ rho j ≤ 1) (hobj : ∀ l x, ∃ g, U.obj l x = .ok g) (hcons : ∀ l x, ∃ g, U.cons l x = .ok g) : ∃ res, optimize solve move maxIters (.ok H) U rho = .ok res := by
  obtain ⟨s, hs⟩ := whileE_total (c := fun s : ℕ × State (Fin N × Fin k) => s.1 < maxIters) (b := optStep solve move H U) (fun k s => maxIters ≤ k + s.1 ∧ ∀ j, 0 ≤ s.2.xval j ∧ s.2.xval j ≤ 1)
    (fun s h0 hc => by have := h0.1; omega)
    (fun n s hn _ => by
      obtain ⟨dJ, h1⟩ := hobj (s.1 + 1) s.2.xval
      obtain ⟨c, h2⟩ := hcons (s.1 + 1) s.2.xval
      obtain ⟨r, h3⟩ := C73_mmasub (ι := Fin N × Fin k) solve hex (optParams move) s.2 (fun _ => by simp [optParams]) hm hn.2 (fun _ => le_rfl) (applyFilter H s.2.xval dJ) c.1 (fun i => applyFilter H s.2.xval (c.2 i))
      have hstep : ∃ s', optStep solve move H U s = .ok s' := by
        unfold optStep
        dsimp only [bind, Except.bind]
        rw [h1]
        dsimp only
        rw [h2]
        dsimp only
        rw [h3]
        exact ⟨_, rfl⟩
      obtain ⟨s', hs'⟩ := hstep
      obtain ⟨e1, e2⟩ := optStep_ok solve move hm H U s s' hn.2 hs'
      refine ⟨s', hs', ?_, fun j => ⟨(e2 j).1.le, (e2 j).2.1.le⟩⟩
      rw [e1]
      have := hn.1
      omega) maxIters (0, optInit rho) ⟨by simp, hrho⟩
  refine ⟨s.2.xval, ?_⟩
  unfold optimize
  dsimp only [bind, Except.bind]
  rw [hs]
  rfl

/-- Such a linear solver exists, so `C73` is not vacuous. -/
theorem exists_exact : ∃ solve : LinSolve, solve.Exact := by
  refine ⟨⟨fun ω _ _ M v => .ok (M⁻¹.mulVec v)⟩, fun ω _ _ M v hM => ⟨_, rfl, ?_⟩⟩
  rw [Matrix.mulVec_mulVec, Matrix.mul_nonsing_inv _ (isUnit_iff_ne_zero.mpr hM), Matrix.one_mulVec]

/-- Twenty cells, one constraint, arbitrary sensitivities: five iterations return a design in `[0, 1]`. -/
example (H : Fin 20 → Fin 20 → ℝ) (g : Fin 20 × Fin 1 → ℝ) (v : ℝ) : ∃ solve res, optimize solve 0.2 5 (.ok H) ({ obj := fun _ _ => .ok g, cons := fun _ _ => .ok (fun _ => v, fun _ => g) } : Handles 20 1 (Fin 1)) (fun _ => 0.5) = .ok res ∧
    ∀ j, 0 ≤ res j ∧ res j ≤ 1 := by
  obtain ⟨solve, hex⟩ := exists_exact
  obtain ⟨res, hres⟩ := C73_optimize solve hex 0.2 (by norm_num) 5 H ({ obj := fun _ _ => .ok g, cons := fun _ _ => .ok (fun _ => v, fun _ => g) } : Handles 20 1 (Fin 1)) (fun _ => 0.5) (fun _ => by norm_num)
    (fun _ _ => ⟨_, rfl⟩) (fun _ _ => ⟨_, rfl⟩)
  exact ⟨solve, res, hres, fun j => ⟨(C35_result solve 0.2 (by norm_num) 5 _ _ _ (fun _ => by norm_num) res hres j).1, (C35_result solve 0.2 (by norm_num) 5 _ _ _ (fun _ => by norm_num) res hres j).2.1⟩⟩

/-! ## C37 -/

/-- Specification of `KDTree.query(x, 20)`: the found neighbours are distinct and no other point is closer; missing neighbours are reported with index `N`. -/
structure IsKdQuery {dim : ℕ} (cen : Fin N → Fin dim → ℝ) (query : Fin N → Fin 20 → ℕ) : Prop where
  found : ∀ i (t : Fin 20), (t : ℕ) < N → query i t < N
  missing : ∀ i (t : Fin 20), N ≤ t → query i t = N
  inj : ∀ i (t t' : Fin 20), (t : ℕ) < N → (t' : ℕ) < N → query i t = query i t' → t = t'
  nearest : ∀ i (t : Fin 20) (j l : Fin N), query i t = (l : ℕ) → (∀ t' : Fin 20, query i t' ≠ (j : ℕ)) → dist2 (cen i) (cen l) ≤ dist2 (cen i) (cen j)

theorem dist2_self {dim : ℕ} (x : Fin dim → ℝ) : dist2 x x = 0 := by simp [dist2]

theorem dist2_comm {dim : ℕ} (x y : Fin dim → ℝ) : dist2 x y = dist2 y x := by
  unfold dist2
  congr 1
  exact sum_congr rfl fun d _ => by ring

theorem dist2_nonneg {dim : ℕ} (x y : Fin dim → ℝ) : 0 ≤ dist2 x y := Real.sqrt_nonneg _

/-- **C37 (too few cells).** With at least one but fewer than 20 flexible cells the filter construction raises. -/
theorem C37_few {dim : ℕ} (cen : Fin N → Fin dim → ℝ) (rmin : ℝ) (query : Fin N → Fin 20 → ℕ) (hq : IsKdQuery cen query) (h0 : 0 < N) (h20 : N < 20) : computeFilter cen rmin query = .error .index := by
  unfold computeFilter
  refine dif_neg fun h => ?_
  have := h ⟨0, h0⟩ ⟨N, h20⟩
  rw [hq.missing ⟨0, h0⟩ ⟨N, h20⟩ le_rfl] at this
  exact lt_irrefl _ this

/-- **C37 (weights).** With at least 20 flexible cells the filter is built; its weights are non-negative, the weight of cell `j` in row `i` is the hat function of the distance if `j` is among the 20 neighbours and `0` otherwise, and every
row sum is positive. -/
theorem C37_weights {dim : ℕ} (cen : Fin N → Fin dim → ℝ) (rmin : ℝ) (hr : 0 < rmin) (query : Fin N → Fin 20 → ℕ) (hq : IsKdQuery cen query) (h20 : 20 ≤ N) :
    ∃ H, computeFilter cen rmin query = .ok H ∧ (∀ i j, 0 ≤ H i j) ∧
      (∀ (i j : Fin N), ((∃ t, query i t = (j : ℕ)) → H i j = max (rmin - dist2 (cen i) (cen j)) 0) ∧ ((∀ t, query i t ≠ (j : ℕ)) → H i j = 0)) ∧ ∀ i, 0 < rowSum H i := by
  have hall : ∀ i t, query i t < N := fun i t => hq.found i t (lt_of_lt_of_le t.2 h20)
  refine ⟨_, dif_pos hall, ?_, ?_, ?_⟩
  · intro i j
    refine sum_nonneg fun t _ => ?_
    split
    · dsimp only
      split
      · rename_i h; exact h.le
      · exact le_rfl
    · exact le_rfl
  · intro i j
    constructor
    · rintro ⟨t, ht⟩
      rw [sum_eq_single t]
      · rw [if_pos ht]
        have : (⟨query i t, hall i t⟩ : Fin N) = j := Fin.ext ht
        dsimp only
        rw [this]
        split
        · rename_i h; exact (max_eq_left h.le).symm
        · rename_i h; exact (max_eq_right (not_lt.mp h)).symm
      · intro t' _ hne
        rw [if_neg]
        intro h
        exact hne (hq.inj i t' t (lt_of_lt_of_le t'.2 h20) (lt_of_lt_of_le t.2 h20) (h.trans ht.symm))
      · intro h; exact absurd (mem_univ t) h
    · intro h
      exact sum_eq_zero fun t _ => if_neg (h t)
  · intro i
    have hnn : ∀ j, 0 ≤ (fun j : Fin N => ∑ t, if query i t = (j : ℕ) then (let dd := dist2 (cen i) (cen ⟨query i t, hall i t⟩); if rmin - dd > 0 then rmin - dd else 0) else 0) j := by
      intro j
      refine sum_nonneg fun t _ => ?_
      split
      · dsimp only
        split
        · rename_i h; exact h.le
        · exact le_rfl
      · exact le_rfl
    -- some neighbour is at distance zero
    have hz : ∃ t : Fin 20, dist2 (cen i) (cen ⟨query i t, hall i t⟩) = 0 := by
      by_cases h : ∃ t, query i t = (i : ℕ)
      · obtain ⟨t, ht⟩ := h
        refine ⟨t, ?_⟩
        have : (⟨query i t, hall i t⟩ : Fin N) = i := Fin.ext ht
        rw [this, dist2_self]
      · push Not at h
        refine ⟨0, le_antisymm ?_ (dist2_nonneg _ _)⟩
        have := hq.nearest i 0 i ⟨query i 0, hall i 0⟩ rfl h
        rwa [dist2_self] at this
    obtain ⟨t, ht⟩ := hz
    refine sum_pos' (fun j _ => hnn j) ⟨⟨query i t, hall i t⟩, mem_univ _, ?_⟩
    refine sum_pos' (fun t' _ => ?_) ⟨t, mem_univ _, ?_⟩
    · split
      · dsimp only
        split
        · rename_i h; exact h.le
        · exact le_rfl
      · exact le_rfl
    · rw [if_pos rfl]
      dsimp only
      rw [ht, sub_zero, if_pos hr]
      exact hr

/-- **C37 (symmetry).** If no cell has more than 20 cells (itself included) closer than `rmin`, the filter is the full hat-function filter and hence symmetric. -/
theorem C37_symmetric {dim : ℕ} (cen : Fin N → Fin dim → ℝ) (rmin : ℝ) (hr : 0 < rmin) (query : Fin N → Fin 20 → ℕ) (hq : IsKdQuery cen query) (h20 : 20 ≤ N)
    (hfew : ∀ i, (univ.filter fun j => dist2 (cen i) (cen j) < rmin).card ≤ 20) :
    ∃ H, computeFilter cen rmin query = .ok H ∧ (∀ i j, H i j = max (rmin - dist2 (cen i) (cen j)) 0) ∧ ∀ i j, H i j = H j i := by
  obtain ⟨H, hH, -, hw, -⟩ := C37_weights cen rmin hr query hq h20
  have hall : ∀ i t, query i t < N := fun i t => hq.found i t (lt_of_lt_of_le t.2 h20)
  have hval : ∀ i j, H i j = max (rmin - dist2 (cen i) (cen j)) 0 := by
    intro i j
    by_cases h : ∃ t, query i t = (j : ℕ)
    · exact (hw i j).1 h
    · push Not at h
      rw [(hw i j).2 h]
      by_contra hne
      have hlt : dist2 (cen i) (cen j) < rmin := by
        by_contra hge
        exact hne (max_eq_right (by linarith)).symm
      -- then the 20 neighbours and j are all closer than rmin
      let f : Fin 20 → Fin N := fun t => ⟨query i t, hall i t⟩
      have hf : Function.Injective f := fun t t' htt => hq.inj i t t' (lt_of_lt_of_le t.2 h20) (lt_of_lt_of_le t'.2 h20) (congrArg Fin.val htt)
      have hj : j ∉ univ.image f := by
        rw [mem_image]
        rintro ⟨t, -, ht⟩
        exact h t (congrArg Fin.val ht)
      have hsub : insert j (univ.image f) ⊆ univ.filter fun j => dist2 (cen i) (cen j) < rmin := by
        intro l hl
        rw [mem_filter]
        refine ⟨mem_univ _, ?_⟩
        rcases mem_insert.mp hl with rfl | hl
        · exact hlt
        · obtain ⟨t, -, rfl⟩ := mem_image.mp hl
          exact lt_of_le_of_lt (hq.nearest i t j (f t) rfl h) hlt
      have := card_le_card hsub
      rw [card_insert_of_notMem hj, card_image_of_injective _ hf, card_univ, Fintype.card_fin] at this
      have := hfew i
      omega
  exact ⟨H, hH, hval, fun i j => by rw [hval, hval, dist2_comm]⟩

/-- **C37 (constants).** With equal positive row sums and densities of at least `1e-3` a constant sensitivity is reproduced. -/
theorem C37_constants (H : Fin N → Fin N → ℝ) (h c : ℝ) (hh : 0 < h) (hrow : ∀ i, rowSum H i = h) (rho : Fin N × Fin k → ℝ) (hrho : ∀ j, 0.001 ≤ rho j) : applyFilter H rho (fun _ => c) = fun _ => c := by
  funext x
  unfold applyFilter
  have e : ∀ j, H x.1 j * (rho (j, x.2) * c / max 0.001 (rho (j, x.2)) / rowSum H j) = H x.1 j * (c / h) := by
    intro j
    rw [max_eq_right (hrho _), hrow]
    have : rho (j, x.2) ≠ 0 := by have := hrho (j, x.2); linarith
    field_simp
  simp only [e]
  rw [← sum_mul]
  have : ∑ j, H x.1 j = h := hrow x.1
  rw [this]
  field_simp

/-- **C37 (total).** For a symmetric filter with nonzero row sums the total of the filtered sensitivities is the total of the sensitivities weighted with `rho / max(1e-3, rho)`; it is preserved when all densities are at least `1e-3`. -/
theorem C37_total (H : Fin N → Fin N → ℝ) (hsym : ∀ i j, H i j = H j i) (hrow : ∀ i, rowSum H i ≠ 0) (rho g : Fin N × Fin k → ℝ) :
    ∑ x, applyFilter H rho g x = ∑ x, rho x / max 0.001 (rho x) * g x ∧ ((∀ j, 0.001 ≤ rho j) → ∑ x, applyFilter H rho g x = ∑ x, g x) := by
  have h1 : ∑ x, applyFilter H rho g x = ∑ x, rho x / max 0.001 (rho x) * g x := by
    rw [Fintype.sum_prod_type, Fintype.sum_prod_type, sum_comm]
    conv_rhs => rw [sum_comm]
    refine sum_congr rfl fun l _ => ?_
    unfold applyFilter
    rw [sum_comm]
    refine sum_congr rfl fun j _ => ?_
    dsimp only
    rw [← sum_mul]
    have : ∑ i, H i j = rowSum H j := sum_congr rfl fun i _ => hsym i j
    rw [this]
    have := hrow j
    field_simp
  refine ⟨h1, fun hrho => h1.trans (sum_congr rfl fun x _ => ?_)⟩
  rw [max_eq_right (hrho x), div_self (by have := hrho x; linarith), one_mul]

/-- On a line of 20 cells with spacing `1` a query that lists all cells satisfies the specification of the tree. -/
theorem lineQuery : IsKdQuery (N := 20) (dim := 1) (fun i _ => (i : ℝ)) (fun _ t => t) where
  found _ t _ := t.2
  missing _ t h := absurd t.2 (not_lt.mpr h)
  inj _ _ _ _ _ h := Fin.ext h
  nearest _ _ j _ _ h := absurd rfl (h j)

/-- Hence the filter of radius `1.5` on this line is built and symmetric. -/
example : ∃ H, computeFilter (N := 20) (dim := 1) (fun i _ => (i : ℝ)) 1.5 (fun _ t => t) = .ok H ∧ (∀ i j, H i j = max (1.5 - dist2 (fun _ : Fin 1 => (i : ℝ)) fun _ => (j : ℝ)) 0) ∧ ∀ i j, H i j = H j i :=
  C37_symmetric _ _ (by norm_num) _ lineQuery le_rfl fun i => (card_le_univ _).trans (by simp)

/-- With three cells the query reports missing neighbours and the construction raises. -/
example : computeFilter (N := 3) (dim := 1) (fun i _ => (i : ℝ)) 1.5 (fun _ t => min t 3) = .error .index := by
  refine C37_few _ _ _ ⟨fun _ t h => ?_, fun _ t h => ?_, fun _ t t' h h' e => ?_, fun i t j l _ h => ?_⟩ (by norm_num) (by norm_num)
  · show min (t : ℕ) 3 < 3
    omega
  · show min (t : ℕ) 3 = 3
    omega
  · have e : min (t : ℕ) 3 = min (t' : ℕ) 3 := e
    exact Fin.ext (by omega)
  · exact absurd (Nat.min_eq_left j.2.le) (h ⟨j, by omega⟩)

/-- Without equal row sums constants are not reproduced: the code divides by the row sum of the source cell, not of the target cell. -/
example : applyFilter (!![2, 1; 1, 1] : Fin 2 → Fin 2 → ℝ) (fun _ : Fin 2 × Fin 1 => 1) (fun _ => 1) (0, 0) ≠ 1 := by
  simp [applyFilter, rowSum, Fin.sum_univ_two]
  norm_num

/-- The total is preserved by the same filter. -/
example (g : Fin 2 × Fin 1 → ℝ) : ∑ x, applyFilter (!![2, 1; 1, 1] : Fin 2 → Fin 2 → ℝ) (fun _ => 0.5) g x = ∑ x, g x := by
  refine (C37_total _ (fun i j => ?_) (fun i => ?_) _ _).2 fun _ => by norm_num
  · fin_cases i <;> fin_cases j <;> rfl
  · fin_cases i <;> norm_num [rowSum, Fin.sum_univ_two]

/-- `rmin` is positive for a mesh of positive volume. -/
theorem rmin_pos (V : ℝ) (hV : 0 < V) (n dim : ℕ) (hn : 0 < n) : 0 < rminOf V n dim := by
  unfold rminOf
  have : (0 : ℝ) < n := by exact_mod_cast hn
  have := Real.rpow_pos_of_pos (div_pos hV this) (1 / (dim : ℝ))
  linarith

end Verif.Fem.Mma
