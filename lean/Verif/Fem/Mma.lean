import Mathlib.Data.Matrix.Block
import Mathlib.Data.Real.Sqrt
import Mathlib.Analysis.SpecialFunctions.Pow.Real

/-!
# The method of moving asymptotes (model of `jax_am/fem/mma.py`)

Column vectors of shape `(n, 1)` and `(m, 1)` are functions on finite index types: `ι` for the design variables and `κ` for the constraints, so `n` and `m` are their cardinalities;
`np.concatenate` along the vector axis is a function on the sum type. Python floats are reals. Where numpy divides by zero (with a warning and an infinity or NaN as result) the model yields `0`; `C34_denominators`
shows that this never happens. `numpy.linalg.solve` is an arbitrary oracle that may raise (`LinSolve`).
The while loops run through `whileE` with an explicit bound on the number of passes; `MmaErr.fuel` marks an exhausted bound and `C34_terminates` shows that it is never reached.
-/
namespace Verif.Fem.Mma
open Finset

/-- Exceptions: exhausted loop bound (model only), `np.max` of an empty array, `LinAlgError`, `IndexError` of `np.take`, an exception raised by a user callback. -/
inductive MmaErr
  | fuel
  | empty
  | singular
  | index
  | user
  deriving DecidableEq, Repr

/-- A Python while loop with at most `k` passes. -/
noncomputable def whileE {σ : Type} (c : σ → Prop) (b : σ → Except MmaErr σ) : ℕ → σ → Except MmaErr σ
  | 0, s => open Classical in if c s then .error .fuel else .ok s
  | k + 1, s => open Classical in if c s then (do let s' ← b s; whileE c b k s') else .ok s

/-- `np.max` of an array: raises on an empty array. -/
noncomputable def npMax {α : Type} [Fintype α] (f : α → ℝ) : Except MmaErr ℝ :=
  open Classical in if h : (univ : Finset α).Nonempty then .ok (univ.sup' h f) else .error .empty

/-- `numpy.linalg.solve` as an oracle. -/
structure LinSolve where
  run : ∀ (ω : Type) [Fintype ω] [DecidableEq ω], Matrix ω ω ℝ → (ω → ℝ) → Except MmaErr (ω → ℝ)

/-! ## The subproblem solver -/

/-- The arguments of `subsolv` (mma.py 206). -/
structure Sub (ι κ : Type) where
  low : ι → ℝ
  upp : ι → ℝ
  alfa : ι → ℝ
  beta : ι → ℝ
  p0 : ι → ℝ
  q0 : ι → ℝ
  P : κ → ι → ℝ
  Q : κ → ι → ℝ
  a0 : ℝ
  a : κ → ℝ
  b : κ → ℝ
  c : κ → ℝ
  d : κ → ℝ

/-- The nine unknowns of `subsolv`; also used for search directions. -/
@[ext] structure Pt (ι κ : Type) where
  x : ι → ℝ
  y : κ → ℝ
  z : ℝ
  lam : κ → ℝ
  xsi : ι → ℝ
  eta : ι → ℝ
  mu : κ → ℝ
  zet : ℝ
  s : κ → ℝ

variable {ι κ : Type} [Fintype ι] [Fintype κ]

/-- Starting point (mma.py 212-222). -/
noncomputable def start (S : Sub ι κ) : Pt ι κ :=
  let x := fun j => 0.5 * (S.alfa j + S.beta j)
  { x := x
    y := fun _ => 1
    z := 1
    lam := fun _ => 1
    xsi := fun j => max (1 / (x j - S.alfa j)) 1
    eta := fun j => max (1 / (S.beta j - x j)) 1
    mu := fun i => max 1 (0.5 * S.c i)
    zet := 1
    s := fun _ => 1 }

/-- `plam` (mma.py 234, 267, 373). -/
def plam (S : Sub ι κ) (p : Pt ι κ) (j : ι) : ℝ := S.p0 j + ∑ i, S.P i j * p.lam i

/-- `qlam` (mma.py 235, 268, 374). -/
def qlam (S : Sub ι κ) (p : Pt ι κ) (j : ι) : ℝ := S.q0 j + ∑ i, S.Q i j * p.lam i

/-- `gvec` (mma.py 236, 269, 375). -/
noncomputable def gvec (S : Sub ι κ) (p : Pt ι κ) (i : κ) : ℝ := ∑ j, S.P i j * (1 / (S.upp j - p.x j)) + ∑ j, S.Q i j * (1 / (p.x j - S.low j))

/-- `dpsidx` (mma.py 237, 275, 376). -/
noncomputable def dpsidx (S : Sub ι κ) (p : Pt ι κ) (j : ι) : ℝ :=
  plam S p j / ((S.upp j - p.x j) * (S.upp j - p.x j)) - qlam S p j / ((p.x j - S.low j) * (p.x j - S.low j))

/-- Index type of the concatenated residual. -/
abbrev ResIx (ι κ : Type) := (ι ⊕ κ ⊕ Unit) ⊕ (κ ⊕ ι ⊕ ι ⊕ κ ⊕ Unit ⊕ κ)

/-- `residu` (mma.py 228-249 and again 367-389): residual of the perturbed optimality conditions. -/
noncomputable def residu (S : Sub ι κ) (epsi : ℝ) (p : Pt ι κ) : ResIx ι κ → ℝ :=
  let rex := fun j => dpsidx S p j - p.xsi j + p.eta j
  let rey := fun i => S.c i + S.d i * p.y i - p.mu i - p.lam i
  let rez := fun _ => S.a0 - p.zet - ∑ i, S.a i * p.lam i
  let relam := fun i => gvec S p i - S.a i * p.z - p.y i + p.s i - S.b i
  let rexsi := fun j => p.xsi j * (p.x j - S.alfa j) - epsi
  let reeta := fun j => p.eta j * (S.beta j - p.x j) - epsi
  let remu := fun i => p.mu i * p.y i - epsi
  let rezet := fun _ => p.zet * p.z - epsi
  let res := fun i => p.lam i * p.s i - epsi
  Sum.elim (Sum.elim rex (Sum.elim rey rez)) (Sum.elim relam (Sum.elim rexsi (Sum.elim reeta (Sum.elim remu (Sum.elim rezet res)))))

/-- `residunorm`, `resinew` (mma.py 250, 390). -/
noncomputable def resNorm (r : ResIx ι κ → ℝ) : ℝ := Real.sqrt (∑ k, r k * r k)

/-- `GG` (mma.py 273). -/
noncomputable def gg (S : Sub ι κ) (p : Pt ι κ) (i : κ) (j : ι) : ℝ :=
  1 / ((S.upp j - p.x j) * (S.upp j - p.x j)) * S.P i j - 1 / ((p.x j - S.low j) * (p.x j - S.low j)) * S.Q i j

/-- `delx` (mma.py 276). -/
noncomputable def delx (S : Sub ι κ) (epsi : ℝ) (p : Pt ι κ) (j : ι) : ℝ := dpsidx S p j - epsi / (p.x j - S.alfa j) + epsi / (S.beta j - p.x j)

/-- `dely` (mma.py 277). -/
noncomputable def dely (S : Sub ι κ) (epsi : ℝ) (p : Pt ι κ) (i : κ) : ℝ := S.c i + S.d i * p.y i - p.lam i - epsi / p.y i

/-- `delz` (mma.py 278). -/
noncomputable def delz (S : Sub ι κ) (epsi : ℝ) (p : Pt ι κ) : ℝ := S.a0 - ∑ i, S.a i * p.lam i - epsi / p.z

/-- `dellam` (mma.py 279). -/
noncomputable def dellam (S : Sub ι κ) (epsi : ℝ) (p : Pt ι κ) (i : κ) : ℝ := gvec S p i - S.a i * p.z - p.y i - S.b i + epsi / p.lam i

/-- `diagx` (mma.py 280-281), with `ux3 = ux1*ux2`, `xl3 = xl1*xl2` (mma.py 261-262). -/
noncomputable def diagx (S : Sub ι κ) (p : Pt ι κ) (j : ι) : ℝ :=
  let ux1 := S.upp j - p.x j
  let xl1 := p.x j - S.low j
  2 * (plam S p j / (ux1 * (ux1 * ux1)) + qlam S p j / (xl1 * (xl1 * xl1))) + p.xsi j / (p.x j - S.alfa j) + p.eta j / (S.beta j - p.x j)

/-- `diagy` (mma.py 283). -/
noncomputable def diagy (S : Sub ι κ) (p : Pt ι κ) (i : κ) : ℝ := S.d i + p.mu i / p.y i

/-- `diaglamyi` (mma.py 284-286). -/
noncomputable def diaglamyi (S : Sub ι κ) (p : Pt ι κ) (i : κ) : ℝ := p.s i / p.lam i + 1 / diagy S p i

/-- The matrix `AA` of the branch `m < n` (mma.py 294-298). -/
noncomputable def matLam [DecidableEq κ] (S : Sub ι κ) (p : Pt ι κ) : Matrix (κ ⊕ Unit) (κ ⊕ Unit) ℝ :=
  Matrix.fromBlocks (Matrix.of fun i i' => (if i = i' then diaglamyi S p i else 0) + ∑ j, (1 / diagx S p j * gg S p i j) * gg S p i' j) (Matrix.of fun i _ => S.a i) (Matrix.of fun _ i => S.a i)
    (Matrix.of fun _ _ => -p.zet / p.z)

/-- The right-hand side `bb` of the branch `m < n` (mma.py 289-290). -/
noncomputable def rhsLam (S : Sub ι κ) (epsi : ℝ) (p : Pt ι κ) : κ ⊕ Unit → ℝ :=
  Sum.elim (fun i => dellam S epsi p i + dely S epsi p i / diagy S p i - ∑ j, gg S p i j * (delx S epsi p j / diagx S p j)) fun _ => delz S epsi p

/-- The matrix `AA` of the other branch (mma.py 304-314). -/
noncomputable def matX [DecidableEq ι] (S : Sub ι κ) (p : Pt ι κ) : Matrix (ι ⊕ Unit) (ι ⊕ Unit) ℝ :=
  let axz := fun j => ∑ i, -gg S p i j * (S.a i / diaglamyi S p i)
  Matrix.fromBlocks (Matrix.of fun j j' => (if j = j' then diagx S p j else 0) + ∑ i, (1 / diaglamyi S p i * gg S p i j) * gg S p i j') (Matrix.of fun j _ => axz j) (Matrix.of fun _ j => axz j)
    (Matrix.of fun _ _ => p.zet / p.z + ∑ i, S.a i * (S.a i / diaglamyi S p i))

/-- The right-hand side `bb` of the other branch (mma.py 305, 310-311, 315). -/
noncomputable def rhsX (S : Sub ι κ) (epsi : ℝ) (p : Pt ι κ) : ι ⊕ Unit → ℝ :=
  let dellamyi := fun i => dellam S epsi p i + dely S epsi p i / diagy S p i
  Sum.elim (fun j => -(delx S epsi p j + ∑ i, gg S p i j * (dellamyi i / diaglamyi S p i))) fun _ => -(delz S epsi p - ∑ i, S.a i * (dellamyi i / diaglamyi S p i))

/-- `dx`, `dz`, `dlam` (mma.py 288-320). -/
noncomputable def reduced [DecidableEq ι] [DecidableEq κ] (solve : LinSolve) (S : Sub ι κ) (epsi : ℝ) (p : Pt ι κ) : Except MmaErr ((ι → ℝ) × ℝ × (κ → ℝ)) :=
  if Fintype.card κ < Fintype.card ι then do
    let solut ← solve.run (κ ⊕ Unit) (matLam S p) (rhsLam S epsi p)
    let dlam := fun i => solut (Sum.inl i)
    let dz := solut (Sum.inr ())
    let dx := fun j => -delx S epsi p j / diagx S p j - (∑ i, gg S p i j * dlam i) / diagx S p j
    pure (dx, dz, dlam)
  else do
    let solut ← solve.run (ι ⊕ Unit) (matX S p) (rhsX S epsi p)
    let dx := fun j => solut (Sum.inl j)
    let dz := solut (Sum.inr ())
    let dlam := fun i => (∑ j, gg S p i j * dx j) / diaglamyi S p i - dz * (S.a i / diaglamyi S p i) + (dellam S epsi p i + dely S epsi p i / diagy S p i) / diaglamyi S p i
    pure (dx, dz, dlam)

/-- The remaining directions (mma.py 322-327). -/
noncomputable def extend (S : Sub ι κ) (epsi : ℝ) (p : Pt ι κ) (dx : ι → ℝ) (dz : ℝ) (dlam : κ → ℝ) : Pt ι κ :=
  let dy := fun i => -dely S epsi p i / diagy S p i + dlam i / diagy S p i
  { x := dx
    y := dy
    z := dz
    lam := dlam
    xsi := fun j => -p.xsi j + epsi / (p.x j - S.alfa j) - (p.xsi j * dx j) / (p.x j - S.alfa j)
    eta := fun j => -p.eta j + epsi / (S.beta j - p.x j) + (p.eta j * dx j) / (S.beta j - p.x j)
    mu := fun i => -p.mu i + epsi / p.y i - (p.mu i * dy i) / p.y i
    zet := -p.zet + epsi / p.z - p.zet * dz / p.z
    s := fun i => -p.s i + epsi / p.lam i - (p.s i * dlam i) / p.lam i }

/-- `xx`, `dxx` (mma.py 328-329). -/
def stack (p : Pt ι κ) : κ ⊕ Unit ⊕ κ ⊕ ι ⊕ ι ⊕ κ ⊕ Unit ⊕ κ → ℝ :=
  Sum.elim p.y (Sum.elim (fun _ => p.z) (Sum.elim p.lam (Sum.elim p.xsi (Sum.elim p.eta (Sum.elim p.mu (Sum.elim (fun _ => p.zet) p.s))))))

/-- `steg` (mma.py 331-340). -/
noncomputable def stepLength (S : Sub ι κ) (p d : Pt ι κ) : Except MmaErr ℝ := do
  let stmxx ← npMax fun k => -1.01 * stack d k / stack p k
  let stmalfa ← npMax fun j => -1.01 * d.x j / (p.x j - S.alfa j)
  let stmbeta ← npMax fun j => 1.01 * d.x j / (S.beta j - p.x j)
  pure (1 / max (max (max stmalfa stmbeta) stmxx) 1)

/-- `xold + steg*dx` and so on (mma.py 358-366). -/
def Pt.move (p : Pt ι κ) (t : ℝ) (d : Pt ι κ) : Pt ι κ where
  x := fun j => p.x j + t * d.x j
  y := fun i => p.y i + t * d.y i
  z := p.z + t * d.z
  lam := fun i => p.lam i + t * d.lam i
  xsi := fun j => p.xsi j + t * d.xsi j
  eta := fun j => p.eta j + t * d.eta j
  mu := fun i => p.mu i + t * d.mu i
  zet := p.zet + t * d.zet
  s := fun i => p.s i + t * d.s i

/-- Loop variables of the step halving loop. -/
structure Halving (ι κ : Type) where
  p : Pt ι κ
  residu : ResIx ι κ → ℝ
  resinew : ℝ
  steg : ℝ
  itto : ℕ

/-- The step halving loop (mma.py 352-392). -/
noncomputable def halvingLoop (fuel : ℕ) (S : Sub ι κ) (epsi : ℝ) (pold d : Pt ι κ) (residunorm : ℝ) (st : Halving ι κ) : Except MmaErr (Halving ι κ) :=
  whileE (fun st => st.resinew > residunorm ∧ st.itto < 50) (fun st => do
    let p := pold.move st.steg d
    let r := residu S epsi p
    pure { p := p, residu := r, resinew := resNorm r, steg := st.steg / 2, itto := st.itto + 1 }) fuel st

/-- Loop variables of the Newton loop; `steg` is recomputed in every pass and therefore not kept. -/
structure Newton (ι κ : Type) where
  p : Pt ι κ
  residu : ResIx ι κ → ℝ
  residunorm : ℝ
  residumax : ℝ
  ittt : ℕ

/-- One pass of the Newton loop (mma.py 255-396). -/
noncomputable def newtonPass [DecidableEq ι] [DecidableEq κ] (fuel : ℕ) (solve : LinSolve) (S : Sub ι κ) (epsi : ℝ) (st : Newton ι κ) : Except MmaErr (Newton ι κ) := do
  let (dx, dz, dlam) ← reduced solve S epsi st.p
  let d := extend S epsi st.p dx dz dlam
  let steg ← stepLength S st.p d
  let h ← halvingLoop fuel S epsi st.p d st.residunorm { p := st.p, residu := st.residu, resinew := 2 * st.residunorm, steg := steg, itto := 0 }
  let residumax ← npMax fun k => |h.residu k|
  pure { p := h.p, residu := h.residu, residunorm := h.resinew, residumax := residumax, ittt := st.ittt + 1 }

/-- The Newton loop (mma.py 254-397). -/
noncomputable def newtonLoop [DecidableEq ι] [DecidableEq κ] (fuel1 fuel2 : ℕ) (solve : LinSolve) (S : Sub ι κ) (epsi : ℝ) (st : Newton ι κ) : Except MmaErr (Newton ι κ) :=
  whileE (fun st => st.residumax > 0.9 * epsi ∧ st.ittt < 200) (newtonPass fuel2 solve S epsi) fuel1 st

/-- One pass of the barrier loop (mma.py 226-398). -/
noncomputable def barrierPass [DecidableEq ι] [DecidableEq κ] (fuel1 fuel2 : ℕ) (solve : LinSolve) (S : Sub ι κ) (st : Pt ι κ × ℝ) : Except MmaErr (Pt ι κ × ℝ) := do
  let r := residu S st.2 st.1
  let residumax ← npMax fun k => |r k|
  let nw ← newtonLoop fuel1 fuel2 solve S st.2 { p := st.1, residu := r, residunorm := resNorm r, residumax := residumax, ittt := 0 }
  pure (nw.p, 0.1 * st.2)

/-- `subsolv` (mma.py 206-411); `fuel` bounds the passes of the barrier, Newton and halving loops. -/
noncomputable def subsolv [DecidableEq ι] [DecidableEq κ] (fuel : ℕ × ℕ × ℕ) (solve : LinSolve) (epsimin : ℝ) (S : Sub ι κ) : Except MmaErr (Pt ι κ) := do
  let st ← whileE (fun st : Pt ι κ × ℝ => st.2 > epsimin) (barrierPass fuel.2.1 fuel.2.2 solve S) fuel.1 (start S, 1)
  pure st.1

/-! ## The outer approximation -/

/-- The attributes of an `MMA` object that `mmasub` reads and that do not change during the optimisation (mma.py 79-98). -/
structure Params (ι κ : Type) where
  xmin : ι → ℝ
  xmax : ι → ℝ
  a0 : ℝ
  a : κ → ℝ
  c : κ → ℝ
  d : κ → ℝ
  move : ℝ

/-- The asymptotes (mma.py 135-152); `iter` is the epoch counter. -/
noncomputable def asymptotes (A : Params ι κ) (iter : ℕ) (xval xold1 xold2 low upp : ι → ℝ) : (ι → ℝ) × (ι → ℝ) :=
  open Classical in
  if iter ≤ 2 then (fun j => xval j - 0.5 * (A.xmax j - A.xmin j), fun j => xval j + 0.5 * (A.xmax j - A.xmin j))
  else
    let zzz := fun j => (xval j - xold1 j) * (xold1 j - xold2 j)
    let factor : ι → ℝ := fun j => if zzz j < 0 then 0.7 else if zzz j > 0 then 1.2 else 1
    let low1 := fun j => xval j - factor j * (xold1 j - low j)
    let upp1 := fun j => xval j + factor j * (upp j - xold1 j)
    let low2 := fun j => max (low1 j) (xval j - 10 * (A.xmax j - A.xmin j))
    let low3 := fun j => min (low2 j) (xval j - 0.01 * (A.xmax j - A.xmin j))
    let upp2 := fun j => min (upp1 j) (xval j + 10 * (A.xmax j - A.xmin j))
    let upp3 := fun j => max (upp2 j) (xval j + 0.01 * (A.xmax j - A.xmin j))
    (low3, upp3)

/-- `alfa` (mma.py 154-157). -/
noncomputable def alfaOf (A : Params ι κ) (xval low : ι → ℝ) (j : ι) : ℝ := max (max (low j + 0.1 * (xval j - low j)) (xval j - A.move * (A.xmax j - A.xmin j))) (A.xmin j)

/-- `beta` (mma.py 158-161). -/
noncomputable def betaOf (A : Params ι κ) (xval upp : ι → ℝ) (j : ι) : ℝ := min (min (upp j - 0.1 * (upp j - xval j)) (xval j + A.move * (A.xmax j - A.xmin j))) (A.xmax j)

/-- `raa0*xmamiinv` (mma.py 163-166, 177). -/
noncomputable def raa (A : Params ι κ) (j : ι) : ℝ := 0.00001 * (1 / max (A.xmax j - A.xmin j) 0.00001)

/-- The coefficient of `1/(upp-x)` for one gradient entry (mma.py 175-181 for the objective, 184-193 for the constraints). -/
noncomputable def coefP (A : Params ι κ) (xval upp : ι → ℝ) (g : ι → ℝ) (j : ι) : ℝ :=
  (max (g j) 0 + (0.001 * (max (g j) 0 + max (-g j) 0) + raa A j)) * ((upp j - xval j) * (upp j - xval j))

/-- The coefficient of `1/(x-low)`. -/
noncomputable def coefQ (A : Params ι κ) (xval low : ι → ℝ) (g : ι → ℝ) (j : ι) : ℝ :=
  (max (-g j) 0 + (0.001 * (max (g j) 0 + max (-g j) 0) + raa A j)) * ((xval j - low j) * (xval j - low j))

/-- The subproblem built by `mmasub` (mma.py 154-198). -/
noncomputable def subproblem (A : Params ι κ) (xval low upp : ι → ℝ) (df0dx : ι → ℝ) (fval : κ → ℝ) (dfdx : κ → ι → ℝ) : Sub ι κ :=
  let P := fun i => coefP A xval upp (dfdx i)
  let Q := fun i => coefQ A xval low (dfdx i)
  { low := low
    upp := upp
    alfa := alfaOf A xval low
    beta := betaOf A xval upp
    p0 := coefP A xval upp df0dx
    q0 := coefQ A xval low df0dx
    P := P
    Q := Q
    a0 := A.a0
    a := A.a
    b := fun i => ∑ j, P i j * (1 / (upp j - xval j)) + ∑ j, Q i j * (1 / (xval j - low j)) - fval i
    c := A.c
    d := A.d }

/-- The attributes of an `MMA` object that change (mma.py 74-78, 100-101). -/
structure State (ι : Type) where
  epoch : ℕ
  xval : ι → ℝ
  xold1 : ι → ℝ
  xold2 : ι → ℝ
  low : ι → ℝ
  upp : ι → ℝ

/-- `mmasub` (mma.py 113-203): the solution of the subproblem and the new asymptotes. The loop bounds are those justified by `C34_terminates`. -/
noncomputable def mmasub [DecidableEq ι] [DecidableEq κ] (solve : LinSolve) (A : Params ι κ) (st : State ι) (df0dx : ι → ℝ) (fval : κ → ℝ) (dfdx : κ → ι → ℝ) :
    Except MmaErr (Pt ι κ × (ι → ℝ) × (ι → ℝ)) := do
  let lu := asymptotes A st.epoch st.xval st.xold1 st.xold2 st.low st.upp
  let p ← subsolv (7, 200, 50) solve 0.0000001 (subproblem A st.xval lu.1 lu.2 df0dx fval dfdx)
  pure (p, lu.1, lu.2)

/-! ## The sensitivity filter -/

/-- `rmin` (mma.py 31-35): `V` is the sum of all `JxW`. -/
noncomputable def rminOf (V : ℝ) (numCells dim : ℕ) : ℝ := 1.5 * (V / numCells) ^ (1 / (dim : ℝ))

/-- The centroid of a cell (mma.py 27). -/
noncomputable def centroid {nn dim : ℕ} (points : ℕ → Fin dim → ℝ) (cell : Fin nn → ℕ) (d : Fin dim) : ℝ := (∑ a, points (cell a) d) / nn

/-- Euclidean distance. -/
noncomputable def dist2 {dim : ℕ} (x y : Fin dim → ℝ) : ℝ := Real.sqrt (∑ d, (x d - y d) ^ 2)

/-- `compute_filter_kd_tree` (mma.py 23-57) on the centroids of the `N` flexible cells; `query i t` is the index of the `t`-th neighbour found by the k-d tree for cell `i`, `N` standing for a missing neighbour as in scipy.
`np.take` raises an `IndexError` for it. The distances `dd` are those of the indices; `csc_array` adds up entries with the same position. -/
noncomputable def computeFilter {N dim : ℕ} (cen : Fin N → Fin dim → ℝ) (rmin : ℝ) (query : Fin N → Fin 20 → ℕ) : Except MmaErr (Fin N → Fin N → ℝ) :=
  open Classical in
  if h : ∀ i t, query i t < N then
    .ok fun i j => ∑ t, if query i t = (j : ℕ) then
      (let dd := dist2 (cen i) (cen ⟨query i t, h i t⟩)
       if rmin - dd > 0 then rmin - dd else 0) else 0
  else .error .index

/-- `Hs` (mma.py 56). -/
def rowSum {N : ℕ} (H : Fin N → Fin N → ℝ) (i : Fin N) : ℝ := ∑ j, H i j

/-- `applySensitivityFilter` for one sensitivity array (mma.py 60-63); `k` is the number of columns of `rho`. -/
noncomputable def applyFilter {N k : ℕ} (H : Fin N → Fin N → ℝ) (rho g : Fin N × Fin k → ℝ) : Fin N × Fin k → ℝ :=
  fun x => ∑ j, H x.1 j * (rho (j, x.2) * g (j, x.2) / max 0.001 (rho (j, x.2)) / rowSum H j)

/-! ## The optimisation loop -/

/-- The user callbacks; they may depend on the loop counter and may raise. The objective value itself is only printed. -/
structure Handles (N k : ℕ) (κ : Type) where
  obj : ℕ → (Fin N × Fin k → ℝ) → Except MmaErr (Fin N × Fin k → ℝ)
  cons : ℕ → (Fin N × Fin k → ℝ) → Except MmaErr ((κ → ℝ) × (κ → Fin N × Fin k → ℝ))

variable {N k : ℕ}

/-- The settings of `optimize` (mma.py 426-439): bounds `0` and `1`, `a0 = 1`, `a = 0`, `c = 10000`, `d = 0`. -/
def optParams (move : ℝ) : Params (Fin N × Fin k) κ where
  xmin := fun _ => 0
  xmax := fun _ => 1
  a0 := 1
  a := fun _ => 0
  c := fun _ => 10000
  d := fun _ => 0
  move := move

/-- The state before the loop (mma.py 432-436): `registerMMAIter` has been called once. -/
def optInit (rho : Fin N × Fin k → ℝ) : State (Fin N × Fin k) where
  epoch := 1
  xval := rho
  xold1 := rho
  xold2 := rho
  low := fun _ => 1
  upp := fun _ => 1

/-- One pass of the loop (mma.py 442-473); `rho` and `xval` hold the same numbers in different shapes. -/
noncomputable def optStep [DecidableEq κ] (solve : LinSolve) (move : ℝ) (H : Fin N → Fin N → ℝ) (U : Handles N k κ) (s : ℕ × State (Fin N × Fin k)) : Except MmaErr (ℕ × State (Fin N × Fin k)) := do
  let loop := s.1 + 1
  let dJ ← U.obj loop s.2.xval
  let (vc, dvc) ← U.cons loop s.2.xval
  let dJ := applyFilter H s.2.xval dJ
  let dvc := fun i => applyFilter H s.2.xval (dvc i)
  let (p, low, upp) ← mmasub solve (optParams move) s.2 dJ vc dvc
  pure (loop, { epoch := s.2.epoch + 1, xval := p.x, xold1 := s.2.xval, xold2 := s.2.xold1, low := low, upp := upp })

/-- `optimize` (mma.py 414-483) after the filter has been computed. -/
noncomputable def optimize [DecidableEq κ] (solve : LinSolve) (move : ℝ) (maxIters : ℕ) (filter : Except MmaErr (Fin N → Fin N → ℝ)) (U : Handles N k κ) (rhoIni : Fin N × Fin k → ℝ) :
    Except MmaErr (Fin N × Fin k → ℝ) := do
  let H ← filter
  let s ← whileE (fun s => s.1 < maxIters) (optStep solve move H U) maxIters (0, optInit rhoIni)
  pure s.2.xval

end Verif.Fem.Mma
