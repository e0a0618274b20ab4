import Mathlib.Data.Real.Sqrt
import Mathlib.Data.Fin.VecNotation
import Mathlib.Algebra.BigOperators.Fin
import Mathlib.Tactic.Linarith
import Mathlib.Tactic.Ring
import Mathlib.Tactic.FieldSimp
import Mathlib.Tactic.FinCases

/-!
# Two-dimensional free-surface lattice Boltzmann (model of jax_am/lbm/experiments/dam_break.py)

Simplifications: floats are real numbers, and a division that gives infinity or NaN in the code is the error `nan`. The bit flags of a cell are a set of flags (the constants of lines 38-55 are distinct powers of two). Arrays are functions on
`ℤ × ℤ`; in the closed domains of the file every cell that is worked on has all its neighbours inside the arrays, so the wrap-around of negative indices never occurs. The inlet and outlet branches call functions that are not defined in the file:
the error `name`. The array `inlet` is left out.
-/
namespace Verif.Lbm.Dam
open Finset

/-- `CT_Enum` (dam_break.py 38-55). -/
inductive CT | FLUID | INTERFACE | GAS | OBSTACLE | INLET | OUTLET | NO_FLUID_NEIGH | NO_EMPTY_NEIGH | NO_IFACE_NEIGH | TO_FLUID | TO_GAS
  deriving DecidableEq

/-- An integer of flags. -/
abbrev Flags := CT → Bool

/-- The integer with one flag. -/
def Flags.only (c : CT) : Flags := fun d => decide (d = c)
/-- `f & (a | b | ...)` as a condition. -/
def Flags.has (f : Flags) (l : List CT) : Bool := l.any f
/-- `f & ~(a | b | ...)`. -/
def Flags.clear (f : Flags) (l : List CT) : Flags := fun d => f d && !decide (d ∈ l)
/-- `f | a | b | ...`. -/
def Flags.set (f : Flags) (l : List CT) : Flags := fun d => f d || decide (d ∈ l)

/-- Not-a-number, or an undefined function. -/
inductive DErr | nan | name
  deriving DecidableEq

abbrev Pos := ℤ × ℤ

/-- `v` (dam_break.py 13-21). -/
def v : Fin 9 → Pos := ![(0, 0), (0, -1), (0, 1), (-1, 0), (-1, -1), (-1, 1), (1, 0), (1, -1), (1, 1)]

/-- `t` (dam_break.py 24-32). -/
noncomputable def t : Fin 9 → ℝ := ![4 / 9, 1 / 9, 1 / 9, 1 / 9, 1 / 36, 1 / 36, 1 / 9, 1 / 36, 1 / 36]

/-- `v_inv` (dam_break.py 35): the first index with the opposite vector. -/
def v_inv (i : Fin 9) : Fin 9 := ((List.finRange 9).find? fun j => v j = -v i).getD 0

/-- The entries of all arrays at one cell (dam_break.py 70-84). -/
structure Cell where
  fin : Fin 9 → ℝ
  fout : Fin 9 → ℝ
  equi : Fin 9 → ℝ
  fdist : Fin 9 → ℝ
  ux : ℝ
  uy : ℝ
  rho : ℝ
  mass : ℝ
  ty : Flags

abbrev State := Pos → Cell

/-- `set_equi` (dam_break.py 217-225). -/
noncomputable def setEqui (rho ux uy : ℝ) : Fin 9 → ℝ := fun n =>
  let usqr := 3 / 2 * (ux ^ 2 + uy ^ 2)
  let vu := 3 * ((v n).1 * ux + (v n).2 * uy)
  rho * t n * (1 + vu + 0.5 * vu * vu - usqr)

/-- `update_rho_u` (dam_break.py 189-214). -/
noncomputable def updateRhoU (c : Cell) : Except DErr Cell :=
  let rho := ∑ n, c.fin n
  open Classical in
  if rho = 0 then .error .nan else
  let ux := (∑ n, (v n).1 * c.fin n) / rho
  let uy := (∑ n, (v n).2 * c.fin n) / rho
  let vel := Real.sqrt (ux * ux + uy * uy)
  let maxvel := Real.sqrt (2 / 3)
  if vel > maxvel then .ok { c with rho := rho, ux := ux * (maxvel / vel), uy := uy * (maxvel / vel) } else .ok { c with rho := rho, ux := ux, uy := uy }

/-- `collide` (dam_break.py 227-238). -/
noncomputable def collide (omega gx gy : ℝ) (c : Cell) : Cell :=
  { c with fout := fun n => c.fin n + omega * (c.equi n - c.fin n) - c.rho * t n * ((v n).1 * gx + (v n).2 * gy) }

/-- The body of `lbm_collision` (dam_break.py 88-117); `set_outlet` and `set_inlet` do not exist. -/
noncomputable def collisionCell (omega gx gy : ℝ) (s : State) (p : Pos) : Except DErr Cell :=
  let c := s p
  if c.ty.has [.GAS, .OBSTACLE] then .ok c
  else if c.ty.has [.OUTLET] then .error .name
  else if c.ty.has [.INLET] then .error .name
  else do
    let c ← updateRhoU c
    let c := { c with equi := setEqui c.rho c.ux c.uy }
    .ok (collide omega gx gy c)

/-- `get_epsilon` (dam_break.py 240-260). -/
noncomputable def getEpsilon (ty : Flags) (rho mass : ℝ) : ℝ :=
  if ty.has [.FLUID] || ty.has [.OBSTACLE] then 1
  else if ty.has [.GAS] then 0
  else
    open Classical in
    if rho > 0 then
      let epsilon := mass / rho
      if epsilon > 1 then 1 else if epsilon < 0 then 0 else epsilon
    else 0.5

/-- `get_normal` (dam_break.py 262-268). -/
noncomputable def getNormal (p : Pos) (ty : Pos → Flags) (rho mass : Pos → ℝ) : ℝ × ℝ :=
  let e := fun q => getEpsilon (ty q) (rho q) (mass q)
  (0.5 * (e (p.1 - 1, p.2) - e (p.1 + 1, p.2)), 0.5 * (e (p.1, p.2 - 1) - e (p.1, p.2 + 1)))

/-- `interface_mass_exchange` (dam_break.py 271-289). -/
noncomputable def exchange (self nei : Flags) (fout_self fout_nei : ℝ) : ℝ :=
  if self.has [.NO_FLUID_NEIGH] then
    if nei.has [.NO_FLUID_NEIGH] then fout_nei - fout_self else -fout_self
  else if self.has [.NO_EMPTY_NEIGH] then
    if nei.has [.NO_EMPTY_NEIGH] then fout_nei - fout_self else fout_nei
  else
    if nei.has [.NO_FLUID_NEIGH] then fout_nei
    else if nei.has [.NO_EMPTY_NEIGH] then fout_self
    else fout_nei - fout_self

/-- The fluid branch of `lbm_streaming` (dam_break.py 130-147). -/
noncomputable def streamFluid (nx ny : ℤ) (s : State) (p : Pos) : Cell :=
  let c := s p
  let out := fun n => (0 < (p - v n).1 ∧ (p - v n).1 ≥ nx) ∨ (0 < (p - v n).2 ∧ (p - v n).2 ≥ ny)
  let wet := fun n => (s (p - v n)).ty.has [.FLUID, .INTERFACE, .INLET, .OUTLET]
  { c with
    fin := fun n => if out n then c.fin n else if wet n then (s (p - v n)).fout n else c.fout (v_inv n)
    mass := c.mass + ∑ n, if out n then 0 else if wet n then (s (p - v n)).fout n - c.fout (v_inv n) else 0 }

/-- The interface branch of `lbm_streaming` (dam_break.py 149-181). -/
noncomputable def streamInterface (mass_prev rho_prev : Pos → ℝ) (s : State) (p : Pos) : Cell :=
  let c := s p
  let epsilon := getEpsilon c.ty (rho_prev p) (mass_prev p)
  let equi := setEqui 1 c.ux c.uy
  let back := fun n => equi n + equi (v_inv n) - c.fout (v_inv n)
  let normal := getNormal p (fun q => (s q).ty) rho_prev mass_prev
  { c with
    equi := equi
    fin := fun n => if n = 0 then c.fin 0
      else
        open Classical in
        if normal.1 * (v (v_inv n)).1 + normal.2 * (v (v_inv n)).2 > 0 then back n
        else if (s (p - v n)).ty.has [.FLUID] then (s (p - v n)).fout n
        else if (s (p - v n)).ty.has [.INTERFACE] then (s (p - v n)).fout n
        else if (s (p - v n)).ty.has [.GAS] then back n
        else c.fout (v_inv n)
    mass := c.mass + ∑ n, if n = 0 then 0
      else if (s (p - v n)).ty.has [.FLUID] then (s (p - v n)).fout n - c.fout (v_inv n)
      else if (s (p - v n)).ty.has [.INTERFACE] then
        exchange c.ty (s (p - v n)).ty (c.fout (v_inv n)) ((s (p - v n)).fout n) * (epsilon + getEpsilon (s (p - v n)).ty (rho_prev (p - v n)) (mass_prev (p - v n))) * 0.5
      else 0 }

/-- The body of `lbm_streaming` (dam_break.py 121-186). -/
noncomputable def streamCell (nx ny : ℤ) (mass_prev rho_prev : Pos → ℝ) (s : State) (p : Pos) : Except DErr Cell :=
  let c := s p
  if c.ty.has [.OBSTACLE, .GAS] then .ok c
  else do
    let c := if c.ty.has [.FLUID, .INLET, .OUTLET] then streamFluid nx ny s p else if c.ty.has [.INTERFACE] then streamInterface mass_prev rho_prev s p else c
    let c ← updateRhoU c
    .ok (if c.ty.has [.FLUID] then { c with rho := c.mass } else c)

/-- The first loop of `update_types` (dam_break.py 302-317). -/
noncomputable def markCell (s : State) (p : Pos) : Cell :=
  let c := s p
  let fill_offset : ℝ := 0.003
  let lonely_tresh : ℝ := 0.1
  open Classical in
  let ty := if c.ty.has [.INTERFACE] then
      if c.mass > (1 + fill_offset) * c.rho ∨ (c.mass ≥ (1 - lonely_tresh) * c.rho ∧ c.ty.has [.NO_EMPTY_NEIGH]) then Flags.only .TO_FLUID
      else if c.mass < -fill_offset * c.rho ∨ (c.mass ≤ lonely_tresh * c.rho ∧ c.ty.has [.NO_FLUID_NEIGH]) ∨ c.ty.has [.NO_IFACE_NEIGH, .NO_FLUID_NEIGH] then Flags.only .TO_GAS
      else c.ty
    else c.ty
  { c with ty := ty.clear [.NO_FLUID_NEIGH, .NO_EMPTY_NEIGH, .NO_IFACE_NEIGH] }

/-- `average_surround` (dam_break.py 421-444) on the entries `c` of the cell `q`; `prev` is the state before `update_types`. -/
noncomputable def averageSurround (prev : State) (q : Pos) (c : Cell) : Cell :=
  let near := (univ.erase (0 : Fin 9)).filter fun n => (prev (q + v n)).ty.has [.FLUID, .INTERFACE]
  let k : ℝ := near.card
  let rho := ∑ n ∈ near, (prev (q + v n)).rho
  let ux := ∑ n ∈ near, (prev (q + v n)).ux
  let uy := ∑ n ∈ near, (prev (q + v n)).uy
  let (rho, ux, uy) := if 0 < near.card then (rho / k, ux / k, uy / k) else (rho, ux, uy)
  { c with mass := 0, rho := rho, ux := ux, uy := uy, equi := setEqui rho ux uy }

/-- The inner loops over the eight neighbours, in their order. -/
def dirs : List (Fin 9) := [1, 2, 3, 4, 5, 6, 7, 8]

/-- The second loop of `update_types` (dam_break.py 319-330), one cell. -/
noncomputable def fillCell (prev : State) (s : State) (p : Pos) : State :=
  if (s p).ty.has [.TO_FLUID] then
    dirs.foldl (fun s n => let q := p - v n
      if (s q).ty.has [.GAS] then Function.update s q { averageSurround prev q (s q) with ty := Flags.only .INTERFACE } else s) s
  else s

/-- The third loop of `update_types` (dam_break.py 332-341), one cell. -/
noncomputable def emptyCell (s : State) (p : Pos) : State :=
  if (s p).ty.has [.TO_GAS] then
    dirs.foldl (fun s n => let q := p - v n
      if (s q).ty.has [.FLUID] then Function.update s q { s q with ty := Flags.only .INTERFACE } else s) s
  else s

/-- The weights `eta` of the neighbours (dam_break.py 363-379). -/
noncomputable def etaOf (s : State) (p : Pos) (normal : ℝ × ℝ) (n : Fin 9) : ℝ :=
  if n ≠ 0 ∧ (s (p + v n)).ty.has [.INTERFACE] then max 0 ((v n).1 * normal.1 + (v n).2 * normal.2) else 0

/-- `isIF` (dam_break.py 364-379). -/
def isIF (s : State) (p : Pos) (n : Fin 9) : Bool := decide (n ≠ 0) && (s (p + v n)).ty.has [.INTERFACE]

/-- The distribution of the excess mass `mex` (dam_break.py 363-388). -/
noncomputable def spread (s : State) (p : Pos) (normal : ℝ × ℝ) (mex : ℝ) (old : Fin 9 → ℝ) : Fin 9 → ℝ :=
  let eta_total := ∑ n, etaOf s p normal n
  let IF_total : ℝ := ∑ n, if isIF s p n then 1 else 0
  open Classical in
  if eta_total > 0 then fun n => if n = 0 then old 0 else mex * etaOf s p normal n * (1 / eta_total)
  else if IF_total > 0 then fun n => if n = 0 then old 0 else if isIF s p n then mex / IF_total else 0
  else old

/-- The fourth loop of `update_types` (dam_break.py 343-388). -/
noncomputable def distributeCell (prev : State) (s : State) (p : Pos) : Cell :=
  let c := s p
  if c.ty.has [.OBSTACLE] then c
  else
    let normal := getNormal p (fun q => (prev q).ty) (fun q => (prev q).rho) (fun q => (prev q).mass)
    if c.ty.has [.TO_FLUID] then { c with mass := c.rho, fdist := spread s p normal (c.mass - c.rho) c.fdist }
    else if c.ty.has [.TO_GAS] then { c with mass := 0, fdist := spread s p (-normal.1, -normal.2) c.mass c.fdist }
    else c

/-- The fifth loop of `update_types` (dam_break.py 390-400). -/
noncomputable def collectCell (s : State) (p : Pos) : Cell :=
  let c := s p
  if c.ty.has [.INTERFACE] then { c with mass := c.mass + ∑ n ∈ univ.erase (0 : Fin 9), (s (p + v n)).fdist n }
  else if c.ty.has [.TO_FLUID] then { c with ty := Flags.only .FLUID }
  else if c.ty.has [.TO_GAS] then { c with ty := Flags.only .GAS }
  else c

/-- The last loop of `update_types` (dam_break.py 402-419). -/
def flagCell (s : State) (p : Pos) : Cell :=
  let c := s p
  if c.ty.has [.OBSTACLE] then c
  else
    let ty := c.ty.set [.NO_FLUID_NEIGH, .NO_EMPTY_NEIGH, .NO_IFACE_NEIGH]
    { c with ty := dirs.foldl (fun ty n => let q := p - v n
        if (s q).ty.has [.FLUID] then ty.clear [.NO_FLUID_NEIGH] else if (s q).ty.has [.GAS] then ty.clear [.NO_EMPTY_NEIGH] else if (s q).ty.has [.INTERFACE] then ty.clear [.NO_IFACE_NEIGH] else ty) ty }

/-- The order of the loops over the cells. -/
def cells (nx ny : ℕ) : List Pos := (List.range nx).flatMap fun ix : ℕ => (List.range ny).map fun iy : ℕ => ((ix : ℤ), (iy : ℤ))

/-- A loop over cells that rewrites the entries of its own cell. -/
def loop (g : State → Pos → Cell) (l : List Pos) (s : State) : State := l.foldl (fun s p => Function.update s p (g s p)) s

/-- The same with errors. -/
def loopM (g : State → Pos → Except DErr Cell) (l : List Pos) (s : State) : Except DErr State := l.foldlM (fun s p => (g s p).map fun c => Function.update s p c) s

/-- `update_types` (dam_break.py 295-419); the copies of evolve (line 468) are the state at its beginning. -/
noncomputable def updateTypes (nx ny : ℕ) (s : State) : State :=
  let prev := s
  let s := loop markCell (cells nx ny) s
  let s := (cells nx ny).foldl (fillCell prev) s
  let s := (cells nx ny).foldl emptyCell s
  let s := loop (distributeCell prev) (cells nx ny) s
  let s := loop collectCell (cells nx ny) s
  loop flagCell (cells nx ny) s

/-- One pass of the loop in `evolve` (dam_break.py 455-471); line 462 copies `mass` into `rho_prev`. -/
noncomputable def step (nx ny : ℕ) (omega gx gy : ℝ) (s : State) : Except DErr State := do
  let s ← loopM (collisionCell omega gx gy) (cells nx ny) s
  let mass_prev := fun q => (s q).mass
  let rho_prev := fun q => (s q).mass
  let s ← loopM (streamCell nx ny mass_prev rho_prev) (cells nx ny) s
  .ok (updateTypes nx ny s)

/-- `evolve` (dam_break.py 451-478): the states after each pass, of which the code returns velocities and types. -/
noncomputable def evolve (nx ny : ℕ) (omega gx gy : ℝ) : ℕ → State → Except DErr (List State)
  | 0, _ => .ok []
  | k + 1, s => do
    let s' ← step nx ny omega gx gy s
    let rest ← evolve nx ny omega gx gy k s'
    .ok (s' :: rest)

/-- The initial types (dam_break.py 490-501): the fluid block `[minx, maxx) × [miny, maxy)` with an interface layer, and walls. Positions outside the arrays count as walls. -/
def initType (nx ny minx maxx miny maxy : ℤ) (p : Pos) : Flags :=
  if p.1 ≤ 0 ∨ nx - 1 ≤ p.1 ∨ p.2 ≤ 0 ∨ ny - 1 ≤ p.2 then Flags.only .OBSTACLE
  else if minx + 1 ≤ p.1 ∧ p.1 < maxx - 1 ∧ miny + 1 ≤ p.2 ∧ p.2 < maxy - 1 then Flags.only .FLUID
  else if minx ≤ p.1 ∧ p.1 < maxx ∧ miny ≤ p.2 ∧ p.2 < maxy then Flags.only .INTERFACE
  else Flags.only .GAS

/-- The initial state (dam_break.py 483-512). -/
noncomputable def initState (nx ny minx maxx miny maxy : ℤ) : State := fun p =>
  let ty := initType nx ny minx maxx miny maxy p
  let mass : ℝ := if ty.has [.FLUID] then 1 else if ty.has [.INTERFACE] then 0.5 else 0
  ⟨setEqui mass 0 0, 0, setEqui mass 0 0, 0, 0, 0, mass, mass, ty⟩

/-- The script (dam_break.py 483-515) up to the animation. -/
noncomputable def script : Except DErr (List State) := evolve 170 170 1 0 (-0.1) 100 (initState 170 170 0 70 40 170)

end Verif.Lbm.Dam
