import Verif.Cfd.Am3d

/-!
# GAMMA thermal solver (model)

`jax_am/cfd/gamma.py`. Fields carry one layer of ghost cells; index `-1` is `n - 1`, `1:-1` is `1 ≤ i ∧ i + 1 < n`.
-/
namespace Verif.Cfd.Gamma
open Verif Verif.Cfd

/-- `gamma_args`. -/
structure Args where
  Ts : ℝ
  Tl : ℝ
  L : ℝ
  h : ℝ
  T0 : ℝ
  SB : ℝ
  eps : ℝ
  eta : ℝ
  r : ℝ
  rho : ℝ

/-- Laser position and power, positions `x[:,:,-1]`, `y[:,:,-1]` of the top interior cells, spacings, step. -/
structure Step where
  xl : ℝ
  yl : ℝ
  P : ℝ
  x : ℕ → ℕ → ℝ
  y : ℕ → ℕ → ℝ
  d : Fin 3 → ℝ
  dt : ℝ

/-- `fl` of `update_mat` (gamma.py 12). -/
noncomputable def flOf (a : Args) (T : ℝ) : ℝ := (clip T a.Ts a.Tl - a.Ts) / (a.Tl - a.Ts)

/-- `k` of `update_mat` (gamma.py 14). -/
noncomputable def kOf (a : Args) (T : ℝ) : ℝ := 0.0163 * clip T 300 a.Tl + 4.5847

/-- `cp` of `update_mat` (gamma.py 15). -/
noncomputable def cpOf (a : Args) (T : ℝ) : ℝ :=
  0.2441 * clip T 300 a.Tl + 338.39 + (if flOf a T > 0 then 1 else 0) * (if flOf a T < 1 then 1 else 0) * a.L

/-- `1:-1` on an axis of length `n`. -/
def inn (n i : ℕ) : Prop := 1 ≤ i ∧ i + 1 < n
instance (n i : ℕ) : Decidable (inn n i) := by unfold inn; infer_instance

/-- `h*(Tf-T0) + SB*eps*(Tf**4-T0**4)` with the sign of the positive faces (gamma.py 26). -/
noncomputable def qPos (a : Args) (u v : ℝ) : ℝ :=
  a.h * ((u + v) / 2 - a.T0) + a.SB * a.eps * (((u + v) / 2) ^ 4 - a.T0 ^ 4)

/-- Sign of the negative faces (gamma.py 24). -/
noncomputable def qNeg (a : Args) (u v : ℝ) : ℝ :=
  -a.h * ((u + v) / 2 - a.T0) - a.SB * a.eps * (((u + v) / 2) ^ 4 - a.T0 ^ 4)

/-- Laser term of the top face (gamma.py 35); `i j` are interior positions counted from 0. -/
noncomputable def laser (a : Args) (s : Step) (i j : ℕ) : ℝ :=
  2 * s.P * a.eta / Real.pi / a.r ^ 2 * Real.exp (-2 * ((s.x i j - s.xl) ^ 2 + (s.y i j - s.yl) ^ 2) / a.r ^ 2)

/-- `BC_thermal` (gamma.py 19-43). All fluxes are computed from the argument `T`; the six assignments are made one after the other, each reading the current array. -/
noncomputable def bcThermal (a : Args) (s : Step) (k T : Arr3 ℝ) : Arr3 ℝ :=
  let n0 := T.n0; let n1 := T.n1; let n2 := T.n2
  let T1 : Arr3 ℝ := ⟨n0, n1, n2, fun i j l => if i = 0 ∧ inn n1 j ∧ inn n2 l then
    T.get 1 j l + qNeg a (T.get 1 j l) (T.get 0 j l) / k.get 1 j l * s.d 0 else T.get i j l⟩
  let T2 : Arr3 ℝ := ⟨n0, n1, n2, fun i j l => if i = n0 - 1 ∧ inn n1 j ∧ inn n2 l then
    T1.get (n0 - 2) j l - qPos a (T.get (n0 - 2) j l) (T.get (n0 - 1) j l) / k.get (n0 - 2) j l * s.d 0 else T1.get i j l⟩
  let T3 : Arr3 ℝ := ⟨n0, n1, n2, fun i j l => if j = 0 ∧ inn n0 i ∧ inn n2 l then
    T2.get i 1 l + qNeg a (T.get i 1 l) (T.get i 0 l) / k.get i 1 l * s.d 1 else T2.get i j l⟩
  let T4 : Arr3 ℝ := ⟨n0, n1, n2, fun i j l => if j = n1 - 1 ∧ inn n0 i ∧ inn n2 l then
    T3.get i (n1 - 2) l - qPos a (T.get i (n1 - 2) l) (T.get i (n1 - 1) l) / k.get i (n1 - 2) l * s.d 1 else T3.get i j l⟩
  let T5 : Arr3 ℝ := ⟨n0, n1, n2, fun i j l => if l = 0 ∧ inn n0 i ∧ inn n1 j then
    T4.get i j 1 + qNeg a (T.get i j 1) (T.get i j 0) / k.get i j 1 * s.d 2 else T4.get i j l⟩
  ⟨n0, n1, n2, fun i j l => if l = n2 - 1 ∧ inn n0 i ∧ inn n1 j then
    T5.get i j (n2 - 2) - (qPos a (T.get i j (n2 - 2)) (T.get i j (n2 - 1)) - laser a s (i - 1) (j - 1)) / k.get i j (n2 - 2) * s.d 2 else T5.get i j l⟩

/-- Sum of the three second differences of `laplace` (gamma.py 46-52) at the interior entry `(i, j, l)`. -/
noncomputable def lap (d : Fin 3 → ℝ) (f : Arr3 ℝ) (i j l : ℕ) : ℝ :=
  (f.get (i - 1) j l - 2 * f.get i j l + f.get (i + 1) j l) / d 0 ^ 2
  + (f.get i (j - 1) l - 2 * f.get i j l + f.get i (j + 1) l) / d 1 ^ 2
  + (f.get i j (l - 1) - 2 * f.get i j l + f.get i j (l + 1)) / d 2 ^ 2

/-- `update_T` (gamma.py 55-61): material data from the old field, ghost values, explicit step. -/
noncomputable def updateT (a : Args) (s : Step) (T : Arr3 ℝ) : Arr3 ℝ :=
  let k : Arr3 ℝ := ⟨T.n0, T.n1, T.n2, fun i j l => kOf a (T.get i j l)⟩
  let cp : Arr3 ℝ := ⟨T.n0, T.n1, T.n2, fun i j l => cpOf a (T.get i j l)⟩
  let T' := bcThermal a s k T
  ⟨T.n0, T.n1, T.n2, fun i j l => if inn T.n0 i ∧ inn T.n1 j ∧ inn T.n2 l then
    T'.get i j l + s.dt * (k.get i j l / a.rho / cp.get i j l * lap s.d T' i j l) else T'.get i j l⟩

end Verif.Cfd.Gamma
