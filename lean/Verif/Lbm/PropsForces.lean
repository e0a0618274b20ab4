import Verif.Lbm.Forces
import Mathlib.Analysis.Calculus.Deriv.Inv
import Mathlib.Analysis.Calculus.Deriv.Pow

/-!
# Interface geometry of the lattice Boltzmann solver (C75)
-/
namespace Verif.Lbm
open Finset

section Wrap
variable {Nx Ny Nz : ℕ} [NeZero Nx] [NeZero Ny] [NeZero Nz]

theorem wrap_val (n : ℕ) [NeZero n] (i : ℤ) : (((wrap n i).1 : ℕ) : ℤ) = i % n := by
  have hn : (0 : ℤ) < n := by exact_mod_cast NeZero.pos n
  have h1 := Int.emod_nonneg i hn.ne'
  simp only [wrap]
  omega

theorem wrap_of_lt {n : ℕ} [NeZero n] {i : ℤ} (h0 : 0 ≤ i) (h1 : i < n) :
    (((wrap n i).1 : ℕ) : ℤ) = i := by
  rw [wrap_val, Int.emod_eq_of_lt h0 h1]

theorem wrap_wrap (n : ℕ) [NeZero n] (i a : ℤ) :
    wrap n (((wrap n i).1 : ℤ) + a) = wrap n (i + a) := by
  apply Fin.ext
  have h : (((wrap n (((wrap n i).1 : ℤ) + a)).1 : ℕ) : ℤ) = ((wrap n (i + a)).1 : ℕ) := by
    rw [wrap_val, wrap_val, wrap_val, Int.emod_add_emod]
  exact_mod_cast h

theorem wrap_self {n : ℕ} [NeZero n] (i : Fin n) : wrap n (i.1 : ℤ) = i := by
  apply Fin.ext
  have := wrap_of_lt (n := n) (i := (i.1 : ℤ)) (by positivity) (by exact_mod_cast i.2)
  exact_mod_cast this

theorem shift_shift (a b c a' b' c' : ℤ) (s : Site Nx Ny Nz) :
    shift a' b' c' (shift a b c s) = shift (a + a') (b + b') (c + c') s := by
  simp only [shift, wrap_wrap, add_assoc]

theorem shift_zero (s : Site Nx Ny Nz) : shift 0 0 0 s = s := by
  simp only [shift, add_zero, wrap_self]

/-- Sums over the lattice do not change under a shift. -/
theorem sum_shift (v : Site Nx Ny Nz → ℝ) (a b c : ℤ) : ∑ s, v (shift a b c s) = ∑ s, v s := by
  refine Fintype.sum_equiv ⟨shift a b c, shift (-a) (-b) (-c), fun s => ?_, fun s => ?_⟩ _ _
    fun s => rfl
  · rw [shift_shift]; simp only [add_neg_cancel]; exact shift_zero s
  · rw [shift_shift]; simp only [neg_add_cancel]; exact shift_zero s

end Wrap

/-! ## Specification -/

/-- A quadratic surface `z = g(x, y)`. -/
noncomputable def quad (c0 c1 c2 a b d x y : ℝ) : ℝ :=
  c0 + c1 * x + c2 * y + (a * x ^ 2 + 2 * b * x * y + d * y ^ 2) / 2

/-- Components of `∇g/√(1+|∇g|²)`: the horizontal part of the downward unit normal of the graph of `g`. -/
noncomputable def unitNormalX (g : ℝ → ℝ → ℝ) (x y : ℝ) : ℝ :=
  deriv (fun x => g x y) x /
    Real.sqrt (1 + deriv (fun x => g x y) x ^ 2 + deriv (fun y => g x y) y ^ 2)

/-- See `unitNormalX`. -/
noncomputable def unitNormalY (g : ℝ → ℝ → ℝ) (x y : ℝ) : ℝ :=
  deriv (fun y => g x y) y /
    Real.sqrt (1 + deriv (fun x => g x y) x ^ 2 + deriv (fun y => g x y) y ^ 2)

/-- Curvature (sum of the principal curvatures) of the graph of `g` at the origin: minus the divergence of the unit normal field. -/
noncomputable def graphCurvature (g : ℝ → ℝ → ℝ) : ℝ :=
  -(deriv (fun x => unitNormalX g x 0) 0 + deriv (fun y => unitNormalY g 0 y) 0)

theorem quad_dx (c0 c1 c2 a b d x y : ℝ) :
    deriv (fun x => quad c0 c1 c2 a b d x y) x = c1 + a * x + b * y := by
  have h : HasDerivAt (fun x => quad c0 c1 c2 a b d x y)
      (c1 * 1 + (a * (2 * x) + 2 * b * 1 * y) / 2) x := by
    unfold quad
    have h1 := (hasDerivAt_id x).const_mul c1
    have h2 : HasDerivAt (fun x : ℝ => a * x ^ 2) (a * (2 * x)) x := by
      simpa using (hasDerivAt_pow 2 x).const_mul a
    have h3 : HasDerivAt (fun x : ℝ => 2 * b * x * y) (2 * b * 1 * y) x :=
      ((hasDerivAt_id x).const_mul (2 * b)).mul_const y
    have h4 := ((h2.add h3).add_const (d * y ^ 2)).div_const 2
    have h5 := (h1.const_add c0).add_const (c2 * y)
    exact h5.add h4
  rw [h.deriv]; ring

theorem quad_dy (c0 c1 c2 a b d x y : ℝ) :
    deriv (fun y => quad c0 c1 c2 a b d x y) y = c2 + b * x + d * y := by
  have hs : (fun y => quad c0 c1 c2 a b d x y) = fun y => quad c0 c2 c1 d b a y x := by
    funext y; unfold quad; ring
  rw [hs, quad_dx]; ring

theorem deriv_ratio (p q a b : ℝ) :
    deriv (fun x : ℝ => (p + a * x) / Real.sqrt (1 + (p + a * x) ^ 2 + (q + b * x) ^ 2)) 0
      = (a * (1 + p ^ 2 + q ^ 2) - p * (p * a + q * b)) /
        (1 + p ^ 2 + q ^ 2) ^ ((3 : ℝ) / 2) := by
  have hW : (0 : ℝ) < 1 + p ^ 2 + q ^ 2 := by positivity
  have l1 : HasDerivAt (fun x : ℝ => p + a * x) a 0 := by
    simpa using ((hasDerivAt_id (0 : ℝ)).const_mul a).const_add p
  have l2 : HasDerivAt (fun x : ℝ => q + b * x) b 0 := by
    simpa using ((hasDerivAt_id (0 : ℝ)).const_mul b).const_add q
  have hin : HasDerivAt (fun x : ℝ => 1 + (p + a * x) ^ 2 + (q + b * x) ^ 2)
      (2 * p * a + 2 * q * b) 0 := by
    have := ((l1.fun_pow 2).const_add 1).fun_add (l2.fun_pow 2)
    simpa using this
  have hs := hin.sqrt (by simpa using hW.ne')
  have hd := l1.fun_div hs (by simpa using (Real.sqrt_pos.2 hW).ne')
  rw [hd.deriv]
  simp only [mul_zero, add_zero]
  set W := 1 + p ^ 2 + q ^ 2 with hWd
  have hr : W ^ ((3 : ℝ) / 2) = W * Real.sqrt W := by
    rw [show (3 : ℝ) / 2 = 1 + 1 / 2 by norm_num, Real.rpow_add hW, Real.rpow_one,
      Real.sqrt_eq_rpow]
  have hsq : Real.sqrt W ^ 2 = W := Real.sq_sqrt hW.le
  have hsp := Real.sqrt_pos.2 hW
  rw [hr, hsq]
  field_simp
  rw [hsq]

/-- **C75a.** The height-function formula is the exact curvature of every quadratic surface sampled at the 3×3 columns. -/
theorem C75_curvature_exact (c0 c1 c2 a b d : ℝ) :
    curvature (fun i j => quad c0 c1 c2 a b d ((i : ℝ) - 1) ((j : ℝ) - 1))
      = graphCurvature (quad c0 c1 c2 a b d) := by
  unfold graphCurvature unitNormalX unitNormalY
  simp only [quad_dx, quad_dy, mul_zero, add_zero]
  have h2 : deriv (fun y : ℝ => (c2 + d * y) /
      Real.sqrt (1 + (c1 + b * y) ^ 2 + (c2 + d * y) ^ 2)) 0
      = (d * (1 + c2 ^ 2 + c1 ^ 2) - c2 * (c2 * d + c1 * b)) /
        (1 + c2 ^ 2 + c1 ^ 2) ^ ((3 : ℝ) / 2) := by
    rw [← deriv_ratio]
    congr 1; funext y; congr 2; ring
  rw [deriv_ratio, h2, show 1 + c2 ^ 2 + c1 ^ 2 = 1 + c1 ^ 2 + c2 ^ 2 by ring, ← add_div,
    ← neg_div]
  unfold curvature quad hCell
  have v0 : (((0 : Fin 3) : ℕ) : ℝ) = 0 := by norm_num
  have v1 : (((1 : Fin 3) : ℕ) : ℝ) = 1 := by norm_num
  have v2 : (((2 : Fin 3) : ℕ) : ℝ) = 2 := by norm_num
  simp only [v0, v1, v2]
  congr 1
  · ring
  · congr 1; ring

/-- A paraboloid of curvature radius one has the expected sign and size: a liquid cap `z = -(x²+y²)/2` has curvature 2. -/
example : curvature (fun i j => quad 0 0 0 (-1) 0 (-1) ((i : ℝ) - 1) ((j : ℝ) - 1)) = 2 := by
  unfold curvature quad hCell
  have v0 : (((0 : Fin 3) : ℕ) : ℝ) = 0 := by norm_num
  have v1 : (((1 : Fin 3) : ℕ) : ℝ) = 1 := by norm_num
  have v2 : (((2 : Fin 3) : ℕ) : ℝ) = 2 := by norm_num
  simp only [v0, v1, v2]
  norm_num

/-- Fill level of a cell `[k, k+1]` of a column filled up to height `g`. -/
noncomputable def fill (g k : ℝ) : ℝ := max 0 (min 1 (g - k))

theorem fill_telescope (g k : ℝ) : fill g k = max 0 (g - k) - max 0 (g - (k + 1)) := by
  unfold fill
  rcases le_total (g - k) 0 with h | h
  · rw [max_eq_left h, max_eq_left (by linarith : g - (k + 1) ≤ 0), min_eq_right (by linarith),
      max_eq_left h]; ring
  · rw [max_eq_right h]
    rcases le_total (g - k) 1 with h1 | h1
    · rw [min_eq_right h1, max_eq_right h, max_eq_left (by linarith)]; ring
    · rw [min_eq_left h1, max_eq_right (by linarith), max_eq_right (by linarith)]; ring

/-- Seven cells around the surface recover its height. -/
theorem fill_column (g : ℝ) (h0 : -3 ≤ g) (h1 : g ≤ 4) :
    ∑ k : Fin 7, fill g ((k : ℝ) - 3) = g + 3 := by
  have hsum : ∑ k : Fin 7, fill g ((k : ℝ) - 3)
      = ∑ k ∈ range 7, (max 0 (g - ((k : ℝ) - 3)) - max 0 (g - (((k + 1 : ℕ) : ℝ) - 3))) := by
    rw [← Fin.sum_univ_eq_sum_range
      (fun k : ℕ => max 0 (g - ((k : ℝ) - 3)) - max 0 (g - (((k + 1 : ℕ) : ℝ) - 3))) 7]
    refine Finset.sum_congr rfl fun k _ => ?_
    rw [fill_telescope]
    congr 2
    push_cast
    ring
  rw [hsum, Finset.sum_range_sub' (fun k : ℕ => max 0 (g - ((k : ℝ) - 3)))]
  have e1 : max 0 (g - (((0 : ℕ) : ℝ) - 3)) = g + 3 := by
    rw [max_eq_right (by push_cast; linarith)]; push_cast; ring
  have e2 : max 0 (g - (((7 : ℕ) : ℝ) - 3)) = 0 := max_eq_left (by push_cast; linarith)
  rw [e1, e2, sub_zero]

section Phi
variable {Nx Ny Nz : ℕ} [NeZero Nx] [NeZero Ny] [NeZero Nz]

/-- A site with all its 26 neighbours inside the lattice. -/
def Inside (s : Site Nx Ny Nz) : Prop :=
  (1 ≤ s.1.1 ∧ s.1.1 + 1 < Nx) ∧ (1 ≤ s.2.1.1 ∧ s.2.1.1 + 1 < Ny) ∧
    (1 ≤ s.2.2.1 ∧ s.2.2.1 + 1 < Nz)

/-- The field `c + v·x` sampled at the lattice sites. -/
noncomputable def affineField (c : ℝ) (v : Fin 3 → ℝ) (s : Site Nx Ny Nz) : ℝ :=
  c + v 0 * s.1.1 + v 1 * s.2.1.1 + v 2 * s.2.2.1

theorem affine_shift {s : Site Nx Ny Nz} (hs : Inside s) (c : ℝ) (v : Fin 3 → ℝ) {a b d : ℤ}
    (ha : -1 ≤ a ∧ a ≤ 1) (hb : -1 ≤ b ∧ b ≤ 1) (hd : -1 ≤ d ∧ d ≤ 1) :
    affineField c v (shift a b d s) = affineField c v s + v 0 * a + v 1 * b + v 2 * d := by
  obtain ⟨⟨x0, x1⟩, ⟨y0, y1⟩, z0, z1⟩ := hs
  have hx : (((wrap Nx ((s.1.1 : ℤ) + a)).1 : ℕ) : ℝ) = s.1.1 + a := by
    have := wrap_of_lt (n := Nx) (i := (s.1.1 : ℤ) + a) (by omega) (by omega)
    exact_mod_cast congrArg (Int.cast (R := ℝ)) this
  have hy : (((wrap Ny ((s.2.1.1 : ℤ) + b)).1 : ℕ) : ℝ) = s.2.1.1 + b := by
    have := wrap_of_lt (n := Ny) (i := (s.2.1.1 : ℤ) + b) (by omega) (by omega)
    exact_mod_cast congrArg (Int.cast (R := ℝ)) this
  have hz : (((wrap Nz ((s.2.2.1 : ℤ) + d)).1 : ℕ) : ℝ) = s.2.2.1 + d := by
    have := wrap_of_lt (n := Nz) (i := (s.2.2.1 : ℤ) + d) (by omega) (by omega)
    exact_mod_cast congrArg (Int.cast (R := ℝ)) this
  simp only [affineField, shift, hx, hy, hz]
  ring

/-- **C75b.** `phi` is the exact gradient of every affine fill field away from the lattice border. -/
theorem C75_phi_exact {s : Site Nx Ny Nz} (hs : Inside s) (c : ℝ) (v : Fin 3 → ℝ) :
    getPhi (affineField c v) s = v := by
  funext k
  unfold getPhi centralGrad grid333 hCell
  fin_cases k
  · simp [affine_shift hs c v]
  · simp [affine_shift hs c v]
  · simp [affine_shift hs c v]

/-- **C75c.** Over the whole lattice `phi` sums to zero, for every fill field (the stencil wraps around). -/
theorem C75_phi_total (vof : Site Nx Ny Nz → ℝ) (k : Fin 3) : ∑ s, getPhi vof s k = 0 := by
  have h : ∀ a b c a' b' c' : ℤ, ∑ s : Site Nx Ny Nz,
      (vof (shift a b c s) - vof (shift a' b' c' s)) / (2 * hCell) = 0 := by
    intro a b c a' b' c'
    rw [← Finset.sum_div, Finset.sum_sub_distrib, sum_shift, sum_shift, sub_self, zero_div]
  fin_cases k
  · exact h _ _ _ _ _ _
  · exact h _ _ _ _ _ _
  · exact h _ _ _ _ _ _

/-- Column sums along axis `m`. -/
noncomputable def heights (m : Fin 3) : (Site Nx Ny Nz → ℝ) → Site Nx Ny Nz → Fin 3 → Fin 3 → ℝ :=
  ![heights1, heights2, heights3] m

/-- **C75d.** The curvature is taken along an axis on which the interface normal is largest. -/
theorem C75_axis (vof : Site Nx Ny Nz → ℝ) (s : Site Nx Ny Nz) :
    ∃ m, (∀ k, |getPhi vof s k| ≤ |getPhi vof s m|) ∧
      getKappa vof s = curvature (heights m vof s) := by
  unfold getKappa
  by_cases h1 : |getPhi vof s 0| ≥ |getPhi vof s 1| ∧ |getPhi vof s 0| ≥ |getPhi vof s 2|
  · refine ⟨0, fun k => ?_, by simp only [h1, and_self, if_true]; rfl⟩
    fin_cases k
    · exact le_refl _
    · exact h1.1
    · exact h1.2
  · by_cases h2 : |getPhi vof s 1| ≥ |getPhi vof s 0| ∧ |getPhi vof s 1| ≥ |getPhi vof s 2|
    · refine ⟨1, fun k => ?_, ?_⟩
      · fin_cases k
        · exact h2.1
        · exact le_refl _
        · exact h2.2
      · show (if _ then _ else _) = _
        rw [if_neg h1, if_pos h2]; rfl
    · refine ⟨2, fun k => ?_, ?_⟩
      · fin_cases k
        · show |getPhi vof s 0| ≤ |getPhi vof s 2|
          by_contra hc
          push Not at hc
          rcases le_total |getPhi vof s 1| |getPhi vof s 0| with h | h
          · exact h1 ⟨h, hc.le⟩
          · exact h2 ⟨h, (hc.le).trans h⟩
        · show |getPhi vof s 1| ≤ |getPhi vof s 2|
          by_contra hc
          push Not at hc
          rcases le_total |getPhi vof s 1| |getPhi vof s 0| with h | h
          · exact h1 ⟨h, hc.le.trans h⟩
          · exact h2 ⟨h, hc.le⟩
        · exact le_refl _
      · show (if _ then _ else _) = _
        rw [if_neg h1, if_neg h2]; rfl

/-- The `k`-th cell of the column `(i, j)` along axis `m`, relative to `s`. -/
def columnSite (m : Fin 3) (i j : Fin 3) (k : Fin 7) (s : Site Nx Ny Nz) : Site Nx Ny Nz :=
  ![shift ((k : ℤ) - 3) ((i : ℤ) - 1) ((j : ℤ) - 1) s,
    shift ((i : ℤ) - 1) ((k : ℤ) - 3) ((j : ℤ) - 1) s,
    shift ((i : ℤ) - 1) ((j : ℤ) - 1) ((k : ℤ) - 3) s] m

theorem heights_eq (m : Fin 3) (vof : Site Nx Ny Nz → ℝ) (s : Site Nx Ny Nz) (i j : Fin 3) :
    heights m vof s i j = ∑ k, vof (columnSite m i j k s) := by
  fin_cases m <;> rfl

theorem graphCurvature_offset (c0 c0' c1 c2 a b d : ℝ) :
    graphCurvature (quad c0 c1 c2 a b d) = graphCurvature (quad c0' c1 c2 a b d) := by
  unfold graphCurvature unitNormalX unitNormalY
  simp only [quad_dx, quad_dy]

/-- **C75e.** If the cells around `s` are filled along axis `m` up to a quadratic surface that stays within the seven-cell columns, the curvature computed from
the columns along `m` is the exact curvature of the surface. -/
theorem C75_surface (m : Fin 3) (vof : Site Nx Ny Nz → ℝ) (s : Site Nx Ny Nz)
    (c0 c1 c2 a b d : ℝ)
    (hrange : ∀ i j : Fin 3, -3 ≤ quad c0 c1 c2 a b d ((i : ℝ) - 1) ((j : ℝ) - 1) ∧
      quad c0 c1 c2 a b d ((i : ℝ) - 1) ((j : ℝ) - 1) ≤ 4)
    (hfill : ∀ (i j : Fin 3) (k : Fin 7), vof (columnSite m i j k s)
      = fill (quad c0 c1 c2 a b d ((i : ℝ) - 1) ((j : ℝ) - 1)) ((k : ℝ) - 3)) :
    curvature (heights m vof s) = graphCurvature (quad c0 c1 c2 a b d) := by
  have hh : heights m vof s
      = fun i j : Fin 3 => quad (c0 + 3) c1 c2 a b d ((i : ℝ) - 1) ((j : ℝ) - 1) := by
    funext i j
    rw [heights_eq]
    simp only [hfill]
    rw [fill_column _ (hrange i j).1 (hrange i j).2]
    unfold quad; ring
  rw [hh, C75_curvature_exact]
  exact graphCurvature_offset _ _ _ _ _ _ _

/-- The hypotheses of C75e hold for the spherical-looking cap `z = 1/2 - x/4 - (x²+y²)/8` on a 3×3×7 lattice. -/
example : let g := quad (1 / 2) (-1 / 4) 0 (-1 / 4) 0 (-1 / 4)
    let vof : Site 3 3 7 → ℝ := fun s => fill (g ((s.1 : ℝ) - 1) ((s.2.1 : ℝ) - 1)) ((s.2.2 : ℝ) - 3)
    curvature (heights 2 vof (1, 1, 3)) = graphCurvature g := by
  intro g vof
  have hsite : ∀ (i j : Fin 3) (k : Fin 7),
      columnSite 2 i j k ((1, 1, 3) : Site 3 3 7) = (i, j, k) := by decide +kernel
  refine C75_surface 2 vof _ _ _ _ _ _ _ (fun i j => ?_) fun i j k => by rw [hsite]
  have v0 : (((0 : Fin 3) : ℕ) : ℝ) = 0 := by norm_num
  have v1 : (((1 : Fin 3) : ℕ) : ℝ) = 1 := by norm_num
  have v2 : (((2 : Fin 3) : ℕ) : ℝ) = 2 := by norm_num
  unfold quad
  fin_cases i <;> fin_cases j <;> norm_num

/-- **C75f.** A column set with affine heights has zero curvature; concave heights (liquid cap) have non-negative curvature. -/
theorem C75_sign (c0 c1 c2 a b d : ℝ) :
    (a = 0 → b = 0 → d = 0 →
      curvature (fun i j => quad c0 c1 c2 a b d ((i : ℝ) - 1) ((j : ℝ) - 1)) = 0) ∧
    (a ≤ 0 → d ≤ 0 → b ^ 2 ≤ a * d →
      0 ≤ curvature (fun i j => quad c0 c1 c2 a b d ((i : ℝ) - 1) ((j : ℝ) - 1))) := by
  have hval : curvature (fun i j => quad c0 c1 c2 a b d ((i : ℝ) - 1) ((j : ℝ) - 1))
      = -(a + d + a * c2 ^ 2 + d * c1 ^ 2 - 2 * b * c1 * c2) /
        (1 + c1 ^ 2 + c2 ^ 2) ^ ((3 : ℝ) / 2) := by
    unfold curvature quad hCell
    have v0 : (((0 : Fin 3) : ℕ) : ℝ) = 0 := by norm_num
    have v1 : (((1 : Fin 3) : ℕ) : ℝ) = 1 := by norm_num
    have v2 : (((2 : Fin 3) : ℕ) : ℝ) = 2 := by norm_num
    simp only [v0, v1, v2]
    congr 1
    · ring
    · congr 1; ring
  rw [hval]
  constructor
  · rintro rfl rfl rfl; simp
  · intro ha hd hb
    apply div_nonneg _ (by positivity)
    -- `a y² - 2 b x y + d x² ≤ 0` for a negative semidefinite form
    have key : a * c2 ^ 2 + d * c1 ^ 2 - 2 * b * c1 * c2 ≤ 0 := by
      rcases eq_or_lt_of_le ha with h | h
      · have hb0 : b = 0 := by
          rw [h, zero_mul] at hb
          exact pow_eq_zero_iff (two_ne_zero) |>.1 (le_antisymm hb (sq_nonneg b))
        rw [h, hb0]; nlinarith [sq_nonneg c1]
      · have : a * (a * c2 ^ 2 + d * c1 ^ 2 - 2 * b * c1 * c2) ≥ 0 := by
          nlinarith [sq_nonneg (a * c2 - b * c1), mul_nonneg (sub_nonneg.2 hb) (sq_nonneg c1)]
        nlinarith
    linarith

theorem curvature_compl (C : ℝ) (H : Fin 3 → Fin 3 → ℝ) :
    curvature (fun i j => C - H i j) = -curvature H := by
  unfold curvature
  simp only
  rw [← neg_div]
  congr 1
  · ring
  · congr 1; ring

theorem getPhi_compl (vof : Site Nx Ny Nz → ℝ) (s : Site Nx Ny Nz) :
    getPhi (fun t => 1 - vof t) s = fun k => -getPhi vof s k := by
  funext k
  unfold getPhi centralGrad grid333
  fin_cases k <;> (simp; ring)

theorem heights_compl (m : Fin 3) (vof : Site Nx Ny Nz → ℝ) (s : Site Nx Ny Nz) :
    heights m (fun t => 1 - vof t) s = fun i j => 7 - heights m vof s i j := by
  funext i j
  rw [heights_eq, heights_eq, Finset.sum_sub_distrib]
  simp

/-- **C75g.** Exchanging the roles of liquid and gas (fill level `1 - vof`) reverses the normal and the curvature, so the capillary force `kappa * phi` does not
depend on which phase is called liquid. -/
theorem C75_exchange (vof : Site Nx Ny Nz → ℝ) (s : Site Nx Ny Nz) :
    (∀ k, getPhi (fun t => 1 - vof t) s k = -getPhi vof s k) ∧
    getKappa (fun t => 1 - vof t) s = -getKappa vof s ∧
    (∀ k, getKappa (fun t => 1 - vof t) s * getPhi (fun t => 1 - vof t) s k
      = getKappa vof s * getPhi vof s k) := by
  have h1 : ∀ k, getPhi (fun t => 1 - vof t) s k = -getPhi vof s k := fun k => by
    rw [getPhi_compl]
  have h2 : getKappa (fun t => 1 - vof t) s = -getKappa vof s := by
    have c1 := curvature_compl 7 (heights1 vof s)
    have c2 := curvature_compl 7 (heights2 vof s)
    have c3 := curvature_compl 7 (heights3 vof s)
    have e1 : heights1 (fun t => 1 - vof t) s = _ := heights_compl 0 vof s
    have e2 : heights2 (fun t => 1 - vof t) s = _ := heights_compl 1 vof s
    have e3 : heights3 (fun t => 1 - vof t) s = _ := heights_compl 2 vof s
    unfold getKappa
    simp only [h1, abs_neg, e1, e2, e3]
    split_ifs
    · exact c1
    · exact c2
    · exact c3
  refine ⟨h1, h2, fun k => ?_⟩
  rw [h1, h2]; ring

/-- Coordinate of a site along axis `n`. -/
def coord (n : Fin 3) (s : Site Nx Ny Nz) : ℕ := ![s.1.1, s.2.1.1, s.2.2.1] n

/-- **C75h.** A fill field that varies along one axis only (a flat interface) produces no capillary force. -/
theorem C75_flat (n : Fin 3) (vof : Site Nx Ny Nz → ℝ) (w : ℕ → ℝ)
    (hw : ∀ s, vof s = w (coord n s)) (s : Site Nx Ny Nz) (k : Fin 3) :
    getKappa vof s * getPhi vof s k = 0 := by
  have hphi : ∀ l, l ≠ n → getPhi vof s l = 0 := by
    intro l hl
    unfold getPhi centralGrad grid333
    simp only [hw]
    fin_cases n <;> fin_cases l <;> first | exact absurd rfl hl | simp [coord, shift]
  obtain ⟨m, hm, hk⟩ := C75_axis vof s
  by_cases hkn : k = n
  · subst hkn
    by_cases h0 : getPhi vof s k = 0
    · rw [h0, mul_zero]
    · have hmk : m = k := by
        by_contra hne
        have := hm k
        rw [hphi m hne, abs_zero] at this
        exact h0 (abs_eq_zero.1 (le_antisymm this (abs_nonneg _)))
      subst hmk
      have hconst : ∀ i j : Fin 3, heights m vof s i j = heights m vof s 1 1 := by
        intro i j
        simp only [heights_eq, hw]
        refine Finset.sum_congr rfl fun q _ => ?_
        fin_cases m <;> simp [coord, columnSite, shift]
      have : curvature (heights m vof s) = 0 := by
        unfold curvature
        simp only [hconst 0 0, hconst 0 1, hconst 0 2, hconst 1 0, hconst 1 2, hconst 2 0,
          hconst 2 1, hconst 2 2]
        have e : ∀ x : ℝ, x - 2 * x + x = 0 := fun x => by ring
        simp [e]
      rw [hk, this, zero_mul]
  · rw [hphi k hkn, mul_zero]

/-- Non-trivial instance of C75h and C75g: a flat pool of depth two in a 3×3×5 box. -/
example : let vof : Site 3 3 5 → ℝ := fun s => if s.2.2.1 < 2 then 1 else 0
    getPhi vof (1, 1, 2) 2 = -(1 / 2) ∧ ∀ k, getKappa vof (1, 1, 2) * getPhi vof (1, 1, 2) k = 0 := by
  intro vof
  refine ⟨?_, fun k => C75_flat 2 vof (fun z => if z < 2 then 1 else 0) (fun s => rfl) _ k⟩
  have h1 : vof (shift ((1 : ℤ) - 1) ((1 : ℤ) - 1) ((2 : ℤ) - 1) (1, 1, 2)) = 0 := if_neg (by decide)
  have h2 : vof (shift ((1 : ℤ) - 1) ((1 : ℤ) - 1) ((0 : ℤ) - 1) (1, 1, 2)) = 1 := if_pos (by decide)
  show (vof (shift ((1 : ℤ) - 1) ((1 : ℤ) - 1) ((2 : ℤ) - 1) (1, 1, 2))
    - vof (shift ((1 : ℤ) - 1) ((1 : ℤ) - 1) ((0 : ℤ) - 1) (1, 1, 2))) / (2 * 1) = _
  rw [h1, h2]; norm_num

end Phi

end Verif.Lbm
