import Verif.PhaseField.GrainOde

/-!
# With anisotropy the right-hand side of the grain-growth equations jumps (C149, limit of the claim)
-/
namespace Verif.PhaseField.Ode
open Verif Verif.Mesh Filter Topology

/-- Three cells in a row, one orientation, unit constants; a cube turned by 45 degrees about the z axis. -/
noncomputable def turned (A : ℝ) : PfArgs 1 2 :=
  ⟨3, 1, 1, 1, 1, 1, 1, 1, 1, 1, 0, 1, 1700, A, fun q _ => ![![√2 / 2, √2 / 2, 0], ![-(√2 / 2), √2 / 2, 0], ![0, 0, 1]] q⟩

/-- One grain in the middle cell and a little of it, `s`, in the cell to the right. -/
def bump (s : ℝ) : ℕ → Fin 1 → ℝ := fun n _ => if n = 1 then 1 else if n = 2 then s else 0

theorem aniso_zero (A : ℝ) : anisoTerm (turned A) 0 ![0, 0, 0] = 1 + A := by
  unfold anisoTerm
  have hn : √(∑ c, (![(0 : ℝ), 0, 0] : Fin 3 → ℝ) c ^ 2) = 0 := by simp [Fin.sum_univ_three]
  simp only [hn, if_true]
  have hi : Finset.univ.inf' ⟨(0 : Fin 3), Finset.mem_univ _⟩ (fun _ : Fin 3 => (0 : ℝ)) = 0 :=
    le_antisymm (Finset.inf'_le (fun _ : Fin 3 => (0 : ℝ)) (Finset.mem_univ 0)) (Finset.le_inf' _ _ fun _ _ => le_rfl)
  rw [if_pos (by positivity), hi, Real.cos_zero, Real.sin_zero]
  show 1 + A * (1 ^ 4 + 0 ^ 4) = 1 + A
  ring

theorem aniso_ex (A : ℝ) : anisoTerm (turned A) 0 ![1, 0, 0] = 1 + A / 2 := by
  unfold anisoTerm
  have hn : √(∑ c, (![(1 : ℝ), 0, 0] : Fin 3 → ℝ) c ^ 2) = 1 := by simp [Fin.sum_univ_three]
  have hpi := Real.pi_pos
  have hq : Real.arccos (√2 / 2) = Real.pi / 4 := by rw [← Real.cos_pi_div_four]; exact Real.arccos_cos (by linarith) (by linarith)
  have hq' : Real.arccos (-(√2 / 2)) = Real.pi - Real.pi / 4 := by rw [Real.arccos_neg, hq]
  simp only [hn, one_ne_zero, if_false, div_one]
  have hang : ∀ q : Fin 3, (if Real.arccos (∑ c, (turned A).dirs q 0 c * (![(1 : ℝ), 0, 0] : Fin 3 → ℝ) c) < Real.pi / 2 then Real.arccos (∑ c, (turned A).dirs q 0 c * (![(1 : ℝ), 0, 0] : Fin 3 → ℝ) c)
      else Real.pi - Real.arccos (∑ c, (turned A).dirs q 0 c * (![(1 : ℝ), 0, 0] : Fin 3 → ℝ) c)) = ![Real.pi / 4, Real.pi / 4, Real.pi / 2] q := by
    intro q
    have hs : ∑ c, (turned A).dirs q 0 c * (![(1 : ℝ), 0, 0] : Fin 3 → ℝ) c = ![√2 / 2, -(√2 / 2), 0] q := by
      rw [Fin.sum_univ_three]
      fin_cases q <;> simp [turned]
    rw [hs]
    fin_cases q
    · show (if Real.arccos (√2 / 2) < Real.pi / 2 then Real.arccos (√2 / 2) else Real.pi - Real.arccos (√2 / 2)) = Real.pi / 4
      rw [hq, if_pos (by linarith)]
    · show (if Real.arccos (-(√2 / 2)) < Real.pi / 2 then Real.arccos (-(√2 / 2)) else Real.pi - Real.arccos (-(√2 / 2))) = Real.pi / 4
      rw [hq', if_neg (by linarith)]; ring
    · show (if Real.arccos 0 < Real.pi / 2 then Real.arccos 0 else Real.pi - Real.arccos 0) = Real.pi / 2
      rw [Real.arccos_zero, if_neg (lt_irrefl _)]; ring
  simp only [hang]
  have hinf : Finset.univ.inf' ⟨(0 : Fin 3), Finset.mem_univ _⟩ (fun q => (![Real.pi / 4, Real.pi / 4, Real.pi / 2] : Fin 3 → ℝ) q) = Real.pi / 4 := by
    apply le_antisymm
    · exact Finset.inf'_le (fun q => (![Real.pi / 4, Real.pi / 4, Real.pi / 2] : Fin 3 → ℝ) q) (Finset.mem_univ 0)
    · refine Finset.le_inf' _ _ fun q _ => ?_
      fin_cases q
      · exact le_rfl
      · exact le_rfl
      · show Real.pi / 4 ≤ Real.pi / 2
        linarith
  rw [hinf, Real.cos_pi_div_four, Real.sin_pi_div_four]
  have h4 : (√2 / 2 : ℝ) ^ 4 = 1 / 4 := by
    have : (√2 : ℝ) ^ 2 = 2 := Real.sq_sqrt (by norm_num)
    nlinarith
  rw [h4]
  show 1 + A * (1 / 4 + 1 / 4) = 1 + A / 2
  ring

/-- The right-hand side in the middle cell. -/
theorem bump_rhs (th : ℝ → ℝ) (A : ℝ) (hA : 0 < A) (T : ℕ → ℝ) (s : ℝ) :
    stateRhs th (turned A) T (bump s) 1 0 = -(2 * (1 - zetaOf th (turned A) T 1) ^ 2) + anisoTerm (turned A) 0 ![s, 0, 0] * (s - 2) := by
  have hN : 1 < (turned A).N := by simp [turned, PfArgs.N]
  simp only [stateRhs]
  rw [localEnergyGrad_eq (turned A) (bump s) _ hN 0]
  have hL : LgOf (turned A) T 1 = 1 := by simp [LgOf, turned]
  let e : Arr3 (Fin 1 → ℝ) := (⟨(turned A).N, bump s⟩ : Arr1 _).reshape3 1 1 3
  have g0 : e.get 0 0 0 0 = 0 := by simp [e, Arr1.reshape3, bump]
  have g1 : e.get 0 0 1 0 = 1 := by simp [e, Arr1.reshape3, bump]
  have g2 : e.get 0 0 2 0 = s := by simp [e, Arr1.reshape3, bump]
  have hpx : (posX e).get 0 0 1 0 = s := by rw [posX_get, if_pos (show 1 + 1 < e.n2 from (by norm_num : 1 + 1 < 3))]; exact g2
  have hnx : (negX e).get 0 0 1 0 = 0 := by rw [negX_get, if_pos (by decide)]; exact g0
  have hpy : (posY e).get 0 0 1 0 = 1 := g1
  have hny : (negY e).get 0 0 1 0 = 1 := g1
  have hpz : (posZ e).get 0 0 1 0 = 1 := g1
  have hnz : (negZ e).get 0 0 1 0 = 1 := g1
  have han : (anisoField (turned A) e).get 0 0 1 0 = anisoTerm (turned A) 0 ![s, 0, 0] := by
    simp only [anisoField]
    rw [if_pos (show (turned A).anisotropy > 0 from hA), hpx, hnx, hpy, hny, hpz, hnz]
    simp
  have hlap : (laplaceTerm (turned A) (bump s)).get 1 0 = -(anisoTerm (turned A) 0 ![s, 0, 0] * (s - 2)) := by
    have : (laplaceTerm (turned A) (bump s)).get 1 0 =
      -((((posX e).get 0 0 1 0 - e.get 0 0 1 0) + ((negX e).get 0 0 1 0 - e.get 0 0 1 0)) / (1 : ℝ) ^ 2 * (anisoField (turned A) e).get 0 0 1 0 * 1 * 1)
      + -((((posY e).get 0 0 1 0 - e.get 0 0 1 0) + ((negY e).get 0 0 1 0 - e.get 0 0 1 0)) / (1 : ℝ) ^ 2 * (anisoField (turned A) e).get 0 0 1 0 * 1 * 1)
      + -((((posZ e).get 0 0 1 0 - e.get 0 0 1 0) + ((negZ e).get 0 0 1 0 - e.get 0 0 1 0)) / (1 : ℝ) ^ 2 * (anisoField (turned A) e).get 0 0 1 0 * 1 * 1) := by
      unfold laplaceTerm
      exact congrFun (Arr3.flatten_get _ (i := 0) (j := 0) (k := 1) (show 0 < 1 by norm_num) (show 1 < 3 by norm_num)) 0
    rw [this, han, hpx, hnx, hpy, hny, hpz, hnz, g1]
    ring
  rw [hL, hlap]
  unfold localGradExplicit
  have hb : bump s 1 0 = 1 := by simp [bump]
  rw [Fin.sum_univ_one, hb]
  show -1 * (1 * (1 ^ 3 - 1 + 4 * 1 * (1 ^ 2 - 1 ^ 2) + 2 * (1 - zetaOf th (turned A) T 1) ^ 2 * 1) / 1 + -(anisoTerm (turned A) 0 ![s, 0, 0] * (s - 2))) = _
  ring

/-- **C149 (limit of the claim).** With anisotropy the right-hand side is not a continuous function of the order parameters, whatever the temperature: a zero edge vector is given the angle 0 (allen_cahn.py 34), also if the crystal is
turned. So the theorems about existence and convergence cannot be extended to `anisotropy > 0` as they stand. -/
theorem C149_jump (th : ℝ → ℝ) (A : ℝ) (hA : 0 < A) (T : ℕ → ℝ) : ¬ ContinuousAt (fun s => stateRhs th (turned A) T (bump s) 1 0) 0 := by
  intro hc
  have h1 : Tendsto (fun s => stateRhs th (turned A) T (bump s) 1 0) (𝓝[≠] 0) (𝓝 (-(2 * (1 - zetaOf th (turned A) T 1) ^ 2) + (1 + A) * (0 - 2))) := by
    have h := hc.tendsto
    simp only [bump_rhs th A hA T 0, aniso_zero] at h
    exact h.mono_left nhdsWithin_le_nhds
  have h2 : Tendsto (fun s => stateRhs th (turned A) T (bump s) 1 0) (𝓝[≠] 0) (𝓝 (-(2 * (1 - zetaOf th (turned A) T 1) ^ 2) + (1 + A / 2) * (0 - 2))) := by
    have hl : Tendsto (fun s : ℝ => -(2 * (1 - zetaOf th (turned A) T 1) ^ 2) + (1 + A / 2) * (s - 2)) (𝓝[≠] 0) (𝓝 (-(2 * (1 - zetaOf th (turned A) T 1) ^ 2) + (1 + A / 2) * (0 - 2))) := by
      have : Continuous fun s : ℝ => -(2 * (1 - zetaOf th (turned A) T 1) ^ 2) + (1 + A / 2) * (s - 2) := by fun_prop
      exact (this.tendsto 0).mono_left nhdsWithin_le_nhds
    refine hl.congr' ?_
    filter_upwards [self_mem_nhdsWithin] with s hs
    have hs' : s ≠ 0 := hs
    rw [bump_rhs th A hA T s]
    have e : (![s, 0, 0] : Fin 3 → ℝ) = fun a => s * (![1, 0, 0] : Fin 3 → ℝ) a := by
      funext a; fin_cases a <;> simp
    rw [e, C65_aniso_symmetry (turned A) 0 ![1, 0, 0] s hs', aniso_ex]
  have := tendsto_nhds_unique h1 h2
  linarith

example : (0 : ℝ) < 0.15 := by norm_num

end Verif.PhaseField.Ode
