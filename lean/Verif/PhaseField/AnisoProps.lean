import Verif.PhaseField.NeperProps
import Verif.PhaseField.AllenCahnBounds

/-!
# C65: closed form and crystal symmetry of the anisotropy factor
-/
namespace Verif.PhaseField
open Verif

variable {m d : ℕ}

/-- Squared cosine of the smallest angle between the interface normal and the crystal directions. -/
noncomputable def bestCosSq (P : PfArgs m d) (o : Fin m) (edge : Fin 3 → ℝ) : ℝ :=
  Finset.univ.sup' ⟨0, Finset.mem_univ _⟩ fun q : Fin (d + 1) => (∑ c, P.dirs q o c * edge c) ^ 2 / ∑ c, edge c ^ 2

theorem fold_angle (c : ℝ) (h1 : -1 ≤ c) (h2 : c ≤ 1) :
    let t := if Real.arccos c < Real.pi / 2 then Real.arccos c else Real.pi - Real.arccos c
    0 ≤ t ∧ t ≤ Real.pi / 2 ∧ Real.cos t = |c| := by
  intro t
  have h0 := Real.arccos_nonneg c
  have hp := Real.arccos_le_pi c
  by_cases h : Real.arccos c < Real.pi / 2
  · have hc : 0 ≤ c := by
      by_contra hc; push Not at hc
      have := Real.arccos_le_pi_div_two.mp h.le
      linarith
    simp only [t, h, if_true]
    exact ⟨h0, h.le, by rw [Real.cos_arccos h1 h2, abs_of_nonneg hc]⟩
  · have hc : c ≤ 0 := by
      by_contra hc; push Not at hc
      exact h (Real.arccos_lt_pi_div_two.mpr hc)
    simp only [t, h, if_false]
    refine ⟨by linarith, by push Not at h; linarith, ?_⟩
    rw [Real.cos_pi_sub, Real.cos_arccos h1 h2, abs_of_nonpos hc]

theorem cauchy3 (a b : Fin 3 → ℝ) : (∑ c, a c * b c) ^ 2 ≤ (∑ c, a c ^ 2) * ∑ c, b c ^ 2 :=
  Finset.sum_mul_sq_le_sq_mul_sq Finset.univ a b

/-- **C65 (closed form).** For unit crystal directions and a nonzero normal the factor is `1 + A (M² + (1 - M)²)`, where `M` is the largest squared cosine between the
normal and a crystal direction. For a zero normal it is `1 + A`. -/
theorem C65_formula (P : PfArgs m d) (o : Fin m) (edge : Fin 3 → ℝ) (hu : ∀ q, ∑ c, P.dirs q o c ^ 2 = 1) :
    (edge ≠ 0 → anisoTerm P o edge = 1 + P.anisotropy * (bestCosSq P o edge ^ 2 + (1 - bestCosSq P o edge) ^ 2)) ∧
    (edge = 0 → anisoTerm P o edge = 1 + P.anisotropy) := by
  constructor
  · intro he
    have hs : 0 < ∑ c, edge c ^ 2 := by
      obtain ⟨i, hi⟩ := Function.ne_iff.mp he
      have h1 : 0 < edge i ^ 2 := lt_of_le_of_ne (sq_nonneg _) (Ne.symm (pow_ne_zero 2 hi))
      exact lt_of_lt_of_le h1 (Finset.single_le_sum (f := fun c => edge c ^ 2) (fun c _ => sq_nonneg _) (Finset.mem_univ i))
    set n := Real.sqrt (∑ c, edge c ^ 2) with hn
    have hnp : 0 < n := Real.sqrt_pos.mpr hs
    have hn2 : n ^ 2 = ∑ c, edge c ^ 2 := Real.sq_sqrt hs.le
    set cq : Fin (d + 1) → ℝ := fun q => (∑ c, P.dirs q o c * edge c) / n with hcq
    have hsq : ∀ q, cq q ^ 2 = (∑ c, P.dirs q o c * edge c) ^ 2 / ∑ c, edge c ^ 2 := fun q => by
      rw [hcq]; simp only; rw [div_pow, hn2]
    have hle : ∀ q, cq q ^ 2 ≤ 1 := fun q => by
      rw [hsq, div_le_one hs]
      have := cauchy3 (P.dirs q o) edge
      rwa [hu, one_mul] at this
    have hb : ∀ q, -1 ≤ cq q ∧ cq q ≤ 1 := fun q => abs_le.mp (by
      rw [← sq_le_one_iff_abs_le_one]; exact hle q)
    set th : Fin (d + 1) → ℝ := fun q =>
      if Real.arccos (cq q) < Real.pi / 2 then Real.arccos (cq q) else Real.pi - Real.arccos (cq q) with hth
    have hang : anisoTerm P o edge = 1 + P.anisotropy *
        (Real.cos (Finset.univ.inf' ⟨0, Finset.mem_univ _⟩ th) ^ 4 + Real.sin (Finset.univ.inf' ⟨0, Finset.mem_univ _⟩ th) ^ 4) := by
      unfold anisoTerm
      have : (fun q : Fin (d + 1) => (if (if n = 0 then 0 else Real.arccos ((∑ c, P.dirs q o c * edge c) / n)) < Real.pi / 2
          then (if n = 0 then 0 else Real.arccos ((∑ c, P.dirs q o c * edge c) / n))
          else Real.pi - (if n = 0 then 0 else Real.arccos ((∑ c, P.dirs q o c * edge c) / n)))) = th := by
        funext q
        simp only [hnp.ne', if_false, hth, hcq]
      simp only [← hn]
      rw [← this]
    obtain ⟨q0, -, hq0⟩ := Finset.exists_mem_eq_inf' (⟨0, Finset.mem_univ _⟩ : (Finset.univ : Finset (Fin (d + 1))).Nonempty) th
    have hM : bestCosSq P o edge = cq q0 ^ 2 := by
      unfold bestCosSq
      apply le_antisymm
      · refine Finset.sup'_le _ _ fun q _ => ?_
        rw [← hsq]
        have h1 : th q0 ≤ th q := by rw [← hq0]; exact Finset.inf'_le _ (Finset.mem_univ q)
        have f0 := fold_angle (cq q0) (hb q0).1 (hb q0).2
        have f := fold_angle (cq q) (hb q).1 (hb q).2
        have hc : Real.cos (th q) ≤ Real.cos (th q0) :=
          Real.cos_le_cos_of_nonneg_of_le_pi f0.1 (f.2.1.trans (by linarith [Real.pi_pos])) h1
        rw [f.2.2, f0.2.2] at hc
        exact sq_le_sq.mpr hc
      · rw [hsq]
        exact Finset.le_sup' (fun q : Fin (d + 1) => (∑ c, P.dirs q o c * edge c) ^ 2 / ∑ c, edge c ^ 2) (Finset.mem_univ q0)
    have hcos : Real.cos (th q0) ^ 2 = cq q0 ^ 2 := by
      rw [(fold_angle (cq q0) (hb q0).1 (hb q0).2).2.2, sq_abs]
    rw [hang, hq0, hM, ← hcos]
    have hsin : Real.sin (th q0) ^ 2 = 1 - Real.cos (th q0) ^ 2 := by linarith [Real.sin_sq_add_cos_sq (th q0)]
    rw [← hsin]
    ring
  · rintro rfl
    unfold anisoTerm
    simp [Real.pi_pos]
    have : (Finset.univ.inf' ⟨0, Finset.mem_univ _⟩ fun _ : Fin (d + 1) => (0 : ℝ)) = 0 := Finset.inf'_const _ 0
    rw [this]
    simp

/-- **C65 (crystal symmetry).** Orientations that differ by a relabelling and reversal of the crystal axes (symmetry operations of the cubic crystal) have the same factor. -/
theorem C65_crystal_symmetry (P : PfArgs m d) (o o' : Fin m) (edge : Fin 3 → ℝ) (hu : ∀ q, ∑ c, P.dirs q o c ^ 2 = 1)
    (σ : Equiv.Perm (Fin (d + 1))) (ε : Fin (d + 1) → ℝ) (hε : ∀ q, ε q = 1 ∨ ε q = -1)
    (h : ∀ q c, P.dirs q o' c = ε q * P.dirs (σ q) o c) : anisoTerm P o' edge = anisoTerm P o edge := by
  have e2 : ∀ q, ε q ^ 2 = 1 := fun q => by rcases hε q with h | h <;> rw [h] <;> norm_num
  have hu' : ∀ q, ∑ c, P.dirs q o' c ^ 2 = 1 := fun q => by
    simp only [h, mul_pow, e2, one_mul, hu]
  have hb : bestCosSq P o' edge = bestCosSq P o edge := by
    unfold bestCosSq
    have : (fun q : Fin (d + 1) => (∑ c, P.dirs q o' c * edge c) ^ 2 / ∑ c, edge c ^ 2)
        = (fun q : Fin (d + 1) => (∑ c, P.dirs q o c * edge c) ^ 2 / ∑ c, edge c ^ 2) ∘ σ := by
      funext q
      simp only [h, mul_assoc, ← Finset.mul_sum, mul_pow, e2, one_mul, Function.comp]
    rw [this]
    apply le_antisymm
    · exact Finset.sup'_le _ _ fun q _ => Finset.le_sup' (fun q : Fin (d + 1) => (∑ c, P.dirs q o c * edge c) ^ 2 / ∑ c, edge c ^ 2) (Finset.mem_univ (σ q))
    · refine Finset.sup'_le _ _ fun q _ => ?_
      have := Finset.le_sup' ((fun q : Fin (d + 1) => (∑ c, P.dirs q o c * edge c) ^ 2 / ∑ c, edge c ^ 2) ∘ σ) (Finset.mem_univ (σ.symm q))
      simpa using this
  by_cases he : edge = 0
  · rw [(C65_formula P o' edge hu').2 he, (C65_formula P o edge hu).2 he]
  · rw [(C65_formula P o' edge hu').1 he, (C65_formula P o edge hu).1 he, hb]

/-- Instance: directions read from a quaternion satisfy the hypothesis, and along a crystal direction the factor is largest, `1 + A`. -/
example (P : PfArgs 1 2) (q : Fin 4 → ℝ) (hq : q ≠ 0) (h : grainDirections q = .ok fun a c => P.dirs a 0 c) :
    anisoTerm P 0 (P.dirs 0 0) = 1 + P.anisotropy := by
  obtain ⟨D, hD, horth, -⟩ := C91_frame q hq
  rw [h] at hD
  injection hD with hD
  have hD' : ∀ a c, P.dirs a 0 c = D a c := fun a c => congrFun (congrFun hD a) c
  have hu : ∀ a, ∑ c, P.dirs a 0 c ^ 2 = 1 := fun a => by
    have := horth a a
    simp only [if_true, ← hD', ← sq] at this
    exact this
  have he : P.dirs 0 0 ≠ 0 := by
    intro h0
    have := hu 0
    simp [h0] at this
  rw [(C65_formula P 0 _ hu).1 he]
  have hb : bestCosSq P 0 (P.dirs 0 0) = 1 := by
    apply le_antisymm
    · refine Finset.sup'_le _ _ fun a _ => ?_
      have := cauchy3 (P.dirs a 0) (P.dirs 0 0)
      rw [hu, hu] at this
      rw [hu 0, div_one]; linarith
    · have := Finset.le_sup' (fun a : Fin 3 => (∑ c, P.dirs a 0 c * P.dirs 0 0 c) ^ 2 / ∑ c, P.dirs 0 0 c ^ 2) (Finset.mem_univ 0)
      refine le_trans ?_ this
      simp only [← sq, hu]
      norm_num
  rw [hb]; ring

end Verif.PhaseField
