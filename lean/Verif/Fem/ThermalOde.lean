import Verif.Fem.ThermalOrder
import Verif.Fem.SourceId
import Mathlib.Analysis.ODE.ExistUnique

/-!
# The heat equation discretised in space has solutions (C153)
-/
namespace Verif.Fem.ThermalOrder
open Finset Verif.Fem

variable {nn nq nf nfq : ℕ}

/-- At each point, the flux is Lipschitz in time and temperature on bounded intervals. -/
def JointLip (τ : ℝ) (g : ℝ → FluxFn) : Prop :=
  ∀ x r, ∃ Λ, 0 ≤ Λ ∧ ∀ s ∈ Set.Icc 0 τ, ∀ t ∈ Set.Icc 0 τ, ∀ a b : Fin 1 → ℝ, |a 0| ≤ r → |b 0| ≤ r → |g s x a 0 - g t x b 0| ≤ Λ * (|s - t| + |a 0 - b 0|)

section lin
variable (F : Fem nn nq nf nfq 3 1)

theorem listSum_add {α : Type*} (l : List α) (f g : α → ℝ) : (l.map f).sum + (l.map g).sum = (l.map fun x => f x + g x).sum := by
  induction l with
  | nil => simp
  | cons x l ih =>
    simp only [List.map_cons, List.sum_cons]
    rw [← ih]; ring

theorem heatOf_addT (a b : (Fin nn → ℕ) → Fin nq → ℝ) : heatOf F (fun c q => a c q + b c q) = heatOf F a + heatOf F b := by
  unfold heatOf
  rw [listSum_add]
  simp only [add_mul, sum_add_distrib]

theorem heatOf_mulT (t : ℝ) (a : (Fin nn → ℕ) → Fin nq → ℝ) : heatOf F (fun c q => t * a c q) = t * heatOf F a := by
  unfold heatOf
  rw [← List.sum_map_mul_left]
  simp only [mul_sum, mul_assoc]

theorem fluxWork_addT (I : List (ℕ × Fin nf)) (g : FluxFn) (u v w : ℕ → Fin 1 → ℝ) : fluxWork F I g u (fun n i => v n i + w n i) = fluxWork F I g u v + fluxWork F I g u w := by
  unfold fluxWork
  rw [listSum_add]
  simp only [Fem.uFace, add_mul, sum_add_distrib, mul_add]

theorem fluxWork_mulT (I : List (ℕ × Fin nf)) (g : FluxFn) (u v : ℕ → Fin 1 → ℝ) (t : ℝ) : fluxWork F I g u (fun n i => t * v n i) = t * fluxWork F I g u v := by
  unfold fluxWork
  rw [← List.sum_map_mul_left]
  congr 2
  funext s
  have e : ∀ q, F.uFace (fun n i => t * v n i) s q 0 = t * F.uFace v s q 0 := fun q => by
    simp only [Fem.uFace, mul_sum, mul_assoc]
  simp only [e, mul_sum]
  exact sum_congr rfl fun q _ => by ring

theorem uAt_addT (v w : ℕ → Fin 1 → ℝ) (c q i) : F.uAt (fun n i => v n i + w n i) c q i = F.uAt v c q i + F.uAt w c q i := by
  simp only [Fem.uAt, add_mul, sum_add_distrib]

theorem uAt_mulT (t : ℝ) (v : ℕ → Fin 1 → ℝ) (c q i) : F.uAt (fun n i => t * v n i) c q i = t * F.uAt v c q i := by
  simp only [Fem.uAt, mul_sum, mul_assoc]

theorem gradAt_addT (v w : ℕ → Fin 1 → ℝ) (c q i d) : F.gradAt (fun n i => v n i + w n i) c q i d = F.gradAt v c q i d + F.gradAt w c q i d := by
  simp only [Fem.gradAt, add_mul, sum_add_distrib]

theorem gradAt_mulT (t : ℝ) (v : ℕ → Fin 1 → ℝ) (c q i d) : F.gradAt (fun n i => t * v n i) c q i d = t * F.gradAt v c q i d := by
  simp only [Fem.gradAt, mul_sum, mul_assoc]

/-- The heat and conduction forms. -/
noncomputable def massForm (m : ℝ) (u v : ℕ → Fin 1 → ℝ) : ℝ := heatOf F fun c q => m * F.uAt u c q 0 * F.uAt v c q 0
@[inherit_doc massForm]
noncomputable def condForm (k : ℝ) (u v : ℕ → Fin 1 → ℝ) : ℝ := heatOf F fun c q => k * ∑ d, F.gradAt u c q 0 d * F.gradAt v c q 0 d

theorem massForm_comm (m : ℝ) (u v : ℕ → Fin 1 → ℝ) : massForm F m u v = massForm F m v u := by
  unfold massForm
  congr 1
  funext c q
  ring

theorem condForm_comm (k : ℝ) (u v : ℕ → Fin 1 → ℝ) : condForm F k u v = condForm F k v u := by
  unfold condForm
  congr 1
  funext c q
  congr 1
  exact sum_congr rfl fun d _ => mul_comm _ _

theorem massForm_add (m : ℝ) (u v w : ℕ → Fin 1 → ℝ) : massForm F m u (fun n i => v n i + w n i) = massForm F m u v + massForm F m u w := by
  unfold massForm
  rw [← heatOf_addT]
  congr 1
  funext c q
  rw [uAt_addT]
  ring

theorem massForm_mul (m t : ℝ) (u v : ℕ → Fin 1 → ℝ) : massForm F m u (fun n i => t * v n i) = t * massForm F m u v := by
  unfold massForm
  rw [← heatOf_mulT]
  congr 1
  funext c q
  rw [uAt_mulT]
  ring

theorem condForm_add (k : ℝ) (u v w : ℕ → Fin 1 → ℝ) : condForm F k u (fun n i => v n i + w n i) = condForm F k u v + condForm F k u w := by
  unfold condForm
  rw [← heatOf_addT]
  congr 1
  funext c q
  simp only [gradAt_addT, mul_add, sum_add_distrib]

theorem condForm_mul (k t : ℝ) (u v : ℕ → Fin 1 → ℝ) : condForm F k u (fun n i => t * v n i) = t * condForm F k u v := by
  unfold condForm
  rw [← heatOf_mulT]
  congr 1
  funext c q
  simp only [gradAt_mulT, mul_sum]
  exact sum_congr rfl fun d _ => by ring

theorem flux_lip (hmesh : ∀ c ∈ F.cells, ∀ a, c a < F.numTotal) (loc : Loc 3) {τ : ℝ} {g : ℝ → FluxFn} (hg : JointLip τ g) (r : ℝ) :
    ∃ Λ, 0 ≤ Λ ∧ ∀ s ∈ Set.Icc 0 τ, ∀ t ∈ Set.Icc 0 τ, ∀ u w v, amp F u ≤ r → amp F w ≤ r →
      |fluxWork F (F.boundaryInds loc) (g s) u v - fluxWork F (F.boundaryInds loc) (g t) w v| ≤ Λ * (|s - t| + amp F (fun n i => u n i - w n i)) * amp F v := by
  obtain ⟨S, hS, hb⟩ := uFace_le F hmesh
  choose Λ hΛ hl using fun x => hg x (S * r)
  have hJ : 0 ≤ ((F.selectFaces (F.boundaryInds loc)).map fun s => ∑ q, Λ (F.xFace s q) * |F.nansonScale s.1 s.2 q|).sum := List.sum_nonneg fun x hx => by
    obtain ⟨c, -, rfl⟩ := List.mem_map.mp hx
    exact sum_nonneg fun q _ => mul_nonneg (hΛ _) (abs_nonneg _)
  refine ⟨(1 + S) * S * ((F.selectFaces (F.boundaryInds loc)).map fun s => ∑ q, Λ (F.xFace s q) * |F.nansonScale s.1 s.2 q|).sum, by positivity, fun t ht t' ht' u w v hu hw => ?_⟩
  unfold fluxWork
  rw [listSum_sub]
  set d := |t - t'| + amp F (fun n i => u n i - w n i) with hd
  have hd0 : 0 ≤ d := add_nonneg (abs_nonneg _) (amp_nonneg F _)
  have e : (1 + S) * S * ((F.selectFaces (F.boundaryInds loc)).map fun s => ∑ q, Λ (F.xFace s q) * |F.nansonScale s.1 s.2 q|).sum * d * amp F v
      = ((F.selectFaces (F.boundaryInds loc)).map fun s => ((1 + S) * d) * (S * amp F v) * ∑ q, Λ (F.xFace s q) * |F.nansonScale s.1 s.2 q|).sum := by
    rw [List.sum_map_mul_left]; ring
  rw [e]
  refine abs_listSum_le _ _ _ fun s hs => ?_
  rw [selectFaces_boundaryInds] at hs
  have hc := selected_mem _ hs
  rw [← sum_sub_distrib, mul_sum]
  refine (abs_sum_le_sum_abs _ _).trans (sum_le_sum fun q _ => ?_)
  rw [← sub_mul, ← sub_mul, abs_mul, abs_mul]
  have h1 := hl (F.xFace s q) t ht t' ht' _ _ ((hb u s hc q).trans (mul_le_mul_of_nonneg_left hu hS)) ((hb w s hc q).trans (mul_le_mul_of_nonneg_left hw hS))
  have h2 := hb (fun n i => u n i - w n i) s hc q
  have h3 : F.uFace (fun n i => u n i - w n i) s q 0 = F.uFace u s q 0 - F.uFace w s q 0 := by
    simp only [Fem.uFace, sub_mul, sum_sub_distrib]
  rw [h3] at h2
  have h4 : |t - t'| + |F.uFace u s q 0 - F.uFace w s q 0| ≤ (1 + S) * d := by
    have := amp_nonneg F (fun n i => u n i - w n i)
    have h5 := abs_nonneg (t - t')
    rw [hd]
    nlinarith [mul_nonneg hS h5]
  have h6 : |g t (F.xFace s q) (F.uFace u s q) 0 - g t' (F.xFace s q) (F.uFace w s q) 0| ≤ Λ (F.xFace s q) * ((1 + S) * d) := h1.trans (mul_le_mul_of_nonneg_left h4 (hΛ _))
  calc _ ≤ Λ (F.xFace s q) * ((1 + S) * d) * (S * amp F v) * |F.nansonScale s.1 s.2 q| :=
        mul_le_mul_of_nonneg_right (mul_le_mul h6 (hb v s hc q) (abs_nonneg _) (mul_nonneg (hΛ _) (by positivity))) (abs_nonneg _)
    _ = _ := by ring

end lin

/-! ## The differential equation of the free nodes -/

section ode
variable (F : Fem nn nq nf nfq 3 1) (D : ℕ → Prop)

/-- The free nodes. -/
abbrev Free := { n : Fin F.numTotal // ¬ D n }

open Classical in
/-- The field with given values at the free nodes and zero elsewhere. -/
noncomputable def emb (w : Free F D → ℝ) : ℕ → Fin 1 → ℝ := fun n _ => if h : n < F.numTotal then if hd : D n then 0 else w ⟨⟨n, h⟩, hd⟩ else 0

variable {F D}

theorem emb_add (v w : Free F D → ℝ) : emb F D (v + w) = fun n i => emb F D v n i + emb F D w n i := by
  funext n i
  simp only [emb, Pi.add_apply]
  split_ifs <;> simp

theorem emb_smul (t : ℝ) (w : Free F D → ℝ) : emb F D (t • w) = fun n i => t * emb F D w n i := by
  funext n i
  simp only [emb, Pi.smul_apply, smul_eq_mul]
  split_ifs <;> simp

theorem emb_free (w : Free F D → ℝ) {n : ℕ} (hn : n < F.numTotal) (hd : ¬ D n) : emb F D w n 0 = w ⟨⟨n, hn⟩, hd⟩ := by
  unfold emb
  rw [dif_pos hn, dif_neg hd]

theorem emb_fixed (w : Free F D → ℝ) {n : ℕ} (hd : D n) : emb F D w n 0 = 0 := by
  unfold emb
  split_ifs <;> rfl

theorem amp_emb [Fintype (Free F D)] (w : Free F D → ℝ) : amp F (emb F D w) ≤ ‖w‖ := by
  refine amp_le F (norm_nonneg _) fun n hn => ?_
  by_cases hd : D n
  · rw [emb_fixed w hd, abs_zero]
    exact norm_nonneg _
  · rw [emb_free w hn hd]
    exact norm_le_pi_norm w ⟨⟨n, hn⟩, hd⟩

/-- A vector field that is Lipschitz in time and state on bounded sets has a solution for a short time, and its derivative is Lipschitz in time. -/
theorem short_solution {E : Type*} [NormedAddCommGroup E] [NormedSpace ℝ E] [CompleteSpace E] {f : ℝ → E → E} {τ0 : ℝ} (hτ0 : 0 < τ0)
    (hf : ∀ r, ∃ Λ, 0 ≤ Λ ∧ ∀ s ∈ Set.Icc 0 τ0, ∀ t ∈ Set.Icc 0 τ0, ∀ x y, ‖x‖ ≤ r → ‖y‖ ≤ r → ‖f s x - f t y‖ ≤ Λ * (|s - t| + ‖x - y‖)) (x0 : E) :
    ∃ τ, 0 < τ ∧ τ ≤ τ0 ∧ ∃ z : ℝ → E, z 0 = x0 ∧ (∀ t ∈ Set.Icc 0 τ, HasDerivWithinAt z (f t (z t)) (Set.Icc 0 τ) t) ∧
      ∃ L, ∀ s ∈ Set.Icc 0 τ, ∀ t ∈ Set.Icc 0 τ, ‖f s (z s) - f t (z t)‖ ≤ L * |s - t| := by
  obtain ⟨Λ, hΛ, hl⟩ := hf (‖x0‖ + 1)
  set B := ‖f 0 x0‖ + Λ * (τ0 + 1) with hB
  have hB0 : 0 ≤ B := by positivity
  have h0m : (0 : ℝ) ∈ Set.Icc 0 τ0 := ⟨le_rfl, hτ0.le⟩
  have hball : ∀ x ∈ Metric.closedBall x0 1, ‖x‖ ≤ ‖x0‖ + 1 := by
    intro x hx
    rw [Metric.mem_closedBall, dist_eq_norm] at hx
    have := norm_add_le x0 (x - x0)
    rw [add_sub_cancel] at this
    linarith
  have hbd : ∀ t ∈ Set.Icc 0 τ0, ∀ x ∈ Metric.closedBall x0 1, ‖f t x‖ ≤ B := by
    intro t ht x hx
    have h1 := hl t ht 0 h0m x x0 (hball x hx) (by linarith)
    have h2 : ‖f t x‖ ≤ ‖f 0 x0‖ + ‖f t x - f 0 x0‖ := by
      have := norm_add_le (f 0 x0) (f t x - f 0 x0)
      rwa [add_sub_cancel] at this
    rw [Metric.mem_closedBall, dist_eq_norm] at hx
    have h3 : |t - 0| ≤ τ0 := by rw [sub_zero, abs_of_nonneg ht.1]; exact ht.2
    have h4 : Λ * (|t - 0| + ‖x - x0‖) ≤ Λ * (τ0 + 1) := mul_le_mul_of_nonneg_left (by linarith) hΛ
    linarith
  set τ := min τ0 (1 / (B + 1)) with hτ
  have hτp : 0 < τ := lt_min hτ0 (by positivity)
  have hττ : τ ≤ τ0 := min_le_left _ _
  have hBτ : B * τ ≤ 1 := by
    have h1 : τ ≤ 1 / (B + 1) := min_le_right _ _
    have h2 : B * τ ≤ B * (1 / (B + 1)) := mul_le_mul_of_nonneg_left h1 hB0
    have h3 : B * (1 / (B + 1)) ≤ 1 := by
      rw [mul_one_div, div_le_one (by linarith)]
      linarith
    linarith
  have hsub : ∀ t ∈ Set.Icc 0 τ, t ∈ Set.Icc 0 τ0 := fun t ht => ⟨ht.1, ht.2.trans hττ⟩
  have hPL : IsPicardLindelof f (⟨0, ⟨le_rfl, hτp.le⟩⟩ : Set.Icc (0 : ℝ) τ) x0 1 0 ⟨B, hB0⟩ ⟨Λ, hΛ⟩ := by
    refine ⟨fun t ht => ?_, fun x hx => ?_, fun t ht x hx => hbd t (hsub t ht) x hx, ?_⟩
    · refine LipschitzOnWith.of_dist_le_mul fun x hx y hy => ?_
      rw [dist_eq_norm, dist_eq_norm]
      have := hl t (hsub t ht) t (hsub t ht) x y (hball x hx) (hball y hy)
      rwa [sub_self, abs_zero, zero_add] at this
    · refine (LipschitzOnWith.of_dist_le_mul (K := ⟨Λ, hΛ⟩) fun s hs t ht => ?_).continuousOn
      rw [dist_eq_norm, Real.dist_eq]
      have := hl s (hsub s hs) t (hsub t ht) x x (hball x hx) (hball x hx)
      rwa [sub_self, norm_zero, add_zero] at this
    · simp only [sub_zero, NNReal.coe_zero]
      rw [max_eq_left (by simpa using hτp.le)]
      exact hBτ
  obtain ⟨z, hz0, hz⟩ := hPL.exists_eq_forall_mem_Icc_hasDerivWithinAt₀
  refine ⟨τ, hτp, hττ, z, hz0, hz, ?_⟩
  have hcont : ContinuousOn z (Set.Icc 0 τ) := fun t ht => (hz t ht).continuousWithinAt
  obtain ⟨R, hR⟩ := isCompact_Icc.exists_bound_of_continuousOn hcont
  obtain ⟨Λ', hΛ', hl'⟩ := hf R
  have hfc : ∃ B', ∀ t ∈ Set.Icc 0 τ, ‖f t (z t)‖ ≤ B' := by
    refine ⟨‖f 0 (z 0)‖ + Λ' * (τ + 2 * R), fun t ht => ?_⟩
    have h0 : (0 : ℝ) ∈ Set.Icc 0 τ := ⟨le_rfl, hτp.le⟩
    have h1 := hl' t (hsub t ht) 0 h0m (z t) (z 0) (hR t ht) (hR 0 h0)
    have h2 : ‖f t (z t)‖ ≤ ‖f 0 (z 0)‖ + ‖f t (z t) - f 0 (z 0)‖ := by
      have := norm_add_le (f 0 (z 0)) (f t (z t) - f 0 (z 0))
      rwa [add_sub_cancel] at this
    have h3 : |t - 0| ≤ τ := by rw [sub_zero, abs_of_nonneg ht.1]; exact ht.2
    have h4 := norm_sub_le (z t) (z 0)
    have h5 : Λ' * (|t - 0| + ‖z t - z 0‖) ≤ Λ' * (τ + 2 * R) := mul_le_mul_of_nonneg_left (by linarith [hR t ht, hR 0 h0]) hΛ'
    linarith
  obtain ⟨B', hB'⟩ := hfc
  refine ⟨Λ' * (1 + B'), fun s hs t ht => ?_⟩
  have h1 := hl' s (hsub s hs) t (hsub t ht) (z s) (z t) (hR s hs) (hR t ht)
  have h2 := Convex.norm_image_sub_le_of_norm_hasDerivWithin_le (fun x hx => hz x hx) (fun x hx => hB' x hx) (convex_Icc 0 τ) ht hs
  rw [Real.norm_eq_abs] at h2
  calc _ ≤ Λ' * (|s - t| + ‖z s - z t‖) := h1
    _ ≤ Λ' * (|s - t| + B' * |s - t|) := mul_le_mul_of_nonneg_left (by linarith) hΛ'
    _ = _ := by ring

/-- **C153 (existence).** The heat equation discretised in space, with fluxes that are Lipschitz in time and temperature, has a solution for a short time from any initial temperatures, with the values of the nodes `D` held. -/
theorem C153_exists {k rho Cp : ℝ} {top walls : Loc 3} {gTop gWalls : ℝ → FluxFn} {τ0 : ℝ} (hmesh : ∀ c ∈ F.cells, ∀ a, c a < F.numTotal) (hvol : ∀ c ∈ F.cells, ∀ q, 0 < F.JxW c q) (hdef : Definite F) (hm : 0 < rho * Cp)
    (hτ0 : 0 < τ0) (hTop : JointLip τ0 gTop) (hWalls : JointLip τ0 gWalls) (T0 : ℕ → Fin 1 → ℝ) :
    ∃ τ, 0 < τ ∧ τ ≤ τ0 ∧ ∃ T Td, Semi F k rho Cp top walls gTop gWalls D τ T Td ∧ (∀ n < F.numTotal, T 0 n 0 = T0 n 0) ∧ ∀ t ∈ Set.Icc 0 τ, ∀ n < F.numTotal, D n → T t n 0 = T0 n 0 := by
  classical
  let E := Free F D → ℝ
  let M : E →ₗ[ℝ] E →ₗ[ℝ] ℝ := LinearMap.mk₂ ℝ (fun v w => massForm F (rho * Cp) (emb F D v) (emb F D w))
    (fun v v' w => by rw [massForm_comm F (rho * Cp) _ (emb F D w), emb_add, massForm_add, massForm_comm F (rho * Cp) _ (emb F D v), massForm_comm F (rho * Cp) _ (emb F D v')])
    (fun t v w => by rw [massForm_comm F (rho * Cp) _ (emb F D w), emb_smul, massForm_mul, smul_eq_mul, massForm_comm F (rho * Cp) _ (emb F D v)])
    (fun v w w' => by rw [emb_add, massForm_add]) (fun t v w => by rw [emb_smul, massForm_mul, smul_eq_mul])
  let A : E →ₗ[ℝ] E →ₗ[ℝ] ℝ := LinearMap.mk₂ ℝ (fun v w => condForm F k (emb F D v) (emb F D w))
    (fun v v' w => by rw [condForm_comm F k _ (emb F D w), emb_add, condForm_add, condForm_comm F k _ (emb F D v), condForm_comm F k _ (emb F D v')])
    (fun t v w => by rw [condForm_comm F k _ (emb F D w), emb_smul, condForm_mul, smul_eq_mul, condForm_comm F k _ (emb F D v)])
    (fun v w w' => by rw [emb_add, condForm_add]) (fun t v w => by rw [emb_smul, condForm_mul, smul_eq_mul])
  let Ψ : E →ₗ[ℝ] E := LinearMap.pi fun j => M.flip (Pi.single j 1)
  let Γ : E →ₗ[ℝ] E := LinearMap.pi fun j => A.flip (Pi.single j 1)
  have hinj : Function.Injective Ψ := by
    rw [← LinearMap.ker_eq_bot, LinearMap.ker_eq_bot']
    intro w hw
    have h0 : M w = 0 := LinearMap.pi_ext' fun j => LinearMap.ext_ring (congrFun hw j)
    have h1 : M w w = 0 := by rw [h0]; rfl
    obtain ⟨K, hK, ha⟩ := amp_le_heat F hmesh hvol hdef hm
    have h2 : heatSq F (rho * Cp) (emb F D w) = 0 := by
      rw [← h1]
      show _ = heatOf F _
      unfold heatSq
      congr 1
      funext c q
      ring
    have h3 := ha (emb F D w)
    rw [h2, Real.sqrt_zero, mul_zero] at h3
    funext j
    have h4 := (le_amp F (emb F D w) j.1.2).trans h3
    rw [emb_free w j.1.2 j.2] at h4
    exact abs_nonpos_iff.mp h4
  let Ψe : E ≃ₗ[ℝ] E := LinearEquiv.ofInjectiveEndo Ψ hinj
  let P : E →L[ℝ] E := LinearMap.toContinuousLinearMap Ψe.symm.toLinearMap
  let G : E →L[ℝ] E := LinearMap.toContinuousLinearMap Γ
  let base : ℕ → Fin 1 → ℝ := fun n i => if D n then T0 n i else 0
  let full : E → ℕ → Fin 1 → ℝ := fun w n i => base n i + emb F D w n i
  let γ0 : E := fun j => condForm F k base (emb F D (Pi.single j 1))
  let φ : ℝ → E → E := fun t w j => fluxWork F (F.boundaryInds top) (gTop t) (full w) (emb F D (Pi.single j 1)) + fluxWork F (F.boundaryInds walls) (gWalls t) (full w) (emb F D (Pi.single j 1))
  let f : ℝ → E → E := fun t w => P (φ t w - G w - γ0)
  have hΨ : ∀ y, Ψ (P y) = y := fun y => Ψe.apply_symm_apply y
  have hfull : ∀ w, amp F (full w) ≤ amp F base + ‖w‖ := fun w => (amp_add_le base (emb F D w)).trans (by linarith [amp_emb w])
  have hsingle : ∀ j : Free F D, amp F (emb F D (Pi.single j 1)) ≤ 1 := fun j => (amp_emb _).trans (by
    refine (pi_norm_le_iff_of_nonneg zero_le_one).mpr fun i => ?_
    by_cases h : i = j
    · rw [h, Pi.single_eq_same, norm_one]
    · rw [Pi.single_eq_of_ne h, norm_zero]; exact zero_le_one)
  have hdiff : ∀ w w', amp F (fun n i => full w n i - full w' n i) ≤ ‖w - w'‖ := by
    intro w w'
    have e : (fun n i => full w n i - full w' n i) = emb F D (w - w') := by
      rw [sub_eq_add_neg, ← neg_one_smul ℝ w', emb_add, emb_smul]
      funext n i
      simp only [full]
      ring
    rw [e]
    exact amp_emb _
  have hf : ∀ r, ∃ Λ, 0 ≤ Λ ∧ ∀ s ∈ Set.Icc 0 τ0, ∀ t ∈ Set.Icc 0 τ0, ∀ x y, ‖x‖ ≤ r → ‖y‖ ≤ r → ‖f s x - f t y‖ ≤ Λ * (|s - t| + ‖x - y‖) := by
    intro r
    obtain ⟨Λ1, hΛ1, h1⟩ := flux_lip F hmesh top hTop (amp F base + r)
    obtain ⟨Λ2, hΛ2, h2⟩ := flux_lip F hmesh walls hWalls (amp F base + r)
    refine ⟨‖P‖ * (Λ1 + Λ2 + ‖G‖), by positivity, fun s hs t ht x y hx hy => ?_⟩
    have hφ : ‖φ s x - φ t y‖ ≤ (Λ1 + Λ2) * (|s - t| + ‖x - y‖) := by
      refine (pi_norm_le_iff_of_nonneg (by positivity)).mpr fun j => ?_
      have hj := hsingle j
      have hj0 := amp_nonneg F (emb F D (Pi.single j 1))
      have d0 := amp_nonneg F (fun n i => full x n i - full y n i)
      have d1 := hdiff x y
      have a1 := h1 s hs t ht (full x) (full y) (emb F D (Pi.single j 1)) ((hfull x).trans (by linarith)) ((hfull y).trans (by linarith))
      have a2 := h2 s hs t ht (full x) (full y) (emb F D (Pi.single j 1)) ((hfull x).trans (by linarith)) ((hfull y).trans (by linarith))
      have hs0 := abs_nonneg (s - t)
      have b1 : ∀ Λ, 0 ≤ Λ → Λ * (|s - t| + amp F (fun n i => full x n i - full y n i)) * amp F (emb F D (Pi.single j 1)) ≤ Λ * (|s - t| + ‖x - y‖) := by
        intro Λ hΛ
        calc _ ≤ Λ * (|s - t| + amp F (fun n i => full x n i - full y n i)) * 1 := mul_le_mul_of_nonneg_left hj (by positivity)
          _ ≤ _ := by rw [mul_one]; exact mul_le_mul_of_nonneg_left (by linarith) hΛ
      have c1 := a1.trans (b1 Λ1 hΛ1)
      have c2 := a2.trans (b1 Λ2 hΛ2)
      rw [Real.norm_eq_abs]
      show |(fluxWork F (F.boundaryInds top) (gTop s) (full x) (emb F D (Pi.single j 1)) + fluxWork F (F.boundaryInds walls) (gWalls s) (full x) (emb F D (Pi.single j 1)))
        - (fluxWork F (F.boundaryInds top) (gTop t) (full y) (emb F D (Pi.single j 1)) + fluxWork F (F.boundaryInds walls) (gWalls t) (full y) (emb F D (Pi.single j 1)))| ≤ _
      rw [add_sub_add_comm]
      refine (abs_add_le _ _).trans ?_
      linarith
    have e : f s x - f t y = P ((φ s x - φ t y) - G (x - y)) := by
      show P _ - P _ = _
      rw [← map_sub, map_sub G]
      congr 1
      abel
    rw [e]
    have hG := G.le_opNorm (x - y)
    have hst := abs_nonneg (s - t)
    calc _ ≤ ‖P‖ * ‖(φ s x - φ t y) - G (x - y)‖ := P.le_opNorm _
      _ ≤ ‖P‖ * ((Λ1 + Λ2) * (|s - t| + ‖x - y‖) + ‖G‖ * (|s - t| + ‖x - y‖)) := by
        refine mul_le_mul_of_nonneg_left ((norm_sub_le _ _).trans (add_le_add hφ (hG.trans (mul_le_mul_of_nonneg_left (by linarith) (norm_nonneg _))))) (norm_nonneg _)
      _ = _ := by ring
  obtain ⟨τ, hτ, hττ, z, hz0, hz, L, hL⟩ := short_solution hτ0 hf (fun j => T0 j.1 0)
  refine ⟨τ, hτ, hττ, fun t => full (z t), fun t => emb F D (f t (z t)), ⟨?_, ⟨L, ?_⟩, ?_⟩, ?_, ?_⟩
  · intro t ht n hn
    by_cases hd : D n
    · have e : (fun s => full (z s) n 0) = fun _ => T0 n 0 := by
        funext s
        simp only [full, base, if_pos hd, emb_fixed _ hd, add_zero]
      rw [e, emb_fixed _ hd]
      exact hasDerivWithinAt_const _ _ _
    · have e : (fun s => full (z s) n 0) = fun s => z s ⟨⟨n, hn⟩, hd⟩ := by
        funext s
        simp only [full, base, if_neg hd, emb_free _ hn hd, zero_add]
      rw [e, emb_free _ hn hd]
      exact (hasDerivWithinAt_pi.mp (hz t ht)) ⟨⟨n, hn⟩, hd⟩
  · intro s hs t ht n hn
    have h1 := hL s hs t ht
    by_cases hd : D n
    · rw [emb_fixed _ hd, emb_fixed _ hd, sub_zero, abs_zero]
      exact (norm_nonneg _).trans h1
    · rw [emb_free _ hn hd, emb_free _ hn hd]
      exact (norm_le_pi_norm (f s (z s) - f t (z t)) ⟨⟨n, hn⟩, hd⟩).trans h1
  · intro t ht v hv
    let J : E →ₗ[ℝ] ℝ :=
      { toFun := fun w => condForm F k (full (z t)) (emb F D w) + massForm F (rho * Cp) (emb F D (f t (z t))) (emb F D w)
          - (fluxWork F (F.boundaryInds top) (gTop t) (full (z t)) (emb F D w) + fluxWork F (F.boundaryInds walls) (gWalls t) (full (z t)) (emb F D w))
        map_add' := fun v w => by rw [emb_add, condForm_add, massForm_add, fluxWork_addT, fluxWork_addT]; ring
        map_smul' := fun t v => by rw [emb_smul, condForm_mul, massForm_mul, fluxWork_mulT, fluxWork_mulT, smul_eq_mul, RingHom.id_apply]; ring }
    have hJ : J = 0 := LinearMap.pi_ext' fun j => LinearMap.ext_ring (by
      show condForm F k (full (z t)) (emb F D (Pi.single j 1)) + massForm F (rho * Cp) (emb F D (f t (z t))) (emb F D (Pi.single j 1)) - φ t (z t) j = 0
      have h1 : massForm F (rho * Cp) (emb F D (f t (z t))) (emb F D (Pi.single j 1)) = φ t (z t) j - Γ (z t) j - γ0 j := congrFun (hΨ (φ t (z t) - G (z t) - γ0)) j
      have h2 : condForm F k (full (z t)) (emb F D (Pi.single j 1)) = γ0 j + Γ (z t) j := by
        rw [condForm_comm]
        show condForm F k _ (fun n i => base n i + emb F D (z t) n i) = _
        rw [condForm_add, condForm_comm F k _ base, condForm_comm F k _ (emb F D (z t))]
        rfl
      rw [h1, h2]
      ring)
    have hJv := congrArg (fun l : E →ₗ[ℝ] ℝ => l fun j => v j.1 0) hJ
    have hvn : ∀ n < F.numTotal, emb F D (fun j => v j.1 0) n 0 = v n 0 := by
      intro n hn
      by_cases hd : D n
      · rw [emb_fixed _ hd, hv n hn hd]
      · rw [emb_free _ hn hd]
    have hu : ∀ c ∈ F.cells, ∀ q, F.uAt (emb F D fun j => v j.1 0) c q 0 = F.uAt v c q 0 := fun c hc q => sum_congr rfl fun a _ => by rw [hvn _ (hmesh c hc a)]
    have hg : ∀ c ∈ F.cells, ∀ q d, F.gradAt (emb F D fun j => v j.1 0) c q 0 d = F.gradAt v c q 0 d := fun c hc q d => sum_congr rfl fun a _ => by rw [hvn _ (hmesh c hc a)]
    have hw : ∀ (loc : Loc 3) (g : FluxFn), fluxWork F (F.boundaryInds loc) g (full (z t)) (emb F D fun j => v j.1 0) = fluxWork F (F.boundaryInds loc) g (full (z t)) v := by
      intro loc g
      unfold fluxWork
      refine congrArg List.sum (List.map_congr_left fun s hs => ?_)
      rw [selectFaces_boundaryInds] at hs
      have hc := selected_mem _ hs
      refine sum_congr rfl fun q _ => ?_
      have e : F.uFace (emb F D fun j => v j.1 0) s q 0 = F.uFace v s q 0 := sum_congr rfl fun a _ => by rw [hvn _ (hmesh _ hc a)]
      rw [e]
    have h3 : condForm F k (full (z t)) (emb F D fun j => v j.1 0) + massForm F (rho * Cp) (emb F D (f t (z t))) (emb F D fun j => v j.1 0)
        - (fluxWork F (F.boundaryInds top) (gTop t) (full (z t)) (emb F D fun j => v j.1 0) + fluxWork F (F.boundaryInds walls) (gWalls t) (full (z t)) (emb F D fun j => v j.1 0)) = 0 := hJv
    rw [hw, hw] at h3
    rw [← sub_eq_zero.mp h3]
    unfold condForm massForm
    rw [← heatOf_addT]
    unfold heatOf
    refine congrArg List.sum (List.map_congr_left fun c hc => sum_congr rfl fun q _ => ?_)
    simp only [hu c hc, hg c hc]
  · intro n hn
    by_cases hd : D n
    · simp only [full, base, if_pos hd, emb_fixed _ hd, add_zero]
    · simp only [full, base, if_neg hd, emb_free _ hn hd, zero_add, hz0]
  · intro t ht n hn hd
    simp only [full, base, if_pos hd, emb_fixed _ hd, add_zero]

end ode
end Verif.Fem.ThermalOrder
