import Verif.Fem.ThermoLoop
import Mathlib.Analysis.Calculus.MeanValue

/-!
# Order of the time discretisation of the heat problem (C153)
-/
namespace Verif.Fem.ThermalOrder
open Finset Verif.Fem

variable {nn nq nf nfq : ℕ}

/-! ## Specification -/

/-- The largest nodal value. -/
noncomputable def amp (F : Fem nn nq nf nfq 3 1) (u : ℕ → Fin 1 → ℝ) : ℝ := ‖fun n : Fin F.numTotal => u n 0‖

/-- A field that vanishes at all quadrature points vanishes. -/
def Definite (F : Fem nn nq nf nfq 3 1) : Prop := ∀ v : ℕ → Fin 1 → ℝ, (∀ c ∈ F.cells, ∀ q, F.uAt v c q 0 = 0) → ∀ n < F.numTotal, v n 0 = 0

/-- Flux functions of time whose dependence on the temperature is Lipschitz on bounded intervals. -/
def LocLip (τ : ℝ) (g : ℝ → FluxFn) : Prop := ∀ r, ∃ Λ, 0 ≤ Λ ∧ ∀ t ∈ Set.Icc 0 τ, ∀ x, ∀ a b : Fin 1 → ℝ, |a 0| ≤ r → |b 0| ≤ r → |g t x a 0 - g t x b 0| ≤ Λ * |a 0 - b 0|

/-- Nodal temperatures `T` on `[0, τ]` with derivative `Td` that satisfy the heat equation discretised in space only: `rho Cp T' = div (k grad T)` in the weak form for all fields that vanish at the nodes `D`, with the boundary
fluxes `gTop` and `gWalls` of the present time and temperature. -/
structure Semi (F : Fem nn nq nf nfq 3 1) (k rho Cp : ℝ) (top walls : Loc 3) (gTop gWalls : ℝ → FluxFn) (D : ℕ → Prop) (τ : ℝ) (T Td : ℝ → ℕ → Fin 1 → ℝ) : Prop where
  deriv : ∀ t ∈ Set.Icc 0 τ, ∀ n < F.numTotal, HasDerivWithinAt (fun s => T s n 0) (Td t n 0) (Set.Icc 0 τ) t
  lip : ∃ L, ∀ s ∈ Set.Icc 0 τ, ∀ t ∈ Set.Icc 0 τ, ∀ n < F.numTotal, |Td s n 0 - Td t n 0| ≤ L * |s - t|
  weak : ∀ t ∈ Set.Icc 0 τ, ∀ v : ℕ → Fin 1 → ℝ, (∀ n < F.numTotal, D n → v n 0 = 0) →
    heatOf F (fun c q => k * (∑ d, F.gradAt (T t) c q 0 d * F.gradAt v c q 0 d) + rho * Cp * F.uAt (Td t) c q 0 * F.uAt v c q 0)
      = fluxWork F (F.boundaryInds top) (gTop t) (T t) v + fluxWork F (F.boundaryInds walls) (gWalls t) (T t) v

/-- The temperatures `Ts 0, Ts 1, ..` are those of the time loop with step `dt` up to the time `τ`: each new one solves the heat step posed with the one before and the fluxes of the new time, up to a residual `ε`, with the values `T` at
the nodes `D`. -/
structure Steps (F : Fem nn nq nf nfq 3 1) (k rho Cp : ℝ) (top walls : Loc 3) (gTop gWalls : ℝ → FluxFn) (D : ℕ → Prop) (τ : ℝ) (T : ℝ → ℕ → Fin 1 → ℝ) (dt ε : ℝ) (Ts : ℕ → ℕ → Fin 1 → ℝ) : Prop where
  fixed : ∀ i : ℕ, i * dt ≤ τ → ∀ n < F.numTotal, D n → Ts i n 0 = T (i * dt) n 0
  step : ∀ i : ℕ, (i + 1 : ℕ) * dt ≤ τ → ∃ R, (tmThermal F k rho Cp dt top walls (gTop ((i + 1 : ℕ) * dt)) (gWalls ((i + 1 : ℕ) * dt)) (Ts i)).computeResidual (Ts (i + 1)) = .ok R ∧ ∀ n < F.numTotal, ¬ D n → |R n 0| ≤ ε

/-! ## Bounds -/

section bounds
variable (F : Fem nn nq nf nfq 3 1)

theorem amp_nonneg (u : ℕ → Fin 1 → ℝ) : 0 ≤ amp F u := norm_nonneg _

theorem le_amp (u : ℕ → Fin 1 → ℝ) {n : ℕ} (hn : n < F.numTotal) : |u n 0| ≤ amp F u := norm_le_pi_norm (fun n : Fin F.numTotal => u n 0) ⟨n, hn⟩

theorem amp_le {u : ℕ → Fin 1 → ℝ} {r : ℝ} (hr : 0 ≤ r) (h : ∀ n < F.numTotal, |u n 0| ≤ r) : amp F u ≤ r := (pi_norm_le_iff_of_nonneg hr).mpr fun n => h n n.2

theorem uAt_le (hmesh : ∀ c ∈ F.cells, ∀ a, c a < F.numTotal) : ∃ S, 0 ≤ S ∧ ∀ u, ∀ c ∈ F.cells, ∀ q, |F.uAt u c q 0| ≤ S * amp F u := by
  refine ⟨∑ q, ∑ a, |F.shapeVals q a|, by positivity, fun u c hc q => ?_⟩
  have h1 : |F.uAt u c q 0| ≤ ∑ a, |F.shapeVals q a| * amp F u := by
    refine (abs_sum_le_sum_abs _ _).trans (sum_le_sum fun a _ => ?_)
    rw [abs_mul, mul_comm]
    exact mul_le_mul_of_nonneg_left (le_amp F u (hmesh c hc a)) (abs_nonneg _)
  rw [← sum_mul] at h1
  refine h1.trans (mul_le_mul_of_nonneg_right ?_ (amp_nonneg F u))
  exact single_le_sum (f := fun q => ∑ a, |F.shapeVals q a|) (fun q _ => by positivity) (mem_univ q)

theorem uFace_le (hmesh : ∀ c ∈ F.cells, ∀ a, c a < F.numTotal) : ∃ S, 0 ≤ S ∧ ∀ u, ∀ s : (Fin nn → ℕ) × Fin nf, s.1 ∈ F.cells → ∀ q, |F.uFace u s q 0| ≤ S * amp F u := by
  refine ⟨∑ f, ∑ q, ∑ a, |F.faceShapeVals f q a|, by positivity, fun u s hc q => ?_⟩
  have h1 : |F.uFace u s q 0| ≤ ∑ a, |F.faceShapeVals s.2 q a| * amp F u := by
    refine (abs_sum_le_sum_abs _ _).trans (sum_le_sum fun a _ => ?_)
    rw [abs_mul, mul_comm]
    exact mul_le_mul_of_nonneg_left (le_amp F u (hmesh _ hc a)) (abs_nonneg _)
  rw [← sum_mul] at h1
  refine h1.trans (mul_le_mul_of_nonneg_right ?_ (amp_nonneg F u))
  exact (single_le_sum (f := fun q => ∑ a, |F.faceShapeVals s.2 q a|) (fun q _ => by positivity) (mem_univ q)).trans
    (single_le_sum (f := fun f => ∑ q, ∑ a, |F.faceShapeVals f q a|) (fun f _ => by positivity) (mem_univ s.2))

theorem abs_listSum_le {α : Type*} (l : List α) (f g : α → ℝ) (h : ∀ x ∈ l, |f x| ≤ g x) : |(l.map f).sum| ≤ (l.map g).sum := by
  induction l with
  | nil => simp
  | cons x l ih =>
    simp only [List.map_cons, List.sum_cons]
    exact (abs_add_le _ _).trans (add_le_add (h x List.mem_cons_self) (ih fun y hy => h y (List.mem_cons_of_mem _ hy)))

theorem listSum_sub {α : Type*} (l : List α) (f g : α → ℝ) : (l.map f).sum - (l.map g).sum = (l.map fun x => f x - g x).sum := by
  induction l with
  | nil => simp
  | cons x l ih =>
    simp only [List.map_cons, List.sum_cons]
    rw [← ih]; ring

theorem le_listSum {α : Type*} (l : List α) (f : α → ℝ) (h : ∀ x ∈ l, 0 ≤ f x) {x : α} (hx : x ∈ l) : f x ≤ (l.map f).sum :=
  List.single_le_sum (by
    intro y hy
    obtain ⟨z, hz, rfl⟩ := List.mem_map.mp hy
    exact h z hz) _ (List.mem_map_of_mem hx)

theorem heatOf_bound (w : (Fin nn → ℕ) → Fin nq → ℝ) (b : ℝ) (h : ∀ c ∈ F.cells, ∀ q, |w c q| ≤ b) : |heatOf F w| ≤ b * (F.cells.map fun c => ∑ q, |F.JxW c q|).sum := by
  unfold heatOf
  rw [← List.sum_map_mul_left]
  refine abs_listSum_le _ _ _ fun c hc => ?_
  rw [mul_sum]
  refine (abs_sum_le_sum_abs _ _).trans (sum_le_sum fun q _ => ?_)
  rw [abs_mul]
  exact mul_le_mul_of_nonneg_right (h c hc q) (abs_nonneg _)

theorem mass_bound (hmesh : ∀ c ∈ F.cells, ∀ a, c a < F.numTotal) (m : ℝ) : ∃ B, 0 ≤ B ∧ ∀ u v, |heatOf F (fun c q => m * F.uAt u c q 0 * F.uAt v c q 0)| ≤ B * amp F u * amp F v := by
  obtain ⟨S, hS, hb⟩ := uAt_le F hmesh
  have hJ : 0 ≤ (F.cells.map fun c => ∑ q, |F.JxW c q|).sum := List.sum_nonneg fun x hx => by
    obtain ⟨c, -, rfl⟩ := List.mem_map.mp hx
    positivity
  refine ⟨|m| * S * S * (F.cells.map fun c => ∑ q, |F.JxW c q|).sum, by positivity, fun u v => ?_⟩
  refine (heatOf_bound F _ (|m| * (S * amp F u) * (S * amp F v)) fun c hc q => ?_).trans (le_of_eq (by ring))
  rw [abs_mul, abs_mul]
  have := amp_nonneg F u
  exact mul_le_mul (mul_le_mul_of_nonneg_left (hb u c hc q) (abs_nonneg _)) (hb v c hc q) (abs_nonneg _) (by positivity)

theorem flux_bound (hmesh : ∀ c ∈ F.cells, ∀ a, c a < F.numTotal) (loc : Loc 3) {τ : ℝ} {g : ℝ → FluxFn} (hg : LocLip τ g) (r : ℝ) :
    ∃ Λ, 0 ≤ Λ ∧ ∀ t ∈ Set.Icc 0 τ, ∀ u w v, amp F u ≤ r → amp F w ≤ r →
      |fluxWork F (F.boundaryInds loc) (g t) u v - fluxWork F (F.boundaryInds loc) (g t) w v| ≤ Λ * amp F (fun n i => u n i - w n i) * amp F v := by
  obtain ⟨S, hS, hb⟩ := uFace_le F hmesh
  obtain ⟨Λ, hΛ, hl⟩ := hg (S * r)
  have hJ : 0 ≤ ((F.selectFaces (F.boundaryInds loc)).map fun s => ∑ q, |F.nansonScale s.1 s.2 q|).sum := List.sum_nonneg fun x hx => by
    obtain ⟨c, -, rfl⟩ := List.mem_map.mp hx
    positivity
  refine ⟨Λ * S * S * ((F.selectFaces (F.boundaryInds loc)).map fun s => ∑ q, |F.nansonScale s.1 s.2 q|).sum, by positivity, fun t ht u w v hu hw => ?_⟩
  unfold fluxWork
  rw [listSum_sub]
  have e : Λ * S * S * ((F.selectFaces (F.boundaryInds loc)).map fun s => ∑ q, |F.nansonScale s.1 s.2 q|).sum * amp F (fun n i => u n i - w n i) * amp F v
      = ((F.selectFaces (F.boundaryInds loc)).map fun s => Λ * (S * amp F (fun n i => u n i - w n i)) * (S * amp F v) * ∑ q, |F.nansonScale s.1 s.2 q|).sum := by
    rw [List.sum_map_mul_left]; ring
  rw [e]
  refine abs_listSum_le _ _ _ fun s hs => ?_
  rw [selectFaces_boundaryInds] at hs
  have hc := selected_mem _ hs
  rw [← sum_sub_distrib, mul_sum]
  refine (abs_sum_le_sum_abs _ _).trans (sum_le_sum fun q _ => ?_)
  rw [← sub_mul, ← sub_mul, abs_mul, abs_mul]
  refine mul_le_mul_of_nonneg_right (mul_le_mul ?_ (hb v s hc q) (abs_nonneg _) ?_) (abs_nonneg _)
  · refine (hl t ht _ _ _ ((hb u s hc q).trans (mul_le_mul_of_nonneg_left hu hS)) ((hb w s hc q).trans (mul_le_mul_of_nonneg_left hw hS))).trans (mul_le_mul_of_nonneg_left ?_ hΛ)
    have h2 := hb (fun n i => u n i - w n i) s hc q
    have h3 : F.uFace (fun n i => u n i - w n i) s q 0 = F.uFace u s q 0 - F.uFace w s q 0 := by
      simp only [Fem.uFace, sub_mul, sum_sub_distrib]
    rw [h3] at h2
    exact h2
  · have := amp_nonneg F (fun n i => u n i - w n i)
    positivity

/-- The heat form of a field. -/
noncomputable def heatSq (m : ℝ) (u : ℕ → Fin 1 → ℝ) : ℝ := heatOf F fun c q => m * F.uAt u c q 0 ^ 2

theorem heatSq_nonneg (hvol : ∀ c ∈ F.cells, ∀ q, 0 < F.JxW c q) {m : ℝ} (hm : 0 < m) (u : ℕ → Fin 1 → ℝ) : 0 ≤ heatSq F m u := heatOf_nonneg F hvol _ fun c q => by positivity

/-- The amplitude is bounded by the heat norm. -/
theorem amp_le_heat (hmesh : ∀ c ∈ F.cells, ∀ a, c a < F.numTotal) (hvol : ∀ c ∈ F.cells, ∀ q, 0 < F.JxW c q) (hdef : Definite F) {m : ℝ} (hm : 0 < m) :
    ∃ K, 0 < K ∧ ∀ u, amp F u ≤ K * √(heatSq F m u) := by
  set N := F.numTotal with hN
  let lift : (Fin N → ℝ) → ℕ → Fin 1 → ℝ := fun v n _ => if h : n < N then v ⟨n, h⟩ else 0
  let L : (Fin N → ℝ) →ₗ[ℝ] (Fin F.cells.length × Fin nq → ℝ) :=
    { toFun := fun v p => F.uAt (lift v) F.cells[p.1] p.2 0
      map_add' := fun v w => by
        funext p
        simp only [Fem.uAt, lift, Pi.add_apply, ← sum_add_distrib]
        refine sum_congr rfl fun a _ => ?_
        split_ifs <;> ring
      map_smul' := fun t v => by
        funext p
        simp only [Fem.uAt, lift, Pi.smul_apply, smul_eq_mul, RingHom.id_apply, mul_sum]
        refine sum_congr rfl fun a _ => ?_
        split_ifs <;> ring }
  have hker : LinearMap.ker L = ⊥ := by
    rw [LinearMap.ker_eq_bot']
    intro v hv
    funext n
    have := hdef (lift v) (fun c hc q => by
      obtain ⟨i, hi, rfl⟩ := List.mem_iff_getElem.mp hc
      exact congrFun hv (⟨i, hi⟩, q)) n n.2
    simpa [lift] using this
  obtain ⟨K, hK, ha⟩ := LinearMap.exists_antilipschitzWith L hker
  set c := ∑ p : Fin F.cells.length × Fin nq, 1 / √(m * F.JxW F.cells[p.1] p.2) with hc
  have hc0 : 0 ≤ c := sum_nonneg fun p _ => by positivity
  refine ⟨K * (c + 1), by positivity, fun u => ?_⟩
  have h1 : amp F u ≤ K * ‖L fun n => u n 0‖ := by
    have := ha.le_mul_dist (fun n : Fin N => u n 0) 0
    simpa [dist_eq_norm, amp] using this
  have hL : ∀ p : Fin F.cells.length × Fin nq, L (fun n => u n 0) p = F.uAt u F.cells[p.1] p.2 0 := by
    intro p
    show F.uAt (lift fun n => u n 0) F.cells[p.1] p.2 0 = _
    simp only [Fem.uAt, lift]
    refine sum_congr rfl fun a _ => ?_
    have hh : F.cells[p.1] a < N := hmesh _ (List.getElem_mem p.1.2) a
    rw [dif_pos hh]
  have hs := Real.sqrt_nonneg (heatSq F m u)
  have h2 : ‖L fun n => u n 0‖ ≤ (c + 1) * √(heatSq F m u) := by
    refine (pi_norm_le_iff_of_nonneg (by positivity)).mpr fun p => ?_
    rw [hL, Real.norm_eq_abs]
    have hJ := hvol _ (List.getElem_mem p.1.2) p.2
    have hmJ : 0 < m * F.JxW F.cells[p.1] p.2 := mul_pos hm hJ
    have h3 : m * F.uAt u F.cells[p.1] p.2 0 ^ 2 * F.JxW F.cells[p.1] p.2 ≤ heatSq F m u := by
      unfold heatSq heatOf
      refine le_trans ?_ (le_listSum F.cells (fun c => ∑ q, m * F.uAt u c q 0 ^ 2 * F.JxW c q) (fun c hc => sum_nonneg fun q _ => mul_nonneg (by positivity) (hvol c hc q).le) (List.getElem_mem p.1.2))
      exact single_le_sum (f := fun q => m * F.uAt u F.cells[p.1] q 0 ^ 2 * F.JxW F.cells[p.1] q) (fun q _ => mul_nonneg (by positivity) (hvol _ (List.getElem_mem _) q).le) (mem_univ p.2)
    have h4 : |F.uAt u F.cells[p.1] p.2 0| * √(m * F.JxW F.cells[p.1] p.2) ≤ √(heatSq F m u) := by
      refine Real.le_sqrt_of_sq_le ?_
      rw [mul_pow, sq_abs, Real.sq_sqrt hmJ.le]
      linarith
    have h5 : 1 / √(m * F.JxW F.cells[p.1] p.2) ≤ c := single_le_sum (f := fun p : Fin F.cells.length × Fin nq => 1 / √(m * F.JxW F.cells[p.1] p.2)) (fun p _ => by positivity) (mem_univ p)
    have hsq : 0 < √(m * F.JxW F.cells[p.1] p.2) := Real.sqrt_pos.mpr hmJ
    calc |F.uAt u F.cells[p.1] p.2 0| ≤ √(heatSq F m u) / √(m * F.JxW F.cells[p.1] p.2) := (le_div_iff₀ hsq).mpr h4
      _ = 1 / √(m * F.JxW F.cells[p.1] p.2) * √(heatSq F m u) := by ring
      _ ≤ (c + 1) * √(heatSq F m u) := mul_le_mul_of_nonneg_right (by linarith) hs
  calc amp F u ≤ K * ‖L fun n => u n 0‖ := h1
    _ ≤ K * ((c + 1) * √(heatSq F m u)) := mul_le_mul_of_nonneg_left h2 hK.le
    _ = _ := by ring

end bounds

/-! ## One step -/

section step
variable {F : Fem nn nq nf nfq 3 1} {k rho Cp : ℝ} {top walls : Loc 3} {gTop gWalls : ℝ → FluxFn} {D : ℕ → Prop} {τ : ℝ} {T Td : ℝ → ℕ → Fin 1 → ℝ}

theorem step_error (hmesh : ∀ c ∈ F.cells, ∀ a, c a < F.numTotal) (hvol : ∀ c ∈ F.cells, ∀ q, 0 < F.JxW c q) (hk : 0 ≤ k) (hm : 0 < rho * Cp) {t t' dt : ℝ} (hdt : 0 < dt) (ht' : t' ∈ Set.Icc 0 τ)
    (hT : Semi F k rho Cp top walls gTop gWalls D τ T Td) {old sol R : ℕ → Fin 1 → ℝ} (h : (tmThermal F k rho Cp dt top walls (gTop t') (gWalls t') old).computeResidual sol = .ok R)
    {ε : ℝ} (hε : 0 ≤ ε) (hR : ∀ n < F.numTotal, ¬ D n → |R n 0| ≤ ε) (hD : ∀ n < F.numTotal, D n → sol n 0 = T t' n 0) :
    heatSq F (rho * Cp) (fun n i => sol n i - T t' n i) ≤ heatSq F (rho * Cp) (fun n i => old n i - T t n i)
      + 2 * dt * ((fluxWork F (F.boundaryInds top) (gTop t') old (fun n i => sol n i - T t' n i) - fluxWork F (F.boundaryInds top) (gTop t') (T t') (fun n i => sol n i - T t' n i))
        + (fluxWork F (F.boundaryInds walls) (gWalls t') old (fun n i => sol n i - T t' n i) - fluxWork F (F.boundaryInds walls) (gWalls t') (T t') (fun n i => sol n i - T t' n i)) + F.numTotal * ε * amp F (fun n i => sol n i - T t' n i))
      - 2 * heatOf F (fun c q => rho * Cp * F.uAt (fun n i => T t' n i - T t n i - dt * Td t' n i) c q 0 * F.uAt (fun n i => sol n i - T t' n i) c q 0) := by
  set e' : ℕ → Fin 1 → ℝ := fun n i => sol n i - T t' n i with he'
  have h1 := tm_work F hmesh k rho Cp dt top walls (gTop t') (gWalls t') old sol R e' h
  have h3 : ∑ n ∈ range F.numTotal, R n 0 * e' n 0 ≤ F.numTotal * ε * amp F e' := by
    have : ∑ n ∈ range F.numTotal, R n 0 * e' n 0 ≤ ∑ n ∈ range F.numTotal, ε * amp F e' := sum_le_sum fun n hn => by
      have ha := amp_nonneg F e'
      by_cases hd : D n
      · have h0 : e' n 0 = 0 := by
          show sol n 0 - T t' n 0 = 0
          rw [hD n (mem_range.mp hn) hd, sub_self]
        rw [h0, mul_zero]
        positivity
      · refine (le_abs_self _).trans ?_
        rw [abs_mul]
        exact mul_le_mul (hR n (mem_range.mp hn) hd) (le_amp F e' (mem_range.mp hn)) (abs_nonneg _) hε
    rw [sum_const, card_range, nsmul_eq_mul] at this
    linarith
  have h2 := hT.weak t' ht' e' fun n hn hd => by
    show sol n 0 - T t' n 0 = 0
    rw [hD n hn hd, sub_self]
  have e1 := heatOf_lin F dt (-dt) (fun c q => k * (∑ d, F.gradAt sol c q 0 d * F.gradAt e' c q 0 d) + rho * Cp / dt * (F.uAt sol c q 0 - F.uAt old c q 0) * F.uAt e' c q 0)
    (fun c q => k * (∑ d, F.gradAt (T t') c q 0 d * F.gradAt e' c q 0 d) + rho * Cp * F.uAt (Td t') c q 0 * F.uAt e' c q 0)
  have e2 := heatOf_lin F (1 / 2) (-(1 / 2)) (fun c q => rho * Cp * F.uAt e' c q 0 ^ 2) (fun c q => rho * Cp * F.uAt (fun n i => old n i - T t n i) c q 0 ^ 2)
  have e3 := heatOf_lin F 1 1 (fun c q => 1 / 2 * (rho * Cp * F.uAt e' c q 0 ^ 2) + -(1 / 2) * (rho * Cp * F.uAt (fun n i => old n i - T t n i) c q 0 ^ 2))
    (fun c q => rho * Cp * F.uAt (fun n i => T t' n i - T t n i - dt * Td t' n i) c q 0 * F.uAt e' c q 0)
  have e4 := heatOf_lin F 1 (-1) (fun c q => dt * (k * (∑ d, F.gradAt sol c q 0 d * F.gradAt e' c q 0 d) + rho * Cp / dt * (F.uAt sol c q 0 - F.uAt old c q 0) * F.uAt e' c q 0)
      + -dt * (k * (∑ d, F.gradAt (T t') c q 0 d * F.gradAt e' c q 0 d) + rho * Cp * F.uAt (Td t') c q 0 * F.uAt e' c q 0))
    (fun c q => 1 * (1 / 2 * (rho * Cp * F.uAt e' c q 0 ^ 2) + -(1 / 2) * (rho * Cp * F.uAt (fun n i => old n i - T t n i) c q 0 ^ 2)) + 1 * (rho * Cp * F.uAt (fun n i => T t' n i - T t n i - dt * Td t' n i) c q 0 * F.uAt e' c q 0))
  have e5 := heatOf_nonneg F hvol _ fun c q => show 0 ≤ 1 * (dt * (k * (∑ d, F.gradAt sol c q 0 d * F.gradAt e' c q 0 d) + rho * Cp / dt * (F.uAt sol c q 0 - F.uAt old c q 0) * F.uAt e' c q 0)
      + -dt * (k * (∑ d, F.gradAt (T t') c q 0 d * F.gradAt e' c q 0 d) + rho * Cp * F.uAt (Td t') c q 0 * F.uAt e' c q 0))
      + -1 * (1 * (1 / 2 * (rho * Cp * F.uAt e' c q 0 ^ 2) + -(1 / 2) * (rho * Cp * F.uAt (fun n i => old n i - T t n i) c q 0 ^ 2)) + 1 * (rho * Cp * F.uAt (fun n i => T t' n i - T t n i - dt * Td t' n i) c q 0 * F.uAt e' c q 0)) by
    have g1 : ∀ d, F.gradAt e' c q 0 d = F.gradAt sol c q 0 d - F.gradAt (T t') c q 0 d := fun d => by rw [he', gradAt_sub]
    have g2 : F.uAt e' c q 0 = F.uAt sol c q 0 - F.uAt (T t') c q 0 := by rw [he', uAt_sub]
    have g3 : F.uAt (fun n i => old n i - T t n i) c q 0 = F.uAt old c q 0 - F.uAt (T t) c q 0 := by rw [uAt_sub]
    have g4 : F.uAt (fun n i => T t' n i - T t n i - dt * Td t' n i) c q 0 = F.uAt (T t') c q 0 - F.uAt (T t) c q 0 - dt * F.uAt (Td t') c q 0 := by
      simp only [Fem.uAt, sub_mul, sum_sub_distrib, mul_assoc, mul_sum]
    have g5 : dt * (k * (∑ d, F.gradAt sol c q 0 d * F.gradAt e' c q 0 d)) - dt * (k * (∑ d, F.gradAt (T t') c q 0 d * F.gradAt e' c q 0 d)) = dt * (k * ∑ d, F.gradAt e' c q 0 d ^ 2) := by
      rw [← mul_sub, ← mul_sub, ← sum_sub_distrib]
      refine congrArg _ (congrArg _ (sum_congr rfl fun d _ => ?_))
      rw [g1]; ring
    have g6 : 0 ≤ dt * (k * ∑ d, F.gradAt e' c q 0 d ^ 2) := by positivity
    have g7 : dt * (rho * Cp / dt * (F.uAt sol c q 0 - F.uAt old c q 0) * F.uAt e' c q 0) = rho * Cp * (F.uAt sol c q 0 - F.uAt old c q 0) * F.uAt e' c q 0 := by field_simp
    have g8 : 0 ≤ rho * Cp / 2 * (F.uAt e' c q 0 - F.uAt (fun n i => old n i - T t n i) c q 0) ^ 2 := by positivity
    have g9 : rho * Cp * (F.uAt sol c q 0 - F.uAt old c q 0) * F.uAt e' c q 0 - dt * (rho * Cp * F.uAt (Td t') c q 0 * F.uAt e' c q 0) - 1 / 2 * (rho * Cp * F.uAt e' c q 0 ^ 2) + 1 / 2 * (rho * Cp * F.uAt (fun n i => old n i - T t n i) c q 0 ^ 2)
        - rho * Cp * F.uAt (fun n i => T t' n i - T t n i - dt * Td t' n i) c q 0 * F.uAt e' c q 0 = rho * Cp / 2 * (F.uAt e' c q 0 - F.uAt (fun n i => old n i - T t n i) c q 0) ^ 2 := by
      rw [g3, g4, g2]; ring
    linarith
  unfold heatSq
  have e6 : dt * heatOf F (fun c q => k * (∑ d, F.gradAt sol c q 0 d * F.gradAt e' c q 0 d) + rho * Cp / dt * (F.uAt sol c q 0 - F.uAt old c q 0) * F.uAt e' c q 0)
      ≤ dt * (fluxWork F (F.boundaryInds top) (gTop t') old e' + fluxWork F (F.boundaryInds walls) (gWalls t') old e' + F.numTotal * ε * amp F e') :=
    mul_le_mul_of_nonneg_left (by linarith) hdt.le
  rw [h2] at e1
  linarith

theorem amp_add_le (u w : ℕ → Fin 1 → ℝ) : amp F (fun n i => u n i + w n i) ≤ amp F u + amp F w :=
  amp_le F (add_nonneg (amp_nonneg F u) (amp_nonneg F w)) fun n hn => (abs_add_le _ _).trans (add_le_add (le_amp F u hn) (le_amp F w hn))

theorem quad_le {x y b : ℝ} (hx : 0 ≤ x) (hy : 0 ≤ y) (hb : 0 ≤ b) (h : y ^ 2 ≤ x ^ 2 + 2 * b * y) : y ≤ x + 2 * b := by
  by_contra hn
  have : x + 2 * b < y := not_le.mp hn
  nlinarith

/-- Bounds of a semi-discrete solution on its interval. -/
theorem semi_bounds (hτ : 0 ≤ τ) (hT : Semi F k rho Cp top walls gTop gWalls D τ T Td) :
    ∃ r L₁ L, 0 ≤ L₁ ∧ 0 ≤ L ∧ ∀ t ∈ Set.Icc 0 τ, amp F (T t) ≤ r ∧ ∀ t' ∈ Set.Icc 0 τ, t ≤ t' → amp F (fun n i => T t n i - T t' n i) ≤ L₁ * (t' - t) ∧
      amp F (fun n i => T t' n i - T t n i - (t' - t) * Td t' n i) ≤ L * (t' - t) * (t' - t) := by
  obtain ⟨L, hL⟩ := hT.lip
  have h0 : (0 : ℝ) ∈ Set.Icc 0 τ := ⟨le_rfl, hτ⟩
  have hTd : ∀ t ∈ Set.Icc 0 τ, ∀ n < F.numTotal, |Td t n 0| ≤ amp F (Td 0) + |L| * τ := by
    intro t ht n hn
    have h1 := hL t ht 0 h0 n hn
    have h2 := le_amp F (Td 0) hn
    have h3 : |Td t n 0| ≤ |Td t n 0 - Td 0 n 0| + |Td 0 n 0| := by
      have := abs_add_le (Td t n 0 - Td 0 n 0) (Td 0 n 0)
      rwa [sub_add_cancel] at this
    have h4 : L * |t - 0| ≤ |L| * τ := by
      rw [sub_zero, abs_of_nonneg ht.1]
      exact (mul_le_mul_of_nonneg_right (le_abs_self L) ht.1).trans (mul_le_mul_of_nonneg_left ht.2 (abs_nonneg L))
    linarith
  have hL1 : 0 ≤ amp F (Td 0) + |L| * τ := add_nonneg (amp_nonneg F _) (by positivity)
  have hd : ∀ t ∈ Set.Icc 0 τ, ∀ t' ∈ Set.Icc 0 τ, t ≤ t' → ∀ n < F.numTotal, |T t' n 0 - T t n 0| ≤ (amp F (Td 0) + |L| * τ) * (t' - t) := by
    intro t ht t' ht' hle n hn
    have := (convex_Icc t t').norm_image_sub_le_of_norm_hasDerivWithin_le (f := fun s => T s n 0) (f' := fun s => Td s n 0) (C := amp F (Td 0) + |L| * τ)
      (fun s hs => (hT.deriv s ⟨ht.1.trans hs.1, hs.2.trans ht'.2⟩ n hn).mono (Set.Icc_subset_Icc ht.1 ht'.2)) (fun s hs => hTd s ⟨ht.1.trans hs.1, hs.2.trans ht'.2⟩ n hn)
      (Set.left_mem_Icc.mpr hle) (Set.right_mem_Icc.mpr hle)
    rwa [Real.norm_eq_abs, Real.norm_eq_abs, abs_of_nonneg (sub_nonneg.mpr hle)] at this
  refine ⟨amp F (T 0) + (amp F (Td 0) + |L| * τ) * τ, amp F (Td 0) + |L| * τ, |L|, hL1, abs_nonneg L, fun t ht => ⟨?_, fun t' ht' hle => ⟨?_, ?_⟩⟩⟩
  · refine amp_le F (add_nonneg (amp_nonneg F _) (by positivity)) fun n hn => ?_
    have h1 := hd 0 h0 t ht ht.1 n hn
    have h2 := le_amp F (T 0) hn
    have h3 : |T t n 0| ≤ |T t n 0 - T 0 n 0| + |T 0 n 0| := by
      have := abs_add_le (T t n 0 - T 0 n 0) (T 0 n 0)
      rwa [sub_add_cancel] at this
    have h4 : (amp F (Td 0) + |L| * τ) * (t - 0) ≤ (amp F (Td 0) + |L| * τ) * τ := mul_le_mul_of_nonneg_left (by linarith [ht.2]) hL1
    linarith
  · refine amp_le F (mul_nonneg hL1 (by linarith)) fun n hn => ?_
    rw [abs_sub_comm]
    exact hd t ht t' ht' hle n hn
  · have hδ : 0 ≤ t' - t := sub_nonneg.mpr hle
    refine amp_le F (by positivity) fun n hn => ?_
    have := (convex_Icc t t').norm_image_sub_le_of_norm_hasDerivWithin_le (f := fun s => T s n 0 - s * Td t' n 0) (f' := fun s => Td s n 0 - 1 * Td t' n 0) (C := |L| * (t' - t))
      (fun s hs => ((hT.deriv s ⟨ht.1.trans hs.1, hs.2.trans ht'.2⟩ n hn).mono (Set.Icc_subset_Icc ht.1 ht'.2)).sub ((hasDerivWithinAt_id s _).mul_const _)) (fun s hs => by
        rw [one_mul, Real.norm_eq_abs]
        refine (hL s ⟨ht.1.trans hs.1, hs.2.trans ht'.2⟩ t' ht' n hn).trans ?_
        rw [abs_sub_comm, abs_of_nonneg (sub_nonneg.mpr hs.2)]
        exact (mul_le_mul_of_nonneg_right (le_abs_self L) (sub_nonneg.mpr hs.2)).trans (mul_le_mul_of_nonneg_left (by linarith [hs.1]) (abs_nonneg L)))
      (Set.left_mem_Icc.mpr hle) (Set.right_mem_Icc.mpr hle)
    rw [Real.norm_eq_abs, Real.norm_eq_abs, abs_of_nonneg hδ] at this
    have e : T t' n 0 - t' * Td t' n 0 - (T t n 0 - t * Td t' n 0) = T t' n 0 - T t n 0 - (t' - t) * Td t' n 0 := by ring
    rw [e] at this
    exact this

/-- **C153 (order of the time steps).** Let `T` solve the heat problem discretised in space on `[0, τ]`. There are constants such that for every step `dt` below a bound and every start close to `T 0`, the temperatures of the time loop
differ from `T` at the same times, at every node, by at most a constant times the sum of the error of the start, `dt` and the tolerance of the solver: the loop is convergent of first order, though the boundary fluxes take the old temperature, and radiation grows
with its fourth power. -/
theorem C153_order (hmesh : ∀ c ∈ F.cells, ∀ a, c a < F.numTotal) (hvol : ∀ c ∈ F.cells, ∀ q, 0 < F.JxW c q) (hdef : Definite F) (hk : 0 ≤ k) (hm : 0 < rho * Cp) (hτ : 0 ≤ τ) (hTop : LocLip τ gTop) (hWalls : LocLip τ gWalls)
    (hT : Semi F k rho Cp top walls gTop gWalls D τ T Td) :
    ∃ δ C : ℝ, 0 < δ ∧ ∀ dt ε, 0 < dt → dt ≤ δ → 0 ≤ ε → ε ≤ δ → ∀ Ts, Steps F k rho Cp top walls gTop gWalls D τ T dt ε Ts → amp F (fun n i => Ts 0 n i - T 0 n i) ≤ δ →
      ∀ i : ℕ, i * dt ≤ τ → ∀ n < F.numTotal, |Ts i n 0 - T (i * dt) n 0| ≤ C * (amp F (fun n i => Ts 0 n i - T 0 n i) + dt + ε) := by
  obtain ⟨r, L₁, L, hL₁, hL, hb⟩ := semi_bounds hτ hT
  obtain ⟨K, hK, hamp⟩ := amp_le_heat F hmesh hvol hdef hm
  obtain ⟨B, hB, hmass⟩ := mass_bound F hmesh (rho * Cp)
  obtain ⟨Λ₁, hΛ₁, hf₁⟩ := flux_bound F hmesh top hTop (r + 1)
  obtain ⟨Λ₂, hΛ₂, hf₂⟩ := flux_bound F hmesh walls hWalls (r + 1)
  set Λ := Λ₁ + Λ₂ with hΛ
  have hΛ0 : 0 ≤ Λ := add_nonneg hΛ₁ hΛ₂
  set A := K * Λ * K with hA
  have hA0 : 0 ≤ A := by positivity
  set c := K * (Λ * L₁ + B * L) with hc
  have hc0 : 0 ≤ c := by positivity
  set G := Real.exp (2 * A * τ) with hG
  have hG0 : 0 < G := Real.exp_pos _
  set N : ℝ := (F.numTotal : ℝ) with hN
  have hN0 : 0 ≤ N := Nat.cast_nonneg _
  set C := K * G * (√B + 2 * c * τ + 2 * (N * K) * τ) with hC
  have hC0 : 0 ≤ C := by positivity
  refine ⟨1 / (3 * (C + 1)), C, by positivity, fun dt ε hdt hdtδ hε hεδ Ts hs ha i hi n hn => ?_⟩
  set η := c * dt + N * K * ε with hη
  have hη0 : 0 ≤ η := by positivity
  set a := amp F (fun n i => Ts 0 n i - T 0 n i) with had
  have ha0 : 0 ≤ a := amp_nonneg F _
  have hsmall : C * (a + dt + ε) ≤ 1 := by
    have h1 : a + dt + ε ≤ 1 / (C + 1) := by
      have : 1 / (C + 1) = 1 / (3 * (C + 1)) + 1 / (3 * (C + 1)) + 1 / (3 * (C + 1)) := by field_simp; norm_num
      linarith
    have h2 : (a + dt + ε) * (C + 1) ≤ 1 := (le_div_iff₀ (by positivity)).mp h1
    nlinarith
  set x : ℕ → ℝ := fun i => √(heatSq F (rho * Cp) fun n j => Ts i n j - T (i * dt) n j) with hx
  have hx0 : ∀ i, 0 ≤ x i := fun i => Real.sqrt_nonneg _
  have hxa : x 0 ≤ √B * a := by
    have h1 := hmass (fun n j => Ts 0 n j - T 0 n j) (fun n j => Ts 0 n j - T 0 n j)
    have h2 : heatSq F (rho * Cp) (fun n j => Ts 0 n j - T 0 n j) ≤ B * a * a := by
      refine le_trans (le_of_eq ?_) ((le_abs_self _).trans h1)
      unfold heatSq
      congr 1
      funext c q
      ring
    have h3 : √B * a = √(B * a * a) := by
      rw [mul_assoc, Real.sqrt_mul hB, Real.sqrt_mul_self ha0]
    rw [h3]
    refine Real.sqrt_le_sqrt ?_
    simpa using h2
  -- the bound of the heat norm gives the bound of the amplitude
  have hpow : ∀ i : ℕ, i * dt ≤ τ → (1 + 2 * A * dt) ^ i ≤ G := by
    intro i hi
    have h1 : (1 + 2 * A * dt) ^ i ≤ Real.exp (2 * A * dt) ^ i := pow_le_pow_left₀ (by positivity) (by linarith [Real.add_one_le_exp (2 * A * dt)]) i
    refine h1.trans ?_
    rw [← Real.exp_nat_mul]
    refine Real.exp_le_exp.mpr ?_
    have : (i : ℝ) * (2 * A * dt) = 2 * A * (i * dt) := by ring
    rw [this]
    exact mul_le_mul_of_nonneg_left hi (by positivity)
  have hnode : ∀ i : ℕ, i * dt ≤ τ → x i ≤ (1 + 2 * A * dt) ^ i * (x 0 + 2 * (i * dt) * η) → amp F (fun n j => Ts i n j - T (i * dt) n j) ≤ C * (a + dt + ε) := by
    intro i hi h
    have h1 : x i ≤ G * (√B * a + 2 * τ * η) := by
      refine h.trans (mul_le_mul (hpow i hi) ?_ (by have := hx0 0; positivity) hG0.le)
      have : 2 * (i * dt) * η ≤ 2 * τ * η := mul_le_mul_of_nonneg_right (by linarith) hη0
      linarith
    have h2 := (hamp fun n j => Ts i n j - T (i * dt) n j).trans (mul_le_mul_of_nonneg_left h1 hK.le)
    refine h2.trans ?_
    have h3 : √B * a + 2 * τ * η ≤ (√B + 2 * c * τ + 2 * (N * K) * τ) * (a + dt + ε) := by
      have e1 : 0 ≤ √B * dt := by positivity
      have e2 : 0 ≤ 2 * c * τ * a := by positivity
      have e3 : 0 ≤ √B * ε := by positivity
      have e4 : 0 ≤ 2 * c * τ * ε := by positivity
      have e5 : 0 ≤ 2 * (N * K) * τ * a := by positivity
      have e6 : 0 ≤ 2 * (N * K) * τ * dt := by positivity
      rw [hη]
      linarith
    calc K * (G * (√B * a + 2 * τ * η)) ≤ K * (G * ((√B + 2 * c * τ + 2 * (N * K) * τ) * (a + dt + ε))) := by gcongr
      _ = C * (a + dt + ε) := by rw [hC]; ring
  have hind : ∀ i : ℕ, i * dt ≤ τ → x i ≤ (1 + 2 * A * dt) ^ i * (x 0 + 2 * (i * dt) * η) := by
    intro i
    induction i with
    | zero => intro _; simp
    | succ i ih =>
      intro hi
      have hi0 : (i : ℝ) * dt ≤ τ := by
        push_cast at hi
        linarith
      have ht : (i : ℝ) * dt ∈ Set.Icc 0 τ := ⟨by positivity, hi0⟩
      have ht' : ((i + 1 : ℕ) : ℝ) * dt ∈ Set.Icc 0 τ := ⟨by positivity, hi⟩
      have hle : (i : ℝ) * dt ≤ ((i + 1 : ℕ) : ℝ) * dt := by push_cast; linarith
      have hdd : ((i + 1 : ℕ) : ℝ) * dt - i * dt = dt := by push_cast; ring
      have hx' := ih hi0
      have hea := (hnode i hi0 hx').trans hsmall
      obtain ⟨R, hR, hR0⟩ := hs.step i hi
      have key := step_error (t := i * dt) hmesh hvol hk hm hdt ht' hT hR hε hR0 (hs.fixed (i + 1) hi)
      obtain ⟨hb1, hb2⟩ := hb _ ht
      obtain ⟨hb3, hb4⟩ := hb2 _ ht' hle
      rw [hdd] at hb3 hb4
      have hold : amp F (Ts i) ≤ r + 1 := by
        have := amp_add_le (F := F) (fun n j => Ts i n j - T (i * dt) n j) (T (i * dt))
        simp only [sub_add_cancel] at this
        linarith
      have hnew : amp F (T (((i + 1 : ℕ) : ℝ) * dt)) ≤ r + 1 := by linarith [(hb _ ht').1]
      set e' : ℕ → Fin 1 → ℝ := fun n j => Ts (i + 1) n j - T (((i + 1 : ℕ) : ℝ) * dt) n j with he'
      have hdiff : amp F (fun n j => Ts i n j - T (((i + 1 : ℕ) : ℝ) * dt) n j) ≤ K * x i + L₁ * dt := by
        have h1 := amp_add_le (F := F) (fun n j => Ts i n j - T (i * dt) n j) (fun n j => T (i * dt) n j - T (((i + 1 : ℕ) : ℝ) * dt) n j)
        simp only [sub_add_sub_cancel] at h1
        have h2 := hamp fun n j => Ts i n j - T (i * dt) n j
        linarith
      have hy : amp F e' ≤ K * x (i + 1) := hamp e'
      have q1 := (le_abs_self _).trans (hf₁ _ ht' (Ts i) (T (((i + 1 : ℕ) : ℝ) * dt)) e' hold hnew)
      have q2 := (le_abs_self _).trans (hf₂ _ ht' (Ts i) (T (((i + 1 : ℕ) : ℝ) * dt)) e' hold hnew)
      have q3 := (neg_le_abs _).trans (hmass (fun n j => T (((i + 1 : ℕ) : ℝ) * dt) n j - T (i * dt) n j - dt * Td (((i + 1 : ℕ) : ℝ) * dt) n j) e')
      have hae := amp_nonneg F e'
      have hxi := hx0 i
      have hxi' := hx0 (i + 1)
      have q4 : Λ₁ * amp F (fun n j => Ts i n j - T (((i + 1 : ℕ) : ℝ) * dt) n j) * amp F e' + Λ₂ * amp F (fun n j => Ts i n j - T (((i + 1 : ℕ) : ℝ) * dt) n j) * amp F e' ≤ Λ * (K * x i + L₁ * dt) * (K * x (i + 1)) := by
        rw [← add_mul, ← add_mul]
        exact mul_le_mul (mul_le_mul_of_nonneg_left hdiff hΛ0) hy hae (by positivity)
      have q5 : B * amp F (fun n j => T (((i + 1 : ℕ) : ℝ) * dt) n j - T (i * dt) n j - dt * Td (((i + 1 : ℕ) : ℝ) * dt) n j) * amp F e' ≤ B * (L * dt * dt) * (K * x (i + 1)) :=
        mul_le_mul (mul_le_mul_of_nonneg_left hb4 hB) hy hae (by positivity)
      have hsq : ∀ j, x j ^ 2 = heatSq F (rho * Cp) fun n l => Ts j n l - T (j * dt) n l := fun j => Real.sq_sqrt (heatSq_nonneg F hvol hm _)
      have q6 : x (i + 1) ^ 2 ≤ x i ^ 2 + 2 * (dt * (A * x i + η)) * x (i + 1) := by
        rw [hsq, hsq]
        have e : 2 * (dt * (A * x i + η)) * x (i + 1) = 2 * dt * (Λ * (K * x i + L₁ * dt) * (K * x (i + 1)) + N * ε * (K * x (i + 1))) + 2 * (B * (L * dt * dt) * (K * x (i + 1))) := by
          rw [hA, hη, hc]; ring
        rw [e]
        have q7 := mul_le_mul_of_nonneg_left (add_le_add ((add_le_add q1 q2).trans q4) (mul_le_mul_of_nonneg_left hy (by positivity : 0 ≤ N * ε))) (by positivity : 0 ≤ 2 * dt)
        linarith
      have q8 := quad_le hxi hxi' (by positivity) q6
      have q9 : x (i + 1) ≤ (1 + 2 * A * dt) * x i + 2 * dt * η := by linarith
      have h1 : 1 ≤ (1 + 2 * A * dt) ^ (i + 1) := one_le_pow₀ (by linarith [mul_nonneg hA0 hdt.le])
      have h2 : (1 + 2 * A * dt) * x i ≤ (1 + 2 * A * dt) ^ (i + 1) * (x 0 + 2 * (i * dt) * η) := by
        have h4 := mul_le_mul_of_nonneg_left hx' (by positivity : 0 ≤ 1 + 2 * A * dt)
        calc _ ≤ _ := h4
          _ = _ := by ring
      have h3 : 2 * dt * η ≤ (1 + 2 * A * dt) ^ (i + 1) * (2 * dt * η) := le_mul_of_one_le_left (by positivity) h1
      calc x (i + 1) ≤ (1 + 2 * A * dt) ^ (i + 1) * (x 0 + 2 * (i * dt) * η) + (1 + 2 * A * dt) ^ (i + 1) * (2 * dt * η) := by linarith
        _ = _ := by push_cast; ring
  exact (le_amp F (fun n j => Ts i n j - T (i * dt) n j) hn).trans (hnode i hi (hind i hi))

end step

end Verif.Fem.ThermalOrder
