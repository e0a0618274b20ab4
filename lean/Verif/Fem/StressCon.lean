import Mathlib.Analysis.SpecialFunctions.Pow.Deriv
import Mathlib.Analysis.SpecificLimits.Basic
import Mathlib.Analysis.Calculus.FDeriv.Pi
import Mathlib.Analysis.Calculus.FDeriv.Mul
import Mathlib.Analysis.Calculus.Deriv.Comp
import Mathlib.Algebra.BigOperators.Field

/-!
# C136: the stress constraint of the L-shaped bracket (model of applications/fem/top_opt/L_shape.py 93-128)

`computeConstraints` keeps three numbers between its calls, as attributes of the function object: the correction `cp`, the largest stress and the p-norm of the previous design. It evaluates the
constraint once, overwrites the attributes, and then differentiates the constraint **with the overwritten attributes**. The stresses of the cells (forward solve and `compute_von_mises_stress`,
modelled for C94, C103 and C106) enter as a function `vm` of the design; `m` design variables, `n` cells.
-/
namespace Verif.TopProg
open Finset

variable {m n : ℕ}

/-- The attributes `computeConstraints.cp`, `.max_vm_stress`, `.vm_stress_PN` (L_shape.py 117, 123-125). -/
structure Att where
  cp : ℝ
  maxVm : ℝ
  pn : ℝ

/-- Their values before the first call (L_shape.py 123-125). -/
def attInit (allowed : ℝ) : Att := ⟨1, allowed, 1⟩

/-- `np.sum((volume_avg_vm_stress/max_allowed_stress)**p)**(1./p)` (L_shape.py 108). -/
noncomputable def pNorm (p : ℕ) (allowed : ℝ) (s : Fin n → ℝ) : ℝ := (∑ i, (s i / allowed) ^ p) ^ (1 / (p : ℝ))

/-- `np.max(volume_avg_vm_stress)` (L_shape.py 106). -/
noncomputable def maxOf [NeZero n] (s : Fin n → ℝ) : ℝ := (univ : Finset (Fin n)).sup' ⟨0, mem_univ 0⟩ s

/-- `computeGlobalVolumeConstraintFull` (L_shape.py 102-112), which reads the attributes `a`. -/
noncomputable def conFull [NeZero n] (vf allowed : ℝ) (vm : (Fin m → ℝ) → Fin n → ℝ) (a : Att) (rho : Fin m → ℝ) : (Fin 2 → ℝ) × Att :=
  let g1 := (∑ j, rho j) / m / vf - 1
  let max_vm_stress := maxOf (vm rho)
  let vm_stress_PN := pNorm 12 allowed (vm rho)
  let qn : ℝ := 0.5
  let cp := qn * a.maxVm / (allowed * a.pn) + (1 - qn) * a.cp
  let g2 := cp * vm_stress_PN - 1
  (![g1, g2], ⟨cp, max_vm_stress, vm_stress_PN⟩)

/-- `computeConstraints` (L_shape.py 101-121): the values, the attributes overwritten, then `jax.jacrev` of the function that reads the new attributes. -/
noncomputable def conHandle [NeZero n] (vf allowed : ℝ) (vm : (Fin m → ℝ) → Fin n → ℝ) (a : Att) (rho : Fin m → ℝ) : ((Fin 2 → ℝ) × (Fin 2 → Fin m → ℝ)) × Att :=
  let r := conFull vf allowed vm a rho
  let a' := r.2
  ((r.1, fun i j => fderiv ℝ (fun q => (conFull vf allowed vm a' q).1 i) rho (Pi.single j 1)), a')

/-- The attributes after calls with the given designs, one after the other. -/
noncomputable def conRun [NeZero n] (vf allowed : ℝ) (vm : (Fin m → ℝ) → Fin n → ℝ) (a : Att) (designs : List (Fin m → ℝ)) : Att :=
  designs.foldl (fun a rho => (conHandle vf allowed vm a rho).2) a

/-! ## The p-norm and the largest stress -/

section
variable [NeZero n]

theorem le_maxOf (s : Fin n → ℝ) (i : Fin n) : s i ≤ maxOf s := le_sup' s (mem_univ i)

theorem maxOf_attained (s : Fin n → ℝ) : ∃ i, maxOf s = s i := by
  obtain ⟨i, -, h⟩ := exists_mem_eq_sup' (s := (univ : Finset (Fin n))) ⟨0, mem_univ 0⟩ s
  exact ⟨i, h⟩

theorem card_root_ge : 1 ≤ (n : ℝ) ^ (1 / (12 : ℝ)) :=
  Real.one_le_rpow (by exact_mod_cast NeZero.one_le) (by norm_num)

/-- **C136 (p-norm).** For non-negative stresses the p-norm times the allowed stress is at least the largest stress and at most `n^(1/p)` times as large; it is attained by a uniform stress. -/
theorem C136_pnorm (p : ℕ) (hp : 0 < p) (allowed : ℝ) (ha : 0 < allowed) (s : Fin n → ℝ) (hs : ∀ i, 0 ≤ s i) :
    (∀ i, s i ≤ allowed * pNorm p allowed s) ∧ (∃ i, allowed * pNorm p allowed s ≤ (n : ℝ) ^ (1 / (p : ℝ)) * s i) ∧
    ∀ c : ℝ, 0 ≤ c → allowed * pNorm p allowed (fun _ : Fin n => c) = (n : ℝ) ^ (1 / (p : ℝ)) * c := by
  have hp' : p ≠ 0 := hp.ne'
  have root : ∀ x : ℝ, 0 ≤ x → (x ^ p) ^ (1 / (p : ℝ)) = x := fun x hx => by rw [one_div]; exact Real.pow_rpow_inv_natCast hx hp'
  have hq : ∀ i, 0 ≤ s i / allowed := fun i => div_nonneg (hs i) ha.le
  refine ⟨fun i => ?_, ?_, fun c hc => ?_⟩
  · have h1 : s i / allowed ≤ pNorm p allowed s := by
      conv_lhs => rw [← root _ (hq i)]
      exact Real.rpow_le_rpow (pow_nonneg (hq i) p) (single_le_sum (f := fun i => (s i / allowed) ^ p) (fun j _ => pow_nonneg (hq j) p) (mem_univ i)) (by positivity)
    rwa [div_le_iff₀ ha, mul_comm] at h1
  · obtain ⟨i, hi⟩ := maxOf_attained s
    refine ⟨i, ?_⟩
    have h1 : pNorm p allowed s ≤ (n : ℝ) ^ (1 / (p : ℝ)) * (s i / allowed) := by
      have h2 : (∑ j, (s j / allowed) ^ p) ≤ n * (s i / allowed) ^ p := by
        have := sum_le_card_nsmul (univ : Finset (Fin n)) (fun j => (s j / allowed) ^ p) ((s i / allowed) ^ p) fun j _ =>
          pow_le_pow_left₀ (hq j) (div_le_div_of_nonneg_right (by rw [← hi]; exact le_maxOf s j) ha.le) p
        simpa [nsmul_eq_mul] using this
      calc pNorm p allowed s ≤ (n * (s i / allowed) ^ p) ^ (1 / (p : ℝ)) := Real.rpow_le_rpow (sum_nonneg fun j _ => pow_nonneg (hq j) p) h2 (by positivity)
        _ = _ := by rw [Real.mul_rpow (by positivity) (pow_nonneg (hq i) p), root _ (hq i)]
    calc allowed * pNorm p allowed s ≤ allowed * ((n : ℝ) ^ (1 / (p : ℝ)) * (s i / allowed)) := mul_le_mul_of_nonneg_left h1 ha.le
      _ = _ := by field_simp
  · have hc' : 0 ≤ c / allowed := div_nonneg hc ha.le
    have h1 : pNorm p allowed (fun _ : Fin n => c) = (n : ℝ) ^ (1 / (p : ℝ)) * (c / allowed) := by
      unfold pNorm
      rw [sum_const, card_univ, Fintype.card_fin, nsmul_eq_mul, Real.mul_rpow (by positivity) (pow_nonneg hc' p), root _ hc']
    rw [h1]
    field_simp

theorem pNorm_pos (allowed : ℝ) (ha : 0 < allowed) (s : Fin n → ℝ) (hs : ∀ i, 0 ≤ s i) (hm : 0 < maxOf s) : 0 < pNorm 12 allowed s := by
  obtain ⟨i, hi⟩ := maxOf_attained s
  have h := (C136_pnorm 12 (by norm_num) allowed ha s hs).1 i
  rw [← hi] at h
  exact pos_of_mul_pos_right (hm.trans_le h) ha.le

theorem pNorm_const (allowed : ℝ) (ha : 0 < allowed) (c : ℝ) (hc : 0 ≤ c) : pNorm 12 allowed (fun _ : Fin n => c) = (n : ℝ) ^ (1 / (12 : ℝ)) * c / allowed := by
  have h := (C136_pnorm (n := n) 12 (by norm_num) allowed ha (fun _ => 0) fun _ => le_rfl).2.2 c hc
  rw [Nat.cast_ofNat] at h
  rw [eq_div_iff ha.ne', mul_comm]
  exact h

/-- The ratio of the largest stress to what the p-norm predicts. -/
theorem ratio_bounds (allowed : ℝ) (ha : 0 < allowed) (s : Fin n → ℝ) (hs : ∀ i, 0 ≤ s i) (hm : 0 < maxOf s) :
    1 / (n : ℝ) ^ (1 / (12 : ℝ)) ≤ maxOf s / (allowed * pNorm 12 allowed s) ∧ maxOf s / (allowed * pNorm 12 allowed s) ≤ 1 := by
  have hp := pNorm_pos allowed ha s hs hm
  obtain ⟨h1, ⟨i, h2⟩, -⟩ := C136_pnorm 12 (by norm_num) allowed ha s hs
  obtain ⟨k, hk⟩ := maxOf_attained s
  have hr := card_root_ge (n := n)
  constructor
  · rw [div_le_div_iff₀ (by linarith) (mul_pos ha hp), one_mul]
    have h3 : s i ≤ maxOf s := le_maxOf s i
    have h4 : allowed * pNorm 12 allowed s ≤ (n : ℝ) ^ (1 / (12 : ℝ)) * s i := by simpa using h2
    calc _ ≤ _ := h4
      _ ≤ (n : ℝ) ^ (1 / (12 : ℝ)) * maxOf s := mul_le_mul_of_nonneg_left h3 (by linarith)
      _ = _ := mul_comm _ _
  · rw [div_le_one (mul_pos ha hp), hk]
    exact h1 k

/-! ## The correction -/

/-- What holds of the attributes at any time. -/
structure AttOk (n : ℕ) (allowed : ℝ) (a : Att) : Prop where
  cp : 1 / (n : ℝ) ^ (1 / (12 : ℝ)) ≤ a.cp ∧ a.cp ≤ 1
  ratio : 1 / (n : ℝ) ^ (1 / (12 : ℝ)) ≤ a.maxVm / (allowed * a.pn) ∧ a.maxVm / (allowed * a.pn) ≤ 1

theorem attInit_ok (allowed : ℝ) (ha : 0 < allowed) : AttOk n allowed (attInit allowed) := by
  have h : 1 / (n : ℝ) ^ (1 / (12 : ℝ)) ≤ 1 := by
    rw [div_le_one (lt_of_lt_of_le one_pos card_root_ge)]
    exact card_root_ge
  refine ⟨⟨h, le_rfl⟩, ?_⟩
  have : (attInit allowed).maxVm / (allowed * (attInit allowed).pn) = 1 := by
    show allowed / (allowed * 1) = 1
    rw [mul_one, div_self ha.ne']
  rw [this]
  exact ⟨h, le_rfl⟩

variable {vf allowed : ℝ} {vm : (Fin m → ℝ) → Fin n → ℝ}

theorem new_cp (a : Att) : 0.5 * a.maxVm / (allowed * a.pn) + (1 - 0.5) * a.cp = (a.maxVm / (allowed * a.pn) + a.cp) / 2 := by
  rw [mul_div_assoc]
  ring

theorem conHandle_att (a : Att) (rho : Fin m → ℝ) :
    (conHandle vf allowed vm a rho).2 = ⟨(a.maxVm / (allowed * a.pn) + a.cp) / 2, maxOf (vm rho), pNorm 12 allowed (vm rho)⟩ := by
  show Att.mk (0.5 * a.maxVm / (allowed * a.pn) + (1 - 0.5) * a.cp) _ _ = _
  rw [new_cp]

theorem conFull_snd (a : Att) (rho : Fin m → ℝ) : (conFull vf allowed vm a rho).1 1 = (a.maxVm / (allowed * a.pn) + a.cp) / 2 * pNorm 12 allowed (vm rho) - 1 := by
  show (0.5 * a.maxVm / (allowed * a.pn) + (1 - 0.5) * a.cp) * pNorm 12 allowed (vm rho) - 1 = _
  rw [new_cp]

theorem conHandle_snd (a : Att) (rho : Fin m → ℝ) : (conHandle vf allowed vm a rho).1.1 1 = (a.maxVm / (allowed * a.pn) + a.cp) / 2 * pNorm 12 allowed (vm rho) - 1 := conFull_snd (vf := vf) a rho

theorem AttOk.step (ha : 0 < allowed) {a : Att} (h : AttOk n allowed a) (rho : Fin m → ℝ) (hs : ∀ i, 0 ≤ vm rho i) (hm : 0 < maxOf (vm rho)) :
    AttOk n allowed (conHandle vf allowed vm a rho).2 := by
  rw [conHandle_att]
  exact ⟨⟨by linarith [h.cp.1, h.ratio.1], by linarith [h.cp.2, h.ratio.2]⟩, ratio_bounds allowed ha (vm rho) hs hm⟩

theorem run_ok (ha : 0 < allowed) (designs : List (Fin m → ℝ)) (hd : ∀ rho ∈ designs, (∀ i, 0 ≤ vm rho i) ∧ 0 < maxOf (vm rho)) :
    ∀ a, AttOk n allowed a → AttOk n allowed (conRun vf allowed vm a designs) := by
  induction designs with
  | nil => exact fun a h => h
  | cons rho ds ih =>
    intro a h
    exact ih (fun r hr => hd r (List.mem_cons_of_mem _ hr)) _ (h.step ha rho (hd rho List.mem_cons_self).1 (hd rho List.mem_cons_self).2)

/-- **C136 (correction).** Whatever designs the optimiser has tried, as long as each of them was stressed at all: the correction is at most one and at least `n^(-1/12)`. -/
theorem C136_correction (ha : 0 < allowed) (designs : List (Fin m → ℝ)) (hd : ∀ rho ∈ designs, (∀ i, 0 ≤ vm rho i) ∧ ∃ i, 0 < vm rho i) :
    1 / (n : ℝ) ^ (1 / (12 : ℝ)) ≤ (conRun vf allowed vm (attInit allowed) designs).cp ∧ (conRun vf allowed vm (attInit allowed) designs).cp ≤ 1 := by
  refine (run_ok ha designs (fun rho h => ⟨(hd rho h).1, ?_⟩) _ (attInit_ok allowed ha)).cp
  obtain ⟨i, hi⟩ := (hd rho h).2
  exact hi.trans_le (le_maxOf _ i)

/-- **C136 (what the constraint guarantees).** After any history: a design the stress constraint accepts has no cell stressed beyond `n^(1/12)` times the allowed stress, and a design whose stresses are all
below `n^(-1/12)` times the allowed stress is accepted. -/
theorem C136_accept (ha : 0 < allowed) (designs : List (Fin m → ℝ)) (hd : ∀ rho ∈ designs, (∀ i, 0 ≤ vm rho i) ∧ ∃ i, 0 < vm rho i) (rho : Fin m → ℝ) (hs : ∀ i, 0 ≤ vm rho i) :
    ((conHandle vf allowed vm (conRun vf allowed vm (attInit allowed) designs) rho).1.1 1 ≤ 0 → ∀ i, vm rho i ≤ (n : ℝ) ^ (1 / (12 : ℝ)) * allowed) ∧
    ((∀ i, (n : ℝ) ^ (1 / (12 : ℝ)) * vm rho i ≤ allowed) → (conHandle vf allowed vm (conRun vf allowed vm (attInit allowed) designs) rho).1.1 1 ≤ 0) := by
  have hok := run_ok (vf := vf) ha designs (fun rho h => ⟨(hd rho h).1, by obtain ⟨i, hi⟩ := (hd rho h).2; exact hi.trans_le (le_maxOf _ i)⟩) _ (attInit_ok allowed ha)
  generalize conRun vf allowed vm (attInit allowed) designs = a at hok ⊢
  have hr := card_root_ge (n := n)
  have hval : (conHandle vf allowed vm a rho).1.1 1 = (a.maxVm / (allowed * a.pn) + a.cp) / 2 * pNorm 12 allowed (vm rho) - 1 := conFull_snd (vf := vf) a rho
  obtain ⟨c1, c2⟩ := hok.cp
  obtain ⟨r1, r2⟩ := hok.ratio
  rw [hval]
  set cp := (a.maxVm / (allowed * a.pn) + a.cp) / 2 with hcp
  have k1 : 1 / (n : ℝ) ^ (1 / (12 : ℝ)) ≤ cp := by linarith
  have k2 : cp ≤ 1 := by linarith
  have k3 : 1 ≤ (n : ℝ) ^ (1 / (12 : ℝ)) * cp := by
    rw [div_le_iff₀ (by linarith)] at k1
    linarith
  obtain ⟨p1, ⟨i0, p2⟩, -⟩ := C136_pnorm 12 (by norm_num) allowed ha (vm rho) hs
  have p2' : allowed * pNorm 12 allowed (vm rho) ≤ (n : ℝ) ^ (1 / (12 : ℝ)) * vm rho i0 := by simpa using p2
  have hpn : 0 ≤ pNorm 12 allowed (vm rho) := Real.rpow_nonneg (sum_nonneg fun j _ => pow_nonneg (div_nonneg (hs j) ha.le) 12) _
  constructor
  · intro hg i
    have h1 : pNorm 12 allowed (vm rho) ≤ (n : ℝ) ^ (1 / (12 : ℝ)) := by
      nlinarith [mul_le_mul_of_nonneg_right k3 hpn]
    calc vm rho i ≤ allowed * pNorm 12 allowed (vm rho) := p1 i
      _ ≤ allowed * (n : ℝ) ^ (1 / (12 : ℝ)) := mul_le_mul_of_nonneg_left h1 ha.le
      _ = _ := mul_comm _ _
  · intro hg
    have h1 : pNorm 12 allowed (vm rho) ≤ 1 := by
      have := p2'.trans (hg i0)
      exact le_of_mul_le_mul_left (by linarith) ha
    have h2 : cp * pNorm 12 allowed (vm rho) ≤ 1 * 1 := mul_le_mul k2 h1 hpn (by norm_num)
    linarith

/-- **C136 (settled design).** Called over and over with one design, the constraint value is `max/allowed - 1` plus half the remaining excess at every call: never smaller than the true constraint, and it tends to it. -/
theorem C136_settled (ha : 0 < allowed) (rho : Fin m → ℝ) (hs : ∀ i, 0 ≤ vm rho i) (hm : ∃ i, 0 < vm rho i) :
    (∀ k : ℕ, (conHandle vf allowed vm (conRun vf allowed vm (attInit allowed) (List.replicate k rho)) rho).1.1 1 =
      maxOf (vm rho) / allowed - 1 + (1 / 2) ^ k * (pNorm 12 allowed (vm rho) - maxOf (vm rho) / allowed)) ∧
    (∀ k : ℕ, (conHandle vf allowed vm (conRun vf allowed vm (attInit allowed) (List.replicate k rho)) rho).1.1 1 ≤ 0 → ∀ i, vm rho i ≤ allowed) ∧
    Filter.Tendsto (fun k : ℕ => (conHandle vf allowed vm (conRun vf allowed vm (attInit allowed) (List.replicate k rho)) rho).1.1 1) Filter.atTop (nhds (maxOf (vm rho) / allowed - 1)) := by
  have hmax : 0 < maxOf (vm rho) := by
    obtain ⟨i, hi⟩ := hm
    exact hi.trans_le (le_maxOf _ i)
  have hp := pNorm_pos allowed ha (vm rho) hs hmax
  set P := pNorm 12 allowed (vm rho) with hP
  set M := maxOf (vm rho) with hM
  have hrun : ∀ k : ℕ, conRun vf allowed vm (attInit allowed) (List.replicate (k + 1) rho) = ⟨M / (allowed * P) + (1 / 2) ^ k * (1 - M / (allowed * P)), M, P⟩ := by
    intro k
    induction k with
    | zero =>
      show (conHandle vf allowed vm (attInit allowed) rho).2 = _
      rw [conHandle_att]
      show Att.mk ((allowed / (allowed * 1) + 1) / 2) _ _ = _
      rw [mul_one, div_self ha.ne']
      congr 1
      norm_num
    | succ k ih =>
      rw [List.replicate_succ', conRun, List.foldl_append]
      show (conHandle vf allowed vm (conRun vf allowed vm (attInit allowed) (List.replicate (k + 1) rho)) rho).2 = _
      rw [ih, conHandle_att]
      congr 1
      rw [pow_succ]
      ring
  have hval : ∀ k : ℕ, (conHandle vf allowed vm (conRun vf allowed vm (attInit allowed) (List.replicate k rho)) rho).1.1 1 = M / allowed - 1 + (1 / 2) ^ k * (P - M / allowed) := by
    intro k
    have h0 : (conHandle vf allowed vm (conRun vf allowed vm (attInit allowed) (List.replicate k rho)) rho).1.1 1 =
        (conFull vf allowed vm (conRun vf allowed vm (attInit allowed) (List.replicate k rho)) rho).1 1 := rfl
    rw [h0, conFull_snd]
    cases k with
    | zero =>
      show (allowed / (allowed * 1) + 1) / 2 * P - 1 = _
      rw [mul_one, div_self ha.ne']
      simp
    | succ k =>
      rw [hrun k]
      show (M / (allowed * P) + (M / (allowed * P) + (1 / 2) ^ k * (1 - M / (allowed * P)))) / 2 * P - 1 = M / allowed - 1 + (1 / 2) ^ (k + 1) * (P - M / allowed)
      have h1 : M / (allowed * P) * P = M / allowed := by field_simp
      have h2 : (M / (allowed * P) + (M / (allowed * P) + (1 / 2) ^ k * (1 - M / (allowed * P)))) / 2 * P =
          M / (allowed * P) * P + (1 / 2) ^ (k + 1) * (P - M / (allowed * P) * P) := by
        rw [pow_succ]
        ring
      rw [h2, h1]
      ring
  have hle : M / allowed ≤ P := by
    have h1 := (ratio_bounds allowed ha (vm rho) hs hmax).2
    rw [div_le_one (mul_pos ha hp)] at h1
    rw [div_le_iff₀ ha, mul_comm]
    exact h1
  refine ⟨hval, fun k hk i => ?_, ?_⟩
  · rw [hval k] at hk
    have h1 : 0 ≤ (1 / 2 : ℝ) ^ k * (P - M / allowed) := mul_nonneg (by positivity) (by linarith)
    have h2 : M / allowed ≤ 1 := by linarith
    rw [div_le_one ha] at h2
    exact (le_maxOf _ i).trans h2
  · simp only [hval]
    have h1 : Filter.Tendsto (fun k : ℕ => (1 / 2 : ℝ) ^ k) Filter.atTop (nhds 0) := tendsto_pow_atTop_nhds_zero_of_lt_one (by norm_num) (by norm_num)
    have h2 := (h1.mul_const (P - M / allowed)).const_add (M / allowed - 1)
    simpa using h2

/-! ## The gradient -/

theorem conFull_fst (a : Att) (rho : Fin m → ℝ) : (conFull vf allowed vm a rho).1 0 = (∑ j, rho j) / m / vf - 1 := rfl

omit [NeZero n] in
theorem pNorm_differentiable (ha : 0 < allowed) (rho : Fin m → ℝ) (hd : DifferentiableAt ℝ vm rho) (hm : ∃ i, 0 < vm rho i) :
    DifferentiableAt ℝ (fun q => pNorm 12 allowed (vm q)) rho := by
  have hi : ∀ i, DifferentiableAt ℝ (fun q => vm q i) rho := fun i => differentiableAt_pi.1 hd i
  unfold pNorm
  refine DifferentiableAt.rpow_const ?_ (Or.inl ?_)
  · simp only [div_eq_mul_inv]
    exact DifferentiableAt.fun_sum fun i _ => ((hi i).mul_const allowed⁻¹).fun_pow 12
  · obtain ⟨i, h⟩ := hm
    have h1 : 0 < (vm rho i / allowed) ^ 12 := by positivity
    have h2 := single_le_sum (f := fun i => (vm rho i / allowed) ^ 12) (fun j _ => by positivity) (mem_univ i)
    exact (h1.trans_le h2).ne'

/-- **C136 (gradient).** The first row of the Jacobian handed to the optimiser is right. The second row is not the derivative of the constraint value handed over with it: it is that derivative times
`(r + cp)/(2 cp)`, where `cp` is the correction used for the value and `r` the ratio of the largest stress to the p-norm of the *present* design. It is right exactly if `r = cp` or the derivative vanishes. -/
theorem C136_gradient (ha : 0 < allowed) (a : Att) (hok : AttOk n allowed a) (rho : Fin m → ℝ) (hd : DifferentiableAt ℝ vm rho) (hs : ∀ i, 0 ≤ vm rho i) (hm : ∃ i, 0 < vm rho i) :
    let out := conHandle vf allowed vm a rho
    let true' : Fin 2 → Fin m → ℝ := fun i j => fderiv ℝ (fun q => (conHandle vf allowed vm a q).1.1 i) rho (Pi.single j 1)
    let r := maxOf (vm rho) / (allowed * pNorm 12 allowed (vm rho))
    (∀ j, out.1.2 0 j = true' 0 j ∧ true' 0 j = 1 / (m * vf)) ∧ 0 < out.2.cp ∧ (∀ j, out.1.2 1 j = (r + out.2.cp) / (2 * out.2.cp) * true' 1 j) ∧
    ((∀ j, out.1.2 1 j = true' 1 j) ↔ r = out.2.cp ∨ ∀ j, true' 1 j = 0) := by
  intro out true' r
  have hmax : 0 < maxOf (vm rho) := by
    obtain ⟨i, hi⟩ := hm
    exact hi.trans_le (le_maxOf _ i)
  have hP := pNorm_differentiable ha rho hd hm
  have hok' := hok.step (vf := vf) ha rho hs hmax
  have hcp : 0 < out.2.cp := lt_of_lt_of_le (div_pos one_pos (lt_of_lt_of_le one_pos (card_root_ge (n := n)))) hok'.cp.1
  have hatt : out.2 = ⟨(a.maxVm / (allowed * a.pn) + a.cp) / 2, maxOf (vm rho), pNorm 12 allowed (vm rho)⟩ := conHandle_att a rho
  have row : ∀ (b : Att) (j : Fin m), fderiv ℝ (fun q => (conFull vf allowed vm b q).1 1) rho (Pi.single j 1) =
      (b.maxVm / (allowed * b.pn) + b.cp) / 2 * fderiv ℝ (fun q => pNorm 12 allowed (vm q)) rho (Pi.single j 1) := by
    intro b j
    have h1 : (fun q => (conFull vf allowed vm b q).1 1) = fun q => (b.maxVm / (allowed * b.pn) + b.cp) / 2 * pNorm 12 allowed (vm q) - 1 := funext fun q => conFull_snd b q
    rw [h1, ((hP.hasFDerivAt.const_mul _).sub_const 1).fderiv]
    simp
  have h2 : ∀ j, out.1.2 1 j = (r + out.2.cp) / 2 * fderiv ℝ (fun q => pNorm 12 allowed (vm q)) rho (Pi.single j 1) := by
    intro j
    have h := row out.2 j
    rw [show out.2.maxVm / (allowed * out.2.pn) = r by rw [hatt]] at h
    exact h
  have h3 : ∀ j, true' 1 j = out.2.cp * fderiv ℝ (fun q => pNorm 12 allowed (vm q)) rho (Pi.single j 1) := by
    intro j
    have h := row a j
    rw [show (a.maxVm / (allowed * a.pn) + a.cp) / 2 = out.2.cp by rw [hatt]] at h
    exact h
  have h4 : ∀ j, out.1.2 1 j = (r + out.2.cp) / (2 * out.2.cp) * true' 1 j := by
    intro j
    rw [h2, h3]
    field_simp
  refine ⟨fun j => ⟨rfl, ?_⟩, hcp, h4, ?_⟩
  · have h5 : HasFDerivAt (fun q : Fin m → ℝ => (∑ j, q j) / m / vf - 1) ((1 / (m * vf)) • ∑ j, (ContinuousLinearMap.proj j : (Fin m → ℝ) →L[ℝ] ℝ)) rho := by
      have h6 : HasFDerivAt (fun rho : Fin m → ℝ => ∑ j, rho j) (∑ j, (ContinuousLinearMap.proj j : (Fin m → ℝ) →L[ℝ] ℝ)) rho :=
        HasFDerivAt.fun_sum fun j _ => (ContinuousLinearMap.proj j : (Fin m → ℝ) →L[ℝ] ℝ).hasFDerivAt
      have h7 := (h6.const_smul (1 / (m * vf))).sub_const 1
      refine h7.congr_of_eventuallyEq (Filter.Eventually.of_forall fun q => ?_)
      simp only [Pi.smul_apply, smul_eq_mul]
      rw [div_div, one_div, inv_mul_eq_div]
    show fderiv ℝ (fun q : Fin m → ℝ => (∑ j, q j) / m / vf - 1) rho (Pi.single j 1) = _
    rw [h5.fderiv]
    simp [_root_.sum_apply]
  · constructor
    · intro h
      by_cases hr : r = out.2.cp
      · exact Or.inl hr
      · refine Or.inr fun j => ?_
        have h5 := h j
        rw [h4 j] at h5
        have h6 : ((r + out.2.cp) / (2 * out.2.cp) - 1) * true' 1 j = 0 := by linarith
        rcases mul_eq_zero.1 h6 with h7 | h7
        · refine absurd ?_ hr
          have h8 : (r + out.2.cp) / (2 * out.2.cp) = 1 := by linarith
          rw [div_eq_one_iff_eq (by linarith)] at h8
          linarith
        · exact h7
    · rintro (hr | h) j
      · rw [h4 j, hr]
        field_simp
        ring
      · rw [h4 j, h j, mul_zero]

/-- **C136 (the first gradient is wrong).** At the first call, with one design variable that stresses all `n > 1` cells alike: the constraint value has the derivative `n^(1/12)/allowed`, but the Jacobian handed to the
optimiser says `(n^(1/12) + 1)/(2 allowed)`, which is less. -/
theorem C136_first (ha : 0 < allowed) (hn : 1 < n) (x : ℝ) (hx : 0 < x) :
    let vm : (Fin 1 → ℝ) → Fin n → ℝ := fun q _ => q 0
    (conHandle vf allowed vm (attInit allowed) (fun _ => x)).1.2 1 0 = ((n : ℝ) ^ (1 / (12 : ℝ)) + 1) / (2 * allowed) ∧
    fderiv ℝ (fun q => (conHandle vf allowed vm (attInit allowed) q).1.1 1) (fun _ => x) (Pi.single 0 1) = (n : ℝ) ^ (1 / (12 : ℝ)) / allowed ∧
    ((n : ℝ) ^ (1 / (12 : ℝ)) + 1) / (2 * allowed) < (n : ℝ) ^ (1 / (12 : ℝ)) / allowed := by
  intro vm
  have hR : 1 < (n : ℝ) ^ (1 / (12 : ℝ)) := Real.one_lt_rpow (by exact_mod_cast hn) (by norm_num)
  set R := (n : ℝ) ^ (1 / (12 : ℝ)) with hRdef
  have hpn : ∀ q : Fin 1 → ℝ, 0 ≤ q 0 → pNorm 12 allowed (vm q) = R * q 0 / allowed := by
    intro q hq
    exact pNorm_const allowed ha (q 0) hq
  have hmx : maxOf (vm fun _ => x) = x := by
    obtain ⟨i, hi⟩ := maxOf_attained (vm fun _ => x)
    exact hi
  have hd : DifferentiableAt ℝ vm (fun _ => x) := differentiableAt_pi.2 fun _ => (ContinuousLinearMap.proj (0 : Fin 1) : (Fin 1 → ℝ) →L[ℝ] ℝ).differentiableAt
  obtain ⟨-, hcp, hrow, -⟩ := C136_gradient (vf := vf) ha (attInit allowed) (attInit_ok (n := n) allowed ha) (fun _ => x) hd (fun _ => hx.le) ⟨0, hx⟩
  have hcp1 : (conHandle vf allowed vm (attInit allowed) (fun _ => x)).2.cp = 1 := by
    rw [conHandle_att]
    show (allowed / (allowed * 1) + 1) / 2 = 1
    rw [mul_one, div_self ha.ne']
    norm_num
  have htrue : fderiv ℝ (fun q => (conHandle vf allowed vm (attInit allowed) q).1.1 1) (fun _ => x) (Pi.single 0 1) = R / allowed := by
    have h1 : HasFDerivAt (fun q : Fin 1 → ℝ => R / allowed * q 0 - 1) ((R / allowed) • (ContinuousLinearMap.proj (0 : Fin 1) : (Fin 1 → ℝ) →L[ℝ] ℝ)) (fun _ => x) :=
      ((ContinuousLinearMap.proj (0 : Fin 1) : (Fin 1 → ℝ) →L[ℝ] ℝ).hasFDerivAt.const_mul (R / allowed)).sub_const 1
    have h2 : (fun q => (conHandle vf allowed vm (attInit allowed) q).1.1 1) =ᶠ[nhds (fun _ => x)] fun q : Fin 1 → ℝ => R / allowed * q 0 - 1 := by
      have hopen : ∀ᶠ q : Fin 1 → ℝ in nhds (fun _ => x), 0 < q 0 := (continuous_apply (0 : Fin 1)).continuousAt.eventually (lt_mem_nhds hx)
      filter_upwards [hopen] with q hq
      have h3 : (conHandle vf allowed vm (attInit allowed) q).1.1 1 = (allowed / (allowed * 1) + 1) / 2 * pNorm 12 allowed (vm q) - 1 := conFull_snd (vf := vf) (attInit allowed) q
      rw [h3, hpn q hq.le, mul_one, div_self ha.ne']
      ring
    rw [(h1.congr_of_eventuallyEq h2).fderiv]
    simp
  refine ⟨?_, htrue, ?_⟩
  · have h1 := hrow 0
    rw [hcp1, hmx, hpn (fun _ => x) hx.le] at h1
    have h0 : (conHandle vf allowed vm (attInit allowed) fun _ => x).1.2 1 0 = (x / (allowed * (R * x / allowed)) + 1) / (2 * 1) * (R / allowed) := by rw [← htrue]; exact h1
    rw [h0]
    have : R ≠ 0 := by linarith
    field_simp
    ring
  · rw [div_lt_div_iff₀ (by linarith) ha]
    nlinarith

/-- **C136 (overstressed designs are accepted).** Two cells whose stresses are the two design variables, allowed stress one: after two calls with both cells at the allowed stress, a design with one cell stressed beyond the
allowed stress meets the stress constraint. -/
theorem C136_overstress : ∃ designs : List (Fin 2 → ℝ), ∃ rho : Fin 2 → ℝ, (∀ r ∈ designs, ∀ i, r i = 1) ∧ 0 ≤ rho 1 ∧ 1 < rho 0 ∧
    (conHandle vf 1 (fun q => q) (conRun vf 1 (fun q => q) (attInit 1) designs) rho).1.1 1 ≤ 0 := by
  have hR : 1 < ((2 : ℕ) : ℝ) ^ (1 / (12 : ℝ)) := Real.one_lt_rpow (by norm_num) (by norm_num)
  set R := ((2 : ℕ) : ℝ) ^ (1 / (12 : ℝ)) with hRdef
  have hpn : pNorm 12 1 (fun _ : Fin 2 => (1 : ℝ)) = R := by
    rw [pNorm_const 1 one_pos 1 zero_le_one, mul_one, div_one]
  have hmx : maxOf (fun _ : Fin 2 => (1 : ℝ)) = 1 := by
    obtain ⟨i, hi⟩ := maxOf_attained (fun _ : Fin 2 => (1 : ℝ))
    exact hi
  have hpn2 : ∀ x : ℝ, 0 ≤ x → pNorm 12 1 (![x, 0] : Fin 2 → ℝ) = x := by
    intro x hx
    have h1 : pNorm 12 1 (![x, 0] : Fin 2 → ℝ) = (x ^ 12) ^ (((12 : ℕ) : ℝ)⁻¹) := by simp [pNorm]
    rw [h1]
    exact Real.pow_rpow_inv_natCast hx (by norm_num)
  have hlt : 1 / R < 1 := by rw [div_lt_one (by linarith)]; exact hR
  have hpos : 0 < 1 / R := div_pos one_pos (by linarith)
  have hx : 1 < 2 / (1 / R + 1) := by rw [lt_div_iff₀ (by linarith)]; linarith
  refine ⟨[fun _ => 1], ![2 / (1 / R + 1), 0], by simp, by simp, by simpa using hx, ?_⟩
  have hatt : conRun vf 1 (fun q : Fin 2 → ℝ => q) (attInit 1) [fun _ => 1] = ⟨1, 1, R⟩ := by
    show (conHandle vf 1 (fun q : Fin 2 → ℝ => q) (attInit 1) fun _ => 1).2 = _
    rw [conHandle_att, hpn, hmx]
    have h : ((attInit 1).maxVm / (1 * (attInit 1).pn) + (attInit 1).cp) / 2 = 1 := by norm_num [attInit]
    rw [h]
  rw [hatt]
  rw [conHandle_snd, hpn2 _ (by linarith)]
  dsimp only
  rw [one_mul]
  have h4 : 1 / R + 1 ≠ 0 := by linarith
  have h5 : (1 / R + 1) / 2 * (2 / (1 / R + 1)) = 1 := by field_simp
  linarith

end

/-- With 1600 cells (the mesh `L_1600.inp`) an accepted design has stresses of at most 6.51 MPa, where 3.5 MPa are allowed. -/
example (vm : (Fin m → ℝ) → Fin 1600 → ℝ) (designs : List (Fin m → ℝ)) (hd : ∀ rho ∈ designs, (∀ i, 0 ≤ vm rho i) ∧ ∃ i, 0 < vm rho i) (rho : Fin m → ℝ) (hs : ∀ i, 0 ≤ vm rho i)
    (hg : (conHandle 0.5 3.5e6 vm (conRun 0.5 3.5e6 vm (attInit 3.5e6) designs) rho).1.1 1 ≤ 0) (i : Fin 1600) : vm rho i ≤ 6.51e6 := by
  have h := (C136_accept (by norm_num) designs hd rho hs).1 hg i
  have h1 : ((1600 : ℕ) : ℝ) ^ (1 / (12 : ℝ)) ≤ 1.86 := by
    have h2 : (((1.86 : ℝ) ^ 12) ^ (((12 : ℕ) : ℝ)⁻¹)) = 1.86 := Real.pow_rpow_inv_natCast (by norm_num) (by norm_num)
    rw [← h2, one_div]
    exact Real.rpow_le_rpow (by norm_num) (by norm_num) (by norm_num)
  linarith [mul_le_mul_of_nonneg_right h1 (show (0 : ℝ) ≤ 3.5e6 by norm_num)]

end Verif.TopProg
