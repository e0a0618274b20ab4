import Verif.Fem.ThermalOde

/-!
# The time steps of the thermo-mechanical demo converge (C153)
-/
namespace Verif.Fem.ThermalOrder
open Finset Verif.Fem

variable {nn nq nf nfq : ℕ}

section steps
variable {F : Fem nn nq nf nfq 3 1} {D : ℕ → Prop}

/-- One heat step has a solution. -/
theorem step_exists {k rho Cp dt : ℝ} (top walls : Loc 3) (gT gW : FluxFn) (hmesh : ∀ c ∈ F.cells, ∀ a, c a < F.numTotal) (hvol : ∀ c ∈ F.cells, ∀ q, 0 < F.JxW c q) (hcells : F.cells ≠ [])
    (hfaces : ∀ l ∈ [top, walls], ∀ p ∈ F.selected l, ∀ q, (F.faceJacobian p.1 p.2 q).det ≠ 0) (hdef : Definite F) (hk : 0 ≤ k) (hm : 0 < rho * Cp) (hdt : 0 < dt) (T0 old : ℕ → Fin 1 → ℝ) :
    ∃ sol R, (tmThermal F k rho Cp dt top walls gT gW old).computeResidual sol = .ok R ∧ (∀ n < F.numTotal, ¬ D n → R n 0 = 0) ∧ ∀ n < F.numTotal, D n → sol n 0 = T0 n 0 := by
  classical
  let E := Free F D → ℝ
  let Q : E →ₗ[ℝ] E →ₗ[ℝ] ℝ := LinearMap.mk₂ ℝ (fun v w => massForm F (rho * Cp / dt) (emb F D v) (emb F D w) + condForm F k (emb F D v) (emb F D w))
    (fun v v' w => by
      rw [massForm_comm F _ _ (emb F D w), condForm_comm F _ _ (emb F D w), emb_add, massForm_add, condForm_add, massForm_comm F _ _ (emb F D v), massForm_comm F _ _ (emb F D v'), condForm_comm F _ _ (emb F D v), condForm_comm F _ _ (emb F D v')]
      ring)
    (fun t v w => by
      rw [massForm_comm F _ _ (emb F D w), condForm_comm F _ _ (emb F D w), emb_smul, massForm_mul, condForm_mul, smul_eq_mul, massForm_comm F _ _ (emb F D v), condForm_comm F _ _ (emb F D v)]
      ring)
    (fun v w w' => by rw [emb_add, massForm_add, condForm_add]; ring) (fun t v w => by rw [emb_smul, massForm_mul, condForm_mul, smul_eq_mul]; ring)
  let Ψ : E →ₗ[ℝ] E := LinearMap.pi fun j => Q.flip (Pi.single j 1)
  have hmd : 0 < rho * Cp / dt := div_pos hm hdt
  have hinj : Function.Injective Ψ := by
    rw [← LinearMap.ker_eq_bot, LinearMap.ker_eq_bot']
    intro w hw
    have h0 : Q w = 0 := LinearMap.pi_ext' fun j => LinearMap.ext_ring (congrFun hw j)
    have h1 : massForm F (rho * Cp / dt) (emb F D w) (emb F D w) + condForm F k (emb F D w) (emb F D w) = 0 := congrArg (fun l : E →ₗ[ℝ] ℝ => l w) h0
    obtain ⟨K, hK, ha⟩ := amp_le_heat F hmesh hvol hdef hmd
    have h2 : heatSq F (rho * Cp / dt) (emb F D w) = massForm F (rho * Cp / dt) (emb F D w) (emb F D w) := by
      unfold heatSq massForm
      congr 1
      funext c q
      ring
    have h4 : 0 ≤ condForm F k (emb F D w) (emb F D w) := heatOf_nonneg F hvol _ fun c q => mul_nonneg hk (sum_nonneg fun d _ => mul_self_nonneg _)
    have h5 := heatSq_nonneg F hvol hmd (emb F D w)
    have h6 : heatSq F (rho * Cp / dt) (emb F D w) = 0 := by linarith
    have h3 := ha (emb F D w)
    rw [h6, Real.sqrt_zero, mul_zero] at h3
    funext j
    have h7 := (le_amp F (emb F D w) j.1.2).trans h3
    rw [emb_free w j.1.2 j.2] at h7
    exact abs_nonpos_iff.mp h7
  let base : ℕ → Fin 1 → ℝ := fun n i => if D n then T0 n i else 0
  let rhs : E := fun j => fluxWork F (F.boundaryInds top) gT old (emb F D (Pi.single j 1)) + fluxWork F (F.boundaryInds walls) gW old (emb F D (Pi.single j 1))
    - condForm F k base (emb F D (Pi.single j 1)) - massForm F (rho * Cp / dt) base (emb F D (Pi.single j 1)) + massForm F (rho * Cp / dt) old (emb F D (Pi.single j 1))
  obtain ⟨w, hw⟩ := (LinearEquiv.ofInjectiveEndo Ψ hinj).surjective rhs
  let sol : ℕ → Fin 1 → ℝ := fun n i => base n i + emb F D w n i
  obtain ⟨R, hR⟩ := (C108_returns F k rho Cp dt top walls gT gW old sol).mpr ⟨hcells, hfaces⟩
  refine ⟨sol, R, hR, fun n hn hd => ?_, fun n hn hd => ?_⟩
  · set j : Free F D := ⟨⟨n, hn⟩, hd⟩ with hj
    have h1 := tm_work F hmesh k rho Cp dt top walls gT gW old sol R (emb F D (Pi.single j 1)) hR
    have h2 : ∑ m ∈ range F.numTotal, R m 0 * emb F D (Pi.single j 1) m 0 = R n 0 := by
      rw [sum_eq_single_of_mem n (mem_range.mpr hn)]
      · rw [emb_free _ hn hd, Pi.single_eq_same, mul_one]
      · intro m hm hmn
        by_cases hdm : D m
        · rw [emb_fixed _ hdm, mul_zero]
        · rw [emb_free _ (mem_range.mp hm) hdm, Pi.single_eq_of_ne, mul_zero]
          intro h
          exact hmn (congrArg (fun x : Free F D => (x.1 : ℕ)) h)
    have h3 : massForm F (rho * Cp / dt) (emb F D w) (emb F D (Pi.single j 1)) + condForm F k (emb F D w) (emb F D (Pi.single j 1)) = rhs j := congrFun hw j
    have h4 : heatOf F (fun c q => k * (∑ d, F.gradAt sol c q 0 d * F.gradAt (emb F D (Pi.single j 1)) c q 0 d) + rho * Cp / dt * (F.uAt sol c q 0 - F.uAt old c q 0) * F.uAt (emb F D (Pi.single j 1)) c q 0)
        = condForm F k base (emb F D (Pi.single j 1)) + condForm F k (emb F D w) (emb F D (Pi.single j 1)) + (massForm F (rho * Cp / dt) base (emb F D (Pi.single j 1)) + massForm F (rho * Cp / dt) (emb F D w) (emb F D (Pi.single j 1)))
          - massForm F (rho * Cp / dt) old (emb F D (Pi.single j 1)) := by
      rw [condForm_comm F k base, condForm_comm F k (emb F D w), ← condForm_add, massForm_comm F _ base, massForm_comm F _ (emb F D w), ← massForm_add]
      have e : ∀ a b c : ℝ, a = b + c → b = a - c := fun a b c h => by linarith
      refine e _ _ _ ?_
      unfold condForm massForm
      rw [← heatOf_addT, ← heatOf_addT]
      congr 1
      funext c q
      show k * _ + rho * Cp / dt * F.uAt (emb F D (Pi.single j 1)) c q 0 * F.uAt sol c q 0 = _
      rw [sum_congr rfl fun d _ => mul_comm (F.gradAt (emb F D (Pi.single j 1)) c q 0 d) (F.gradAt sol c q 0 d)]
      ring
    rw [h2, h4] at h1
    rw [h1]
    simp only [rhs] at h3
    linarith
  · show base n 0 + emb F D w n 0 = _
    rw [emb_fixed w hd, add_zero]
    simp only [base, if_pos hd]

/-- The heat steps from given temperatures exist for every `dt`. -/
theorem steps_exist {k rho Cp dt τ : ℝ} {top walls : Loc 3} {gTop gWalls : ℝ → FluxFn} {T : ℝ → ℕ → Fin 1 → ℝ} (hmesh : ∀ c ∈ F.cells, ∀ a, c a < F.numTotal) (hvol : ∀ c ∈ F.cells, ∀ q, 0 < F.JxW c q) (hcells : F.cells ≠ [])
    (hfaces : ∀ l ∈ [top, walls], ∀ p ∈ F.selected l, ∀ q, (F.faceJacobian p.1 p.2 q).det ≠ 0) (hdef : Definite F) (hk : 0 ≤ k) (hm : 0 < rho * Cp) (hdt : 0 < dt) (T0 : ℕ → Fin 1 → ℝ)
    (hT : ∀ t ∈ Set.Icc 0 τ, ∀ n < F.numTotal, D n → T t n 0 = T0 n 0) : ∃ Ts, Ts 0 = T0 ∧ Steps F k rho Cp top walls gTop gWalls D τ T dt 0 Ts := by
  choose next R h1 h2 h3 using fun (i : ℕ) (old : ℕ → Fin 1 → ℝ) => step_exists (D := D) top walls (gTop ((i + 1 : ℕ) * dt)) (gWalls ((i + 1 : ℕ) * dt)) hmesh hvol hcells hfaces hdef hk hm hdt T0 old
  let Ts : ℕ → ℕ → Fin 1 → ℝ := fun i => Nat.rec T0 next i
  have hfix : ∀ i, ∀ n < F.numTotal, D n → Ts i n 0 = T0 n 0 := by
    intro i n hn hd
    cases i with
    | zero => rfl
    | succ i => exact h3 i (Ts i) n hn hd
  refine ⟨Ts, rfl, fun i hi n hn hd => ?_, fun i _ => ⟨_, h1 i (Ts i), fun n hn hd => ?_⟩⟩
  · rw [hfix i n hn hd, hT _ ⟨by positivity, hi⟩ n hn hd]
  · rw [h2 i (Ts i) n hn hd, abs_zero]

end steps

/-! ## The demo -/

/-- On box meshes with HEX8 tables a field that vanishes at the quadrature points is zero. -/
theorem C153_definite (F : Fem 8 (2 ^ 3) nf nfq 3 1) (hused : ∀ n < F.numTotal, ∃ c ∈ F.cells, ∃ a, c a = n) (ht : CellTables F hex8 (gaussRule 3)) : Definite F := by
  intro v hv n hn
  obtain ⟨c, hc, a, rfl⟩ := hused n hn
  refine Verif.SourceId.hex8_points (fun a => v (c a) 0) (fun q => ?_) a
  rw [← hv c hc q]
  exact sum_congr rfl fun a _ => by rw [ht.vals]

/-- The position of the laser (example.py 245) at the time `t`. -/
noncomputable def beam (L : Fin 3 → ℝ) (t : ℝ) : Fin 3 → ℝ := ![L 0 * 0.25 + 0.5 * t, L 1 / 2, L 2]

theorem loss_lip {r a b : ℝ} (hr : 0 ≤ r) (ha : |a| ≤ r) (hb : |b| ≤ r) : |tmLoss a - tmLoss b| ≤ (100 + 5.67e-8 * 0.3 * (4 * r ^ 3)) * |a - b| := by
  have e : tmLoss a - tmLoss b = -(100 + 5.67e-8 * 0.3 * ((a + b) * (a ^ 2 + b ^ 2))) * (a - b) := by
    unfold tmLoss
    ring
  rw [e, abs_mul, abs_neg]
  refine mul_le_mul_of_nonneg_right ((abs_add_le _ _).trans (add_le_add (by norm_num) ?_)) (abs_nonneg _)
  rw [abs_mul, abs_of_pos (show (0 : ℝ) < 5.67e-8 * 0.3 by norm_num)]
  refine mul_le_mul_of_nonneg_left ?_ (by norm_num)
  rw [abs_mul]
  have h1 : |a + b| ≤ 2 * r := (abs_add_le _ _).trans (by linarith)
  have ha2 : a ^ 2 ≤ r ^ 2 := by rw [← sq_abs a]; gcongr
  have hb2 : b ^ 2 ≤ r ^ 2 := by rw [← sq_abs b]; gcongr
  have h2 : |a ^ 2 + b ^ 2| ≤ 2 * r ^ 2 := by rw [abs_of_nonneg (by positivity)]; linarith
  calc _ ≤ (2 * r) * (2 * r ^ 2) := mul_le_mul h1 h2 (abs_nonneg _) (by positivity)
    _ = _ := by ring

theorem walls_lip (τ : ℝ) : LocLip τ fun _ => tmWallFlux := by
  intro r
  refine ⟨100 + 5.67e-8 * 0.3 * (4 * |r| ^ 3), by positivity, fun t _ x a b ha hb => ?_⟩
  exact loss_lip (abs_nonneg r) (ha.trans (le_abs_self r)) (hb.trans (le_abs_self r))

theorem top_lip (τ : ℝ) (L : Fin 3 → ℝ) (s : ℝ) : LocLip τ fun t => tmTopFlux (beam L t) s := by
  intro r
  refine ⟨100 + 5.67e-8 * 0.3 * (4 * |r| ^ 3), by positivity, fun t _ x a b ha hb => ?_⟩
  show |tmLoss (a 0) + _ - (tmLoss (b 0) + _)| ≤ _
  rw [add_sub_add_right_eq_sub]
  exact loss_lip (abs_nonneg r) (ha.trans (le_abs_self r)) (hb.trans (le_abs_self r))

theorem walls_joint (τ : ℝ) : JointLip τ fun _ => tmWallFlux := by
  intro x r
  refine ⟨100 + 5.67e-8 * 0.3 * (4 * |r| ^ 3), by positivity, fun s _ t _ a b ha hb => ?_⟩
  refine (loss_lip (abs_nonneg r) (ha.trans (le_abs_self r)) (hb.trans (le_abs_self r))).trans (mul_le_mul_of_nonneg_left ?_ (by positivity))
  linarith [abs_nonneg (s - t)]

theorem top_joint (τ : ℝ) (L : Fin 3 → ℝ) (sw : ℝ) : JointLip τ fun t => tmTopFlux (beam L t) sw := by
  intro x r
  have hC : ContDiff ℝ 1 fun t => tmLaser (beam L t) sw (x 0) (x 1) := by
    unfold tmLaser beam
    simp only [Matrix.cons_val_zero, Matrix.cons_val_one]
    fun_prop
  obtain ⟨K, hK⟩ := hC.contDiffOn.exists_lipschitzOnWith (s := Set.Icc 0 τ) one_ne_zero (convex_Icc 0 τ) isCompact_Icc
  refine ⟨100 + 5.67e-8 * 0.3 * (4 * |r| ^ 3) + K, by positivity, fun s hs t ht a b ha hb => ?_⟩
  have h1 := loss_lip (abs_nonneg r) (ha.trans (le_abs_self r)) (hb.trans (le_abs_self r))
  have h2 := hK.dist_le_mul s hs t ht
  rw [Real.dist_eq, Real.dist_eq] at h2
  show |tmLoss (a 0) + tmLaser (beam L s) sw (x 0) (x 1) - (tmLoss (b 0) + tmLaser (beam L t) sw (x 0) (x 1))| ≤ _
  rw [add_sub_add_comm]
  refine (abs_add_le _ _).trans ((add_le_add h1 h2).trans ?_)
  have h3 : 0 ≤ 100 + 5.67e-8 * 0.3 * (4 * |r| ^ 3) := by positivity
  have h4 := mul_nonneg h3 (abs_nonneg (s - t))
  have h5 : 0 ≤ (K : ℝ) * |a 0 - b 0| := mul_nonneg K.2 (abs_nonneg _)
  have e : (100 + 5.67e-8 * 0.3 * (4 * |r| ^ 3) + (K : ℝ)) * (|s - t| + |a 0 - b 0|)
      = (100 + 5.67e-8 * 0.3 * (4 * |r| ^ 3)) * |a 0 - b 0| + K * |s - t| + ((100 + 5.67e-8 * 0.3 * (4 * |r| ^ 3)) * |s - t| + K * |a 0 - b 0|) := by ring
  linarith

/-- **C153 (demo).** The heat problem of the thermo-mechanical demo with the laser on or off, on every box mesh. The problem discretised in space has a solution for a short time from any temperatures. Whenever it has one on `[0, τ]`, the time steps
exist for every `dt`, and all of them converge to it with first order. -/
theorem C153_demo (N : Fin 3 → ℕ) (L : Fin 3 → ℝ) (hN : ∀ a, 0 < N a) (hL : ∀ a, 0 < L a) (F : Fem 8 (2 ^ 3) 6 nfq 3 1) (hbox : OnBox F N L) (hnum : F.numTotal = (N 0 + 1) * (N 1 + 1) * (N 2 + 1))
    (ht : CellTables F hex8 (gaussRule 3)) (frule : QuadRule nfq) (hf : FaceTables F hex8 frule) (sw : ℝ) (T0 : ℕ → Fin 1 → ℝ) :
    let D : ℕ → Prop := fun n => tmBottom (F.points n) = true
    let semi := Semi F 15 8440 588 (tmTop (L 2)) (tmWalls (L 0) (L 1)) (fun t => tmTopFlux (beam L t) sw) (fun _ => tmWallFlux) D
    let steps := Steps F 15 8440 588 (tmTop (L 2)) (tmWalls (L 0) (L 1)) (fun t => tmTopFlux (beam L t) sw) (fun _ => tmWallFlux) D
    (∃ τ, 0 < τ ∧ ∃ T Td, semi τ T Td ∧ (∀ n < F.numTotal, T 0 n 0 = T0 n 0) ∧ ∀ t ∈ Set.Icc 0 τ, ∀ n < F.numTotal, D n → T t n 0 = T0 n 0) ∧
    ∀ τ T Td, 0 ≤ τ → semi τ T Td → (∀ n < F.numTotal, T 0 n 0 = T0 n 0) → (∀ t ∈ Set.Icc 0 τ, ∀ n < F.numTotal, D n → T t n 0 = T0 n 0) →
      (∀ dt, 0 < dt → ∃ Ts, Ts 0 = T0 ∧ steps τ T dt 0 Ts) ∧
      ∃ δ C : ℝ, 0 < δ ∧ ∀ dt ε, 0 < dt → dt ≤ δ → 0 ≤ ε → ε ≤ δ → ∀ Ts, Ts 0 = T0 → steps τ T dt ε Ts →
        ∀ i : ℕ, i * dt ≤ τ → ∀ n < F.numTotal, |Ts i n 0 - T (i * dt) n 0| ≤ C * (dt + ε) := by
  intro D semi steps
  have hS := C98_box F N L hbox hnum hN hL ht
  have hdef := C153_definite F hS.used ht
  have hfaces : ∀ l ∈ [tmTop (L 2), tmWalls (L 0) (L 1)], ∀ p ∈ F.selected l, ∀ q, (F.faceJacobian p.1 p.2 q).det ≠ 0 := by
    intro l _ p hp q
    have hp' : p ∈ F.selectFaces (F.boundaryInds l) := by rw [selectFaces_boundaryInds]; exact hp
    obtain ⟨g, hg, hpg⟩ := (hbox.mem_cells p.1).mp (selectFaces_mem F _ p hp')
    rw [hpg, hbox.faceJacobian _ hf g hg, Matrix.det_diagonal]
    exact (prod_pos fun a _ => div_pos (hL a) (by exact_mod_cast hN a)).ne'
  refine ⟨?_, fun τ T Td hτ hT h0 hD => ⟨fun dt hdt => ?_, ?_⟩⟩
  · obtain ⟨τ, hτ, -, T, Td, h⟩ := C153_exists (D := D) (k := 15) (rho := 8440) (Cp := 588) (top := tmTop (L 2)) (walls := tmWalls (L 0) (L 1)) hS.mesh hS.vol hdef (by norm_num) one_pos (top_joint 1 L sw) (walls_joint 1) T0
    exact ⟨τ, hτ, T, Td, h⟩
  · exact steps_exist hS.mesh hS.vol hS.cells hfaces hdef (by norm_num) (by norm_num) hdt T0 hD
  · obtain ⟨δ, C, hδ, h⟩ := C153_order hS.mesh hS.vol hdef (by norm_num) (by norm_num) hτ (top_lip τ L sw) (walls_lip τ) hT
    refine ⟨δ, C, hδ, fun dt ε hdt hdδ hε hεδ Ts hTs hst i hi n hn => ?_⟩
    have e : amp F (fun n i => Ts 0 n i - T 0 n i) = 0 := by
      refine le_antisymm (amp_le F le_rfl fun n hn => ?_) (amp_nonneg F _)
      show |Ts 0 n 0 - T 0 n 0| ≤ 0
      rw [hTs, h0 n hn, sub_self, abs_zero]
    have := h dt ε hdt hdδ hε hεδ Ts hst (by rw [e]; exact hδ.le) i hi n hn
    rw [e, zero_add] at this
    exact this

/-- **C153 (file).** The heat steps of the script are those of the theorem with `dt = 2e-6`: with the laser on while `ts[i + 1] < laser_on_t`, afterwards off. -/
theorem C153_file (F : Fem nn nq nf nfq 3 1) (L : Fin 3 → ℝ) (old : ℕ → Fin 1 → ℝ) (i : ℕ) :
    (tmTs (i + 1) < tmLaserOn (L 0) → tmHeat F L old (tmCenter L i) (tmSwitch L i)
      = tmThermal F 15 8440 588 (2 * 1e-6) (tmTop (L 2)) (tmWalls (L 0) (L 1)) (tmTopFlux (beam L ((i + 1 : ℕ) * (2 * 1e-6))) 1) tmWallFlux old) ∧
    (tmLaserOn (L 0) ≤ tmTs (i + 1) → ∀ c, tmHeat F L old (tmCenter L i) (tmSwitch L i) = tmThermal F 15 8440 588 (2 * 1e-6) (tmTop (L 2)) (tmWalls (L 0) (L 1)) (tmTopFlux c 0) tmWallFlux old) := by
  refine ⟨fun h => ?_, fun h c => ?_⟩
  · unfold tmSwitch
    rw [if_pos h]
    rfl
  · unfold tmSwitch
    rw [if_neg (not_lt.mpr h)]
    have e : tmTopFlux (tmCenter L i) 0 = tmTopFlux c 0 := by
      funext x T j
      simp only [tmTopFlux, tmLaser, mul_zero]
    unfold tmHeat
    rw [e]

/-- The mesh of the demo (50 by 20 by 5 cells), all nodes at 300 K, laser on. -/
example : ∃ τ, 0 < τ ∧ ∃ T : ℝ → ℕ → Fin 1 → ℝ, T 0 6000 0 = 300 ∧ ∃ Ts : ℝ → ℕ → ℕ → Fin 1 → ℝ, ∃ δ C : ℝ, 0 < δ ∧ ∀ dt, 0 < dt → dt ≤ δ → Ts dt 0 = (fun _ _ => 300) ∧
    Steps (boxFem tmN tmL 1) 15 8440 588 (tmTop (tmL 2)) (tmWalls (tmL 0) (tmL 1)) (fun t => tmTopFlux (beam tmL t) 1) (fun _ => tmWallFlux) (fun n => tmBottom ((boxFem tmN tmL 1).points n) = true) τ T dt 0 (Ts dt) ∧
    ∀ i : ℕ, i * dt ≤ τ → ∀ n < (boxFem tmN tmL 1).numTotal, |Ts dt i n 0 - T (i * dt) n 0| ≤ C * dt := by
  have hN : ∀ a, 0 < tmN a := by intro a; fin_cases a <;> norm_num [tmN]
  have hL : ∀ a, 0 < tmL a := by intro a; fin_cases a <;> norm_num [tmL]
  have hn : (boxFem tmN tmL 1).numTotal = 6426 := by
    rw [boxFem_num]; rfl
  obtain ⟨⟨τ, hτ, T, Td, hT, h0, hD⟩, h⟩ := C153_demo tmN tmL hN hL (boxFem tmN tmL 1) (boxFem_onBox _ _ _) rfl ⟨fun _ _ => rfl, fun _ _ _ => rfl, fun _ => rfl⟩ (gaussRule 2) (boxFem_faces _ _ _) 1 (fun _ _ => 300)
  obtain ⟨h1, δ, C, hδ, h2⟩ := h τ T Td hτ.le hT h0 hD
  choose! Ts hTs hst using h1
  refine ⟨τ, hτ, T, h0 6000 (by rw [hn]; norm_num), Ts, δ, C, hδ, fun dt hdt hdδ => ⟨hTs dt hdt, hst dt hdt, fun i hi n hn => ?_⟩⟩
  have := h2 dt 0 hdt hdδ le_rfl hδ.le (Ts dt) (hTs dt hdt) (hst dt hdt) i hi n hn
  rwa [add_zero] at this

end Verif.Fem.ThermalOrder
