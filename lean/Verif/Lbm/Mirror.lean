import Verif.Lbm.Start

/-!
# Mirror images of lattice Boltzmann runs (C144)

The solver (jax_am/lbm/core.py 15-724) commutes with reflections of the box. Model and programs are those of `Verif.Lbm.Model`, `Verif.Lbm.Forces` and `Verif.Lbm.Start`; this file adds only the description of the mirror image.
-/

namespace Verif.Lbm.Mirror
open Finset Verif.Lbm

variable {Nx Ny Nz : ℕ}

/-! ## Specification: the mirror image -/

/-- The cell at the mirrored place, for the mirror plane in the middle of the box, normal to axis `k`. -/
def flip (k : Fin 3) (s : Site Nx Ny Nz) : Site Nx Ny Nz :=
  (if k = 0 then s.1.rev else s.1, if k = 1 then s.2.1.rev else s.2.1, if k = 2 then s.2.2.rev else s.2.2)

/-- The direction with the mirrored velocity. -/
def mq : Fin 3 → Fin 19 → Fin 19 :=
  ![![0, 2, 1, 3, 4, 5, 6, 10, 9, 8, 7, 13, 14, 11, 12, 15, 16, 17, 18],
    ![0, 1, 2, 4, 3, 5, 6, 9, 10, 7, 8, 11, 12, 13, 14, 18, 17, 16, 15],
    ![0, 1, 2, 3, 4, 6, 5, 7, 8, 9, 10, 14, 13, 12, 11, 17, 18, 15, 16]]

/-- The mirrored vector. -/
def mv {K : Type*} [Field K] (k : Fin 3) (v : Fin 3 → K) : Fin 3 → K := fun a => if a = k then -v a else v a

/-- The mirror image of a state. -/
def mirror {K : Type*} (k : Fin 3) (S : State K Nx Ny Nz) : State K Nx Ny Nz :=
  ⟨fun s q => S.f (flip k s) (mq k q), fun s q => S.h (flip k s) (mq k q), fun s => S.phase (flip k s), fun s => S.mass (flip k s), fun s => S.melted (flip k s)⟩

/-- The mirror image of forces and heat sources. -/
def mirrorSrc {K : Type*} [Field K] (k : Fin 3) (src : Source K Nx Ny Nz) : Source K Nx Ny Nz := ⟨fun s => mv k (src.F (flip k s)), fun s => src.Q (flip k s)⟩

/-- The mirrored position of the laser. -/
noncomputable def mirrorLaser (Nx Ny : ℕ) (k : Fin 3) (l : ℝ × ℝ × ℝ) : ℝ × ℝ × ℝ := (if k = 0 then Nx - l.1 else l.1, if k = 1 then Ny - l.2.1 else l.2.1, l.2.2)

/-- The outer layer is wall. -/
def Walled (phase : Site Nx Ny Nz → ℕ) : Prop := ∀ s, ¬ Interior s → phase s = WALL

/-- **C144 (velocities).** The table of mirrored directions belongs to the table of velocities. -/
theorem C144_velocities (k a : Fin 3) (q : Fin 19) : vels a (mq k q) = (if a = k then -vels a q else vels a q) ∧ mq k (mq k q) = q ∧ mq k (rev q) = rev (mq k q) := by
  revert k a q; decide

/-! ## Helper lemmas -/

theorem mq_mq (k : Fin 3) (q : Fin 19) : mq k (mq k q) = q := (C144_velocities k 0 q).2.1
theorem mq_rev (k : Fin 3) (q : Fin 19) : mq k (rev q) = rev (mq k q) := (C144_velocities k 0 q).2.2
theorem mq_vel (k a : Fin 3) (q : Fin 19) : vels a (mq k q) = if a = k then -vels a q else vels a q := (C144_velocities k a q).1
theorem mq_zero (k : Fin 3) : mq k 0 = 0 := by revert k; decide
theorem mq_eq_zero (k : Fin 3) (q : Fin 19) : mq k q = 0 ↔ q = 0 := by revert k q; decide

theorem flip_flip (k : Fin 3) (s : Site Nx Ny Nz) : flip k (flip k s) = s := by
  obtain ⟨a, b, c⟩ := s
  unfold flip
  fin_cases k <;> simp

/-- The reflection of the directions as a permutation. -/
def mqE (k : Fin 3) : Fin 19 ≃ Fin 19 := ⟨mq k, mq k, mq_mq k, mq_mq k⟩
/-- The reflection of the cells as a permutation. -/
def flipE (k : Fin 3) : Site Nx Ny Nz ≃ Site Nx Ny Nz := ⟨flip k, flip k, flip_flip k, flip_flip k⟩

theorem sum_mq {M : Type*} [AddCommMonoid M] (k : Fin 3) (g : Fin 19 → M) : ∑ q, g (mq k q) = ∑ q, g q := Equiv.sum_comp (mqE k) g
theorem sum_flip {M : Type*} [AddCommMonoid M] (k : Fin 3) (g : Site Nx Ny Nz → M) : ∑ s, g (flip k s) = ∑ s, g s := Equiv.sum_comp (flipE k) g

theorem exists_mq (k : Fin 3) (p : Fin 19 → Prop) : (∃ q, p (mq k q)) ↔ ∃ q, p q := ⟨fun ⟨q, h⟩ => ⟨_, h⟩, fun ⟨q, h⟩ => ⟨mq k q, by rwa [mq_mq]⟩⟩
theorem forall_mq (k : Fin 3) (p : Fin 19 → Prop) : (∀ q, p (mq k q)) ↔ ∀ q, p q := ⟨fun h q => by have := h (mq k q); rwa [mq_mq] at this, fun h q => h _⟩

theorem interior_flip (k : Fin 3) (s : Site Nx Ny Nz) : Interior (flip k s) ↔ Interior s := by
  obtain ⟨⟨a, ha⟩, ⟨b, hb⟩, ⟨c, hc⟩⟩ := s
  unfold Interior flip
  fin_cases k <;> simp [Fin.rev] <;> omega

section Local
variable {K : Type*} [Field K] [LinearOrder K]

theorem weights_mq (k : Fin 3) (q : Fin 19) : (weights (mq k q) : K) = weights q := by
  fin_cases k <;> fin_cases q <;> rfl

theorem sumQ_mq (k : Fin 3) (f : Fin 19 → K) : sumQ (fun q => f (mq k q)) = sumQ f := sum_mq k f

theorem mv_mv (k : Fin 3) (v : Fin 3 → K) : mv k (mv k v) = v := by
  funext a; unfold mv; split_ifs <;> simp

theorem velDot_mq (k : Fin 3) (q : Fin 19) (u : Fin 3 → K) : velDot q (mv k u) = velDot (mq k q) u := by
  unfold velDot mv
  refine sum_congr rfl fun a _ => ?_
  rw [mq_vel]
  split_ifs <;> push_cast <;> ring

theorem sq_mv (k : Fin 3) (u : Fin 3 → K) : ∑ a, mv k u a * mv k u a = ∑ a, u a * u a := by
  refine sum_congr rfl fun a _ => ?_
  unfold mv
  split_ifs <;> ring

theorem eqf_mq (k : Fin 3) (q : Fin 19) (rho : K) (u : Fin 3 → K) : equilibrium_f q rho (mv k u) = equilibrium_f (mq k q) rho u := by
  unfold equilibrium_f
  rw [velDot_mq, sq_mv, weights_mq]

theorem eqh_mq (P : Params K) (k : Fin 3) (q : Fin 19) (e T : K) (u : Fin 3 → K) : equilibrium_h P q e T (mv k u) = equilibrium_h P (mq k q) e T u := by
  unfold equilibrium_h
  rw [velDot_mq, sq_mv, weights_mq]
  simp only [mq_eq_zero]

theorem mv_zero (k : Fin 3) : mv k (fun _ => (0 : K)) = fun _ => 0 := by
  funext a; unfold mv; simp

theorem forcing_mq (P : Params K) (k : Fin 3) (q : Fin 19) (u F : Fin 3 → K) : f_forcing P q (mv k u) (mv k F) = f_forcing P (mq k q) u F := by
  unfold f_forcing
  rw [velDot_mq, weights_mq]
  congr 1
  refine sum_congr rfl fun a _ => ?_
  rw [mq_vel]
  unfold mv
  split_ifs <;> push_cast <;> ring

theorem u_mq (P : Params K) (k : Fin 3) (f : Fin 19 → K) (rho T : K) (F : Fin 3 → K) : compute_u P (fun q => f (mq k q)) rho T (mv k F) = mv k (compute_u P f rho T F) := by
  funext a
  have hs : ∑ q, f (mq k q) * (vels a q : K) = if a = k then -∑ q, f q * (vels a q : K) else ∑ q, f q * (vels a q : K) := by
    rw [← sum_mq k fun q => f (mq k q) * (vels a q : K)]
    simp only [mq_mq, mq_vel]
    split_ifs
    · rw [← Finset.sum_neg_distrib]
      exact sum_congr rfl fun q _ => by push_cast; ring
    · rfl
  unfold compute_u
  dsimp only
  rw [hs]
  unfold mv
  dsimp only
  split_ifs <;> first | rfl | ring | simp

end Local

section Neighbours
variable [NeZero Nx] [NeZero Ny] [NeZero Nz]

theorem jaxIdx_rev {n : ℕ} [NeZero n] (i : Fin n) (v : ℤ) (h0 : 0 < i.1) (h1 : i.1 + 1 < n) (hv : -1 ≤ v ∧ v ≤ 1) : jaxIdx n (v + (i.rev.1 : ℤ)) = (jaxIdx n (-v + (i.1 : ℤ))).rev := by
  have hr : (i.rev.1 : ℤ) = n - 1 - i.1 := by rw [Fin.val_rev]; omega
  apply Fin.ext
  have a := jaxIdx_val (n := n) (i := v + (i.rev.1 : ℤ)) (by omega) (by omega)
  have b := jaxIdx_val (n := n) (i := -v + (i.1 : ℤ)) (by omega) (by omega)
  have c := Fin.val_rev (jaxIdx n (-v + (i.1 : ℤ)))
  omega

theorem nb_flip (k : Fin 3) (s : Site Nx Ny Nz) (hs : Interior s) (q : Fin 19) : nb q (flip k s) = flip k (nb (mq k q) s) := by
  obtain ⟨h0, h1, h2⟩ := hs
  have b := fun a => vels_bound a q
  unfold nb flip
  simp only [mq_vel]
  fin_cases k
  · simp [jaxIdx_rev s.1 _ h0.1 h0.2 (b 0), -Fin.val_rev]
  · simp [jaxIdx_rev s.2.1 _ h1.1 h1.2 (b 1), -Fin.val_rev]
  · simp [jaxIdx_rev s.2.2 _ h2.1 h2.2 (b 2), -Fin.val_rev]

end Neighbours

section Stages
variable [NeZero Nx] [NeZero Ny] [NeZero Nz] {K : Type*} [Field K] [LinearOrder K]

theorem update_f_flip (k : Fin 3) (f : Site Nx Ny Nz → Fin 19 → K) (rho : Site Nx Ny Nz → K) (u : Site Nx Ny Nz → Fin 3 → K) (phase : Site Nx Ny Nz → ℕ) (mass vof : Site Nx Ny Nz → K) (hw : Walled phase) (s : Site Nx Ny Nz) :
    update_f (fun s q => f (flip k s) (mq k q)) (fun s => rho (flip k s)) (fun s => mv k (u (flip k s))) (fun s => phase (flip k s)) (fun s => mass (flip k s)) (fun s => vof (flip k s)) s =
      (fun q => (update_f f rho u phase mass vof (flip k s)).1 (mq k q), (update_f f rho u phase mass vof (flip k s)).2) := by
  unfold update_f extractIncome extractLocal
  simp only [nb_zero]
  by_cases hi : Interior s
  · have hn : ∀ q, flip k (nb q s) = nb (mq k q) (flip k s) := fun q => by
      have := nb_flip k s hi (mq k q)
      rw [mq_mq] at this
      exact this.symm
    simp only [hn, eqf_mq, mq_rev]
    by_cases h1 : phase (flip k s) = GAS ∨ phase (flip k s) = WALL
    · simp only [if_pos h1]
    · simp only [if_neg h1]
      by_cases h2 : phase (flip k s) = LIQUID
      · simp only [if_pos h2]
      · simp only [if_neg h2]
        refine Prod.ext rfl ?_
        dsimp only
        congr 1
        exact sum_mq k fun q => if phase (nb q (flip k s)) = LIQUID then f (nb q (flip k s)) (rev q) - f (flip k s) q else if phase (nb q (flip k s)) = LG then (f (nb q (flip k s)) (rev q) - f (flip k s) q) * (vof (nb q (flip k s)) + vof (flip k s)) / 2 else 0
  · have h1 : phase (flip k s) = GAS ∨ phase (flip k s) = WALL := Or.inr (hw _ (mt (interior_flip k s).mp hi))
    simp only [if_pos h1]

theorem update_h_flip (P : Params K) (k : Fin 3) (h : Site Nx Ny Nz → Fin 19 → K) (phase : Site Nx Ny Nz → ℕ) (hw : Walled phase) (s : Site Nx Ny Nz) (q : Fin 19) :
    update_h P (fun s q => h (flip k s) (mq k q)) (fun s => phase (flip k s)) s q = update_h P h phase (flip k s) (mq k q) := by
  unfold update_h extractIncome extractLocal
  simp only [nb_zero]
  by_cases hi : Interior s
  · have hn : ∀ q, flip k (nb q s) = nb (mq k q) (flip k s) := fun q => by
      have := nb_flip k s hi (mq k q)
      rw [mq_mq] at this
      exact this.symm
    have he := eqh_mq P k q (T0 * P.heat_capacity) T0 (fun _ => 0)
    rw [mv_zero] at he
    simp only [hn, mq_rev, he]
  · have h1 : phase (flip k s) = GAS ∨ phase (flip k s) = WALL := Or.inr (hw _ (mt (interior_flip k s).mp hi))
    simp only [if_pos h1]

theorem gas_to_lg_flip (P : Params K) (k : Fin 3) (f h : Site Nx Ny Nz → Fin 19 → K) (rho : Site Nx Ny Nz → K) (u : Site Nx Ny Nz → Fin 3 → K) (e T : Site Nx Ny Nz → K) (phase : Site Nx Ny Nz → ℕ) (mass : Site Nx Ny Nz → K) (hw : Walled phase) (s : Site Nx Ny Nz) :
    reini_gas_to_lg P (fun s q => f (flip k s) (mq k q)) (fun s q => h (flip k s) (mq k q)) (fun s => rho (flip k s)) (fun s => mv k (u (flip k s))) (fun s => e (flip k s)) (fun s => T (flip k s)) (fun s => phase (flip k s)) (fun s => mass (flip k s)) s =
      (fun q => (reini_gas_to_lg P f h rho u e T phase mass (flip k s)).1 (mq k q), fun q => (reini_gas_to_lg P f h rho u e T phase mass (flip k s)).2.1 (mq k q), (reini_gas_to_lg P f h rho u e T phase mass (flip k s)).2.2.1, (reini_gas_to_lg P f h rho u e T phase mass (flip k s)).2.2.2) := by
  unfold reini_gas_to_lg extractLocal
  simp only [nb_zero]
  by_cases hi : Interior s
  · have hn : ∀ q, flip k (nb q s) = nb (mq k q) (flip k s) := fun q => by
      have := nb_flip k s hi (mq k q)
      rw [mq_mq] at this
      exact this.symm
    simp only [hn]
    have hex : (∃ q : Fin 19, q ≠ 0 ∧ phase (nb (mq k q) (flip k s)) = LIQUID) ↔ ∃ q : Fin 19, q ≠ 0 ∧ phase (nb q (flip k s)) = LIQUID := by
      rw [← exists_mq k fun q : Fin 19 => q ≠ 0 ∧ phase (nb q (flip k s)) = LIQUID]
      simp only [ne_eq, mq_eq_zero]
    have hsum : ∀ g : Site Nx Ny Nz → K, ∑ q : Fin 19, (if phase (nb (mq k q) (flip k s)) = LIQUID ∨ phase (nb (mq k q) (flip k s)) = LG then (1 : K) else 0) * g (nb (mq k q) (flip k s)) = ∑ q : Fin 19, (if phase (nb q (flip k s)) = LIQUID ∨ phase (nb q (flip k s)) = LG then (1 : K) else 0) * g (nb q (flip k s)) := fun g =>
      sum_mq k fun q => (if phase (nb q (flip k s)) = LIQUID ∨ phase (nb q (flip k s)) = LG then (1 : K) else 0) * g (nb q (flip k s))
    have hnum : ∑ q : Fin 19, (if phase (nb (mq k q) (flip k s)) = LIQUID ∨ phase (nb (mq k q) (flip k s)) = LG then (1 : K) else 0) = ∑ q : Fin 19, (if phase (nb q (flip k s)) = LIQUID ∨ phase (nb q (flip k s)) = LG then (1 : K) else 0) :=
      sum_mq k fun q => (if phase (nb q (flip k s)) = LIQUID ∨ phase (nb q (flip k s)) = LG then (1 : K) else 0)
    by_cases hc : phase (flip k s) = GAS ∧ ∃ q : Fin 19, q ≠ 0 ∧ phase (nb q (flip k s)) = LIQUID
    · have hc' : phase (flip k s) = GAS ∧ ∃ q : Fin 19, q ≠ 0 ∧ phase (nb (mq k q) (flip k s)) = LIQUID := ⟨hc.1, hex.mpr hc.2⟩
      simp only [if_pos hc, if_pos hc', hnum]
      have hu : (fun a => (∑ q : Fin 19, (if phase (nb (mq k q) (flip k s)) = LIQUID ∨ phase (nb (mq k q) (flip k s)) = LG then (1 : K) else 0) * mv k (u (nb (mq k q) (flip k s))) a) / ∑ q : Fin 19, (if phase (nb q (flip k s)) = LIQUID ∨ phase (nb q (flip k s)) = LG then (1 : K) else 0)) =
          mv k fun a => (∑ q : Fin 19, (if phase (nb q (flip k s)) = LIQUID ∨ phase (nb q (flip k s)) = LG then (1 : K) else 0) * u (nb q (flip k s)) a) / ∑ q : Fin 19, (if phase (nb q (flip k s)) = LIQUID ∨ phase (nb q (flip k s)) = LG then (1 : K) else 0) := by
        funext a
        unfold mv
        by_cases ha : a = k
        · simp only [if_pos ha]
          rw [hsum fun t => -u t a, ← neg_div, ← Finset.sum_neg_distrib]
          simp only [mul_neg]
        · simp only [if_neg ha]
          rw [hsum fun t => u t a]
      rw [hsum rho, hsum e, hsum T, hu]
      simp only [eqf_mq, eqh_mq]
    · have hc' : ¬ (phase (flip k s) = GAS ∧ ∃ q : Fin 19, q ≠ 0 ∧ phase (nb (mq k q) (flip k s)) = LIQUID) := fun h => hc ⟨h.1, hex.mp h.2⟩
      simp only [if_neg hc, if_neg hc']
  · have h1 : phase (flip k s) = WALL := hw _ (mt (interior_flip k s).mp hi)
    have hne : ∀ p : Prop, ¬ (phase (flip k s) = GAS ∧ p) := fun p h => by rw [h1] at h; exact absurd h.1 (by decide)
    simp only [if_neg (hne _)]

theorem liquid_to_lg_flip (k : Fin 3) (f : Site Nx Ny Nz → Fin 19 → K) (phase : Site Nx Ny Nz → ℕ) (mass : Site Nx Ny Nz → K) (hw : Walled phase) (s : Site Nx Ny Nz) :
    reini_liquid_to_lg (fun s q => f (flip k s) (mq k q)) (fun s => phase (flip k s)) (fun s => mass (flip k s)) s = reini_liquid_to_lg f phase mass (flip k s) := by
  unfold reini_liquid_to_lg extractLocal
  simp only [nb_zero, sumQ_mq]
  by_cases hi : Interior s
  · have hn : ∀ q, flip k (nb q s) = nb (mq k q) (flip k s) := fun q => by
      have := nb_flip k s hi (mq k q)
      rw [mq_mq] at this
      exact this.symm
    simp only [hn]
    have hex : (∃ q : Fin 19, q ≠ 0 ∧ phase (nb (mq k q) (flip k s)) = GAS) ↔ ∃ q : Fin 19, q ≠ 0 ∧ phase (nb q (flip k s)) = GAS := by
      rw [← exists_mq k fun q : Fin 19 => q ≠ 0 ∧ phase (nb q (flip k s)) = GAS]
      simp only [ne_eq, mq_eq_zero]
    by_cases hc : phase (flip k s) = LIQUID ∧ ∃ q : Fin 19, q ≠ 0 ∧ phase (nb q (flip k s)) = GAS
    · rw [if_pos hc, if_pos ⟨hc.1, hex.mpr hc.2⟩]
    · rw [if_neg hc, if_neg fun h => hc ⟨h.1, hex.mp h.2⟩]
  · have h1 : phase (flip k s) = WALL := hw _ (mt (interior_flip k s).mp hi)
    have hne : ∀ p : Prop, ¬ (phase (flip k s) = LIQUID ∧ p) := fun p h => by rw [h1] at h; exact absurd h.1 (by decide)
    rw [if_neg (hne _), if_neg (hne _)]

omit K [Field K] [LinearOrder K] in
theorem adhoc_flip (k : Fin 3) (phase : Site Nx Ny Nz → ℕ) (hw : Walled phase) (s : Site Nx Ny Nz) : adhoc_step (fun s => phase (flip k s)) s = adhoc_step phase (flip k s) := by
  unfold adhoc_step extractLocal
  simp only [nb_zero]
  by_cases hi : Interior s
  · have hn : ∀ q, flip k (nb q s) = nb (mq k q) (flip k s) := fun q => by
      have := nb_flip k s hi (mq k q)
      rw [mq_mq] at this
      exact this.symm
    simp only [hn]
    have hall : ∀ p : ℕ → Prop, (∀ q : Fin 19, q ≠ 0 → p (phase (nb (mq k q) (flip k s)))) ↔ ∀ q : Fin 19, q ≠ 0 → p (phase (nb q (flip k s))) := fun p => by
      rw [← forall_mq k fun q : Fin 19 => q ≠ 0 → p (phase (nb q (flip k s)))]
      simp only [ne_eq, mq_eq_zero]
    have h1 := hall fun x => x = WALL ∨ x = GAS ∨ x = LG
    have h2 := hall fun x => x = WALL ∨ x = LIQUID ∨ x = LG
    simp only [h1, h2]
  · have h1 : phase (flip k s) = WALL := hw _ (mt (interior_flip k s).mp hi)
    have hne : ∀ p : Prop, ¬ (phase (flip k s) = LG ∧ p) := fun p h => by rw [h1] at h; exact absurd h.1 (by decide)
    simp only [if_neg (hne _)]

end Stages

section Step
variable [NeZero Nx] [NeZero Ny] [NeZero Nz] {K : Type*} [Field K] [LinearOrder K]

/-- The mirror image of the macroscopic fields. -/
def mirrorMacro (k : Fin 3) (M : Macro K Nx Ny Nz) : Macro K Nx Ny Nz :=
  ⟨fun s => M.rho (flip k s), fun s => M.enthalpy (flip k s), fun s => M.T (flip k s), fun s => M.vof (flip k s), fun s => mv k (M.u (flip k s))⟩

theorem startH_flip (P : Params K) (fo : Bool) (k : Fin 3) (h : Site Nx Ny Nz → Fin 19 → K) (s : Site Nx Ny Nz) (q : Fin 19) : startH P fo (fun s q => h (flip k s) (mq k q)) s q = startH P fo h (flip k s) (mq k q) := by
  unfold startH
  cases fo
  · rfl
  · simp [weights_mq]

theorem macroscopic_mirror (P : Params K) (fo : Bool) (k : Fin 3) (src : Source K Nx Ny Nz) (S : State K Nx Ny Nz) : macroscopic P fo (mirrorSrc k src) (mirror k S) = mirrorMacro k (macroscopic P fo src S) := by
  have hh : ∀ s, sumQ (startH P fo (mirror k S).h s) = sumQ (startH P fo S.h (flip k s)) := fun s => by
    rw [← sumQ_mq k (startH P fo S.h (flip k s))]
    exact congrArg sumQ (funext fun q => startH_flip P fo k S.h s q)
  have hr : ∀ s, sumQ ((mirror k S).f s) = sumQ (S.f (flip k s)) := fun s => sumQ_mq k (S.f (flip k s))
  unfold macroscopic mirrorMacro
  simp only [hh, hr]
  congr 1
  funext s
  exact u_mq P k (S.f (flip k s)) _ _ _

theorem collide_f_flip (P : Params K) (k : Fin 3) (ph : ℕ) (f : Fin 19 → K) (rho T : K) (u F : Fin 3 → K) (q : Fin 19) : collide_f P ph (fun q => f (mq k q)) rho T (mv k u) (mv k F) q = collide_f P ph f rho T u F (mq k q) := by
  unfold collide_f
  rw [eqf_mq, forcing_mq, weights_mq]

theorem collide_h_flip (P : Params K) (k : Fin 3) (ph : ℕ) (h : Fin 19 → K) (e T rho : K) (u : Fin 3 → K) (src : K) (q : Fin 19) : collide_h P ph (fun q => h (mq k q)) e T rho (mv k u) src q = collide_h P ph h e T rho u src (mq k q) := by
  unfold collide_h h_forcing
  rw [eqh_mq, weights_mq]

theorem collideStream_mirror (P : Params K) (fo : Bool) (k : Fin 3) (src : Source K Nx Ny Nz) (S : State K Nx Ny Nz) (hw : Walled S.phase) : collideStream P fo (mirrorSrc k src) (mirror k S) = mirror k (collideStream P fo src S) := by
  have hf : (fun s => collide_f P ((mirror k S).phase s) ((mirror k S).f s) ((mirrorMacro k (macroscopic P fo src S)).rho s) ((mirrorMacro k (macroscopic P fo src S)).T s) ((mirrorMacro k (macroscopic P fo src S)).u s) ((mirrorSrc k src).F s)) =
      fun s q => (fun s => collide_f P (S.phase s) (S.f s) ((macroscopic P fo src S).rho s) ((macroscopic P fo src S).T s) ((macroscopic P fo src S).u s) (src.F s)) (flip k s) (mq k q) := by
    funext s q
    exact collide_f_flip P k _ _ _ _ _ _ q
  have hh : (fun s => collide_h P ((mirror k S).phase s) (startH P fo (mirror k S).h s) ((mirrorMacro k (macroscopic P fo src S)).enthalpy s) ((mirrorMacro k (macroscopic P fo src S)).T s) ((mirrorMacro k (macroscopic P fo src S)).rho s) ((mirrorMacro k (macroscopic P fo src S)).u s) ((mirrorSrc k src).Q s)) =
      fun s q => (fun s => collide_h P (S.phase s) (startH P fo S.h s) ((macroscopic P fo src S).enthalpy s) ((macroscopic P fo src S).T s) ((macroscopic P fo src S).rho s) ((macroscopic P fo src S).u s) (src.Q s)) (flip k s) (mq k q) := by
    funext s q
    have : startH P fo (mirror k S).h s = fun q => startH P fo S.h (flip k s) (mq k q) := funext fun q => startH_flip P fo k S.h s q
    rw [this]
    exact collide_h_flip P k _ _ _ _ _ _ _ q
  unfold collideStream
  dsimp only
  rw [macroscopic_mirror, hf, hh]
  clear hf hh
  generalize (fun s => collide_f P (S.phase s) (S.f s) ((macroscopic P fo src S).rho s) ((macroscopic P fo src S).T s) ((macroscopic P fo src S).u s) (src.F s)) = f1
  generalize (fun s => collide_h P (S.phase s) (startH P fo S.h s) ((macroscopic P fo src S).enthalpy s) ((macroscopic P fo src S).T s) ((macroscopic P fo src S).rho s) ((macroscopic P fo src S).u s) (src.Q s)) = h1
  generalize macroscopic P fo src S = M
  have hu := fun s => update_f_flip k f1 M.rho M.u S.phase S.mass M.vof hw s
  have hq := fun s q => update_h_flip P k h1 S.phase hw s q
  unfold mirror mirrorMacro
  simp only [hu]
  congr 1
  funext s q
  exact hq s q

theorem step_mirror (P : Params K) (fo : Bool) (tm : K) (k : Fin 3) (src : Source K Nx Ny Nz) (S : State K Nx Ny Nz) (hw : Walled S.phase) : step P fo tm (mirrorSrc k src) (mirror k S) = mirror k (step P fo tm src S) := by
  have nw : WALL ≠ LG ∧ WALL ≠ GAS ∧ WALL ≠ LIQUID := by decide
  unfold step
  dsimp only
  rw [collideStream_mirror P fo k src S hw, macroscopic_mirror]
  have w2 : Walled (collideStream P fo src S).phase := hw
  generalize collideStream P fo src S = S2 at *
  generalize macroscopic P fo src S = M
  have e3 : lgToLiquid (mirror k S2) = mirror k (lgToLiquid S2) := by
    unfold lgToLiquid mirror reini_lg_to_liquid
    simp only [sumQ_mq]
  have w3 : Walled (lgToLiquid S2).phase := fun s hs => by
    show (if S2.phase s = LG ∧ _ then _ else S2.phase s) = _
    rw [w2 s hs, if_neg fun h => nw.1 h.1]
  rw [e3]
  generalize lgToLiquid S2 = S3 at *
  have e4 : gasToLg P (mirrorMacro k M) (mirror k S3) = mirror k (gasToLg P M S3) := by
    have := fun s => gas_to_lg_flip P k S3.f S3.h M.rho M.u M.enthalpy M.T S3.phase S3.mass w3 s
    unfold gasToLg mirror mirrorMacro
    simp only [this]
  have w4 : Walled (gasToLg P M S3).phase := fun s hs => by
    show (reini_gas_to_lg P S3.f S3.h M.rho M.u M.enthalpy M.T S3.phase S3.mass s).2.2.1 = WALL
    have hp := w3 s hs
    have hn : ¬ S3.phase s = GAS := fun h => nw.2.1 (hp.symm.trans h)
    unfold reini_gas_to_lg extractLocal
    simp only [nb_zero, hn, false_and, if_false]
    exact hp
  rw [e4]
  generalize gasToLg P M S3 = S4 at *
  have e5 : lgToGas (mirror k S4) = mirror k (lgToGas S4) := by
    unfold lgToGas mirror reini_lg_to_gas
    simp only [sumQ_mq]
  have w5 : Walled (lgToGas S4).phase := fun s hs => by
    show (if S4.phase s = LG ∧ _ then _ else S4.phase s) = _
    rw [w4 s hs, if_neg fun h => nw.1 h.1]
  rw [e5]
  generalize lgToGas S4 = S5 at *
  have e6 : liquidToLg (mirror k S5) = mirror k (liquidToLg S5) := by
    have := fun s => liquid_to_lg_flip k S5.f S5.phase S5.mass w5 s
    unfold liquidToLg mirror
    simp only [this]
  have w6 : Walled (liquidToLg S5).phase := fun s hs => by
    show (reini_liquid_to_lg S5.f S5.phase S5.mass s).1 = WALL
    have hp := w5 s hs
    have hn : ¬ S5.phase s = LIQUID := fun h => nw.2.2 (hp.symm.trans h)
    unfold reini_liquid_to_lg extractLocal
    simp only [nb_zero, hn, false_and, if_false]
    exact hp
  rw [e6]
  generalize liquidToLg S5 = S6 at *
  have e7 : adhoc (mirror k S6) = mirror k (adhoc S6) := by
    have := fun s => adhoc_flip k S6.phase w6 s
    unfold adhoc mirror
    congr 1
    funext s
    exact this s
  rw [e7]
  generalize adhoc S6 = S7
  have e8 : correctMass tm (mirror k S7) = mirror k (correctMass tm S7) := by
    have h1 : totalMass (mirror k S7).f (mirror k S7).phase (mirror k S7).mass = totalMass S7.f S7.phase S7.mass := by
      unfold totalMass
      rw [← sum_flip k fun s => cellMass (S7.f s) (S7.phase s) (S7.mass s)]
      refine sum_congr rfl fun s _ => ?_
      unfold cellMass mirror
      simp only [sumQ_mq]
    have h2 : (∑ s, if (mirror k S7).phase s = LG then (1 : K) else 0) = ∑ s, if S7.phase s = LG then (1 : K) else 0 := sum_flip k fun s => if S7.phase s = LG then (1 : K) else 0
    unfold correctMass
    dsimp only
    rw [h1, h2]
    rfl
  rw [e8]
  generalize correctMass tm S7 = S8
  have e9 : refreshAll (mirror k S8) = mirror k (refreshAll S8) := by
    have h : ∀ s, refresh ((mirror k S8).f s) ((mirror k S8).h s) ((mirror k S8).phase s) ((mirror k S8).mass s) = (fun q => (refresh (S8.f (flip k s)) (S8.h (flip k s)) (S8.phase (flip k s)) (S8.mass (flip k s))).1 (mq k q), fun q => (refresh (S8.f (flip k s)) (S8.h (flip k s)) (S8.phase (flip k s)) (S8.mass (flip k s))).2.1 (mq k q), (refresh (S8.f (flip k s)) (S8.h (flip k s)) (S8.phase (flip k s)) (S8.mass (flip k s))).2.2.1, (refresh (S8.f (flip k s)) (S8.h (flip k s)) (S8.phase (flip k s)) (S8.mass (flip k s))).2.2.2) := fun s => by
      unfold refresh mirror
      dsimp only
      split_ifs <;> rfl
    unfold refreshAll
    simp only [h]
    rfl
  rw [e9]
  rfl

/-- **C144 (one step).** If the outer layer is wall, a step with mirrored forces and heat sources takes the mirror image of a state to the mirror image of its successor, for each of the three mirror planes. -/
theorem C144_step (P : Params K) (fo : Bool) (tm : K) (k : Fin 3) (src : Source K Nx Ny Nz) (S : State K Nx Ny Nz) (hw : ∀ s, ¬ Interior s → S.phase s = WALL) :
    step P fo tm (mirrorSrc k src) (mirror k S) = mirror k (step P fo tm src S) := step_mirror P fo tm k src S hw

end Step

section Drive
variable [NeZero Nx] [NeZero Ny] [NeZero Nz]

theorem wrap_rev (n : ℕ) [NeZero n] (i : Fin n) (a : ℤ) : wrap n ((i.rev.1 : ℤ) + a) = (wrap n ((i.1 : ℤ) - a)).rev := by
  have hn : (0 : ℤ) < n := by exact_mod_cast NeZero.pos n
  apply Fin.ext
  have h1 := Int.emod_nonneg ((i.1 : ℤ) - a) hn.ne'
  have h2 := Int.emod_lt_of_pos ((i.1 : ℤ) - a) hn
  have h3 : ((i.rev.1 : ℤ) + a) % n = n - 1 - ((i.1 : ℤ) - a) % n := by
    have h4 : (i.rev.1 : ℤ) = n - 1 - i.1 := by rw [Fin.val_rev]; omega
    have h5 := Int.emod_add_mul_ediv ((i.1 : ℤ) - a) n
    have h6 : (i.rev.1 : ℤ) + a = (n - 1 - ((i.1 : ℤ) - a) % n) + n * (-(((i.1 : ℤ) - a) / n)) := by rw [h4]; linarith
    rw [h6, Int.add_mul_emod_self_left, Int.emod_eq_of_lt (by omega) (by omega)]
  have h7 : (wrap n ((i.rev.1 : ℤ) + a)).1 = (((i.rev.1 : ℤ) + a) % n).toNat := rfl
  have h8 : (wrap n ((i.1 : ℤ) - a)).1 = (((i.1 : ℤ) - a) % n).toNat := rfl
  rw [h7, h3, Fin.val_rev, h8]
  omega

/-- A component of an offset after reflection. -/
def sg (k j : Fin 3) (x : ℤ) : ℤ := if j = k then -x else x

theorem shift_flip (k : Fin 3) (a b c : ℤ) (s : Site Nx Ny Nz) : flip k (shift a b c s) = shift (sg k 0 a) (sg k 1 b) (sg k 2 c) (flip k s) := by
  have h : ∀ (n : ℕ) [NeZero n] (i : Fin n) (x : ℤ), (wrap n ((i.1 : ℤ) + x)).rev = wrap n ((i.rev.1 : ℤ) + -x) := fun n _ i x => by
    rw [wrap_rev, sub_neg_eq_add]
  unfold shift flip sg
  fin_cases k
  · exact Prod.ext (h Nx s.1 a) rfl
  · exact Prod.ext rfl (Prod.ext (h Ny s.2.1 b) rfl)
  · exact Prod.ext rfl (Prod.ext rfl (h Nz s.2.2 c))

/-- An index of a block after reflection. -/
def rv {n : ℕ} (k j : Fin 3) (a : Fin n) : Fin n := if j = k then a.rev else a

theorem sg_rv3 (k j : Fin 3) (a : Fin 3) : sg k j ((a : ℤ) - 1) = ((rv k j a : Fin 3) : ℤ) - 1 := by revert k j a; decide
theorem sg_rv7 (k j : Fin 3) (a : Fin 7) : sg k j ((a : ℤ) - 3) = ((rv k j a : Fin 7) : ℤ) - 3 := by revert k j a; decide

variable {α : Type*}
theorem grid333_flip (k : Fin 3) (s : Site Nx Ny Nz) (v : Site Nx Ny Nz → α) (a b c : Fin 3) : grid333 s (fun s => v (flip k s)) a b c = grid333 (flip k s) v (rv k 0 a) (rv k 1 b) (rv k 2 c) := by
  unfold grid333; dsimp only; rw [shift_flip, sg_rv3, sg_rv3, sg_rv3]
theorem grid733_flip (k : Fin 3) (s : Site Nx Ny Nz) (v : Site Nx Ny Nz → α) (a : Fin 7) (b c : Fin 3) : grid733 s (fun s => v (flip k s)) a b c = grid733 (flip k s) v (rv k 0 a) (rv k 1 b) (rv k 2 c) := by
  unfold grid733; dsimp only; rw [shift_flip, sg_rv7, sg_rv3, sg_rv3]
theorem grid373_flip (k : Fin 3) (s : Site Nx Ny Nz) (v : Site Nx Ny Nz → α) (a : Fin 3) (b : Fin 7) (c : Fin 3) : grid373 s (fun s => v (flip k s)) a b c = grid373 (flip k s) v (rv k 0 a) (rv k 1 b) (rv k 2 c) := by
  unfold grid373; dsimp only; rw [shift_flip, sg_rv3, sg_rv7, sg_rv3]
theorem grid337_flip (k : Fin 3) (s : Site Nx Ny Nz) (v : Site Nx Ny Nz → α) (a b : Fin 3) (c : Fin 7) : grid337 s (fun s => v (flip k s)) a b c = grid337 (flip k s) v (rv k 0 a) (rv k 1 b) (rv k 2 c) := by
  unfold grid337; dsimp only; rw [shift_flip, sg_rv3, sg_rv3, sg_rv7]

theorem centralGrad_rv (k : Fin 3) (g : Fin 3 → Fin 3 → Fin 3 → ℝ) : centralGrad (fun a b c => g (rv k 0 a) (rv k 1 b) (rv k 2 c)) = mv k (centralGrad g) := by
  have r : (0 : Fin 3).rev = 2 ∧ (1 : Fin 3).rev = 1 ∧ (2 : Fin 3).rev = 0 := by decide
  funext a
  unfold centralGrad mv rv
  fin_cases k <;> fin_cases a <;> simp [r] <;> ring

theorem curvature_rv (k i j : Fin 3) (H : Fin 3 → Fin 3 → ℝ) : curvature (fun a b => H (rv k i a) (rv k j b)) = curvature H := by
  have r : (0 : Fin 3).rev = 2 ∧ (1 : Fin 3).rev = 1 ∧ (2 : Fin 3).rev = 0 := by decide
  unfold curvature rv
  dsimp only
  by_cases h1 : i = k <;> by_cases h2 : j = k <;> simp only [h1, h2, if_true, if_false, r] <;> congr 1 <;> [ring; skip; ring; skip; ring; skip] <;> (congr 1; ring)

theorem sum_rv {n : ℕ} (k j : Fin 3) (g : Fin n → ℝ) : ∑ a, g (rv k j a) = ∑ a, g a := by
  unfold rv
  by_cases h : j = k
  · simp only [if_pos h]
    exact Equiv.sum_comp Fin.revPerm g
  · simp only [if_neg h]

theorem getPhi_flip (k : Fin 3) (vof : Site Nx Ny Nz → ℝ) (s : Site Nx Ny Nz) : getPhi (fun s => vof (flip k s)) s = mv k (getPhi vof (flip k s)) := by
  unfold getPhi
  rw [← centralGrad_rv]
  exact congrArg centralGrad (funext fun a => funext fun b => funext fun c => grid333_flip k s vof a b c)

theorem abs_mv (k a : Fin 3) (v : Fin 3 → ℝ) : |mv k v a| = |v a| := by
  unfold mv
  split_ifs
  · exact abs_neg _
  · rfl

theorem getKappa_flip (k : Fin 3) (vof : Site Nx Ny Nz → ℝ) (s : Site Nx Ny Nz) : getKappa (fun s => vof (flip k s)) s = getKappa vof (flip k s) := by
  have h1 : heights1 (fun s => vof (flip k s)) s = fun b c => heights1 vof (flip k s) (rv k 1 b) (rv k 2 c) := funext fun b => funext fun c => by
    unfold heights1
    simp only [grid733_flip]
    exact sum_rv k 0 fun a => grid733 (flip k s) vof a (rv k 1 b) (rv k 2 c)
  have h2 : heights2 (fun s => vof (flip k s)) s = fun a c => heights2 vof (flip k s) (rv k 0 a) (rv k 2 c) := funext fun a => funext fun c => by
    unfold heights2
    simp only [grid373_flip]
    exact sum_rv k 1 fun b => grid373 (flip k s) vof (rv k 0 a) b (rv k 2 c)
  have h3 : heights3 (fun s => vof (flip k s)) s = fun a b => heights3 vof (flip k s) (rv k 0 a) (rv k 1 b) := funext fun a => funext fun b => by
    unfold heights3
    simp only [grid337_flip]
    exact sum_rv k 2 fun c => grid337 (flip k s) vof (rv k 0 a) (rv k 1 b) c
  unfold getKappa
  rw [getPhi_flip, h1, h2, h3]
  simp only [abs_mv, curvature_rv]

theorem getTGrad_flip (k : Fin 3) (T : Site Nx Ny Nz → ℝ) (phase : Site Nx Ny Nz → ℕ) (s : Site Nx Ny Nz) : getTGrad (fun s => T (flip k s)) (fun s => phase (flip k s)) s = mv k (getTGrad T phase (flip k s)) := by
  have r : ∀ k j : Fin 3, rv k j (1 : Fin 3) = 1 := by decide
  unfold getTGrad
  dsimp only
  rw [← centralGrad_rv]
  refine congrArg centralGrad (funext fun a => funext fun b => funext fun c => ?_)
  simp only [grid333_flip, r]

theorem norm3_mv (k : Fin 3) (v : Fin 3 → ℝ) : norm3 (mv k v) = norm3 v := by
  unfold norm3
  congr 1
  refine sum_congr rfl fun a _ => ?_
  rw [← sq_abs, abs_mv, sq_abs]

theorem normal_mv (k : Fin 3) (v : Fin 3 → ℝ) : normal (mv k v) = mv k (normal v) := by
  funext a
  unfold normal
  rw [norm3_mv]
  unfold mv
  split_ifs
  · rw [neg_div]
  · rfl

theorem mv_dot (k : Fin 3) (v w : Fin 3 → ℝ) : ∑ b, mv k v b * mv k w b = ∑ b, v b * w b := by
  refine sum_congr rfl fun a _ => ?_
  unfold mv
  split_ifs <;> ring

theorem fSource_mv (G : ForceParams) (k : Fin 3) (hk : k ≠ 2 ∨ G.gravity = 0) (rho vof : ℝ) (phi : Fin 3 → ℝ) (kappa T : ℝ) (tg : Fin 3 → ℝ) : fSource G rho vof (mv k phi) kappa T (mv k tg) = mv k (fSource G rho vof phi kappa T tg) := by
  have hg : ∀ a, a = k → gVec G a = 0 := fun a h => by
    subst h
    unfold gVec
    rcases hk with h | h
    · fin_cases a
      · rfl
      · rfl
      · exact absurd rfl h
    · rw [h, neg_zero]
      fin_cases a <;> rfl
  funext a
  unfold fSource marangoni recoil
  rw [normal_mv, norm3_mv, mv_dot]
  unfold mv
  by_cases h : a = k
  · simp only [if_pos h, hg a h]; ring
  · simp only [if_neg h]

theorem qLaser_flip (G : ForceParams) (k : Fin 3) (s : Site Nx Ny Nz) (l : ℝ × ℝ × ℝ) :
    qLaser G ((s.1.1 : ℝ) + 1 / 2) ((s.2.1.1 : ℝ) + 1 / 2) (mirrorLaser Nx Ny k l).1 (mirrorLaser Nx Ny k l).2.1 (mirrorLaser Nx Ny k l).2.2 = qLaser G (((flip k s).1.1 : ℝ) + 1 / 2) (((flip k s).2.1.1 : ℝ) + 1 / 2) l.1 l.2.1 l.2.2 := by
  have hr : ∀ (n : ℕ) (i : Fin n) (x : ℝ), ((i.1 : ℝ) + 1 / 2 - (n - x)) ^ 2 = ((i.rev.1 : ℝ) + 1 / 2 - x) ^ 2 := fun n i x => by
    have : (i.rev.1 : ℝ) = n - 1 - i.1 := by
      rw [Fin.val_rev]
      have := i.2
      rw [Nat.cast_sub (by omega)]
      push_cast
      ring
    rw [this]; ring
  unfold qLaser mirrorLaser flip
  fin_cases k
  · have := hr Nx s.1 l.1
    simp only [Fin.zero_eta, Fin.isValue, if_true, show (0 : Fin 3) ≠ 1 by decide, if_false]
    rw [this]
  · have := hr Ny s.2.1 l.2.1
    simp only [Fin.mk_one, Fin.isValue, if_true, show (1 : Fin 3) ≠ 0 by decide, if_false]
    rw [this]
  · rfl

theorem hSource_flip (G : ForceParams) (k : Fin 3) (hk : k ≠ 2 ∨ G.laser_power = 0) (T vof : ℝ) (phi : Fin 3 → ℝ) (s : Site Nx Ny Nz) (l : ℝ × ℝ × ℝ) :
    hSource G T vof (mv k phi) ((s.1.1 : ℝ) + 1 / 2) ((s.2.1.1 : ℝ) + 1 / 2) (mirrorLaser Nx Ny k l).1 (mirrorLaser Nx Ny k l).2.1 (mirrorLaser Nx Ny k l).2.2 = hSource G T vof phi (((flip k s).1.1 : ℝ) + 1 / 2) (((flip k s).2.1.1 : ℝ) + 1 / 2) l.1 l.2.1 l.2.2 := by
  unfold hSource qLoss
  rw [norm3_mv, qLaser_flip]
  rcases hk with h | h
  · have : mv k phi 2 = phi 2 := if_neg (Ne.symm h)
    rw [this]
  · have : ∀ x y lx ly sw, qLaser G x y lx ly sw = 0 := fun x y lx ly sw => by unfold qLaser; rw [h]; ring
    simp only [this, mul_zero, zero_mul]

theorem drive_mirror (P : Params ℝ) (G : ForceParams) (fo : Bool) (k : Fin 3) (hg : k ≠ 2 ∨ G.gravity = 0) (hl : k ≠ 2 ∨ G.laser_power = 0) (l : ℝ × ℝ × ℝ) (S : State ℝ Nx Ny Nz) :
    drive P G fo (mirrorLaser Nx Ny k l) (mirror k S) = mirrorSrc k (drive P G fo l S) := by
  have hh : ∀ s, sumQ (startH P fo (mirror k S).h s) = sumQ (startH P fo S.h (flip k s)) := fun s => by
    rw [← sumQ_mq k (startH P fo S.h (flip k s))]
    exact congrArg sumQ (funext fun q => startH_flip P fo k S.h s q)
  have hr : ∀ s, sumQ ((mirror k S).f s) = sumQ (S.f (flip k s)) := fun s => sumQ_mq k (S.f (flip k s))
  unfold drive mirrorSrc
  dsimp only
  simp only [hh, hr]
  have p1 := fun s => getPhi_flip k (fun s => compute_vof (sumQ (S.f s)) (S.phase s) (S.mass s)) s
  have p2 := fun s => getKappa_flip k (fun s => compute_vof (sumQ (S.f s)) (S.phase s) (S.mass s)) s
  have p3 := fun s => getTGrad_flip k (fun s => compute_T P (sumQ (startH P fo S.h s))) S.phase s
  congr 1
  · funext s
    have q1 := p1 s; have q2 := p2 s; have q3 := p3 s
    rw [← fSource_mv G k hg, ← q1, ← q2, ← q3]
    rfl
  · funext s
    have q1 := p1 s
    rw [← hSource_flip G k hl, ← q1]
    rfl

end Drive

section Fluid
variable [NeZero Nx] [NeZero Ny] [NeZero Nz] {K : Type*} [Field K] [LinearOrder K]

/-- Two states with the same flow; the enthalpies may differ. -/
def SameFlow (S S' : State K Nx Ny Nz) : Prop := S.f = S'.f ∧ S.phase = S'.phase ∧ S.mass = S'.mass ∧ S.melted = S'.melted

theorem step_fluid (P : Params K) (tm : K) (src src' : Source K Nx Ny Nz) (S S' : State K Nx Ny Nz) (hF : src.F = src'.F) (h : SameFlow S S') : SameFlow (step P true tm src S) (step P true tm src' S') := by
  obtain ⟨f, h1, ph, m, ml⟩ := S
  obtain ⟨f', h1', ph', m', ml'⟩ := S'
  obtain ⟨e1, e2, e3, e4⟩ := h
  dsimp only at e1 e2 e3 e4
  subst e1 e2 e3 e4
  have hs : ∀ h h' : Site Nx Ny Nz → Fin 19 → K, startH P true h = startH P true h' := fun h h' => rfl
  have hM : macroscopic P true src ⟨f, h1, ph, m, ml⟩ = macroscopic P true src' ⟨f, h1', ph, m, ml⟩ := by
    unfold macroscopic
    dsimp only
    rw [hs h1 h1', hF]
  have hC : SameFlow (collideStream P true src ⟨f, h1, ph, m, ml⟩) (collideStream P true src' ⟨f, h1', ph, m, ml⟩) := by
    unfold collideStream SameFlow
    dsimp only
    rw [hM, hF]
    exact ⟨rfl, rfl, rfl, rfl⟩
  unfold step
  dsimp only
  rw [hM]
  generalize macroscopic P true src' ⟨f, h1', ph, m, ml⟩ = M
  generalize collideStream P true src ⟨f, h1, ph, m, ml⟩ = A at *
  generalize collideStream P true src' ⟨f, h1', ph, m, ml⟩ = B at *
  have s3 : ∀ A B : State K Nx Ny Nz, SameFlow A B → SameFlow (lgToLiquid A) (lgToLiquid B) := fun A B ⟨a, b, c, d⟩ => by
    unfold lgToLiquid; exact ⟨a, by dsimp only; rw [a, b, c], c, d⟩
  have s4 : ∀ A B : State K Nx Ny Nz, SameFlow A B → SameFlow (gasToLg P M A) (gasToLg P M B) := fun A B ⟨a, b, c, d⟩ => by
    have g : ∀ (f h h' : Site Nx Ny Nz → Fin 19 → K) (ph : Site Nx Ny Nz → ℕ) (m : Site Nx Ny Nz → K) (s : Site Nx Ny Nz), (reini_gas_to_lg P f h M.rho M.u M.enthalpy M.T ph m s).1 = (reini_gas_to_lg P f h' M.rho M.u M.enthalpy M.T ph m s).1 ∧ (reini_gas_to_lg P f h M.rho M.u M.enthalpy M.T ph m s).2.2 = (reini_gas_to_lg P f h' M.rho M.u M.enthalpy M.T ph m s).2.2 := fun f h h' ph m s => by
      unfold reini_gas_to_lg
      dsimp only
      split_ifs <;> exact ⟨rfl, rfl⟩
    unfold gasToLg SameFlow
    dsimp only
    rw [a, b, c]
    exact ⟨funext fun s => (g _ _ _ _ _ s).1, funext fun s => congrArg Prod.fst (g _ _ _ _ _ s).2, funext fun s => congrArg Prod.snd (g _ _ _ _ _ s).2, d⟩
  have s5 : ∀ A B : State K Nx Ny Nz, SameFlow A B → SameFlow (lgToGas A) (lgToGas B) := fun A B ⟨a, b, c, d⟩ => by
    unfold lgToGas; exact ⟨a, by dsimp only; rw [a, b, c], c, d⟩
  have s6 : ∀ A B : State K Nx Ny Nz, SameFlow A B → SameFlow (liquidToLg A) (liquidToLg B) := fun A B ⟨a, b, c, d⟩ => by
    unfold liquidToLg SameFlow; dsimp only; rw [a, b, c]; exact ⟨rfl, rfl, rfl, d⟩
  have s7 : ∀ A B : State K Nx Ny Nz, SameFlow A B → SameFlow (adhoc A) (adhoc B) := fun A B ⟨a, b, c, d⟩ => by
    unfold adhoc SameFlow; dsimp only; rw [b]; exact ⟨a, rfl, c, d⟩
  have s8 : ∀ A B : State K Nx Ny Nz, SameFlow A B → SameFlow (correctMass tm A) (correctMass tm B) := fun A B ⟨a, b, c, d⟩ => by
    unfold correctMass SameFlow; dsimp only; rw [a, b, c]; exact ⟨rfl, rfl, rfl, d⟩
  have s9 : ∀ A B : State K Nx Ny Nz, SameFlow A B → SameFlow (refreshAll A) (refreshAll B) := fun A B ⟨a, b, c, d⟩ => by
    have g : ∀ (f h h' : Fin 19 → K) (ph : ℕ) (m : K), (refresh f h ph m).1 = (refresh f h' ph m).1 ∧ (refresh f h ph m).2.2 = (refresh f h' ph m).2.2 := fun f h h' ph m => by
      unfold refresh
      split_ifs <;> exact ⟨rfl, rfl⟩
    unfold refreshAll SameFlow
    dsimp only
    rw [a, b, c]
    exact ⟨funext fun s => (g _ _ _ _ _).1, funext fun s => congrArg Prod.fst (g _ _ _ _ _).2, funext fun s => congrArg Prod.snd (g _ _ _ _ _).2, d⟩
  obtain ⟨a, b, c, d⟩ := s9 _ _ (s8 _ _ (s7 _ _ (s6 _ _ (s5 _ _ (s4 _ _ (s3 _ _ hC))))))
  unfold updateMelted
  refine ⟨a, b, c, ?_⟩
  dsimp only
  rw [d]

end Fluid

section Runs
variable [NeZero Nx] [NeZero Ny] [NeZero Nz]

theorem initState_mirror (P : Params ℝ) (k : Fin 3) (ph : Site Nx Ny Nz → ℕ) (hw : Walled ph) : initState P (fun s => ph (flip k s)) = (mirror k (initState P ph).1, (initState P ph).2) := by
  have h := fun s => gas_to_lg_flip P k (fun _ q => weights q * (rho0 : ℝ)) (fun _ q => weights q * (T0 * P.heat_capacity)) (fun _ => sumQ fun q => weights q * (rho0 : ℝ)) (fun _ _ => (0 : ℝ)) (fun _ => sumQ fun q => weights q * (T0 * P.heat_capacity)) (fun _ => compute_T P (sumQ fun q => weights q * (T0 * P.heat_capacity))) ph (fun _ => sumQ fun q => weights q * (rho0 : ℝ)) hw s
  simp only [weights_mq, mv_zero] at h
  have e1 : (initState P fun s => ph (flip k s)).1 = mirror k (initState P ph).1 := by
    unfold initState mirror
    simp only [h, sumQ_mq]
  have e2 : ∀ p : Site Nx Ny Nz → ℕ, (initState P p).2 = totalMass (initState P p).1.f (initState P p).1.phase (initState P p).1.mass := fun p => rfl
  refine Prod.ext e1 ?_
  rw [e2, e1]
  dsimp only
  rw [e2]
  unfold totalMass
  rw [← sum_flip k fun s => cellMass ((initState P ph).1.f s) ((initState P ph).1.phase s) ((initState P ph).1.mass s)]
  refine sum_congr rfl fun s _ => ?_
  unfold cellMass mirror
  simp only [sumQ_mq]

theorem simulation_append (P : Params ℝ) (G : ForceParams) (fo : Bool) (ph : Site Nx Ny Nz → ℕ) (path : List (ℝ × ℝ × ℝ)) (l : ℝ × ℝ × ℝ) : simulation P G fo ph (path ++ [l]) = step P fo (initState P ph).2 (drive P G fo l (simulation P G fo ph path)) (simulation P G fo ph path) := by
  unfold simulation drivenRun
  rw [List.foldl_append]
  rfl

/-- **C144 (runs).** If the outer layer of the initial phases is wall, the run for the mirrored initial phases and the mirrored laser path is the mirror image of the run. This holds for both vertical mirror planes, and for the horizontal one without gravity and without laser. -/
theorem C144_run (P : Params ℝ) (G : ForceParams) (fo : Bool) (k : Fin 3) (hk : k ≠ 2 ∨ (G.gravity = 0 ∧ G.laser_power = 0)) (ph : Site Nx Ny Nz → ℕ) (hw : ∀ s, ¬ Interior s → ph s = WALL) (path : List (ℝ × ℝ × ℝ)) :
    simulation P G fo (fun s => ph (flip k s)) (path.map (mirrorLaser Nx Ny k)) = mirror k (simulation P G fo ph path) := by
  induction path using List.reverseRecOn with
  | nil =>
    show (initState P fun s => ph (flip k s)).1 = _
    rw [initState_mirror P k ph hw]
    rfl
  | append_singleton path l ih =>
    rw [List.map_append, List.map_singleton, simulation_append, simulation_append, ih, drive_mirror P G fo k (hk.imp_right And.left) (hk.imp_right And.right), initState_mirror P k ph hw]
    exact C144_step P fo _ k _ _ fun s hs => ((C78_driven P G fo ph path).2.1 s).mpr (hw s hs)

/-- **C144 (flow only).** With the option `fluid_only` the flow does not depend on the laser path, only on its length, nor on the parameters of the heat source. -/
theorem C144_fluid_only (P : Params ℝ) (G G' : ForceParams) (hG : ∀ rho vof phi kappa T tg, fSource G rho vof phi kappa T tg = fSource G' rho vof phi kappa T tg) (ph : Site Nx Ny Nz → ℕ) (path path' : List (ℝ × ℝ × ℝ)) (hl : path.length = path'.length) :
    let S := simulation P G true ph path
    let S' := simulation P G' true ph path'
    S.f = S'.f ∧ S.phase = S'.phase ∧ S.mass = S'.mass ∧ S.melted = S'.melted := by
  show SameFlow _ _
  induction path using List.reverseRecOn generalizing path' with
  | nil =>
    rw [List.length_eq_zero_iff.mp hl.symm]
    have e : ∀ G : ForceParams, simulation P G true ph [] = (initState P ph).1 := fun _ => rfl
    rw [e, e]
    exact ⟨rfl, rfl, rfl, rfl⟩
  | append_singleton path l ih =>
    cases path' using List.reverseRecOn with
    | nil => simp at hl
    | append_singleton path' l' =>
      rw [List.length_append, List.length_append] at hl
      have hs := ih path' (by simpa using hl)
      rw [simulation_append, simulation_append]
      refine step_fluid P _ _ _ _ _ ?_ hs
      obtain ⟨a, b, c, _⟩ := hs
      have h0 : ∀ h h' : Site Nx Ny Nz → Fin 19 → ℝ, startH P true h = startH P true h' := fun h h' => rfl
      unfold drive
      dsimp only
      rw [a, b, c, h0 _ (simulation P G' true ph path').h]
      exact funext fun s => hG _ _ _ _ _ _

/-- Number of cells along an axis. -/
def cells (Nx Ny Nz : ℕ) : Fin 3 → ℕ := ![Nx, Ny, Nz]

/-- The flow is its own mirror image. -/
def SymmetricFlow (k : Fin 3) (S : State ℝ Nx Ny Nz) : Prop :=
  (∀ s q, S.f (flip k s) (mq k q) = S.f s q) ∧ (∀ s, S.phase (flip k s) = S.phase s) ∧ ∀ s, S.mass (flip k s) = S.mass s

omit [NeZero Nx] [NeZero Ny] [NeZero Nz] in
theorem centre_flip (k : Fin 3) (s : Site Nx Ny Nz) : Start.centre (flip k s) k = cells Nx Ny Nz k - Start.centre s k := by
  have hr : ∀ (n : ℕ) (i : Fin n), ((i.rev.1 : ℕ) : ℝ) + 1 / 2 = n - (i.1 + 1 / 2) := fun n i => by
    rw [Fin.val_rev]
    have := i.2
    rw [Nat.cast_sub (by omega)]
    push_cast
    ring
  fin_cases k
  · exact hr Nx s.1
  · exact hr Ny s.2.1
  · exact hr Nz s.2.2

omit [NeZero Nx] [NeZero Ny] [NeZero Nz] in
/-- **C144 (balance).** A flow that is its own mirror image has no momentum across the mirror plane, and its centre of mass lies in that plane. -/
theorem C144_balance (k : Fin 3) (S : State ℝ Nx Ny Nz) (hS : SymmetricFlow k S) :
    (∑ s, (if S.phase s = LIQUID ∨ S.phase s = LG then ∑ q, (vels k q : ℝ) * S.f s q else 0)) = 0 ∧
    (∑ s, cellMass (S.f s) (S.phase s) (S.mass s) * (Start.centre s k - cells Nx Ny Nz k / 2)) = 0 := by
  obtain ⟨h1, h2, h3⟩ := hS
  have odd : ∀ g : Site Nx Ny Nz → ℝ, (∀ s, g (flip k s) = -g s) → ∑ s, g s = 0 := fun g hg => by
    have e := sum_flip k g
    simp only [hg, sum_neg_distrib] at e
    linarith
  refine ⟨odd _ fun s => ?_, odd _ fun s => ?_⟩
  · rw [h2]
    by_cases h : S.phase s = LIQUID ∨ S.phase s = LG
    · rw [if_pos h, if_pos h, ← sum_mq k, ← sum_neg_distrib]
      refine sum_congr rfl fun q _ => ?_
      rw [h1, mq_vel, if_pos rfl]
      push_cast
      ring
    · rw [if_neg h, if_neg h, neg_zero]
  · have e : sumQ (S.f (flip k s)) = sumQ (S.f s) := by
      rw [← sumQ_mq k]
      exact congrArg sumQ (funext fun q => h1 s q)
    unfold cellMass
    rw [h2, h3, e, centre_flip]
    ring

/-- **C144 (symmetric runs).** Symmetric initial phases and a laser that stays in the vertical mirror plane give a symmetric state at all times, temperatures included. -/
theorem C144_symmetric (P : Params ℝ) (G : ForceParams) (fo : Bool) (k : Fin 3) (hk : k ≠ 2 ∨ (G.gravity = 0 ∧ G.laser_power = 0)) (ph : Site Nx Ny Nz → ℕ) (hw : ∀ s, ¬ Interior s → ph s = WALL) (hp : ∀ s, ph (flip k s) = ph s) (path : List (ℝ × ℝ × ℝ)) (hl : ∀ l ∈ path, (k = 0 → l.1 = Nx / 2) ∧ (k = 1 → l.2.1 = Ny / 2)) :
    let S := simulation P G fo ph path
    SymmetricFlow k S ∧ (∀ s q, S.h (flip k s) (mq k q) = S.h s q) ∧ ∀ s, S.melted (flip k s) = S.melted s := by
  intro S
  have hm : path.map (mirrorLaser Nx Ny k) = path := by
    conv_rhs => rw [← List.map_id path]
    refine List.map_congr_left fun l hlm => ?_
    obtain ⟨a, b⟩ := hl l hlm
    unfold mirrorLaser
    refine Prod.ext ?_ (Prod.ext ?_ rfl)
    · show (if k = 0 then (Nx : ℝ) - l.1 else l.1) = l.1
      split_ifs with h
      · rw [a h]; ring
      · rfl
    · show (if k = 1 then (Ny : ℝ) - l.2.1 else l.2.1) = l.2.1
      split_ifs with h
      · rw [b h]; ring
      · rfl
  have hr := C144_run P G fo k hk ph hw path
  rw [hm, funext hp] at hr
  change S = mirror k S at hr
  refine ⟨⟨fun s q => ?_, fun s => ?_, fun s => ?_⟩, fun s q => ?_, fun s => ?_⟩
  · exact (congrFun (congrFun (congrArg State.f hr) s) q).symm
  · exact (congrFun (congrArg State.phase hr) s).symm
  · exact (congrFun (congrArg State.mass hr) s).symm
  · exact (congrFun (congrFun (congrArg State.h hr) s) q).symm
  · exact (congrFun (congrArg State.melted hr) s).symm

/-- **C144 (symmetric flows).** With the option `fluid_only` symmetric initial phases give a symmetric flow at all times, whatever the laser does; for the horizontal mirror plane only without gravity. -/
theorem C144_symmetric_flow (P : Params ℝ) (G : ForceParams) (k : Fin 3) (hk : k ≠ 2 ∨ G.gravity = 0) (ph : Site Nx Ny Nz → ℕ) (hw : ∀ s, ¬ Interior s → ph s = WALL) (hp : ∀ s, ph (flip k s) = ph s) (path : List (ℝ × ℝ × ℝ)) :
    SymmetricFlow k (simulation P G true ph path) := by
  obtain ⟨a, b, c, _⟩ := C144_fluid_only P G { G with laser_power := 0 } (fun _ _ _ _ _ _ => rfl) ph path (path.map fun _ => ((Nx : ℝ) / 2, (Ny : ℝ) / 2, (0 : ℝ))) (by simp)
  have hs := (C144_symmetric P { G with laser_power := 0 } true k (hk.imp_right fun h => ⟨h, rfl⟩) ph hw hp (path.map fun _ => ((Nx : ℝ) / 2, (Ny : ℝ) / 2, (0 : ℝ))) fun l hl => by
    obtain ⟨_, _, rfl⟩ := List.mem_map.mp hl
    exact ⟨fun _ => rfl, fun _ => rfl⟩).1
  unfold SymmetricFlow at *
  rw [a, b, c]
  exact hs

omit [NeZero Nx] [NeZero Ny] [NeZero Nz] in
theorem initialPhase_flip (k : Fin 3) (flag : (Fin 3 → ℝ) → Prop) (hf : ∀ s : Site Nx Ny Nz, flag (Start.centre (flip k s)) ↔ flag (Start.centre s)) (s : Site Nx Ny Nz) : Start.initialPhase Nx Ny Nz flag (flip k s) = Start.initialPhase Nx Ny Nz flag s := by
  obtain ⟨a1, a2, a3⟩ := Start.C143_phase flag s
  obtain ⟨b1, b2, b3⟩ := Start.C143_phase flag (flip k s)
  by_cases hi : Interior s
  · have hi' := (interior_flip k s).mpr hi
    by_cases h : flag (Start.centre s)
    · rw [a2 hi h, b2 hi' ((hf s).mpr h)]
    · rw [a3 hi h, b3 hi' fun h' => h ((hf s).mp h')]
  · rw [a1 hi, b1 fun h => hi ((interior_flip k s).mp h)]

omit [NeZero Nx] [NeZero Ny] [NeZero Nz] in
theorem centre_flip' (k a : Fin 3) (s : Site Nx Ny Nz) : Start.centre (flip k s) a = if a = k then cells Nx Ny Nz a - Start.centre s a else Start.centre s a := by
  split_ifs with h
  · rw [h]; exact centre_flip k s
  · unfold Start.centre flip
    fin_cases k <;> fin_cases a <;> first | rfl | exact absurd rfl h

/-- **C144 (programs).** In the free-fall program the flow is symmetric at all times with respect to both vertical planes through the middle of the box; in the surface-tension program, which has no gravity, also with respect to the horizontal one. So in the former the liquid never gets momentum in a horizontal direction, and in the latter its centre of mass stays in the middle of the box. -/
theorem C144_programs (P : Params ℝ) (G : ForceParams) (path : List (ℝ × ℝ × ℝ)) (k : Fin 3) :
    (k ≠ 2 → SymmetricFlow k (simulation P G true (Start.initialPhase Nx Ny Nz (Start.fallFlag Nx Ny Nz)) path)) ∧
    (k ≠ 2 ∨ G.gravity = 0 → SymmetricFlow k (simulation P G true (Start.initialPhase Nx Ny Nz (Start.dropFlag Nx Ny Nz)) path)) := by
  refine ⟨fun h => C144_symmetric_flow P G k (Or.inl h) _ (fun s hs => (Start.C143_phase _ s).1 hs) (initialPhase_flip k _ fun s => ?_) path, fun h => C144_symmetric_flow P G k h _ (fun s hs => (Start.C143_phase _ s).1 hs) (initialPhase_flip k _ fun s => ?_) path⟩
  · have c0 := centre_flip' k 0 s
    have c1 := centre_flip' k 1 s
    have c2 := centre_flip' k 2 s
    rw [if_neg (Ne.symm h)] at c2
    unfold Start.fallFlag
    rw [c0, c1, c2]
    refine and_congr (and_congr ?_ ?_) Iff.rfl
    · split_ifs
      · show _ > _ ∧ ((Nx : ℝ) - _ < _) ↔ _
        exact ⟨fun ⟨a, b⟩ => ⟨by linarith, by have : (Nx : ℝ) - Start.centre s 0 > 0.2 * Nx := a; linarith⟩, fun ⟨a, b⟩ => ⟨by show (Nx : ℝ) - Start.centre s 0 > 0.2 * Nx; linarith, by linarith⟩⟩
      · rfl
    · split_ifs
      · exact ⟨fun ⟨a, b⟩ => ⟨by have : (Ny : ℝ) - Start.centre s 1 < 0.8 * Ny := b; linarith, by have : (Ny : ℝ) - Start.centre s 1 > 0.2 * Ny := a; linarith⟩, fun ⟨a, b⟩ => ⟨by show (Ny : ℝ) - Start.centre s 1 > 0.2 * Ny; linarith, by show (Ny : ℝ) - Start.centre s 1 < 0.8 * Ny; linarith⟩⟩
      · rfl
  · have cc := fun a => centre_flip' k a s
    unfold Start.dropFlag
    rw [cc 0, cc 1, cc 2]
    have key : ∀ (n : ℕ) (x : ℝ), ((n : ℝ) - x > 0.2 * n ∧ (n : ℝ) - x < 0.8 * n) ↔ (x > 0.2 * n ∧ x < 0.8 * n) := fun n x => ⟨fun ⟨a, b⟩ => ⟨by linarith, by linarith⟩, fun ⟨a, b⟩ => ⟨by linarith, by linarith⟩⟩
    refine and_congr (and_congr ?_ ?_) ?_
    · split_ifs
      · exact key Nx _
      · rfl
    · split_ifs
      · exact key Ny _
      · rfl
    · split_ifs
      · exact key Nz _
      · rfl

end Runs

/-- The mirror moves cells and directions: cell 1 of 100 goes to cell 98, the direction (1, 1, 0) to (-1, 1, 0). -/
example : flip 0 ((1, 2, 3) : Site 100 100 100) = (98, 2, 3) ∧ (fun a => vels a 7) = ![1, 1, 0] ∧ (fun a => vels a (mq 0 7)) = ![-1, 1, 0] := by
  refine ⟨by decide, ?_, ?_⟩ <;> funext a <;> revert a <;> decide

/-- The surface-tension program with its 100 x 100 x 100 cells and no gravity: after any number of steps the centre of mass has height 50. -/
example (P : Params ℝ) (G : ForceParams) (hg : G.gravity = 0) (path : List (ℝ × ℝ × ℝ)) :
    let S := simulation P G true (Start.initialPhase 100 100 100 (Start.dropFlag (100 : ℕ) (100 : ℕ) (100 : ℕ))) path
    (∑ s, cellMass (S.f s) (S.phase s) (S.mass s) * (Start.centre s 2 - 50)) = 0 := by
  intro S
  have := (C144_balance 2 S ((C144_programs P G path 2).2 (Or.inr hg))).2
  have h : ((cells 100 100 100 2 : ℕ) : ℝ) / 2 = 50 := by
    show ((100 : ℕ) : ℝ) / 2 = 50
    norm_num
  rw [h] at this
  exact this

end Verif.Lbm.Mirror
