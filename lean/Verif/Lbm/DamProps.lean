import Verif.Lbm.Dam

/-!
# Dam break: loops, equilibrium and collision
-/
namespace Verif.Lbm.Dam
open Finset

/-! ## Loops -/

/-- A loop that rewrites the entries of its own cell and reads of other cells only a part `π` that it does not change is a simultaneous update. -/
theorem loopM_eq {β : Type} (π : Cell → β) (g : State → Pos → Except DErr Cell) (hπ : ∀ s p c, g s p = .ok c → π c = π (s p))
    (hg : ∀ s s' p, s p = s' p → (∀ q, π (s q) = π (s' q)) → g s p = g s' p) (l : List Pos) (hl : l.Nodup) (s : State) :
    (∀ s', loopM g l s = .ok s' → ∀ q, (q ∈ l → g s q = .ok (s' q)) ∧ (q ∉ l → s' q = s q)) ∧
    ((∃ e, loopM g l s = .error e) ↔ ∃ q ∈ l, ∃ e, g s q = .error e) := by
  induction l generalizing s with
  | nil =>
    refine ⟨fun s' h q => ⟨fun hq => absurd hq (by simp), fun _ => ?_⟩, ⟨fun ⟨e, h⟩ => ?_, fun ⟨q, hq, _⟩ => absurd hq (by simp)⟩⟩
    · have : s = s' := Except.ok.inj h
      rw [this]
    · simp [loopM, pure, Except.pure] at h
  | cons p l ih =>
    have hp : p ∉ l := (List.nodup_cons.mp hl).1
    have hl' := (List.nodup_cons.mp hl).2
    unfold loopM at *
    rw [List.foldlM_cons]
    cases hgp : g s p with
    | error e =>
      refine ⟨fun s' h => ?_, ⟨fun _ => ⟨p, by simp, e, hgp⟩, fun _ => ⟨e, rfl⟩⟩⟩
      simp [Except.map, bind, Except.bind] at h
    | ok c =>
      have hc : ∀ q, π (Function.update s p c q) = π (s q) := fun q => by
        by_cases h : q = p
        · subst h; rw [Function.update_self, hπ _ _ _ hgp]
        · rw [Function.update_of_ne h]
      have hsame : ∀ q ∈ l, g (Function.update s p c) q = g s q := fun q hq =>
        hg _ _ q (Function.update_of_ne (show q ≠ p from fun h => hp (h ▸ hq)) _ _) hc
      obtain ⟨ih1, ih2⟩ := ih hl' (Function.update s p c)
      refine ⟨fun s' h q => ?_, ?_⟩
      · have h' := ih1 s' h q
        refine ⟨fun hq => ?_, fun hq => ?_⟩
        · rcases List.mem_cons.mp hq with rfl | hq
          · rw [h'.2 hp, Function.update_self, hgp]
          · rw [← hsame q hq]
            exact h'.1 hq
        · rw [h'.2 fun h => hq (by simp [h]), Function.update_of_ne fun h => hq (by simp [h])]
      · refine Iff.trans (show _ ↔ _ from ih2) ⟨fun ⟨q, hq, e, he⟩ => ⟨q, by simp [hq], e, by rw [← hsame q hq]; exact he⟩, fun ⟨q, hq, e, he⟩ => ?_⟩
        rcases List.mem_cons.mp hq with rfl | hq
        · rw [hgp] at he
          exact absurd he (by simp)
        · exact ⟨q, hq, e, by rw [hsame q hq]; exact he⟩

theorem loop_eq {β : Type} (π : Cell → β) (g : State → Pos → Cell) (hπ : ∀ s p, π (g s p) = π (s p)) (hg : ∀ s s' p, s p = s' p → (∀ q, π (s q) = π (s' q)) → g s p = g s' p) (l : List Pos) (hl : l.Nodup) (s : State) (q : Pos) :
    loop g l s q = if q ∈ l then g s q else s q := by
  have h := (loopM_eq π (fun s p => .ok (g s p)) (fun s p c h => by rw [← Except.ok.inj h, hπ]) (fun s s' p h1 h2 => by rw [hg s s' p h1 h2]) l hl s).1
  have e : ∀ (l : List Pos) (s : State), loopM (fun s p => .ok (g s p)) l s = .ok (loop g l s) := by
    intro l
    induction l with
    | nil => intro s; rfl
    | cons p l ih => intro s; exact ih _
  have := h _ (e l s) q
  split_ifs with hq
  · exact (Except.ok.inj (this.1 hq)).symm
  · exact this.2 hq

theorem mem_cells {nx ny : ℕ} {p : Pos} : p ∈ cells nx ny ↔ 0 ≤ p.1 ∧ p.1 < nx ∧ 0 ≤ p.2 ∧ p.2 < ny := by
  simp only [cells, List.mem_flatMap, List.mem_map, List.mem_range]
  constructor
  · rintro ⟨i, hi, j, hj, rfl⟩
    simp only
    omega
  · rintro ⟨h1, h2, h3, h4⟩
    exact ⟨p.1.toNat, by omega, p.2.toNat, by omega, Prod.ext (by simp; omega) (by simp; omega)⟩

theorem nodup_cells (nx ny : ℕ) : (cells nx ny).Nodup := by
  unfold cells
  rw [List.nodup_flatMap]
  refine ⟨fun i _ => (List.nodup_map_iff (fun a b h => by simpa using h)).mpr List.nodup_range, ?_⟩
  have : (List.range nx).Pairwise (fun a b => a ≠ b) := List.nodup_range
  refine this.imp fun {a b} hab => ?_
  rw [Function.onFun, List.disjoint_left]
  intro q h1 h2
  obtain ⟨_, _, rfl⟩ := List.mem_map.mp h1
  obtain ⟨_, _, h⟩ := List.mem_map.mp h2
  exact hab (by simpa using (congrArg Prod.fst h).symm)

/-! ## C116: lattice and collision -/

theorem v_inv_table : v_inv = ![0, 2, 1, 6, 8, 7, 3, 5, 4] := by decide

theorem v_inv_v (n : Fin 9) : v (v_inv n) = -v n := by revert n; decide
theorem v_inv_inv (n : Fin 9) : v_inv (v_inv n) = n := by revert n; decide
theorem v_inj (n m : Fin 9) (h : v n = v m) : n = m := by revert n m; decide
theorem v_inv_zero (n : Fin 9) : v_inv n = 0 ↔ n = 0 := by revert n; decide

/-- **C116 (lattice).** `v_inv` is the permutation that reverses every direction; the nine directions are all steps to the cell itself and its eight neighbours; the weights are positive, sum to one and have the isotropic moments of order one to
three. -/
theorem C116_lattice :
    (∀ n, v (v_inv n) = -v n ∧ v_inv (v_inv n) = n) ∧ (∀ d : Pos, (∃! n, v n = d) ↔ (|d.1| ≤ 1 ∧ |d.2| ≤ 1)) ∧ (∀ n, 0 < t n) ∧ ∑ n, t n = 1 ∧
    (∑ n, t n * (v n).1 = 0 ∧ ∑ n, t n * (v n).2 = 0) ∧ (∑ n, t n * ((v n).1 * (v n).1) = 1 / 3 ∧ ∑ n, t n * ((v n).2 * (v n).2) = 1 / 3 ∧ ∑ n, t n * ((v n).1 * (v n).2) = 0) := by
  refine ⟨fun n => ⟨v_inv_v n, v_inv_inv n⟩, fun d => ⟨?_, ?_⟩, ?_, ?_, ⟨?_, ?_⟩, ?_, ?_, ?_⟩
  · rintro ⟨n, rfl, _⟩
    revert n
    decide
  · rintro ⟨h1, h2⟩
    obtain ⟨x, y⟩ := d
    rw [abs_le] at h1 h2
    have hx : x = -1 ∨ x = 0 ∨ x = 1 := by simp only at h1; omega
    have hy : y = -1 ∨ y = 0 ∨ y = 1 := by simp only at h2; omega
    have hex : ∃ n, v n = (x, y) := by
      rcases hx with rfl | rfl | rfl <;> rcases hy with rfl | rfl | rfl <;> decide
    obtain ⟨n, hn⟩ := hex
    exact ⟨n, hn, fun m hm => v_inj _ _ (hm.trans hn.symm)⟩
  · intro n
    fin_cases n <;> norm_num [t]
  all_goals
    simp only [Fin.sum_univ_succ, Fin.sum_univ_zero]
    norm_num [t, v, Fin.succ]

/-- **C116 (equilibrium).** The equilibrium has the density and the momentum it is built from, and its stress is `rho (u u + 1/3)`. -/
theorem C116_equilibrium (rho ux uy : ℝ) :
    ∑ n, setEqui rho ux uy n = rho ∧ ∑ n, (v n).1 * setEqui rho ux uy n = rho * ux ∧ ∑ n, (v n).2 * setEqui rho ux uy n = rho * uy ∧
    ∑ n, ((v n).1 * (v n).1) * setEqui rho ux uy n = rho * (ux * ux + 1 / 3) ∧ ∑ n, ((v n).2 * (v n).2) * setEqui rho ux uy n = rho * (uy * uy + 1 / 3) ∧
    ∑ n, ((v n).1 * (v n).2) * setEqui rho ux uy n = rho * (ux * uy) := by
  refine ⟨?_, ?_, ?_, ?_, ?_, ?_⟩ <;>
  · simp only [Fin.sum_univ_succ, Fin.sum_univ_zero]
    norm_num [setEqui, t, v, Fin.succ]
    ring

/-- **C116 (velocity).** If `update_rho_u` returns, the density is the sum of the populations and not zero and the speed is at most `√(2/3)`; a velocity below that is momentum over density. For a cell whose populations sum to zero the result is not
a number. The limit is exactly where the rest population of the equilibrium of a positive density becomes negative. -/
theorem C116_velocity (c : Cell) :
    (∑ n, c.fin n = 0 → updateRhoU c = .error .nan) ∧
    (∀ c', updateRhoU c = .ok c' → c'.rho = ∑ n, c.fin n ∧ c'.rho ≠ 0 ∧ c'.ux ^ 2 + c'.uy ^ 2 ≤ 2 / 3 ∧
      ((∑ n, ((v n).1 : ℝ) * c.fin n) ^ 2 + (∑ n, ((v n).2 : ℝ) * c.fin n) ^ 2 ≤ 2 / 3 * c'.rho ^ 2 → c'.rho * c'.ux = ∑ n, (v n).1 * c.fin n ∧ c'.rho * c'.uy = ∑ n, (v n).2 * c.fin n) ∧
      c'.fin = c.fin ∧ c'.fout = c.fout ∧ c'.mass = c.mass ∧ c'.ty = c.ty ∧ c'.fdist = c.fdist ∧ c'.equi = c.equi) ∧
    (∑ n, c.fin n ≠ 0 → ∃ c', updateRhoU c = .ok c') ∧
    ∀ rho ux uy : ℝ, 0 < rho → (0 ≤ setEqui rho ux uy 0 ↔ ux ^ 2 + uy ^ 2 ≤ 2 / 3) := by
  refine ⟨fun h => by simp [updateRhoU, h], fun c' h => ?_, fun h => ?_, fun rho ux uy h => ?_⟩
  · unfold updateRhoU at h
    simp only at h
    split_ifs at h with h0 h1
    · -- limited
      have := Except.ok.inj h
      subst this
      set r := ∑ n, c.fin n with hr
      set a := (∑ n, ((v n).1 : ℝ) * c.fin n) with ha
      set b := (∑ n, ((v n).2 : ℝ) * c.fin n) with hb
      have hpos : 0 < Real.sqrt (a / r * (a / r) + b / r * (b / r)) := lt_of_le_of_lt (Real.sqrt_nonneg _) h1
      have hss : Real.sqrt (a / r * (a / r) + b / r * (b / r)) ^ 2 = a / r * (a / r) + b / r * (b / r) := Real.sq_sqrt (add_nonneg (mul_self_nonneg _) (mul_self_nonneg _))
      have hm : Real.sqrt (2 / 3) ^ 2 = 2 / 3 := Real.sq_sqrt (by norm_num)
      refine ⟨rfl, h0, ?_, fun hle => ?_, rfl, rfl, rfl, rfl, rfl, rfl⟩
      · simp only
        have : (a / r * (Real.sqrt (2 / 3) / Real.sqrt (a / r * (a / r) + b / r * (b / r)))) ^ 2 + (b / r * (Real.sqrt (2 / 3) / Real.sqrt (a / r * (a / r) + b / r * (b / r)))) ^ 2 =
            Real.sqrt (2 / 3) ^ 2 * ((a / r * (a / r) + b / r * (b / r)) / Real.sqrt (a / r * (a / r) + b / r * (b / r)) ^ 2) := by ring
        rw [this, hss, hm, div_self (by rw [← hss]; positivity)]
        norm_num
      · exfalso
        simp only at hle
        have : a / r * (a / r) + b / r * (b / r) ≤ 2 / 3 := by
          have hr2 : 0 < r ^ 2 := by positivity
          have : a / r * (a / r) + b / r * (b / r) = (a ^ 2 + b ^ 2) / r ^ 2 := by field_simp
          rw [this, div_le_iff₀ hr2]
          exact hle
        have := Real.sqrt_le_sqrt this
        linarith
    · have := Except.ok.inj h
      subst this
      have h1' := not_lt.mp h1
      have hb := Real.sqrt_le_sqrt_iff (x := (∑ n, ((v n).1 : ℝ) * c.fin n) / (∑ n, c.fin n) * ((∑ n, ((v n).1 : ℝ) * c.fin n) / (∑ n, c.fin n)) + (∑ n, ((v n).2 : ℝ) * c.fin n) / (∑ n, c.fin n) * ((∑ n, ((v n).2 : ℝ) * c.fin n) / (∑ n, c.fin n)))
        (show (0 : ℝ) ≤ 2 / 3 by norm_num)
      refine ⟨rfl, h0, ?_, fun _ => ⟨mul_div_cancel₀ _ h0, mul_div_cancel₀ _ h0⟩, rfl, rfl, rfl, rfl, rfl, rfl⟩
      simp only [pow_two]
      exact hb.mp h1'
  · unfold updateRhoU
    simp only [if_neg h]
    split_ifs
    · exact ⟨_, rfl⟩
    · exact ⟨_, rfl⟩
  · have : setEqui rho ux uy 0 = rho * (4 / 9) * (1 - 3 / 2 * (ux ^ 2 + uy ^ 2)) := by
      simp [setEqui, t, v]
    rw [this]
    constructor
    · intro h0
      have := nonneg_of_mul_nonneg_right h0 (by positivity)
      linarith
    · intro h0
      exact mul_nonneg (by positivity) (by linarith)

/-- **C116 (collision).** A fluid or interface cell with a velocity below the limit keeps its mass in the collision; its momentum changes by `-rho g / 3`, whatever the relaxation. Walls and gas are left alone; an inlet or outlet cell stops the
program. -/
theorem C116_collision (omega gx gy : ℝ) (s : State) (p : Pos) :
    ((s p).ty.has [.GAS, .OBSTACLE] = true → collisionCell omega gx gy s p = .ok (s p)) ∧
    ((s p).ty.has [.GAS, .OBSTACLE] = false → (s p).ty.has [.INLET, .OUTLET] = true → collisionCell omega gx gy s p = .error .name) ∧
    ∀ c', (s p).ty.has [.GAS, .OBSTACLE] = false → collisionCell omega gx gy s p = .ok c' →
      ∑ n, c'.fout n = ∑ n, (s p).fin n ∧ c'.rho = ∑ n, (s p).fin n ∧ c'.rho ≠ 0 ∧ c'.ty = (s p).ty ∧ c'.mass = (s p).mass ∧ c'.fin = (s p).fin ∧ c'.fdist = (s p).fdist ∧
      ((∑ n, ((v n).1 : ℝ) * (s p).fin n) ^ 2 + (∑ n, ((v n).2 : ℝ) * (s p).fin n) ^ 2 ≤ 2 / 3 * c'.rho ^ 2 →
        ∑ n, (v n).1 * c'.fout n = ∑ n, (v n).1 * (s p).fin n - c'.rho * gx / 3 ∧ ∑ n, (v n).2 * c'.fout n = ∑ n, (v n).2 * (s p).fin n - c'.rho * gy / 3) := by
  refine ⟨fun h => by simp [collisionCell, h], fun h1 h2 => ?_, fun c' h1 h => ?_⟩
  · unfold collisionCell
    simp only [h1, Bool.false_eq_true, if_false]
    have : (s p).ty.has [.OUTLET] = true ∨ (s p).ty.has [.INLET] = true := by
      simp only [Flags.has, List.any_cons, List.any_nil, Bool.or_false, Bool.or_eq_true] at h2 ⊢
      exact h2.symm
    split_ifs with a b
    · rfl
    · rfl
    · exact absurd this (by simp [a, b])
  · unfold collisionCell at h
    simp only [h1, Bool.false_eq_true, if_false] at h
    split_ifs at h
    cases hu : updateRhoU (s p) with
    | error e => rw [hu] at h; simp [bind, Except.bind] at h
    | ok c =>
      rw [hu] at h
      have hc : c' = collide omega gx gy { c with equi := setEqui c.rho c.ux c.uy } := (Except.ok.inj h).symm
      obtain ⟨a1, a2, _, a4, a5, a6, a7, a8, a9, _⟩ := (C116_velocity (s p)).2.1 c hu
      obtain ⟨e1, e2, e3, _⟩ := C116_equilibrium c.rho c.ux c.uy
      have hf : ∀ n, c'.fout n = (1 - omega) * (s p).fin n + omega * setEqui c.rho c.ux c.uy n - c.rho * (t n * (v n).1) * gx - c.rho * (t n * (v n).2) * gy := fun n => by
        rw [hc]
        simp only [collide, a5]
        ring
      obtain ⟨_, _, _, _, ⟨m1, m2⟩, m3, m4, m5⟩ := C116_lattice
      have m5' : ∑ n, t n * (((v n).2 : ℝ) * (v n).1) = 0 := by rw [← m5]; exact sum_congr rfl fun n _ => by ring
      have hr : c'.rho = c.rho := by rw [hc]; rfl
      have S : ∀ w : Fin 9 → ℝ, ∑ n, w n * c'.fout n = (1 - omega) * ∑ n, w n * (s p).fin n + omega * ∑ n, w n * setEqui c.rho c.ux c.uy n - c.rho * gx * ∑ n, t n * (w n * (v n).1) - c.rho * gy * ∑ n, t n * (w n * (v n).2) := fun w => by
        rw [mul_sum, mul_sum, mul_sum, mul_sum, ← sum_add_distrib, ← sum_sub_distrib, ← sum_sub_distrib]
        exact sum_congr rfl fun n _ => by rw [hf]; ring
      refine ⟨?_, by rw [hr, a1], by rw [hr]; exact a2, by rw [hc]; exact a8, by rw [hc]; exact a7, by rw [hc]; exact a5, by rw [hc]; exact a9, fun hle => ?_⟩
      · have := S fun _ => 1
        simp only [one_mul] at this
        rw [this, e1, m1, m2, ← a1]
        ring
      · rw [hr] at hle
        obtain ⟨b1, b2⟩ := a4 hle
        rw [hr]
        constructor
        · rw [S fun n => (v n).1, e2, m3, m5, b1]
          ring
        · rw [S fun n => (v n).2, e3, m4, m5', b2]
          ring

end Verif.Lbm.Dam
