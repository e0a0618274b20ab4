import Verif.Lbm.DamTypes
import Mathlib.Algebra.BigOperators.Field

/-!
# Dam break: the result of `update_types`
-/
namespace Verif.Lbm.Dam
open Finset

/-! ## Distribution of the excess mass -/

theorem etaOf_nonneg (s : State) (p : Pos) (m : ℝ × ℝ) (n : Fin 9) : 0 ≤ etaOf s p m n := by
  unfold etaOf
  split_ifs
  · exact le_max_left _ _
  · exact le_refl _

/-- The shares are nonnegative weights of interface neighbours, with sum one if there is such a neighbour, and follow the given direction if some interface neighbour lies in it; without such a neighbour nothing is written. -/
theorem spread_spec (s : State) (p : Pos) (m : ℝ × ℝ) (mex : ℝ) (old : Fin 9 → ℝ) :
    (∃ n, n ≠ 0 ∧ (s (p + v n)).ty .INTERFACE = true) →
      ∃ w : Fin 9 → ℝ, (∀ n, 0 ≤ w n) ∧ (∀ n, w n ≠ 0 → n ≠ 0 ∧ (s (p + v n)).ty .INTERFACE = true) ∧ ∑ n, w n = 1 ∧ (∀ n, n ≠ 0 → spread s p m mex old n = mex * w n) ∧
        ((∃ n, n ≠ 0 ∧ (s (p + v n)).ty .INTERFACE = true ∧ 0 < (v n).1 * m.1 + (v n).2 * m.2) → ∀ n, w n ≠ 0 → 0 < (v n).1 * m.1 + (v n).2 * m.2) := by
  rintro ⟨n0, hn0, hi0⟩
  have heta : ∀ n, etaOf s p m n ≠ 0 → n ≠ 0 ∧ (s (p + v n)).ty .INTERFACE = true := fun n h => by
    unfold etaOf at h
    rw [has_one] at h
    by_contra h'
    rw [if_neg h'] at h
    exact h rfl
  by_cases h1 : ∑ n, etaOf s p m n > 0
  · refine ⟨fun n => etaOf s p m n / ∑ n, etaOf s p m n, fun n => div_nonneg (etaOf_nonneg _ _ _ _) h1.le, fun n h => heta n fun h' => h (by simp only [h', zero_div]), ?_, fun n hn => ?_, fun _ n h => ?_⟩
    · rw [← Finset.sum_div, div_self (ne_of_gt h1)]
    · unfold spread
      simp only [if_pos h1, if_neg hn]
      ring
    · by_contra h'
      push Not at h'
      refine h ?_
      have : etaOf s p m n = 0 := by
        unfold etaOf
        split_ifs
        · exact max_eq_left h'
        · rfl
      simp only [this, zero_div]
  · have hz : ∀ n, etaOf s p m n = 0 := fun n => by
      have := (Finset.sum_eq_zero_iff_of_nonneg fun n _ => etaOf_nonneg s p m n).mp (le_antisymm (not_lt.mp h1) (Finset.sum_nonneg fun n _ => etaOf_nonneg s p m n))
      exact this n (mem_univ n)
    have hI : ∀ n, isIF s p n = true ↔ n ≠ 0 ∧ (s (p + v n)).ty .INTERFACE = true := fun n => by
      unfold isIF
      rw [has_one, Bool.and_eq_true, decide_eq_true_iff]
    have h2 : (∑ n, if isIF s p n then (1 : ℝ) else 0) > 0 := by
      refine Finset.sum_pos' (fun n _ => by split_ifs <;> norm_num) ⟨n0, mem_univ _, ?_⟩
      rw [if_pos ((hI n0).mpr ⟨hn0, hi0⟩)]
      norm_num
    refine ⟨fun n => (if isIF s p n then (1 : ℝ) else 0) / ∑ n, if isIF s p n then (1 : ℝ) else 0, fun n => div_nonneg (by split_ifs <;> norm_num) h2.le, fun n h => (hI n).mp ?_, ?_, fun n hn => ?_, ?_⟩
    · by_contra h'
      simp [h'] at h
    · rw [← Finset.sum_div, div_self (ne_of_gt h2)]
    · unfold spread
      simp only [if_neg h1, if_pos h2, if_neg hn]
      split_ifs
      · rw [mul_one_div]
      · simp
    · rintro ⟨n, hn, hi, hpos⟩
      have := hz n
      unfold etaOf at this
      rw [has_one, if_pos ⟨hn, hi⟩, max_eq_right hpos.le] at this
      exact absurd this (ne_of_gt hpos)

theorem spread_none (s : State) (p : Pos) (m : ℝ × ℝ) (mex : ℝ) (old : Fin 9 → ℝ) (h : ∀ n, n ≠ 0 → (s (p + v n)).ty .INTERFACE = false) : spread s p m mex old = old := by
  have h1 : ∀ n, etaOf s p m n = 0 := fun n => by
    unfold etaOf
    rw [has_one]
    split_ifs with h'
    · rw [h n h'.1] at h'
      exact absurd h'.2 (by simp)
    · rfl
  have h2 : ∀ n, isIF s p n = false := fun n => by
    unfold isIF
    rw [has_one]
    by_cases hn : n = 0
    · simp [hn]
    · rw [h n hn, Bool.and_false]
  unfold spread
  simp [h1, h2]

/-! ## The whole pass -/

/-- The excess mass of a cell that changes. -/
noncomputable def excess (s : State) (k : Pos → Kind) (p : Pos) : ℝ :=
  match mark s k p with
  | .toFluid => (s p).mass - (s p).rho
  | .toGas => (s p).mass
  | _ => 0

/-- The direction of its distribution. -/
noncomputable def direction (s : State) (k : Pos → Kind) (p : Pos) : ℝ × ℝ :=
  let n := getNormal p (fun q => (s q).ty) (fun q => (s q).rho) (fun q => (s q).mass)
  match mark s k p with
  | .toGas => (-n.1, -n.2)
  | _ => n

/-- Specification: a cell changes. -/
def Changes (s : State) (k : Pos → Kind) (p : Pos) : Prop := mark s k p = .toFluid ∨ mark s k p = .toGas

theorem middle_toFluid (s : State) (k : Pos → Kind) (p : Pos) : middle s k p = .toFluid ↔ mark s k p = .toFluid := by
  unfold middle
  rcases mark s k p with _ | _ | _ | _ | _ | _ <;> simp
  all_goals split_ifs <;> simp

theorem middle_toGas (s : State) (k : Pos → Kind) (p : Pos) : middle s k p = .toGas ↔ mark s k p = .toGas := by
  unfold middle
  rcases mark s k p with _ | _ | _ | _ | _ | _ <;> simp
  all_goals split_ifs <;> simp

theorem middle_wall (s : State) (k : Pos → Kind) (p : Pos) : middle s k p = .wall ↔ k p = .wall := by
  rw [← mark_wall s k p]
  unfold middle
  rcases mark s k p with _ | _ | _ | _ | _ | _ <;> simp
  all_goals split_ifs <;> simp

/-- The state after `update_types`, cell by cell. -/
structure After (nx ny : ℕ) (s s' : State) (k : Pos → Kind) : Prop where
  kind : ∀ q, IsKind (s' q).ty (nextKind s k q)
  keep : ∀ q, (s' q).fin = (s q).fin ∧ (s' q).fout = (s q).fout
  noFluid : ∀ q, k q ≠ .wall → ((s' q).ty .NO_FLUID_NEIGH = true ↔ ∀ p, Adj p q → nextKind s k p ≠ .fluid)
  noEmpty : ∀ q, k q ≠ .wall → ((s' q).ty .NO_EMPTY_NEIGH = true ↔ ∀ p, Adj p q → nextKind s k p ≠ .gas)
  noIface : ∀ q, k q ≠ .wall → ((s' q).ty .NO_IFACE_NEIGH = true ↔ ∀ p, Adj p q → nextKind s k p ≠ .iface)
  same : ∀ q, ¬ Changes s k q → (s' q).fdist = (s q).fdist
  share : ∀ q, Changes s k q → (∃ p, Adj p q ∧ middle s k p = .iface) → ∃ w : Fin 9 → ℝ, (∀ n, 0 ≤ w n) ∧ (∀ n, w n ≠ 0 → n ≠ 0 ∧ middle s k (q + v n) = .iface) ∧ ∑ n, w n = 1 ∧
    (∀ n, n ≠ 0 → (s' q).fdist n = excess s k q * w n) ∧
    ((∃ n, n ≠ 0 ∧ middle s k (q + v n) = .iface ∧ 0 < (v n).1 * (direction s k q).1 + (v n).2 * (direction s k q).2) → ∀ n, w n ≠ 0 → 0 < (v n).1 * (direction s k q).1 + (v n).2 * (direction s k q).2)
  noShare : ∀ q, Changes s k q → (∀ p, Adj p q → middle s k p ≠ .iface) → (s' q).fdist = (s q).fdist
  massFull : ∀ q, middle s k q = .toFluid → (s' q).mass = (s q).rho
  massEmpty : ∀ q, middle s k q = .toGas → (s' q).mass = 0
  massKeep : ∀ q, middle s k q = .fluid ∨ middle s k q = .gas ∨ middle s k q = .wall → (s' q).mass = (s q).mass
  massIface : ∀ q, middle s k q = .iface → (s' q).mass = (if k q = .gas then 0 else (s q).mass) + ∑ n ∈ univ.erase (0 : Fin 9), (s' (q + v n)).fdist n

/-- The flags written by the last loop. -/
theorem flag_fold (s : State) (p : Pos) (d : List (Fin 9)) (ty : Flags) (K : Pos → Kind) (hK : ∀ q, IsKind (s q).ty (K q)) :
    let r := d.foldl (fun ty n => let q := p - v n
        if (s q).ty.has [.FLUID] then ty.clear [.NO_FLUID_NEIGH] else if (s q).ty.has [.GAS] then ty.clear [.NO_EMPTY_NEIGH] else if (s q).ty.has [.INTERFACE] then ty.clear [.NO_IFACE_NEIGH] else ty) ty
    (r .NO_FLUID_NEIGH = true ↔ ty .NO_FLUID_NEIGH = true ∧ ∀ n ∈ d, K (p - v n) ≠ .fluid) ∧
    (r .NO_EMPTY_NEIGH = true ↔ ty .NO_EMPTY_NEIGH = true ∧ ∀ n ∈ d, K (p - v n) ≠ .gas) ∧
    (r .NO_IFACE_NEIGH = true ↔ ty .NO_IFACE_NEIGH = true ∧ ∀ n ∈ d, K (p - v n) ≠ .iface) ∧
    (∀ c, c ≠ .NO_FLUID_NEIGH → c ≠ .NO_EMPTY_NEIGH → c ≠ .NO_IFACE_NEIGH → r c = ty c) := by
  induction d generalizing ty with
  | nil => simp
  | cons n d ih =>
    simp only [List.foldl_cons]
    have hk := hK (p - v n)
    rw [has_one, has_one, has_one, hk.fluid, hk.gas, hk.iface]
    rcases hkn : K (p - v n) with _ | _ | _ | _
    · simp only [decide_true, if_true]
      obtain ⟨h1, h2, h3, h4⟩ := ih (ty.clear [.NO_FLUID_NEIGH])
      refine ⟨?_, ?_, ?_, fun c a b e => ?_⟩
      · rw [h1]; simp [Flags.clear, hkn]
      · rw [h2]; simp [Flags.clear, hkn]
      · rw [h3]; simp [Flags.clear, hkn]
      · rw [h4 c a b e]; simp [Flags.clear, a]
    · simp only [reduceCtorEq, decide_false, Bool.false_eq_true, if_false, decide_true, if_true]
      obtain ⟨h1, h2, h3, h4⟩ := ih (ty.clear [.NO_IFACE_NEIGH])
      refine ⟨?_, ?_, ?_, fun c a b e => ?_⟩
      · rw [h1]; simp [Flags.clear, hkn]
      · rw [h2]; simp [Flags.clear, hkn]
      · rw [h3]; simp [Flags.clear, hkn]
      · rw [h4 c a b e]; simp [Flags.clear, e]
    · simp only [reduceCtorEq, decide_false, Bool.false_eq_true, if_false, decide_true, if_true]
      obtain ⟨h1, h2, h3, h4⟩ := ih (ty.clear [.NO_EMPTY_NEIGH])
      refine ⟨?_, ?_, ?_, fun c a b e => ?_⟩
      · rw [h1]; simp [Flags.clear, hkn]
      · rw [h2]; simp [Flags.clear, hkn]
      · rw [h3]; simp [Flags.clear, hkn]
      · rw [h4 c a b e]; simp [Flags.clear, b]
    · simp only [reduceCtorEq, decide_false, Bool.false_eq_true, if_false]
      obtain ⟨h1, h2, h3, h4⟩ := ih ty
      refine ⟨?_, ?_, ?_, h4⟩
      · rw [h1]; simp [hkn]
      · rw [h2]; simp [hkn]
      · rw [h3]; simp [hkn]

theorem flag_other (s : State) (p : Pos) (d : List (Fin 9)) (ty : Flags) (c : CT) (a : c ≠ .NO_FLUID_NEIGH) (b : c ≠ .NO_EMPTY_NEIGH) (e : c ≠ .NO_IFACE_NEIGH) :
    d.foldl (fun ty n => let q := p - v n
        if (s q).ty.has [.FLUID] then ty.clear [.NO_FLUID_NEIGH] else if (s q).ty.has [.GAS] then ty.clear [.NO_EMPTY_NEIGH] else if (s q).ty.has [.INTERFACE] then ty.clear [.NO_IFACE_NEIGH] else ty) ty c = ty c := by
  induction d generalizing ty with
  | nil => rfl
  | cons n d ih =>
    rw [List.foldl_cons, ih]
    split_ifs <;> simp [Flags.clear, a, b, e]

theorem flagCell_other (s : State) (p : Pos) (c : CT) (a : c ≠ .NO_FLUID_NEIGH) (b : c ≠ .NO_EMPTY_NEIGH) (e : c ≠ .NO_IFACE_NEIGH) : (flagCell s p).ty c = (s p).ty c := by
  unfold flagCell
  simp only
  split_ifs
  · rfl
  · simp only
    rw [flag_other s p dirs _ c a b e]
    simp [Flags.set, a, b, e]

theorem distributeCell_ty (prev s : State) (p : Pos) : (distributeCell prev s p).ty = (s p).ty := by
  unfold distributeCell
  simp only
  split_ifs <;> rfl

theorem after (nx ny : ℕ) (s : State) (k : Pos → Kind) (hc : Closed nx ny s k) : After nx ny s (updateTypes nx ny s) k := by
  have hm := middle_state nx ny s k hc
  unfold updateTypes
  simp only
  set s3 := (cells nx ny).foldl emptyCell ((cells nx ny).foldl (fillCell s) (loop markCell (cells nx ny) s)) with hs3
  have hin : ∀ p, k p ≠ .wall → p ∈ cells nx ny := fun p hw => by
    have := hc.inside p hw
    rw [mem_cells]
    omega
  have hmw : ∀ p, middle s k p ≠ .wall → p ∈ cells nx ny := fun p hw => hin p fun h => hw ((middle_wall s k p).mpr h)
  have hdirs : ∀ n : Fin 9, n ∈ dirs ↔ n ≠ 0 := by decide
  -- fourth loop
  set s4 := loop (distributeCell s) (cells nx ny) s3 with hs4
  have h4 : ∀ q, s4 q = if q ∈ cells nx ny then distributeCell s s3 q else s3 q := fun q => by
    refine loop_eq (fun c => c.ty) _ (fun s' p => distributeCell_ty s s' p) (fun a b p h h' => ?_) _ (nodup_cells nx ny) s3 q
    have hs : ∀ m mex old, spread a p m mex old = spread b p m mex old := fun m mex old => by
      unfold spread etaOf isIF
      simp only [h']
    unfold distributeCell
    simp only [h, hs]
  have ty4 : ∀ q, (s4 q).ty = (s3 q).ty := fun q => by
    rw [h4]
    split_ifs
    · exact distributeCell_ty _ _ _
    · rfl
  have keep4 : ∀ q, (s4 q).fin = (s3 q).fin ∧ (s4 q).fout = (s3 q).fout := fun q => by
    rw [h4]
    split_ifs
    · unfold distributeCell
      simp only
      split_ifs <;> exact ⟨rfl, rfl⟩
    · exact ⟨rfl, rfl⟩
  have oth4 : ∀ q, ¬ Changes s k q → (s4 q).mass = (s3 q).mass ∧ (s4 q).fdist = (s3 q).fdist := fun q hq => by
    rw [h4]
    split_ifs
    · unfold distributeCell
      simp only [has_one]
      have a : ¬ ((s3 q).ty .TO_FLUID = true) := by
        rw [(hm.kind q).toFluid, decide_eq_true_iff, middle_toFluid]
        exact fun h => hq (Or.inl h)
      have b : ¬ ((s3 q).ty .TO_GAS = true) := by
        rw [(hm.kind q).toGas, decide_eq_true_iff, middle_toGas]
        exact fun h => hq (Or.inr h)
      rw [if_neg a, if_neg b]
      split_ifs <;> exact ⟨rfl, rfl⟩
    · exact ⟨rfl, rfl⟩
  have notgas : ∀ q, Changes s k q → k q = .iface := fun q hq => by
    unfold Changes mark at hq
    rcases hkq : k q with _ | _ | _ | _ <;> rw [hkq] at hq <;> simp at hq ⊢
  have mass3 : ∀ q, Changes s k q → (s3 q).mass = (s q).mass ∧ (s3 q).rho = (s q).rho := fun q hq => hm.old q fun h => by
    rw [notgas q hq] at h
    exact absurd h.1 (by simp)
  have full4 : ∀ q, mark s k q = .toFluid → s4 q = { s3 q with mass := (s q).rho, fdist := spread s3 q (direction s k q) (excess s k q) (s q).fdist } := fun q hq => by
    have hm' := (middle_toFluid s k q).mpr hq
    rw [h4, if_pos (hmw q (by rw [hm']; simp))]
    unfold distributeCell direction excess
    simp only [has_one, hq, (hm.kind q).wall, (hm.kind q).toFluid, hm', reduceCtorEq, decide_false, decide_true, Bool.false_eq_true, if_false, if_true, (mass3 q (Or.inl hq)).1, (mass3 q (Or.inl hq)).2, (hm.keep q).2.2]
  have empty4 : ∀ q, mark s k q = .toGas → s4 q = { s3 q with mass := 0, fdist := spread s3 q (direction s k q) (excess s k q) (s q).fdist } := fun q hq => by
    have hm' := (middle_toGas s k q).mpr hq
    rw [h4, if_pos (hmw q (by rw [hm']; simp))]
    unfold distributeCell direction excess
    simp only [has_one, hq, (hm.kind q).wall, (hm.kind q).toFluid, (hm.kind q).toGas, hm', reduceCtorEq, decide_false, decide_true, Bool.false_eq_true, if_false, if_true, (mass3 q (Or.inr hq)).1, (hm.keep q).2.2]
  have fd4 : ∀ q, Changes s k q → (s4 q).fdist = spread s3 q (direction s k q) (excess s k q) (s q).fdist := fun q hq => by
    rcases hq with hq | hq
    · rw [full4 q hq]
    · rw [empty4 q hq]
  -- fifth loop
  set s5 := loop collectCell (cells nx ny) s4 with hs5
  have hcf : ∀ s p, (collectCell s p).fdist = (s p).fdist := fun s p => by
    unfold collectCell
    simp only
    split_ifs <;> rfl
  have h5 : ∀ q, s5 q = if q ∈ cells nx ny then collectCell s4 q else s4 q := fun q => by
    refine loop_eq (fun c => c.fdist) _ (fun s' p => hcf s' p) (fun a b p h h' => ?_) _ (nodup_cells nx ny) s4 q
    unfold collectCell
    simp only [h, h']
  have fd5 : ∀ q, (s5 q).fdist = (s4 q).fdist := fun q => by
    rw [h5]
    split_ifs
    · exact hcf _ _
    · rfl
  have keep5 : ∀ q, (s5 q).fin = (s4 q).fin ∧ (s5 q).fout = (s4 q).fout := fun q => by
    rw [h5]
    split_ifs
    · unfold collectCell
      simp only
      split_ifs <;> exact ⟨rfl, rfl⟩
    · exact ⟨rfl, rfl⟩
  have M4 : ∀ q, IsM (s4 q).ty (middle s k q) := fun q => by rw [ty4]; exact hm.kind q
  have kind5 : ∀ q, IsKind (s5 q).ty (nextKind s k q) := fun q => by
    rw [h5]
    have hM := M4 q
    rcases hmid : middle s k q with _ | _ | _ | _ | _ | _
    case wall =>
      have e : nextKind s k q = .wall := by unfold nextKind; rw [hmid]
      rw [e]
      have e' : (if q ∈ cells nx ny then collectCell s4 q else s4 q).ty = (s4 q).ty := by
        split_ifs
        · unfold collectCell
          simp only [has_one, hM.iface, hM.toFluid, hM.toGas, hmid, reduceCtorEq, decide_false, Bool.false_eq_true, if_false]
        · rfl
      rw [e']
      refine ⟨?_, ?_, ?_, ?_, ?_, ?_, ?_, ?_⟩ <;> simp [hM.fluid, hM.iface, hM.gas, hM.wall, hM.toFluid, hM.toGas, hM.inlet, hM.outlet, hmid]
    all_goals
      rw [if_pos (hmw q (by rw [hmid]; simp))]
      unfold collectCell nextKind
      simp only [has_one, hM.iface, hM.toFluid, hM.toGas, hmid, reduceCtorEq, decide_false, decide_true, Bool.false_eq_true, if_false, if_true]
      refine ⟨?_, ?_, ?_, ?_, ?_, ?_, ?_, ?_⟩ <;> simp [hM.fluid, hM.iface, hM.gas, hM.wall, hM.toFluid, hM.toGas, hM.inlet, hM.outlet, hmid, Flags.only]
  -- sixth loop
  set s6 := loop flagCell (cells nx ny) s5 with hs6
  have h6 : ∀ q, s6 q = if q ∈ cells nx ny then flagCell s5 q else s5 q := fun q => by
    refine loop_eq (fun c => (c.ty .FLUID, c.ty .GAS, c.ty .INTERFACE)) _ (fun s' p => ?_) (fun a b p h h' => ?_) _ (nodup_cells nx ny) s5 q
    · simp only [flagCell_other s' p .FLUID (by simp) (by simp) (by simp), flagCell_other s' p .GAS (by simp) (by simp) (by simp), flagCell_other s' p .INTERFACE (by simp) (by simp) (by simp)]
    · have e1 : ∀ q, (a q).ty .FLUID = (b q).ty .FLUID := fun q => (Prod.ext_iff.mp (h' q)).1
      have e2 : ∀ q, (a q).ty .GAS = (b q).ty .GAS := fun q => (Prod.ext_iff.mp (Prod.ext_iff.mp (h' q)).2).1
      have e3 : ∀ q, (a q).ty .INTERFACE = (b q).ty .INTERFACE := fun q => (Prod.ext_iff.mp (Prod.ext_iff.mp (h' q)).2).2
      unfold flagCell
      simp only [has_one, h, e1, e2, e3]
  have keep6 : ∀ q, (s6 q).fin = (s5 q).fin ∧ (s6 q).fout = (s5 q).fout ∧ (s6 q).fdist = (s5 q).fdist ∧ (s6 q).mass = (s5 q).mass := fun q => by
    rw [h6]
    split_ifs
    · unfold flagCell
      simp only
      split_ifs <;> exact ⟨rfl, rfl, rfl, rfl⟩
    · exact ⟨rfl, rfl, rfl, rfl⟩
  have oth6 : ∀ q c, c ≠ .NO_FLUID_NEIGH → c ≠ .NO_EMPTY_NEIGH → c ≠ .NO_IFACE_NEIGH → (s6 q).ty c = (s5 q).ty c := fun q c a b e => by
    rw [h6]
    split_ifs
    · exact flagCell_other s5 q c a b e
    · rfl
  have flags : ∀ q, k q ≠ .wall → ((s6 q).ty .NO_FLUID_NEIGH = true ↔ ∀ p, Adj p q → nextKind s k p ≠ .fluid) ∧ ((s6 q).ty .NO_EMPTY_NEIGH = true ↔ ∀ p, Adj p q → nextKind s k p ≠ .gas) ∧ ((s6 q).ty .NO_IFACE_NEIGH = true ↔ ∀ p, Adj p q → nextKind s k p ≠ .iface) := fun q hq => by
    rw [h6, if_pos (hin q hq)]
    have hw : (s5 q).ty .OBSTACLE = false := by
      rw [(kind5 q).wall]
      refine decide_eq_false fun h => hq ?_
      rw [← middle_wall s]
      revert h
      unfold nextKind
      rcases middle s k q with _ | _ | _ | _ | _ | _ <;> simp
    have hadj : ∀ K : Kind, (∀ n ∈ dirs, nextKind s k (q - v n) ≠ K) ↔ ∀ p, Adj p q → nextKind s k p ≠ K := fun K => by
      constructor
      · intro h p hp
        obtain ⟨n, hn, rfl⟩ := (adj_iff q p).mp hp.symm
        exact h n hn
      · intro h n hn
        exact h _ ((adj_iff q _).mpr ⟨n, hn, rfl⟩).symm
    obtain ⟨f1, f2, f3, -⟩ := flag_fold s5 q dirs ((s5 q).ty.set [.NO_FLUID_NEIGH, .NO_EMPTY_NEIGH, .NO_IFACE_NEIGH]) (nextKind s k) kind5
    rw [hadj] at f1 f2 f3
    unfold flagCell
    simp only [has_one (s5 q).ty .OBSTACLE, hw, Bool.false_eq_true, if_false]
    refine ⟨f1.trans ?_, f2.trans ?_, f3.trans ?_⟩ <;> simp [Flags.set]
  have fd6 : ∀ q, (s6 q).fdist = (s4 q).fdist := fun q => (keep6 q).2.2.1.trans (fd5 q)
  have hadj : ∀ q, (∃ n, n ≠ 0 ∧ (s3 (q + v n)).ty .INTERFACE = true) ↔ ∃ p, Adj p q ∧ middle s k p = .iface := fun q => by
    constructor
    · rintro ⟨n, hn, hi⟩
      rw [(hm.kind _).iface, decide_eq_true_iff] at hi
      refine ⟨q + v n, (adj_iff _ _).mpr ⟨n, (hdirs n).mpr hn, by abel⟩, hi⟩
    · rintro ⟨p, hp, hi⟩
      obtain ⟨n, hn, h⟩ := (adj_iff _ _).mp hp
      refine ⟨n, (hdirs n).mp hn, ?_⟩
      rw [(hm.kind _).iface, decide_eq_true_iff, ← h, sub_add_cancel]
      exact hi
  have mass5 : ∀ q, (s6 q).mass = if q ∈ cells nx ny ∧ middle s k q = .iface then (s4 q).mass + ∑ n ∈ univ.erase (0 : Fin 9), (s4 (q + v n)).fdist n else (s4 q).mass := fun q => by
    rw [(keep6 q).2.2.2, h5]
    by_cases hq : q ∈ cells nx ny
    · rw [if_pos hq]
      unfold collectCell
      simp only [has_one, (M4 q).iface, decide_eq_true_iff, hq, true_and]
      split_ifs <;> rfl
    · rw [if_neg hq, if_neg fun h => hq h.1]
  refine ⟨fun q => ?_, fun q => ?_, fun q hq => (flags q hq).1, fun q hq => (flags q hq).2.1, fun q hq => (flags q hq).2.2, fun q hq => ?_, fun q hq he => ?_, fun q hq he => ?_, fun q hq => ?_, fun q hq => ?_, fun q hq => ?_, fun q hq => ?_⟩
  · have h := kind5 q
    refine ⟨?_, ?_, ?_, ?_, ?_, ?_, ?_, ?_⟩ <;> rw [oth6 q _ (by simp) (by simp) (by simp)]
    · exact h.fluid
    · exact h.iface
    · exact h.gas
    · exact h.wall
    · exact h.inlet
    · exact h.outlet
    · exact h.toFluid
    · exact h.toGas
  · exact ⟨(keep6 q).1.trans ((keep5 q).1.trans ((keep4 q).1.trans (hm.keep q).1)), (keep6 q).2.1.trans ((keep5 q).2.trans ((keep4 q).2.trans (hm.keep q).2.1))⟩
  · rw [fd6, (oth4 q hq).2, (hm.keep q).2.2]
  · obtain ⟨w, w1, w2, w3, w4, w5⟩ := spread_spec s3 q (direction s k q) (excess s k q) (s q).fdist ((hadj q).mpr he)
    have hI : ∀ n, (s3 (q + v n)).ty .INTERFACE = true ↔ middle s k (q + v n) = .iface := fun n => by rw [(hm.kind _).iface, decide_eq_true_iff]
    refine ⟨w, w1, fun n hn => ⟨(w2 n hn).1, (hI n).mp (w2 n hn).2⟩, w3, fun n hn => by rw [fd6, fd4 q hq, w4 n hn], fun ⟨n, a, b, e⟩ => w5 ⟨n, a, (hI n).mpr b, e⟩⟩
  · rw [fd6, fd4 q hq]
    refine spread_none _ _ _ _ _ fun n hn => ?_
    rw [(hm.kind _).iface]
    exact decide_eq_false (he (q + v n) ((adj_iff _ _).mpr ⟨n, (hdirs n).mpr hn, by abel⟩))
  · rw [mass5, if_neg (by rw [hq]; simp), full4 q ((middle_toFluid s k q).mp hq)]
  · rw [mass5, if_neg (by rw [hq]; simp), empty4 q ((middle_toGas s k q).mp hq)]
  · have hch : ¬ Changes s k q := fun h => by
      rcases h with h | h
      · rw [(middle_toFluid s k q).mpr h] at hq
        simp at hq
      · rw [(middle_toGas s k q).mpr h] at hq
        simp at hq
    rw [mass5, if_neg (by rintro ⟨-, h⟩; rw [h] at hq; simp at hq), (oth4 q hch).1]
    exact (hm.old q fun h => by rw [h.2] at hq; simp at hq).1
  · have hch : ¬ Changes s k q := fun h => by
      rcases h with h | h
      · rw [(middle_toFluid s k q).mpr h] at hq
        simp at hq
      · rw [(middle_toGas s k q).mpr h] at hq
        simp at hq
    rw [mass5, if_pos ⟨hmw q (by rw [hq]; simp), hq⟩, (oth4 q hch).1]
    simp only [fd6]
    congr 1
    split_ifs with hg
    · exact hm.new q hg hq
    · exact (hm.old q fun h => hg h.1).1

/-! ## Properties -/

/-- Specification: no cell that is full of liquid touches gas. -/
def Separated (k : Pos → Kind) : Prop := ∀ p q, Adj p q → k p = .fluid → k q ≠ .gas

/-- `update_types` (dam_break.py 295-419): a closed state stays closed; walls stay walls; a full interface cell becomes fluid, an empty one gas; gas next to a cell that becomes fluid and fluid next to a cell that becomes gas become interface; all else keeps its kind. -/
theorem C118_kinds (nx ny : ℕ) (s : State) (k : Pos → Kind) (hc : Closed nx ny s k) :
    ∃ k', Closed nx ny (updateTypes nx ny s) k' ∧
      (∀ q, k q = .wall → k' q = .wall) ∧
      (∀ q, k q = .iface → (Fills (s q) → k' q = .fluid) ∧ (¬ Fills (s q) → Empties (s q) → k' q = .gas) ∧ (¬ Fills (s q) → ¬ Empties (s q) → k' q = .iface)) ∧
      (∀ q, k q = .gas → ((∃ p, Adj p q ∧ k p = .iface ∧ Fills (s p)) → k' q = .iface) ∧ ((¬ ∃ p, Adj p q ∧ k p = .iface ∧ Fills (s p)) → k' q = .gas)) ∧
      (∀ q, k q = .fluid → ((∃ p, Adj p q ∧ k p = .iface ∧ ¬ Fills (s p) ∧ Empties (s p)) → k' q = .iface) ∧ ((¬ ∃ p, Adj p q ∧ k p = .iface ∧ ¬ Fills (s p) ∧ Empties (s p)) → k' q = .fluid)) ∧
      (Separated k → ∀ p q, Adj p q → k' p = .fluid → k' q = .gas → k p = .iface ∧ k q = .iface ∧ Fills (s p) ∧ ¬ Fills (s q) ∧ Empties (s q)) := by
  have ha := after nx ny s k hc
  have hF : ∀ p, mark s k p = .toFluid ↔ k p = .iface ∧ Fills (s p) := fun p => by
    unfold mark
    rcases k p with _ | _ | _ | _ <;> simp
    split_ifs <;> simp [*]
  have hE : ∀ p, mark s k p = .toGas ↔ k p = .iface ∧ ¬ Fills (s p) ∧ Empties (s p) := fun p => by
    unfold mark
    rcases k p with _ | _ | _ | _ <;> simp
    split_ifs <;> simp [*]
  have kw : ∀ q, k q = .wall → nextKind s k q = .wall := fun q h => by
    unfold nextKind
    rw [(middle_wall s k q).mpr h]
  have ki : ∀ q, k q = .iface → (Fills (s q) → nextKind s k q = .fluid) ∧ (¬ Fills (s q) → Empties (s q) → nextKind s k q = .gas) ∧ (¬ Fills (s q) → ¬ Empties (s q) → nextKind s k q = .iface) := fun q h => by
    refine ⟨fun a => ?_, fun a b => ?_, fun a b => ?_⟩ <;> (unfold nextKind middle mark; simp [h, a]) <;> simp [b]
  have kg : ∀ q, k q = .gas → ((∃ p, Adj p q ∧ k p = .iface ∧ Fills (s p)) → nextKind s k q = .iface) ∧ ((¬ ∃ p, Adj p q ∧ k p = .iface ∧ Fills (s p)) → nextKind s k q = .gas) := fun q h => by
    have e : mark s k q = .gas := by unfold mark; rw [h]
    refine ⟨fun a => ?_, fun a => ?_⟩
    · unfold nextKind middle
      simp only [e]
      rw [if_pos ((exists_congr fun p => and_congr Iff.rfl (hF p)).mpr a)]
    · unfold nextKind middle
      simp only [e]
      rw [if_neg fun h => a ((exists_congr fun p => and_congr Iff.rfl (hF p)).mp h)]
  have kf : ∀ q, k q = .fluid → ((∃ p, Adj p q ∧ k p = .iface ∧ ¬ Fills (s p) ∧ Empties (s p)) → nextKind s k q = .iface) ∧ ((¬ ∃ p, Adj p q ∧ k p = .iface ∧ ¬ Fills (s p) ∧ Empties (s p)) → nextKind s k q = .fluid) := fun q h => by
    have e : mark s k q = .fluid := by unfold mark; rw [h]
    refine ⟨fun a => ?_, fun a => ?_⟩
    · unfold nextKind middle
      simp only [e]
      rw [if_pos ((exists_congr fun p => and_congr Iff.rfl (hE p)).mpr a)]
    · unfold nextKind middle
      simp only [e]
      rw [if_neg fun h => a ((exists_congr fun p => and_congr Iff.rfl (hE p)).mp h)]
  refine ⟨nextKind s k, ⟨ha.kind, fun p hp => hc.inside p fun h => hp (kw p h)⟩, kw, ki, kg, kf, fun hsep p q hpq hp hq => ?_⟩
  have hp' : k p = .fluid ∨ (k p = .iface ∧ Fills (s p)) := by
    rcases hkp : k p with _ | _ | _ | _
    · exact Or.inl rfl
    · refine Or.inr ⟨rfl, ?_⟩
      by_contra hf
      by_cases he : Empties (s p)
      · rw [(ki p hkp).2.1 hf he] at hp; exact absurd hp (by simp)
      · rw [(ki p hkp).2.2 hf he] at hp; exact absurd hp (by simp)
    · by_cases h : ∃ r, Adj r p ∧ k r = .iface ∧ Fills (s r)
      · rw [(kg p hkp).1 h] at hp; exact absurd hp (by simp)
      · rw [(kg p hkp).2 h] at hp; exact absurd hp (by simp)
    · rw [kw p hkp] at hp; exact absurd hp (by simp)
  have hq' : k q = .gas ∨ (k q = .iface ∧ ¬ Fills (s q) ∧ Empties (s q)) := by
    rcases hkq : k q with _ | _ | _ | _
    · by_cases h : ∃ r, Adj r q ∧ k r = .iface ∧ ¬ Fills (s r) ∧ Empties (s r)
      · rw [(kf q hkq).1 h] at hq; exact absurd hq (by simp)
      · rw [(kf q hkq).2 h] at hq; exact absurd hq (by simp)
    · refine Or.inr ⟨rfl, ?_⟩
      by_cases hf : Fills (s q)
      · rw [(ki q hkq).1 hf] at hq; exact absurd hq (by simp)
      · by_cases he : Empties (s q)
        · exact ⟨hf, he⟩
        · rw [(ki q hkq).2.2 hf he] at hq; exact absurd hq (by simp)
    · exact Or.inl rfl
    · rw [kw q hkq] at hq; exact absurd hq (by simp)
  rcases hp' with hp' | hp'
  · rcases hq' with hq' | hq'
    · exact absurd hq' (hsep p q hpq hp')
    · rw [(kf p hp').1 ⟨q, hpq.symm, hq'⟩] at hp
      exact absurd hp (by simp)
  · rcases hq' with hq' | hq'
    · rw [(kg q hq').1 ⟨p, hpq, hp'⟩] at hq
      exact absurd hq (by simp)
    · exact ⟨hp'.1, hq'.1, hp'.2, hq'.2.1, hq'.2.2⟩

/-- After `update_types` the neighbourhood flags of all cells but walls agree with the new kinds, and populations are untouched (also those of a gas cell that becomes interface). -/
theorem C118_flags (nx ny : ℕ) (s : State) (k k' : Pos → Kind) (hc : Closed nx ny s k) (hc' : Closed nx ny (updateTypes nx ny s) k') :
    (∀ q, k' q ≠ .wall → ((updateTypes nx ny s q).ty .NO_FLUID_NEIGH = true ↔ ∀ p, Adj p q → k' p ≠ .fluid) ∧
      ((updateTypes nx ny s q).ty .NO_EMPTY_NEIGH = true ↔ ∀ p, Adj p q → k' p ≠ .gas) ∧ ((updateTypes nx ny s q).ty .NO_IFACE_NEIGH = true ↔ ∀ p, Adj p q → k' p ≠ .iface)) ∧
    ∀ q, (updateTypes nx ny s q).fin = (s q).fin ∧ (updateTypes nx ny s q).fout = (s q).fout := by
  have ha := after nx ny s k hc
  have e : k' = nextKind s k := funext fun q => (hc'.kind q).unique (ha.kind q)
  subst e
  refine ⟨fun q hq => ?_, ha.keep⟩
  have : k q ≠ .wall := fun h => hq (by unfold nextKind; rw [(middle_wall s k q).mpr h])
  exact ⟨ha.noFluid q this, ha.noEmpty q this, ha.noIface q this⟩

/-- Distribution of excess mass: a cell that becomes fluid gets the mass of its density and one that becomes gas mass zero; the difference is split with nonnegative weights of sum one over directions that lead to cells that are interface afterwards; without such a cell nothing is written; all other cells keep what earlier passes wrote. -/
theorem C118_shares (nx ny : ℕ) (s : State) (k k' : Pos → Kind) (hc : Closed nx ny s k) (hc' : Closed nx ny (updateTypes nx ny s) k') (p : Pos) :
    (k p = .iface → k' p = .fluid → (updateTypes nx ny s p).mass = (s p).rho) ∧ (k p = .iface → k' p = .gas → (updateTypes nx ny s p).mass = 0) ∧
    (k p = .iface → k' p ≠ .iface → (∃ q, Adj q p ∧ k' q = .iface) → ∃ w : Fin 9 → ℝ, (∀ n, 0 ≤ w n) ∧ (∀ n, w n ≠ 0 → n ≠ 0 ∧ k' (p + v n) = .iface) ∧ ∑ n, w n = 1 ∧
      ∀ n, n ≠ 0 → (updateTypes nx ny s p).fdist n = ((s p).mass - (updateTypes nx ny s p).mass) * w n) ∧
    ((k p = .iface → k' p ≠ .iface → ∀ q, Adj q p → k' q ≠ .iface) → (updateTypes nx ny s p).fdist = (s p).fdist) := by
  have ha := after nx ny s k hc
  have e : k' = nextKind s k := funext fun q => (hc'.kind q).unique (ha.kind q)
  subst e
  have hF : ∀ q, nextKind s k q = .iface ↔ middle s k q = .iface := fun q => by
    unfold nextKind
    rcases middle s k q with _ | _ | _ | _ | _ | _ <;> simp
  have hi : ∀ q, k q = .iface → (nextKind s k q = .fluid ↔ mark s k q = .toFluid) ∧ (nextKind s k q = .gas ↔ mark s k q = .toGas) := fun q h => by
    unfold nextKind middle mark
    simp only [h]
    split_ifs <;> simp_all
  have hch : Changes s k p ↔ k p = .iface ∧ nextKind s k p ≠ .iface := by
    unfold Changes nextKind middle mark
    rcases h : k p with _ | _ | _ | _ <;> simp
    split_ifs <;> simp_all
  refine ⟨fun h h' => ha.massFull p ((middle_toFluid s k p).mpr (((hi p h).1).mp h')), fun h h' => ha.massEmpty p ((middle_toGas s k p).mpr (((hi p h).2).mp h')), fun h h' h'' => ?_, fun h => ?_⟩
  · simp only [hF] at h'' ⊢
    obtain ⟨w, w1, w2, w3, w4, -⟩ := ha.share p (hch.mpr ⟨h, h'⟩) h''
    refine ⟨w, w1, w2, w3, fun n hn => ?_⟩
    rw [w4 n hn]
    congr 1
    unfold excess
    rcases hch.mpr ⟨h, h'⟩ with hm | hm
    · rw [hm, ha.massFull p ((middle_toFluid s k p).mpr hm)]
    · rw [hm, ha.massEmpty p ((middle_toGas s k p).mpr hm), sub_zero]
  · by_cases h' : Changes s k p
    · refine ha.noShare p h' fun q hq => ?_
      rw [Ne, ← hF]
      exact h (hch.mp h').1 (hch.mp h').2 q hq
    · exact ha.same p h'

/-- Specification: the links by which an interface cell collects: the share that cell `p` wrote for direction `n` is read by `p - v n`. -/
noncomputable def collected (nx ny : ℕ) (s' : State) (k' : Pos → Kind) : ℝ :=
  ∑ p ∈ grid nx ny, ∑ n ∈ univ.erase (0 : Fin 9), if k' (p - v n) = .iface then (s' p).fdist n else 0

/-- Balance of mass of `update_types`: cells that leave the interface give up their excess mass, and interface cells receive, from each cell `p` and direction `n`, the share `fdist[n, p]` if `p - v n` is an interface cell — not `p + v n`, for which the share is meant. -/
theorem C118_mass (nx ny : ℕ) (s : State) (k k' : Pos → Kind) (hc : Closed nx ny s k) (hc' : Closed nx ny (updateTypes nx ny s) k') (hg : ∀ q, k q = .gas → (s q).mass = 0) :
    ∑ q ∈ grid nx ny, (updateTypes nx ny s q).mass = ∑ q ∈ grid nx ny, (s q).mass - (∑ q ∈ grid nx ny, if k q = .iface ∧ k' q ≠ .iface then (s q).mass - (updateTypes nx ny s q).mass else 0) + collected nx ny (updateTypes nx ny s) k' := by
  have ha := after nx ny s k hc
  have e : k' = nextKind s k := funext fun q => (hc'.kind q).unique (ha.kind q)
  subst e
  have hF : ∀ q, nextKind s k q = .iface ↔ middle s k q = .iface := fun q => by
    unfold nextKind
    rcases middle s k q with _ | _ | _ | _ | _ | _ <;> simp
  have hswap : collected nx ny (updateTypes nx ny s) (nextKind s k) = ∑ q ∈ grid nx ny, if nextKind s k q = .iface then ∑ n ∈ univ.erase (0 : Fin 9), (updateTypes nx ny s (q + v n)).fdist n else 0 := by
    unfold collected
    have : ∀ q, (if nextKind s k q = .iface then ∑ n ∈ univ.erase (0 : Fin 9), (updateTypes nx ny s (q + v n)).fdist n else 0) = ∑ n ∈ univ.erase (0 : Fin 9), if nextKind s k q = .iface then (updateTypes nx ny s (q + v n)).fdist n else 0 := fun q => by
      split_ifs
      · rfl
      · rw [Finset.sum_const_zero]
    simp only [this]
    rw [Finset.sum_comm, Finset.sum_comm (s := grid nx ny)]
    refine Finset.sum_congr rfl fun n _ => ?_
    rw [← Finset.sum_filter, ← Finset.sum_filter]
    refine Finset.sum_bij' (fun p _ => p - v n) (fun q _ => q + v n) ?_ ?_ ?_ ?_ ?_
    · intro p hp
      rw [Finset.mem_filter] at hp ⊢
      refine ⟨?_, hp.2⟩
      have := hc'.inside (p - v n) (by rw [hp.2]; simp)
      rw [mem_grid]
      omega
    · intro q hq
      rw [Finset.mem_filter] at hq ⊢
      refine ⟨?_, by rw [add_sub_cancel_right]; exact hq.2⟩
      have h1 := hc'.inside q (by rw [hq.2]; simp)
      have h2 := neighbour_inside q (v_inv n)
      rw [v_inv_v, sub_neg_eq_add] at h2
      rw [mem_grid]
      omega
    · intro p _; abel
    · intro q _; abel
    · intro p _
      rw [sub_add_cancel]
  rw [hswap, ← Finset.sum_sub_distrib, ← Finset.sum_add_distrib]
  refine Finset.sum_congr rfl fun q _ => ?_
  rcases hm : middle s k q with _ | _ | _ | _ | _ | _
  · have hn : nextKind s k q = .fluid := by unfold nextKind; rw [hm]
    have hk : k q ≠ .iface := fun h => by
      unfold middle mark at hm
      simp only [h] at hm
      split_ifs at hm
    rw [if_neg (fun h => hk h.1), if_neg (by rw [hn]; simp), ha.massKeep q (Or.inl hm)]
    ring
  · have hn := (hF q).mpr hm
    rw [if_neg (fun h => h.2 hn), if_pos hn, ha.massIface q hm]
    split_ifs with h
    · rw [hg q h]; ring
    · ring
  · have hn : nextKind s k q = .gas := by unfold nextKind; rw [hm]
    have hk : k q ≠ .iface := fun h => by
      unfold middle mark at hm
      simp only [h] at hm
      split_ifs at hm
    rw [if_neg (fun h => hk h.1), if_neg (by rw [hn]; simp), ha.massKeep q (Or.inr (Or.inl hm))]
    ring
  · have hn : nextKind s k q = .wall := by unfold nextKind; rw [hm]
    have hk : k q ≠ .iface := fun h => by
      rw [middle_wall] at hm
      rw [h] at hm
      exact absurd hm (by simp)
    rw [if_neg (fun h => hk h.1), if_neg (by rw [hn]; simp), ha.massKeep q (Or.inr (Or.inr hm))]
    ring
  · have hn : nextKind s k q = .fluid := by unfold nextKind; rw [hm]
    have hk : k q = .iface := by
      rw [middle_toFluid] at hm
      unfold mark at hm
      rcases h : k q with _ | _ | _ | _ <;> rw [h] at hm <;> simp at hm ⊢
    rw [if_pos ⟨hk, by rw [hn]; simp⟩, if_neg (by rw [hn]; simp)]
    ring
  · have hn : nextKind s k q = .gas := by unfold nextKind; rw [hm]
    have hk : k q = .iface := by
      rw [middle_toGas] at hm
      unfold mark at hm
      rcases h : k q with _ | _ | _ | _ <;> rw [h] at hm <;> simp at hm ⊢
    rw [if_pos ⟨hk, by rw [hn]; simp⟩, if_neg (by rw [hn]; simp)]
    ring

/-- If no cell leaves the interface, `update_types` still adds to the total mass everything that earlier passes have left in `fdist` for directions whose opposite cell is an interface cell. -/
theorem C118_stale (nx ny : ℕ) (s : State) (k : Pos → Kind) (hc : Closed nx ny s k) (hn : ∀ q, k q = .iface → ¬ Fills (s q) ∧ ¬ Empties (s q)) :
    Closed nx ny (updateTypes nx ny s) k ∧ (∀ q, (updateTypes nx ny s q).fdist = (s q).fdist) ∧
    ∑ q ∈ grid nx ny, (updateTypes nx ny s q).mass = ∑ q ∈ grid nx ny, (s q).mass + ∑ p ∈ grid nx ny, ∑ n ∈ univ.erase (0 : Fin 9), if k (p - v n) = .iface then (s p).fdist n else 0 := by
  obtain ⟨k', hc', hw, hi, hgas, hfl, -⟩ := C118_kinds nx ny s k hc
  have hk : k' = k := funext fun q => by
    rcases hq : k q with _ | _ | _ | _
    · exact (hfl q hq).2 fun ⟨p, _, h, _, h'⟩ => (hn p h).2 h'
    · exact (hi q hq).2.2 (hn q hq).1 (hn q hq).2
    · exact (hgas q hq).2 fun ⟨p, _, h, h'⟩ => (hn p h).1 h'
    · exact hw q hq
  subst hk
  have ha := after nx ny s k' hc
  have hfd : ∀ q, (updateTypes nx ny s q).fdist = (s q).fdist := fun q => (C118_shares nx ny s k' k' hc hc' q).2.2.2 fun a b => absurd a b
  refine ⟨hc', hfd, ?_⟩
  have hmid : ∀ q, middle s k' q = .iface ↔ k' q = .iface := fun q => by
    have h1 := (hc'.kind q).unique (ha.kind q)
    rw [h1]
    conv_rhs => unfold nextKind
    rcases middle s k' q with _ | _ | _ | _ | _ | _ <;> simp
  have hm : ∀ q, (updateTypes nx ny s q).mass = (s q).mass + if k' q = .iface then ∑ n ∈ univ.erase (0 : Fin 9), (updateTypes nx ny s (q + v n)).fdist n else 0 := fun q => by
    by_cases hq : k' q = .iface
    · rw [if_pos hq, ha.massIface q ((hmid q).mpr hq), if_neg (by rw [hq]; simp)]
    · rw [if_neg hq, add_zero]
      refine ha.massKeep q ?_
      have h1 : ¬ Changes s k' q := by
        unfold Changes mark
        rcases h : k' q with _ | _ | _ | _ <;> simp_all
      have h2 : middle s k' q ≠ .iface := fun h => hq ((hmid q).mp h)
      have h3 : middle s k' q ≠ .toFluid := fun h => h1 (Or.inl ((middle_toFluid s k' q).mp h))
      have h4 : middle s k' q ≠ .toGas := fun h => h1 (Or.inr ((middle_toGas s k' q).mp h))
      revert h2 h3 h4
      rcases middle s k' q with _ | _ | _ | _ | _ | _ <;> simp
  simp only [hm, Finset.sum_add_distrib, hfd]
  congr 1
  have : ∀ q, (if k' q = .iface then ∑ n ∈ univ.erase (0 : Fin 9), (s (q + v n)).fdist n else 0) = ∑ n ∈ univ.erase (0 : Fin 9), if k' q = .iface then (s (q + v n)).fdist n else 0 := fun q => by
    split_ifs
    · rfl
    · rw [Finset.sum_const_zero]
  simp only [this]
  rw [Finset.sum_comm, Finset.sum_comm (s := grid nx ny)]
  refine Finset.sum_congr rfl fun n _ => ?_
  rw [← Finset.sum_filter, ← Finset.sum_filter]
  symm
  refine Finset.sum_bij' (fun p _ => p - v n) (fun q _ => q + v n) ?_ ?_ ?_ ?_ ?_
  · intro p hp
    rw [Finset.mem_filter] at hp ⊢
    refine ⟨?_, hp.2⟩
    have := hc'.inside (p - v n) (by rw [hp.2]; simp)
    rw [mem_grid]
    omega
  · intro q hq
    rw [Finset.mem_filter] at hq ⊢
    refine ⟨?_, by rw [add_sub_cancel_right]; exact hq.2⟩
    have h1 := hc'.inside q (by rw [hq.2]; simp)
    have h2 := neighbour_inside q (v_inv n)
    rw [v_inv_v, sub_neg_eq_add] at h2
    rw [mem_grid]
    omega
  · intro p _; abel
  · intro q _; abel
  · intro p _
    rw [sub_add_cancel]

end Verif.Lbm.Dam
