import Verif.Fem.SparseJac
import Mathlib.Tactic.Linarith
import Mathlib.Tactic.FinCases
import Mathlib.Tactic.Positivity
import Mathlib.Tactic.NormNum

/-!
# C92: sparse Jacobians by colouring
-/
namespace Verif.SparseJac

variable {m n k : ℕ}

theorem firstFree_not_mem (l : List ℕ) : firstFree l ∉ l := Nat.find_spec (exists_free l)
theorem mem_of_lt_firstFree (l : List ℕ) {c : ℕ} (h : c < firstFree l) : c ∈ l := by
  by_contra hc; exact Nat.find_min (exists_free l) h hc

theorem mem_neighbour_colors (adj : Fin k → Fin k → Prop) (colors : Fin k → Option ℕ) (u : Fin k) (c : ℕ) :
    (open Classical in c ∈ ((List.finRange k).filter fun v => adj u v).filterMap colors) ↔ ∃ v, adj u v ∧ colors v = some c := by
  simp [List.mem_filterMap]

/-- Invariant of the colouring loop. -/
structure Colored (adj : Fin k → Fin k → Prop) (done : List (Fin k)) (colors : Fin k → Option ℕ) : Prop where
  dom : ∀ v, (∃ c, colors v = some c) ↔ v ∈ done
  proper : ∀ u v c, adj u v → u ≠ v → colors u = some c → colors v ≠ some c
  dense : ∀ v c c', colors v = some c → c' < c → ∃ w, adj v w ∧ w ≠ v ∧ colors w = some c'

theorem colored_step (adj : Fin k → Fin k → Prop) (hsym : ∀ u v, adj u v → adj v u) (done : List (Fin k)) (colors : Fin k → Option ℕ)
    (h : Colored adj done colors) (u : Fin k) (hu : u ∉ done) : Colored adj (done ++ [u]) (greedyStep adj colors u) := by
  classical
  have hnone : colors u = none := by
    cases hc : colors u with
    | none => rfl
    | some c => exact absurd ((h.dom u).mp ⟨c, hc⟩) hu
  set F := firstFree (((List.finRange k).filter fun v => adj u v).filterMap colors) with hF
  have e : greedyStep adj colors u = Function.update colors u (some F) := by
    unfold greedyStep
    rw [hF]
  rw [e]
  have hfree : ∀ v, adj u v → colors v ≠ some F := by
    intro v hv hc
    exact firstFree_not_mem _ (by rw [← hF]; simp only [List.mem_filterMap]; exact ⟨v, by simpa using hv, hc⟩)
  have hmem : ∀ c, c < F → ∃ v, adj u v ∧ colors v = some c := by
    intro c hc
    have := mem_of_lt_firstFree _ (hF ▸ hc)
    simp only [List.mem_filterMap] at this
    obtain ⟨v, hv, hc⟩ := this
    exact ⟨v, by simpa using hv, hc⟩
  refine ⟨?_, ?_, ?_⟩
  · intro v
    by_cases hv : v = u
    · subst hv; simp
    · rw [Function.update_of_ne hv, h.dom]; simp [hv]
  · intro a b c hab hne ha
    by_cases hau : a = u
    · subst hau
      rw [Function.update_self] at ha
      rw [Function.update_of_ne (Ne.symm hne)]
      simp only [Option.some.injEq] at ha
      subst ha
      exact hfree b hab
    · rw [Function.update_of_ne hau] at ha
      by_cases hbu : b = u
      · subst hbu
        rw [Function.update_self]
        intro hc
        simp only [Option.some.injEq] at hc
        subst hc
        exact hfree a (hsym _ _ hab) ha
      · rw [Function.update_of_ne hbu]
        exact h.proper a b c hab hne ha
  · intro v c c' hv hlt
    by_cases hvu : v = u
    · subst hvu
      rw [Function.update_self] at hv
      simp only [Option.some.injEq] at hv
      subst hv
      obtain ⟨w, hw, hc⟩ := hmem c' hlt
      have hne : w ≠ v := by rintro rfl; rw [hnone] at hc; cases hc
      exact ⟨w, hw, hne, by rw [Function.update_of_ne hne]; exact hc⟩
    · rw [Function.update_of_ne hvu] at hv
      obtain ⟨w, hw, hne, hc⟩ := h.dense v c c' hv hlt
      have hwu : w ≠ u := by rintro rfl; rw [hnone] at hc; cases hc
      exact ⟨w, hw, hne, by rw [Function.update_of_ne hwu]; exact hc⟩

theorem colored_fold (adj : Fin k → Fin k → Prop) (hsym : ∀ u v, adj u v → adj v u) : ∀ (order done : List (Fin k)) (colors : Fin k → Option ℕ),
    Colored adj done colors → (done ++ order).Nodup → Colored adj (done ++ order) (order.foldl (greedyStep adj) colors) := by
  intro order
  induction order with
  | nil => intro done colors h _; simpa using h
  | cons u l ih =>
    intro done colors h hn
    have hu : u ∉ done := by
      intro hu
      have := List.nodup_append.mp hn
      exact this.2.2 u hu u (List.mem_cons_self ..) rfl
    have := ih (done ++ [u]) _ (colored_step adj hsym done colors h u hu) (by simpa using hn)
    simpa using this

/-- **C92 (colouring).** For every visiting order of all nodes: neighbours get different colours, the colours are `0, …, ncolors - 1`, and a node's colour
is at most the number of its neighbours. -/
theorem C92_coloring (adj : Fin k → Fin k → Prop) (hsym : ∀ u v, adj u v → adj v u) (order : List (Fin k)) (hn : order.Nodup) (hall : ∀ v, v ∈ order) :
    (∀ u v, adj u v → u ≠ v → coloring adj order u ≠ coloring adj order v) ∧
    (∀ c, (∃ v, coloring adj order v = c) ↔ c < numColors (coloring adj order)) ∧
    (open Classical in ∀ v, coloring adj order v ≤ (Finset.univ.filter fun w => adj v w ∧ w ≠ v).card) := by
  classical
  have h := colored_fold adj hsym order [] (fun _ => none) ⟨by simp, by simp, by simp⟩ (by simpa using hn)
  rw [List.nil_append] at h
  have hc : ∀ v, greedyColor adj order v = some (coloring adj order v) := by
    intro v
    obtain ⟨c, hc⟩ := (h.dom v).mpr (hall v)
    unfold coloring greedyColor
    rw [hc]; rfl
  have hdense : ∀ v c', c' < coloring adj order v → ∃ w, adj v w ∧ w ≠ v ∧ coloring adj order w = c' := by
    intro v c' hlt
    obtain ⟨w, hw, hne, hcw⟩ := h.dense v _ c' (hc v) hlt
    refine ⟨w, hw, hne, ?_⟩
    have := hc w
    unfold greedyColor at this
    rw [hcw] at this
    exact (Option.some.inj this).symm
  refine ⟨?_, ?_, ?_⟩
  · intro u v huv hne he
    refine h.proper u v (coloring adj order u) huv hne (hc u) ?_
    rw [he]; exact hc v
  · intro c
    have hdown : ∀ v c', c' ≤ coloring adj order v → c' ∈ Finset.univ.image (coloring adj order) := by
      intro v c' hle
      rcases hle.lt_or_eq with hlt | rfl
      · obtain ⟨w, -, -, hw⟩ := hdense v c' hlt
        exact Finset.mem_image.mpr ⟨w, Finset.mem_univ _, hw⟩
      · exact Finset.mem_image.mpr ⟨v, Finset.mem_univ _, rfl⟩
    constructor
    · rintro ⟨v, rfl⟩
      have : Finset.range (coloring adj order v + 1) ⊆ Finset.univ.image (coloring adj order) := fun c' hc' =>
        hdown v c' (by rw [Finset.mem_range] at hc'; omega)
      have := Finset.card_le_card this
      rw [Finset.card_range] at this
      unfold numColors
      omega
    · intro hlt
      by_contra hno
      have hsub : Finset.univ.image (coloring adj order) ⊆ Finset.range c := by
        intro c' hc'
        obtain ⟨v, -, rfl⟩ := Finset.mem_image.mp hc'
        rw [Finset.mem_range]
        by_contra hge
        obtain ⟨w, -, hw⟩ := Finset.mem_image.mp (hdown v c (by omega))
        exact hno ⟨w, hw⟩
      have := Finset.card_le_card hsub
      rw [Finset.card_range] at this
      unfold numColors at hlt
      omega
  · intro v
    have : Finset.range (coloring adj order v) ⊆ (Finset.univ.filter fun w => adj v w ∧ w ≠ v).image (coloring adj order) := by
      intro c' hc'
      obtain ⟨w, hw, hne, he⟩ := hdense v c' (Finset.mem_range.mp hc')
      exact Finset.mem_image.mpr ⟨w, by simp [hw, hne], he⟩
    have h1 := Finset.card_le_card this
    rw [Finset.card_range] at h1
    exact h1.trans Finset.card_image_le

/-! ## Recovery of the Jacobian -/

/-- How often `(i, j)` is stored. -/
def mult (S : Bcoo m n) (i : Fin m) (j : Fin n) : ℕ := (S.map Prod.fst).count (i, j)

theorem dense_map_const (S : Bcoo m n) (g : Fin m × Fin n → ℝ) (i : Fin m) (j : Fin n) :
    Bcoo.dense (S.map fun e => (e.1, g e.1)) i j = mult S i j * g (i, j) := by
  simp only [Bcoo.dense, Matrix.of_apply]
  unfold mult
  induction S with
  | nil => simp
  | cons e l ih =>
    rw [List.map_cons, List.map_cons, List.filter_cons, List.count_cons]
    by_cases he : e.1 = (i, j)
    · simp only [he, decide_true, if_true, List.map_cons, List.sum_cons, ih, beq_self_eq_true]
      push_cast; ring
    · simp only [he, decide_false, Bool.false_eq_true, if_false, ih]
      have : (e.1 == (i, j)) = false := by simpa using he
      simp [this]

theorem jac_projection {N : ℕ} (c : Fin m → ℕ) (f : (Fin n → ℝ) → (Fin m → ℝ)) (x : Fin n → ℝ) (hf : DifferentiableAt ℝ f x) (a : Fin N) (j : Fin n) :
    jac (fun x => (projection c : Matrix (Fin N) (Fin m) ℝ).mulVec (f x)) x a j = ∑ r, if a.1 = c r then jac f x r j else 0 := by
  unfold jac
  simp only [Matrix.of_apply]
  set L : (Fin m → ℝ) →L[ℝ] (Fin N → ℝ) := LinearMap.toContinuousLinearMap (Matrix.mulVecLin (projection c : Matrix (Fin N) (Fin m) ℝ)) with hL
  have h : HasFDerivAt (fun x => (projection c : Matrix (Fin N) (Fin m) ℝ).mulVec (f x)) (L.comp (fderiv ℝ f x)) x :=
    L.hasFDerivAt.comp x hf.hasFDerivAt
  rw [h.fderiv]
  show (projection c : Matrix (Fin N) (Fin m) ℝ).mulVec (fderiv ℝ f x (Pi.single j 1)) a = _
  simp only [Matrix.mulVec, dotProduct, projection, Matrix.of_apply, ite_mul, one_mul, zero_mul]

/-- **C92 (reverse mode).** Let `adj` connect all pairs of rows that have a stored entry in a common column, and let all nonzero entries of the true Jacobian be stored.
Then for every visiting order the returned matrix is the Jacobian; an entry stored `p` times is returned `p` times (so its dense value is `p` times the derivative). -/
theorem C92_jacrev (adj : Fin m → Fin m → Prop) (hsym : ∀ u v, adj u v → adj v u) (f : (Fin n → ℝ) → (Fin m → ℝ)) (S : Bcoo m n) (order : List (Fin m))
    (hn : order.Nodup) (hall : ∀ v, v ∈ order) (x : Fin n → ℝ) (hf : DifferentiableAt ℝ f x)
    (hadj : ∀ i i' j, 0 < mult S i j → 0 < mult S i' j → i ≠ i' → adj i i') (hS : ∀ i j, jac f x i j ≠ 0 → 0 < mult S i j) (i : Fin m) (j : Fin n) :
    (jacrev adj f S order x).dense i j = mult S i j * jac f x i j := by
  obtain ⟨hprop, hrange, -⟩ := C92_coloring adj hsym order hn hall
  unfold jacrev
  simp only
  rw [dense_map_const S (fun p => if h : 0 < numColors (coloring adj order) then clampGet
      (fun a => jac (fun x => (projection (coloring adj order) : Matrix (Fin (numColors (coloring adj order))) (Fin m) ℝ).mulVec (f x)) x a p.2)
      (coloring adj order p.1) h else 0)]
  rcases Nat.eq_zero_or_pos (mult S i j) with h0 | h0
  · rw [h0]; simp
  congr 1
  have hlt := (hrange (coloring adj order i)).mp ⟨i, rfl⟩
  rw [dif_pos (by omega)]
  unfold clampGet
  have hmin : min (coloring adj order i) (numColors (coloring adj order) - 1) = coloring adj order i := by omega
  simp only [hmin]
  rw [jac_projection _ f x hf, Finset.sum_eq_single i]
  · simp
  · intro r _ hr
    split_ifs with hc
    · by_contra hJ
      exact hprop i r (hadj i r j h0 (hS r j hJ) (Ne.symm hr)) (Ne.symm hr) hc
    · rfl
  · intro h; exact absurd (Finset.mem_univ i) h

/-- **C92 (forward mode).** The same with columns instead of rows. -/
theorem C92_jacfwd (adj : Fin n → Fin n → Prop) (hsym : ∀ u v, adj u v → adj v u) (f : (Fin n → ℝ) → (Fin m → ℝ)) (S : Bcoo m n) (order : List (Fin n))
    (hn : order.Nodup) (hall : ∀ v, v ∈ order) (x : Fin n → ℝ)
    (hadj : ∀ i j j', 0 < mult S i j → 0 < mult S i j' → j ≠ j' → adj j j') (hS : ∀ i j, jac f x i j ≠ 0 → 0 < mult S i j) (i : Fin m) (j : Fin n) :
    (jacfwd adj f S order x).dense i j = mult S i j * jac f x i j := by
  obtain ⟨hprop, hrange, -⟩ := C92_coloring adj hsym order hn hall
  unfold jacfwd
  simp only
  rw [dense_map_const S (fun p => if h : 0 < numColors (coloring adj order) then clampGet
      (fun a : Fin (numColors (coloring adj order)) => fderiv ℝ f x (fun c => if a.1 = coloring adj order c then 1 else 0) p.1)
      (coloring adj order p.2) h else 0)]
  rcases Nat.eq_zero_or_pos (mult S i j) with h0 | h0
  · rw [h0]; simp
  congr 1
  have hlt := (hrange (coloring adj order j)).mp ⟨j, rfl⟩
  rw [dif_pos (by omega)]
  unfold clampGet
  have hmin : min (coloring adj order j) (numColors (coloring adj order) - 1) = coloring adj order j := by omega
  simp only [hmin]
  have hb : (fun c => if coloring adj order j = coloring adj order c then (1 : ℝ) else 0)
      = ∑ c, (if coloring adj order j = coloring adj order c then (1 : ℝ) else 0) • (Pi.single c 1 : Fin n → ℝ) := by
    funext d
    rw [Finset.sum_apply, Finset.sum_eq_single d]
    · simp
    · intro b _ hb; simp [Pi.single_apply, Ne.symm hb]
    · intro h; exact absurd (Finset.mem_univ d) h
  rw [hb, map_sum, Finset.sum_apply, Finset.sum_eq_single j]
  · simp [jac]
  · intro c _ hc
    rw [map_smul, Pi.smul_apply, smul_eq_mul]
    split_ifs with he
    · by_contra hJ
      rw [one_mul] at hJ
      exact hprop j c (hadj i j c h0 (hS i c hJ) (Ne.symm hc)) (Ne.symm hc) he
    · simp
  · intro h; exact absurd (Finset.mem_univ j) h

theorem dense_pos (S : Bcoo m n) (hpos : ∀ e ∈ S, 0 < e.2) (i : Fin m) (j : Fin n) :
    0 ≤ S.dense i j ∧ (0 < mult S i j → 0 < S.dense i j) := by
  simp only [Bcoo.dense, Matrix.of_apply]
  unfold mult
  induction S with
  | nil => simp
  | cons e l ih =>
    obtain ⟨h1, h2⟩ := ih fun e he => hpos e (List.mem_cons_of_mem _ he)
    have he0 := hpos e (List.mem_cons_self ..)
    rw [List.filter_cons, List.map_cons, List.count_cons]
    by_cases he : e.1 = (i, j)
    · simp only [he, decide_true, if_true, List.map_cons, List.sum_cons]
      exact ⟨by linarith, fun _ => by linarith⟩
    · have : (e.1 == (i, j)) = false := by simpa using he
      simp only [he, decide_false, Bool.false_eq_true, if_false, this, add_zero]
      exact ⟨h1, h2⟩

/-- **C92 (the connectivity used by the code).** If the stored values of the sparsity pattern are positive, `S Sᵀ` and `Sᵀ S` connect all pairs that must be connected, so both modes return the Jacobian. -/
theorem C92_positive (f : (Fin n → ℝ) → (Fin m → ℝ)) (S : Bcoo m n) (hpos : ∀ e ∈ S, 0 < e.2) (hnd : (S.map Prod.fst).Nodup) (x : Fin n → ℝ)
    (hf : DifferentiableAt ℝ f x) (hS : ∀ i j, jac f x i j ≠ 0 → (i, j) ∈ S.map Prod.fst)
    (orderR : List (Fin m)) (hnR : orderR.Nodup) (hallR : ∀ v, v ∈ orderR) (orderC : List (Fin n)) (hnC : orderC.Nodup) (hallC : ∀ v, v ∈ orderC) :
    (jacrev (outputConnectivity S) f S orderR x).dense = jac f x ∧ (jacfwd (inputConnectivity S) f S orderC x).dense = jac f x := by
  have hS' : ∀ i j, jac f x i j ≠ 0 → 0 < mult S i j := fun i j h => List.count_pos_iff.mpr (hS i j h)
  have hm : ∀ i j, (mult S i j : ℝ) * jac f x i j = jac f x i j := by
    intro i j
    by_cases h : jac f x i j = 0
    · rw [h, mul_zero]
    · have : mult S i j = 1 := List.count_eq_one_of_mem hnd (hS i j h)
      rw [this]; simp
  constructor
  · ext i j
    rw [C92_jacrev (outputConnectivity S) ?_ f S orderR hnR hallR x hf ?_ hS', hm]
    · intro u v h
      unfold outputConnectivity at h ⊢
      rw [Matrix.mul_apply] at h ⊢
      simpa only [Matrix.transpose_apply, mul_comm] using h
    · intro i i' j h1 h2 _
      unfold outputConnectivity
      rw [Matrix.mul_apply]
      have hp := mul_pos ((dense_pos S hpos i j).2 h1) ((dense_pos S hpos i' j).2 h2)
      have hle := Finset.single_le_sum (f := fun j => S.dense i j * S.dense.transpose j i')
        (fun j _ => mul_nonneg (dense_pos S hpos i j).1 (dense_pos S hpos i' j).1) (Finset.mem_univ j)
      have : 0 < ∑ j, S.dense i j * S.dense.transpose j i' := lt_of_lt_of_le hp hle
      exact this.ne'
  · ext i j
    rw [C92_jacfwd (inputConnectivity S) ?_ f S orderC hnC hallC x ?_ hS', hm]
    · intro u v h
      unfold inputConnectivity at h ⊢
      rw [Matrix.mul_apply] at h ⊢
      simpa only [Matrix.transpose_apply, mul_comm] using h
    · intro i j j' h1 h2 _
      unfold inputConnectivity
      rw [Matrix.mul_apply]
      have hp := mul_pos ((dense_pos S hpos i j).2 h1) ((dense_pos S hpos i j').2 h2)
      have hle := Finset.single_le_sum (f := fun i => S.dense.transpose j i * S.dense i j')
        (fun i _ => mul_nonneg (dense_pos S hpos i j).1 (dense_pos S hpos i j').1) (Finset.mem_univ i)
      have : 0 < ∑ i, S.dense.transpose j i * S.dense i j' := lt_of_lt_of_le hp hle
      exact this.ne'

/-- The map `(a, b) ↦ (a + b, a - b)`. -/
def sumDiff (x : Fin 2 → ℝ) : Fin 2 → ℝ := ![x 0 + x 1, x 0 - x 1]

/-- Its sparsity pattern (all four entries), with the Jacobian itself as values. -/
def sumDiffPattern : Bcoo 2 2 := [((0, 0), 1), ((0, 1), 1), ((1, 0), 1), ((1, 1), -1)]

theorem sumDiff_hasFDerivAt (x : Fin 2 → ℝ) : HasFDerivAt sumDiff (LinearMap.toContinuousLinearMap (Matrix.mulVecLin !![1, 1; 1, (-1 : ℝ)])) x := by
  have : sumDiff = fun x => LinearMap.toContinuousLinearMap (Matrix.mulVecLin !![1, 1; 1, (-1 : ℝ)]) x := by
    funext x i
    fin_cases i <;> simp [sumDiff, Matrix.mulVec, dotProduct, Fin.sum_univ_two, sub_eq_add_neg]
  rw [this]
  exact ContinuousLinearMap.hasFDerivAt _

theorem sumDiff_jac (x : Fin 2 → ℝ) : jac sumDiff x = !![1, 1; 1, -1] := by
  ext i j
  unfold jac
  rw [Matrix.of_apply, (sumDiff_hasFDerivAt x).fderiv]
  show (!![1, 1; 1, (-1 : ℝ)]).mulVec (Pi.single j 1) i = _
  rw [Matrix.mulVec_single_one]
  rfl

theorem sumDiffPattern_dense : sumDiffPattern.dense = !![1, 1; 1, -1] := by
  ext i j
  fin_cases i <;> fin_cases j <;> simp [Bcoo.dense, sumDiffPattern, List.filter_cons]

/-- **C92 (the values of the pattern are used).** The documentation says that the values of `sparsity` are not used. They are: with values that cancel in `S Sᵀ` two rows which share columns get the same colour,
and the returned matrix is wrong although the pattern is complete. -/
theorem C92_values_used (x : Fin 2 → ℝ) :
    (∀ i j, (i, j) ∈ sumDiffPattern.map Prod.fst) ∧
    (jacrev (outputConnectivity sumDiffPattern) sumDiff sumDiffPattern [0, 1] x).dense 0 0 = 2 ∧ jac sumDiff x 0 0 = 1 := by
  classical
  refine ⟨by intro i j; fin_cases i <;> fin_cases j <;> simp [sumDiffPattern], ?_, by rw [sumDiff_jac]; rfl⟩
  have hadj : ∀ v w, outputConnectivity sumDiffPattern v w ↔ v = w := by
    intro v w
    unfold outputConnectivity
    rw [sumDiffPattern_dense]
    fin_cases v <;> fin_cases w <;> simp [Matrix.mul_apply, Fin.sum_univ_two] <;> norm_num
  obtain ⟨-, hr, hle⟩ := C92_coloring (outputConnectivity sumDiffPattern) (fun u v h => (hadj v u).mpr ((hadj u v).mp h).symm) [0, 1] (by decide) (by decide)
  have hc : coloring (outputConnectivity sumDiffPattern) [0, 1] = fun _ => 0 := by
    funext v
    have h := hle v
    have h0 : (Finset.univ.filter fun w => outputConnectivity sumDiffPattern v w ∧ w ≠ v) = ∅ := by
      ext w; simp only [hadj, Finset.mem_filter, Finset.mem_univ, true_and, Finset.notMem_empty, iff_false]
      rintro ⟨rfl, h⟩; exact h rfl
    rw [h0] at h
    simpa using h
  have hN : numColors (coloring (outputConnectivity sumDiffPattern) [0, 1]) = 1 := by rw [hc]; rfl
  unfold jacrev
  simp only
  rw [dense_map_const sumDiffPattern (fun p => if h : 0 < numColors (coloring (outputConnectivity sumDiffPattern) [0, 1]) then clampGet
      (fun a => jac (fun x => (projection (coloring (outputConnectivity sumDiffPattern) [0, 1]) : Matrix (Fin (numColors (coloring (outputConnectivity sumDiffPattern) [0, 1]))) (Fin 2) ℝ).mulVec (sumDiff x)) x a p.2)
      (coloring (outputConnectivity sumDiffPattern) [0, 1] p.1) h else 0)]
  rw [dif_pos (by omega)]
  unfold clampGet
  beta_reduce
  rw [jac_projection _ _ _ (sumDiff_hasFDerivAt x).differentiableAt, sumDiff_jac]
  have hm : mult sumDiffPattern 0 0 = 1 := by unfold mult sumDiffPattern; rfl
  have hc' : ∀ v, coloring (outputConnectivity sumDiffPattern) [0, 1] v = 0 := fun v => by rw [hc]
  rw [hm]
  simp only [hc', Fin.sum_univ_two, Nat.zero_min, if_true]
  norm_num

/-- With ones as values the same pattern gives the Jacobian, in both modes. -/
example (x : Fin 2 → ℝ) :
    let S : Bcoo 2 2 := [((0, 0), 1), ((0, 1), 1), ((1, 0), 1), ((1, 1), 1)]
    (jacrev (outputConnectivity S) sumDiff S [1, 0] x).dense = !![1, 1; 1, -1] ∧ (jacfwd (inputConnectivity S) sumDiff S [0, 1] x).dense = !![1, 1; 1, -1] := by
  intro S
  rw [← sumDiff_jac x]
  refine C92_positive sumDiff S ?_ ?_ x (sumDiff_hasFDerivAt x).differentiableAt ?_ [1, 0] (by decide) (by decide) [0, 1] (by decide) (by decide)
  · intro e he; simp only [S, List.mem_cons, List.not_mem_nil, or_false] at he; rcases he with rfl | rfl | rfl | rfl <;> norm_num
  · simp [S]
  · intro i j _; fin_cases i <;> fin_cases j <;> simp [S]

/-- A stored duplicate doubles the value. -/
example (x : Fin 2 → ℝ) :
    let S : Bcoo 2 2 := [((0, 0), 1), ((0, 0), 1), ((0, 1), 1), ((1, 0), 1), ((1, 1), 1)]
    (jacrev (fun u v => u ≠ v) sumDiff S [0, 1] x).dense 0 0 = 2 := by
  intro S
  rw [C92_jacrev (fun u v => u ≠ v) (fun _ _ h => h.symm) sumDiff S [0, 1] (by decide) (by decide) x (sumDiff_hasFDerivAt x).differentiableAt
    (fun _ _ _ _ _ h => h), sumDiff_jac]
  · have : mult S 0 0 = 2 := by unfold mult; rfl
    rw [this]; simp
  · intro i j _
    refine List.count_pos_iff.mpr ?_
    fin_cases i <;> fin_cases j <;> simp [S]

end Verif.SparseJac
