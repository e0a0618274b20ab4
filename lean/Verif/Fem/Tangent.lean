import Verif.Fem.Assembly
import Mathlib.Analysis.Calculus.Deriv.Add
import Mathlib.Analysis.Calculus.Deriv.Comp
import Mathlib.Analysis.Calculus.Deriv.Prod
import Mathlib.Analysis.Calculus.FDeriv.Pi
import Mathlib.Analysis.Calculus.Deriv.Mul

/-!
# Triplet lists and directional derivatives: lemmas for C14
-/
namespace Verif.Fem
open Finset

variable {nn nq nf nfq dim vec : ℕ}

/-- Specification: the product of the sparse matrix given by triplets with the vector `x`, row `r` (duplicates add up). -/
def cooMul (I J : List ℕ) (V : List ℝ) (x : ℕ → ℝ) (r : ℕ) : ℝ := ((I.zip (J.zip V)).map fun t => if t.1 = r then t.2.2 * x t.2.1 else 0).sum

theorem cooMul_append {I J : List ℕ} {V : List ℝ} (I' J' : List ℕ) (V' : List ℝ) (h1 : I.length = V.length) (h2 : J.length = V.length) (x : ℕ → ℝ) (r : ℕ) :
    cooMul (I ++ I') (J ++ J') (V ++ V') x r = cooMul I J V x r + cooMul I' J' V' x r := by
  unfold cooMul
  rw [List.zip_append h2, List.zip_append (by simp [h1, h2]), List.map_append, List.sum_append]

/-- All pairs (local node, component), row-major. -/
def locals (nn vec : ℕ) : List (Fin nn × Fin vec) := (List.finRange nn).flatMap fun n => (List.finRange vec).map fun i => (n, i)

theorem locals_length (nn vec : ℕ) : (locals nn vec).length = nn * vec := by
  simp [locals, List.length_flatMap, List.map_const', List.sum_replicate]

theorem sum_locals {M : Type*} [AddCommMonoid M] (f : Fin nn × Fin vec → M) : ((locals nn vec).map f).sum = ∑ n, ∑ i, f (n, i) := by
  have hfin : ∀ {k : ℕ} (g : Fin k → M), ((List.finRange k).map g).sum = ∑ j, g j := by
    intro k g
    rw [← List.ofFn_eq_map, List.sum_ofFn]
  unfold locals
  rw [sum_flatMap_map, hfin]
  refine sum_congr rfl fun n _ => ?_
  rw [List.map_map, hfin]
  rfl

theorem dofRow_eq (c : Fin nn → ℕ) : Fem.dofRow (vec := vec) c = (locals nn vec).map fun p => vec * c p.1 + p.2 := by
  unfold Fem.dofRow locals
  rw [List.map_flatMap]
  refine List.flatMap_congr fun n _ => ?_
  rw [List.map_map]
  rfl

theorem replicate_eq {α : Type*} (a : α) : List.replicate (nn * vec) a = (locals nn vec).map fun _ => a := by
  rw [List.map_const', locals_length]

theorem cooI_block (c : Fin nn → ℕ) :
    ((Fem.dofRow (vec := vec) c).flatMap fun a => List.replicate (nn * vec) a) = (locals nn vec).flatMap fun p => (locals nn vec).map fun _ => vec * c p.1 + p.2 := by
  rw [dofRow_eq, List.flatMap_map]
  exact List.flatMap_congr fun p _ => replicate_eq _

theorem cooJ_block (c : Fin nn → ℕ) :
    (List.replicate (nn * vec) (Fem.dofRow (vec := vec) c)).flatten = (locals nn vec).flatMap fun _ => (locals nn vec).map fun p' => vec * c p'.1 + (p'.2 : ℕ) := by
  rw [replicate_eq, dofRow_eq, List.flatMap_def]

theorem cooV_block (D : Fin nn → Fin vec → Fin nn → Fin vec → ℝ) :
    ((List.finRange nn).flatMap fun n => (List.finRange vec).flatMap fun i => (List.finRange nn).flatMap fun n' => (List.finRange vec).map fun i' => D n i n' i')
      = (locals nn vec).flatMap fun p => (locals nn vec).map fun p' => D p.1 p.2 p'.1 p'.2 := by
  unfold locals
  rw [List.flatMap_assoc]
  refine List.flatMap_congr fun n _ => ?_
  rw [List.flatMap_map]
  refine List.flatMap_congr fun i _ => ?_
  rw [List.map_flatMap]
  refine List.flatMap_congr fun n' _ => ?_
  rw [List.map_map]
  rfl

theorem cooMul_block (c : Fin nn → ℕ) (D : Fin nn → Fin vec → Fin nn → Fin vec → ℝ) (x : ℕ → ℝ) (r : ℕ) :
    cooMul ((locals nn vec).flatMap fun p => (locals nn vec).map fun _ => vec * c p.1 + p.2) ((locals nn vec).flatMap fun _ => (locals nn vec).map fun p' => vec * c p'.1 + (p'.2 : ℕ))
      ((locals nn vec).flatMap fun p => (locals nn vec).map fun p' => D p.1 p.2 p'.1 p'.2) x r
      = ∑ n, ∑ i : Fin vec, if vec * c n + i = r then ∑ n', ∑ i' : Fin vec, D n i n' i' * x (vec * c n' + i') else 0 := by
  unfold cooMul
  rw [zip_flatMap_map (locals nn vec) (fun _ => locals nn vec) (fun _ p' => vec * c p'.1 + (p'.2 : ℕ)) (fun p p' => D p.1 p.2 p'.1 p'.2),
    zip_flatMap_map (locals nn vec) (fun _ => locals nn vec) (fun p _ => vec * c p.1 + (p.2 : ℕ)) (fun p p' => (vec * c p'.1 + (p'.2 : ℕ), D p.1 p.2 p'.1 p'.2)), sum_flatMap_map, sum_locals]
  refine sum_congr rfl fun n _ => sum_congr rfl fun i _ => ?_
  rw [List.map_map, sum_locals]
  simp only [Function.comp_def]
  split_ifs <;> simp

theorem length_block {α : Type*} (f : Fin nn × Fin vec → Fin nn × Fin vec → α) :
    ((locals nn vec).flatMap fun p => (locals nn vec).map (f p)).length = nn * vec * (nn * vec) := by
  simp [List.length_flatMap, locals_length, List.map_const', List.sum_replicate]

theorem cooI_length (cells : List (Fin nn → ℕ)) : (Fem.cooI vec cells).length = cells.length * (nn * vec * (nn * vec)) := by
  unfold Fem.cooI
  simp only [cooI_block, List.length_flatMap, length_block, List.map_const', List.sum_replicate, smul_eq_mul]
  simp [locals_length]

theorem cooJ_length (cells : List (Fin nn → ℕ)) : (Fem.cooJ vec cells).length = cells.length * (nn * vec * (nn * vec)) := by
  unfold Fem.cooJ
  simp only [cooJ_block, List.length_flatMap, length_block, List.map_const', List.sum_replicate, smul_eq_mul]
  simp [locals_length]

theorem cooV_length (jacs : List (Fin nn → Fin vec → Fin nn → Fin vec → ℝ)) : (Fem.cooV jacs).length = jacs.length * (nn * vec * (nn * vec)) := by
  unfold Fem.cooV
  simp only [cooV_block, List.length_flatMap, length_block, List.map_const', List.sum_replicate, smul_eq_mul]
  simp [locals_length]

theorem cooMul_cells (x : ℕ → ℝ) (r : ℕ) : ∀ (cells : List (Fin nn → ℕ)) (jacs : List (Fin nn → Fin vec → Fin nn → Fin vec → ℝ)), cells.length = jacs.length →
    cooMul (Fem.cooI vec cells) (Fem.cooJ vec cells) (Fem.cooV jacs) x r
      = ((cells.zip jacs).map fun p => ∑ n, ∑ i : Fin vec, if vec * p.1 n + i = r then ∑ n', ∑ i' : Fin vec, p.2 n i n' i' * x (vec * p.1 n' + i') else 0).sum
  | [], [], _ => rfl
  | c :: cs, D :: Ds, h => by
    have ih := cooMul_cells x r cs Ds (by simpa using h)
    have e1 : Fem.cooI vec (c :: cs) = ((locals nn vec).flatMap fun p => (locals nn vec).map fun _ => vec * c p.1 + p.2) ++ Fem.cooI vec cs := by
      rw [← cooI_block]; rfl
    have e2 : Fem.cooJ vec (c :: cs) = ((locals nn vec).flatMap fun _ => (locals nn vec).map fun p' => vec * c p'.1 + (p'.2 : ℕ)) ++ Fem.cooJ vec cs := by
      rw [← cooJ_block]; rfl
    have e3 : Fem.cooV (D :: Ds) = ((locals nn vec).flatMap fun p => (locals nn vec).map fun p' => D p.1 p.2 p'.1 p'.2) ++ Fem.cooV Ds := by
      rw [← cooV_block]; rfl
    rw [e1, e2, e3, cooMul_append _ _ _ ?_ ?_, cooMul_block, ih]
    · rfl
    · rw [length_block, length_block]
    · rw [length_block, length_block]

theorem dof_inj {a b : ℕ} {i j : Fin vec} : vec * a + (i : ℕ) = vec * b + j ↔ a = b ∧ i = j := by
  constructor
  · intro h
    have hv : 0 < vec := lt_of_le_of_lt (Nat.zero_le _) i.isLt
    have h1 := congrArg (· / vec) h
    have h2 := congrArg (· % vec) h
    simp only [Nat.mul_add_div hv, Nat.div_eq_of_lt i.isLt, Nat.div_eq_of_lt j.isLt, add_zero, Nat.mul_add_mod, Nat.mod_eq_of_lt i.isLt, Nat.mod_eq_of_lt j.isLt] at h1 h2
    exact ⟨h1, Fin.ext h2⟩
  · rintro ⟨rfl, rfl⟩
    rfl

/-- Row `vec * n + i` of the product: only the local nodes that are node `n` contribute. -/
theorem cooMul_row (cells : List (Fin nn → ℕ)) (jacs : List (Fin nn → Fin vec → Fin nn → Fin vec → ℝ)) (h : cells.length = jacs.length) (x : ℕ → ℝ) (v : ℕ → Fin vec → ℝ)
    (hx : ∀ n (i : Fin vec), x (vec * n + i) = v n i) (n : ℕ) (i : Fin vec) :
    cooMul (Fem.cooI vec cells) (Fem.cooJ vec cells) (Fem.cooV jacs) x (vec * n + i)
      = ((cells.zip jacs).map fun p => ∑ a, if p.1 a = n then ∑ n', ∑ i', p.2 a i n' i' * v (p.1 n') i' else 0).sum := by
  rw [cooMul_cells x _ cells jacs h]
  congr 1
  refine List.map_congr_left fun p _ => sum_congr rfl fun a _ => ?_
  simp only [dof_inj, hx]
  by_cases ha : p.1 a = n
  · simp [ha]
  · simp [ha]

/-! ## Derivatives -/

theorem jacOf_mul (f : (Fin nn → Fin vec → ℝ) → Fin nn → Fin vec → ℝ) (x w : Fin nn → Fin vec → ℝ) (n : Fin nn) (i : Fin vec) :
    ∑ n', ∑ i', jacOf f x n i n' i' * w n' i' = fderiv ℝ f x w n i := by
  have hw : w = ∑ n', ∑ i', w n' i' • (Pi.single n' (Pi.single i' (1 : ℝ)) : Fin nn → Fin vec → ℝ) := by
    funext a b
    simp only [Finset.sum_apply, Pi.smul_apply, smul_eq_mul]
    rw [sum_eq_single a, sum_eq_single b]
    · simp
    · intro c _ hc
      simp [Pi.single_apply, hc.symm]
    · simp
    · intro c _ hc
      refine sum_eq_zero fun d _ => ?_
      simp [Pi.single_apply, hc.symm]
    · simp
  conv_rhs => rw [hw, map_sum]
  simp only [map_sum, map_smul, Finset.sum_apply, Pi.smul_apply, smul_eq_mul, jacOf]
  exact sum_congr rfl fun _ _ => sum_congr rfl fun _ _ => mul_comm _ _

theorem hasDerivAt_line (f : (Fin nn → Fin vec → ℝ) → Fin nn → Fin vec → ℝ) (x w : Fin nn → Fin vec → ℝ) (hf : DifferentiableAt ℝ f x) (n : Fin nn) (i : Fin vec) :
    HasDerivAt (fun t : ℝ => f (x + t • w) n i) (fderiv ℝ f x w n i) 0 := by
  have h1 : HasDerivAt (fun t : ℝ => x + t • w) w 0 := by
    simpa using ((hasDerivAt_id (0 : ℝ)).smul_const w).const_add x
  have h2 : HasFDerivAt f (fderiv ℝ f x) (x + (0 : ℝ) • w) := by
    simpa using hf.hasFDerivAt
  have h3 : HasDerivAt (fun t : ℝ => f (x + t • w)) (fderiv ℝ f x w) 0 := h2.comp_hasDerivAt (0 : ℝ) h1
  exact hasDerivAt_pi.mp (hasDerivAt_pi.mp h3 n) i

theorem HasDerivAt.list_sum {α : Type*} (l : List α) (f : α → ℝ → ℝ) (f' : α → ℝ) (x : ℝ) (h : ∀ a ∈ l, HasDerivAt (f a) (f' a) x) :
    HasDerivAt (fun t => (l.map fun a => f a t).sum) ((l.map f').sum) x := by
  induction l with
  | nil => exact hasDerivAt_const x 0
  | cons a l ih =>
    simp only [List.map_cons, List.sum_cons]
    exact (h a (by simp)).add (ih fun b hb => h b (by simp [hb]))

theorem hasDerivAt_nodal (c : Fin nn → ℕ) (n : ℕ) (i : Fin vec) (f : (Fin nn → Fin vec → ℝ) → Fin nn → Fin vec → ℝ) (sol v : ℕ → Fin vec → ℝ)
    (hf : DifferentiableAt ℝ f fun a => sol (c a)) :
    HasDerivAt (fun t : ℝ => ∑ a, if c a = n then f (fun b => (sol + t • v) (c b)) a i else 0)
      (∑ a, if c a = n then ∑ n', ∑ i', jacOf f (fun a => sol (c a)) a i n' i' * v (c n') i' else 0) 0 := by
  refine HasDerivAt.fun_sum fun a _ => ?_
  split_ifs with h
  · rw [jacOf_mul f (fun a => sol (c a)) (fun a => v (c a))]
    exact hasDerivAt_line f (fun a => sol (c a)) (fun a => v (c a)) hf a i
  · exact hasDerivAt_const _ _

end Verif.Fem
