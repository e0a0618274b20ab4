import Verif.Fem.MultiScaleData
import Mathlib.Analysis.SpecialFunctions.Trigonometric.DerivHyp
import Mathlib.Analysis.SpecialFunctions.Log.Deriv
import Mathlib.LinearAlgebra.Matrix.Rank

/-!
# C124: training of the surrogate (model of applications/fem/multi_scale/trainer.py)

Not modelled: the Adam steps, pickling, plotting. `jax.random.permutation` is an arbitrary permutation of the indices. The products `0.8 * n`, `0.9 * n` are exact here.
-/
namespace Verif.Fem
open Finset Matrix

/-! ## Loading and splitting the data -/

/-- The directory written by `collect_data` (rve.py 169-170). -/
def collectDir : String := "11012022"

/-- The directory read by `load_data` (trainer.py 38-39). -/
def trainDir : String := "09052022"

/-- `H_to_C` (trainer.py 23-28). -/
def hToC (H_flat : Fin 6 → ℝ) : (Fin 6 → ℝ) × T33 :=
  let H := flatToTensor H_flat
  let F := H + 1
  let C := Fᵀ * F
  (tensorToFlat C, C)

/-- `load_data` (trainer.py 37-45): `disk d` lists the rows stored in directory `d`; `none` is the failing assertion. -/
noncomputable def loadData (L : ℝ) (disk : String → List ((Fin 6 → ℝ) × ℝ)) : Option (List ((Fin 6 → ℝ) × ℝ)) :=
  if 0 < (disk trainDir).length then some ((disk trainDir).map fun r => (r.1, r.2 / L ^ 3)) else none

/-- `transform_data` (trainer.py 31-34). -/
def transformData (rows : List ((Fin 6 → ℝ) × ℝ)) : List ((Fin 6 → ℝ) × ℝ) := rows.map fun r => ((hToC r.1).1, r.2)

/-- `shuffle_data` (trainer.py 82-99) with `inds` the random permutation: training, validation and test rows. -/
def shuffleData {R : Type} [Inhabited R] (data : List R) (inds : List ℕ) : List R × List R × List R :=
  let n_samps := data.length
  let n1 := 8 * n_samps / 10
  let n2 := 9 * n_samps / 10
  ((inds.take n1).map fun i => data.getD i default, ((inds.take n2).drop n1).map fun i => data.getD i default, (inds.drop n2).map fun i => data.getD i default)

/-- `DataLoader(..., batch_size=b, shuffle=False)` (trainer.py 96-98): consecutive pieces, the last one shorter. -/
def dataLoader {R : Type} (b : ℕ) (data : List R) : List (List R) := (List.range ((data.length + b - 1) / b)).map fun k => (data.drop (k * b)).take b

/-- `loss_fn` (trainer.py 215-219). -/
def lossFn {X : Type} (forward : X → ℝ) (batch : List (X × ℝ)) : ℝ := (batch.map fun r => (forward r.1 - r.2) ^ 2).sum

/-! ## Errors -/

/-- Division of doubles. -/
noncomputable def Fl.div : Fl → Fl → Fl
  | .nan, _ => .nan
  | _, .nan => .nan
  | .fin a, .fin b => open Classical in if b = 0 then (if a = 0 then .nan else if 0 < a then .pinf else .ninf) else .fin (a / b)
  | .fin _, _ => .fin 0
  | .pinf, .fin b => open Classical in if 0 ≤ b then .pinf else .ninf
  | .ninf, .fin b => open Classical in if 0 ≤ b then .ninf else .pinf
  | _, _ => .nan

/-- `np.absolute`. -/
noncomputable def Fl.abs : Fl → Fl
  | .fin x => .fin |x|
  | .nan => .nan
  | _ => .pinf

/-- Difference of doubles. -/
noncomputable def Fl.sub (x y : Fl) : Fl := x.add y.neg

/-- `np.sum`. -/
noncomputable def Fl.sum (l : List Fl) : Fl := l.foldl Fl.add (.fin 0)

/-- `min_max_scale` of one number (trainer.py 102-103); `none`: `np.min` of an empty array. -/
noncomputable def minMaxScale (v : ℝ) (train_y : List ℝ) : Option Fl := do
  let lo ← train_y.min?
  let hi ← train_y.max?
  pure (Fl.div (.fin (v - lo)) (.fin (hi - lo)))

/-- `evaluate_errors` (trainer.py 106-124): scaled mean square error, percent errors, scaled truth and scaled predictions; `none`: reduction of an empty array. -/
noncomputable def evaluateErrors {X : Type} (partial_data train_data : List (X × ℝ)) (forward : X → ℝ) : Option (Fl × List Fl × List Fl × List Fl) := do
  let train_y := train_data.map (·.2)
  let scaled_true ← partial_data.mapM fun r => minMaxScale r.2 train_y
  let scaled_preds ← partial_data.mapM fun r => minMaxScale (forward r.1) train_y
  let _ ← train_y.min?
  let compare := scaled_true.zip scaled_preds
  let absolute_error := compare.map fun p => Fl.abs (Fl.sub p.1 p.2)
  let percent_error := (absolute_error.zip compare).map fun p => Fl.abs (Fl.div p.1 p.2.1)
  let scaled_MSE := Fl.div (Fl.sum (compare.map fun p => Fl.mul (Fl.sub p.1 p.2) (Fl.sub p.1 p.2))) (.fin compare.length)
  if percent_error.length = 0 then none
  else some (scaled_MSE, percent_error, scaled_true, scaled_preds)

/-! ## Polynomial fit -/

/-- `I1_fn`, `I2_fn`, `I3_fn` (trainer.py 131-138). -/
def I1Fn (C : T33) : ℝ := C.trace
noncomputable def I2Fn (C : T33) : ℝ := 0.5 * (C.trace ^ 2 - (C * C).trace)
def I3Fn (C : T33) : ℝ := C.det

/-- `I1_bar_fn`, `I2_bar_fn` (trainer.py 140-144). -/
noncomputable def I1Bar (C : T33) : ℝ := I3Fn C ^ (-1 / 3 : ℝ) * I1Fn C
noncomputable def I2Bar (C : T33) : ℝ := I3Fn C ^ (-2 / 3 : ℝ) * I2Fn C

/-- `poly_psi` (trainer.py 146-158). -/
noncomputable def polyPsi (C : T33) : List ℝ :=
  let terms := (List.range 3).flatMap fun i => (List.range 3).map fun j => (I2Bar C - 3) ^ i * (I1Bar C - 3) ^ j
  let terms := terms ++ (List.range' 1 2).map fun k => (Real.sqrt (I3Fn C) - 3) ^ (2 * k)
  terms.drop 1

/-- `y_pred` (trainer.py 164). -/
noncomputable def lsPredict {N : ℕ} (X : Matrix (Fin N) (Fin 10) ℝ) (y : Fin N → ℝ) : Fin N → ℝ := X *ᵥ (((Xᵀ * X)⁻¹ * Xᵀ) *ᵥ y)

/-! ## Networks -/

/-- Parameters of `Dense(n)` on inputs of size `m`. -/
structure DenseP (m n : ℕ) where
  W : Matrix (Fin m) (Fin n) ℝ
  b : Fin n → ℝ

/-- `x @ W + b`. -/
def DenseP.apply {m n : ℕ} (D : DenseP m n) (x : Fin m → ℝ) : Fin n → ℝ := x ᵥ* D.W + D.b

/-- Parameters of the network of `get_mlp` (trainer.py 73-79) with `k` hidden layers of width `w` on inputs of size `m`. -/
inductive MlpP (w : ℕ) : ℕ → ℕ → Type
  | last {m : ℕ} (D : DenseP m 1) : MlpP w m 0
  | hidden {m k : ℕ} (D : DenseP m w) (rest : MlpP w w k) : MlpP w m (k + 1)

/-- The activations of `jax.example_libraries.stax` chosen in `get_mlp` (trainer.py 60-71); `none` is the `ValueError`. -/
noncomputable def actFun (name : String) : Option (ℝ → ℝ) :=
  if name = "selu" then some fun x => 1.0507009873554805 * (open Classical in if 0 < x then x else 1.6732632423543772 * (Real.exp x - 1))
  else if name = "tanh" then some Real.tanh
  else if name = "relu" then some fun x => max x 0
  else if name = "sigmoid" then some fun x => 1 / (1 + Real.exp (-x))
  else if name = "softplus" then some fun x => Real.log (1 + Real.exp x)
  else none

/-- `nn_batch_forward` of `stax.serial` (trainer.py 78) on one row. -/
def MlpP.forward (act : ℝ → ℝ) {w : ℕ} : {m k : ℕ} → MlpP w m k → (Fin m → ℝ) → ℝ
  | _, _, .last D, x => D.apply x 0
  | _, _, .hidden D rest, x => rest.forward act fun i => act (D.apply x i)

/-! ## C124 -/

/-- **C124 (split).** For every permutation the three parts are a partition of the rows, of sizes `⌊0.8 n⌋`, `⌊0.9 n⌋ - ⌊0.8 n⌋` and `n - ⌊0.9 n⌋`; with at most five rows the validation part is empty, with six or more none is. -/
theorem C124_split {R : Type} [Inhabited R] (data : List R) (inds : List ℕ) (hp : inds.Perm (List.range data.length)) :
    ((shuffleData data inds).1 ++ (shuffleData data inds).2.1 ++ (shuffleData data inds).2.2).Perm data ∧
    (shuffleData data inds).1.length = 8 * data.length / 10 ∧ (shuffleData data inds).2.1.length = 9 * data.length / 10 - 8 * data.length / 10 ∧
    (shuffleData data inds).2.2.length = data.length - 9 * data.length / 10 ∧
    (data.length ≤ 5 → (shuffleData data inds).2.1 = []) ∧ (6 ≤ data.length → (shuffleData data inds).1 ≠ [] ∧ (shuffleData data inds).2.1 ≠ [] ∧ (shuffleData data inds).2.2 ≠ []) := by
  have hl : inds.length = data.length := by rw [hp.length_eq, List.length_range]
  have l1 : (shuffleData data inds).1.length = 8 * data.length / 10 := by simp [shuffleData, hl]; omega
  have l2 : (shuffleData data inds).2.1.length = 9 * data.length / 10 - 8 * data.length / 10 := by simp [shuffleData, hl]; omega
  have l3 : (shuffleData data inds).2.2.length = data.length - 9 * data.length / 10 := by simp [shuffleData, hl]
  refine ⟨?_, l1, l2, l3, fun h => ?_, fun h => ⟨?_, ?_, ?_⟩⟩
  · have e : inds.take (8 * data.length / 10) ++ (inds.take (9 * data.length / 10)).drop (8 * data.length / 10) ++ inds.drop (9 * data.length / 10) = inds := by
      have h1 : inds.take (8 * data.length / 10) = (inds.take (9 * data.length / 10)).take (8 * data.length / 10) := by
        rw [List.take_take]
        congr 1
        omega
      rw [h1, List.take_append_drop, List.take_append_drop]
    unfold shuffleData
    dsimp only
    rw [← List.map_append, ← List.map_append, e]
    refine (hp.map _).trans ?_
    have : (List.range data.length).map (fun i => data.getD i default) = data := by
      refine List.ext_getElem (by simp) fun i h1 h2 => ?_
      simp [List.getD_eq_getElem?_getD, List.getElem?_eq_getElem h2]
    rw [this]
  · exact List.length_eq_zero_iff.mp (by omega)
  · intro h0; rw [h0] at l1; simp at l1; omega
  · intro h0; rw [h0] at l2; simp at l2; omega
  · intro h0; rw [h0] at l3; simp at l3; omega

theorem dataLoader_flatten {R : Type} (b : ℕ) (hb : 0 < b) (data : List R) : (dataLoader b data).flatten = data := by
  unfold dataLoader
  have key : ∀ k, ((List.range k).map fun k => (data.drop (k * b)).take b).flatten = data.take (k * b) := by
    intro k
    induction k with
    | zero => simp
    | succ k ih =>
      rw [List.range_succ, List.map_append, List.flatten_append, ih]
      simp only [List.map_cons, List.map_nil, List.flatten_cons, List.flatten_nil, List.append_nil]
      rw [show (k + 1) * b = k * b + b by ring, List.take_add]
  rw [key, List.take_of_length_le]
  have := Nat.div_add_mod (data.length + b - 1) b
  have h2 := Nat.mod_lt (data.length + b - 1) hb
  rw [mul_comm b] at this
  omega

/-- **C124 (batches).** One epoch visits every row exactly once in the given order, no batch is empty or larger than the batch size; for fixed parameters the losses of the batches add up to the sum of squares over the data. -/
theorem C124_batches {X : Type} (b : ℕ) (hb : 0 < b) (data : List (X × ℝ)) (forward : X → ℝ) :
    (dataLoader b data).flatten = data ∧ (∀ B ∈ dataLoader b data, B ≠ [] ∧ B.length ≤ b) ∧ ((dataLoader b data).map (lossFn forward)).sum = (data.map fun r => (forward r.1 - r.2) ^ 2).sum := by
  refine ⟨dataLoader_flatten b hb data, fun B hB => ?_, ?_⟩
  · unfold dataLoader at hB
    obtain ⟨k, hk, rfl⟩ := List.mem_map.mp hB
    have hk' := List.mem_range.mp hk
    have h1 : k * b < data.length := by
      have h2 : (k + 1) * b ≤ data.length + b - 1 := (Nat.le_div_iff_mul_le hb).mp hk'
      have h3 : (k + 1) * b = k * b + b := by ring
      omega
    constructor
    · intro h0
      have := congrArg List.length h0
      simp at this
      omega
    · simp
  · conv_rhs => rw [← dataLoader_flatten b hb data]
    rw [List.map_flatten, List.sum_flatten, List.map_map]
    rfl

/-- **C124 (directories).** `load_data` returns what is stored in the directory `09052022`, energies divided by the volume; what `collect_data` stores (directory `11012022`) is not read. -/
theorem C124_directories (L : ℝ) (disk : String → List ((Fin 6 → ℝ) × ℝ)) (new : List ((Fin 6 → ℝ) × ℝ)) :
    loadData L (Function.update disk collectDir new) = loadData L disk ∧ (disk trainDir = [] → loadData L (Function.update disk collectDir new) = none) := by
  have h : Function.update disk collectDir new trainDir = disk trainDir := Function.update_of_ne (by decide) _ _
  unfold loadData
  rw [h]
  exact ⟨rfl, fun h0 => by rw [h0]; rfl⟩

/-- **C124 (from data to deployment).** If the network reproduces one row of the transformed data, then in the deployed material the energy density of that row times the cell volume is the stored energy, for the stretch of
the sample followed by any rotation. -/
theorem C124_pipeline (L : ℝ) (hL : 0 < L) (disk : String → List ((Fin 6 → ℝ) × ℝ)) (rows : List ((Fin 6 → ℝ) × ℝ)) (hrows : loadData L disk = some rows) (net : (Fin 6 → ℝ) → ℝ) (r : (Fin 6 → ℝ) × ℝ)
    (hr : r ∈ disk trainDir) (hfit : ∀ t ∈ transformData rows, net t.1 = t.2) (Q : T33) (hQ : Qᵀ * Q = 1) : nnPsi net (Q * (1 + flatToTensor r.1)) * L ^ 3 = r.2 := by
  unfold loadData at hrows
  rw [if_pos (List.length_pos_of_mem hr)] at hrows
  obtain rfl := Option.some.inj hrows
  have h := hfit ((hToC r.1).1, r.2 / L ^ 3) (by
    unfold transformData
    rw [List.map_map]
    exact List.mem_map.mpr ⟨r, hr, rfl⟩)
  rw [(C120_network net (1 + flatToTensor r.1) Q hQ).1]
  unfold nnPsi
  rw [add_comm]
  have h' : net (tensorToFlat ((flatToTensor r.1 + 1)ᵀ * (flatToTensor r.1 + 1))) = r.2 / L ^ 3 := h
  rw [h']
  field_simp

theorem min_le_max {l : List ℝ} {lo hi : ℝ} (h1 : l.min? = some lo) (h2 : l.max? = some hi) : lo ∈ l ∧ hi ∈ l ∧ ∀ x ∈ l, lo ≤ x ∧ x ≤ hi := by
  obtain ⟨a1, a2⟩ := List.min?_eq_some_iff.mp h1
  obtain ⟨b1, b2⟩ := List.max?_eq_some_iff.mp h2
  exact ⟨a1, b1, fun x hx => ⟨a2 x hx, b2 x hx⟩⟩

theorem fl_sum (l : List ℝ) : Fl.sum (l.map Fl.fin) = .fin l.sum := by
  unfold Fl.sum
  have : ∀ (l : List ℝ) (a : ℝ), (l.map Fl.fin).foldl Fl.add (.fin a) = .fin (a + l.sum) := by
    intro l
    induction l with
    | nil => intro a; simp
    | cons x l ih => intro a; simp only [List.map_cons, List.foldl_cons, List.sum_cons]; rw [show Fl.add (.fin a) (.fin x) = .fin (a + x) from rfl, ih, add_assoc]
  rw [this, zero_add]

theorem mapM_some {α β : Type} (l : List α) (f : α → Option β) (g : α → β) (h : ∀ a ∈ l, f a = some (g a)) : l.mapM f = some (l.map g) := by
  induction l with
  | nil => rfl
  | cons a l ih => rw [List.mapM_cons, h a (by simp), ih fun b hb => h b (by simp [hb])]; rfl

theorem zip_map_map {α β γ : Type} (l : List α) (f : α → β) (g : α → γ) : (l.map f).zip (l.map g) = l.map fun a => (f a, g a) := by
  induction l with
  | nil => rfl
  | cons a l ih => simp [ih]

/-- **C124 (scaled error).** If the training energies are not all equal, the scaled error of a nonempty set is finite, equals the mean square error divided by the square of the range of the training energies, and is zero
iff every prediction is right; training energies are scaled into `[0, 1]`. On an empty set the function raises. -/
theorem C124_errors {X : Type} (data train : List (X × ℝ)) (forward : X → ℝ) (lo hi : ℝ) (hlo : (train.map (·.2)).min? = some lo) (hhi : (train.map (·.2)).max? = some hi) (hne : lo ≠ hi) :
    (data = [] → evaluateErrors data train forward = none) ∧
    (data ≠ [] → ∃ pe st sp, evaluateErrors data train forward = some (.fin ((data.map fun r => (r.2 - forward r.1) ^ 2).sum / (hi - lo) ^ 2 / data.length), pe, st, sp) ∧
      st = data.map (fun r => Fl.fin ((r.2 - lo) / (hi - lo))) ∧ sp = data.map (fun r => Fl.fin ((forward r.1 - lo) / (hi - lo))) ∧
      ((data.map fun r => (r.2 - forward r.1) ^ 2).sum / (hi - lo) ^ 2 / data.length = 0 ↔ ∀ r ∈ data, forward r.1 = r.2)) ∧
    ∀ r ∈ train, 0 ≤ (r.2 - lo) / (hi - lo) ∧ (r.2 - lo) / (hi - lo) ≤ 1 := by
  obtain ⟨m1, m2, hb⟩ := min_le_max hlo hhi
  have hlt : 0 < hi - lo := by have := (hb lo m1).2; exact sub_pos.mpr (lt_of_le_of_ne this hne)
  have hsc : ∀ v, minMaxScale v (train.map (·.2)) = some (.fin ((v - lo) / (hi - lo))) := by
    intro v
    unfold minMaxScale
    simp only [hlo, hhi, bind, Option.bind, pure, Fl.div]
    rw [if_neg hlt.ne']
  have hev : evaluateErrors data train forward = if (data.map fun r => Fl.abs (Fl.div (Fl.abs (Fl.sub (.fin ((r.2 - lo) / (hi - lo))) (.fin ((forward r.1 - lo) / (hi - lo))))) (.fin ((r.2 - lo) / (hi - lo))))).length = 0 then none
      else some (Fl.div (Fl.sum (data.map fun r => Fl.fin ((r.2 - forward r.1) ^ 2 / (hi - lo) ^ 2))) (.fin data.length),
        data.map fun r => Fl.abs (Fl.div (Fl.abs (Fl.sub (.fin ((r.2 - lo) / (hi - lo))) (.fin ((forward r.1 - lo) / (hi - lo))))) (.fin ((r.2 - lo) / (hi - lo)))),
        data.map fun r => Fl.fin ((r.2 - lo) / (hi - lo)), data.map fun r => Fl.fin ((forward r.1 - lo) / (hi - lo))) := by
    unfold evaluateErrors
    dsimp only
    rw [mapM_some data _ (fun r => Fl.fin ((r.2 - lo) / (hi - lo))) fun r _ => hsc r.2, mapM_some data _ (fun r => Fl.fin ((forward r.1 - lo) / (hi - lo))) fun r _ => hsc _]
    simp only [hlo, bind, Option.bind]
    rw [zip_map_map]
    simp only [List.map_map, zip_map_map, List.length_map]
    have e : ∀ r : X × ℝ, Fl.mul (Fl.sub (.fin ((r.2 - lo) / (hi - lo))) (.fin ((forward r.1 - lo) / (hi - lo)))) (Fl.sub (.fin ((r.2 - lo) / (hi - lo))) (.fin ((forward r.1 - lo) / (hi - lo)))) =
        Fl.fin ((r.2 - forward r.1) ^ 2 / (hi - lo) ^ 2) := by
      intro r
      show Fl.fin (((r.2 - lo) / (hi - lo) + -((forward r.1 - lo) / (hi - lo))) * ((r.2 - lo) / (hi - lo) + -((forward r.1 - lo) / (hi - lo)))) = _
      congr 1
      field_simp
      ring
    simp only [Function.comp_def, e]
  refine ⟨fun h0 => ?_, fun h0 => ?_, fun r hr => ?_⟩
  · rw [hev, h0]
    rfl
  · have hpos : 0 < data.length := List.length_pos_iff.mpr h0
    have hpos' : (data.length : ℝ) ≠ 0 := by exact_mod_cast hpos.ne'
    refine ⟨data.map fun r => Fl.abs (Fl.div (Fl.abs (Fl.sub (.fin ((r.2 - lo) / (hi - lo))) (.fin ((forward r.1 - lo) / (hi - lo))))) (.fin ((r.2 - lo) / (hi - lo)))), _, _, ?_, rfl, rfl, ?_⟩
    · rw [hev, if_neg (by rw [List.length_map]; omega)]
      have e : (data.map fun r => Fl.fin ((r.2 - forward r.1) ^ 2 / (hi - lo) ^ 2)) = (data.map fun r => (r.2 - forward r.1) ^ 2 / (hi - lo) ^ 2).map Fl.fin := by rw [List.map_map]; rfl
      rw [e, fl_sum]
      have e2 : (data.map fun r => (r.2 - forward r.1) ^ 2 / (hi - lo) ^ 2).sum = (data.map fun r => (r.2 - forward r.1) ^ 2).sum / (hi - lo) ^ 2 := by
        simp only [div_eq_mul_inv]
        rw [List.sum_map_mul_right]
      rw [e2]
      show some (Fl.div (.fin _) (.fin _), _) = _
      simp only [Fl.div]
      rw [if_neg hpos']
    · rw [div_eq_zero_iff, or_iff_left hpos', div_eq_zero_iff, or_iff_left (pow_ne_zero 2 hlt.ne')]
      constructor
      · intro hs r hr
        have hnn : ∀ x ∈ data.map (fun r => (r.2 - forward r.1) ^ 2), 0 ≤ x := by
          intro x hx
          obtain ⟨r, -, rfl⟩ := List.mem_map.mp hx
          positivity
        have h1 := List.single_le_sum hnn _ (List.mem_map.mpr ⟨r, hr, rfl⟩)
        rw [hs] at h1
        have h2 : r.2 - forward r.1 = 0 := by
          have := sq_nonneg (r.2 - forward r.1)
          exact pow_eq_zero_iff (two_ne_zero) |>.mp (le_antisymm h1 this)
        linarith
      · intro hs
        refine List.sum_eq_zero fun x hx => ?_
        obtain ⟨r, hr, rfl⟩ := List.mem_map.mp hx
        rw [hs r hr]
        ring
  · obtain ⟨h1, h2⟩ := hb r.2 (List.mem_map.mpr ⟨r, hr, rfl⟩)
    exact ⟨div_nonneg (by linarith) hlt.le, (div_le_one hlt).mpr (by linarith)⟩

/-- **C124 (percent error).** Evaluated on the training rows themselves, the list of percent errors always has an entry that is infinite or NaN: the smallest energy is scaled to zero and divides the error. -/
theorem C124_percent {X : Type} (train : List (X × ℝ)) (forward : X → ℝ) (out : Fl × List Fl × List Fl × List Fl) (h : evaluateErrors train train forward = some out) : ∃ e ∈ out.2.1, e.isFinite = false := by
  unfold evaluateErrors at h
  dsimp only at h
  cases hlo : (train.map (·.2)).min? with
  | none =>
    have h0 : train = [] := by simpa using hlo
    subst h0
    cases h
  | some lo =>
    cases hhi : (train.map (·.2)).max? with
    | none =>
      have h0 : train = [] := by simpa using hhi
      subst h0
      cases h
    | some hi =>
      obtain ⟨m1, m2, hb⟩ := min_le_max hlo hhi
      have hsc : ∀ v, minMaxScale v (train.map (·.2)) = some (Fl.div (.fin (v - lo)) (.fin (hi - lo))) := by
        intro v
        unfold minMaxScale
        simp only [hlo, hhi, bind, Option.bind, pure]
      rw [mapM_some train _ (fun r => Fl.div (.fin (r.2 - lo)) (.fin (hi - lo))) fun r _ => hsc r.2, mapM_some train _ (fun r => Fl.div (.fin (forward r.1 - lo)) (.fin (hi - lo))) fun r _ => hsc _] at h
      simp only [hlo, bind, Option.bind] at h
      rw [zip_map_map] at h
      simp only [List.map_map, zip_map_map, List.length_map] at h
      by_cases h0 : train.length = 0
      · rw [if_pos h0] at h; cases h
      · rw [if_neg h0] at h
        obtain rfl := Option.some.inj h
        obtain ⟨r, hr, hrl⟩ := List.mem_map.mp m1
        refine ⟨_, List.mem_map.mpr ⟨r, hr, rfl⟩, ?_⟩
        simp only [Function.comp_def]
        rw [hrl, sub_self]
        by_cases hr0 : hi - lo = 0
        · simp [Fl.div, hr0, Fl.sub, Fl.add, Fl.abs, Fl.isFinite]
        · simp only [Fl.div, hr0, if_false, zero_div, Fl.sub, Fl.neg, Fl.add, Fl.abs, if_true]
          split_ifs <;> rfl

/-- **C124 (polynomial features).** Ten features; unchanged by every rotation of the reference frame; the first eight are unchanged by every change of volume; in the undeformed state the first eight vanish but the last two
are 4 and 16 (the volume ratio is compared with 3 instead of 1), so that a fit has energy `4 a + 16 b` at rest. -/
theorem C124_poly (C Q : T33) (hQ : Qᵀ * Q = 1) (s : ℝ) (hs : 0 < s) (hC : 0 < C.det) :
    (polyPsi C).length = 10 ∧ polyPsi (Qᵀ * C * Q) = polyPsi C ∧ (polyPsi (s • C)).take 8 = (polyPsi C).take 8 ∧ polyPsi 1 = [0, 0, 0, 0, 0, 0, 0, 0, 4, 16] := by
  have hQ' : Q * Qᵀ = 1 := mul_eq_one_comm.mp hQ
  have t1 : (Qᵀ * C * Q).trace = C.trace := by rw [Matrix.trace_mul_comm, ← Matrix.mul_assoc, hQ', Matrix.one_mul]
  have t2 : (Qᵀ * C * Q * (Qᵀ * C * Q)).trace = (C * C).trace := by
    have e : Qᵀ * C * Q * (Qᵀ * C * Q) = Qᵀ * (C * C) * Q := by
      rw [show Qᵀ * C * Q * (Qᵀ * C * Q) = Qᵀ * C * (Q * Qᵀ) * (C * Q) by simp only [Matrix.mul_assoc], hQ', Matrix.mul_one]
      simp only [Matrix.mul_assoc]
    rw [e, Matrix.trace_mul_comm, ← Matrix.mul_assoc, hQ', Matrix.one_mul]
  have t3 : (Qᵀ * C * Q).det = C.det := by
    have := congrArg Matrix.det hQ
    rw [Matrix.det_mul, Matrix.det_one] at this
    rw [Matrix.det_mul, Matrix.det_mul]
    linear_combination C.det * this
  refine ⟨?_, ?_, ?_, ?_⟩
  · simp [polyPsi, List.range_succ]
  · simp only [polyPsi, I1Bar, I2Bar, I1Fn, I2Fn, I3Fn, t1, t2, t3]
  · have d : I3Fn (s • C) = s ^ 3 * I3Fn C := by unfold I3Fn; rw [Matrix.det_smul]; rfl
    have b1 : I1Bar (s • C) = I1Bar C := by
      unfold I1Bar
      rw [d]
      have : I1Fn (s • C) = s * I1Fn C := by unfold I1Fn; rw [Matrix.trace_smul]; rfl
      rw [this, Real.mul_rpow (by positivity) (show 0 ≤ I3Fn C from hC.le), ← Real.rpow_natCast s 3, ← Real.rpow_mul hs.le]
      norm_num
      rw [Real.rpow_neg_one]
      field_simp
    have b2 : I2Bar (s • C) = I2Bar C := by
      unfold I2Bar
      rw [d]
      have : I2Fn (s • C) = s ^ 2 * I2Fn C := by
        unfold I2Fn
        rw [Matrix.trace_smul, Matrix.smul_mul, Matrix.mul_smul, Matrix.trace_smul, Matrix.trace_smul]
        simp only [smul_eq_mul]
        ring
      rw [this, Real.mul_rpow (by positivity) (show 0 ≤ I3Fn C from hC.le), ← Real.rpow_natCast s 3, ← Real.rpow_mul hs.le]
      norm_num
      field_simp
    simp [polyPsi, List.range_succ, b1, b2]
  · have i3 : I3Fn 1 = 1 := by simp [I3Fn]
    have i1 : I1Bar 1 = 3 := by simp [I1Bar, i3, I1Fn]
    have i2 : I2Bar 1 = 3 := by simp [I2Bar, i3, I2Fn]; norm_num
    simp [polyPsi, List.range_succ, List.range', i1, i2, i3]
    norm_num

/-- **C124 (least squares).** If `XᵀX` is regular, the residual of the fit is orthogonal to all features and no other weights give a smaller sum of squares; with fewer than ten samples `XᵀX` is never regular. -/
theorem C124_least_squares {N : ℕ} (X : Matrix (Fin N) (Fin 10) ℝ) (y : Fin N → ℝ) :
    ((Xᵀ * X).det ≠ 0 → Xᵀ *ᵥ (y - lsPredict X y) = 0 ∧ ∀ w : Fin 10 → ℝ, ∑ i, (y i - lsPredict X y i) ^ 2 ≤ ∑ i, (y i - (X *ᵥ w) i) ^ 2) ∧ (N < 10 → (Xᵀ * X).det = 0) := by
  constructor
  · intro hdet
    have horth : Xᵀ *ᵥ (y - lsPredict X y) = 0 := by
      unfold lsPredict
      rw [Matrix.mulVec_sub, Matrix.mulVec_mulVec, Matrix.mulVec_mulVec, ← Matrix.mul_assoc, Matrix.mul_nonsing_inv _ (Ne.isUnit hdet), Matrix.one_mul, sub_self]
    refine ⟨horth, fun w => ?_⟩
    set r := y - lsPredict X y with hr
    set w0 := ((Xᵀ * X)⁻¹ * Xᵀ) *ᵥ y with hw0
    have hcross : r ⬝ᵥ (X *ᵥ (w0 - w)) = 0 := by
      rw [Matrix.dotProduct_mulVec, ← Matrix.mulVec_transpose, horth, zero_dotProduct]
    have hsplit : ∀ i, y i - (X *ᵥ w) i = r i + (X *ᵥ (w0 - w)) i := by
      intro i
      rw [Matrix.mulVec_sub, hr]
      show y i - (X *ᵥ w) i = y i - (X *ᵥ w0) i + ((X *ᵥ w0) i - (X *ᵥ w) i)
      ring
    have e1 : ∑ i, (y i - (X *ᵥ w) i) ^ 2 = ∑ i, r i ^ 2 + ∑ i, (X *ᵥ (w0 - w)) i ^ 2 := by
      have : ∑ i, (y i - (X *ᵥ w) i) ^ 2 = ∑ i, r i ^ 2 + ∑ i, (X *ᵥ (w0 - w)) i ^ 2 + 2 * (r ⬝ᵥ (X *ᵥ (w0 - w))) := by
        unfold dotProduct
        rw [mul_sum, ← sum_add_distrib, ← sum_add_distrib]
        refine sum_congr rfl fun i _ => ?_
        rw [hsplit]
        ring
      rw [this, hcross, mul_zero, add_zero]
    rw [e1]
    have : 0 ≤ ∑ i, (X *ᵥ (w0 - w)) i ^ 2 := sum_nonneg fun i _ => sq_nonneg _
    have e2 : ∑ i, (y i - lsPredict X y i) ^ 2 = ∑ i, r i ^ 2 := rfl
    linarith
  · intro hN
    by_contra hdet
    have h1 : (Xᵀ * X).rank = 10 := by rw [Matrix.rank_of_isUnit _ ((Matrix.isUnit_iff_isUnit_det _).mpr (Ne.isUnit hdet)), Fintype.card_fin]
    have h2 := Matrix.rank_mul_le_right Xᵀ X
    have h3 := Matrix.rank_le_height X
    omega

theorem differentiable_dense {m n : ℕ} (D : DenseP m n) (i : Fin n) : Differentiable ℝ fun x => D.apply x i := by
  unfold DenseP.apply
  simp only [Pi.add_apply, Matrix.vecMul, dotProduct]
  fun_prop

theorem MlpP.differentiable (act : ℝ → ℝ) (ha : Differentiable ℝ act) {w m k : ℕ} (p : MlpP w m k) : Differentiable ℝ (p.forward act) := by
  induction p with
  | last D => exact differentiable_dense D 0
  | hidden D rest ih => exact ih.comp (differentiable_pi.mpr fun i => ha.comp (differentiable_dense D i))

/-- **C124 (smooth networks).** Exactly the five named activations are accepted. With `tanh` (the default), `sigmoid` or `softplus` every network of `get_mlp`, for all widths, depths and weights, is differentiable, so that
the deployed material has a stress everywhere; with `relu` and `selu` there are weights for which it is not. -/
theorem C124_networks (name : String) :
    ((actFun name).isSome = true ↔ name ∈ ["selu", "tanh", "relu", "sigmoid", "softplus"]) ∧
    (∀ act, actFun name = some act → name ∈ ["tanh", "sigmoid", "softplus"] → ∀ (w k : ℕ) (p : MlpP w 6 k), Differentiable ℝ (p.forward act)) ∧
    (∀ act, actFun name = some act → name ∈ ["relu", "selu"] → ∃ p : MlpP 1 6 1, ¬ Differentiable ℝ (p.forward act)) := by
  have ht : Differentiable ℝ Real.tanh := by
    have : Real.tanh = fun x => Real.sinh x / Real.cosh x := funext Real.tanh_eq_sinh_div_cosh
    rw [this]
    exact Real.differentiable_sinh.div Real.differentiable_cosh fun x => (Real.cosh_pos x).ne'
  have hs : Differentiable ℝ fun x : ℝ => 1 / (1 + Real.exp (-x)) := by
    refine (differentiable_const _).div (by fun_prop) fun x => ?_
    positivity
  have hp : Differentiable ℝ fun x : ℝ => Real.log (1 + Real.exp x) := by
    refine Differentiable.log (by fun_prop) fun x => ?_
    positivity
  have hw : ∀ act : ℝ → ℝ, ¬ DifferentiableAt ℝ act 0 → ∃ p : MlpP 1 6 1, ¬ Differentiable ℝ (p.forward act) := by
    intro act hna
    refine ⟨.hidden ⟨Matrix.of fun i _ => if i = 0 then 1 else 0, 0⟩ (.last ⟨1, 0⟩), fun hd => hna ?_⟩
    have h1 : DifferentiableAt ℝ (fun t : ℝ => (MlpP.hidden (w := 1) (m := 6) ⟨Matrix.of fun i _ => if i = 0 then 1 else 0, 0⟩ (.last ⟨1, 0⟩)).forward act (Pi.single 0 t)) 0 := by
      refine DifferentiableAt.comp (g := (MlpP.hidden (w := 1) (m := 6) ⟨Matrix.of fun i _ => if i = 0 then 1 else 0, 0⟩ (.last ⟨1, 0⟩)).forward act) (0 : ℝ) (hd _) ?_
      exact differentiableAt_pi.mpr fun i => by
        by_cases hi : i = 0
        · subst hi; simp
        · simp [hi]
    have e : (fun t : ℝ => (MlpP.hidden (w := 1) (m := 6) ⟨Matrix.of fun i _ => if i = 0 then 1 else 0, 0⟩ (.last ⟨1, 0⟩)).forward act (Pi.single 0 t)) = act := by
      funext t
      simp [MlpP.forward, DenseP.apply, Matrix.vecMul, dotProduct]
    rwa [e] at h1
  refine ⟨?_, ?_, ?_⟩
  · unfold actFun
    simp only [List.mem_cons, List.not_mem_nil, or_false]
    by_cases h1 : name = "selu"
    · simp [h1]
    by_cases h2 : name = "tanh"
    · simp [h2]
    by_cases h3 : name = "relu"
    · simp [h3]
    by_cases h4 : name = "sigmoid"
    · simp [h4]
    by_cases h5 : name = "softplus"
    · simp [h5]
    simp [h1, h2, h3, h4, h5]
  · intro act ha hn w k p
    simp only [List.mem_cons, List.not_mem_nil, or_false] at hn
    rcases hn with rfl | rfl | rfl
    · obtain rfl : Real.tanh = act := by simpa [actFun] using ha
      exact p.differentiable _ ht
    · obtain rfl : (fun x : ℝ => 1 / (1 + Real.exp (-x))) = act := by simpa [actFun] using ha
      exact p.differentiable _ hs
    · obtain rfl : (fun x : ℝ => Real.log (1 + Real.exp x)) = act := by simpa [actFun] using ha
      exact p.differentiable _ hp
  · intro act ha hn
    refine hw act ?_
    simp only [List.mem_cons, List.not_mem_nil, or_false] at hn
    rcases hn with rfl | rfl
    · obtain rfl : (fun x : ℝ => max x 0) = act := by simpa [actFun] using ha
      intro hd
      have h1 : HasDerivWithinAt (fun x : ℝ => max x 0) 1 (Set.Ici 0) 0 :=
        (hasDerivWithinAt_id (0 : ℝ) _).congr (fun x hx => max_eq_left hx) (by simp)
      have h2 : HasDerivWithinAt (fun x : ℝ => max x 0) 0 (Set.Iic 0) 0 :=
        (hasDerivWithinAt_const (0 : ℝ) _ (0 : ℝ)).congr (fun x hx => max_eq_right hx) (by simp)
      have e1 := (uniqueDiffWithinAt_Ici (0 : ℝ)).eq_deriv _ hd.hasDerivAt.hasDerivWithinAt h1
      have e2 := (uniqueDiffWithinAt_Iic (0 : ℝ)).eq_deriv _ hd.hasDerivAt.hasDerivWithinAt h2
      rw [e1] at e2
      exact one_ne_zero e2
    · obtain rfl : (fun x : ℝ => 1.0507009873554805 * (open Classical in if 0 < x then x else 1.6732632423543772 * (Real.exp x - 1))) = act := by simpa [actFun] using ha
      intro hd
      have h1 : HasDerivWithinAt (fun x : ℝ => 1.0507009873554805 * (open Classical in if 0 < x then x else 1.6732632423543772 * (Real.exp x - 1))) (1.0507009873554805 * 1) (Set.Ici 0) 0 := by
        refine ((hasDerivWithinAt_id (0 : ℝ) (Set.Ici 0)).const_mul (1.0507009873554805 : ℝ)).congr (fun x hx => ?_) (by simp)
        rcases eq_or_lt_of_le (show (0 : ℝ) ≤ x from hx) with h | h
        · rw [← h]; simp
        · simp [h]
      have h2 : HasDerivWithinAt (fun x : ℝ => 1.0507009873554805 * (open Classical in if 0 < x then x else 1.6732632423543772 * (Real.exp x - 1))) (1.0507009873554805 * (1.6732632423543772 * Real.exp 0)) (Set.Iic 0) 0 := by
        refine ((((Real.hasDerivAt_exp 0).sub_const 1).const_mul (1.6732632423543772 : ℝ)).const_mul (1.0507009873554805 : ℝ)).hasDerivWithinAt.congr (fun x hx => ?_) (by simp)
        rw [if_neg (not_lt.mpr hx)]
      have e1 := (uniqueDiffWithinAt_Ici (0 : ℝ)).eq_deriv _ hd.hasDerivAt.hasDerivWithinAt h1
      have e2 := (uniqueDiffWithinAt_Iic (0 : ℝ)).eq_deriv _ hd.hasDerivAt.hasDerivWithinAt h2
      rw [e1, Real.exp_zero] at e2
      norm_num at e2

/-! ## Examples -/

/-- Ten rows, reversed order: eight, one and one. -/
example : shuffleData (List.range 10) (List.range 10).reverse = ([9, 8, 7, 6, 5, 4, 3, 2], [1], [0]) := by decide

/-- Seven rows in batches of three. -/
example : dataLoader 3 (List.range 7) = [[0, 1, 2], [3, 4, 5], [6]] := by decide

/-- Training energies 1, 3 and the constant prediction 2: the scaled error is 1/4 although the percent error of the first row is infinite. -/
example : ∃ pe st sp, evaluateErrors [((), 1), ((), 3)] [((), 1), ((), 3)] (fun _ => 2) = some (.fin (1 / 4), pe, st, sp) := by
  obtain ⟨pe, st, sp, h, -⟩ := (C124_errors [((), 1), ((), 3)] [((), 1), ((), 3)] (fun _ => 2) 1 3 (by simp [List.min?_eq_some_iff]) (by simp [List.max?_eq_some_iff]) (by norm_num)).2.1 (by simp)
  refine ⟨pe, st, sp, h.trans ?_⟩
  congr 2
  norm_num

/-- A network with one hidden neuron that is not constant. -/
example : ∃ p : MlpP 1 6 1, p.forward Real.tanh 0 = 0 ∧ p.forward Real.tanh (Pi.single 0 1) = Real.tanh 1 := by
  refine ⟨.hidden ⟨Matrix.of fun i _ => if i = 0 then 1 else 0, 0⟩ (.last ⟨1, 0⟩), ?_, ?_⟩ <;> simp [MlpP.forward, DenseP.apply, Matrix.vecMul, dotProduct]

end Verif.Fem
