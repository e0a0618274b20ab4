import Mathlib.Data.Real.Basic
import Mathlib.Algebra.BigOperators.Group.Finset.Basic
import Mathlib.Algebra.BigOperators.Field
import Mathlib.Algebra.Order.BigOperators.Ring.Finset
import Mathlib.Tactic.Linarith
import Mathlib.Tactic.Ring
import Mathlib.Tactic.FieldSimp
import Mathlib.Tactic.Positivity
import Mathlib.Tactic.NormNum

/-!
# Aesthetic topology optimisation: the network with loss layers (C155)

`modules.py`, `models.py`, `tree_utils.py` and the function `loss` of `style_loss.py` in `applications/fem/aesthetic`.
-/
namespace Verif.Aesthetic.Net
open Finset

/-! ## Model -/

/-- A feature map: channels, height, width, and the values (the batch dimension, asserted to be one in modules.py 19, is left out). -/
structure Feat where
  c : ℕ
  h : ℕ
  w : ℕ
  val : ℕ → ℕ → ℕ → ℝ

/-- `gram_matrix` (modules.py 12-23). -/
noncomputable def gramMatrix (x : Feat) (a b : ℕ) : ℝ := (∑ p ∈ range x.h, ∑ q ∈ range x.w, x.val a p q * x.val b p q) / (1 * x.c * x.h * x.w)

/-- The value recorded by `StyleLoss` (modules.py 29-38), without the weight. -/
noncomputable def styleMean (x target : Feat) : ℝ := (∑ a ∈ range x.c, ∑ b ∈ range x.c, (gramMatrix x a b - gramMatrix target a b) ^ 2) / (x.c * x.c)

/-- The value recorded by `ContentLoss` (modules.py 46-53), without the weight. -/
noncomputable def contentMean (x target : Feat) : ℝ := (∑ a ∈ range x.c, ∑ p ∈ range x.h, ∑ q ∈ range x.w, (x.val a p q - target.val a p q) ^ 2) / (x.c * x.h * x.w)

/-- A layer of the network: `Normalization` with its parameter image, a pooling, convolution or activation, or one of the two loss layers with target and weight. -/
inductive Layer
  | norm
  | plain (f : Feat → Feat)
  | style (target : Feat) (weight : ℝ)
  | content (target : Feat) (weight : ℝ)

/-- The kind of loss and its value, as recorded in the state. -/
inductive Kind
  | content
  | style
deriving DecidableEq

/-- `Normalization.__call__` (modules.py 76-89). -/
noncomputable def normalization (mean std : ℕ → ℝ) (param : Feat) (train : Bool) (x : Feat) : Feat :=
  let out := if train then param else x
  ⟨out.c, out.h, out.w, fun a p q => (out.val a p q - mean a) / std a⟩

/-- One layer: the output, and the loss put into the state (modules.py 34-40, 51-55). -/
noncomputable def applyLayer (nrm : Feat → Feat) : Layer → Feat → Feat × List (Kind × ℝ)
  | .norm, x => (nrm x, [])
  | .plain f, x => (f x, [])
  | .style t w, x => (x, [(.style, w * styleMean x t)])
  | .content t w, x => (x, [(.content, w * contentMean x t)])

/-- `hk.Sequential`: the layers one after the other. -/
noncomputable def runNet (nrm : Feat → Feat) : List Layer → Feat → Feat × List (Kind × ℝ)
  | [], x => (x, [])
  | l :: ls, x =>
    let r := applyLayer nrm l x
    let r' := runNet nrm ls r.1
    (r'.1, r.2 ++ r'.2)

/-- An entry of the weight file as the loop of `augmented_vgg19` sorts it: pooling, convolution, anything else (models.py 84-102). -/
inductive Entry
  | pool (f : Feat → Feat)
  | conv (f : Feat → Feat)
  | other

/-- What is given to `augmented_vgg19` (models.py 56-63); the weights of the loss layers by the number of the convolution. -/
structure Setup where
  relu : Feat → Feat
  mean : ℕ → ℝ
  std : ℕ → ℝ
  styleImage : Feat
  contentImage : Feat
  styleLayers : ℕ → Option ℝ
  contentLayers : ℕ → Option ℝ

variable (U : Setup)

/-- The normalisation outside training, when the targets are computed (models.py 127, 135). -/
noncomputable def Setup.evalNorm : Feat → Feat := normalization U.mean U.std U.contentImage false

/-- One pass of the loop (models.py 84-140). -/
noncomputable def addEntry (st : List Layer × ℕ) : Entry → List Layer × ℕ
  | .pool f => (st.1 ++ [.plain f], st.2)
  | .conv f =>
    let n := st.2 + 1
    let l1 := st.1 ++ [.plain f]
    let l2 := match U.styleLayers n with
      | some w => l1 ++ [.style (runNet U.evalNorm l1 U.styleImage).1 w]
      | none => l1
    let l3 := match U.contentLayers n with
      | some w => l2 ++ [.content (runNet U.evalNorm l2 U.contentImage).1 w]
      | none => l2
    (l3 ++ [.plain U.relu], n)
  | .other => st

/-- Is it a loss layer (models.py 147)? -/
def Layer.isLoss : Layer → Bool
  | .style _ _ => true
  | .content _ _ => true
  | _ => false

/-- The loop that looks for the last loss layer from the end (models.py 146-148): `k` layers are still to be looked at. Without a loss layer it ends at zero. -/
def lastLoss (ls : List Layer) : ℕ → ℕ
  | 0 => 0
  | k + 1 => if ((ls[k]?).map Layer.isLoss).getD false then k else lastLoss ls k

/-- `augmented_vgg19` (models.py 73-157). -/
noncomputable def augmented (ps : List Entry) : List Layer :=
  let layers := (ps.foldl (addEntry U) ([.norm], 0)).1
  layers.take (lastLoss layers layers.length + 1)

/-- The state after `net.apply(…, is_training=True)` with the parameter image `img` and the input `x` (style_loss.py 90-91). -/
noncomputable def netState (ps : List Entry) (img x : Feat) : List (Kind × ℝ) := (runNet (normalization U.mean U.std img true) (augmented U ps) x).2

/-- `reduce_loss_tree` (tree_utils.py 13-15): `tree_reduce` without initial value, a TypeError (`none`) on a tree without leaves. -/
noncomputable def reduceTree : List ℝ → Option ℝ
  | [] => none
  | v :: vs => some (vs.foldl (· + ·) v)

/-- The weights by the name of the loss (style_loss.py 54-55). -/
structure Weights where
  content : ℝ
  style : ℝ

/-- `weights[n]` (tree_utils.py 22). -/
def Weights.get (W : Weights) : Kind → ℝ
  | .content => W.content
  | .style => W.style

/-- The value of `loss` (style_loss.py 83-100): weighted, reduced, plus the smooth loss, which is zero (style_loss.py 78-80). -/
noncomputable def lossValue (W : Weights) (st : List (Kind × ℝ)) : Option ℝ := (reduceTree (st.map fun e => W.get e.1 * e.2)).map (· + 0)

/-- `calculate_losses` (tree_utils.py 26-30, 33-39): content and style loss. -/
noncomputable def calculateLosses (W : Weights) (st : List (Kind × ℝ)) : Option (ℝ × ℝ) :=
  match reduceTree ((st.filter fun e => e.1 = .content).map Prod.snd), reduceTree ((st.filter fun e => !decide (e.1 = .content)).map Prod.snd) with
  | some c, some s => some (W.content * c, W.style * s)
  | _, _ => none

/-! ## Specification: three images side by side through the plain network -/

/-- The losses of the image `x` against the style image `s` and the content image `c`, all three sent through the network without loss layers; `n` convolutions have been passed. -/
noncomputable def specLosses (relu : Feat → Feat) (sl cl : ℕ → Option ℝ) : ℕ → Feat → Feat → Feat → List Entry → List (Kind × ℝ)
  | _, _, _, _, [] => []
  | n, x, s, c, .pool f :: ps => specLosses relu sl cl n (f x) (f s) (f c) ps
  | n, x, s, c, .other :: ps => specLosses relu sl cl n x s c ps
  | n, x, s, c, .conv f :: ps =>
    ((sl (n + 1)).map fun w => (Kind.style, w * styleMean (f x) (f s))).toList ++ ((cl (n + 1)).map fun w => (Kind.content, w * contentMean (f x) (f c))).toList
      ++ specLosses relu sl cl (n + 1) (relu (f x)) (relu (f s)) (relu (f c)) ps

/-- Subtract the mean and divide by the deviation. -/
noncomputable def standardise (mean std : ℕ → ℝ) (x : Feat) : Feat := ⟨x.c, x.h, x.w, fun a p q => (x.val a p q - mean a) / std a⟩

/-! ## The network computes the specification -/

theorem runNet_append (nrm : Feat → Feat) (l l' : List Layer) (x : Feat) : runNet nrm (l ++ l') x = ((runNet nrm l' (runNet nrm l x).1).1, (runNet nrm l x).2 ++ (runNet nrm l' (runNet nrm l x).1).2) := by
  induction l generalizing x with
  | nil => rfl
  | cons a l ih => simp only [List.cons_append, runNet, ih, List.append_assoc]

theorem build (nrm : Feat → Feat) (x0 : Feat) (ps : List Entry) (ls : List Layer) (n : ℕ) :
    (runNet nrm (ps.foldl (addEntry U) (ls, n)).1 x0).2 = (runNet nrm ls x0).2 ++
      specLosses U.relu U.styleLayers U.contentLayers n (runNet nrm ls x0).1 (runNet U.evalNorm ls U.styleImage).1 (runNet U.evalNorm ls U.contentImage).1 ps := by
  induction ps generalizing ls n with
  | nil => simp [specLosses]
  | cons e ps ih =>
    rw [List.foldl_cons]
    cases e with
    | pool f => simp only [addEntry, ih, specLosses, runNet_append, runNet, applyLayer, List.append_nil]
    | other => simp only [addEntry, ih, specLosses]
    | conv f =>
      simp only [addEntry, specLosses]
      rw [ih]
      rcases hs : U.styleLayers (n + 1) with _ | w <;> rcases hc : U.contentLayers (n + 1) with _ | v <;>
        simp only [runNet_append, runNet, applyLayer, List.append_nil, Option.map_none, Option.map_some, Option.toList_none, Option.toList_some, List.nil_append, List.append_assoc, List.singleton_append, List.cons_append]

theorem run_no_loss (nrm : Feat → Feat) (ls : List Layer) (h : ∀ l ∈ ls, l.isLoss = false) (x : Feat) : (runNet nrm ls x).2 = [] := by
  induction ls generalizing x with
  | nil => rfl
  | cons a ls ih =>
    simp only [runNet]
    rw [ih fun l hl => h l (List.mem_cons_of_mem _ hl)]
    have := h a List.mem_cons_self
    cases a <;> simp_all [applyLayer, Layer.isLoss]

theorem lastLoss_spec (ls : List Layer) (k : ℕ) : ∀ i, lastLoss ls k < i → i < k → ((ls[i]?).map Layer.isLoss).getD false = false := by
  induction k with
  | zero => intro i _ h; omega
  | succ k ih =>
    intro i hi hk
    unfold lastLoss at hi
    split_ifs at hi with h
    · omega
    · by_cases hik : i = k
      · subst hik; simpa using h
      · exact ih i hi (by omega)

theorem truncate (nrm : Feat → Feat) (ls : List Layer) (x : Feat) : (runNet nrm (ls.take (lastLoss ls ls.length + 1)) x).2 = (runNet nrm ls x).2 := by
  conv_rhs => rw [← List.take_append_drop (lastLoss ls ls.length + 1) ls]
  rw [runNet_append]
  have h : (runNet nrm (ls.drop (lastLoss ls ls.length + 1)) (runNet nrm (ls.take (lastLoss ls ls.length + 1)) x).1).2 = [] := by
    refine run_no_loss nrm _ (fun l hl => ?_) _
    obtain ⟨i, hi, rfl⟩ := List.mem_iff_getElem.mp hl
    rw [List.length_drop] at hi
    have := lastLoss_spec ls ls.length (lastLoss ls ls.length + 1 + i) (by omega) (by omega)
    rw [List.getElem?_eq_getElem (by omega)] at this
    rw [List.getElem_drop]
    simpa using this
  rw [h, List.append_nil]

/-- **C155 (network).** For every weight file, all loss layers and every input: the losses of the augmented and truncated network are exactly those of the trained image against the style and the content image, each standardised and sent through the plain network; the input of the network plays no part. -/
theorem C155_network (ps : List Entry) (img x : Feat) :
    netState U ps img x = specLosses U.relu U.styleLayers U.contentLayers 0 (standardise U.mean U.std img) (standardise U.mean U.std U.styleImage) (standardise U.mean U.std U.contentImage) ps := by
  unfold netState augmented
  rw [truncate, build]
  rfl

/-! ## The values -/

theorem style_nonneg (x t : Feat) : 0 ≤ styleMean x t := by
  unfold styleMean
  have : 0 ≤ ∑ a ∈ range x.c, ∑ b ∈ range x.c, (gramMatrix x a b - gramMatrix t a b) ^ 2 := sum_nonneg fun a _ => sum_nonneg fun b _ => sq_nonneg _
  positivity

theorem content_nonneg (x t : Feat) : 0 ≤ contentMean x t := by
  unfold contentMean
  have : 0 ≤ ∑ a ∈ range x.c, ∑ p ∈ range x.h, ∑ q ∈ range x.w, (x.val a p q - t.val a p q) ^ 2 := sum_nonneg fun a _ => sum_nonneg fun b _ => sum_nonneg fun q _ => sq_nonneg _
  positivity

theorem foldl_add (vs : List ℝ) (v : ℝ) : vs.foldl (· + ·) v = v + vs.sum := by
  induction vs generalizing v with
  | nil => simp
  | cons a vs ih => rw [List.foldl_cons, ih, List.sum_cons]; ring

theorem reduceTree_eq (vs : List ℝ) : reduceTree vs = if vs = [] then none else some vs.sum := by
  cases vs with
  | nil => rfl
  | cons v vs => rw [if_neg (List.cons_ne_nil _ _)]; simp only [reduceTree, foldl_add, List.sum_cons]

theorem spec_nonneg {relu : Feat → Feat} {sl cl : ℕ → Option ℝ} (hs : ∀ n w, sl n = some w → 0 ≤ w) (hc : ∀ n w, cl n = some w → 0 ≤ w) (ps : List Entry) (n : ℕ) (x s c : Feat) : ∀ e ∈ specLosses relu sl cl n x s c ps, 0 ≤ e.2 := by
  induction ps generalizing n x s c with
  | nil => intro e he; simp [specLosses] at he
  | cons a ps ih =>
    cases a with
    | pool f => exact ih _ _ _ _
    | other => exact ih _ _ _ _
    | conv f =>
      intro e he
      simp only [specLosses, List.mem_append, Option.mem_toList, Option.map_eq_some_iff] at he
      rcases he with (⟨w, hw, rfl⟩ | ⟨w, hw, rfl⟩) | he
      · exact mul_nonneg (hs _ _ hw) (style_nonneg _ _)
      · exact mul_nonneg (hc _ _ hw) (content_nonneg _ _)
      · exact ih _ _ _ _ e he

theorem spec_zero (relu : Feat → Feat) (sl cl : ℕ → Option ℝ) (ps : List Entry) (n : ℕ) (x : Feat) : ∀ e ∈ specLosses relu sl cl n x x x ps, e.2 = 0 := by
  induction ps generalizing n x with
  | nil => intro e he; simp [specLosses] at he
  | cons a ps ih =>
    cases a with
    | pool f => exact ih _ _
    | other => exact ih _ _
    | conv f =>
      intro e he
      simp only [specLosses, List.mem_append, Option.mem_toList, Option.map_eq_some_iff] at he
      rcases he with (⟨w, _, rfl⟩ | ⟨w, _, rfl⟩) | he
      · simp [styleMean]
      · simp [contentMean]
      · exact ih _ _ e he

theorem spec_style {relu : Feat → Feat} {sl cl : ℕ → Option ℝ} {k : ℕ} {w : ℝ} (hk : sl k = some w) (ps : List Entry) (n : ℕ) (h1 : n < k) (h2 : k ≤ n + (ps.filter fun e => match e with | .conv _ => true | _ => false).length) (x s c : Feat) :
    ∃ v, (Kind.style, v) ∈ specLosses relu sl cl n x s c ps := by
  induction ps generalizing n x s c with
  | nil => simp at h2; omega
  | cons a ps ih =>
    cases a with
    | pool f => exact ih n h1 (by simpa using h2) _ _ _
    | other => exact ih n h1 (by simpa using h2) _ _ _
    | conv f =>
      simp only [specLosses, List.mem_append]
      by_cases hn : k = n + 1
      · exact ⟨_, Or.inl (Or.inl (by rw [← hn, hk]; exact List.mem_singleton.mpr rfl))⟩
      · obtain ⟨v, hv⟩ := ih (n + 1) (by omega) (by simp at h2; omega) (relu (f x)) (relu (f s)) (relu (f c))
        exact ⟨v, Or.inr hv⟩

theorem spec_content {relu : Feat → Feat} {sl cl : ℕ → Option ℝ} {k : ℕ} {w : ℝ} (hk : cl k = some w) (ps : List Entry) (n : ℕ) (h1 : n < k) (h2 : k ≤ n + (ps.filter fun e => match e with | .conv _ => true | _ => false).length) (x s c : Feat) :
    ∃ v, (Kind.content, v) ∈ specLosses relu sl cl n x s c ps := by
  induction ps generalizing n x s c with
  | nil => simp at h2; omega
  | cons a ps ih =>
    cases a with
    | pool f => exact ih n h1 (by simpa using h2) _ _ _
    | other => exact ih n h1 (by simpa using h2) _ _ _
    | conv f =>
      simp only [specLosses, List.mem_append]
      by_cases hn : k = n + 1
      · exact ⟨_, Or.inl (Or.inr (by rw [← hn, hk]; exact List.mem_singleton.mpr rfl))⟩
      · obtain ⟨v, hv⟩ := ih (n + 1) (by omega) (by simp at h2; omega) (relu (f x)) (relu (f s)) (relu (f c))
        exact ⟨v, Or.inr hv⟩

theorem lossValue_eq (W : Weights) (st : List (Kind × ℝ)) : lossValue W st = if st = [] then none else some (st.map fun e => W.get e.1 * e.2).sum := by
  unfold lossValue
  rw [reduceTree_eq]
  by_cases h : st = []
  · simp [h]
  · rw [if_neg h, if_neg (by simpa using h)]; simp

/-- **C155 (minimum).** `style_transfer` takes the style image for the content image too. Then the total loss of the image itself is zero, and with weights that are not negative no image has a smaller loss. -/
theorem C155_minimum (ps : List Entry) (W : Weights) (himg : U.contentImage = U.styleImage) (x : Feat) :
    (∀ v, lossValue W (netState U ps U.styleImage x) = some v → v = 0) ∧
    ((∀ n w, U.styleLayers n = some w → 0 ≤ w) → (∀ n w, U.contentLayers n = some w → 0 ≤ w) → 0 ≤ W.content → 0 ≤ W.style → ∀ img v, lossValue W (netState U ps img x) = some v → 0 ≤ v) := by
  refine ⟨fun v hv => ?_, fun hs hc hwc hws img v hv => ?_⟩
  · rw [C155_network, himg, lossValue_eq] at hv
    split_ifs at hv
    rw [Option.some.injEq] at hv
    rw [← hv]
    refine List.sum_eq_zero fun y hy => ?_
    obtain ⟨e, he, rfl⟩ := List.mem_map.mp hy
    rw [spec_zero _ _ _ _ _ _ e he, mul_zero]
  · rw [C155_network, lossValue_eq] at hv
    split_ifs at hv
    rw [Option.some.injEq] at hv
    rw [← hv]
    refine List.sum_nonneg fun y hy => ?_
    obtain ⟨e, he, rfl⟩ := List.mem_map.mp hy
    refine mul_nonneg ?_ (spec_nonneg hs hc _ _ _ _ _ e he)
    cases e.1
    · exact hwc
    · exact hws

theorem split_sum (W : Weights) (st : List (Kind × ℝ)) : (st.map fun e => W.get e.1 * e.2).sum = W.content * ((st.filter fun e => e.1 = .content).map Prod.snd).sum + W.style * ((st.filter fun e => !decide (e.1 = .content)).map Prod.snd).sum := by
  induction st with
  | nil => simp
  | cons e st ih =>
    obtain ⟨k, v⟩ := e
    rw [List.map_cons, List.sum_cons, ih]
    cases k <;> simp [Weights.get] <;> ring

/-- **C155 (split).** The printed content and style loss add up to the value of the loss, and they are an error exactly when one of the two kinds of loss layers is absent, although the loss itself is an error only when both are. -/
theorem C155_split (W : Weights) (st : List (Kind × ℝ)) :
    (∀ c s, calculateLosses W st = some (c, s) → lossValue W st = some (c + s)) ∧
    (calculateLosses W st = none ↔ (∀ e ∈ st, e.1 = .style) ∨ ∀ e ∈ st, e.1 = .content) ∧ (lossValue W st = none ↔ st = []) := by
  have hk : ∀ k : Kind, k ≠ .content ↔ k = .style := fun k => by cases k <;> simp
  have hA : ((st.filter fun e => e.1 = .content).map Prod.snd = []) ↔ ∀ e ∈ st, e.1 = .style := by
    rw [List.map_eq_nil_iff, List.filter_eq_nil_iff]
    simp only [decide_eq_true_eq]
    exact forall₂_congr fun e _ => hk e.1
  have hB : ((st.filter fun e => !decide (e.1 = .content)).map Prod.snd = []) ↔ ∀ e ∈ st, e.1 = .content := by
    rw [List.map_eq_nil_iff, List.filter_eq_nil_iff]
    simp
  refine ⟨fun c s h => ?_, ?_, ?_⟩
  · unfold calculateLosses at h
    rw [reduceTree_eq, reduceTree_eq] at h
    by_cases h1 : (st.filter fun e => e.1 = .content).map Prod.snd = []
    · rw [if_pos h1] at h; simp at h
    by_cases h2 : (st.filter fun e => !decide (e.1 = .content)).map Prod.snd = []
    · rw [if_neg h1, if_pos h2] at h; simp at h
    rw [if_neg h1, if_neg h2] at h
    simp only [Option.some.injEq, Prod.mk.injEq] at h
    rw [lossValue_eq, if_neg (by rintro rfl; exact h1 rfl), split_sum, h.1, h.2]
  · unfold calculateLosses
    rw [reduceTree_eq, reduceTree_eq, ← hA, ← hB]
    by_cases h1 : (st.filter fun e => e.1 = .content).map Prod.snd = []
    · rw [if_pos h1]; simp [h1]
    · rw [if_neg h1]
      by_cases h2 : (st.filter fun e => !decide (e.1 = .content)).map Prod.snd = []
      · rw [if_pos h2]; simp [h2]
      · rw [if_neg h2]; exact ⟨fun h => by simp at h, fun h => (h.elim h1 h2).elim⟩
  · rw [lossValue_eq]
    split_ifs with h <;> simp [h]

/-- The style and content layers of the file (arguments.py 20-24). -/
noncomputable def fileStyle (n : ℕ) : Option ℝ := if n = 3 ∨ n = 5 then some 10 else none
@[inherit_doc fileStyle]
noncomputable def fileContent (n : ℕ) : Option ℝ := if n = 14 then some (1 / 10) else none

/-- **C155 (file).** With the loss layers of the file and a weight file of at least fourteen convolutions, neither the loss nor the printed losses are an error, for every image. -/
theorem C155_file (hs : U.styleLayers = fileStyle) (hc : U.contentLayers = fileContent) (ps : List Entry) (hps : 14 ≤ (ps.filter fun e => match e with | .conv _ => true | _ => false).length) (W : Weights) (img x : Feat) :
    ∃ c s, calculateLosses W (netState U ps img x) = some (c, s) ∧ lossValue W (netState U ps img x) = some (c + s) := by
  have h : calculateLosses W (netState U ps img x) ≠ none := fun h => by
    rw [(C155_split W _).2.1, C155_network] at h
    rcases h with h | h
    · obtain ⟨v, hv⟩ := spec_content (relu := U.relu) (sl := U.styleLayers) (cl := U.contentLayers) (k := 14) (w := 1 / 10) (by rw [hc]; simp [fileContent]) ps 0 (by norm_num) (by omega) (standardise U.mean U.std img) (standardise U.mean U.std U.styleImage) (standardise U.mean U.std U.contentImage)
      exact absurd (h _ hv) (by simp)
    · obtain ⟨v, hv⟩ := spec_style (relu := U.relu) (sl := U.styleLayers) (cl := U.contentLayers) (k := 3) (w := 10) (by rw [hs]; simp [fileStyle]) ps 0 (by norm_num) (by omega) (standardise U.mean U.std img) (standardise U.mean U.std U.styleImage) (standardise U.mean U.std U.contentImage)
      exact absurd (h _ hv) (by simp)
  obtain ⟨⟨c, s⟩, hcs⟩ := Option.ne_none_iff_exists'.mp h
  exact ⟨c, s, hcs, (C155_split W _).1 c s hcs⟩

/-! ## The Gram matrix -/

/-- Do the pixels of `y` arise from those of `x` by a rearrangement, the same in every channel? -/
def Rearranged (x y : Feat) : Prop := x.c = y.c ∧ x.h = y.h ∧ x.w = y.w ∧ ∃ e : Equiv.Perm (ℕ × ℕ), (∀ z, z ∈ range x.h ×ˢ range x.w ↔ e z ∈ range x.h ×ˢ range x.w) ∧ ∀ a, ∀ z ∈ range x.h ×ˢ range x.w, y.val a z.1 z.2 = x.val a (e z).1 (e z).2

/-- **C155 (Gram).** The Gram matrix is symmetric and positive semidefinite, and it does not change when the pixels are rearranged. -/
theorem C155_gram (x : Feat) : (∀ a b, gramMatrix x a b = gramMatrix x b a) ∧ (∀ (v : ℕ → ℝ) (m : ℕ), 0 ≤ ∑ a ∈ range m, ∑ b ∈ range m, v a * gramMatrix x a b * v b) ∧ ∀ y, Rearranged x y → ∀ a b, gramMatrix y a b = gramMatrix x a b := by
  refine ⟨fun a b => ?_, fun v m => ?_, fun y ⟨hc, hh, hw, e, he, hy⟩ a b => ?_⟩
  · unfold gramMatrix
    simp only [mul_comm (x.val a _ _)]
  · have h : ∑ a ∈ range m, ∑ b ∈ range m, v a * gramMatrix x a b * v b = (∑ p ∈ range x.h, ∑ q ∈ range x.w, (∑ a ∈ range m, v a * x.val a p q) ^ 2) / (1 * x.c * x.h * x.w) := by
      have : ∀ a b, v a * gramMatrix x a b * v b = (∑ p ∈ range x.h, ∑ q ∈ range x.w, v a * x.val a p q * (v b * x.val b p q)) / (1 * x.c * x.h * x.w) := fun a b => by
        unfold gramMatrix
        rw [mul_div_assoc', div_mul_eq_mul_div, mul_sum, sum_mul]
        congr 1
        refine sum_congr rfl fun p _ => ?_
        rw [mul_sum, sum_mul]
        exact sum_congr rfl fun q _ => by ring
      simp only [this, ← sum_div]
      congr 1
      simp only [sq, sum_mul_sum]
      exact (sum_congr rfl fun a _ => sum_comm).trans (sum_comm.trans (sum_congr rfl fun p _ => (sum_congr rfl fun a _ => sum_comm).trans sum_comm))
    rw [h]
    have : 0 ≤ ∑ p ∈ range x.h, ∑ q ∈ range x.w, (∑ a ∈ range m, v a * x.val a p q) ^ 2 := sum_nonneg fun p _ => sum_nonneg fun q _ => sq_nonneg _
    positivity
  · unfold gramMatrix
    rw [← hc, ← hh, ← hw, ← sum_product', ← sum_product']
    congr 1
    rw [sum_congr rfl fun z hz => by rw [hy a z hz, hy b z hz]]
    exact sum_equiv e he fun z _ => rfl

/-- **C155 (style).** With weight and channels the style loss vanishes exactly when the two Gram matrices agree; so it cannot tell rearranged features apart. -/
theorem C155_style (x t : Feat) (w : ℝ) (hw : w ≠ 0) (hc : 0 < x.c) :
    (w * styleMean x t = 0 ↔ ∀ a < x.c, ∀ b < x.c, gramMatrix x a b = gramMatrix t a b) ∧ (Rearranged t x → w * styleMean x t = 0) := by
  have hiff : w * styleMean x t = 0 ↔ ∀ a < x.c, ∀ b < x.c, gramMatrix x a b = gramMatrix t a b := by
    have hc' : ((x.c : ℝ) * x.c) ≠ 0 := by positivity
    unfold styleMean
    rw [mul_eq_zero, or_iff_right hw, div_eq_zero_iff, or_iff_left hc', sum_eq_zero_iff_of_nonneg fun a _ => sum_nonneg fun b _ => sq_nonneg _]
    simp only [mem_range]
    refine forall₂_congr fun a _ => ?_
    rw [sum_eq_zero_iff_of_nonneg fun b _ => sq_nonneg _]
    simp only [mem_range]
    exact forall₂_congr fun b _ => by rw [sq_eq_zero_iff, sub_eq_zero]
  exact ⟨hiff, fun h => hiff.mpr fun a _ b _ => (C155_gram t).2.2 x h a b⟩

/-- Two images of one channel and two pixels, `(0, 1)` and `(1, 0)`: the style loss is zero, the content loss is not. -/
example : styleMean ⟨1, 1, 2, fun _ _ q => q⟩ ⟨1, 1, 2, fun _ _ q => 1 - q⟩ = 0 ∧ contentMean ⟨1, 1, 2, fun _ _ q => q⟩ ⟨1, 1, 2, fun _ _ q => 1 - q⟩ = 1 := by
  constructor
  · simp [styleMean, gramMatrix, sum_range_succ]
  · simp [contentMean, sum_range_succ]

/-- A network of one convolution (doubling) with a style and a content layer: the losses at the image `1` against the target `0`. -/
example (x : Feat) : netState ⟨id, fun _ => 0, fun _ => 1, ⟨1, 1, 1, fun _ _ _ => 0⟩, ⟨1, 1, 1, fun _ _ _ => 0⟩, fun _ => some 10, fun _ => some 1⟩ [.other, .conv fun f => ⟨f.c, f.h, f.w, fun a p q => 2 * f.val a p q⟩] ⟨1, 1, 1, fun _ _ _ => 1⟩ x = [(.style, 160), (.content, 4)] := by
  rw [C155_network]
  simp [specLosses, styleMean, contentMean, gramMatrix, standardise]
  norm_num

end Verif.Aesthetic.Net
