import Verif.Fem.ConvTaylor
import Verif.Fem.SourceId

/-!
# C148: convergence of the Poisson solver
-/
namespace Verif.Fem.Conv
open Finset Verif.SourceId Verif.Mesh

variable {nf nfq : ℕ}

/-! ## Sums over corners and Gauss points -/

theorem corner_val (A : Fin 3 → ℕ → ℝ) (x : ℕ → ℝ) : ∑ p : Fin 8, (∑ e, A e (hexCorner p e)) * shapeVal hex8 p x = ∑ e : Fin 3, ((1 - x e) * A e 0 + x e * A e 1) := by
  simp only [shapeVal_hex8, Fin.sum_univ_eight, Fin.prod_univ_three, Fin.sum_univ_three]
  simp [hexCorner, lin]
  ring

theorem corner_grad (A : Fin 3 → ℕ → ℝ) (x : ℕ → ℝ) (d : Fin 3) : ∑ p : Fin 8, (∑ e, A e (hexCorner p e)) * shapeGradRef hex8 p x d = A d 1 - A d 0 := by
  simp only [shapeGradRef_hex8]
  have e : ∀ (f : Fin 3 → ℝ), ∏ a ∈ univ.erase d, f a = ∏ a, if a = d then 1 else f a := fun f => by
    rw [← mul_prod_erase univ (fun a => if a = d then 1 else f a) (mem_univ d), if_pos rfl, one_mul]
    exact prod_congr rfl fun a ha => (if_neg (ne_of_mem_erase ha)).symm
  simp only [e, Fin.sum_univ_eight, Fin.prod_univ_three, Fin.sum_univ_three]
  fin_cases d <;> simp [hexCorner, lin, Verif.Fem.slope] <;> ring

/-- Load of a function of one coordinate. -/
theorem corner_load (φ : ℕ → ℝ → ℝ) (d : Fin 3) : ∑ p : Fin 8, ∑ q, shapeVal hex8 p ((gaussRule 3).pt q) * φ (hexCorner p d) ((gaussRule 3).pt q d) * (gaussRule 3).w q
    = (1 / 2) * ∑ b : Bool, ((1 - gaussPoint b) * φ 0 (gaussPoint b) + gaussPoint b * φ 1 (gaussPoint b)) := by
  have h : ∀ p : Fin 8, ∑ q, shapeVal hex8 p ((gaussRule 3).pt q) * φ (hexCorner p d) ((gaussRule 3).pt q d) * (gaussRule 3).w q
      = (1 / 8) * ∑ b : Bool, lin (hexCorner p d) (gaussPoint b) * φ (hexCorner p d) (gaussPoint b) := by
    intro p
    have k : ∀ q, shapeVal hex8 p ((gaussRule 3).pt q) * φ (hexCorner p d) ((gaussRule 3).pt q d) * (gaussRule 3).w q
        = (1 / 8) * ∏ a : Fin 3, (fun (a : Fin 3) (b : Bool) => lin (hexCorner p a) (gaussPoint b) * if a = d then φ (hexCorner p d) (gaussPoint b) else 1) a ((q : ℕ).testBit (3 - 1 - a)) := by
      intro q
      rw [shapeVal_hex8, prod_mul_distrib, prod_eq_single d (fun b _ hb => if_neg hb) (fun h => absurd (mem_univ d) h), if_pos rfl]
      simp only [gaussRule]
      norm_num
      ring
    rw [sum_congr rfl fun q _ => k q, ← mul_sum, sum_bits3 (fun (a : Fin 3) (b : Bool) => lin (hexCorner p a) (gaussPoint b) * if a = d then φ (hexCorner p d) (gaussPoint b) else 1), ← mul_prod_erase univ _ (mem_univ d), prod_eq_one fun a ha => by
      simp only [if_neg (ne_of_mem_erase ha), mul_one]; exact lin_gauss _, mul_one, Fintype.sum_bool]
    simp only [if_true]
  rw [sum_congr rfl fun p _ => h p, ← mul_sum]
  have k : ∀ χ : ℕ → ℝ, ∑ p : Fin 8, χ (hexCorner p d) = 4 * (χ 0 + χ 1) := by
    intro χ
    simp only [Fin.sum_univ_eight]
    fin_cases d <;> simp [hexCorner] <;> ring
  rw [k fun t => ∑ b : Bool, lin t (gaussPoint b) * φ t (gaussPoint b)]
  simp only [Fintype.sum_bool, lin]
  norm_num
  ring

theorem corner_slope (S : ℕ → ℝ) (d : Fin 3) : ∑ p : Fin 8, S (hexCorner p d) * (Verif.Fem.slope (hexCorner p d) / 4) = S 1 - S 0 := by
  simp only [Fin.sum_univ_eight]
  fin_cases d <;> simp [hexCorner, Verif.Fem.slope] <;> ring

/-! ## Fields on the grid -/

variable {F : Fem 8 (2 ^ 3) nf nfq 3 1} {N : Fin 3 → ℕ} {L : Fin 3 → ℝ}

/-- Specification: `s` is the sum of functions of one grid index each. -/
def Additive (N : Fin 3 → ℕ) (P : Fin 3 → ℕ → ℝ) (s : ℕ → ℝ) : Prop := ∀ m : Fin 3 → ℕ, (∀ a, m a ≤ N a) → s (gridNode N m) = ∑ d, P d (m d)

theorem corner_le {g : Fin 3 → ℕ} (hg : g ∈ boxGrid N) (p : Fin 8) (a : Fin 3) : g a + hexCorner p a ≤ N a := by
  have := (mem_boxGrid _ _).mp hg a
  have := hexCorner_le p a
  omega

theorem val_add (ht : CellTables F hex8 (gaussRule 3)) {P : Fin 3 → ℕ → ℝ} {s : ℕ → ℝ} (hs : Additive N P s) (g : Fin 3 → ℕ) (hg : g ∈ boxGrid N) (q : Fin (2 ^ 3)) :
    SourceId.val F s (boxCell N g) q = ∑ d : Fin 3, ((1 - (gaussRule 3).pt q d) * P d (g d) + (gaussRule 3).pt q d * P d (g d + 1)) := by
  unfold SourceId.val
  simp only [ht.vals]
  refine Eq.trans ?_ (corner_val (fun e t => P e (g e + t)) ((gaussRule 3).pt q))
  exact sum_congr rfl fun p _ => by rw [boxCell, hs _ fun a => corner_le hg p a]

theorem slope_add (hbox : OnBox F N L) (ht : CellTables F hex8 (gaussRule 3)) (hN : ∀ a, 0 < N a) (hL : ∀ a, 0 < L a) {P : Fin 3 → ℕ → ℝ} {s : ℕ → ℝ} (hs : Additive N P s) (g : Fin 3 → ℕ) (hg : g ∈ boxGrid N)
    (q : Fin (2 ^ 3)) (d : Fin 3) : SourceId.slope F s (boxCell N g) q d = (P d (g d + 1) - P d (g d)) / (L d / N d) := by
  unfold SourceId.slope
  simp only [hbox.shapeGrad _ ht hN hL g hg]
  rw [div_eq_mul_inv _ (L d / (N d : ℝ)), show P d (g d + 1) - P d (g d) = (fun e t => P e (g e + t)) d 1 - (fun e t => P e (g e + t)) d 0 from rfl, ← corner_grad (fun e t => P e (g e + t)) ((gaussRule 3).pt q) d, sum_mul]
  exact sum_congr rfl fun p _ => by rw [boxCell, hs _ fun a => corner_le hg p a]; ring

theorem xAt_box (hbox : OnBox F N L) (ht : CellTables F hex8 (gaussRule 3)) (g : Fin 3 → ℕ) (hg : g ∈ boxGrid N) (q : Fin (2 ^ 3)) (d : Fin 3) :
    F.xAt (boxCell N g) q d = (g d + (gaussRule 3).pt q d) * (L d / N d) := by
  have hs : Additive N (fun e i => if e = d then (i : ℝ) * (L d / N d) else 0) fun n => F.points n d := fun m hm => by
    show F.points (gridNode N m) d = _
    rw [hbox.point m hm d, sum_eq_single d (fun b _ hb => if_neg hb) (fun h => absurd (mem_univ d) h), if_pos rfl]
  have h := val_add ht hs g hg q
  unfold SourceId.val at h
  unfold Fem.xAt
  rw [sum_congr rfl fun p _ => mul_comm _ _, h, sum_eq_single d (fun b _ hb => by simp [hb]) (fun h => absurd (mem_univ d) h)]
  simp only [if_true]
  push_cast
  ring

/-! ## The residual at interior nodes -/

/-- The cell of which the node at `m` is corner `p`. -/
def cellOf (m : Fin 3 → ℕ) (p : Fin 8) : Fin 3 → ℕ := fun a => m a - hexCorner p a

/-- Specification: the weak Laplacian of `s` tested with the shape function of the interior node at `m`. -/
noncomputable def lap (F : Fem 8 (2 ^ 3) nf nfq 3 1) (N : Fin 3 → ℕ) (s : ℕ → ℝ) (m : Fin 3 → ℕ) : ℝ :=
  ∑ p, ∑ q, (∑ d, SourceId.slope F s (boxCell N (cellOf m p)) q d * F.shapeGrad (boxCell N (cellOf m p)) q p d) * F.JxW (boxCell N (cellOf m p)) q

/-- Specification: the load of that node. -/
noncomputable def loadOf (F : Fem 8 (2 ^ 3) nf nfq 3 1) (N : Fin 3 → ℕ) (f : (Fin 3 → ℝ) → ℝ) (m : Fin 3 → ℕ) : ℝ :=
  ∑ p, ∑ q, F.shapeVals q p * f (F.xAt (boxCell N (cellOf m p)) q) * F.JxW (boxCell N (cellOf m p)) q

/-- Interior positions. -/
def Inner (N m : Fin 3 → ℕ) : Prop := ∀ a, 0 < m a ∧ m a < N a

theorem Inner.le {m : Fin 3 → ℕ} (h : Inner N m) (a : Fin 3) : m a ≤ N a := (h a).2.le

theorem Inner.cell {m : Fin 3 → ℕ} (h : Inner N m) (p : Fin 8) : cellOf m p ∈ boxGrid N := (mem_boxGrid _ _).mpr fun a => by
  have := h a
  show m a - hexCorner p a < N a
  omega

theorem Inner.back {m : Fin 3 → ℕ} (h : Inner N m) (p : Fin 8) : boxCell N (cellOf m p) p = gridNode N m := by
  unfold boxCell cellOf
  refine congrArg _ (funext fun a => ?_)
  have := h a
  have := hexCorner_le p a
  omega

theorem residual_inner (hbox : OnBox F N L) (f : (Fin 3 → ℝ) → ℝ) (s : ℕ → ℝ) (R : ℕ → Fin 1 → ℝ) (hR : (poisson F (some fun x _ => f x) none).computeResidual (fun n _ => s n) = .ok R) (m : Fin 3 → ℕ) (hm : Inner N m) :
    R (gridNode N m) 0 = lap F N s m - loadOf F N f m := by
  rw [C13_residual _ _ R hR]
  have e1 : Fem.pairs (poisson F (some fun x _ => f x) none).cauchy = [] := rfl
  have e2 : Fem.pairs (poisson F (some fun x _ => f x) none).neumann = [] := rfl
  rw [e1, e2]
  simp only [List.map_nil, List.sum_nil, add_zero, sub_zero]
  have hv : ∀ p : (Fin 8 → ℕ) × ℕ, (nodal (gridNode N m) p.1 fun a => (poisson F (some fun x _ => f x) none).volTerm (fun n _ => s n) p.1 p.2 a 0)
      = nodal (gridNode N m) p.1 fun a => ∑ q, (∑ d, SourceId.slope F s p.1 q d * F.shapeGrad p.1 q a d) * F.JxW p.1 q := by
    intro p
    refine congrArg _ (funext fun a => ?_)
    unfold Fem.volTerm
    refine sum_congr rfl fun q _ => ?_
    have : (poisson F (some fun x _ => f x) none).massAt p.2 q ((poisson F (some fun x _ => f x) none).uAt (fun n _ => s n) p.1 q) 0 = 0 := rfl
    rw [this, zero_mul, add_zero]
    rfl
  simp only [hv]
  rw [sum_zipIdx_fst (poisson F (some fun x _ => f x) none).cells fun c => nodal (gridNode N m) c fun a => ∑ q, (∑ d, SourceId.slope F s c q d * F.shapeGrad c q a d) * F.JxW c q]
  have hin : ∀ p : Fin 8, ∀ a, hexCorner p a ≤ m a ∧ m a < N a + hexCorner p a := fun p a => by
    have := hm a
    have := hexCorner_le p a
    omega
  refine congrArg₂ (· - ·) ?_ ?_
  · show (F.cells.map fun c => nodal (gridNode N m) c fun a => ∑ q, (∑ d, SourceId.slope F s c q d * F.shapeGrad c q a d) * F.JxW c q).sum = _
    rw [hbox.sum_cells, box_nodal N m hm.le fun g a => ∑ q, (∑ d, SourceId.slope F s (boxCell N g) q d * F.shapeGrad (boxCell N g) q a d) * F.JxW (boxCell N g) q]
    exact sum_congr rfl fun p _ => if_pos (hin p)
  · show (F.cells.map fun c => nodal (gridNode N m) c fun a => ∑ q, F.shapeVals q a * f (F.xAt c q) * F.JxW c q).sum = _
    rw [hbox.sum_cells, box_nodal N m hm.le fun g a => ∑ q, F.shapeVals q a * f (F.xAt (boxCell N g) q) * F.JxW (boxCell N g) q]
    exact sum_congr rfl fun p _ => if_pos (hin p)

theorem lap_add (hbox : OnBox F N L) (ht : CellTables F hex8 (gaussRule 3)) (hN : ∀ a, 0 < N a) (hL : ∀ a, 0 < L a) {P : Fin 3 → ℕ → ℝ} {s : ℕ → ℝ} (hs : Additive N P s) (m : Fin 3 → ℕ) (hm : Inner N m) :
    lap F N s m = (∏ a, L a / N a) * ∑ d, -((P d (m d + 1) + P d (m d - 1) - 2 * P d (m d)) / (L d / N d) ^ 2) := by
  unfold lap
  have h1 : ∀ p : Fin 8, ∑ q, (∑ d, SourceId.slope F s (boxCell N (cellOf m p)) q d * F.shapeGrad (boxCell N (cellOf m p)) q p d) * F.JxW (boxCell N (cellOf m p)) q
      = ∑ d, (∏ a, L a / N a) / (L d / N d) ^ 2 * ((P d (m d - hexCorner p d + 1) - P d (m d - hexCorner p d)) * (Verif.Fem.slope (hexCorner p d) / 4)) := by
    intro p
    have hc := hm.cell p
    simp only [slope_add hbox ht hN hL hs _ hc, hbox.shapeGrad _ ht hN hL _ hc, hbox.JxW _ ht _ hc, sum_mul]
    rw [sum_comm]
    refine sum_congr rfl fun d _ => ?_
    rw [← gauss_grad, mul_sum, mul_sum]
    refine sum_congr rfl fun q _ => ?_
    show (P d (m d - hexCorner p d + 1) - P d (m d - hexCorner p d)) / (L d / N d) * (shapeGradRef hex8 p ((gaussRule 3).pt q) d * (L d / N d)⁻¹) * ((∏ a, L a / N a) * (gaussRule 3).w q) = _
    rw [div_eq_mul_inv _ (L d / (N d : ℝ)), div_eq_mul_inv _ ((L d / (N d : ℝ)) ^ 2), ← inv_pow]
    ring
  rw [sum_congr rfl fun p _ => h1 p, sum_comm, mul_sum]
  refine sum_congr rfl fun d _ => ?_
  rw [← mul_sum, corner_slope (fun t => P d (m d - t + 1) - P d (m d - t))]
  have e : m d - 1 + 1 = m d := Nat.sub_add_cancel (hm d).1
  simp only [e, Nat.sub_zero]
  ring

theorem load_add (hbox : OnBox F N L) (ht : CellTables F hex8 (gaussRule 3)) (f : Fin 3 → ℝ → ℝ) (m : Fin 3 → ℕ) (hm : Inner N m) :
    loadOf F N (fun x => ∑ d, f d (x d)) m = (∏ a, L a / N a) * ∑ d, hatMean (f d) (m d * (L d / N d)) (L d / N d) := by
  unfold loadOf
  have h1 : ∀ p : Fin 8, ∑ q, F.shapeVals q p * (∑ d, f d (F.xAt (boxCell N (cellOf m p)) q d)) * F.JxW (boxCell N (cellOf m p)) q
      = ∑ d, (∏ a, L a / N a) * ∑ q, shapeVal hex8 p ((gaussRule 3).pt q) * f d ((m d - hexCorner p d + (gaussRule 3).pt q d) * (L d / N d)) * (gaussRule 3).w q := by
    intro p
    have hc := hm.cell p
    simp only [xAt_box hbox ht _ hc, hbox.JxW _ ht _ hc, ht.vals, mul_sum, sum_mul]
    rw [sum_comm]
    refine sum_congr rfl fun d _ => sum_congr rfl fun q _ => ?_
    have : ((cellOf m p d : ℕ) : ℝ) = m d - hexCorner p d := by
      unfold cellOf
      rw [Nat.cast_sub]
      have := hexCorner_le p d
      have := hm d
      omega
    rw [this]
    ring
  rw [sum_congr rfl fun p _ => h1 p, sum_comm, mul_sum]
  refine sum_congr rfl fun d _ => ?_
  rw [← mul_sum, corner_load (fun t r => f d ((m d - t + r) * (L d / N d))) d]
  refine congrArg _ ?_
  unfold hatMean
  obtain ⟨g1, -, -⟩ := gauss_facts
  have e1 : gaussPoint true = 1 - gaussPoint false := by linarith
  simp only [Fintype.sum_bool, e1]
  push_cast
  ring_nf

/-- A box of cubes. -/
def Cubes (N : Fin 3 → ℕ) (L : Fin 3 → ℝ) (h : ℝ) : Prop := ∀ a, L a / N a = h

/-- Entry of the cell matrix. -/
noncomputable def entry (F : Fem 8 (2 ^ 3) nf nfq 3 1) (c : Fin 8 → ℕ) (p p' : Fin 8) : ℝ := ∑ q, (∑ d, F.shapeGrad c q p' d * F.shapeGrad c q p d) * F.JxW c q

/-- Mass factor of two corners in one direction. -/
theorem lin_mass (t t' : ℕ) (ht : t ≤ 1) (ht' : t' ≤ 1) : lin t (gaussPoint true) * lin t' (gaussPoint true) + lin t (gaussPoint false) * lin t' (gaussPoint false) = if t = t' then 2 / 3 else 1 / 3 := by
  obtain ⟨g1, g2, -⟩ := gauss_facts
  have e : gaussPoint true = 1 - gaussPoint false := by linarith
  rw [e] at g2 ⊢
  interval_cases t <;> interval_cases t' <;> simp [lin] <;> nlinarith

theorem entry_eq (hbox : OnBox F N L) (ht : CellTables F hex8 (gaussRule 3)) (hN : ∀ a, 0 < N a) (hL : ∀ a, 0 < L a) {h : ℝ} (hc : Cubes N L h) (g : Fin 3 → ℕ) (hg : g ∈ boxGrid N) (p p' : Fin 8) :
    entry F (boxCell N g) p p' = h ^ 3 / (8 * h ^ 2) * ∑ d : Fin 3, ∏ a : Fin 3, if a = d then 2 * (Verif.Fem.slope (hexCorner p' a) * Verif.Fem.slope (hexCorner p a)) else if hexCorner p a = hexCorner p' a then 2 / 3 else 1 / 3 := by
  unfold entry
  simp only [hbox.shapeGrad _ ht hN hL g hg, hbox.JxW _ ht g hg]
  have hpr : ∏ a, L a / (N a : ℝ) = h ^ 3 := by
    rw [prod_congr rfl fun a _ => hc a]
    simp
  simp only [hpr, sum_mul]
  rw [sum_comm, mul_sum]
  refine sum_congr rfl fun d _ => ?_
  rw [hc d]
  have k : ∀ q : Fin (2 ^ 3), shapeGradRef hex8 p' ((gaussRule 3).pt q) d * h⁻¹ * (shapeGradRef hex8 p ((gaussRule 3).pt q) d * h⁻¹) * (h ^ 3 * (gaussRule 3).w q)
      = h ^ 3 / (8 * h ^ 2) * ∏ a : Fin 3, (fun (a : Fin 3) (b : Bool) => if a = d then Verif.Fem.slope (hexCorner p' a) * Verif.Fem.slope (hexCorner p a) else lin (hexCorner p a) (gaussPoint b) * lin (hexCorner p' a) (gaussPoint b)) a ((q : ℕ).testBit (3 - 1 - a)) := by
    intro q
    rw [shapeGradRef_hex8, shapeGradRef_hex8, ← mul_prod_erase univ _ (mem_univ d)]
    simp only [if_true]
    rw [prod_congr rfl fun a ha => if_neg (ne_of_mem_erase ha), prod_mul_distrib]
    have hw : (gaussRule 3).w q = 1 / 8 := by
      simp only [gaussRule]
      norm_num
    have hp : ∀ (a : Fin 3), (gaussRule 3).pt q a = gaussPoint ((q : ℕ).testBit (3 - 1 - a)) := fun a => rfl
    simp only [hw, hp]
    rw [div_mul_eq_div_div, div_eq_mul_inv _ (h ^ 2), ← inv_pow]
    ring
  rw [sum_congr rfl fun q _ => k q, ← mul_sum, sum_bits3 (fun (a : Fin 3) (b : Bool) => if a = d then Verif.Fem.slope (hexCorner p' a) * Verif.Fem.slope (hexCorner p a) else lin (hexCorner p a) (gaussPoint b) * lin (hexCorner p' a) (gaussPoint b))]
  refine congrArg _ (prod_congr rfl fun a _ => ?_)
  by_cases had : a = d
  · simp only [if_pos had]
    ring
  · simp only [if_neg had]
    exact lin_mass _ _ (hexCorner_le p a) (hexCorner_le p' a)

theorem entry_nonpos (hbox : OnBox F N L) (ht : CellTables F hex8 (gaussRule 3)) (hN : ∀ a, 0 < N a) (hL : ∀ a, 0 < L a) {h : ℝ} (h0 : 0 < h) (hc : Cubes N L h) (g : Fin 3 → ℕ) (hg : g ∈ boxGrid N) (p p' : Fin 8)
    (hne : p ≠ p') : entry F (boxCell N g) p p' ≤ 0 := by
  rw [entry_eq hbox ht hN hL hc g hg]
  refine mul_nonpos_of_nonneg_of_nonpos (by positivity) ?_
  have hs : ∀ a, Verif.Fem.slope (hexCorner p' a) * Verif.Fem.slope (hexCorner p a) = if hexCorner p a = hexCorner p' a then 1 else -1 := by
    intro a
    have h1 := hexCorner_le p a
    have h2 := hexCorner_le p' a
    interval_cases hexCorner p a <;> interval_cases hexCorner p' a <;> simp [Verif.Fem.slope]
  have hd : ∃ a, hexCorner p a ≠ hexCorner p' a := (show ∀ p p' : Fin 8, p ≠ p' → ∃ a, hexCorner p a ≠ hexCorner p' a by decide) p p' hne
  simp only [hs, Fin.sum_univ_three, Fin.prod_univ_three]
  simp only [if_true, show (1 : Fin 3) ≠ 0 by decide, show (2 : Fin 3) ≠ 0 by decide, show (0 : Fin 3) ≠ 1 by decide, show (2 : Fin 3) ≠ 1 by decide, show (0 : Fin 3) ≠ 2 by decide, show (1 : Fin 3) ≠ 2 by decide, if_false]
  by_cases e0 : hexCorner p 0 = hexCorner p' 0 <;> by_cases e1 : hexCorner p 1 = hexCorner p' 1 <;> by_cases e2 : hexCorner p 2 = hexCorner p' 2
  · obtain ⟨a, ha⟩ := hd
    refine absurd ?_ ha
    fin_cases a
    · exact e0
    · exact e1
    · exact e2
  all_goals
    simp only [e0, e1, e2, if_true, if_false]
    norm_num

theorem entry_row (hbox : OnBox F N L) (ht : CellTables F hex8 (gaussRule 3)) (hN : ∀ a, 0 < N a) (hL : ∀ a, 0 < L a) (g : Fin 3 → ℕ) (hg : g ∈ boxGrid N) (p : Fin 8) : ∑ p', entry F (boxCell N g) p p' = 0 := by
  unfold entry
  rw [sum_comm]
  refine sum_eq_zero fun q _ => ?_
  rw [← sum_mul, sum_comm, sum_eq_zero fun d _ => ?_, zero_mul]
  rw [← sum_mul]
  have h1 : Additive N (fun _ _ => (1 / 3 : ℝ)) fun _ => (1 : ℝ) := fun m _ => by rw [Fin.sum_univ_three]; norm_num
  have h := slope_add hbox ht hN hL h1 g hg q d
  unfold SourceId.slope at h
  simp only [one_mul, sub_self, zero_div] at h
  rw [h, zero_mul]

theorem lap_entry (s : ℕ → ℝ) (m : Fin 3 → ℕ) : lap F N s m = ∑ p, ∑ p', s (boxCell N (cellOf m p) p') * entry F (boxCell N (cellOf m p)) p p' := by
  unfold lap entry SourceId.slope
  refine sum_congr rfl fun p _ => ?_
  rw [sum_congr rfl fun p' _ => mul_sum univ _ (s (boxCell N (cellOf m p) p')), sum_comm]
  refine sum_congr rfl fun q _ => ?_
  simp only [sum_mul, mul_sum]
  rw [sum_comm]
  exact sum_congr rfl fun p' _ => sum_congr rfl fun d _ => by ring

theorem lap_sub (s t : ℕ → ℝ) (m : Fin 3 → ℕ) : lap F N (fun n => s n - t n) m = lap F N s m - lap F N t m := by
  simp only [lap_entry, ← sum_sub_distrib, sub_mul]

theorem lap_smul (k : ℝ) (s : ℕ → ℝ) (m : Fin 3 → ℕ) : lap F N (fun n => k * s n) m = k * lap F N s m := by
  simp only [lap_entry, mul_sum, mul_assoc]

/-- Discrete maximum principle on a grid of cubes. -/
theorem max_le (hbox : OnBox F N L) (ht : CellTables F hex8 (gaussRule 3)) (hN : ∀ a, 0 < N a) (hL : ∀ a, 0 < L a) {h : ℝ} (h0 : 0 < h) (hc : Cubes N L h) (free : (Fin 3 → ℕ) → Prop) (E : ℕ → ℝ)
    (h1 : ∀ m : Fin 3 → ℕ, (∀ a, m a ≤ N a) → ¬ free m → E (gridNode N m) ≤ 0) (h2 : ∀ m, free m → Inner N m) (h3 : ∀ m, free m → lap F N E m < 0) (m : Fin 3 → ℕ) (hm : ∀ a, m a ≤ N a) : E (gridNode N m) ≤ 0 := by
  obtain ⟨k, hk, hmax⟩ := exists_max_image (Fintype.piFinset fun a => range (N a + 1)) (fun m => E (gridNode N m)) ⟨m, by simp only [Fintype.mem_piFinset, mem_range]; exact fun a => Nat.lt_succ_of_le (hm a)⟩
  simp only [Fintype.mem_piFinset, mem_range, Nat.lt_succ_iff] at hk hmax
  refine (hmax m hm).trans ?_
  by_contra hpos
  have hf : free k := by
    by_contra hf
    exact hpos (h1 k hk hf)
  have hin := h2 k hf
  refine absurd (h3 k hf) (not_lt.mpr ?_)
  rw [lap_entry]
  refine sum_nonneg fun p _ => ?_
  have e : ∑ p', E (boxCell N (cellOf k p) p') * entry F (boxCell N (cellOf k p)) p p' = ∑ p', (E (boxCell N (cellOf k p) p') - E (gridNode N k)) * entry F (boxCell N (cellOf k p)) p p' := by
    simp only [sub_mul, sum_sub_distrib, ← mul_sum]
    rw [entry_row hbox ht hN hL _ (hin.cell p), mul_zero, sub_zero]
  rw [e]
  refine sum_nonneg fun p' _ => ?_
  by_cases hp : p = p'
  · subst hp
    rw [hin.back, sub_self, zero_mul]
  · refine mul_nonneg_of_nonpos_of_nonpos (sub_nonpos.mpr ?_) (entry_nonpos hbox ht hN hL h0 hc _ (hin.cell p) p p' hp)
    exact hmax _ fun a => corner_le (hin.cell p) p' a

theorem vol_pos (hN : ∀ a, 0 < N a) (hL : ∀ a, 0 < L a) : 0 < ∏ a, L a / (N a : ℝ) := prod_pos fun a _ => div_pos (hL a) (by exact_mod_cast hN a)

/-- The barrier. -/
theorem lap_barrier (hbox : OnBox F N L) (ht : CellTables F hex8 (gaussRule 3)) (hN : ∀ a, 0 < N a) (hL : ∀ a, 0 < L a) (a : Fin 3) (m : Fin 3 → ℕ) (hm : Inner N m) :
    lap F N (fun n => F.points n a * (L a - F.points n a) / 2) m = ∏ a, L a / (N a : ℝ) := by
  have hs : Additive N (fun e i => if e = a then ((i : ℝ) * (L a / N a)) * (L a - (i : ℝ) * (L a / N a)) / 2 else 0) fun n => F.points n a * (L a - F.points n a) / 2 := fun m hm => by
    show F.points (gridNode N m) a * (L a - F.points (gridNode N m) a) / 2 = _
    rw [hbox.point m hm a, sum_eq_single a (fun b _ hb => if_neg hb) (fun h => absurd (mem_univ a) h), if_pos rfl]
  have hne : L a / (N a : ℝ) ≠ 0 := (div_pos (hL a) (by exact_mod_cast hN a)).ne'
  rw [lap_add hbox ht hN hL hs m hm, sum_eq_single a (fun b _ hb => by simp [hb]) (fun h => absurd (mem_univ a) h)]
  simp only [if_true]
  rw [Nat.cast_sub (hm a).1]
  push_cast
  generalize L a / (N a : ℝ) = h at hne
  field_simp
  ring

/-- A field with small weak Laplacian at the free nodes that vanishes at the others is small. -/
theorem bound_upper (hbox : OnBox F N L) (ht : CellTables F hex8 (gaussRule 3)) (hN : ∀ a, 0 < N a) (hL : ∀ a, 0 < L a) {h : ℝ} (h0 : 0 < h) (hc : Cubes N L h) (free : (Fin 3 → ℕ) → Prop) (E : ℕ → ℝ) (T : ℝ) (hT : 0 ≤ T)
    (h1 : ∀ m : Fin 3 → ℕ, (∀ a, m a ≤ N a) → ¬ free m → E (gridNode N m) ≤ 0) (h2 : ∀ m, free m → Inner N m) (h3 : ∀ m, free m → lap F N E m ≤ (∏ a, L a / N a) * T) (a : Fin 3) (m : Fin 3 → ℕ) (hm : ∀ a, m a ≤ N a) :
    E (gridNode N m) ≤ L a ^ 2 / 8 * T := by
  have hx : ∀ m : Fin 3 → ℕ, (∀ a, m a ≤ N a) → 0 ≤ F.points (gridNode N m) a ∧ F.points (gridNode N m) a ≤ L a := fun m hm => by
    have hNa : (0 : ℝ) < N a := by exact_mod_cast hN a
    rw [hbox.point m hm a]
    refine ⟨by have := hL a; positivity, ?_⟩
    have : (m a : ℝ) * (L a / N a) ≤ N a * (L a / N a) := mul_le_mul_of_nonneg_right (by exact_mod_cast hm a) (by have := hL a; positivity)
    rwa [mul_div_cancel₀ _ hNa.ne'] at this
  have key : ∀ ε > 0, E (gridNode N m) - (T + ε) * (F.points (gridNode N m) a * (L a - F.points (gridNode N m) a) / 2) ≤ 0 := by
    intro ε hε
    refine max_le hbox ht hN hL h0 hc free (fun n => E n - (T + ε) * (F.points n a * (L a - F.points n a) / 2)) (fun k hk hf => ?_) h2 (fun k hf => ?_) m hm
    · have := h1 k hk hf
      have := (hx k hk).1
      have := (hx k hk).2
      have : 0 ≤ (T + ε) * (F.points (gridNode N k) a * (L a - F.points (gridNode N k) a) / 2) := mul_nonneg (by linarith) (by have := mul_nonneg (hx k hk).1 (sub_nonneg.mpr (hx k hk).2); linarith)
      linarith
    · rw [lap_sub E (fun n => (T + ε) * (F.points n a * (L a - F.points n a) / 2)), lap_smul, lap_barrier hbox ht hN hL a k (h2 k hf)]
      have := h3 k hf
      have := mul_pos (vol_pos hN hL) hε
      linarith [show (T + ε) * (∏ a, L a / (N a : ℝ)) = (∏ a, L a / (N a : ℝ)) * T + (∏ a, L a / (N a : ℝ)) * ε by ring]
  have hb : F.points (gridNode N m) a * (L a - F.points (gridNode N m) a) / 2 ≤ L a ^ 2 / 8 := by nlinarith [sq_nonneg (F.points (gridNode N m) a - L a / 2)]
  have hb0 : 0 ≤ F.points (gridNode N m) a * (L a - F.points (gridNode N m) a) / 2 := by have := mul_nonneg (hx m hm).1 (sub_nonneg.mpr (hx m hm).2); linarith
  have hL2 : 0 < L a ^ 2 / 8 := by have := hL a; positivity
  refine le_of_forall_pos_le_add fun δ hδ => ?_
  have := key (δ / (L a ^ 2 / 8)) (by positivity)
  have k1 : (T + δ / (L a ^ 2 / 8)) * (F.points (gridNode N m) a * (L a - F.points (gridNode N m) a) / 2) ≤ (T + δ / (L a ^ 2 / 8)) * (L a ^ 2 / 8) := mul_le_mul_of_nonneg_left hb (by positivity)
  have k2 : (T + δ / (L a ^ 2 / 8)) * (L a ^ 2 / 8) = L a ^ 2 / 8 * T + δ := by rw [add_mul, div_mul_cancel₀ _ hL2.ne', mul_comm]
  linarith

theorem bound_abs (hbox : OnBox F N L) (ht : CellTables F hex8 (gaussRule 3)) (hN : ∀ a, 0 < N a) (hL : ∀ a, 0 < L a) {h : ℝ} (h0 : 0 < h) (hc : Cubes N L h) (free : (Fin 3 → ℕ) → Prop) (E : ℕ → ℝ) (T : ℝ) (hT : 0 ≤ T)
    (h1 : ∀ m : Fin 3 → ℕ, (∀ a, m a ≤ N a) → ¬ free m → E (gridNode N m) = 0) (h2 : ∀ m, free m → Inner N m) (h3 : ∀ m, free m → |lap F N E m| ≤ (∏ a, L a / N a) * T) (a : Fin 3) (m : Fin 3 → ℕ) (hm : ∀ a, m a ≤ N a) :
    |E (gridNode N m)| ≤ L a ^ 2 / 8 * T := by
  have k1 := bound_upper hbox ht hN hL h0 hc free E T hT (fun k hk hf => (h1 k hk hf).le) h2 (fun k hf => (abs_le.mp (h3 k hf)).2) a m hm
  have k2 := bound_upper hbox ht hN hL h0 hc free (fun n => (-1) * E n) T hT (fun k hk hf => by rw [h1 k hk hf]; norm_num) h2
    (fun k hf => by rw [lap_smul]; have := (abs_le.mp (h3 k hf)).1; linarith) a m hm
  rw [abs_le]
  constructor <;> linarith

/-! ## Model: the program -/

/-- `body_force` (applications/fem/convergence_rate/example.py 27-29): minus the trace of the Hessian of the true solution. -/
noncomputable def bodyForce (u : (Fin 3 → ℝ) → ℝ) (x : Fin 3 → ℝ) : ℝ := -∑ d, iteratedDeriv 2 (fun t : ℝ => u (x + t • Pi.single d 1)) 0

/-- `dirichlet_bc_info` (example.py 31-54) for a box with edges `L` (the program has the unit cube). -/
noncomputable def trueInfo (L : Fin 3 → ℝ) (u : (Fin 3 → ℝ) → ℝ) : List (Loc 3) × List ℕ × List ((Fin 3 → ℝ) → ℝ) := (faces L, List.replicate 6 0, List.replicate 6 u)

/-- The boundary conditions computed from it by the constructor (core.py 34-41). -/
noncomputable def trueGroups (F : Fem 8 (2 ^ 3) nf nfq 3 1) (L : Fin 3 → ℝ) (u : (Fin 3 → ℝ) → ℝ) : List (Verif.Fem.Group ℝ) :=
  match dirichletBC F.numTotal F.points (some (trueInfo L u)) with
  | .ok out => groupsOf out.1 out.2.1 out.2.2
  | .error _ => []

/-- `problem = LinearPoisson(...)` (example.py 56-57). -/
noncomputable def convObj (F : Fem 8 (2 ^ 3) nf nfq 3 1) (u : (Fin 3 → ℝ) → ℝ) : Fem 8 (2 ^ 3) nf nfq 3 1 := poisson F (some fun x _ => bodyForce u x) none

/-- The problem as the solver sees it. -/
noncomputable abbrev convProb (F : Fem 8 (2 ^ 3) nf nfq 3 1) (L : Fin 3 → ℝ) (u : (Fin 3 → ℝ) → ℝ) : Prob ℝ FemErr := (convObj F u).toProb (trueGroups F L u)

theorem trueGroups_ok (F : Fem 8 (2 ^ 3) nf nfq 3 1) (L : Fin 3 → ℝ) (u : (Fin 3 → ℝ) → ℝ) : ∃ N C W, dirichletBC F.numTotal F.points (some (trueInfo L u)) = .ok (N, C, W) ∧ trueGroups F L u = groupsOf N C W := by
  obtain ⟨⟨N, C, W⟩, h⟩ := (C17_accepted F.numTotal F.points (trueInfo L u).1 (trueInfo L u).2.1 (trueInfo L u).2.2).1.mpr ⟨rfl, rfl⟩
  refine ⟨N, C, W, h, ?_⟩
  unfold trueGroups
  rw [show (some (trueInfo L u)) = some ((trueInfo L u).1, (trueInfo L u).2.1, (trueInfo L u).2.2) from rfl, h]

theorem true_prescribed (F : Fem 8 (2 ^ 3) nf nfq 3 1) (L : Fin 3 → ℝ) (u : (Fin 3 → ℝ) → ℝ) (n : ℕ) (hn : n < F.numTotal) :
    (FreeAt (convProb F L u).prescriptions (1 * n + 0) ↔ ¬ OnFace L (F.points n)) ∧ ∀ v, LastAt (convProb F L u).prescriptions (1 * n + 0) v → v = u (F.points n) := by
  obtain ⟨N, C, W, h, hg⟩ := trueGroups_ok F L u
  obtain ⟨h1, h2⟩ := user_prescriptions (convProb F L u) F.points (trueInfo L u).1 (trueInfo L u).2.1 (trueInfo L u).2.2 (by
    intro v hv
    show v < 1
    rw [List.eq_of_mem_replicate hv]
    omega) N C W h hg n 0 hn (by show 0 < 1; omega)
  have e : (trueInfo L u).1.zip ((trueInfo L u).2.1.zip (trueInfo L u).2.2) = (faces L).map fun l => (l, 0, u) := rfl
  have e0 : (info L).1.zip ((info L).2.1.zip (info L).2.2) = (faces L).map fun l => (l, 0, fun _ => (0 : ℝ)) := rfl
  refine ⟨?_, fun v hv => ?_⟩
  · refine h1.trans ?_
    rw [← faces_iff, e, e0]
    simp only [List.mem_map, not_exists, not_and, forall_exists_index, and_imp, forall_apply_eq_imp_iff₂]
  · obtain ⟨t, ht, -, rfl⟩ := h2 v hv
    rw [e] at ht
    obtain ⟨l, -, rfl⟩ := List.mem_map.mp ht
    rfl

theorem true_determined (F : Fem 8 (2 ^ 3) nf nfq 3 1) (L : Fin 3 → ℝ) (hF : SourceId.Mesh F L) (u : (Fin 3 → ℝ) → ℝ) : (convObj F u).Determined (convProb F L u).prescriptions := by
  refine C87_determined _ (monotone F L hF _ _) (fun k q A B hne => ?_) hF.modes _ fun n hn i => ?_
  · obtain ⟨i, hi⟩ := Function.ne_iff.mp hne
    obtain ⟨d, hd⟩ := Function.ne_iff.mp hi
    refine sum_pos' (fun i _ => sum_nonneg fun d _ => mul_self_nonneg (A i d - B i d)) ⟨i, mem_univ i, ?_⟩
    exact sum_pos' (fun d _ => mul_self_nonneg (A i d - B i d)) ⟨d, mem_univ d, mul_self_pos.mpr (sub_ne_zero.mpr hd)⟩
  · obtain ⟨m, h1, h2, h3⟩ := hF.linked n hn
    refine ⟨m, h1, fun hf => ?_, h3⟩
    rw [Fin.fin_one_eq_zero i] at hf
    exact (true_prescribed F L u m h1).1.mp hf h2

/-! ## Additive solutions -/

/-- Specification: a sum of functions of one coordinate each, like the true solution of the program (example.py 21-25). -/
def addField (p : Fin 3 → ℝ → ℝ) (x : Fin 3 → ℝ) : ℝ := ∑ d, p d (x d)

theorem addField_line (p : Fin 3 → ℝ → ℝ) (x : Fin 3 → ℝ) (d : Fin 3) (t : ℝ) : addField p (x + t • Pi.single d 1) = p d (x d + t) + ∑ e ∈ univ.erase d, p e (x e) := by
  unfold addField
  rw [← add_sum_erase univ _ (mem_univ d)]
  refine congrArg₂ (· + ·) (by simp) (sum_congr rfl fun e he => ?_)
  simp [Pi.single_eq_of_ne (ne_of_mem_erase he)]

theorem bodyForce_add {p : Fin 3 → ℝ → ℝ} (hp : ∀ d, ContDiff ℝ 4 (p d)) (x : Fin 3 → ℝ) : bodyForce (addField p) x = ∑ d, -iteratedDeriv 2 (p d) (x d) := by
  unfold bodyForce
  rw [← sum_neg_distrib]
  refine sum_congr rfl fun d _ => congrArg _ ?_
  have hd := fun k hk t => hasD (n := 4) (by exact_mod_cast hp d) k hk t
  have d0 : ∀ t, HasDerivAt (p d) (iteratedDeriv 1 (p d) t) t := fun t => by
    have := hd 0 (by norm_num) t
    rwa [iteratedDeriv_zero] at this
  simp only [addField_line]
  rw [show (2 : ℕ) = 0 + 1 + 1 from rfl, iteratedDeriv_succ, iteratedDeriv_succ, iteratedDeriv_zero]
  have e1 : deriv (fun t => p d (x d + t) + ∑ e ∈ univ.erase d, p e (x e)) = fun t => iteratedDeriv 1 (p d) (x d + t) := funext fun t => by
    exact (((d0 (x d + t)).comp_const_add (x d) t).add_const _).deriv
  rw [e1]
  have e2 := ((hd 1 (by norm_num) (x d + 0)).comp_const_add (x d) 0).deriv
  rw [e2, add_zero]

theorem onFace_outer (hbox : OnBox F N L) (hN : ∀ a, 0 < N a) (m : Fin 3 → ℕ) (hm : ∀ a, m a ≤ N a) (h : ¬ OnFace L (F.points (gridNode N m))) : Inner N m := by
  intro a
  unfold OnFace at h
  push Not at h
  obtain ⟨k1, k2⟩ := h a
  rw [hbox.point m hm a] at k1 k2
  have hNa : (N a : ℝ) ≠ 0 := by exact_mod_cast (hN a).ne'
  refine ⟨Nat.pos_of_ne_zero fun h0 => ?_, lt_of_le_of_ne (hm a) fun h0 => ?_⟩
  · rw [h0] at k1
    norm_num at k1
  · rw [h0, mul_div_cancel₀ _ hNa, sub_self, abs_zero] at k2
    have : (0 : ℝ) ≤ 1e-5 + 1e-5 * |L a| := by positivity
    linarith

/-- The residual of the nodal values of the true solution. -/
theorem residual_true (hbox : OnBox F N L) (ht : CellTables F hex8 (gaussRule 3)) (hN : ∀ a, 0 < N a) (hL : ∀ a, 0 < L a) {p : Fin 3 → ℝ → ℝ} (hp : ∀ d, ContDiff ℝ 4 (p d)) (m : Fin 3 → ℕ) (hm : Inner N m) :
    lap F N (fun n => addField p (F.points n)) m - loadOf F N (bodyForce (addField p)) m = (∏ a, L a / N a) * ∑ d, defect (p d) (m d * (L d / N d)) (L d / N d) := by
  have hs : Additive N (fun d i => p d ((i : ℝ) * (L d / N d))) fun n => addField p (F.points n) := fun m hm => by
    unfold addField
    exact sum_congr rfl fun d _ => by rw [hbox.point m hm d]
  rw [lap_add hbox ht hN hL hs m hm, show bodyForce (addField p) = fun x => ∑ d, (fun d t => -iteratedDeriv 2 (p d) t) d (x d) from funext fun x => bodyForce_add hp x,
    load_add hbox ht (fun d t => -iteratedDeriv 2 (p d) t) m hm, ← mul_sub, ← sum_sub_distrib]
  refine congrArg _ (sum_congr rfl fun d _ => ?_)
  have hneg : hatMean (fun t => -iteratedDeriv 2 (p d) t) (m d * (L d / N d)) (L d / N d) = -hatMean (iteratedDeriv 2 (p d)) (m d * (L d / N d)) (L d / N d) := by
    unfold hatMean
    simp only [Fintype.sum_bool]
    ring
  rw [hneg]
  unfold defect
  rw [Nat.cast_sub (hm d).1]
  push_cast
  rw [show ((m d : ℝ) + 1) * (L d / N d) = m d * (L d / N d) + L d / N d by ring, show ((m d : ℝ) - 1) * (L d / N d) = m d * (L d / N d) - L d / N d by ring]
  ring

theorem grid_Icc (hN : ∀ a, 0 < N a) (hL : ∀ a, 0 < L a) {m : Fin 3 → ℕ} (hm : Inner N m) (d : Fin 3) : 0 ≤ m d * (L d / N d) - L d / N d ∧ m d * (L d / N d) + L d / N d ≤ L d := by
  have hh : 0 < L d / (N d : ℝ) := div_pos (hL d) (by exact_mod_cast hN d)
  have h1 : (1 : ℝ) ≤ m d := by exact_mod_cast (hm d).1
  have h2 : (m d : ℝ) + 1 ≤ N d := by exact_mod_cast (hm d).2
  have e : (N d : ℝ) * (L d / N d) = L d := mul_div_cancel₀ _ (by exact_mod_cast (hN d).ne')
  constructor <;> nlinarith

/-- Nodal error of a solution of the discrete problem. -/
theorem nodal_error (hbox : OnBox F N L) (hnum : F.numTotal = (N 0 + 1) * (N 1 + 1) * (N 2 + 1)) (ht : CellTables F hex8 (gaussRule 3)) (hN : ∀ a, 0 < N a) (hL : ∀ a, 0 < L a) {h : ℝ} (hc : Cubes N L h) {p : Fin 3 → ℝ → ℝ}
    (hp : ∀ d, ContDiff ℝ 4 (p d)) (M : Fin 3 → ℝ) (hM : ∀ d, ∀ t ∈ Set.Icc 0 (L d), |iteratedDeriv 4 (p d) t| ≤ M d) (s : ℕ → ℝ)
    (hs : (convObj F (addField p)).Solves (convProb F L (addField p)).prescriptions fun n _ => s n) (a : Fin 3) (n : ℕ) (hn : n < F.numTotal) :
    |s n - addField p (F.points n)| ≤ L a ^ 2 / 8 * (∑ d, M d * h ^ 2 / 6) := by
  obtain ⟨R, hR, hs⟩ := hs
  have h0 : 0 < h := by rw [← hc 0]; exact div_pos (hL 0) (by exact_mod_cast hN 0)
  have hM0 : ∀ d, 0 ≤ M d := fun d => (abs_nonneg _).trans (hM d 0 ⟨le_rfl, (hL d).le⟩)
  rw [hnum] at hn
  obtain ⟨m, hm, rfl⟩ := gridNode_surj N n hn
  have hlt : ∀ m : Fin 3 → ℕ, (∀ a, m a ≤ N a) → gridNode N m < F.numTotal := fun m hm => by rw [hnum]; exact gridNode_lt N m hm
  refine bound_abs hbox ht hN hL h0 hc (fun m => (∀ a, m a ≤ N a) ∧ ¬ OnFace L (F.points (gridNode N m))) (fun n => s n - addField p (F.points n)) _
    (sum_nonneg fun d _ => by have := hM0 d; positivity) (fun k hk hf => ?_) (fun k hk => onFace_outer hbox hN k hk.1 hk.2) (fun k hk => ?_) a m hm
  · have hface : OnFace L (F.points (gridNode N k)) := by
      by_contra hne
      exact hf ⟨hk, hne⟩
    have hp := true_prescribed F L (addField p) (gridNode N k) (hlt k hk)
    rcases free_or_last (convProb F L (addField p)).prescriptions (1 * gridNode N k + 0) with hfr | ⟨v, hv⟩
    · exact absurd hface (hp.1.mp hfr)
    · have e1 : s (gridNode N k) = v := (hs (gridNode N k) (hlt k hk) 0).1 v hv
      show s (gridNode N k) - addField p (F.points (gridNode N k)) = 0
      rw [e1, hp.2 v hv, sub_self]
  · have hin := onFace_outer hbox hN k hk.1 hk.2
    have hfree := (hs (gridNode N k) (hlt k hk.1) 0).2 ((true_prescribed F L (addField p) (gridNode N k) (hlt k hk.1)).1.mpr hk.2)
    rw [residual_inner hbox (bodyForce (addField p)) s R hR k hin] at hfree
    rw [lap_sub s (fun n => addField p (F.points n))]
    have e := residual_true hbox ht hN hL hp k hin
    rw [show lap F N s k - lap F N (fun n => addField p (F.points n)) k = -((∏ a, L a / (N a : ℝ)) * ∑ d, defect (p d) (k d * (L d / N d)) (L d / N d)) by linarith, abs_neg, abs_mul, abs_of_pos (vol_pos hN hL)]
    refine mul_le_mul_of_nonneg_left ((abs_sum_le_sum_abs _ _).trans (sum_le_sum fun d _ => ?_)) (vol_pos hN hL).le
    have hi := grid_Icc hN hL hin d
    have := defect_abs (hp d) (x := k d * (L d / N d)) (h := L d / N d) (M := M d) (by rw [hc d]; exact h0) fun t ht => hM d t ⟨hi.1.trans ht.1, ht.2.trans hi.2⟩
    rw [hc d] at this ⊢
    exact this

end Verif.Fem.Conv
