import Verif.Fem.PropsAssembly

/-!
# Principle of virtual work for the assembled residual (C71)
-/
namespace Verif.Fem
open Finset

variable {nn nq nf nfq dim vec : ℕ}

theorem sum_nodal_mul (N : ℕ) (c : Fin nn → ℕ) (hc : ∀ a, c a < N) (w : Fin nn → ℝ) (v : ℕ → ℝ) : ∑ n ∈ range N, nodal n c w * v n = ∑ a, w a * v (c a) := by
  rw [← sum_nodal N c hc fun a => w a * v (c a)]
  refine sum_congr rfl fun n _ => ?_
  unfold nodal
  rw [sum_mul]
  refine sum_congr rfl fun a ha => ?_
  show w a * v n = w a * v (c a)
  rw [(mem_filter.mp ha).2]

theorem list_sum_mul' {α : Type*} (l : List α) (f : α → ℝ) (c : ℝ) : (l.map f).sum * c = (l.map fun a => f a * c).sum := by
  induction l with
  | nil => simp
  | cons a l ih => simp only [List.map_cons, List.sum_cons, add_mul, ih]

theorem list_fin_sum {α ι : Type*} (s : Finset ι) (l : List α) (f : ι → α → ℝ) : ∑ i ∈ s, (l.map (f i)).sum = (l.map fun a => ∑ i ∈ s, f i a).sum := by
  induction l with
  | nil => simp
  | cons a l ih => simp only [List.map_cons, List.sum_cons, sum_add_distrib, ih]

theorem zipIdx_mem {α : Type*} {l : List α} {p : α × ℕ} (hp : p ∈ l.zipIdx) : p.1 ∈ l :=
  List.mem_of_getElem? (List.mem_zipIdx_iff_getElem?.mp (show (p.1, p.2) ∈ l.zipIdx from hp))

theorem pair_values {m : ℕ} (f : Fin m → Fin vec → ℝ) (N : Fin m → Fin nn → ℝ) (s : Fin m → ℝ) (V : Fin nn → Fin vec → ℝ) :
    ∑ i, ∑ a, (∑ q, f q i * N q a * s q) * V a i = ∑ q, (∑ i, f q i * ∑ a, V a i * N q a) * s q := by
  simp only [sum_mul, mul_sum]
  rw [sum_comm' (t' := univ) (s' := fun _ => univ) (by simp)]
  calc ∑ a, ∑ i, ∑ q, f q i * N q a * s q * V a i = ∑ a, ∑ q, ∑ i, f q i * N q a * s q * V a i := sum_congr rfl fun _ _ => sum_comm
    _ = ∑ q, ∑ a, ∑ i, f q i * N q a * s q * V a i := sum_comm
    _ = ∑ q, ∑ i, ∑ a, f q i * N q a * s q * V a i := sum_congr rfl fun _ _ => sum_comm
    _ = _ := sum_congr rfl fun q _ => sum_congr rfl fun i _ => sum_congr rfl fun a _ => by ring

theorem pair_grads {m : ℕ} (S : Fin m → Fin vec → Fin dim → ℝ) (G : Fin m → Fin nn → Fin dim → ℝ) (s : Fin m → ℝ) (V : Fin nn → Fin vec → ℝ) :
    ∑ i, ∑ a, (∑ q, (∑ d, S q i d * G q a d) * s q) * V a i = ∑ q, (∑ i, ∑ d, S q i d * ∑ a, V a i * G q a d) * s q := by
  have h : ∀ d : Fin dim, ∑ i, ∑ a, (∑ q, S q i d * G q a d * s q) * V a i = ∑ q, (∑ i, S q i d * ∑ a, V a i * G q a d) * s q :=
    fun d => pair_values (fun q i => S q i d) (fun q a => G q a d) s V
  have h2 := sum_congr (rfl : (univ : Finset (Fin dim)) = univ) fun d _ => h d
  simp only [sum_mul] at h2 ⊢
  calc ∑ i, ∑ a, ∑ q, ∑ d, S q i d * G q a d * s q * V a i = ∑ i, ∑ a, ∑ d, ∑ q, S q i d * G q a d * s q * V a i :=
        sum_congr rfl fun _ _ => sum_congr rfl fun _ _ => sum_comm
    _ = ∑ i, ∑ d, ∑ a, ∑ q, S q i d * G q a d * s q * V a i := sum_congr rfl fun _ _ => sum_comm
    _ = ∑ d, ∑ i, ∑ a, ∑ q, S q i d * G q a d * s q * V a i := sum_comm
    _ = _ := h2
    _ = ∑ q, ∑ d, ∑ i, S q i d * (∑ a, V a i * G q a d) * s q := sum_comm
    _ = _ := sum_congr rfl fun _ _ => sum_comm

/-- **C71 (virtual work).** For every constitutive law, every solution and every nodal test field `v`, the assembled residual paired with `v` is: the work of the stress on the gradient of `v` plus the mass term on
`v`, plus the Cauchy flux on `v`, minus the volume load on `v`, minus the tractions on `v`, all by the code's quadrature. -/
theorem C71_virtual_work (F : Fem nn nq nf nfq dim vec) (hmesh : ∀ c ∈ F.cells, ∀ a, c a < F.numTotal) (sol v R : ℕ → Fin vec → ℝ) (h : F.computeResidual sol = .ok R) :
    ∑ n ∈ range F.numTotal, ∑ i, R n i * v n i =
      (F.cells.zipIdx.map fun p => ∑ q, ((∑ i, ∑ d, F.stress p.2 q (F.gradAt sol p.1 q) i d * F.gradAt v p.1 q i d)
          + ∑ i, F.massAt p.2 q (F.uAt sol p.1 q) i * F.uAt v p.1 q i) * F.JxW p.1 q).sum
      + ((Fem.pairs F.cauchy).map fun lv => ((F.selected lv.1).map fun p => ∑ q, (∑ i, lv.2 (F.uFace sol p q) i * F.uFace v p q i) * F.nansonScale p.1 p.2 q).sum).sum
      - (F.cells.map fun c => ∑ q, (∑ i, F.load c q i * F.uAt v c q i) * F.JxW c q).sum
      - ((Fem.pairs F.neumann).map fun lv => ((F.selected lv.1).zipIdx.map fun p =>
          ∑ q, (∑ i, lv.2 p.2 q (F.xFace p.1 q) i * F.uFace v p.1 q i) * F.nansonScale p.1.1 p.1.2 q).sum).sum := by
  have hcell : ∀ (c : Fin nn → ℕ), c ∈ F.cells → ∀ (w : Fin nn → Fin vec → ℝ), ∑ n ∈ range F.numTotal, ∑ i, nodal n c (fun a => w a i) * v n i = ∑ i, ∑ a, w a i * v (c a) i := by
    intro c hc w
    rw [sum_comm]
    exact sum_congr rfl fun i _ => sum_nodal_mul _ _ (hmesh c hc) (fun a => w a i) fun n => v n i
  simp only [C13_residual F sol R h, sub_mul, add_mul, sum_sub_distrib, sum_add_distrib, list_sum_mul', list_fin_sum]
  congr 1
  · congr 1
    · congr 1
      · refine sum_map_congr fun p hp => ?_
        rw [hcell p.1 (zipIdx_mem hp) fun a i => F.volTerm sol p.1 p.2 a i]
        have h1 := pair_grads (fun q => F.stress p.2 q (F.gradAt sol p.1 q)) (fun q a => F.shapeGrad p.1 q a) (F.JxW p.1) fun a => v (p.1 a)
        have h2 := pair_values (fun q => F.massAt p.2 q (F.uAt sol p.1 q)) F.shapeVals (F.JxW p.1) fun a => v (p.1 a)
        unfold Fem.volTerm
        simp only [add_mul, sum_add_distrib]
        rw [h1, h2]
        rfl
      · refine sum_map_congr fun lv _ => sum_map_congr fun p hp => ?_
        rw [hcell p.1 (selected_mem F hp) fun a i => ∑ q, lv.2 (F.uFace sol p q) i * F.faceShapeVals p.2 q a * F.nansonScale p.1 p.2 q]
        exact pair_values (fun q => lv.2 (F.uFace sol p q)) (F.faceShapeVals p.2) (F.nansonScale p.1 p.2) fun a => v (p.1 a)
    · refine sum_map_congr fun c hc => ?_
      rw [hcell c hc fun a i => ∑ q, F.shapeVals q a * F.load c q i * F.JxW c q]
      have h2 := pair_values (F.load c) F.shapeVals (F.JxW c) fun a => v (c a)
      simp only [mul_comm (F.shapeVals _ _) (F.load _ _ _)]
      exact h2
  · refine sum_map_congr fun lv _ => sum_map_congr fun p hp => ?_
    rw [hcell p.1.1 (selected_mem F (zipIdx_mem hp)) fun a i => ∑ q, F.faceShapeVals p.1.2 q a * lv.2 p.2 q (F.xFace p.1 q) i * F.nansonScale p.1.1 p.1.2 q]
    have h2 := pair_values (fun q => lv.2 p.2 q (F.xFace p.1 q)) (F.faceShapeVals p.1.2) (F.nansonScale p.1.1 p.1.2) fun a => v (p.1.1 a)
    simp only [mul_comm (F.faceShapeVals _ _ _) (lv.2 _ _ _ _)]
    exact h2

/-- The two-element bar: the field `n²` does work `4` against the unit stretch, the load `2`. -/
example : ∃ R, barExample.computeResidual (fun n _ => (n : ℝ) ^ 2) = .ok R ∧ ∑ n ∈ range 3, ∑ i, R n i * (n : ℝ) = 2 := by
  obtain ⟨R, hR⟩ := (C13_returns barExample fun n _ => (n : ℝ) ^ 2).mpr ⟨by simp [barExample], by simp [barExample], by simp [barExample], by simp [barExample], by simp [barExample]⟩
  refine ⟨R, hR, ?_⟩
  have hw := C71_virtual_work barExample (by simp [barExample]) _ (fun n _ => (n : ℝ)) R hR
  refine hw.trans ?_
  have h0 : barExample.cells.zipIdx = [(![0, 1], 0), (![1, 2], 1)] := rfl
  have h1 : barExample.cells = [![0, 1], ![1, 2]] := rfl
  have j0 := barExample_jacobian ![0, 1] (by simp [h1]) 0
  have j1 := barExample_jacobian ![1, 2] (by simp [h1]) 0
  have g : ∀ (w : ℕ → Fin 1 → ℝ) (c : Fin 2 → ℕ), c ∈ barExample.cells → barExample.gradAt w c 0 = fun _ _ => w (c 1) 0 - w (c 0) 0 := by
    intro w c hc
    funext i d
    fin_cases i; fin_cases d
    simp only [Fem.gradAt, Fem.shapeGrad, barExample_jacobian c hc 0, Fin.sum_univ_two, Fin.sum_univ_one]
    norm_num [barExample]
    ring
  rw [h0, h1]
  simp only [List.map_cons, List.map_nil, List.sum_cons, List.sum_nil, Fin.sum_univ_one, g _ ![0, 1] (by simp [h1]), g _ ![1, 2] (by simp [h1])]
  simp only [Fem.JxW, j0, j1, Fem.uAt, Fin.sum_univ_two]
  norm_num [barExample, Fem.stress, Fem.massAt, Fem.load, Fem.pairs]

end Verif.Fem
