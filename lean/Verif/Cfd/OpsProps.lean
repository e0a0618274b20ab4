import Verif.Cfd.Ops
import Mathlib.Algebra.BigOperators.Group.Finset.Basic
import Mathlib.Algebra.BigOperators.Ring.Finset
import Mathlib.Algebra.BigOperators.Field
import Mathlib.Algebra.Order.Field.Basic
import Mathlib.Tactic.LinearCombination
import Mathlib.Tactic.FieldSimp
import Mathlib.Tactic.NormNum
import Mathlib.Data.Rat.Cast.Order

/-!
# Finite-volume operators: C52, C53, C58 (operator part)
-/
namespace Verif.Cfd
open Verif Finset
set_option linter.unusedSectionVars false

variable {K : Type*} [Field K] [LinearOrder K] [IsStrictOrderedRing K] {m : ℕ}

/-! ## C52 -/

/-- **C52 (Dirichlet).** Face average of ghost and boundary value is the prescribed value. -/
theorem C52_dirichlet (bc : BcTag) (h : bc = .int 0 ∨ bc = .str "Dirchlet") (value nb : Fin m → K) (dx : K) :
    ∃ g, ghostCell bc value dx nb = some g ∧ ∀ c, (g c + nb c) / 2 = value c := by
  refine ⟨fun c => 2 * value c - nb c, ?_, fun c => by ring⟩
  rcases h with rfl | rfl <;> simp [ghostCell]

/-- **C52 (Neumann).** The signed difference quotient across the face is the prescribed derivative (`dx` is negative on the low sides). -/
theorem C52_neumann (bc : BcTag) (h : bc = .int 1 ∨ bc = .str "Neumann") (value nb : Fin m → K) (dx : K) (hdx : dx ≠ 0) :
    ∃ g, ghostCell bc value dx nb = some g ∧ ∀ c, (g c - nb c) / dx = value c := by
  refine ⟨fun c => nb c + dx * value c, ?_, fun c => by field_simp; ring⟩
  rcases h with rfl | rfl <;> simp [ghostCell]

/-- **C52 (Marangoni).** Tangential components Neumann, normal component Dirichlet. -/
theorem C52_marangoni (bc : BcTag) (h : bc = .int 2 ∨ bc = .str "Marangoni_Z") (value nb : Fin 3 → K) (dx : K) (hdx : dx ≠ 0) :
    ∃ g, ghostCell bc value dx nb = some g ∧ (g 0 - nb 0) / dx = value 0 ∧ (g 1 - nb 1) / dx = value 1 ∧
      (g 2 + nb 2) / 2 = value 2 := by
  refine ⟨fun c => if c.val < 2 then nb c + dx * value c else 2 * value c - nb c, ?_, ?_, ?_, ?_⟩
  · rcases h with rfl | rfl <;> simp [ghostCell]
  · simp; field_simp
  · simp; field_simp
  · simp

/-- **C52 (other tags).** Every other tag — including the correctly spelt "Dirichlet" — gives no ghost value. -/
theorem C52_other (bc : BcTag) (value nb : Fin m → K) (dx : K) :
    ghostCell bc value dx nb = none ↔ bc ∉ [.int 0, .int 1, .int 2, .str "Dirchlet", .str "Neumann", .str "Marangoni_Z"] := by
  unfold ghostCell
  split_ifs with h1 h2 h3
  · rcases h1 with rfl | rfl <;> simp
  · rcases h2 with rfl | rfl <;> simp
  · rcases h3 with rfl | rfl <;> simp
  · simp only [List.mem_cons, List.not_mem_nil, or_false, true_iff]
    tauto

example : ghostCell (.str "Dirichlet") (fun _ : Fin 1 => (1 : ℚ)) 1 (fun _ => 0) = none := by
  rw [C52_other]; decide

theorem ghostSlab_eq (bc : BcTag) (value nb : Arr2 (Fin m → K)) (dx : K) (g : Arr2 (Fin m → K))
    (h : ghostSlab bc value dx nb = some g) (a b : ℕ) :
    ghostCell bc (value.get a b) dx (nb.get a b) = some (g.get a b) := by
  unfold ghostSlab at h
  split_ifs at h with h1
  · cases h
    have : (ghostCell bc (value.get a b) dx (nb.get a b)).isSome := by
      revert h1; unfold ghostCell; split_ifs <;> simp
    obtain ⟨x, hx⟩ := Option.isSome_iff_exists.mp this
    simp [hx]

/-- The six sides as coordinates: entry `(a, b)` of side `s` is the cell whose coordinate normal to the side is extreme. -/
def sideCell (n0 n1 n2 : ℕ) (s : Fin 6) (a b : ℕ) : ℕ × ℕ × ℕ :=
  ![(0, a, b), (n0 - 1, a, b), (a, 0, b), (a, n1 - 1, b), (a, b, 0), (a, b, n2 - 1)] s

/-- Outward sign of side `s`. -/
def sideSign (s : Fin 6) : K := ![-1, 1, -1, 1, -1, 1] s
/-- Axis normal to side `s`. -/
def sideAxis (s : Fin 6) : Fin 3 := ![0, 0, 1, 1, 2, 2] s

/-- **C52 (on a field).** `get_GC_values` pairs every side with its own boundary cells, its own condition and its own
signed spacing: the ghost slab of side `s` satisfies the condition of side `s` at the cells of side `s`. -/
theorem C52_sides (f : Arr3 (Fin m → K)) (bcs : BCs K m) (dX : Fin 3 → K) (hd : ∀ a, dX a ≠ 0) (s : Fin 6)
    (g : Arr2 (Fin m → K)) (h : getGC f bcs dX s = some g) (a b : ℕ) (c : Fin m) :
    let p := sideCell f.n0 f.n1 f.n2 s a b
    let inner := f.get p.1 p.2.1 p.2.2 c
    (bcs.type s = .int 0 → (g.get a b c + inner) / 2 = (bcs.value s).get a b c) ∧
    (bcs.type s = .int 1 → (g.get a b c - inner) / (sideSign s * dX (sideAxis s)) = (bcs.value s).get a b c) ∧
    (bcs.type s = .int 2 → c.val = 2 → (g.get a b c + inner) / 2 = (bcs.value s).get a b c) ∧
    (bcs.type s = .int 2 → c.val < 2 → (g.get a b c - inner) / (sideSign s * dX (sideAxis s)) = (bcs.value s).get a b c) := by
  have h1 := ghostSlab_eq _ _ _ _ _ h a b
  have hs : (slab f s).get a b c = f.get (sideCell f.n0 f.n1 f.n2 s a b).1 (sideCell f.n0 f.n1 f.n2 s a b).2.1 (sideCell f.n0 f.n1 f.n2 s a b).2.2 c := by
    fin_cases s <;> rfl
  have hsd : sgnDx dX s = sideSign s * dX (sideAxis s) := by
    fin_cases s <;> simp [sgnDx, sideSign, sideAxis]
  have hne : sgnDx dX s ≠ 0 := by
    fin_cases s <;> simp [sgnDx, hd]
  intro p inner
  rw [← hsd]
  have hin : inner = (slab f s).get a b c := hs.symm
  rw [hin]
  refine ⟨fun ht => ?_, fun ht => ?_, fun ht hc => ?_, fun ht hc => ?_⟩ <;> rw [ht] at h1 <;> simp [ghostCell] at h1 <;> rw [← h1]
  · ring
  · field_simp; ring
  · simp [hc]
  · simp [hc]; field_simp

/-! ## C53 -/

/-- Sum over all cells. -/
def gridSum (n0 n1 n2 : ℕ) (F : ℕ → ℕ → ℕ → K) : K := ∑ i ∈ range n0, ∑ j ∈ range n1, ∑ k ∈ range n2, F i j k

/-- Sum over a 2-d slab. -/
def slabSum (n0 n1 : ℕ) (F : ℕ → ℕ → K) : K := ∑ a ∈ range n0, ∑ b ∈ range n1, F a b

theorem gridSum_add (n0 n1 n2 : ℕ) (F G : ℕ → ℕ → ℕ → K) :
    gridSum n0 n1 n2 (fun i j k => F i j k + G i j k) = gridSum n0 n1 n2 F + gridSum n0 n1 n2 G := by
  simp [gridSum, sum_add_distrib]

theorem gridSum_mul (n0 n1 n2 : ℕ) (F : ℕ → ℕ → ℕ → K) (c : K) :
    gridSum n0 n1 n2 (fun i j k => F i j k * c) = gridSum n0 n1 n2 F * c := by
  simp [gridSum, sum_mul]

theorem slabSum_mul (n0 n1 : ℕ) (F : ℕ → ℕ → K) (c : K) :
    slabSum n0 n1 (fun i j => F i j * c) = slabSum n0 n1 F * c := by
  simp [slabSum, sum_mul]

theorem slabSum_sub (n0 n1 : ℕ) (F G : ℕ → ℕ → K) :
    slabSum n0 n1 (fun i j => F i j - G i j) = slabSum n0 n1 F - slabSum n0 n1 G := by
  simp [slabSum]

/-- Telescoping along axis 0. -/
theorem tele0 (n0 n1 n2 : ℕ) (F : ℕ → ℕ → ℕ → K) :
    gridSum n0 n1 n2 (fun i j k => F (i + 1) j k - F i j k) = slabSum n1 n2 (fun j k => F n0 j k - F 0 j k) := by
  unfold gridSum slabSum
  rw [sum_comm]
  refine sum_congr rfl fun j _ => ?_
  rw [sum_comm]
  exact sum_congr rfl fun k _ => sum_range_sub (fun i => F i j k) n0

theorem tele1 (n0 n1 n2 : ℕ) (F : ℕ → ℕ → ℕ → K) :
    gridSum n0 n1 n2 (fun i j k => F i (j + 1) k - F i j k) = slabSum n0 n2 (fun i k => F i n1 k - F i 0 k) := by
  unfold gridSum slabSum
  refine sum_congr rfl fun i _ => ?_
  rw [sum_comm]
  exact sum_congr rfl fun k _ => sum_range_sub (fun j => F i j k) n1

theorem tele2 (n0 n1 n2 : ℕ) (F : ℕ → ℕ → ℕ → K) :
    gridSum n0 n1 n2 (fun i j k => F i j (k + 1) - F i j k) = slabSum n0 n1 (fun i j => F i j n2 - F i j 0) := by
  unfold gridSum slabSum
  exact sum_congr rfl fun i _ => sum_congr rfl fun j _ => sum_range_sub (fun k => F i j k) n2

theorem gridSum_congr (n0 n1 n2 : ℕ) (F G : ℕ → ℕ → ℕ → K) (h : ∀ i < n0, ∀ j < n1, ∀ k < n2, F i j k = G i j k) :
    gridSum n0 n1 n2 F = gridSum n0 n1 n2 G :=
  sum_congr rfl fun i hi => sum_congr rfl fun j hj => sum_congr rfl fun k hk =>
    h i (mem_range.mp hi) j (mem_range.mp hj) k (mem_range.mp hk)

theorem slabSum_congr (n0 n1 : ℕ) (F G : ℕ → ℕ → K) (h : ∀ i < n0, ∀ j < n1, F i j = G i j) :
    slabSum n0 n1 F = slabSum n0 n1 G :=
  sum_congr rfl fun i hi => sum_congr rfl fun j hj => h i (mem_range.mp hi) j (mem_range.mp hj)

/-- Viscosity at face `(i, j, k)` normal to axis `a`. -/
def Visc.at (miu : Visc K) (a : Fin 3) (i j k : ℕ) : K :=
  match miu with
  | .scalar mu => mu
  | .faces mu => (mu a).get i j k

theorem diff_tele0 (f : Arr3 (Fin m → K)) (lo hi : Arr2 (Fin m → K)) (mu : ℕ → ℕ → ℕ → K) (c : Fin m) (h : 0 < f.n0) :
    gridSum f.n0 f.n1 f.n2 (fun i j k => (diffA0 f hi).get i j k c * mu (i + 1) j k - (diffP0 f lo).get i j k c * mu i j k)
      = slabSum f.n1 f.n2 (fun j k => (hi.get j k c - f.get (f.n0 - 1) j k c) * mu f.n0 j k - (f.get 0 j k c - lo.get j k c) * mu 0 j k) := by
  let G : ℕ → ℕ → ℕ → K := fun i j k => if i = 0 then lo.get j k c else if i ≤ f.n0 then f.get (i - 1) j k c else hi.get j k c
  have h1 : gridSum f.n0 f.n1 f.n2 (fun i j k => (diffA0 f hi).get i j k c * mu (i + 1) j k - (diffP0 f lo).get i j k c * mu i j k)
      = gridSum f.n0 f.n1 f.n2 (fun i j k => (G (i + 1 + 1) j k - G (i + 1) j k) * mu (i + 1) j k - (G (i + 1) j k - G i j k) * mu i j k) := by
    refine gridSum_congr _ _ _ _ _ fun i hi j _ k _ => ?_
    simp only [diffA0, diffP0, G]
    have e1 : (i + 1 + 1 ≤ f.n0) = (i + 1 < f.n0) := by simp [Nat.lt_iff_add_one_le]
    have e2 : i + 1 ≤ f.n0 := hi
    have e3 : i ≤ f.n0 := hi.le
    simp [e2, e3, Nat.lt_iff_add_one_le]
  rw [h1, tele0 _ _ _ (fun i j k => (G (i + 1) j k - G i j k) * mu i j k)]
  refine slabSum_congr _ _ _ _ fun j _ k _ => ?_
  have e : f.n0 ≠ 0 := h.ne'
  have e' : 1 ≤ f.n0 := h
  simp [G, e, e']

theorem diff_tele1 (f : Arr3 (Fin m → K)) (lo hi : Arr2 (Fin m → K)) (mu : ℕ → ℕ → ℕ → K) (c : Fin m) (h : 0 < f.n1) :
    gridSum f.n0 f.n1 f.n2 (fun i j k => (diffA1 f hi).get i j k c * mu i (j + 1) k - (diffP1 f lo).get i j k c * mu i j k)
      = slabSum f.n0 f.n2 (fun i k => (hi.get i k c - f.get i (f.n1 - 1) k c) * mu i f.n1 k - (f.get i 0 k c - lo.get i k c) * mu i 0 k) := by
  let G : ℕ → ℕ → ℕ → K := fun i j k => if j = 0 then lo.get i k c else if j ≤ f.n1 then f.get i (j - 1) k c else hi.get i k c
  have h1 : gridSum f.n0 f.n1 f.n2 (fun i j k => (diffA1 f hi).get i j k c * mu i (j + 1) k - (diffP1 f lo).get i j k c * mu i j k)
      = gridSum f.n0 f.n1 f.n2 (fun i j k => (G i (j + 1 + 1) k - G i (j + 1) k) * mu i (j + 1) k - (G i (j + 1) k - G i j k) * mu i j k) := by
    refine gridSum_congr _ _ _ _ _ fun i _ j hi k _ => ?_
    simp only [diffA1, diffP1, G]
    have e2 : j + 1 ≤ f.n1 := hi
    have e3 : j ≤ f.n1 := hi.le
    simp [e2, e3, Nat.lt_iff_add_one_le]
  rw [h1, tele1 _ _ _ (fun i j k => (G i (j + 1) k - G i j k) * mu i j k)]
  refine slabSum_congr _ _ _ _ fun j _ k _ => ?_
  have e : f.n1 ≠ 0 := h.ne'
  have e' : 1 ≤ f.n1 := h
  simp [G, e, e']

theorem diff_tele2 (f : Arr3 (Fin m → K)) (lo hi : Arr2 (Fin m → K)) (mu : ℕ → ℕ → ℕ → K) (c : Fin m) (h : 0 < f.n2) :
    gridSum f.n0 f.n1 f.n2 (fun i j k => (diffA2 f hi).get i j k c * mu i j (k + 1) - (diffP2 f lo).get i j k c * mu i j k)
      = slabSum f.n0 f.n1 (fun i j => (hi.get i j c - f.get i j (f.n2 - 1) c) * mu i j f.n2 - (f.get i j 0 c - lo.get i j c) * mu i j 0) := by
  let G : ℕ → ℕ → ℕ → K := fun i j k => if k = 0 then lo.get i j c else if k ≤ f.n2 then f.get i j (k - 1) c else hi.get i j c
  have h1 : gridSum f.n0 f.n1 f.n2 (fun i j k => (diffA2 f hi).get i j k c * mu i j (k + 1) - (diffP2 f lo).get i j k c * mu i j k)
      = gridSum f.n0 f.n1 f.n2 (fun i j k => (G i j (k + 1 + 1) - G i j (k + 1)) * mu i j (k + 1) - (G i j (k + 1) - G i j k) * mu i j k) := by
    refine gridSum_congr _ _ _ _ _ fun i _ j _ k hi => ?_
    simp only [diffA2, diffP2, G]
    have e2 : k + 1 ≤ f.n2 := hi
    have e3 : k ≤ f.n2 := hi.le
    simp [e2, e3, Nat.lt_iff_add_one_le]
  rw [h1, tele2 _ _ _ (fun i j k => (G i j (k + 1) - G i j k) * mu i j k)]
  refine slabSum_congr _ _ _ _ fun j _ k _ => ?_
  have e : f.n2 ≠ 0 := h.ne'
  have e' : 1 ≤ f.n2 := h
  simp [G, e, e']

/-- Net diffusive flux through the six sides: viscosity times difference quotient across the face times face area. -/
def boundaryFlux (f : Arr3 (Fin m → K)) (gc : Fin 6 → Arr2 (Fin m → K)) (miu : Visc K) (dX : Fin 3 → K) (c : Fin m) : K :=
  slabSum f.n1 f.n2 (fun j k => ((gc 1).get j k c - f.get (f.n0 - 1) j k c) / dX 0 * miu.at 0 f.n0 j k * (dX 1 * dX 2)
      + ((gc 0).get j k c - f.get 0 j k c) / dX 0 * miu.at 0 0 j k * (dX 1 * dX 2))
  + slabSum f.n0 f.n2 (fun i k => ((gc 3).get i k c - f.get i (f.n1 - 1) k c) / dX 1 * miu.at 1 i f.n1 k * (dX 2 * dX 0)
      + ((gc 2).get i k c - f.get i 0 k c) / dX 1 * miu.at 1 i 0 k * (dX 2 * dX 0))
  + slabSum f.n0 f.n1 (fun i j => ((gc 5).get i j c - f.get i j (f.n2 - 1) c) / dX 2 * miu.at 2 i j f.n2 * (dX 0 * dX 1)
      + ((gc 4).get i j c - f.get i j 0 c) / dX 2 * miu.at 2 i j 0 * (dX 0 * dX 1))

theorem laplaceBody_get (f : Arr3 (Fin m → K)) (gc : Fin 6 → Arr2 (Fin m → K)) (miu : Visc K) (dX : Fin 3 → K) (i j k : ℕ) (c : Fin m) :
    (laplaceBody f gc miu dX).get i j k c =
      ((diffA0 f (gc 1)).get i j k c * miu.at 0 (i + 1) j k - (diffP0 f (gc 0)).get i j k c * miu.at 0 i j k) * (1 / dX 0 * dX 1 * dX 2)
      + ((diffA1 f (gc 3)).get i j k c * miu.at 1 i (j + 1) k - (diffP1 f (gc 2)).get i j k c * miu.at 1 i j k) * (1 / dX 1 * dX 2 * dX 0)
      + ((diffA2 f (gc 5)).get i j k c * miu.at 2 i j (k + 1) - (diffP2 f (gc 4)).get i j k c * miu.at 2 i j k) * (1 / dX 2 * dX 0 * dX 1) := by
  cases miu <;> simp only [laplaceBody, Visc.at] <;> ring

/-- **C53 (diffusion is conservative).** Summed over all cells the operator is the net flux through the boundary, for a scalar and for a face-wise viscosity. -/
theorem C53_laplace_flux (f : Arr3 (Fin m → K)) (gc : Fin 6 → Arr2 (Fin m → K)) (miu : Visc K) (dX : Fin 3 → K)
    (h0 : 0 < f.n0) (h1 : 0 < f.n1) (h2 : 0 < f.n2) (c : Fin m) :
    gridSum f.n0 f.n1 f.n2 (fun i j k => (laplaceBody f gc miu dX).get i j k c) = boundaryFlux f gc miu dX c := by
  rw [gridSum_congr _ _ _ _ _ fun i _ j _ k _ => laplaceBody_get f gc miu dX i j k c]
  rw [gridSum_add, gridSum_add, gridSum_mul, gridSum_mul, gridSum_mul, diff_tele0 f _ _ (miu.at 0) c h0,
    diff_tele1 f _ _ (miu.at 1) c h1, diff_tele2 f _ _ (miu.at 2) c h2, ← slabSum_mul, ← slabSum_mul, ← slabSum_mul]
  unfold boundaryFlux
  congr 1
  · congr 1
    · exact slabSum_congr _ _ _ _ fun _ _ _ _ => by ring
    · exact slabSum_congr _ _ _ _ fun _ _ _ _ => by ring
  · exact slabSum_congr _ _ _ _ fun _ _ _ _ => by ring

theorem allSome_eq {α : Type*} {n : ℕ} (v : Fin n → Option α) (g : Fin n → α) (h : ∀ s, v s = some (g s)) : allSome v = some g := by
  unfold allSome
  have : ∀ s, (v s).isSome := fun s => by simp [h s]
  rw [dif_pos this]
  congr 1
  funext s
  simp [h s]

theorem allSome_some {α : Type*} {n : ℕ} (v : Fin n → Option α) (g : Fin n → α) (h : allSome v = some g) (s : Fin n) : v s = some (g s) := by
  unfold allSome at h
  split_ifs at h with hs
  · cases h; simp

/-- With the default conditions every ghost slab repeats the boundary cells. -/
theorem defaultGC (f : Arr3 (Fin m → K)) (dX : Fin 3 → K) : ∃ gc, allSome (getGC f (defaultBCs K m) dX) = some gc ∧
    ∀ s a b, (gc s).get a b = (slab f s).get a b := by
  have hs : ∀ s, getGC f (defaultBCs K m) dX s = some ⟨(slab f s).n0, (slab f s).n1, fun a b => (slab f s).get a b⟩ := by
    intro s
    simp [getGC, ghostSlab, defaultBCs, ghostCell]
  exact ⟨_, allSome_eq _ _ hs, fun _ _ _ => rfl⟩

/-- **C53 (insulated by default).** With `BCs = None` the operator never fails, whatever ghost values were passed, and its sum over all cells is 0. -/
theorem C53_laplace_default (f : Arr3 (Fin m → K)) (f_gc : Fin 6 → Option (Arr2 (Fin m → K))) (miu : Visc K) (dX : Fin 3 → K)
    (h0 : 0 < f.n0) (h1 : 0 < f.n1) (h2 : 0 < f.n2) (c : Fin m) :
    ∃ r, laplace f f_gc miu dX none = some r ∧ gridSum f.n0 f.n1 f.n2 (fun i j k => r.get i j k c) = 0 := by
  obtain ⟨gc, hgc, hv⟩ := defaultGC f dX
  refine ⟨laplaceBody f gc miu dX, by simp [laplace, hgc], ?_⟩
  rw [C53_laplace_flux f gc miu dX h0 h1 h2 c]
  unfold boundaryFlux
  have z : ∀ n0 n1 (F : ℕ → ℕ → K), (∀ a b, F a b = 0) → slabSum n0 n1 F = 0 := by
    intro n0 n1 F hF; simp [slabSum, hF]
  rw [z, z, z]
  · ring
  all_goals intro a b; simp only [hv]; simp [slab]

/-- **C53 (constants).** With the default conditions the operator vanishes in every cell of a constant field. -/
theorem C53_laplace_const (f : Arr3 (Fin m → K)) (f_gc : Fin 6 → Option (Arr2 (Fin m → K))) (miu : Visc K) (dX : Fin 3 → K)
    (C : Fin m → K) (hf : ∀ i j k, f.get i j k = C) (i j k : ℕ) (c : Fin m) :
    ∃ r, laplace f f_gc miu dX none = some r ∧ r.get i j k c = 0 := by
  obtain ⟨gc, hgc, hv⟩ := defaultGC f dX
  refine ⟨laplaceBody f gc miu dX, by simp [laplace, hgc], ?_⟩
  have hv' : ∀ s a b, (gc s).get a b = C := by
    intro s a b; rw [hv]; fin_cases s <;> simp [slab, hf]
  rw [laplaceBody_get]
  simp only [diffA0, diffP0, diffA1, diffP1, diffA2, diffP2, hf, hv', ite_self]
  ring

/-- Net convective flux out of the box per unit volume. -/
def convFlux (fx fy fz : Arr3 (Fin m → K)) (v : Fin 3 → Arr3 K) (dX : Fin 3 → K) (n0 n1 n2 : ℕ) (c : Fin m) : K :=
  slabSum n1 n2 (fun j k => fx.get n0 j k c * (v 0).get n0 j k - fx.get 0 j k c * (v 0).get 0 j k) / dX 0
  + slabSum n0 n2 (fun i k => fy.get i n1 k c * (v 1).get i n1 k - fy.get i 0 k c * (v 1).get i 0 k) / dX 1
  + slabSum n0 n1 (fun i j => fz.get i j n2 c * (v 2).get i j n2 - fz.get i j 0 c * (v 2).get i j 0) / dX 2

/-- **C53 (convection is conservative).** Summed over all cells `div` is the flux through boundary faces only. -/
theorem C53_div_flux (f : Arr3 (Fin m → K)) (gc : Fin 6 → Arr2 (Fin m → K)) (v : Fin 3 → Arr3 K) (dX : Fin 3 → K) (theta : K) (c : Fin m) :
    gridSum f.n0 f.n1 f.n2 (fun i j k => (divBody f gc v dX theta).get i j k c) =
      convFlux (faceX theta f (gc 0) (gc 1) (v 0)) (faceY theta f (gc 2) (gc 3) (v 1)) (faceZ theta f (gc 4) (gc 5) (v 2)) v dX f.n0 f.n1 f.n2 c := by
  unfold divBody convFlux
  simp only [div_eq_mul_inv]
  rw [gridSum_add, gridSum_add, gridSum_mul, gridSum_mul, gridSum_mul]
  rw [tele0 _ _ _ (fun i j k => (faceX theta f (gc 0) (gc 1) (v 0)).get i j k c * (v 0).get i j k)]
  rw [tele1 _ _ _ (fun i j k => (faceY theta f (gc 2) (gc 3) (v 1)).get i j k c * (v 1).get i j k)]
  rw [tele2 _ _ _ (fun i j k => (faceZ theta f (gc 4) (gc 5) (v 2)).get i j k c * (v 2).get i j k)]

/-- Face velocities vanish on the boundary of the box. -/
def NoFlow (n0 n1 n2 : ℕ) (v : Fin 3 → Arr3 K) : Prop :=
  (∀ j < n1, ∀ k < n2, (v 0).get 0 j k = 0 ∧ (v 0).get n0 j k = 0) ∧
  (∀ i < n0, ∀ k < n2, (v 1).get i 0 k = 0 ∧ (v 1).get i n1 k = 0) ∧
  (∀ i < n0, ∀ j < n1, (v 2).get i j 0 = 0 ∧ (v 2).get i j n2 = 0)

/-- **C53 (closed box).** If the boundary face velocities vanish, convection neither creates nor destroys anything, whatever the boundary condition on `f`. -/
theorem C53_div_closed (f : Arr3 (Fin m → K)) (bcs : Option (BCs K m)) (v : Fin 3 → Arr3 K) (dX : Fin 3 → K) (theta : K)
    (hv : NoFlow f.n0 f.n1 f.n2 v) (r : Arr3 (Fin m → K)) (hr : div f v dX theta bcs = some r) (c : Fin m) :
    gridSum f.n0 f.n1 f.n2 (fun i j k => r.get i j k c) = 0 := by
  unfold div at hr
  obtain ⟨gc, -, rfl⟩ := Option.map_eq_some_iff.mp hr
  rw [C53_div_flux]
  unfold convFlux
  obtain ⟨hx, hy, hz⟩ := hv
  rw [slabSum_congr f.n1 f.n2 _ (fun _ _ => 0) fun j hj k hk => by rw [(hx j hj k hk).1, (hx j hj k hk).2]; ring]
  rw [slabSum_congr f.n0 f.n2 _ (fun _ _ => 0) fun j hj k hk => by rw [(hy j hj k hk).1, (hy j hj k hk).2]; ring]
  rw [slabSum_congr f.n0 f.n1 _ (fun _ _ => 0) fun j hj k hk => by rw [(hz j hj k hk).1, (hz j hj k hk).2]; ring]
  simp [slabSum]

theorem faceVal_const (theta vel C : K) : faceVal theta vel C C C C = C := by
  unfold faceVal
  by_cases h : vel ≥ 0
  · rw [if_pos h, if_neg (not_lt.mpr h)]; ring
  · rw [if_neg h, if_pos (not_le.mp h)]; ring

/-- **C53 (constants are transported unchanged).** With the default conditions `div` of a constant is that constant times the divergence of the face velocity; it vanishes where the face velocity is divergence free. -/
theorem C53_div_const (f : Arr3 (Fin m → K)) (v : Fin 3 → Arr3 K) (dX : Fin 3 → K) (theta : K) (C : Fin m → K)
    (hf : ∀ i j k, f.get i j k = C) (i j k : ℕ) (c : Fin m) :
    ∃ r, div f v dX theta none = some r ∧ r.get i j k c = C c *
      (((v 0).get (i + 1) j k - (v 0).get i j k) / dX 0 + ((v 1).get i (j + 1) k - (v 1).get i j k) / dX 1
        + ((v 2).get i j (k + 1) - (v 2).get i j k) / dX 2) := by
  obtain ⟨gc, hgc, hv⟩ := defaultGC f dX
  refine ⟨divBody f gc v dX theta, by simp [div, hgc], ?_⟩
  have hv' : ∀ s a b, (gc s).get a b = C := by
    intro s a b; rw [hv]; fin_cases s <;> simp [slab, hf]
  have x : ∀ i j k, (faceX theta f (gc 0) (gc 1) (v 0)).get i j k c = C c := by
    intro i j k; simp only [faceX, pad0, hf, hv', ite_self, faceVal_const]
  have y : ∀ i j k, (faceY theta f (gc 2) (gc 3) (v 1)).get i j k c = C c := by
    intro i j k; simp only [faceY, pad1, hf, hv', ite_self, faceVal_const]
  have z : ∀ i j k, (faceZ theta f (gc 4) (gc 5) (v 2)).get i j k c = C c := by
    intro i j k; simp only [faceZ, pad2', hf, hv', ite_self, faceVal_const]
  simp only [divBody, x, y, z]
  ring

/-- **C53 (no-slip box has no flow through its walls).** With Dirichlet value 0 on five sides and the Marangoni condition with zero normal component on the sixth (the conditions of `get_vel_bc_fn`), the face velocities vanish on the boundary. -/
theorem C53_faceVels_noflow (vel : Arr3 (Fin 3 → K)) (dX : Fin 3 → K) (bcs : BCs K 3)
    (h0 : 0 < vel.n0) (h1 : 0 < vel.n1) (h2 : 0 < vel.n2)
    (ht : ∀ s : Fin 6, bcs.type s = if s = 5 then .int 2 else .int 0)
    (hval : ∀ s a b, s ≠ 5 → (bcs.value s).get a b = 0) (hnorm : ∀ a b, (bcs.value 5).get a b 2 = 0) :
    ∃ v, faceVels vel dX (some bcs) = some v ∧ NoFlow vel.n0 vel.n1 vel.n2 v := by
  have hs : ∀ s, ∃ g, getGC vel bcs dX s = some g := by
    intro s; unfold getGC ghostSlab; rw [ht s]
    by_cases h : s = 5 <;> simp [h, ghostCell]
  choose gc hgc using hs
  have hall := allSome_eq _ gc hgc
  have hd : ∀ s a b c, s ≠ 5 → (gc s).get a b c = - (slab vel s).get a b c := by
    intro s a b c hs5
    have := ghostSlab_eq _ _ _ _ _ (hgc s) a b
    rw [ht s, if_neg hs5] at this
    simp [ghostCell] at this
    rw [← this, hval s a b hs5]; simp
  have h5 : ∀ a b, (gc 5).get a b 2 = - (slab vel 5).get a b 2 := by
    intro a b
    have := ghostSlab_eq _ _ _ _ _ (hgc 5) a b
    rw [ht 5, if_pos rfl] at this
    simp [ghostCell] at this
    rw [← this]; simp [hnorm]
  have e0 : vel.n0 ≠ 0 := h0.ne'
  have e1 : vel.n1 ≠ 0 := h1.ne'
  have e2 : vel.n2 ≠ 0 := h2.ne'
  have a0 : 1 ≤ vel.n0 := h0
  have a1 : 1 ≤ vel.n1 := h1
  have a2 : 1 ≤ vel.n2 := h2
  refine ⟨_, by unfold faceVels; rw [Option.getD_some, hall]; rfl, ?_, ?_, ?_⟩
  · intro j _ k _
    constructor
    · simp [pad0, hd, slab, a0]
    · simp [pad0, hd, slab, e0]
  · intro i _ k _
    constructor
    · simp [pad1, hd, slab, a1]
    · simp [pad1, hd, slab, e1]
  · intro i _ j _
    constructor
    · simp [pad2', hd, slab, a2]
    · simp [pad2', h5, slab, e2]

/-! ## C58 (operator part) -/

/-- **C58 (`axis = 2`).** `get_face_vel_component(axis=2)` fails on every input. -/
theorem C58_face_vel_axis2 (vel : Arr3 (Fin 1 → K)) (dX : Fin 3 → K) (bcs : Option (BCs K 1)) :
    ∃ e, faceVelComponent vel dX 2 bcs = .error e := by
  exact ⟨.badConcatenate, by simp [faceVelComponent]⟩

/-- The other two axes succeed with the default conditions. -/
theorem C58_face_vel_axis01 (vel : Arr3 (Fin 1 → K)) (dX : Fin 3 → K) :
    (∃ u, faceVelComponent vel dX 0 none = .ok (some u)) ∧ ∃ u, faceVelComponent vel dX 1 none = .ok (some u) := by
  obtain ⟨gc, hgc, -⟩ := defaultGC vel dX
  have h := allSome_some _ _ hgc
  constructor
  · simp [faceVelComponent, h 0, h 1]
  · simp [faceVelComponent, h 2, h 3]

/-- **C58 (`gradient` ignores its boundary conditions).** The result is the same for all of them, and it is never a failure. -/
theorem C58_gradient_ignores_bcs (f : Arr3 (Fin 1 → K)) (dX : Fin 3 → K) (b b' : Option (BCs K 1)) :
    gradient f dX b = gradient f dX b' ∧ (gradient f dX b).isSome := by
  refine ⟨rfl, ?_⟩
  obtain ⟨gc, hgc, -⟩ := defaultGC f dX
  simp [gradient, hgc]

/-- So it contradicts the ghost values it was asked to use: for the one-cell field 1 with Dirichlet values 0 at the lower and 2 at the upper x side,
the ghost values are -1 and 3 (slope 2), but the returned gradient is 0. -/
example : let f : Arr3 (Fin 1 → ℚ) := ⟨1, 1, 1, fun _ _ _ _ => 1⟩
    let bcs : BCs ℚ 1 := ⟨fun _ => .int 0, fun s => ⟨1, 1, fun _ _ _ => if s = 1 then 2 else 0⟩⟩
    ((getGC f bcs (fun _ => 1) 0).map fun g => g.get 0 0 0) = some (-1) ∧
    ((getGC f bcs (fun _ => 1) 1).map fun g => g.get 0 0 0) = some 3 ∧
    ((gradient f (fun _ => 1) (some bcs)).map fun g => g.get 0 0 0 0) = some 0 := by
  refine ⟨?_, ?_, ?_⟩
  · simp [getGC, ghostSlab, ghostCell, slab]
  · simp [getGC, ghostSlab, ghostCell, slab]; norm_num
  · obtain ⟨gc, hgc, hv⟩ := defaultGC (⟨1, 1, 1, fun _ _ _ _ => 1⟩ : Arr3 (Fin 1 → ℚ)) (fun _ => 1)
    simp [gradient, hgc, diffA0, diffP0, hv, slab]

/-- **C53 (gradient of a constant).** -/
theorem C53_gradient_const (f : Arr3 (Fin 1 → K)) (dX : Fin 3 → K) (bcs : Option (BCs K 1)) (C : Fin 1 → K)
    (hf : ∀ i j k, f.get i j k = C) (i j k : ℕ) (c : Fin 3) : ∃ r, gradient f dX bcs = some r ∧ r.get i j k c = 0 := by
  obtain ⟨gc, hgc, hv⟩ := defaultGC f dX
  have hv' : ∀ s a b, (gc s).get a b = C := by
    intro s a b; rw [hv]; fin_cases s <;> simp [slab, hf]
  refine ⟨_, by unfold gradient; rw [hgc]; rfl, ?_⟩
  fin_cases c <;> simp [diffA0, diffP0, diffA1, diffP1, diffA2, diffP2, hf, hv']

/-- **C53 (central difference).** In the interior of a grid the gradient is the central difference in each direction. -/
theorem C53_gradient_interior (f : Arr3 (Fin 1 → K)) (dX : Fin 3 → K) (bcs : Option (BCs K 1)) (i j k : ℕ)
    (hi : 0 < i ∧ i + 1 < f.n0) (hj : 0 < j ∧ j + 1 < f.n1) (hk : 0 < k ∧ k + 1 < f.n2) : ∃ r, gradient f dX bcs = some r ∧
      r.get i j k 0 = (f.get (i + 1) j k 0 - f.get (i - 1) j k 0) / (2 * dX 0) ∧
      r.get i j k 1 = (f.get i (j + 1) k 0 - f.get i (j - 1) k 0) / (2 * dX 1) ∧
      r.get i j k 2 = (f.get i j (k + 1) 0 - f.get i j (k - 1) 0) / (2 * dX 2) := by
  obtain ⟨gc, hgc, hv⟩ := defaultGC f dX
  refine ⟨_, by unfold gradient; rw [hgc]; rfl, ?_, ?_, ?_⟩
  · simp [diffA0, diffP0, hi.1.ne', hi.2]; rw [div_div, mul_comm (dX 0) 2]
  · simp [diffA1, diffP1, hj.1.ne', hj.2]; rw [div_div, mul_comm (dX 1) 2]
  · simp [diffA2, diffP2, hk.1.ne', hk.2]; rw [div_div, mul_comm (dX 2) 2]

/-- Instance of `NoFlow`: a 2×1×1 box with a non-zero velocity on the inner face. -/
example : NoFlow 2 1 1 (fun a => ⟨3, 2, 2, fun i _ _ => if a = 0 ∧ i = 1 then (5 : ℚ) else 0⟩) := by
  refine ⟨fun j _ k _ => by simp, fun i _ k _ => by simp, fun i _ j _ => by simp⟩

end Verif.Cfd
