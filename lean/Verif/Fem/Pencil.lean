import Mathlib.Analysis.Calculus.ImplicitFunction.ProdDomain
import Mathlib.Analysis.Calculus.ContDiff.Operations
import Mathlib.Analysis.Calculus.ContDiff.RCLike
import Mathlib.Analysis.Calculus.Deriv.Mul
import Mathlib.Analysis.Calculus.Deriv.Prod
import Mathlib.Analysis.Calculus.FDeriv.Mul
import Mathlib.LinearAlgebra.FiniteDimensional.Lemmas
import Mathlib.Topology.Algebra.Module.FiniteDimension

/-!
# Symmetric matrix pencils depending on parameters

For C133: the derivative of an eigenvalue of `K x = λ M x` along a curve, and the branch of a simple eigenvalue.
-/
namespace Verif.Pencil
open Finset Filter Topology

variable {N m : ℕ}

abbrev Vec (N : ℕ) := Fin N → ℝ

/-- The dot product as a continuous linear map. -/
noncomputable def dotL (c : Vec N) : Vec N →L[ℝ] ℝ := ∑ d, c d • (ContinuousLinearMap.proj d : Vec N →L[ℝ] ℝ)

theorem dotL_apply (c x : Vec N) : dotL c x = ∑ d, c d * x d := by simp [dotL]

theorem dotL_comm (c x : Vec N) : dotL c x = dotL x c := by
  rw [dotL_apply, dotL_apply]
  exact sum_congr rfl fun d _ => mul_comm _ _

/-- A symmetric matrix. -/
def Symm (A : Vec N →L[ℝ] Vec N) : Prop := ∀ x y, dotL y (A x) = dotL x (A y)

/-- **The derivative of an eigenvalue.** Along any differentiable curve of parameters, for a differentiable branch of pairs. -/
theorem eigen_deriv {P : Type*} [NormedAddCommGroup P] [NormedSpace ℝ P] (K M : P → Vec N →L[ℝ] Vec N) (q : ℝ → P) (q' : P) (hq : HasDerivAt q q' 0) (K' M' : P →L[ℝ] Vec N →L[ℝ] Vec N)
    (hK : HasFDerivAt K K' (q 0)) (hM : HasFDerivAt M M' (q 0)) (sK : Symm (K (q 0))) (sM : Symm (M (q 0))) (lam : ℝ → ℝ) (lam' : ℝ) (hl : HasDerivAt lam lam' 0) (x : ℝ → Vec N) (x' : Vec N)
    (hx : HasDerivAt x x' 0) (h : ∀ᶠ t in 𝓝 0, K (q t) (x t) = lam t • M (q t) (x t)) :
    lam' * dotL (x 0) (M (q 0) (x 0)) = dotL (x 0) (K' q' (x 0)) - lam 0 * dotL (x 0) (M' q' (x 0)) := by
  have h1 : HasDerivAt (fun t => K (q t) (x t)) (K' q' (x 0) + K (q 0) x') 0 := (hK.comp_hasDerivAt (0 : ℝ) hq).clm_apply hx
  have h2 : HasDerivAt (fun t => M (q t) (x t)) (M' q' (x 0) + M (q 0) x') 0 := (hM.comp_hasDerivAt (0 : ℝ) hq).clm_apply hx
  have h3 := hl.smul h2
  have h4 := (h3.congr_of_eventuallyEq h).unique h1
  have h5 := congrArg (dotL (x 0)) h4
  have h6 := congrArg (dotL x') h.self_of_nhds
  simp only [map_add, map_smul, smul_eq_mul] at h5 h6
  rw [sK (x 0) x', sM (x 0) x'] at h6
  linear_combination h5 + h6

/-- The equations of a normalised pair. -/
noncomputable def pairEq (K M : Vec m → Vec N →L[ℝ] Vec N) (c : Vec N) (v : Vec m × (Vec N × ℝ)) : Vec N × ℝ := (K v.1 v.2.1 - v.2.2 • M v.1 v.2.1, dotL c v.2.1)

theorem pairEq_contDiff (K M : Vec m → Vec N →L[ℝ] Vec N) (hK : ContDiff ℝ 1 K) (hM : ContDiff ℝ 1 M) (c : Vec N) : ContDiff ℝ 1 (pairEq K M c) := by
  have h21 : ContDiff ℝ 1 fun v : Vec m × (Vec N × ℝ) => v.2.1 := contDiff_snd.fst
  have h22 : ContDiff ℝ 1 fun v : Vec m × (Vec N × ℝ) => v.2.2 := contDiff_snd.snd
  refine ContDiff.prodMk (ContDiff.sub ((hK.comp contDiff_fst).clm_apply h21) (h22.smul ((hM.comp contDiff_fst).clm_apply h21))) ?_
  exact (dotL c).contDiff.comp h21

theorem pairEq_partial (K M : Vec m → Vec N →L[ℝ] Vec N) (hK : ContDiff ℝ 1 K) (hM : ContDiff ℝ 1 M) (c : Vec N) (p : Vec m) (x : Vec N) (lam : ℝ) (y : Vec N) (mu : ℝ) :
    fderiv ℝ (pairEq K M c) (p, (x, lam)) (0, (y, mu)) = (K p y - lam • M p y - mu • M p x, dotL c y) := by
  have hd := ((pairEq_contDiff K M hK hM c).differentiable (by norm_num)).differentiableAt (x := (p, (x, lam)))
  have hline : HasDerivAt (fun t : ℝ => ((p, (x, lam)) : Vec m × (Vec N × ℝ)) + t • ((0, (y, mu)) : Vec m × (Vec N × ℝ))) (0, (y, mu)) 0 := by
    simpa using ((hasDerivAt_id (0 : ℝ)).smul_const ((0, (y, mu)) : Vec m × (Vec N × ℝ))).const_add (p, (x, lam))
  have h0 : (p, (x, lam)) = ((p, (x, lam)) : Vec m × (Vec N × ℝ)) + (0 : ℝ) • ((0, (y, mu)) : Vec m × (Vec N × ℝ)) := by simp
  have h1 : HasDerivAt (fun t : ℝ => pairEq K M c (((p, (x, lam)) : Vec m × (Vec N × ℝ)) + t • ((0, (y, mu)) : Vec m × (Vec N × ℝ)))) (fderiv ℝ (pairEq K M c) (p, (x, lam)) (0, (y, mu))) 0 := by
    have hf := hd.hasFDerivAt
    have hf' : HasFDerivAt (pairEq K M c) (fderiv ℝ (pairEq K M c) (p, (x, lam))) (((p, (x, lam)) : Vec m × (Vec N × ℝ)) + (0 : ℝ) • ((0, (y, mu)) : Vec m × (Vec N × ℝ))) := by
      rw [← h0]; exact hf
    exact hf'.comp_hasDerivAt (0 : ℝ) hline
  refine h1.unique ?_
  have e : (fun t : ℝ => pairEq K M c (((p, (x, lam)) : Vec m × (Vec N × ℝ)) + t • ((0, (y, mu)) : Vec m × (Vec N × ℝ)))) =
      fun t => (K p x + t • K p y - (lam + t * mu) • (M p x + t • M p y), dotL c x + t * dotL c y) := by
    funext t
    simp [pairEq]
  rw [e]
  have ht : HasDerivAt (fun t : ℝ => t) 1 0 := hasDerivAt_id 0
  have hx : HasDerivAt (fun t : ℝ => K p x + t • K p y) (K p y) 0 := by simpa using (ht.smul_const (K p y)).const_add (K p x)
  have hm : HasDerivAt (fun t : ℝ => M p x + t • M p y) (M p y) 0 := by simpa using (ht.smul_const (M p y)).const_add (M p x)
  have hl : HasDerivAt (fun t : ℝ => lam + t * mu) mu 0 := by simpa using (ht.mul_const mu).const_add lam
  have hc : HasDerivAt (fun t : ℝ => dotL c x + t * dotL c y) (dotL c y) 0 := by simpa using (ht.mul_const (dotL c y)).const_add (dotL c x)
  have h2 := HasDerivAt.prodMk (hx.sub (hl.smul hm)) hc
  refine h2.congr_deriv ?_
  ext1
  · simp only [zero_mul, zero_smul, add_zero]
    abel
  · rfl

/-- **The branch of a simple eigenvalue.** If the pairs with eigenvalue `lam` at `p` are the multiples of `x` and `x·M x ≠ 0`, there is one branch of normalised pairs near `p`, it is continuously differentiable in the
strict sense at `p`, and it contains all pairs near `(x, lam)`. -/
theorem simple_branch (K M : Vec m → Vec N →L[ℝ] Vec N) (hK : ContDiff ℝ 1 K) (hM : ContDiff ℝ 1 M) (p : Vec m) (sK : Symm (K p)) (sM : Symm (M p)) (x : Vec N) (lam : ℝ)
    (hx : K p x = lam • M p x) (hn : dotL x (M p x) ≠ 0) (hs : ∀ y, K p y = lam • M p y → ∃ a : ℝ, y = a • x) :
    ∃ (X : Vec m → Vec N) (L : Vec m → ℝ), X p = x ∧ L p = lam ∧ (∃ X' : Vec m →L[ℝ] Vec N, HasStrictFDerivAt X X' p) ∧ (∃ L' : Vec m →L[ℝ] ℝ, HasStrictFDerivAt L L' p) ∧
      (∀ᶠ q in 𝓝 p, K q (X q) = L q • M q (X q) ∧ dotL (M p x) (X q) = dotL (M p x) x) ∧
      ∀ᶠ v in 𝓝 (p, (x, lam)), K v.1 v.2.1 = v.2.2 • M v.1 v.2.1 → dotL (M p x) v.2.1 = dotL (M p x) x → v.2.1 = X v.1 ∧ v.2.2 = L v.1 := by
  set c := M p x with hc
  have hcd := pairEq_contDiff K M hK hM c
  have hS : HasStrictFDerivAt (pairEq K M c) (fderiv ℝ (pairEq K M c) (p, (x, lam))) (p, (x, lam)) := (hcd.contDiffAt).hasStrictFDerivAt (by norm_num)
  have hI : ((fderiv ℝ (pairEq K M c) (p, (x, lam))).comp (.inr ℝ (Vec m) (Vec N × ℝ))).IsInvertible := by
    set T := (fderiv ℝ (pairEq K M c) (p, (x, lam))).comp (.inr ℝ (Vec m) (Vec N × ℝ)) with hT
    have h1 : ∀ w, T w = (K p w.1 - lam • M p w.1 - w.2 • M p x, dotL c w.1) := fun w => pairEq_partial K M hK hM c p x lam w.1 w.2
    have h2 : Function.Injective T.toLinearMap := by
      rw [injective_iff_map_eq_zero]
      rintro ⟨y, mu⟩ hw
      have h3 : (K p y - lam • M p y - mu • M p x, dotL c y) = ((0, 0) : Vec N × ℝ) := (h1 (y, mu)).symm.trans hw
      obtain ⟨h4, h5⟩ := Prod.mk.inj h3
      have h6 := congrArg (dotL x) h4
      have h7 := congrArg (dotL y) hx
      simp only [map_sub, map_smul, smul_eq_mul, map_zero] at h6 h7
      rw [sK x y, sM x y] at h7
      have h8 : mu * dotL x (M p x) = 0 := by linear_combination h7 - h6
      have hmu : mu = 0 := by
        rcases mul_eq_zero.mp h8 with h | h
        · exact h
        · exact absurd h hn
      subst hmu
      rw [zero_smul, sub_zero, sub_eq_zero] at h4
      obtain ⟨a, rfl⟩ := hs y h4
      rw [map_smul, smul_eq_mul, dotL_comm] at h5
      have ha : a = 0 := by
        rcases mul_eq_zero.mp h5 with h | h
        · exact h
        · exact absurd h hn
      subst ha
      simp
    refine ⟨(LinearEquiv.ofInjectiveEndo T.toLinearMap h2).toContinuousLinearEquiv, ?_⟩
    ext w <;> rfl
  set G := hS.implicitFunctionOfProdDomain hI with hG
  have hiff := hS.eventually_apply_eq_iff_implicitFunctionOfProdDomain hI
  have hder := hS.hasStrictFDerivAt_implicitFunctionOfProdDomain hI
  have hp : G p = (x, lam) := hiff.self_of_nhds.mp rfl
  have h0 : pairEq K M c (p, (x, lam)) = (0, dotL c x) := by
    unfold pairEq
    rw [hx, sub_self]
  have hev := hS.eventually_apply_implicitFunctionOfProdDomain hI
  refine ⟨fun q => (G q).1, fun q => (G q).2, congrArg Prod.fst hp, congrArg Prod.snd hp, ⟨_, hder.fst⟩, ⟨_, hder.snd⟩, ?_, ?_⟩
  · filter_upwards [hev] with q hq
    have h1 : pairEq K M c (q, G q) = (0, dotL c x) := hq.trans h0
    obtain ⟨h2, h3⟩ := Prod.mk.inj h1
    exact ⟨sub_eq_zero.mp h2, h3⟩
  · filter_upwards [hiff] with v hv h1 h2
    have h3 : pairEq K M c v = pairEq K M c (p, (x, lam)) := by
      rw [h0]
      unfold pairEq
      rw [h1, sub_self, h2]
    have h4 := hv.mp h3
    exact ⟨by rw [show G v.1 = v.2 from h4], by rw [show G v.1 = v.2 from h4]⟩

end Verif.Pencil
