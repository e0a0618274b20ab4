import Verif.Fem.DynRelaxRun

/-!
# Dynamic relaxation: a problem on which it stalls, the version of the package, examples
-/

namespace Verif.DynRelax

/-! ## A positive definite problem on which the velocity becomes exactly zero -/

/-- The smaller eigenvalue of `stallProb`. -/
noncomputable def stallMu : ℝ := 121 / 800 * (7 - Real.sqrt 13)

/-- Two coupled unknowns `((1+μ)/2, (μ-1)/2; (μ-1)/2, (1+μ)/2)`, no boundary values, right side 0. -/
noncomputable def stallA : Fin 2 → Fin 2 → ℝ := fun i j => if i = j then (1 + stallMu) / 2 else (stallMu - 1) / 2

/-- The problem with matrix `stallA`. -/
noncomputable def stallProb : Prob 1 := ⟨fun u i => ∑ j, stallA i j * u j - 0, fun _ => stallA, []⟩

theorem sqrt13 : Real.sqrt 13 * Real.sqrt 13 = 13 ∧ 3.6 < Real.sqrt 13 ∧ Real.sqrt 13 < 3.61 := by
  refine ⟨Real.mul_self_sqrt (by norm_num), ?_, ?_⟩
  · exact Real.lt_sqrt_of_sq_lt (by norm_num)
  · rw [Real.sqrt_lt' (by norm_num)]; norm_num

theorem stallMu_bounds : 0.5 < stallMu ∧ stallMu < 0.52 := by
  obtain ⟨-, h2, h3⟩ := sqrt13
  unfold stallMu
  constructor <;> norm_num at * <;> linarith

theorem stall_definite : IsLinear stallProb stallA (fun _ => 0) ∧ ∃! us, Solves stallProb us := by
  refine C134_definite stallProb stallA _ (fun _ _ => rfl) (fun _ => rfl) (fun i j => ?_) fun x _ hx => ?_
  · unfold stallA
    by_cases h : i = j
    · rw [if_pos h, if_pos h.symm]
    · rw [if_neg h, if_neg (Ne.symm h)]
  · obtain ⟨h1, h2⟩ := stallMu_bounds
    have ex : ∑ i, x i * ∑ j, stallA i j * x j = x 0 * ((1 + stallMu) / 2 * x 0 + (stallMu - 1) / 2 * x 1) + x 1 * ((stallMu - 1) / 2 * x 0 + (1 + stallMu) / 2 * x 1) := by
      have e : ∀ f : Fin (1 + 1) → ℝ, ∑ i, f i = f 0 + f 1 := fun f => Fin.sum_univ_two f
      rw [e, e, e]
      simp [stallA]
    rw [ex]
    have hx' : x 0 ≠ 0 ∨ x 1 ≠ 0 := by
      by_contra hno
      push Not at hno
      apply hx; funext i; fin_cases i
      · exact hno.1
      · exact hno.2
    have key : x 0 * ((1 + stallMu) / 2 * x 0 + (stallMu - 1) / 2 * x 1) + x 1 * ((stallMu - 1) / 2 * x 0 + (1 + stallMu) / 2 * x 1) =
        stallMu * (x 0 + x 1) ^ 2 / 2 + (x 0 - x 1) ^ 2 / 2 := by ring
    rw [key]
    by_cases hs : x 0 - x 1 = 0
    · have h3 : x 0 + x 1 ≠ 0 := by
        intro h4
        have a : x 0 = 0 := by linarith
        have b : x 1 = 0 := by linarith
        rcases hx' with h | h
        · exact h a
        · exact h b
      have : 0 < stallMu * (x 0 + x 1) ^ 2 := mul_pos (by linarith) (by positivity)
      have := sq_nonneg (x 0 - x 1)
      linarith
    · have : 0 < (x 0 - x 1) ^ 2 := by positivity
      have : 0 ≤ stallMu * (x 0 + x 1) ^ 2 := mul_nonneg (by linarith) (sq_nonneg _)
      linarith

theorem stall_res (q : ℝ) : assembleVec stallProb (fun _ => q) = fun _ => stallMu * q := by
  funext i
  show ∑ j, stallA i j * q - 0 = _
  rw [Fin.sum_univ_two]
  fin_cases i <;> simp [stallA] <;> ring

theorem stall_mass : massOf (writeRows stallProb.bcs stallA) = fun _ => 1.21 / 4 := by
  obtain ⟨h1, h2⟩ := stallMu_bounds
  funext i
  show h_tilde * h_tilde / 4 * ∑ j, |stallA i j| = _
  have a1 : |(1 + stallMu) / 2| = (1 + stallMu) / 2 := abs_of_pos (by linarith)
  have a2 : |(stallMu - 1) / 2| = -((stallMu - 1) / 2) := abs_of_neg (by linarith)
  rw [Fin.sum_univ_two]
  fin_cases i <;> simp [stallA, a1, a2, h_tilde] <;> ring

theorem calC_mid (t : ℝ) (h1 : 0.1 ≤ t) (h2 : t ≤ 3.8) : calC (some t) cmin cmax = some (2 * Real.sqrt t) := by
  have a1 : 0.3 ≤ Real.sqrt t := Real.le_sqrt_of_sq_le (by norm_num at *; linarith)
  have a2 : Real.sqrt t ≤ 1.95 := by rw [Real.sqrt_le_left (by norm_num)]; norm_num at *; linarith
  show some _ = _
  simp only [cmin, cmax]
  norm_num at *
  have e1 : ¬ t < 0 := by linarith
  have e2 : ¬ 2 * Real.sqrt t < 1 / 1000 := by linarith
  have e3 : ¬ 39 / 10 < 2 * Real.sqrt t := by linarith
  simp only [e1, e2, e3, if_false]

/-- **C134 (a stall).** Even for a linear problem with a positive definite matrix the exact run may fail: for this problem and the start
(1, 1) the velocity after one pass is exactly zero although the residual is not, the damping is then 0/0 and the solver reports failure after three passes, for every tolerance below 0.07. -/
theorem C134_stall (nKMat : ℕ) (tol : ℝ) (ht : tol < 0.07) (fuel : ℕ) (hf : 2 ≤ fuel) :
    (IsLinear stallProb stallA (fun _ => 0) ∧ ∃! us, Solves stallProb us) ∧
    dynamicRelaxSolve stallProb nKMat tol fuel (fun _ => 1) = some (.failed 3) := by
  refine ⟨stall_definite, ?_⟩
  obtain ⟨s1, s2, s3⟩ := sqrt13
  obtain ⟨m1, m2⟩ := stallMu_bounds
  have H := stall_definite.1
  set w : ℝ := (7 - Real.sqrt 13) / 2 with hw
  have hmu : stallMu = 1.21 / 4 * w := by rw [hw]; unfold stallMu; norm_num; ring
  have hw1 : 1.69 < w := by rw [hw]; norm_num at *; linarith
  have hw2 : w < 1.7 := by rw [hw]; norm_num at *; linarith
  have hsq : Real.sqrt w = (Real.sqrt 13 - 1) / 2 := by
    rw [Real.sqrt_eq_iff_mul_self_eq (by linarith) (by norm_num at *; linarith)]
    rw [hw]
    linear_combination (-1 / 4) * s1
  have h0 : (start stallProb fun _ => 1).qdot = some fun _ => - (w / 2) := by
    rw [H.start_qdot, stall_mass]
    congr 1
    funext i
    have : writeBcs stallProb.bcs (fun _ => (1 : ℝ)) = fun _ => 1 := rfl
    rw [this, stall_res, hmu]
    unfold h; norm_num; ring
  have hM0 : (start stallProb fun _ => 1).M = fun _ => 1.21 / 4 := by rw [← stall_mass]; exact H.stateAt_mass nKMat (fun _ => 1) 0
  have hq1 : (body stallProb nKMat (start stallProb fun _ => 1) fun _ => - (w / 2)).q = fun _ => 1 - w / 2 := by
    funext i
    show (1 : ℝ) + h * -(w / 2) = _
    unfold h; ring
  have h1 : (body stallProb nKMat (start stallProb fun _ => 1) fun _ => - (w / 2)).qdot = some fun _ => 0 := by
    have hR : assembleVec stallProb (fun i => (start stallProb fun _ => 1).q i + h * -(w / 2)) = fun _ => stallMu * (1 - w / 2) := by
      have : (fun i => (start stallProb fun _ => 1).q i + h * -(w / 2)) = fun _ => 1 - w / 2 := hq1
      rw [this, stall_res]
    have hR0 : (start stallProb fun _ => 1).R = fun _ => stallMu * 1 := stall_res 1
    have hden : (∑ i : Fin 2, -(w / 2) * (start stallProb fun _ => 1).M i * -(w / 2)) = 1.21 / 4 * w ^ 2 / 2 := by
      rw [hM0, Fin.sum_univ_two]; ring
    show (calC (if (∑ i : Fin 2, -(w / 2) * (start stallProb fun _ => 1).M i * -(w / 2)) = 0 then none else
      some ((∑ i : Fin 2, (assembleVec stallProb (fun i => (start stallProb fun _ => 1).q i + h * -(w / 2)) i - (start stallProb fun _ => 1).R i) / h * -(w / 2)) / _)) cmin cmax).bind _ = _
    rw [hden, if_neg (by positivity), hR, hR0]
    have ht : (∑ i : Fin 2, (stallMu * (1 - w / 2) - stallMu * 1) / h * -(w / 2)) / (1.21 / 4 * w ^ 2 / 2) = w := by
      rw [Fin.sum_univ_two, hmu]
      unfold h
      have : w ≠ 0 := by positivity
      rw [div_eq_iff (by positivity)]; ring
    have ht' : (fun t : ℝ => t) ((∑ i : Fin 2, ((fun _ => stallMu * (1 - w / 2) : Fin 2 → ℝ) i - (fun _ => stallMu * 1 : Fin 2 → ℝ) i) / h * -(w / 2)) / (1.21 / 4 * w ^ 2 / 2)) = w := ht
    simp only at ht'
    rw [ht', calC_mid w (by norm_num at *; linarith) (by norm_num at *; linarith)]
    show (divV _ (if _ then massOf (assembleCSR stallProb _) else (start stallProb fun _ => 1).M)).map _ = _
    rw [H.csr, stall_mass, hM0, ite_self, divV_pos _ _ fun i => by norm_num]
    show some _ = _
    congr 1
    funext i
    show (2 - 2 * Real.sqrt w * h) / (2 + 2 * Real.sqrt w * h) * -(w / 2) - 2 * h / (2 + 2 * Real.sqrt w * h) * (stallMu * (1 - w / 2) / (1.21 / 4)) = 0
    rw [hsq, hmu]
    unfold h
    have hp : 2 + 2 * ((Real.sqrt 13 - 1) / 2) * 1 ≠ 0 := by norm_num at *; linarith
    field_simp
    rw [hw]
    norm_num
    ring_nf
    simp
  have e1 : maxAbs (assembleVec stallProb fun _ => 1 - w / 2) > tol := by
    rw [stall_res]
    refine lt_of_lt_of_le ?_ (abs_le_maxAbs _ 0)
    show tol < |stallMu * (1 - w / 2)|
    rw [abs_of_pos (mul_pos (by norm_num at *; linarith) (by norm_num at *; linarith))]
    norm_num at *
    nlinarith
  have he1 : (body stallProb nKMat (start stallProb fun _ => 1) fun _ => - (w / 2)).error > tol := by
    show maxAbs (assembleVec stallProb (body stallProb nKMat (start stallProb fun _ => 1) fun _ => - (w / 2)).q) > tol
    rw [hq1]; exact e1
  obtain ⟨st1, st2⟩ := body_stall stallProb nKMat (body stallProb nKMat (start stallProb fun _ => 1) fun _ => - (w / 2))
  have he2 : (body stallProb nKMat (body stallProb nKMat (start stallProb fun _ => 1) fun _ => - (w / 2)) fun _ => 0).error > tol := by
    show maxAbs (assembleVec stallProb (body stallProb nKMat (body stallProb nKMat (start stallProb fun _ => 1) fun _ => - (w / 2)) fun _ => 0).q) > tol
    rw [st2, hq1]; exact e1
  obtain ⟨f, rfl⟩ : ∃ f, fuel = f + 2 := ⟨fuel - 2, by omega⟩
  unfold dynamicRelaxSolve loop
  rw [if_pos (show (start stallProb fun _ => 1).error > tol by show (1 : ℝ) > tol; norm_num at *; linarith), h0]
  show loop stallProb nKMat tol (f + 1) _ = _
  unfold loop
  rw [if_pos he1, h1]
  show loop stallProb nKMat tol f _ = _
  unfold loop
  rw [if_pos he2, st1]
  rfl

/-! ## The version of the package -/

/-- The errors of the rest of `dynamic_relax_solve`. -/
inductive JaxErr where
  | assertion
  | typeError
deriving DecidableEq

/-- jax_am/fem/solver.py 756-831: `dynamic_relax_solve` after its start value, if the names `dofs` and `sol_shape`, which are unbound in the code
(C26), were supplied. The call of `printInfo` (solver.py 816) leaves out the two required arguments `info_force`, `info` (solver.py 692), so the first pass of the loop raises TypeError. -/
noncomputable def jaxRest {n : ℕ} (P : Prob n) (tol : ℝ) (dofs : V n) : Except JaxErr (V n) :=
  let R := assembleVec P dofs
  let M := massOf (assembleCSR P dofs)
  match divV R M with
  | none => .error .assertion
  | some _ => if maxAbs R > tol then .error .typeError else .ok dofs

/-- jax_am/fem/solver.py 774-818, the loop with the call of `printInfo` left out: the statement that updates the velocity is commented out (solver.py 811), so `qdot` keeps its start value. -/
noncomputable def jaxLoop {n : ℕ} (P : Prob n) (tol : ℝ) (qdot : V n) : ℕ → V n → Option (V n)
  | fuel, q =>
    if maxAbs (assembleVec P q) > tol then
      match fuel with
      | 0 => none
      | fuel + 1 => jaxLoop P tol qdot fuel fun i => q i + h * qdot i
    else some q

/-- jax_am/fem/solver.py 756-818: start velocity and loop. -/
noncomputable def jaxRepaired {n : ℕ} (P : Prob n) (tol : ℝ) (fuel : ℕ) (dofs : V n) : Option (V n) :=
  match divV (assembleVec P dofs) (massOf (assembleCSR P dofs)) with
  | none => none
  | some x => jaxLoop P tol (fun i => - h / 2 * x i) fuel dofs

/-- **C134 (package).** Even with its unbound names supplied, `dynamic_relax_solve` returns nothing but its start value, and that exactly when the start value already is a solution to within the tolerance; on all other problems it raises. -/
theorem C134_package {n : ℕ} (P : Prob n) (tol : ℝ) (dofs u : V n) :
    (jaxRest P tol dofs = .ok u ↔ u = dofs ∧ (∀ i, ∃ j, assembleCSR P dofs i j ≠ 0) ∧ maxAbs (assembleVec P dofs) ≤ tol) ∧
    ((∀ i, ∃ j, assembleCSR P dofs i j ≠ 0) → tol < maxAbs (assembleVec P dofs) → jaxRest P tol dofs = .error .typeError) := by
  have hM : (∀ i, massOf (assembleCSR P dofs) i ≠ 0) ↔ ∀ i, ∃ j, assembleCSR P dofs i j ≠ 0 := by
    refine forall_congr' fun i => ?_
    unfold massOf
    have h1 : h_tilde * h_tilde / 4 ≠ 0 := by unfold h_tilde; norm_num
    rw [mul_ne_zero_iff, ne_eq (∑ j, |assembleCSR P dofs i j|), Finset.sum_eq_zero_iff_of_nonneg fun j _ => abs_nonneg (assembleCSR P dofs i j)]
    constructor
    · rintro ⟨-, h2⟩
      by_contra hno
      push Not at hno
      exact h2 fun j _ => by rw [hno j, abs_zero]
    · rintro ⟨j, hj⟩
      exact ⟨h1, fun h2 => hj (abs_eq_zero.mp (h2 j (Finset.mem_univ j)))⟩
  constructor
  · unfold jaxRest
    constructor
    · intro e
      cases hd : divV (assembleVec P dofs) (massOf (assembleCSR P dofs)) with
      | none => simp only [hd] at e; cases e
      | some x =>
        simp only [hd] at e
        split_ifs at e with h1
        cases e
        exact ⟨rfl, hM.mp (divV_some hd).1, not_lt.mp h1⟩
    · rintro ⟨rfl, h1, h2⟩
      simp only [divV_pos _ _ (hM.mpr h1)]
      rw [if_neg (not_lt.mpr h2)]
  · intro h1 h2
    unfold jaxRest
    simp only [divV_pos _ _ (hM.mpr h1)]
    rw [if_pos h2]

theorem jaxLoop_line {n : ℕ} (P : Prob n) (tol : ℝ) (w : V n) (fuel : ℕ) (q u : V n) (e : jaxLoop P tol w fuel q = some u) :
    ∃ k : ℕ, k ≤ fuel ∧ (∀ i, u i = q i + k * w i) ∧ maxAbs (assembleVec P u) ≤ tol ∧
      ∀ l < k, tol < maxAbs (assembleVec P fun i => q i + (l : ℕ) * w i) := by
  induction fuel generalizing q with
  | zero =>
    unfold jaxLoop at e
    split_ifs at e with h1
    cases e
    exact ⟨0, le_refl _, fun i => by simp, not_lt.mp h1, fun l hl => absurd hl (Nat.not_lt_zero l)⟩
  | succ f ih =>
    unfold jaxLoop at e
    split_ifs at e with h1
    · obtain ⟨k, hk, hu, ht, hb⟩ := ih _ e
      refine ⟨k + 1, by omega, fun i => ?_, ht, fun l hl => ?_⟩
      · rw [hu i]; push_cast; unfold h; ring
      · cases l with
        | zero => simpa using h1
        | succ l =>
          have := hb l (by omega)
          convert this using 4
          push_cast; unfold h; ring
    · cases e
      exact ⟨0, by omega, fun i => by simp, not_lt.mp h1, fun l hl => absurd hl (Nat.not_lt_zero l)⟩

/-- **C134 (constant velocity).** With that call repaired too, every result of the package's loop lies on the straight line from the start in the direction of the first velocity, at a whole number of steps, the first such point with a small residual. -/
theorem C134_straight {n : ℕ} (P : Prob n) (tol : ℝ) (fuel : ℕ) (dofs u : V n) (e : jaxRepaired P tol fuel dofs = some u) :
    ∃ k : ℕ, k ≤ fuel ∧ (∀ i, u i = dofs i - k * (assembleVec P dofs i / (2 * massOf (assembleCSR P dofs) i))) ∧ maxAbs (assembleVec P u) ≤ tol ∧
      ∀ l < k, tol < maxAbs (assembleVec P fun i => dofs i - (l : ℕ) * (assembleVec P dofs i / (2 * massOf (assembleCSR P dofs) i))) := by
  unfold jaxRepaired at e
  cases hd : divV (assembleVec P dofs) (massOf (assembleCSR P dofs)) with
  | none => simp only [hd] at e; cases e
  | some x =>
    simp only [hd] at e
    obtain ⟨hM, hx⟩ := divV_some hd
    have hv : ∀ (l : ℕ) i, dofs i + l * (- h / 2 * x i) = dofs i - l * (assembleVec P dofs i / (2 * massOf (assembleCSR P dofs) i)) := by
      intro l i
      rw [hx i]
      have := hM i
      unfold h; field_simp; ring
    obtain ⟨k, hk, hu, ht, hb⟩ := jaxLoop_line P tol _ fuel dofs u e
    refine ⟨k, hk, fun i => by rw [hu i, hv], ht, fun l hl => ?_⟩
    have := hb l hl
    simp only [hv] at this
    exact this

/-- One free unknown with stiffness `a` and load `b`. -/
def oneProb (a b : ℝ) : Prob 0 := ⟨fun u _ => a * u 0 - b, fun _ _ _ => a, []⟩

theorem one_linear (a b : ℝ) (ha : 0 < a) : IsLinear (oneProb a b) (fun _ _ => a) (fun _ => b) where
  res := fun u i => by show a * u 0 - b = _; simp
  jac := fun _ => rfl
  symm := fun _ _ => rfl
  psd := fun x _ => by
    rw [Fin.sum_univ_one, Fin.sum_univ_one]
    have := mul_nonneg ha.le (mul_self_nonneg (x 0))
    linarith
  row := fun i _ => ⟨0, ha.ne'⟩

theorem one_maxAbs (R : V 0) : maxAbs R = |R 0| := by
  refine le_antisymm (maxAbs_le _ _ fun i => ?_) (abs_le_maxAbs R 0)
  rw [show i = 0 from Fin.ext (by omega)]

/-- **C134 (one unknown).** On every linear problem with one unknown the package's loop, repaired as above, never ends once the tolerance is below 0.65 times the first residual: it steps over the solution and then away from it for ever. -/
theorem C134_overshoot (a b q0 tol : ℝ) (ha : 0 < a) (ht : tol < 0.65 * |a * q0 - b|) (fuel : ℕ) :
    jaxRepaired (oneProb a b) tol fuel (fun _ => q0) = none := by
  by_contra hne
  obtain ⟨u, e⟩ := Option.ne_none_iff_exists'.mp hne
  obtain ⟨k, -, hu, hs, -⟩ := C134_straight _ tol fuel _ u e
  have hR : ∀ q : V 0, assembleVec (oneProb a b) q = fun _ => a * q 0 - b := fun q => rfl
  have hM : massOf (assembleCSR (oneProb a b) fun _ => q0) 0 = 1.21 / 4 * a := by
    show h_tilde * h_tilde / 4 * ∑ _j : Fin 1, |a| = _
    rw [Fin.sum_univ_one, abs_of_pos ha]; unfold h_tilde; norm_num
  rw [one_maxAbs, hR] at hs
  have h0 := hu 0
  rw [hM, hR] at h0
  have h1 : a * u 0 - b = (a * q0 - b) * (1 - k * (200 / 121)) := by
    rw [h0]
    have := ha.ne'
    field_simp
    norm_num
    ring
  have h2 : |a * u 0 - b| ≤ tol := hs
  rw [h1, abs_mul] at h2
  have h3 : 0.65 ≤ |1 - (k : ℝ) * (200 / 121)| := by
    cases k with
    | zero => norm_num
    | succ k =>
      push_cast
      rw [abs_of_neg (by have : (0 : ℝ) ≤ k := Nat.cast_nonneg k; norm_num; linarith)]
      have : (0 : ℝ) ≤ k := Nat.cast_nonneg k
      norm_num; linarith
  have h4 := mul_le_mul_of_nonneg_left h3 (abs_nonneg (a * q0 - b))
  linarith

/-! ## Cases -/

/-- On the same problem `dr.py` ends. -/
example (a b q0 : ℝ) (ha : 0 < a) (nKMat : ℕ) : ∃ fuel o, dynamicRelaxSolve (oneProb a b) nKMat 1e-6 fuel (fun _ => q0) = some o := by
  have hs : Solves (oneProb a b) fun _ => b / a := by
    refine ⟨fun l i x r e => ?_, fun i _ => ?_⟩
    · have : ([] : List (Fin 1 × ℝ)) = l ++ (i, x) :: r := e
      simp at this
    · show a * (b / a) - b = 0
      field_simp; ring
  obtain ⟨f, hf⟩ := exists_nat_gt ((1300000 * (1.21 / 4 * a) * (∑ i : Fin 1, (writeBcs (oneProb a b).bcs (fun _ => q0) i - b / a) *
    ∑ j : Fin 1, a * (writeBcs (oneProb a b).bcs (fun _ => q0) j - b / a))) / (1e-6 : ℝ) ^ 2)
  rw [div_lt_iff₀ (by norm_num)] at hf
  have := C134_converges (one_linear a b ha) (fun _ => b / a) hs nKMat (fun _ => q0) 1e-6 (by norm_num) (by norm_num) (1.21 / 4 * a)
    (fun i _ => by rw [Fin.sum_univ_one, abs_of_pos ha]) (f + 2) (by omega) (hf.trans_le (by push_cast; norm_num; linarith))
  rcases this with ⟨u, k, e, -⟩ | ⟨k, e, -⟩
  · exact ⟨_, _, e⟩
  · exact ⟨_, _, e⟩

/-- Two unknowns, the first held at 3: the program writes the value, and a residual at the free unknown only. -/
example : let P : Prob 1 := ⟨fun u i => ∑ j, stallA i j * u j - 0, fun _ => stallA, [(0, 3)]⟩
    (start P fun _ => 1).q = ![3, 1] ∧ (start P fun _ => 1).R 0 = 0 ∧ Fixed P 0 ∧ ¬ Fixed P 1 := by
  refine ⟨?_, assembleVec_fixed _ _ 0 (by simp [Fixed]), by simp [Fixed], by simp [Fixed]⟩
  funext i
  fin_cases i <;> simp [start, writeBcs]

/-- The start of a program whose residual is a million returned as converged with tolerance 1. -/
example : dynamicRelaxSolve (oneProb 1 1e6) 50 1 0 (fun _ => 0) = some (.converged (fun _ => 0) 0) ∧ maxAbs (assembleVec (oneProb 1 1e6) fun _ => 0) = 1e6 := by
  refine ⟨C134_loose _ 50 1 0 _ (le_refl _), ?_⟩
  rw [one_maxAbs]
  show |(1 : ℝ) * 0 - 1e6| = 1e6
  norm_num

end Verif.DynRelax
