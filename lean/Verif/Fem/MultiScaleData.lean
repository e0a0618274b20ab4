import Verif.Fem.MultiScaleBc
import Mathlib.Data.Nat.Digits.Defs
import Mathlib.Data.List.Perm.Subperm

/-!
# C123: collection of training data (model of applications/fem/multi_scale/rve.py 137-202)

The solver is a deterministic function of the macroscopic gradient held by the problem. A sample drawn by `onp.random.choice` is the value of an arbitrary function `pick` of the pass and of the list of open samples.
-/
namespace Verif.Fem
open Finset Matrix

variable {S : Type}

/-- `ratios` (rve.py 142). -/
noncomputable def rveRatios : List ℝ := [0.25, 0.5, 0.75, 0.9, 1]

/-- `solve_rve_problem` (rve.py 137-151): `solver H` is `solver(problem)` with `problem.H_bar = H`, `energy H sol` is `problem.compute_energy(sol)` (`none`: NaN). The zero field assigned before the loop is not passed on. -/
noncomputable def solveRve (solver : T33 → S) (zero : S) (energy : T33 → S → Option ℝ) (sample : Fin 6 → ℝ) : S × (Fin 6 → ℝ) × Option ℝ :=
  let base := flatToTensor sample
  let sol_fluc := solver base
  let e := energy base sol_fluc
  if e.isNone then
    let last := rveRatios.foldl (fun (_ : T33 × S) ratio => (ratio • base, solver (ratio • base))) (base, zero)
    (last.2, sample, energy last.1 last.2)
  else (sol_fluc, sample, e)

/-- One coordinate of `generate_samples` (rve.py 154-163): `qmc.scale` of a Sobol point in `[0, 1)`. -/
noncomputable def scaleSample (p : Fin 6 → ℝ) : Fin 6 → ℝ := fun k => p k * (0.2 - -0.2) + -0.2

/-- `f"{i:05d}"`: the decimal digits, most significant first, filled up with zeros. -/
def fmt05 (i : ℕ) : List ℕ :=
  let d := (Nat.digits 10 i).reverse
  let d := if d = [] then [0] else d
  List.replicate (5 - d.length) 0 ++ d

/-- A character of a file path: a digit or something else. -/
inductive PathChar
  | digit (d : ℕ)
  | other (c : Char)
  deriving DecidableEq

/-- `os.path.join(root_numpy, f"{i:05d}.npy")` (rve.py 198). -/
def npyPath (root : List PathChar) (i : ℕ) : List PathChar := root ++ [.other '/'] ++ (fmt05 i).map .digit ++ [.other '.', .other 'n', .other 'p', .other 'y']

/-- `int(file[-9:-4])` (rve.py 185): `none` is the `ValueError`. -/
def parseInd (file : List PathChar) : Option ℕ :=
  let part := (file.take (file.length - 4)).drop (file.length - 9)
  if part = [] then none
  else part.foldl (fun acc c => match acc, c with
    | some n, .digit d => some (10 * n + d)
    | _, _ => none) (some 0)

/-- State of the loop of `collect_data`: the indices of the `.npy` files and of the `.txt` files, in the order they are written. -/
structure Collect where
  npy : List ℕ
  txt : List ℕ
  deriving DecidableEq

/-- `todo` (rve.py 186). -/
def todoList (n : ℕ) (done : List ℕ) : List ℕ := (List.range n).filter fun i => i ∉ done

/-- The loop of `collect_data` (rve.py 183-202): `ok i` says that the data of sample `i` hold no NaN. `none`: not finished after `fuel` passes. -/
def collectLoop (n : ℕ) (ok : ℕ → Bool) (pick : ℕ → List ℕ → ℕ) : ℕ → ℕ → Collect → Option Collect
  | 0, _, _ => none
  | fuel + 1, k, st =>
    let todo := todoList n st.npy
    if todo.length = 0 then some st
    else
      let chosen := pick k todo
      if ok chosen then collectLoop n ok pick fuel (k + 1) { st with npy := st.npy ++ [chosen] }
      else collectLoop n ok pick fuel (k + 1) { st with txt := st.txt ++ [chosen] }

/-! ## C123 -/

/-- **C123 (quasi-static steps).** The second attempt of `solve_rve_problem` cannot help: whatever the solver does, the returned fluctuation and energy are those of the first attempt; the data hold NaN iff the first
energy was NaN. -/
theorem C123_retry (solver : T33 → S) (zero : S) (energy : T33 → S → Option ℝ) (sample : Fin 6 → ℝ) :
    solveRve solver zero energy sample = (solver (flatToTensor sample), sample, energy (flatToTensor sample) (solver (flatToTensor sample))) := by
  unfold solveRve rveRatios
  simp only [List.foldl_cons, List.foldl_nil, one_smul]
  split_ifs <;> rfl

/-- **C123 (sampling).** Every sample drawn from the unit cube gives a symmetric macroscopic gradient with `det (I + H) > 0`, so that the energy can be evaluated and differentiated at the initial guess zero. -/
theorem C123_samples (p : Fin 6 → ℝ) (hp : ∀ k, 0 ≤ p k ∧ p k ≤ 1) : (flatToTensor (scaleSample p))ᵀ = flatToTensor (scaleSample p) ∧ 0 < ((1 : T33) + flatToTensor (scaleSample p)).det ∧
    ∀ {nn nq nf nfq : ℕ} (s : Ms nn nq nf nfq), s.mode = .rve → s.hbar = some (flatToTensor (scaleSample p)) → s.Admissible 0 := by
  have hb : ∀ k, -0.2 ≤ scaleSample p k ∧ scaleSample p k ≤ 0.2 := by
    intro k
    obtain ⟨h1, h2⟩ := hp k
    unfold scaleSample
    constructor <;> norm_num <;> linarith
  have hdet : 0 < ((1 : T33) + flatToTensor (scaleSample p)).det := by
    generalize scaleSample p = x at hb
    obtain ⟨a1, a2⟩ := hb 0
    obtain ⟨b1, b2⟩ := hb 1
    obtain ⟨c1, c2⟩ := hb 2
    obtain ⟨d1, d2⟩ := hb 3
    obtain ⟨e1, e2⟩ := hb 4
    obtain ⟨f1, f2⟩ := hb 5
    rw [Matrix.det_fin_three]
    simp only [flatToTensor, Matrix.add_apply, Matrix.of_apply, Matrix.cons_val', Matrix.cons_val_zero, Matrix.cons_val_one, Matrix.cons_val, Matrix.one_apply_eq, Fin.isValue, ne_eq, reduceCtorEq, not_false_eq_true,
      Fin.reduceEq, Matrix.one_apply_ne, zero_add]
    generalize x 0 = a at *
    generalize x 1 = b at *
    generalize x 2 = c at *
    generalize x 3 = d at *
    generalize x 4 = e at *
    generalize x 5 = f at *
    have d2 : d ^ 2 ≤ 0.04 := by nlinarith
    have e2' : e ^ 2 ≤ 0.04 := by nlinarith
    have f2' : f ^ 2 ≤ 0.04 := by nlinarith
    have hqr : 0.6 ≤ (1 + b) * (1 + c) - f ^ 2 := by nlinarith
    have hp1 : 0.48 ≤ (1 + a) * ((1 + b) * (1 + c) - f ^ 2) := by nlinarith
    have hq : (1 + b) * e ^ 2 ≤ 0.048 := by nlinarith
    have hr : (1 + c) * d ^ 2 ≤ 0.048 := by nlinarith
    have hde : |d * e * f| ≤ 0.008 := by
      rw [abs_mul, abs_mul]
      have k1 : |d| ≤ 0.2 := abs_le.mpr ⟨by linarith, by linarith⟩
      have k2 : |e| ≤ 0.2 := abs_le.mpr ⟨by linarith, by linarith⟩
      have k3 : |f| ≤ 0.2 := abs_le.mpr ⟨by linarith, by linarith⟩
      calc |d| * |e| * |f| ≤ 0.2 * 0.2 * 0.2 := by gcongr
        _ = 0.008 := by norm_num
    have hde' := (abs_le.mp hde).1
    nlinarith
  refine ⟨(C120_flat _ 0).2.1, hdet, fun s hm hh => ?_⟩
  unfold Ms.Admissible Ms.defGrad
  rw [hm, hh]
  intro c _ q
  have h0 : Matrix.of (s.fem.gradAt 0 c q) = 0 := by
    ext i j
    simp [Fem.gradAt]
  simpa [h0] using hdet

theorem mem_todoList {n : ℕ} {done : List ℕ} {i : ℕ} : i ∈ todoList n done ↔ i < n ∧ i ∉ done := by simp [todoList]

theorem todo_append {n : ℕ} {done : List ℕ} {c : ℕ} (h : c ∈ todoList n done) : (todoList n (done ++ [c])).length + 1 = (todoList n done).length := by
  have hnd : (todoList n done).Nodup := List.Nodup.filter _ List.nodup_range
  have e : todoList n (done ++ [c]) = (todoList n done).erase c := by
    rw [hnd.erase_eq_filter]
    unfold todoList
    rw [List.filter_filter]
    refine List.filter_congr fun x _ => ?_
    by_cases h1 : x ∈ done <;> by_cases h2 : x = c <;> simp [h1, h2]
  rw [e, List.length_erase_of_mem h]
  have := List.length_pos_of_mem h
  omega

/-- **C123 (complete runs).** If every open sample can be solved, the loop stops after as many passes as there are open samples (plus the last check): the open samples have been saved, each exactly once, files present
before are kept, and no failure is recorded; this holds for every sequence of random choices. -/
theorem C123_completes (n : ℕ) (ok : ℕ → Bool) (pick : ℕ → List ℕ → ℕ) (hpick : ∀ k l, l ≠ [] → pick k l ∈ l) (st : Collect) (hok : ∀ i < n, i ∉ st.npy → ok i = true) (k : ℕ) :
    ∃ new, new.Perm (todoList n st.npy) ∧ (∀ fuel, (todoList n st.npy).length < fuel → collectLoop n ok pick fuel k st = some ⟨st.npy ++ new, st.txt⟩) ∧
      ∀ fuel ≤ (todoList n st.npy).length, collectLoop n ok pick fuel k st = none := by
  generalize hlen : (todoList n st.npy).length = len
  induction len generalizing st k with
  | zero =>
    refine ⟨[], ?_, fun fuel hf => ?_, fun fuel hf => ?_⟩
    · rw [List.length_eq_zero_iff.mp hlen]
    · obtain ⟨f, rfl⟩ : ∃ f, fuel = f + 1 := ⟨fuel - 1, by omega⟩
      simp [collectLoop, hlen]
    · obtain rfl : fuel = 0 := by omega
      rfl
  | succ len ih =>
    have hne : todoList n st.npy ≠ [] := by intro h; rw [h] at hlen; simp at hlen
    have hmem := hpick k _ hne
    obtain ⟨hlt, hnew⟩ := mem_todoList.mp hmem
    set c := pick k (todoList n st.npy) with hc
    obtain ⟨new, h1, h2, h3⟩ := ih { st with npy := st.npy ++ [c] } (fun i hi hin => hok i hi fun h => hin (by simp [h])) (k + 1) (by have := todo_append hmem; simp only; omega)
    refine ⟨c :: new, ?_, fun fuel hf => ?_, fun fuel hf => ?_⟩
    · have hnd : (todoList n st.npy).Nodup := List.Nodup.filter _ List.nodup_range
      have e : todoList n (st.npy ++ [c]) = (todoList n st.npy).erase c := by
        rw [hnd.erase_eq_filter]
        unfold todoList
        rw [List.filter_filter]
        refine List.filter_congr fun x _ => ?_
        by_cases h1 : x ∈ st.npy <;> by_cases h2 : x = c <;> simp [h1, h2]
      simp only at h1
      rw [e] at h1
      exact (h1.cons c).trans (List.perm_cons_erase hmem).symm
    · obtain ⟨f, rfl⟩ : ∃ f, fuel = f + 1 := ⟨fuel - 1, by omega⟩
      have := h2 f (by omega)
      simp only [collectLoop, ← hc]
      rw [if_neg (by omega), if_pos (hok c hlt hnew), this]
      simp
    · cases fuel with
      | zero => rfl
      | succ f =>
        simp only [collectLoop, ← hc]
        rw [if_neg (by omega), if_pos (hok c hlt hnew)]
        exact h3 f (by omega)

/-- **C123 (a failing sample).** If one open sample yields NaN, the loop never stops: failures are recorded as `.txt` files which are not counted as done. -/
theorem C123_never_ends (n : ℕ) (ok : ℕ → Bool) (pick : ℕ → List ℕ → ℕ) (st : Collect) (i : ℕ) (hi : i < n) (hnew : i ∉ st.npy) (hbad : ok i = false) (fuel k : ℕ) :
    collectLoop n ok pick fuel k st = none := by
  induction fuel generalizing st k with
  | zero => rfl
  | succ fuel ih =>
    have hmem : i ∈ todoList n st.npy := mem_todoList.mpr ⟨hi, hnew⟩
    have hpos := List.length_pos_of_mem hmem
    simp only [collectLoop]
    rw [if_neg (by omega)]
    by_cases h : ok (pick k (todoList n st.npy)) = true
    · rw [if_pos h]
      refine ih _ ?_ _
      simp only [List.mem_append, List.mem_singleton, not_or]
      exact ⟨hnew, fun e => by rw [← e, hbad] at h; cases h⟩
    · rw [if_neg h]
      exact ih { st with txt := st.txt ++ [pick k (todoList n st.npy)] } hnew _

theorem fmt05_length {i : ℕ} (hi : i < 100000) : (fmt05 i).length = 5 := by
  unfold fmt05
  have h : (Nat.digits 10 i).length ≤ 5 := by
    rw [Nat.digits_length_le_iff (by norm_num)]
    exact hi
  dsimp only
  rw [List.length_append, List.length_replicate]
  split_ifs
  · rfl
  · rw [List.length_reverse]; omega

theorem foldl_digits (l : List ℕ) (acc : ℕ) : (l.map PathChar.digit).foldl (fun acc c => match acc, c with
    | some n, .digit d => some (10 * n + d)
    | _, _ => none) (some acc) = some (l.foldl (fun n d => 10 * n + d) acc) := by
  induction l generalizing acc with
  | nil => rfl
  | cons d l ih => simp only [List.map_cons, List.foldl_cons]; exact ih _

theorem foldl_ofDigits (l : List ℕ) : l.reverse.foldl (fun n d => 10 * n + d) 0 = Nat.ofDigits 10 l := by
  induction l with
  | nil => rfl
  | cons d l ih =>
    rw [List.reverse_cons, List.foldl_append, ih, Nat.ofDigits_cons]
    simp only [List.foldl_cons, List.foldl_nil]
    ring

theorem foldl_zeros (k : ℕ) (l : List ℕ) : (List.replicate k 0 ++ l).foldl (fun n d => 10 * n + d) 0 = l.foldl (fun n d => 10 * n + d) 0 := by
  induction k with
  | zero => rfl
  | succ k ih => rw [List.replicate_succ, List.cons_append, List.foldl_cons]; exact ih

/-- **C123 (file names).** The index read back from a file name is the index it was written with, for every directory and every index below 100000. -/
theorem C123_file_names (root : List PathChar) (i : ℕ) (hi : i < 100000) : parseInd (npyPath root i) = some i := by
  have h5 := fmt05_length hi
  have hlen : (npyPath root i).length = root.length + 1 + 5 + 4 := by simp [npyPath, h5]
  have hpart : ((npyPath root i).take ((npyPath root i).length - 4)).drop ((npyPath root i).length - 9) = (fmt05 i).map .digit := by
    rw [hlen]
    have e1 : root.length + 1 + 5 + 4 - 4 = (root ++ [PathChar.other '/'] ++ (fmt05 i).map PathChar.digit).length := by simp [h5]
    have e2 : root.length + 1 + 5 + 4 - 9 = (root ++ [PathChar.other '/']).length := by simp
    rw [e1, e2]
    unfold npyPath
    rw [List.take_left', List.drop_left'] <;> rfl
  unfold parseInd
  dsimp only
  rw [hpart, if_neg (by intro h; have := congrArg List.length h; simp [h5] at this), foldl_digits]
  unfold fmt05
  dsimp only
  rw [foldl_zeros]
  by_cases h : (Nat.digits 10 i).reverse = []
  · rw [if_pos h]
    have : i = 0 := by
      have h' : Nat.digits 10 i = [] := by simpa using h
      exact Nat.digits_eq_nil_iff_eq_zero.mp h'
    rw [this]
    rfl
  · rw [if_neg h, foldl_ofDigits, Nat.ofDigits_digits]

/-- Above the bound the name is read back wrongly. -/
example : parseInd (npyPath [] 123456) = some 23456 := by
  have h : fmt05 123456 = [1, 2, 3, 4, 5, 6] := by
    norm_num [fmt05]
    rfl
  unfold npyPath
  rw [h]
  decide

/-- A run over three samples with one present: the choices decide the order only. -/
example : collectLoop 3 (fun _ => true) (fun _ l => l.getLastD 0) 3 0 ⟨[1], []⟩ = some ⟨[1, 2, 0], []⟩ := by decide

/-- Sample 0 fails: it is tried again and again. -/
example : collectLoop 2 (fun i => i != 0) (fun _ l => l.headD 0) 100 0 ⟨[], []⟩ = none := C123_never_ends 2 _ _ _ 0 (by decide) (by simp) rfl 100 0

end Verif.Fem
