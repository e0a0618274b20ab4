import Mathlib.Data.Real.Basic
import Mathlib.Tactic

/-!
# `to_data_frame` (jax_am/common.py 91-130), C61

A frame is the list of its columns. Rows are not materialised: `pd.concat(..., ignore_index=True)` stacks the frames in order (missing columns become NaN), so the returned table is described by the list of frames.
-/
namespace Verif.Misc

inductive DfErr | index | value | length | noObjects
  deriving DecidableEq, Repr

/-- Point data of a mesh file: one value per point, or an array with trailing shape `shape` and one column per multi-index. -/
inductive FieldData
  | scalar (v : List ℝ)
  | multi (shape : List ℕ) (get : List ℕ → List ℝ)

/-- A file in the `vtk` directory, with the dictionary `point_data` read by meshio in its order. -/
structure VtuFile where
  name : String
  fields : List (String × FieldData)

/-- Columns of a data frame in order. -/
abbrev Frame := List (String × List ℝ)

/-- `data_dict[name] = data` for a frame with `n` rows: a new column is appended, an existing one is replaced; a wrong length raises (common.py 117, 122). -/
def setCol (n : ℕ) (f : Frame) (name : String) (v : List ℝ) : Except DfErr Frame :=
  if v.length ≠ n then .error .length
  else if f.any (fun c => c.1 = name) then .ok (f.map fun c => if c.1 = name then (name, v) else c)
  else .ok (f ++ [(name, v)])

/-- `onp.ndindex(shape)`: all multi-indices in row-major order (common.py 120). -/
def ndindex : List ℕ → List (List ℕ)
  | [] => [[]]
  | k :: ks => (List.range k).flatMap fun i => (ndindex ks).map fun r => i :: r

/-- `f"{name}_{'_'.join(map(str, idx))}"` (common.py 121). -/
def flatName (name : String) (idx : List ℕ) : String := name ++ "_" ++ "_".intercalate (idx.map toString)

/-- One pass of the loop over `point_data` (common.py 113-123). -/
def addField (n : ℕ) (f : Frame) (fd : String × FieldData) : Except DfErr Frame :=
  match fd.2 with
  | .scalar v => setCol n f fd.1 v
  | .multi shape get => (ndindex shape).foldlM (fun f idx => setCol n f (flatName fd.1 idx) (get idx)) f

/-- The loop over the files (common.py 105-125); `i` counts fields, not files. -/
def framesFrom (points : List (ℝ × ℝ × ℝ)) (time : ℕ → ℝ) : ℕ → List VtuFile → Except DfErr (List Frame)
  | _, [] => .ok []
  | i, f :: fs =>
    let base : Frame := [("x", points.map fun p => p.1), ("y", points.map fun p => p.2.1), ("z", points.map fun p => p.2.2), ("time", List.replicate points.length (time i))]
    if f.fields = [] then framesFrom points time i fs
    else do
      let cols ← f.fields.foldlM (addField points.length) base
      let rest ← framesFrom points time (i + f.fields.length) fs
      pure (cols :: rest)

/-- `name[-9:-4]` (common.py 100). -/
def stepDigits (name : String) : List Char := (name.toList.take (name.length - 4)).drop (name.length - 9)

/-- `to_data_frame` (common.py 91-130). `listing` is what `os.listdir` returns, in its unspecified order; `parse` is `int(...)`; `round8` is `round(·, 8)`. -/
def toDataFrame (points : List (ℝ × ℝ × ℝ)) (listing : List VtuFile) (dt : ℝ) (parse : List Char → Except DfErr ℤ) (round8 : ℝ → ℝ) : Except DfErr (List Frame) :=
  let vtuFiles := listing.filter fun f => ".vtu".toList.isSuffixOf f.name.toList
  match vtuFiles[1]? with
  | none => .error .index
  | some f1 => do
    let stepsave ← parse (stepDigits f1.name)
    let frames ← framesFrom points (fun i => round8 (i * stepsave * dt)) 0 vtuFiles
    if frames = [] then .error .noObjects else pure frames

/-! ## Specification vocabulary -/

/-- The column with a given name. -/
def Frame.col (f : Frame) (name : String) : Option (List ℝ) := f.lookup name

/-- The snapshot files among the directory entries. -/
def snapshots (listing : List VtuFile) : List VtuFile := listing.filter fun f => ".vtu".toList.isSuffixOf f.name.toList

/-- The file has a one-component field called `c`. -/
def HasScalar (f : VtuFile) (c : String) : Prop := ∃ v, (c, FieldData.scalar v) ∈ f.fields

/-- Total number of point fields in some files. -/
def fieldCount (l : List VtuFile) : ℕ := (l.map fun f => f.fields.length).sum

/-! ## Lemmas -/

theorem fieldCount_append (a b : List VtuFile) : fieldCount (a ++ b) = fieldCount a + fieldCount b := by simp [fieldCount]

theorem setCol_col {n : ℕ} {f g : Frame} {name : String} {v : List ℝ} (h : setCol n f name v = .ok g) (c : String) : g.col c = if c = name then some v else f.col c := by
  unfold setCol at h
  split at h
  · cases h
  · split at h
    · rename_i hany
      injection h with h
      subst h
      clear * - hany
      induction f with
      | nil => simp at hany
      | cons a f ih =>
        unfold Frame.col at ih ⊢
        by_cases ha : a.1 = name
        · simp only [List.map_cons, ha, if_true]
          by_cases hc : c = name
          · subst hc
            simp [List.lookup]
          · have h1 : (c == name) = false := by simpa using hc
            have h2 : (c == a.1) = false := by rw [ha]; exact h1
            simp only [List.lookup, h1, if_neg hc]
            obtain ⟨a1, a2⟩ := a
            simp only [List.lookup, h2]
            by_cases hany' : f.any (fun c => c.1 = name) = true
            · rw [ih hany', if_neg hc]
            · have hno : ∀ b ∈ f, b.1 ≠ name := fun b hb hbn => hany' (List.any_eq_true.mpr ⟨b, hb, by simpa using hbn⟩)
              have hmap : f.map (fun c => if c.1 = name then (name, v) else c) = f := by
                conv_rhs => rw [← List.map_id f]
                exact List.map_congr_left fun b hb => if_neg (hno b hb)
              rw [hmap]
        · have hany' : f.any (fun c => c.1 = name) = true := by simpa [ha] using hany
          obtain ⟨a1, a2⟩ := a
          simp only [List.map_cons, if_neg ha, List.lookup]
          by_cases hca : c = a1
          · subst hca
            simp only [beq_self_eq_true]
            rw [if_neg ha]
          · have : (c == a1) = false := by simpa using hca
            simp only [this]
            exact ih hany'
    · rename_i hany
      injection h with h
      subst h
      have hany : ∀ b ∈ f, b.1 ≠ name := fun b hb hbn => hany (List.any_eq_true.mpr ⟨b, hb, by simpa using hbn⟩)
      clear * - hany
      induction f with
      | nil =>
        unfold Frame.col
        by_cases hc : c = name
        · subst hc; simp [List.lookup]
        · have : (c == name) = false := by simpa using hc
          simp [List.lookup, this, hc]
      | cons a f ih =>
        obtain ⟨a1, a2⟩ := a
        unfold Frame.col at ih ⊢
        by_cases hca : c = a1
        · subst hca
          have := hany (c, a2) (by simp)
          simp only [List.cons_append, List.lookup, beq_self_eq_true, if_neg this]
        · have hf : (c == a1) = false := by simpa using hca
          simp only [List.cons_append, List.lookup, hf]
          exact ih fun b hb => hany b (List.mem_cons_of_mem _ hb)

theorem flatName_mem (name : String) (idx : List ℕ) : '_' ∈ (flatName name idx).toList := by
  unfold flatName
  simp

theorem foldlM_col {α : Type} {step : Frame → α → Except DfErr Frame} (c : String) (l : List α) (hstep : ∀ a ∈ l, ∀ f g, step f a = .ok g → g.col c = f.col c) : ∀ f g, l.foldlM step f = .ok g → g.col c = f.col c := by
  induction l with
  | nil =>
    intro f g h
    injection h with h
    rw [h]
  | cons a l ih =>
    intro f g h
    rw [List.foldlM_cons] at h
    cases h1 : step f a with
    | error e => rw [h1] at h; cases h
    | ok f1 =>
      rw [h1] at h
      rw [ih (fun a ha => hstep a (List.mem_cons_of_mem _ ha)) f1 g h, hstep a (by simp) f f1 h1]

/-- A column whose name has no underscore survives unless a one-component field has that name. -/
theorem addFields_col (n : ℕ) (c : String) (hc : '_' ∉ c.toList) (fields : List (String × FieldData)) (hs : ∀ v, (c, FieldData.scalar v) ∉ fields) (f g : Frame) (h : fields.foldlM (addField n) f = .ok g) : g.col c = f.col c := by
  refine foldlM_col c fields (fun fd hfd f g h => ?_) f g h
  unfold addField at h
  obtain ⟨name, data⟩ := fd
  cases data with
  | scalar v =>
    have hne : c ≠ name := by
      rintro rfl
      exact hs v hfd
    rw [setCol_col h, if_neg hne]
  | multi shape get =>
    refine foldlM_col c (ndindex shape) (fun idx _ f g h => ?_) f g h
    have hne : c ≠ flatName name idx := by
      rintro rfl
      exact hc (flatName_mem _ _)
    rw [setCol_col h, if_neg hne]

theorem framesFrom_spec (points : List (ℝ × ℝ × ℝ)) (time : ℕ → ℝ) : ∀ (files : List VtuFile) (i : ℕ) (frames : List Frame), framesFrom points time i files = .ok frames →
    frames.length = (files.filter fun f => !f.fields.isEmpty).length ∧
    ∀ pre f post, files = pre ++ f :: post → f.fields ≠ [] → ∃ fr, frames[(pre.filter fun f => !f.fields.isEmpty).length]? = some fr ∧
      (¬ HasScalar f "time" → fr.col "time" = some (List.replicate points.length (time (i + fieldCount pre)))) ∧
      (¬ HasScalar f "x" → fr.col "x" = some (points.map fun p => p.1)) ∧ (¬ HasScalar f "y" → fr.col "y" = some (points.map fun p => p.2.1)) ∧ (¬ HasScalar f "z" → fr.col "z" = some (points.map fun p => p.2.2)) := by
  intro files
  induction files with
  | nil =>
    intro i frames h
    injection h with h
    subst h
    refine ⟨rfl, fun pre f post h => ?_⟩
    simp at h
  | cons f0 fs ih =>
    intro i frames h
    rw [framesFrom] at h
    split at h
    · rename_i h0
      obtain ⟨i1, i2⟩ := ih i frames h
      refine ⟨by rw [i1]; simp [h0], fun pre f post hf hne => ?_⟩
      cases pre with
      | nil =>
        rw [List.nil_append] at hf
        injection hf with hf _
        exact absurd (hf ▸ h0) hne
      | cons p pre =>
        rw [List.cons_append] at hf
        injection hf with hp hf
        subst hp
        obtain ⟨fr, hfr, rest⟩ := i2 pre f post hf hne
        refine ⟨fr, by simpa [h0] using hfr, ?_⟩
        simpa [h0, fieldCount] using rest
    · rename_i h0
      dsimp only [bind, Except.bind] at h
      generalize hb : ([("x", points.map fun p => p.1), ("y", points.map fun p => p.2.1), ("z", points.map fun p => p.2.2), ("time", List.replicate points.length (time i))] : Frame) = base at h
      cases h1 : f0.fields.foldlM (addField points.length) base with
      | error e => rw [h1] at h; cases h
      | ok cols =>
      rw [h1] at h
      dsimp only at h
      cases h2 : framesFrom points time (i + f0.fields.length) fs with
      | error e => rw [h2] at h; cases h
      | ok rest =>
      rw [h2] at h
      injection h with h
      subst h
      obtain ⟨i1, i2⟩ := ih (i + f0.fields.length) rest h2
      have h0' : f0.fields.isEmpty = false := by simpa using h0
      refine ⟨by simp [i1, h0'], fun pre f post hf hne => ?_⟩
      cases pre with
      | nil =>
        rw [List.nil_append] at hf
        injection hf with hf _
        subst hf
        refine ⟨cols, by simp, fun hs => ?_, fun hs => ?_, fun hs => ?_, fun hs => ?_⟩
        · rw [addFields_col _ "time" (by decide +kernel) _ (fun v hv => hs ⟨v, hv⟩) _ _ h1, ← hb]
          simp [Frame.col, List.lookup, fieldCount]
        · rw [addFields_col _ "x" (by decide +kernel) _ (fun v hv => hs ⟨v, hv⟩) _ _ h1, ← hb]
          simp [Frame.col, List.lookup]
        · rw [addFields_col _ "y" (by decide +kernel) _ (fun v hv => hs ⟨v, hv⟩) _ _ h1, ← hb]
          simp [Frame.col, List.lookup]
        · rw [addFields_col _ "z" (by decide +kernel) _ (fun v hv => hs ⟨v, hv⟩) _ _ h1, ← hb]
          simp [Frame.col, List.lookup]
      | cons p pre =>
        rw [List.cons_append] at hf
        injection hf with hp hf
        subst hp
        obtain ⟨fr, hfr, r1, r2⟩ := i2 pre f post hf hne
        refine ⟨fr, by simpa [h0'] using hfr, fun hs => ?_, r2⟩
        rw [r1 hs]
        simp [add_assoc, fieldCount]

theorem toDataFrame_ok {points : List (ℝ × ℝ × ℝ)} {listing : List VtuFile} {dt : ℝ} {parse : List Char → Except DfErr ℤ} {round8 : ℝ → ℝ} {frames : List Frame} (h : toDataFrame points listing dt parse round8 = .ok frames) :
    ∃ f1 stepsave, (snapshots listing)[1]? = some f1 ∧ parse (stepDigits f1.name) = .ok stepsave ∧ framesFrom points (fun i => round8 (i * stepsave * dt)) 0 (snapshots listing) = .ok frames ∧ frames ≠ [] := by
  unfold toDataFrame at h
  dsimp only at h
  split at h
  · cases h
  · rename_i f1 hf1
    dsimp only [bind, Except.bind] at h
    cases hp : parse (stepDigits f1.name) with
    | error e => rw [hp] at h; cases h
    | ok st =>
    rw [hp] at h
    dsimp only at h
    cases hfr : framesFrom points (fun i => round8 (i * st * dt)) 0 (listing.filter fun f => ".vtu".toList.isSuffixOf f.name.toList) with
    | error e => rw [hfr] at h; cases h
    | ok fr =>
    rw [hfr] at h
    dsimp only at h
    split at h
    · cases h
    · rename_i hne
      injection h with h
      subst h
      exact ⟨f1, st, hf1, hp, hfr, hne⟩

/-! ## C61 -/

/-- **C61 (times).** The time column of the frame of a snapshot file is the number of point fields in all preceding snapshot files times `stepsave*dt`, where `stepsave` is read from the name of the second file. The coordinates are kept. -/
theorem C61_times (points : List (ℝ × ℝ × ℝ)) (listing : List VtuFile) (dt : ℝ) (parse : List Char → Except DfErr ℤ) (round8 : ℝ → ℝ) (frames : List Frame) (h : toDataFrame points listing dt parse round8 = .ok frames) :
    ∃ f1 stepsave, (snapshots listing)[1]? = some f1 ∧ parse (stepDigits f1.name) = .ok stepsave ∧ frames.length = ((snapshots listing).filter fun f => !f.fields.isEmpty).length ∧
      ∀ pre f post, snapshots listing = pre ++ f :: post → f.fields ≠ [] → ∃ fr, frames[(pre.filter fun f => !f.fields.isEmpty).length]? = some fr ∧
        (¬ HasScalar f "time" → fr.col "time" = some (List.replicate points.length (round8 (fieldCount pre * stepsave * dt)))) ∧
        (¬ HasScalar f "x" → fr.col "x" = some (points.map fun p => p.1)) ∧ (¬ HasScalar f "y" → fr.col "y" = some (points.map fun p => p.2.1)) ∧ (¬ HasScalar f "z" → fr.col "z" = some (points.map fun p => p.2.2)) := by
  obtain ⟨f1, st, a1, a2, a3, -⟩ := toDataFrame_ok h
  obtain ⟨b1, b2⟩ := framesFrom_spec points _ _ 0 frames a3
  refine ⟨f1, st, a1, a2, b1, fun pre f post hf hne => ?_⟩
  simpa using b2 pre f post hf hne

/-- **C61 (when the times are right).** For snapshot files that all have point data and no field named `time`, a mesh with points and a nonzero time step: the frame of the `j`-th file carries the time `j*stepsave*dt` for every `j` if and
only if every file but the last has exactly one point field. -/
theorem C61_iff (points : List (ℝ × ℝ × ℝ)) (hpts : points ≠ []) (listing : List VtuFile) (dt : ℝ) (parse : List Char → Except DfErr ℤ) (frames : List Frame) (h : toDataFrame points listing dt parse id = .ok frames)
    (hne : ∀ f ∈ snapshots listing, f.fields ≠ [] ∧ ¬ HasScalar f "time") (st : ℤ) (hst : ∃ f1, (snapshots listing)[1]? = some f1 ∧ parse (stepDigits f1.name) = .ok st) (h0 : (st : ℝ) * dt ≠ 0) :
    (∀ (j : ℕ) (fr : Frame), frames[j]? = some fr → fr.col "time" = some (List.replicate points.length (j * st * dt))) ↔ ∀ j f, j + 1 < (snapshots listing).length → (snapshots listing)[j]? = some f → f.fields.length = 1 := by
  obtain ⟨f1, st', a1, a2, a3, a4⟩ := C61_times points listing dt parse id frames h
  obtain ⟨g1, g2, g3⟩ := hst
  rw [a1] at g2
  injection g2 with g2
  subst g2
  rw [a2] at g3
  injection g3 with g3
  subst g3
  set S := snapshots listing with hS
  have hfilter : ∀ l : List VtuFile, (∀ f ∈ l, f ∈ S) → l.filter (fun f => !f.fields.isEmpty) = l := fun l hl => List.filter_eq_self.mpr fun f hf => by simpa using (hne f (hl f hf)).1
  rw [hfilter S fun _ h => h] at a3
  -- the time of the j-th frame
  have key : ∀ j (hj : j < S.length), ∃ fr, frames[j]? = some fr ∧ fr.col "time" = some (List.replicate points.length (fieldCount (S.take j) * st' * dt)) := by
    intro j hj
    have hsplit : S = S.take j ++ S[j] :: S.drop (j + 1) := by rw [List.getElem_cons_drop, List.take_append_drop]
    obtain ⟨fr, c1, c2, -⟩ := a4 (S.take j) S[j] (S.drop (j + 1)) hsplit (hne _ (List.getElem_mem hj)).1
    rw [hfilter _ fun f hf => List.mem_of_mem_take hf, List.length_take, min_eq_left hj.le] at c1
    exact ⟨fr, c1, c2 (hne _ (List.getElem_mem hj)).2⟩
  have hlen : frames.length = S.length := a3
  have hpos : 0 < points.length := List.length_pos_iff.mpr hpts
  have hcount : (∀ (j : ℕ) (fr : Frame), frames[j]? = some fr → fr.col "time" = some (List.replicate points.length (j * st' * dt))) ↔ ∀ j < S.length, fieldCount (S.take j) = j := by
    constructor
    · intro H j hj
      obtain ⟨fr, c1, c2⟩ := key j hj
      have := H j fr c1
      rw [c2] at this
      injection this with this
      rw [List.replicate_right_inj (by omega)] at this
      rw [mul_assoc, mul_assoc] at this
      exact_mod_cast mul_right_cancel₀ h0 this
    · intro H j fr hfr
      have hj : j < S.length := by
        rw [← hlen]
        exact (List.getElem?_eq_some_iff.mp hfr).1
      obtain ⟨fr', c1, c2⟩ := key j hj
      rw [hfr] at c1
      injection c1 with c1
      rw [c1, c2, H j hj]
  rw [hcount]
  constructor
  · intro H j f hj hf
    have h1 := H (j + 1) hj
    have h2 := H j (by omega)
    obtain ⟨hj', rfl⟩ := List.getElem?_eq_some_iff.mp hf
    rw [← List.take_concat_get' _ _ hj', fieldCount_append, h2] at h1
    simp [fieldCount] at h1
    exact h1
  · intro H j hj
    induction j with
    | zero => simp [fieldCount]
    | succ j ih =>
      have hj' : j < S.length := by omega
      rw [← List.take_concat_get' _ _ hj', fieldCount_append, ih hj']
      simp [fieldCount, H j S[j] hj (List.getElem?_eq_getElem hj')]

/-- **C61 (several fields).** With `k ≥ 1` fields in every file the recorded time of the `j`-th file is `j*k*stepsave*dt`. -/
theorem C61_k (points : List (ℝ × ℝ × ℝ)) (listing : List VtuFile) (dt : ℝ) (parse : List Char → Except DfErr ℤ) (round8 : ℝ → ℝ) (frames : List Frame) (h : toDataFrame points listing dt parse round8 = .ok frames)
    (k : ℕ) (hk : 0 < k) (hf : ∀ f ∈ snapshots listing, f.fields.length = k ∧ ¬ HasScalar f "time") : ∃ f1 st, (snapshots listing)[1]? = some f1 ∧ parse (stepDigits f1.name) = .ok st ∧
    ∀ j < (snapshots listing).length, ∃ fr, frames[j]? = some fr ∧ fr.col "time" = some (List.replicate points.length (round8 ((j * k : ℕ) * st * dt))) := by
  obtain ⟨f1, st, a1, a2, -, a4⟩ := C61_times points listing dt parse round8 frames h
  refine ⟨f1, st, a1, a2, fun j hj => ?_⟩
  set S := snapshots listing with hS
  have hsplit : S = S.take j ++ S[j] :: S.drop (j + 1) := by rw [List.getElem_cons_drop, List.take_append_drop]
  have hnil : ∀ f ∈ S, f.fields ≠ [] := fun f hf' h => by
    have := (hf f hf').1
    rw [h] at this
    simp at this
    omega
  obtain ⟨fr, c1, c2, -⟩ := a4 (S.take j) S[j] (S.drop (j + 1)) hsplit (hnil _ (List.getElem_mem hj))
  have e1 : (S.take j).filter (fun f => !f.fields.isEmpty) = S.take j := List.filter_eq_self.mpr fun f hf' => by simpa using hnil f (List.mem_of_mem_take hf')
  rw [e1, List.length_take, min_eq_left hj.le] at c1
  refine ⟨fr, c1, ?_⟩
  rw [c2 (hf _ (List.getElem_mem hj)).2]
  have e2 : ((S.take j).map fun f => f.fields.length) = List.replicate j k := by
    refine List.eq_replicate_iff.mpr ⟨by simp [hj.le], fun b hb => ?_⟩
    obtain ⟨f, hf', rfl⟩ := List.mem_map.mp hb
    exact (hf f (List.mem_of_mem_take hf')).1
  rw [fieldCount, e2]
  simp

/-- **C61 (too few files).** With fewer than two snapshot files the call raises. -/
theorem C61_few (points : List (ℝ × ℝ × ℝ)) (listing : List VtuFile) (dt : ℝ) (parse : List Char → Except DfErr ℤ) (round8 : ℝ → ℝ) (h : (snapshots listing).length < 2) : toDataFrame points listing dt parse round8 = .error .index := by
  unfold toDataFrame
  have : (snapshots listing)[1]? = none := List.getElem?_eq_none (by omega)
  unfold snapshots at this
  dsimp only
  rw [this]

/-- Two files with two fields each: the second file is recorded at twice its time. -/
def twoFields : List VtuFile :=
  [⟨"u.00000.vtu", [("T", .scalar [300]), ("eta", .multi [2] fun _ => [1])]⟩, ⟨"notes.txt", []⟩, ⟨"u.00010.vtu", [("T", .scalar [400]), ("eta", .multi [2] fun _ => [0])]⟩]

theorem twoFields_ok (dt : ℝ) : toDataFrame [(0, 0, 0)] twoFields dt (fun l => if l = "00010".toList then .ok 10 else .error .value) id =
    .ok [[("x", [0]), ("y", [0]), ("z", [0]), ("time", [((0 : ℕ) : ℝ) * ((10 : ℤ) : ℝ) * dt]), ("T", [300]), ("eta_0", [1]), ("eta_1", [1])],
      [("x", [0]), ("y", [0]), ("z", [0]), ("time", [((2 : ℕ) : ℝ) * ((10 : ℤ) : ℝ) * dt]), ("T", [400]), ("eta_0", [0]), ("eta_1", [0])]] := by
  rfl

end Verif.Misc
