import Mathlib.Data.List.Infix
import Mathlib.Tactic

/-!
# `modify_vtu_file` (jax_am/fem/utils.py 28-38), C63
-/
namespace Verif.Misc

/-- The searched header (utils.py 36). -/
def hdrOld : List Char := "<VTKFile type=\"UnstructuredGrid\" version=\"2.2\">".toList

/-- The replacement (utils.py 36). -/
def hdrNew : List Char := "<VTKFile type=\"UnstructuredGrid\" version=\"1.0\">".toList

/-- `line.replace(old, new)` for a non-empty `old`: scan from the left, replace an occurrence and continue behind it (utils.py 36). -/
def pyReplace (old new : List Char) : List Char → List Char
  | [] => []
  | c :: cs => if old <+: c :: cs then new ++ pyReplace old new ((c :: cs).drop (max 1 old.length)) else c :: pyReplace old new cs
  termination_by l => l.length
  decreasing_by
    · simp only [List.length_drop, List.length_cons]; omega
    · simp

/-- Iterating over a text file yields its lines with their line ends (utils.py 35). -/
def pyLines : List Char → List (List Char)
  | [] => []
  | c :: cs =>
    if c = '\n' then ['\n'] :: pyLines cs
    else match pyLines cs with
      | [] => [[c]]
      | l :: ls => (c :: l) :: ls

/-- Universal newlines: reading a text file in mode `"r"` turns `"\r\n"` and `"\r"` into `"\n"` (utils.py 33). -/
def univNewline : List Char → List Char
  | [] => []
  | '\r' :: '\n' :: cs => '\n' :: univNewline cs
  | c :: cs => (if c = '\r' then '\n' else c) :: univNewline cs

/-- A file system: contents by path. -/
abbrev FS := String → Option (List Char)

inductive IoErr | notFound
  deriving DecidableEq, Repr

/-- `modify_vtu_file` (utils.py 28-38): the output is opened for writing, and thereby truncated, before the input is read. Decoding errors and permissions are not modelled. -/
def modifyVtu (fs : FS) (inp out : String) : Except IoErr FS :=
  match fs inp with
  | none => .error .notFound
  | some _ =>
    let fs1 := Function.update fs out (some [])
    let text := univNewline ((fs1 inp).getD [])
    .ok (Function.update fs1 out (some ((pyLines text).map (pyReplace hdrOld hdrNew)).flatten))

/-! ## Lemmas on replacement -/

section
variable {old new : List Char}

theorem pyReplace_nil : pyReplace old new [] = [] := by unfold pyReplace; rfl

theorem pyReplace_pos {c : Char} {cs : List Char} (h : old <+: c :: cs) (h0 : old ≠ []) : pyReplace old new (c :: cs) = new ++ pyReplace old new ((c :: cs).drop old.length) := by
  rw [pyReplace, if_pos h]
  have : 0 < old.length := List.length_pos_iff.mpr h0
  rw [max_eq_right (by omega)]

theorem pyReplace_neg {c : Char} {cs : List Char} (h : ¬ old <+: c :: cs) : pyReplace old new (c :: cs) = c :: pyReplace old new cs := by
  rw [pyReplace, if_neg h]

/-- Induction along the scan. -/
theorem scan_induction (h0 : old ≠ []) {P : List Char → Prop} (nil : P []) (pos : ∀ l, old <+: l → P (l.drop old.length) → P l) (neg : ∀ c cs, ¬ old <+: c :: cs → P cs → P (c :: cs)) : ∀ l, P l := by
  intro l
  induction hn : l.length using Nat.strong_induction_on generalizing l with
  | _ n ih =>
    cases l with
    | nil => exact nil
    | cons c cs =>
      by_cases h : old <+: c :: cs
      · refine pos _ h (ih _ ?_ _ rfl)
        have : 0 < old.length := List.length_pos_iff.mpr h0
        rw [← hn, List.length_drop, List.length_cons]
        omega
      · exact neg c cs h (ih _ (by rw [← hn]; simp) cs rfl)

theorem pyReplace_prefix (h0 : old ≠ []) {l : List Char} (h : old <+: l) : pyReplace old new l = new ++ pyReplace old new (l.drop old.length) := by
  cases l with
  | nil => exact absurd (List.prefix_nil.mp h) h0
  | cons c cs => exact pyReplace_pos h h0

theorem prefix_drop {l : List Char} (h : old <+: l) : l = old ++ l.drop old.length := by
  obtain ⟨t, rfl⟩ := h
  simp

/-- The text is cut at the occurrences; what is between them is kept. -/
theorem pyReplace_pieces (h0 : old ≠ []) : ∀ l, ∃ head : List Char, ∃ tails : List (List Char), l = head ++ (tails.map fun t => old ++ t).flatten ∧ pyReplace old new l = head ++ (tails.map fun t => new ++ t).flatten := by
  refine scan_induction h0 ⟨[], [], rfl, pyReplace_nil⟩ (fun l h ⟨head, tails, e1, e2⟩ => ?_) (fun c cs h ⟨head, tails, e1, e2⟩ => ?_)
  · refine ⟨[], head :: tails, ?_, ?_⟩
    · conv_lhs => rw [prefix_drop h, e1]
      simp
    · rw [pyReplace_prefix h0 h, e2]
      simp
  · refine ⟨c :: head, tails, by rw [e1]; rfl, ?_⟩
    rw [pyReplace_neg h, e2]
    rfl

theorem pyReplace_count (h0 : old ≠ []) (ch : Char) (hc : old.count ch = new.count ch) (l : List Char) : (pyReplace old new l).count ch = l.count ch := by
  obtain ⟨head, tails, e1, e2⟩ := pyReplace_pieces (new := new) h0 l
  rw [e2, e1, List.count_append, List.count_append]
  congr 1
  clear e1 e2
  induction tails with
  | nil => rfl
  | cons t ts ih =>
    simp only [List.map_cons, List.flatten_cons, List.count_append] at ih ⊢
    omega

theorem pyReplace_length (h0 : old ≠ []) (hc : old.length = new.length) (l : List Char) : (pyReplace old new l).length = l.length := by
  obtain ⟨head, tails, e1, e2⟩ := pyReplace_pieces (new := new) h0 l
  rw [e2, e1, List.length_append, List.length_append]
  congr 1
  clear e1 e2
  induction tails with
  | nil => rfl
  | cons t ts ih =>
    simp only [List.map_cons, List.flatten_cons, List.length_append] at ih ⊢
    omega

/-- Without an occurrence nothing changes. -/
theorem pyReplace_none (l : List Char) (h : ¬ old <:+: l) : pyReplace old new l = l := by
  induction l with
  | nil => exact pyReplace_nil
  | cons c cs ih =>
    rw [List.infix_cons_iff, not_or] at h
    rw [pyReplace_neg h.1, ih h.2]

/-- Conversely, if the replacement differs at the occurrence the text changes. -/
theorem pyReplace_inj (h0 : old ≠ []) (hl : old.length = new.length) (hne : old ≠ new) (l : List Char) (h : pyReplace old new l = l) : ¬ old <:+: l := by
  induction l with
  | nil => exact fun hi => h0 (List.infix_nil.mp hi)
  | cons c cs ih =>
    by_cases hp : old <+: c :: cs
    · rw [pyReplace_pos hp h0] at h
      exfalso
      apply hne
      obtain ⟨t, ht⟩ := hp
      rw [← ht] at h
      exact (List.append_inj_left h hl.symm).symm
    · rw [pyReplace_neg hp] at h
      injection h with _ h
      rw [List.infix_cons_iff, not_or]
      exact ⟨hp, ih h⟩

section mark
variable {m : Char} {old' new' : List Char} (ho : m ∉ old') (hn : m ∉ new') (hlen : (m :: old').length = (m :: new').length) (hne : m :: old' ≠ m :: new')
include ho hn hlen hne

omit ho hn hlen hne in
theorem mark_prefix (q : List Char) (hq : m ∉ q) : ∀ l, q <+: pyReplace (m :: old') (m :: new') l → q <+: l := by
  induction q with
  | nil => exact fun l _ => List.nil_prefix
  | cons a q ih =>
    intro l h
    rw [List.mem_cons, not_or] at hq
    cases l with
    | nil => rw [pyReplace_nil] at h; exact h
    | cons c cs =>
      by_cases hp : m :: old' <+: c :: cs
      · rw [pyReplace_pos hp (by simp), List.cons_append, List.cons_prefix_cons] at h
        exact absurd h.1.symm hq.1
      · rw [pyReplace_neg hp, List.cons_prefix_cons] at h
        exact List.cons_prefix_cons.mpr ⟨h.1, ih hq.2 cs h.2⟩

omit hn in
theorem mark_not_prefix (l : List Char) : ¬ m :: old' <+: pyReplace (m :: old') (m :: new') l := by
  intro h
  cases l with
  | nil =>
    rw [pyReplace_nil] at h
    cases List.prefix_nil.mp h
  | cons c cs =>
    by_cases hp : m :: old' <+: c :: cs
    · rw [pyReplace_pos hp (by simp)] at h
      obtain ⟨t, ht⟩ := h
      exact hne (List.append_inj_left ht hlen)
    · rw [pyReplace_neg hp, List.cons_prefix_cons] at h
      exact hp (List.cons_prefix_cons.mpr ⟨h.1, mark_prefix old' ho cs h.2⟩)

omit ho hn hlen hne in
theorem mark_skip (q rest : List Char) (hq : m ∉ q) (h : m :: old' <:+: q ++ rest) : m :: old' <:+: rest := by
  induction q with
  | nil => exact h
  | cons a q ih =>
    rw [List.mem_cons, not_or] at hq
    rw [List.cons_append, List.infix_cons_iff] at h
    rcases h with h | h
    · exact absurd (List.cons_prefix_cons.mp h).1 hq.1
    · exact ih hq.2 h

/-- If the first character of both texts occurs nowhere else in them, the result contains no occurrence. -/
theorem mark_not_infix : ∀ l, ¬ m :: old' <:+: pyReplace (m :: old') (m :: new') l := by
  refine scan_induction (old := m :: old') (by simp) ?_ (fun l hp ih => ?_) (fun c cs hp ih => ?_)
  · rw [pyReplace_nil]
    intro h
    cases List.infix_nil.mp h
  · have hp0 := mark_not_prefix (m := m) (old' := old') (new' := new') ho hlen hne l
    rw [pyReplace_prefix (by simp) hp] at hp0 ⊢
    rw [List.cons_append] at hp0 ⊢
    rw [List.infix_cons_iff, not_or]
    refine ⟨hp0, ?_⟩
    exact fun h => ih (mark_skip new' _ hn h)
  · rw [pyReplace_neg hp, List.infix_cons_iff, not_or]
    refine ⟨?_, ih⟩
    have := mark_not_prefix (m := m) (old' := old') (new' := new') ho hlen hne (c :: cs)
    rwa [pyReplace_neg hp] at this

end mark

theorem prefix_append_sep {x : Char} (hx : x ∉ old) (a b : List Char) (h : old <+: a ++ x :: b) : old <+: a := by
  rcases List.prefix_or_prefix_of_prefix h (List.prefix_append a (x :: b)) with h1 | ⟨q, rfl⟩
  · exact h1
  · rw [List.prefix_append_right_inj] at h
    cases q with
    | nil => simp
    | cons y q =>
      rw [List.cons_prefix_cons] at h
      exact absurd (by simp [h.1]) hx

theorem pyReplace_sep (h0 : old ≠ []) {x : Char} (hx : x ∉ old) (b : List Char) : ∀ a, pyReplace old new (a ++ x :: b) = pyReplace old new a ++ x :: pyReplace old new b := by
  refine scan_induction h0 ?_ (fun a h ih => ?_) (fun c cs h ih => ?_)
  · rw [List.nil_append, pyReplace_nil, List.nil_append, pyReplace_neg]
    intro h
    exact h0 (List.prefix_nil.mp (prefix_append_sep hx [] b h))
  · rw [pyReplace_prefix h0 (h.trans (List.prefix_append _ _)), pyReplace_prefix h0 h, List.append_assoc, ← ih, List.drop_append_of_le_length h.length_le]
  · rw [List.cons_append, pyReplace_neg (cs := cs ++ x :: b) (fun h' => h (prefix_append_sep hx (c :: cs) b h')), pyReplace_neg h, ih]
    rfl

theorem pyLines_sep (b : List Char) : ∀ a : List Char, '\n' ∉ a → pyLines (a ++ '\n' :: b) = (a ++ ['\n']) :: pyLines b := by
  intro a
  induction a with
  | nil => intro _; simp [pyLines]
  | cons c cs ih =>
    intro h
    rw [List.mem_cons, not_or] at h
    rw [List.cons_append, pyLines, if_neg (fun e => h.1 e.symm), ih h.2]
    rfl

theorem pyLines_last : ∀ a : List Char, '\n' ∉ a → a ≠ [] → pyLines a = [a] := by
  intro a
  induction a with
  | nil => intro _ h; exact absurd rfl h
  | cons c cs ih =>
    intro h _
    rw [List.mem_cons, not_or] at h
    rw [pyLines, if_neg (fun e => h.1 e.symm)]
    cases cs with
    | nil => rfl
    | cons d ds => rw [ih h.2 (by simp)]

/-- Induction over lines. -/
theorem line_induction {P : List Char → Prop} (last : ∀ a, '\n' ∉ a → P a) (line : ∀ a b, '\n' ∉ a → P b → P (a ++ '\n' :: b)) : ∀ l, P l := by
  intro l
  induction hn : l.length using Nat.strong_induction_on generalizing l with
  | _ n ih =>
    by_cases h : '\n' ∈ l
    · obtain ⟨a, b, hl, ha⟩ := List.eq_append_cons_of_mem h
      subst hl
      refine line a b ha (ih _ ?_ b rfl)
      rw [← hn]
      simp
      omega
    · exact last l h

/-- Replacing line by line is replacing in the whole text. -/
theorem replace_lines (h0 : old ≠ []) (hx : '\n' ∉ old) : ∀ l, ((pyLines l).map (pyReplace old new)).flatten = pyReplace old new l := by
  refine line_induction (fun a ha => ?_) (fun a b ha ih => ?_)
  · by_cases h : a = []
    · subst h
      rw [pyReplace_nil]
      rfl
    · rw [pyLines_last a ha h]
      simp
  · rw [pyLines_sep b a ha, List.map_cons, List.flatten_cons, ih, pyReplace_sep h0 hx, pyReplace_sep h0 hx, pyReplace_nil]
    simp

end

/-! ## C63 -/

theorem hdr_facts : hdrOld ≠ [] ∧ '\n' ∉ hdrOld ∧ '\n' ∉ hdrNew ∧ '\r' ∉ hdrNew ∧ hdrOld.length = hdrNew.length ∧ hdrOld ≠ hdrNew := by decide +kernel

/-- **C63 (text).** When input and output are different files, the call succeeds exactly when the input exists; no other file changes, and the new content is obtained from the input (after newline translation) by exchanging every one of the
occurrences of the old header: it is the input cut at those occurrences and glued with the new header; no occurrence is left; length and number of line ends are unchanged. -/
theorem C63_text (fs : FS) (inp out : String) (hio : inp ≠ out) (text : List Char) (ht : fs inp = some text) :
    ∃ fs', modifyVtu fs inp out = .ok fs' ∧ (∀ f, f ≠ out → fs' f = fs f) ∧
      ∃ res, fs' out = some res ∧
        (∃ (head : List Char) (tails : List (List Char)), univNewline text = head ++ (tails.map fun t => hdrOld ++ t).flatten ∧ res = head ++ (tails.map fun t => hdrNew ++ t).flatten) ∧
        ¬ hdrOld <:+: res ∧ res.length = (univNewline text).length ∧ res.count '\n' = (univNewline text).count '\n' ∧ ((hdrOld <:+: univNewline text) ↔ res ≠ univNewline text) := by
  obtain ⟨f1, f2, f3, -, f4, f5⟩ := hdr_facts
  unfold modifyVtu
  rw [ht]
  refine ⟨_, rfl, fun f hf => ?_, pyReplace hdrOld hdrNew (univNewline text), ?_, pyReplace_pieces f1 _, ?_, pyReplace_length f1 f4 _, ?_, ?_⟩
  · rw [Function.update_of_ne hf, Function.update_of_ne hf]
  · rw [Function.update_self, Function.update_of_ne hio, ht, Option.getD_some, replace_lines f1 f2]
  · exact mark_not_infix (m := '<') (old' := hdrOld.tail) (new' := hdrNew.tail) (by decide +kernel) (by decide +kernel) (by decide +kernel) (by decide +kernel) _
  · exact pyReplace_count f1 _ (by rw [List.count_eq_zero_of_not_mem f2, List.count_eq_zero_of_not_mem f3]) _
  · constructor
    · exact fun h e => pyReplace_inj f1 f4 f5 _ e h
    · intro h
      by_contra hn
      exact h (pyReplace_none _ hn)

theorem univ_no_cr : ∀ l, '\r' ∉ univNewline l := by
  intro l
  induction hn : l.length using Nat.strong_induction_on generalizing l with
  | _ n ih =>
    match l with
    | [] => simp [univNewline]
    | [c] =>
      by_cases h : c = '\r' <;> simp [univNewline, h]
      exact fun e => h e.symm
    | c :: d :: cs =>
      by_cases h : c = '\r' ∧ d = '\n'
      · obtain ⟨rfl, rfl⟩ := h
        have := ih cs.length (by rw [← hn]; simp) cs rfl
        simpa [univNewline] using this
      · have := ih (d :: cs).length (by rw [← hn]; simp) (d :: cs) rfl
        rw [univNewline]
        · by_cases hc : c = '\r'
          · simpa [hc] using this
          · simp only [if_neg hc, List.mem_cons, not_or]
            exact ⟨fun e => hc e.symm, this⟩
        · rintro cs' rfl he
          injection he with h1 h2
          exact h ⟨rfl, h1⟩

theorem univ_id : ∀ l : List Char, '\r' ∉ l → univNewline l = l := by
  intro l
  induction l with
  | nil => intro _; rfl
  | cons c cs ih =>
    intro h
    rw [List.mem_cons, not_or] at h
    rw [univNewline]
    · rw [if_neg (fun e => h.1 e.symm), ih h.2]
    · rintro cs' rfl
      exact absurd rfl h.1

/-- **C63 (idempotent).** Converting the converted file again gives the same content. -/
theorem C63_idempotent (fs fs' : FS) (inp out out' : String) (hio : inp ≠ out) (hoo : out ≠ out') (h : modifyVtu fs inp out = .ok fs') :
    ∃ fs'' res, modifyVtu fs' out out' = .ok fs'' ∧ fs' out = some res ∧ fs'' out = some res ∧ fs'' out' = some res := by
  obtain ⟨f1, f2, f3, f6, f4, f5⟩ := hdr_facts
  cases ht : fs inp with
  | none => unfold modifyVtu at h; rw [ht] at h; cases h
  | some text =>
    have e : fs' out = some (pyReplace hdrOld hdrNew (univNewline text)) := by
      unfold modifyVtu at h
      rw [ht] at h
      injection h with h
      rw [← h, Function.update_self, Function.update_of_ne hio, ht, Option.getD_some, replace_lines f1 f2]
    have hcr : '\r' ∉ pyReplace hdrOld hdrNew (univNewline text) := by
      rw [← List.count_eq_zero, pyReplace_count f1 _ (by decide +kernel), List.count_eq_zero]
      exact univ_no_cr text
    have hno : ¬ hdrOld <:+: pyReplace hdrOld hdrNew (univNewline text) :=
      mark_not_infix (m := '<') (old' := hdrOld.tail) (new' := hdrNew.tail) (by decide +kernel) (by decide +kernel) (by decide +kernel) (by decide +kernel) _
    unfold modifyVtu
    rw [e]
    refine ⟨_, _, rfl, rfl, ?_, ?_⟩
    · rw [Function.update_of_ne hoo, Function.update_of_ne hoo, e]
    · rw [Function.update_self, Function.update_of_ne hoo, e, Option.getD_some, univ_id _ hcr, replace_lines f1 f2, pyReplace_none _ hno]

/-- **C63 (missing input).** Without the input file the call raises. -/
theorem C63_missing (fs : FS) (inp out : String) (h : fs inp = none) : modifyVtu fs inp out = .error .notFound := by
  unfold modifyVtu
  rw [h]

/-- **C63 (in place).** If input and output are the same file its content is lost: the file is truncated before it is read. -/
theorem C63_in_place (fs : FS) (f : String) (text : List Char) (h : fs f = some text) : ∃ fs', modifyVtu fs f f = .ok fs' ∧ fs' f = some [] := by
  unfold modifyVtu
  rw [h]
  refine ⟨_, rfl, ?_⟩
  simp [univNewline, pyLines]

/-- A two-line file: only the header changes. -/
example : ∃ fs', modifyVtu (fun f => if f = "a" then some (hdrOld ++ "\n<x>".toList) else none) "a" "b" = .ok fs' ∧ fs' "b" = some (hdrNew ++ "\n<x>".toList) := by
  refine ⟨_, rfl, ?_⟩
  rw [Function.update_self]
  have h : univNewline (((Function.update (fun f : String => if f = "a" then some (hdrOld ++ "\n<x>".toList) else none) "b" (some []) : FS) "a").getD []) = hdrOld ++ "\n<x>".toList := by decide +kernel
  rw [h, replace_lines (by decide +kernel) (by decide +kernel), pyReplace_prefix (by decide +kernel) (List.prefix_append _ _), List.drop_left, pyReplace_none _ (by decide +kernel)]

/-- A carriage return is not preserved. -/
example : univNewline "a\r\nb".toList = "a\nb".toList := by decide +kernel

end Verif.Misc
