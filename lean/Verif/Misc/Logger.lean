import Mathlib.Tactic

/-!
# `setup_logger` (jax_am/logger_setup.py 5-30), C62

The registry of `logging` maps names to logger objects; `getLogger` creates a logger without handlers on first use.
-/
namespace Verif.Misc

inductive Level | notset | debug | error
  deriving DecidableEq, Repr

/-- A logger object. Handlers are identified by a creation number. -/
@[ext] structure Logger where
  level : Level
  handlers : List ℕ
  propagate : Bool
  deriving DecidableEq, Repr

/-- The registry and the number of handlers created so far. -/
structure LogState where
  reg : String → Option Logger
  created : ℕ

/-- A logger as `logging.getLogger` creates it. -/
def freshLogger : Logger := { level := .notset, handlers := [], propagate := true }

/-- `logging.getLogger(name)`: the object with this name, created if absent. -/
def LogState.get (s : LogState) (name : String) : Logger := (s.reg name).getD freshLogger

/-- Store a logger object. -/
def LogState.put (s : LogState) (name : String) (l : Logger) : LogState := { s with reg := Function.update s.reg name (some l) }

/-- `logging.getLogger(name).setLevel(level)`. -/
def LogState.setLevel (s : LogState) (name : String) (level : Level) : LogState := s.put name { s.get name with level := level }

/-- `setup_logger` (logger_setup.py 5-30). The formatter is not modelled; the returned value is the logger named `name`. -/
def setupLogger (s : LogState) (name : String) : LogState :=
  let s1 := s.setLevel name .debug                        -- 6-7
  let s2 := s1.setLevel "tensorflow" .error               -- 10
  let s3 := s2.setLevel "jax" .error                      -- 11
  let handler := s3.created                               -- 14
  let s4 := { s3 with created := s3.created + 1 }
  if (s4.get name).handlers = [] then                     -- 26-28
    s4.put name { s4.get name with handlers := (s4.get name).handlers ++ [handler], propagate := false }
  else s4

/-- How often a record logged to a logger is emitted: `Logger.callHandlers` visits the logger and its ancestors until one does not propagate. -/
def emissions : List Logger → ℕ
  | [] => 0
  | l :: ancestors => l.handlers.length + if l.propagate then emissions ancestors else 0

theorem get_put (s : LogState) (a b : String) (l : Logger) : (s.put a l).get b = if b = a then l else s.get b := by
  unfold LogState.put LogState.get
  by_cases h : b = a
  · subst h; simp
  · simp [Function.update_of_ne h, h]

theorem get_setLevel_handlers (s : LogState) (a b : String) (lv : Level) : ((s.setLevel a lv).get b).handlers = (s.get b).handlers ∧ ((s.setLevel a lv).get b).propagate = (s.get b).propagate := by
  unfold LogState.setLevel
  rw [get_put]
  split
  · rename_i h; subst h; exact ⟨rfl, rfl⟩
  · exact ⟨rfl, rfl⟩

/-- One call: what it does to the handlers of every logger. -/
theorem setup_get (s : LogState) (name b : String) :
    ((setupLogger s name).get b).handlers = (if b = name ∧ (s.get b).handlers = [] then [s.created] else (s.get b).handlers) ∧
    ((setupLogger s name).get b).propagate = (if b = name ∧ (s.get b).handlers = [] then false else (s.get b).propagate) ∧ (setupLogger s name).created = s.created + 1 := by
  set s3 := ((s.setLevel name .debug).setLevel "tensorflow" .error).setLevel "jax" .error with hs3
  have hh : ∀ c, (s3.get c).handlers = (s.get c).handlers ∧ (s3.get c).propagate = (s.get c).propagate := fun c => by
    refine ⟨?_, ?_⟩
    · rw [hs3, (get_setLevel_handlers _ _ _ _).1, (get_setLevel_handlers _ _ _ _).1, (get_setLevel_handlers _ _ _ _).1]
    · rw [hs3, (get_setLevel_handlers _ _ _ _).2, (get_setLevel_handlers _ _ _ _).2, (get_setLevel_handlers _ _ _ _).2]
  have hc : s3.created = s.created := rfl
  have hdef : setupLogger s name = if (s3.get name).handlers = [] then ({ s3 with created := s3.created + 1 } : LogState).put name { s3.get name with handlers := (s3.get name).handlers ++ [s3.created], propagate := false }
      else { s3 with created := s3.created + 1 } := rfl
  rw [hdef]
  by_cases he : (s.get name).handlers = []
  · rw [if_pos ((hh name).1.trans he)]
    have hcr : (({ s3 with created := s3.created + 1 } : LogState).put name { s3.get name with handlers := (s3.get name).handlers ++ [s3.created], propagate := false }).created = s.created + 1 := by
      rw [← hc]; rfl
    rw [get_put]
    by_cases hb : b = name
    · subst hb
      refine ⟨?_, ?_, hcr⟩
      · rw [if_pos rfl, if_pos ⟨rfl, he⟩]
        dsimp only
        rw [(hh b).1, he, hc]
        rfl
      · rw [if_pos rfl, if_pos ⟨rfl, he⟩]
    · rw [if_neg hb, if_neg (fun h => hb h.1), if_neg (fun h => hb h.1)]
      exact ⟨(hh b).1, (hh b).2, hcr⟩
  · rw [if_neg (fun h => he ((hh name).1.symm.trans h))]
    have hn : ¬ (b = name ∧ (s.get b).handlers = []) := by
      rintro ⟨rfl, h⟩
      exact he h
    rw [if_neg hn, if_neg hn]
    exact ⟨(hh b).1, (hh b).2, congrArg (· + 1) hc⟩

/-- **C62 (any sequence of calls).** After any sequence of calls a logger that had handlers before, or that was never named, has the handlers it had; every other logger has exactly one handler, created during these calls, and does not
propagate. -/
theorem C62_calls (names : List String) : ∀ (s : LogState) (b : String),
    let s' := names.foldl setupLogger s
    ((s.get b).handlers ≠ [] ∨ b ∉ names → (s'.get b).handlers = (s.get b).handlers ∧ (s'.get b).propagate = (s.get b).propagate) ∧
    ((s.get b).handlers = [] → b ∈ names → ∃ h, (s'.get b).handlers = [h] ∧ s.created ≤ h ∧ h < s'.created ∧ (s'.get b).propagate = false) ∧ s'.created = s.created + names.length := by
  induction names with
  | nil => intro s b; exact ⟨fun _ => ⟨rfl, rfl⟩, fun _ h => absurd h (by simp), rfl⟩
  | cons name names ih =>
    intro s b
    obtain ⟨e1, e2, e3⟩ := setup_get s name b
    obtain ⟨i1, i2, i3⟩ := ih (setupLogger s name) b
    rw [e3] at i3
    refine ⟨fun h => ?_, fun he hb => ?_, by rw [List.foldl_cons, i3, List.length_cons]; omega⟩
    · have hn : ¬ (b = name ∧ (s.get b).handlers = []) := by
        rintro ⟨rfl, h'⟩
        rcases h with h | h
        · exact h h'
        · exact h (by simp)
      rw [if_neg hn] at e1 e2
      have := i1 (by
        rw [e1]
        rcases h with h | h
        · exact .inl h
        · exact .inr fun h' => h (List.mem_cons_of_mem _ h'))
      rw [e1, e2] at this
      exact this
    · rw [List.foldl_cons]
      by_cases hbn : b = name
      · rw [if_pos ⟨hbn, he⟩] at e1 e2
        have := i1 (.inl (by rw [e1]; simp))
        refine ⟨s.created, this.1.trans e1, le_rfl, by rw [i3]; omega, this.2.trans e2⟩
      · rw [if_neg (fun h => hbn h.1)] at e1 e2
        obtain ⟨h, h1, h2, h3, h4⟩ := i2 (e1.trans he) (by simpa [hbn] using hb)
        rw [e3] at h2
        exact ⟨h, h1, by omega, h3, h4⟩

/-- **C62 (no duplicates).** After any sequence of calls a record logged to a logger that was set up by them is emitted exactly once, whatever its ancestors. -/
theorem C62_once (names : List String) (s : LogState) (b : String) (hb : b ∈ names) (h : (s.get b).handlers = []) (ancestors : List Logger) : emissions ((names.foldl setupLogger s).get b :: ancestors) = 1 := by
  obtain ⟨h, h1, -, -, h4⟩ := (C62_calls names s b).2.1 h hb
  unfold emissions
  rw [h1, h4]
  rfl

/-- One call: the level of every logger. -/
theorem setup_level (s : LogState) (name c : String) : ((setupLogger s name).get c).level = if c = "jax" then .error else if c = "tensorflow" then .error else if c = name then .debug else (s.get c).level := by
  have h3 : ((((s.setLevel name .debug).setLevel "tensorflow" .error).setLevel "jax" .error).get c).level = if c = "jax" then .error else if c = "tensorflow" then .error else if c = name then .debug else (s.get c).level := by
    unfold LogState.setLevel
    rw [get_put]
    split
    · rfl
    · rw [get_put]
      split
      · rfl
      · rw [get_put]
        split
        · rfl
        · rfl
  rw [← h3]
  unfold setupLogger
  dsimp only
  split
  · rw [get_put]
    split
    · rename_i h; subst h; rfl
    · rfl
  · rfl

/-- **C62 (idempotent).** Repeating a call changes no logger. -/
theorem C62_idempotent (s : LogState) (name b : String) : (setupLogger (setupLogger s name) name).get b = (setupLogger s name).get b := by
  have hn : ¬ (b = name ∧ ((setupLogger s name).get b).handlers = []) := by
    rintro ⟨rfl, h⟩
    rw [(setup_get s b b).1] at h
    split at h
    · cases h
    · rename_i h'
      exact h' ⟨rfl, h⟩
  obtain ⟨e1, e2, -⟩ := setup_get (setupLogger s name) name b
  rw [if_neg hn] at e1 e2
  refine Logger.ext ?_ e1 e2
  rw [setup_level, setup_level]
  split
  · rfl
  · split
    · rfl
    · split <;> rfl

/-- **C62 (levels).** The packages `jax` and `tensorflow` are always silenced to errors, also when they are the logger being set up. -/
theorem C62_levels (s : LogState) (name : String) : ((setupLogger s name).get "jax").level = .error ∧ ((setupLogger s name).get "tensorflow").level = .error ∧
    (name ≠ "jax" → name ≠ "tensorflow" → ((setupLogger s name).get name).level = .debug) := by
  refine ⟨?_, ?_, fun h1 h2 => ?_⟩ <;> rw [setup_level]
  · rfl
  · rfl
  · rw [if_neg h1, if_neg h2, if_pos rfl]

/-- The package logger set up three times has one handler. -/
example : ((["jax_am", "jax_am.fem", "jax_am", "jax_am"].foldl setupLogger ⟨fun _ => none, 0⟩).get "jax_am").handlers = [0] := by decide +kernel

/-- A logger with handlers of its own keeps them, and keeps propagating. -/
example : ((["root"].foldl setupLogger ⟨fun n => if n = "root" then some ⟨.notset, [5, 6], true⟩ else none, 7⟩).get "root") = ⟨.debug, [5, 6], true⟩ := by decide +kernel

end Verif.Misc
