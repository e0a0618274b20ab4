import Mathlib.Tactic.FinCases
import Mathlib.Tactic.FieldSimp
import Mathlib.Tactic.NormNum
import Mathlib.Tactic.Ring
import Mathlib.Tactic.Linarith
import Mathlib.Tactic.Positivity
import Mathlib.Tactic.IntervalCases
import Mathlib.Tactic.Push
import Mathlib.Tactic.Abel
import Mathlib.Tactic.LinearCombination
import Mathlib.Tactic.Tauto
import Mathlib.Tactic.Choose
import Mathlib.Tactic.SplitIfs
import Mathlib.Tactic.NoncommRing
import Mathlib.Tactic.GCongr
import Mathlib.Tactic.Module

/-! Common tactic imports (no definitions). -/
