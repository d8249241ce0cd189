import Verif.Model.Tools

/-
What a configuration file, a command line and a stopwatch mean, without reference to the code.
-/

set_option autoImplicit false

namespace SpaceHub.Spec.Tools
open SpaceHub.Ptc (isSpace)

/-- `text` consists of these lines: each is ended by a newline, except possibly a non-empty last one. -/
def IsLines (text : List Char) (lines : List (List Char)) : Prop :=
  (∀ l ∈ lines, '\n' ∉ l) ∧
  (text = (lines.map (· ++ ['\n'])).flatten ∨
    ∃ ls l, lines = ls ++ [l] ∧ l ≠ [] ∧ text = (ls.map (· ++ ['\n'])).flatten ++ l)

/-- A line without its white space. -/
def squeeze (line : List Char) : List Char := line.filter (fun c => !isSpace c)

/-- The line is blank or a comment. -/
def Ignored (commenter : Char) (line : List Char) : Prop :=
  squeeze line = [] ∨ ∃ rest, squeeze line = commenter :: rest

/-- The line reads `key divider value` (up to white space), with the divider not part of the key. -/
def Assigns (divider commenter : Char) (line key val : List Char) : Prop :=
  ¬ Ignored commenter line ∧ squeeze line = key ++ divider :: val ∧ divider ∉ key

/-- The line has no divider. -/
def Bare (divider commenter : Char) (line : List Char) : Prop :=
  ¬ Ignored commenter line ∧ divider ∉ squeeze line

/-- The line sets the key: it assigns the value to it, or it has no divider, in which case the whole line serves as the
key and as the value. -/
def Sets (divider commenter : Char) (line key val : List Char) : Prop :=
  Assigns divider commenter line key val ∨ (Bare divider commenter line ∧ key = squeeze line ∧ val = squeeze line)

/-- The value a sequence of lines gives to a key: that of the last line that sets it. -/
def LastSets (divider commenter : Char) (lines : List (List Char)) (key val : List Char) : Prop :=
  ∃ before line after, lines = before ++ line :: after ∧ Sets divider commenter line key val ∧
    ∀ l ∈ after, ¬ ∃ v, Sets divider commenter l key v

/-- What the user does with a timer, and when. -/
inductive TimerEvent
  | start (t : ℝ)
  | pause (t : ℝ)
  | reset (t : ℝ)

/-- The stopwatch: is it running, when was it looked at last, how long has it been running since the last reset? -/
structure Watch where
  on : Bool
  last : ℝ
  total : ℝ

/-- Time passes up to `t`. -/
noncomputable def Watch.pass (w : Watch) (t : ℝ) : Watch :=
  { w with last := t, total := if w.on then w.total + (t - w.last) else w.total }

/-- One event. -/
noncomputable def Watch.step (w : Watch) : TimerEvent → Watch
  | .start t => { w.pass t with on := true }
  | .pause t => { w.pass t with on := false }
  | .reset t => { w.pass t with on := false, total := 0 }

/-- No `start` while the watch is running. -/
def Alternating : Bool → List TimerEvent → Prop
  | _, [] => True
  | on, .start _ :: es => on = false ∧ Alternating true es
  | _, .pause _ :: es => Alternating false es
  | _, .reset _ :: es => Alternating false es

end SpaceHub.Spec.Tools
