import Verif.Model.Particles
import Mathlib.Data.List.TakeWhile
import Mathlib.Data.Real.Basic

/-
Model of src/tools/config-reader.hpp (`ConfigReader`, `read_command_line`) and src/tools/timer.hpp (`Timer`).

Text is a list of characters of the ASCII range (`isspace` of a negative `char` is undefined in C).
-/

set_option autoImplicit false

namespace SpaceHub.Tools
open SpaceHub.Ptc (isSpace)

/-! ### ConfigReader -/

/-- `std::getline(file, line)`: fails if no character is left; otherwise the characters before the next newline, which is
removed. -/
def getline (text : List Char) : Option (List Char × List Char) :=
  match text with
  | [] => none
  | _ => some (text.takeWhile (· ≠ '\n'), (text.dropWhile (· ≠ '\n')).drop 1)

/-- `std::unordered_map<std::string, std::string>`. -/
abbrev Map := List Char → Option (List Char)

/-- body of the loop of the constructor, config-reader.hpp:73-80.  `line[0]` of an empty line is `'\0'`, and an empty
line is skipped anyway; `find` gives `npos` if the divider does not occur, `substr(0, npos)` is the whole line and
`substr(npos + 1)` is `substr(0)`. -/
def addLine (divider commenter : Char) (m : Map) (line : List Char) : Map :=
  let line := line.filter (fun c => !isSpace c)
  if line.head? = some commenter ∨ line = [] then m
  else
    let split := line.findIdx? (· = divider)
    let key := match split with
      | some k => line.take k
      | none => line
    let val := match split with
      | some k => line.drop (k + 1)
      | none => line
    fun k => if k = key then some val else m k

set_option linter.unusedVariables false in
/-- `while (std::getline(file, line))`, config-reader.hpp:72-81. -/
def readLines (divider commenter : Char) (text : List Char) (m : Map) : Map :=
  match h : getline text with
  | none => m
  | some (line, rest) => readLines divider commenter rest (addLine divider commenter m line)
termination_by text.length
decreasing_by
  unfold getline at h
  split at h
  · cases h
  · rename_i hne
    simp only [Option.some.injEq, Prod.mk.injEq] at h
    rw [← h.2, List.length_drop]
    have h1 : (text.dropWhile (· ≠ '\n')).length ≤ text.length := List.length_dropWhile_le _ _
    have h2 : 0 < text.length := List.length_pos_iff.2 (fun hh => hne hh)
    omega

/-- constructor, config-reader.hpp:68-85; `none`: the file cannot be opened. -/
def construct (divider commenter : Char) (file : Option (List Char)) : Res Map :=
  match file with
  | some text => .ok (readLines divider commenter text (fun _ => none))
  | none => .abort

/-- A type `T` that can be read by `ss >> value`: the value of a default-initialised variable (`none`: indeterminate, as
for `int` and `double`) and what is extracted from a non-empty text without white space. -/
structure Readable (T : Type) where
  init : Option T
  parse : List Char → T

/-- `get<T>(key)`, config-reader.hpp:90-101: at the end of the stream `ss >> value` does not change `value`. -/
def get {T : Type} (r : Readable T) (m : Map) (key : List Char) : Res T :=
  match m key with
  | some [] =>
    match r.init with
    | some d => .ok d
    | none => .ub
  | some (c :: cs) => .ok (r.parse (c :: cs))
  | none => .abort

/-! ### command line -/

/-- `is >> opt_` for a string variable that holds `old`: skips white space, reads up to the next white space; nothing
left: the string is not changed (`operator>>` of std::string only erases it after the sentry succeeded). -/
def nextWord (text : List Char) (old : List Char) : List Char × List Char :=
  match text.dropWhile isSpace with
  | [] => (old, [])
  | t => (t.takeWhile (fun c => !isSpace c), t.dropWhile (fun c => !isSpace c))

/-- `((ss >> args), ...)`, config-reader.hpp:114, for `n` variables that start as empty strings. -/
def extractWords : Nat → List Char → List (List Char)
  | 0, _ => []
  | n + 1, text => (nextWord text []).1 :: extractWords n (nextWord text []).2

/-- `read_command_line`, config-reader.hpp:103-116, for `n` variables of type `OptArg`; `argv` without the program name
(`argc = argv.length + 1`). -/
def readCommandLine (n : Nat) (argv : List (List Char)) : Res (List (List Char)) :=
  if argv.length + 1 ≠ n + 1 then .abort
  else .ok (extractWords n (argv.foldl (fun ss a => ss ++ a ++ [' ']) []))

/-! ### Timer -/

/-- `Timer`, timer.hpp:36-65 (seconds). -/
structure Timer where
  start : ℝ
  duration : ℝ
  active : Bool

/-- a new timer (`start_` is the epoch), timer.hpp:62-64 -/
def Timer.new : Timer := ⟨0, 0, false⟩
/-- `start`, timer.hpp:69-72; `now` is the reading of the steady clock. -/
def Timer.begin (s : Timer) (now : ℝ) : Timer := { s with active := true, start := now }
/-- `get_time`, timer.hpp:74-82: in seconds. -/
noncomputable def Timer.get (s : Timer) (now : ℝ) : ℝ := if s.active then s.duration + (now - s.start) else s.duration
/-- `pause`, timer.hpp:84-87. -/
noncomputable def Timer.pause (s : Timer) (now : ℝ) : Timer := { s with duration := s.get now, active := false }
/-- `reset`, timer.hpp:89-92. -/
def Timer.reset (s : Timer) : Timer := { s with active := false, duration := 0 }

end SpaceHub.Tools
