import Mathlib.Data.List.Basic
import Mathlib.Logic.Function.Basic

/-!
Model of `hub::multi_thread::ConcurrentFile`, `/repo/src/multi-thread/multi-thread.hpp` lines 111-190, as an interleaving
transition system.

`F` is the state of the underlying `std::fstream` (and of the variables the calls read into).  Every public operation -
`execute` (144-148), `flush` (150-153), `eof` (155-158), `operator<<` (172-177), `operator>>` (179-185) - has the same
form: take the mutex (`std::lock_guard`), do something with the file, release the mutex.  What it does with the file is a
list of actions `F → F`, done one after another, between any two of which other threads may run: for instance the tuple
`operator<<` of lines 161-170 writes each component and each blank with a separate stream operation.

Copies of a `ConcurrentFile` share file and mutex (`std::shared_ptr`, lines 130-131), so the threads `j : Fin m` below may
use the same object or copies of it.  Two objects constructed from the same file name share nothing; they are not
modelled.  Opening the file (134-142) is not modelled.
-/

set_option autoImplicit false

namespace SpaceHub.Conc

/-- Where a thread is in a call of an operation. -/
inductive Caller (F : Type)
  /-- Not inside an operation. -/
  | idle
  /-- About to take the mutex; the actions of the call. -/
  | acquire (todo : List (F → F))
  /-- Holds the mutex; the actions that remain. -/
  | inside (todo : List (F → F))

/-- The shared file with its mutex, used by `m` threads. -/
structure SharedFile (F : Type) (m : Nat) where
  callers : Fin m → Caller F
  /-- Who holds the mutex. -/
  lock : Option (Fin m)
  file : F
  /-- The calls that have taken the mutex, oldest first: who, and which actions (observation only). -/
  history : List (Fin m × List (F → F))

namespace SharedFile
variable {F : Type} {m : Nat}

/-- A new object, multi-thread.hpp lines 134-142. -/
def init (m : Nat) (f : F) : SharedFile F m where
  callers := fun _ => .idle
  lock := none
  file := f
  history := []

def set (s : SharedFile F m) (j : Fin m) (c : Caller F) : SharedFile F m :=
  { s with callers := Function.update s.callers j c }

/-- The steps; multi-thread.hpp lines 144-185.  The flag is true for the start of a new call. -/
inductive Step : Bool → SharedFile F m → SharedFile F m → Prop
  /-- A thread calls an operation. -/
  | call (s : SharedFile F m) (j : Fin m) (op : List (F → F)) : s.callers j = .idle →
      Step true s (s.set j (.acquire op))
  /-- `std::lock_guard`: lines 146, 151, 156, 174, 181. -/
  | lock (s : SharedFile F m) (j : Fin m) (op : List (F → F)) : s.callers j = .acquire op → s.lock = none →
      Step false s { s.set j (.inside op) with lock := some j, history := s.history ++ [(j, op)] }
  /-- One action on the file: lines 147, 152, 157, 175, 182-183. -/
  | act (s : SharedFile F m) (j : Fin m) (a : F → F) (rest : List (F → F)) : s.callers j = .inside (a :: rest) →
      Step false s { s.set j (.inside rest) with file := a s.file }
  /-- The guard is destroyed: lines 148, 153, 158, 177, 185. -/
  | unlock (s : SharedFile F m) (j : Fin m) : s.callers j = .inside [] →
      Step false s { s.set j .idle with lock := none }

/-- `s'` is reached from `s` in `k` steps; `new` tells whether new calls are allowed. -/
inductive Run (new : Bool) : Nat → SharedFile F m → SharedFile F m → Prop
  | refl (s : SharedFile F m) : Run new 0 s s
  | step {k : Nat} {s s' s'' : SharedFile F m} {b : Bool} : Run new k s s' → (b = true → new = true) → Step b s' s'' →
      Run new (k + 1) s s''

/-- Reachable from a new object under any schedule. -/
def Reachable (f : F) (s : SharedFile F m) : Prop := ∃ k, Run true k (init m f) s

end SharedFile

/-- The actions of `operator<<` for text: the pieces are written one after another. -/
def writePieces (pieces : List String) : List (String → String) := pieces.map fun p => fun file => file ++ p

/-- The pieces written by the tuple `operator<<`, multi-thread.hpp lines 161-170: the components (already as text)
separated by blanks.  The template does not accept an empty tuple. -/
def tuplePieces : List String → List String
  | [] => []
  | a :: rest => a :: rest.flatMap fun b => [" ", b]

end SpaceHub.Conc
