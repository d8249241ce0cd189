import Mathlib.Data.List.Basic
import Mathlib.Logic.Function.Basic

/-!
Model of `hub::multi_thread::Opip<T>`, `/repo/src/multi-thread/ciostream.hpp` lines 12-62: a queue of records, written to a
file by a thread of its own.  An interleaving transition system: the writer thread (lines 16-35), `m` threads that put
records in (`operator<<`, lines 47-53), and the thread that constructs and destroys the object.

* `stop_` is declared after `thread_` (lines 60-61), so the constructor starts the writer before it initialises `stop_`:
  the writer may read the indeterminate value `garbage` (formally undefined behaviour).
* Using the object while its destructor runs is a mistake of the caller and left out: the destructor starts only when no
  `operator<<` is in progress, and none is started afterwards.
* Writing a record to the file is one step; failures of the file are not modelled.
-/

set_option autoImplicit false

namespace SpaceHub.Conc

/-- Where the writer thread is, ciostream.hpp lines 16-35. -/
inductive Writer (T : Type)
  /-- About to take the mutex: line 19, or inside `cv_.wait` (line 20) after it was woken. -/
  | acquire
  /-- Holds the mutex; next evaluates the condition `stop_ || !queue_.empty()` of line 20. -/
  | test
  /-- Holds the mutex; the condition was false; next blocks and releases the mutex, line 20. -/
  | sleep
  /-- Blocked in `cv_.wait`. -/
  | waiting
  /-- Holds the mutex; next evaluates `stop_`, line 22. -/
  | testStop
  /-- Holds the mutex; next takes the front of the queue, lines 24-26. -/
  | pop
  /-- Released the mutex; next writes the record, line 28. -/
  | write (d : T)
  /-- Left the loop (the mutex is released by the destructor of `lock`); writes what is left, lines 31-34. -/
  | drain
  /-- The thread has ended. -/
  | done

/-- A notification: a blocked writer goes on to take the mutex again. -/
def Writer.woken {T : Type} : Writer T → Writer T
  | .waiting => .acquire
  | w => w

/-- Where a thread is in `operator<<`, ciostream.hpp lines 47-53. -/
inductive Producer (T : Type)
  | idle
  /-- About to take the mutex, line 49. -/
  | acquire (d : T)
  /-- Holds the mutex; next appends the record and releases it, lines 50-51. -/
  | push (d : T)
  /-- Next calls `notify_one`, line 52. -/
  | notify

/-- Where the owner of the object is: constructor lines 15-35 and 61, destructor lines 37-45. -/
inductive Owner
  /-- The writer is running, `stop_{false}` (line 61) is still to be done. -/
  | constructing
  /-- Constructed. -/
  | alive
  /-- In the destructor, about to take the mutex, line 39. -/
  | acquire
  /-- Holds the mutex; next sets `stop_` and releases the mutex, lines 40-41. -/
  | setStop
  /-- Next `notify_all`, line 42. -/
  | notify
  /-- Joining, line 44. -/
  | join
  /-- Destroyed. -/
  | done

/-- Who holds the mutex. -/
inductive Holder (m : Nat)
  | writer
  | producer (j : Fin m)
  | owner

structure Opip (T : Type) (m : Nat) where
  writer : Writer T
  producers : Fin m → Producer T
  owner : Owner
  lock : Option (Holder m)
  stop : Bool
  /-- `queue_`, front first. -/
  queue : List T
  /-- The file: the records written. -/
  file : List T
  /-- The records put in, in the order in which they entered the queue (observation only). -/
  accepted : List T

namespace Opip
variable {T : Type} {m : Nat}

/-- The writer has just been started, ciostream.hpp line 16. -/
def init (T : Type) (m : Nat) (garbage : Bool) : Opip T m where
  writer := .acquire
  producers := fun _ => .idle
  owner := .constructing
  lock := none
  stop := garbage
  queue := []
  file := []
  accepted := []

def setP (s : Opip T m) (j : Fin m) (p : Producer T) : Opip T m := { s with producers := Function.update s.producers j p }

/-- What kind of step: a call of `operator<<` or of the destructor (made by the user), a spurious wake-up, or the object
going on by itself. -/
inductive Kind
  | user | spurious | internal

/-- The steps, ciostream.hpp lines 15-61. -/
inductive Step : Kind → Opip T m → Opip T m → Prop
  /-- Line 61. -/
  | construct (s : Opip T m) : s.owner = .constructing → Step .internal s { s with owner := .alive, stop := false }
  /-- Line 19, or the end of `cv_.wait`. -/
  | wLock (s : Opip T m) : s.writer = .acquire → s.lock = none →
      Step .internal s { s with writer := .test, lock := some .writer }
  /-- Line 20. -/
  | wTest (s : Opip T m) : s.writer = .test →
      Step .internal s { s with writer := if s.stop || !s.queue.isEmpty then .testStop else .sleep }
  | wSleep (s : Opip T m) : s.writer = .sleep → Step .internal s { s with writer := .waiting, lock := none }
  | wSpurious (s : Opip T m) : s.writer = .waiting → Step .spurious s { s with writer := .acquire }
  /-- Line 22. -/
  | wBreak (s : Opip T m) : s.writer = .testStop → s.stop = true →
      Step .internal s { s with writer := .drain, lock := none }
  | wGoOn (s : Opip T m) : s.writer = .testStop → s.stop = false → Step .internal s { s with writer := .pop }
  /-- Lines 24-26. -/
  | wPop (s : Opip T m) (d : T) (q : List T) : s.writer = .pop → s.queue = d :: q →
      Step .internal s { s with writer := .write d, queue := q, lock := none }
  /-- Line 28. -/
  | wWrite (s : Opip T m) (d : T) : s.writer = .write d →
      Step .internal s { s with writer := .acquire, file := s.file ++ [d] }
  /-- Lines 31-34. -/
  | wDrain (s : Opip T m) (d : T) (q : List T) : s.writer = .drain → s.queue = d :: q →
      Step .internal s { s with queue := q, file := s.file ++ [d] }
  | wEnd (s : Opip T m) : s.writer = .drain → s.queue = [] → Step .internal s { s with writer := .done }
  /-- `operator<<` is called, line 47. -/
  | pCall (s : Opip T m) (j : Fin m) (d : T) : s.producers j = .idle → s.owner = .alive →
      Step .user s (s.setP j (.acquire d))
  /-- Line 49. -/
  | pLock (s : Opip T m) (j : Fin m) (d : T) : s.producers j = .acquire d → s.lock = none →
      Step .internal s { s.setP j (.push d) with lock := some (.producer j) }
  /-- Lines 50-51. -/
  | pPush (s : Opip T m) (j : Fin m) (d : T) : s.producers j = .push d →
      Step .internal s { s.setP j .notify with lock := none, queue := s.queue ++ [d], accepted := s.accepted ++ [d] }
  /-- Line 52: the writer, if it is blocked, is woken. -/
  | pNotify (s : Opip T m) (j : Fin m) : s.producers j = .notify →
      Step .internal s { s.setP j .idle with writer := s.writer.woken }
  /-- The destructor is called. -/
  | dCall (s : Opip T m) : s.owner = .alive → (∀ j, s.producers j = .idle) →
      Step .user s { s with owner := .acquire }
  /-- Line 39. -/
  | dLock (s : Opip T m) : s.owner = .acquire → s.lock = none →
      Step .internal s { s with owner := .setStop, lock := some .owner }
  /-- Lines 40-41. -/
  | dStop (s : Opip T m) : s.owner = .setStop → Step .internal s { s with owner := .notify, stop := true, lock := none }
  /-- Line 42. -/
  | dNotify (s : Opip T m) : s.owner = .notify →
      Step .internal s { s with owner := .join, writer := s.writer.woken }
  /-- Line 44. -/
  | dJoin (s : Opip T m) : s.owner = .join → s.writer = .done → Step .internal s { s with owner := .done }

/-- `s'` is reached from `s` in `k` steps of the allowed kinds. -/
inductive Run (kinds : Kind → Prop) : Nat → Opip T m → Opip T m → Prop
  | refl (s : Opip T m) : Run kinds 0 s s
  | step {k : Nat} {s s' s'' : Opip T m} {b : Kind} : Run kinds k s s' → kinds b → Step b s' s'' → Run kinds (k + 1) s s''

/-- Reachable from a new object under any schedule, with `stop_` initially holding `garbage`. -/
def Reachable (garbage : Bool) (s : Opip T m) : Prop := ∃ k, Run (fun _ => True) k (init T m garbage) s

end Opip
end SpaceHub.Conc
