import Mathlib.Data.List.Basic
import Mathlib.Logic.Function.Basic
import Verif.Model.Opip

/-!
Model of `hub::multi_thread::Ipip<T>`, `/repo/src/multi-thread/ciostream.hpp` lines 64-127: a file read ahead by a thread of
its own, at most 100 records at a time.  An interleaving transition system: the loader thread (lines 68-90), `m` threads
that take records out (`operator>>`, lines 104-116), and the thread that constructs and destroys the object.

The file is a list of well-formed records and a flag that says whether any characters follow the last record (the newline
at the end of a text file).  Reading a record behaves as `std::istream`: taking the last record reaches the end of the file
(sets `eofbit`) only if nothing follows it; a read with no record left fails, sets `eofbit` and leaves the freshly declared
variable `T data` as it was, which is written `junk` here.  Malformed records are not modelled.

As in `Opip`, `stop_` and `eoq_` (lines 125-126) are initialised after the loader was started, and may be read before that.
Using the object while its destructor runs is left out.
-/

set_option autoImplicit false

namespace SpaceHub.Conc

/-- Where the loader is, ciostream.hpp lines 68-90. -/
inductive Loader
  /-- Next evaluates `!file_.eof()`, line 69. -/
  | testEof
  /-- About to take the mutex, line 71, or woken inside `cv_load_.wait`, line 72. -/
  | acquire
  /-- Holds the mutex; next evaluates `stop_ || queue_.empty()`, line 72. -/
  | test
  /-- Holds the mutex; the condition was false; next blocks. -/
  | sleep
  | waiting
  /-- Holds the mutex; next evaluates `stop_`, line 74. -/
  | testStop
  /-- Holds the mutex; in the loop of lines 76-80 after `i` records. -/
  | load (i : Nat)
  /-- Released the mutex; next `cv_io_.notify_all()`, line 82. -/
  | notifyIo
  /-- Left the loop; about to take the mutex, line 86. -/
  | lastLock
  /-- Holds the mutex; next sets `eoq_` and releases it, lines 87-88. -/
  | setEoq
  /-- Next `cv_io_.notify_all()`, line 89. -/
  | lastNotify
  | done

/-- Where a thread is in `operator>>`, ciostream.hpp lines 104-116. -/
inductive Consumer
  | idle
  /-- About to take the mutex, line 105, or woken inside `cv_io_.wait`, line 106. -/
  | acquire
  /-- Holds the mutex; next evaluates `eoq_ || !queue_.empty()`, line 106. -/
  | test
  | sleep
  | waiting
  /-- Holds the mutex; next does lines 108-115. -/
  | take

/-- Where the owner is: constructor lines 67-68 and 125-126, destructor lines 92-102. -/
inductive IOwner
  | constructing
  | alive
  /-- About to take the mutex, line 94. -/
  | acquire
  /-- Holds the mutex; next sets `stop_` and `eoq_`, lines 95-97. -/
  | setStop
  /-- Next `cv_io_.notify_all()`, line 98. -/
  | notifyIo
  /-- Next `cv_load_.notify_one()`, line 99. -/
  | notifyLoad
  /-- Joining, line 101. -/
  | join
  | done

structure Ipip (T : Type) (m : Nat) where
  loader : Loader
  consumers : Fin m → Consumer
  owner : IOwner
  lock : Option (Holder m)
  stop : Bool
  eoq : Bool
  queue : List T
  /-- Records not yet read from the file. -/
  rest : List T
  /-- Whether characters follow the last record. -/
  tail : Bool
  /-- `file_.eof()`. -/
  eof : Bool
  /-- What the calls of `operator>>` returned, in order: a record, or `none` for `false` (observation only). -/
  results : List (Fin m × Option T)

namespace Ipip
variable {T : Type} {m : Nat}

/-- The loader has just been started, ciostream.hpp line 68. -/
def init (m : Nat) (records : List T) (tail stop eoq : Bool) : Ipip T m where
  loader := .testEof
  consumers := fun _ => .idle
  owner := .constructing
  lock := none
  stop := stop
  eoq := eoq
  queue := []
  rest := records
  tail := tail
  eof := false
  results := []

def setC (s : Ipip T m) (j : Fin m) (c : Consumer) : Ipip T m := { s with consumers := Function.update s.consumers j c }

/-- A notification on `cv_io_`. -/
def _root_.SpaceHub.Conc.Consumer.woken : Consumer → Consumer
  | .waiting => .acquire
  | c => c

/-- A notification on `cv_load_`. -/
def _root_.SpaceHub.Conc.Loader.woken : Loader → Loader
  | .waiting => .acquire
  | l => l

/-- `T data; file_ >> data; queue_.emplace(std::move(data));`, ciostream.hpp lines 77-79. -/
def readOne (junk : T) (s : Ipip T m) : Ipip T m :=
  match s.rest with
  | x :: xs => { s with queue := s.queue ++ [x], rest := xs, eof := xs.isEmpty && !s.tail }
  | [] => { s with queue := s.queue ++ [junk], eof := true }

/-- The steps, ciostream.hpp lines 67-126; `junk` is the content of an uninitialised `T`. -/
inductive Step (junk : T) : Opip.Kind → Ipip T m → Ipip T m → Prop
  /-- Lines 125-126. -/
  | construct (s : Ipip T m) : s.owner = .constructing →
      Step junk .internal s { s with owner := .alive, stop := false, eoq := false }
  /-- Line 69. -/
  | lTestEof (s : Ipip T m) : s.loader = .testEof →
      Step junk .internal s { s with loader := if s.eof then .lastLock else .acquire }
  /-- Line 71, or the end of `cv_load_.wait`. -/
  | lLock (s : Ipip T m) : s.loader = .acquire → s.lock = none →
      Step junk .internal s { s with loader := .test, lock := some .writer }
  /-- Line 72. -/
  | lTest (s : Ipip T m) : s.loader = .test →
      Step junk .internal s { s with loader := if s.stop || s.queue.isEmpty then .testStop else .sleep }
  | lSleep (s : Ipip T m) : s.loader = .sleep → Step junk .internal s { s with loader := .waiting, lock := none }
  | lSpurious (s : Ipip T m) : s.loader = .waiting → Step junk .spurious s { s with loader := .acquire }
  /-- Line 74. -/
  | lBreak (s : Ipip T m) : s.loader = .testStop → s.stop = true →
      Step junk .internal s { s with loader := .lastLock, lock := none }
  | lGoOn (s : Ipip T m) : s.loader = .testStop → s.stop = false → Step junk .internal s { s with loader := .load 0 }
  /-- Lines 76-80. -/
  | lRead (s : Ipip T m) (i : Nat) : s.loader = .load i → i < 100 → s.eof = false →
      Step junk .internal s { readOne junk s with loader := .load (i + 1) }
  | lLoaded (s : Ipip T m) (i : Nat) : s.loader = .load i → ¬ (i < 100 ∧ s.eof = false) →
      Step junk .internal s { s with loader := .notifyIo, lock := none }
  /-- Line 82. -/
  | lNotify (s : Ipip T m) : s.loader = .notifyIo →
      Step junk .internal s { s with loader := .testEof, consumers := fun j => (s.consumers j).woken }
  /-- Line 86. -/
  | lLastLock (s : Ipip T m) : s.loader = .lastLock → s.lock = none →
      Step junk .internal s { s with loader := .setEoq, lock := some .writer }
  /-- Lines 87-88. -/
  | lSetEoq (s : Ipip T m) : s.loader = .setEoq →
      Step junk .internal s { s with loader := .lastNotify, eoq := true, lock := none }
  /-- Line 89. -/
  | lLastNotify (s : Ipip T m) : s.loader = .lastNotify →
      Step junk .internal s { s with loader := .done, consumers := fun j => (s.consumers j).woken }
  /-- `operator>>` is called, line 104. -/
  | cCall (s : Ipip T m) (j : Fin m) : s.consumers j = .idle → s.owner = .alive → Step junk .user s (s.setC j .acquire)
  /-- Line 105, or the end of `cv_io_.wait`. -/
  | cLock (s : Ipip T m) (j : Fin m) : s.consumers j = .acquire → s.lock = none →
      Step junk .internal s { s.setC j .test with lock := some (.producer j) }
  /-- Line 106. -/
  | cTest (s : Ipip T m) (j : Fin m) : s.consumers j = .test →
      Step junk .internal s (s.setC j (if s.eoq || !s.queue.isEmpty then .take else .sleep))
  | cSleep (s : Ipip T m) (j : Fin m) : s.consumers j = .sleep →
      Step junk .internal s { s.setC j .waiting with lock := none }
  | cSpurious (s : Ipip T m) (j : Fin m) : s.consumers j = .waiting → Step junk .spurious s (s.setC j .acquire)
  /-- Line 108. -/
  | cFalse (s : Ipip T m) (j : Fin m) : s.consumers j = .take → s.eoq = true → s.queue = [] →
      Step junk .internal s { s.setC j .idle with lock := none, results := s.results ++ [(j, none)] }
  /-- Lines 110-115. -/
  | cTake (s : Ipip T m) (j : Fin m) (d : T) (q : List T) : s.consumers j = .take → s.queue = d :: q →
      Step junk .internal s
        { s.setC j .idle with lock := none, queue := q, results := s.results ++ [(j, some d)], loader := if q.isEmpty then s.loader.woken else s.loader }
  /-- The destructor is called. -/
  | dCall (s : Ipip T m) : s.owner = .alive → (∀ j, s.consumers j = .idle) →
      Step junk .user s { s with owner := .acquire }
  /-- Line 94. -/
  | dLock (s : Ipip T m) : s.owner = .acquire → s.lock = none →
      Step junk .internal s { s with owner := .setStop, lock := some .owner }
  /-- Lines 95-97. -/
  | dStop (s : Ipip T m) : s.owner = .setStop →
      Step junk .internal s { s with owner := .notifyIo, stop := true, eoq := true, lock := none }
  /-- Line 98. -/
  | dNotifyIo (s : Ipip T m) : s.owner = .notifyIo →
      Step junk .internal s { s with owner := .notifyLoad, consumers := fun j => (s.consumers j).woken }
  /-- Line 99. -/
  | dNotifyLoad (s : Ipip T m) : s.owner = .notifyLoad →
      Step junk .internal s { s with owner := .join, loader := s.loader.woken }
  /-- Line 101. -/
  | dJoin (s : Ipip T m) : s.owner = .join → s.loader = .done → Step junk .internal s { s with owner := .done }

/-- `s'` is reached from `s` in `k` steps of the allowed kinds. -/
inductive Run (junk : T) (kinds : Opip.Kind → Prop) : Nat → Ipip T m → Ipip T m → Prop
  | refl (s : Ipip T m) : Run junk kinds 0 s s
  | step {k : Nat} {s s' s'' : Ipip T m} {b : Opip.Kind} : Run junk kinds k s s' → kinds b → Step junk b s' s'' →
      Run junk kinds (k + 1) s s''

/-- Reachable from a new object under any schedule; `stop` and `eoq` are the contents of the uninitialised members. -/
def Reachable (junk : T) (records : List T) (tail stop eoq : Bool) (s : Ipip T m) : Prop :=
  ∃ k, Run junk (fun _ => True) k (init m records tail stop eoq) s

end Ipip
end SpaceHub.Conc
