import Mathlib.Data.List.Basic
import Mathlib.Logic.Function.Basic

/-!
Model of `hub::multi_thread::ThreadPool`, `/repo/src/multi-thread/thread_pool.h`, as an interleaving transition system.

* The workers are the threads of the constructor's loop (lines 51-69), one for each `i : Fin n`.
* The committers are the threads that call `commit` (lines 79-95), one for each `j : Fin m`; each may call it any number
  of times with any task.
* The destructor (lines 71-77) is run by one more thread.

A step is one access to shared data: taking the mutex, reading or writing the atomic `stop_`, one operation on the queue
while the mutex is held, a wait or a notification.  The memory model is sequentially consistent (`stop_` is a
`std::atomic_bool` used with the default ordering, everything else is protected by the mutex).  A task is an opaque
value; running it is one step that touches nothing of the pool.  Exceptions thrown by a task stay inside its
`packaged_task`.  `std::condition_variable::wait` may wake up without a notification (`spurious`).

Not modelled: the `future` returned by `commit`; failure to start a thread.
-/

set_option autoImplicit false

namespace SpaceHub.Conc

/-- What can be observed of a pool. -/
inductive Event (T : Type)
  /-- `commit` accepted the task: it is in the queue. -/
  | accepted (t : T)
  /-- `commit` threw "Task queue is full/stopped!". -/
  | refused (t : T)
  /-- A worker has taken the task and is about to run it. -/
  | started (t : T)
  /-- The task has been run. -/
  | finished (t : T)
  /-- The destructor was entered. -/
  | shutdown
  /-- The destructor has returned. -/
  | destroyed

/-- Where a worker is in its loop, thread_pool.h lines 55-66. -/
inductive Worker (T : Type)
  /-- About to take the mutex: line 57, or inside `cv_.wait` (line 59) after it was woken. -/
  | acquire
  /-- Holds the mutex; next evaluates `!stop_` of the loop condition in line 58. -/
  | testStop
  /-- Holds the mutex; next evaluates `tasks_.empty()` of line 58. -/
  | testEmpty
  /-- Holds the mutex; the condition of line 58 was true; next calls `cv_.wait(lock)`, line 59. -/
  | sleep
  /-- Blocked inside `cv_.wait`, line 59; does not hold the mutex. -/
  | waiting
  /-- Holds the mutex; left the loop of line 58; next evaluates `stop_` in line 61. -/
  | testStop2
  /-- Holds the mutex; next takes the front of the queue, lines 62-63. -/
  | pop
  /-- Runs the task, line 65. -/
  | run (t : T)
  /-- Returned, line 61. -/
  | done

/-- A notification: a blocked worker goes on to take the mutex again, the others do not notice. -/
def Worker.woken {T : Type} : Worker T → Worker T
  | .waiting => .acquire
  | w => w

/-- Where a committer is in `commit`, thread_pool.h lines 79-95. -/
inductive Committer (T : Type)
  /-- Not inside `commit`. -/
  | idle
  /-- About to take the mutex, line 87. -/
  | acquire (t : T)
  /-- Holds the mutex; next evaluates `stop_` of line 89. -/
  | testStop (t : T)
  /-- Holds the mutex; next compares the size (lines 88-89) and adds the task (line 91). -/
  | push (t : T)
  /-- Released the mutex; next calls `cv_.notify_one()`, line 93. -/
  | notify

/-- Where the destructor is, thread_pool.h lines 71-77. -/
inductive Destructor
  /-- Not called. -/
  | alive
  /-- Line 72 is done (`stop_ = true`); next `cv_.notify_all()`, line 73. -/
  | notify
  /-- Joining the workers, lines 74-76. -/
  | join
  /-- Returned. -/
  | done

/-- The state of a pool of `n` workers and `m` committing threads; members of thread_pool.h lines 40-45. -/
structure Pool (T : Type) (n m : Nat) where
  workers : Fin n → Worker T
  committers : Fin m → Committer T
  destructor : Destructor
  /-- Who holds `lock_`. -/
  lock : Option (Fin n ⊕ Fin m)
  /-- `stop_`. -/
  stop : Bool
  /-- `tasks_`, front first. -/
  queue : List T
  /-- What has been observed so far, oldest first. -/
  log : List (Event T)
  /-- `front`/`pop` of an empty queue has been called (undefined behaviour). -/
  ub : Bool

/-- After the constructor, thread_pool.h lines 51-52: `stop_` is false, the queue is empty and the workers are about to
take the mutex.  (Workers started before the constructor's loop ends do nothing another order would not allow.) -/
def Pool.init (T : Type) (n m : Nat) : Pool T n m where
  workers := fun _ => .acquire
  committers := fun _ => .idle
  destructor := .alive
  lock := none
  stop := false
  queue := []
  log := []
  ub := false

/-- Who makes a step. -/
inductive Who (T : Type) (n m : Nat)
  | worker (i : Fin n)
  | committer (j : Fin m)
  /-- A committer enters `commit` with a task. -/
  | begins (j : Fin m) (t : T)
  | destructor
  /-- A worker wakes up without having been notified. -/
  | spurious (i : Fin n)

namespace Pool
variable {T : Type} {n m : Nat}

def setW (s : Pool T n m) (i : Fin n) (w : Worker T) : Pool T n m := { s with workers := Function.update s.workers i w }
def setC (s : Pool T n m) (j : Fin m) (c : Committer T) : Pool T n m :=
  { s with committers := Function.update s.committers j c }

/-- The steps of a pool with `max_tasks_ = cap`, thread_pool.h lines 51-95. -/
inductive Step (cap : Nat) : Who T n m → Pool T n m → Pool T n m → Prop
  /-- Line 57 (or the return from `cv_.wait`, line 59): the mutex is free and is taken. -/
  | wLock (s : Pool T n m) (i : Fin n) : s.workers i = .acquire → s.lock = none →
      Step cap (.worker i) s { s.setW i .testStop with lock := some (.inl i) }
  /-- Line 58, `!stop_`. -/
  | wTestStop (s : Pool T n m) (i : Fin n) : s.workers i = .testStop →
      Step cap (.worker i) s (s.setW i (if s.stop then .testStop2 else .testEmpty))
  /-- Line 58, `tasks_.empty()`. -/
  | wTestEmpty (s : Pool T n m) (i : Fin n) : s.workers i = .testEmpty →
      Step cap (.worker i) s (s.setW i (if s.queue.isEmpty then .sleep else .testStop2))
  /-- Line 59: release the mutex and block, in one step. -/
  | wSleep (s : Pool T n m) (i : Fin n) : s.workers i = .sleep →
      Step cap (.worker i) s { s.setW i .waiting with lock := none }
  /-- Line 61: return, releasing the mutex, or go on. -/
  | wReturn (s : Pool T n m) (i : Fin n) : s.workers i = .testStop2 → s.stop = true →
      Step cap (.worker i) s { s.setW i .done with lock := none }
  | wGoOn (s : Pool T n m) (i : Fin n) : s.workers i = .testStop2 → s.stop = false →
      Step cap (.worker i) s (s.setW i .pop)
  /-- Lines 62-64: take the front of the queue, remove it, release the mutex. -/
  | wPop (s : Pool T n m) (i : Fin n) (t : T) (q : List T) : s.workers i = .pop → s.queue = t :: q →
      Step cap (.worker i) s { s.setW i (.run t) with lock := none, queue := q, log := s.log ++ [.started t] }
  /-- Lines 62-63 on an empty queue: undefined behaviour. -/
  | wPopEmpty (s : Pool T n m) (i : Fin n) : s.workers i = .pop → s.queue = [] →
      Step cap (.worker i) s { s.setW i .done with lock := none, ub := true }
  /-- Line 65. -/
  | wRun (s : Pool T n m) (i : Fin n) (t : T) : s.workers i = .run t →
      Step cap (.worker i) s { s.setW i .acquire with log := s.log ++ [.finished t] }
  /-- `commit` is called, lines 79-85. -/
  | cBegin (s : Pool T n m) (j : Fin m) (t : T) : s.committers j = .idle →
      Step cap (.begins j t) s (s.setC j (.acquire t))
  /-- Line 87. -/
  | cLock (s : Pool T n m) (j : Fin m) (t : T) : s.committers j = .acquire t → s.lock = none →
      Step cap (.committer j) s { s.setC j (.testStop t) with lock := some (.inr j) }
  /-- Line 89, `stop_`: throw, releasing the mutex, or go on. -/
  | cStopped (s : Pool T n m) (j : Fin m) (t : T) : s.committers j = .testStop t → s.stop = true →
      Step cap (.committer j) s { s.setC j .idle with lock := none, log := s.log ++ [.refused t] }
  | cGoOn (s : Pool T n m) (j : Fin m) (t : T) : s.committers j = .testStop t → s.stop = false →
      Step cap (.committer j) s (s.setC j (.push t))
  /-- Lines 88-89, `task_num > max_tasks_`: throw. -/
  | cFull (s : Pool T n m) (j : Fin m) (t : T) : s.committers j = .push t → s.queue.length > cap →
      Step cap (.committer j) s { s.setC j .idle with lock := none, log := s.log ++ [.refused t] }
  /-- Lines 91-92: add the task, release the mutex. -/
  | cPush (s : Pool T n m) (j : Fin m) (t : T) : s.committers j = .push t → ¬ s.queue.length > cap →
      Step cap (.committer j) s
        { s.setC j .notify with lock := none, queue := s.queue ++ [t], log := s.log ++ [.accepted t] }
  /-- Line 93, `cv_.notify_one()`: one of the blocked workers, if there is any, is woken. -/
  | cNotify (s : Pool T n m) (j : Fin m) (i : Fin n) : s.committers j = .notify → s.workers i = .waiting →
      Step cap (.committer j) s ((s.setC j .idle).setW i .acquire)
  | cNotifyNobody (s : Pool T n m) (j : Fin m) : s.committers j = .notify → (∀ i, s.workers i ≠ .waiting) →
      Step cap (.committer j) s (s.setC j .idle)
  /-- Line 72. -/
  | dStop (s : Pool T n m) : s.destructor = .alive →
      Step cap .destructor s { s with destructor := .notify, stop := true, log := s.log ++ [.shutdown] }
  /-- Line 73, `cv_.notify_all()`: all blocked workers are woken. -/
  | dNotify (s : Pool T n m) : s.destructor = .notify →
      Step cap .destructor s { s with destructor := .join, workers := fun i => (s.workers i).woken }
  /-- Lines 74-76: all workers have returned. -/
  | dJoin (s : Pool T n m) : s.destructor = .join → (∀ i, s.workers i = .done) →
      Step cap .destructor s { s with destructor := .done, log := s.log ++ [.destroyed] }
  /-- Line 59: a spurious wake-up. -/
  | wSpurious (s : Pool T n m) (i : Fin n) : s.workers i = .waiting →
      Step cap (.spurious i) s (s.setW i .acquire)

/-- `s'` is reached from `s` in `k` steps, all made by threads allowed by `who`. -/
inductive Run (cap : Nat) (who : Who T n m → Prop) : Nat → Pool T n m → Pool T n m → Prop
  | refl (s : Pool T n m) : Run cap who 0 s s
  | step {k : Nat} {s s' s'' : Pool T n m} {w : Who T n m} :
      Run cap who k s s' → who w → Step cap w s' s'' → Run cap who (k + 1) s s''

/-- Reachable from a new pool, under any schedule. -/
def Reachable (cap : Nat) (s : Pool T n m) : Prop := ∃ k, Run cap (fun _ => True) k (Pool.init T n m) s

end Pool
end SpaceHub.Conc
