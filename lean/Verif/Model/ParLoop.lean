import Mathlib.Data.List.Basic
import Verif.Model.Basic

/-!
Model of the thread-spawning helpers of `/repo/src/multi-thread/multi-thread.hpp`, lines 51-109:
`auto_thread`, `multi_threads_loop`, `multi_thread`, `indexed_multi_thread`, `auto_multi_thread`,
`auto_indexed_multi_thread`.

What is modelled is the list of the calls handed to `std::thread`, one entry per spawned thread, in order of creation.
The threads are all joined before the helper returns (lines 70-72, 82-84, 95-97), so these are exactly the calls made
when it returns.  Failure of the operating system to start a thread is not modelled.
-/

set_option autoImplicit false

namespace SpaceHub.Conc

/-- `size_t` arithmetic: unsigned, 64 bits, wraps. -/
def wrap (x : Nat) : Nat := x % 2 ^ 64

/-- The interval computed for one thread; multi-thread.hpp lines 64-66. -/
def interval (total len th : Nat) : Nat × Nat :=
  let first := wrap (th * len)
  let last := wrap (first + len)
  let last := if wrap (last + len) > total then total else last
  (first, last)

/-- `multi_threads_loop`, multi-thread.hpp lines 57-73.  The result lists, thread by thread, the pair `(begin, end)` with
which the task is called.  The division of line 59 by `thread_num = 0` is undefined behaviour. -/
def multiThreadsLoop (total threads : Nat) : Res (List (Nat × Nat)) :=
  if threads = 0 then Res.ub
  else Res.ok ((List.range threads).map (interval total (total / threads)))

/-- How an argument is passed to a forwarding function: an lvalue is copied by `std::thread`, an rvalue is moved from.
`left` is what a move leaves behind. -/
inductive Passed (α : Type)
  | lvalue (v : α)
  | rvalue (v left : α)

/-- What `std::thread(std::forward<T>(x), …)` stores, and what remains of `x`;
multi-thread.hpp lines 67, 80, 93 (`std::forward` inside a loop). -/
def Passed.forward {α : Type} : Passed α → α × Passed α
  | .lvalue v => (v, .lvalue v)
  | .rvalue v left => (v, .rvalue left left)

/-- The loop `for (i = 0; i < thread_num; ++i) threads.emplace_back(std::thread(forward(job), [i,] forward(args)…))` of
`multi_thread` (lines 76-81) and `indexed_multi_thread` (lines 89-94): the job and its arguments are taken together as
one forwarded value `x`; the result is, thread by thread, the index and the value the thread runs with. -/
def spawnLoop {α : Type} : (count first : Nat) → Passed α → List (Nat × α)
  | 0, _, _ => []
  | count + 1, i, x => (i, x.forward.1) :: spawnLoop count (i + 1) x.forward.2

/-- `indexed_multi_thread`, multi-thread.hpp lines 88-99. -/
def indexedMultiThread {α : Type} (threads : Nat) (x : Passed α) : List (Nat × α) := spawnLoop threads 0 x

/-- `multi_thread`, multi-thread.hpp lines 75-86: the same without the index. -/
def multiThread {α : Type} (threads : Nat) (x : Passed α) : List α := (spawnLoop threads 0 x).map Prod.snd

/-- `machine_thread_num` (and `auto_thread`), multi-thread.hpp lines 51-55: the number of hardware threads, at least 1. -/
def machineThreadNum (hardware : Nat) : Nat := if hardware > 1 then hardware else 1

/-- `auto_multi_thread`, multi-thread.hpp lines 101-104. -/
def autoMultiThread {α : Type} (hardware : Nat) (x : Passed α) : List α := multiThread (machineThreadNum hardware) x

/-- `auto_indexed_multi_thread`, multi-thread.hpp lines 106-109. -/
def autoIndexedMultiThread {α : Type} (hardware : Nat) (x : Passed α) : List (Nat × α) :=
  indexedMultiThread (machineThreadNum hardware) x

end SpaceHub.Conc
