import Verif.Model.BulirschStoer

/-
Model of `BulirschStoer::iterate(particles, macro_step_size)` compiled with BS_SUBSTEP_PARALLEL,
src/ode-iterator/Bulirsch-Stoer.hpp:180-182, 284-358.

Per attempt two threads fill the rows of the extrapolation table: a worker of `tf::Executor executor{1}` runs the closure
`integrate_with_stride` on a copy of the particles (`silent_async` copies its arguments into the task before it is
scheduled, src/taskflow/core/executor.hpp:351-365) for the rows `ideal_rank_`, `ideal_rank_ - 2`, ...; the calling thread
runs it on the particles themselves for the rows `ideal_rank_ + 1`, `ideal_rank_ - 1`, ...  `wait_for_all` then joins.
One step of a thread is the computation of one row (it touches, of the memory both threads see, only `input_`, `iter_h`
and the constants, and only reads them) or the copying of one number into the table; steps interleave in any order.

The closure is a `static const` local variable that captures by reference: it is created by the first call in the process
for the given iterator type and system type, and keeps the `this` pointer and the reference to the local variable `iter_h`
of that call.

Trusted of taskflow: the task is run exactly once by the worker, after it was scheduled and before `wait_for_all` returns,
both of which synchronise.
-/

set_option autoImplicit false

namespace SpaceHub.BS.Par
open SpaceHub SpaceHub.BS

variable {S F : Type} [Arith F]

/-! ### the two threads -/

/-- Where a thread is: about to compute its row, about to copy element `j` of the increments, out of the loop. -/
inductive Pc
  | work
  | copy (j : Nat)
  | done
  deriving DecidableEq

/-- A thread inside `integrate_with_stride`, Bulirsch-Stoer.hpp:295-304: its particle system, the loop variable `p`, the
position. -/
structure Thread (S : Type) where
  sys : S
  row : Nat
  pc : Pc

/-- The rows of the table the closure writes to, the worker, the calling thread. -/
structure Conf (S F : Type) where
  rows : Nat → Arr F
  worker : Thread S
  caller : Thread S

/-- What the closure sees of the rest of the memory: `input_` of the object it was created in, `iter_h` (`ub` if the
variable it refers to is gone). -/
structure View (F : Type) where
  input : List F
  step : Res F

/-- One step of a thread, Bulirsch-Stoer.hpp:298-303: `none` once it is out of the loop, otherwise the table and the
thread afterwards.  (`p -= stride` with `stride` 2: `p` is an `int`, the loop ends when it would become negative.) -/
def Thread.step (O : IterSys S F) (p : Params F) (v : View F) (rows : Nat → Arr F) (t : Thread S) :
    Option (Res ((Nat → Arr F) × Thread S)) :=
  match t.pc with
  | .work => some do
    let s ← O.read t.sys v.input
    let s := O.clear s
    let h ← v.step
    chk p.maxDepth t.row
    let s ← O.integrate h (hSeq p.maxDepth t.row) s
    .ok (rows, { t with sys := s, pc := .copy 0 })
  | .copy j =>
    if j < v.input.length then
      some (.ok (fun r => if r = t.row then (rows r).set j (O.inc t.sys j) else rows r, { t with pc := .copy (j + 1) }))
    else if 2 ≤ t.row then some (.ok (rows, { t with row := t.row - 2, pc := .work }))
    else some (.ok (rows, { t with pc := .done }))
  | .done => none

/-- One step of one of the threads. -/
inductive Conf.Step (O : IterSys S F) (p : Params F) (v : View F) : Conf S F → Conf S F → Prop
  | worker (c : Conf S F) (rows : Nat → Arr F) (t : Thread S) (e : c.worker.step O p v c.rows = some (.ok (rows, t))) :
      Conf.Step O p v c { c with rows := rows, worker := t }
  | caller (c : Conf S F) (rows : Nat → Arr F) (t : Thread S) (e : c.caller.step O p v c.rows = some (.ok (rows, t))) :
      Conf.Step O p v c { c with rows := rows, caller := t }

/-- Some thread can make a step that does not return normally; `r` is how. -/
def Conf.Fails {α : Type} (O : IterSys S F) (p : Params F) (v : View F) (c : Conf S F) (r : Res α) : Prop :=
  ∃ x : Res ((Nat → Arr F) × Thread S), (c.worker.step O p v c.rows = some x ∨ c.caller.step O p v c.rows = some x) ∧
    (∀ y, x ≠ .ok y) ∧ r = x.bind fun _ => .ub

/-- Both threads before their first step: lines 311-312. -/
def Conf.start (rank : Nat) (rows : Nat → Arr F) (s : S) : Conf S F :=
  { rows := rows, worker := { sys := s, row := rank, pc := .work }, caller := { sys := s, row := rank + 1, pc := .work } }

/-- Lines 311-313 end with `r`, under some schedule: normally, when both threads are out of the loop, with the table and
the particles of the calling thread; or by a failing step of one of them. -/
def Phase (O : IterSys S F) (p : Params F) (v : View F) (rank : Nat) (rows : Nat → Arr F) (s : S)
    (r : Res ((Nat → Arr F) × S)) : Prop :=
  ∃ c, Relation.ReflTransGen (Conf.Step O p v) (Conf.start rank rows s) c ∧
    ((c.worker.pc = .done ∧ c.caller.pc = .done ∧ r = .ok (c.rows, c.caller.sys)) ∨ c.Fails O p v r)

/-! ### shared memory touched by the next step of a thread -/

/-- Places both threads can reach. -/
inductive Loc
  | input
  | step
  | entry (row j : Nat)
  deriving DecidableEq

/-- Read by the next step: `input_` and `iter_h` when a row is computed. -/
def Thread.reads (t : Thread S) : Set Loc := {l | t.pc = .work ∧ (l = .input ∨ l = .step)}

/-- Written by the next step: one entry of the table when copying. -/
def Thread.writes (n : Nat) (t : Thread S) : Set Loc := {l | ∃ j, t.pc = .copy j ∧ j < n ∧ l = .entry t.row j}

/-! ### the calling thread between the phases -/

/-- The loop over the columns, Bulirsch-Stoer.hpp:320-354 without the lines of the serial variant: `m` columns to go, the
next is `k`. -/
def columnsP (O : IterSys S F) (p : Params F) (input : List F) (h : F) : Nat → Nat → State F → S → Res (Exit S F)
  | 0, _, c, s => .ok (.exhausted s c)
  | m + 1, k, c, s => do
    chk p.maxDepth k
    let ce := evalColumn p input h c k
    let c := ce.1
    let error := ce.2
    if inWindow c k then
      if Arith.le error (Arith.ofRat 1) then do
        let c := { c with reject := false }
        let s ← O.read s (arrayAdvance input (c.rows 0))
        let s := O.collect false s
        let r ← setNextIteration p c k
        let c := { r.2 with first := false }
        .ok (.accept s (Arith.mul h (p.limiter (2 * k + 1) (Arith.div r.1 h))) c)
      else do
        let d ← isDiverged p c error k
        if d then do
          let c := { c with reject := true, rejNum := c.rejNum + 1 }
          let r ← setNextIteration p c k
          .ok (.reject s (Arith.mul h (p.limiter (2 * k + 1) (Arith.div r.1 h))) r.2)
        else columnsP O p input h m (k + 1) c s
    else columnsP O p input h m (k + 1) c s

/-- Members of an iterator object the closure uses: `input_` and the table. -/
structure Obj (F : Type) where
  input : List F
  rows : Nat → Arr F

/-- The object the closure was created in: the one that now calls, or another one. -/
inductive Captured (F : Type)
  | self
  | other (o : Obj F)

/-- `input_` as the closure sees it; `input` is that of the calling object. -/
def Captured.input (input : List F) : Captured F → List F
  | .self => input
  | .other o => o.input

/-- the table the closure writes to; `rows` is that of the calling object -/
def Captured.rows (rows : Nat → Arr F) : Captured F → (Nat → Arr F)
  | .self => rows
  | .other o => o.rows

/-- After the phase with the table `rows`: the members of the calling object and the captured one. -/
def Captured.put (rows : Nat → Arr F) (c : State F) : Captured F → State F × Captured F
  | .self => ({ c with rows := rows }, .self)
  | .other o => (c, .other { o with rows := rows })

/-- Sequencing of a call with a nondeterministic continuation: `r` is the outcome if the first part ended with `x`. -/
def Then {α β : Type} (x : Res α) (r : Res β) (k : α → Prop) : Prop :=
  match x with
  | .ok a => k a
  | .abort => r = .abort
  | .ub => r = .ub
  | .nan => r = .nan
  | .diverge => r = .diverge

/-- The attempts, Bulirsch-Stoer.hpp:307-357: at most `tries` more; `r` is a possible outcome.  `live` tells whether the
reference of the closure refers to the variable `iter_h` of the present call. -/
def AttemptsP (O : IterSys S F) (p : Params F) (input : List F) (live : Bool) :
    Nat → F → State F → Captured F → S → Res (S × F × State F × Captured F) → Prop
  | 0, _, _, _, _, r => r = .abort
  | tries + 1, h, c, w, s, r =>
    ∃ x, Phase O p ⟨w.input input, if live then .ok h else .ub⟩ c.rank (w.rows c.rows) s x ∧ Then x r fun (rows, s1) =>
      let cw := w.put rows { c with iterNum := c.iterNum + 1 }
      Then (columnsP O p input h (c.rank + 1) 1 cw.1 s1) r fun
        | .accept s h c => r = .ok (s, h, c, cw.2)
        | .reject s h c => Then (O.read s input) r fun s => AttemptsP O p input live tries h c cw.2 s r
        | .exhausted s c => Then (O.read s input) r fun s => AttemptsP O p input live tries h c cw.2 s r

/-- `iterate(particles, macro_step_size)`, Bulirsch-Stoer.hpp:284-358, for a closure created in `w`: `r` is a possible
outcome. -/
def IterateP (O : IterSys S F) (p : Params F) (live : Bool) (h : F) (c : State F) (w : Captured F) (s : S)
    (r : Res (S × F × State F × Captured F)) : Prop :=
  AttemptsP O p (O.write s) live 100 h c w (O.collect true s) r

/-! ### the calls of a process -/

/-- The iterator objects of a process (all of one type) and the closure: the object in which it was created.  The call
that created it has returned, so the variable `iter_h` it refers to is gone. -/
structure Process (F : Type) where
  members : Nat → State F
  input : Nat → List F
  closure : Option Nat

/-- Object `o` is called with the step `h` for the system `s`.  `reuse` stands for a program whose stack happens to hold
the variable `iter_h` of every call at the same place; the C++ standard gives no meaning to such an access
(`reuse = false`).  Outcome: the system, the step returned, the process afterwards.  (`input_` is left advanced by row 0 of
the table, line 339.) -/
def Call (O : IterSys S F) (p : Params F) (reuse : Bool) (P : Process F) (o : Nat) (h : F) (s : S)
    (r : Res (S × F × Process F)) : Prop :=
  let inputs := fun (c : State F) i => if i = o then arrayAdvance (O.write s) (c.rows 0) else P.input i
  match P.closure with
  | none => ∃ x, IterateP O p true h (P.members o) .self s x ∧ Then x r fun (s, h, c, _) =>
    r = .ok (s, h, { members := fun i => if i = o then c else P.members i, input := inputs c, closure := some o })
  | some o' =>
    if o' = o then
      ∃ x, IterateP O p reuse h (P.members o) .self s x ∧ Then x r fun (s, h, c, _) =>
        r = .ok (s, h, { P with members := fun i => if i = o then c else P.members i, input := inputs c })
    else
      ∃ x, IterateP O p reuse h (P.members o) (.other ⟨P.input o', (P.members o').rows⟩) s x ∧ Then x r fun
        | (s, h, c, .other d) =>
          r = .ok (s, h, { P with members := fun i => if i = o then c else
            if i = o' then { P.members i with rows := d.rows } else P.members i, input := inputs c })
        | (_, _, _, .self) => False

end SpaceHub.BS.Par
