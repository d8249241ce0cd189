import Verif.Model.Simulator
import Mathlib.Analysis.SpecialFunctions.Pow.Real

/-
Model of src/args-callback/callbacks.hpp and src/args-callback/collision.hpp.  Exact real arithmetic.  The wrapped
operation is represented by the answer whether it is called.
-/

set_option autoImplicit false

namespace SpaceHub.Callbacks
open SpaceHub

/-! ### StepSlice -/

/-- Members of `StepSlice`, callbacks.hpp:172-174. -/
structure StepSlice where
  step : Nat
  interval : Nat

namespace StepSlice
/-- Constructor, callbacks.hpp:346-348. -/
def init (interval : Nat) : StepSlice := { step := 0, interval := interval }

/-- `operator()`, callbacks.hpp:350-371: whether the operation is called, and the new members.  (`step_` is a `size_t`;
its wrap-around after 2^64 calls is not modelled.) -/
def call (s : StepSlice) : Res (Bool × StepSlice) :=
  if s.interval = 0 then .ub
  else .ok (s.step % s.interval == 0, { s with step := s.step + 1 })

/-- `reset_slice_params`, callbacks.hpp:373-377. -/
def reset (interval : Nat) (_ : StepSlice) : StepSlice := { step := 0, interval := interval }

/-- A `StepSlice` around a condition, registered as stop condition (the `bool` overload, callbacks.hpp:360-371).
(interval 0 excluded by the theorems) -/
def asStopCond {W S : Type} (s : StepSlice) (cond : ℝ → S → Bool) : Simu.StopCond W S where
  Mem := StepSlice
  mem := s
  call := fun m h x =>
    match m.call with
    | .ok (fire, m') => (if fire then cond h x.2 else false, m', x)
    | _ => (false, m, x)
end StepSlice

/-! ### TimeSlice -/

/-- Members of `TimeSlice`, callbacks.hpp:108-111. -/
structure TimeSlice where
  optTime : ℝ
  endTime : ℝ
  interval : ℝ

namespace TimeSlice
/-- Constructor and `reset_slice_params`, callbacks.hpp:304-308, 336-341 (the assertion `end >= start` is a debugging
aid).  `num = 0` divides by zero. -/
noncomputable def init (start tEnd : ℝ) (num : Nat) : TimeSlice :=
  { optTime := start, endTime := tEnd, interval := (tEnd - start) / num }

open Classical in
/-- `operator()`, callbacks.hpp:310-334: whether the operation is called at time `t`, and the new members. -/
noncomputable def call (s : TimeSlice) (t : ℝ) : Bool × TimeSlice :=
  if t ≥ s.optTime ∧ t ≤ s.endTime then (true, { s with optTime := s.optTime + s.interval }) else (false, s)
end TimeSlice

/-! ### LogTimeSlice -/

/-- Members of `LogTimeSlice`, callbacks.hpp:232-236. -/
structure LogTimeSlice where
  optTime : ℝ
  startTime : ℝ
  endTime : ℝ
  interval : ℝ

namespace LogTimeSlice
/-- Constructor, callbacks.hpp:382-391. -/
noncomputable def init (start tEnd : ℝ) (num : Nat) : LogTimeSlice :=
  let interval := (tEnd - start) ^ (1 / (num : ℝ))
  { optTime := start + interval, startTime := start, endTime := tEnd, interval := interval }

/-- `reset_slice_params`, callbacks.hpp:423-428 (`start_time_` is not changed). -/
noncomputable def reset (start tEnd : ℝ) (num : Nat) (s : LogTimeSlice) : LogTimeSlice :=
  let interval := (tEnd - start) ^ (1 / (num : ℝ))
  { s with interval := interval, optTime := start + interval, endTime := tEnd }

open Classical in
/-- The loop `do { opt_time_ = (opt_time_ - start_time_) * opt_interval_ + start_time_; } while (opt_time_ <= t);`,
callbacks.hpp:400-402, observed for at most `fuel` rounds. -/
noncomputable def next (s : LogTimeSlice) (t : ℝ) : Nat → ℝ → Res ℝ
  | 0, _ => .diverge
  | fuel + 1, o =>
    let o := (o - s.startTime) * s.interval + s.startTime
    if o ≤ t then next s t fuel o else .ok o

open Classical in
/-- `operator()`, callbacks.hpp:393-421. -/
noncomputable def call (fuel : Nat) (s : LogTimeSlice) (t : ℝ) : Res (Bool × LogTimeSlice) :=
  if t ≥ s.optTime ∧ t ≤ s.endTime then do
    let o ← s.next t fuel s.optTime
    .ok (true, { s with optTime := o })
  else .ok (false, s)
end LogTimeSlice

/-! ### writers -/

/-- One thing written to a file: the column names, a row for a state, or text put by the user with `<<`. -/
inductive Entry (S : Type)
  | header
  | row (s : S)
  | raw (text : String)

/-- `DefaultWriter::operator()`, callbacks.hpp:441-452, for the file shared by all copies of the writer (`fstream_` is a
shared pointer) and the flag of this copy: new file content and new flag.  `tellp() == 0` holds iff nothing was written
(every entry is non-empty text). -/
def defaultWrite {S : Type} (file : List (Entry S)) (header : Bool) (s : S) : List (Entry S) × Bool :=
  if header then (file ++ [.row s], header)
  else
    let file := if file = [] then file ++ [.header] else file
    (file ++ [.row s], true)

/-- `calc_energy_error`, core-computation.hpp:620-629, second branch (systems without regularisation): `|(E - E0)/E0|`. -/
noncomputable def energyError (E E0 : ℝ) : ℝ := |(E - E0) / E0|

/-- `EnergyErrWriter::operator()`, callbacks.hpp:472-476: the `static` local variable `E0` is one per particle system
type for the whole program; it is initialised at the first call of any writer.  Arguments: `E0` (if initialised), the
energy of the system; result: new `E0`, value written. -/
noncomputable def energyWrite (E0 : Option ℝ) (E : ℝ) : Option ℝ × ℝ :=
  let e := E0.getD E
  (some e, energyError E e)

/-! ### StickyCollision -/

open Classical in
/-- inner loop of `StickyCollision::operator()`, collision.hpp:62-70: `j` from the given value on -/
noncomputable def collideInner (pos : Arr (V3 ℝ)) (r : Arr ℝ) (num i : Nat) : Nat → Nat → Bool
  | 0, _ => false
  | k + 1, j =>
    if j < num then
      let d := pos i - pos j
      if Real.sqrt (d.x * d.x + d.y * d.y + d.z * d.z) ≤ r i + r j then true else collideInner pos r num i k (j + 1)
    else false

/-- outer loop of `StickyCollision::operator()`, collision.hpp:61-72 -/
noncomputable def collideOuter (pos : Arr (V3 ℝ)) (r : Arr ℝ) (num : Nat) : Nat → Nat → Bool
  | 0, _ => false
  | k + 1, i =>
    if i < num then
      if collideInner pos r num i num (i + 1) then true else collideOuter pos r num k (i + 1)
    else false

/-- `StickyCollision::operator()`, collision.hpp:47-73.  (The operator is declared in the private part of the class and
reads coordinate arrays `pos().x`, so the current source does not let anyone call it; the function body is modelled.) -/
noncomputable def stickyCollision (pos : Arr (V3 ℝ)) (r : Arr ℝ) (num : Nat) : Bool := collideOuter pos r num num 0

end SpaceHub.Callbacks
