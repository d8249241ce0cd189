import Verif.Model.Integrator

/-
Model of src/simulator.hpp (`RunArgs`, `Simulator::run`), src/ode-iterator/const-iterator.hpp and
`calc_fall_free_time` / `calc_step_scale` of src/core-computation.hpp.

Exact real arithmetic.  Console messages are not modelled.
-/

set_option autoImplicit false

namespace SpaceHub.Simu
open SpaceHub V3 Force Core

/-- What `Simulator` uses of its particle system together with its iterator.
* `time` = `particles_.time()`, `scale` = `particles_.step_scale()`;
* `defaultStep` = the step size chosen at simulator.hpp:380-381;
* `advance h` = `advance_one_step()` (simulator.hpp:429-434) with `step_size_ = h`: the new system and the new
  `step_size_`. -/
structure Machine (S : Type) where
  time : S → ℝ
  scale : S → ℝ
  defaultStep : S → ℝ
  advance : ℝ → S → Res (S × ℝ)

/-- A registered callback (`Callback`, simulator.hpp:65): it may change the particle system, and `W`: everything else it
can reach (its own members, files, captured references). -/
abbrev Callback (W S : Type) := ℝ → W × S → W × S

/-- A registered stop condition (`StopCall`, simulator.hpp:70): a function object with members `mem`; a call returns the
answer, the new members, and what it did to `W` and to the system. -/
structure StopCond (W S : Type) where
  Mem : Type
  mem : Mem
  call : Mem → ℝ → W × S → Bool × Mem × (W × S)

/-- `RunArgs`, simulator.hpp:56-212 (`time_rtol` = 1e-8 unless changed; `atol`, `rtol` are only handed to the iterator). -/
structure RunArgs (W S : Type) where
  stepSize : ℝ
  endTime : Option ℝ
  timeRtol : ℝ
  opts : List (Callback W S)
  startOpts : List (Callback W S)
  stopOpts : List (Callback W S)
  stopCond : List (StopCond W S)

variable {W S : Type}

/-- `operations`, `start_operations`, `stop_operations`, simulator.hpp:295-314: call all in order. -/
def callAll (cbs : List (Callback W S)) (h : ℝ) (x : W × S) : W × S := cbs.foldl (fun x cb => cb h x) x

/-- `check_stops`, simulator.hpp:316-321: `std::any_of` over the registered conditions.  The lambda takes the condition
by value (`auto cond`), so the members changed by the call are those of a copy and are lost. -/
def checkStops (h : ℝ) : List (StopCond W S) → W × S → Bool × (W × S)
  | [], x => (false, x)
  | c :: cs, x =>
    let r := c.call c.mem h x
    if r.1 then (true, r.2.2) else checkStops h cs r.2.2

/-- `std::abs((time - end_time) / end_time) > time_rtol_`, simulator.hpp:411.  For `end_time == 0` IEEE division gives
an infinity (larger than every tolerance) unless the time is 0 too, where it gives NaN (not larger). -/
noncomputable def notAtEnd (t tEnd rtol : ℝ) : Bool :=
  if tEnd = 0 then decide (t ≠ 0) else decide (|(t - tEnd) / tEnd| > rtol)

/-- the step used in this round, simulator.hpp:413-422 -/
noncomputable def clipStep (M : Machine S) (tEnd h : ℝ) (s : S) : ℝ :=
  let rest := (tEnd - M.time s) * M.scale s
  if |h| ≤ |rest| then h else rest

/-- The loop of `run`, simulator.hpp:411-424, observed for at most `fuel` rounds. -/
noncomputable def loop (M : Machine S) (A : RunArgs W S) (tEnd : ℝ) : Nat → ℝ → W × S → Res (ℝ × (W × S))
  | 0, _, _ => .diverge
  | fuel + 1, h, x =>
    if notAtEnd (M.time x.2) tEnd A.timeRtol then
      let r := checkStops h A.stopCond x
      if r.1 then .ok (h, r.2)
      else do
        let x := r.2
        let h := clipStep M tEnd h x.2
        let x := callAll A.opts h x
        let y ← M.advance h x.2
        loop M A tEnd fuel y.2 (x.1, y.1)
    else .ok (h, x)

/-- `Simulator::run`, simulator.hpp:371-427; `tHubble` = `unit::T_hubble`. -/
noncomputable def run (tHubble : ℝ) (M : Machine S) (A : RunArgs W S) (fuel : Nat) (x : W × S) : Res (W × S) :=
  if A.stopCond = [] ∧ A.endTime = none then .abort
  else
    let h := if A.stepSize = 0 then M.defaultStep x.2 else A.stepSize
    let tEnd := A.endTime.getD tHubble
    if M.scale x.2 = 0 then .ok x
    else do
      let x := callAll A.startOpts h x
      let r ← loop M A tEnd fuel h x
      let x := callAll A.opts r.1 r.2
      .ok (callAll A.stopOpts r.1 x)

/-! ### default step -/

/-- `calc_fall_free_time`, core-computation.hpp:588-602: the smallest `r^1.5 / sqrt(m_i + m_j)` over the pairs, starting
from the largest double `big`, times `pi / 2 / sqrt(2 G)`. -/
noncomputable def fallFreeTime (big G : ℝ) (P : Particles) : ℝ :=
  let m := forLoop 0 P.num (fun i m => forLoop (i + 1) P.num (fun j m =>
    let r := norm (P.pos i - P.pos j)
    let f := r ^ (3 / 2 : ℝ) / Real.sqrt (P.mass i + P.mass j)
    if f < m then f else m) m) big
  m * Real.pi * (1 / 2) / Real.sqrt (2 * G)

/-- The simulator of a plain system with a constant-step iterator: `advance_one_step` of simulator.hpp:429-434 with
`ConstOdeIterator::iterate`, const-iterator.hpp:52-59; `step_scale()` is 1, base-system.hpp:62. -/
noncomputable def constSimple (big G : ℝ) (I : Sys.Interactions) (stages : List Integrator.Stage) : Machine Sys.Simple where
  time := fun s => s.time
  scale := fun _ => 1
  defaultStep := fun s => 1 / 10 * 1 * fallFreeTime big G s.P
  advance := fun h s => do
    let s' ← Integrator.simpleStep I (stages.map (Integrator.Stage.op h)) s
    .ok (s', h)

/-- The same for a regularised system; `post_iter_process` is empty. -/
noncomputable def constRegu (big G : ℝ) (type : Sys.ReguType) (I : Sys.Interactions) (stages : List Integrator.Stage) :
    Machine Sys.ReguSys where
  time := fun s => s.time
  scale := fun s => s.stepScale
  defaultStep := fun s => 1 / 10 * s.stepScale * fallFreeTime big G s.P
  advance := fun h s => do
    let s' ← Integrator.reguStep G type I (stages.map (Integrator.Stage.op h)) s
    .ok (s', h)

end SpaceHub.Simu
