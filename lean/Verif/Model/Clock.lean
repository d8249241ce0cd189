import Verif.Model.Simulator
import Verif.Model.Kahan

/-
The clock of a run in rounded arithmetic: the parts of `Simulator::run` (src/simulator.hpp), of the symplectic integrators
and of `drift` of the systems without regularisation that read or write the time, with every operation of the base type
rounded by `rnd`.  Positions, velocities, callbacks and stop conditions do not act on the time of these systems and are
left out; the end time and the step are given.
-/

set_option autoImplicit false

namespace SpaceHub.Clock
open SpaceHub SpaceHub.Comp Integrator

/-- The type of `time_` (`StateScalar`, point-particles.hpp:129, 171): conversion to the base type and `+=`. -/
structure Kind (τ : Type) where
  shown : τ → ℝ
  add : τ → ℝ → τ

/-- `double`, `long double`: the methods without suffix and `_Ext` (spaceHub.hpp:120-121). -/
def plain (rnd : ℝ → ℝ) : Kind ℝ := { shown := id, add := fun t d => rnd (t + d) }

/-- `double_k`, `long_double_k`: the methods `_Plus`, `_ExtPlus` (spaceHub.hpp:122-123). -/
def compensated (rnd : ℝ → ℝ) : Kind Num := { shown := Num.real, add := Kahan.add rnd }

/-- The coefficients of the drifts of an integrator, in order (symplectic-integrator.hpp:198-363). -/
def drifts : List Stage → List ℚ
  | [] => []
  | .drift c :: l => c :: drifts l
  | .kick _ :: l => drifts l

variable {τ : Type} (rnd : ℝ → ℝ) (K : Kind τ)

/-- The step handed to `drift` for the literal `c`: `c * step_size` (symplectic-integrator.hpp:198-363); the literal is
rounded by the compiler. -/
noncomputable def substep (h : ℝ) (c : ℚ) : ℝ := rnd (rnd c * h)

/-- The time after `integrate(system, step_size)`: each `drift` adds its step to the time (base-system.hpp:279,
chain-system.hpp:185), `kick` does not touch it. -/
noncomputable def advance (cs : List ℚ) (h : ℝ) (t : τ) : τ := cs.foldl (fun t c => K.add t (substep rnd h c)) t

/-- `std::abs((time - end_time) / end_time) > time_rtol_`, simulator.hpp:411 (division by 0 as in `Simu.notAtEnd`). -/
noncomputable def notAtEnd (t tEnd rtol : ℝ) : Bool :=
  if tEnd = 0 then decide (rnd (t - tEnd) ≠ 0) else decide (|rnd (rnd (t - tEnd) / tEnd)| > rtol)

/-- the step used in this round, simulator.hpp:413-422; `step_scale()` is 1 (base-system.hpp:62, chain-system.hpp:72) -/
noncomputable def clipStep (t tEnd h : ℝ) : ℝ :=
  let rest := rnd (rnd (tEnd - t) * 1)
  if |h| ≤ |rest| then h else rest

/-- The loop of `run`, simulator.hpp:411-424, for a constant-step iterator and no stop condition, observed for at most
`fuel` rounds. -/
noncomputable def loop (cs : List ℚ) (tEnd rtol : ℝ) : Nat → ℝ → τ → Res τ
  | 0, _, _ => .diverge
  | fuel + 1, h, t =>
    if notAtEnd rnd (K.shown t) tEnd rtol then
      let h := clipStep rnd (K.shown t) tEnd h
      loop cs tEnd rtol fuel h (advance rnd K cs h t)
    else .ok t

end SpaceHub.Clock
