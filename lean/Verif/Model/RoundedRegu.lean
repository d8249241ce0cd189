import Verif.Model.RoundedCore
import Verif.Model.System

/-
Regularised systems under gravity in rounded arithmetic: src/particle-system/regu-system.hpp, operation by operation, with the operations of the scalar type
as a parameter.  Simplifications as in Model/Rounded; the negation of a number is not rounded; gravity is the only force; no increments are collected.  Where
the source divides by zero the result is what the parameter gives, and nothing is assumed of it.
-/

set_option autoImplicit false

namespace SpaceHub.Rounded
open SpaceHub V3 Force Core Integrator Sys

variable (A : Arith) (G : ℝ) (type : ReguType)

/-- Constructor, regu-system.hpp:221-231, 499-507. -/
def initR (time : ℝ) (P : Particles) : ReguSys :=
  { P := P, time := time, aux := P.vel,
    R := { omega := -potentialR A G P, bindE := -totalEnergyR A G P, scale := if type = .none then 1 else -potentialR A G P },
    inc := fun _ => 0, sync := false }

/-- `eval_pos_phy_time`, regu-system.hpp:509-523: the updated members and the physical time. -/
def posTimeR (h : ℝ) (s : ReguSys) : Regu × ℝ :=
  match type with
  | .logH => let r := { s.R with scale := A.add s.R.bindE (kineticR A s.P) }; (r, A.div h r.scale)
  | .ttl => let r := { s.R with scale := s.R.omega }; (r, A.div h r.scale)
  | .none => (s.R, h)

/-- `eval_vel_phy_time`, `capital_omega`, regu-system.hpp:525-545. -/
def velTimeR (h : ℝ) (s : ReguSys) : Regu × ℝ :=
  match type with
  | .logH => let r := { s.R with scale := -potentialR A G s.P }; (r, A.div h r.scale)
  | .ttl => let r := { s.R with scale := -potentialR A G s.P }; (r, A.div h r.scale)
  | .none => (s.R, h)

/-- `drift`, regu-system.hpp:251-258. -/
def driftR (h : ℝ) (s : ReguSys) : ReguSys :=
  let rt := posTimeR A type h s
  { s with R := rt.1, P := { s.P with pos := advance A s.P.num s.P.pos s.P.vel rt.2 }, time := A.add s.time rt.2 }

/-- `calc_domega_dt` and `advance_omega`, regu-system.hpp:429-438, 451-458: the new value of `omega`. -/
def omegaR (P : Particles) (d : Arr (V3 ℝ)) (t omega : ℝ) : ℝ := A.add omega (A.mul (if type = .ttl then contractR A P.num P.mass P.vel d else 0) t)

/-- `kick`, regu-system.hpp:260-283, with `eval_vel_indep_acc` of 417-427. -/
def kickR (h : ℝ) (s : ReguSys) : ReguSys :=
  let rt := velTimeR A G type h s
  let half := A.mul (A.lit (1 / 2)) rt.2
  let newt := acc A s.P
  let w := omegaR A type s.P newt half rt.1.omega
  let P := { s.P with vel := advance A s.P.num s.P.vel newt rt.2 }
  { s with P := P, R := { rt.1 with omega := omegaR A type P newt half w } }

/-- `drift(c * step_size)`, `kick(c * step_size)`. -/
def stageR (h : ℝ) : Stage → ReguSys → ReguSys
  | .drift c => driftR A type (A.mul (A.lit c) h)
  | .kick c => kickR A G type (A.mul (A.lit c) h)

/-- `integrate(system, step_size)`, symplectic-integrator.hpp:198-363. -/
def stepR (stages : List Stage) (h : ℝ) (s : ReguSys) : ReguSys := stages.foldl (fun s c => stageR A G type h c s) s

/-- Steps of given lengths of the transformed time, one after the other (`ConstOdeIterator`, const-iterator.hpp:49-58). -/
def runR (stages : List Stage) (hs : List ℝ) (s : ReguSys) : ReguSys := hs.foldl (fun s h => stepR A G type stages h s) s

end SpaceHub.Rounded
