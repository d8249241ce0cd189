import Verif.Model.RoundedChain
import Verif.Model.RoundedRegu

/-
ARchain systems under gravity in rounded arithmetic: src/particle-system/archain.hpp, operation by operation, with the operations of the scalar type as a
parameter.  Simplifications as in Model/RoundedChain and Model/RoundedRegu.
-/

set_option autoImplicit false

namespace SpaceHub.Rounded
open SpaceHub V3 Force Core Integrator Sys

variable (A : Arith) (G : ℝ) (type : ReguType)

/-- The members that a chain system has too, archain.hpp:166-184 and chain-system.hpp:132-149. -/
def chainPart (s : ARSys) : ChainSys :=
  { P := s.P, time := s.time, cpos := s.cpos, cvel := s.cvel, index := s.index, aux := s.aux, caux := s.caux, inc := s.inc, sync := s.sync }

/-- Constructor, archain.hpp:190-211; `idx` is the index that `calc_chain_index` produced, and the energies of the `Regularization` are those of the chain
(core-computation.hpp:495-534). -/
def initAR (time : ℝ) (P : Particles) (idx : Arr Nat) : ARSys :=
  let cpos := toChainR A P.num P.pos (fun _ => 0) idx
  let cvel := toChainR A P.num P.vel (fun _ => 0) idx
  let pot := potentialChainR A G P { chainPos := cpos, chainVel := cvel, index := idx }
  { P := P, time := time, cpos := cpos, cvel := cvel, index := idx, aux := P.vel, caux := cvel,
    R := { omega := -pot, bindE := -(A.add pot (kineticR A P)), scale := if type = .none then 1 else -pot }, inc := fun _ => 0, sync := false }

/-- `eval_pos_phy_time`, regu-system.hpp:509-523: the updated members and the physical time. -/
def posTimeAR (h : ℝ) (s : ARSys) : Regu × ℝ :=
  match type with
  | .logH => let r := { s.R with scale := A.add s.R.bindE (kineticR A s.P) }; (r, A.div h r.scale)
  | .ttl => let r := { s.R with scale := s.R.omega }; (r, A.div h r.scale)
  | .none => (s.R, h)

/-- `eval_vel_phy_time`, `capital_omega`, regu-system.hpp:525-545; the potential energy is that of the chain. -/
def velTimeAR (h : ℝ) (s : ARSys) : Regu × ℝ :=
  match type with
  | .logH => let r := { s.R with scale := -potentialChainR A G s.P s.view }; (r, A.div h r.scale)
  | .ttl => let r := { s.R with scale := -potentialChainR A G s.P s.view }; (r, A.div h r.scale)
  | .none => (s.R, h)

/-- `drift`, archain.hpp:219-226, with `chain_advance` of 420-427. -/
def driftAR (h : ℝ) (s : ARSys) : ARSys :=
  let rt := posTimeAR A type h s
  let cpos := advance A s.P.num s.cpos s.cvel rt.2
  { s with R := rt.1, cpos := cpos, P := { s.P with pos := toCartR A s.P.num cpos s.P.pos s.index }, time := A.add s.time rt.2 }

/-- `kick`, archain.hpp:228-253, with `eval_vel_indep_acc` of 429-439 and `advance_omega` of 461-468. -/
def kickAR (h : ℝ) (s : ARSys) : ARSys :=
  let rt := velTimeAR A G type h s
  let half := A.mul (A.lit (1 / 2)) rt.2
  let newt := accChain A (chainPart s)
  let cacc := toChainR A s.P.num newt (fun _ => 0) s.index
  let w := omegaR A type s.P newt half rt.1.omega
  let cvel := advance A s.P.num s.cvel cacc rt.2
  let P := { s.P with vel := toCartR A s.P.num cvel s.P.vel s.index }
  { s with cvel := cvel, P := P, R := { rt.1 with omega := omegaR A type P newt half w } }

/-- `drift(c * step_size)`, `kick(c * step_size)`. -/
def stageAR (h : ℝ) : Stage → ARSys → ARSys
  | .drift c => driftAR A type (A.mul (A.lit c) h)
  | .kick c => kickAR A G type (A.mul (A.lit c) h)

/-- `integrate(system, step_size)`, symplectic-integrator.hpp:198-363. -/
def stepAR (stages : List Stage) (h : ℝ) (s : ARSys) : ARSys := stages.foldl (fun s c => stageAR A G type h c s) s

open Classical in
/-- `post_iter_process`, archain.hpp:263-273; `newIdx` is the index that `calc_chain_index` produced. -/
noncomputable def postIterAR (newIdx : Arr Nat) (s : ARSys) : ARSys :=
  if ∃ k, k < s.P.num ∧ newIdx k ≠ s.index k then
    let cpos := updateChainR A s.P.num s.cpos s.P.pos s.index newIdx
    let pos := toCartR A s.P.num cpos s.P.pos newIdx
    let cvel := updateChainR A s.P.num s.cvel s.P.vel s.index newIdx
    let vel := toCartR A s.P.num cvel s.P.vel newIdx
    { s with cpos := cpos, cvel := cvel, P := { s.P with pos := pos, vel := vel }, index := newIdx }
  else s

/-- One step and `post_iter_process`; ties in the distances leave the new chain open. -/
def StepsToAR (stages : List Stage) (h : ℝ) (s s' : ARSys) : Prop :=
  ∃ idx, IndexOfR A (stepAR A G type stages h s).P idx ∧ s' = postIterAR A idx (stepAR A G type stages h s)

end SpaceHub.Rounded
