import Verif.Model.GaussRadau

/-
Macro steps of chain systems with IAS15.
-/

set_option autoImplicit false

namespace SpaceHub.Radau
open SpaceHub SpaceHub.Sys

/-- One macro step of a simulation of a chain system with IAS15: `Simulator::advance_one_step`, simulator.hpp:429-434, i.e. `pre_iter_process`, `iterate`,
`post_iter_process`.  The iterator `it` is called with the step `H`; `s'`, `it'` and `h'` are the system, the iterator and the step afterwards, `u` the system
before `post_iter_process`.  A relation because ties in the distances leave the new index open; `fuel` bounds the passes of the loop in `iterate`. -/
def ChainMacro (T : Tab) (I : ChainInteractions) (big : ℝ) (fuel : Nat) (H : ℝ) (it : IAS) (s u s' : ChainSys) (it' : IAS) (h' : ℝ) : Prop :=
  iterate T (radauChain I) big fuel 0 H it (s.preIter I) = .ok (u, it', h') ∧ ∃ idx, IndexOf u.P idx ∧ u.postIter idx = .ok s'

/-- The same for an AR-chain system. -/
def ARMacro (T : Tab) (G : ℝ) (type : ReguType) (I : ChainInteractions) (big : ℝ) (fuel : Nat) (H : ℝ) (it : IAS) (s u s' : ARSys) (it' : IAS) (h' : ℝ) : Prop :=
  iterate T (radauAR G type I) big fuel 0 H it (s.preIter I) = .ok (u, it', h') ∧ ∃ idx, IndexOf u.P idx ∧ u.postIter idx = .ok s'

end SpaceHub.Radau
