import Verif.Model.RoundedAR

/-
What a simulation reports about its energy, in rounded arithmetic: `calc_energy_error`, src/core-computation.hpp, and `EnergyErrWriter`,
src/args-callback/callbacks.hpp.  Simplifications as in Model/Rounded; negation and absolute value are not rounded, nor is the logarithm.
-/

set_option autoImplicit false

namespace SpaceHub.Rounded
open SpaceHub V3 Force Core Integrator Sys

variable (A : Arith) (G : ℝ)

/-- `calc_energy_error`, core-computation.hpp:620-623, 627: systems without regularisation; kinetic energy, potential energy, energy at the start. -/
def energyErrorOf (T V E0 : ℝ) : ℝ := |A.div (A.sub (A.sub T (-V)) E0) E0|

/-- `calc_energy_error`, core-computation.hpp:620-625: regularised systems; kinetic energy, potential energy, binding energy. -/
noncomputable def energyLogOf (T V bindE : ℝ) : ℝ := Real.log |A.div (A.add T bindE) (-V)|

/-- `calc_total_energy`, core-computation.hpp:531-534, for systems with chain coordinates. -/
def totalEnergyC (P : Particles) (C : ChainView) : ℝ := A.add (potentialChainR A G P C) (kineticR A P)

/-- `EnergyErrWriter::operator()`, callbacks.hpp:472-476, for a plain system: the `static` variable `E0`, if it is initialised, and the particles; its
value afterwards and the number that is written. -/
def energyWriteR (E0 : Option ℝ) (P : Particles) : Option ℝ × ℝ :=
  let e := E0.getD (totalEnergyR A G P)
  (some e, energyErrorOf A (kineticR A P) (potentialR A G P) e)

/-- The same for a chain system. -/
def energyWriteC (E0 : Option ℝ) (s : ChainSys) : Option ℝ × ℝ :=
  let e := E0.getD (totalEnergyC A G s.P s.view)
  (some e, energyErrorOf A (kineticR A s.P) (potentialChainR A G s.P s.view) e)

/-- What `EnergyErrWriter::operator()` writes for a regularised system; `E0` is not used. -/
noncomputable def energyLogR (s : ReguSys) : ℝ := energyLogOf A (kineticR A s.P) (potentialR A G s.P) s.R.bindE

/-- What `EnergyErrWriter::operator()` writes for an ARchain system. -/
noncomputable def energyLogAR (s : ARSys) : ℝ := energyLogOf A (kineticR A s.P) (potentialChainR A G s.P s.view) s.R.bindE

end SpaceHub.Rounded
