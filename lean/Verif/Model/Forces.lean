import Verif.Model.System

/-
The force classes of src/interaction as the template arguments of `Interactions`: their `vel_dependent` flags and
`add_acc_to` functions, for plain systems (`ForceClass`) and for chain systems (`ChainForce`).  The gas forces do not
look at the chain coordinates.
-/

set_option autoImplicit false

namespace SpaceHub.Sys.Lib
open SpaceHub V3 Force Core

/-- `NewtonianGrav`, newtonian.hpp:42-61, 69-120. -/
noncomputable def newton : ForceClass Particles := { velDep := false, addAccTo := newtonDirect }
/-- `NewtonianGrav` on a chain system, newtonian.hpp:42-61, 69-120. -/
noncomputable def newtonC : ChainForce := { velDep := false, addAccTo := newtonChain }

/-- `PN1`, `PN2`, `PN2p5`, post-newtonian.hpp:38-118. -/
noncomputable def pn (G c : ℝ) (k : PN) : ForceClass Particles := { velDep := true, addAccTo := pnDirect G c k }
/-- `PN1`, `PN2`, `PN2p5` on a chain system, post-newtonian.hpp:38-118. -/
noncomputable def pnC (G c : ℝ) (k : PN) : ChainForce := { velDep := true, addAccTo := pnChain G c k }

/-- `Tidal`, tidal.hpp:27-43. -/
noncomputable def tidal (G : ℝ) (T : TideData) : ForceClass Particles := { velDep := true, addAccTo := tidalDirect G T }
/-- `Tidal` on a chain system, tidal.hpp:27-43. -/
noncomputable def tidalC (G : ℝ) (T : TideData) : ChainForce := { velDep := true, addAccTo := tidalChain G T }

/-- `DiskCaptureStar`, disk-capture-star.hpp:28-38. -/
noncomputable def capture (rad : Arr ℝ) : ForceClass Particles := { velDep := true, addAccTo := captureAcc rad }
/-- `DiskCaptureStar` on a chain system, disk-capture-star.hpp:28-38. -/
noncomputable def captureC (rad : Arr ℝ) : ChainForce := { velDep := true, addAccTo := fun P _ a => .ok (captureAcc rad P a) }

/-- `AlphaDisk`, alpha-disk.hpp:29-40. -/
noncomputable def alpha (G : ℝ) (D : DiskParams) (rad : Arr ℝ) : ForceClass Particles :=
  { velDep := true, addAccTo := alphaAcc G D rad }
/-- `AlphaDisk` on a chain system, alpha-disk.hpp:29-40. -/
noncomputable def alphaC (G : ℝ) (D : DiskParams) (rad : Arr ℝ) : ChainForce :=
  { velDep := true, addAccTo := fun P _ a => .ok (alphaAcc G D rad P a) }

/-- `StaticGasDrag`, static-gas-drag.hpp:27-40. -/
noncomputable def drag (c cs : Arr ℝ) : ForceClass Particles := { velDep := true, addAccTo := staticDragAcc c cs }
/-- `StaticGasDrag` on a chain system, static-gas-drag.hpp:27-40. -/
noncomputable def dragC (c cs : Arr ℝ) : ChainForce := { velDep := true, addAccTo := fun P _ a => .ok (staticDragAcc c cs P a) }

end SpaceHub.Sys.Lib
