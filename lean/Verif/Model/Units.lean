import Verif.Model.Orbit

/-
Model of src/macros.hpp: the units and constants of the library.  Simplification: exact arithmetic, and `consts::pi` is π.
-/

set_option autoImplicit false

namespace SpaceHub.Units

/-- The units, macros.hpp:46-80 (`MAKE_UNIT`). -/
inductive Name
  | AU | Ms | year | deg | kyr | Myr | Gyr | month | day | hr | min | sec | tHubble | kg | mp | km | m | cm | PC | Rs | Re | Rj | kms | cms | Me | Mj | Mmoon
  deriving DecidableEq

/-- The literal operator `operator"" _NAME` (macros.hpp:43-44) multiplies by the unit. -/
noncomputable def lit (x unit : ℝ) : ℝ := x * unit

/-- macros.hpp:46 -/
noncomputable def AU : ℝ := 1
/-- macros.hpp:47 -/
noncomputable def Ms : ℝ := 1
/-- macros.hpp:48 -/
noncomputable def year : ℝ := 2 * Real.pi
/-- macros.hpp:49 -/
noncomputable def deg : ℝ := Real.pi / 180
/-- macros.hpp:51 -/
noncomputable def kyr : ℝ := lit 1e3 year
/-- macros.hpp:52 -/
noncomputable def Myr : ℝ := lit 1e6 year
/-- macros.hpp:53 -/
noncomputable def Gyr : ℝ := lit 1e9 year
/-- macros.hpp:54 -/
noncomputable def month : ℝ := lit 1 year / 12
/-- macros.hpp:55 -/
noncomputable def day : ℝ := lit 1 year / 365.25636042
/-- macros.hpp:56 -/
noncomputable def hr : ℝ := lit 1 day / 24
/-- macros.hpp:57 -/
noncomputable def min : ℝ := lit 1 hr / 60
/-- macros.hpp:58 -/
noncomputable def sec : ℝ := lit 1 min / 60
/-- macros.hpp:59 -/
noncomputable def tHubble : ℝ := lit 13.7 Gyr
/-- macros.hpp:61 -/
noncomputable def kg : ℝ := lit 1 Ms / 1.98847e30
/-- macros.hpp:62 -/
noncomputable def mp : ℝ := lit 1.67262192e-27 kg
/-- macros.hpp:64 -/
noncomputable def km : ℝ := lit 1 AU / 149597870.7
/-- macros.hpp:65 -/
noncomputable def m : ℝ := lit 1 km / 1000
/-- macros.hpp:66 -/
noncomputable def cm : ℝ := m / 100
/-- macros.hpp:67 -/
noncomputable def PC : ℝ := lit 1 AU * 648000 / Real.pi
/-- macros.hpp:68 -/
noncomputable def Rs : ℝ := lit 6.957e5 km
/-- macros.hpp:69 -/
noncomputable def Re : ℝ := lit 6378 km
/-- macros.hpp:70 -/
noncomputable def Rj : ℝ := lit 69911 km
/-- macros.hpp:72 -/
noncomputable def kms : ℝ := km / sec
/-- macros.hpp:73 -/
noncomputable def cms : ℝ := cm / sec
/-- macros.hpp:74 -/
noncomputable def Me : ℝ := lit 3.003e-6 Ms
/-- macros.hpp:75 -/
noncomputable def Mj : ℝ := lit 317.8 Me
/-- macros.hpp:76 -/
noncomputable def Mmoon : ℝ := lit 0.012300 Me

/-- The value of a unit. -/
noncomputable def Name.value : Name → ℝ
  | .AU => Units.AU | .Ms => Units.Ms | .year => Units.year | .deg => Units.deg | .kyr => Units.kyr | .Myr => Units.Myr | .Gyr => Units.Gyr | .month => Units.month
  | .day => Units.day | .hr => Units.hr | .min => Units.min | .sec => Units.sec | .tHubble => Units.tHubble | .kg => Units.kg | .mp => Units.mp | .km => Units.km
  | .m => Units.m | .cm => Units.cm | .PC => Units.PC | .Rs => Units.Rs | .Re => Units.Re | .Rj => Units.Rj | .kms => Units.kms | .cms => Units.cms | .Me => Units.Me
  | .Mj => Units.Mj | .Mmoon => Units.Mmoon

/-- macros.hpp:101 -/
noncomputable def G : ℝ := 1
/-- macros.hpp:102 -/
noncomputable def C : ℝ := 299792.458 * kms
/-- macros.hpp:103 -/
noncomputable def kB : ℝ := 1.38064852e-23 * m * m * kg / sec / sec
/-- macros.hpp:104 -/
noncomputable def kBOnMp : ℝ := 9.294676266398779e-06

end SpaceHub.Units
