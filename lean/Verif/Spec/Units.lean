import Verif.Model.Units

/-
The units of the library in the international system (metre, kilogram, second).
-/

set_option autoImplicit false

namespace SpaceHub.Units.Spec

inductive Dim
  | length | time | mass | speed | angle

/-- what is measured in the unit -/
def dim : Name → Dim
  | .AU | .km | .m | .cm | .PC | .Rs | .Re | .Rj => .length
  | .year | .kyr | .Myr | .Gyr | .month | .day | .hr | .min | .sec | .tHubble => .time
  | .Ms | .kg | .mp | .Me | .Mj | .Mmoon => .mass
  | .kms | .cms => .speed
  | .deg => .angle

/-- how many metres, seconds, kilograms, metres per second or radians it is -/
noncomputable def si : Name → ℝ
  | .AU => 149597870700
  | .km => 1000
  | .m => 1
  | .cm => 1 / 100
  | .PC => 149597870700 * 648000 / Real.pi
  | .Rs => 695700000
  | .Re => 6378000
  | .Rj => 69911000
  | .year => 365.25636042 * 86400
  | .kyr => 1000 * (365.25636042 * 86400)
  | .Myr => 10 ^ 6 * (365.25636042 * 86400)
  | .Gyr => 10 ^ 9 * (365.25636042 * 86400)
  | .month => 365.25636042 * 86400 / 12
  | .day => 86400
  | .hr => 3600
  | .min => 60
  | .sec => 1
  | .tHubble => 13.7 * 10 ^ 9 * (365.25636042 * 86400)
  | .Ms => 1.98847 * 10 ^ 30
  | .kg => 1
  | .mp => 1.67262192 / 10 ^ 27
  | .Me => 3.003 / 10 ^ 6 * (1.98847 * 10 ^ 30)
  | .Mj => 317.8 * (3.003 / 10 ^ 6 * (1.98847 * 10 ^ 30))
  | .Mmoon => 0.0123 * (3.003 / 10 ^ 6 * (1.98847 * 10 ^ 30))
  | .kms => 1000
  | .cms => 1 / 100
  | .deg => Real.pi / 180

/-- the base units, as the library has them -/
noncomputable def base : Dim → ℝ
  | .length => Units.m
  | .time => Units.sec
  | .mass => Units.kg
  | .speed => Units.m / Units.sec
  | .angle => 1

end SpaceHub.Units.Spec
