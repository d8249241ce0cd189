import Verif.Model.Orbit
import Mathlib.Analysis.SpecialFunctions.Log.Base

/-
Model of src/rand-generator.hpp.  The generators (`std::mt19937` and the distributions of the standard library) are not modelled: a call
takes from a stream the numbers they deliver, which the theorems quantify over.  `none` is NaN.
-/

set_option autoImplicit false

namespace SpaceHub.Random
open SpaceHub Orbit Classical

/-- A number delivered by a distribution: `none` is NaN. -/
abbrev Draw := Option ℝ

/-- `x <= r && r <= y`: false for NaN. -/
noncomputable def within (low high : ℝ) : Draw → Bool
  | none => false
  | some r => decide (low ≤ r) && decide (r ≤ high)

/-- `r < min_ || r > max_`: false for NaN. -/
noncomputable def outside (low high : ℝ) : Draw → Bool
  | none => false
  | some r => decide (r < low) || decide (r > high)

/-- `TruncatedNormal`, rand-generator.hpp:111-121: `s` is the stream of numbers of the normal distribution, `n` the place in it.  Returns the number
and the new place. -/
noncomputable def truncatedNormal (low high : ℝ) (s : Nat → Draw) : Nat → Nat → Res (Draw × Nat)
  | 0, _ => .diverge
  | fuel + 1, n =>
    let r := s n
    if within low high r then .ok (r, n + 1) else truncatedNormal low high s fuel (n + 1)

/-- `sqrt(x * x + y * y + z * z)` of three draws. -/
noncomputable def length3 : Draw → Draw → Draw → Draw
  | some x, some y, some z => some (Real.sqrt (x * x + y * y + z * z))
  | _, _, _ => none

/-- `Maxwellian`, rand-generator.hpp:129-136. -/
noncomputable def maxwellian (s : Nat → Draw) (n : Nat) : Draw × Nat := (length3 (s n) (s (n + 1)) (s (n + 2)), n + 3)

/-- `TruncatedMaxwellian`, rand-generator.hpp:161-174. -/
noncomputable def truncatedMaxwellian (low high : ℝ) (s : Nat → Draw) : Nat → Nat → Res (Draw × Nat)
  | 0, _ => .diverge
  | fuel + 1, n =>
    let r := length3 (s n) (s (n + 1)) (s (n + 2))
    if within low high r then .ok (r, n + 3) else truncatedMaxwellian low high s fuel (n + 3)

/-- The members of `Parameter` besides the distribution, rand-generator.hpp:198-200. -/
structure Param where
  min : ℝ
  max : ℝ

/-- `std::numeric_limits<double>::min()`: the smallest positive normal number. -/
noncomputable def dblMin : ℝ := 1 / 2 ^ 1022
/-- `std::numeric_limits<double>::max()`. -/
noncomputable def dblMax : ℝ := (2 - 1 / 2 ^ 52) * 2 ^ 1023

/-- The constructor of `Parameter`, rand-generator.hpp:180-181 and 198-199. -/
noncomputable def Param.new : Param := { min := dblMin, max := dblMax }
/-- `set_max`, rand-generator.hpp:191. -/
def Param.setMax (p : Param) (x : ℝ) : Param := { p with max := x }
/-- `set_min`, rand-generator.hpp:193. -/
def Param.setMin (p : Param) (x : ℝ) : Param := { p with min := x }
/-- `set_boundary`, rand-generator.hpp:195. -/
def Param.setBoundary (p : Param) (x y : ℝ) : Param := { p with min := x, max := y }

/-- `Parameter::draw`, rand-generator.hpp:183-189: `s` is the stream of the values of the bound distribution. -/
noncomputable def Param.draw (p : Param) (s : Nat → Draw) : Nat → Nat → Res (Draw × Nat)
  | 0, _ => .diverge
  | fuel + 1, n =>
    let r := s n
    if outside p.min p.max r then p.draw s fuel (n + 1) else .ok (r, n + 1)

/-- `std::uniform_real_distribution`: its constructor requires `low <= high` (rand.dist.uni.real); `t` in `[0, 1)` is the number of the
generator. -/
noncomputable def uniform (low high t : ℝ) : Res ℝ := if low ≤ high then .ok (low + t * (high - low)) else .ub

/-- `Logarithm`, rand-generator.hpp:60-66; the logarithm of a non-positive number is NaN or infinite. -/
noncomputable def logarithm (low high t : ℝ) : Res ℝ :=
  if low ≤ 0 ∨ high ≤ 0 then .nan
  else do
    let x ← uniform (Real.logb 10 low) (Real.logb 10 high) t
    Res.ok ((10:ℝ) ^ x)

/-- `PowerLaw`, rand-generator.hpp:76-87.  Simplification: negative limits give NaN (for an integer power C++ would go on). -/
noncomputable def powerLaw (eps power low high t : ℝ) : Res ℝ :=
  if iseq eps power (-1) then logarithm low high t
  else
    let beta := power + 1
    if low < 0 ∨ high < 0 ∨ ((low = 0 ∨ high = 0) ∧ beta < 0) then .nan
    else do
      let x ← uniform (low ^ beta) (high ^ beta) t
      Res.ok (x ^ (1 / beta))

/-- `Normal2`, rand-generator.hpp:138-151: `s` is the stream of numbers in `[-1, 1)`. -/
noncomputable def normal2 (minR : ℝ) (s : Nat → ℝ) : Nat → Nat → Res ((ℝ × ℝ) × Nat)
  | 0, _ => .diverge
  | fuel + 1, n =>
    let x := s n
    let y := s (n + 1)
    let r2 := x * x + y * y
    if r2 < 1 ∧ r2 > minR * minR then do
      let q ← fdiv (-2 * Real.log r2) r2
      let f ← fsqrt q
      Res.ok ((x * f, y * f), n + 2)
    else normal2 minR s fuel (n + 2)

end SpaceHub.Random
