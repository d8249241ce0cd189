import Mathlib.Data.Real.Basic
import Mathlib.Algebra.Order.Field.Power
import Mathlib.Algebra.Group.Even

/-
Specification: binary floating-point numbers and rounding to nearest.  The exponent is not bounded (no overflow; additions
and subtractions do not underflow in IEEE arithmetic).
-/

set_option autoImplicit false

namespace SpaceHub.Spec

/-- `x` is a binary floating-point number with a significand of `p` bits (53 for `double`). -/
def IsFloat (p : Nat) (x : ℝ) : Prop := ∃ m e : ℤ, |m| < 2 ^ p ∧ x = (m : ℝ) * (2 : ℝ) ^ e

/-- `rnd` rounds every number to a nearest floating-point number (ties in any way). -/
structure Nearest (p : Nat) (rnd : ℝ → ℝ) : Prop where
  float : ∀ x, IsFloat p (rnd x)
  nearest : ∀ x y, IsFloat p y → |rnd x - x| ≤ |y - x|

/-- A positive number half-way between two floating-point numbers goes to the one with the even significand (the default
of IEEE arithmetic). -/
def TiesEven (p : Nat) (rnd : ℝ → ℝ) : Prop :=
  ∀ m e : ℤ, 2 ^ (p - 1) ≤ m → m < 2 ^ p →
    rnd (((m : ℝ) + 1 / 2) * 2 ^ e) = ((if Even m then m else m + 1 : ℤ) : ℝ) * 2 ^ e

end SpaceHub.Spec
