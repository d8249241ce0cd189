import Mathlib.Data.Real.Basic
import Mathlib.Analysis.SpecialFunctions.Log.Base

/-
What it means to look a value up in a table.  No reference to the model.
-/

set_option autoImplicit false

namespace SpaceHub.Profile

/-- `(x, y)` lies on the segment between two consecutive points `(xs[j], ys[j])` and `(xs[j + 1], ys[j + 1])` of the table. -/
def OnSegment (xs ys : List ℚ) (x y : ℝ) : Prop :=
  ∃ (j : Nat) (x0 x1 y0 y1 : ℚ), xs[j]? = some x0 ∧ xs[j + 1]? = some x1 ∧ ys[j]? = some y0 ∧ ys[j + 1]? = some y1 ∧
    (x0 : ℝ) ≤ x ∧ x ≤ x1 ∧ (y - y0) * (x1 - x0) = (x - x0) * (y1 - y0)

/-- The value at `R > 0` of a quantity tabulated against the decimal logarithm of `R`: piecewise linear, continued by constants. -/
def ValueAt (xs ys : List ℚ) (R y : ℝ) : Prop :=
  (∃ x0 y0 : ℚ, xs.head? = some x0 ∧ ys.head? = some y0 ∧ Real.logb 10 R < x0 ∧ y = y0) ∨
  (∃ x1 y1 : ℚ, xs.getLast? = some x1 ∧ ys.getLast? = some y1 ∧ x1 ≤ Real.logb 10 R ∧ y = y1) ∨
  OnSegment xs ys (Real.logb 10 R) y

end SpaceHub.Profile
