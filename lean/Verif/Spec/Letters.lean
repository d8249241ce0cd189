import Mathlib.Algebra.BigOperators.Group.Finset.Basic
import Mathlib.Data.Nat.Factorial.Basic
import Mathlib.Data.Rat.Defs
import Mathlib.Algebra.Field.Rat

/-
Order conditions of an integrator that switches between several motions, as in `Spec.Order`, for any number of motions: `ι` names them.  A stage `(X, c)`
follows the motion `X` for `c` times the step, `exp (c h X)`; the true motion is `exp (h (X + Y + ...))`, and has the coefficient `1 / k!` for every word of
`k` letters.
-/

set_option autoImplicit false

namespace SpaceHub.Letters
open Finset

variable {ι : Type*} [DecidableEq ι]

/-- The coefficient of a word in the product of the exponentials of the stages, the first stage to the left. -/
def wordCoef : List (ι × ℚ) → List ι → ℚ
  | [], w => if w = [] then 1 else 0
  | s :: l, w => ∑ k ∈ range (w.length + 1), if w.take k = List.replicate k s.1 then s.2 ^ k / k.factorial * wordCoef l (w.drop k) else 0

/-- The coefficient of the word `w` is off that of the true motion by `deviation`. -/
def deviation (stages : List (ι × ℚ)) (w : List ι) : ℚ := wordCoef stages w - 1 / w.length.factorial

end SpaceHub.Letters
