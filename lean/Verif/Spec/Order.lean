import Verif.Spec.Gravity
import Mathlib.Algebra.BigOperators.Group.Finset.Basic
import Mathlib.Data.Nat.Factorial.Basic

/-
The order of an integrator made of position and velocity updates, by its order conditions.

Let `A` be the motion without forces and `B` the action of the forces at rest: `exp (c h A)` is a position update with the step `c h`, `exp (c h B)` a
velocity update, and `exp (h (A + B))` the true motion.  An integrator is a product of the first two; written out as a power series in the
non-commuting `A` and `B` it has a coefficient for each word, e.g. for `A A B`.  The true motion has the coefficient `1 / k!` for every word of `k` letters.
-/

set_option autoImplicit false

namespace SpaceHub.Spec
open SpaceHub Finset Integrator

/-- The letter of a stage: `true` is `A`, `false` is `B`. -/
def letter : Stage → Bool
  | .drift _ => true
  | .kick _ => false

/-- The coefficient of a word in the product of the exponentials of the stages, the first stage to the left: the word is `k` times the letter of the first
stage, from `c ^ k / k!` in its exponential, followed by a word of the remaining product. -/
def wordCoef : List Stage → List Bool → ℚ
  | [], w => if w = [] then 1 else 0
  | s :: l, w => ∑ k ∈ range (w.length + 1), if w.take k = List.replicate k (letter s) then coef s ^ k / k.factorial * wordCoef l (w.drop k) else 0

/-- The coefficient of the word `w` is off that of the true motion by `deviation`. -/
def deviation (stages : List Stage) (w : List Bool) : ℚ := wordCoef stages w - 1 / w.length.factorial

end SpaceHub.Spec
