import Verif.Spec.Accurate

/-
Specification: how many units in the last place a result may be off.
-/

set_option autoImplicit false

namespace SpaceHub.Rounded
open SpaceHub

/-- The relative error of `k` operations in a row, `k u / (1 - k u)`: `k u`, up to terms with `u²`. -/
noncomputable def gam (u : ℝ) (k : Nat) : ℝ := k * u / (1 - k * u)

end SpaceHub.Rounded
