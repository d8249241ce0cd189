import Verif.Model.Basic
import Mathlib.Data.Real.Basic

/-
Model of the root finders and small functions of src/math.hpp, in exact arithmetic.
-/

set_option autoImplicit false

namespace SpaceHub.MathFn

open Classical in
/-- `math::step`, math.hpp:128-131. -/
noncomputable def step (x : ℝ) : ℝ := if x > 0 then 1 else 0

open Classical in
/-- `math::sign`, math.hpp:142-145. -/
noncomputable def sign (x : ℝ) : ℝ := -1 + 2 * (if x > 0 then 1 else 0)

open Classical in
/-- `math::root_bisection`, math.hpp:242-254; `eps` is the machine epsilon of the type.  `fuel` bounds the number of
passes, of which the program has no bound.  Simplification: no rounding, in particular no underflow of `f(mid) * f(high)`. -/
noncomputable def bisection (f : ℝ → ℝ) (eps : ℝ) : Nat → ℝ → ℝ → Res ℝ
  | 0, _, _ => .diverge
  | fuel + 1, low, high =>
    if |high - low| > |high| * eps then
      let mid := 1 / 2 * (high + low)
      if f mid * f high > 0 then bisection f eps fuel low mid else bisection f eps fuel mid high
    else .ok (1 / 2 * (high + low))

open Classical in
/-- The loop of `math::root_newton`, math.hpp:269-276: `m` passes to go. -/
noncomputable def newtonLoop (f : ℝ → ℝ) (eps : ℝ) : Nat → ℝ → ℝ → ℝ
  | 0, _, x => x
  | m + 1, x0, _ =>
    let x := x0 - f x0
    if |x - x0| ≤ eps then x else newtonLoop f eps m x x

/-- `math::root_newton`, math.hpp:263-278 (`f` is the quotient of the function and its derivative). -/
noncomputable def newton (f : ℝ → ℝ) (eps : ℝ) : ℝ := newtonLoop f eps 1000 0 1

end SpaceHub.MathFn
