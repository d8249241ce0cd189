import Mathlib.Analysis.SpecialFunctions.Pow.Real
import Verif.Model.Basic

/-
Model of src/ode-iterator/step-controller/PID-controller.hpp, src/ode-iterator/error-checker/*.hpp and
src/ode-iterator/sequent-iterator.hpp.
-/

set_option autoImplicit false

namespace SpaceHub.Ctl
open SpaceHub

/-! ### step controller -/

/-- `math::in_range`, math.hpp:113-117. -/
noncomputable def inRange (low x high : ℝ) : ℝ :=
  let tmp := if low > x then low else x
  if tmp > high then high else tmp

/-- Members of `PIDController`, PID-controller.hpp:76-97.  The three arrays have `max_order` = 50 entries. -/
structure PID where
  s1 : ℝ
  s2 : ℝ
  s3 : ℝ
  s4 : ℝ
  Kp : ℝ
  Ki : ℝ
  Kd : ℝ
  limMax : Arr ℝ
  limMin : Arr ℝ
  expon : Arr ℝ

namespace PID

/-- The members with their default values and the constructor, PID-controller.hpp:84-96, 163-173; exact arithmetic
(`POW` is the real power). -/
noncomputable def new : PID where
  s1 := 65 / 100
  s2 := 95 / 100
  s3 := 2 / 100
  s4 := 4
  Kp := 7 / 10
  Ki := 4 / 10
  Kd := 0
  limMax := fun i => if i = 0 then 4 else (1 / (2 / 100 : ℝ)) ^ (1 / (i : ℝ))
  limMin := fun i => if i = 0 then 1 / 4 else (2 / 100 : ℝ) ^ (1 / (i : ℝ)) / 4
  expon := fun i => if i = 0 then 0 else 1 / (i : ℝ)

/-- `set_PID_coefficients`, PID-controller.hpp:111-113. -/
def setPID (kp ki kd : ℝ) (c : PID) : PID := { c with Kp := kp, Ki := ki, Kd := kd }
/-- `set_safe_guards`, PID-controller.hpp:116-119. -/
def setGuards (a b : ℝ) (c : PID) : PID := { c with s1 := a, s2 := b }
/-- `set_limiter`, PID-controller.hpp:122-125. -/
def setLimiter (a b : ℝ) (c : PID) : PID := { c with s3 := a, s4 := b }

/-- `limiter(order, ratio)`, PID-controller.hpp:101-103.  An order of 50 or more reads outside the tables. -/
noncomputable def limiter (c : PID) (order : Nat) (ratio : ℝ) : Res ℝ :=
  if order < 50 then .ok (inRange (c.limMin order) ratio (c.limMax order)) else .ub

/-- `limiter(ratio)`, PID-controller.hpp:106-108. -/
noncomputable def limiter0 (c : PID) (ratio : ℝ) : ℝ := inRange (c.limMin 0) ratio (c.limMax 0)

/-- `POW` of a number that is not negative; a negative base gives NaN (for a fractional exponent). -/
noncomputable def pow (base ex : ℝ) : Res ℝ := if base < 0 then .nan else .ok (base ^ ex)

open Classical in
/-- `next(order, error)`, PID-controller.hpp:155-161, for one error (also the first branch of the tuple overload,
136-141). -/
noncomputable def next (c : PID) (order : Nat) (error : ℝ) : Res ℝ :=
  if order < 50 then
    if error ≠ 0 then do
      let x ← pow (c.s2 / error) (c.expon order)
      .ok (c.s1 * x)
    else .ok (c.limMax order)
  else .ub

open Classical in
/-- `next(order, errors)` for a pair (this step's error, last step's error), PID-controller.hpp:142-148. -/
noncomputable def next2 (c : PID) (order : Nat) (e0 e1 : ℝ) : Res ℝ :=
  if order < 50 then
    if e0 ≠ 0 then do
      let x ← pow (c.s2 / e0) (c.Kp * c.expon order)
      let y ← pow (e1 / c.s2) (c.Ki * c.expon order)
      .ok (c.s1 * x * y)
    else .ok (c.limMax order)
  else .ub

/-- `next_with_limiter(order, error)`, PID-controller.hpp:127-131. -/
noncomputable def nextLim (c : PID) (order : Nat) (error : ℝ) : Res ℝ := do
  let r ← c.next order error
  c.limiter order r

/-- `next_with_limiter(order, errors)` for a pair, PID-controller.hpp:127-131. -/
noncomputable def nextLim2 (c : PID) (order : Nat) (e0 e1 : ℝ) : Res ℝ := do
  let r ← c.next2 order e0 e1
  c.limiter order r
end PID

/-! ### error estimators -/

/-- A floating point value: a number, an infinity or NaN.  Arithmetic on numbers is exact; zeros have no sign (where a
divisor can be zero below, it is a sum of absolute values). -/
inductive Fl where
  | fin (r : ℝ)
  | inf (neg : Bool)
  | nan

namespace Fl
/-- negation -/
def neg : Fl → Fl
  | fin r => fin (-r)
  | inf b => inf (!b)
  | nan => nan
/-- `fabs` -/
noncomputable def abs : Fl → Fl
  | fin r => fin |r|
  | inf _ => inf false
  | nan => nan
/-- addition -/
def add : Fl → Fl → Fl
  | fin a, fin b => fin (a + b)
  | fin _, inf b => inf b
  | inf a, fin _ => inf a
  | inf a, inf b => if a = b then inf a else nan
  | _, _ => nan
/-- subtraction -/
def sub (x y : Fl) : Fl := add x (neg y)
open Classical in
/-- multiplication -/
noncomputable def mul : Fl → Fl → Fl
  | fin a, fin b => fin (a * b)
  | fin a, inf b => if a = 0 then nan else inf (decide (a < 0) != b)
  | inf a, fin b => if b = 0 then nan else inf (decide (b < 0) != a)
  | inf a, inf b => inf (a != b)
  | _, _ => nan
open Classical in
/-- division -/
noncomputable def div : Fl → Fl → Fl
  | fin a, fin b => if b = 0 then (if a = 0 then nan else inf (decide (a < 0))) else fin (a / b)
  | fin _, inf _ => fin 0
  | inf a, fin b => inf (decide (b < 0) != a)
  | _, _ => nan
open Classical in
/-- `x < y` -/
noncomputable def lt : Fl → Fl → Bool
  | fin a, fin b => decide (a < b)
  | fin _, inf b => !b
  | inf a, fin _ => a
  | inf a, inf b => a && !b
  | _, _ => false
open Classical in
/-- `x <= y` -/
noncomputable def le : Fl → Fl → Bool
  | fin a, fin b => decide (a ≤ b)
  | fin _, inf b => !b
  | inf a, fin _ => a
  | inf a, inf b => a || !b
  | _, _ => false
open Classical in
/-- `x == 0` -/
noncomputable def isZero : Fl → Bool
  | fin a => decide (a = 0)
  | _ => false
/-- `sqrt` -/
noncomputable def sqrt : Fl → Fl
  | fin a => if a < 0 then nan else fin (Real.sqrt a)
  | inf false => inf false
  | _ => nan
/-- `std::max(a, b)`: `(a < b) ? b : a` -/
noncomputable def stdMax (a b : Fl) : Fl := if lt a b then b else a
/-- `math::max`, math.hpp:82-84: `y > x ? y : x`. -/
noncomputable def mathMax (x y : Fl) : Fl := if lt x y then y else x
end Fl

open Fl

/-- `WorstOffender::error(y0, y1, y1_prime)` on scalar arrays of `n` entries, worst-offender.hpp:82-93. -/
noncomputable def worstOffender (atol rtol : Fl) (n : Nat) (y0 y1 y1p : Arr Fl) : Fl :=
  forLoop 0 n (fun i m =>
    let scale := stdMax (abs (y1 i)) (abs (y0 i))
    mathMax m (div (abs (sub (y1p i) (y1 i))) (add atol (mul scale rtol)))) (fin 0)

/-- `WorstOffender::error(y0, diff)` on scalar arrays, worst-offender.hpp:105-114. -/
noncomputable def worstOffender2 (atol rtol : Fl) (n : Nat) (y0 diff : Arr Fl) : Fl :=
  forLoop 0 n (fun i m =>
    let scale := abs (y0 i)
    mathMax m (div (abs (diff i)) (add atol (mul scale rtol)))) (fin 0)

/-- `RMS::error(y0, y1, y1_prime)` on scalar arrays, RMS.hpp:79-92, 109. -/
noncomputable def rms (atol rtol : Fl) (n : Nat) (y0 y1 y1p : Arr Fl) : Fl :=
  let e := forLoop 0 n (fun i e =>
    let scale := add (mul (stdMax (abs (y0 i)) (abs (y1 i))) rtol) atol
    if isZero scale then e
    else
      let r := div (abs (sub (y1 i) (y1p i))) scale
      add e (mul r r)) (fin 0)
  sqrt (div e (fin n))

/-- `MaxRatioError::error(scale, y1, y1_prime)` on scalar arrays, max-ratio-error.hpp:145-163. -/
noncomputable def maxRatio (atol rtol : Fl) (n : Nat) (y0 y1 y1p : Arr Fl) : Fl :=
  let m := forLoop 0 n (fun i (m : Fl × Fl) =>
    (stdMax m.1 (abs (sub (y1p i) (y1 i))), stdMax m.2 (add atol (mul (abs (y0 i)) rtol)))) (fin 0, fin 0)
  div m.1 m.2

/-! ### the refining iterator -/

/-- What `SequentOdeIterator` uses of a particle system and its integrator. -/
structure SeqSys (S : Type) where
  write : S → List ℝ
  read : S → List ℝ → Res S
  step : ℝ → S → Res S

/-- `ns`, sequent-iterator.hpp:53. -/
def ns (i : Nat) : Nat := [1, 2, 4, 6, 8, 10, 12, 14, 16, 18, 20, 22, 24].getD i 0

/-- `n` steps of length `h`, sequent-iterator.hpp:146-148. -/
def SeqSys.steps {S : Type} (O : SeqSys S) (h : ℝ) : Nat → S → Res S
  | 0, s => .ok s
  | n + 1, s => do
    let s ← O.step h s
    O.steps h n s

/-- `bisec_error_scale`, sequent-iterator.hpp:150. -/
noncomputable def errScale (order i : Nat) : ℝ := 1 / (((ns i : ℝ) / (ns (i - 1) : ℝ)) ^ order - 1)

open Classical in
/-- The refinement loop, sequent-iterator.hpp:143-158: `m` refinements to go, the next is number `i`; `out`, `dual` are
`output_`, `dual_steps_output_`.  Result: the system, `dual_steps_output_` and the last error. -/
noncomputable def refine {S : Type} (O : SeqSys S) (order : Nat) (err : List ℝ → List ℝ → List ℝ → ℝ) (input : List ℝ) (H : ℝ) :
    Nat → Nat → S → List ℝ → List ℝ → ℝ → Res (S × List ℝ × ℝ)
  | 0, _, s, _, dual, e => .ok (s, dual, e)
  | m + 1, i, s, out, _, _ => do
    let s ← O.read s input
    let s ← O.steps (H / ns i) (ns i) s
    let dual := O.write s
    let e := errScale order i * err input out dual
    if e ≤ 1 then .ok (s, dual, e) else refine O order err input H m (i + 1) s dual out e

/-- `SequentOdeIterator::iterate`, sequent-iterator.hpp:100-162 (`max_iter_` = 10): the system afterwards and the step
proposed next.  `ctrl` is `step_ctrl_.next_with_limiter(Integrator::order, error)`. -/
noncomputable def sequent {S : Type} (O : SeqSys S) (order : Nat) (err : List ℝ → List ℝ → List ℝ → ℝ) (ctrl : ℝ → Res ℝ) (H : ℝ)
    (s : S) : Res (S × ℝ) := do
  let input := O.write s
  let s ← O.step H s
  let out := O.write s
  let r ← refine O order err input H 10 1 s out [] 0
  let s ← O.read r.1 r.2.1
  let q ← ctrl r.2.2
  .ok (s, H * q)

/-- `ConstOdeIterator::iterate`, const-iterator.hpp:50-56. -/
def constIter {S : Type} (O : SeqSys S) (H : ℝ) (s : S) : Res (S × ℝ) := do
  let s ← O.step H s
  .ok (s, H)

end SpaceHub.Ctl
