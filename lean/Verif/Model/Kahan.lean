import Mathlib.Data.Real.Basic

/-
Model of src/kahan-number.hpp.  Every addition and subtraction of the base type is rounded by `rnd`; `rnd = id` is exact
arithmetic.  Negation is exact.  The conversion to the base type (lines 73, 78, 185, 190, 303, 308) is the field `real`.
-/

set_option autoImplicit false

namespace SpaceHub.Comp

/-- Members of `Kahan` and of `Neumaier`, kahan-number.hpp:43, 155. -/
structure Num where
  real : ℝ
  err : ℝ

/-- Constructor from a number, kahan-number.hpp:54, 166. -/
def Num.of (x : ℝ) : Num := { real := x, err := 0 }

/-- Members of `Klein`, kahan-number.hpp:273. -/
structure Num3 where
  real : ℝ
  err : ℝ
  err2 : ℝ

/-- Constructor from a number, kahan-number.hpp:284. -/
def Num3.of (x : ℝ) : Num3 := { real := x, err := 0, err2 := 0 }

/-- `math::abs`, math.hpp:99-102. -/
noncomputable def abs (x : ℝ) : ℝ := if x ≥ 0 then x else -x

section
variable (rnd : ℝ → ℝ)

/-- `Kahan::operator+=`, kahan-number.hpp:93-101. -/
def Kahan.add (l : Num) (r : ℝ) : Num :=
  let add := rnd (r - l.err)
  let sum := rnd (l.real + add)
  { real := sum, err := rnd (rnd (sum - l.real) - add) }

/-- `Kahan::operator-=`, kahan-number.hpp:106-114. -/
def Kahan.sub (l : Num) (r : ℝ) : Num :=
  let add := rnd (-r - l.err)
  let sum := rnd (l.real + add)
  { real := sum, err := rnd (rnd (sum - l.real) - add) }

/-- `Neumaier::operator+=`, kahan-number.hpp:205-216. -/
noncomputable def Neumaier.add (l : Num) (r : ℝ) : Num :=
  let add := rnd (r + l.err)
  let sum := rnd (l.real + add)
  { real := sum, err := (if abs add < abs l.real then rnd (rnd (l.real - sum) + add) else rnd (rnd (add - sum) + l.real)) }

/-- `Neumaier::operator-=`, kahan-number.hpp:221-232. -/
noncomputable def Neumaier.sub (l : Num) (r : ℝ) : Num :=
  let add := rnd (-r + l.err)
  let sum := rnd (l.real + add)
  { real := sum, err := (if abs add < abs l.real then rnd (rnd (l.real - sum) + add) else rnd (rnd (add - sum) + l.real)) }

/-- `Klein::operator+=`, kahan-number.hpp:326-345. -/
noncomputable def Klein.add (l : Num3) (r : ℝ) : Num3 :=
  let add := rnd (l.err + l.err2)
  let sum := rnd (r + add)
  let err2 := if abs add < abs r then rnd (rnd (r - sum) + add) else rnd (rnd (add - sum) + r)
  let add := sum
  let sum := rnd (l.real + add)
  let err := if abs add < abs l.real then rnd (rnd (l.real - sum) + add) else rnd (rnd (add - sum) + l.real)
  { real := sum, err := err, err2 := err2 }

/-- `Klein::operator-=`, kahan-number.hpp:350-369. -/
noncomputable def Klein.sub (l : Num3) (r : ℝ) : Num3 :=
  let add := rnd (l.err + l.err2)
  let sum := rnd (-r + add)
  let err2 := if abs add < abs r then rnd (rnd (-r - sum) + add) else rnd (rnd (add - sum) - r)
  let add := sum
  let sum := rnd (l.real + add)
  let err := if abs add < abs l.real then rnd (rnd (l.real - sum) + add) else rnd (rnd (add - sum) + l.real)
  { real := sum, err := err, err2 := err2 }

/-- `operator*=` of `Kahan` and `Neumaier`, kahan-number.hpp:127-130, 245-248. -/
def Num.mul (l : Num) (r : ℝ) : Num := { l with real := rnd (l.real * r) }

/-- `operator/=` of `Kahan` and `Neumaier`, kahan-number.hpp:119-122, 237-240. -/
noncomputable def Num.div (l : Num) (r : ℝ) : Num := { l with real := rnd (l.real / r) }

end

/-- Unary minus of `Kahan` and `Neumaier`, kahan-number.hpp:88, 200. -/
def Num.neg (l : Num) : Num := Num.of (-l.real)

/-- Unary minus of `Klein`, kahan-number.hpp:321. -/
def Num3.neg (l : Num3) : Num3 := Num3.of (-l.real)

/-- `operator>>` of `Kahan` and `Neumaier`, kahan-number.hpp:143-147, 261-265, when `x` is read. -/
def Num.read (_ : Num) (x : ℝ) : Num := { real := x, err := 0 }

/-- `operator>>` of `Klein`, kahan-number.hpp:398-402, when `x` is read: `err_of_err` is not written. -/
def Num3.read (l : Num3) (x : ℝ) : Num3 := { l with real := x, err := 0 }

end SpaceHub.Comp
