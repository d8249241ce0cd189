import Verif.Model.Manip
import Mathlib.Data.Nat.Digits.Lemmas

/-
Model of small parts: src/tools/auto-name.hpp, src/stellar/stellar.hpp, src/secular.hpp, src/scattering/hierarchical.hpp.

Simplifications: exact real arithmetic; the counter of `auto_name` does not overflow.
-/

set_option autoImplicit false

namespace SpaceHub.Misc
open SpaceHub Orbit Classical

/-! ### auto-name.hpp -/

/-- `std::to_string` of a non-negative number. -/
def decimal (n : Nat) : List Char := if n = 0 then ['0'] else ((Nat.digits 10 n).reverse).map Nat.digitChar

/-- `std::to_string` of an `int`. -/
def decimalInt : Int → List Char
  | .ofNat n => decimal n
  | .negSucc n => '-' :: decimal (n + 1)

/-- The static variables of `auto_name`, auto-name.hpp:15-16. -/
structure NameState where
  duplicate : Nat
  lastName : List Char

/-- The initial values of the static variables, auto-name.hpp:15-16. -/
def NameState.init : NameState := { duplicate := 1, lastName := [] }

/-- `auto_name`, auto-name.hpp:14-32; `stamp` is the formatted local time, auto-name.hpp:18-21. -/
def autoName (s : NameState) (pre stamp : List Char) : List Char × NameState :=
  let name := pre ++ stamp
  if name = s.lastName then (name ++ ['('] ++ decimal s.duplicate ++ [')', '.', 'd', 'a', 't'], { s with duplicate := s.duplicate + 1 })
  else (name ++ ['.', 'd', 'a', 't'], { duplicate := 1, lastName := name })

/-- The names returned by the calls of a process, given the prefix and the time of each. -/
def names : NameState → List (List Char × List Char) → List (List Char)
  | _, [] => []
  | s, c :: cs => (autoName s c.1 c.2).1 :: names (autoName s c.1 c.2).2 cs

/-- `make_name`, auto-name.hpp:34-36. -/
def makeName (pre : List Char) (suffix : Int) (ext : List Char) : List Char := pre ++ decimalInt suffix ++ ext

/-! ### stellar.hpp -/

/-- `unit::sec`, macros.hpp:50-58. -/
noncomputable def sec : ℝ := 2 * Real.pi / 365.25636042 / 24 / 60 / 60
/-- `unit::km`, macros.hpp:64. -/
noncomputable def km : ℝ := 1 / 149597870.7
/-- `unit::Rs`, macros.hpp:68. -/
noncomputable def Rs : ℝ := 6.957e5 * km
/-- `unit::Ms`, macros.hpp:47. -/
def Ms : ℝ := 1
/-- `consts::C`, macros.hpp:102. -/
noncomputable def C : ℝ := 299792.458 * (km / sec)

/-- `StarType`, stellar.hpp:11; `other` is a value outside the enumeration (obtained by a cast). -/
inductive StarType where
  | BH | NS | STAR | WD | other

/-- `stellar_radius`, stellar.hpp:13-24: without a `return` for other values; `pow` of a negative number with a fractional exponent is NaN. -/
noncomputable def stellarRadius (T : StarType) (mass : ℝ) : Res ℝ :=
  match T with
  | .BH => .ok (2 * G * mass / C / C)
  | .NS => .ok (10 * km)
  | .STAR => if mass / Ms < 0 then .nan else .ok (Rs * (mass / Ms) ^ (0.75:ℝ))
  | .WD => do
    let q ← fdiv Ms mass
    if q < 0 then .nan else .ok (0.01 * Rs * q ^ ((1:ℝ) / 3))
  | .other => .ub

/-! ### secular.hpp -/

/-- `ELK_quad_timescale`, secular.hpp:36-42. -/
noncomputable def elkTimescale (m1 m2 m3 a1 a2 e2 : ℝ) : Res ℝ := do
  let mIn := m1 + m2
  let s ← fsqrt (a1 * a1 * a1 / G * mIn)
  let P := 2 * Real.pi * s
  let w ← fsqrt (1 - e2 * e2)
  let ratio ← fdiv (a2 * w) a1
  let q ← fdiv (P * mIn) m3
  Res.ok (q * ratio * ratio * ratio)

/-- The members of an orbit that `ELK_quad_timescale` of two orbits reads, secular.hpp:44-47. -/
structure EllOrb where
  m1 : ℝ
  m2 : ℝ
  a : ℝ
  e : ℝ

/-- `ELK_quad_timescale` of two orbits, secular.hpp:44-47. -/
noncomputable def elkTimescaleOrb (orb1 orb2 : EllOrb) : Res ℝ :=
  elkTimescale orb1.m1 orb1.m2 orb2.m2 orb1.a orb2.a orb2.e

/-! ### hierarchical.hpp -/

/-- `HierarchicalNode`, hierarchical.hpp:39-46 (the name, which takes no part in the tests, is left out). -/
structure Node where
  pos : V3 ℝ
  vel : V3 ℝ
  mass : ℝ

/-- `0 < a && a < amin` for the semi-major axis of two nodes, hierarchical.hpp:72-76: false if `calc_a_e` gives infinity or NaN. -/
noncomputable def closer (n1 n2 : Node) (amin : ℝ) : Bool :=
  match calcSemi (n1.mass + n2.mass) (n1.pos - n2.pos) (n1.vel - n2.vel) with
  | .ok a => decide (0 < a ∧ a < amin)
  | _ => false
where
  /-- The first result of `calc_a_e`, orbits.hpp:745-755. -/
  calcSemi (u : ℝ) (dr dv : V3 ℝ) : Res ℝ := do
    let r := norm dr
    let v := norm dv
    let v2 := v * v
    let q2 ← fdiv (2 * u) r
    fdiv (-u) (v2 - q2)

/-- The loop of `check_most_bound`, hierarchical.hpp:71-80, from index `i` on. -/
noncomputable def mostBoundFrom (node : Node) (idx : Nat) (amin : ℝ) : Nat → List Node → Bool
  | _, [] => true
  | i, n :: ns => if i ≠ idx ∧ closer node n amin then false else mostBoundFrom node idx amin (i + 1) ns

/-- `check_most_bound`, hierarchical.hpp:69-81. -/
noncomputable def checkMostBound (vec : List Node) (idx : Nat) (amin : ℝ) : Res Bool :=
  match vec[idx]? with
  | none => if vec.length ≤ 1 then .ok true else .ub
  | some node => .ok (mostBoundFrom node idx amin 1 (vec.drop 1))

/-- The loop of `check_unbound`, hierarchical.hpp:85-88: the potential is assigned, not added. -/
noncomputable def unboundPot (n0 : Node) : ℝ → List Node → Res ℝ
  | pot, [] => .ok pot
  | _, n :: ns => do
    let q ← fdiv (-n.mass) (norm (n0.pos - n.pos))
    unboundPot n0 q ns

/-- `check_unbound`, hierarchical.hpp:83-90. -/
noncomputable def checkUnbound (vec : List Node) : Res Bool :=
  match vec with
  | [] => .ub
  | n0 :: ns => do
    let pot ← unboundPot n0 0 ns
    Res.ok (decide (0.5 * n0.vel.norm2 + pot ≥ 0))

end SpaceHub.Misc
