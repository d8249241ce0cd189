import Verif.Model.Rounded
import Verif.Model.Kahan

/-
Plain systems under gravity with the compensated types (the methods `_Plus` and `_ExtPlus`, spaceHub.hpp:122-123): positions, velocities and the time are
`Kahan` numbers (`StateScalar`, type-class.hpp:61-64, 88-94; point-particles.hpp:129, 171), steps, masses and accelerations numbers of the base type.
Otherwise as in Model/Rounded.
-/

set_option autoImplicit false

namespace SpaceHub.Rounded
open SpaceHub V3 Force Core Integrator Sys

variable (A : Arith)

/-- `Kahan::operator+=`, kahan-number.hpp:94-102. -/
def kadd (l : Comp.Num) (r : ℝ) : Comp.Num :=
  let add := A.sub r l.err
  let sum := A.add l.real add
  { real := sum, err := A.sub (A.sub sum l.real) add }

/-- `Vec3::operator+=` of a vector of `Kahan` numbers, vector3.hpp:124-128. -/
def kaddV (a : V3 Comp.Num) (b : V3 ℝ) : V3 Comp.Num := ⟨kadd A a.x b.x, kadd A a.y b.y, kadd A a.z b.z⟩

/-- State of a `SimpleSystem` with compensated types, base-system.hpp:43-181. -/
structure KSimple where
  num : Nat
  mass : Arr ℝ
  pos : Arr (V3 Comp.Num)
  vel : Arr (V3 Comp.Num)
  time : Comp.Num

/-- `Vec3(Vec3<U> const &)` with the conversion of `Kahan` to the base type, vector3.hpp:75-76, kahan-number.hpp:74-79. -/
def realV (a : V3 Comp.Num) : V3 ℝ := ⟨a.x.real, a.y.real, a.z.real⟩

/-- The particles as everything that reads them sees them. -/
def KSimple.shown (s : KSimple) : Particles := ⟨s.num, fun k => realV (s.pos k), fun k => realV (s.vel k), s.mass⟩

/-- Constructor, base-system.hpp:188-195, kahan-number.hpp:54. -/
def KSimple.init (time : ℝ) (P : Particles) : KSimple :=
  { num := P.num, mass := P.mass, time := .of time,
    pos := fun k => ⟨.of (P.pos k).x, .of (P.pos k).y, .of (P.pos k).z⟩, vel := fun k => ⟨.of (P.vel k).x, .of (P.vel k).y, .of (P.vel k).z⟩ }

/-- `calc::array_advance(var, inc, step)`, core-computation.hpp:364-371. -/
def kadvance (n : Nat) (var : Arr (V3 Comp.Num)) (inc : Arr (V3 ℝ)) (h : ℝ) : Arr (V3 Comp.Num) :=
  forLoop 0 n (fun i v => v.set i (kaddV A (v i) (mulV A (inc i) h))) var

/-- `drift`, base-system.hpp:277-283. -/
def kdrift (h : ℝ) (s : KSimple) : KSimple := { s with time := kadd A s.time h, pos := kadvance A s.num s.pos s.shown.vel h }

/-- `kick`, base-system.hpp:260-275, for gravity alone. -/
def kkick (h : ℝ) (s : KSimple) : KSimple := { s with vel := kadvance A s.num s.vel (acc A s.shown) h }

/-- `drift(c * step_size)`, `kick(c * step_size)`. -/
def kstage (h : ℝ) : Stage → KSimple → KSimple
  | .drift c => kdrift A (A.mul (A.lit c) h)
  | .kick c => kkick A (A.mul (A.lit c) h)

/-- `integrate(system, step_size)`, symplectic-integrator.hpp:198-363. -/
def kstep (stages : List Stage) (h : ℝ) (s : KSimple) : KSimple := stages.foldl (fun s c => kstage A h c s) s

/-- Steps of given lengths, one after the other (`ConstOdeIterator`, const-iterator.hpp:49-58). -/
def krun (stages : List Stage) (hs : List ℝ) (s : KSimple) : KSimple := hs.foldl (fun s h => kstep A stages h s) s

end SpaceHub.Rounded
