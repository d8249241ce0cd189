import Verif.Model.Vec3
import Mathlib.Analysis.SpecialFunctions.Trigonometric.Basic
import Mathlib.Analysis.Calculus.Deriv.Basic

/-
The vocabulary of the two-body problem, as in any textbook of celestial mechanics, independent of the model.
`u` is the gravitational parameter `G (m1 + m2)`.
-/

set_option autoImplicit false

namespace SpaceHub.Spec.Orbit
open SpaceHub Real

/-- The direction of the ascending node: in the reference plane, at the angle `Ω` from the x axis. -/
noncomputable def node (Ω : ℝ) : V3 ℝ := ⟨cos Ω, sin Ω, 0⟩
/-- The normal of the orbital plane: the z axis tilted by `i` about the line of nodes. -/
noncomputable def normal (i Ω : ℝ) : V3 ℝ := ⟨sin Ω * sin i, -(cos Ω * sin i), cos i⟩
/-- The direction of periapsis: in the orbital plane, at the angle `ω` from the ascending node. -/
noncomputable def peri (i Ω ω : ℝ) : V3 ℝ := cos ω • node Ω + sin ω • (normal i Ω).cross (node Ω)
/-- The direction of the motion at periapsis. -/
noncomputable def along (i Ω ω : ℝ) : V3 ℝ := (normal i Ω).cross (peri i Ω ω)

/-- The position at true anomaly `ν`. -/
noncomputable def position (p e i Ω ω ν : ℝ) : V3 ℝ := (p / (1 + e * cos ν)) • (cos ν • peri i Ω ω + sin ν • along i Ω ω)
/-- The velocity at true anomaly `ν`. -/
noncomputable def velocity (u p e i Ω ω ν : ℝ) : V3 ℝ := sqrt (u / p) • ((-sin ν) • peri i Ω ω + (e + cos ν) • along i Ω ω)

/-- The length of a vector. -/
noncomputable def len (v : V3 ℝ) : ℝ := sqrt (v.x ^ 2 + v.y ^ 2 + v.z ^ 2)
/-- The specific energy. -/
noncomputable def energy (u : ℝ) (r v : V3 ℝ) : ℝ := len v ^ 2 / 2 - u / len r
/-- The eccentricity vector. -/
noncomputable def eccVector (u : ℝ) (r v : V3 ℝ) : V3 ℝ := (1 / u) • v.cross (r.cross v) - (1 / len r) • r

/-- Two angles are the same up to full turns. -/
def SameAngle (a b : ℝ) : Prop := ∃ n : ℤ, a = b + n * (2 * π)

/-- The derivative of a curve in space. -/
def HasDerivAt3 (f : ℝ → V3 ℝ) (f' : V3 ℝ) (t : ℝ) : Prop :=
  HasDerivAt (fun s => (f s).x) f'.x t ∧ HasDerivAt (fun s => (f s).y) f'.y t ∧ HasDerivAt (fun s => (f s).z) f'.z t

/-- A solution of the two-body problem over the times in `T`: the relative position changes at the rate of the relative velocity, and
the relative velocity at the rate `-u r / |r|^3`. -/
def TwoBody (u : ℝ) (r v : ℝ → V3 ℝ) (T : Set ℝ) : Prop :=
  ∀ t ∈ T, HasDerivAt3 r (v t) t ∧ HasDerivAt3 v ((-(u / len (r t) ^ 3)) • r t) t

/-- The true anomaly `ν` of a body on the conic of semi-latus rectum `p` and eccentricity `e` changes by the law of areas over the times
in `T`: the distance stays finite, and the square of the distance times the angular velocity is `√(u p)`. -/
def LawOfAreas (u p e : ℝ) (ν : ℝ → ℝ) (T : Set ℝ) : Prop :=
  ∀ t ∈ T, 0 < 1 + e * cos (ν t) ∧ HasDerivAt ν (sqrt (u * p) / (p / (1 + e * cos (ν t))) ^ 2) t

end SpaceHub.Spec.Orbit
