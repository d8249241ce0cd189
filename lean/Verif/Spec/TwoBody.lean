import Verif.Model.Force
import Verif.Spec.Force

/-
The integrals of the relative motion of two bodies (G = 1).  They determine the orbit: two states with the same integrals lie on the same conic section,
traversed in the same sense.
-/

set_option autoImplicit false

namespace SpaceHub.Spec.TwoBody
open SpaceHub V3 Spec

/-- Position of the second particle relative to the first. -/
def relPos (P : Force.Particles) : V3 ℝ := P.pos 1 - P.pos 0
/-- Velocity of the second particle relative to the first. -/
def relVel (P : Force.Particles) : V3 ℝ := P.vel 1 - P.vel 0
/-- Total mass. -/
def massSum (P : Force.Particles) : ℝ := P.mass 0 + P.mass 1
/-- Energy of the relative motion per reduced mass. -/
noncomputable def energy (P : Force.Particles) : ℝ := len (relVel P) ^ 2 / 2 - massSum P / len (relPos P)
/-- Angular momentum of the relative motion per reduced mass. -/
def angular (P : Force.Particles) : V3 ℝ := cross (relPos P) (relVel P)
/-- Laplace-Runge-Lenz vector: points to the periapsis, its length is the mass times the eccentricity. -/
noncomputable def laplace (P : Force.Particles) : V3 ℝ := cross (relVel P) (angular P) - (massSum P / len (relPos P)) • relPos P

/-- The two states lie on the same Kepler orbit. -/
def SameOrbit (P Q : Force.Particles) : Prop :=
  Q.mass 0 = P.mass 0 ∧ Q.mass 1 = P.mass 1 ∧ relPos Q ≠ 0 ∧ energy Q = energy P ∧ angular Q = angular P ∧ laplace Q = laplace P

/-- Steps of a leapfrog that starts and ends with position updates, of sizes `ks`, with adjacent position updates merged; `p` is the size of the step
before. -/
noncomputable def mergedFrom {Op : Type} (drift kick : ℝ → Op) (p : ℝ) : List ℝ → List Op
  | [] => [drift (p / 2)]
  | k :: ks => drift ((p + k) / 2) :: kick k :: mergedFrom drift kick k ks

end SpaceHub.Spec.TwoBody
