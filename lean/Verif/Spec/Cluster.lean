import Verif.Model.Manip
import Verif.Spec.Orbit

/-
The vocabulary of many-body mechanics for a list of particles, independent of the functions of the model (only the record of a particle
is shared).  G = 1.
-/

set_option autoImplicit false

namespace SpaceHub.Spec.Cluster
open SpaceHub SpaceHub.Manip Spec.Orbit

/-- The particles of an argument. -/
def members : Manip.Cluster → List Ptc
  | .one p => [p]
  | .many l => l

/-- The total mass. -/
noncomputable def totalMass (l : List Ptc) : ℝ := (l.map Ptc.mass).sum
/-- `X` is the centre of mass: the moments about it vanish. -/
def IsCentre (l : List Ptc) (X : V3 ℝ) : Prop := (l.map fun p => p.mass • (p.pos - X)).sum = 0
/-- `V` is the velocity of the centre of mass: the momenta relative to it vanish. -/
def IsCentreVel (l : List Ptc) (V : V3 ℝ) : Prop := (l.map fun p => p.mass • (p.vel - V)).sum = 0

/-- The kinetic energy in the frame that moves with velocity `V`. -/
noncomputable def kineticIn (V : V3 ℝ) (l : List Ptc) : ℝ := (l.map fun p => 1 / 2 * p.mass * len (p.vel - V) ^ 2).sum
/-- The potential energy: the sum over the pairs. -/
noncomputable def potential (l : List Ptc) : ℝ :=
  -∑ i : Fin l.length, ∑ j : Fin l.length, if i < j then l[i].mass * l[j].mass / len (l[i].pos - l[j].pos) else 0
/-- No two particles at one place. -/
def Apart (l : List Ptc) : Prop := l.Pairwise fun p q => p.pos ≠ q.pos

/-- The second list is the first, displaced by `a` and boosted by `b`. -/
def Displaced (a b : V3 ℝ) (l l' : List Ptc) : Prop := l' = l.map fun p => { p with pos := p.pos + a, vel := p.vel + b }

end SpaceHub.Spec.Cluster
