import Verif.Model.Force
import Verif.Model.Core
import Mathlib.Algebra.BigOperators.Group.Finset.Basic

/-
What the conservation properties talk about.
-/

set_option autoImplicit false

namespace SpaceHub.Spec
open SpaceHub V3 Force Core Finset

/-- total momentum -/
noncomputable def momentum (P : Particles) : V3 ℝ := ∑ k ∈ range P.num, P.mass k • P.vel k
/-- total mass times centre of mass -/
noncomputable def massMoment (P : Particles) : V3 ℝ := ∑ k ∈ range P.num, P.mass k • P.pos k
/-- total angular momentum about the origin -/
noncomputable def angMomentum (P : Particles) : V3 ℝ := ∑ k ∈ range P.num, P.mass k • cross (P.pos k) (P.vel k)

/-- Evaluating the force adds no net momentum to `n` particles of masses `m`, wherever they are and however they move. -/
def NoNetForce (n : Nat) (m : Arr ℝ) (f : ForceClass Particles) : Prop :=
  ∀ P acc, P.num = n → P.mass = m →
    ∑ k ∈ range n, m k • f.addAccTo P acc k = ∑ k ∈ range n, m k • acc k

/-- Nor any net torque. -/
def NoNetTorque (n : Nat) (m : Arr ℝ) (f : ForceClass Particles) : Prop :=
  ∀ P acc, P.num = n → P.mass = m →
    ∑ k ∈ range n, m k • cross (P.pos k) (f.addAccTo P acc k) = ∑ k ∈ range n, m k • cross (P.pos k) (acc k)

/-- The force does not look at the velocities. -/
def PositionOnly (f : ForceClass Particles) : Prop :=
  ∀ (P : Particles) (v acc : Arr (V3 ℝ)), f.addAccTo { P with vel := v } acc = f.addAccTo P acc

end SpaceHub.Spec
