import Verif.Spec.Force
import Verif.Spec.Symplectic
import Verif.Model.Integrator
import Mathlib.Order.Interval.Set.Basic

/-
What the property about the accuracy of a simulation talks about: motions of gravitating particles, and the coefficients of an integrator.
-/

set_option autoImplicit false

namespace SpaceHub.Spec
open SpaceHub V3 Force Finset Integrator

/-- `n` particles of masses `m` move from time `t0` to time `t1` under Newton's laws (G = 1) without collisions: particle `k` has the position `x t k`
and the velocity `v t k` at the time `t`. -/
structure NewtonMotion (n : Nat) (m : Nat → ℝ) (x v : ℝ → Nat → V3 ℝ) (t0 t1 : ℝ) : Prop where
  pos : ∀ t ∈ Set.Icc t0 t1, ∀ k, k < n → Rate (fun e => x e k) (v t k) t
  vel : ∀ t ∈ Set.Icc t0 t1, ∀ k, k < n → Rate (fun e => v e k) (∑ j ∈ (range n).erase k, newton (m j) (x t k) (x t j)) t
  apart : ∀ t ∈ Set.Icc t0 t1, ∀ i j, i < n → j < n → i ≠ j → x t i ≠ x t j

/-- The particles `P` are those of the motion at the time `t`. -/
structure InState (n : Nat) (m : Nat → ℝ) (x v : ℝ → Nat → V3 ℝ) (t : ℝ) (P : Particles) : Prop where
  num : P.num = n
  mass : ∀ k, k < n → P.mass k = m k
  pos : ∀ k, k < n → P.pos k = x t k
  vel : ∀ k, k < n → P.vel k = v t k

/-- Up to `ε` in every position and velocity. -/
structure WithinOf (n : Nat) (m : Nat → ℝ) (x v : ℝ → Nat → V3 ℝ) (t ε : ℝ) (P : Particles) : Prop where
  num : P.num = n
  mass : ∀ k, k < n → P.mass k = m k
  pos : ∀ k, k < n → len (P.pos k - x t k) ≤ ε
  vel : ∀ k, k < n → len (P.vel k - v t k) ≤ ε

/-- the coefficient of a stage -/
def coef : Stage → ℚ
  | .drift c => c
  | .kick c => c

/-- the sum of the coefficients of the position updates -/
def sumDrift : List Stage → ℚ
  | [] => 0
  | .drift c :: l => c + sumDrift l
  | .kick _ :: l => sumDrift l

/-- the sum of the coefficients of the velocity updates -/
def sumKick : List Stage → ℚ
  | [] => 0
  | .drift _ :: l => sumKick l
  | .kick c :: l => c + sumKick l

end SpaceHub.Spec
