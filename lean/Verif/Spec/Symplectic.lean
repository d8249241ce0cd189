import Verif.Model.Force
import Mathlib.Algebra.BigOperators.Group.Finset.Basic
import Mathlib.Analysis.Calculus.Deriv.Basic

/-
What the properties about varied motions talk about: one-parameter families of states, their rates of change, and the symplectic form.
-/

set_option autoImplicit false

namespace SpaceHub.Spec
open SpaceHub V3 Force Finset Topology

/-- The vector `f e` changes at rate `d` where `e = t`. -/
def Rate (f : ℝ → V3 ℝ) (d : V3 ℝ) (t : ℝ) : Prop :=
  HasDerivAt (fun e => (f e).x) d.x t ∧ HasDerivAt (fun e => (f e).y) d.y t ∧ HasDerivAt (fun e => (f e).z) d.z t

/-- A family of states of the particles `P` (same number and masses for parameters next to `t`) that is `P` for parameter `t`, with positions changing at rates `ξ` and velocities
at rates `η`. -/
structure Variation (γ : ℝ → Particles) (t : ℝ) (P : Particles) (ξ η : Nat → V3 ℝ) : Prop where
  here : γ t = P
  num : ∀ᶠ e in 𝓝 t, (γ e).num = P.num
  mass : ∀ᶠ e in 𝓝 t, (γ e).mass = P.mass
  pos : ∀ k, k < P.num → Rate (fun e => (γ e).pos k) (ξ k) t
  vel : ∀ k, k < P.num → Rate (fun e => (γ e).vel k) (η k) t

/-- The symplectic form `Σ dx ∧ dp` on two variations. -/
def form (P : Particles) (ξ₁ η₁ ξ₂ η₂ : Nat → V3 ℝ) : ℝ :=
  ∑ k ∈ range P.num, P.mass k * (dot (ξ₁ k) (η₂ k) - dot (η₁ k) (ξ₂ k))

/-- No two particles are in the same place. -/
def Apart (P : Particles) : Prop := ∀ i j, i < P.num → j < P.num → i ≠ j → P.pos i ≠ P.pos j

end SpaceHub.Spec
