import Verif.Spec.Forced

/-
The motion that IAS15 computes with the logarithmic Hamiltonian and additional forces.
-/

set_option autoImplicit false

namespace SpaceHub.Spec
open SpaceHub V3 Force

/-- The potential energy of `n` particles (G = 1) with its sign changed. -/
noncomputable def bond {n : Nat} (m : Nat → ℝ) (x : Fin n → V3 ℝ) : ℝ := ∑ i : Fin n, ∑ j : Fin n, if i < j then m i * m j / len (x i - x j) else 0

/-- How fast it changes. -/
noncomputable def bondRate {n : Nat} (m : Nat → ℝ) (x v : Fin n → V3 ℝ) : ℝ := ∑ i : Fin n, m i * dot (v i) (∑ j ∈ Finset.univ.erase i, newton (m j) (x i) (x j))

/-- The accelerations `a`, multiplied by the potential energy at the beginning (positions `x0`) divided by the present one. -/
noncomputable def misled {n : Nat} (m : Nat → ℝ) (a : Field n) (x0 : Fin n → V3 ℝ) : Field n := fun x v k => (bond m x0 / bond m x) • a x v k

/-- The accelerations are infinitely differentiable near the positions and velocities of `P`. -/
def SmoothNear {n : Nat} (a : Field n) (P : Particles) : Prop := SmoothAlong a (fun _ => P.pos) (fun _ => P.vel) 0 0

/-- Some position or velocity is off by `δ` or more. -/
def FarFrom (n : Nat) (x v : ℝ → Nat → V3 ℝ) (t δ : ℝ) (P : Particles) : Prop := ∃ k, k < n ∧ (δ ≤ len (P.pos k - x t k) ∨ δ ≤ len (P.vel k - v t k))

end SpaceHub.Spec
