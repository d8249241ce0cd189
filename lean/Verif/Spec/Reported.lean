import Verif.Spec.Force

/-
Specification: the energy of point masses under gravity, in units with `G = 1`.
-/

set_option autoImplicit false

namespace SpaceHub.Spec
open SpaceHub V3

/-- `Σ m v² / 2 - Σ m m' / r`, the second sum over the pairs. -/
noncomputable def energyOf (n : Nat) (m : Nat → ℝ) (x v : Nat → V3 ℝ) : ℝ :=
  ∑ i ∈ Finset.range n, 1 / 2 * m i * dot (v i) (v i) + potential 1 n m x

end SpaceHub.Spec
