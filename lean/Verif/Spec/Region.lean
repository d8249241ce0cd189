import Verif.Spec.Force
import Verif.Model.Force

/-
Configurations of particles that are neither far away, nor fast, nor close to each other.
-/

set_option autoImplicit false

namespace SpaceHub.Spec
open SpaceHub V3 Force

/-- `n` particles of masses `m`, at most `R` from the origin, not faster than `R`, no two closer than `d`. -/
structure InRegion (n : Nat) (m : Nat → ℝ) (d R : ℝ) (P : Particles) : Prop where
  num : P.num = n
  mass : ∀ k, k < n → P.mass k = m k
  pos : ∀ k, k < n → len (P.pos k) ≤ R
  vel : ∀ k, k < n → len (P.vel k) ≤ R
  apart : ∀ i j, i < n → j < n → i ≠ j → d ≤ len (P.pos i - P.pos j)

end SpaceHub.Spec
