import Verif.Model.Rounded
import Verif.Spec.Rounding

/-
Specification: an arithmetic with the relative error `u` of one operation; rounding every result to nearest.
-/

set_option autoImplicit false

namespace SpaceHub.Rounded
open SpaceHub

/-- The result of every operation is the right one up to the fraction `u` of it. -/
structure Accurate (A : Arith) (u : ℝ) : Prop where
  add : ∀ a b, |A.add a b - (a + b)| ≤ u * |a + b|
  sub : ∀ a b, |A.sub a b - (a - b)| ≤ u * |a - b|
  mul : ∀ a b, |A.mul a b - a * b| ≤ u * |a * b|
  div : ∀ a b, b ≠ 0 → |A.div a b - a / b| ≤ u * |a / b|
  sqrt : ∀ a, 0 ≤ a → |A.sqrt a - Real.sqrt a| ≤ u * Real.sqrt a
  lit : ∀ c : ℚ, |A.lit c - c| ≤ u * |(c : ℝ)|

/-- IEEE arithmetic: the result of every operation is the exact one, rounded. -/
noncomputable def ieee (rnd : ℝ → ℝ) : Arith :=
  ⟨fun a b => rnd (a + b), fun a b => rnd (a - b), fun a b => rnd (a * b), fun a b => rnd (a / b), fun a => rnd (Real.sqrt a), fun c => rnd c⟩

end SpaceHub.Rounded
