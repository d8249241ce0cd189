import Mathlib.MeasureTheory.Integral.IntervalIntegral.Basic
import Mathlib.Analysis.SpecialFunctions.Integrals.Basic
import Mathlib.Data.Real.Basic
import Mathlib.Algebra.Polynomial.Eval.Degree

/-
Specification for the Gauss-Radau integrator.
-/

set_option autoImplicit false

namespace SpaceHub.Radau
open Finset

/-- The derivative along a step as the integrator represents it: a polynomial in the fraction `τ` of the step, with value
`d0` at the start. -/
noncomputable def slope (d0 : ℝ) (b : Nat → ℝ) (τ : ℝ) : ℝ := d0 + ∑ i ∈ range 7, b i * τ ^ (i + 1)

/-- Newton basis polynomial with nodes `0, c 0, ..., c (j-1)`. -/
noncomputable def newton (c : Nat → ℝ) (j : Nat) (τ : ℝ) : ℝ := τ * ∏ k ∈ range j, (τ - c k)

/-- The nodes are different from each other and from 0. -/
def Distinct (c : Nat → ℝ) : Prop := (∀ n, n < 7 → c n ≠ 0) ∧ ∀ n k, n < 7 → k < n → c n ≠ c k

/-- The seven inner nodes of the Gauss-Radau rule on `[0, 1]` whose eighth node is 0: increasing numbers in `(0, 1)` such that
`τ ∏ (τ - c k)` is orthogonal to all polynomials of degree less than 7. -/
structure RadauNodes (c : Nat → ℝ) : Prop where
  inside : ∀ n, n < 7 → 0 < c n ∧ c n < 1
  increasing : ∀ n k, n < 7 → k < n → c k < c n
  orthogonal : ∀ q : Polynomial ℝ, q.natDegree < 7 →
    ∫ τ in (0 : ℝ)..1, τ * (∏ k ∈ range 7, (τ - c k)) * q.eval τ = 0

theorem RadauNodes.distinct {c : Nat → ℝ} (h : RadauNodes c) : Distinct c :=
  ⟨fun n hn => (h.inside n hn).1.ne', fun n k hn hk => (h.increasing n k hn hk).ne'⟩

end SpaceHub.Radau
