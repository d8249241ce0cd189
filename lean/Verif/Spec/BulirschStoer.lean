import Mathlib.LinearAlgebra.Lagrange
import Mathlib.Data.Real.Basic
import Verif.Model.Basic

/-
Specification of Richardson extrapolation to zero step size.
-/

set_option autoImplicit false

namespace SpaceHub.BS.Spec

/-- `y i` is the result obtained with `n i` sub-steps; the result as a function of the squared sub-step length
(in units of the whole step, `1 / n^2`) is interpolated by the polynomial through the results number `a` to `b`, and
that polynomial is evaluated at sub-step length 0. -/
noncomputable def zeroStep (n : Nat → Nat) (y : Nat → ℝ) (a b : Nat) : ℝ :=
  (Lagrange.interpolate (Finset.Icc a b) (fun i => 1 / (n i : ℝ) ^ 2) y).eval 0

end SpaceHub.BS.Spec

namespace SpaceHub.BS.Spec

/-- The points of the modified midpoint rule (Gragg) for `dx/dt = f x t` from `x` at time `t` with sub-step `h`. -/
def graggPoint (f : (Nat → ℝ) → ℝ → (Nat → ℝ)) (x : Nat → ℝ) (t h : ℝ) : Nat → Nat → ℝ
  | 0 => x
  | 1 => fun i => x i + h * f x t i
  | m + 2 => fun i => graggPoint f x t h m i + 2 * h * f (graggPoint f x t h (m + 1)) (t + ((m : ℝ) + 1) * h) i

/-- The result of the modified midpoint rule with `n` sub-steps over a step `H`. -/
noncomputable def gragg (f : (Nat → ℝ) → ℝ → (Nat → ℝ)) (x : Nat → ℝ) (t H : ℝ) (n : Nat) (i : Nat) : ℝ :=
  let h := H / n
  (graggPoint f x t h n i + graggPoint f x t h (n - 1) i + h * f (graggPoint f x t h n) (t + n * h) i) / 2

/-- `s'` is the result of one extrapolated step `h` from `s` with the runs number 0 to `k`.  `n m` is the number of sub-steps of the run number `m`;
`write` gives the variables of a system, `run h n` integrates over `h` with `n` sub-steps, `same s x` says that `x` is in
the state `s`.  The runs are all from the state `s`; every variable of `s'` is the value extrapolated to
zero sub-step length from all of them; the error estimate, which compares with the extrapolation that leaves out run 0,
is at most 1. -/
def ExtrapolatedAt {S : Type} (n : Nat → Nat) (maxDepth : Nat) (write : S → List ℝ) (run : ℝ → Nat → S → Res S)
    (same : S → S → Prop) (err : List ℝ → (Nat → ℝ) → (Nat → ℝ) → ℝ) (h : ℝ) (s s' : S) (k : Nat) : Prop :=
  ∃ (start row : Nat → S) (inc inc1 : Nat → ℝ), 1 ≤ k ∧ k ≤ maxDepth ∧
    (∀ m, m ≤ k → same s (start m) ∧ run h (n m) (start m) = .ok (row m)) ∧
    (∀ i, i < (write s).length →
      (write s').getD i 0 = zeroStep n (fun m => (write (row m)).getD i 0) 0 k ∧
      inc i = (write s').getD i 0 - (write s).getD i 0 ∧
      inc1 i = zeroStep n (fun m => (write (row m)).getD i 0) 1 k - (write s).getD i 0) ∧
    err (write s) inc1 inc ≤ 1

/-- `s'` is the result of one extrapolated step `h` from `s`. -/
def ExtrapolatedStep {S : Type} (n : Nat → Nat) (maxDepth : Nat) (write : S → List ℝ) (run : ℝ → Nat → S → Res S)
    (same : S → S → Prop) (err : List ℝ → (Nat → ℝ) → (Nat → ℝ) → ℝ) (h : ℝ) (s s' : S) : Prop :=
  ∃ k : Nat, ExtrapolatedAt n maxDepth write run same err h s s' k

end SpaceHub.BS.Spec
