import Verif.Spec.BulirschStoer

/-
Specification of the order and step size control of the Bulirsch-Stoer iterator (Hairer, Nørsett, Wanner, "Solving
Ordinary Differential Equations I", section II.9).
-/

set_option autoImplicit false

namespace SpaceHub.BS.Spec

/-- `E` is the error estimate of column `k` of a step `h` from `s`: the estimator's distance of the increments extrapolated
with and without the run number 0. -/
def ColumnError {S : Type} (n : Nat → Nat) (write : S → List ℝ) (run : ℝ → Nat → S → Res S) (same : S → S → Prop)
    (err : List ℝ → (Nat → ℝ) → (Nat → ℝ) → ℝ) (s : S) (h : ℝ) (k : Nat) (E : ℝ) : Prop :=
  ∃ (start row : Nat → S) (inc inc1 : Nat → ℝ),
    (∀ m, m ≤ k → same s (start m) ∧ run h (n m) (start m) = .ok (row m)) ∧
    (∀ i, i < (write s).length →
      inc i = zeroStep n (fun m => (write (row m)).getD i 0) 0 k - (write s).getD i 0 ∧
      inc1 i = zeroStep n (fun m => (write (row m)).getD i 0) 1 k - (write s).getD i 0) ∧
    E = err (write s) inc1 inc

/-- With target order `r`, the step is given up at column `k` if its error is above this bound: convergence in column
`r + 1` is not to be expected any more. -/
noncomputable def giveUp (n : Nat → Nat) (r k : Nat) : ℝ :=
  if k + 1 = r then ((n (k + 1) : ℝ) * n (k + 2) / (n 0 : ℝ) ^ 2) ^ 2
  else if k = r then ((n (k + 1) : ℝ) / n 0) ^ 2
  else 1

/-- A trial step with target order `r` is decided in column `k`: one of the columns `r - 1`, `r`, `r + 1`, and in the earlier ones
of these the error was above 1 but not above the bound.  `E j` is the error of column `j`. -/
structure DecidedAt (n : Nat → Nat) (errorOf : Nat → ℝ → Prop) (r k : Nat) (E : Nat → ℝ) : Prop where
  pos : 1 ≤ k
  low : r ≤ k + 1
  high : k ≤ r + 1
  errors : ∀ j, 1 ≤ j → j ≤ k → errorOf j (E j)
  before : ∀ j, 1 ≤ j → r ≤ j + 1 → j < k → 1 < E j ∧ E j ≤ giveUp n r j

/-- orders are kept between 2 and `max_depth - 1` -/
def clip (maxDepth i : Nat) : Nat := min (max 2 i) (maxDepth - 1)

open Classical in
/-- The order chosen after a decision in column `k` with target order `r`: a neighbouring column, if it is cheaper per unit of step.  `W j` is the
work per unit of step of column `j`; the order is raised only if the step was accepted. -/
noncomputable def newOrder (maxDepth : Nat) (W : Nat → ℝ) (accepted : Prop) (r k : Nat) : Nat :=
  if k ≤ r then
    clip maxDepth (if W (k - 1) < 0.8 * W k then k - 1 else if W k < 0.9 * W (k - 1) ∧ accepted then k + 1 else k)
  else
    let a := if W (k - 2) < 0.8 * W (k - 1) then clip maxDepth (k - 2) else r
    if W k < 0.9 * W a ∧ accepted then clip maxDepth k else a

/-- Number of force evaluations of the columns 0 to `k` (with `extra` more per column). -/
def work (n : Nat → Nat) (extra k : Nat) : ℝ := ∑ j ∈ Finset.range (k + 1), ((n j : ℝ) + extra)

/-- Order `r'` and step `q` aimed at after a decision in column `k` of a trial step `h` with target order `r`.  `next o e` is the
step controller's factor for a method of order `o` with error `e`. -/
structure Aim (n : Nat → Nat) (maxDepth extra : Nat) (next : Nat → ℝ → ℝ) (h : ℝ) (r k : Nat) (E : Nat → ℝ) (accepted : Prop)
    (r' : Nat) (q : ℝ) : Prop where
  order : ∃ W : Nat → ℝ, (∀ j, 1 ≤ j → j ≤ k → W j = work n extra j / (h * next (2 * j + 1) (E j))) ∧
    r' = newOrder maxDepth W accepted r k
  close : r' ≤ k + 1
  step : q = if r' ≤ k then h * next (2 * r' + 1) (E r')
    else h * next (2 * k + 1) (E k) * work n extra (k + 1) / work n extra k

/-- A call with step `h` and target order `r`: `m` trial steps are given up, the step `hAcc` is accepted in column `k`; afterwards the
target order is `r'` and the step proposed for the next call is `h'`. -/
inductive Tries (n : Nat → Nat) (maxDepth extra : Nat) (next limiter : Nat → ℝ → ℝ) (errorOf : ℝ → Nat → ℝ → Prop) :
    (h : ℝ) → (r m : Nat) → (hAcc : ℝ) → (k r' : Nat) → (h' : ℝ) → Prop
  | accept {h : ℝ} {r k r' : Nat} {E : Nat → ℝ} {q : ℝ} (d : DecidedAt n (errorOf h) r k E) (ok : E k ≤ 1)
      (aim : Aim n maxDepth extra next h r k E True r' q) :
      Tries n maxDepth extra next limiter errorOf h r 0 h k r' (h * limiter (2 * k + 1) (q / h))
  | giveUp {h hAcc h' : ℝ} {r k r' m kAcc rAcc : Nat} {E : Nat → ℝ} {q : ℝ} (d : DecidedAt n (errorOf h) r k E)
      (bad : giveUp n r k < E k) (aim : Aim n maxDepth extra next h r k E False r' q)
      (t : Tries n maxDepth extra next limiter errorOf (h * limiter (2 * k + 1) (q / h)) r' m hAcc kAcc rAcc h') :
      Tries n maxDepth extra next limiter errorOf h r (m + 1) hAcc kAcc rAcc h'

end SpaceHub.BS.Spec
