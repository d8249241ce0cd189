import Verif.Model.Simulator

/-
What a run of the simulator should do, in terms of the sequence of visited states.
-/

set_option autoImplicit false

namespace SpaceHub.Simu.Spec
open SpaceHub

/-- What is recorded: which callback of which group was called (or which stop condition asked), with which step size,
on which system. -/
inductive Event (S : Type)
  | start (i : Nat) (h : ℝ) (s : S)
  | step (i : Nat) (h : ℝ) (s : S)
  | stop (i : Nat) (h : ℝ) (s : S)
  | asked (i : Nat) (h : ℝ) (s : S)

/-- Run arguments whose callbacks and stop conditions only record that they are called: `a` start operations, `b`
operations, `c` stop operations, and the given stop conditions. -/
def recording {S : Type} (stepSize : ℝ) (endTime : Option ℝ) (rtol : ℝ) (a b c : Nat) (conds : List (ℝ → S → Bool)) :
    RunArgs (List (Event S)) S where
  stepSize := stepSize
  endTime := endTime
  timeRtol := rtol
  opts := (List.range b).map fun i h x => (x.1 ++ [.step i h x.2], x.2)
  startOpts := (List.range a).map fun i h x => (x.1 ++ [.start i h x.2], x.2)
  stopOpts := (List.range c).map fun i h x => (x.1 ++ [.stop i h x.2], x.2)
  stopCond := conds.zipIdx.map fun ci =>
    { Mem := Unit, mem := (), call := fun _ h x => (ci.1 h x.2, (), (x.1 ++ [.asked ci.2 h x.2], x.2)) }

/-- The step may not lead beyond the end time: it is shortened to the rest (in regularised time). -/
noncomputable def shortened {S : Type} (M : Machine S) (tEnd p : ℝ) (s : S) : ℝ :=
  if |p| ≤ |(tEnd - M.time s) * M.scale s| then p else (tEnd - M.time s) * M.scale s

/-- `n` steps: in state `s k` the proposed step is `p k`. -/
def Steps {S : Type} (M : Machine S) (tEnd : ℝ) (n : Nat) (s : Nat → S) (p : Nat → ℝ) : Prop :=
  ∀ k, k < n → M.advance (shortened M tEnd (p k) (s k)) (s k) = .ok (s (k + 1), p (k + 1))

/-- The time counts as reached: within the relative tolerance (exactly, if the end time is 0). -/
def AtEnd (t tEnd rtol : ℝ) : Prop := if tEnd = 0 then t = 0 else |t - tEnd| ≤ rtol * |tEnd|

/-- some stop condition holds -/
def Stops {S : Type} (conds : List (ℝ → S → Bool)) (h : ℝ) (s : S) : Prop := ∃ c ∈ conds, c h s = true

/-- the conditions asked: in order, up to the first that holds -/
def asks {S : Type} (h : ℝ) (s : S) : Nat → List (ℝ → S → Bool) → List (Event S)
  | _, [] => []
  | i, c :: cs => .asked i h s :: (if c h s then [] else asks h s (i + 1) cs)

/-- all callbacks of a group, in order -/
def group {S : Type} (e : Nat → Event S) (n : Nat) : List (Event S) := (List.range n).map e

/-- The time two bodies at rest at distance `r` with total mass `M` need to fall onto each other. -/
noncomputable def fallTime (G r M : ℝ) : ℝ := Real.pi / 2 * Real.sqrt (r ^ 3 / (2 * G * M))

end SpaceHub.Simu.Spec
