import Verif.Spec.Gravity
import Verif.Spec.Letters
import Mathlib.Analysis.Calculus.ContDiff.Defs
import Mathlib.Analysis.Normed.Group.Constructions
import Mathlib.Data.Fintype.Basic

/-
Motions under any forces, also such that depend on the velocities.
-/

set_option autoImplicit false

namespace SpaceHub.Spec
open SpaceHub V3 Integrator
open scoped ContDiff

/-- The accelerations of `n` particles as a function of their positions and velocities. -/
abbrev Field (n : Nat) := (Fin n → V3 ℝ) → (Fin n → V3 ℝ) → Fin n → V3 ℝ

/-- `n` particles move from time `t0` to time `t1` with the accelerations `a`. -/
structure ForcedMotion (n : Nat) (a : Field n) (x v : ℝ → Nat → V3 ℝ) (t0 t1 : ℝ) : Prop where
  pos : ∀ t ∈ Set.Icc t0 t1, ∀ k, k < n → Rate (fun e => x e k) (v t k) t
  vel : ∀ t ∈ Set.Icc t0 t1, ∀ k : Fin n, Rate (fun e => v e k) (a (fun j => x t j) (fun j => v t j) k) t

/-- a vector as three numbers -/
def triple (a : V3 ℝ) : ℝ × ℝ × ℝ := (a.x, a.y, a.z)

/-- The accelerations as a function of numbers. -/
def inNumbers {n : Nat} (a : Field n) (z : (Fin n → ℝ × ℝ × ℝ) × (Fin n → ℝ × ℝ × ℝ)) : Fin n → ℝ × ℝ × ℝ :=
  fun k => triple (a (fun j => ⟨(z.1 j).1, (z.1 j).2.1, (z.1 j).2.2⟩) (fun j => ⟨(z.2 j).1, (z.2 j).2.1, (z.2 j).2.2⟩) k)

/-- The accelerations are infinitely differentiable near the positions and velocities of the motion. -/
def SmoothAlong {n : Nat} (a : Field n) (x v : ℝ → Nat → V3 ℝ) (t0 t1 : ℝ) : Prop :=
  ∃ U : Set ((Fin n → ℝ × ℝ × ℝ) × (Fin n → ℝ × ℝ × ℝ)), IsOpen U ∧ ContDiffOn ℝ ∞ (inNumbers a) U ∧
    ∀ t ∈ Set.Icc t0 t1, (fun k : Fin n => triple (x t k), fun k : Fin n => triple (v t k)) ∈ U

/-- Additional forces: first and 2.5th post-Newtonian order, tides (apsidal constants, lag times, radii), drag of a gas at rest (coefficients, speeds of
sound). -/
inductive Extra
  | pn1 | pn2p5
  | tides (k tau rad : Nat → ℝ)
  | drag (q cs : Nat → ℝ)

/-- two of the particles -/
def pair {n : Nat} (m : Nat → ℝ) (x v : Fin n → V3 ℝ) (i j : Fin n) : TwoBody := ⟨m i, m j, x i, x j, v i, v j⟩

/-- The accelerations that an additional force gives. -/
noncomputable def Extra.field (G c : ℝ) (n : Nat) (m : Nat → ℝ) : Extra → Field n
  | .pn1, x, v, i => ∑ j ∈ Finset.univ.erase i, (pair m x v i j).pn1 G c
  | .pn2p5, x, v, i => ∑ j ∈ Finset.univ.erase i, (pair m x v i j).pn2p5 G c
  | .tides k tau rad, x, v, i => ∑ j ∈ Finset.univ.erase i, tidal G (k i) (k j) (tau i) (tau j) (rad i) (rad j) (pair m x v i j)
  | .drag q cs, _, v, i =>
    if len (v i) < cs i then -((q i * m i) • v i) else -((3 * Real.sqrt (Real.pi / 2) * q i * cs i ^ 3 * m i / len (v i) ^ 3) • v i)

/-- Newton's gravity (G = 1, as in the code) and additional forces. -/
noncomputable def withExtras (G c : ℝ) (n : Nat) (m : Nat → ℝ) (fs : List Extra) : Field n := fun x v i =>
  ∑ j ∈ Finset.univ.erase i, newton (m j) (x i) (x j) + (fs.map fun f => f.field G c n m x v i).sum

/-- Where the drag changes its formula, the motion must not be: never exactly at the speed of sound; at rest only where that is below the speed of sound. -/
def Extra.Away (n : Nat) (v : ℝ → Nat → V3 ℝ) (t0 t1 : ℝ) : Extra → Prop
  | .drag _ cs => ∀ t ∈ Set.Icc t0 t1, ∀ k, k < n → len (v t k) < cs k ∨ cs k < len (v t k) ∧ v t k ≠ 0
  | _ => True

/-- With velocity-dependent forces a second set of velocities is carried along.  The three moves are: positions with the velocities; velocities with the
accelerations at the second velocities; second velocities with the accelerations at the velocities. -/
inductive Move
  | drift | real | pseudo
  deriving DecidableEq

instance : Fintype Move := ⟨{.drift, .real, .pseudo}, fun X => by cases X <;> decide⟩

/-- A velocity update consists of three moves. -/
def split : Stage → List (Move × ℚ)
  | .drift c => [(.drift, c)]
  | .kick c => [(.real, c / 2), (.pseudo, c), (.real, c / 2)]

end SpaceHub.Spec
