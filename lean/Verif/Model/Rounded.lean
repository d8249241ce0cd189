import Verif.Model.Integrator
import Verif.Model.Forces

/-
Plain systems under gravity in rounded arithmetic: `drift` and `kick` of src/particle-system/base-system.hpp, `NewtonianGrav` of
src/interaction/newtonian.hpp and the integrators of src/integrator/symplectic/symplectic-integrator.hpp, operation by operation, with the operations of the
scalar type as a parameter.  `double` and `long double` scalars (the methods without suffix and `_Ext`, spaceHub.hpp:120-121).
Simplifications: no overflow, underflow, infinities or NaN; no contraction of a multiplication and an addition into one operation.
-/

set_option autoImplicit false

namespace SpaceHub.Rounded
open SpaceHub V3 Force Core Integrator Sys

/-- The operations of the scalar type: `+`, `-`, `*`, `/`, `sqrt`, and the value that a decimal literal stands for. -/
structure Arith where
  add : ℝ → ℝ → ℝ
  sub : ℝ → ℝ → ℝ
  mul : ℝ → ℝ → ℝ
  div : ℝ → ℝ → ℝ
  sqrt : ℝ → ℝ
  lit : ℚ → ℝ

/-- without rounding -/
noncomputable def Arith.exact : Arith := ⟨(· + ·), (· - ·), (· * ·), (· / ·), Real.sqrt, fun c => c⟩

variable (A : Arith)

/-- `Vec3::operator+=`, vector3.hpp:124-128. -/
def addV (a b : V3 ℝ) : V3 ℝ := ⟨A.add a.x b.x, A.add a.y b.y, A.add a.z b.z⟩
/-- `operator-` of two vectors and `operator-=`, vector3.hpp:88-91, 131-135. -/
def subV (a b : V3 ℝ) : V3 ℝ := ⟨A.sub a.x b.x, A.sub a.y b.y, A.sub a.z b.z⟩
/-- `Vec3::operator*(scalar)`, vector3.hpp:112. -/
def mulV (a : V3 ℝ) (c : ℝ) : V3 ℝ := ⟨A.mul a.x c, A.mul a.y c, A.mul a.z c⟩
/-- `norm`, vector3.hpp:240-243. -/
def norm (a : V3 ℝ) : ℝ := A.sqrt (A.add (A.add (A.mul a.x a.x) (A.mul a.y a.y)) (A.mul a.z a.z))

/-- the lambda of `NewtonianGrav::add_acc_to`, newtonian.hpp:78-90. -/
def force (m : Arr ℝ) (dr : V3 ℝ) (i j : Nat) (acc : Arr (V3 ℝ)) : Arr (V3 ℝ) :=
  let r := norm A dr
  let rr3 := A.div 1 (A.mul (A.mul r r) r)
  let acc := acc.set i (addV A (acc i) ⟨A.mul (A.mul dr.x rr3) (m j), A.mul (A.mul dr.y rr3) (m j), A.mul (A.mul dr.z rr3) (m j)⟩)
  acc.set j (subV A (acc j) ⟨A.mul (A.mul dr.x rr3) (m i), A.mul (A.mul dr.y rr3) (m i), A.mul (A.mul dr.z rr3) (m i)⟩)

/-- `Interactions::eval_acc` with gravity alone, interaction.hpp:204-211, newtonian.hpp:71-91, 111-118. -/
def acc (P : Particles) : Arr (V3 ℝ) :=
  forLoop 0 P.num (fun i a => forLoop (i + 1) P.num (fun j a => force A P.mass (subV A (P.pos j) (P.pos i)) i j a) a) (fun _ => 0)

/-- `calc::array_advance(var, inc, step)`, core-computation.hpp:364-371. -/
def advance (n : Nat) (var inc : Arr (V3 ℝ)) (h : ℝ) : Arr (V3 ℝ) :=
  forLoop 0 n (fun i v => v.set i (addV A (v i) (mulV A (inc i) h))) var

/-- `drift`, base-system.hpp:277-283, while no increments are collected. -/
def drift (h : ℝ) (s : Simple) : Simple :=
  { s with time := A.add s.time h, P := { s.P with pos := advance A s.P.num s.P.pos s.P.vel h } }

/-- `kick`, base-system.hpp:260-275, for gravity alone, while no increments are collected. -/
def kick (h : ℝ) (s : Simple) : Simple := { s with P := { s.P with vel := advance A s.P.num s.P.vel (acc A s.P) h } }

/-- `drift(c * step_size)`, `kick(c * step_size)`; where the source has `step_size` alone `c` is 1, and the multiplication changes nothing. -/
def stage (h : ℝ) : Stage → Simple → Simple
  | .drift c => drift A (A.mul (A.lit c) h)
  | .kick c => kick A (A.mul (A.lit c) h)

/-- `integrate(system, step_size)`, symplectic-integrator.hpp:198-363. -/
def step (stages : List Stage) (h : ℝ) (s : Simple) : Simple := stages.foldl (fun s c => stage A h c s) s

/-- Steps of given lengths, one after the other (`ConstOdeIterator`, const-iterator.hpp:49-58). -/
def run (stages : List Stage) (hs : List ℝ) (s : Simple) : Simple := hs.foldl (fun s h => step A stages h s) s

end SpaceHub.Rounded
