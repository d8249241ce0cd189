import Verif.Model.RoundedCore

/-
Plain systems under gravity and post-Newtonian forces in rounded arithmetic: `kick` of src/particle-system/base-system.hpp for forces that depend on the
velocities, and the classes `PN1` and `PN2p5` of src/interaction/post-newtonian.hpp, operation by operation.
Simplifications as in Model/Rounded.lean; every additional force is one of the two, so that none is independent of the velocities; the sign change of a number
is exact; integer factors are exact.
-/

set_option autoImplicit false

namespace SpaceHub.Rounded
open SpaceHub V3 Force Core Integrator Sys

/-- The additional forces. -/
inductive Term | pn1 | pn2p5
  deriving DecidableEq

variable (A : Arith) (G c : ℝ)

/-- `operator-` of a vector, vector3.hpp:118. -/
def negV (a : V3 ℝ) : V3 ℝ := ⟨-a.x, -a.y, -a.z⟩
/-- `Vec3::operator/(scalar)`, vector3.hpp:115. -/
def divV (a : V3 ℝ) (r : ℝ) : V3 ℝ := ⟨A.div a.x r, A.div a.y r, A.div a.z r⟩

/-- `INV_C` of post-newtonian.hpp:125. -/
def invC : ℝ := A.div 1 c
/-- `INV_C2` of post-newtonian.hpp:126. -/
def invC2 : ℝ := A.mul (invC A c) (invC A c)
/-- `INV_C5` of post-newtonian.hpp:127, 129. -/
def invC5 : ℝ := A.mul (invC2 A c) (A.mul (invC A c) (invC2 A c))

/-- the lambda of `PN1::add_acc_to`, post-newtonian.hpp:141-168. -/
def pn1R (v : Arr (V3 ℝ)) (m : Arr ℝ) (dr dv : V3 ℝ) (i j : Nat) (acc : Arr (V3 ℝ)) : Arr (V3 ℝ) :=
  let r2 := dotR A dr dr
  let r := A.sqrt r2
  let n := divV A (negV dr) r
  let v1s := dotR A (v i) (v i)
  let v2s := dotR A (v j) (v j)
  let v12 := dotR A (v i) (v j)
  let nv1 := dotR A n (v i)
  let nv2 := dotR A n (v j)
  let gmr1 := A.div (A.mul G (m i)) r
  let gmr2 := A.div (A.mul G (m j)) r
  let Ai := A.add (A.add (A.add (A.add (A.sub (-v1s) (A.mul 2 v2s)) (A.mul 4 v12)) (A.mul (A.mul (A.lit (3 / 2)) nv2) nv2)) (A.mul 5 gmr1)) (A.mul 4 gmr2)
  let Aj := A.add (A.add (A.add (A.add (A.sub (-v2s) (A.mul 2 v1s)) (A.mul 4 v12)) (A.mul (A.mul (A.lit (3 / 2)) nv1) nv1)) (A.mul 5 gmr2)) (A.mul 4 gmr1)
  let Bi := A.sub (A.mul 4 nv1) (A.mul 3 nv2)
  let Bj := A.add (A.mul (-4) nv2) (A.mul 3 nv1)
  let coef := A.mul (A.div G r2) (invC2 A c)
  let acc := acc.set i (addV A (acc i) (mulV A (subV A (mulV A n Ai) (mulV A dv Bi)) (A.mul coef (m j))))
  acc.set j (subV A (acc j) (mulV A (subV A (mulV A n Aj) (mulV A dv Bj)) (A.mul coef (m i))))

/-- the lambda of `PN2p5::add_acc_to`, post-newtonian.hpp:296-320. -/
def pn2p5R (m : Arr ℝ) (dr dv : V3 ℝ) (i j : Nat) (acc : Arr (V3 ℝ)) : Arr (V3 ℝ) :=
  let r2 := dotR A dr dr
  let r := A.sqrt r2
  let n := divV A (negV dr) r
  let dv2 := dotR A dv dv
  let nv := -dotR A n dv
  let gmr1 := A.div (A.mul G (m i)) r
  let gmr2 := A.div (A.mul G (m j)) r
  let Ai := A.mul nv (A.add (A.sub (A.mul 3 dv2) (A.mul 6 gmr1)) (A.mul (A.div 52 3) gmr2))
  let Aj := A.mul nv (A.add (A.sub (A.mul 3 dv2) (A.mul 6 gmr2)) (A.mul (A.div 52 3) gmr1))
  let Bi := A.sub (A.add (-dv2) (A.mul 2 gmr1)) (A.mul 8 gmr2)
  let Bj := A.sub (A.add (-dv2) (A.mul 2 gmr2)) (A.mul 8 gmr1)
  let coef := A.mul (A.div (A.mul (A.mul (A.mul (A.mul (A.lit (4 / 5)) G) G) (m i)) (m j)) (A.mul r2 r)) (invC5 A c)
  let acc := acc.set i (addV A (acc i) (mulV A (subV A (mulV A n Ai) (mulV A dv Bi)) coef))
  acc.set j (subV A (acc j) (mulV A (subV A (mulV A n Aj) (mulV A dv Bj)) coef))

/-- the lambda of either class -/
def termForce (t : Term) (v : Arr (V3 ℝ)) (m : Arr ℝ) (dr dv : V3 ℝ) (i j : Nat) (acc : Arr (V3 ℝ)) : Arr (V3 ℝ) :=
  match t with
  | .pn1 => pn1R A G c v m dr dv i j acc
  | .pn2p5 => pn2p5R A G c m dr dv i j acc

/-- `add_acc_to` on a plain system, post-newtonian.hpp:190-197, 342-349. -/
def termAcc (t : Term) (P : Particles) (acc : Arr (V3 ℝ)) : Arr (V3 ℝ) :=
  forLoop 0 P.num (fun i a => forLoop (i + 1) P.num (fun j a =>
    termForce A G c t P.vel P.mass (subV A (P.pos j) (P.pos i)) (subV A (P.vel j) (P.vel i)) i j a) a) acc

/-- `Interactions::eval_extra_vel_dep_acc`, interaction.hpp:228-236. -/
def velDepX (fs : List Term) (P : Particles) : Arr (V3 ℝ) := fs.foldl (fun a t => termAcc A G c t P a) (fun _ => 0)

/-- `calc::array_add`, core-computation.hpp:158-167. -/
def arrayAddR (n : Nat) (a b : Arr (V3 ℝ)) : Arr (V3 ℝ) := forLoop 0 n (fun i d => d.set i (addV A (a i) (b i))) (fun _ => 0)

/-- `kick_real_vel`, base-system.hpp:291-299, while no increments are collected; `a` = `tot_vel_indep_acc`. -/
def kickRealX (fs : List Term) (a : Arr (V3 ℝ)) (h : ℝ) (s : Simple) : Simple :=
  { s with P := { s.P with vel := advance A s.P.num s.P.vel (arrayAddR A s.P.num a (velDepX A G c fs { s.P with vel := s.aux })) h } }

/-- `kick_pseu_vel`, base-system.hpp:301-307, while no increments are collected. -/
def kickPseuX (fs : List Term) (a : Arr (V3 ℝ)) (h : ℝ) (s : Simple) : Simple :=
  { s with aux := advance A s.P.num s.aux (arrayAddR A s.P.num a (velDepX A G c fs s.P)) h }

/-- `kick`, base-system.hpp:260-270, 309-311, for forces that depend on the velocities. -/
def kickX (fs : List Term) (h : ℝ) (s : Simple) : Simple :=
  let half := A.mul (A.lit (1 / 2)) h
  let a := acc A s.P
  kickRealX A G c fs a half (kickPseuX A G c fs a h (kickRealX A G c fs a half s))

/-- `drift(c * step_size)`, `kick(c * step_size)`. -/
def stageX (fs : List Term) (h : ℝ) : Stage → Simple → Simple
  | .drift q => drift A (A.mul (A.lit q) h)
  | .kick q => kickX A G c fs (A.mul (A.lit q) h)

/-- the stages of a step, symplectic-integrator.hpp:198-363 -/
def stagesX (fs : List Term) (stages : List Stage) (h : ℝ) (s : Simple) : Simple := stages.foldl (fun s q => stageX A G c fs h q s) s

/-- `pre_iter_process` (base-system.hpp:253-258) and a step. -/
def stepX (fs : List Term) (stages : List Stage) (h : ℝ) (s : Simple) : Simple := stagesX A G c fs stages h { s with aux := s.P.vel }

/-- Steps of given lengths, one after the other. -/
def runX (fs : List Term) (stages : List Stage) (hs : List ℝ) (s : Simple) : Simple := hs.foldl (fun s h => stepX A G c fs stages h s) s

end SpaceHub.Rounded
