import Verif.Model.Rounded

/-
The whole-system quantities of src/core-computation.hpp in rounded arithmetic, operation by operation (plain systems).  As Model/Core, with the operations of
the scalar type as a parameter; simplifications as in Model/Rounded.
-/

set_option autoImplicit false

namespace SpaceHub.Rounded
open SpaceHub V3 Force

variable (A : Arith)

/-- `dot`, vector3.hpp:233-237. -/
def dotR (a b : V3 ℝ) : ℝ := A.add (A.add (A.mul a.x b.x) (A.mul a.y b.y)) (A.mul a.z b.z)

/-- `cross`, vector3.hpp:257-261. -/
def crossR (a b : V3 ℝ) : V3 ℝ :=
  ⟨A.sub (A.mul a.y b.z) (A.mul a.z b.y), A.sub (A.mul a.z b.x) (A.mul a.x b.z), A.sub (A.mul a.x b.y) (A.mul a.y b.x)⟩

/-- `coord_contract_to_scalar(coef, a, b)`, core-computation.hpp:421-430. -/
def contractR (n : Nat) (coef : Arr ℝ) (a b : Arr (V3 ℝ)) : ℝ := forLoop 0 n (fun i s => A.add s (A.mul (dotR A (a i) (b i)) (coef i))) 0

/-- `calc_kinetic_energy`, core-computation.hpp:468-471. -/
def kineticR (P : Particles) : ℝ := A.mul (A.lit (1 / 2)) (contractR A P.num P.mass P.vel P.vel)

/-- `calc_potential_energy`, plain branch, core-computation.hpp:495-500, 521-529. -/
def potentialR (G : ℝ) (P : Particles) : ℝ :=
  A.mul (forLoop 0 P.num (fun i e => forLoop (i + 1) P.num (fun j e =>
    A.sub e (A.div (A.mul (P.mass i) (P.mass j)) (norm A (subV A (P.pos i) (P.pos j))))) e) 0) G

/-- `calc_potential_energy`, chain branch, core-computation.hpp:495-520, 528, for at least two particles. -/
def potentialChainR (G : ℝ) (P : Particles) (C : ChainView) : ℝ :=
  let e := forLoop 0 (P.num - 1) (fun i e => A.sub e (A.div (A.mul (P.mass (C.index i)) (P.mass (C.index (i + 1)))) (norm A (C.chainPos i)))) 0
  let e := forLoop 0 (P.num - 2) (fun i e =>
    A.sub e (A.div (A.mul (P.mass (C.index i)) (P.mass (C.index (i + 2)))) (norm A (addV A (C.chainPos i) (C.chainPos (i + 1)))))) e
  let e := forLoop 0 P.num (fun i e => forLoop (i + 3) P.num (fun j e =>
    A.sub e (A.div (A.mul (P.mass (C.index i)) (P.mass (C.index j))) (norm A (subV A (P.pos (C.index j)) (P.pos (C.index i)))))) e) e
  A.mul e G

/-- `calc_total_energy`, core-computation.hpp:531-534. -/
def totalEnergyR (G : ℝ) (P : Particles) : ℝ := A.add (potentialR A G P) (kineticR A P)

/-- `calc_total_angular_momentum`, core-computation.hpp:536-546. -/
def angularMomentumR (P : Particles) : V3 ℝ :=
  forLoop 0 P.num (fun i L => addV A L (mulV A (crossR A (P.pos i) (P.vel i)) (P.mass i))) 0

/-- `calc_com`, core-computation.hpp:136-145, 344-353, 454-459. -/
def comR (n : Nat) (mass : Arr ℝ) (var : Arr (V3 ℝ)) : V3 ℝ :=
  let d := forLoop 0 n (fun i s => addV A s (mulV A (var i) (mass i))) 0
  let m := forLoop 0 n (fun i s => A.add s (mass i)) 0
  ⟨A.div d.x m, A.div d.y m, A.div d.z m⟩

end SpaceHub.Rounded
