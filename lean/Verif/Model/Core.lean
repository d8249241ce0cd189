import Verif.Model.Force

/-
Model of the whole-system quantities of src/core-computation.hpp and src/orbits/particle-manip.hpp, and of
src/interaction/interaction.hpp.  Real scalars (exact arithmetic).
-/

set_option autoImplicit false

namespace SpaceHub.Core
open SpaceHub V3 Force

/-- `array_dot(var, mass)` for a vector array and a scalar array, core-computation.hpp:136-145. -/
noncomputable def arrayDot (n : Nat) (var : Arr (V3 ℝ)) (mass : Arr ℝ) : V3 ℝ :=
  forLoop 0 n (fun i s => s + mass i • var i) 0

/-- `array_sum`, core-computation.hpp:344-353. -/
noncomputable def arraySum (n : Nat) (a : Arr ℝ) : ℝ := forLoop 0 n (fun i s => s + a i) 0

/-- `calc_com`, core-computation.hpp:454-459. -/
noncomputable def calcCom (n : Nat) (mass : Arr ℝ) (var : Arr (V3 ℝ)) : V3 ℝ :=
  arrayDot n var mass / arraySum n mass

/-- `move_to_com`, core-computation.hpp:461-466. -/
noncomputable def moveToCom (n : Nat) (mass : Arr ℝ) (var : Arr (V3 ℝ)) : Arr (V3 ℝ) :=
  let com := calcCom n mass var
  forLoop 0 n (fun i v => v.set i (v i - com)) var

/-- `coord_contract_to_scalar(coef, a, b)`, core-computation.hpp:421-430. -/
noncomputable def contract (n : Nat) (coef : Arr ℝ) (a b : Arr (V3 ℝ)) : ℝ :=
  forLoop 0 n (fun i s => s + dot (a i) (b i) * coef i) 0

/-- `calc_kinetic_energy`, core-computation.hpp:468-471. -/
noncomputable def kinetic (P : Particles) : ℝ := 1 / 2 * contract P.num P.mass P.vel P.vel

/-- `calc_potential_energy`, plain branch, core-computation.hpp:495-500, 521-529. -/
noncomputable def potentialDirect (G : ℝ) (P : Particles) : ℝ :=
  (forLoop 0 P.num (fun i e =>
    forLoop (i + 1) P.num (fun j e => e - P.mass i * P.mass j / norm (P.pos i - P.pos j)) e) 0) * G

/-- `calc_potential_energy`, chain branch, core-computation.hpp:495-520, 528.  The bounds `size - 1` and
`size - 2` wrap around for fewer than two particles. -/
noncomputable def potentialChain (G : ℝ) (P : Particles) (C : ChainView) : Res ℝ :=
  if P.num < 2 then .ub
  else
    let e := forLoop 0 (P.num - 1) (fun i e =>
      e - P.mass (C.index i) * P.mass (C.index (i + 1)) / norm (C.chainPos i)) 0
    let e := forLoop 0 (P.num - 2) (fun i e =>
      let dr := C.chainPos i + C.chainPos (i + 1)
      e - P.mass (C.index i) * P.mass (C.index (i + 2)) / norm dr) e
    let e := forLoop 0 P.num (fun i e =>
      forLoop (i + 3) P.num (fun j e =>
        let dr := P.pos (C.index j) - P.pos (C.index i)
        e - P.mass (C.index i) * P.mass (C.index j) / norm dr) e) e
    .ok (e * G)

/-- `calc_total_energy`, core-computation.hpp:531-534 (plain system). -/
noncomputable def totalEnergy (G : ℝ) (P : Particles) : ℝ := potentialDirect G P + kinetic P

/-- `calc_total_angular_momentum`, core-computation.hpp:536-546. -/
noncomputable def angularMomentum (P : Particles) : V3 ℝ :=
  forLoop 0 P.num (fun i L => L + P.mass i • cross (P.pos i) (P.vel i)) 0

/-- `calc_angular_momentum` of the particles listed in `idex`, core-computation.hpp:548-557. -/
noncomputable def angularMomentumOf (P : Particles) (idex : List Nat) : V3 ℝ :=
  idex.foldl (fun L id => L + P.mass id • cross (P.pos id) (P.vel id)) 0

/-- `calc_isolated_angular_momentum`, core-computation.hpp:559-580. -/
noncomputable def isolatedAngularMomentum (P : Particles) (idex : List Nat) : V3 ℝ :=
  let M := idex.foldl (fun M id => M + P.mass id) 0
  let cp := (idex.foldl (fun c id => c + P.mass id • P.pos id) (0 : V3 ℝ)) / M
  let cv := (idex.foldl (fun c id => c + P.mass id • P.vel id) (0 : V3 ℝ)) / M
  idex.foldl (fun L id => L + P.mass id • cross (P.pos id - cp) (P.vel id - cv)) 0

/-! ### particle-manip.hpp: the same on containers of particle objects -/

/-- A particle object with the members used by particle-manip.hpp. -/
structure Body where
  mass : ℝ
  pos : V3 ℝ
  vel : V3 ℝ
  radius : ℝ

/-- `M_tot` of a container, particle-manip.hpp:62-75 (the variadic form 87-92 is the same sum). -/
noncomputable def mTot (c : List Body) : ℝ := c.foldl (fun s p => s + p.mass) 0

/-- `COM_p` of a container, particle-manip.hpp:102-123 (variadic form 135-143). -/
noncomputable def comP (c : List Body) : V3 ℝ :=
  let s := c.foldl (fun (s : ℝ × V3 ℝ) p => (s.1 + p.mass, s.2 + p.mass • p.pos)) (0, 0)
  s.2 / s.1

/-- `COM_v` of a container, particle-manip.hpp:153-176 (variadic form 188-197). -/
noncomputable def comV (c : List Body) : V3 ℝ :=
  let s := c.foldl (fun (s : ℝ × V3 ℝ) p => (s.1 + p.mass, s.2 + p.mass • p.vel)) (0, 0)
  s.2 / s.1

/-- `move_particles(pos, vel, container)`, particle-manip.hpp:310-323 (variadic form 337-347). -/
noncomputable def moveParticles (cp cv : V3 ℝ) (c : List Body) : List Body :=
  let dp := cp - comP c
  let dv := cv - comV c
  c.map fun p => { p with pos := p.pos + dp, vel := p.vel + dv }

/-- `move_to_COM_frame`, particle-manip.hpp:376-380. -/
noncomputable def moveToComFrame (c : List Body) : List Body := moveParticles ⟨0, 0, 0⟩ ⟨0, 0, 0⟩ c

/-- `E_k` of a container, particle-manip.hpp:527-540 (variadic form 552-559). -/
noncomputable def eK (c : List Body) : ℝ := 1 / 2 * c.foldl (fun s p => s + p.mass * dot p.vel p.vel) 0

/-- inner loop of `E_p` for the fixed particle `p`, particle-manip.hpp:575-577. -/
noncomputable def ePInner (G : ℝ) (p : Body) (rest : List Body) (e : ℝ) : ℝ :=
  rest.foldl (fun e q => e - G * p.mass * q.mass / norm (p.pos - q.pos)) e

/-- `E_p` of a container, particle-manip.hpp:569-583: the iterator `i` walks the container, `j` what follows it.
`distance(a, b)` (vector3.hpp:224-231) is `norm (a - b)`. -/
noncomputable def ePFrom (G : ℝ) : List Body → ℝ → ℝ
  | [], e => e
  | p :: rest, e => ePFrom G rest (ePInner G p rest e)

/-- `E_p`, particle-manip.hpp:569-583 (variadic form 595-600). -/
noncomputable def eP (G : ℝ) (c : List Body) : ℝ := ePFrom G c 0

/-- `E_k_COM`, particle-manip.hpp:610-615 (variadic form 627-634). -/
noncomputable def eKCom (c : List Body) : ℝ := 1 / 2 * mTot c * dot (comV c) (comV c)

/-- `E_tot`, particle-manip.hpp:644-647. -/
noncomputable def eTot (G : ℝ) (c : List Body) : ℝ := eK c + eP G c

/-- `E_inner`, particle-manip.hpp:657-660. -/
noncomputable def eInner (G : ℝ) (c : List Body) : ℝ := eTot G c - eKCom c

open Classical in
/-- inner loop of `cluster_size`, particle-manip.hpp:682-687. -/
noncomputable def sizeInner (p : Body) (rest : List Body) (R : ℝ) : ℝ :=
  rest.foldl (fun R q => if norm (p.pos - q.pos) > R then norm (p.pos - q.pos) else R) R

/-- double loop of `cluster_size`, particle-manip.hpp:681-688. -/
noncomputable def sizeFrom : List Body → ℝ → ℝ
  | [], R => R
  | p :: rest, R => sizeFrom rest (sizeInner p rest R)

/-- `cluster_size` of a container of particles with a radius, particle-manip.hpp:672-697. -/
noncomputable def clusterSize (c : List Body) : ℝ :=
  sizeFrom c (match c with
    | [p] => p.radius
    | _ => 0)

/-! ### interaction.hpp -/

/-- A force class: `vel_dependent` and `add_acc_to` (for the given kind `P` of particle system). -/
structure ForceClass (P : Type) where
  velDep : Bool
  addAccTo : P → Arr (V3 ℝ) → Arr (V3 ℝ)

/-- `calc::array_set_zero` on an array of `n` accelerations, core-computation.hpp:103-109. -/
def setZero (n : Nat) (acc : Arr (V3 ℝ)) : Arr (V3 ℝ) := fun k => if k < n then 0 else acc k

section interaction
variable {P : Type} (num : P → Nat) (internal : ForceClass P) (extra : List (ForceClass P))

/-- `ext_vel_dep`, interaction.hpp:47. -/
def extVelDep : Bool := extra.any (fun f => f.velDep)
/-- `ext_vel_indep`, interaction.hpp:53. -/
def extVelIndep : Bool := extra.any (fun f => !f.velDep)

/-- `InvokeVelDepForce`, interaction.hpp:175-186. -/
def invokeVelDep (p : P) : List (ForceClass P) → Arr (V3 ℝ) → Arr (V3 ℝ)
  | [], acc => acc
  | f :: fs, acc => invokeVelDep p fs (if f.velDep then f.addAccTo p acc else acc)

/-- `InvokeVelIndepForce`, interaction.hpp:188-199. -/
def invokeVelIndep (p : P) : List (ForceClass P) → Arr (V3 ℝ) → Arr (V3 ℝ)
  | [], acc => acc
  | f :: fs, acc => invokeVelIndep p fs (if !f.velDep then f.addAccTo p acc else acc)

/-- `eval_acc`, interaction.hpp:204-211. -/
def evalAcc (p : P) (acc : Arr (V3 ℝ)) : Arr (V3 ℝ) :=
  let acc := setZero (num p) acc
  let acc := internal.addAccTo p acc
  extra.foldl (fun acc f => f.addAccTo p acc) acc

/-- `eval_extra_acc`, interaction.hpp:213-226. -/
def evalExtraAcc (p : P) (acc : Arr (V3 ℝ)) : Arr (V3 ℝ) :=
  let acc := if extVelDep extra || extVelIndep extra then setZero (num p) acc else acc
  let acc := if extVelDep extra then invokeVelDep p extra acc else acc
  if extVelIndep extra then invokeVelIndep p extra acc else acc

/-- `eval_extra_vel_dep_acc`, interaction.hpp:228-236. -/
def evalExtraVelDepAcc (p : P) (acc : Arr (V3 ℝ)) : Arr (V3 ℝ) :=
  if extVelDep extra then invokeVelDep p extra (setZero (num p) acc) else acc

/-- `eval_extra_vel_indep_acc`, interaction.hpp:238-246. -/
def evalExtraVelIndepAcc (p : P) (acc : Arr (V3 ℝ)) : Arr (V3 ℝ) :=
  if extVelIndep extra then invokeVelIndep p extra (setZero (num p) acc) else acc

/-- `eval_newtonian_acc`, interaction.hpp:248-254. -/
def evalNewtonianAcc (p : P) (acc : Arr (V3 ℝ)) : Arr (V3 ℝ) :=
  let acc := setZero (num p) acc
  internal.addAccTo p acc
end interaction

end SpaceHub.Core
