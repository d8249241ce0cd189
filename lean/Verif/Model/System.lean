import Verif.Model.Core
import Verif.Model.Chain

/-
Model of the particle systems: src/particle-system/base-system.hpp (`SimpleSystem`), chain-system.hpp
(`ChainSystem`), regu-system.hpp (`Regularization`, `RegularizedSystem`), archain.hpp (`ARchainSystem`), and of the
coordinate packing helpers of src/type-class.hpp.
Simplifications: real scalars; the acceleration buffers of `InteractionData` (interaction.hpp:119-174, 259-268) are
not kept in the state, because every evaluation overwrites all entries of the buffer it uses (`array_set_zero`,
`array_add`); they start from zero here.  `std::swap` of velocities around a force evaluation is modelled by
evaluating the force on a copy with the velocities exchanged.
-/

set_option autoImplicit false

namespace SpaceHub.Sys
open SpaceHub V3 Force Core

/-! ### helpers -/

/-- `calc::array_advance(var, increment, step_size)`, core-computation.hpp:364-371. -/
noncomputable def advance (n : Nat) (var inc : Arr (V3 ℝ)) (h : ℝ) : Arr (V3 ℝ) :=
  forLoop 0 n (fun i v => v.set i (v i + h • inc i)) var

/-- `calc::array_add(dst, a, b)`, core-computation.hpp:158-167, with `dst` all zero before. -/
noncomputable def arrayAdd (n : Nat) (a b : Arr (V3 ℝ)) : Arr (V3 ℝ) :=
  forLoop 0 n (fun i d => d.set i (a i + b i)) (fun _ => 0)

/-- `add_coords_to`, type-class.hpp:129-138. -/
def addCoordsTo (y : List ℝ) (n : Nat) (var : Arr (V3 ℝ)) : List ℝ :=
  forLoop 0 n (fun i y => y ++ [(var i).x] ++ [(var i).y] ++ [(var i).z]) y

/-- `add_scaled_coords_to`, type-class.hpp:140-148. -/
noncomputable def addScaledCoordsTo (y : List ℝ) (n : Nat) (var : Arr (V3 ℝ)) (scale : ℝ) : List ℝ :=
  forLoop 0 n (fun i y => y ++ [(var i).x * scale] ++ [(var i).y * scale] ++ [(var i).z * scale]) y

/-- `load_to_coords`, type-class.hpp:97-107: the new contents of the vector array, whose length becomes
`(end - begin) / 3`.  The entries read lie inside the iterator range. -/
def loadToCoords (y : List ℝ) (b e : Nat) : List (V3 ℝ) :=
  (List.range ((e - b) / 3)).map fun i => ⟨y.getD (b + 3 * i) 0, y.getD (b + 3 * i + 1) 0, y.getD (b + 3 * i + 2) 0⟩

/-- Storing the loaded vectors in one of the arrays of a system of `n` particles.  An array of another length would
be indexed out of bounds afterwards; the model reports that as `ub` at once. -/
def store (n : Nat) (l : List (V3 ℝ)) (old : Arr (V3 ℝ)) : Res (Arr (V3 ℝ)) :=
  if l.length = n then .ok (fun k => if k < n then l.getD k 0 else old k) else .ub

/-- `advance_scaled_coords_to(increment_.begin() + off, var, scale)`, type-class.hpp:119-127. -/
noncomputable def advanceScaledCoordsTo (inc : Arr ℝ) (off n : Nat) (var : Arr (V3 ℝ)) (scale : ℝ) : Arr ℝ :=
  forLoop 0 n (fun i inc =>
    let inc := inc.set (off + 3 * i) (inc (off + 3 * i) + (var i).x * scale)
    let inc := inc.set (off + 3 * i + 1) (inc (off + 3 * i + 1) + (var i).y * scale)
    inc.set (off + 3 * i + 2) (inc (off + 3 * i + 2) + (var i).z * scale)) inc

/-- `pos_offset`, base-system.hpp:129, chain-system.hpp:102, regu-system.hpp:158, archain.hpp:107. -/
def posOffset : Nat := 1
/-- `vel_offset`, base-system.hpp:131, chain-system.hpp:104, regu-system.hpp:160, archain.hpp:109. -/
def velOffset (n : Nat) : Nat := n * 3 + 1
/-- `auxi_vel_offset`, base-system.hpp:133, chain-system.hpp:106, regu-system.hpp:162, archain.hpp:111. -/
def auxOffset (n : Nat) : Nat := n * 6 + 1
/-- `omega_offset`, regu-system.hpp:164-166, archain.hpp:113-115. -/
def omegaOffset (n : Nat) (velDep : Bool) : Nat := n * 3 * (2 + velDep.toNat) + 1
/-- `bindE_offset`, regu-system.hpp:168-170, archain.hpp:116-118. -/
def bindEOffset (n : Nat) (velDep : Bool) : Nat := n * 3 * (2 + velDep.toNat) + 2

/-- The template parameter `Interactions`: internal force and the list of extra forces (interaction.hpp:31-117). -/
structure Interactions where
  internal : ForceClass Particles
  extra : List (ForceClass Particles)

/-- A force class as a chain system uses it: it sees the chain coordinates as well and may run out of bounds. -/
structure ChainForce where
  velDep : Bool
  addAccTo : Particles → ChainView → Arr (V3 ℝ) → Res (Arr (V3 ℝ))

/-- `Interactions` as a chain system uses it. -/
structure ChainInteractions where
  internal : ChainForce
  extra : List ChainForce

namespace Interactions
variable (I : Interactions)
/-- `ext_vel_dep`, interaction.hpp:47. -/
def velDep : Bool := extVelDep I.extra
/-- `ext_vel_indep`, interaction.hpp:53. -/
def velIndep : Bool := extVelIndep I.extra
/-- `eval_acc` into a fresh buffer, interaction.hpp:204-211. -/
def acc (P : Particles) : Arr (V3 ℝ) := evalAcc Particles.num I.internal I.extra P (fun _ => 0)
/-- `eval_extra_acc`, interaction.hpp:213-226. -/
def extraAcc (P : Particles) : Arr (V3 ℝ) := evalExtraAcc Particles.num I.extra P (fun _ => 0)
/-- `eval_extra_vel_dep_acc`, interaction.hpp:228-236. -/
def velDepAcc (P : Particles) : Arr (V3 ℝ) := evalExtraVelDepAcc Particles.num I.extra P (fun _ => 0)
/-- `eval_extra_vel_indep_acc`, interaction.hpp:238-246. -/
def velIndepAcc (P : Particles) : Arr (V3 ℝ) := evalExtraVelIndepAcc Particles.num I.extra P (fun _ => 0)
/-- `eval_newtonian_acc`, interaction.hpp:248-254. -/
def newtonianAcc (P : Particles) : Arr (V3 ℝ) := evalNewtonianAcc Particles.num I.internal P (fun _ => 0)
end Interactions

namespace ChainInteractions
variable (I : ChainInteractions)
/-- `ext_vel_dep`, interaction.hpp:47. -/
def velDep : Bool := I.extra.any (fun f => f.velDep)
/-- `ext_vel_indep`, interaction.hpp:53. -/
def velIndep : Bool := I.extra.any (fun f => !f.velDep)
/-- `(Args::add_acc_to(particles, acceleration), ...)` over the forces selected by `sel`; interaction.hpp:175-199. -/
def invoke (P : Particles) (C : ChainView) (sel : ChainForce → Bool) : List ChainForce → Arr (V3 ℝ) → Res (Arr (V3 ℝ))
  | [], a => .ok a
  | f :: fs, a => (if sel f then f.addAccTo P C a else .ok a) >>= invoke P C sel fs
/-- `eval_acc`, interaction.hpp:204-211. -/
def acc (P : Particles) (C : ChainView) : Res (Arr (V3 ℝ)) := do
  let a ← I.internal.addAccTo P C (setZero P.num (fun _ => 0))
  invoke P C (fun _ => true) I.extra a
/-- `eval_extra_acc`, interaction.hpp:213-226. -/
def extraAcc (P : Particles) (C : ChainView) : Res (Arr (V3 ℝ)) := do
  let a := if I.velDep || I.velIndep then setZero P.num (fun _ => 0) else fun _ => 0
  let a ← if I.velDep then invoke P C (fun f => f.velDep) I.extra a else .ok a
  if I.velIndep then invoke P C (fun f => !f.velDep) I.extra a else .ok a
/-- `eval_extra_vel_dep_acc`, interaction.hpp:228-236. -/
def velDepAcc (P : Particles) (C : ChainView) : Res (Arr (V3 ℝ)) :=
  if I.velDep then invoke P C (fun f => f.velDep) I.extra (setZero P.num (fun _ => 0)) else .ok (fun _ => 0)
/-- `eval_extra_vel_indep_acc`, interaction.hpp:238-246. -/
def velIndepAcc (P : Particles) (C : ChainView) : Res (Arr (V3 ℝ)) :=
  if I.velIndep then invoke P C (fun f => !f.velDep) I.extra (setZero P.num (fun _ => 0)) else .ok (fun _ => 0)
/-- `eval_newtonian_acc`, interaction.hpp:248-254. -/
def newtonianAcc (P : Particles) (C : ChainView) : Res (Arr (V3 ℝ)) :=
  I.internal.addAccTo P C (setZero P.num (fun _ => 0))
end ChainInteractions

/-! ### SimpleSystem -/

/-- State of a `SimpleSystem`, base-system.hpp:43-181 (`time_`, positions, velocities and masses come from `Particles`). -/
structure Simple where
  P : Particles
  time : ℝ
  aux : Arr (V3 ℝ)
  inc : Arr ℝ
  sync : Bool

namespace Simple
variable (I : Interactions)

/-- Constructor, base-system.hpp:188-195. -/
def init (time : ℝ) (P : Particles) : Simple :=
  { P := P, time := time, aux := P.vel, inc := fun _ => 0, sync := false }

/-- `variable_number`, base-system.hpp:249-251. -/
def variableNumber (s : Simple) : Nat := s.P.num * 3 * (2 + I.velDep.toNat) + 1

/-- `write_to_scalar_array`, base-system.hpp:221-232. -/
def write (s : Simple) : List ℝ :=
  let y := [s.time]
  let y := addCoordsTo y s.P.num s.P.pos
  let y := addCoordsTo y s.P.num s.P.vel
  if I.velDep then addCoordsTo y s.P.num s.aux else y

/-- `read_from_scalar_array`, base-system.hpp:197-219. -/
def read (s : Simple) (y : List ℝ) : Res Simple :=
  if y.length = s.variableNumber I then do
    let n := s.P.num
    let pos ← store n (loadToCoords y posOffset (velOffset n)) s.P.pos
    let vel ← store n (loadToCoords y (velOffset n) (auxOffset n)) s.P.vel
    let s := { s with time := y.getD 0 0, P := { s.P with pos := pos, vel := vel } }
    if I.velDep then do
      let aux ← store n (loadToCoords y (auxOffset n) y.length) s.aux
      .ok { s with aux := aux }
    else .ok s
  else .abort

/-- `evaluate_general_derivative`, base-system.hpp:234-246. -/
def derivative (s : Simple) : List ℝ :=
  let y := [1]
  let y := addCoordsTo y s.P.num s.P.vel
  let a := I.acc s.P
  let y := addCoordsTo y s.P.num a
  if I.velDep then addCoordsTo y s.P.num a else y

/-- `pre_iter_process`, base-system.hpp:253-258. -/
def preIter (s : Simple) : Simple := if I.velDep then { s with aux := s.P.vel } else s

/-- `collect_increment`, base-system.hpp:121. -/
def collect (b : Bool) (s : Simple) : Simple := { s with sync := b }
/-- `clear_increment`, base-system.hpp:123. -/
def clearInc (s : Simple) : Simple :=
  { s with inc := fun k => if k < s.variableNumber I then 0 else s.inc k }

/-- `sync_pos_increment`, base-system.hpp:318-324. -/
noncomputable def syncPos (s : Simple) (v : Arr (V3 ℝ)) (h : ℝ) : Simple :=
  if s.sync then { s with inc := advanceScaledCoordsTo s.inc posOffset s.P.num v h } else s
/-- `sync_vel_increment`, base-system.hpp:326-332. -/
noncomputable def syncVel (s : Simple) (v : Arr (V3 ℝ)) (h : ℝ) : Simple :=
  if s.sync then { s with inc := advanceScaledCoordsTo s.inc (velOffset s.P.num) s.P.num v h } else s
/-- `sync_auxi_vel_increment`, base-system.hpp:334-340. -/
noncomputable def syncAux (s : Simple) (v : Arr (V3 ℝ)) (h : ℝ) : Simple :=
  if s.sync then { s with inc := advanceScaledCoordsTo s.inc (auxOffset s.P.num) s.P.num v h } else s
/-- `sync_time_increment`, base-system.hpp:342-347. -/
noncomputable def syncTime (s : Simple) (h : ℝ) : Simple :=
  if s.sync then { s with inc := s.inc.set 0 (s.inc 0 + h) } else s

/-- `drift`, base-system.hpp:277-283. -/
noncomputable def drift (h : ℝ) (s : Simple) : Simple :=
  let s := { s with time := s.time + h }
  let s := { s with P := { s.P with pos := advance s.P.num s.P.pos s.P.vel h } }
  let s := s.syncTime h
  s.syncPos s.P.vel h

/-- `eval_vel_indep_acc`, base-system.hpp:309-316: the new `tot_vel_indep_acc`. -/
noncomputable def totVelIndepAcc (P : Particles) : Arr (V3 ℝ) :=
  let a := I.newtonianAcc P
  if I.velIndep then arrayAdd P.num a (I.velIndepAcc P) else a

/-- `kick_real_vel`, base-system.hpp:291-299; `a` = `tot_vel_indep_acc`. -/
noncomputable def kickReal (a : Arr (V3 ℝ)) (h : ℝ) (s : Simple) : Simple :=
  let e := I.velDepAcc { s.P with vel := s.aux }
  let acc := arrayAdd s.P.num a e
  let s := { s with P := { s.P with vel := advance s.P.num s.P.vel acc h } }
  s.syncVel acc h

/-- `kick_pseu_vel`, base-system.hpp:301-307. -/
noncomputable def kickPseu (a : Arr (V3 ℝ)) (h : ℝ) (s : Simple) : Simple :=
  let e := I.velDepAcc s.P
  let acc := arrayAdd s.P.num a e
  let s := { s with aux := advance s.P.num s.aux acc h }
  s.syncAux acc h

/-- `kick`, base-system.hpp:260-275. -/
noncomputable def kick (h : ℝ) (s : Simple) : Simple :=
  if I.velDep then
    let a := totVelIndepAcc I s.P
    let s := s.kickReal I a (1 / 2 * h)
    let s := s.kickPseu I a h
    s.kickReal I a (1 / 2 * h)
  else
    let acc := I.acc s.P
    let s := { s with P := { s.P with vel := advance s.P.num s.P.vel acc h } }
    s.syncVel acc h
end Simple

/-! ### ChainSystem -/

/-- State of a `ChainSystem`, chain-system.hpp:43-151. -/
structure ChainSys where
  P : Particles
  time : ℝ
  cpos : Arr (V3 ℝ)
  cvel : Arr (V3 ℝ)
  index : Arr Nat
  aux : Arr (V3 ℝ)
  caux : Arr (V3 ℝ)
  inc : Arr ℝ
  sync : Bool

/-- Squared distance of two particles as computed for the chain, chain.hpp:250-251. -/
def dist2 (pos : Arr (V3 ℝ)) (i j : Nat) : ℝ :=
  let dr := pos j - pos i
  dr.x * dr.x + dr.y * dr.y + dr.z * dr.z

/-- `Chain::calc_chain_index(this->pos(), index)` returns normally and leaves `idx` in the index array. -/
def IndexOf (P : Particles) (idx : Arr Nat) : Prop :=
  ∃ fuel l, Chain.CalcChainIndex fuel P.num (dist2 P.pos) (.ok l) ∧ idx = Chain.ofList l

namespace ChainSys
variable (I : ChainInteractions)

/-- what the forces see -/
def view (s : ChainSys) : ChainView := { chainPos := s.cpos, chainVel := s.cvel, index := s.index }

/-- Constructor, chain-system.hpp:156-175; `idx` is the index that `calc_chain_index` produced. -/
def init (time : ℝ) (P : Particles) (idx : Arr Nat) : Res ChainSys := do
  let cpos ← Chain.toChain P.num P.pos (fun _ => 0) idx
  let cvel ← Chain.toChain P.num P.vel (fun _ => 0) idx
  .ok { P := P, time := time, cpos := cpos, cvel := cvel, index := idx, aux := P.vel, caux := cvel,
        inc := fun _ => 0, sync := false }

/-- `variable_number`, chain-system.hpp:284-287. -/
def variableNumber (s : ChainSys) : Nat := s.P.num * 3 * (2 + I.velDep.toNat) + 1

/-- `write_to_scalar_array`, chain-system.hpp:229-240. -/
def write (s : ChainSys) : List ℝ :=
  let y := [s.time]
  let y := addCoordsTo y s.P.num s.cpos
  let y := addCoordsTo y s.P.num s.cvel
  if I.velDep then addCoordsTo y s.P.num s.caux else y

/-- `read_from_scalar_array`, chain-system.hpp:257-282. -/
def read (s : ChainSys) (y : List ℝ) : Res ChainSys :=
  if y.length = s.variableNumber I then do
    let n := s.P.num
    let cpos ← store n (loadToCoords y posOffset (velOffset n)) s.cpos
    let cvel ← store n (loadToCoords y (velOffset n) (auxOffset n)) s.cvel
    let pos ← Chain.toCartesian n cpos s.P.pos s.index
    let vel ← Chain.toCartesian n cvel s.P.vel s.index
    let s := { s with time := y.getD 0 0, cpos := cpos, cvel := cvel, P := { s.P with pos := pos, vel := vel } }
    if I.velDep then do
      let caux ← store n (loadToCoords y (auxOffset n) y.length) s.caux
      let aux ← Chain.toCartesian n caux s.aux s.index
      .ok { s with aux := aux, caux := caux }
    else .ok s
  else .abort

/-- `evaluate_general_derivative`, chain-system.hpp:242-255. -/
def derivative (s : ChainSys) : Res (List ℝ) := do
  let y := [1]
  let y := addCoordsTo y s.P.num s.cvel
  let a ← I.acc s.P s.view
  let ca ← Chain.toChain s.P.num a (fun _ => 0) s.index
  let y := addCoordsTo y s.P.num ca
  .ok (if I.velDep then addCoordsTo y s.P.num ca else y)

/-- `pre_iter_process`, chain-system.hpp:209-215. -/
def preIter (s : ChainSys) : ChainSys := if I.velDep then { s with aux := s.P.vel, caux := s.cvel } else s

open Classical in
/-- `post_iter_process`, chain-system.hpp:217-227; `newIdx` is the index that `calc_chain_index` produced.  The
comparison of the two index arrays looks at the `num` entries. -/
noncomputable def postIter (newIdx : Arr Nat) (s : ChainSys) : Res ChainSys :=
  if ∃ k, k < s.P.num ∧ newIdx k ≠ s.index k then do
    let n := s.P.num
    let l ← Chain.updateChain n s.cpos s.P.pos s.index newIdx
    let cpos ← store n l s.cpos
    let pos ← Chain.toCartesian n cpos s.P.pos newIdx
    let l ← Chain.updateChain n s.cvel s.P.vel s.index newIdx
    let cvel ← store n l s.cvel
    let vel ← Chain.toCartesian n cvel s.P.vel newIdx
    .ok { s with cpos := cpos, cvel := cvel, P := { s.P with pos := pos, vel := vel }, index := newIdx }
  else .ok s

/-- `collect_increment`, chain-system.hpp:94. -/
def collect (b : Bool) (s : ChainSys) : ChainSys := { s with sync := b }
/-- `clear_increment`, chain-system.hpp:96. -/
def clearInc (s : ChainSys) : ChainSys :=
  { s with inc := fun k => if k < s.variableNumber I then 0 else s.inc k }

/-- `sync_pos_increment`, chain-system.hpp:341-347. -/
noncomputable def syncPos (s : ChainSys) (v : Arr (V3 ℝ)) (h : ℝ) : ChainSys :=
  if s.sync then { s with inc := advanceScaledCoordsTo s.inc posOffset s.P.num v h } else s
/-- `sync_vel_increment`, chain-system.hpp:349-355. -/
noncomputable def syncVel (s : ChainSys) (v : Arr (V3 ℝ)) (h : ℝ) : ChainSys :=
  if s.sync then { s with inc := advanceScaledCoordsTo s.inc (velOffset s.P.num) s.P.num v h } else s
/-- `sync_auxi_vel_increment`, chain-system.hpp:357-363. -/
noncomputable def syncAux (s : ChainSys) (v : Arr (V3 ℝ)) (h : ℝ) : ChainSys :=
  if s.sync then { s with inc := advanceScaledCoordsTo s.inc (auxOffset s.P.num) s.P.num v h } else s
/-- `sync_time_increment`, chain-system.hpp:365-370. -/
noncomputable def syncTime (s : ChainSys) (h : ℝ) : ChainSys :=
  if s.sync then { s with inc := s.inc.set 0 (s.inc 0 + h) } else s

/-- `chain_advance`, chain-system.hpp:301-307: new Cartesian and chain arrays. -/
noncomputable def chainAdvance (n : Nat) (idx : Arr Nat) (var cvar cinc : Arr (V3 ℝ)) (h : ℝ) :
    Res (Arr (V3 ℝ) × Arr (V3 ℝ)) := do
  let cvar := advance n cvar cinc h
  let var ← Chain.toCartesian n cvar var idx
  .ok (var, cvar)

/-- `drift`, chain-system.hpp:183-189. -/
noncomputable def drift (h : ℝ) (s : ChainSys) : Res ChainSys := do
  let s := { s with time := s.time + h }
  let r ← chainAdvance s.P.num s.index s.P.pos s.cpos s.cvel h
  let s := { s with P := { s.P with pos := r.1 }, cpos := r.2 }
  let s := s.syncTime h
  .ok (s.syncPos s.cvel h)

/-- `eval_vel_indep_acc`, chain-system.hpp:309-316. -/
noncomputable def totVelIndepAcc (s : ChainSys) : Res (Arr (V3 ℝ)) := do
  let a ← I.newtonianAcc s.P s.view
  if I.velIndep then do
    let e ← I.velIndepAcc s.P s.view
    .ok (arrayAdd s.P.num a e)
  else .ok a

/-- `kick_pseu_vel`, chain-system.hpp:318-325; `a` = `tot_vel_indep_acc`. -/
noncomputable def kickPseu (a : Arr (V3 ℝ)) (h : ℝ) (s : ChainSys) : Res ChainSys := do
  let e ← I.velDepAcc s.P s.view
  let acc := arrayAdd s.P.num a e
  let cacc ← Chain.toChain s.P.num acc (fun _ => 0) s.index
  let r ← chainAdvance s.P.num s.index s.aux s.caux cacc h
  let s := { s with aux := r.1, caux := r.2 }
  .ok (s.syncAux cacc h)

/-- `kick_real_vel`, chain-system.hpp:327-339. -/
noncomputable def kickReal (a : Arr (V3 ℝ)) (h : ℝ) (s : ChainSys) : Res ChainSys := do
  let e ← I.velDepAcc { s.P with vel := s.aux } { s.view with chainVel := s.caux }
  let acc := arrayAdd s.P.num a e
  let cacc ← Chain.toChain s.P.num acc (fun _ => 0) s.index
  let r ← chainAdvance s.P.num s.index s.P.vel s.cvel cacc h
  let s := { s with P := { s.P with vel := r.1 }, cvel := r.2 }
  .ok (s.syncVel cacc h)

/-- `kick`, chain-system.hpp:191-207. -/
noncomputable def kick (h : ℝ) (s : ChainSys) : Res ChainSys :=
  if I.velDep then do
    let a ← s.totVelIndepAcc I
    let s ← s.kickReal I a (1 / 2 * h)
    let s ← s.kickPseu I a h
    s.kickReal I a (1 / 2 * h)
  else do
    let acc ← I.acc s.P s.view
    let cacc ← Chain.toChain s.P.num acc (fun _ => 0) s.index
    let r ← chainAdvance s.P.num s.index s.P.vel s.cvel cacc h
    let s := { s with P := { s.P with vel := r.1 }, cvel := r.2 }
    .ok (s.syncVel cacc h)
end ChainSys

/-! ### Regularization and RegularizedSystem -/

/-- `ReguType`, regu-system.hpp:37. -/
inductive ReguType
  | logH | ttl | none
  deriving DecidableEq

/-- The members of `Regularization`, regu-system.hpp:74-79. -/
structure Regu where
  omega : ℝ
  bindE : ℝ
  scale : ℝ

namespace Regu
/-- Constructor, regu-system.hpp:499-507, given the potential and total energy of the particles; `scale_` starts as 1
(line 79). -/
def init (type : ReguType) (potential total : ℝ) : Regu :=
  { omega := -potential, bindE := -total, scale := if type = .none then 1 else -potential }

/-- `step_size / scale_` of regu-system.hpp:514, 517, 530, 533. -/
noncomputable def divStep (h scale : ℝ) : Res ℝ := if scale = 0 then .nan else .ok (h / scale)

/-- `eval_pos_phy_time`, regu-system.hpp:509-523, given the kinetic energy of the particles: the updated members and
the physical time. -/
noncomputable def posPhyTime (type : ReguType) (kin h : ℝ) (r : Regu) : Res (Regu × ℝ) :=
  match type with
  | .logH => do let r := { r with scale := r.bindE + kin }; let t ← divStep h r.scale; .ok (r, t)
  | .ttl => do let r := { r with scale := r.omega }; let t ← divStep h r.scale; .ok (r, t)
  | .none => .ok (r, h)

/-- `eval_vel_phy_time`, regu-system.hpp:525-545, given the potential energy of the particles. -/
noncomputable def velPhyTime (type : ReguType) (pot h : ℝ) (r : Regu) : Res (Regu × ℝ) :=
  match type with
  | .logH => do let r := { r with scale := -pot }; let t ← divStep h r.scale; .ok (r, t)
  | .ttl => do let r := { r with scale := -pot }; let t ← divStep h r.scale; .ok (r, t)
  | .none => .ok (r, h)
end Regu

/-- State of a `RegularizedSystem`, regu-system.hpp:97-216. -/
structure ReguSys where
  P : Particles
  time : ℝ
  aux : Arr (V3 ℝ)
  R : Regu
  inc : Arr ℝ
  sync : Bool

namespace ReguSys
variable (G : ℝ) (type : ReguType) (I : Interactions)

/-- Constructor, regu-system.hpp:221-231. -/
noncomputable def init (time : ℝ) (P : Particles) : ReguSys :=
  { P := P, time := time, aux := P.vel, R := Regu.init type (potentialDirect G P) (totalEnergy G P),
    inc := fun _ => 0, sync := false }

/-- `step_scale`, regu-system.hpp:128 with `regu_function` of 547-551. -/
def stepScale (s : ReguSys) : ℝ := s.R.scale

/-- `variable_number`, regu-system.hpp:412-415. -/
def variableNumber (s : ReguSys) : Nat := s.P.num * 3 * (2 + I.velDep.toNat) + 3

/-- `write_to_scalar_array`, regu-system.hpp:292-307. -/
def write (s : ReguSys) : List ℝ :=
  let y := [s.time]
  let y := addCoordsTo y s.P.num s.P.pos
  let y := addCoordsTo y s.P.num s.P.vel
  let y := if I.velDep then addCoordsTo y s.P.num s.aux else y
  let y := y ++ [s.R.omega]
  y ++ [s.R.bindE]

/-- `read_from_scalar_array`, regu-system.hpp:342-364.  The range given for the auxiliary velocities reaches to the
end of `y`, two entries too far; `load_to_coords` divides by three. -/
def read (s : ReguSys) (y : List ℝ) : Res ReguSys :=
  if y.length = s.variableNumber I then do
    let n := s.P.num
    let pos ← store n (loadToCoords y posOffset (velOffset n)) s.P.pos
    let vel ← store n (loadToCoords y (velOffset n) (auxOffset n)) s.P.vel
    let s := { s with time := y.getD 0 0, P := { s.P with pos := pos, vel := vel } }
    let aux ← if I.velDep then store n (loadToCoords y (auxOffset n) y.length) s.aux else .ok s.aux
    .ok { s with aux := aux, R := { s.R with omega := y.getD (omegaOffset n I.velDep) 0,
                                             bindE := y.getD (bindEOffset n I.velDep) 0 } }
  else .abort

/-- `pre_iter_process`, regu-system.hpp:285-290. -/
def preIter (s : ReguSys) : ReguSys := if I.velDep then { s with aux := s.P.vel } else s

/-- `collect_increment`, regu-system.hpp:150. -/
def collect (b : Bool) (s : ReguSys) : ReguSys := { s with sync := b }
/-- `clear_increment`, regu-system.hpp:152. -/
def clearInc (s : ReguSys) : ReguSys :=
  { s with inc := fun k => if k < s.variableNumber I then 0 else s.inc k }

/-- `sync_pos_increment`, regu-system.hpp:366-372. -/
noncomputable def syncPos (s : ReguSys) (v : Arr (V3 ℝ)) (h : ℝ) : ReguSys :=
  if s.sync then { s with inc := advanceScaledCoordsTo s.inc posOffset s.P.num v h } else s
/-- `sync_vel_increment`, regu-system.hpp:374-380. -/
noncomputable def syncVel (s : ReguSys) (v : Arr (V3 ℝ)) (h : ℝ) : ReguSys :=
  if s.sync then { s with inc := advanceScaledCoordsTo s.inc (velOffset s.P.num) s.P.num v h } else s
/-- `sync_auxi_vel_increment`, regu-system.hpp:382-389. -/
noncomputable def syncAux (s : ReguSys) (v : Arr (V3 ℝ)) (h : ℝ) : ReguSys :=
  if s.sync then { s with inc := advanceScaledCoordsTo s.inc (auxOffset s.P.num) s.P.num v h } else s
/-- `sync_time_increment`, regu-system.hpp:391-396. -/
noncomputable def syncTime (s : ReguSys) (h : ℝ) : ReguSys :=
  if s.sync then { s with inc := s.inc.set 0 (s.inc 0 + h) } else s
/-- `sync_omega_increment`, regu-system.hpp:398-403. -/
noncomputable def syncOmega (s : ReguSys) (d : ℝ) : ReguSys :=
  if s.sync then { s with inc := s.inc.set (omegaOffset s.P.num I.velDep) (s.inc (omegaOffset s.P.num I.velDep) + d) } else s
/-- `sync_bindE_increment`, regu-system.hpp:405-410. -/
noncomputable def syncBindE (s : ReguSys) (d : ℝ) : ReguSys :=
  if s.sync then { s with inc := s.inc.set (bindEOffset s.P.num I.velDep) (s.inc (bindEOffset s.P.num I.velDep) + d) } else s

/-- `drift`, regu-system.hpp:251-258. -/
noncomputable def drift (h : ℝ) (s : ReguSys) : Res ReguSys := do
  let rt ← s.R.posPhyTime type (kinetic s.P) h
  let t := rt.2
  let s := { s with R := rt.1 }
  let s := { s with P := { s.P with pos := advance s.P.num s.P.pos s.P.vel t } }
  let s := { s with time := s.time + t }
  let s := s.syncTime t
  .ok (s.syncPos s.P.vel t)

/-- `calc_domega_dt`, regu-system.hpp:429-438; same in archain.hpp:441-449. -/
noncomputable def domegaDt (type : ReguType) (n : Nat) (mass : Arr ℝ) (vel d : Arr (V3 ℝ)) : ℝ :=
  if type = .ttl then contract n mass vel d else 0

/-- `calc_dbindE_dt`, regu-system.hpp:440-449; same in archain.hpp:451-459. -/
noncomputable def dbindEDt (type : ReguType) (ext : Bool) (n : Nat) (mass : Arr ℝ) (vel d : Arr (V3 ℝ)) : ℝ :=
  if ext = true ∧ type = .logH then -contract n mass vel d else 0

/-- `advance_omega`, regu-system.hpp:451-458. -/
noncomputable def advanceOmega (vel d : Arr (V3 ℝ)) (t : ℝ) (s : ReguSys) : ReguSys :=
  let dOmega := domegaDt type s.P.num s.P.mass vel d * t
  let s := { s with R := { s.R with omega := s.R.omega + dOmega } }
  s.syncOmega I dOmega

/-- `advance_bindE`, regu-system.hpp:460-467. -/
noncomputable def advanceBindE (vel d : Arr (V3 ℝ)) (t : ℝ) (s : ReguSys) : ReguSys :=
  let dBindE := dbindEDt type (I.velIndep || I.velDep) s.P.num s.P.mass vel d * t
  let s := { s with R := { s.R with bindE := s.R.bindE + dBindE } }
  s.syncBindE I dBindE

/-- `kick_real_vel`, regu-system.hpp:485-494; `tot` = `tot_vel_indep_acc`. -/
noncomputable def kickReal (tot : Arr (V3 ℝ)) (t : ℝ) (s : ReguSys) : ReguSys :=
  let e := I.velDepAcc { s.P with vel := s.aux }
  let acc := arrayAdd s.P.num tot e
  let s := { s with P := { s.P with vel := advance s.P.num s.P.vel acc t } }
  s.syncVel acc t

/-- `kick_pseu_vel`, regu-system.hpp:469-483; `newt`, `ext`, `tot` = `newtonian_acc`, `ext_vel_indep_acc`,
`tot_vel_indep_acc`. -/
noncomputable def kickPseu (newt ext tot : Arr (V3 ℝ)) (t : ℝ) (s : ReguSys) : ReguSys :=
  let e := I.velDepAcc s.P
  let acc := arrayAdd s.P.num tot e
  let s := { s with aux := advance s.P.num s.aux acc t }
  let s := s.syncAux acc t
  let s := s.advanceOmega type I s.P.vel newt t
  if I.velIndep then
    let acc := arrayAdd s.P.num ext e
    s.advanceBindE type I s.P.vel acc t
  else s.advanceBindE type I s.P.vel e t

/-- `kick`, regu-system.hpp:260-283, with `eval_vel_indep_acc` of 417-427. -/
noncomputable def kick (h : ℝ) (s : ReguSys) : Res ReguSys := do
  let rt ← s.R.velPhyTime type (potentialDirect G s.P) h
  let t := rt.2
  let s := { s with R := rt.1 }
  let half := 1 / 2 * t
  let newt := I.newtonianAcc s.P
  let ext := I.velIndepAcc s.P
  let tot := if I.velIndep then arrayAdd s.P.num ext newt else newt
  if I.velDep then
    let s := s.kickReal I tot half
    let s := s.kickPseu type I newt ext tot t
    .ok (s.kickReal I tot half)
  else
    let s := s.advanceOmega type I s.P.vel newt half
    let s := if I.velIndep then s.advanceBindE type I s.P.vel ext half else s
    let s := { s with P := { s.P with vel := advance s.P.num s.P.vel tot t } }
    let s := s.syncVel tot t
    let s := if I.velIndep then s.advanceBindE type I s.P.vel ext half else s
    .ok (s.advanceOmega type I s.P.vel newt half)

/-- `evaluate_general_derivative`, regu-system.hpp:309-340: the derivatives and the updated `scale_`.  Without any
extra force the last entry is 0 whatever the (never written) buffer `acc` holds. -/
noncomputable def derivative (s : ReguSys) : Res (List ℝ × ReguSys) := do
  let rp ← s.R.posPhyTime type (kinetic s.P) 1
  let rv ← rp.1.velPhyTime type (potentialDirect G s.P) 1
  let s := { s with R := rv.1 }
  let n := s.P.num
  let y := [rp.2]
  let newt := I.newtonianAcc s.P
  let acc := if I.velIndep || I.velDep then arrayAdd n (I.extraAcc s.P) newt else fun _ => 0
  let y := addScaledCoordsTo y n s.P.vel rp.2
  let y := if I.velIndep || I.velDep then addScaledCoordsTo y n acc rv.2 else addScaledCoordsTo y n newt rv.2
  let y := if I.velDep then addScaledCoordsTo y n acc rv.2 else y
  let y := y ++ [domegaDt type n s.P.mass s.P.vel newt * rv.2]
  .ok (y ++ [dbindEDt type (I.velIndep || I.velDep) n s.P.mass s.P.vel acc * rv.2], s)
end ReguSys

/-! ### ARchainSystem -/

/-- State of an `ARchainSystem`, archain.hpp:41-185. -/
structure ARSys where
  P : Particles
  time : ℝ
  cpos : Arr (V3 ℝ)
  cvel : Arr (V3 ℝ)
  index : Arr Nat
  aux : Arr (V3 ℝ)
  caux : Arr (V3 ℝ)
  R : Regu
  inc : Arr ℝ
  sync : Bool

namespace ARSys
variable (G : ℝ) (type : ReguType) (I : ChainInteractions)

/-- what the forces see -/
def view (s : ARSys) : ChainView := { chainPos := s.cpos, chainVel := s.cvel, index := s.index }

/-- Constructor, archain.hpp:190-211; `idx` is the index that `calc_chain_index` produced.  The `Regularization`
built first (line 195) is overwritten by the one built from the chain coordinates (209-210), whose energies are
`calc_potential_energy` (chain branch) and `calc_total_energy`. -/
noncomputable def init (time : ℝ) (P : Particles) (idx : Arr Nat) : Res ARSys := do
  let cpos ← Chain.toChain P.num P.pos (fun _ => 0) idx
  let cvel ← Chain.toChain P.num P.vel (fun _ => 0) idx
  let pot ← potentialChain G P { chainPos := cpos, chainVel := cvel, index := idx }
  .ok { P := P, time := time, cpos := cpos, cvel := cvel, index := idx, aux := P.vel, caux := cvel,
        R := Regu.init type pot (pot + kinetic P), inc := fun _ => 0, sync := false }

/-- `step_scale`, archain.hpp:77. -/
def stepScale (s : ARSys) : ℝ := s.R.scale

/-- `variable_number`, archain.hpp:403-406. -/
def variableNumber (s : ARSys) : Nat := s.P.num * 3 * (2 + I.velDep.toNat) + 3

/-- `write_to_scalar_array`, archain.hpp:275-291. -/
def write (s : ARSys) : List ℝ :=
  let y := [s.time]
  let y := addCoordsTo y s.P.num s.cpos
  let y := addCoordsTo y s.P.num s.cvel
  let y := if I.velDep then addCoordsTo y s.P.num s.caux else y
  let y := y ++ [s.R.omega]
  y ++ [s.R.bindE]

/-- `read_from_scalar_array`, archain.hpp:372-401. -/
def read (s : ARSys) (y : List ℝ) : Res ARSys :=
  if y.length = s.variableNumber I then do
    let n := s.P.num
    let cpos ← store n (loadToCoords y posOffset (velOffset n)) s.cpos
    let cvel ← store n (loadToCoords y (velOffset n) (auxOffset n)) s.cvel
    let pos ← Chain.toCartesian n cpos s.P.pos s.index
    let vel ← Chain.toCartesian n cvel s.P.vel s.index
    let s := { s with time := y.getD 0 0, cpos := cpos, cvel := cvel, P := { s.P with pos := pos, vel := vel } }
    let s ← if I.velDep then do
        let caux ← store n (loadToCoords y (auxOffset n) y.length) s.caux
        let aux ← Chain.toCartesian n caux s.aux s.index
        .ok { s with aux := aux, caux := caux }
      else Res.ok s
    .ok { s with R := { s.R with omega := y.getD (omegaOffset n I.velDep) 0, bindE := y.getD (bindEOffset n I.velDep) 0 } }
  else .abort

/-- `pre_iter_process`, archain.hpp:255-261. -/
def preIter (s : ARSys) : ARSys := if I.velDep then { s with aux := s.P.vel, caux := s.cvel } else s

open Classical in
/-- `post_iter_process`, archain.hpp:263-273; `newIdx` is the index that `calc_chain_index` produced. -/
noncomputable def postIter (newIdx : Arr Nat) (s : ARSys) : Res ARSys :=
  if ∃ k, k < s.P.num ∧ newIdx k ≠ s.index k then do
    let n := s.P.num
    let l ← Chain.updateChain n s.cpos s.P.pos s.index newIdx
    let cpos ← store n l s.cpos
    let pos ← Chain.toCartesian n cpos s.P.pos newIdx
    let l ← Chain.updateChain n s.cvel s.P.vel s.index newIdx
    let cvel ← store n l s.cvel
    let vel ← Chain.toCartesian n cvel s.P.vel newIdx
    .ok { s with cpos := cpos, cvel := cvel, P := { s.P with pos := pos, vel := vel }, index := newIdx }
  else .ok s

/-- `collect_increment`, archain.hpp:103. -/
def collect (b : Bool) (s : ARSys) : ARSys := { s with sync := b }
/-- `clear_increment`, archain.hpp:96. -/
def clearInc (s : ARSys) : ARSys :=
  { s with inc := fun k => if k < s.variableNumber I then 0 else s.inc k }

/-- `sync_pos_increment`, archain.hpp:327-333. -/
noncomputable def syncPos (s : ARSys) (v : Arr (V3 ℝ)) (h : ℝ) : ARSys :=
  if s.sync then { s with inc := advanceScaledCoordsTo s.inc posOffset s.P.num v h } else s
/-- `sync_vel_increment`, archain.hpp:335-341. -/
noncomputable def syncVel (s : ARSys) (v : Arr (V3 ℝ)) (h : ℝ) : ARSys :=
  if s.sync then { s with inc := advanceScaledCoordsTo s.inc (velOffset s.P.num) s.P.num v h } else s
/-- `sync_auxi_vel_increment`, archain.hpp:343-349. -/
noncomputable def syncAux (s : ARSys) (v : Arr (V3 ℝ)) (h : ℝ) : ARSys :=
  if s.sync then { s with inc := advanceScaledCoordsTo s.inc (auxOffset s.P.num) s.P.num v h } else s
/-- `sync_time_increment`, archain.hpp:351-356. -/
noncomputable def syncTime (s : ARSys) (h : ℝ) : ARSys :=
  if s.sync then { s with inc := s.inc.set 0 (s.inc 0 + h) } else s
/-- `sync_omega_increment`, archain.hpp:358-363. -/
noncomputable def syncOmega (s : ARSys) (d : ℝ) : ARSys :=
  if s.sync then { s with inc := s.inc.set (omegaOffset s.P.num I.velDep) (s.inc (omegaOffset s.P.num I.velDep) + d) } else s
/-- `sync_bindE_increment`, archain.hpp:365-370. -/
noncomputable def syncBindE (s : ARSys) (d : ℝ) : ARSys :=
  if s.sync then { s with inc := s.inc.set (bindEOffset s.P.num I.velDep) (s.inc (bindEOffset s.P.num I.velDep) + d) } else s

/-- `drift`, archain.hpp:219-226, with `chain_advance` of 420-427. -/
noncomputable def drift (h : ℝ) (s : ARSys) : Res ARSys := do
  let rt ← s.R.posPhyTime type (kinetic s.P) h
  let t := rt.2
  let s := { s with R := rt.1 }
  let r ← ChainSys.chainAdvance s.P.num s.index s.P.pos s.cpos s.cvel t
  let s := { s with P := { s.P with pos := r.1 }, cpos := r.2 }
  let s := { s with time := s.time + t }
  let s := s.syncTime t
  .ok (s.syncPos s.cvel t)

/-- `advance_omega`, archain.hpp:461-468. -/
noncomputable def advanceOmega (vel d : Arr (V3 ℝ)) (t : ℝ) (s : ARSys) : ARSys :=
  let dOmega := ReguSys.domegaDt type s.P.num s.P.mass vel d * t
  let s := { s with R := { s.R with omega := s.R.omega + dOmega } }
  s.syncOmega I dOmega

/-- `advance_bindE`, archain.hpp:470-477. -/
noncomputable def advanceBindE (vel d : Arr (V3 ℝ)) (t : ℝ) (s : ARSys) : ARSys :=
  let dBindE := ReguSys.dbindEDt type (I.velIndep || I.velDep) s.P.num s.P.mass vel d * t
  let s := { s with R := { s.R with bindE := s.R.bindE + dBindE } }
  s.syncBindE I dBindE

/-- `kick_real_vel`, archain.hpp:496-508. -/
noncomputable def kickReal (tot : Arr (V3 ℝ)) (t : ℝ) (s : ARSys) : Res ARSys := do
  let e ← I.velDepAcc { s.P with vel := s.aux } { s.view with chainVel := s.caux }
  let acc := arrayAdd s.P.num tot e
  let cacc ← Chain.toChain s.P.num acc (fun _ => 0) s.index
  let r ← ChainSys.chainAdvance s.P.num s.index s.P.vel s.cvel cacc t
  let s := { s with P := { s.P with vel := r.1 }, cvel := r.2 }
  .ok (s.syncVel cacc t)

/-- `kick_pseu_vel`, archain.hpp:479-494. -/
noncomputable def kickPseu (newt ext tot : Arr (V3 ℝ)) (t : ℝ) (s : ARSys) : Res ARSys := do
  let e ← I.velDepAcc s.P s.view
  let acc := arrayAdd s.P.num tot e
  let cacc ← Chain.toChain s.P.num acc (fun _ => 0) s.index
  let r ← ChainSys.chainAdvance s.P.num s.index s.aux s.caux cacc t
  let s := { s with aux := r.1, caux := r.2 }
  let s := s.syncAux cacc t
  let s := s.advanceOmega type I s.P.vel newt t
  if I.velIndep then
    let acc := arrayAdd s.P.num ext e
    .ok (s.advanceBindE type I s.P.vel acc t)
  else .ok (s.advanceBindE type I s.P.vel e t)

/-- `kick`, archain.hpp:228-253, with `eval_vel_indep_acc` of 429-439. -/
noncomputable def kick (h : ℝ) (s : ARSys) : Res ARSys := do
  let pot ← potentialChain G s.P s.view
  let rt ← s.R.velPhyTime type pot h
  let t := rt.2
  let s := { s with R := rt.1 }
  let half := 1 / 2 * t
  let newt ← I.newtonianAcc s.P s.view
  let ext ← I.velIndepAcc s.P s.view
  let tot := if I.velIndep then arrayAdd s.P.num ext newt else newt
  if I.velDep then do
    let s ← s.kickReal I tot half
    let s ← s.kickPseu type I newt ext tot t
    s.kickReal I tot half
  else do
    let cacc ← Chain.toChain s.P.num tot (fun _ => 0) s.index
    let s := s.advanceOmega type I s.P.vel newt half
    let s := if I.velIndep then s.advanceBindE type I s.P.vel ext half else s
    let r ← ChainSys.chainAdvance s.P.num s.index s.P.vel s.cvel cacc t
    let s := { s with P := { s.P with vel := r.1 }, cvel := r.2 }
    let s := s.syncVel cacc t
    let s := if I.velIndep then s.advanceBindE type I s.P.vel ext half else s
    .ok (s.advanceOmega type I s.P.vel newt half)
end ARSys

end SpaceHub.Sys
