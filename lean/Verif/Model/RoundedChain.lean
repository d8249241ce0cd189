import Verif.Model.Rounded
import Verif.Model.System

/-
Chain systems under gravity in rounded arithmetic: src/particle-system/chain.hpp, the chain branch of newtonian.hpp and chain-system.hpp, operation by
operation, with the operations of the scalar type as a parameter.  Simplifications as in Model/Rounded; at least two particles (with fewer the code runs out
of bounds, C01 and C06); the negation of a number is not rounded.
-/

set_option autoImplicit false

namespace SpaceHub.Rounded
open SpaceHub V3 Force Core Integrator Sys

variable (A : Arith)

/-- `to_chain`/`calc_chain`, chain.hpp:209-212 and 327-340. -/
def toChainR (n : Nat) (cart chain : Arr (V3 ℝ)) (index : Arr Nat) : Arr (V3 ℝ) :=
  forLoop 0 (n - 1) (fun i c => c.set i (subV A (cart (index (i + 1))) (cart (index i)))) (chain.set (n - 1) (cart (index 0)))

/-- `to_cartesian`/`calc_cartesian`, chain.hpp:200-207 and 342-354. -/
def toCartR (n : Nat) (chain cart : Arr (V3 ℝ)) (index : Arr Nat) : Arr (V3 ℝ) :=
  forLoop 1 n (fun i c => c.set (index i) (addV A (c (index (i - 1))) (chain (i - 1)))) (cart.set (index 0) (chain (n - 1)))

/-- `get_new_node`, chain.hpp:287-325. -/
def newNodeR (chain : Arr (V3 ℝ)) (head tail : Nat) : V3 ℝ :=
  if head > tail then forLoop (tail + 1) head (fun j d => subV A d (chain j)) (-(chain tail))
  else forLoop (head + 1) tail (fun j d => addV A d (chain j)) (chain head)

/-- `update_chain`, chain.hpp:172-198: the new contents of `chain`. -/
def updateChainR (n : Nat) (chain cart : Arr (V3 ℝ)) (idx newIdx : Arr Nat) : Arr (V3 ℝ) := fun i =>
  if i + 1 < n then newNodeR A chain (Chain.findPos n idx (newIdx i)) (Chain.findPos n idx (newIdx (i + 1)))
  else if i < n then cart (newIdx 0) else chain i

/-- Squared distance of two particles as computed for the chain, chain.hpp:250-251. -/
def dist2R (pos : Arr (V3 ℝ)) (i j : Nat) : ℝ :=
  let dr := subV A (pos j) (pos i)
  A.add (A.add (A.mul dr.x dr.x) (A.mul dr.y dr.y)) (A.mul dr.z dr.z)

/-- `Chain::calc_chain_index(this->pos(), index)` returns normally and leaves `idx` in the index array. -/
def IndexOfR (P : Particles) (idx : Arr Nat) : Prop :=
  ∃ fuel l, Chain.CalcChainIndex fuel P.num (dist2R A P.pos) (.ok l) ∧ idx = Chain.ofList l

/-- `Interactions::eval_acc` with gravity alone on a chain system, newtonian.hpp:71-110. -/
def accChain (s : ChainSys) : Arr (V3 ℝ) :=
  let n := s.P.num
  let far := forLoop 0 n (fun i a => forLoop (i + 3) n (fun j a =>
    force A s.P.mass (subV A (s.P.pos (s.index j)) (s.P.pos (s.index i))) (s.index i) (s.index j) a) a) (fun _ => 0)
  let skip := forLoop 0 (n - 2) (fun i a => force A s.P.mass (addV A (s.cpos i) (s.cpos (i + 1))) (s.index i) (s.index (i + 2)) a) far
  forLoop 0 (n - 1) (fun i a => force A s.P.mass (s.cpos i) (s.index i) (s.index (i + 1)) a) skip

/-- Constructor, chain-system.hpp:156-175; `idx` is the index that `calc_chain_index` produced. -/
def initC (time : ℝ) (P : Particles) (idx : Arr Nat) : ChainSys :=
  { P := P, time := time, cpos := toChainR A P.num P.pos (fun _ => 0) idx, cvel := toChainR A P.num P.vel (fun _ => 0) idx, index := idx,
    aux := P.vel, caux := toChainR A P.num P.vel (fun _ => 0) idx, inc := fun _ => 0, sync := false }

/-- `drift`, chain-system.hpp:183-189, 301-307, while no increments are collected. -/
def driftC (h : ℝ) (s : ChainSys) : ChainSys :=
  let cpos := advance A s.P.num s.cpos s.cvel h
  { s with time := A.add s.time h, cpos := cpos, P := { s.P with pos := toCartR A s.P.num cpos s.P.pos s.index } }

/-- `kick`, chain-system.hpp:191-207, 301-307, for gravity alone, while no increments are collected. -/
def kickC (h : ℝ) (s : ChainSys) : ChainSys :=
  let cacc := toChainR A s.P.num (accChain A s) (fun _ => 0) s.index
  let cvel := advance A s.P.num s.cvel cacc h
  { s with cvel := cvel, P := { s.P with vel := toCartR A s.P.num cvel s.P.vel s.index } }

/-- `drift(c * step_size)`, `kick(c * step_size)`. -/
def stageC (h : ℝ) : Stage → ChainSys → ChainSys
  | .drift c => driftC A (A.mul (A.lit c) h)
  | .kick c => kickC A (A.mul (A.lit c) h)

/-- `integrate(system, step_size)`, symplectic-integrator.hpp:198-363. -/
def stepC (stages : List Stage) (h : ℝ) (s : ChainSys) : ChainSys := stages.foldl (fun s c => stageC A h c s) s

open Classical in
/-- `post_iter_process`, chain-system.hpp:217-227; `newIdx` is the index that `calc_chain_index` produced. -/
noncomputable def postIterC (newIdx : Arr Nat) (s : ChainSys) : ChainSys :=
  if ∃ k, k < s.P.num ∧ newIdx k ≠ s.index k then
    let cpos := updateChainR A s.P.num s.cpos s.P.pos s.index newIdx
    let pos := toCartR A s.P.num cpos s.P.pos newIdx
    let cvel := updateChainR A s.P.num s.cvel s.P.vel s.index newIdx
    let vel := toCartR A s.P.num cvel s.P.vel newIdx
    { s with cpos := cpos, cvel := cvel, P := { s.P with pos := pos, vel := vel }, index := newIdx }
  else s

/-- One step and `post_iter_process`; ties in the distances leave the new chain open. -/
def StepsTo (stages : List Stage) (h : ℝ) (s s' : ChainSys) : Prop :=
  ∃ idx, IndexOfR A (stepC A stages h s).P idx ∧ s' = postIterC A idx (stepC A stages h s)

/-- Steps of given lengths, one after the other (`ConstOdeIterator`, const-iterator.hpp:49-58). -/
inductive Runs {X : Type*} (step : ℝ → X → X → Prop) : List ℝ → X → X → Prop
  | nil (s : X) : Runs step [] s s
  | cons {h : ℝ} {hs : List ℝ} {s s1 s' : X} (e : step h s s1) (r : Runs step hs s1 s') : Runs step (h :: hs) s s'

end SpaceHub.Rounded
