import Verif.Model.Basic
import Mathlib.Algebra.Group.Defs

/-
Model of src/particle-system/chain.hpp (class `Chain`).
Simplifications: coordinates live in an arbitrary additive commutative group (exact arithmetic; the
`err` fields of compensated numbers, reset at chain.hpp:302-304 and 312-314, do not exist here);
`bijective_transfer` is its constant value `true` (chain.hpp:131).
-/

set_option autoImplicit false

namespace SpaceHub.Chain
open SpaceHub

/-- `Chain::Node`, chain.hpp:47-64: a pair of particles with its squared distance. -/
structure Node (R : Type) where
  r : R
  i : Nat
  j : Nat
  avail : Bool
  deriving DecidableEq, Repr

/-- `create_distances_array`, chain.hpp:244-255: all pairs `i < j`, in loop order, with
`r = r2 i j` (the squared distance of the particles `i` and `j`, chain.hpp:250-251). -/
def createDistances {R : Type} (num : Nat) (r2 : Nat → Nat → R) : List (Node R) :=
  (List.range num).flatMap fun i =>
    (List.range' (i + 1) (num - (i + 1))).map fun j => ⟨r2 i j, i, j, true⟩

/-- What `std::sort(dist.begin(), dist.end(), r <)` (chain.hpp:168) may return: any rearrangement that is
sorted with respect to the comparator.  `std::sort` is not stable, so the order of equal keys is free. -/
def IsSortOf {R : Type} [LT R] (d s : List (Node R)) : Prop :=
  s.Perm d ∧ s.Pairwise (fun a b => ¬ b.r < a.r)

/-- State of the scan in `create_index_from_dist_array`: the list under construction, its recorded
ends, the availability flags inside `dist`, and `chained_num`. -/
structure Scan (R : Type) where
  list : List Nat
  head : Nat
  tail : Nat
  dist : List (Node R)
  chained : Nat

/-- `try_insert` at the front (chain.hpp:219-229 with the lambda of 233/235): mark the node used; if `v`
is not in the list, push it in front and make it the head. -/
def tryInsertFront {R : Type} (s : Scan R) (k v : Nat) : Scan R × Bool :=
  let s := { s with dist := s.dist.modify k (fun n => { n with avail := false }) }
  if v ∉ s.list then ({ s with list := v :: s.list, head := v }, true) else (s, false)

/-- `try_insert` at the back (chain.hpp:219-229 with the lambda of 237/239). -/
def tryInsertBack {R : Type} (s : Scan R) (k v : Nat) : Scan R × Bool :=
  let s := { s with dist := s.dist.modify k (fun n => { n with avail := false }) }
  if v ∉ s.list then ({ s with list := s.list ++ [v], tail := v }, true) else (s, false)

/-- `try_add_to_chain`, chain.hpp:231-242; `k` is the position of the node `n` in `dist`. -/
def tryAdd {R : Type} (s : Scan R) (k : Nat) (n : Node R) : Scan R × Bool :=
  if s.head = n.i then tryInsertFront s k n.j
  else if s.head = n.j then tryInsertFront s k n.i
  else if s.tail = n.i then tryInsertBack s k n.j
  else if s.tail = n.j then tryInsertBack s k n.i
  else (s, false)

/-- The `for` loop of `create_index_from_dist_array`, chain.hpp:268-279, entered with loop counter `k`.
One unit of fuel per evaluation of the loop condition.  After a successful insertion the source assigns
`k = 1` and the loop header then increments it, so scanning resumes at 2. -/
def scan {R : Type} (num : Nat) : Nat → Scan R → Nat → Res (Scan R)
  | 0, _, _ => .diverge
  | fuel + 1, s, k =>
    match s.dist[k]? with
    | none => .ok s                                   -- k >= dist_size
    | some n =>
      if n.avail then
        match tryAdd s k n with
        | (s', true) =>
          let s' := { s' with chained := s'.chained + 1 }
          if s'.chained = num then .ok s'             -- break
          else scan num fuel s' (1 + 1)               -- k = 1; ++k
        | (s', false) => scan num fuel s' (k + 1)
      else scan num fuel s (k + 1)

/-- `create_index_from_dist_array`, chain.hpp:257-285. `dist[0]` on an empty array is undefined
behaviour. -/
def createIndex {R : Type} (fuel : Nat) (num : Nat) (dist : List (Node R)) : Res (List Nat) :=
  match dist with
  | [] => .ub
  | n :: rest =>
    match scan num fuel
        { list := [n.i, n.j], head := n.i, tail := n.j, dist := { n with avail := false } :: rest,
          chained := 1 } 1 with
    | .ok s => .ok s.list
    | .abort => .abort
    | .ub => .ub
    | .nan => .nan
    | .diverge => .diverge

/-- `calc_chain_index`, chain.hpp:164-170, as a relation: `res` is a possible outcome of the call on `num`
particles with squared distances `r2`, observed for `fuel` loop iterations. -/
def CalcChainIndex {R : Type} [LT R] (fuel num : Nat) (r2 : Nat → Nat → R) (res : Res (List Nat)) : Prop :=
  ∃ s, IsSortOf (createDistances num r2) s ∧ res = createIndex fuel num s

/-- `get_new_node`, chain.hpp:287-325. -/
def getNewNode {V : Type} [Add V] [Sub V] [Neg V] (chain : Arr V) (head tail : Nat) : V :=
  if head > tail then
    forLoop (tail + 1) head (fun j d => d - chain j) (-(chain tail))
  else
    forLoop (head + 1) tail (fun j d => d + chain j) (chain head)

/-- `std::find(idx.begin(), idx.end(), var) - idx.begin()`, chain.hpp:183: position of the first
occurrence among the first `n` entries, `n` when there is none. -/
def findPos (n : Nat) (idx : Arr Nat) (var : Nat) : Nat :=
  ((List.range n).find? (fun p => idx p = var)).getD n

/-- `update_chain`, chain.hpp:172-198: the new contents of `chain` (only the `n` entries exist).
`size - 1` wraps around for an empty chain. -/
def updateChain {V : Type} [Add V] [Sub V] [Neg V] (n : Nat) (chain cartesian : Arr V) (idx newIdx : Arr Nat) :
    Res (List V) :=
  if n = 0 then .ub
  else .ok (((List.range (n - 1)).map fun i =>
      getNewNode chain (findPos n idx (newIdx i)) (findPos n idx (newIdx (i + 1)))) ++ [cartesian (newIdx 0)])

/-- `to_chain`/`calc_chain`, chain.hpp:209-212 and 327-340. `size - 1` wraps around for no particle. -/
def toChain {V : Type} [Sub V] (n : Nat) (cartesian : Arr V) (chain : Arr V) (index : Arr Nat) : Res (Arr V) :=
  if n = 0 then .ub
  else
    .ok (forLoop 0 (n - 1) (fun i c => c.set i (cartesian (index (i + 1)) - cartesian (index i)))
      (chain.set (n - 1) (cartesian (index 0))))

/-- `to_cartesian`/`calc_cartesian`, chain.hpp:200-207 and 342-354. `index[0]` does not exist for no
particle. -/
def toCartesian {V : Type} [Add V] (n : Nat) (chain : Arr V) (cartesian : Arr V) (index : Arr Nat) : Res (Arr V) :=
  if n = 0 then .ub
  else
    .ok (forLoop 1 n (fun i c => c.set (index i) (c (index (i - 1)) + chain (i - 1)))
      (cartesian.set (index 0) (chain (n - 1))))

/-- The array view of an index list (`idx[i]`). -/
def ofList (l : List Nat) : Arr Nat := fun i => l.getD i 0

end SpaceHub.Chain
