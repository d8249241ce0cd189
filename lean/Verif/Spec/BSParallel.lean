import Verif.Model.BSParallel

/-
Specification for C99: when two calls of Bulirsch-Stoer have the same observable effect, and a memory access conflict.
-/

set_option autoImplicit false

namespace SpaceHub.BS.Par
open SpaceHub SpaceHub.BS

/-- Two outcomes: both normal and related, or the same failure. -/
inductive Both {α β : Type} (R : α → β → Prop) : Res α → Res β → Prop
  | ok (a : α) (b : β) (h : R a b) : Both R (.ok a) (.ok b)
  | abort : Both R .abort .abort
  | ub : Both R .ub .ub
  | nan : Both R .nan .nan
  | diverge : Both R .diverge .diverge

/-- The members of two iterator objects that later calls depend on are the same (the tables, which every attempt fills anew, may
differ). -/
structure SameMembers {F : Type} (c d : State F) : Prop where
  rank : c.rank = d.rank
  first : c.first = d.first
  reject : c.reject = d.reject
  ideal : c.ideal = d.ideal
  cpl : c.cpl = d.cpl
  rejNum : c.rejNum = d.rejNum
  iterNum : c.iterNum = d.iterNum

/-- Two plain systems with the same particles, time, auxiliary velocities and mode. -/
structure SameSystem (s t : Sys.Simple) : Prop where
  particles : s.P = t.P
  time : s.time = t.time
  aux : s.aux = t.aux
  sync : s.sync = t.sync

/-- The same of regularised systems: also the same auxiliary time scale variables. (`scale_`, the last ratio of physical and regularised time, which no later
operation reads, is not compared.) -/
structure SameSystemRegu (s t : Sys.ReguSys) : Prop where
  particles : s.P = t.P
  time : s.time = t.time
  aux : s.aux = t.aux
  omega : s.R.omega = t.R.omega
  bindE : s.R.bindE = t.R.bindE
  sync : s.sync = t.sync

/-- The same of chain systems: also the same chain and the same chain coordinates. -/
structure SameSystemChain (s t : Sys.ChainSys) : Prop where
  particles : s.P = t.P
  time : s.time = t.time
  aux : s.aux = t.aux
  index : s.index = t.index
  cpos : s.cpos = t.cpos
  cvel : s.cvel = t.cvel
  caux : s.caux = t.caux
  sync : s.sync = t.sync

/-- The same of regularised chain systems. -/
structure SameSystemAR (s t : Sys.ARSys) : Prop where
  particles : s.P = t.P
  time : s.time = t.time
  aux : s.aux = t.aux
  index : s.index = t.index
  cpos : s.cpos = t.cpos
  cvel : s.cvel = t.cvel
  caux : s.caux = t.caux
  omega : s.R.omega = t.R.omega
  bindE : s.R.bindE = t.R.bindE
  sync : s.sync = t.sync

/-- The next steps of two threads can be made at the same time: neither writes what the other reads or writes. -/
def NoConflict {S : Type} (n : Nat) (t u : Thread S) : Prop :=
  Disjoint (t.writes n) (u.reads ∪ u.writes n) ∧ Disjoint (u.writes n) (t.reads ∪ t.writes n)

/-- Object `o` is called again and again for the system, each time with some step. -/
inductive Repeats {S F : Type} [Arith F] (O : IterSys S F) (p : Params F) (reuse : Bool) (o : Nat) : Nat → Process F → S → Process F → S → Prop
  | zero (P : Process F) (s : S) : Repeats O p reuse o 0 P s P s
  | succ (N : Nat) (P P1 P2 : Process F) (s s1 s2 : S) (h h' : F) (before : Repeats O p reuse o N P s P1 s1)
      (call : Call O p reuse P1 o h s1 (.ok (s2, h', P2))) : Repeats O p reuse o (N + 1) P s P2 s2

end SpaceHub.BS.Par
