import Verif.Model.Integrator

/-
Model of src/ode-iterator/Bulirsch-Stoer.hpp (both `iterate` overloads; for BS_SUBSTEP_PARALLEL see Model/BSParallel.lean).

The scalar type `F` is arbitrary, with arbitrary operations (`Arith`): floating point numbers with all their rounding,
infinities and NaN are one instance, the reals another.  Error estimator, step controller and particle system are
parameters.  Every access to one of the tables of `max_depth + 1` entries is checked; an access outside is `ub`.
-/

set_option autoImplicit false

namespace SpaceHub.BS
open SpaceHub

/-- The operations of the scalar type.  No laws are assumed. -/
class Arith (F : Type) where
  add : F → F → F
  sub : F → F → F
  mul : F → F → F
  div : F → F → F
  ofRat : ℚ → F
  lt : F → F → Bool
  le : F → F → Bool

/-- exact rational numbers -/
instance : Arith ℚ where
  add := (· + ·)
  sub := (· - ·)
  mul := (· * ·)
  div := (· / ·)
  ofRat := id
  lt a b := decide (a < b)
  le a b := decide (a ≤ b)

open Classical in
/-- exact real numbers -/
noncomputable instance : Arith ℝ where
  add := (· + ·)
  sub := (· - ·)
  mul := (· * ·)
  div := (· / ·)
  ofRat q := (q : ℝ)
  lt a b := decide (a < b)
  le a b := decide (a ≤ b)

/-! ### constants -/

/-- `seq`, Bulirsch-Stoer.hpp:192. -/
def seqTable : List Nat := [1, 2, 3, 5, 8, 12, 17, 25, 36, 51, 73]

/-- `h_[i]`, Bulirsch-Stoer.hpp:197-201; the template argument `MaxIter` of the constants is `max_depth + 1`
(Bulirsch-Stoer.hpp:100-101). -/
def hSeq (maxDepth i : Nat) : Nat := if maxDepth + 1 ≤ 11 then seqTable.getD i 0 else i + 1

section
variable {F : Type} [Arith F]

/-- a `size_t` converted to a scalar -/
def ofN (n : Nat) : F := Arith.ofRat (n : ℚ)

/-- `cost_[i]`, Bulirsch-Stoer.hpp:202-206. -/
def cost (maxDepth : Nat) (kdk : Bool) : Nat → F
  | 0 => ofN (hSeq maxDepth 0 + kdk.toNat * 2)
  | i + 1 => Arith.add (Arith.add (cost maxDepth kdk i) (ofN (hSeq maxDepth (i + 1)))) (ofN (kdk.toNat * 2))

/-- `extrap_coef_[at(i, j)]`, Bulirsch-Stoer.hpp:208-218. -/
def tableCoef (maxDepth i j : Nat) : F :=
  if j < i then
    let nj2 := hSeq maxDepth (i - j - 1) * hSeq maxDepth (i - j - 1)
    let ni2 := hSeq maxDepth i * hSeq maxDepth i
    Arith.div (ofN nj2) (Arith.sub (ofN ni2) (ofN nj2))
  else Arith.ofRat 0

/-- `extrapolate`, Bulirsch-Stoer.hpp:432-441, the rounds `j` to 1; `n` = `var_num_`. -/
def extrapolateFrom (maxDepth n k : Nat) : Nat → (Nat → Arr F) → (Nat → Arr F)
  | 0, T => T
  | j + 1, T =>
    let row : Arr F := fun i =>
      if i < n then
        Arith.add (T (j + 1) i) (Arith.mul (Arith.sub (T (j + 1) i) (T j i)) (tableCoef maxDepth k (k - (j + 1))))
      else T j i
    extrapolateFrom maxDepth n k j (fun r => if r = j then row else T r)

/-- `extrapolate(k)`, Bulirsch-Stoer.hpp:432-441. -/
def extrapolate (maxDepth n k : Nat) (T : Nat → Arr F) : Nat → Arr F := extrapolateFrom maxDepth n k k T
end

/-! ### the iterator -/

/-- What `iterate` uses of a particle system: `write_to_scalar_array`, `read_from_scalar_array`, `collect_increment`,
`clear_increment`, `increment`, and `integrate_by_n_steps` (Bulirsch-Stoer.hpp:380-407). -/
structure IterSys (S F : Type) where
  write : S → List F
  read : S → List F → Res S
  collect : Bool → S → S
  clear : S → S
  inc : S → Arr F
  integrate : F → Nat → S → Res S

/-- Template parameters and constants of the iterator: `max_depth`, leap-frog variant, error estimator
(`ErrEstimator::error`), step controller (`next(order, error)` and `limiter(order, ratio)`). -/
structure Params (F : Type) where
  maxDepth : Nat
  kdk : Bool
  err : List F → Arr F → Arr F → F
  next : Nat → F → F
  limiter : Nat → F → F

/-- Members of `BulirschStoer`, Bulirsch-Stoer.hpp:144-178 (`input_` and `var_num_` are written at the start of each
call; `last_error_` is never read). -/
structure State (F : Type) where
  rank : Nat
  first : Bool
  reject : Bool
  ideal : Arr F
  cpl : Arr F
  rows : Nat → Arr F
  rejNum : Nat
  iterNum : Nat

section
variable {F : Type} [Arith F]

/-- Freshly constructed, Bulirsch-Stoer.hpp:148-178. -/
def State.init (maxDepth : Nat) : State F :=
  { rank := maxDepth - 1, first := true, reject := false, ideal := fun _ => Arith.ofRat 0, cpl := fun _ => Arith.ofRat 0
    rows := fun _ _ => Arith.ofRat 0, rejNum := 0, iterNum := 0 }

/-- An access to entry `k` of an array of `max_depth + 1` entries. -/
def chk (maxDepth k : Nat) : Res Unit := if k ≤ maxDepth then .ok () else .ub

/-- `in_converged_window`, Bulirsch-Stoer.hpp:443-446.  (`k == ideal_rank_ - 1` is written as `k + 1 = rank`: for
`ideal_rank_ == 0` the unsigned difference is the largest number, different from every `k`.) -/
def inWindow (c : State F) (k : Nat) : Bool := (k + 1 == c.rank || k == c.rank || k == c.rank + 1) || c.first

/-- `allowed`, Bulirsch-Stoer.hpp:448-451. -/
def allowed (maxDepth i : Nat) : Nat :=
  let tmp := if 2 > i then 2 else i
  if tmp > maxDepth - 1 then maxDepth - 1 else tmp

/-- `get_next_step_len`, Bulirsch-Stoer.hpp:453-464. -/
def nextStepLen (p : Params F) (c : State F) (kNew k : Nat) : Res F :=
  if kNew ≤ k then do
    chk p.maxDepth kNew
    .ok (c.ideal kNew)
  else if kNew = k + 1 then do
    chk p.maxDepth k
    chk p.maxDepth (k + 1)
    .ok (Arith.div (Arith.mul (c.ideal k) (cost p.maxDepth p.kdk (k + 1))) (cost p.maxDepth p.kdk k))
  else .abort

/-- `set_next_iteration`, Bulirsch-Stoer.hpp:466-498 (`dec_factor` 0.8, `inc_factor` 0.9). -/
def setNextIteration (p : Params F) (c : State F) (k : Nat) : Res (F × State F) :=
  if !c.first then
    if k + 1 = c.rank ∨ k = c.rank then do
      chk p.maxDepth (k - 1)
      chk p.maxDepth k
      if Arith.lt (c.cpl (k - 1)) (Arith.mul (Arith.ofRat (8 / 10)) (c.cpl k)) then do
        let c := { c with rank := allowed p.maxDepth (k - 1) }
        let h ← nextStepLen p c c.rank k
        .ok (h, c)
      else if Arith.lt (c.cpl k) (Arith.mul (Arith.ofRat (9 / 10)) (c.cpl (k - 1))) && !c.reject then do
        let c := { c with rank := allowed p.maxDepth (k + 1) }
        let h ← nextStepLen p c c.rank k
        .ok (h, c)
      else do
        let c := { c with rank := allowed p.maxDepth k }
        let h ← nextStepLen p c c.rank k
        .ok (h, c)
    else if k = c.rank + 1 then do
      chk p.maxDepth k
      let c := if Arith.lt (c.cpl (k - 2)) (Arith.mul (Arith.ofRat (8 / 10)) (c.cpl (k - 1)))
        then { c with rank := allowed p.maxDepth (k - 2) } else c
      chk p.maxDepth c.rank
      let c := if Arith.lt (c.cpl k) (Arith.mul (Arith.ofRat (9 / 10)) (c.cpl c.rank)) && !c.reject
        then { c with rank := allowed p.maxDepth k } else c
      let h ← nextStepLen p c c.rank k
      .ok (h, c)
    else .abort
  else do
    let c := if !c.reject then { c with rank := k } else c
    chk p.maxDepth k
    .ok (c.ideal k, c)

/-- `is_diverged_anyhow`, Bulirsch-Stoer.hpp:500-515. -/
def isDiverged (p : Params F) (c : State F) (error : F) (k : Nat) : Res Bool :=
  if !c.first then
    if k + 1 = c.rank then do
      chk p.maxDepth (k + 1)
      chk p.maxDepth (k + 2)
      let r : F := Arith.div (ofN (hSeq p.maxDepth (k + 1) * hSeq p.maxDepth (k + 2)))
        (ofN (hSeq p.maxDepth 0 * hSeq p.maxDepth 0))
      .ok (Arith.lt (Arith.mul r r) error)
    else if k = c.rank then do
      chk p.maxDepth (k + 1)
      let r : F := Arith.div (ofN (hSeq p.maxDepth (k + 1))) (ofN (hSeq p.maxDepth 0))
      .ok (Arith.lt (Arith.mul r r) error)
    else .ok (Arith.lt (Arith.mul (Arith.ofRat 1) (Arith.ofRat 1)) error)
  else .ok false

/-- How the columns of one attempt end. -/
inductive Exit (S F : Type)
  /-- result accepted: system, returned step, members -/
  | accept (s : S) (h : F) (c : State F)
  /-- rejected (`break`): system, next trial step, members -/
  | reject (s : S) (h : F) (c : State F)
  /-- all columns done without a decision -/
  | exhausted (s : S) (c : State F)

variable {S : Type}

/-- `dst := dy` for the first `n` entries (`std::copy`, Bulirsch-Stoer.hpp:317, 328) -/
def copyRow (n : Nat) (dy old : Arr F) : Arr F := fun i => if i < n then dy i else old i

/-- `calc::array_advance(input_, extrap_list_[0])`, Bulirsch-Stoer.hpp:339, core-computation.hpp:355-362. -/
def arrayAdvance (input : List F) (d : Arr F) : List F := input.mapIdx (fun i x => Arith.add x (d i))

/-- What is computed from column `k` once its row is stored, Bulirsch-Stoer.hpp:330-333: members and error. -/
def evalColumn (p : Params F) (input : List F) (h : F) (c : State F) (k : Nat) : State F × F :=
  let c := { c with rows := extrapolate p.maxDepth input.length k c.rows }
  let error := p.err input (c.rows 1) (c.rows 0)
  let c := { c with ideal := c.ideal.set k (Arith.mul h (p.next (2 * k + 1) error)) }
  let c := { c with cpl := c.cpl.set k (Arith.div (cost p.maxDepth p.kdk k) (c.ideal k)) }
  (c, error)

/-- The loop over the columns, Bulirsch-Stoer.hpp:320-354: `m` columns to go, the next is `k`. -/
def columns (O : IterSys S F) (p : Params F) (input : List F) (h : F) : Nat → Nat → State F → S → Res (Exit S F)
  | 0, _, c, s => .ok (.exhausted s c)
  | m + 1, k, c, s => do
    let s ← O.read s input
    let s := O.clear s
    chk p.maxDepth k
    let s ← O.integrate h (hSeq p.maxDepth k) s
    let c := { c with rows := fun r => if r = k then copyRow input.length (O.inc s) (c.rows k) else c.rows r }
    let ce := evalColumn p input h c k
    let c := ce.1
    let error := ce.2
    if inWindow c k then
      if Arith.le error (Arith.ofRat 1) then do
        let c := { c with reject := false }
        let s ← O.read s (arrayAdvance input (c.rows 0))
        let s := O.collect false s
        let r ← setNextIteration p c k
        let c := { r.2 with first := false }
        .ok (.accept s (Arith.mul h (p.limiter (2 * k + 1) (Arith.div r.1 h))) c)
      else do
        let d ← isDiverged p c error k
        if d then do
          let c := { c with reject := true, rejNum := c.rejNum + 1 }
          let r ← setNextIteration p c k
          .ok (.reject s (Arith.mul h (p.limiter (2 * k + 1) (Arith.div r.1 h))) r.2)
        else columns O p input h m (k + 1) c s
    else columns O p input h m (k + 1) c s

/-- The attempts, Bulirsch-Stoer.hpp:307-357: at most `tries` more. -/
def attempts (O : IterSys S F) (p : Params F) (input : List F) : Nat → F → State F → S → Res (S × F × State F)
  | 0, _, _, _ => .abort
  | tries + 1, h, c, s => do
    let c := { c with iterNum := c.iterNum + 1 }
    let s := O.clear s
    let s ← O.integrate h (hSeq p.maxDepth 0) s
    let c := { c with rows := fun r => if r = 0 then copyRow input.length (O.inc s) (c.rows 0) else c.rows r }
    let e ← columns O p input h (c.rank + 1) 1 c s
    match e with
    | .accept s h c => .ok (s, h, c)
    | .reject s h c => do
      let s ← O.read s input
      attempts O p input tries h c s
    | .exhausted s c => do
      let s ← O.read s input
      attempts O p input tries h c s

/-- `iterate(particles, macro_step_size)`, Bulirsch-Stoer.hpp:284-358 (`max_try_num` = 100): the system afterwards, the
step proposed next, the members. -/
def iterate (O : IterSys S F) (p : Params F) (h : F) (c : State F) (s : S) : Res (S × F × State F) :=
  let input := O.write s
  attempts O p input 100 h c (O.collect true s)

/-- `reject_rate`, Bulirsch-Stoer.hpp:117 (before the first call: 0/0). -/
def rejectRate (c : State F) : F := Arith.div (ofN c.rejNum) (ofN c.iterNum)

/-! ### the overload for a user-supplied derivative -/

/-- `integrate_by_n_steps(func, data_out, time, step_size, steps)`, Bulirsch-Stoer.hpp:409-430: the modified midpoint
rule.  `func x t` is the derivative; `n` = number of variables.  Result: `data_out` and the new `time`. -/
def midpoint (func : Arr F → F → Arr F) (input : Arr F) (time stepSize : F) (steps : Nat) : Arr F × F :=
  let h := Arith.div stepSize (ofN steps)
  let out : Arr F := fun i => Arith.add (input i) (Arith.mul (func input time i) h)
  let st : Arr F × Arr F × F := forLoop 1 steps (fun _ st =>
    let mid : Arr F := fun i => Arith.add (st.1 i) (Arith.mul (func st.2.1 st.2.2 i) (Arith.mul (Arith.ofRat 2) h))
    (st.2.1, mid, Arith.add st.2.2 h)) (input, out, Arith.add time h)
  let d := func st.2.1 st.2.2
  (fun i => Arith.mul (Arith.add (Arith.add (st.1 i) (Arith.mul (d i) h)) (st.2.1 i)) (Arith.ofRat (1 / 2)), st.2.2)

/-- The loop over the columns, Bulirsch-Stoer.hpp:250-279; the system is the time variable. -/
def columnsF (func : Arr F → F → Arr F) (p : Params F) (n : Nat) (input : Arr F) (h : F) :
    Nat → Nat → State F → F → Res (Exit (Arr F × F) F)
  | 0, _, c, t => .ok (.exhausted (input, t) c)
  | m + 1, k, c, t => do
    chk p.maxDepth k
    let d := midpoint func input t h (hSeq p.maxDepth k)
    let t := d.2
    let c := { c with rows := fun r => if r = k then d.1 else c.rows r }
    let ce := evalColumn p ((List.range n).map input) h c k
    let c := ce.1
    let error := ce.2
    if inWindow c k then
      if Arith.le error (Arith.ofRat 1) then do
        let c := { c with reject := false }
        let t := Arith.add t h
        let r ← setNextIteration p c k
        .ok (.accept (c.rows 0, t) (Arith.mul h (p.limiter (2 * k + 1) (Arith.div r.1 h))) r.2)
      else do
        let d ← isDiverged p c error k
        if d then do
          let c := { c with reject := true, rejNum := c.rejNum + 1 }
          let r ← setNextIteration p c k
          .ok (.reject (input, t) (Arith.mul h (p.limiter (2 * k + 1) (Arith.div r.1 h))) r.2)
        else columnsF func p n input h m (k + 1) c t
    else columnsF func p n input h m (k + 1) c t

/-- The attempts, Bulirsch-Stoer.hpp:245-281. -/
def attemptsF (func : Arr F → F → Arr F) (p : Params F) (n : Nat) (input : Arr F) :
    Nat → F → State F → F → Res ((Arr F × F) × F × State F)
  | 0, _, _, _ => .abort
  | tries + 1, h, c, t => do
    let c := { c with iterNum := c.iterNum + 1 }
    let d := midpoint func input t h (hSeq p.maxDepth 0)
    let t := d.2
    let c := { c with rows := fun r => if r = 0 then d.1 else c.rows r }
    let e ← columnsF func p n input h (c.rank + 1) 1 c t
    match e with
    | .accept s h c => .ok (s, h, c)
    | .reject s h c => attemptsF func p n input tries h c s.2
    | .exhausted s c => attemptsF func p n input tries h c s.2

/-- `iterate(func, data, time, step_size)`, Bulirsch-Stoer.hpp:236-282: new data and time, next step, members. -/
def iterateF (func : Arr F → F → Arr F) (p : Params F) (n : Nat) (data : Arr F) (time h : F) (c : State F) :
    Res ((Arr F × F) × F × State F) :=
  attemptsF func p n data 100 h c time
end

/-! ### the particle systems of the library -/

open Integrator Sys

/-- A plain system under the Bulirsch-Stoer iterator. -/
noncomputable def simpleSys (I : Interactions) (kdk : Bool) : IterSys Simple ℝ where
  write := fun s => s.write I
  read := fun s y => s.read I y
  collect := fun b s => s.collect b
  clear := fun s => s.clearInc I
  inc := fun s => s.inc
  integrate := fun h n s => (simpleOps I).run (if kdk then substepsKDK h n else substepsDKD h n) s

/-- A regularised system under the Bulirsch-Stoer iterator. -/
noncomputable def reguSys (G : ℝ) (type : ReguType) (I : Interactions) (kdk : Bool) : IterSys ReguSys ℝ where
  write := fun s => s.write I
  read := fun s y => s.read I y
  collect := fun b s => s.collect b
  clear := fun s => s.clearInc I
  inc := fun s => s.inc
  integrate := fun h n s => (reguOps G type I).run (if kdk then substepsKDK h n else substepsDKD h n) s

/-- A chain system under the Bulirsch-Stoer iterator. -/
noncomputable def chainSys (I : ChainInteractions) (kdk : Bool) : IterSys ChainSys ℝ where
  write := fun s => s.write I
  read := fun s y => s.read I y
  collect := fun b s => s.collect b
  clear := fun s => s.clearInc I
  inc := fun s => s.inc
  integrate := fun h n s => (chainOps I).run (if kdk then substepsKDK h n else substepsDKD h n) s

/-- A regularised chain system under the Bulirsch-Stoer iterator. -/
noncomputable def archainSys (G : ℝ) (type : ReguType) (I : ChainInteractions) (kdk : Bool) : IterSys ARSys ℝ where
  write := fun s => s.write I
  read := fun s y => s.read I y
  collect := fun b s => s.collect b
  clear := fun s => s.clearInc I
  inc := fun s => s.inc
  integrate := fun h n s => (arOps G type I).run (if kdk then substepsKDK h n else substepsDKD h n) s

/-- One macro step of a simulation of a chain system with the Bulirsch-Stoer iterator: `Simulator::advance_one_step`, simulator.hpp:429-434, i.e.
`pre_iter_process`, `iterate`, `post_iter_process`.  The iterator in state `c` is called with the step `h`; `s'`, `h'` and `c'` are the system, the step and the
iterator afterwards.  A relation because ties in the distances leave the new index open. -/
def ChainMacro (I : ChainInteractions) (kdk : Bool) (p : Params ℝ) (h : ℝ) (c : State ℝ) (s : ChainSys) (s' : ChainSys) (h' : ℝ) (c' : State ℝ) : Prop :=
  ∃ u idx, iterate (chainSys I kdk) p h c (s.preIter I) = .ok (u, h', c') ∧ IndexOf u.P idx ∧ u.postIter idx = .ok s'

/-- The same for an AR-chain system. -/
def ARMacro (G : ℝ) (type : ReguType) (I : ChainInteractions) (kdk : Bool) (p : Params ℝ) (h : ℝ) (c : State ℝ) (s : ARSys) (s' : ARSys) (h' : ℝ)
    (c' : State ℝ) : Prop :=
  ∃ u idx, iterate (archainSys G type I kdk) p h c (s.preIter I) = .ok (u, h', c') ∧ IndexOf u.P idx ∧ u.postIter idx = .ok s'

end SpaceHub.BS
