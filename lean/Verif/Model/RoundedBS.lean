import Verif.Model.Rounded
import Verif.Model.BulirschStoer

/-
Plain systems under gravity and the Bulirsch-Stoer iterator in rounded arithmetic: src/ode-iterator/Bulirsch-Stoer.hpp, operation by operation, with the
operations of the scalar type as a parameter.  The iterator is that of Model/BulirschStoer, which has the operations as a parameter already; comparisons are
exact.  Simplifications as in Model/Rounded.
-/

set_option autoImplicit false

namespace SpaceHub.Rounded
open SpaceHub V3 Force Core Integrator Sys

variable (A : Arith)

open Classical in
/-- the scalar type as the iterator sees it -/
@[instance_reducible] noncomputable def Arith.scalar : BS.Arith ℝ where
  add := A.add
  sub := A.sub
  mul := A.mul
  div := A.div
  ofRat := A.lit
  lt a b := decide (a < b)
  le a b := decide (a ≤ b)

/-- `advance_scaled_coords_to(increment_.begin() + off, var, scale)`, type-class.hpp:119-127. -/
noncomputable def advanceScaled (inc : Arr ℝ) (off n : Nat) (var : Arr (V3 ℝ)) (scale : ℝ) : Arr ℝ :=
  forLoop 0 n (fun i inc =>
    let inc := inc.set (off + 3 * i) (A.add (inc (off + 3 * i)) (A.mul (var i).x scale))
    let inc := inc.set (off + 3 * i + 1) (A.add (inc (off + 3 * i + 1)) (A.mul (var i).y scale))
    inc.set (off + 3 * i + 2) (A.add (inc (off + 3 * i + 2)) (A.mul (var i).z scale))) inc

/-- `sync_pos_increment`, `sync_vel_increment`, base-system.hpp:318-332; `off` is `pos_offset()` or `vel_offset()`. -/
noncomputable def syncCoords (off : Nat) (v : Arr (V3 ℝ)) (h : ℝ) (s : Simple) : Simple :=
  if s.sync then { s with inc := advanceScaled A s.inc off s.P.num v h } else s

/-- `sync_time_increment`, base-system.hpp:342-347. -/
noncomputable def syncClock (h : ℝ) (s : Simple) : Simple :=
  if s.sync then { s with inc := s.inc.set 0 (A.add (s.inc 0) h) } else s

/-- `drift`, base-system.hpp:277-283. -/
noncomputable def driftInc (h : ℝ) (s : Simple) : Simple :=
  let s := { s with time := A.add s.time h }
  let s := { s with P := { s.P with pos := advance A s.P.num s.P.pos s.P.vel h } }
  let s := syncClock A h s
  syncCoords A posOffset s.P.vel h s

/-- `kick`, base-system.hpp:260-275, for gravity alone. -/
noncomputable def kickInc (h : ℝ) (s : Simple) : Simple :=
  let acc := acc A s.P
  let s := { s with P := { s.P with vel := advance A s.P.num s.P.vel acc h } }
  syncCoords A (velOffset s.P.num) acc h s

/-- `integrate_by_n_steps`, Bulirsch-Stoer.hpp:380-407, as the sequence of calls. -/
noncomputable def substeps (kdk : Bool) (macroStep : ℝ) (steps : Nat) : List Op :=
  let h := A.div macroStep (A.lit steps)
  if kdk then
    [.kick (A.mul (A.lit (1 / 2)) h)] ++ forLoop 1 steps (fun _ l => l ++ [.drift h, .kick h]) [] ++ [.drift h, .kick (A.mul (A.lit (1 / 2)) h)]
  else
    [.drift (A.mul (A.lit (1 / 2)) h)] ++ forLoop 1 steps (fun _ l => l ++ [.kick h, .drift h]) [] ++ [.kick h, .drift (A.mul (A.lit (1 / 2)) h)]

/-- one call -/
noncomputable def call (s : Simple) : Op → Simple
  | .drift h => driftInc A h s
  | .kick h => kickInc A h s

/-- all calls -/
noncomputable def callAll (ops : List Op) (s : Simple) : Simple := ops.foldl (call A) s

/-- `Interactions<NewtonianGrav>` -/
noncomputable abbrev gravityOnly : Interactions := ⟨Lib.newton, []⟩

/-- `SimpleSystem` as seen by the iterator, base-system.hpp:121-123, 197-232, Bulirsch-Stoer.hpp:380-407. -/
noncomputable def system (kdk : Bool) : BS.IterSys Simple ℝ where
  write := fun s => s.write gravityOnly
  read := fun s y => s.read gravityOnly y
  collect := fun b s => s.collect b
  clear := fun s => s.clearInc gravityOnly
  inc := fun s => s.inc
  integrate := fun h n s => .ok (callAll A (substeps A kdk h n) s)

/-- `iterate`, Bulirsch-Stoer.hpp:284-358. -/
noncomputable def bsIterate (kdk : Bool) (p : BS.Params ℝ) (h : ℝ) (c : BS.State ℝ) (s : Simple) : Res (Simple × ℝ × BS.State ℝ) :=
  @BS.iterate ℝ A.scalar Simple (system A kdk) p h c s

end SpaceHub.Rounded
