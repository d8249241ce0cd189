import Verif.Model.MagnetoTables
import Verif.Model.Force
import Verif.Model.Orbit
import Mathlib.Analysis.SpecialFunctions.Log.Base

/-
Model of src/interaction/magneto-disk.hpp: drag by the gas of a tabulated disc around the particle of index 0.

Simplifications: exact real arithmetic; the tables hold the decimal numbers of the source; `log10(0)`, which is minus infinity, is
smaller than every table entry; a division of zero by zero ends as `Res.nan`.
-/

set_option autoImplicit false

namespace SpaceHub.Magneto
open SpaceHub Orbit Classical

/-- `xarry[i]` of a `std::vector<double>`. -/
noncomputable def read (t : List ℚ) (i : Nat) : Res ℝ :=
  match t[i]? with
  | some q => .ok (q : ℝ)
  | none => .ub

/-- `interpolate`, magneto-disk.hpp:571-579. -/
noncomputable def interpolate (x : ℝ) (xs ys : List ℚ) : Res ℝ := do
  let a ← read xs 0
  let b ← read xs 1
  let q ← fdiv (x - a) (b - a)
  let idx := ⌊q⌋₊
  let x0 ← read xs idx
  let x1 ← read xs (idx + 1)
  let y0 ← read ys idx
  let y1 ← read ys (idx + 1)
  let t ← fdiv ((x - x0) * (y1 - y0)) (x1 - x0)
  Res.ok (y0 + t)

/-- `log10(x) < low`, where `log10(0)` is minus infinity (`x` is never negative here). -/
noncomputable def lgBelow (x low : ℝ) : Prop := x = 0 ∨ Real.logb 10 x < low

/-- The three-way lookup common to `disk_rho`, `disk_H` and `disk_v`, magneto-disk.hpp:504-519, 523-538, 542-557: the first entry below the
table, the last one above it, `interpolate` in between. -/
noncomputable def lookup (xs ys : List ℚ) (R : ℝ) : Res ℝ := do
  let lo ← read xs 0
  let hi ← read xs (xs.length - 1)
  let ylo ← read ys 0
  let yhi ← read ys (ys.length - 1)
  if lgBelow R lo then Res.ok ylo
  else if Real.logb 10 R ≥ hi then Res.ok yhi
  else interpolate (Real.logb 10 R) xs ys

/-- `unit::cm`, macros.hpp:64-66. -/
noncomputable def cm : ℝ := 1 / 149597870.7 / 1000 / 100

/-- The distance from the axis, as in magneto-disk.hpp:504. -/
noncomputable def axisDist (r : V3 ℝ) : ℝ := Real.sqrt (r.x * r.x + r.y * r.y)

/-- `disk_rho`, magneto-disk.hpp:502-519. -/
noncomputable def diskRho (r : V3 ℝ) : Res ℝ := do
  let y ← lookup lgR lgRho (axisDist r / cm)
  Res.ok ((10:ℝ) ^ y / 5.893333333333333e-07)

/-- `disk_H`, magneto-disk.hpp:521-538. -/
noncomputable def diskH (r : V3 ℝ) : Res ℝ := do
  let y ← lookup lgR lgH (axisDist r / cm)
  Res.ok ((10:ℝ) ^ y / 1.5e13)

/-- `disk_v`, magneto-disk.hpp:540-558. -/
noncomputable def diskV (r : V3 ℝ) : Res (V3 ℝ) := do
  let rr := axisDist r
  let w ← lookup lgR vel (rr / cm)
  let v := w * 3.357318203286629e-07
  let x ← fdiv (-v * r.y) rr
  let y ← fdiv (v * r.x) rr
  Res.ok ⟨x, y, 0⟩

/-- `GDF_I`, magneto-disk.hpp:560-570. -/
noncomputable def dragI (M : ℝ) : Res ℝ := do
  let lo ← read gdfLgM 0
  let hi ← read gdfLgM (gdfLgM.length - 1)
  if lgBelow M lo then Res.ok (M / 3)
  else if Real.logb 10 M ≥ hi then Res.ok 0
  else interpolate (Real.logb 10 M) gdfLgM gdfI

/-- The body of the loop of `add_acc_to`, magneto-disk.hpp:590-617; `rad` = `radius()`. -/
noncomputable def body (rad : Arr ℝ) (P : Force.Particles) (i : Nat) (acc : Arr (V3 ℝ)) : Res (Arr (V3 ℝ)) := do
  let dr := P.pos i - P.pos 0
  let dv := P.vel i - P.vel 0
  let rho ← diskRho dr
  let vDisk ← diskV dr
  let H ← diskH dr
  let vRel := dv - vDisk
  let r := norm dr
  let q ← fdiv (G * P.mass 0) (r * r * r)
  let Omega ← fsqrt q
  let cs := Omega * H
  let v2 := vRel.dot vRel
  let vabs := Real.sqrt v2
  let Mach ← fdiv vabs cs
  let rd := rad i
  let I ← dragI Mach
  let w ← fdiv (I * 4 * Real.pi * G * G * P.mass i * P.mass i) (cs * cs)
  let df := w * rho
  let aeo := 4 * Real.pi * rd * rd * rho * v2
  let f := df + aeo
  let u ← vdiv (f • vRel) vabs
  let ai ← vdiv u (P.mass i)
  let a0 ← vdiv u (P.mass 0)
  Res.ok ((acc.set i (acc i - ai)).set 0 ((acc.set i (acc i - ai)) 0 + a0))

/-- `MagnetoDisk::add_acc_to`, magneto-disk.hpp:582-618: `for (size_t i = 1; i < num; ++i)`. -/
noncomputable def addAcc (rad : Arr ℝ) (P : Force.Particles) (acc : Arr (V3 ℝ)) : Res (Arr (V3 ℝ)) :=
  (List.range' 1 (P.num - 1)).foldlM (fun acc i => body rad P i acc) acc

end SpaceHub.Magneto
