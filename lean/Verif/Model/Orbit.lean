import Verif.Model.Vec3
import Verif.Model.MathFn
import Mathlib.Analysis.SpecialFunctions.Complex.Arg
import Mathlib.Analysis.SpecialFunctions.Trigonometric.Inverse
import Mathlib.Analysis.SpecialFunctions.Trigonometric.Arctan
import Mathlib.Analysis.SpecialFunctions.Artanh
import Mathlib.Analysis.SpecialFunctions.Pow.Real

/-
Model of src/orbits/orbits.hpp: Kepler orbits, conversion from and to coordinates, anomalies, periods, tidal radii.

Simplifications, common to the whole file: exact real arithmetic instead of IEEE doubles; `consts::pi` is the real number; there is no
signed zero; a call in which a quantity is divided by zero, or a function is applied outside its domain, so that infinities or NaN
appear in the result, ends as `Res.nan`.
-/

set_option autoImplicit false

namespace SpaceHub.Orbit

open Classical

/-- `consts::G`, macros.hpp:101. -/
def G : ℝ := 1

/-- A division. -/
noncomputable def fdiv (x y : ℝ) : Res ℝ := if y = 0 then .nan else .ok (x / y)

/-- `sqrt`. -/
noncomputable def fsqrt (x : ℝ) : Res ℝ := if x < 0 then .nan else .ok (Real.sqrt x)

/-- `acos`. -/
noncomputable def facos (x : ℝ) : Res ℝ := if -1 ≤ x ∧ x ≤ 1 then .ok (Real.arccos x) else .nan

/-- `tan`. -/
noncomputable def ftan (x : ℝ) : Res ℝ := if Real.cos x = 0 then .nan else .ok (Real.tan x)

/-- `atanh` (infinite at the end points). -/
noncomputable def fatanh (x : ℝ) : Res ℝ := if -1 < x ∧ x < 1 then .ok (Real.artanh x) else .nan

/-- `atan2(y, x)`: the angle of the point `(x, y)`, in `(-π, π]`, 0 for the origin. -/
noncomputable def atan2 (y x : ℝ) : ℝ := Complex.arg ⟨x, y⟩

/-- `norm`, vector3.hpp:239-243. -/
noncomputable def norm (v : V3 ℝ) : ℝ := Real.sqrt v.norm2

/-- A vector divided by a scalar, vector3.hpp:114-115. -/
noncomputable def vdiv (v : V3 ℝ) (c : ℝ) : Res (V3 ℝ) := if c = 0 then .nan else .ok (v / c)

/-- `math::in_range`, math.hpp:114-117. -/
noncomputable def inRange (low x high : ℝ) : ℝ :=
  let tmp := if low > x then low else x
  if tmp > high then high else tmp

/-- `math::iseq`, math.hpp:170-173; `eps` is the machine epsilon of the type. -/
noncomputable def iseq (eps x y : ℝ) : Bool := decide (|x - y| < eps)

/-- `myacos`, orbits.hpp:260-263. -/
noncomputable def myacos (x : ℝ) : ℝ := Real.arccos (inRange (-1) x 1)

/-- `semi_latus_rectum`, orbits.hpp:265-268. -/
def semiLatusRectum (a e : ℝ) : ℝ := a * (1 - e * e)

/-- `euler_rotate`, orbits.hpp:270-288. -/
noncomputable def eulerRotate (v : V3 ℝ) (phi theta psi : ℝ) : V3 ℝ :=
  let sinPhi := Real.sin phi
  let cosPhi := Real.cos phi
  let sinPsi := Real.sin psi
  let cosPsi := Real.cos psi
  let sinTheta := Real.sin theta
  let cosTheta := Real.cos theta
  { x := v.x * (cosPhi * cosPsi - sinPhi * cosTheta * sinPsi) - v.y * (cosPhi * sinPsi + sinPhi * cosTheta * cosPsi) + v.z * (sinPhi * sinTheta)
    y := v.x * (sinPhi * cosPsi + cosPhi * cosTheta * sinPsi) - v.y * (sinPhi * sinPsi - cosPhi * cosTheta * cosPsi) - v.z * (cosPhi * sinTheta)
    z := v.x * sinTheta * sinPsi + v.y * sinTheta * cosPsi + v.z * cosTheta }

/-- `OrbitType`, orbits.hpp:48. -/
inductive OrbitType where
  | ellipse | parabola | hyperbola | none
  deriving DecidableEq, Repr

/-- `KeplerOrbit`, orbits.hpp:70-116. -/
@[ext] structure Kepler where
  m1 : ℝ
  m2 : ℝ
  p : ℝ
  e : ℝ
  i : ℝ
  Omega : ℝ
  omega : ℝ
  nu : ℝ
  type : OrbitType

/-- `E_anomaly_to_T_anomaly`, orbits.hpp:298-309. -/
noncomputable def eToT (eps E e : ℝ) : Res ℝ :=
  if 0 ≤ e ∧ e < 1 then .ok (2 * atan2 (Real.sqrt (1 + e) * Real.sin (E * 0.5)) (Real.sqrt (1 - e) * Real.cos (0.5 * E)))
  else if e > 1 then .ok (2 * atan2 (Real.sqrt (1 + e) * Real.sinh (E * 0.5)) (Real.sqrt (e - 1) * Real.cosh (0.5 * E)))
  else if iseq eps e 1 then .ok (2 * Real.arctan E)
  else .abort

/-- `M_anomaly_to_E_anomaly`, orbits.hpp:319-337; `fuel` bounds the passes of the bisection, of which the program has no bound. -/
noncomputable def mToE (eps : ℝ) (fuel : Nat) (M e : ℝ) : Res ℝ :=
  if |M| ≤ eps then .ok 0
  else if 0 ≤ e ∧ e < 1 then MathFn.bisection (fun x => x - e * Real.sin x - M) eps fuel (-Real.pi) Real.pi
  else if e > 1 then MathFn.bisection (fun x => e * Real.sinh x - x - M) eps fuel (-Real.pi) Real.pi
  else if |e - 1| < eps then MathFn.bisection (fun x => x + x * x * x / 3 - M) eps fuel (-Real.pi) Real.pi
  else .abort

/-- `M_anomaly_to_T_anomaly`, orbits.hpp:347-350. -/
noncomputable def mToT (eps : ℝ) (fuel : Nat) (M e : ℝ) : Res ℝ := do
  let E ← mToE eps fuel M e
  eToT eps E e

/-- `T_anomaly_to_E_anomaly`, orbits.hpp:360-378. -/
noncomputable def tToE (eps T e : ℝ) : Res ℝ :=
  if 0 ≤ e ∧ e < 1 then .ok (2 * atan2 (Real.sqrt (1 - e) * Real.sin (0.5 * T)) (Real.sqrt (1 + e) * Real.cos (0.5 * T)))
  else if e > 1 then do
    let t ← ftan (0.5 * T)
    let x := Real.sqrt ((e - 1) / (e + 1)) * t
    if 1 ≥ x ∧ x ≥ -1 then do
      let y ← fatanh x
      Res.ok (2 * y)
    else .abort
  else if iseq eps e 1 then ftan (0.5 * T)
  else .abort

/-- `E_anomaly_to_M_anomaly`, orbits.hpp:388-399. -/
noncomputable def eToM (eps E e : ℝ) : Res ℝ :=
  if 0 ≤ e ∧ e < 1 then .ok (E - e * Real.sin E)
  else if e > 1 then .ok (e * Real.sinh E - E)
  else if iseq eps e 1 then .ok (E + E * E * E / 3)
  else .abort

/-- `T_anomaly_to_M_anomaly`, orbits.hpp:409-412. -/
noncomputable def tToM (eps T e : ℝ) : Res ℝ := do
  let E ← tToE eps T e
  eToM eps E e

/-- `classify_orbit`, orbits.hpp:414-425. -/
noncomputable def classify (eps e : ℝ) : OrbitType :=
  if 0 ≤ e ∧ e < 1 then .ellipse
  else if e > 1 then .hyperbola
  else if iseq eps e 1 then .parabola
  else .none

/-- An angle given to a constructor: a number, or `orbit::isotherm` with the numbers the generator will deliver
(`random::Uniform`, rand-generator.hpp:47-51). -/
inductive Angle where
  | given (x : ℝ)
  | random (draw : ℝ)

/-- The constructor of `KeplerOrbit`, orbits.hpp:430-475, and `shuffle_i`, `shuffle_Omega`, `shuffle_omega`, `shuffle_nu`,
orbits.hpp:477-501.  The number drawn comes with the request: for the inclination it is the one from `Uniform(-1, 1)`, for the other
angles the one from `Uniform(-pi, pi)`. -/
noncomputable def mkKepler (eps : ℝ) (fuel : Nat) (m1 m2 p e : ℝ) (i Omega omega nu : Angle) : Res Kepler :=
  if p ≤ 0 then .abort
  else if classify eps e = .none then .abort
  else do
    let i' ← (match i with
      | .given x => .ok x
      | .random u => facos u)
    let Omega' := (match Omega with
      | .given x => x
      | .random u => u)
    let omega' := (match omega with
      | .given x => x
      | .random u => u)
    let nu' ← (match nu with
      | .given x => .ok x
      | .random u => if classify eps e = .ellipse then (do let E ← mToE eps fuel u e; eToT eps E e) else .abort)
    Res.ok { m1 := m1, m2 := m2, p := p, e := e, i := i', Omega := Omega', omega := omega', nu := nu', type := classify eps e }

/-- `Hyper`, orbits.hpp:182. -/
inductive Hyper where
  | inward | outward
  deriving DecidableEq

/-- The constructor of `Hyperbolic`, orbits.hpp:506-531 (the impact parameter, which it also stores, is left out). -/
noncomputable def mkHyperbolic (eps : ℝ) (fuel : Nat) (m1 m2 vInf b : ℝ) (i Omega omega : Angle) (r : ℝ) (inOut : Hyper) : Res Kepler := do
  let k ← mkKepler eps fuel m1 m2 1 0 i Omega omega (.given 0)
  let u := G * (m1 + m2)
  let a ← fdiv (-u) (vInf * vInf)
  let q ← fdiv (b * b) (a * a)
  let e ← fsqrt (1 + q)
  let p ← fdiv ((b * vInf) * (b * vInf)) u
  if p ≤ 0 then .abort
  else if r < a * (1 - e) then .abort
  else do
    let c ← fdiv (p - r) (e * r)
    let t ← facos c
    let nu := if inOut = .outward then -t * -1 else -t
    Res.ok { k with type := .hyperbola, e := e, p := p, nu := nu }

/-- The constructor of `Elliptic`, orbits.hpp:536-545 (the semi-major axis, which it also stores, is left out). -/
noncomputable def mkElliptic (eps : ℝ) (fuel : Nat) (m1 m2 a e : ℝ) (i Omega omega nu : Angle) : Res Kepler := do
  let k ← mkKepler eps fuel m1 m2 (a * (1 - e * e)) e i Omega omega nu
  if k.type ≠ .ellipse then .abort else .ok k

/-- `orbit_to_coord`, orbits.hpp:550-565 and 684-703 (the two overloads have the same text). -/
noncomputable def orbitToCoord (k : Kepler) : Res (V3 ℝ × V3 ℝ) := do
  let u := (k.m1 + k.m2) * G
  let sinNu := Real.sin k.nu
  let cosNu := Real.cos k.nu
  let r ← fdiv k.p (1 + k.e * cosNu)
  let w ← fdiv u k.p
  let v ← fsqrt w
  let pos : V3 ℝ := r • (⟨cosNu, sinNu, 0⟩ : V3 ℝ)
  let vel : V3 ℝ := v • (⟨-sinNu, k.e + cosNu, 0⟩ : V3 ℝ)
  Res.ok (eulerRotate pos k.Omega k.i (k.omega + Real.pi), eulerRotate vel k.Omega k.i (k.omega + Real.pi))

/-- The angles of `coord_to_orbit`, orbits.hpp:590-612 and 651-673: `i`, `Omega`, `omega`, `nu`. -/
noncomputable def angles (dr L N E : V3 ℝ) (r n l rv e : ℝ) : Res (ℝ × ℝ × ℝ × ℝ) := do
  let ci ← fdiv L.z l
  let i ← facos ci
  let rh ← vdiv dr r
  if e ≠ 0 then
    let nu := MathFn.sign rv * myacos ((E / e).dot rh)
    if n ≠ 0 then
      Res.ok (i, MathFn.sign N.y * myacos (N.x / n), MathFn.sign E.z * myacos ((E / e).dot (N / n)), nu)
    else
      let omega := -MathFn.sign E.y * myacos (-E.x / e)
      Res.ok (i, omega, omega, nu)
  else
    if n ≠ 0 then do
      let Omega := MathFn.sign N.y * myacos (N.x / n)
      let peri := L.cross N
      let ph ← vdiv peri (norm peri)
      Res.ok (i, Omega, 0, -MathFn.sign (N.dot dr) * myacos (ph.dot rh))
    else do
      let t ← facos ((⟨1, 0, 0⟩ : V3 ℝ).dot rh)
      Res.ok (i, 0, 0, MathFn.sign dr.y * t)

/-- What the two overloads of `coord_to_orbit` share, orbits.hpp:567-613 and 626-675: they differ in the kind of orbit for which the
semi-latus rectum is computed from the semi-major axis (`viaA`). -/
noncomputable def coordToOrbitWith (viaA : OrbitType → Bool) (eps m1 m2 : ℝ) (dr dv : V3 ℝ) : Res Kepler := do
  let L := dr.cross dv
  let N := (⟨0, 0, 1⟩ : V3 ℝ).cross L
  let r := norm dr
  let n := norm N
  let l := norm L
  let rv := dr.dot dv
  let u := (m1 + m2) * G
  let reNorm ← fdiv 1 r
  let E ← vdiv ((dv.norm2 - u * reNorm) • dr - rv • dv) u
  let e := norm E
  let type := classify eps e
  let p ← (if viaA type then (do
      let a ← fdiv (-u * r) (r * dv.norm2 - 2 * u)
      Res.ok (semiLatusRectum a e))
    else fdiv (l * l) u)
  let ang ← angles dr L N E r n l rv e
  Res.ok { m1 := m1, m2 := m2, p := p, e := e, i := ang.1, Omega := ang.2.1, omega := ang.2.2.1, nu := ang.2.2.2, type := type }

/-- `coord_to_orbit(m1, m2, dr, dv, args)`, orbits.hpp:567-613: the test is `orbit_type == Parabola` (line 583). -/
noncomputable def coordToOrbitVoid (eps m1 m2 : ℝ) (dr dv : V3 ℝ) : Res Kepler :=
  coordToOrbitWith (fun t => t == .parabola) eps m1 m2 dr dv

/-- `coord_to_orbit(m1, m2, dr, dv)`, orbits.hpp:626-675: the test is `orbit_type != Parabola` (line 644). -/
noncomputable def coordToOrbit (eps m1 m2 : ℝ) (dr dv : V3 ℝ) : Res Kepler :=
  coordToOrbitWith (fun t => t != .parabola) eps m1 m2 dr dv

/-- `calc_runge_lenz_vector`, orbits.hpp:705-708. -/
noncomputable def calcRungeLenz (u : ℝ) (dr dv : V3 ℝ) : Res (V3 ℝ) := do
  let reNorm ← fdiv 1 (norm dr)
  vdiv ((dv.norm2 - u * reNorm) • dr - (dr.dot dv) • dv) u

/-- `calc_eccentricity`, orbits.hpp:716-719. -/
noncomputable def calcEccentricity (u : ℝ) (dr dv : V3 ℝ) : Res ℝ := do
  let reNorm ← fdiv 1 (norm dr)
  fdiv (norm ((dv.norm2 - u * reNorm) • dr - (dr.dot dv) • dv)) u

/-- `calc_angular_momentum`, orbits.hpp:721-726. -/
noncomputable def calcAngularMomentum (m1 m2 : ℝ) (dr dv : V3 ℝ) : Res (V3 ℝ) := do
  let mu ← fdiv (m1 * m2) (m1 + m2)
  Res.ok (mu • dr.cross dv)

/-- `calc_semi_major_axis`, orbits.hpp:734-738. -/
noncomputable def calcSemiMajorAxis (u : ℝ) (dr dv : V3 ℝ) : Res ℝ :=
  let r := norm dr
  fdiv (-u * r) (r * dv.norm2 - 2 * u)

/-- `calc_a_RL_vector`, orbits.hpp:763-773. -/
noncomputable def calcARL (u : ℝ) (dr dv : V3 ℝ) : Res (ℝ × V3 ℝ) := do
  let r := norm dr
  let v := norm dv
  let v2 := v * v
  let vr := dr.dot dv
  let q ← fdiv u r
  let vdfs := v2 - q
  let q2 ← fdiv (2 * u) r
  let a ← fdiv (-u) (v2 - q2)
  let e ← vdiv (vdfs • dr - vr • dv) u
  Res.ok (a, e)

/-- `calc_a_e`, orbits.hpp:745-755 (the text of `calc_a_RL_vector`, with the norm of the vector). -/
noncomputable def calcAE (u : ℝ) (dr dv : V3 ℝ) : Res (ℝ × ℝ) := do
  let r := norm dr
  let v := norm dv
  let v2 := v * v
  let vr := dr.dot dv
  let q ← fdiv u r
  let vdfs := v2 - q
  let q2 ← fdiv (2 * u) r
  let a ← fdiv (-u) (v2 - q2)
  let E ← vdiv (vdfs • dr - vr • dv) u
  Res.ok (a, norm E)

/-- `calc_a_e_L`, orbits.hpp:775-787. -/
noncomputable def calcAEL (m1 m2 : ℝ) (dr dv : V3 ℝ) : Res (ℝ × V3 ℝ × V3 ℝ) := do
  let u := (m1 + m2) * G
  let ae ← calcARL u dr dv
  let mu ← fdiv (m1 * m2) (m1 + m2)
  Res.ok (ae.1, ae.2, mu • dr.cross dv)

/-- `period`, orbits.hpp:795-802. -/
noncomputable def period (m1 m2 a : ℝ) : Res ℝ :=
  if a > 0 then do
    let q ← fdiv (a * a * a) ((m1 + m2) * G)
    let s ← fsqrt q
    Res.ok (2 * Real.pi * s)
  else .abort

/-- `period` of an orbit, orbits.hpp:804-807.  Simplification: for a parabola the infinite semi-major axis is not distinguished from
NaN (the call then returns infinity for `p > 0`). -/
noncomputable def periodOf (k : Kepler) : Res ℝ := do
  let a ← fdiv k.p (1 - k.e * k.e)
  period k.m1 k.m2 a

/-- `time_to_periapsis` of a kind of orbit, orbits.hpp:809-820. -/
noncomputable def timeToPeriapsisOfType (type : OrbitType) (u a M : ℝ) : Res ℝ :=
  match type with
  | .ellipse => do
    let q ← fdiv (a * a * a) u
    let s ← fsqrt q
    Res.ok (s * M)
  | .parabola => do
    let q ← fdiv (a * a * a) u
    let s ← fsqrt q
    Res.ok (0.5 * s * M)
  | .hyperbola => do
    let q ← fdiv (-a * a * a) u
    let s ← fsqrt q
    Res.ok (s * M)
  | .none => .ok 0

/-- `time_to_periapsis` of an orbit, orbits.hpp:822-837.  For an orbit of type `None` the function ends without a `return`. -/
noncomputable def timeToPeriapsis (eps : ℝ) (k : Kepler) : Res ℝ := do
  let E ← tToE eps k.nu k.e
  let M ← eToM eps E k.e
  let u := G * (k.m1 + k.m2)
  match k.type with
  | .ellipse => do
    let a ← fdiv k.p (1 - k.e * k.e)
    let q ← fdiv (a * a * a) u
    let s ← fsqrt q
    Res.ok (s * M)
  | .parabola => do
    let q ← fdiv (k.p * k.p * k.p) u
    let s ← fsqrt q
    Res.ok (-0.5 * s * M)
  | .hyperbola => do
    let a ← fdiv k.p (1 - k.e * k.e)
    let q ← fdiv (-a * a * a) u
    let s ← fsqrt q
    Res.ok (-s * M)
  | .none => .ub

/-- `tidal_factor`, orbits.hpp:839-845. -/
noncomputable def tidalFactor (r m1 m2 R1 R2 : ℝ) : Res (ℝ × ℝ) := do
  let ratio1 ← fdiv R1 r
  let ratio2 ← fdiv R2 r
  let q1 ← fdiv m2 m1
  let q2 ← fdiv m1 m2
  Res.ok (q1 * ratio1 * ratio1 * ratio1, q2 * ratio2 * ratio2 * ratio2)

/-- `tidal_radius` with one radius, orbits.hpp:847-850. -/
noncomputable def tidalRadius (factor m1 m2 R2 : ℝ) : Res ℝ := do
  let q ← fdiv m1 (factor * m2)
  if q < 0 then .nan else .ok (q ^ ((1:ℝ) / 3) * R2)

/-- `tidal_radius` with two radii, orbits.hpp:852-857. -/
noncomputable def tidalRadius2 (factor m1 m2 R1 R2 : ℝ) : Res ℝ := do
  let r1 ← tidalRadius factor m1 m2 R2
  let r2 ← tidalRadius factor m2 m1 R1
  Res.ok (max r1 r2)

end SpaceHub.Orbit
