import Verif.Model.Vec3
import Mathlib.Analysis.SpecialFunctions.Pow.Real

/-
Model of the forces of src/interaction: newtonian.hpp, post-newtonian.hpp, tidal.hpp, alpha-disk.hpp,
disk-capture-star.hpp, static-gas-drag.hpp.
Simplification: the scalars are the real numbers (exact arithmetic); division by a zero distance or a zero
mass, which gives inf/NaN in the source, gives an unspecified real here.
-/

set_option autoImplicit false

namespace SpaceHub.Force
open SpaceHub V3

/-- `norm`, vector3.hpp:239-243. -/
noncomputable def norm (a : V3 ℝ) : ℝ := Real.sqrt (a.x * a.x + a.y * a.y + a.z * a.z)

/-- What a force sees of a plain particle system: `number()`, `pos()`, `vel()`, `mass()`. -/
structure Particles where
  num : Nat
  pos : Arr (V3 ℝ)
  vel : Arr (V3 ℝ)
  mass : Arr ℝ

/-- What a force sees in addition of a chain system: `chain_pos()`, `chain_vel()`, `index()`. -/
structure ChainView where
  chainPos : Arr (V3 ℝ)
  chainVel : Arr (V3 ℝ)
  index : Arr Nat

/-- Type of the local lambda `force(dr, dv, i, j)`, which updates the acceleration array. -/
abbrev PairForce := V3 ℝ → V3 ℝ → Nat → Nat → Arr (V3 ℝ) → Arr (V3 ℝ)

/-- `acceleration[i] += a`. -/
def addAt (acc : Arr (V3 ℝ)) (i : Nat) (a : V3 ℝ) : Arr (V3 ℝ) := acc.set i (acc i + a)
/-- `acceleration[i] -= a`. -/
def subAt (acc : Arr (V3 ℝ)) (i : Nat) (a : V3 ℝ) : Arr (V3 ℝ) := acc.set i (acc i - a)

/-- The double loop over all pairs of a plain system: newtonian.hpp:112-116, post-newtonian.hpp:192-196,
278-282, 344-348, tidal.hpp:103-107. -/
def directLoops (force : PairForce) (P : Particles) (acc : Arr (V3 ℝ)) : Arr (V3 ℝ) :=
  forLoop 0 P.num (fun i acc =>
    forLoop (i + 1) P.num (fun j acc => force (P.pos j - P.pos i) (P.vel j - P.vel i) i j acc) acc) acc

/-- Loop over the pairs at chain distance at least three: newtonian.hpp:98-102, post-newtonian.hpp:185-189,
272-276, 337-341, tidal.hpp:89-93. -/
def farLoop (force : PairForce) (P : Particles) (C : ChainView) (acc : Arr (V3 ℝ)) : Arr (V3 ℝ) :=
  forLoop 0 P.num (fun i acc =>
    forLoop (i + 3) P.num (fun j acc =>
      force (P.pos (C.index j) - P.pos (C.index i)) (P.vel (C.index j) - P.vel (C.index i))
        (C.index i) (C.index j) acc) acc) acc

/-- Loop over the pairs at chain distance two: newtonian.hpp:104-106, post-newtonian.hpp:181-183, 268-270,
333-335, tidal.hpp:95-97. -/
def skipLoop (force : PairForce) (P : Particles) (C : ChainView) (acc : Arr (V3 ℝ)) : Arr (V3 ℝ) :=
  forLoop 0 (P.num - 2) (fun i acc =>
    force (C.chainPos i + C.chainPos (i + 1)) (C.chainVel i + C.chainVel (i + 1))
      (C.index i) (C.index (i + 2)) acc) acc

/-- Loop over the chain neighbours: newtonian.hpp:108-110, post-newtonian.hpp:177-179, 264-266, 329-331,
tidal.hpp:99-101. -/
def adjLoop (force : PairForce) (P : Particles) (C : ChainView) (acc : Arr (V3 ℝ)) : Arr (V3 ℝ) :=
  forLoop 0 (P.num - 1) (fun i acc =>
    force (C.chainPos i) (C.chainVel i) (C.index i) (C.index (i + 1)) acc) acc

/-- Chain branch in the order of newtonian.hpp:92-110 and tidal.hpp:81-101.  With `size < 2` the unsigned
bounds `size - 2` and/or `size - 1` wrap around and the loops run out of bounds. -/
def chainLoopsFar (force : PairForce) (P : Particles) (C : ChainView) (acc : Arr (V3 ℝ)) : Res (Arr (V3 ℝ)) :=
  if P.num < 2 then .ub
  else .ok (adjLoop force P C (skipLoop force P C (farLoop force P C acc)))

/-- Chain branch in the order of post-newtonian.hpp:177-189, 264-276, 329-341. -/
def chainLoopsNear (force : PairForce) (P : Particles) (C : ChainView) (acc : Arr (V3 ℝ)) : Res (Arr (V3 ℝ)) :=
  if P.num < 2 then .ub
  else .ok (farLoop force P C (skipLoop force P C (adjLoop force P C acc)))

/-! ### NewtonianGrav -/

/-- the lambda of `NewtonianGrav::add_acc_to`, newtonian.hpp:78-90. -/
noncomputable def newtonForce (m : Arr ℝ) : PairForce := fun dr _ i j acc =>
  let r := norm dr
  let rr3 := 1 / (r * r * r)
  let acc := addAt acc i ⟨dr.x * rr3 * m j, dr.y * rr3 * m j, dr.z * rr3 * m j⟩
  subAt acc j ⟨dr.x * rr3 * m i, dr.y * rr3 * m i, dr.z * rr3 * m i⟩

/-- `NewtonianGrav::add_acc_to` on a plain system, newtonian.hpp:71-91, 111-118. -/
noncomputable def newtonDirect (P : Particles) (acc : Arr (V3 ℝ)) : Arr (V3 ℝ) :=
  directLoops (newtonForce P.mass) P acc

/-- `NewtonianGrav::add_acc_to` on a chain system, newtonian.hpp:71-110. -/
noncomputable def newtonChain (P : Particles) (C : ChainView) (acc : Arr (V3 ℝ)) : Res (Arr (V3 ℝ)) :=
  chainLoopsFar (newtonForce P.mass) P C acc

/-! ### Post-Newtonian terms; `G` = consts::G, `c` = consts::C -/

/-- the lambda of `PN1::add_acc_to`, post-newtonian.hpp:141-168, with `INV_C2` of 125-126. -/
noncomputable def pn1Force (G c : ℝ) (v : Arr (V3 ℝ)) (m : Arr ℝ) : PairForce := fun dr dv i j acc =>
  let r2 := norm2 dr
  let r := Real.sqrt r2
  let n := (-dr) / r
  let v1s := norm2 (v i)
  let v2s := norm2 (v j)
  let v12 := dot (v i) (v j)
  let nv1 := dot n (v i)
  let nv2 := dot n (v j)
  let gmr1 := G * m i / r
  let gmr2 := G * m j / r
  let Ai := -v1s - 2 * v2s + 4 * v12 + 3 / 2 * nv2 * nv2 + 5 * gmr1 + 4 * gmr2
  let Aj := -v2s - 2 * v1s + 4 * v12 + 3 / 2 * nv1 * nv1 + 5 * gmr2 + 4 * gmr1
  let Bi := 4 * nv1 - 3 * nv2
  let Bj := -4 * nv2 + 3 * nv1
  let coef := G / r2 * (1 / c * (1 / c))
  let acc := addAt acc i ((coef * m j) • (Ai • n - Bi • dv))
  subAt acc j ((coef * m i) • (Aj • n - Bj • dv))

/-- the lambda of `PN2::add_acc_to`, post-newtonian.hpp:210-255, with `INV_C4` of 125-128. -/
noncomputable def pn2Force (G c : ℝ) (v : Arr (V3 ℝ)) (m : Arr ℝ) : PairForce := fun dr dv i j acc =>
  let r2 := norm2 dr
  let r := Real.sqrt r2
  let n := (-dr) / r
  let v1s := norm2 (v i)
  let v1q := v1s * v1s
  let v2s := norm2 (v j)
  let v2q := v2s * v2s
  let v12 := dot (v i) (v j)
  let nv1 := dot n (v i)
  let nv1s := nv1 * nv1
  let nv2 := dot n (v j)
  let nv2s := nv2 * nv2
  let gmr1 := G * m i / r
  let gmr2 := G * m j / r
  let m1s := m i * m i
  let m2s := m j * m j
  let m12 := m i * m j
  let Ai := -2 * v2q + 4 * v2s * v12 - 2 * v12 * v12 +
    nv2s * (3 / 2 * v1s + 9 / 2 * v2s - 6 * v12 - 15 / 8 * nv2s) +
    gmr1 * (-(15 / 4) * v1s + 5 / 4 * v2s - 5 / 2 * v12 + 39 / 2 * nv1s - 39 * nv1 * nv2 + 17 / 2 * nv2s) +
    gmr2 * (4 * v2s - 8 * v12 + 2 * nv1s - 4 * nv1 * nv2 - 6 * nv2s) +
    G * G / r2 * (-(57 / 4) * m1s - 9 * m2s - 69 / 2 * m12)
  let Aj := -2 * v1q + 4 * v1s * v12 - 2 * v12 * v12 +
    nv1s * (3 / 2 * v2s + 9 / 2 * v1s - 6 * v12 - 15 / 8 * nv1s) +
    gmr2 * (-(15 / 4) * v2s + 5 / 4 * v1s - 5 / 2 * v12 + 39 / 2 * nv2s - 39 * nv1 * nv2 + 17 / 2 * nv1s) +
    gmr1 * (4 * v1s - 8 * v12 + 2 * nv2s - 4 * nv1 * nv2 - 6 * nv1s) +
    G * G / r2 * (-(57 / 4) * m2s - 9 * m1s - 69 / 2 * m12)
  let Bi := v1s * nv2 + 4 * v2s * nv1 - 5 * v2s * nv2 - 4 * v12 * nv1 + 4 * v12 * nv2 - 6 * nv1 * nv2s +
    9 / 2 * nv2 * nv2s + gmr1 * (-(63 / 4) * nv1 + 55 / 4 * nv2) + gmr2 * (-2 * nv1 - 2 * nv2)
  let Bj := -v2s * nv1 - 4 * v1s * nv2 + 5 * v1s * nv2 + 4 * v12 * nv2 - 4 * v12 * nv1 + 6 * nv2 * nv1s -
    9 / 2 * nv1 * nv1s + gmr2 * (63 / 4 * nv2 - 55 / 4 * nv1) + gmr1 * (2 * nv2 + 2 * nv1)
  let coef := G / r2 * ((1 / c * (1 / c)) * (1 / c * (1 / c)))
  let acc := addAt acc i ((coef * m j) • (Ai • n - Bi • dv))
  subAt acc j ((coef * m i) • (Aj • n - Bj • dv))

/-- the lambda of `PN2p5::add_acc_to`, post-newtonian.hpp:296-320, with `INV_C5` of 125-129. -/
noncomputable def pn2p5Force (G c : ℝ) (m : Arr ℝ) : PairForce := fun dr dv i j acc =>
  let r2 := norm2 dr
  let r := Real.sqrt r2
  let n := (-dr) / r
  let dv2 := norm2 dv
  let nv := -(dot n dv)
  let gmr1 := G * m i / r
  let gmr2 := G * m j / r
  let Ai := nv * (3 * dv2 - 6 * gmr1 + 52 / 3 * gmr2)
  let Aj := nv * (3 * dv2 - 6 * gmr2 + 52 / 3 * gmr1)
  let Bi := -dv2 + 2 * gmr1 - 8 * gmr2
  let Bj := -dv2 + 2 * gmr2 - 8 * gmr1
  let coef := 4 / 5 * G * G * m i * m j / (r2 * r) * ((1 / c * (1 / c)) * (1 / c * (1 / c * (1 / c))))
  let acc := addAt acc i (coef • (Ai • n - Bi • dv))
  subAt acc j (coef • (Aj • n - Bj • dv))

/-- The post-Newtonian classes. -/
inductive PN | pn1 | pn2 | pn2p5

/-- The lambda of the chosen post-Newtonian class. -/
noncomputable def pnForce (G c : ℝ) (v : Arr (V3 ℝ)) (m : Arr ℝ) : PN → PairForce
  | .pn1 => pn1Force G c v m
  | .pn2 => pn2Force G c v m
  | .pn2p5 => pn2p5Force G c m

/-- `add_acc_to` of the post-Newtonian classes on a plain system, post-newtonian.hpp:134-198, 203-284, 289-350. -/
noncomputable def pnDirect (G c : ℝ) (k : PN) (P : Particles) (acc : Arr (V3 ℝ)) : Arr (V3 ℝ) :=
  directLoops (pnForce G c P.vel P.mass k) P acc

/-- `add_acc_to` of the post-Newtonian classes on a chain system, post-newtonian.hpp:134-198, 203-284, 289-350. -/
noncomputable def pnChain (G c : ℝ) (k : PN) (P : Particles) (C : ChainView) (acc : Arr (V3 ℝ)) :
    Res (Arr (V3 ℝ)) :=
  chainLoopsNear (pnForce G c P.vel P.mass k) P C acc

/-! ### Tidal -/

/-- `tide_apsidal_const()`, `tide_lag_time()`, `radius()` of a tidal particle system. -/
structure TideData where
  k : Arr ℝ
  tau : Arr ℝ
  rad : Arr ℝ

open Classical in
/-- the lambda of `Tidal::add_acc_to`, tidal.hpp:56-79. -/
noncomputable def tidalForce (G : ℝ) (m : Arr ℝ) (T : TideData) : PairForce := fun dr dv i j acc =>
  if T.k i ≠ 0 ∨ T.k j ≠ 0 then
    let r := norm dr
    let r2 := r * r
    let r4 := r2 * r2
    let r8 := r4 * r4
    let acc :=
      if T.k i ≠ 0 then
        let rad2 := T.rad i * T.rad i
        let rad4 := rad2 * rad2
        let rad5 := rad4 * T.rad i
        let coef := 3 * G * T.k i * rad5 * m j * m j * (1 + 3 * T.tau i * dot dv dr / r2) / r8
        let acc := addAt acc i ((coef / m i) • dr)
        subAt acc j ((coef / m j) • dr)
      else acc
    if T.k j ≠ 0 then
      let rad2 := T.rad j * T.rad j
      let rad4 := rad2 * rad2
      let rad5 := rad4 * T.rad j
      let coef := 3 * G * T.k j * rad5 * m i * m i * (1 + 3 * T.tau j * dot dv dr / r2) / r8
      let acc := addAt acc i ((coef / m i) • dr)
      subAt acc j ((coef / m j) • dr)
    else acc
  else acc

/-- `Tidal::add_acc_to` on a plain system, tidal.hpp:46-79, 102-109. -/
noncomputable def tidalDirect (G : ℝ) (T : TideData) (P : Particles) (acc : Arr (V3 ℝ)) : Arr (V3 ℝ) :=
  directLoops (tidalForce G P.mass T) P acc

/-- `Tidal::add_acc_to` on a chain system, tidal.hpp:46-101. -/
noncomputable def tidalChain (G : ℝ) (T : TideData) (P : Particles) (C : ChainView) (acc : Arr (V3 ℝ)) :
    Res (Arr (V3 ℝ)) :=
  chainLoopsFar (tidalForce G P.mass T) P C acc

/-! ### Forces of a gas disk around particle 0 -/

/-- `disk_v`, alpha-disk.hpp:60-65 and disk-capture-star.hpp:52-57. -/
noncomputable def diskV (r : V3 ℝ) (M : ℝ) : V3 ℝ :=
  let rr := Real.sqrt (r.x * r.x + r.y * r.y)
  let v := Real.sqrt (M / rr)
  ⟨-v * r.y / rr, v * r.x / rr, 0⟩

/-- `DiskCaptureStar::disk_rho`, disk-capture-star.hpp:39-50. -/
noncomputable def captureRho (r : V3 ℝ) (M : ℝ) : ℝ :=
  let Mdot := 1 * (22 / 100) * (M / 10 ^ 7) / (2 * Real.pi)
  let R := Real.sqrt (r.x * r.x + r.y * r.y)
  let Omega := Real.sqrt (M / (R * R * R))
  let H := (1 / 2 / 1 * Mdot / M / Omega) ^ ((1 : ℝ) / 3) * R
  let rho0 := M / (2 * 1 * Real.pi * R * R * R)
  rho0 * Real.exp (-(r.z * r.z) / (2 * H * H))

/-- `DiskCaptureStar::add_acc_to`, disk-capture-star.hpp:60-85; `rad` = `radius()`. -/
noncomputable def captureAcc (rad : Arr ℝ) (P : Particles) (acc : Arr (V3 ℝ)) : Arr (V3 ℝ) :=
  forLoop 1 P.num (fun i acc =>
    let dr := P.pos i - P.pos 0
    let dv := P.vel i - P.vel 0
    let vDisk := diskV dr (P.mass 0)
    let vRel := dv - vDisk
    let rho := captureRho dr (P.mass 0)
    let rd := rad i
    let vabs := Real.sqrt (dot vRel vRel)
    let f := Real.pi * rd * rd * rho * dot vRel vRel
    let acc := subAt acc i ((f • vRel) / vabs / P.mass i)
    addAt acc 0 ((f • vRel) / vabs / P.mass 0)) acc

/-- Static parameters of `AlphaDisk`, alpha-disk.hpp:39-42. -/
structure DiskParams where
  Q : ℝ
  alpha : ℝ
  lambda : ℝ
  force : Int

/-- `AlphaDisk::local_Omega_H`, alpha-disk.hpp:44-51. -/
noncomputable def localOmegaH (D : DiskParams) (r : V3 ℝ) (M : ℝ) : ℝ × ℝ :=
  let Mdot := D.lambda * (22 / 100) * (M / 10 ^ 7) / (2 * Real.pi)
  let R := Real.sqrt (r.x * r.x + r.y * r.y)
  let Omega := Real.sqrt (M / (R * R * R))
  let H := (D.Q / 2 / D.alpha * Mdot / M / Omega) ^ ((1 : ℝ) / 3) * R
  (Omega, H)

/-- `AlphaDisk::disk_rho`, alpha-disk.hpp:53-58. -/
noncomputable def alphaRho (D : DiskParams) (r : V3 ℝ) (M H : ℝ) : ℝ :=
  let R := Real.sqrt (r.x * r.x + r.y * r.y)
  let rho0 := M / (2 * D.Q * Real.pi * R * R * R)
  rho0 * Real.exp (-(r.z * r.z) / (2 * H * H)) * 1000

/-- `I_sup`, alpha-disk.hpp:76. -/
noncomputable def iSup' (M logR : ℝ) : ℝ := (1 / 2 * Real.log (1 - 1 / M / M) + logR) / M / M
/-- `I_sub`, alpha-disk.hpp:77. -/
noncomputable def iSub (M : ℝ) : ℝ := (1 / 2 * Real.log ((1 + M) / (1 - M)) - M) / M / M
/-- `dIdM_sup`, alpha-disk.hpp:78-80. -/
noncomputable def dISup (M logR : ℝ) : ℝ := (-2 * logR + 1 / (M * M - 1) - Real.log (1 - 1 / M / M)) / M / M / M
/-- `dIdM_sub`, alpha-disk.hpp:81-83. -/
noncomputable def dISub (M : ℝ) : ℝ :=
  (M * M * M + (1 - M * M) * Real.log ((1 + M) / (1 - M)) - 2 * M) / (M * M * M * (M * M - 1))

/-- `eps`, alpha-disk.hpp:85-86. -/
noncomputable def diskEps : ℝ := 1 / Real.exp (2 * 3 / 3)

/-- `connect`, alpha-disk.hpp:85-101. -/
noncomputable def connect (M : ℝ) : ℝ :=
  let x1 := 1 - diskEps
  let x2 := 1 + diskEps
  let y1 := iSub x1
  let y2 := iSup' x2 3
  let k1 := dISub x1
  let k2 := dISup x2 3
  let a := k1 * (x2 - x1) - (y2 - y1)
  let b := -k2 * (x2 - x1) + (y2 - y1)
  let t := (M - x1) / (x2 - x1)
  (1 - t) * y1 + y2 * t + (1 - t) * t * (t * b + (1 - t) * a)

open Classical in
/-- The dynamical-friction factor `I`, alpha-disk.hpp:116-130. -/
noncomputable def frictionI (force : Int) (Mach : ℝ) : ℝ :=
  if force ≥ 0 then
    if Mach > 1 + diskEps then (1 / 2 * Real.log (1 - 1 / (Mach * Mach)) + 3) / (Mach * Mach)
    else if 1 / 10 < Mach ∧ Mach < 1 - diskEps then
      (1 / 2 * Real.log ((1 + Mach) / (1 - Mach)) - Mach) / (Mach * Mach)
    else if Mach < 1 / 10 then Mach / 3
    else connect Mach
  else 0

/-- The drag strength `f`, alpha-disk.hpp:132-140. -/
noncomputable def dragF (G : ℝ) (force : Int) (I mi cs rho rd v2 : ℝ) : ℝ :=
  if force = 1 then I * 4 * Real.pi * G * G * mi * mi / (cs * cs) * rho
  else if force = -1 then 4 * Real.pi * rd * rd * rho * v2
  else
    let df := I * 4 * Real.pi * G * G * mi * mi / (cs * cs) * rho
    let aeo := 4 * Real.pi * rd * rd * rho * v2
    df + aeo

/-- `AlphaDisk::add_acc_to`, alpha-disk.hpp:68-144; `rad` = `radius()`. -/
noncomputable def alphaAcc (G : ℝ) (D : DiskParams) (rad : Arr ℝ) (P : Particles) (acc : Arr (V3 ℝ)) :
    Arr (V3 ℝ) :=
  forLoop 1 P.num (fun i acc =>
    let dr := P.pos i - P.pos 0
    let dv := P.vel i - P.vel 0
    let OH := localOmegaH D dr (P.mass 0)
    let vDisk := diskV dr (P.mass 0)
    let vRel := dv - vDisk
    let rho := alphaRho D dr (P.mass 0) OH.2
    let rd := rad i
    let v2 := dot vRel vRel
    let vabs := Real.sqrt v2
    let cs := OH.1 * OH.2
    let Mach := vabs / cs
    let f := dragF G D.force (frictionI D.force Mach) (P.mass i) cs rho rd v2
    let acc := subAt acc i ((f • vRel) / vabs / P.mass i)
    addAt acc 0 ((f • vRel) / vabs / P.mass 0)) acc

open Classical in
/-- `StaticGasDrag::add_acc_to`, static-gas-drag.hpp:39-56; `c` = `sub_sonic_c()`, `cs` = `local_cs()`. -/
noncomputable def staticDragAcc (c cs : Arr ℝ) (P : Particles) (acc : Arr (V3 ℝ)) : Arr (V3 ℝ) :=
  forLoop 0 P.num (fun i acc =>
    let u := norm (P.vel i)
    if u < cs i then subAt acc i ((c i * P.mass i) • P.vel i)
    else
      let sup := 3 * Real.sqrt (Real.pi / 2) * c i * cs i * cs i * cs i
      subAt acc i ((sup * P.mass i / (u * u * u)) • P.vel i)) acc

end SpaceHub.Force
