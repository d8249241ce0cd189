import Verif.Model.Orbit

/-
Model of src/orbits/particle-manip.hpp: masses, centres of mass, energies, sizes and tides of clusters of particles, and of
src/scattering/cross-section.hpp.  Exact real arithmetic, as in `Verif.Model.Orbit`.
-/

set_option autoImplicit false

namespace SpaceHub.Manip
open SpaceHub Orbit Classical

/-- A particle: the public members the functions use.  `radius` is 0 for types without a radius (particle-manip.hpp:692-696). -/
@[ext] structure Ptc where
  mass : ℝ
  pos : V3 ℝ
  vel : V3 ℝ
  radius : ℝ

/-- The argument of the functions: a single particle or a container. -/
inductive Cluster where
  | one (p : Ptc)
  | many (l : List Ptc)

/-- `M_tot`, particle-manip.hpp:62-75. -/
noncomputable def mTot : Cluster → ℝ
  | .one p => p.mass
  | .many l => l.foldl (fun s p => s + p.mass) 0

/-- `M_tot` of several particles, particle-manip.hpp:87-92 (a right fold). -/
noncomputable def mTotV (p1 p2 : Ptc) (ps : List Ptc) : ℝ := ps.foldr (fun p s => p.mass + s) (p2.mass + p1.mass)

/-- `COM_p`, particle-manip.hpp:102-123. -/
noncomputable def comP : Cluster → Res (V3 ℝ)
  | .one p => .ok p.pos
  | .many l =>
    let acc := l.foldl (fun (s : ℝ × V3 ℝ) p => (s.1 + p.mass, s.2 + p.mass • p.pos)) (0, 0)
    vdiv acc.2 acc.1

/-- `COM_p` of several particles, particle-manip.hpp:135-143. -/
noncomputable def comPV (p1 p2 : Ptc) (ps : List Ptc) : Res (V3 ℝ) :=
  let totMass := ps.foldr (fun p s => p.mass + s) (p1.mass + p2.mass)
  vdiv (ps.foldr (fun p s => p.mass • p.pos + s) (p1.mass • p1.pos + p2.mass • p2.pos)) totMass

/-- `COM_v`, particle-manip.hpp:153-176. -/
noncomputable def comV : Cluster → Res (V3 ℝ)
  | .one p => .ok p.vel
  | .many l =>
    let acc := l.foldl (fun (s : ℝ × V3 ℝ) p => (s.1 + p.mass, s.2 + p.mass • p.vel)) (0, 0)
    vdiv acc.2 acc.1

/-- `COM_v` of several particles, particle-manip.hpp:188-197. -/
noncomputable def comVV (p1 p2 : Ptc) (ps : List Ptc) : Res (V3 ℝ) :=
  let totMass := ps.foldr (fun p s => p.mass + s) (p1.mass + p2.mass)
  vdiv (ps.foldr (fun p s => p.mass • p.vel + s) (p1.mass • p1.vel + p2.mass • p2.vel)) totMass

/-- `M_rdc`, particle-manip.hpp:210-215. -/
noncomputable def mRdc (c1 c2 : Cluster) : Res ℝ := fdiv (mTot c1 * mTot c2) (mTot c1 + mTot c2)

/-- `move_particles_pos`, particle-manip.hpp:226-236. -/
noncomputable def movePos (target : V3 ℝ) (c : Cluster) : Res Cluster := do
  let com ← comP c
  let dp := target - com
  match c with
  | .one p => .ok (.one { p with pos := p.pos + dp })
  | .many l => .ok (.many (l.map fun p => { p with pos := p.pos + dp }))

/-- `move_particles_pos` of several particles, particle-manip.hpp:249-256. -/
noncomputable def movePosV (target : V3 ℝ) (p1 p2 : Ptc) (ps : List Ptc) : Res (Ptc × Ptc × List Ptc) := do
  let com ← comPV p1 p2 ps
  let dp := target - com
  Res.ok ({ p1 with pos := p1.pos + dp }, { p2 with pos := p2.pos + dp }, ps.map fun p => { p with pos := p.pos + dp })

/-- `move_particles_vel`, particle-manip.hpp:267-277. -/
noncomputable def moveVel (target : V3 ℝ) (c : Cluster) : Res Cluster := do
  let com ← comV c
  let dv := target - com
  match c with
  | .one p => .ok (.one { p with vel := p.vel + dv })
  | .many l => .ok (.many (l.map fun p => { p with vel := p.vel + dv }))

/-- `move_particles_vel` of several particles, particle-manip.hpp:290-297. -/
noncomputable def moveVelV (target : V3 ℝ) (p1 p2 : Ptc) (ps : List Ptc) : Res (Ptc × Ptc × List Ptc) := do
  let com ← comVV p1 p2 ps
  let dv := target - com
  Res.ok ({ p1 with vel := p1.vel + dv }, { p2 with vel := p2.vel + dv }, ps.map fun p => { p with vel := p.vel + dv })

/-- `move_particles`, particle-manip.hpp:310-323. -/
noncomputable def move (pos vel : V3 ℝ) (c : Cluster) : Res Cluster := do
  let cp ← comP c
  let cv ← comV c
  let dp := pos - cp
  let dv := vel - cv
  match c with
  | .one p => .ok (.one { p with pos := p.pos + dp, vel := p.vel + dv })
  | .many l => .ok (.many (l.map fun p => { p with pos := p.pos + dp, vel := p.vel + dv }))

/-- `move_particles` of several particles, particle-manip.hpp:337-347. -/
noncomputable def moveV (pos vel : V3 ℝ) (p1 p2 : Ptc) (ps : List Ptc) : Res (Ptc × Ptc × List Ptc) := do
  let cp ← comPV p1 p2 ps
  let cv ← comVV p1 p2 ps
  let dp := pos - cp
  let dv := vel - cv
  Res.ok ({ p1 with pos := p1.pos + dp, vel := p1.vel + dv }, { p2 with pos := p2.pos + dp, vel := p2.vel + dv },
    ps.map fun p => { p with pos := p.pos + dp, vel := p.vel + dv })

/-- `move_particles` of a particle to an orbit, particle-manip.hpp:360-366 (its signature needs `Particle::Scalar`, which containers lack). -/
noncomputable def moveOrbit (k : Kepler) (p : Ptc) : Res Cluster := do
  let s ← orbitToCoord k
  move s.1 s.2 (.one p)

/-- `move_particles` of several particles to an orbit, particle-manip.hpp:360-366. -/
noncomputable def moveOrbitV (k : Kepler) (p1 p2 : Ptc) (ps : List Ptc) : Res (Ptc × Ptc × List Ptc) := do
  let s ← orbitToCoord k
  moveV s.1 s.2 p1 p2 ps

/-- `move_to_COM_frame`, particle-manip.hpp:376-380. -/
noncomputable def moveToCOM (c : Cluster) : Res Cluster := move ⟨0, 0, 0⟩ ⟨0, 0, 0⟩ c

/-- `move_to_COM_frame` of several particles. -/
noncomputable def moveToCOMV (p1 p2 : Ptc) (ps : List Ptc) : Res (Ptc × Ptc × List Ptc) := moveV ⟨0, 0, 0⟩ ⟨0, 0, 0⟩ p1 p2 ps

/-- The relative coordinates of two clusters, as in particle-manip.hpp:398-399 and four other places. -/
noncomputable def relative (c1 c2 : Cluster) : Res (V3 ℝ × V3 ℝ) := do
  let p1 ← comP c1
  let p2 ← comP c2
  let v1 ← comV c1
  let v2 ← comV c2
  Res.ok (p1 - p2, v1 - v2)

/-- `calc_eccentricity` of two clusters, particle-manip.hpp:394-401. -/
noncomputable def eccentricity (c1 c2 : Cluster) : Res ℝ := do
  let s ← relative c1 c2
  calcEccentricity (G * (mTot c1 + mTot c2)) s.1 s.2

/-- `calc_semi_major_axis` of two clusters, particle-manip.hpp:415-422. -/
noncomputable def semiMajorAxis (c1 c2 : Cluster) : Res ℝ := do
  let s ← relative c1 c2
  calcSemiMajorAxis (G * (mTot c1 + mTot c2)) s.1 s.2

/-- `calc_a_e` of two clusters, particle-manip.hpp:436-443. -/
noncomputable def aE (c1 c2 : Cluster) : Res (ℝ × ℝ) := do
  let s ← relative c1 c2
  calcAE (G * (mTot c1 + mTot c2)) s.1 s.2

/-- `period` of two clusters, particle-manip.hpp:457-462. -/
noncomputable def periodC (c1 c2 : Cluster) : Res ℝ := do
  let a ← semiMajorAxis c1 c2
  period (mTot c1) (mTot c2) a

/-- `time_to_periapsis` of two clusters, particle-manip.hpp:476-516.  The semi-major axis, infinite for a parabola, enters the result for the
other kinds only, so it is computed there; `calc_a_e` is written out for that reason. -/
noncomputable def timeToPeriapsisC (eps : ℝ) (c1 c2 : Cluster) : Res ℝ := do
  let s ← relative c1 c2
  let dr := s.1
  let dv := s.2
  let u := G * (mTot c1 + mTot c2)
  let r := norm dr
  let v := norm dv
  let v2 := v * v
  let q ← fdiv u r
  let E ← vdiv ((v2 - q) • dr - (dr.dot dv) • dv) u
  let e := norm E
  if e ≥ 0 then do
    let type := classify eps e
    let h := dr.cross dv
    let p ← fdiv (h.dot h) u
    let w ← fdiv p r
    let c ← fdiv (w - 1) e
    let T ← facos c
    let M ← tToM eps T e
    if type = .parabola then timeToPeriapsisOfType type u p M
    else do
      let q2 ← fdiv (2 * u) r
      let a ← fdiv (-u) (v2 - q2)
      timeToPeriapsisOfType type u a M
  else .abort

/-- `E_k`, particle-manip.hpp:527-540. -/
noncomputable def eK : Cluster → ℝ
  | .one p => 0.5 * p.mass * p.vel.dot p.vel
  | .many l => 0.5 * l.foldl (fun s p => s + p.mass * p.vel.dot p.vel) 0

/-- `E_k` of several particles, particle-manip.hpp:552-559. -/
noncomputable def eKV (p1 p2 : Ptc) (ps : List Ptc) : ℝ :=
  0.5 * ps.foldr (fun p s => p.mass * p.vel.dot p.vel + s) (p1.mass * p1.vel.dot p1.vel + p2.mass * p2.vel.dot p2.vel)

/-- `distance`, vector3.hpp:224-231. -/
noncomputable def dist (a b : V3 ℝ) : ℝ := norm (a - b)

/-- The two nested loops of `E_p`, particle-manip.hpp:574-578. -/
noncomputable def ePLoop : List Ptc → ℝ → Res ℝ
  | [], acc => .ok acc
  | p :: l, acc => do
    let acc ← l.foldlM (fun (acc : ℝ) q => do
      let t ← fdiv (G * p.mass * q.mass) (dist p.pos q.pos)
      Res.ok (acc - t)) acc
    ePLoop l acc

/-- `E_p`, particle-manip.hpp:569-583. -/
noncomputable def eP : Cluster → Res ℝ
  | .one _ => .ok 0
  | .many l => ePLoop l 0

/-- `E_p` of several particles, particle-manip.hpp:595-600, with `group`, particle-manip.hpp:48-52. -/
noncomputable def ePV (p1 p2 : Ptc) (ps : List Ptc) : Res ℝ := eP (.many (p1 :: p2 :: ps))

/-- `E_k_COM`, particle-manip.hpp:610-615. -/
noncomputable def eKCOM (c : Cluster) : Res ℝ := do
  let v ← comV c
  Res.ok (0.5 * mTot c * v.dot v)

/-- `E_k_COM` of several particles, particle-manip.hpp:627-634. -/
noncomputable def eKCOMV (p1 p2 : Ptc) (ps : List Ptc) : Res ℝ := do
  let v ← comVV p1 p2 ps
  Res.ok (0.5 * mTotV p1 p2 ps * v.dot v)

/-- `E_tot`, particle-manip.hpp:644-647. -/
noncomputable def eTot (c : Cluster) : Res ℝ := do
  let p ← eP c
  Res.ok (eK c + p)

/-- `E_tot` of several particles. -/
noncomputable def eTotV (p1 p2 : Ptc) (ps : List Ptc) : Res ℝ := do
  let p ← ePV p1 p2 ps
  Res.ok (eKV p1 p2 ps + p)

/-- `E_inner`, particle-manip.hpp:657-660. -/
noncomputable def eInner (c : Cluster) : Res ℝ := do
  let t ← eTot c
  let k ← eKCOM c
  Res.ok (t - k)

/-- `E_inner` of several particles. -/
noncomputable def eInnerV (p1 p2 : Ptc) (ps : List Ptc) : Res ℝ := do
  let t ← eTotV p1 p2 ps
  let k ← eKCOMV p1 p2 ps
  Res.ok (t - k)

/-- The two nested loops of `cluster_size`, particle-manip.hpp:681-688. -/
noncomputable def sizeLoop : List Ptc → ℝ → ℝ
  | [], m => m
  | p :: l, m => sizeLoop l (l.foldl (fun m q => if dist p.pos q.pos > m then dist p.pos q.pos else m) m)

/-- `cluster_size`, particle-manip.hpp:672-698. -/
noncomputable def clusterSize : Cluster → ℝ
  | .one p => p.radius
  | .many l => sizeLoop l (match l with
    | [p] => p.radius
    | _ => 0)

/-- `cluster_size` of several particles, particle-manip.hpp:711-716. -/
noncomputable def clusterSizeV (p1 p2 : Ptc) (ps : List Ptc) : ℝ := clusterSize (.many (p1 :: p2 :: ps))

/-- `E_tid` with the sizes, particle-manip.hpp:732-739. -/
noncomputable def eTid (c1 c2 : Cluster) (R1 R2 : ℝ) : Res ℝ := do
  let p1 ← comP c1
  let p2 ← comP c2
  let r := dist p1 p2
  fdiv (-G * mTot c1 * mTot c2 * (R1 + R2)) (r * r)

/-- `tidal_factor` of two clusters with the sizes, particle-manip.hpp:776-783. -/
noncomputable def tidalFactorC (c1 c2 : Cluster) (R1 R2 : ℝ) : Res (ℝ × ℝ) := do
  let p1 ← comP c1
  let p2 ← comP c2
  let r := dist p1 p2
  tidalFactor r (mTot c1) (mTot c2) R1 R2

/-- `tidal_factor` of two clusters, particle-manip.hpp:799-804: the first cluster is passed twice. -/
noncomputable def tidalFactorCC (c1 c2 : Cluster) : Res (ℝ × ℝ) :=
  let R1 := clusterSize c1
  let R2 := clusterSize c2
  tidalFactorC c1 c1 R1 R2

/-- `tidal_radius` of two clusters, particle-manip.hpp:820-828 and 843-847. -/
noncomputable def tidalRadiusC (factor : ℝ) (c1 c2 : Cluster) : Res ℝ :=
  tidalRadius factor (mTot c1) (mTot c2) (clusterSize c2)

/-! ### cross-section.hpp -/

/-- `critical_vel`, cross-section.hpp:50-54. -/
noncomputable def criticalVel (m1 m2 E1 E2 : ℝ) : Res ℝ := do
  let mr ← fdiv (m1 * m2) (m1 + m2)
  let q ← fdiv (-2 * (E1 + E2)) mr
  fsqrt q

/-- `critical_vel` of two clusters, cross-section.hpp:66-73. -/
noncomputable def criticalVelC (c1 c2 : Cluster) : Res ℝ := do
  let E1 ← eInner c1
  let E2 ← eInner c2
  criticalVel (mTot c1) (mTot c2) E1 E2

/-- `b_max(m_tot, v_inf, rp_max)`, cross-section.hpp:80-83. -/
noncomputable def bMax (m vInf rp : ℝ) : Res ℝ := do
  let q ← fdiv (2 * m * G * rp) (vInf * vInf)
  fsqrt (rp * rp + q)

/-- `b_max(M_stay, M_incident, R1, R2, v_inf, interact_factor)`, cross-section.hpp:98-103, and the overload on clusters, 85-96. -/
noncomputable def bMaxTidal (m1 m2 R1 R2 vInf factor : ℝ) : Res ℝ := do
  let rp ← tidalRadius2 factor m1 m2 R1 R2
  bMax (m1 + m2) vInf rp

/-- `incident_orbit`, cross-section.hpp:118-123; `s` and `w` are the numbers drawn from `Uniform(0, b_max^2)` and `Uniform(0, 2 pi)`. -/
noncomputable def incidentOrbit (eps : ℝ) (fuel : Nat) (s w m1 m2 vInf r : ℝ) : Res Kepler := do
  let b ← fsqrt s
  mkHyperbolic eps fuel m1 m2 vInf b (.given w) (.given 0) (.given 0) r .inward

/-- `incident_orbit` of two clusters, cross-section.hpp:143-159: `t` is the number drawn from `Uniform(0, 1)`, scaled to the range
`[0, b_max^2]`. -/
noncomputable def incidentOrbitC (eps : ℝ) (fuel : Nat) (t w : ℝ) (c1 c2 : Cluster) (vInf factor : ℝ) : Res Kepler := do
  let rp ← tidalRadius2 0.02 (mTot c1) (mTot c2) (clusterSize c1) (clusterSize c2)
  let b ← bMax (mTot c1 + mTot c2) vInf rp
  let r ← tidalRadius2 factor (mTot c1) (mTot c2) (clusterSize c1) (clusterSize c2)
  incidentOrbit eps fuel (t * (b * b)) w (mTot c1) (mTot c2) vInf r

/-- `hard_radius`, cross-section.hpp:161-164. -/
noncomputable def hardRadius (m1 m2 mEnv sigma : ℝ) : Res ℝ := fdiv (G * m1 * m2) (mEnv * sigma * sigma)

end SpaceHub.Manip
