import Verif.Proof.Manip
import Verif.Props.Orbit

/-
C75: centres of mass and displacements of groups of particles.  C76: their energies and sizes.
-/

set_option autoImplicit false

namespace SpaceHub.Props
open SpaceHub Orbit Manip Spec.Orbit Spec.Cluster Real

/-! ### C75 -/

/-- `M_tot` is the total mass, of a particle, a container, or several particles. -/
theorem C75_mass (c : Manip.Cluster) (p1 p2 : Ptc) (ps : List Ptc) :
    mTot c = totalMass (members c) ∧ mTotV p1 p2 ps = totalMass (p1 :: p2 :: ps) := by
  refine ⟨mTot_eq c, ?_⟩
  rw [mTotV, foldr_sum]
  simp [totalMass]
  ring

/-- `COM_p` and `COM_v` are the point and the velocity about which the moments and the momenta vanish; no other point has this property. -/
theorem C75_centre (c : Manip.Cluster) (hm : totalMass (members c) ≠ 0) :
    ∃ X V, comP c = .ok X ∧ comV c = .ok V ∧ IsCentre (members c) X ∧ IsCentreVel (members c) V ∧
      (∀ Y, IsCentre (members c) Y → Y = X) ∧ (∀ W, IsCentreVel (members c) W → W = V) := by
  obtain ⟨X, h1, h2⟩ := comP_ok hm
  obtain ⟨V, h3, h4⟩ := comV_ok hm
  exact ⟨X, V, h1, h3, h2, h4, fun Y hY => centre_unique hm hY h2, fun W hW => centreVel_unique hm hW h4⟩

/-- Containers of vanishing total mass give NaN. -/
theorem C75_massless (l : List Ptc) (hm : totalMass l = 0) : comP (.many l) = .nan ∧ comV (.many l) = .nan := by
  rw [comP_many, comV_many, hm]
  simp [vdiv]

theorem comPV_eq (p1 p2 : Ptc) (ps : List Ptc) : comPV p1 p2 ps = comP (.many (p1 :: p2 :: ps)) := by
  rw [comP_many, comPV, foldr_sum, foldr_sum]
  congr 1
  · simp only [List.map_cons, List.sum_cons]; rw [add_comm, add_assoc]
  · simp only [totalMass, List.map_cons, List.sum_cons]; ring

theorem comVV_eq (p1 p2 : Ptc) (ps : List Ptc) : comVV p1 p2 ps = comV (.many (p1 :: p2 :: ps)) := by
  rw [comV_many, comVV, foldr_sum, foldr_sum]
  congr 1
  · simp only [List.map_cons, List.sum_cons]; rw [add_comm, add_assoc]
  · simp only [totalMass, List.map_cons, List.sum_cons]; ring

/-- The overloads for several particles do the same as those for a container. -/
theorem C75_several_particles (P V : V3 ℝ) (p1 p2 : Ptc) (ps : List Ptc) :
    comPV p1 p2 ps = comP (.many (p1 :: p2 :: ps)) ∧ comVV p1 p2 ps = comV (.many (p1 :: p2 :: ps)) ∧
    (movePosV P p1 p2 ps >>= fun r => Res.ok (Manip.Cluster.many (r.1 :: r.2.1 :: r.2.2))) = movePos P (.many (p1 :: p2 :: ps)) ∧
    (moveVelV V p1 p2 ps >>= fun r => Res.ok (Manip.Cluster.many (r.1 :: r.2.1 :: r.2.2))) = moveVel V (.many (p1 :: p2 :: ps)) ∧
    (moveV P V p1 p2 ps >>= fun r => Res.ok (Manip.Cluster.many (r.1 :: r.2.1 :: r.2.2))) = move P V (.many (p1 :: p2 :: ps)) ∧
    (moveToCOMV p1 p2 ps >>= fun r => Res.ok (Manip.Cluster.many (r.1 :: r.2.1 :: r.2.2))) = moveToCOM (.many (p1 :: p2 :: ps)) := by
  have key : ∀ P V, (moveV P V p1 p2 ps >>= fun r => Res.ok (Manip.Cluster.many (r.1 :: r.2.1 :: r.2.2))) =
      move P V (.many (p1 :: p2 :: ps)) := by
    intro P V
    unfold moveV move
    rw [comPV_eq, comVV_eq]
    cases comP (.many (p1 :: p2 :: ps)) <;> try rfl
    cases comV (.many (p1 :: p2 :: ps)) <;> rfl
  refine ⟨comPV_eq p1 p2 ps, comVV_eq p1 p2 ps, ?_, ?_, key P V, key 0 0⟩
  · unfold movePosV movePos
    rw [comPV_eq]
    cases comP (.many (p1 :: p2 :: ps)) <;> rfl
  · unfold moveVelV moveVel
    rw [comVV_eq]
    cases comV (.many (p1 :: p2 :: ps)) <;> rfl

/-- `move_particles` puts the centre of mass where asked, with the velocity asked for, by one displacement of all particles. -/
theorem C75_move (P V : V3 ℝ) (c : Manip.Cluster) (hm : totalMass (members c) ≠ 0) :
    ∃ c' a b, move P V c = .ok c' ∧ Displaced a b (members c) (members c') ∧ IsCentre (members c') P ∧ IsCentreVel (members c') V := by
  obtain ⟨X, h1, h2⟩ := comP_ok hm
  obtain ⟨W, h3, h4⟩ := comV_ok hm
  have hmv : ∃ c', move P V c = .ok c' ∧ Displaced (P - X) (V - W) (members c) (members c') := by
    unfold move
    rw [h1, h3]
    cases c with
    | one p => exact ⟨_, rfl, rfl⟩
    | many l => exact ⟨_, rfl, rfl⟩
  obtain ⟨c', hc, hd⟩ := hmv
  refine ⟨c', _, _, hc, hd, ?_, ?_⟩
  · have := Displaced.centre hd h2
    rwa [show X + (P - X) = P by abel] at this
  · have := Displaced.centreVel hd h4
    rwa [show W + (V - W) = V by abel] at this

/-- `move_particles_pos` and `move_particles_vel` do the same to the positions and to the velocities alone. -/
theorem C75_move_one (P V : V3 ℝ) (c : Manip.Cluster) (hm : totalMass (members c) ≠ 0) :
    (∃ c' a, movePos P c = .ok c' ∧ Displaced a 0 (members c) (members c') ∧ IsCentre (members c') P) ∧
    (∃ c' b, moveVel V c = .ok c' ∧ Displaced 0 b (members c) (members c') ∧ IsCentreVel (members c') V) := by
  obtain ⟨X, h1, h2⟩ := comP_ok hm
  obtain ⟨W, h3, h4⟩ := comV_ok hm
  constructor
  · have hmv : ∃ c', movePos P c = .ok c' ∧ Displaced (P - X) 0 (members c) (members c') := by
      unfold movePos
      rw [h1]
      cases c with
      | one p => exact ⟨_, rfl, by simp [Displaced, members]⟩
      | many l => exact ⟨_, rfl, by simp [Displaced, members]⟩
    obtain ⟨c', hc, hd⟩ := hmv
    refine ⟨c', _, hc, hd, ?_⟩
    have := Displaced.centre hd h2
    rwa [show X + (P - X) = P by abel] at this
  · have hmv : ∃ c', moveVel V c = .ok c' ∧ Displaced 0 (V - W) (members c) (members c') := by
      unfold moveVel
      rw [h3]
      cases c with
      | one p => exact ⟨_, rfl, by simp [Displaced, members]⟩
      | many l => exact ⟨_, rfl, by simp [Displaced, members]⟩
    obtain ⟨c', hc, hd⟩ := hmv
    refine ⟨c', _, hc, hd, ?_⟩
    have := Displaced.centreVel hd h4
    rwa [show W + (V - W) = V by abel] at this

/-- `move_to_COM_frame`: the centre of mass rests at the origin. -/
theorem C75_com_frame (c : Manip.Cluster) (hm : totalMass (members c) ≠ 0) :
    ∃ c' a b, moveToCOM c = .ok c' ∧ Displaced a b (members c) (members c') ∧ IsCentre (members c') 0 ∧ IsCentreVel (members c') 0 :=
  C75_move 0 0 c hm

/-- The functions of two groups give the elements of the relative orbit of their centres of mass. -/
theorem C75_relative_orbit (c1 c2 : Manip.Cluster) (X1 X2 V1 V2 : V3 ℝ) (hm1 : totalMass (members c1) ≠ 0) (hm2 : totalMass (members c2) ≠ 0)
    (hm : 0 < totalMass (members c1) + totalMass (members c2))
    (hX1 : IsCentre (members c1) X1) (hX2 : IsCentre (members c2) X2) (hV1 : IsCentreVel (members c1) V1) (hV2 : IsCentreVel (members c2) V2)
    (hne : X1 ≠ X2) (hE : energy (totalMass (members c1) + totalMass (members c2)) (X1 - X2) (V1 - V2) ≠ 0) :
    let u := totalMass (members c1) + totalMass (members c2)
    let a := -u / (2 * energy u (X1 - X2) (V1 - V2))
    let e := len (eccVector u (X1 - X2) (V1 - V2))
    aE c1 c2 = .ok (a, e) ∧ eccentricity c1 c2 = .ok e ∧ semiMajorAxis c1 c2 = .ok a ∧
      periodC c1 c2 = period (totalMass (members c1)) (totalMass (members c2)) a := by
  obtain ⟨Y1, h1, g1⟩ := comP_ok hm1
  obtain ⟨Y2, h2, g2⟩ := comP_ok hm2
  obtain ⟨W1, h3, g3⟩ := comV_ok hm1
  obtain ⟨W2, h4, g4⟩ := comV_ok hm2
  obtain rfl := centre_unique hm1 hX1 g1
  obtain rfl := centre_unique hm2 hX2 g2
  obtain rfl := centreVel_unique hm1 hV1 g3
  obtain rfl := centreVel_unique hm2 hV2 g4
  have hrel : relative c1 c2 = .ok (X1 - X2, V1 - V2) := by
    unfold relative
    simp only [h1, h2, h3, h4, Sys.Res.ok_bind]
  obtain ⟨e1, -, e3, e4, -⟩ := C43_single_elements _ _ _ _ hm (sub_ne_zero.2 hne) hE
  refine ⟨?_, ?_, ?_, ?_⟩
  · unfold aE
    simp only [hrel, Sys.Res.ok_bind, G, one_mul, mTot_eq, e4]
  · unfold eccentricity
    simp only [hrel, Sys.Res.ok_bind, G, one_mul, mTot_eq, e1]
  · unfold semiMajorAxis
    simp only [hrel, Sys.Res.ok_bind, G, one_mul, mTot_eq, e3]
  · unfold periodC semiMajorAxis
    simp only [hrel, Sys.Res.ok_bind, G, one_mul, mTot_eq, e3]

/-- Particles placed on an orbit around a body at rest at the origin: `calc_a_e` of them and that body returns the semi-major axis and
the eccentricity of the orbit. -/
theorem C75_orbit (k : Kepler) (p1 p2 q : Ptc) (ps : List Ptc) (hk : 0 < k.p) (he : 0 ≤ k.e) (he1 : k.e ≠ 1) (hq : 0 < 1 + k.e * cos k.nu)
    (hM : totalMass (p1 :: p2 :: ps) ≠ 0) (hm1 : totalMass (p1 :: p2 :: ps) = k.m2) (hqm : q.mass = k.m1) (hq0 : q.mass ≠ 0) (hm : 0 < k.m1 + k.m2)
    (hpos : q.pos = 0) (hvel : q.vel = 0) :
    ∃ r, moveOrbitV k p1 p2 ps = .ok r ∧ aE (.many (r.1 :: r.2.1 :: r.2.2)) (.one q) = .ok (k.p / (1 - k.e ^ 2), k.e) := by
  obtain ⟨P, V, hc, hlen, -, -, hen, hecc⟩ := C42_invariants k hm hk hq
  have hv := (C75_several_particles P V p1 p2 ps).2.2.2.2.1
  obtain ⟨c', a, b, hmv, hd, hP, hV⟩ := C75_move P V (.many (p1 :: p2 :: ps)) hM
  rw [hmv] at hv
  obtain ⟨r, hr, hrc⟩ := Sys.Res.bind_eq_ok.1 hv
  cases hrc
  refine ⟨r, ?_, ?_⟩
  · unfold moveOrbitV
    simp only [hc, Sys.Res.ok_bind, hr]
  · have hmass : totalMass (members (.many (r.1 :: r.2.1 :: r.2.2))) = k.m2 := by rw [Displaced.mass hd]; exact hm1
    have hmq : totalMass (members (.one q)) = k.m1 := by simp [totalMass, members, hqm]
    have hcq : IsCentre (members (.one q)) 0 := by simp [IsCentre, members, hpos]
    have hvq : IsCentreVel (members (.one q)) 0 := by simp [IsCentreVel, members, hvel]
    have hsum : totalMass (members (.many (r.1 :: r.2.1 :: r.2.2))) + totalMass (members (.one q)) = k.m1 + k.m2 := by rw [hmass, hmq]; ring
    have hne : P ≠ 0 := by
      intro h
      rw [h, len_eq_zero.2 rfl] at hlen
      have : 0 < k.p / (1 + k.e * cos k.nu) := by positivity
      linarith
    have hw : 1 - k.e ^ 2 ≠ 0 := by
      intro h
      have : (1 - k.e) * (1 + k.e) = 0 := by linarith
      rcases mul_eq_zero.1 this with h | h
      · exact he1 (by linarith)
      · linarith
    have hE : energy (k.m1 + k.m2) P V ≠ 0 := by
      rw [hen]
      simp [hm.ne', hw, hk.ne']
    have := (C75_relative_orbit (.many (r.1 :: r.2.1 :: r.2.2)) (.one q) P 0 V 0 (by rw [hmass, ← hm1]; exact hM) (by rw [hmq, ← hqm]; exact hq0)
      (by rw [hsum]; exact hm) hP hcq hV hvq hne (by rw [hsum, sub_zero, sub_zero]; exact hE)).1
    rw [this]
    simp only [hsum, sub_zero, hecc, hen, abs_of_nonneg he]
    congr 2
    field_simp

/-- A single particle placed on an orbit is at the position and has the velocity of the orbit. -/
theorem C75_orbit_one (k : Kepler) (p : Ptc) (hp : p.mass ≠ 0) (P V : V3 ℝ) (h : orbitToCoord k = .ok (P, V)) :
    moveOrbit k p = .ok (.one { p with pos := P, vel := V }) := by
  obtain ⟨c', a, b, hm, hd, hP, hV⟩ := C75_move P V (.one p) (by simpa [totalMass, members] using hp)
  have e : moveOrbit k p = .ok c' := by
    unfold moveOrbit
    simp only [h, Sys.Res.ok_bind, hm]
  rw [e]
  have hc : c' = .one { p with pos := p.pos + a, vel := p.vel + b } := by
    obtain ⟨X, h1, h2⟩ := comP_ok (c := .one p) (by simpa [totalMass, members] using hp)
    obtain ⟨W, h3, h4⟩ := comV_ok (c := .one p) (by simpa [totalMass, members] using hp)
    unfold move at hm
    rw [h1, h3] at hm
    simp only [Sys.Res.ok_bind] at hm
    cases hm
    simp only [Displaced, members, List.map_cons, List.map_nil, List.cons.injEq, and_true] at hd
    rw [hd]
  subst hc
  simp only [IsCentre, IsCentreVel, members, List.map_cons, List.map_nil, List.sum_cons, List.sum_nil, add_zero] at hP hV
  have c1 := sub_eq_zero.1 ((smul_eq_zero_iff_right hp).1 hP)
  have c2 := sub_eq_zero.1 ((smul_eq_zero_iff_right hp).1 hV)
  rw [c1, c2]

/-- A pair of unequal masses satisfies the hypotheses. -/
example : ∃ p1 p2 q : Ptc, ∃ k : Kepler, totalMass [p1, p2] ≠ 0 ∧ totalMass [p1, p2] = k.m2 ∧ q.mass = k.m1 ∧ 0 < k.m1 + k.m2 ∧ k.e = 1 / 2 ∧
    0 < 1 + k.e * cos k.nu :=
  ⟨⟨1, 0, 0, 0⟩, ⟨2, ⟨1, 0, 0⟩, 0, 0⟩, ⟨5, 0, 0, 0⟩, { m1 := 5, m2 := 3, p := 1, e := 1 / 2, i := 0, Omega := 0, omega := 0, nu := 0, type := .ellipse },
    by norm_num [totalMass], by norm_num [totalMass], rfl, by norm_num, rfl, by norm_num⟩

/-! ### C76 -/

/-- `E_k`, `E_p` and `E_tot` are the kinetic, potential and total energy. -/
theorem C76_energies (c : Manip.Cluster) (ha : Apart (members c)) :
    eK c = kineticIn 0 (members c) ∧ eP c = .ok (potential (members c)) ∧ eTot c = .ok (kineticIn 0 (members c) + potential (members c)) := by
  refine ⟨eK_eq c, eP_eq c ha, ?_⟩
  unfold eTot
  simp only [eP_eq c ha, eK_eq, Sys.Res.ok_bind]

/-- `E_inner` is the energy in the frame of the centre of mass, `E_k_COM` the kinetic energy of the centre of mass. -/
theorem C76_inner (c : Manip.Cluster) (V : V3 ℝ) (hm : totalMass (members c) ≠ 0) (ha : Apart (members c)) (hV : IsCentreVel (members c) V) :
    eInner c = .ok (kineticIn V (members c) + potential (members c)) ∧ eKCOM c = .ok (1 / 2 * totalMass (members c) * len V ^ 2) := by
  obtain ⟨W, h1, h2⟩ := comV_ok hm
  obtain rfl := centreVel_unique hm hV h2
  have hk : eKCOM c = .ok (1 / 2 * totalMass (members c) * len V ^ 2) := by
    unfold eKCOM
    simp only [h1, Sys.Res.ok_bind, mTot_eq, dot_self_eq]
    norm_num
  refine ⟨?_, hk⟩
  unfold eInner
  simp only [(C76_energies c ha).2.2, hk, Sys.Res.ok_bind]
  congr 1
  have := koenig hV 0
  rw [sub_zero] at this
  rw [this]
  ring

/-- `E_inner` does not change when the group is moved, whatever its new place and velocity. -/
theorem C76_inner_invariant (P V : V3 ℝ) (c c' : Manip.Cluster) (hm : totalMass (members c) ≠ 0) (ha : Apart (members c)) (h : move P V c = .ok c') :
    eInner c' = eInner c := by
  obtain ⟨d, a, b, hmv, hd, -, -⟩ := C75_move P V c hm
  rw [h] at hmv
  cases hmv
  obtain ⟨W, h1, h2⟩ := comV_ok hm
  rw [(C76_inner c W hm ha h2).1, (C76_inner c' (W + b) (by rw [Displaced.mass hd]; exact hm) (Displaced.apart hd ha) (Displaced.centreVel hd h2)).1, Displaced.kinetic hd,
    potential_displaced hd]

/-- The overloads for several particles agree with those for a container. -/
theorem C76_several_particles (p1 p2 : Ptc) (ps : List Ptc) :
    eKV p1 p2 ps = eK (.many (p1 :: p2 :: ps)) ∧ ePV p1 p2 ps = eP (.many (p1 :: p2 :: ps)) ∧ eKCOMV p1 p2 ps = eKCOM (.many (p1 :: p2 :: ps)) ∧
    eTotV p1 p2 ps = eTot (.many (p1 :: p2 :: ps)) ∧ eInnerV p1 p2 ps = eInner (.many (p1 :: p2 :: ps)) ∧
    clusterSizeV p1 p2 ps = clusterSize (.many (p1 :: p2 :: ps)) := by
  have hk : eKV p1 p2 ps = eK (.many (p1 :: p2 :: ps)) := by
    simp only [eKV, eK, foldr_sum, foldl_sum, List.map_cons, List.sum_cons]
    ring
  have hm : mTotV p1 p2 ps = mTot (.many (p1 :: p2 :: ps)) := by
    rw [(C75_mass (.one p1) p1 p2 ps).2, mTot_eq]; rfl
  have hc : eKCOMV p1 p2 ps = eKCOM (.many (p1 :: p2 :: ps)) := by
    rw [eKCOMV, eKCOM, comVV_eq, hm]
  have ht : eTotV p1 p2 ps = eTot (.many (p1 :: p2 :: ps)) := by
    rw [eTotV, eTot, hk, ePV]
  exact ⟨hk, rfl, hc, ht, by rw [eInnerV, eInner, ht, hc], rfl⟩

/-- `cluster_size` is the largest distance between two members of a group of at least two, 0 for none, and the radius of a single particle. -/
theorem C76_size (c : Manip.Cluster) :
    (∀ p q, [p, q].Sublist (members c) → len (p.pos - q.pos) ≤ clusterSize c) ∧
    (2 ≤ (members c).length → ∃ p q, [p, q].Sublist (members c) ∧ clusterSize c = len (p.pos - q.pos)) ∧
    (∀ p, members c = [p] → clusterSize c = p.radius) ∧ (members c = [] → clusterSize c = 0) := by
  cases c with
  | one p =>
    refine ⟨?_, ?_, ?_, ?_⟩
    · intro x y h
      have := h.length_le
      simp [members] at this
    · intro h
      simp [members] at h
    · intro x h
      simp only [members, List.cons.injEq, and_true] at h
      rw [← h]; rfl
    · intro h; cases h
  | many l =>
    match l with
    | [] =>
      refine ⟨fun p q h => ?_, fun h => ?_, fun p h => ?_, fun _ => rfl⟩
      · simp [members] at h
      · simp [members] at h
      · cases h
    | [p] =>
      refine ⟨fun x y h => ?_, fun h => by simp [members] at h, fun x h => ?_, fun h => by cases h⟩
      · have := h.length_le
        simp [members] at this
      · simp only [members, List.cons.injEq, and_true] at h
        rw [← h]; rfl
    | p :: q :: l =>
      obtain ⟨a, b, c⟩ := sizeLoop_spec (p :: q :: l) 0
      refine ⟨b, fun _ => ?_, fun x h => by simp [members] at h, fun h => by cases h⟩
      rcases c with c | c
      · refine ⟨p, q, by simp [members], ?_⟩
        have h1 := b p q (by simp)
        have h2 := len_nonneg (p.pos - q.pos)
        show sizeLoop (p :: q :: l) 0 = _
        rw [c] at h1 ⊢
        linarith
      · exact c

/-- Three particles, apart, of non-zero mass. -/
example : ∃ l : List Ptc, l.length = 3 ∧ totalMass l ≠ 0 ∧ Apart l := by
  refine ⟨[⟨1, 0, 0, 0⟩, ⟨2, ⟨1, 0, 0⟩, 0, 0⟩, ⟨3, ⟨0, 1, 0⟩, 0, 0⟩], rfl, by norm_num [totalMass], ?_⟩
  simp [Apart, V3.ext_iff]

end SpaceHub.Props
