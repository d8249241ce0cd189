import Verif.Proof.Orbit

/-
C42: from an orbit to coordinates.  C43: from coordinates to the orbit.  C70: there and back.
-/

set_option autoImplicit false

namespace SpaceHub.Props
open SpaceHub Orbit Spec.Orbit Real

/-! ### C42 -/

/-- `euler_rotate` keeps scalar products (hence lengths and angles) and vector products: it is a rotation. -/
theorem C42_rotation (phi theta psi : ℝ) (v w : V3 ℝ) :
    (eulerRotate v phi theta psi).dot (eulerRotate w phi theta psi) = v.dot w ∧
    (eulerRotate v phi theta psi).cross (eulerRotate w phi theta psi) = eulerRotate (v.cross w) phi theta psi := by
  have fr := frame theta phi psi
  simp only [eulerRotate_eq, fr.dot, fr.cross]
  constructor
  · simp [V3.dot]
  · simp [V3.cross]

/-- It turns the z axis into the normal of the plane with inclination `theta` and node `phi`, and the x axis into the direction at angle
`psi` from the node in that plane. -/
theorem C42_rotation_axes (phi theta psi : ℝ) :
    eulerRotate ⟨0, 0, 1⟩ phi theta psi = normal theta phi ∧ eulerRotate ⟨1, 0, 0⟩ phi theta psi = peri theta phi psi := by
  simp [eulerRotate_eq]

/-- For every orbit with positive mass and semi-latus rectum, at every anomaly short of the asymptotes, `orbit_to_coord` returns a state
with the distance, angular momentum (size and direction) and energy of the orbit. -/
theorem C42_invariants (k : Kepler) (hm : 0 < k.m1 + k.m2) (hp : 0 < k.p) (hq : 0 < 1 + k.e * cos k.nu) :
    ∃ pos vel, orbitToCoord k = .ok (pos, vel) ∧
      len pos = k.p / (1 + k.e * cos k.nu) ∧
      pos.cross vel = sqrt ((k.m1 + k.m2) * k.p) • normal k.i k.Omega ∧
      len (pos.cross vel) ^ 2 = (k.m1 + k.m2) * k.p ∧
      energy (k.m1 + k.m2) pos vel = -((k.m1 + k.m2) * (1 - k.e ^ 2) / (2 * k.p)) ∧
      len (eccVector (k.m1 + k.m2) pos vel) = |k.e| := by
  refine ⟨_, _, orbitToCoord_ok k hp hm hq.ne', ?_⟩
  rw [← position_add_pi, ← velocity_add_pi]
  have hc := position_cross_velocity k.i k.Omega (k.omega + π) k.nu hp hm hq.ne'
  refine ⟨position_len _ _ _ _ hp hq, hc, ?_, state_energy _ _ _ _ hp hm hq, ?_⟩
  · rw [hc, len_sq]
    have h1 := (frame k.i k.Omega 0).ww
    have h2 := sq_sqrt (show 0 ≤ (k.m1 + k.m2) * k.p by positivity)
    simp only [V3.dot, V3.smul_x, V3.smul_y, V3.smul_z] at *
    linear_combination sqrt ((k.m1 + k.m2) * k.p) ^ 2 * h1 + h2
  · rw [state_ecc _ _ _ _ hp hm hq]
    apply len_eq_of (abs_nonneg _)
    have h1 := (frame k.i k.Omega (k.omega + π)).pp
    simp only [V3.dot, V3.smul_x, V3.smul_y, V3.smul_z, sq_abs] at *
    linear_combination k.e ^ 2 * h1

/-- An inclined, eccentric orbit to which the theorem applies. -/
example : ∃ k : Kepler, 0 < k.m1 + k.m2 ∧ 0 < k.p ∧ 0 < 1 + k.e * cos k.nu ∧ k.e = 1 / 2 ∧ k.i = π / 4 :=
  ⟨{ m1 := 1, m2 := 2, p := 3, e := 1 / 2, i := π / 4, Omega := 1, omega := 2, nu := 3, type := .ellipse },
    by norm_num, by norm_num, by have := neg_one_le_cos (3:ℝ); simp only; linarith, rfl, rfl⟩

/-! ### C43 -/

/-- For every state of positive angular momentum out of the reference plane and off the circular orbit, the overload that returns the orbit
returns the conventional elements of that state: the position and velocity with these elements, by the textbook formulas, are the given
ones, and the angles are in their ranges. -/
theorem C43_elements (eps m1 m2 : ℝ) (dr dv : V3 ℝ) (h0 : 0 < eps) (hm : 0 < m1 + m2)
    (hinc : (dr.cross dv).x ≠ 0 ∨ (dr.cross dv).y ≠ 0) (he : eccVector (m1 + m2) dr dv ≠ 0) :
    ∃ k, coordToOrbit eps m1 m2 dr dv = .ok k ∧ k.m1 = m1 ∧ k.m2 = m2 ∧
      dr = position k.p k.e k.i k.Omega k.omega k.nu ∧ dv = velocity (m1 + m2) k.p k.e k.i k.Omega k.omega k.nu ∧
      0 < k.p ∧ 0 < k.e ∧ 0 < 1 + k.e * cos k.nu ∧
      0 < k.i ∧ k.i < π ∧ |k.Omega| ≤ π ∧ |k.omega| ≤ π ∧ |k.nu| ≤ π ∧
      (k.type = .ellipse ↔ k.e < 1) ∧ (k.type = .parabola ↔ k.e = 1) ∧ (k.type = .hyperbola ↔ 1 < k.e) := by
  have hL : dr.cross dv ≠ 0 := by
    intro h
    rw [h] at hinc
    simp at hinc
  have hN : len (nodeVec (dr.cross dv)) ≠ 0 := by
    intro h
    obtain ⟨a, b⟩ := planar_xy h
    rcases hinc with h | h
    · exact h a
    · exact h b
  have hep := dot_self_pos he
  obtain ⟨ω, ν, ha, hE, hd, hω, hν⟩ := angles_generic hm hL hN hep.ne'
  obtain ⟨s1, s2, s3⟩ := state_of_frame hm hL (normal_incl hL hN) hE hd
  have hl := dot_self_pos hL
  have hsin : 0 < sin (incl (dr.cross dv)) := by
    rw [(incl_spec hL).2.2.2]
    have : 0 < len (nodeVec (dr.cross dv)) := lt_of_le_of_ne (len_nonneg _) (Ne.symm hN)
    positivity
  refine ⟨_, coordToOrbitWith_ok _ h0 hm hL (.inl rfl) ha, rfl, rfl, s1, s2, ?_, hep, s3, ?_, ?_, sign_myacos_le _ _, hω, hν,
    classify_spec h0 (len_nonneg _)⟩
  · change 0 < len (dr.cross dv) ^ 2 / (m1 + m2)
    positivity
  · refine lt_of_le_of_ne (arccos_nonneg _) fun h => ?_
    exact absurd hsin (by rw [show incl (dr.cross dv) = 0 from h.symm]; simp)
  · refine lt_of_le_of_ne (arccos_le_pi _) fun h => ?_
    exact absurd hsin (by rw [show incl (dr.cross dv) = π from h]; simp)

/-- A state to which it applies. -/
example : ∃ dr dv : V3 ℝ, (dr.cross dv).x ≠ 0 ∧ eccVector 1 dr dv ≠ 0 := by
  refine ⟨⟨0, 1, 0⟩, ⟨0, 0, 2⟩, by norm_num [V3.cross], fun h => ?_⟩
  have := congrArg V3.y h
  norm_num [eccVector, V3.cross, len] at this

/-- For every state of non-zero angular momentum, in any plane and on any orbit, the semi-latus rectum, eccentricity, inclination and kind
of orbit are right. -/
theorem C43_shape (eps m1 m2 : ℝ) (dr dv : V3 ℝ) (h0 : 0 < eps) (hm : 0 < m1 + m2) (hL : dr.cross dv ≠ 0) :
    ∃ k, coordToOrbit eps m1 m2 dr dv = .ok k ∧ k.m1 = m1 ∧ k.m2 = m2 ∧
      k.p = len (dr.cross dv) ^ 2 / (m1 + m2) ∧ k.e = len (eccVector (m1 + m2) dr dv) ∧
      k.e ^ 2 = 1 + 2 * energy (m1 + m2) dr dv * k.p / (m1 + m2) ∧
      0 ≤ k.i ∧ k.i ≤ π ∧ len (dr.cross dv) * cos k.i = (dr.cross dv).z ∧
      (k.type = .ellipse ↔ k.e < 1) ∧ (k.type = .parabola ↔ k.e = 1) ∧ (k.type = .hyperbola ↔ 1 < k.e) := by
  obtain ⟨Ω, ω, ν, ha⟩ := angles_ok hm hL
  have hl := dot_self_pos hL
  refine ⟨_, coordToOrbitWith_ok _ h0 hm hL (.inl rfl) ha, rfl, rfl, rfl, rfl, ?_, arccos_nonneg _, arccos_le_pi _, ?_,
    classify_spec h0 (len_nonneg _)⟩
  · simp only [elements]
    rw [ecc_sq hm.ne' (dr_ne_zero hL)]
    field_simp
  · simp only [elements]
    rw [(incl_spec hL).2.2.1]
    field_simp

/-- Orbit to coordinates and back, for every orbit with an inclination strictly between 0 and π and a non-zero eccentricity: the shape,
inclination, node and true anomaly come back (angles up to full turns) - and the argument of periapsis comes back turned by π, see C70. -/
theorem C43_recovers (eps : ℝ) (k : Kepler) (h0 : 0 < eps) (hm : 0 < k.m1 + k.m2) (hp : 0 < k.p) (he : 0 < k.e)
    (hi : 0 < k.i ∧ k.i < π) (hq : 0 < 1 + k.e * cos k.nu) :
    ∃ pos vel k', orbitToCoord k = .ok (pos, vel) ∧ coordToOrbit eps k.m1 k.m2 pos vel = .ok k' ∧
      k'.p = k.p ∧ k'.e = k.e ∧ k'.i = k.i ∧ SameAngle k'.Omega k.Omega ∧ SameAngle k'.nu k.nu ∧ SameAngle k'.omega (k.omega + π) := by
  have ho := orbitToCoord_ok k hp hm hq.ne'
  rw [← position_add_pi, ← velocity_add_pi] at ho
  have hL := position_cross_velocity k.i k.Omega (k.omega + π) k.nu hp hm hq.ne'
  have hE := state_ecc k.i k.Omega (k.omega + π) k.nu hp hm hq
  have hsi : 0 < sin k.i := sin_pos_of_pos_of_lt_pi hi.1 hi.2
  have hs : 0 < sqrt ((k.m1 + k.m2) * k.p) := sqrt_pos.2 (by positivity)
  have hinc : ((position k.p k.e k.i k.Omega (k.omega + π) k.nu).cross (velocity (k.m1 + k.m2) k.p k.e k.i k.Omega (k.omega + π) k.nu)).x ≠ 0 ∨
      ((position k.p k.e k.i k.Omega (k.omega + π) k.nu).cross (velocity (k.m1 + k.m2) k.p k.e k.i k.Omega (k.omega + π) k.nu)).y ≠ 0 := by
    rw [hL]
    by_contra hcon
    push Not at hcon
    obtain ⟨hx, hy⟩ := hcon
    simp [normal, hsi.ne', hs.ne'] at hx hy
    have := sin_sq_add_cos_sq k.Omega
    rw [hx, hy] at this
    norm_num at this
  have hen : eccVector (k.m1 + k.m2) (position k.p k.e k.i k.Omega (k.omega + π) k.nu)
      (velocity (k.m1 + k.m2) k.p k.e k.i k.Omega (k.omega + π) k.nu) ≠ 0 := by
    rw [hE]
    intro h
    have h1 := (frame k.i k.Omega (k.omega + π)).pp
    have h2 : peri k.i k.Omega (k.omega + π) = 0 := by
      rcases smul_eq_zero.1 h with h | h
      · exact absurd h he.ne'
      · exact h
    rw [h2] at h1
    simp [V3.dot] at h1
  obtain ⟨k', hk, -, -, e1, e2, e3, e4, e5, e6, e7, -, -, -, -⟩ := C43_elements eps k.m1 k.m2 _ _ h0 hm hinc hen
  obtain ⟨u1, u2, u3, u4, u5, u6⟩ := elements_unique hm e3 hp e4 he ⟨e6, e7⟩ hi e5 hq e1.symm e2.symm
  exact ⟨_, _, k', ho, hk, u1, u2, u3, u4, u6, u5⟩

/-- ... and for every orbit whatever (circular or planar ones included) the shape comes back. -/
theorem C43_recovers_shape (eps : ℝ) (k : Kepler) (h0 : 0 < eps) (hm : 0 < k.m1 + k.m2) (hp : 0 < k.p) (he : 0 ≤ k.e)
    (hi : 0 ≤ k.i ∧ k.i ≤ π) (hq : 0 < 1 + k.e * cos k.nu) :
    ∃ pos vel k', orbitToCoord k = .ok (pos, vel) ∧ coordToOrbit eps k.m1 k.m2 pos vel = .ok k' ∧
      k'.p = k.p ∧ k'.e = k.e ∧ k'.i = k.i := by
  obtain ⟨pos, vel, ho, -, hL, hl, -, hE⟩ := C42_invariants k hm hp hq
  have hs : 0 < sqrt ((k.m1 + k.m2) * k.p) := sqrt_pos.2 (by positivity)
  have hne : pos.cross vel ≠ 0 := by
    intro h
    rw [h, len_eq_zero.2 rfl] at hl
    have : 0 < (k.m1 + k.m2) * k.p := by positivity
    rw [zero_pow two_ne_zero] at hl
    linarith
  have hlen : len (pos.cross vel) = sqrt ((k.m1 + k.m2) * k.p) := by
    rw [← hl, sqrt_sq (len_nonneg _)]
  obtain ⟨k', hk, -, -, e1, e2, -, e3, e4, e5, -⟩ := C43_shape eps k.m1 k.m2 pos vel h0 hm hne
  refine ⟨pos, vel, k', ho, hk, ?_, ?_, ?_⟩
  · rw [e1, hl]; field_simp
  · rw [e2, hE, abs_of_nonneg he]
  · apply injOn_cos ⟨e3, e4⟩ hi
    rw [hlen] at e5
    apply mul_left_cancel₀ hs.ne'
    rw [e5, hL]
    simp [normal, mul_comm]

/-- The two overloads agree on every orbit but the parabola. -/
theorem C43_overloads_agree (eps m1 m2 : ℝ) (dr dv : V3 ℝ) (h0 : 0 < eps) (hm : 0 < m1 + m2) (hL : dr.cross dv ≠ 0)
    (he : len (eccVector (m1 + m2) dr dv) ≠ 1) : coordToOrbitVoid eps m1 m2 dr dv = coordToOrbit eps m1 m2 dr dv := by
  obtain ⟨Ω, ω, ν, ha⟩ := angles_ok hm hL
  rw [coordToOrbit, coordToOrbitVoid, coordToOrbitWith_ok _ h0 hm hL (.inr he) ha, coordToOrbitWith_ok _ h0 hm hL (.inr he) ha]

/-- For a parabola the overload with the output argument divides by zero (its test is inverted), while the other is right. -/
theorem C43_overload_parabola (eps m1 m2 : ℝ) (dr dv : V3 ℝ) (h0 : 0 < eps) (hm : 0 < m1 + m2) (hL : dr.cross dv ≠ 0)
    (he : len (eccVector (m1 + m2) dr dv) = 1) :
    coordToOrbitVoid eps m1 m2 dr dv = .nan ∧ ∃ k, coordToOrbit eps m1 m2 dr dv = .ok k := by
  constructor
  · rw [coordToOrbitVoid, coordToOrbitWith_eq _ hm hL, (classify_parabola h0 (len_nonneg _)).2 he, if_pos (by rfl), p_parabola hm hL he]
    rfl
  · obtain ⟨k, hk, -⟩ := C43_shape eps m1 m2 dr dv h0 hm hL
    exact ⟨k, hk⟩

/-- A parabola. -/
example : ∃ dr dv : V3 ℝ, dr.cross dv ≠ 0 ∧ len (eccVector 2 dr dv) = 1 := by
  refine ⟨⟨1, 0, 0⟩, ⟨0, 2, 0⟩, fun h => ?_, ?_⟩
  · have := congrArg V3.z h
    norm_num [V3.cross] at this
  · apply len_eq_of (by norm_num)
    norm_num [eccVector, V3.cross, len, V3.dot]

/-- The functions for single elements give the same values: semi-major axis `-u / 2E`, eccentricity, Runge-Lenz vector and reduced angular
momentum. -/
theorem C43_single_elements (m1 m2 : ℝ) (dr dv : V3 ℝ) (hm : 0 < m1 + m2) (hr : dr ≠ 0) (hE : energy (m1 + m2) dr dv ≠ 0) :
    calcEccentricity (m1 + m2) dr dv = .ok (len (eccVector (m1 + m2) dr dv)) ∧
    calcRungeLenz (m1 + m2) dr dv = .ok (eccVector (m1 + m2) dr dv) ∧
    calcSemiMajorAxis (m1 + m2) dr dv = .ok (-(m1 + m2) / (2 * energy (m1 + m2) dr dv)) ∧
    calcAE (m1 + m2) dr dv = .ok (-(m1 + m2) / (2 * energy (m1 + m2) dr dv), len (eccVector (m1 + m2) dr dv)) ∧
    calcARL (m1 + m2) dr dv = .ok (-(m1 + m2) / (2 * energy (m1 + m2) dr dv), eccVector (m1 + m2) dr dv) ∧
    calcAngularMomentum m1 m2 dr dv = .ok ((m1 * m2 / (m1 + m2)) • dr.cross dv) ∧
    calcAEL m1 m2 dr dv = .ok (-(m1 + m2) / (2 * energy (m1 + m2) dr dv), eccVector (m1 + m2) dr dv, (m1 * m2 / (m1 + m2)) • dr.cross dv) := by
  have hl := dot_self_pos hr
  have hn : norm dr ≠ 0 := by rw [norm_eq_len]; exact hl.ne'
  have hcode := ecc_code (dv := dv) hm.ne' hr
  have hv2 : norm dv * norm dv = dv.norm2 := by
    rw [norm_eq_len, ← pow_two, len_sq]; rfl
  have hden : dv.norm2 - 2 * (m1 + m2) / norm dr = 2 * energy (m1 + m2) dr dv := by
    rw [norm_eq_len, energy, len_sq]
    simp only [V3.norm2, V3.dot]
    field_simp
  have hden' : norm dr * dv.norm2 - 2 * (m1 + m2) = 2 * energy (m1 + m2) dr dv * len dr := by
    rw [← hden, norm_eq_len]; field_simp
  have hr1 : (dv.norm2 - (m1 + m2) / norm dr) = dv.norm2 - (m1 + m2) * (1 / norm dr) := by ring
  have h2E : 2 * energy (m1 + m2) dr dv ≠ 0 := by positivity
  have hRL : calcARL (m1 + m2) dr dv = .ok (-(m1 + m2) / (2 * energy (m1 + m2) dr dv), eccVector (m1 + m2) dr dv) := by
    unfold calcARL
    simp only [fdiv, vdiv, hn, hm.ne', if_neg, not_false_eq_true, Sys.Res.ok_bind, hv2, hden, h2E]
    rw [hr1, hcode]
  refine ⟨?_, ?_, ?_, ?_, hRL, ?_, ?_⟩
  · unfold calcEccentricity
    simp only [fdiv, hn, hm.ne', if_neg, not_false_eq_true, Sys.Res.ok_bind]
    congr 1
    rw [← hcode, norm_eq_len]
    symm
    apply len_eq_of (div_nonneg (len_nonneg _) hm.le)
    rw [div_pow, len_sq]
    simp only [V3.dot, V3.div_x, V3.div_y, V3.div_z]
    field_simp
  · unfold calcRungeLenz
    simp only [fdiv, vdiv, hn, hm.ne', if_neg, not_false_eq_true, Sys.Res.ok_bind]
    rw [hcode]
  · unfold calcSemiMajorAxis
    simp only
    rw [hden', fdiv, if_neg (by positivity), norm_eq_len]
    congr 1
    field_simp
  · unfold calcAE
    simp only [fdiv, vdiv, hn, hm.ne', if_neg, not_false_eq_true, Sys.Res.ok_bind, hv2, hden, h2E]
    rw [hr1, hcode, norm_eq_len]
  · unfold calcAngularMomentum
    simp only [fdiv, hm.ne', if_neg, not_false_eq_true, Sys.Res.ok_bind]
  · unfold calcAEL
    simp only [G, mul_one]
    rw [hRL]
    simp only [fdiv, hm.ne', if_neg, not_false_eq_true, Sys.Res.ok_bind]

/-! ### C70: coordinates to orbit and back

False of the code.  The orbit found for a state is turned back into: the opposite state (inclined eccentric orbits); the state turned by the
angle `omega` in the plane (planar eccentric orbits, whose longitude of periapsis enters twice); the state a quarter turn later (inclined
circular orbits); the opposite or a mirrored state (planar circular orbits). -/

/-- The direction of periapsis of the coordinates `orbit_to_coord` returns is opposite to the one the argument of periapsis says. -/
theorem C70_periapsis_reversed (k : Kepler) (hm : 0 < k.m1 + k.m2) (hp : 0 < k.p) (hq : 0 < 1 + k.e * cos k.nu) :
    ∃ pos vel, orbitToCoord k = .ok (pos, vel) ∧ eccVector (k.m1 + k.m2) pos vel = (-k.e) • peri k.i k.Omega k.omega ∧
      pos = -position k.p k.e k.i k.Omega k.omega k.nu ∧ vel = -velocity (k.m1 + k.m2) k.p k.e k.i k.Omega k.omega k.nu := by
  refine ⟨_, _, orbitToCoord_ok k hp hm hq.ne', ?_, rfl, rfl⟩
  rw [← position_add_pi, ← velocity_add_pi, state_ecc _ _ _ _ hp hm hq, peri_add_pi]
  simp

/-- What an orbit found by `coord_to_orbit` is turned back into. -/
theorem back {eps m1 m2 : ℝ} {dr dv : V3 ℝ} (hm : 0 < m1 + m2) (hL : dr.cross dv ≠ 0) (i Ω ω ν : ℝ)
    (hq : 1 + len (eccVector (m1 + m2) dr dv) * cos ν ≠ 0) :
    orbitToCoord (elements eps m1 m2 dr dv i Ω ω ν) =
      .ok (-position (len (dr.cross dv) ^ 2 / (m1 + m2)) (len (eccVector (m1 + m2) dr dv)) i Ω ω ν,
        -velocity (m1 + m2) (len (dr.cross dv) ^ 2 / (m1 + m2)) (len (eccVector (m1 + m2) dr dv)) i Ω ω ν) := by
  have hl := dot_self_pos hL
  exact orbitToCoord_ok (elements eps m1 m2 dr dv i Ω ω ν) (show 0 < len (dr.cross dv) ^ 2 / (m1 + m2) by positivity) hm hq

/-- Inclined eccentric orbit: position and velocity come back with the opposite signs. -/
theorem C70_inclined_eccentric_negated (eps m1 m2 : ℝ) (dr dv : V3 ℝ) (h0 : 0 < eps) (hm : 0 < m1 + m2)
    (hinc : (dr.cross dv).x ≠ 0 ∨ (dr.cross dv).y ≠ 0) (he : eccVector (m1 + m2) dr dv ≠ 0) :
    ∃ k, coordToOrbit eps m1 m2 dr dv = .ok k ∧ orbitToCoord k = .ok (-dr, -dv) ∧ -dr ≠ dr := by
  obtain ⟨k, hk, k1, k2, e1, e2, e3, -, e5, -⟩ := C43_elements eps m1 m2 dr dv h0 hm hinc he
  refine ⟨k, hk, ?_, fun h => ?_⟩
  · rw [← k1, ← k2] at hm e2
    rw [orbitToCoord_ok k e3 hm e5.ne', ← e1, ← e2]
  · have hd : dr = 0 := by
      have hx := congrArg V3.x h
      have hy := congrArg V3.y h
      have hz := congrArg V3.z h
      simp at hx hy hz
      ext <;> simp <;> linarith
    rw [hd] at hinc
    simp [V3.cross] at hinc

theorem planar_peri {i s : ℝ} (h1 : sin i = 0) (h2 : cos i = s) (Ω ω : ℝ) :
    peri i Ω ω = ⟨cos Ω * cos ω - s * sin Ω * sin ω, sin Ω * cos ω + s * cos Ω * sin ω, 0⟩ := by
  ext <;> simp [peri, node, normal, V3.cross, h1, h2]; ring

theorem planar_along {i s : ℝ} (h1 : sin i = 0) (h2 : cos i = s) (Ω ω : ℝ) :
    along i Ω ω = ⟨-(cos Ω * sin ω) - s * sin Ω * cos ω, -(sin Ω * sin ω) + s * cos Ω * cos ω, 0⟩ := by
  rw [along_eq]
  ext <;> simp [node, normal, V3.cross, h1, h2]; ring

/-- `v` turned by the angle `φ` about the z axis. -/
noncomputable def turnZ (φ : ℝ) (v : V3 ℝ) : V3 ℝ := ⟨cos φ * v.x - sin φ * v.y, sin φ * v.x + cos φ * v.y, v.z⟩

/-- Planar eccentric orbit: `omega` and `Omega` are the longitude of the point opposite to periapsis, both, and the state comes back turned by
that angle (in the sense of the motion); so it comes back only if periapsis is on the negative x axis. -/
theorem C70_planar_eccentric_turned (eps m1 m2 : ℝ) (dr dv : V3 ℝ) (h0 : 0 < eps) (hm : 0 < m1 + m2) (hL : dr.cross dv ≠ 0)
    (hx : (dr.cross dv).x = 0) (hy : (dr.cross dv).y = 0) (he : eccVector (m1 + m2) dr dv ≠ 0) :
    ∃ k φ, coordToOrbit eps m1 m2 dr dv = .ok k ∧ k.omega = k.Omega ∧
      eccVector (m1 + m2) dr dv = (-k.e) • node k.omega ∧
      (φ = k.omega ∧ 0 < (dr.cross dv).z ∨ φ = -k.omega ∧ (dr.cross dv).z < 0) ∧
      orbitToCoord k = .ok (turnZ φ dr, turnZ φ dv) := by
  have hN : len (nodeVec (dr.cross dv)) = 0 := by
    have := nodeVec_sq (dr.cross dv)
    rw [hx, hy] at this
    simpa using this
  have hl := dot_self_pos hL
  obtain ⟨ω, ν, ha, hE, hd⟩ := angles_planar hm hL hN (dot_self_pos he).ne'
  have hE' : eccVector (m1 + m2) dr dv = len (eccVector (m1 + m2) dr dv) • peri (incl (dr.cross dv)) (ω + π) 0 := by
    conv_lhs => rw [hE]
    ext <;> simp [node, peri]
  obtain ⟨s1, s2, s3⟩ := state_of_frame hm hL (planar_normal hL hN (ω + π)) hE' hd
  obtain ⟨i0, s, hs, hc, hz⟩ := planar_incl hL hN
  have hback := back (eps := eps) hm hL (incl (dr.cross dv)) ω ω ν s3.ne'
  -- the two frames
  have hcase : s = 1 ∨ s = -1 := by
    have : (s - 1) * (s + 1) = 0 := by linarith
    rcases mul_eq_zero.1 this with h | h
    · left; linarith
    · right; linarith
  have hP : -peri (incl (dr.cross dv)) ω ω = turnZ (s * ω) (peri (incl (dr.cross dv)) (ω + π) 0) := by
    rw [planar_peri i0 hc, planar_peri i0 hc]
    rcases hcase with rfl | rfl
    · ext <;> simp [turnZ] <;> ring
    · ext <;> simp [turnZ] <;> ring
  have hQ : -along (incl (dr.cross dv)) ω ω = turnZ (s * ω) (along (incl (dr.cross dv)) (ω + π) 0) := by
    rw [planar_along i0 hc, planar_along i0 hc]
    rcases hcase with rfl | rfl
    · ext <;> simp [turnZ] <;> ring
    · ext <;> simp [turnZ] <;> ring
  have lin : ∀ (φ a b c : ℝ) (v w : V3 ℝ), turnZ φ (c • (a • v + b • w)) = c • (a • turnZ φ v + b • turnZ φ w) := by
    intro φ a b c v w
    ext <;> simp [turnZ] <;> ring
  refine ⟨_, s * ω, coordToOrbitWith_ok _ h0 hm hL (.inl rfl) ha, rfl, hE, ?_, ?_⟩
  · rcases hcase with rfl | rfl
    · left; exact ⟨one_mul _, by rw [hz]; linarith⟩
    · right; exact ⟨neg_one_mul _, by rw [hz]; linarith⟩
  · rw [hback]
    congr 2
    · conv_rhs => rw [s1]
      unfold position
      rw [lin, ← hP, ← hQ]
      ext <;> simp <;> ring
    · conv_rhs => rw [s2]
      unfold velocity
      rw [lin, ← hP, ← hQ]
      ext <;> simp <;> ring

/-- Inclined circular orbit: the state comes back a quarter of a turn later. -/
theorem C70_inclined_circular_quarter_turn (eps m1 m2 : ℝ) (dr dv : V3 ℝ) (h0 : 0 < eps) (hm : 0 < m1 + m2)
    (hinc : (dr.cross dv).x ≠ 0 ∨ (dr.cross dv).y ≠ 0) (he : eccVector (m1 + m2) dr dv = 0) :
    ∃ k, coordToOrbit eps m1 m2 dr dv = .ok k ∧
      orbitToCoord k = .ok ((1 / len (dr.cross dv)) • (dr.cross dv).cross dr, (1 / len (dr.cross dv)) • (dr.cross dv).cross dv) := by
  have hL : dr.cross dv ≠ 0 := by
    intro h
    rw [h] at hinc
    simp at hinc
  have hN : len (nodeVec (dr.cross dv)) ≠ 0 := by
    intro h
    obtain ⟨a, b⟩ := planar_xy h
    rcases hinc with h | h
    · exact h a
    · exact h b
  have hl := dot_self_pos hL
  have he0 : len (eccVector (m1 + m2) dr dv) = 0 := len_eq_zero.2 he
  obtain ⟨ν, ha, hd⟩ := angles_circular hL hN he0
  have hback := back (eps := eps) hm hL (incl (dr.cross dv)) (nodeAngle (dr.cross dv)) 0 ν (by rw [he0]; norm_num)
  have hn := normal_incl hL hN
  -- the state has the true anomaly ν + π/2
  have hd' : dr = len dr • (cos (ν + π / 2) • peri (incl (dr.cross dv)) (nodeAngle (dr.cross dv)) 0 +
      sin (ν + π / 2) • along (incl (dr.cross dv)) (nodeAngle (dr.cross dv)) 0) := by
    conv_lhs => rw [hd]
    ext <;> simp [cos_add, sin_add] <;> ring
  obtain ⟨s1, s2, -⟩ := state_of_frame (e := 0) hm hL hn (by rw [he]; simp) hd'
  have fr := frame (incl (dr.cross dv)) (nodeAngle (dr.cross dv)) 0
  have hW : ∀ a b : ℝ, ∀ v, v = a • peri (incl (dr.cross dv)) (nodeAngle (dr.cross dv)) 0 + b • along (incl (dr.cross dv)) (nodeAngle (dr.cross dv)) 0 +
        (0:ℝ) • normal (incl (dr.cross dv)) (nodeAngle (dr.cross dv)) →
      (1 / len (dr.cross dv)) • (dr.cross dv).cross v =
        (-b) • peri (incl (dr.cross dv)) (nodeAngle (dr.cross dv)) 0 + a • along (incl (dr.cross dv)) (nodeAngle (dr.cross dv)) 0 +
          (0:ℝ) • normal (incl (dr.cross dv)) (nodeAngle (dr.cross dv)) := by
    rintro a b v hv
    have h1 : (dr.cross dv).cross v = len (dr.cross dv) • (normal (incl (dr.cross dv)) (nodeAngle (dr.cross dv))).cross v := by
      conv_lhs => rw [hn]
      generalize normal (incl (dr.cross dv)) (nodeAngle (dr.cross dv)) = W
      generalize len (dr.cross dv) = l
      ext <;> simp [V3.cross] <;> ring
    rw [h1, smul_smul, one_div_mul_cancel hl.ne', one_smul, hv]
    have := fr.cross 0 0 1 a b 0
    rw [zero_smul, zero_smul, one_smul, zero_add, zero_add] at this
    rw [this]
    congr 2 <;> congr 1 <;> ring
  refine ⟨_, coordToOrbitWith_ok _ h0 hm hL (.inl rfl) ha, ?_⟩
  rw [hback, he0, hW _ _ dr (s1.trans (position_frame _ _ _ _ _ _)), hW _ _ dv (s2.trans (velocity_frame _ _ _ _ _ _ _)), position_frame, velocity_frame]
  generalize peri (incl (dr.cross dv)) (nodeAngle (dr.cross dv)) 0 = P
  generalize along (incl (dr.cross dv)) (nodeAngle (dr.cross dv)) 0 = Q
  congr 2
  · ext <;> simp [cos_add, sin_add] <;> ring
  · ext <;> simp [cos_add, sin_add] <;> ring

/-- Planar circular orbit: the opposite state if the motion is counter-clockwise, a mirrored one if it is clockwise. -/
theorem C70_planar_circular (eps m1 m2 : ℝ) (dr dv : V3 ℝ) (h0 : 0 < eps) (hm : 0 < m1 + m2) (hL : dr.cross dv ≠ 0)
    (hx : (dr.cross dv).x = 0) (hy : (dr.cross dv).y = 0) (he : eccVector (m1 + m2) dr dv = 0) :
    ∃ k, coordToOrbit eps m1 m2 dr dv = .ok k ∧
      orbitToCoord k = .ok (if 0 < (dr.cross dv).z then (-dr, -dv) else (⟨-dr.x, dr.y, dr.z⟩, ⟨dv.x, -dv.y, dv.z⟩)) := by
  have hN : len (nodeVec (dr.cross dv)) = 0 := by
    have := nodeVec_sq (dr.cross dv)
    rw [hx, hy] at this
    simpa using this
  have hl := dot_self_pos hL
  have he0 : len (eccVector (m1 + m2) dr dv) = 0 := len_eq_zero.2 he
  obtain ⟨ν, ha, hd⟩ := angles_circular_planar hL hN he0
  have hback := back (eps := eps) hm hL (incl (dr.cross dv)) 0 0 ν (by rw [he0]; norm_num)
  obtain ⟨i0, s, hs, hc, hz⟩ := planar_incl hL hN
  have hcase : s = 1 ∨ s = -1 := by
    have : (s - 1) * (s + 1) = 0 := by linarith
    rcases mul_eq_zero.1 this with h | h
    · left; linarith
    · right; linarith
  -- the state has the true anomaly s ν
  have hd' : dr = len dr • (cos (s * ν) • peri (incl (dr.cross dv)) 0 0 + sin (s * ν) • along (incl (dr.cross dv)) 0 0) := by
    conv_lhs => rw [hd]
    rw [planar_peri i0 hc, planar_along i0 hc]
    rcases hcase with rfl | rfl
    · ext <;> simp [node]
    · ext <;> simp [node]
  obtain ⟨s1, s2, -⟩ := state_of_frame (e := 0) hm hL (planar_normal hL hN 0) (by rw [he]; simp) hd'
  refine ⟨_, coordToOrbitWith_ok _ h0 hm hL (.inl rfl) ha, ?_⟩
  rw [hback, he0]
  rcases hcase with rfl | rfl
  · rw [if_pos (by rw [hz]; linarith)]
    rw [one_mul] at s1 s2
    rw [← s1, ← s2]
  · rw [if_neg (by rw [hz]; linarith)]
    set l := len (dr.cross dv) with hldef
    set c := incl (dr.cross dv)
    have e1 : dr = position (l ^ 2 / (m1 + m2)) 0 c 0 0 (-1 * ν) := s1
    have e2 : dv = velocity (m1 + m2) (l ^ 2 / (m1 + m2)) 0 c 0 0 (-1 * ν) := s2
    have f1 := congrArg V3.x e1
    have f2 := congrArg V3.y e1
    have f3 := congrArg V3.z e1
    have g1 := congrArg V3.x e2
    have g2 := congrArg V3.y e2
    have g3 := congrArg V3.z e2
    rw [f1, f2, f3, g1, g2, g3]
    unfold position velocity
    rw [planar_peri i0 hc, planar_along i0 hc]
    congr 2
    · ext <;> simp
    · ext <;> simp

/-- A planar eccentric orbit that comes back changed. -/
example : ∃ dr dv : V3 ℝ, (dr.cross dv).x = 0 ∧ (dr.cross dv).y = 0 ∧ 0 < (dr.cross dv).z ∧ (eccVector 1 dr dv).y ≠ 0 := by
  refine ⟨⟨0, 1, 0⟩, ⟨-2, 0, 0⟩, by norm_num [V3.cross], by norm_num [V3.cross], by norm_num [V3.cross], ?_⟩
  norm_num [eccVector, V3.cross, len]

/-- An inclined circular orbit. -/
example : ∃ dr dv : V3 ℝ, (dr.cross dv).x ≠ 0 ∧ eccVector 1 dr dv = 0 := by
  refine ⟨⟨0, 1, 0⟩, ⟨0, 0, 1⟩, by norm_num [V3.cross], ?_⟩
  ext <;> norm_num [eccVector, V3.cross, len]

end SpaceHub.Props
