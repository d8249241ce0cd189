import Verif.Props.Manip
import Verif.Props.OrbitMake
import Mathlib.Topology.Order.Basic
import Mathlib.Analysis.SpecialFunctions.Pow.Real

/-
C45: tidal factor and tidal radius.  C77: scattering set-ups.
-/

set_option autoImplicit false

namespace SpaceHub.Props
open SpaceHub Orbit Manip Spec.Orbit Spec.Cluster Real Filter Topology

/-! ### C45 -/

theorem tidalFactor_ok {r m1 m2 : ℝ} (R1 R2 : ℝ) (hr : r ≠ 0) (h1 : m1 ≠ 0) (h2 : m2 ≠ 0) :
    tidalFactor r m1 m2 R1 R2 = .ok (m2 / m1 * (R1 / r) ^ 3, m1 / m2 * (R2 / r) ^ 3) := by
  unfold tidalFactor
  simp only [fdiv, hr, h1, h2, if_false, Sys.Res.ok_bind]
  congr 2 <;> ring

theorem tidalRadius_ok {f m1 m2 : ℝ} (R2 : ℝ) (hf : 0 < f) (h1 : 0 < m1) (h2 : 0 < m2) :
    tidalRadius f m1 m2 R2 = .ok ((m1 / (f * m2)) ^ ((1:ℝ) / 3) * R2) := by
  unfold tidalRadius
  have : 0 < m1 / (f * m2) := by positivity
  simp only [fdiv, (mul_pos hf h2).ne', if_false, Sys.Res.ok_bind]
  rw [if_neg (not_lt.2 this.le)]

theorem cbrt_cube {x : ℝ} (hx : 0 ≤ x) : (x ^ ((1:ℝ) / 3)) ^ 3 = x := by
  rw [← rpow_natCast, ← rpow_mul hx]
  norm_num

/-- At the tidal radius returned for a factor, the tidal factor of the second body is that factor. -/
theorem C45_inverse (f m1 m2 R1 R2 : ℝ) (hf : 0 < f) (h1 : 0 < m1) (h2 : 0 < m2) (hR : 0 < R2) :
    ∃ r f1, tidalRadius f m1 m2 R2 = .ok r ∧ 0 < r ∧ tidalFactor r m1 m2 R1 R2 = .ok (f1, f) := by
  have hx : 0 < m1 / (f * m2) := by positivity
  have hc := rpow_pos_of_pos hx ((1:ℝ) / 3)
  refine ⟨_, m2 / m1 * (R1 / ((m1 / (f * m2)) ^ ((1:ℝ) / 3) * R2)) ^ 3, tidalRadius_ok R2 hf h1 h2, by positivity, ?_⟩
  · rw [tidalFactor_ok _ _ (by positivity) h1.ne' h2.ne']
    congr 2
    rw [show R2 / ((m1 / (f * m2)) ^ ((1:ℝ) / 3) * R2) = 1 / (m1 / (f * m2)) ^ ((1:ℝ) / 3) by field_simp, div_pow, cbrt_cube hx.le]
    field_simp

/-- The overload with two radii returns the distance outside which both factors are below the given one: at that distance the larger of the
two factors is the given one, farther away both are smaller, and nearer one is larger. -/
theorem C45_both (f m1 m2 R1 R2 : ℝ) (hf : 0 < f) (h1 : 0 < m1) (h2 : 0 < m2) (hR1 : 0 < R1) (hR2 : 0 < R2) :
    ∃ r, tidalRadius2 f m1 m2 R1 R2 = .ok r ∧ 0 < r ∧
      (∃ f1 f2, tidalFactor r m1 m2 R1 R2 = .ok (f1, f2) ∧ max f1 f2 = f) ∧
      (∀ r', r < r' → ∃ f1 f2, tidalFactor r' m1 m2 R1 R2 = .ok (f1, f2) ∧ max f1 f2 < f) ∧
      (∀ r', 0 < r' → r' < r → ∃ f1 f2, tidalFactor r' m1 m2 R1 R2 = .ok (f1, f2) ∧ f < max f1 f2) := by
  have hx : 0 < m1 / (f * m2) := by positivity
  have hy : 0 < m2 / (f * m1) := by positivity
  have hcx := rpow_pos_of_pos hx ((1:ℝ) / 3)
  have hcy := rpow_pos_of_pos hy ((1:ℝ) / 3)
  set rx := (m1 / (f * m2)) ^ ((1:ℝ) / 3) * R2 with hrx
  set ry := (m2 / (f * m1)) ^ ((1:ℝ) / 3) * R1 with hry
  have hrx0 : 0 < rx := by positivity
  have hry0 : 0 < ry := by positivity
  have ex : m1 / m2 * R2 ^ 3 = f * rx ^ 3 := by
    rw [hrx, mul_pow, cbrt_cube hx.le]
    field_simp
  have ey : m2 / m1 * R1 ^ 3 = f * ry ^ 3 := by
    rw [hry, mul_pow, cbrt_cube hy.le]
    field_simp
  have hfac : ∀ r, 0 < r → tidalFactor r m1 m2 R1 R2 = .ok (f * (ry / r) ^ 3, f * (rx / r) ^ 3) := by
    intro r hr
    rw [tidalFactor_ok _ _ hr.ne' h1.ne' h2.ne']
    congr 2
    · rw [div_pow, div_pow, ← mul_div_assoc, ey, mul_div_assoc]
    · rw [div_pow, div_pow, ← mul_div_assoc, ex, mul_div_assoc]
  have hr : tidalRadius2 f m1 m2 R1 R2 = .ok (max rx ry) := by
    unfold tidalRadius2
    simp only [tidalRadius_ok R2 hf h1 h2, tidalRadius_ok R1 hf h2 h1, Sys.Res.ok_bind, ← hrx, ← hry]
  have hlt : ∀ x r, 0 < x → 0 < r → x < r → f * (x / r) ^ 3 < f := by
    intro x r hx hr h
    have : (x / r) ^ 3 < 1 := pow_lt_one₀ (by positivity) ((div_lt_one hr).2 h) (by norm_num)
    nlinarith
  have hgt : ∀ x r, 0 < x → 0 < r → r < x → f < f * (x / r) ^ 3 := by
    intro x r hx hr h
    have : 1 < (x / r) ^ 3 := one_lt_pow₀ ((one_lt_div hr).2 h) (by norm_num)
    nlinarith
  have hM : 0 < max rx ry := lt_max_of_lt_left hrx0
  refine ⟨_, hr, hM, ⟨_, _, hfac _ hM, ?_⟩, ?_, ?_⟩
  · rcases lt_trichotomy rx ry with h | h | h
    · rw [max_eq_right h.le, div_self hry0.ne', one_pow, mul_one]
      exact max_eq_left (hlt _ _ hrx0 hry0 h).le
    · rw [h, max_self, max_self, div_self hry0.ne', one_pow, mul_one]
    · rw [max_eq_left h.le, div_self hrx0.ne', one_pow, mul_one]
      exact max_eq_right (hlt _ _ hry0 hrx0 h).le
  · intro r' h
    have hr' : 0 < r' := hM.trans h
    exact ⟨_, _, hfac r' hr', max_lt (hlt _ _ hry0 hr' ((le_max_right _ _).trans_lt h)) (hlt _ _ hrx0 hr' ((le_max_left _ _).trans_lt h))⟩
  · intro r' hr' h
    refine ⟨_, _, hfac r' hr', ?_⟩
    rcases lt_max_iff.1 h with h | h
    · exact lt_max_of_lt_right (hgt _ _ hrx0 hr' h)
    · exact lt_max_of_lt_left (hgt _ _ hry0 hr' h)

/-- With the radii given, the overload for two groups is the factor of their masses at the distance of their centres. -/
theorem C45_groups (c1 c2 : Manip.Cluster) (X1 X2 : V3 ℝ) (R1 R2 : ℝ) (hm1 : totalMass (members c1) ≠ 0) (hm2 : totalMass (members c2) ≠ 0)
    (h1 : IsCentre (members c1) X1) (h2 : IsCentre (members c2) X2) :
    tidalFactorC c1 c2 R1 R2 = tidalFactor (len (X1 - X2)) (totalMass (members c1)) (totalMass (members c2)) R1 R2 := by
  obtain ⟨Y1, g1, k1⟩ := comP_ok hm1
  obtain ⟨Y2, g2, k2⟩ := comP_ok hm2
  obtain rfl := centre_unique hm1 h1 k1
  obtain rfl := centre_unique hm2 h2 k2
  unfold tidalFactorC
  simp only [g1, g2, Sys.Res.ok_bind, mTot_eq, Manip.dist_eq]

/-- Without the radii it returns no finite number, whatever the two groups: the first group is passed twice, at distance zero of itself. -/
theorem C45_groups_never_finite (c1 c2 : Manip.Cluster) : tidalFactorCC c1 c2 = .nan := by
  unfold tidalFactorCC tidalFactorC
  have hd : ∀ X : V3 ℝ, dist X X = 0 := fun X => by rw [Manip.dist_eq, sub_self, len_eq_zero.2 rfl]
  have hc : comP c1 = .nan ∨ ∃ X, comP c1 = .ok X := by
    cases c1 with
    | one p => exact .inr ⟨_, rfl⟩
    | many l =>
      rw [comP_many, vdiv]
      by_cases h : totalMass l = 0
      · rw [if_pos h]; exact .inl rfl
      · rw [if_neg h]; exact .inr ⟨_, rfl⟩
  rcases hc with h | ⟨X, h⟩
  · simp only [h]; rfl
  · simp only [h, Sys.Res.ok_bind, hd, tidalFactor, fdiv, if_true]; rfl

/-- `tidal_radius` of two groups: at that distance of the centres of mass the tidal factor of the second group, of the size `cluster_size` says,
is the one asked for. -/
theorem C45_groups_inverse (f R1 : ℝ) (c1 c2 : Manip.Cluster) (X1 X2 : V3 ℝ) (hf : 0 < f) (hm1 : 0 < totalMass (members c1)) (hm2 : 0 < totalMass (members c2))
    (hR : 0 < clusterSize c2) (h1 : IsCentre (members c1) X1) (h2 : IsCentre (members c2) X2) :
    ∃ r, tidalRadiusC f c1 c2 = .ok r ∧ 0 < r ∧ (len (X1 - X2) = r → ∃ f1, tidalFactorC c1 c2 R1 (clusterSize c2) = .ok (f1, f)) := by
  obtain ⟨r, f1, hr, h0, ht⟩ := C45_inverse f _ _ R1 (clusterSize c2) hf hm1 hm2 hR
  refine ⟨r, ?_, h0, fun hl => ⟨f1, ?_⟩⟩
  · unfold tidalRadiusC
    rw [mTot_eq, mTot_eq, hr]
  · rw [C45_groups c1 c2 X1 X2 R1 (clusterSize c2) hm1.ne' hm2.ne' h1 h2, hl, ht]

/-- A star of radius 1 next to a black hole satisfies the hypotheses. -/
example : ∃ r, tidalRadiusC 1 (.one ⟨10, 0, 0, 0⟩) (.one ⟨1, ⟨3, 4, 0⟩, 0, 1⟩) = .ok r ∧ 0 < r :=
  let ⟨r, a, b, _⟩ := C45_groups_inverse 1 1 (.one ⟨10, 0, 0, 0⟩) (.one ⟨1, ⟨3, 4, 0⟩, 0, 1⟩) 0 ⟨3, 4, 0⟩ (by norm_num) (by norm_num [totalMass, members])
    (by norm_num [totalMass, members]) (by norm_num [clusterSize]) (by simp [IsCentre, members]) (by simp [IsCentre, members])
  ⟨r, a, b⟩

/-- A star and a black hole: the factor of the two groups is a number when the radii are given. -/
example : ∃ f, tidalFactorC (.one ⟨1, 0, 0, 1⟩) (.many [⟨10, ⟨3, 4, 0⟩, 0, 0⟩]) 1 1 = .ok f ∧
    tidalFactorCC (.one ⟨1, 0, 0, 1⟩) (.many [⟨10, ⟨3, 4, 0⟩, 0, 0⟩]) = .nan := by
  refine ⟨(10 / 1 * (1 / 5) ^ 3, 1 / 10 * (1 / 5) ^ 3), ?_, C45_groups_never_finite _ _⟩
  · rw [C45_groups _ _ 0 ⟨3, 4, 0⟩ 1 1 (by norm_num [totalMass, members]) (by norm_num [totalMass, members])
      (by simp [IsCentre, members]) (by simp [IsCentre, members])]
    have : len (0 - ⟨3, 4, 0⟩ : V3 ℝ) = 5 := len_eq_of (by norm_num) (by norm_num [V3.dot])
    rw [this, tidalFactor_ok _ _ (by norm_num) (by norm_num [totalMass, members]) (by norm_num [totalMass, members])]
    norm_num [totalMass, members]

/-! ### C77 -/

/-- `b_max` is the impact parameter at which the closest approach is `rp`: a body with the speed `w` at infinity and impact parameter `b`
comes as close as `rp` exactly when `b ≤ b_max`, and at `b_max` the distance `rp` is the turning point. -/
theorem C77_b_max (eps : ℝ) (fuel : Nat) (m1 m2 w rp : ℝ) (hm : 0 < m1 + m2) (hw : w ≠ 0) (hrp : 0 < rp) :
    ∃ B, bMax (m1 + m2) w rp = .ok B ∧ 0 < B ∧
      (∀ b i Ω ω io, 0 < b → b ≤ B → ∃ k, mkHyperbolic eps fuel m1 m2 w b (.given i) (.given Ω) (.given ω) rp io = .ok k) ∧
      (∀ b i Ω ω io, B < b → mkHyperbolic eps fuel m1 m2 w b (.given i) (.given Ω) (.given ω) rp io = .abort) ∧
      (∀ i Ω ω io, ∃ k pos vel, mkHyperbolic eps fuel m1 m2 w B (.given i) (.given Ω) (.given ω) rp io = .ok k ∧
        orbitToCoord k = .ok (pos, vel) ∧ len pos = rp ∧ pos.dot vel = 0) := by
  have hww : w * w ≠ 0 := mul_self_ne_zero.2 hw
  have hww0 : 0 < w * w := mul_self_pos.2 hw
  have hq : 0 < rp * rp + 2 * (m1 + m2) * 1 * rp / (w * w) := by positivity
  set B := sqrt (rp * rp + 2 * (m1 + m2) * 1 * rp / (w * w)) with hB
  have hB0 : 0 < B := sqrt_pos.2 hq
  have hB2 : (B * w) ^ 2 = rp ^ 2 * w ^ 2 + 2 * (m1 + m2) * rp := by
    rw [mul_pow, hB, sq_sqrt hq.le]
    field_simp
  refine ⟨B, ?_, hB0, ?_, ?_, ?_⟩
  · unfold bMax
    simp only [fdiv, hww, if_false, Sys.Res.ok_bind, fsqrt, G, not_lt.2 hq.le]
    rfl
  · intro b i Ω ω io hb hbB
    obtain ⟨k, _, _, h, -⟩ := C73_hyperbolic eps fuel m1 m2 w b i Ω ω rp io hm hw hb.ne' hrp (by
      rw [← hB2, mul_pow, mul_pow]
      exact mul_le_mul_of_nonneg_right (pow_le_pow_left₀ hb.le hbB 2) (by positivity))
    exact ⟨k, h⟩
  · intro b i Ω ω io hbB
    exact (C73_hyperbolic_refuses eps fuel m1 m2 w b i Ω ω rp io).1 hm hw (hB0.trans hbB).ne' hrp (by
      rw [← hB2, mul_pow, mul_pow]
      exact mul_lt_mul_of_pos_right (pow_lt_pow_left₀ hbB hB0.le (by norm_num)) (by positivity))
  · intro i Ω ω io
    obtain ⟨k, pos, vel, h1, h2, -, -, h3, -, -, -, -, h4⟩ := C73_hyperbolic eps fuel m1 m2 w B i Ω ω rp io hm hw hB0.ne' hrp hB2.le
    exact ⟨k, pos, vel, h1, h2, h3, h4.2 hB2⟩

/-- `b_max` for two bodies and a tidal factor: with that impact parameter, a body with the speed `w` at infinity turns where the larger of the two
tidal factors is the one asked for. -/
theorem C77_b_max_tidal (eps : ℝ) (fuel : Nat) (m1 m2 R1 R2 w f : ℝ) (h1 : 0 < m1) (h2 : 0 < m2) (hR1 : 0 < R1) (hR2 : 0 < R2) (hw : w ≠ 0) (hf : 0 < f) :
    ∃ B rp, bMaxTidal m1 m2 R1 R2 w f = .ok B ∧ 0 < B ∧ (∃ f1 f2, tidalFactor rp m1 m2 R1 R2 = .ok (f1, f2) ∧ max f1 f2 = f) ∧
      (∀ i Ω ω io, ∃ k pos vel, mkHyperbolic eps fuel m1 m2 w B (.given i) (.given Ω) (.given ω) rp io = .ok k ∧
        orbitToCoord k = .ok (pos, vel) ∧ len pos = rp ∧ pos.dot vel = 0) := by
  obtain ⟨rp, hr, h0, hmax, -, -⟩ := C45_both f m1 m2 R1 R2 hf h1 h2 hR1 hR2
  obtain ⟨B, hB, hB0, -, -, h⟩ := C77_b_max eps fuel m1 m2 w rp (by linarith) hw h0
  refine ⟨B, rp, ?_, hB0, hmax, h⟩
  unfold bMaxTidal
  simp only [hr, Sys.Res.ok_bind, hB]

/-- `critical_vel`: two bound groups far apart, whose centres move with that relative speed and with zero total momentum, have no total
energy.  Groups with positive internal energy have no such speed (NaN). -/
theorem C77_critical_vel (c1 c2 : Manip.Cluster) (E1 E2 : ℝ) (hm1 : 0 < totalMass (members c1)) (hm2 : 0 < totalMass (members c2))
    (h1 : eInner c1 = .ok E1) (h2 : eInner c2 = .ok E2) :
    (E1 + E2 ≤ 0 → ∃ v, criticalVelC c1 c2 = .ok v ∧ 0 ≤ v ∧
      ∀ V1 V2 : V3 ℝ, totalMass (members c1) • V1 + totalMass (members c2) • V2 = 0 →
        ((1 / 2 * totalMass (members c1) * len V1 ^ 2 + E1) + (1 / 2 * totalMass (members c2) * len V2 ^ 2 + E2) = 0 ↔ len (V1 - V2) = v)) ∧
    (0 < E1 + E2 → criticalVelC c1 c2 = .nan) := by
  set a := totalMass (members c1)
  set b := totalMass (members c2)
  have hmr : 0 < a * b / (a + b) := by positivity
  have hstart : criticalVelC c1 c2 = fsqrt (-2 * (E1 + E2) / (a * b / (a + b))) := by
    unfold criticalVelC criticalVel
    simp only [h1, h2, Sys.Res.ok_bind, mTot_eq, fdiv]
    rw [if_neg (add_pos hm1 hm2).ne']
    simp only [Sys.Res.ok_bind]
    rw [if_neg hmr.ne']
    rfl
  rw [hstart, fsqrt]
  constructor
  · intro hE
    have hq : 0 ≤ -2 * (E1 + E2) / (a * b / (a + b)) := div_nonneg (by linarith) hmr.le
    rw [if_neg (not_lt.2 hq)]
    refine ⟨_, rfl, sqrt_nonneg _, ?_⟩
    intro V1 V2 hP
    have hx : a * V1.x + b * V2.x = 0 := by have := congrArg V3.x hP; simp at this; linarith
    have hy : a * V1.y + b * V2.y = 0 := by have := congrArg V3.y hP; simp at this; linarith
    have hz : a * V1.z + b * V2.z = 0 := by have := congrArg V3.z hP; simp at this; linarith
    have hkin : (a + b) * (a * len V1 ^ 2 + b * len V2 ^ 2) = a * b * len (V1 - V2) ^ 2 := by
      simp only [len_sq, V3.dot, V3.sub_x, V3.sub_y, V3.sub_z]
      linear_combination (a * V1.x + b * V2.x) * hx + (a * V1.y + b * V2.y) * hy + (a * V1.z + b * V2.z) * hz
    have hab : 0 < a + b := by positivity
    have hkin' : a * len V1 ^ 2 + b * len V2 ^ 2 = a * b / (a + b) * len (V1 - V2) ^ 2 := by
      field_simp
      linarith
    constructor
    · intro h
      symm
      rw [sqrt_eq_iff_eq_sq hq (len_nonneg _), div_eq_iff hmr.ne']
      linarith
    · intro h
      have h3 := sq_sqrt hq
      rw [← h, eq_div_iff hmr.ne'] at h3
      linarith
  · intro hE
    rw [if_pos (div_neg_of_neg_of_pos (by linarith) hmr)]

/-- `incident_orbit`: at the start, at distance `r`, the coordinate along the x axis is `(r - p) / e`, where `e` and `p` depend on the
impact parameter drawn.  So the direction from which the body comes makes the angle `arccos (1 / e)` with the x axis. -/
theorem incident_x (eps : ℝ) (fuel : Nat) (s w m1 m2 v r : ℝ) (hm : 0 < m1 + m2) (hv : v ≠ 0) (hs : 0 < s) (hr : 0 < r)
    (hreach : s * v ^ 2 ≤ r ^ 2 * v ^ 2 + 2 * (m1 + m2) * r) :
    ∃ k pos vel, incidentOrbit eps fuel s w m1 m2 v r = .ok k ∧ orbitToCoord k = .ok (pos, vel) ∧ len pos = r ∧
      pos.x * sqrt (1 + s * v ^ 4 / (m1 + m2) ^ 2) = r - s * v ^ 2 / (m1 + m2) := by
  have hb := sqrt_pos.2 hs
  have hb2 := sq_sqrt hs.le
  have hreach' : (sqrt s * v) ^ 2 ≤ r ^ 2 * v ^ 2 + 2 * (m1 + m2) * r := by rw [mul_pow, hb2]; exact hreach
  obtain ⟨k, pos, vel, hk, hc, -, he1, hlen, hen, hcr, -⟩ := C73_hyperbolic eps fuel m1 m2 v (sqrt s) w 0 0 r .inward hm hv hb.ne' hr hreach'
  refine ⟨k, pos, vel, ?_, hc, hlen, ?_⟩
  · unfold incidentOrbit
    simp only [fsqrt, not_lt.2 hs.le, if_false, Sys.Res.ok_bind, hk]
  · -- read the orbit off the constructor
    obtain ⟨e, he1', hsq, hu2, hc1, hl, hh⟩ := hyperbolic_core hm hv hb.ne' hr hreach'
    have hvv : v * v ≠ 0 := mul_self_ne_zero.2 hv
    have haa : -(m1 + m2) / (v * v) * (-(m1 + m2) / (v * v)) ≠ 0 := mul_self_ne_zero.2 (div_ne_zero (neg_ne_zero.2 hm.ne') hvv)
    have hs0 : ¬ 1 + sqrt s * sqrt s / (-(m1 + m2) / (v * v) * (-(m1 + m2) / (v * v))) < 0 := by
      intro h
      rw [sqrt_eq_zero_of_nonpos h.le] at hsq
      linarith
    have hbv : sqrt s * v ≠ 0 := mul_ne_zero hb.ne' hv
    have hp : 0 < sqrt s * v * (sqrt s * v) / (m1 + m2) := div_pos (mul_self_pos.2 hbv) hm
    have her : e * r ≠ 0 := by positivity
    have hmk : mkHyperbolic eps fuel m1 m2 v (sqrt s) (.given w) (.given 0) (.given 0) r .inward =
        .ok { m1 := m1, m2 := m2, p := sqrt s * v * (sqrt s * v) / (m1 + m2), e := e, i := w, Omega := 0, omega := 0,
              nu := -arccos ((sqrt s * v * (sqrt s * v) / (m1 + m2) - r) / (e * r)), type := .hyperbola } := by
      unfold mkHyperbolic mkKepler
      rw [if_neg (by norm_num), if_neg (by simp [classify])]
      simp only [Sys.Res.ok_bind, G, one_mul, fdiv, hvv, if_false, haa, fsqrt, hs0, hsq, hm.ne']
      rw [if_neg (not_le.2 hp), if_neg (not_lt.2 hc1), if_neg her]
      simp only [Sys.Res.ok_bind, facos]
      rw [if_pos ⟨hl, hh⟩]
      rfl
    rw [hmk] at hk
    cases hk
    set p := sqrt s * v * (sqrt s * v) / (m1 + m2) with hpdef
    set c := (p - r) / (e * r) with hcdef
    have hcos : cos (-arccos c) = c := by rw [cos_neg, cos_arccos hl hh]
    have hq : 1 + e * c = p / r := by rw [hcdef]; field_simp; ring
    have hq0 : 1 + e * c ≠ 0 := by rw [hq]; positivity
    rw [orbitToCoord_ok _ hp hm (by simp only [hcos]; exact hq0)] at hc
    have hpos := congrArg Prod.fst (Res.ok.inj hc)
    simp only at hpos
    have hx : pos.x = -(r * c) := by
      rw [← hpos]
      simp only [position, hcos, hq]
      simp [peri, along, node, normal, V3.cross]
      field_simp
    have hee : sqrt (1 + s * v ^ 4 / (m1 + m2) ^ 2) = e := by
      rw [← hsq]
      congr 1
      have : sqrt s * sqrt s = s := by rw [← pow_two]; exact hb2
      rw [this]
      field_simp
    rw [hee, hx, hcdef, show s * v ^ 2 / (m1 + m2) = p by rw [hpdef, show sqrt s * v * (sqrt s * v) = sqrt s ^ 2 * v ^ 2 by ring, hb2]]
    field_simp
    ring

/-- The incident orbits do not come from one direction: as the starting distance grows, the direction in which the body stands tends to
one that makes the angle `arccos (1 / e)` with the x axis, `e` the eccentricity, which grows with the impact parameter drawn; the body is
never found in the direction of the disc's axis.  (`x r` is the x coordinate at the start for the starting distance `r`.) -/
theorem C77_incident_directions (eps : ℝ) (fuel : Nat) (s w m1 m2 v : ℝ) (hm : 0 < m1 + m2) (hv : v ≠ 0) (hs : 0 < s) (x : ℝ → ℝ)
    (hx : ∀ r k pos vel, incidentOrbit eps fuel s w m1 m2 v r = .ok k → orbitToCoord k = .ok (pos, vel) → pos.x = x r) :
    Tendsto (fun r => x r / r) atTop (𝓝 (1 / sqrt (1 + s * v ^ 4 / (m1 + m2) ^ 2))) := by
  set e := sqrt (1 + s * v ^ 4 / (m1 + m2) ^ 2) with he
  have he0 : 0 < e := sqrt_pos.2 (by positivity)
  have hv2 : 0 < v ^ 2 := by positivity
  have hev : ∀ᶠ r in atTop, x r / r = 1 / e - s * v ^ 2 / (m1 + m2) / e * r⁻¹ := by
    filter_upwards [eventually_ge_atTop (sqrt s), eventually_gt_atTop 0] with r h1 h2
    have hreach : s * v ^ 2 ≤ r ^ 2 * v ^ 2 + 2 * (m1 + m2) * r := by
      have h3 : s ≤ r ^ 2 := by
        have := pow_le_pow_left₀ (sqrt_nonneg s) h1 2
        rwa [sq_sqrt hs.le] at this
      have : 0 < 2 * (m1 + m2) * r := by positivity
      nlinarith
    obtain ⟨k, pos, vel, hk, hc, -, hpx⟩ := incident_x eps fuel s w m1 m2 v r hm hv hs h2 hreach
    rw [hx r k pos vel hk hc, ← he] at hpx
    have : x r = (r - s * v ^ 2 / (m1 + m2)) / e := by rw [eq_div_iff he0.ne']; exact hpx
    rw [this]
    field_simp
  have hlim : Tendsto (fun r : ℝ => 1 / e - s * v ^ 2 / (m1 + m2) / e * r⁻¹) atTop (𝓝 (1 / e)) := by
    have := (tendsto_inv_atTop_zero (𝕜 := ℝ)).const_mul (s * v ^ 2 / (m1 + m2) / e)
    have h2 := this.const_sub (1 / e)
    simpa using h2
  exact hlim.congr' (hev.mono fun r h => h.symm)

/-- Two different draws of the impact parameter give two different directions, whatever the other draws. -/
theorem C77_incident_not_common (s s' m1 m2 v : ℝ) (hm : 0 < m1 + m2) (hv : v ≠ 0) (hs : 0 < s) (hs' : 0 < s') (hne : s ≠ s') :
    1 / sqrt (1 + s * v ^ 4 / (m1 + m2) ^ 2) ≠ 1 / sqrt (1 + s' * v ^ 4 / (m1 + m2) ^ 2) := by
  intro h
  rw [one_div, one_div, inv_inj, sqrt_inj (by positivity) (by positivity)] at h
  apply hne
  have h1 : s * v ^ 4 / (m1 + m2) ^ 2 = s' * v ^ 4 / (m1 + m2) ^ 2 := by linarith
  field_simp at h1
  exact h1

/-- The starting point exists for a concrete draw. -/
example : ∃ k pos vel, incidentOrbit 1 0 4 (1 / 2) 1 2 3 100 = .ok k ∧ orbitToCoord k = .ok (pos, vel) ∧ len pos = 100 := by
  obtain ⟨k, pos, vel, h1, h2, h3, -⟩ := incident_x 1 0 4 (1 / 2) 1 2 3 100 (by norm_num) (by norm_num) (by norm_num) (by norm_num) (by norm_num)
  exact ⟨k, pos, vel, h1, h2, h3⟩

end SpaceHub.Props
