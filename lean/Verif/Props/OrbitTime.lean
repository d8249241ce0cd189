import Verif.Proof.OrbitTime

/-
C71: the coordinates of an orbit follow the two-body motion.  C72: the time to periapsis.
-/

set_option autoImplicit false

namespace SpaceHub.Props
open SpaceHub Orbit Spec.Orbit Real

/-! ### C71 -/

/-- Let the true anomaly of an orbit (of any shape and orientation) change by the law of areas during an open span of time.  Then the
positions and velocities `orbit_to_coord` returns are a solution of the two-body problem. -/
theorem C71_two_body (k : Kepler) (ν : ℝ → ℝ) (T : Set ℝ) (r v : ℝ → V3 ℝ) (hT : IsOpen T) (hm : 0 < k.m1 + k.m2) (hp : 0 < k.p)
    (harea : LawOfAreas (k.m1 + k.m2) k.p k.e ν T) (hrv : ∀ t ∈ T, orbitToCoord { k with nu := ν t } = .ok (r t, v t)) :
    TwoBody (k.m1 + k.m2) r v T := by
  have key : ∀ t ∈ T, r t = -position k.p k.e k.i k.Omega k.omega (ν t) ∧
      v t = -velocity (k.m1 + k.m2) k.p k.e k.i k.Omega k.omega (ν t) := by
    intro t ht
    have h1 := orbitToCoord_ok { k with nu := ν t } hp hm (harea t ht).1.ne'
    rw [hrv t ht] at h1
    exact ⟨congrArg Prod.fst (Res.ok.inj h1), congrArg Prod.snd (Res.ok.inj h1)⟩
  intro t ht
  obtain ⟨⟨a, b, c⟩, ⟨a', b', c'⟩⟩ := twoBody_of_areas hm hp k.i k.Omega k.omega harea t ht
  have ev : ∀ᶠ s in nhds t, s ∈ T := hT.mem_nhds ht
  rw [(key t ht).1, (key t ht).2]
  refine ⟨⟨a.congr_of_eventuallyEq ?_, b.congr_of_eventuallyEq ?_, c.congr_of_eventuallyEq ?_⟩,
    ⟨a'.congr_of_eventuallyEq ?_, b'.congr_of_eventuallyEq ?_, c'.congr_of_eventuallyEq ?_⟩⟩
  all_goals
    filter_upwards [ev] with s hs
    first | rw [(key s hs).1] | rw [(key s hs).2]

/-- Through every point of every orbit there is such a motion, and `orbit_to_coord` succeeds along it; so there is a solution of the
two-body problem through the coordinates of every orbit. -/
theorem C71_through_every_orbit (k : Kepler) (t0 : ℝ) (hm : 0 < k.m1 + k.m2) (hp : 0 < k.p) (hq : 0 < 1 + k.e * cos k.nu) :
    ∃ (ν : ℝ → ℝ) (a b : ℝ) (r v : ℝ → V3 ℝ), a < t0 ∧ t0 < b ∧ ν t0 = k.nu ∧ orbitToCoord k = .ok (r t0, v t0) ∧
      LawOfAreas (k.m1 + k.m2) k.p k.e ν (Set.Ioo a b) ∧
      (∀ t ∈ Set.Ioo a b, orbitToCoord { k with nu := ν t } = .ok (r t, v t)) ∧
      TwoBody (k.m1 + k.m2) r v (Set.Ioo a b) := by
  obtain ⟨ν, a, b, ha, hb, h0, hl⟩ := areas_exists (k.m1 + k.m2) k.p k.e k.nu t0 hp hq
  have hrv : ∀ t ∈ Set.Ioo a b, orbitToCoord { k with nu := ν t } =
      .ok (-position k.p k.e k.i k.Omega k.omega (ν t), -velocity (k.m1 + k.m2) k.p k.e k.i k.Omega k.omega (ν t)) :=
    fun t ht => orbitToCoord_ok { k with nu := ν t } hp hm (hl t ht).1.ne'
  refine ⟨ν, a, b, _, _, ha, hb, h0, ?_, hl, hrv, C71_two_body k ν _ _ _ isOpen_Ioo hm hp hl hrv⟩
  have := hrv t0 ⟨ha, hb⟩
  rw [h0] at this
  rw [h0]
  exact this

/-- An inclined hyperbola to which it applies. -/
example : ∃ k : Kepler, 0 < k.m1 + k.m2 ∧ 0 < k.p ∧ 0 < 1 + k.e * cos k.nu ∧ k.e = 2 ∧ k.i = π / 4 :=
  ⟨{ m1 := 1, m2 := 2, p := 3, e := 2, i := π / 4, Omega := 1, omega := 2, nu := 0, type := .hyperbola },
    by norm_num, by norm_num, by simp only [cos_zero]; norm_num, rfl, rfl⟩

/-! ### C72 -/

/-- A function that grows at the constant rate `c` over an interval. -/
theorem of_rate {f : ℝ → ℝ} {c a b t t' : ℝ} (hf : ∀ s ∈ Set.Ioo a b, HasDerivAt f c s) (ht : t ∈ Set.Ioo a b) (ht' : t' ∈ Set.Ioo a b) :
    f t - f t' = c * (t - t') := by
  have h1 : ∀ s ∈ Set.Ioo a b, HasDerivAt (fun x => f x - c * x) 0 s := fun s hs => by
    have := (hf s hs).sub ((hasDerivAt_id s).const_mul c)
    exact this.congr_deriv (by ring)
  have h2 := isOpen_Ioo.is_const_of_deriv_eq_zero isPreconnected_Ioo
    (fun s hs => (h1 s hs).differentiableAt.differentiableWithinAt) (fun s hs => (h1 s hs).deriv) ht ht'
  linarith

theorem sqrt_identity {u p w : ℝ} (hu : 0 < u) (hp : 0 < p) (hw : 0 < w) : sqrt (p * p * p / (w * u)) * (sqrt w * sqrt (u * p)) = p ^ 2 := by
  rw [← sqrt_mul hw.le, ← sqrt_mul (by positivity), show p * p * p / (w * u) * (w * (u * p)) = (p ^ 2) ^ 2 by field_simp,
    sqrt_sq (by positivity)]

section
variable (eps : ℝ) (k : Kepler) (ν : ℝ → ℝ) (a b tp t : ℝ) (h0 : 0 < eps) (hm : 0 < k.m1 + k.m2) (hp : 0 < k.p)
  (harea : LawOfAreas (k.m1 + k.m2) k.p k.e ν (Set.Ioo a b)) (hpi : ∀ s ∈ Set.Ioo a b, -π < ν s ∧ ν s < π)
  (htp : tp ∈ Set.Ioo a b) (h0p : ν tp = 0) (ht : t ∈ Set.Ioo a b)
include hm hp harea hpi htp h0p ht

/-- Ellipse: the mean anomaly times the inverse mean motion is the time since periapsis. -/
theorem ellipse_clock (he : 0 ≤ k.e) (he1 : k.e < 1) :
    sqrt (k.p / (1 - k.e * k.e) * (k.p / (1 - k.e * k.e)) * (k.p / (1 - k.e * k.e)) / (k.m1 + k.m2)) * meanEllipse k.e (ν t) = t - tp := by
  have hw : 0 < 1 - k.e ^ 2 := by nlinarith
  have hw3 : 0 < (1 - k.e ^ 2) ^ 3 := by positivity
  have hid := sqrt_identity hm hp hw3
  have hrw : k.p / (1 - k.e * k.e) * (k.p / (1 - k.e * k.e)) * (k.p / (1 - k.e * k.e)) / (k.m1 + k.m2) =
      k.p * k.p * k.p / ((1 - k.e ^ 2) ^ 3 * (k.m1 + k.m2)) := by
    rw [show 1 - k.e * k.e = 1 - k.e ^ 2 by ring]
    field_simp
  rw [hrw]
  set S := sqrt (k.p * k.p * k.p / ((1 - k.e ^ 2) ^ 3 * (k.m1 + k.m2)))
  have hd : ∀ s ∈ Set.Ioo a b, HasDerivAt (fun x => S * meanEllipse k.e (ν x)) 1 s := by
    intro s hs
    obtain ⟨hq, hν⟩ := harea s hs
    have d := ((deriv_meanEllipse he he1 (hpi s hs).1 (hpi s hs).2).comp s hν).const_mul S
    refine d.congr_deriv ?_
    field_simp
    linear_combination hid
  have := of_rate hd ht htp
  have hz : meanEllipse k.e (ν tp) = 0 := by simp [meanEllipse, h0p]
  simp only [hz, mul_zero, sub_zero, one_mul] at this
  exact this

/-- Hyperbola. -/
theorem hyperbola_clock (he : 1 < k.e) :
    sqrt (-(k.p / (1 - k.e * k.e)) * (k.p / (1 - k.e * k.e)) * (k.p / (1 - k.e * k.e)) / (k.m1 + k.m2)) * meanHyperbola k.e (ν t) = t - tp := by
  have hw : 0 < k.e ^ 2 - 1 := by nlinarith
  have hw3 : 0 < (k.e ^ 2 - 1) ^ 3 := by positivity
  have hid := sqrt_identity hm hp hw3
  have hrw : -(k.p / (1 - k.e * k.e)) * (k.p / (1 - k.e * k.e)) * (k.p / (1 - k.e * k.e)) / (k.m1 + k.m2) =
      k.p * k.p * k.p / ((k.e ^ 2 - 1) ^ 3 * (k.m1 + k.m2)) := by
    rw [show 1 - k.e * k.e = -(k.e ^ 2 - 1) by ring]
    field_simp
  rw [hrw]
  set S := sqrt (k.p * k.p * k.p / ((k.e ^ 2 - 1) ^ 3 * (k.m1 + k.m2)))
  have hd : ∀ s ∈ Set.Ioo a b, HasDerivAt (fun x => S * meanHyperbola k.e (ν x)) 1 s := by
    intro s hs
    obtain ⟨hq, hν⟩ := harea s hs
    have d := ((deriv_meanHyperbola he (hpi s hs).1 (hpi s hs).2 hq).comp s hν).const_mul S
    refine d.congr_deriv ?_
    field_simp
    linear_combination hid
  have := of_rate hd ht htp
  have hz : meanHyperbola k.e (ν tp) = 0 := by simp [meanHyperbola, h0p]
  simp only [hz, mul_zero, sub_zero, one_mul] at this
  exact this

/-- Parabola. -/
theorem parabola_clock (he : k.e = 1) : sqrt (k.p * k.p * k.p / (k.m1 + k.m2)) * meanParabola (ν t) = 2 * (t - tp) := by
  have hid := sqrt_identity hm hp one_pos
  simp only [one_mul, sqrt_one] at hid
  set S := sqrt (k.p * k.p * k.p / (k.m1 + k.m2))
  have hd : ∀ s ∈ Set.Ioo a b, HasDerivAt (fun x => S * meanParabola (ν x)) 2 s := by
    intro s hs
    obtain ⟨hq, hν⟩ := harea s hs
    rw [he, one_mul] at hq hν
    have d := ((deriv_meanParabola (hpi s hs).1 (hpi s hs).2).comp s hν).const_mul S
    refine d.congr_deriv ?_
    field_simp
    linear_combination hid
  have := of_rate hd ht htp
  have hz : meanParabola (ν tp) = 0 := by simp [meanParabola, h0p]
  simp only [hz, mul_zero, sub_zero] at this
  exact this

include h0 in
/-- Parabola: a body that passes periapsis at the time `tp` (of an open span of time during which it moves by the law of areas and does
not pass the far side); at every time of the span `time_to_periapsis` is the time that remains. -/
theorem C72_parabola_remaining (hty : k.type = .parabola) (he : k.e = 1) : timeToPeriapsis eps { k with nu := ν t } = .ok (tp - t) := by
  have hc := parabola_clock k ν a b tp t hm hp harea hpi htp h0p ht he
  have hM := tToM_parabola h0 (hpi t ht).1 (hpi t ht).2
  unfold tToM at hM
  obtain ⟨E, hE, hE2⟩ := Sys.Res.bind_eq_ok.1 hM
  unfold timeToPeriapsis
  simp only [he, hE, hE2, hty, Sys.Res.ok_bind, G, one_mul, fdiv, hm.ne', if_false]
  rw [fsqrt, if_neg (by have : 0 < k.p * k.p * k.p / (k.m1 + k.m2) := by positivity
                        linarith)]
  simp only [Sys.Res.ok_bind]
  congr 1
  linear_combination (-0.5) * hc

/-- Hyperbola: likewise. -/
theorem C72_hyperbola_remaining (hty : k.type = .hyperbola) (he : 1 < k.e) : timeToPeriapsis eps { k with nu := ν t } = .ok (tp - t) := by
  have hc := hyperbola_clock k ν a b tp t hm hp harea hpi htp h0p ht he
  have hM := tToM_hyperbola eps he (hpi t ht).1 (hpi t ht).2 (harea t ht).1
  unfold tToM at hM
  obtain ⟨E, hE, hE2⟩ := Sys.Res.bind_eq_ok.1 hM
  have hw : (1:ℝ) - k.e * k.e ≠ 0 := by nlinarith
  have hneg : k.p / (1 - k.e * k.e) < 0 := div_neg_of_pos_of_neg hp (by nlinarith)
  unfold timeToPeriapsis
  simp only [hE, hE2, hty, Sys.Res.ok_bind, G, one_mul, fdiv, hm.ne', hw, if_false]
  rw [fsqrt, if_neg (by
    have : 0 < -(k.p / (1 - k.e * k.e)) * (k.p / (1 - k.e * k.e)) * (k.p / (1 - k.e * k.e)) / (k.m1 + k.m2) := by
      apply div_pos _ hm
      apply mul_pos_of_neg_of_neg _ hneg
      exact mul_neg_of_pos_of_neg (by linarith) hneg
    linarith)]
  simp only [Sys.Res.ok_bind]
  congr 1
  linear_combination -hc

/-- Ellipse: the function returns the time that has passed since periapsis, with the opposite sign of the other two kinds. -/
theorem C72_ellipse_elapsed (hty : k.type = .ellipse) (he : 0 ≤ k.e) (he1 : k.e < 1) :
    timeToPeriapsis eps { k with nu := ν t } = .ok (t - tp) := by
  have hc := ellipse_clock k ν a b tp t hm hp harea hpi htp h0p ht he he1
  have hM := tToM_ellipse eps he he1 (hpi t ht).1 (hpi t ht).2
  unfold tToM at hM
  obtain ⟨E, hE, hE2⟩ := Sys.Res.bind_eq_ok.1 hM
  have hw' : 0 < (1:ℝ) - k.e * k.e := by nlinarith
  have hw := hw'.ne'
  unfold timeToPeriapsis
  simp only [hE, hE2, hty, Sys.Res.ok_bind, G, one_mul, fdiv, hm.ne', hw, if_false]
  rw [fsqrt, if_neg (by
    have : 0 < (k.p / (1 - k.e * k.e)) * (k.p / (1 - k.e * k.e)) * (k.p / (1 - k.e * k.e)) / (k.m1 + k.m2) := by positivity
    linarith)]
  simp only [Sys.Res.ok_bind]
  congr 1

include h0 in
/-- The overload with the kind of orbit, the gravitational parameter, the semi-major axis (semi-latus rectum for a parabola) and the mean
anomaly returns the elapsed time for all three kinds: it disagrees in sign with the other overload for parabola and hyperbola. -/
theorem C72_overload_elapsed (hty : k.type = classify eps k.e) (he : 0 ≤ k.e) :
    ∃ M, tToM eps (ν t) k.e = .ok M ∧
      timeToPeriapsisOfType k.type (k.m1 + k.m2) (if k.e = 1 then k.p else k.p / (1 - k.e * k.e)) M = .ok (t - tp) := by
  obtain ⟨c1, c2, c3⟩ := classify_spec h0 he
  rw [hty]
  rcases lt_trichotomy k.e 1 with h | h | h
  · have hc := ellipse_clock k ν a b tp t hm hp harea hpi htp h0p ht he h
    have hw : 0 < (1:ℝ) - k.e * k.e := by nlinarith
    refine ⟨_, tToM_ellipse eps he h (hpi t ht).1 (hpi t ht).2, ?_⟩
    rw [c1.2 h, if_neg h.ne]
    have : ¬ (k.p / (1 - k.e * k.e)) * (k.p / (1 - k.e * k.e)) * (k.p / (1 - k.e * k.e)) / (k.m1 + k.m2) < 0 := by
      have : 0 < (k.p / (1 - k.e * k.e)) * (k.p / (1 - k.e * k.e)) * (k.p / (1 - k.e * k.e)) / (k.m1 + k.m2) := by positivity
      linarith
    simp only [timeToPeriapsisOfType, fdiv, hm.ne', if_false, fsqrt, Sys.Res.ok_bind, this]
    rw [hc]
  · have hc := parabola_clock k ν a b tp t hm hp harea hpi htp h0p ht h
    refine ⟨meanParabola (ν t), by rw [h]; exact tToM_parabola h0 (hpi t ht).1 (hpi t ht).2, ?_⟩
    rw [c2.2 h, if_pos h]
    have : ¬ k.p * k.p * k.p / (k.m1 + k.m2) < 0 := by
      have : 0 < k.p * k.p * k.p / (k.m1 + k.m2) := by positivity
      linarith
    simp only [timeToPeriapsisOfType, fdiv, hm.ne', if_false, fsqrt, Sys.Res.ok_bind, this]
    congr 1
    linear_combination 0.5 * hc
  · have hc := hyperbola_clock k ν a b tp t hm hp harea hpi htp h0p ht h
    refine ⟨_, tToM_hyperbola eps h (hpi t ht).1 (hpi t ht).2 (harea t ht).1, ?_⟩
    rw [c3.2 h, if_neg h.ne']
    have hneg : k.p / (1 - k.e * k.e) < 0 := div_neg_of_pos_of_neg hp (by nlinarith)
    have : ¬ -(k.p / (1 - k.e * k.e)) * (k.p / (1 - k.e * k.e)) * (k.p / (1 - k.e * k.e)) / (k.m1 + k.m2) < 0 := by
      have : 0 < -(k.p / (1 - k.e * k.e)) * (k.p / (1 - k.e * k.e)) * (k.p / (1 - k.e * k.e)) / (k.m1 + k.m2) := by
        apply div_pos _ hm
        apply mul_pos_of_neg_of_neg _ hneg
        exact mul_neg_of_pos_of_neg (by linarith) hneg
      linarith
    simp only [timeToPeriapsisOfType, fdiv, hm.ne', if_false, fsqrt, Sys.Res.ok_bind, this]
    rw [hc]

end

/-- For every orbit there is a motion through periapsis to which the theorems apply. -/
example (k : Kepler) (hp : 0 < k.p) (he : 0 ≤ k.e) : ∃ (ν : ℝ → ℝ) (a b : ℝ), (0:ℝ) ∈ Set.Ioo a b ∧ ν 0 = 0 ∧
    LawOfAreas (k.m1 + k.m2) k.p k.e ν (Set.Ioo a b) ∧ ∀ s ∈ Set.Ioo a b, -π < ν s ∧ ν s < π := by
  obtain ⟨ν, a, b, ha, hb, h0, hl⟩ := areas_exists (k.m1 + k.m2) k.p k.e 0 0 hp (by rw [cos_zero]; linarith)
  have hc : ContinuousAt ν 0 := (hl 0 ⟨ha, hb⟩).2.continuousAt
  have hev : ∀ᶠ t in nhds 0, ν t ∈ Set.Ioo (-π) π := hc.eventually (by rw [h0]; exact Ioo_mem_nhds (by linarith [pi_pos]) pi_pos)
  obtain ⟨δ, hδ, hball⟩ := Metric.eventually_nhds_iff.1 hev
  refine ⟨ν, max a (-δ), min b δ, ⟨max_lt ha (by linarith), lt_min hb hδ⟩, h0, fun t ht => hl t ?_, fun t ht => hball ?_⟩
  · exact ⟨lt_of_le_of_lt (le_max_left _ _) ht.1, lt_of_lt_of_le ht.2 (min_le_left _ _)⟩
  · rw [Real.dist_eq, sub_zero, abs_lt]
    exact ⟨lt_of_le_of_lt (le_max_right _ _) ht.1, lt_of_lt_of_le ht.2 (min_le_right _ _)⟩

/-- An orbit of type `None`, as a default-constructed one: the function ends without returning a value. -/
theorem C72_none_undefined (eps : ℝ) (k : Kepler) (h : k.type = .none) (he : 0 ≤ k.e) (he1 : k.e < 1) : timeToPeriapsis eps k = .ub := by
  unfold timeToPeriapsis tToE eToM
  simp [he, he1, h]

end SpaceHub.Props
