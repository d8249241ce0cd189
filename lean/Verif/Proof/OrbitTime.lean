import Verif.Proof.Orbit
import Mathlib.Analysis.SpecialFunctions.Trigonometric.ArctanDeriv
import Mathlib.Analysis.SpecialFunctions.Trigonometric.Deriv
import Mathlib.Analysis.SpecialFunctions.Log.Deriv
import Mathlib.Analysis.Calculus.MeanValue
import Mathlib.Analysis.ODE.ExistUnique
import Mathlib.Analysis.SpecialFunctions.Trigonometric.DerivHyp
import Mathlib.Tactic.NormNum

set_option autoImplicit false

namespace SpaceHub.Orbit
open SpaceHub Spec.Orbit Real

theorem atan2_of_pos {x : ℝ} (y : ℝ) (hx : 0 < x) : atan2 y x = arctan (y / x) := by
  unfold atan2
  have h1 : |Complex.arg ⟨x, y⟩| < π / 2 := Complex.abs_arg_lt_pi_div_two_iff.2 (.inl hx)
  have h2 := Complex.tan_arg ⟨x, y⟩
  simp only at h2
  rw [← h2, arctan_tan (abs_lt.1 h1).1 (abs_lt.1 h1).2]

theorem sin_two_arctan (x : ℝ) : sin (2 * arctan x) = 2 * x / (1 + x ^ 2) := by
  have h : 0 < 1 + x ^ 2 := by positivity
  have h2 := sq_sqrt h.le
  rw [sin_two_mul, sin_arctan, cos_arctan]
  field_simp
  rw [h2]

theorem cos_two_arctan (x : ℝ) : cos (2 * arctan x) = (1 - x ^ 2) / (1 + x ^ 2) := by
  have h : 0 < 1 + x ^ 2 := by positivity
  rw [cos_two_mul, cos_sq_arctan]
  field_simp
  ring

theorem sinh_two_artanh {x : ℝ} (hx : x ∈ Set.Ioo (-1) 1) : sinh (2 * artanh x) = 2 * x / (1 - x ^ 2) := by
  have h : 0 < 1 - x ^ 2 := by nlinarith [hx.1, hx.2]
  have h2 := sq_sqrt h.le
  rw [sinh_two_mul, sinh_artanh hx, cosh_artanh hx]
  field_simp
  rw [h2]

theorem cosh_two_artanh {x : ℝ} (hx : x ∈ Set.Ioo (-1) 1) : cosh (2 * artanh x) = (1 + x ^ 2) / (1 - x ^ 2) := by
  have h : 0 < 1 - x ^ 2 := by nlinarith [hx.1, hx.2]
  have h2 := sq_sqrt h.le
  rw [cosh_two_mul, sinh_artanh hx, cosh_artanh hx]
  field_simp
  rw [h2]

theorem hasDerivAt_artanh {x : ℝ} (hx : x ∈ Set.Ioo (-1) 1) : HasDerivAt artanh (1 / (1 - x ^ 2)) x := by
  have h1 : (0:ℝ) < 1 + x := by linarith [hx.1]
  have h2 : (0:ℝ) < 1 - x := by linarith [hx.2]
  have h3 : HasDerivAt (fun y : ℝ => 1 / 2 * log ((1 + y) / (1 - y))) (1 / (1 - x ^ 2)) x := by
    have d1 : HasDerivAt (fun y : ℝ => 1 + y) 1 x := by simpa using (hasDerivAt_id x).const_add 1
    have d2 : HasDerivAt (fun y : ℝ => 1 - y) (-1) x := by simpa using (hasDerivAt_id x).const_sub 1
    have d3 := ((d1.div d2 h2.ne').log (by simp; exact ⟨h1.ne', h2.ne'⟩)).const_mul (1 / 2)
    refine d3.congr_deriv ?_
    have : (1:ℝ) - x ^ 2 ≠ 0 := by nlinarith
    have h1' := h1.ne'
    have h2' := h2.ne'
    change 1 / 2 * ((1 * (1 - x) - (1 + x) * -1) / (1 - x) ^ 2 / ((1 + x) / (1 - x))) = 1 / (1 - x ^ 2)
    field_simp
    ring
  refine h3.congr_of_eventuallyEq ?_
  filter_upwards [Ioo_mem_nhds hx.1 hx.2] with y hy
  exact artanh_eq_half_log ⟨hy.1.le, hy.2.le⟩

/-- half-angle formulas -/
theorem cos_of_tan_half {ν : ℝ} (h : cos (ν / 2) ≠ 0) : cos ν = (1 - tan (ν / 2) ^ 2) / (1 + tan (ν / 2) ^ 2) := by
  have h1 : 1 + tan (ν / 2) ^ 2 ≠ 0 := by positivity
  rw [tan_eq_sin_div_cos]
  rw [tan_eq_sin_div_cos] at h1
  have hc : cos ν = 2 * cos (ν / 2) ^ 2 - 1 := by rw [← cos_two_mul]; ring_nf
  have h2 := sin_sq_add_cos_sq (ν / 2)
  have h3 : sin (ν / 2) ^ 2 = 1 - cos (ν / 2) ^ 2 := by linarith
  rw [hc]
  field_simp
  rw [h3]; ring

theorem hasDerivAt_tan_half {ν : ℝ} (h : cos (ν / 2) ≠ 0) :
    HasDerivAt (fun y => tan (y / 2)) ((1 + tan (ν / 2) ^ 2) / 2) ν := by
  have d := (hasDerivAt_tan h).comp ν ((hasDerivAt_id ν).div_const 2)
  refine d.congr_deriv ?_
  have h2 := sin_sq_add_cos_sq (ν / 2)
  rw [tan_eq_sin_div_cos]
  field_simp
  linarith

theorem cos_half_pos {ν : ℝ} (h1 : -π < ν) (h2 : ν < π) : 0 < cos (ν / 2) := cos_pos_of_mem_Ioo ⟨by linarith, by linarith⟩

/-- The mean anomaly of an ellipse as a function of the true anomaly, and its derivative. -/
noncomputable def meanEllipse (e ν : ℝ) : ℝ :=
  let x := sqrt ((1 - e) / (1 + e)) * tan (ν / 2)
  2 * arctan x - e * (2 * x / (1 + x ^ 2))

theorem deriv_meanEllipse {e ν : ℝ} (he : 0 ≤ e) (he1 : e < 1) (h1 : -π < ν) (h2 : ν < π) :
    HasDerivAt (meanEllipse e) (sqrt ((1 - e ^ 2) ^ 3) / (1 + e * cos ν) ^ 2) ν := by
  have hc := (cos_half_pos h1 h2).ne'
  have dt := hasDerivAt_tan_half hc
  set κ := sqrt ((1 - e) / (1 + e)) with hκ
  have hκ2 : κ ^ 2 = (1 - e) / (1 + e) := sq_sqrt (div_nonneg (by linarith) (by linarith))
  have hk0 : 0 ≤ κ := sqrt_nonneg _
  have dx : HasDerivAt (fun y => κ * tan (y / 2)) (κ * ((1 + tan (ν / 2) ^ 2) / 2)) ν := dt.const_mul κ
  set x := κ * tan (ν / 2) with hx
  have hx1 : 0 < 1 + x ^ 2 := by positivity
  have d1 : HasDerivAt (fun y : ℝ => 2 * arctan y - e * (2 * y / (1 + y ^ 2))) (2 / (1 + x ^ 2) - e * (2 * (1 - x ^ 2) / (1 + x ^ 2) ^ 2)) x := by
    have a1 := (hasDerivAt_arctan x).const_mul 2
    have a2 : HasDerivAt (fun y : ℝ => 1 + y ^ 2) (2 * x) x := by
      have := (hasDerivAt_pow 2 x).const_add 1
      simpa using this
    have a3 : HasDerivAt (fun y : ℝ => 2 * y) 2 x := by simpa using (hasDerivAt_id x).const_mul 2
    have a4 := (a3.div a2 hx1.ne').const_mul e
    refine (a1.sub a4).congr_deriv ?_
    field_simp
    ring
  have d := d1.comp ν dx
  refine HasDerivAt.congr_deriv (f := meanEllipse e) d ?_
  have hcν := cos_of_tan_half hc
  set τ := tan (ν / 2) with hτ
  have hτ1 : 0 < 1 + τ ^ 2 := by positivity
  have he' : 0 < 1 + e := by linarith
  have h1e : (1 + e) * κ ^ 2 = 1 - e := by rw [hκ2]; field_simp
  have hq : 1 + e * cos ν = (1 + e) * (1 + x ^ 2) / (1 + τ ^ 2) := by
    rw [hcν, hx]
    field_simp
    linear_combination (-τ ^ 2) * h1e
  have hs : sqrt ((1 - e ^ 2) ^ 3) = κ * (1 - e) * (1 + e) ^ 2 := by
    have : (1 - e ^ 2) ^ 3 = (κ * (1 - e) * (1 + e) ^ 2) ^ 2 := by
      rw [mul_pow, mul_pow, hκ2]
      field_simp
      ring
    rw [this, sqrt_sq]
    have : 0 ≤ 1 - e := by linarith
    positivity
  have hfac : 2 / (1 + x ^ 2) - e * (2 * (1 - x ^ 2) / (1 + x ^ 2) ^ 2) = 2 * (1 - e) * (1 + τ ^ 2) / (1 + x ^ 2) ^ 2 := by
    rw [hx]
    rw [hx] at hx1
    field_simp
    linear_combination (τ ^ 2) * h1e
  rw [hq, hs, hfac]
  field_simp

/-- The mean anomaly of a hyperbola as a function of the true anomaly. -/
noncomputable def meanHyperbola (e ν : ℝ) : ℝ :=
  let x := sqrt ((e - 1) / (e + 1)) * tan (ν / 2)
  e * (2 * x / (1 - x ^ 2)) - 2 * artanh x

theorem hyperbola_range {e ν : ℝ} (he : 1 < e) (h1 : -π < ν) (h2 : ν < π) (hq : 0 < 1 + e * cos ν) :
    sqrt ((e - 1) / (e + 1)) * tan (ν / 2) ∈ Set.Ioo (-1) 1 ∧
      1 + e * cos ν = (e + 1) * (1 - (sqrt ((e - 1) / (e + 1)) * tan (ν / 2)) ^ 2) / (1 + tan (ν / 2) ^ 2) := by
  have hc := (cos_half_pos h1 h2).ne'
  have hcν := cos_of_tan_half hc
  set κ := sqrt ((e - 1) / (e + 1)) with hκ
  have hκ2 : κ ^ 2 = (e - 1) / (e + 1) := sq_sqrt (div_nonneg (by linarith) (by linarith))
  set τ := tan (ν / 2)
  have hτ1 : 0 < 1 + τ ^ 2 := by positivity
  have he' : 0 < e + 1 := by linarith
  have h1e : (e + 1) * κ ^ 2 = e - 1 := by rw [hκ2]; field_simp
  have hqq : 1 + e * cos ν = (e + 1) * (1 - (κ * τ) ^ 2) / (1 + τ ^ 2) := by
    rw [hcν]
    field_simp
    linear_combination (τ ^ 2) * h1e
  refine ⟨?_, hqq⟩
  rw [hqq] at hq
  have h3 : 0 < (e + 1) * (1 - (κ * τ) ^ 2) := by
    have := mul_pos hq hτ1
    rwa [div_mul_cancel₀ _ hτ1.ne'] at this
  have h4 : 0 < 1 - (κ * τ) ^ 2 := (pos_iff_pos_of_mul_pos h3).1 he'
  have h5 : (κ * τ) ^ 2 < 1 := by linarith
  exact ⟨by nlinarith, by nlinarith⟩

theorem deriv_meanHyperbola {e ν : ℝ} (he : 1 < e) (h1 : -π < ν) (h2 : ν < π) (hq : 0 < 1 + e * cos ν) :
    HasDerivAt (meanHyperbola e) (sqrt ((e ^ 2 - 1) ^ 3) / (1 + e * cos ν) ^ 2) ν := by
  have hc := (cos_half_pos h1 h2).ne'
  have dt := hasDerivAt_tan_half hc
  obtain ⟨hxm, hqq⟩ := hyperbola_range he h1 h2 hq
  set κ := sqrt ((e - 1) / (e + 1)) with hκ
  have hκ2 : κ ^ 2 = (e - 1) / (e + 1) := sq_sqrt (div_nonneg (by linarith) (by linarith))
  have hk0 : 0 ≤ κ := sqrt_nonneg _
  have dx : HasDerivAt (fun y => κ * tan (y / 2)) (κ * ((1 + tan (ν / 2) ^ 2) / 2)) ν := dt.const_mul κ
  set x := κ * tan (ν / 2) with hx
  have hx1 : 0 < 1 - x ^ 2 := by nlinarith [hxm.1, hxm.2]
  have d1 : HasDerivAt (fun y : ℝ => e * (2 * y / (1 - y ^ 2)) - 2 * artanh y) (e * (2 * (1 + x ^ 2) / (1 - x ^ 2) ^ 2) - 2 / (1 - x ^ 2)) x := by
    have a1 := (hasDerivAt_artanh hxm).const_mul 2
    have a2 : HasDerivAt (fun y : ℝ => 1 - y ^ 2) (-(2 * x)) x := by
      have := (hasDerivAt_pow 2 x).const_sub 1
      simpa using this
    have a3 : HasDerivAt (fun y : ℝ => 2 * y) 2 x := by simpa using (hasDerivAt_id x).const_mul 2
    have a4 := (a3.div a2 hx1.ne').const_mul e
    refine (a4.sub a1).congr_deriv ?_
    field_simp
    ring
  have d := d1.comp ν dx
  refine HasDerivAt.congr_deriv (f := meanHyperbola e) d ?_
  set τ := tan (ν / 2) with hτ
  have hτ1 : 0 < 1 + τ ^ 2 := by positivity
  have he' : 0 < e + 1 := by linarith
  have h1e : (e + 1) * κ ^ 2 = e - 1 := by rw [hκ2]; field_simp
  have hs : sqrt ((e ^ 2 - 1) ^ 3) = κ * (e - 1) * (e + 1) ^ 2 := by
    have : (e ^ 2 - 1) ^ 3 = (κ * (e - 1) * (e + 1) ^ 2) ^ 2 := by
      rw [mul_pow, mul_pow, hκ2]
      field_simp
      ring
    rw [this, sqrt_sq]
    have : 0 ≤ e - 1 := by linarith
    positivity
  have hfac : e * (2 * (1 + x ^ 2) / (1 - x ^ 2) ^ 2) - 2 / (1 - x ^ 2) = 2 * (e - 1) * (1 + τ ^ 2) / (1 - x ^ 2) ^ 2 := by
    rw [hx]
    rw [hx] at hx1
    have hx1' := hx1.ne'
    have : e * (2 * (1 + (κ * τ) ^ 2) / (1 - (κ * τ) ^ 2) ^ 2) - 2 / (1 - (κ * τ) ^ 2) =
        (2 * e * (1 + (κ * τ) ^ 2) - 2 * (1 - (κ * τ) ^ 2)) / (1 - (κ * τ) ^ 2) ^ 2 := by
      field_simp
    rw [this]
    congr 1
    linear_combination (2 * τ ^ 2) * h1e
  rw [hqq, hs, hfac]
  field_simp

/-- The mean anomaly of a parabola as a function of the true anomaly. -/
noncomputable def meanParabola (ν : ℝ) : ℝ := tan (ν / 2) + tan (ν / 2) ^ 3 / 3

theorem deriv_meanParabola {ν : ℝ} (h1 : -π < ν) (h2 : ν < π) : HasDerivAt meanParabola (2 / (1 + cos ν) ^ 2) ν := by
  have hc := (cos_half_pos h1 h2).ne'
  have dt := hasDerivAt_tan_half hc
  have d := dt.add ((dt.pow 3).div_const 3)
  refine HasDerivAt.congr_deriv (f := meanParabola) d ?_
  rw [cos_of_tan_half hc]
  have hτ1 : 0 < 1 + tan (ν / 2) ^ 2 := by positivity
  field_simp
  ring

/-! ### Motion -/

section motion
variable {u p e : ℝ} {ν : ℝ → ℝ} {T : Set ℝ}

theorem sqrt_up (hp : 0 < p) : sqrt (u * p) = p * sqrt (u / p) := by
  rw [show u * p = p ^ 2 * (u / p) by field_simp, sqrt_mul (by positivity), sqrt_sq hp.le]

/-- The components of position and velocity in the plane of the orbit. -/
theorem plane_motion (hu : 0 < u) (hp : 0 < p) (h : LawOfAreas u p e ν T) {t : ℝ} (ht : t ∈ T) :
    HasDerivAt (fun s => p / (1 + e * cos (ν s)) * cos (ν s)) (-(sqrt (u / p) * sin (ν t))) t ∧
    HasDerivAt (fun s => p / (1 + e * cos (ν s)) * sin (ν s)) (sqrt (u / p) * (e + cos (ν t))) t ∧
    HasDerivAt (fun s => -(sqrt (u / p) * sin (ν s))) (-(u * (1 + e * cos (ν t)) ^ 2 / p ^ 2) * cos (ν t)) t ∧
    HasDerivAt (fun s => sqrt (u / p) * (e + cos (ν s))) (-(u * (1 + e * cos (ν t)) ^ 2 / p ^ 2) * sin (ν t)) t := by
  obtain ⟨hq, hd⟩ := h t ht
  have hs := sqrt_up (u := u) hp
  have h2 := sq_sqrt (show 0 ≤ u / p by positivity)
  have h2' : p * sqrt (u / p) ^ 2 = u := by rw [h2]; field_simp
  have hsc := sin_sq_add_cos_sq (ν t)
  rw [hs] at hd
  have dc := hd.cos
  have ds := hd.sin
  have dq : HasDerivAt (fun s => 1 + e * cos (ν s)) _ t := (dc.const_mul e).const_add 1
  have dr : HasDerivAt (fun s => p / (1 + e * cos (ν s))) _ t := (hasDerivAt_const t p).div dq hq.ne'
  refine ⟨(dr.mul dc).congr_deriv ?_, (dr.mul ds).congr_deriv ?_, (ds.const_mul (sqrt (u / p))).neg.congr_deriv ?_,
    ((dc.const_add e).const_mul (sqrt (u / p))).congr_deriv ?_⟩
  · field_simp; ring
  · field_simp; linear_combination (e * sqrt (u / p) * (1 + e * cos (ν t))) * hsc
  · field_simp; linear_combination (-cos (ν t) * (1 + e * cos (ν t)) ^ 2) * h2'
  · field_simp; linear_combination (-sin (ν t)) * h2'

theorem twoBody_of_areas (hu : 0 < u) (hp : 0 < p) (i Ω ω : ℝ) (h : LawOfAreas u p e ν T) :
    TwoBody u (fun t => -position p e i Ω ω (ν t)) (fun t => -velocity u p e i Ω ω (ν t)) T := by
  intro t ht
  obtain ⟨dA, dB, dC, dD⟩ := plane_motion hu hp h ht
  have hq := (h t ht).1
  have hl : len (-position p e i Ω ω (ν t)) = p / (1 + e * cos (ν t)) := by rw [len_neg, position_len _ _ _ _ hp hq]
  have hc : u / (p / (1 + e * cos (ν t))) ^ 3 * (p / (1 + e * cos (ν t))) = u * (1 + e * cos (ν t)) ^ 2 / p ^ 2 := by
    field_simp
  have lin : ∀ (A B : ℝ → ℝ) (A' B' P Q : ℝ), HasDerivAt A A' t → HasDerivAt B B' t →
      HasDerivAt (fun s => -(P * A s + Q * B s)) (-(P * A' + Q * B')) t :=
    fun A B A' B' P Q hA hB => ((hA.const_mul P).add (hB.const_mul Q)).neg
  have hr : (fun s => -position p e i Ω ω (ν s)) = fun s => -((p / (1 + e * cos (ν s)) * cos (ν s)) • peri i Ω ω +
      (p / (1 + e * cos (ν s)) * sin (ν s)) • along i Ω ω) := by
    funext s; rw [position_frame]; simp
  have hv : (fun s => -velocity u p e i Ω ω (ν s)) = fun s => -((-(sqrt (u / p) * sin (ν s))) • peri i Ω ω +
      (sqrt (u / p) * (e + cos (ν s))) • along i Ω ω) := by
    funext s; rw [velocity_frame]; simp
  constructor
  · rw [hr, hv]
    refine ⟨?_, ?_, ?_⟩
    · simp only [V3.neg_x, V3.add_x, V3.smul_x]
      exact lin _ _ _ _ (peri i Ω ω).x (along i Ω ω).x dA dB
    · simp only [V3.neg_y, V3.add_y, V3.smul_y]
      exact lin _ _ _ _ (peri i Ω ω).y (along i Ω ω).y dA dB
    · simp only [V3.neg_z, V3.add_z, V3.smul_z]
      exact lin _ _ _ _ (peri i Ω ω).z (along i Ω ω).z dA dB
  · rw [hv, hl, hr]
    refine ⟨?_, ?_, ?_⟩
    · simp only [V3.neg_x, V3.add_x, V3.smul_x]
      refine (lin _ _ _ _ (peri i Ω ω).x (along i Ω ω).x dC dD).congr_deriv ?_
      linear_combination (-(cos (ν t) * (peri i Ω ω).x + sin (ν t) * (along i Ω ω).x)) * hc
    · simp only [V3.neg_y, V3.add_y, V3.smul_y]
      refine (lin _ _ _ _ (peri i Ω ω).y (along i Ω ω).y dC dD).congr_deriv ?_
      linear_combination (-(cos (ν t) * (peri i Ω ω).y + sin (ν t) * (along i Ω ω).y)) * hc
    · simp only [V3.neg_z, V3.add_z, V3.smul_z]
      refine (lin _ _ _ _ (peri i Ω ω).z (along i Ω ω).z dC dD).congr_deriv ?_
      linear_combination (-(cos (ν t) * (peri i Ω ω).z + sin (ν t) * (along i Ω ω).z)) * hc

/-- From every point of the conic there is a motion by the law of areas. -/
theorem areas_exists (u p e ν0 t0 : ℝ) (hp : 0 < p) (hq : 0 < 1 + e * cos ν0) :
    ∃ (ν : ℝ → ℝ) (a b : ℝ), a < t0 ∧ t0 < b ∧ ν t0 = ν0 ∧ LawOfAreas u p e ν (Set.Ioo a b) := by
  have hf : ContDiffAt ℝ 1 (fun x : ℝ => sqrt (u * p) * (1 + e * cos x) ^ 2 / p ^ 2) ν0 := by
    fun_prop (disch := positivity)
  obtain ⟨α, h0, ε, hε, hα⟩ := hf.exists_forall_mem_closedBall_exists_eq_forall_mem_Ioo_hasDerivAt₀ t0
  have hcont : ContinuousAt α t0 := (hα t0 ⟨by linarith, by linarith⟩).continuousAt
  have hc2 : ContinuousAt (fun t => 1 + e * cos (α t)) t0 := by fun_prop
  have hev : ∀ᶠ t in nhds t0, 0 < 1 + e * cos (α t) := hc2.eventually (lt_mem_nhds (by simpa [h0] using hq))
  obtain ⟨δ, hδ, hball⟩ := Metric.eventually_nhds_iff.1 hev
  refine ⟨α, t0 - min ε δ, t0 + min ε δ, by have := lt_min hε hδ; linarith, by have := lt_min hε hδ; linarith, h0, fun t ht => ?_⟩
  have h1 := min_le_left ε δ
  have h2 := min_le_right ε δ
  have hpos := hball (y := t) (by rw [Real.dist_eq, abs_lt]; constructor <;> linarith [ht.1, ht.2])
  refine ⟨hpos, (hα t ⟨by linarith [ht.1], by linarith [ht.2]⟩).congr_deriv ?_⟩
  field_simp

end motion

/-! ### The mean anomaly -/

theorem tToM_ellipse (eps : ℝ) {e ν : ℝ} (he : 0 ≤ e) (he1 : e < 1) (h1 : -π < ν) (h2 : ν < π) :
    tToM eps ν e = .ok (meanEllipse e ν) := by
  have hc := cos_half_pos h1 h2
  have hs1 : 0 < sqrt (1 + e) := sqrt_pos.2 (by linarith)
  have hE : tToE eps ν e = .ok (2 * arctan (sqrt ((1 - e) / (1 + e)) * tan (ν / 2))) := by
    unfold tToE
    rw [if_pos ⟨he, he1⟩, show (0.5:ℝ) * ν = ν / 2 by ring, atan2_of_pos _ (mul_pos hs1 hc)]
    congr 3
    rw [sqrt_div (by linarith), tan_eq_sin_div_cos]
    field_simp
  unfold tToM
  rw [hE]
  simp only [Sys.Res.ok_bind, eToM, he, he1, and_self, if_true, meanEllipse, sin_two_arctan]

theorem tToM_hyperbola (eps : ℝ) {e ν : ℝ} (he : 1 < e) (h1 : -π < ν) (h2 : ν < π) (hq : 0 < 1 + e * cos ν) :
    tToM eps ν e = .ok (meanHyperbola e ν) := by
  have hc := (cos_half_pos h1 h2).ne'
  obtain ⟨hx, -⟩ := hyperbola_range he h1 h2 hq
  have hn : ¬ (0 ≤ e ∧ e < 1) := fun h => by linarith [h.2]
  unfold tToM tToE
  rw [if_neg hn, if_pos he, show (0.5:ℝ) * ν = ν / 2 by ring, ftan, if_neg hc]
  simp only [Sys.Res.ok_bind]
  rw [if_pos ⟨hx.2.le, hx.1.le⟩, fatanh, if_pos ⟨hx.1, hx.2⟩]
  simp only [Sys.Res.ok_bind, eToM]
  rw [if_neg hn, if_pos he, sinh_two_artanh hx]
  rfl

theorem iseq_self {eps : ℝ} (h : 0 < eps) (x : ℝ) : iseq eps x x = true := by simp [iseq, h]

theorem tToM_parabola {eps ν : ℝ} (h0 : 0 < eps) (h1 : -π < ν) (h2 : ν < π) : tToM eps ν 1 = .ok (meanParabola ν) := by
  have hc := (cos_half_pos h1 h2).ne'
  unfold tToM tToE eToM
  rw [if_neg (by norm_num), if_neg (by norm_num), if_pos (iseq_self h0 1), show (0.5:ℝ) * ν = ν / 2 by ring, ftan, if_neg hc]
  simp only [Sys.Res.ok_bind]
  rw [if_neg (by norm_num), if_neg (by norm_num), if_pos (iseq_self h0 1), meanParabola]
  congr 1
  ring

end SpaceHub.Orbit
