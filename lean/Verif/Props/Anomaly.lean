import Verif.Proof.Anomaly
import Mathlib.Analysis.SpecialFunctions.Trigonometric.Bounds
import Mathlib.Analysis.Real.Pi.Bounds

/-
C44: conversions between true, eccentric and mean anomaly.
-/

set_option autoImplicit false

namespace SpaceHub.Props
open SpaceHub Orbit Spec.Orbit Real

/-! ### True and eccentric anomaly -/

/-- Ellipse, from the eccentric anomaly: the true anomaly has the textbook cosine and sine, and is converted back. -/
theorem C44_ellipse_from_eccentric (eps e E : ℝ) (he : 0 ≤ e) (he1 : e < 1) (h1 : -π ≤ E) (h2 : E ≤ π) :
    ∃ T, eToT eps E e = .ok T ∧ -π ≤ T ∧ T ≤ π ∧ cos T = (cos E - e) / (1 - e * cos E) ∧
      sin T = sqrt (1 - e ^ 2) * sin E / (1 - e * cos E) ∧ tToE eps T e = .ok E := by
  have hα : 0 < sqrt (1 + e) := sqrt_pos.2 (by linarith)
  have hβ : 0 < sqrt (1 - e) := sqrt_pos.2 (by linarith)
  obtain ⟨a, b, c⟩ := atan2_stretch hα hβ (θ := E / 2) (by linarith) (by linarith)
  have hc : 0 ≤ cos (E / 2) := cos_nonneg_of_neg_pi_div_two_le_of_le (by linarith) (by linarith)
  have hne : sqrt (1 - e) * cos (E / 2) ≠ 0 ∨ sqrt (1 + e) * sin (E / 2) ≠ 0 := by
    by_contra hcon
    push Not at hcon
    have e1 : cos (E / 2) = 0 := by simpa [hβ.ne'] using hcon.1
    have e2 : sin (E / 2) = 0 := by simpa [hα.ne'] using hcon.2
    have := sin_sq_add_cos_sq (E / 2)
    rw [e1, e2] at this
    norm_num at this
  obtain ⟨ρ, hρ, hx, hy⟩ := atan2_spec hne
  have hT : eToT eps E e = .ok (2 * atan2 (sqrt (1 + e) * sin (E / 2)) (sqrt (1 - e) * cos (E / 2))) := by
    unfold eToT
    rw [if_pos ⟨he, he1⟩, show E * (0.5:ℝ) = E / 2 by ring, show (0.5:ℝ) * E = E / 2 by ring]
  set φ := atan2 (sqrt (1 + e) * sin (E / 2)) (sqrt (1 - e) * cos (E / 2))
  have s1 := sq_sqrt (show 0 ≤ 1 + e by linarith)
  have s2 := sq_sqrt (show 0 ≤ 1 - e by linarith)
  have cE : cos E = cos (E / 2) ^ 2 - sin (E / 2) ^ 2 := by
    have := cos_two_mul' (E / 2)
    rwa [show 2 * (E / 2) = E by ring] at this
  have sE : sin E = 2 * sin (E / 2) * cos (E / 2) := by
    have := sin_two_mul (E / 2)
    rwa [show 2 * (E / 2) = E by ring] at this
  have p1 := sin_sq_add_cos_sq (E / 2)
  have p2 := sin_sq_add_cos_sq φ
  have hx2 : (1 - e) * cos (E / 2) ^ 2 = ρ ^ 2 * cos φ ^ 2 := by
    rw [← s2, ← mul_pow, ← mul_pow, hx]
  have hy2 : (1 + e) * sin (E / 2) ^ 2 = ρ ^ 2 * sin φ ^ 2 := by
    rw [← s1, ← mul_pow, ← mul_pow, hy]
  have hρ2 : 1 - e * cos E = ρ ^ 2 := by
    rw [cE]
    linear_combination hx2 + hy2 + ρ ^ 2 * p2 - p1
  have hss : sqrt (1 - e ^ 2) = sqrt (1 + e) * sqrt (1 - e) := by
    rw [← sqrt_mul (by linarith)]; congr 1; ring
  refine ⟨2 * φ, hT, by linarith, by linarith, ?_, ?_, ?_⟩
  · rw [hρ2, cos_two_mul', eq_div_iff (by positivity), cE]
    linear_combination -hx2 + hy2 - e * p1
  · rw [hρ2, sin_two_mul, eq_div_iff (by positivity), sE, hss]
    linear_combination (-2 * ρ * sin φ) * hx - 2 * sqrt (1 - e) * cos (E / 2) * hy
  · unfold tToE
    rw [if_pos ⟨he, he1⟩, show (0.5:ℝ) * (2 * φ) = φ by ring, c]
    congr 1; ring

/-- Ellipse, from the true anomaly and back. -/
theorem C44_ellipse_from_true (eps e T : ℝ) (he : 0 ≤ e) (he1 : e < 1) (h1 : -π ≤ T) (h2 : T ≤ π) :
    ∃ E, tToE eps T e = .ok E ∧ -π ≤ E ∧ E ≤ π ∧ eToT eps E e = .ok T := by
  have hα : 0 < sqrt (1 + e) := sqrt_pos.2 (by linarith)
  have hβ : 0 < sqrt (1 - e) := sqrt_pos.2 (by linarith)
  obtain ⟨a, b, c⟩ := atan2_stretch hβ hα (θ := T / 2) (by linarith) (by linarith)
  have hE : tToE eps T e = .ok (2 * atan2 (sqrt (1 - e) * sin (T / 2)) (sqrt (1 + e) * cos (T / 2))) := by
    unfold tToE
    rw [if_pos ⟨he, he1⟩, show (0.5:ℝ) * T = T / 2 by ring]
  set φ := atan2 (sqrt (1 - e) * sin (T / 2)) (sqrt (1 + e) * cos (T / 2))
  refine ⟨_, hE, by linarith, by linarith, ?_⟩
  unfold eToT
  rw [if_pos ⟨he, he1⟩, show (2 * φ) * (0.5:ℝ) = φ by ring, show (0.5:ℝ) * (2 * φ) = φ by ring, c]
  congr 1; ring

theorem hyperbola_true {e E : ℝ} (eps : ℝ) (he : 1 < e) :
    eToT eps E e = .ok (2 * arctan (sqrt ((e + 1) / (e - 1)) * tanh (E / 2))) := by
  have hβ : 0 < sqrt (e - 1) := sqrt_pos.2 (by linarith)
  have hch := cosh_pos (E / 2)
  unfold eToT
  rw [if_neg (fun h => by linarith [h.2]), if_pos he, show E * (0.5:ℝ) = E / 2 by ring, show (0.5:ℝ) * E = E / 2 by ring,
    atan2_of_pos _ (mul_pos hβ hch)]
  congr 3
  rw [sqrt_div (by linarith), tanh_eq_sinh_div_cosh, add_comm e 1]
  field_simp

/-- Hyperbola, from the eccentric anomaly. -/
theorem C44_hyperbola_from_eccentric (eps e E : ℝ) (he : 1 < e) :
    ∃ T, eToT eps E e = .ok T ∧ -π < T ∧ T < π ∧ 0 < 1 + e * cos T ∧ cos T = (e - cosh E) / (e * cosh E - 1) ∧
      sin T = sqrt (e ^ 2 - 1) * sinh E / (e * cosh E - 1) ∧ tToE eps T e = .ok E := by
  have hch := cosh_pos (E / 2)
  have hcE : cosh E = 2 * cosh (E / 2) ^ 2 - 1 := by
    have := cosh_two_mul (E / 2)
    rw [show 2 * (E / 2) = E by ring] at this
    linarith [cosh_sq (E / 2)]
  have hsE : sinh E = 2 * sinh (E / 2) * cosh (E / 2) := by
    have := sinh_two_mul (E / 2)
    rwa [show 2 * (E / 2) = E by ring] at this
  have hcs := cosh_sq (E / 2)
  set κ := sqrt ((e + 1) / (e - 1)) with hκ
  have hκ2 : κ ^ 2 = (e + 1) / (e - 1) := sq_sqrt (div_nonneg (by linarith) (by linarith))
  have hκ0 : 0 < κ := sqrt_pos.2 (div_pos (by linarith) (by linarith))
  have he1 : 0 < e - 1 := by linarith
  have hinv : sqrt ((e - 1) / (e + 1)) = 1 / κ := by
    rw [hκ, one_div, ← sqrt_inv, inv_div]
  set x := κ * tanh (E / 2) with hx
  have hxs : x ^ 2 * ((e - 1) * cosh (E / 2) ^ 2) = (e + 1) * sinh (E / 2) ^ 2 := by
    rw [hx, mul_pow, hκ2, tanh_eq_sinh_div_cosh]; field_simp
  have hx1 : 0 < 1 + x ^ 2 := by positivity
  have hpos : 0 < e * cosh E - 1 := by nlinarith [one_le_cosh E]
  have hden : (1 + x ^ 2) * ((e - 1) * cosh (E / 2) ^ 2) = e * cosh E - 1 := by
    rw [hcE]; linear_combination hxs - (e + 1) * hcs
  have hcos : cos (2 * arctan x) = (e - cosh E) / (e * cosh E - 1) := by
    rw [cos_two_arctan, div_eq_div_iff hx1.ne' hpos.ne', ← hden, hcE]
    have h3 : (1 - x ^ 2) * ((e - 1) * cosh (E / 2) ^ 2) = e - (2 * cosh (E / 2) ^ 2 - 1) := by
      linear_combination -hxs + (e + 1) * hcs
    linear_combination (1 + x ^ 2) * h3
  have hsin : sin (2 * arctan x) = sqrt (e ^ 2 - 1) * sinh E / (e * cosh E - 1) := by
    rw [sin_two_arctan, div_eq_div_iff hx1.ne' hpos.ne', ← hden, hsE]
    have h4 : sqrt (e ^ 2 - 1) = κ * (e - 1) := by
      have : e ^ 2 - 1 = (κ * (e - 1)) ^ 2 := by rw [mul_pow, hκ2]; field_simp; ring
      rw [this, sqrt_sq (by positivity)]
    rw [h4, hx, tanh_eq_sinh_div_cosh]
    field_simp
  have hcT : cos (arctan x) ≠ 0 := (cos_arctan_pos x).ne'
  refine ⟨_, hyperbola_true eps he, by have := neg_pi_div_two_lt_arctan x; linarith, by have := arctan_lt_pi_div_two x; linarith, ?_, hcos, hsin, ?_⟩
  · rw [hcos]
    have : 1 + e * ((e - cosh E) / (e * cosh E - 1)) = (e ^ 2 - 1) / (e * cosh E - 1) := by field_simp; ring
    rw [this]
    exact div_pos (by nlinarith) hpos
  · have hb := abs_lt.1 (abs_tanh_lt_one (E / 2))
    have hxx : sqrt ((e - 1) / (e + 1)) * x = tanh (E / 2) := by rw [hinv, hx]; field_simp
    unfold tToE
    rw [if_neg (fun h => by linarith [h.2]), if_pos he, show (0.5:ℝ) * (2 * arctan x) = arctan x by ring, ftan, if_neg hcT, tan_arctan]
    simp only [Sys.Res.ok_bind]
    rw [hxx, if_pos ⟨hb.2.le, hb.1.le⟩, fatanh, if_pos hb, artanh_tanh]
    simp only [Sys.Res.ok_bind]
    congr 1; ring

/-- Hyperbola, from the true anomaly: every anomaly inside the asymptotes is converted and converted back; one beyond them aborts. -/
theorem C44_hyperbola_from_true (eps e T : ℝ) (he : 1 < e) (h1 : -π < T) (h2 : T < π) :
    (0 < 1 + e * cos T → ∃ E, tToE eps T e = .ok E ∧ eToT eps E e = .ok T) ∧ (1 + e * cos T < 0 → tToE eps T e = .abort) := by
  have hc := (cos_half_pos h1 h2).ne'
  constructor
  · intro hq
    obtain ⟨hx, -⟩ := hyperbola_range he h1 h2 hq
    have hinv : sqrt ((e + 1) / (e - 1)) * sqrt ((e - 1) / (e + 1)) = 1 := by
      have a1 : 0 < e - 1 := by linarith
      have a2 : 0 < e + 1 := by linarith
      rw [← sqrt_mul (by positivity)]
      rw [show (e + 1) / (e - 1) * ((e - 1) / (e + 1)) = 1 by field_simp, sqrt_one]
    refine ⟨2 * artanh (sqrt ((e - 1) / (e + 1)) * tan (T / 2)), ?_, ?_⟩
    · unfold tToE
      rw [if_neg (fun h => by linarith [h.2]), if_pos he, show (0.5:ℝ) * T = T / 2 by ring, ftan, if_neg hc]
      simp only [Sys.Res.ok_bind]
      rw [if_pos ⟨hx.2.le, hx.1.le⟩, fatanh, if_pos ⟨hx.1, hx.2⟩]
      rfl
    · rw [hyperbola_true eps he, show 2 * artanh (sqrt ((e - 1) / (e + 1)) * tan (T / 2)) / 2 = artanh (sqrt ((e - 1) / (e + 1)) * tan (T / 2)) by ring,
        tanh_artanh hx, ← mul_assoc, hinv, one_mul, arctan_tan (by linarith) (by linarith)]
      congr 1; ring
  · intro hq
    have hcν := cos_of_tan_half hc
    set τ := tan (T / 2) with hτ
    have hτ1 : 0 < 1 + τ ^ 2 := by positivity
    have a2 : 0 < e + 1 := by linarith
    have hκ2 : sqrt ((e - 1) / (e + 1)) ^ 2 = (e - 1) / (e + 1) := sq_sqrt (div_nonneg (by linarith) (by linarith))
    have hx : 1 < (sqrt ((e - 1) / (e + 1)) * τ) ^ 2 := by
      rw [mul_pow, hκ2, ← sub_pos]
      have h3 : (1 + e * cos T) * (1 + τ ^ 2) = (e + 1) - (e - 1) * τ ^ 2 := by rw [hcν]; field_simp; ring
      have h4 : (1 + e * cos T) * (1 + τ ^ 2) < 0 := mul_neg_of_neg_of_pos hq hτ1
      have : (e - 1) / (e + 1) * τ ^ 2 - 1 = ((e - 1) * τ ^ 2 - (e + 1)) / (e + 1) := by field_simp
      rw [this]
      exact div_pos (by linarith) a2
    unfold tToE
    rw [if_neg (fun h => by linarith [h.2]), if_pos he, show (0.5:ℝ) * T = T / 2 by ring, ftan, if_neg hc]
    simp only [Sys.Res.ok_bind]
    rw [if_neg]
    rintro ⟨b1, b2⟩
    rw [← hτ] at b1 b2
    nlinarith

/-- Parabola: the eccentric anomaly is the tangent of half the true anomaly. -/
theorem C44_parabola (eps : ℝ) (h0 : 0 < eps) :
    (∀ E, ∃ T, eToT eps E 1 = .ok T ∧ -π < T ∧ T < π ∧ tan (T / 2) = E ∧ tToE eps T 1 = .ok E) ∧
    ∀ T, -π < T → T < π → ∃ E, tToE eps T 1 = .ok E ∧ eToT eps E 1 = .ok T := by
  have hE : ∀ E, eToT eps E 1 = .ok (2 * arctan E) := fun E => by
    unfold eToT
    rw [if_neg (by norm_num), if_neg (by norm_num), if_pos (iseq_self h0 1)]
  have hT : ∀ T, cos (T / 2) ≠ 0 → tToE eps T 1 = .ok (tan (T / 2)) := fun T hc => by
    unfold tToE
    rw [if_neg (by norm_num), if_neg (by norm_num), if_pos (iseq_self h0 1), show (0.5:ℝ) * T = T / 2 by ring, ftan, if_neg hc]
  constructor
  · intro E
    have h2 : 2 * arctan E / 2 = arctan E := by ring
    have ht : tan (2 * arctan E / 2) = E := by rw [h2, tan_arctan]
    refine ⟨_, hE E, by have := neg_pi_div_two_lt_arctan E; linarith, by have := arctan_lt_pi_div_two E; linarith, ht, ?_⟩
    rw [hT _ (by rw [h2]; exact (cos_arctan_pos E).ne'), ht]
  · intro T h1 h2
    refine ⟨_, hT T (cos_half_pos h1 h2).ne', ?_⟩
    rw [hE, arctan_tan (by linarith) (by linarith)]
    congr 1; ring

/-! ### Mean anomaly -/

/-- Ellipse: for every mean anomaly between -π and π the call returns (given enough passes), and what it returns solves Kepler's equation up
to π times the tolerance, being within that of the exact solution unless the mean anomaly itself is within the tolerance of 0. -/
theorem C44_mean_ellipse (eps M e : ℝ) (h0 : 0 < eps) (he : 0 ≤ e) (he1 : e < 1) (hM : |M| ≤ π) :
    (∃ fuel E, mToE eps fuel M e = .ok E) ∧
    ∀ fuel E, mToE eps fuel M e = .ok E → |E - e * sin E - M| ≤ π * eps ∧
      ((|M| ≤ eps ∧ E = 0) ∨ ∃ E', eToM eps E' e = .ok M ∧ |E'| ≤ π ∧ |E - E'| ≤ π * eps / 2) := by
  have hb := abs_le.1 hM
  by_cases hs : |M| ≤ eps
  · have hr : ∀ fuel, mToE eps fuel M e = .ok 0 := fun fuel => by unfold mToE; rw [if_pos hs]
    refine ⟨⟨0, 0, hr 0⟩, fun fuel E h => ?_⟩
    rw [hr] at h
    cases h
    refine ⟨?_, .inl ⟨hs, rfl⟩⟩
    simp only [sin_zero, mul_zero, sub_zero, zero_sub, abs_neg]
    nlinarith [pi_gt_three]
  · have hr : ∀ fuel, mToE eps fuel M e = MathFn.bisection (fun x => x - e * sin x - M) eps fuel (-π) π := fun fuel => by
      unfold mToE; rw [if_neg hs, if_pos ⟨he, he1⟩]
    have hsign : (-π - e * sin (-π) - M) * (π - e * sin π - M) ≤ 0 := by
      simp only [sin_neg, sin_pi, neg_zero, mul_zero, sub_zero]
      exact mul_nonpos_of_nonpos_of_nonneg (by linarith) (by linarith)
    constructor
    · obtain ⟨fuel, E, h⟩ := C35_terminates_continuous (fun x => x - e * sin x - M) eps (-π) π h0 hsign (by fun_prop)
        (by simp only [sin_zero, mul_zero, sub_zero, zero_sub, ne_eq, neg_eq_zero]; intro hz; rw [hz, abs_zero] at hs; exact hs h0.le)
      exact ⟨fuel, E, (hr fuel).trans h⟩
    · intro fuel E h
      rw [hr] at h
      obtain ⟨r, u, hrm, hum, hz, hd, -⟩ := C35_root _ eps (-π) π E fuel hsign (by fun_prop) h
      rw [Set.uIcc_of_le (by linarith [pi_pos])] at hrm hum
      have hu : |u| ≤ π := abs_le.2 hum
      have hd' : |E - r| ≤ π * eps / 2 := by
        have : |u| * eps ≤ π * eps := mul_le_mul_of_nonneg_right hu h0.le
        linarith
      have hsl := abs_sin_sub_sin_le E r
      refine ⟨?_, .inr ⟨r, ?_, abs_le.2 hrm, hd'⟩⟩
      · have h1 : E - e * sin E - M = (E - r) - e * (sin E - sin r) := by linear_combination hz
        rw [h1]
        have h2 : |e * (sin E - sin r)| ≤ |E - r| := by
          rw [abs_mul, abs_of_nonneg he]
          nlinarith [abs_nonneg (sin E - sin r)]
        have h3 := abs_sub (E - r) (e * (sin E - sin r))
        linarith
      · unfold eToM
        rw [if_pos ⟨he, he1⟩]
        congr 1
        linarith

/-- Hyperbola: the same for mean anomalies up to `e sinh π - π`. -/
theorem C44_mean_hyperbola (eps M e : ℝ) (h0 : 0 < eps) (he : 1 < e) (hM : |M| ≤ e * sinh π - π) :
    (∃ fuel E, mToE eps fuel M e = .ok E) ∧
    ∀ fuel E, mToE eps fuel M e = .ok E →
      ((|M| ≤ eps ∧ E = 0) ∨ ∃ E', eToM eps E' e = .ok M ∧ |E'| ≤ π ∧ |E - E'| ≤ π * eps / 2) := by
  have hb := abs_le.1 hM
  by_cases hs : |M| ≤ eps
  · have hr : ∀ fuel, mToE eps fuel M e = .ok 0 := fun fuel => by unfold mToE; rw [if_pos hs]
    refine ⟨⟨0, 0, hr 0⟩, fun fuel E h => ?_⟩
    rw [hr] at h
    cases h
    exact .inl ⟨hs, rfl⟩
  · have hr : ∀ fuel, mToE eps fuel M e = MathFn.bisection (fun x => e * sinh x - x - M) eps fuel (-π) π := fun fuel => by
      unfold mToE; rw [if_neg hs, if_neg (fun h => by linarith [h.2]), if_pos he]
    have hsign : (e * sinh (-π) - -π - M) * (e * sinh π - π - M) ≤ 0 := by
      rw [sinh_neg]
      exact mul_nonpos_of_nonpos_of_nonneg (by linarith) (by linarith)
    constructor
    · obtain ⟨fuel, E, h⟩ := C35_terminates_continuous (fun x => e * sinh x - x - M) eps (-π) π h0 hsign (by fun_prop)
        (by simp only [sinh_zero, mul_zero, sub_zero, zero_sub, ne_eq, neg_eq_zero]; intro hz; rw [hz, abs_zero] at hs; exact hs h0.le)
      exact ⟨fuel, E, (hr fuel).trans h⟩
    · intro fuel E h
      rw [hr] at h
      obtain ⟨r, u, hrm, hum, hz, hd, -⟩ := C35_root _ eps (-π) π E fuel hsign (by fun_prop) h
      rw [Set.uIcc_of_le (by linarith [pi_pos])] at hrm hum
      have hu : |u| ≤ π := abs_le.2 hum
      have hd' : |E - r| ≤ π * eps / 2 := by
        have : |u| * eps ≤ π * eps := mul_le_mul_of_nonneg_right hu h0.le
        linarith
      refine .inr ⟨r, ?_, abs_le.2 hrm, hd'⟩
      unfold eToM
      rw [if_neg (fun h => by linarith [h.2]), if_pos he]
      congr 1
      linarith

/-- Parabola: the same for mean anomalies up to `π + π³/3`. -/
theorem C44_mean_parabola (eps M : ℝ) (h0 : 0 < eps) (hM : |M| ≤ π + π ^ 3 / 3) :
    (∃ fuel E, mToE eps fuel M 1 = .ok E) ∧
    ∀ fuel E, mToE eps fuel M 1 = .ok E →
      ((|M| ≤ eps ∧ E = 0) ∨ ∃ E', eToM eps E' 1 = .ok M ∧ |E'| ≤ π ∧ |E - E'| ≤ π * eps / 2) := by
  have hb := abs_le.1 hM
  by_cases hs : |M| ≤ eps
  · have hr : ∀ fuel, mToE eps fuel M 1 = .ok 0 := fun fuel => by unfold mToE; rw [if_pos hs]
    refine ⟨⟨0, 0, hr 0⟩, fun fuel E h => ?_⟩
    rw [hr] at h
    cases h
    exact .inl ⟨hs, rfl⟩
  · have hr : ∀ fuel, mToE eps fuel M 1 = MathFn.bisection (fun x => x + x * x * x / 3 - M) eps fuel (-π) π := fun fuel => by
      unfold mToE; rw [if_neg hs, if_neg (by norm_num), if_neg (by norm_num), if_pos (by simpa using h0)]
    have hsign : (-π + -π * -π * -π / 3 - M) * (π + π * π * π / 3 - M) ≤ 0 :=
      mul_nonpos_of_nonpos_of_nonneg (by linarith) (by linarith)
    constructor
    · obtain ⟨fuel, E, h⟩ := C35_terminates_continuous (fun x => x + x * x * x / 3 - M) eps (-π) π h0 hsign (by fun_prop)
        (by simp only [zero_mul, zero_div, zero_add, zero_sub, ne_eq, neg_eq_zero]; intro hz; rw [hz, abs_zero] at hs; exact hs h0.le)
      exact ⟨fuel, E, (hr fuel).trans h⟩
    · intro fuel E h
      rw [hr] at h
      obtain ⟨r, u, hrm, hum, hz, hd, -⟩ := C35_root _ eps (-π) π E fuel hsign (by fun_prop) h
      rw [Set.uIcc_of_le (by linarith [pi_pos])] at hrm hum
      have hu : |u| ≤ π := abs_le.2 hum
      have hd' : |E - r| ≤ π * eps / 2 := by
        have : |u| * eps ≤ π * eps := mul_le_mul_of_nonneg_right hu h0.le
        linarith
      refine .inr ⟨r, ?_, abs_le.2 hrm, hd'⟩
      unfold eToM
      rw [if_neg (by norm_num), if_neg (by norm_num), if_pos (iseq_self h0 1)]
      congr 1
      linarith

/-- Each mean anomaly has one eccentric anomaly, so "the exact solution" above is unique. -/
theorem C44_mean_unique (eps e E E' M : ℝ) (h0 : 0 < eps) (he : 0 ≤ e) (h : eToM eps E e = .ok M) (h' : eToM eps E' e = .ok M) : E = E' := by
  unfold eToM at h h'
  rcases lt_trichotomy e 1 with h1 | h1 | h1
  · rw [if_pos ⟨he, h1⟩] at h h'
    exact (kepler_strictMono he h1).injective ((Res.ok.inj h).trans (Res.ok.inj h').symm)
  · rw [h1, if_neg (by norm_num), if_neg (by norm_num), if_pos (iseq_self h0 1)] at h h'
    exact barker_strictMono.injective ((Res.ok.inj h).trans (Res.ok.inj h').symm)
  · rw [if_neg (fun h => by linarith [h.2]), if_pos h1] at h h'
    exact (keplerH_strictMono h1).injective ((Res.ok.inj h).trans (Res.ok.inj h').symm)

theorem one_add_pi_lt_sinh : 1 + π < sinh π := by
  have h1 := quadratic_le_exp_of_nonneg (show 0 ≤ π / 2 by linarith [pi_pos])
  have h2 : exp (π / 2) ^ 2 = exp π := by rw [← exp_nat_mul]; congr 1; push_cast; ring
  have h3 : exp (-π) < 1 := by rw [exp_lt_one_iff]; linarith [pi_pos]
  have h4 := pi_gt_three
  have h5 : (1 + π / 2 + (π / 2) ^ 2 / 2) ^ 2 ≤ exp π := by
    rw [← h2]
    exact pow_le_pow_left₀ (by positivity) h1 2
  rw [sinh_eq]
  have h6 : 27 < π ^ 3 := by
    have := pow_lt_pow_left₀ h4 (by norm_num) (show 3 ≠ 0 by norm_num)
    norm_num at this
    exact this
  have h7 : 0 < π ^ 4 := by positivity
  nlinarith

/-- Mean anomalies outside these ranges: whatever the anomaly (for a hyperbola or parabola a legitimate one, however late or early), and
whatever its sign, the call returns, silently, -π up to the tolerance. -/
theorem C44_mean_out_of_range (eps M e : ℝ) (h0 : 0 < eps) (heps : eps < 1) (he : 0 ≤ e)
    (hM : (e < 1 ∧ π < |M|) ∨ (1 < e ∧ e * sinh π - π < |M|) ∨ (e = 1 ∧ π + π ^ 3 / 3 < |M|)) :
    (∃ fuel E, mToE eps fuel M e = .ok E) ∧ ∀ fuel E, mToE eps fuel M e = .ok E → -π ≤ E ∧ E ≤ -π + π * eps / 2 := by
  have key : ∀ f : ℝ → ℝ, StrictMono f → f (-π) = -f π → f π < |M| →
      ∀ x y, x ∈ Set.Icc (-π) π → y ∈ Set.Icc (-π) π → 0 < (f x - M) * (f y - M) := by
    intro f hf hodd hfM x y hx hy
    have x1 := hf.monotone hx.1
    have x2 := hf.monotone hx.2
    have y1 := hf.monotone hy.1
    have y2 := hf.monotone hy.2
    rcases lt_abs.1 hfM with h | h
    · exact mul_pos_of_neg_of_neg (by linarith) (by linarith)
    · exact mul_pos (by linarith) (by linarith)
  have hpi3 := pi_gt_three
  rcases hM with ⟨h1, hM⟩ | ⟨h1, hM⟩ | ⟨h1, hM⟩
  · have hr : ∀ fuel, mToE eps fuel M e = MathFn.bisection (fun x => (fun x => x - e * sin x) x - M) eps fuel (-π) π := fun fuel => by
      unfold mToE; rw [if_neg (by linarith), if_pos ⟨he, h1⟩]
    simp only [hr]
    exact bisection_no_root h0 pi_pos (key _ (kepler_strictMono he h1) (by simp) (by simpa using hM))
  · have hr : eps < |M| → ∀ fuel, mToE eps fuel M e = MathFn.bisection (fun x => (fun x => e * sinh x - x) x - M) eps fuel (-π) π :=
      fun hs fuel => by unfold mToE; rw [if_neg (by linarith), if_neg (fun h => by linarith [h.2]), if_pos h1]
    have hbig : 1 < e * sinh π - π := by nlinarith [one_add_pi_lt_sinh]
    simp only [hr (by linarith)]
    exact bisection_no_root h0 pi_pos (key _ (keplerH_strictMono h1) (by simp [sinh_neg]; ring) hM)
  · have hr : ∀ fuel, mToE eps fuel M e = MathFn.bisection (fun x => (fun x : ℝ => x + x * x * x / 3) x - M) eps fuel (-π) π := fun fuel => by
      have : 0 < π ^ 3 := by positivity
      unfold mToE; rw [h1, if_neg (by linarith), if_neg (by norm_num), if_neg (by norm_num), if_pos (by simpa using h0)]
    simp only [hr]
    exact bisection_no_root h0 pi_pos (key _ barker_strictMono (by ring) (by rw [show π * π * π = π ^ 3 by ring]; exact hM))

/-- Negative eccentricities are rejected by all the conversions - but for `M_anomaly_to_E_anomaly` with a mean anomaly within the tolerance
of 0, which returns 0 without looking at the eccentricity. -/
theorem C44_negative_eccentricity (eps e x : ℝ) (fuel : Nat) (heps : eps ≤ 1) (he : e < 0) :
    eToT eps x e = .abort ∧ tToE eps x e = .abort ∧ eToM eps x e = .abort ∧ tToM eps x e = .abort ∧
    (|x| > eps → mToE eps fuel x e = .abort) ∧ (|x| ≤ eps → mToE eps fuel x e = .ok 0) := by
  have h1 : ¬ (0 ≤ e ∧ e < 1) := fun h => by linarith [h.1]
  have h2 : ¬ e > 1 := by linarith
  have h3 : ¬ |e - 1| < eps := by rw [abs_of_neg (by linarith)]; linarith
  have h4 : ¬ iseq eps e 1 = true := by simpa [iseq] using h3
  refine ⟨?_, ?_, ?_, ?_, fun h => ?_, fun h => ?_⟩
  · unfold eToT; rw [if_neg h1, if_neg h2, if_neg h4]
  · unfold tToE; rw [if_neg h1, if_neg h2, if_neg h4]
  · unfold eToM; rw [if_neg h1, if_neg h2, if_neg h4]
  · unfold tToM tToE; rw [if_neg h1, if_neg h2, if_neg h4]; rfl
  · unfold mToE; rw [if_neg (not_le.2 h), if_neg h1, if_neg h2, if_neg h3]
  · unfold mToE; rw [if_pos h]

/-- The hypotheses are met. -/
example : ∃ eps M e : ℝ, 0 < eps ∧ eps < 1 ∧ 1 < e ∧ (|M| ≤ e * sinh π - π) ∧ eps < |M| := by
  refine ⟨1 / 2 ^ 52, π, 3, by norm_num, by norm_num, by norm_num, ?_, ?_⟩
  · have := one_add_pi_lt_sinh
    rw [abs_of_pos pi_pos]; linarith [pi_pos]
  · rw [abs_of_pos pi_pos]; have := pi_gt_three; norm_num; linarith

end SpaceHub.Props
