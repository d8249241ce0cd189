import Mathlib.MeasureTheory.Integral.IntervalIntegral.FundThmCalculus
import Mathlib.Analysis.Calculus.Deriv.Inverse
import Mathlib.Analysis.Calculus.Deriv.MeanValue
import Mathlib.Order.Hom.Set

/-
A new independent variable with a given positive rate.
-/

set_option autoImplicit false

namespace SpaceHub.Converge
open Set

theorem time_change {T : ℝ} (hT : 0 ≤ T) {u : ℝ → ℝ} (hc : ContinuousOn u (Icc 0 T)) (hpos : ∀ t ∈ Icc 0 T, 0 < u t) :
    ∃ (τ1 κ F : ℝ) (θ : ℝ → ℝ), 0 ≤ τ1 ∧ 0 < κ ∧ 0 < F ∧ θ 0 = 0 ∧ θ τ1 = T ∧ (∀ τ ∈ Icc 0 τ1, θ τ ∈ Icc 0 T) ∧
      (∀ τ ∈ Icc 0 τ1, HasDerivWithinAt θ (1 / u (θ τ)) (Icc 0 τ1) τ) ∧
      (∀ τ ∈ Icc 0 τ1, ∀ τ' ∈ Icc 0 τ1, τ ≤ τ' → κ * (τ' - τ) ≤ θ τ' - θ τ ∧ θ τ' - θ τ ≤ F * (τ' - τ)) := by
  have hne : (Icc 0 T).Nonempty := ⟨0, le_rfl, hT⟩
  obtain ⟨a, ha, hmin⟩ := isCompact_Icc.exists_isMinOn hne hc
  obtain ⟨b, hb, hmax⟩ := isCompact_Icc.exists_isMaxOn hne hc
  set w : ℝ → ℝ := fun t => u (projIcc 0 T hT t) with hw
  have wc : Continuous w := hc.comp_continuous (continuous_subtype_val.comp continuous_projIcc) (fun t => (projIcc 0 T hT t).2)
  have w1 : ∀ t, u a ≤ w t := fun t => hmin (projIcc 0 T hT t).2
  have w2 : ∀ t, w t ≤ u b := fun t => hmax (projIcc 0 T hT t).2
  have ua := hpos a ha
  have ub := hpos b hb
  set σ : ℝ → ℝ := fun t => ∫ s in (0:ℝ)..t, w s with hσ
  have dσ : ∀ t, HasDerivAt σ (w t) t := fun t => intervalIntegral.integral_hasDerivAt_right (wc.intervalIntegrable _ _)
    (wc.stronglyMeasurableAtFilter _ _) wc.continuousAt
  have σ0 : σ 0 = 0 := intervalIntegral.integral_same
  have cσ : Continuous σ := continuous_iff_continuousAt.2 fun t => (dσ t).continuousAt
  have low : ∀ s t, s ≤ t → u a * (t - s) ≤ σ t - σ s := by
    intro s t hst
    exact mul_sub_le_image_sub_of_le_deriv (fun t => (dσ t).differentiableAt) (fun t => by rw [(dσ t).deriv]; exact w1 t) hst
  have high : ∀ s t, s ≤ t → σ t - σ s ≤ u b * (t - s) := by
    intro s t hst
    exact image_sub_le_mul_sub_of_deriv_le (fun t => (dσ t).differentiableAt) (fun t => by rw [(dσ t).deriv]; exact w2 t) hst
  have mono : StrictMono σ := fun s t hst => by
    have := low s t hst.le
    nlinarith
  have surj : Function.Surjective σ := by
    refine cσ.surjective ?_ ?_
    · refine Filter.tendsto_atTop_mono' Filter.atTop (f₁ := fun t => u a * t) ?_ (Filter.tendsto_id.const_mul_atTop ua)
      filter_upwards [Filter.eventually_ge_atTop 0] with t ht
      have := low 0 t ht
      rw [σ0] at this; linarith
    · refine Filter.tendsto_atBot_mono' Filter.atBot (f₁ := fun t => u a * t) ?_ (Filter.tendsto_id.const_mul_atBot ua)
      filter_upwards [Filter.eventually_le_atBot 0] with t ht
      have := low t 0 ht
      rw [σ0] at this; linarith
  set e := mono.orderIsoOfSurjective σ surj with he
  have es : ∀ t, e.symm (σ t) = t := fun t => e.symm_apply_apply t
  have se : ∀ τ, σ (e.symm τ) = τ := fun τ => e.apply_symm_apply τ
  have inT : ∀ τ ∈ Icc 0 (σ T), e.symm τ ∈ Icc 0 T := by
    intro τ hτ
    constructor
    · have := e.symm.monotone hτ.1
      rwa [show e.symm 0 = 0 by have := es 0; rwa [σ0] at this] at this
    · have := e.symm.monotone hτ.2
      rwa [es] at this
  have ww : ∀ t ∈ Icc 0 T, w t = u t := fun t ht => by rw [hw]; simp only [projIcc_of_mem hT ht]
  refine ⟨σ T, 1 / u b, 1 / u a, e.symm, ?_, by positivity, by positivity, by have := es 0; rwa [σ0] at this, es T, inT, fun τ hτ => ?_, fun τ hτ τ' hτ' hle => ?_⟩
  · have := low 0 T hT
    rw [σ0] at this
    nlinarith
  · rw [← ww _ (inT τ hτ), one_div]
    refine HasDerivAt.hasDerivWithinAt ?_
    exact HasDerivAt.of_local_left_inverse e.symm.continuous.continuousAt (dσ _) (by linarith [w1 (e.symm τ)]) (Filter.Eventually.of_forall se)
  · have hle' := e.symm.monotone hle
    have h1 := low _ _ hle'
    have h2 := high _ _ hle'
    rw [se, se] at h1 h2
    constructor
    · rw [one_div, inv_mul_le_iff₀ ub]; exact h2
    · rw [one_div, inv_mul_eq_div, le_div_iff₀ ua, mul_comm]; exact h1

end SpaceHub.Converge
