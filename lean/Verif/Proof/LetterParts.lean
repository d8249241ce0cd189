import Verif.Proof.LetterOrder

/-
Stability and local error of integrators composed of the flows of several vector fields.
-/

set_option autoImplicit false

namespace SpaceHub.Letters
open Set Converge
open scoped ContDiff

variable {ι : Type*} [Fintype ι] [DecidableEq ι] {E : Type*} [NormedAddCommGroup E] [NormedSpace ℝ E]
variable {f : ι → E → E} {U : Set E}

/-- Stability and local error of an integrator near a solution. -/
theorem order_parts [ProperSpace E] (hU : IsOpen U) (hf : ∀ X, ContDiffOn ℝ ∞ (f X) U) (hst : ∀ X, Straight (f X)) {T : ℝ} {y : ℝ → E}
    (dy : ∀ t ∈ Icc 0 T, HasDerivWithinAt y (∑ X, f X (y t)) (Icc 0 T) t) (hyU : ∀ t ∈ Icc 0 T, y t ∈ U) (p N : ℕ) (c : ℝ) :
    ∃ r C M ρ : ℝ, ∃ W : Set E, 0 < r ∧ 0 ≤ C ∧ 0 ≤ M ∧ 0 < ρ ∧ ρ ≤ 1 ∧ IsCompact W ∧ W ⊆ U ∧ ∀ l : List (ι × ℚ), l.length ≤ N → (∀ s ∈ l, |(s.2 : ℝ)| ≤ c) →
      (∀ t ∈ Icc 0 T, ∀ h ∈ Icc 0 ρ, ∀ z, ‖z - y t‖ ≤ r → ‖wstep f l h z - wstep f l h (y t)‖ ≤ Real.exp (M * h) * ‖z - y t‖) ∧
      (∀ t ∈ Icc 0 T, ∀ h ∈ Icc 0 ρ, ∀ z, ‖z - y t‖ ≤ r → ∀ pre suf, l = pre ++ suf → wstep f pre h z ∈ W) ∧
      ∀ hm δ, 0 ≤ hm → hm ≤ ρ → 0 ≤ δ → (∀ w, 1 ≤ w.length → w.length ≤ p → |(deviation l w : ℝ)| * hm ^ (w.length - 1) ≤ δ) →
        ∀ t h, 0 ≤ t → 0 ≤ h → h ≤ hm → t + h ≤ T → ‖wstep f l h (y t) - y (t + h)‖ ≤ h * (C * (hm ^ p + δ)) := by
  have cy : ContinuousOn y (Icc 0 T) := fun t ht => (dy t ht).continuousWithinAt
  have hK : IsCompact (y '' Icc 0 T) := isCompact_Icc.image_of_continuousOn cy
  obtain ⟨r, hr, M, Λ, hΛ0, B, hΛ⟩ := exists_words hU hf hK (by rintro _ ⟨t, ht, rfl⟩; exact hyU t ht) (p + 1)
  have hM := B.hM
  have mem : ∀ t ∈ Icc 0 T, ∀ z, ‖z - y t‖ ≤ r → z ∈ Metric.cthickening r (y '' Icc 0 T) := fun t ht z hz =>
    Metric.mem_cthickening_of_dist_le z (y t) r _ (mem_image_of_mem y ht) (by rwa [dist_eq_norm])
  set c' := max c 1 with hc'
  have hc1 : 1 ≤ c' := le_max_right _ _
  have hc0 : 0 ≤ c' := by linarith
  obtain ⟨C, hC, loc⟩ := order_local B hst hc1 N dy (fun t ht => mem t ht _ (by simpa using hr.le))
  set D := N * (c' * M) + 1 with hD
  have hD1 : 0 < D := by positivity
  refine ⟨r / 2, C, N * (c' * Λ), min 1 (r / 2 / D), Metric.cthickening r (y '' Icc 0 T), by positivity, hC, by positivity, lt_min one_pos (by positivity),
    min_le_left _ _, hK.cthickening, B.sub, fun l hl hco => ?_⟩
  have room : ∀ hm, 0 ≤ hm → hm ≤ min 1 (r / 2 / D) → N * (hm * (c' * M)) ≤ r / 2 := by
    intro hm hm0 hmρ
    have hmD : hm * D ≤ r / 2 := (le_div_iff₀ hD1).1 (hmρ.trans (min_le_right _ _))
    have h1 : hm * D = N * (hm * (c' * M)) + hm := by rw [hD]; ring
    linarith
  have hNl : (l.length : ℝ) ≤ N := by exact_mod_cast hl
  have hco' : ∀ s ∈ l, |(s.2 : ℝ)| ≤ c' := fun s hs => (hco s hs).trans (le_max_left _ _)
  have good : ∀ l' : List (ι × ℚ), (∀ s ∈ l', s ∈ l) → ∀ q ∈ l'.map (fun s => (flow f s, fun z => (s.2 : ℝ) • f s.1 z)),
      Good y T r 1 (c' * M) (c' * Λ) 0 q.1 q.2 := by
    intro l' hl' q hq
    obtain ⟨s, hs, rfl⟩ := List.mem_map.1 hq
    exact flow_good B hΛ (hco' s (hl' s hs))
  have wmap : ∀ l' : List (ι × ℚ), wstep f l' = comp ((l'.map (fun s => (flow f s, fun z => (s.2 : ℝ) • f s.1 z))).map Prod.fst) := by
    intro l'; rw [List.map_map]; rfl
  have rm : ∀ (l' : List (ι × ℚ)) h, l'.length ≤ N → 0 ≤ h → h ≤ min 1 (r / 2 / D) → ∀ ζ : ℝ, ζ ≤ r / 2 →
      ζ + ((l'.map (fun s => (flow f s, fun z => (s.2 : ℝ) • f s.1 z))).length : ℝ) * (h * (c' * M + 0 * 1)) ≤ r := by
    intro l' h hN h0 hh ζ hζ
    rw [List.length_map]
    have h1 : (l'.length : ℝ) * (h * (c' * M + 0 * 1)) ≤ N * (h * (c' * M)) := by
      rw [zero_mul, add_zero]
      exact mul_le_mul_of_nonneg_right (by exact_mod_cast hN) (by positivity)
    linarith [room h h0 hh]
  refine ⟨fun t ht h hh z hz => ?_, fun t ht h hh z hz pre suf e => ?_, fun hm δ hm0 hmρ hδ0 hdev t h ht h0 hh hTt => ?_⟩
  · have h1 := comp_stable _ (good l fun _ h => h) (by positivity) le_rfl (by positivity) ht (h := h) ⟨hh.1, hh.2.trans (min_le_left _ _)⟩ z (y t)
      (rm l h hl hh.1 hh.2 _ hz) (rm l h hl hh.1 hh.2 _ (by rw [sub_self, norm_zero]; linarith))
    rw [wmap]
    refine h1.trans (mul_le_mul_of_nonneg_right (Real.exp_le_exp.2 ?_) (norm_nonneg _))
    rw [List.length_map]
    exact mul_le_mul_of_nonneg_right (mul_le_mul_of_nonneg_right hNl (by positivity)) hh.1
  · have hpre : pre.length ≤ N := by rw [e, List.length_append] at hl; omega
    have r1 := rm pre h hpre hh.1 hh.2 _ hz
    rw [zero_mul, add_zero] at r1
    have mv := comp_move _ (good pre fun s hs => by rw [e]; exact List.mem_append_left _ hs) (by positivity) ht (h := h) ⟨hh.1, hh.2.trans (min_le_left _ _)⟩ _ r1
    rw [← wmap] at mv
    exact mem _ ht _ (mv.trans r1)
  · refine (loc l hl hco' h t h0 ht hTt (fun z hz => mem t ⟨ht, by linarith⟩ z (hz.trans ?_)) δ (fun w hw hw' => ?_) hδ0).trans ?_
    · have h1 : N * (h * c' * M) ≤ N * (hm * (c' * M)) := by
        rw [mul_assoc h]
        exact mul_le_mul_of_nonneg_left (mul_le_mul_of_nonneg_right hh (by positivity)) (by positivity)
      linarith [room hm hm0 hmρ]
    · exact (mul_le_mul_of_nonneg_left (pow_le_pow_left₀ h0 hh _) (abs_nonneg _)).trans (hdev w hw hw')
    · refine mul_le_mul_of_nonneg_left (mul_le_mul_of_nonneg_left ?_ hC) h0
      linarith [pow_le_pow_left₀ h0 hh p]

end SpaceHub.Letters
