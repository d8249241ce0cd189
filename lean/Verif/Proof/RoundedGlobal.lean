import Verif.Proof.RoundedStep
import Verif.Model.RoundedChain
import Verif.Props.ConvergeOrder

/-
Rounding errors of many steps.
-/

set_option autoImplicit false

namespace SpaceHub.Converge
open Set Integrator Spec
open scoped ContDiff

section
variable {Z : Type*} [NormedAddCommGroup Z] {X : Type*}

/-- A method that is carried out with an error of at most `h κ + η` per step: the global error is at most `exp (M T) (e + T ε + N η)` if it is `e` at the
start, `ε` the sum of `κ` and the local error per unit of time. -/
theorem global_perturbed {Φ : ℝ → Z → Z} {Ψ : ℝ → X → X} {ζ : X → Z} {I : ℝ → ℕ → X → Prop} {y : ℝ → Z} {T r M hm ε ε1 κ η e : ℝ} {N : ℕ} (hM : 0 ≤ M)
    (hε : 0 ≤ ε) (hsum : ε1 + κ ≤ ε) (hη : 0 ≤ η) (he : 0 ≤ e)
    (stab : ∀ t ∈ Icc 0 T, ∀ h ∈ Icc 0 hm, ∀ z, ‖z - y t‖ ≤ r → ‖Φ h z - Φ h (y t)‖ ≤ Real.exp (M * h) * ‖z - y t‖)
    (loc : ∀ t h, 0 ≤ t → 0 ≤ h → h ≤ hm → t + h ≤ T → ‖Φ h (y t) - y (t + h)‖ ≤ h * ε1)
    (near : ∀ t h k x, 0 ≤ t → 0 ≤ h → h ≤ hm → t + h ≤ T → k + 1 ≤ N → I t k x → ‖ζ x - y t‖ ≤ r → I (t + h) (k + 1) (Ψ h x) ∧ ‖ζ (Ψ h x) - Φ h (ζ x)‖ ≤ h * κ + η)
    (small : Real.exp (M * T) * (e + T * ε + N * η) ≤ r) (l : List ℝ) :
    ∀ t k x, (∀ h ∈ l, 0 ≤ h ∧ h ≤ hm) → 0 ≤ t → t + l.sum ≤ T → k + l.length ≤ N → I t k x → ‖ζ x - y t‖ ≤ Real.exp (M * t) * (e + t * ε + k * η) →
      I (t + l.sum) (k + l.length) (l.foldl (fun x h => Ψ h x) x) ∧
      ‖ζ (l.foldl (fun x h => Ψ h x) x) - y (t + l.sum)‖ ≤ Real.exp (M * (t + l.sum)) * (e + (t + l.sum) * ε + (k + l.length : ℕ) * η) := by
  induction l with
  | nil => intro t k x _ _ _ _ hI hz; exact ⟨by simpa using hI, by simpa using hz⟩
  | cons h l ih =>
    intro t k x hl ht hs hk hI hz
    obtain ⟨h0, h1⟩ := hl h (by simp)
    have hls : 0 ≤ l.sum := List.sum_nonneg fun x hx => (hl x (List.mem_cons_of_mem _ hx)).1
    rw [List.length_cons] at hk
    rw [List.sum_cons, ← add_assoc] at hs ⊢
    rw [List.length_cons, show k + (l.length + 1) = k + 1 + l.length by omega]
    have htT : t ≤ T := by linarith
    have hkN : (k : ℝ) ≤ N := by exact_mod_cast (by omega : k ≤ N)
    have hzr : ‖ζ x - y t‖ ≤ r := hz.trans (le_trans (by gcongr) small)
    obtain ⟨i1, i2⟩ := near t h k x ht h0 h1 (by linarith) (by omega) hI hzr
    refine ih (t + h) (k + 1) (Ψ h x) (fun x hx => hl x (List.mem_cons_of_mem _ hx)) (by linarith) hs (by omega) i1 ?_
    have a1 := stab t ⟨ht, htT⟩ h ⟨h0, h1⟩ _ hzr
    have a2 := loc t h ht h0 h1 (by linarith)
    have a3 : ‖ζ (Ψ h x) - y (t + h)‖ ≤ ‖ζ (Ψ h x) - Φ h (ζ x)‖ + (‖Φ h (ζ x) - Φ h (y t)‖ + ‖Φ h (y t) - y (t + h)‖) :=
      (norm_sub_le_norm_sub_add_norm_sub _ _ _).trans (add_le_add_right (norm_sub_le_norm_sub_add_norm_sub _ _ _) _)
    have a4 : Real.exp (M * h) * ‖ζ x - y t‖ ≤ Real.exp (M * h) * (Real.exp (M * t) * (e + t * ε + k * η)) := by gcongr
    have a5 : Real.exp (M * h) * (Real.exp (M * t) * (e + t * ε + k * η)) = Real.exp (M * (t + h)) * (e + t * ε + k * η) := by
      rw [← mul_assoc, ← Real.exp_add]; ring_nf
    have a6 : h * ε + η ≤ Real.exp (M * (t + h)) * (h * ε + η) := by
      have : 1 ≤ Real.exp (M * (t + h)) := Real.one_le_exp (by positivity)
      nlinarith [mul_nonneg h0 hε]
    have a7 : Real.exp (M * (t + h)) * (e + (t + h) * ε + ((k + 1 : ℕ) : ℝ) * η) = Real.exp (M * (t + h)) * (e + t * ε + k * η) + Real.exp (M * (t + h)) * (h * ε + η) := by
      push_cast; ring
    have a8 : h * ε1 + h * κ ≤ h * ε := by rw [← mul_add]; exact mul_le_mul_of_nonneg_left hsum h0
    linarith

/-- The same for a method that leaves something open, carried out with an error of at most `h κ + η` per step: the global error is at most `exp (M T) (e + T ε + N η)` if it is `e` at the
start, `ε` the sum of `κ` and the local error per unit of time. -/
theorem global_related {Φ : ℝ → Z → Z} {Ψ : ℝ → X → X → Prop} {ζ : X → Z} {I : ℝ → ℕ → X → Prop} {y : ℝ → Z} {T r M hm ε ε1 κ η e : ℝ} {N : ℕ} (hM : 0 ≤ M)
    (hε : 0 ≤ ε) (hsum : ε1 + κ ≤ ε) (hη : 0 ≤ η) (he : 0 ≤ e)
    (stab : ∀ t ∈ Icc 0 T, ∀ h ∈ Icc 0 hm, ∀ z, ‖z - y t‖ ≤ r → ‖Φ h z - Φ h (y t)‖ ≤ Real.exp (M * h) * ‖z - y t‖)
    (loc : ∀ t h, 0 ≤ t → 0 ≤ h → h ≤ hm → t + h ≤ T → ‖Φ h (y t) - y (t + h)‖ ≤ h * ε1)
    (near : ∀ t h k x x', Ψ h x x' → 0 ≤ t → 0 ≤ h → h ≤ hm → t + h ≤ T → k + 1 ≤ N → I t k x → ‖ζ x - y t‖ ≤ r → I (t + h) (k + 1) x' ∧ ‖ζ x' - Φ h (ζ x)‖ ≤ h * κ + η)
    (small : Real.exp (M * T) * (e + T * ε + N * η) ≤ r) {l : List ℝ} {x x' : X} (R : Rounded.Runs Ψ l x x') :
    ∀ t k, (∀ h ∈ l, 0 ≤ h ∧ h ≤ hm) → 0 ≤ t → t + l.sum ≤ T → k + l.length ≤ N → I t k x → ‖ζ x - y t‖ ≤ Real.exp (M * t) * (e + t * ε + k * η) →
      I (t + l.sum) (k + l.length) x' ∧ ‖ζ x' - y (t + l.sum)‖ ≤ Real.exp (M * (t + l.sum)) * (e + (t + l.sum) * ε + (k + l.length : ℕ) * η) := by
  induction R with
  | nil s => intro t k _ _ _ _ hI hz; exact ⟨by simpa using hI, by simpa using hz⟩
  | @cons h l x x1 x' st _ ih =>
    intro t k hl ht hs hk hI hz
    obtain ⟨h0, h1⟩ := hl h (by simp)
    have hls : 0 ≤ l.sum := List.sum_nonneg fun x hx => (hl x (List.mem_cons_of_mem _ hx)).1
    rw [List.length_cons] at hk
    rw [List.sum_cons, ← add_assoc] at hs ⊢
    rw [List.length_cons, show k + (l.length + 1) = k + 1 + l.length by omega]
    have htT : t ≤ T := by linarith
    have hkN : (k : ℝ) ≤ N := by exact_mod_cast (by omega : k ≤ N)
    have hzr : ‖ζ x - y t‖ ≤ r := hz.trans (le_trans (by gcongr) small)
    obtain ⟨i1, i2⟩ := near t h k x x1 st ht h0 h1 (by linarith) (by omega) hI hzr
    refine ih (t + h) (k + 1) (fun x hx => hl x (List.mem_cons_of_mem _ hx)) (by linarith) hs (by omega) i1 ?_
    have a1 := stab t ⟨ht, htT⟩ h ⟨h0, h1⟩ _ hzr
    have a2 := loc t h ht h0 h1 (by linarith)
    have a3 : ‖ζ (x1) - y (t + h)‖ ≤ ‖ζ (x1) - Φ h (ζ x)‖ + (‖Φ h (ζ x) - Φ h (y t)‖ + ‖Φ h (y t) - y (t + h)‖) :=
      (norm_sub_le_norm_sub_add_norm_sub _ _ _).trans (add_le_add_right (norm_sub_le_norm_sub_add_norm_sub _ _ _) _)
    have a4 : Real.exp (M * h) * ‖ζ x - y t‖ ≤ Real.exp (M * h) * (Real.exp (M * t) * (e + t * ε + k * η)) := by gcongr
    have a5 : Real.exp (M * h) * (Real.exp (M * t) * (e + t * ε + k * η)) = Real.exp (M * (t + h)) * (e + t * ε + k * η) := by
      rw [← mul_assoc, ← Real.exp_add]; ring_nf
    have a6 : h * ε + η ≤ Real.exp (M * (t + h)) * (h * ε + η) := by
      have : 1 ≤ Real.exp (M * (t + h)) := Real.one_le_exp (by positivity)
      nlinarith [mul_nonneg h0 hε]
    have a7 : Real.exp (M * (t + h)) * (e + (t + h) * ε + ((k + 1 : ℕ) : ℝ) * η) = Real.exp (M * (t + h)) * (e + t * ε + k * η) + Real.exp (M * (t + h)) * (h * ε + η) := by
      push_cast; ring
    have a8 : h * ε1 + h * κ ≤ h * ε := by rw [← mul_add]; exact mul_le_mul_of_nonneg_left hsum h0
    linarith

end

section
variable {E : Type*} [NormedAddCommGroup E] [NormedSpace ℝ E] {f : Bool → E → E} {U : Set E}

/-- Stability and local error of an integrator near a solution. -/
theorem order_parts [ProperSpace E] (hU : IsOpen U) (hf : ∀ X, ContDiffOn ℝ ∞ (f X) U) (hst : ∀ X, Straight (f X)) {T : ℝ} {y : ℝ → E}
    (dy : ∀ t ∈ Icc 0 T, HasDerivWithinAt y (f true (y t) + f false (y t)) (Icc 0 T) t) (hyU : ∀ t ∈ Icc 0 T, y t ∈ U) (p N : ℕ) (c : ℝ) :
    ∃ r C M ρ : ℝ, ∃ W : Set E, 0 < r ∧ 0 ≤ C ∧ 0 ≤ M ∧ 0 < ρ ∧ ρ ≤ 1 ∧ IsCompact W ∧ W ⊆ U ∧ ∀ l : List Stage, l.length ≤ N → (∀ s ∈ l, |((coef s : ℚ) : ℝ)| ≤ c) →
      (∀ t ∈ Icc 0 T, ∀ h ∈ Icc 0 ρ, ∀ z, ‖z - y t‖ ≤ r → ‖wstep f l h z - wstep f l h (y t)‖ ≤ Real.exp (M * h) * ‖z - y t‖) ∧
      (∀ t ∈ Icc 0 T, ∀ h ∈ Icc 0 ρ, ∀ z, ‖z - y t‖ ≤ r → ∀ pre suf, l = pre ++ suf → wstep f pre h z ∈ W) ∧
      ∀ hm δ, 0 ≤ hm → hm ≤ ρ → 0 ≤ δ → (∀ w, 1 ≤ w.length → w.length ≤ p → |(deviation l w : ℝ)| * hm ^ (w.length - 1) ≤ δ) →
        ∀ t h, 0 ≤ t → 0 ≤ h → h ≤ hm → t + h ≤ T → ‖wstep f l h (y t) - y (t + h)‖ ≤ h * (C * (hm ^ p + δ)) := by
  have cy : ContinuousOn y (Icc 0 T) := fun t ht => (dy t ht).continuousWithinAt
  have hK : IsCompact (y '' Icc 0 T) := isCompact_Icc.image_of_continuousOn cy
  obtain ⟨r, hr, M, Λ, hΛ0, B, hΛ⟩ := exists_words hU hf hK (by rintro _ ⟨t, ht, rfl⟩; exact hyU t ht) (p + 1)
  have hM := B.hM
  have mem : ∀ t ∈ Icc 0 T, ∀ z, ‖z - y t‖ ≤ r → z ∈ Metric.cthickening r (y '' Icc 0 T) := fun t ht z hz =>
    Metric.mem_cthickening_of_dist_le z (y t) r _ (mem_image_of_mem y ht) (by rwa [dist_eq_norm])
  set c' := max c 1 with hc'
  have hc1 : 1 ≤ c' := le_max_right _ _
  have hc0 : 0 ≤ c' := by linarith
  obtain ⟨C, hC, loc⟩ := order_local B hst hc1 N dy (fun t ht => mem t ht _ (by simpa using hr.le))
  set D := N * (c' * M) + 1 with hD
  have hD1 : 0 < D := by positivity
  refine ⟨r / 2, C, N * (c' * Λ), min 1 (r / 2 / D), Metric.cthickening r (y '' Icc 0 T), by positivity, hC, by positivity, lt_min one_pos (by positivity),
    min_le_left _ _, hK.cthickening, B.sub, fun l hl hco => ?_⟩
  have room : ∀ hm, 0 ≤ hm → hm ≤ min 1 (r / 2 / D) → N * (hm * (c' * M)) ≤ r / 2 := by
    intro hm hm0 hmρ
    have hmD : hm * D ≤ r / 2 := (le_div_iff₀ hD1).1 (hmρ.trans (min_le_right _ _))
    have h1 : hm * D = N * (hm * (c' * M)) + hm := by rw [hD]; ring
    linarith
  have hNl : (l.length : ℝ) ≤ N := by exact_mod_cast hl
  have hco' : ∀ s ∈ l, |((coef s : ℚ) : ℝ)| ≤ c' := fun s hs => (hco s hs).trans (le_max_left _ _)
  have good : ∀ l' : List Stage, (∀ s ∈ l', s ∈ l) → ∀ q ∈ l'.map (fun s => (flow f s, fun z => (coef s : ℝ) • f (letter s) z)),
      Good y T r 1 (c' * M) (c' * Λ) 0 q.1 q.2 := by
    intro l' hl' q hq
    obtain ⟨s, hs, rfl⟩ := List.mem_map.1 hq
    exact flow_good B hΛ (hco' s (hl' s hs))
  have wmap : ∀ l' : List Stage, wstep f l' = comp ((l'.map (fun s => (flow f s, fun z => (coef s : ℝ) • f (letter s) z))).map Prod.fst) := by
    intro l'; rw [List.map_map]; rfl
  have rm : ∀ (l' : List Stage) h, l'.length ≤ N → 0 ≤ h → h ≤ min 1 (r / 2 / D) → ∀ ζ : ℝ, ζ ≤ r / 2 →
      ζ + ((l'.map (fun s => (flow f s, fun z => (coef s : ℝ) • f (letter s) z))).length : ℝ) * (h * (c' * M + 0 * 1)) ≤ r := by
    intro l' h hN h0 hh ζ hζ
    rw [List.length_map]
    have h1 : (l'.length : ℝ) * (h * (c' * M + 0 * 1)) ≤ N * (h * (c' * M)) := by
      rw [zero_mul, add_zero]
      exact mul_le_mul_of_nonneg_right (by exact_mod_cast hN) (by positivity)
    linarith [room h h0 hh]
  refine ⟨fun t ht h hh z hz => ?_, fun t ht h hh z hz pre suf e => ?_, fun hm δ hm0 hmρ hδ0 hdev t h ht h0 hh hTt => ?_⟩
  · have h1 := comp_stable _ (good l fun _ h => h) (by positivity) le_rfl (by positivity) ht (h := h) ⟨hh.1, hh.2.trans (min_le_left _ _)⟩ z (y t)
      (rm l h hl hh.1 hh.2 _ hz) (rm l h hl hh.1 hh.2 _ (by rw [sub_self, norm_zero]; linarith))
    rw [wmap]
    refine h1.trans (mul_le_mul_of_nonneg_right (Real.exp_le_exp.2 ?_) (norm_nonneg _))
    rw [List.length_map]
    exact mul_le_mul_of_nonneg_right (mul_le_mul_of_nonneg_right hNl (by positivity)) hh.1
  · have hpre : pre.length ≤ N := by rw [e, List.length_append] at hl; omega
    have r1 := rm pre h hpre hh.1 hh.2 _ hz
    rw [zero_mul, add_zero] at r1
    have mv := comp_move _ (good pre fun s hs => by rw [e]; exact List.mem_append_left _ hs) (by positivity) ht (h := h) ⟨hh.1, hh.2.trans (min_le_left _ _)⟩ _ r1
    rw [← wmap] at mv
    exact mem _ ht _ (mv.trans r1)
  · refine (loc l hl hco' h t h0 ht hTt (fun z hz => mem t ⟨ht, by linarith⟩ z (hz.trans ?_)) δ (fun w hw hw' => ?_) hδ0).trans ?_
    · have h1 : N * (h * c' * M) ≤ N * (hm * (c' * M)) := by
        rw [mul_assoc h]
        exact mul_le_mul_of_nonneg_left (mul_le_mul_of_nonneg_right hh (by positivity)) (by positivity)
      linarith [room hm hm0 hmρ]
    · exact (mul_le_mul_of_nonneg_left (pow_le_pow_left₀ h0 hh _) (abs_nonneg _)).trans (hdev w hw hw')
    · refine mul_le_mul_of_nonneg_left (mul_le_mul_of_nonneg_left ?_ hC) h0
      linarith [pow_le_pow_left₀ h0 hh p]

end

end SpaceHub.Converge
