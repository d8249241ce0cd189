import Verif.Proof.LetterWords
import Mathlib.Data.Set.Finite.List

/-
The error of integrators composed of the flows of several vector fields, by the order conditions.
-/

set_option autoImplicit false

namespace SpaceHub.Letters
open Set Converge
open scoped ContDiff

variable {ι : Type*} [Fintype ι] [DecidableEq ι] {E : Type*} [NormedAddCommGroup E] [NormedSpace ℝ E]
variable {f : ι → E → E} {U S : Set E} {M : ℝ} {p : ℕ}

/-- local error -/
theorem order_local (B : Bounds f U S (p + 1) M) (hst : ∀ X, Straight (f X)) {c : ℝ} (hc : 1 ≤ c) (N : ℕ) {T : ℝ} {y : ℝ → E}
    (dy : ∀ t ∈ Icc 0 T, HasDerivWithinAt y (∑ X, f X (y t)) (Icc 0 T) t) (hS : ∀ t ∈ Icc 0 T, y t ∈ S) : ∃ C, 0 ≤ C ∧
    ∀ l : List (ι × ℚ), l.length ≤ N → (∀ s ∈ l, |(s.2 : ℝ)| ≤ c) → ∀ h t, 0 ≤ h → 0 ≤ t → t + h ≤ T → Room S (N * (h * c * M)) (y t) →
      ∀ δ, (∀ w, 1 ≤ w.length → w.length ≤ p → |(deviation l w : ℝ)| * h ^ (w.length - 1) ≤ δ) → 0 ≤ δ →
        ‖wstep f l h (y t) - y (t + h)‖ ≤ h * (C * (h ^ p + δ)) := by
  have hM := B.hM
  have hle : (0 : ℝ) < lett ι := lt_of_lt_of_le one_pos lett_one
  choose C hC H using fun N => taylor_step B hst (Nat.le_add_left 1 p) hc N
  refine ⟨(∑ i ∈ Finset.range (N + 1), C i) + lett ι ^ (p + 1) * M + lett ι ^ p * M, ?_, fun l hl hco h t hh ht hT room δ hδ hδ0 => ?_⟩
  · have := Finset.sum_nonneg fun i (_ : i ∈ Finset.range (N + 1)) => hC i
    positivity
  have hNl : (l.length : ℝ) ≤ N := by exact_mod_cast hl
  have hc0 : 0 ≤ c := by linarith
  have E1 := (H l.length l rfl hco).2 h hh (y t) (fun z hz => room z (hz.trans (mul_le_mul_of_nonneg_right hNl (by positivity)))) p [] (by simp)
  have E2 := taylor_sum B dy hS ht (p + 1) [] (by simp) h hh hT
  have E3 : ‖sumW p (fun u => (h ^ u.length * (deviation l u : ℝ)) • lieW f (u ++ []) (y t))‖ ≤ lett ι ^ p * (h * δ * M) := by
    refine sumW_norm p _ (by positivity) fun u hu => ?_
    rcases Nat.eq_zero_or_pos u.length with h0 | h0
    · rw [List.length_eq_zero_iff.1 h0, deviation, wordCoef_nil]
      simp only [List.length_nil, Nat.factorial_zero, Nat.cast_one, div_one, sub_self, Rat.cast_zero, mul_zero, zero_smul, norm_zero]
      positivity
    · rw [norm_smul, norm_mul, norm_pow, Real.norm_of_nonneg hh, Real.norm_eq_abs]
      refine mul_le_mul ?_ (B.bound _ (by simpa using by omega) _ (hS t ⟨ht, by linarith⟩)) (norm_nonneg _) (by positivity)
      have h1 := mul_le_mul_of_nonneg_left (hδ u h0 hu) hh
      have e : h ^ u.length = h * h ^ (u.length - 1) := by rw [← pow_succ']; congr 1; omega
      rw [e]
      linarith
  have e : sumW p (fun u => (h ^ u.length * (deviation l u : ℝ)) • lieW f (u ++ []) (y t)) =
      sumW p (fun u => (h ^ u.length * (wordCoef l u : ℝ)) • lieW f (u ++ []) (y t)) -
      sumL (p + 1) (fun u => (h ^ u.length / u.length.factorial) • lieW f (u ++ []) (y t)) := by
    rw [sumL, ← sumW_sub]
    refine sumW_congr p fun u _ => ?_
    rw [← sub_smul, deviation]
    push_cast
    rw [mul_sub, mul_one_div]
  rw [e] at E3
  have hCl : C l.length ≤ ∑ i ∈ Finset.range (N + 1), C i :=
    Finset.single_le_sum (fun i _ => hC i) (Finset.mem_range.2 (by omega))
  have e' : wstep f l h (y t) - y (t + h) = (lieW f [] (wstep f l h (y t)) - sumW p (fun u => (h ^ u.length * (wordCoef l u : ℝ)) • lieW f (u ++ []) (y t))) +
      (sumW p (fun u => (h ^ u.length * (wordCoef l u : ℝ)) • lieW f (u ++ []) (y t)) -
      sumL (p + 1) (fun u => (h ^ u.length / u.length.factorial) • lieW f (u ++ []) (y t))) -
      (lieW f [] (y (t + h)) - sumL (p + 1) (fun u => (h ^ u.length / u.length.factorial) • lieW f (u ++ []) (y t))) := by
    simp only [lieW, id]; abel
  rw [e']
  refine (norm_sub_le _ _).trans ((add_le_add ((norm_add_le _ _).trans (add_le_add E1 E3)) E2).trans ?_)
  have hS0 := Finset.sum_nonneg fun i (_ : i ∈ Finset.range (N + 1)) => hC i
  have p1 : C l.length * h ^ (p + 1) ≤ (∑ i ∈ Finset.range (N + 1), C i) * h ^ (p + 1) := mul_le_mul_of_nonneg_right hCl (by positivity)
  have p2 : 0 ≤ (∑ i ∈ Finset.range (N + 1), C i) * (h * δ) := by positivity
  have p3 : 0 ≤ lett ι ^ (p + 1) * M * (h * δ) := by positivity
  have p4 : 0 ≤ lett ι ^ p * M * h ^ (p + 1) := by positivity
  have e2 : h * ((∑ i ∈ Finset.range (N + 1), C i + lett ι ^ (p + 1) * M + lett ι ^ p * M) * (h ^ p + δ)) =
    ((∑ i ∈ Finset.range (N + 1), C i) * h ^ (p + 1) + lett ι ^ (p + 1) * M * h ^ (p + 1) + lett ι ^ p * M * h ^ (p + 1)) +
    ((∑ i ∈ Finset.range (N + 1), C i) * (h * δ) + lett ι ^ (p + 1) * M * (h * δ) + lett ι ^ p * M * (h * δ)) := by ring
  rw [e2]
  linarith

omit [DecidableEq ι] in
/-- bounds on a neighbourhood of a compact set -/
theorem exists_words [ProperSpace E] (hU : IsOpen U) (hf : ∀ X, ContDiffOn ℝ ∞ (f X) U) {K : Set E} (hK : IsCompact K) (hKU : K ⊆ U) (p : ℕ) :
    ∃ r > 0, ∃ M Λ, 0 ≤ Λ ∧ Bounds f U (Metric.cthickening r K) p M ∧ ∀ X, ∀ z ∈ Metric.cthickening r K, ‖fderiv ℝ (f X) z‖ ≤ Λ := by
  obtain ⟨r, hr, hrU⟩ := hK.exists_cthickening_subset_open hU hKU
  have hc : IsCompact (Metric.cthickening r K) := hK.cthickening
  choose C hC using fun w => hc.exists_bound_of_continuousOn ((lieW_smooth hU hf w).continuousOn.mono hrU)
  obtain ⟨M, hM⟩ := ((List.finite_length_le ι p).image C).bddAbove
  choose D hD using fun X => hc.exists_bound_of_continuousOn (((hf X).continuousOn_fderiv_of_isOpen hU (by simp)).mono hrU)
  refine ⟨r, hr, max M 0, max (∑ X, max (D X) 0) 0, le_max_right _ _, ⟨hU, hf, hrU, le_max_right _ _, fun w hw y hy => ?_⟩, fun X z hz => ?_⟩
  · exact (hC w y hy).trans ((hM ⟨w, hw, rfl⟩).trans (le_max_left _ _))
  · refine (hD X z hz).trans (le_trans ?_ (le_max_left _ _))
    exact (le_max_left _ _).trans (Finset.single_le_sum (f := fun X => max (D X) 0) (fun i _ => le_max_right _ _) (Finset.mem_univ X))

omit [Fintype ι] [DecidableEq ι] in
/-- the stages near the exact solution -/
theorem flow_good {T r : ℝ} {y : ℝ → E} (B : Bounds f U (Metric.cthickening r (y '' Icc 0 T)) (p + 1) M) {Λ : ℝ}
    (hΛ : ∀ X, ∀ z ∈ Metric.cthickening r (y '' Icc 0 T), ‖fderiv ℝ (f X) z‖ ≤ Λ) {c h1 : ℝ} {s : ι × ℚ} (hs : |(s.2 : ℝ)| ≤ c) :
    Good y T r h1 (c * M) (c * Λ) 0 (flow f s) (fun z => (s.2 : ℝ) • f s.1 z) := by
  have mem : ∀ t ∈ Icc 0 T, ∀ z, ‖z - y t‖ ≤ r → z ∈ Metric.cthickening r (y '' Icc 0 T) := fun t ht z hz =>
    Metric.mem_cthickening_of_dist_le z (y t) r _ (mem_image_of_mem y ht) (by rwa [dist_eq_norm])
  have hc : 0 ≤ c := (abs_nonneg _).trans hs
  have lip : ∀ t ∈ Icc 0 T, ∀ z z', ‖z - y t‖ ≤ r → ‖z' - y t‖ ≤ r →
      ‖(s.2 : ℝ) • f s.1 z - (s.2 : ℝ) • f s.1 z'‖ ≤ c * Λ * ‖z - z'‖ := by
    intro t ht z z' hz hz'
    have key := Convex.norm_image_sub_le_of_norm_fderiv_le (𝕜 := ℝ) (f := f s.1) (C := Λ) (s := Metric.closedBall (y t) r) (x := z') (y := z)
      (fun w hw => ((B.hf s.1).differentiableOn (by simp)).differentiableAt (B.hU.mem_nhds (B.sub (mem t ht w (by rwa [← dist_eq_norm])))))
      (fun w hw => hΛ _ _ (mem t ht w (by rwa [← dist_eq_norm]))) (convex_closedBall _ _)
      (by rwa [Metric.mem_closedBall, dist_eq_norm]) (by rwa [Metric.mem_closedBall, dist_eq_norm])
    rw [← smul_sub, norm_smul, Real.norm_eq_abs, mul_assoc]
    exact mul_le_mul hs key (norm_nonneg _) hc
  refine ⟨fun t ht z hz => ?_, lip, fun t ht h hh z hz => ?_, fun t ht h hh z z' hz hz' => ?_⟩
  · rw [norm_smul, Real.norm_eq_abs]
    refine mul_le_mul hs ?_ (norm_nonneg _) hc
    have := B.bound [s.1] (by simp) z (mem t ht z hz)
    simpa [lieW] using this
  · rw [flow, add_sub_cancel_left, smul_smul, sub_self, norm_zero, zero_mul]
  · have e : flow f s h z - flow f s h z' = (z - z') + h • ((s.2 : ℝ) • f s.1 z - (s.2 : ℝ) • f s.1 z') := by
      rw [flow, flow, smul_sub, smul_smul, smul_smul]; abel
    rw [e]
    refine (norm_add_le _ _).trans ?_
    rw [norm_smul, Real.norm_of_nonneg hh.1]
    have := mul_le_mul_of_nonneg_left (lip t ht z z' hz hz') hh.1
    linarith

theorem comp_move {y : ℝ → E} {T r h1 b Λ : ℝ} (l : List ((ℝ → E → E) × (E → E))) (G : ∀ q ∈ l, Good y T r h1 b Λ 0 q.1 q.2) (hb : 0 ≤ b)
    {t h : ℝ} (ht : t ∈ Icc 0 T) (hh : h ∈ Icc 0 h1) :
    ∀ z, ‖z - y t‖ + l.length * (h * b) ≤ r → ‖comp (l.map Prod.fst) h z - y t‖ ≤ ‖z - y t‖ + l.length * (h * b) := by
  have hm : 0 ≤ h * b := mul_nonneg hh.1 hb
  induction l with
  | nil => intro z _; simp [comp]
  | cons q l ih =>
    intro z hz
    rw [List.length_cons] at hz ⊢
    push_cast at hz ⊢
    have hl : 0 ≤ (l.length : ℝ) * (h * b) := by positivity
    have h1 := (G q List.mem_cons_self).move ht hh le_rfl (z := z) (by nlinarith)
    rw [zero_mul, add_zero] at h1
    have h2 := ih (fun q' hq => G q' (List.mem_cons_of_mem _ hq)) (q.1 h z) (by nlinarith)
    refine h2.trans ?_
    nlinarith

/-- Order conditions up to words of `p` letters make the error of the order of the `p`-th power of the step; `π` is applied before
every step. -/
theorem order_global [ProperSpace E] (hU : IsOpen U) (hf : ∀ X, ContDiffOn ℝ ∞ (f X) U) (hst : ∀ X, Straight (f X)) {T : ℝ} (hT : 0 ≤ T) {y : ℝ → E}
    (dy : ∀ t ∈ Icc 0 T, HasDerivWithinAt y (∑ X, f X (y t)) (Icc 0 T) t) (hyU : ∀ t ∈ Icc 0 T, y t ∈ U) (p N : ℕ) (hp : 1 ≤ p) (c : ℝ)
    {π : E → E} (hπ : ∀ z z', ‖π z - π z'‖ ≤ ‖z - z'‖) (hfix : ∀ t ∈ Icc 0 T, π (y t) = y t) {ε : ℝ} (hε : 0 < ε) :
    ∃ K ρ : ℝ, 0 ≤ K ∧ 0 < ρ ∧ ρ ≤ 1 ∧ ∀ l : List (ι × ℚ), l.length ≤ N → (∀ s ∈ l, |(s.2 : ℝ)| ≤ c) → ∀ hm δ, 0 ≤ hm → hm ≤ ρ → 0 ≤ δ → δ ≤ ρ →
      (∀ w, 1 ≤ w.length → w.length ≤ p → |(deviation l w : ℝ)| * hm ^ (w.length - 1) ≤ δ) →
      (T + 1) * (K * (hm ^ p + δ)) ≤ ε ∧ ∀ hs : List ℝ, (∀ h ∈ hs, 0 ≤ h ∧ h ≤ hm) → hs.sum ≤ T →
        ‖iter (fun h z => wstep f l h (π z)) hs (y 0) - y hs.sum‖ ≤ hs.sum * (K * (hm ^ p + δ)) ∧ ∀ pre suf h, l = pre ++ suf → 0 ≤ h → h ≤ hm →
          wstep f pre h (π (iter (fun h z => wstep f l h (π z)) hs (y 0))) ∈ U := by
  have cy : ContinuousOn y (Icc 0 T) := fun t ht => (dy t ht).continuousWithinAt
  have hK : IsCompact (y '' Icc 0 T) := isCompact_Icc.image_of_continuousOn cy
  obtain ⟨r, hr, M, Λ, hΛ0, B, hΛ⟩ := exists_words hU hf hK (by rintro _ ⟨t, ht, rfl⟩; exact hyU t ht) (p + 1)
  have hM := B.hM
  have mem : ∀ t ∈ Icc 0 T, ∀ z, ‖z - y t‖ ≤ r → z ∈ Metric.cthickening r (y '' Icc 0 T) := fun t ht z hz =>
    Metric.mem_cthickening_of_dist_le z (y t) r _ (mem_image_of_mem y ht) (by rwa [dist_eq_norm])
  set c' := max c 1 with hc'
  have hc1 : 1 ≤ c' := le_max_right _ _
  have hc0 : 0 ≤ c' := by linarith
  obtain ⟨C, hC, loc⟩ := order_local B hst hc1 N dy (fun t ht => mem t ht _ (by simpa using hr.le))
  set K := Real.exp (N * (c' * Λ) * T) * C with hKd
  have hK0 : 0 ≤ K := by positivity
  set D := 2 * ((T + 1) * K) + N * (c' * M) + 1 with hD
  have hD1 : 0 < D := by positivity
  have hre : 0 < min (r / 2) ε := lt_min (by positivity) hε
  refine ⟨K, min 1 (min (r / 2) ε / D), hK0, lt_min one_pos (by positivity), min_le_left _ _, fun l hl hco hm δ hm0 hmρ hδ0 hδρ hdev => ?_⟩
  have hm1 : hm ≤ 1 := hmρ.trans (min_le_left _ _)
  have hmD : hm * D ≤ min (r / 2) ε := (le_div_iff₀ hD1).1 (hmρ.trans (min_le_right _ _))
  have hδD : δ * D ≤ min (r / 2) ε := (le_div_iff₀ hD1).1 (hδρ.trans (min_le_right _ _))
  have hmp : hm ^ p ≤ hm := pow_le_of_le_one hm0 hm1 (by omega)
  have hmp0 : 0 ≤ hm ^ p := by positivity
  have small : (T + 1) * (K * (hm ^ p + δ)) ≤ min (r / 2) ε := by
    have h1 : (T + 1) * (K * (hm ^ p + δ)) ≤ (T + 1) * (K * (hm + δ)) :=
      mul_le_mul_of_nonneg_left (mul_le_mul_of_nonneg_left (by linarith) hK0) (by linarith)
    have h2 : 0 ≤ (N * (c' * M) + 1) * (hm + δ) := by positivity
    have h3 : hm * D + δ * D = 2 * ((T + 1) * (K * (hm + δ))) + (N * (c' * M) + 1) * (hm + δ) := by rw [hD]; ring
    linarith
  have small' : T * (K * (hm ^ p + δ)) ≤ min (r / 2) ε := by
    have : 0 ≤ K * (hm ^ p + δ) := by positivity
    linarith [show (T + 1) * (K * (hm ^ p + δ)) = T * (K * (hm ^ p + δ)) + K * (hm ^ p + δ) by ring]
  have room : N * (hm * (c' * M)) ≤ r / 2 := by
    have h1 : hm * D = 2 * ((T + 1) * K * hm) + N * (hm * (c' * M)) + hm := by rw [hD]; ring
    have h2 : 0 ≤ (T + 1) * K * hm := by positivity
    have := min_le_left (r / 2) ε
    linarith
  have hNl : (l.length : ℝ) ≤ N := by exact_mod_cast hl
  have hco' : ∀ s ∈ l, |(s.2 : ℝ)| ≤ c' := fun s hs => (hco s hs).trans (le_max_left _ _)
  have good : ∀ l' : List (ι × ℚ), (∀ s ∈ l', s ∈ l) → ∀ q ∈ l'.map (fun s => (flow f s, fun z => (s.2 : ℝ) • f s.1 z)),
      Good y T r 1 (c' * M) (c' * Λ) 0 q.1 q.2 := by
    intro l' hl' q hq
    obtain ⟨s, hs, rfl⟩ := List.mem_map.1 hq
    exact flow_good B hΛ (hco' s (hl' s hs))
  have wmap : ∀ l' : List (ι × ℚ), wstep f l' = comp ((l'.map (fun s => (flow f s, fun z => (s.2 : ℝ) • f s.1 z))).map Prod.fst) := by
    intro l'; rw [List.map_map]; rfl
  have rm : ∀ (l' : List (ι × ℚ)) h, l'.length ≤ N → 0 ≤ h → h ≤ hm → ∀ ζ : ℝ, ζ ≤ r / 2 →
      ζ + ((l'.map (fun s => (flow f s, fun z => (s.2 : ℝ) • f s.1 z))).length : ℝ) * (h * (c' * M + 0 * 1)) ≤ r := by
    intro l' h hN h0 hh ζ hζ
    rw [List.length_map]
    have h1 : (l'.length : ℝ) * (h * (c' * M + 0 * 1)) ≤ N * (hm * (c' * M)) := by
      rw [zero_mul, add_zero]
      exact mul_le_mul (by exact_mod_cast hN) (mul_le_mul_of_nonneg_right hh (by positivity)) (by positivity) (by positivity)
    linarith
  have stab : ∀ t ∈ Icc 0 T, ∀ h ∈ Icc 0 hm, ∀ z, ‖z - y t‖ ≤ r / 2 → ‖wstep f l h z - wstep f l h (y t)‖ ≤ Real.exp (N * (c' * Λ) * h) * ‖z - y t‖ := by
    intro t ht h hh z hz
    have h1 := comp_stable _ (good l fun _ h => h) (by positivity) le_rfl (by positivity) ht (h := h) ⟨hh.1, hh.2.trans hm1⟩ z (y t)
      (rm l h hl hh.1 hh.2 _ hz) (rm l h hl hh.1 hh.2 _ (by rw [sub_self, norm_zero]; linarith))
    rw [wmap]
    refine h1.trans (mul_le_mul_of_nonneg_right (Real.exp_le_exp.2 ?_) (norm_nonneg _))
    rw [List.length_map]
    exact mul_le_mul_of_nonneg_right (mul_le_mul_of_nonneg_right hNl (by positivity)) hh.1
  have hloc : ∀ t h, 0 ≤ t → 0 ≤ h → h ≤ hm → t + h ≤ T → ‖wstep f l h (y t) - y (t + h)‖ ≤ h * (C * (hm ^ p + δ)) := by
    intro t h ht h0 hh hTt
    refine (loc l hl hco' h t h0 ht hTt (fun z hz => mem t ⟨ht, by linarith⟩ z (hz.trans ?_)) δ (fun w hw hw' => ?_) hδ0).trans ?_
    · have h1 : N * (h * c' * M) ≤ N * (hm * (c' * M)) := by
        rw [mul_assoc h]
        exact mul_le_mul_of_nonneg_left (mul_le_mul_of_nonneg_right hh (by positivity)) (by positivity)
      linarith
    · exact (mul_le_mul_of_nonneg_left (pow_le_pow_left₀ h0 hh _) (abs_nonneg _)).trans (hdev w hw hw')
    · refine mul_le_mul_of_nonneg_left (mul_le_mul_of_nonneg_left ?_ hC) h0
      linarith [pow_le_pow_left₀ h0 hh p]
  have final : ∀ hs : List ℝ, (∀ h ∈ hs, 0 ≤ h ∧ h ≤ hm) → hs.sum ≤ T → ‖iter (fun h z => wstep f l h (π z)) hs (y 0) - y hs.sum‖ ≤ hs.sum * (K * (hm ^ p + δ)) := by
    intro hs hhs hsum
    have hs0 : 0 ≤ hs.sum := List.sum_nonneg fun h hh => (hhs h hh).1
    have key := global (Φ := fun h z => wstep f l h (π z)) (y := y) (T := T) (r := r / 2) (M := N * (c' * Λ)) (hm := hm) (ε := C * (hm ^ p + δ)) (by positivity) (by positivity)
      (fun t ht h hh z hz => by
        have h1 := hπ z (y t)
        rw [hfix t ht] at h1 ⊢
        exact (stab t ht h hh (π z) (h1.trans hz)).trans (mul_le_mul_of_nonneg_left h1 (Real.exp_pos _).le))
      (fun t h ht h0 hh hTt => by rw [hfix t ⟨ht, by linarith⟩]; exact hloc t h ht h0 hh hTt) (by
        rw [show Real.exp (N * (c' * Λ) * T) * (T * (C * (hm ^ p + δ))) = T * (K * (hm ^ p + δ)) by rw [hKd]; ring]
        exact small'.trans (min_le_left _ _)) hs 0 (y 0) hhs le_rfl (by rwa [zero_add]) (by simp)
    rw [zero_add] at key
    refine key.trans ?_
    rw [show hs.sum * (K * (hm ^ p + δ)) = Real.exp (N * (c' * Λ) * T) * (hs.sum * (C * (hm ^ p + δ))) by rw [hKd]; ring]
    exact mul_le_mul_of_nonneg_right (Real.exp_le_exp.2 (mul_le_mul_of_nonneg_left hsum (by positivity))) (by positivity)
  refine ⟨small.trans (min_le_right _ _), fun hs hhs hsum => ⟨final hs hhs hsum, fun pre suf h e h0 hh => ?_⟩⟩
  have hs0 : 0 ≤ hs.sum := List.sum_nonneg fun h hh => (hhs h hh).1
  have ht : hs.sum ∈ Icc 0 T := ⟨hs0, hsum⟩
  have hz : ‖iter (fun h z => wstep f l h (π z)) hs (y 0) - y hs.sum‖ ≤ r / 2 := (final hs hhs hsum).trans ((mul_le_mul_of_nonneg_right hsum (by positivity)).trans (small'.trans (min_le_left _ _)))
  have hz' : ‖π (iter (fun h z => wstep f l h (π z)) hs (y 0)) - y hs.sum‖ ≤ r / 2 := by
    have := hπ (iter (fun h z => wstep f l h (π z)) hs (y 0)) (y hs.sum)
    rw [hfix _ ht] at this
    exact this.trans hz
  have hpre : pre.length ≤ N := by rw [e, List.length_append] at hl; omega
  have r1 := rm pre h hpre h0 hh _ hz'
  rw [zero_mul, add_zero] at r1
  have mv := comp_move _ (good pre fun s hs => by rw [e]; exact List.mem_append_left _ hs) (by positivity) ht (h := h) ⟨h0, hh.trans hm1⟩ _ r1
  rw [← wmap] at mv
  exact B.sub (mem _ ht _ (mv.trans r1))

end SpaceHub.Letters
