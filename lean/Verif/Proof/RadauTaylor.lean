import Mathlib.Analysis.Calculus.MeanValue
import Mathlib.Analysis.Calculus.ContDiff.RCLike
import Mathlib.Analysis.Calculus.ContDiff.Operations
import Mathlib.Analysis.Calculus.Deriv.Pow
import Mathlib.Topology.MetricSpace.Thickening
import Mathlib.Analysis.Normed.Module.FiniteDimension

/-
Taylor polynomials of the solutions of a differential equation, as functions of the state.
-/

set_option autoImplicit false

namespace SpaceHub.Converge
open Set Finset
open scoped ContDiff

variable {E : Type*} [NormedAddCommGroup E] [NormedSpace ℝ E]

/-- The repeated rates of change of the state along the field `F`. -/
noncomputable def lie (F : E → E) : ℕ → E → E
  | 0 => id
  | i + 1 => fun z => fderiv ℝ (lie F i) z (F z)

theorem lie_one (F : E → E) (z : E) : lie F 1 z = F z := by
  show fderiv ℝ id z (F z) = F z
  rw [fderiv_id]; rfl

theorem lie_smooth {F : E → E} {U : Set E} (hU : IsOpen U) (hF : ContDiffOn ℝ ∞ F U) : ∀ i, ContDiffOn ℝ ∞ (lie F i) U
  | 0 => contDiffOn_id
  | i + 1 => ((lie_smooth hU hF i).fderiv_of_isOpen hU (by simp)).clm_apply hF

/-- bounds for the field on a set -/
structure Mild (F : E → E) (W : Set E) (M : ℝ) : Prop where
  hM : 1 ≤ M
  diff : ∀ i, i ≤ 17 → ∀ z ∈ W, DifferentiableAt ℝ (lie F i) z
  val : ∀ i, 1 ≤ i → i ≤ 17 → ∀ z ∈ W, ‖lie F i z‖ ≤ M
  der : ∀ i, i ≤ 17 → ∀ z ∈ W, ‖fderiv ℝ (lie F i) z‖ ≤ M

theorem exists_mild {F : E → E} {U : Set E} (hU : IsOpen U) (hF : ContDiffOn ℝ ∞ F U) {W : Set E} (hW : IsCompact W) (hWU : W ⊆ U) :
    ∃ M, Mild F W M := by
  choose A hA using fun i => hW.exists_bound_of_continuousOn ((lie_smooth hU hF i).continuousOn.mono hWU)
  choose B hB using fun i => hW.exists_bound_of_continuousOn
    (((lie_smooth hU hF i).continuousOn_fderiv_of_isOpen hU (by simp)).mono hWU)
  set M := 1 + ∑ i ∈ range 18, (|A i| + |B i|) with hM
  have le : ∀ i, i ≤ 17 → |A i| + |B i| ≤ M := fun i hi => by
    have := single_le_sum (f := fun i => |A i| + |B i|) (fun i _ => by positivity) (mem_range.2 (by omega : i < 18))
    rw [hM]; linarith
  refine ⟨M, ⟨?_, fun i _ z hz => ?_, fun i _ hi z hz => ?_, fun i hi z hz => ?_⟩⟩
  · have : 0 ≤ ∑ i ∈ range 18, (|A i| + |B i|) := sum_nonneg fun i _ => by positivity
    rw [hM]; linarith
  · exact ((lie_smooth hU hF i).differentiableOn (by simp)).differentiableAt (hU.mem_nhds (hWU hz))
  · exact (hA i z hz).trans (by linarith [le i hi, le_abs_self (A i), abs_nonneg (B i)])
  · exact (hB i z hz).trans (by linarith [le i hi, le_abs_self (B i), abs_nonneg (A i)])

theorem Mild.lip {F : E → E} {W : Set E} {M : ℝ} (m : Mild F W M) {i : ℕ} (hi : i ≤ 17) {x : E} {r : ℝ} (hr : Metric.closedBall x r ⊆ W)
    {z z' : E} (hz : ‖z - x‖ ≤ r) (hz' : ‖z' - x‖ ≤ r) : ‖lie F i z - lie F i z'‖ ≤ M * ‖z - z'‖ :=
  (convex_closedBall x r).norm_image_sub_le_of_norm_fderiv_le (𝕜 := ℝ) (fun w hw => m.diff i hi w (hr hw)) (fun w hw => m.der i hi w (hr hw))
    (mem_closedBall_iff_norm.2 hz') (mem_closedBall_iff_norm.2 hz)

/-- Taylor's formula when each function is only nearly the derivative of the one before. -/
theorem taylor_near {H δ B : ℝ} (hH : H ≤ 1) (hδ : 0 ≤ δ) (hB : 0 ≤ B) (N : ℕ) : ∀ (g d : ℕ → ℝ → E),
    (∀ i, i < N → ∀ s ∈ Icc 0 H, HasDerivWithinAt (g i) (d i s) (Icc 0 H) s) →
    (∀ i, i < N → ∀ s ∈ Icc 0 H, ‖d i s - g (i + 1) s‖ ≤ δ) → (∀ s ∈ Icc 0 H, ‖g N s‖ ≤ B) →
    ∀ s ∈ Icc 0 H, ‖g 0 s - ∑ i ∈ range N, (s ^ i / (i.factorial : ℝ)) • g i 0‖ ≤ B * s ^ N + N * δ * s := by
  induction N with
  | zero => intro g d _ _ h3 s hs; simpa using h3 s hs
  | succ N ih =>
    intro g d h1 h2 h3 s hs
    have key := ih (fun i => g (i + 1)) (fun i => d (i + 1)) (fun i hi => h1 (i + 1) (by omega)) (fun i hi => h2 (i + 1) (by omega)) h3
    have hsum : ∀ τ, (∑ i ∈ range (N + 1), (τ ^ i / (i.factorial : ℝ)) • g i 0) =
        (∑ i ∈ range N, (τ ^ (i + 1) / ((i + 1).factorial : ℝ)) • g (i + 1) 0) + g 0 0 := fun τ => by
      rw [sum_range_succ']; simp
    have dp : ∀ τ, HasDerivAt (fun τ => ∑ i ∈ range (N + 1), (τ ^ i / (i.factorial : ℝ)) • g i 0)
        (∑ i ∈ range N, (τ ^ i / (i.factorial : ℝ)) • g (i + 1) 0) τ := fun τ => by
      rw [funext hsum]
      refine (HasDerivAt.fun_sum fun i _ => ?_).add_const _
      refine HasDerivAt.smul_const ?_ _
      have := ((hasDerivAt_pow (i + 1) τ).div_const ((i + 1).factorial : ℝ))
      convert this using 1
      rw [Nat.factorial_succ]
      push_cast
      have h0 : (i.factorial : ℝ) ≠ 0 := by positivity
      have h1 : ((i : ℝ) + 1) ≠ 0 := by positivity
      field_simp
    have sub : Icc 0 s ⊆ Icc 0 H := Icc_subset_Icc le_rfl hs.2
    have s1 : s ≤ 1 := hs.2.trans hH
    have mv := Convex.norm_image_sub_le_of_norm_hasDerivWithin_le (f := fun τ => g 0 τ - ∑ i ∈ range (N + 1), (τ ^ i / (i.factorial : ℝ)) • g i 0)
      (f' := fun τ => d 0 τ - ∑ i ∈ range N, (τ ^ i / (i.factorial : ℝ)) • g (i + 1) 0) (s := Icc 0 s) (C := B * s ^ N + (N + 1) * δ) (x := 0) (y := s)
      (fun τ hτ => (((h1 0 (by omega) τ (sub hτ)).mono sub).sub (dp τ).hasDerivWithinAt))
      (fun τ hτ => by
        have e : d 0 τ - ∑ i ∈ range N, (τ ^ i / (i.factorial : ℝ)) • g (i + 1) 0 =
            (d 0 τ - g 1 τ) + (g 1 τ - ∑ i ∈ range N, (τ ^ i / (i.factorial : ℝ)) • g (i + 1) 0) := by abel
        rw [e]
        have a1 := h2 0 (by omega) τ (sub hτ)
        have a2 := key τ (sub hτ)
        have a3 : B * τ ^ N ≤ B * s ^ N := mul_le_mul_of_nonneg_left (pow_le_pow_left₀ hτ.1 hτ.2 N) hB
        have a4 : N * δ * τ ≤ N * δ * 1 := mul_le_mul_of_nonneg_left (hτ.2.trans s1) (by positivity)
        have := norm_add_le (d 0 τ - g 1 τ) (g 1 τ - ∑ i ∈ range N, (τ ^ i / (i.factorial : ℝ)) • g (i + 1) 0)
        simp only [zero_add] at a1 a2
        linarith)
      (convex_Icc _ _) ⟨le_rfl, hs.1⟩ ⟨hs.1, le_rfl⟩
    have z0 : g 0 0 - ∑ i ∈ range (N + 1), ((0 : ℝ) ^ i / (i.factorial : ℝ)) • g i 0 = 0 := by
      rw [hsum]; simp
    simp only [z0, sub_zero, Real.norm_of_nonneg hs.1] at mv
    refine mv.trans (le_of_eq ?_)
    push_cast; ring

/-- The Taylor polynomial of the solution that starts from `z`. -/
noncomputable def tay (F : E → E) (N : ℕ) (s : ℝ) (z : E) : E := ∑ i ∈ range (N + 1), (s ^ i / (i.factorial : ℝ)) • lie F i z

/-- its derivative -/
noncomputable def tayD (F : E → E) (N : ℕ) (s : ℝ) (z : E) : E := ∑ i ∈ range N, (s ^ i / (i.factorial : ℝ)) • lie F (i + 1) z

theorem coef_le {s : ℝ} (h0 : 0 ≤ s) (h1 : s ≤ 1) (i : ℕ) : 0 ≤ s ^ i / (i.factorial : ℝ) ∧ s ^ i / (i.factorial : ℝ) ≤ 1 := by
  refine ⟨by positivity, ?_⟩
  have a : s ^ i ≤ 1 := pow_le_one₀ h0 h1
  have b : (1 : ℝ) ≤ i.factorial := by exact_mod_cast Nat.one_le_iff_ne_zero.2 (Nat.factorial_ne_zero i)
  rw [div_le_one (by linarith)]; linarith

theorem coef_le' {s : ℝ} (h0 : 0 ≤ s) (h1 : s ≤ 1) (i : ℕ) : s ^ (i + 1) / ((i + 1).factorial : ℝ) ≤ s := by
  have a : s ^ (i + 1) ≤ s := pow_le_of_le_one h0 h1 (by omega)
  have b : (1 : ℝ) ≤ (i + 1).factorial := by exact_mod_cast Nat.one_le_iff_ne_zero.2 (Nat.factorial_ne_zero (i + 1))
  rw [div_le_iff₀ (by linarith)]; nlinarith

theorem tay_eq (F : E → E) (N : ℕ) (s : ℝ) (z : E) :
    tay F N s z = z + ∑ i ∈ range N, (s ^ (i + 1) / ((i + 1).factorial : ℝ)) • lie F (i + 1) z := by
  rw [tay, sum_range_succ', add_comm]; simp [lie]

theorem tay_deriv (F : E → E) (N : ℕ) (s : ℝ) (z : E) : HasDerivAt (fun s => tay F N s z) (tayD F N s z) s := by
  rw [funext fun s => tay_eq F N s z]
  refine (HasDerivAt.fun_sum fun i _ => ?_).const_add _
  refine HasDerivAt.smul_const ?_ _
  have := ((hasDerivAt_pow (i + 1) s).div_const ((i + 1).factorial : ℝ))
  convert this using 1
  rw [Nat.factorial_succ]
  push_cast
  have h0 : (i.factorial : ℝ) ≠ 0 := by positivity
  have h1 : ((i : ℝ) + 1) ≠ 0 := by positivity
  field_simp

variable {F : E → E} {W : Set E} {M : ℝ}

theorem tay_near (m : Mild F W M) {N : ℕ} (hN : N ≤ 17) {s : ℝ} (h0 : 0 ≤ s) (h1 : s ≤ 1) {z : E} (hz : z ∈ W) :
    ‖tay F N s z - z‖ ≤ N * M * s := by
  rw [tay_eq, add_sub_cancel_left]
  refine (norm_sum_le _ _).trans ?_
  have : ∀ i ∈ range N, ‖(s ^ (i + 1) / ((i + 1).factorial : ℝ)) • lie F (i + 1) z‖ ≤ s * M := fun i hi => by
    rw [norm_smul, Real.norm_of_nonneg (coef_le h0 h1 _).1]
    exact mul_le_mul (coef_le' h0 h1 i) (m.val (i + 1) (by omega) (by have := mem_range.1 hi; omega) z hz) (norm_nonneg _) h0
  refine (sum_le_sum this).trans (le_of_eq ?_)
  rw [sum_const, card_range, nsmul_eq_mul]; ring

theorem tay_lip (m : Mild F W M) {N : ℕ} (hN : N ≤ 17) {s : ℝ} (h0 : 0 ≤ s) (h1 : s ≤ 1) {x : E} {r : ℝ} (hr : Metric.closedBall x r ⊆ W) {z z' : E}
    (hz : ‖z - x‖ ≤ r) (hz' : ‖z' - x‖ ≤ r) : ‖tay F N s z - tay F N s z'‖ ≤ (1 + N * M * s) * ‖z - z'‖ := by
  have e : tay F N s z - tay F N s z' = (z - z') + ∑ i ∈ range N, (s ^ (i + 1) / ((i + 1).factorial : ℝ)) • (lie F (i + 1) z - lie F (i + 1) z') := by
    rw [tay_eq, tay_eq]
    simp only [smul_sub, sum_sub_distrib]; abel
  have : ∀ i ∈ range N, ‖(s ^ (i + 1) / ((i + 1).factorial : ℝ)) • (lie F (i + 1) z - lie F (i + 1) z')‖ ≤ s * (M * ‖z - z'‖) := fun i hi => by
    rw [norm_smul, Real.norm_of_nonneg (coef_le h0 h1 _).1]
    exact mul_le_mul (coef_le' h0 h1 i) (m.lip (by have := mem_range.1 hi; omega) hr hz hz') (norm_nonneg _) h0
  rw [e]
  refine (norm_add_le _ _).trans ?_
  have s1 := (norm_sum_le _ _).trans (sum_le_sum this)
  rw [sum_const, card_range, nsmul_eq_mul] at s1
  have : (N : ℝ) * (s * (M * ‖z - z'‖)) = N * M * s * ‖z - z'‖ := by ring
  linarith

/-- the Taylor polynomial nearly solves the equation -/
theorem tay_solves (m : Mild F W M) {N : ℕ} (hN : N ≤ 16) {z : E} {r : ℝ} (hr0 : 0 ≤ r) (hr : Metric.closedBall z r ⊆ W) {H : ℝ} (h0 : 0 ≤ H) (h1 : H ≤ 1)
    (hr1 : N * M * H ≤ r) (hH : N * M * H ≤ 1 / 2) : ‖F (tay F N H z) - tayD F N H z‖ ≤ 2 * M * H ^ N := by
  have hM := m.hM
  have zW : z ∈ W := hr (Metric.mem_closedBall_self hr0)
  have tW : ∀ s ∈ Icc 0 H, tay F N s z ∈ W := fun s hs => hr (by
    rw [mem_closedBall_iff_norm]
    refine (tay_near m (by omega) hs.1 (hs.2.trans h1) zW).trans (le_trans ?_ hr1)
    exact mul_le_mul_of_nonneg_left hs.2 (by positivity))
  have ct : ContinuousOn (fun s => tay F N s z) (Icc 0 H) := fun s _ => (tay_deriv F N s z).continuousAt.continuousWithinAt
  have cd : ContinuousOn (fun s => tayD F N s z) (Icc 0 H) := by
    unfold tayD
    refine continuousOn_finsetSum _ fun i _ => ?_
    exact (((continuousOn_id.pow i).div_const _).smul continuousOn_const)
  have cF : ContinuousOn (fun s => F (tay F N s z)) (Icc 0 H) := fun s hs => by
    have := (m.diff 1 (by omega) _ (tW s hs)).continuousAt
    rw [funext (lie_one F)] at this
    exact ContinuousAt.comp_continuousWithinAt (f := fun s => tay F N s z) (g := F) this (ct s hs)
  obtain ⟨s0, hs0, hmax⟩ := isCompact_Icc.exists_isMaxOn (nonempty_Icc.2 h0) (cF.sub cd).norm
  set σ := ‖F (tay F N s0 z) - tayD F N s0 z‖ with hσ
  have hle : ∀ s ∈ Icc 0 H, ‖F (tay F N s z) - tayD F N s z‖ ≤ σ := fun s hs => hmax hs
  have key := taylor_near (E := E) h1 (mul_nonneg (by linarith : 0 ≤ M) (norm_nonneg _) : 0 ≤ M * σ) (by linarith : 0 ≤ M) N (fun i s => lie F (i + 1) (tay F N s z))
    (fun i s => fderiv ℝ (lie F (i + 1)) (tay F N s z) (tayD F N s z))
    (fun i hi s hs => by
      have hf := (m.diff (i + 1) (by omega) _ (tW s hs)).hasFDerivAt
      exact (hf.comp_hasDerivAt s (tay_deriv F N s z)).hasDerivWithinAt)
    (fun i hi s hs => by
      show ‖fderiv ℝ (lie F (i + 1)) (tay F N s z) (tayD F N s z) - fderiv ℝ (lie F (i + 1)) (tay F N s z) (F (tay F N s z))‖ ≤ M * σ
      rw [← map_sub]
      refine (ContinuousLinearMap.le_opNorm _ _).trans ?_
      refine mul_le_mul (m.der (i + 1) (by omega) _ (tW s hs)) ?_ (norm_nonneg _) (by linarith)
      rw [norm_sub_rev]; exact hle s hs)
    (fun s hs => m.val (N + 1) (by omega) (by omega) _ (tW s hs))
  have t0 : tay F N 0 z = z := by rw [tay_eq]; simp
  have all : ∀ s ∈ Icc 0 H, ‖F (tay F N s z) - tayD F N s z‖ ≤ M * H ^ N + σ / 2 := fun s hs => by
    have a1 := key s hs
    simp only [t0, zero_add, lie_one] at a1
    have a2 : M * s ^ N ≤ M * H ^ N := mul_le_mul_of_nonneg_left (pow_le_pow_left₀ hs.1 hs.2 N) (by linarith)
    have a3 : N * (M * σ) * s ≤ σ / 2 := by
      have b1 : N * (M * σ) * s = (N * M * s) * σ := by ring
      have b2 : N * M * s ≤ 1 / 2 := le_trans (mul_le_mul_of_nonneg_left hs.2 (by positivity)) hH
      rw [b1]
      have := mul_le_mul_of_nonneg_right b2 (norm_nonneg (F (tay F N s0 z) - tayD F N s0 z))
      rw [← hσ] at this; linarith
    have a4 : tayD F N s z = ∑ i ∈ range N, (s ^ i / (i.factorial : ℝ)) • lie F (i + 1) z := rfl
    rw [a4]; linarith
  have := all s0 hs0
  rw [← hσ] at this
  have := all H ⟨h0, le_rfl⟩
  linarith

/-- the Taylor polynomial of a solution -/
theorem tay_motion (m : Mild F W M) {N : ℕ} (hN : N ≤ 16) {y : ℝ → E} {t h : ℝ} (h0 : 0 ≤ h) (h1 : h ≤ 1)
    (dy : ∀ s ∈ Icc t (t + h), HasDerivWithinAt y (F (y s)) (Icc t (t + h)) s) (hW : ∀ s ∈ Icc t (t + h), y s ∈ W) :
    ‖y (t + h) - tay F N h (y t)‖ ≤ M * h ^ (N + 1) := by
  have hM := m.hM
  have mem : ∀ s ∈ Icc 0 h, t + s ∈ Icc t (t + h) := fun s hs => ⟨by linarith [hs.1], by linarith [hs.2]⟩
  have ds : ∀ s ∈ Icc 0 h, HasDerivWithinAt (fun s => y (t + s)) (F (y (t + s))) (Icc 0 h) s := fun s hs => by
    have := (dy _ (mem s hs)).scomp s ((hasDerivWithinAt_id s (Icc 0 h)).const_add t) mem
    rw [one_smul] at this
    exact this
  have key := taylor_near (E := E) h1 le_rfl (by linarith : 0 ≤ M) (N + 1) (fun i s => lie F i (y (t + s)))
    (fun i s => lie F (i + 1) (y (t + s)))
    (fun i hi s hs => (m.diff i (by omega) _ (hW _ (mem s hs))).hasFDerivAt.comp_hasDerivWithinAt s (ds s hs))
    (fun i hi s hs => by simp)
    (fun s hs => m.val (N + 1) (by omega) (by omega) _ (hW _ (mem s hs))) h ⟨h0, le_rfl⟩
  simpa [tay, lie] using key

end SpaceHub.Converge
