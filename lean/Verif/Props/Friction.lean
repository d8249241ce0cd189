import Verif.Props.Force
import Mathlib.Analysis.SpecialFunctions.Log.Deriv
import Mathlib.Analysis.SpecialFunctions.Exp
import Mathlib.Analysis.Complex.ExponentialBounds
import Mathlib.Analysis.SpecificLimits.Basic

/-
C87: the dynamical-friction factor of AlphaDisk as a function of the Mach number.
-/

set_option autoImplicit false

namespace SpaceHub.Props
open SpaceHub Force Filter Topology

/-- The subsonic friction factor of Ostriker (1999), over the square of the Mach number. -/
noncomputable def frictionSub (M : ℝ) : ℝ := (1 / 2 * Real.log ((1 + M) / (1 - M)) - M) / M ^ 2

/-- The supersonic one, with Coulomb logarithm 3. -/
noncomputable def frictionSup (M : ℝ) : ℝ := (1 / 2 * Real.log (1 - 1 / M ^ 2) + 3) / M ^ 2

/-- Half the width of the transonic window. -/
noncomputable def transonic : ℝ := Real.exp (-2)

theorem diskEps_eq : diskEps = transonic := by
  unfold diskEps transonic
  rw [Real.exp_neg, one_div]
  norm_num

theorem transonic_bounds : 0.135 < transonic ∧ transonic < 0.1354 := by
  have h1 := Real.exp_one_gt_d9
  have h2 := Real.exp_one_lt_d9
  have e : transonic = 1 / (Real.exp 1 * Real.exp 1) := by
    unfold transonic
    rw [← Real.exp_add, one_div, ← Real.exp_neg]
    norm_num
  rw [e]
  constructor
  · rw [lt_div_iff₀ (by positivity)]; nlinarith
  · rw [div_lt_iff₀ (by positivity)]; nlinarith

theorem iSub_eq (M : ℝ) : iSub M = frictionSub M := by unfold iSub frictionSub; rw [div_div, ← pow_two]
theorem iSup_eq (M : ℝ) : iSup' M 3 = frictionSup M := by unfold iSup' frictionSup; rw [div_div, div_div, ← pow_two]

/-- `dIdM_sub` is the derivative of the subsonic factor. -/
theorem hasDerivAt_sub {M : ℝ} (h0 : 0 < M) (h1 : M < 1) : HasDerivAt frictionSub (dISub M) M := by
  have d1 : HasDerivAt (fun x : ℝ => (1 + x) / (1 - x)) ((1 * (1 - M) - (1 + M) * (-1)) / (1 - M) ^ 2) M :=
    ((hasDerivAt_id' M).const_add 1).div ((hasDerivAt_id' M).const_sub 1) (by linarith)
  have hp : (1 + M) / (1 - M) ≠ 0 := by have : 0 < (1 + M) / (1 - M) := div_pos (by linarith) (by linarith); exact this.ne'
  have d2 := (((d1.log hp).const_mul (1 / 2)).sub (hasDerivAt_id' M)).div (hasDerivAt_pow 2 M) (by positivity)
  refine d2.congr_deriv ?_
  unfold dISub
  have a : (1 - M) ≠ 0 := by linarith
  have b : (1 + M) ≠ 0 := by linarith
  have c : M * M - 1 ≠ 0 := by nlinarith
  simp only [Pi.sub_apply]
  generalize Real.log ((1 + M) / (1 - M)) = L
  have : M * M - 1 = -((1 - M) * (1 + M)) := by ring
  rw [this]
  field_simp
  ring

/-- `dIdM_sup` is the derivative of the supersonic factor. -/
theorem hasDerivAt_sup {M : ℝ} (h1 : 1 < M) : HasDerivAt frictionSup (dISup M 3) M := by
  have d1 : HasDerivAt (fun x : ℝ => 1 - 1 / x ^ 2) (-((0 * M ^ 2 - 1 * (2 * M)) / (M ^ 2) ^ 2)) M := by
    have := ((hasDerivAt_const M (1:ℝ)).div (hasDerivAt_pow 2 M) (by positivity)).const_sub 1
    simpa using this
  have hM2 : 1 < M ^ 2 := by nlinarith
  have hp : 1 - 1 / M ^ 2 ≠ 0 := by
    have : 1 / M ^ 2 < 1 := by rw [div_lt_one (by positivity)]; exact hM2
    linarith
  have d2 := (((d1.log hp).const_mul (1 / 2)).add_const 3).div (hasDerivAt_pow 2 M) (by positivity)
  refine d2.congr_deriv ?_
  unfold dISup
  have c : M * M - 1 ≠ 0 := by nlinarith
  rw [show 1 / M / M = 1 / M ^ 2 by rw [div_div, ← pow_two]]
  generalize hL : Real.log (1 - 1 / M ^ 2) = L
  have e : 1 - 1 / M ^ 2 = (M * M - 1) / M ^ 2 := by field_simp
  rw [e]
  field_simp
  ring

/-- The connection is the cubic with the given end values and slopes. -/
theorem connect_hermite (M : ℝ) :
    let ε := transonic
    let t := (M - (1 - ε)) / (2 * ε)
    connect M = (1 - t) ^ 2 * (1 + 2 * t) * frictionSub (1 - ε) + t * (1 - t) ^ 2 * (2 * ε) * dISub (1 - ε) +
      t ^ 2 * (3 - 2 * t) * frictionSup (1 + ε) - t ^ 2 * (1 - t) * (2 * ε) * dISup (1 + ε) 3 := by
  intro ε t
  unfold connect
  simp only [diskEps_eq, iSub_eq, iSup_eq]
  rw [show (1 + transonic - (1 - transonic)) = 2 * transonic by ring]
  simp only [show (M - (1 - transonic)) / (2 * transonic) = t from rfl]
  ring

theorem sub_end_bounds : 0 ≤ frictionSub (1 - transonic) ∧ frictionSub (1 - transonic) ≤ 0.61 ∧
    0 ≤ dISub (1 - transonic) ∧ dISub (1 - transonic) ≤ 2.7 := by
  obtain ⟨e1, e2⟩ := transonic_bounds
  set ε := transonic with hε
  have hL : Real.log ((1 + (1 - ε)) / (1 - (1 - ε))) = 2 + Real.log (2 - ε) := by
    rw [show (1 + (1 - ε)) = 2 - ε by ring, show 1 - (1 - ε) = ε by ring, Real.log_div (by linarith) (by linarith)]
    rw [show Real.log ε = -2 by rw [hε, transonic, Real.log_exp]]
    ring
  have l2a := Real.log_two_gt_d9
  have l2b := Real.log_two_lt_d9
  have hl : Real.log (2 - ε) = Real.log 2 + Real.log (1 - ε / 2) := by
    rw [← Real.log_mul (by norm_num) (by linarith)]; congr 1; ring
  have up : Real.log (1 - ε / 2) ≤ -(ε / 2) := by have := Real.log_le_sub_one_of_pos (show 0 < 1 - ε / 2 by linarith); linarith
  have lo : -(ε / 2) / (1 - ε / 2) ≤ Real.log (1 - ε / 2) := by
    have := Real.one_sub_inv_le_log_of_pos (show 0 < 1 - ε / 2 by linarith)
    refine le_trans (le_of_eq ?_) this
    have : (1 - ε / 2) ≠ 0 := by linarith
    rw [div_eq_iff this, sub_mul, inv_mul_cancel₀ this]
    ring
  have lo' : -0.0727 ≤ Real.log (1 - ε / 2) := by
    refine le_trans ?_ lo
    rw [le_div_iff₀ (by linarith)]
    linarith
  have a1 : Real.log (2 - ε) ≤ 0.6257 := by rw [hl]; linarith
  have a2 : 0.62 ≤ Real.log (2 - ε) := by rw [hl]; linarith
  have hx : 0 < (1 - ε) ^ 2 := by nlinarith
  unfold frictionSub dISub
  rw [hL]
  generalize Real.log (2 - ε) = L at *
  have hx1 : 0.8646 ≤ 1 - ε := by linarith
  have hx2 : 1 - ε ≤ 0.865 := by linarith
  generalize 1 - ε = x at *
  have x0 : 0 < x := by linarith
  have x2a : 0.7475 ≤ x * x := by nlinarith
  have x2b : x * x ≤ 0.7483 := by nlinarith
  have x3a : 0.7475 * 0.8646 ≤ x * x * x := mul_le_mul x2a hx1 (by norm_num) (by positivity)
  have x3b : x * x * x ≤ 0.7483 * 0.865 := mul_le_mul x2b hx2 x0.le (by norm_num)
  have pa : 0.2517 * 2.62 ≤ (1 - x * x) * (2 + L) := mul_le_mul (by linarith) (by linarith) (by norm_num) (by linarith)
  have pb : (1 - x * x) * (2 + L) ≤ 0.2525 * 2.6257 := mul_le_mul (by linarith) (by linarith) (by linarith) (by norm_num)
  have hd0 : 0.7475 * 0.8646 * 0.2517 ≤ x * x * x * (1 - x * x) := mul_le_mul x3a (by linarith) (by norm_num) (by positivity)
  have hd : x * x * x * (x * x - 1) = -(x * x * x * (1 - x * x)) := by ring
  rw [hd]
  refine ⟨div_nonneg (by linarith) hx.le, ?_, ?_, ?_⟩
  · rw [div_le_iff₀ hx, pow_two]; linarith
  · exact div_nonneg_of_nonpos (by linarith) (by linarith)
  · rw [div_le_iff_of_neg (by linarith)]
    linarith

theorem sup_end_bounds : 1.5 ≤ frictionSup (1 + transonic) ∧ dISup (1 + transonic) 3 ≤ 0 := by
  obtain ⟨e1, e2⟩ := transonic_bounds
  have hlog : -2 ≤ Real.log (1 - 1 / (1 + transonic) ^ 2) := by
    rw [show (-2:ℝ) = Real.log transonic by rw [transonic, Real.log_exp]]
    apply Real.log_le_log (by linarith)
    rw [le_sub_iff_add_le, ← le_sub_iff_add_le', div_le_iff₀ (by nlinarith)]
    nlinarith
  set x := 1 + transonic with hx
  have hx1 : 1.135 < x := by linarith
  have hx2 : x < 1.1354 := by linarith
  unfold frictionSup dISup
  rw [show 1 / x / x = 1 / x ^ 2 by rw [div_div, ← pow_two]]
  generalize Real.log (1 - 1 / x ^ 2) = L at *
  refine ⟨?_, ?_⟩
  · rw [le_div_iff₀ (by positivity)]; nlinarith
  · rw [div_div, div_div]
    apply div_nonpos_of_nonpos_of_nonneg _ (by positivity)
    have : 1 / (x * x - 1) ≤ 4 := by rw [div_le_iff₀ (by nlinarith)]; nlinarith
    linarith

/-- The value the code takes at Mach number 0.1, where the connecting cubic is evaluated far outside its range. -/
theorem tenth_lower :
    let ε := transonic
    let t := ((1 / 10 : ℝ) - (1 - ε)) / (2 * ε)
    10 < (1 - t) ^ 2 * (1 + 2 * t) * frictionSub (1 - ε) + t * (1 - t) ^ 2 * (2 * ε) * dISub (1 - ε) +
      t ^ 2 * (3 - 2 * t) * frictionSup (1 + ε) - t ^ 2 * (1 - t) * (2 * ε) * dISup (1 + ε) 3 := by
  obtain ⟨e1, e2⟩ := transonic_bounds
  obtain ⟨s1, s2, s3, s4⟩ := sub_end_bounds
  obtain ⟨u1, u2⟩ := sup_end_bounds
  intro ε t
  have ht1 : -2.834 ≤ t := by rw [le_div_iff₀ (by linarith)]; linarith
  have ht2 : t ≤ -2.82 := by rw [div_le_iff₀ (by linarith)]; linarith
  have hε : 2 * ε ≤ 0.2708 := by linarith
  have hε0 : 0 < 2 * ε := by linarith
  change 0 ≤ frictionSub (1 - ε) at s1
  change frictionSub (1 - ε) ≤ 0.61 at s2
  change 0 ≤ dISub (1 - ε) at s3
  change dISub (1 - ε) ≤ 2.7 at s4
  change 1.5 ≤ frictionSup (1 + ε) at u1
  change dISup (1 + ε) 3 ≤ 0 at u2
  generalize frictionSub (1 - ε) = y1 at *
  generalize dISub (1 - ε) = k1 at *
  generalize frictionSup (1 + ε) = y2 at *
  generalize dISup (1 + ε) 3 = k2 at *
  generalize 2 * ε = d at *
  clear_value t
  have q1 : (1 - t) ^ 2 ≤ 14.7 := by nlinarith
  have q1' : 0 ≤ (1 - t) ^ 2 := sq_nonneg _
  have q2 : (1 - t) ^ 2 * (-(1 + 2 * t)) ≤ 14.7 * 4.668 := mul_le_mul q1 (by linarith) (by linarith) (by norm_num)
  have a1 : (1 - t) ^ 2 * (-(1 + 2 * t)) * y1 ≤ 14.7 * 4.668 * 0.61 := mul_le_mul q2 s2 s1 (by norm_num)
  have q3 : -t * (1 - t) ^ 2 ≤ 2.834 * 14.7 := mul_le_mul (by linarith) q1 q1' (by norm_num)
  have q4 : -t * (1 - t) ^ 2 * d ≤ 2.834 * 14.7 * 0.2708 := mul_le_mul q3 hε hε0.le (by norm_num)
  have a2 : -t * (1 - t) ^ 2 * d * k1 ≤ 2.834 * 14.7 * 0.2708 * 2.7 := mul_le_mul q4 s4 s3 (by norm_num)
  have q5 : 7.95 ≤ t ^ 2 := by nlinarith
  have q6 : 7.95 * 8.64 ≤ t ^ 2 * (3 - 2 * t) := mul_le_mul q5 (by linarith) (by norm_num) (by positivity)
  have a3 : 7.95 * 8.64 * 1.5 ≤ t ^ 2 * (3 - 2 * t) * y2 := mul_le_mul q6 u1 (by norm_num) (mul_nonneg (by positivity) (by linarith))
  have a4 : 0 ≤ t ^ 2 * (1 - t) * d * -k2 := mul_nonneg (mul_nonneg (mul_nonneg (sq_nonneg _) (by linarith)) hε0.le) (by linarith)
  nlinarith

/-- The code's factor by ranges. -/
theorem frictionI_cases (M : ℝ) :
    (M < 1 / 10 → frictionI 0 M = M / 3) ∧
    (1 / 10 < M → M < 1 - transonic → frictionI 0 M = frictionSub M) ∧
    (M = 1 / 10 ∨ (1 - transonic ≤ M ∧ M ≤ 1 + transonic) → frictionI 0 M = connect M) ∧
    (1 + transonic < M → frictionI 0 M = frictionSup M) := by
  obtain ⟨e1, e2⟩ := transonic_bounds
  unfold frictionI
  rw [if_pos (le_refl _), diskEps_eq]
  refine ⟨fun h => ?_, fun h1 h2 => ?_, fun h => ?_, fun h => ?_⟩
  · rw [if_neg (by linarith), if_neg (by rintro ⟨a, b⟩; linarith), if_pos h]
  · rw [if_neg (by linarith), if_pos ⟨h1, h2⟩, ← iSub_eq, iSub, div_div]
  · rcases h with h | ⟨h1, h2⟩
    · rw [if_neg (by linarith), if_neg (by rintro ⟨a, b⟩; linarith), if_neg (by linarith)]
    · rw [if_neg (by linarith), if_neg (by rintro ⟨a, b⟩; linarith), if_neg (by linarith)]
  · rw [if_pos h, frictionSup, ← pow_two]

theorem frictionI_force (f : Int) (hf : 0 ≤ f) (M : ℝ) : frictionI f M = frictionI 0 M := by
  unfold frictionI
  rw [if_pos hf, if_pos (le_refl _)]

/-- **C87, sign.** The friction factor is never negative. -/
theorem C87_nonneg (f : Int) (M : ℝ) (h0 : 0 ≤ M) : 0 ≤ frictionI f M := by
  by_cases hf : 0 ≤ f
  swap
  · unfold frictionI; rw [if_neg hf]
  by_cases h : M ≠ 1 / 10 ∧ (M < 1 - transonic ∨ 1 + transonic < M)
  · have e : 1 / Real.exp 2 = transonic := by rw [transonic, Real.exp_neg, one_div]
    exact C51_friction_factor_nonneg f M h0 h.1 (by rw [e]; exact h.2)
  rw [frictionI_force f hf]
  obtain ⟨e1, e2⟩ := transonic_bounds
  obtain ⟨s1, s2, s3, s4⟩ := sub_end_bounds
  obtain ⟨u1, u2⟩ := sup_end_bounds
  have hM : M = 1 / 10 ∨ (1 - transonic ≤ M ∧ M ≤ 1 + transonic) := by
    by_cases hm : M = 1 / 10
    · exact Or.inl hm
    · right
      by_contra hc
      apply h
      refine ⟨hm, ?_⟩
      by_cases h1 : M < 1 - transonic
      · exact Or.inl h1
      · right
        by_contra h2
        exact hc ⟨by linarith, by linarith⟩
  rw [(frictionI_cases M).2.2.1 hM, connect_hermite M]
  rcases hM with rfl | ⟨h1, h2⟩
  · have key := tenth_lower
    linarith
  · set t := (M - (1 - transonic)) / (2 * transonic)
    have t0 : 0 ≤ t := div_nonneg (by linarith) (by linarith)
    have t1 : t ≤ 1 := by rw [div_le_one (by linarith)]; linarith
    have a1 : 0 ≤ (1 - t) ^ 2 * (1 + 2 * t) * frictionSub (1 - transonic) := by positivity
    have a2 : 0 ≤ t * (1 - t) ^ 2 * (2 * transonic) * dISub (1 - transonic) := by
      have : 0 ≤ transonic := by linarith
      positivity
    have a3 : 0 ≤ t ^ 2 * (3 - 2 * t) * frictionSup (1 + transonic) :=
      mul_nonneg (mul_nonneg (sq_nonneg _) (by linarith)) (by linarith)
    have a4 : 0 ≤ t ^ 2 * (1 - t) * (2 * transonic) * -dISup (1 + transonic) 3 :=
      mul_nonneg (mul_nonneg (mul_nonneg (sq_nonneg _) (by linarith)) (by linarith)) (by linarith)
    linarith

theorem connect_ends : connect (1 - transonic) = frictionSub (1 - transonic) ∧ connect (1 + transonic) = frictionSup (1 + transonic) := by
  obtain ⟨e1, e2⟩ := transonic_bounds
  have h : (2 * transonic) ≠ 0 := by linarith
  constructor
  · rw [connect_hermite]; simp
  · rw [connect_hermite]
    simp only [show (1 + transonic - (1 - transonic)) / (2 * transonic) = 1 by field_simp; ring]
    norm_num

theorem hasDerivAt_connect (M : ℝ) :
    let ε := transonic
    let t := (M - (1 - ε)) / (2 * ε)
    HasDerivAt connect ((-6 * t + 6 * t ^ 2) / (2 * ε) * frictionSub (1 - ε) + (1 - 4 * t + 3 * t ^ 2) * dISub (1 - ε) +
      (6 * t - 6 * t ^ 2) / (2 * ε) * frictionSup (1 + ε) - (2 * t - 3 * t ^ 2) * dISup (1 + ε) 3) M := by
  obtain ⟨e1, e2⟩ := transonic_bounds
  intro ε t
  have h : (2 * ε) ≠ 0 := by change (2 * transonic) ≠ 0; linarith
  have ht : HasDerivAt (fun x => (x - (1 - ε)) / (2 * ε)) (1 / (2 * ε)) M := ((hasDerivAt_id' M).sub_const _).div_const _
  have hc : connect = fun x => (fun s : ℝ => (1 - s) ^ 2 * (1 + 2 * s) * frictionSub (1 - ε) + s * (1 - s) ^ 2 * (2 * ε) * dISub (1 - ε) +
      s ^ 2 * (3 - 2 * s) * frictionSup (1 + ε) - s ^ 2 * (1 - s) * (2 * ε) * dISup (1 + ε) 3) ((x - (1 - ε)) / (2 * ε)) :=
    funext fun x => connect_hermite x
  rw [hc]
  have i := hasDerivAt_id' t
  have j := i.const_sub 1
  have k := (i.const_mul 2).const_add 1
  have l := (i.const_mul 2).const_sub 3
  have d := ((((((j.pow 2).mul k).mul_const (frictionSub (1 - ε))).add (((i.mul (j.pow 2)).mul_const (2 * ε)).mul_const (dISub (1 - ε)))).add
    (((i.pow 2).mul l).mul_const (frictionSup (1 + ε)))).sub ((((i.pow 2).mul j).mul_const (2 * ε)).mul_const (dISup (1 + ε) 3)))
  have := HasDerivAt.comp M d ht
  refine this.congr_deriv ?_
  simp only [Pi.pow_apply]
  clear_value t
  generalize 2 * ε = d at *
  norm_num
  field_simp
  ring

/-- **C87, formula.** Away from the window the factor is Ostriker's; below Mach 0.1 it is its leading term, short by at most
`M^3 / (5 (1 - M^2))`. -/
theorem C87_formula (f : Int) (hf : 0 ≤ f) (M : ℝ) (h0 : 0 < M) :
    (1 + transonic < M → frictionI f M = frictionSup M) ∧
    (1 / 10 < M → M < 1 - transonic → frictionI f M = frictionSub M) ∧
    (M < 1 / 10 → 0 ≤ frictionSub M - frictionI f M ∧ frictionSub M - frictionI f M ≤ M ^ 3 / (5 * (1 - M ^ 2))) := by
  rw [frictionI_force f hf]
  obtain ⟨a, b, c, d⟩ := frictionI_cases M
  refine ⟨d, b, fun h => ?_⟩
  rw [a h]
  have hlt : |M| < 1 := by rw [abs_of_pos h0]; linarith
  have hs := Real.hasSum_log_sub_log_of_abs_lt_one hlt
  rw [← Real.log_div (by linarith) (by linarith)] at hs
  have hs2 := (hasSum_nat_add_iff' 2).mpr hs
  have hg := (hasSum_geometric_of_lt_one (sq_nonneg M) (by nlinarith : M ^ 2 < 1)).mul_left (2 / 5 * M ^ 5)
  have hle := hasSum_le (fun k => ?_) hs2 hg
  · have hge := hs2.nonneg (fun k => by positivity)
    simp [Finset.sum_range_succ] at hle hge
    unfold frictionSub
    rw [one_div_mul_eq_div] at *
    have hM : M ^ 2 < 1 := by nlinarith
    generalize Real.log ((1 + M) / (1 - M)) = L at *
    have e : (L / 2 - M) / M ^ 2 - M / 3 = (L - (2 * M + 2 * 3⁻¹ * M ^ 3)) / (2 * M ^ 2) := by field_simp; ring
    rw [e]
    constructor
    · exact div_nonneg (by linarith) (by positivity)
    · rw [div_le_div_iff₀ (by positivity) (by linarith)]
      have h1 : (L - (2 * M + 2 * 3⁻¹ * M ^ 3)) ≤ 2 / 5 * M ^ 5 * (1 - M ^ 2)⁻¹ := by linarith
      have h2 : (L - (2 * M + 2 * 3⁻¹ * M ^ 3)) * (1 - M ^ 2) ≤ 2 / 5 * M ^ 5 := by
        exact (le_div_iff₀ (by linarith)).mp (h1.trans_eq (div_eq_mul_inv _ _).symm)
      nlinarith
  · have h5 : (1:ℝ) / (2 * (↑(k + 2) : ℝ) + 1) ≤ 1 / 5 := by
      apply one_div_le_one_div_of_le (by norm_num)
      push_cast
      have : (0:ℝ) ≤ k := Nat.cast_nonneg k
      linarith
    have e : M ^ (2 * (k + 2) + 1) = M ^ 5 * (M ^ 2) ^ k := by rw [← pow_mul, ← pow_add]; congr 1; ring
    rw [e]
    have : 0 ≤ M ^ 5 * (M ^ 2) ^ k := by positivity
    nlinarith

/-- **C87, smoothness.** The factor is continuous at every positive Mach number other than 0.1, and has a derivative (no kink) at both ends of the
transonic window. -/
theorem C87_smooth (f : Int) (hf : 0 ≤ f) :
    (∀ M, 0 < M → M ≠ 1 / 10 → ContinuousAt (frictionI f) M) ∧ DifferentiableAt ℝ (frictionI f) (1 - transonic) ∧
      DifferentiableAt ℝ (frictionI f) (1 + transonic) := by
  obtain ⟨e1, e2⟩ := transonic_bounds
  have hfun : frictionI f = frictionI 0 := funext (frictionI_force f hf)
  rw [hfun]
  have dA : HasDerivAt (frictionI 0) (dISub (1 - transonic)) (1 - transonic) := by
    have d1 := hasDerivAt_sub (show 0 < 1 - transonic by linarith) (by linarith)
    have d2 := hasDerivAt_connect (1 - transonic)
    simp at d2
    rw [← hasDerivWithinAt_univ, ← Set.Iic_union_Ici (a := 1 - transonic)]
    apply HasDerivWithinAt.union
    · refine (d1.hasDerivWithinAt (s := Set.Iic (1 - transonic))).congr_of_eventuallyEq ?_ ?_
      · have : Set.Ioi (1 / 10 : ℝ) ∈ 𝓝[Set.Iic (1 - transonic)] (1 - transonic) := mem_nhdsWithin_of_mem_nhds (Ioi_mem_nhds (by norm_num; linarith))
        filter_upwards [this, self_mem_nhdsWithin] with x hx hx2
        rcases (show x ≤ 1 - transonic from hx2).lt_or_eq with h | h
        · exact (frictionI_cases x).2.1 hx h
        · subst h
          rw [(frictionI_cases _).2.2.1 (Or.inr ⟨le_refl _, by linarith⟩), connect_ends.1]
      · rw [(frictionI_cases _).2.2.1 (Or.inr ⟨le_refl _, by linarith⟩), connect_ends.1]
    · refine (d2.hasDerivWithinAt (s := Set.Ici (1 - transonic))).congr_of_eventuallyEq ?_ ?_
      · have : Set.Iio (1 + transonic) ∈ 𝓝[Set.Ici (1 - transonic)] (1 - transonic) := mem_nhdsWithin_of_mem_nhds (Iio_mem_nhds (by linarith))
        filter_upwards [this, self_mem_nhdsWithin] with x hx hx2
        exact (frictionI_cases x).2.2.1 (Or.inr ⟨hx2, le_of_lt hx⟩)
      · exact (frictionI_cases _).2.2.1 (Or.inr ⟨le_refl _, by linarith⟩)
  have dB : HasDerivAt (frictionI 0) (dISup (1 + transonic) 3) (1 + transonic) := by
    have d1 := hasDerivAt_sup (show 1 < 1 + transonic by linarith)
    have d2 := hasDerivAt_connect (1 + transonic)
    have hne : 2 * transonic ≠ 0 := by linarith
    simp only [show (1 + transonic - (1 - transonic)) / (2 * transonic) = 1 by field_simp; ring] at d2
    norm_num at d2
    rw [← hasDerivWithinAt_univ, ← Set.Iic_union_Ici (a := 1 + transonic)]
    apply HasDerivWithinAt.union
    · refine (d2.hasDerivWithinAt (s := Set.Iic (1 + transonic))).congr_of_eventuallyEq ?_ ?_
      · have : Set.Ioi (1 - transonic) ∈ 𝓝[Set.Iic (1 + transonic)] (1 + transonic) := mem_nhdsWithin_of_mem_nhds (Ioi_mem_nhds (by linarith))
        filter_upwards [this, self_mem_nhdsWithin] with x hx hx2
        exact (frictionI_cases x).2.2.1 (Or.inr ⟨le_of_lt hx, hx2⟩)
      · exact (frictionI_cases _).2.2.1 (Or.inr ⟨by linarith, le_refl _⟩)
    · refine (d1.hasDerivWithinAt (s := Set.Ici (1 + transonic))).congr_of_eventuallyEq ?_ ?_
      · filter_upwards [self_mem_nhdsWithin] with x hx2
        rcases (show 1 + transonic ≤ x from hx2).lt_or_eq with h | h
        · exact (frictionI_cases x).2.2.2 h
        · subst h
          rw [(frictionI_cases _).2.2.1 (Or.inr ⟨by linarith, le_refl _⟩), connect_ends.2]
      · rw [(frictionI_cases _).2.2.1 (Or.inr ⟨by linarith, le_refl _⟩), connect_ends.2]
  refine ⟨?_, dA.differentiableAt, dB.differentiableAt⟩
  intro M h0 h1
  rcases lt_trichotomy M (1 / 10) with h | h | h
  · have : (fun x : ℝ => x / 3) =ᶠ[𝓝 M] frictionI 0 := by
      filter_upwards [Iio_mem_nhds h] with x hx
      exact ((frictionI_cases x).1 hx).symm
    exact (continuousAt_id.div_const 3).congr this
  · exact absurd h h1
  rcases lt_trichotomy M (1 - transonic) with h' | h' | h'
  · have : frictionSub =ᶠ[𝓝 M] frictionI 0 := by
      filter_upwards [Ioi_mem_nhds h, Iio_mem_nhds h'] with x hx hx2
      exact ((frictionI_cases x).2.1 hx hx2).symm
    exact (hasDerivAt_sub h0 (by linarith)).continuousAt.congr this
  · rw [h']; exact dA.continuousAt
  rcases lt_trichotomy M (1 + transonic) with h2 | h2 | h2
  · have : connect =ᶠ[𝓝 M] frictionI 0 := by
      filter_upwards [Ioi_mem_nhds h', Iio_mem_nhds h2] with x hx hx2
      exact ((frictionI_cases x).2.2.1 (Or.inr ⟨le_of_lt hx, le_of_lt hx2⟩)).symm
    exact (hasDerivAt_connect M).continuousAt.congr this
  · rw [h2]; exact dB.continuousAt
  · have : frictionSup =ᶠ[𝓝 M] frictionI 0 := by
      filter_upwards [Ioi_mem_nhds h2] with x hx
      exact ((frictionI_cases x).2.2.2 hx).symm
    exact (hasDerivAt_sup (by linarith)).continuousAt.congr this

/-- **C87 is false of the code at Mach 0.1**: neither comparison holds there, the connecting cubic is evaluated far outside its window, and the factor is
more than 200 times that of every slower particle. -/
theorem C87_tenth (f : Int) (hf : 0 ≤ f) : 10 < frictionI f (1 / 10) ∧ ∀ M, 0 ≤ M → M < 1 / 10 → 200 * frictionI f M < frictionI f (1 / 10) := by
  have h : 10 < frictionI f (1 / 10) := by
    rw [frictionI_force f hf, (frictionI_cases _).2.2.1 (Or.inl rfl), connect_hermite]
    exact tenth_lower
  refine ⟨h, fun M h0 h1 => ?_⟩
  rw [frictionI_force f hf M, (frictionI_cases M).1 h1]
  linarith

/-- **C51 for the alpha disc, every Mach number**: the drag never accelerates a particle along its velocity through the gas. -/
theorem C51_alpha_disk_opposes_always (G : ℝ) (D : DiskParams) (rad : Arr ℝ) (P : Particles) (acc : Arr (V3 ℝ)) (k : Nat)
    (h1 : 1 ≤ k) (hk : k < P.num) (hm0 : 0 ≤ P.mass 0) (hmk : 0 < P.mass k) (hQ : 0 < D.Q) (ha : 0 ≤ D.alpha) (hl : 0 ≤ D.lambda) :
    V3.dot ((P.vel k - P.vel 0) - diskV (P.pos k - P.pos 0) (P.mass 0)) (alphaAcc G D rad P acc k - acc k) ≤ 0 := by
  refine C51_alpha_disk_opposes G D rad P acc k h1 hk hm0 hmk hQ (C87_nonneg _ _ ?_)
  apply div_nonneg (Real.sqrt_nonneg _)
  unfold localOmegaH
  have := Real.pi_pos
  apply mul_nonneg (Real.sqrt_nonneg _)
  apply mul_nonneg _ (Real.sqrt_nonneg _)
  apply Real.rpow_nonneg
  positivity

/-- Concrete cases: Mach 2, and a star of one solar mass moving through the disc of a heavy central body. -/
example : frictionI 1 2 = frictionSup 2 := (C87_formula 1 (by norm_num) 2 (by norm_num)).1 (by have := transonic_bounds.2; linarith)

example (acc : Arr (V3 ℝ)) :
    let P : Particles := { num := 2, mass := fun i => if i = 0 then 10 ^ 6 else 1, pos := fun i => ⟨(i : ℝ) * 100, 0, 0⟩, vel := fun i => ⟨0, (i : ℝ) * 3, 0⟩ }
    V3.dot ((P.vel 1 - P.vel 0) - diskV (P.pos 1 - P.pos 0) (P.mass 0)) (alphaAcc 1 ⟨1, 1 / 10, 1, 0⟩ (fun _ => 1) P acc 1 - acc 1) ≤ 0 :=
  C51_alpha_disk_opposes_always 1 ⟨1, 1 / 10, 1, 0⟩ (fun _ => 1) _ acc 1 (by norm_num) (by norm_num) (by norm_num) (by norm_num) (by norm_num) (by norm_num)
    (by norm_num)

end SpaceHub.Props
