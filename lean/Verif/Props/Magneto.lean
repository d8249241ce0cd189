import Verif.Proof.Magneto
import Mathlib.Analysis.SpecialFunctions.Pow.Continuity

/-
C79, C80, C81: the tabulated gas disc (`MagnetoDisk`).
-/

set_option autoImplicit false

namespace SpaceHub.Props
open SpaceHub Orbit Profile Magneto

/-- The decimal logarithm of the Mach number at which the reads outside the table begin. -/
noncomputable def xOut : ℝ := 1.9999999999999979

theorem xOut_eq : xOut = 1.9999999999999979 := rfl

theorem diskRho_eq (r : V3 ℝ) : ∃ y, lookup lgR lgRho (axisDist r / cm) = .ok y ∧ diskRho r = .ok ((10:ℝ) ^ y / 5.893333333333333e-07) ∧
    (axisDist r / cm ≠ 0 → ∃ y', ValueAt lgR lgRho (axisDist r / cm) y' ∧ |y - y'| ≤ 0.01424) := by
  obtain ⟨y, h, h'⟩ := lookup_ok rho_table lgR_last (axisDist r / cm)
  refine ⟨y, h, by rw [diskRho, h, Sys.Res.ok_bind], fun hr => ?_⟩
  obtain ⟨y', h1, h2⟩ := h' hr
  exact ⟨y', h1, by norm_num at h2 ⊢; exact h2⟩

theorem diskH_eq (r : V3 ℝ) : ∃ y, diskH r = .ok ((10:ℝ) ^ y / 1.5e13) ∧
    (axisDist r / cm ≠ 0 → ∃ y', ValueAt lgR lgH (axisDist r / cm) y' ∧ |y - y'| ≤ 0.000912) := by
  obtain ⟨y, h, h'⟩ := lookup_ok H_table lgR_last (axisDist r / cm)
  refine ⟨y, by rw [diskH, h, Sys.Res.ok_bind], fun hr => ?_⟩
  obtain ⟨y', h1, h2⟩ := h' hr
  exact ⟨y', h1, by norm_num at h2 ⊢; exact h2⟩

theorem cm_pos : 0 < cm := by unfold cm; norm_num

theorem diskV_eq (r : V3 ℝ) (hr : axisDist r ≠ 0) : ∃ w, diskV r = .ok ⟨-(w * 3.357318203286629e-07) * r.y / axisDist r, w * 3.357318203286629e-07 * r.x / axisDist r, 0⟩ ∧
    ∃ y', ValueAt lgR vel (axisDist r / cm) y' ∧ |w - y'| ≤ 13179 := by
  obtain ⟨w, h, h'⟩ := lookup_ok vel_table lgR_last (axisDist r / cm)
  refine ⟨w, by simp only [diskV, h, Sys.Res.ok_bind, fdiv, if_neg hr], ?_⟩
  obtain ⟨y', h1, h2⟩ := h' (div_ne_zero hr cm_pos.ne')
  exact ⟨y', h1, by norm_num at h2 ⊢; exact h2⟩

theorem cellValue_right {xs ys : List ℚ} {B : ℚ} (T : TableOk xs ys B) (i : Nat) (hi : i + 1 < xs.length) (x : ℝ) :
    cellValue xs ys i x = at' ys (i + 1) + (x - at' xs (i + 1)) * slope xs ys i := by
  have hx : (at' xs (i + 1) - at' xs i : ℝ) ≠ 0 := by
    have := at_lt T (i + 1) i (by omega) hi
    intro h; linarith
  simp only [cellValue, slope]
  push_cast
  field_simp
  ring

theorem axis_ne (r : V3 ℝ) (h : r.x ≠ 0 ∨ r.y ≠ 0) : axisDist r ≠ 0 := by
  unfold axisDist
  rw [Real.sqrt_ne_zero']
  rcases h with h | h
  · nlinarith [mul_self_pos.mpr h, mul_self_nonneg r.y]
  · nlinarith [mul_self_pos.mpr h, mul_self_nonneg r.x]

theorem onSegment_unique {xs ys : List ℚ} {B : ℚ} (T : TableOk xs ys B) (i : Nat) (hi : i + 1 < xs.length) {x y : ℝ} (h0 : (at' xs i : ℝ) < x)
    (h1 : x < at' xs (i + 1)) (h : OnSegment xs ys x y) : y = cellValue xs ys i x := by
  obtain ⟨j, x0, x1, y0, y1, a, b, c, d, h2, h3, e⟩ := h
  have hb : j + 1 < xs.length := by
    rcases Nat.lt_or_ge (j + 1) xs.length with h | h
    · exact h
    · rw [List.getElem?_eq_none h] at b; cases b
  have hl := T.len
  rw [getElem?_at (by omega)] at a b c d
  cases a; cases b; cases c; cases d
  have hj : j = i := by
    rcases Nat.lt_trichotomy j i with h | h | h
    · rcases Nat.lt_or_ge (j + 1) i with h4 | h4
      · linarith [at_lt T i (j + 1) h4 (by omega)]
      · have : j + 1 = i := by omega
        subst this; linarith
    · exact h
    · rcases Nat.lt_or_ge (i + 1) j with h4 | h4
      · linarith [at_lt T j (i + 1) h4 (by omega)]
      · have : i + 1 = j := by omega
        subst this; linarith
  subst hj
  have hx : (at' xs (j + 1) - at' xs j : ℝ) ≠ 0 := by
    have := at_lt T (j + 1) j (by omega) hb
    intro h; linarith
  simp only [cellValue, slope]
  push_cast
  field_simp
  linarith

/-- **C79, discs.** Density and scale height are positive numbers at every place, the tables being read inside only; the velocity of the gas is defined
everywhere but on the axis, where it is not a number. -/
theorem C79_disk_profiles (r : V3 ℝ) :
    (∃ rho, 0 < rho ∧ diskRho r = .ok rho) ∧ (∃ H, 0 < H ∧ diskH r = .ok H) ∧
    ((r.x ≠ 0 ∨ r.y ≠ 0) → ∃ v, diskV r = .ok v) ∧ (r.x = 0 → r.y = 0 → diskV r = .nan) := by
  obtain ⟨y, _, h1, _⟩ := diskRho_eq r
  obtain ⟨z, h2, _⟩ := diskH_eq r
  refine ⟨⟨_, by positivity, h1⟩, ⟨_, by positivity, h2⟩, fun h => ?_, fun hx hy => ?_⟩
  · have : axisDist r ≠ 0 := by
      unfold axisDist
      rw [Real.sqrt_ne_zero']
      rcases h with h | h
      · nlinarith [mul_self_pos.mpr h, mul_self_nonneg r.y]
      · nlinarith [mul_self_pos.mpr h, mul_self_nonneg r.x]
    obtain ⟨w, h3, _⟩ := diskV_eq r this
    exact ⟨_, h3⟩
  · obtain ⟨w, h, _⟩ := lookup_ok vel_table lgR_last (axisDist r / cm)
    have h0 : axisDist r = 0 := by unfold axisDist; rw [hx, hy]; norm_num
    simp only [diskV, h, Sys.Res.ok_bind, fdiv, if_pos h0]
    rfl

/-- The logarithm of the Mach number from which on the program's cell lies beyond the table: the first step of the table times 199. -/
theorem drag_last : (at' gdfLgM 0 : ℝ) = -1 ∧ (at' gdfLgM 1 - at' gdfLgM 0 : ℝ) = 0.0150753768844221 ∧ (at' gdfLgM (gdfLgM.length - 1) : ℝ) = 2 ∧ gdfLgM.length = 200 := by
  have h0 : at' gdfLgM 0 = -1 := by decide +kernel
  have h1 : at' gdfLgM 1 - at' gdfLgM 0 = 0.0150753768844221 := by decide +kernel
  have h2 : at' gdfLgM (gdfLgM.length - 1) = 2 := by decide +kernel
  refine ⟨by rw [h0]; norm_num, ?_, by rw [h2]; norm_num, by decide +kernel⟩
  rw [← Rat.cast_sub, h1]; norm_num

theorem dragI_mid (M : ℝ) (h0 : 0 < M) (h1 : -1 ≤ Real.logb 10 M) (h2 : Real.logb 10 M < 2) : dragI M = interpolate (Real.logb 10 M) gdfLgM gdfI := by
  obtain ⟨a, b, c, d⟩ := drag_last
  simp only [dragI, read_ok (show 0 < gdfLgM.length by omega), read_ok (show gdfLgM.length - 1 < gdfLgM.length by omega), Sys.Res.ok_bind, a, c]
  rw [if_neg, if_neg (by push Not; exact h2)]
  unfold lgBelow
  push Not
  exact ⟨h0.ne', h1⟩

/-- The cases of `GDF_I`. -/
theorem drag_cases (M : ℝ) (hM : 0 ≤ M) :
    (M < 1 / 10 ∧ dragI M = .ok (M / 3)) ∨ (100 ≤ M ∧ dragI M = .ok 0) ∨
    (1 / 10 ≤ M ∧ M < 100 ∧ Real.logb 10 M < xOut ∧
      ∃ y y', dragI M = .ok y ∧ OnSegment gdfLgM gdfI (Real.logb 10 M) y' ∧ |y - y'| ≤ 1e-14) ∨
    (1 / 10 ≤ M ∧ M < 100 ∧ xOut ≤ Real.logb 10 M ∧ dragI M = .ub) := by
  obtain ⟨a, b, c, d⟩ := drag_last
  rcases eq_or_lt_of_le hM with h0 | h0
  · left
    subst h0
    refine ⟨by norm_num, ?_⟩
    simp only [dragI, read_ok (show 0 < gdfLgM.length by omega), read_ok (show gdfLgM.length - 1 < gdfLgM.length by omega), Sys.Res.ok_bind]
    rw [if_pos (show lgBelow 0 _ from Or.inl rfl)]
  have hlog1 : ∀ x : ℝ, Real.logb 10 M < x ↔ M < (10:ℝ) ^ x := fun x => Real.logb_lt_iff_lt_rpow (by norm_num) h0
  have e1 : (10:ℝ) ^ (-1:ℝ) = 1 / 10 := by rw [Real.rpow_neg_one]; norm_num
  have e2 : (10:ℝ) ^ (2:ℝ) = 100 := by norm_num
  by_cases h1 : M < 1 / 10
  · left
    refine ⟨h1, ?_⟩
    simp only [dragI, read_ok (show 0 < gdfLgM.length by omega), read_ok (show gdfLgM.length - 1 < gdfLgM.length by omega), Sys.Res.ok_bind, a]
    rw [if_pos (show lgBelow M (-1) from Or.inr ((hlog1 _).mpr (by rw [e1]; exact h1)))]
  have h1' : -1 ≤ Real.logb 10 M := by
    by_contra h
    exact h1 (by rw [← e1]; exact (hlog1 _).mp (not_le.mp h))
  by_cases h2 : 100 ≤ M
  · right; left
    refine ⟨h2, ?_⟩
    simp only [dragI, read_ok (show 0 < gdfLgM.length by omega), read_ok (show gdfLgM.length - 1 < gdfLgM.length by omega), Sys.Res.ok_bind, a, c]
    rw [if_neg, if_pos]
    · by_contra h
      have := (hlog1 2).mp (not_le.mp h)
      rw [e2] at this; linarith
    · unfold lgBelow; push Not; exact ⟨h0.ne', h1'⟩
  have h2' : Real.logb 10 M < 2 := (hlog1 _).mpr (by rw [e2]; exact not_le.mp h2)
  rw [dragI_mid M h0 h1' h2']
  set x := Real.logb 10 M with hx
  have T := drag_table
  obtain ⟨i, hi, h3, h4⟩ := exists_cell (fun i => (at' gdfLgM i : ℝ)) (gdfLgM.length - 1) x (by show (at' gdfLgM 0 : ℝ) ≤ x; rw [a]; exact h1')
    (by show x < (at' gdfLgM (gdfLgM.length - 1) : ℝ); rw [c]; exact h2')
  have hc := cell_close T x i hi h3 h4 _ rfl
  have hb : (0:ℝ) < 0.0150753768844221 := by norm_num
  rw [b, a] at hc
  have hq : 0 ≤ (x - -1) / 0.0150753768844221 := div_nonneg (by linarith) hb.le
  by_cases h5 : x < xOut
  · right; right; left
    refine ⟨not_lt.mp h1, not_le.mp h2, h5, ?_⟩
    have hk : ⌊(x - -1) / 0.0150753768844221⌋₊ < 199 := by
      rw [Nat.floor_lt hq, div_lt_iff₀ hb]
      rw [xOut_eq] at h5
      push_cast
      norm_num at h5 ⊢
      linarith
    refine ⟨_, _, (interpolate_cell T x _ rfl).1 (by rw [b, a]; omega), onSegment T x i (by omega) h3 h4.le, ?_⟩
    have := hc.2 (by omega)
    rw [b, a]
    norm_num at this ⊢
    exact this
  · right; right; right
    refine ⟨not_lt.mp h1, not_le.mp h2, not_lt.mp h5, ?_⟩
    refine (interpolate_cell T x _ rfl).2 ?_
    rw [b, a]
    have : 199 ≤ ⌊(x - -1) / 0.0150753768844221⌋₊ := by
      rw [Nat.le_floor_iff hq, le_div_iff₀ hb]
      rw [xOut_eq] at h5
      push_cast
      norm_num at h5 ⊢
      linarith
    omega

theorem gdfI_pos : ∀ i < gdfI.length, 0.00019 ≤ at' gdfI i := by decide +kernel

theorem segment_ge {xs ys : List ℚ} {m : ℚ} (hm : ∀ i < ys.length, m ≤ at' ys i) {x y : ℝ} (h : OnSegment xs ys x y)
    (hinc : ∀ i < xs.length - 1, at' xs i < at' xs (i + 1)) : (m : ℝ) ≤ y := by
  obtain ⟨j, x0, x1, y0, y1, a, b, c, d, h0, h1, e⟩ := h
  have hb : j + 1 < xs.length := by
    rcases Nat.lt_or_ge (j + 1) xs.length with h | h
    · exact h
    · rw [List.getElem?_eq_none h] at b; cases b
  have hd : j + 1 < ys.length := by
    rcases Nat.lt_or_ge (j + 1) ys.length with h | h
    · exact h
    · rw [List.getElem?_eq_none h] at d; cases d
  rw [getElem?_at (by omega)] at a b c d
  cases a; cases b; cases c; cases d
  have hx : (at' xs j : ℝ) < at' xs (j + 1) := by exact_mod_cast hinc j (by omega)
  have m0 : (m : ℝ) ≤ at' ys j := by exact_mod_cast hm j (by omega)
  have m1 : (m : ℝ) ≤ at' ys (j + 1) := by exact_mod_cast hm (j + 1) (by omega)
  by_contra hlt
  have hlt := not_le.mp hlt
  nlinarith [mul_nonneg (sub_nonneg.mpr h0) (sub_nonneg.mpr m1), mul_nonneg (sub_nonneg.mpr h1) (sub_nonneg.mpr m0),
    mul_pos (sub_pos.mpr hlt) (sub_pos.mpr hx)]

/-- **C79, drag.** For a Mach number outside the window of the next theorem the drag factor is a number, positive below Mach 100. -/
theorem C79_drag_inside (M : ℝ) (hM : 0 < M) (h : ¬ ((10:ℝ) ^ xOut ≤ M ∧ M < 100)) :
    ∃ I, dragI M = .ok I ∧ 0 ≤ I ∧ (M < 100 → 0 < I) := by
  have hlog1 : ∀ x : ℝ, x ≤ Real.logb 10 M ↔ (10:ℝ) ^ x ≤ M := fun x => Real.le_logb_iff_rpow_le (by norm_num) hM
  rcases drag_cases M hM.le with ⟨_, e⟩ | ⟨h1, e⟩ | ⟨_, _, _, y, y', e, seg, hy⟩ | ⟨_, h2, h3, _⟩
  · exact ⟨_, e, by positivity, fun _ => by positivity⟩
  · exact ⟨_, e, le_rfl, fun h => by linarith⟩
  · have := segment_ge gdfI_pos seg drag_table.inc
    have h9 := abs_le.mp hy
    have : 0 < y := by
      norm_num at this h9
      linarith [h9.1]
    exact ⟨_, e, this.le, fun _ => this⟩
  · exact absurd ⟨(hlog1 _).mp h3, h2⟩ h

/-- **C79 is false of the code**: for Mach numbers from 10^1.9999999999999979 up to 100 the drag factor is read behind the end of the table. -/
theorem C79_drag_reads_outside (M : ℝ) (hM : 0 < M) :
    dragI M = .ub ↔ ((10:ℝ) ^ xOut ≤ M ∧ M < 100) := by
  have hlog1 : ∀ x : ℝ, x ≤ Real.logb 10 M ↔ (10:ℝ) ^ x ≤ M := fun x => Real.le_logb_iff_rpow_le (by norm_num) hM
  constructor
  · intro h
    by_contra hn
    obtain ⟨I, e, _⟩ := C79_drag_inside M hM hn
    rw [h] at e; cases e
  · rintro ⟨h1, h2⟩
    have e2 : (10:ℝ) ^ (-1:ℝ) = 1 / 10 := by rw [Real.rpow_neg_one]; norm_num
    have e1 : (1:ℝ) / 10 ≤ M := by
      rw [← e2]
      exact le_trans (Real.rpow_le_rpow_of_exponent_le (by norm_num) (by rw [xOut_eq]; norm_num)) h1
    rcases drag_cases M hM.le with ⟨h3, _⟩ | ⟨h3, _⟩ | ⟨_, _, h3, _⟩ | ⟨_, _, _, e⟩
    · linarith
    · linarith
    · exact absurd ((hlog1 _).mpr h1) (not_le.mpr h3)
    · exact e

/-- The window is not empty. -/
example : ∃ M : ℝ, 0 < M ∧ ((10:ℝ) ^ xOut ≤ M ∧ M < 100) := by
  refine ⟨(10:ℝ) ^ xOut, by positivity, le_rfl, ?_⟩
  have e2 : (10:ℝ) ^ (2:ℝ) = 100 := by norm_num
  rw [← e2]
  exact Real.rpow_lt_rpow_of_exponent_lt (by norm_num) (by rw [xOut_eq]; norm_num)

/-- **C80, density.** Off the axis the logarithm of the density is that of the table, linearly interpolated, up to 0.01424. -/
theorem C80_density_partial (r : V3 ℝ) (hr : r.x ≠ 0 ∨ r.y ≠ 0) :
    ∃ y y', diskRho r = .ok ((10:ℝ) ^ y / 5.893333333333333e-07) ∧ ValueAt lgR lgRho (Real.sqrt (r.x ^ 2 + r.y ^ 2) / cm) y' ∧ |y - y'| ≤ 0.01424 := by
  obtain ⟨y, _, h, h'⟩ := diskRho_eq r
  have := axis_ne r hr
  obtain ⟨y', h1, h2⟩ := h' (div_ne_zero this cm_pos.ne')
  refine ⟨y, y', h, ?_, h2⟩
  rw [pow_two, pow_two]; exact h1

/-- **C80, scale height.** The same up to 0.000912. -/
theorem C80_height_partial (r : V3 ℝ) (hr : r.x ≠ 0 ∨ r.y ≠ 0) :
    ∃ y y', diskH r = .ok ((10:ℝ) ^ y / 1.5e13) ∧ ValueAt lgR lgH (Real.sqrt (r.x ^ 2 + r.y ^ 2) / cm) y' ∧ |y - y'| ≤ 0.000912 := by
  obtain ⟨y, h, h'⟩ := diskH_eq r
  have := axis_ne r hr
  obtain ⟨y', h1, h2⟩ := h' (div_ne_zero this cm_pos.ne')
  refine ⟨y, y', h, ?_, h2⟩
  rw [pow_two, pow_two]; exact h1

/-- **C80, velocity.** The gas circles the axis; its speed is that of the table, linearly interpolated, up to 13179 cm/s. -/
theorem C80_velocity_partial (r : V3 ℝ) (hr : r.x ≠ 0 ∨ r.y ≠ 0) :
    ∃ v w y', diskV r = .ok v ∧ v.z = 0 ∧ v.x * r.x + v.y * r.y = 0 ∧
      r.x * v.y - r.y * v.x = (w * 3.357318203286629e-07) * Real.sqrt (r.x ^ 2 + r.y ^ 2) ∧
      ValueAt lgR vel (Real.sqrt (r.x ^ 2 + r.y ^ 2) / cm) y' ∧ |w - y'| ≤ 13179 := by
  have hne := axis_ne r hr
  obtain ⟨w, h, y', h1, h2⟩ := diskV_eq r hne
  refine ⟨_, w, y', h, rfl, ?_, ?_, by rw [pow_two, pow_two]; exact h1, h2⟩
  · simp only
    field_simp
    ring
  · have e : axisDist r * axisDist r = r.x * r.x + r.y * r.y :=
      Real.mul_self_sqrt (add_nonneg (mul_self_nonneg _) (mul_self_nonneg _))
    rw [show Real.sqrt (r.x ^ 2 + r.y ^ 2) = axisDist r by unfold axisDist; rw [pow_two, pow_two]]
    simp only
    field_simp
    linear_combination (-w) * e

/-- **C80, drag factor.** Between Mach 0.1 and the window of C79 the factor is that of the table, linearly interpolated, up to 1e-14. -/
theorem C80_drag_factor (M : ℝ) (h0 : 1 / 10 ≤ M) (h1 : M < (10:ℝ) ^ xOut) :
    ∃ I y', dragI M = .ok I ∧ OnSegment gdfLgM gdfI (Real.logb 10 M) y' ∧ |I - y'| ≤ 1e-14 := by
  have hM : 0 < M := by linarith
  have hlog : Real.logb 10 M < xOut := (Real.logb_lt_iff_lt_rpow (by norm_num) hM).mpr h1
  have e2 : (10:ℝ) ^ (2:ℝ) = 100 := by norm_num
  have h2 : (10:ℝ) ^ xOut < 100 := by
    rw [← e2]
    exact Real.rpow_lt_rpow_of_exponent_lt (by norm_num) (by rw [xOut_eq]; norm_num)
  rcases drag_cases M hM.le with ⟨h3, _⟩ | ⟨h3, _⟩ | ⟨_, _, h3, y, y', e, seg, hy⟩ | ⟨_, _, h3, e⟩
  · linarith
  · linarith
  · exact ⟨y, y', e, seg, hy⟩
  · exact absurd hlog (not_lt.mpr h3)

/-- The density of a point at distance `10 ^ x` cm from the axis. -/
theorem rho_at (x : ℝ) (h0 : (at' lgR 0 : ℝ) ≤ x) (h1 : x < at' lgR (lgR.length - 1)) (k : Nat) (hk : k + 1 < lgR.length)
    (hf : ⌊(x - at' lgR 0) / (at' lgR 1 - at' lgR 0 : ℝ)⌋₊ = k) :
    diskRho ⟨cm * (10:ℝ) ^ x, 0, 0⟩ = .ok ((10:ℝ) ^ (cellValue lgR lgRho k x) / 5.893333333333333e-07) := by
  have hl : Real.logb 10 ((10:ℝ) ^ x) = x := Real.logb_rpow (by norm_num) (by norm_num)
  have hp : (0:ℝ) < (10:ℝ) ^ x := by positivity
  have he : axisDist ⟨cm * (10:ℝ) ^ x, 0, 0⟩ / cm = (10:ℝ) ^ x := by
    unfold axisDist
    simp only [mul_zero, add_zero]
    rw [Real.sqrt_mul_self (mul_pos cm_pos hp).le]
    field_simp [cm_pos.ne']
  have hlen := rho_table.len
  have h3 := rho_table.three
  rw [diskRho, he, lookup]
  simp only [read_ok (show 0 < lgR.length by omega), read_ok (show lgR.length - 1 < lgR.length by omega), read_ok (show 0 < lgRho.length by omega),
    read_ok (show lgRho.length - 1 < lgRho.length by omega), Sys.Res.ok_bind, hl]
  rw [if_neg, if_neg (not_le.mpr h1), (interpolate_cell rho_table x k hf).1 hk, Sys.Res.ok_bind]
  unfold lgBelow
  push Not
  exact ⟨hp.ne', by rw [hl]; exact h0⟩

/-- The radius (its logarithm) at which the program passes from cell 221 to cell 222 of the table. -/
noncomputable def xJump : ℝ := at' lgR 0 + 222 * (at' lgR 1 - at' lgR 0)

theorem jump_facts : (at' lgR 0 : ℝ) + 1 < xJump ∧ xJump < at' lgR (lgR.length - 1) ∧ (at' lgR 222 : ℝ) + 0.0001 < xJump ∧ xJump < at' lgR 223 ∧
    (0.0001:ℝ) < at' lgR 1 - at' lgR 0 ∧ 0.0142 ≤ cellValue lgR lgRho 221 xJump - cellValue lgR lgRho 222 xJump ∧
    |(slope lgR lgRho 221 : ℝ)| ≤ 100 ∧ slope lgR lgRho 221 ≠ slope lgR lgRho 222 ∧ 224 < lgR.length := by
  have a : at' lgR 0 + 1 < at' lgR 0 + 222 * (at' lgR 1 - at' lgR 0) := by decide +kernel
  have b : at' lgR 0 + 222 * (at' lgR 1 - at' lgR 0) < at' lgR (lgR.length - 1) := by decide +kernel
  have c : at' lgR 222 + 0.0001 < at' lgR 0 + 222 * (at' lgR 1 - at' lgR 0) := by decide +kernel
  have d : at' lgR 0 + 222 * (at' lgR 1 - at' lgR 0) < at' lgR 223 := by decide +kernel
  have e : 0.0001 < at' lgR 1 - at' lgR 0 := by decide +kernel
  have f : 0.0142 ≤ (at' lgRho 221 + (at' lgR 0 + 222 * (at' lgR 1 - at' lgR 0) - at' lgR 221) * slope lgR lgRho 221) -
      (at' lgRho 222 + (at' lgR 0 + 222 * (at' lgR 1 - at' lgR 0) - at' lgR 222) * slope lgR lgRho 222) := by decide +kernel
  have g : |slope lgR lgRho 221| ≤ 100 := by decide +kernel
  have k : slope lgR lgRho 221 ≠ slope lgR lgRho 222 := by decide +kernel
  refine ⟨by unfold xJump; exact_mod_cast a, by unfold xJump; exact_mod_cast b, ?_, by unfold xJump; exact_mod_cast d, ?_, ?_, by exact_mod_cast g, k,
    by decide +kernel⟩
  · have := (Rat.cast_lt (K := ℝ)).mpr c
    push_cast at this
    unfold xJump
    norm_num at this ⊢
    exact this
  · have := (Rat.cast_lt (K := ℝ)).mpr e
    push_cast at this
    norm_num at this ⊢
    exact this
  · have := (Rat.cast_le (K := ℝ)).mpr f
    push_cast at this
    unfold xJump cellValue
    norm_num at this ⊢
    exact this

attribute [local irreducible] at' slope lgR lgRho

/-- The densities on both sides of the jump. -/
theorem rho_jump (t : ℝ) (h0 : 0 < t) (h1 : t ≤ 1e-6) :
    ∃ y1 y2 : ℝ, diskRho ⟨cm * (10:ℝ) ^ (xJump - t), 0, 0⟩ = .ok ((10:ℝ) ^ y1 / 5.893333333333333e-07) ∧
      diskRho ⟨cm * (10:ℝ) ^ xJump, 0, 0⟩ = .ok ((10:ℝ) ^ y2 / 5.893333333333333e-07) ∧ y2 + 0.014 ≤ y1 ∧ y1 = cellValue lgR lgRho 221 (xJump - t) := by
  obtain ⟨a, b, c, d, e, f, g, k, l⟩ := jump_facts
  norm_num at h1 c e
  have hd : (0:ℝ) < at' lgR 1 - at' lgR 0 := by linarith
  refine ⟨_, _, rho_at (xJump - t) (by linarith) (by linarith) 221 (by omega) ?_, rho_at xJump (by linarith) b 222 (by omega) ?_, ?_, rfl⟩
  · rw [Nat.floor_eq_iff (div_nonneg (by linarith) hd.le), le_div_iff₀ hd, div_lt_iff₀ hd]
    unfold xJump
    push_cast
    constructor <;> nlinarith
  · rw [Nat.floor_eq_iff (div_nonneg (by linarith) hd.le), le_div_iff₀ hd, div_lt_iff₀ hd]
    unfold xJump
    push_cast
    constructor <;> nlinarith
  · have h2 : cellValue lgR lgRho 221 (xJump - t) = cellValue lgR lgRho 221 xJump - t * slope lgR lgRho 221 := by unfold cellValue; ring
    rw [h2]
    have h3 : t * slope lgR lgRho 221 ≤ 1 / 1000000 * 100 :=
      le_trans (mul_le_mul_of_nonneg_left (le_trans (le_abs_self _) g) h0.le) (by nlinarith)
    norm_num at f ⊢
    linarith

/-- **C80 is false of the code**: the density is not continuous.  There are two points as close together as one likes with densities that
differ by more than three per cent. -/
theorem C80_density_jumps (eps : ℝ) (heps : 0 < eps) :
    ∃ a b rho1 rho2 : ℝ, |a - b| < eps ∧ diskRho ⟨a, 0, 0⟩ = .ok rho1 ∧ diskRho ⟨b, 0, 0⟩ = .ok rho2 ∧ 0 < rho2 ∧ 1.03 * rho2 ≤ rho1 := by
  have hc : Continuous fun t : ℝ => cm * (10:ℝ) ^ (xJump - t) := by
    refine continuous_const.mul ?_
    exact Continuous.rpow continuous_const (continuous_const.sub continuous_id) (fun _ => Or.inl (by norm_num))
  obtain ⟨δ, hδ, h⟩ := Metric.continuous_iff.mp hc 0 eps heps
  set t := min (δ / 2) 1e-6 with ht
  have t0 : 0 < t := lt_min (by linarith) (by norm_num)
  obtain ⟨y1, y2, h1, h2, h3, _⟩ := rho_jump t t0 (min_le_right _ _)
  refine ⟨_, _, _, _, ?_, h1, h2, by positivity, ?_⟩
  · have := h t (by rw [Real.dist_eq, sub_zero, abs_of_pos t0]; exact lt_of_le_of_lt (min_le_left _ _) (by linarith))
    rw [Real.dist_eq, sub_zero] at this
    exact this
  · have hr : (1.03:ℝ) ≤ (10:ℝ) ^ (0.014:ℝ) := by
      have e : (10:ℝ) ^ (2:ℕ) ≤ ((10:ℝ) ^ (0.014:ℝ)) ^ (143:ℕ) := by
        rw [← Real.rpow_natCast ((10:ℝ) ^ (0.014:ℝ)), ← Real.rpow_mul (by norm_num), ← Real.rpow_natCast (10:ℝ)]
        exact Real.rpow_le_rpow_of_exponent_le (by norm_num) (by norm_num)
      refine le_of_pow_le_pow_left₀ (n := 143) (by norm_num) (by positivity) (le_trans ?_ e)
      norm_num
    have h4 : (10:ℝ) ^ (y2 + 0.014) ≤ (10:ℝ) ^ y1 := Real.rpow_le_rpow_of_exponent_le (by norm_num) h3
    rw [Real.rpow_add (by norm_num)] at h4
    have h5 : (0:ℝ) < (10:ℝ) ^ y2 := by positivity
    rw [← mul_div_assoc]
    refine div_le_div_of_nonneg_right ?_ (by norm_num)
    nlinarith

/-- **C80 is false of the code**: there are places where the density is not that of the interpolated table. -/
theorem C80_density_not_interpolated :
    ∃ a : ℝ, 0 < a ∧ ∀ y, ValueAt lgR lgRho (Real.sqrt (a ^ 2 + 0 ^ 2) / cm) y → diskRho ⟨a, 0, 0⟩ ≠ .ok ((10:ℝ) ^ y / 5.893333333333333e-07) := by
  obtain ⟨y1, _, h1, _, _, hy1⟩ := rho_jump 1e-6 (by norm_num) le_rfl
  have hp : (0:ℝ) < (10:ℝ) ^ (xJump - 1e-6) := by positivity
  have hpos : 0 < cm * (10:ℝ) ^ (xJump - 1e-6) := mul_pos cm_pos hp
  refine ⟨_, hpos, fun y hv he => ?_⟩
  obtain ⟨a, b, c, d, e, f, g, k, l⟩ := jump_facts
  norm_num at c e
  rw [h1] at he
  have hyy : y1 = y := by
    have h2 : (10:ℝ) ^ y1 / 5.893333333333333e-07 = (10:ℝ) ^ y / 5.893333333333333e-07 := by injection he
    have h3 : (10:ℝ) ^ y1 = (10:ℝ) ^ y := by
      have hne : (5.893333333333333e-07:ℝ) ≠ 0 := by norm_num
      field_simp at h2
      exact h2
    have := congrArg (Real.logb 10) h3
    rwa [Real.logb_rpow (by norm_num) (by norm_num), Real.logb_rpow (by norm_num) (by norm_num)] at this
  have hR : Real.sqrt ((cm * (10:ℝ) ^ (xJump - 1e-6)) ^ 2 + 0 ^ 2) / cm = (10:ℝ) ^ (xJump - 1e-6) := by
    rw [show (0:ℝ) ^ 2 = 0 by norm_num, add_zero, Real.sqrt_sq hpos.le]
    field_simp [cm_pos.ne']
  rw [hR] at hv
  have hl : Real.logb 10 ((10:ℝ) ^ (xJump - 1e-6)) = xJump - 1e-6 := Real.logb_rpow (by norm_num) (by norm_num)
  have hx0 : (at' lgR 222 : ℝ) < xJump - 1e-6 := by norm_num; linarith
  have hx1 : xJump - 1e-6 < (at' lgR 223 : ℝ) := by norm_num; linarith
  have T := rho_table
  have h3 := T.three
  have hlen := T.len
  unfold ValueAt at hv
  rw [hl] at hv
  have hcell : y = cellValue lgR lgRho 222 (xJump - 1e-6) := by
    rcases hv with ⟨x0, y0, h5, _, h7, _⟩ | ⟨x0, y0, h5, _, h7, _⟩ | h
    · rw [head?_at (by omega)] at h5; cases h5
      have := at_lt T 222 0 (by omega) (by omega)
      linarith
    · rw [getLast?_at (by omega)] at h5; cases h5
      norm_num at hx1 h7
      linarith
    · exact onSegment_unique T 222 (by omega) hx0 hx1 h
  rw [hyy, hcell] at hy1
  apply k
  have hj : ∀ x : ℝ, cellValue lgR lgRho 221 x = at' lgRho (221 + 1) + (x - at' lgR (221 + 1)) * slope lgR lgRho 221 := by
    intro x
    exact cellValue_right T 221 (by omega) x
  rw [hj] at hy1
  simp only [cellValue] at hy1
  have h9 : (xJump - 1e-6 - at' lgR 222) * ((slope lgR lgRho 221 : ℝ) - slope lgR lgRho 222) = 0 := by linarith
  rcases mul_eq_zero.mp h9 with h | h
  · linarith
  · exact_mod_cast sub_eq_zero.mp h

end SpaceHub.Props
