import Verif.Spec.Accurate
import Verif.Proof.Basic
import Mathlib.Tactic.GCongr
import Mathlib.Tactic.Positivity
import Mathlib.Tactic.FieldSimp

/-
What rounding does to a computation without branches: as long as the exact intermediate results are bounded, and away from 0 where they are divided by or a
root is taken, the result is off by at most a constant times the relative error of one operation.
-/

set_option autoImplicit false

namespace SpaceHub.Rounded
open SpaceHub V3 Force Core Integrator Sys

variable {Z : Type}

/-- `F0` is bounded on `S`, and `F` computes it, for all arguments in `S` that are valid for the unit, up to a constant times the unit. -/
def Near (V : ℝ → Z → Prop) (S : Set Z) (F : Arith → Z → ℝ) (F0 : Z → ℝ) : Prop :=
  ∃ B C u0 : ℝ, 0 ≤ B ∧ 0 ≤ C ∧ 0 < u0 ∧ u0 ≤ 1 ∧ (∀ z ∈ S, |F0 z| ≤ B) ∧
    ∀ A u, Accurate A u → 0 ≤ u → u ≤ u0 → ∀ z ∈ S, V u z → |F A z - F0 z| ≤ C * u

variable {V : ℝ → Z → Prop} {S : Set Z} {F G : Arith → Z → ℝ} {F0 G0 : Z → ℝ}

/-- a result near an exact one of a bounded size is bounded -/
theorem size_le {a a0 B C u : ℝ} (h0 : |a0| ≤ B) (h : |a - a0| ≤ C * u) (hC : 0 ≤ C) (hu : u ≤ 1) : |a| ≤ B + C := by
  have h1 : |a| ≤ |a0| + |a - a0| := by
    have := abs_add_le a0 (a - a0)
    rwa [add_sub_cancel] at this
  have h2 : C * u ≤ C := by nlinarith
  linarith

theorem Near.fixed (f : Z → ℝ) {B : ℝ} (hB : ∀ z ∈ S, |f z| ≤ B) : Near V S (fun _ => f) f := by
  refine ⟨max B 0, 0, 1, le_max_right _ _, le_rfl, one_pos, le_rfl, fun z hz => (hB z hz).trans (le_max_left _ _), fun A u _ _ _ z _ _ => ?_⟩
  simp

theorem Near.lit (c : ℚ) : Near V S (fun A _ => A.lit c) (fun _ => c) := by
  refine ⟨|(c : ℝ)|, |(c : ℝ)|, 1, abs_nonneg _, abs_nonneg _, one_pos, le_rfl, fun z hz => le_rfl, fun A u hA _ _ z _ _ => ?_⟩
  rw [mul_comm]
  exact hA.lit c

theorem Near.congr {F' : Arith → Z → ℝ} {F0' : Z → ℝ} (h : Near V S F F0) (e : ∀ A, ∀ z ∈ S, F' A z = F A z) (e0 : ∀ z ∈ S, F0' z = F0 z) : Near V S F' F0' := by
  obtain ⟨B, C, u0, hB, hC, h0, h1, hb, hc⟩ := h
  refine ⟨B, C, u0, hB, hC, h0, h1, fun z hz => by rw [e0 z hz]; exact hb z hz, fun A u hA hu hu0 z hz hv => ?_⟩
  rw [e _ z hz, e0 z hz]
  exact hc A u hA hu hu0 z hz hv

theorem Near.add (hF : Near V S F F0) (hG : Near V S G G0) : Near V S (fun A z => A.add (F A z) (G A z)) (fun z => F0 z + G0 z) := by
  obtain ⟨B1, C1, u1, hB1, hC1, p1, q1, b1, c1⟩ := hF
  obtain ⟨B2, C2, u2, hB2, hC2, p2, q2, b2, c2⟩ := hG
  refine ⟨B1 + B2, (B1 + C1 + (B2 + C2)) + (C1 + C2), min u1 u2, by positivity, by positivity, lt_min p1 p2, (min_le_left _ _).trans q1, fun z hz => ?_,
    fun A u hA hu hu0 z hz hv => ?_⟩
  · exact (abs_add_le _ _).trans (add_le_add (b1 z hz) (b2 z hz))
  · have h1 := c1 A u hA hu (hu0.trans (min_le_left _ _)) z hz hv
    have h2 := c2 A u hA hu (hu0.trans (min_le_right _ _)) z hz hv
    have hu1 : u ≤ 1 := hu0.trans ((min_le_left _ _).trans q1)
    have s1 := size_le (b1 z hz) h1 hC1 hu1
    have s2 := size_le (b2 z hz) h2 hC2 hu1
    have r := hA.add (F A z) (G A z)
    have r' : u * |F A z + G A z| ≤ u * (B1 + C1 + (B2 + C2)) := mul_le_mul_of_nonneg_left ((abs_add_le _ _).trans (add_le_add s1 s2)) hu
    show |A.add (F A z) (G A z) - (F0 z + G0 z)| ≤ _
    have e : A.add (F A z) (G A z) - (F0 z + G0 z) =
      (A.add (F A z) (G A z) - (F A z + G A z)) + ((F A z - F0 z) + (G A z - G0 z)) := by ring
    rw [e]
    have t1 := abs_add_le (A.add (F A z) (G A z) - (F A z + G A z)) ((F A z - F0 z) + (G A z - G0 z))
    have t2 := abs_add_le (F A z - F0 z) (G A z - G0 z)
    linarith only [t1, t2, r, r', h1, h2]

theorem Near.sub (hF : Near V S F F0) (hG : Near V S G G0) : Near V S (fun A z => A.sub (F A z) (G A z)) (fun z => F0 z - G0 z) := by
  obtain ⟨B1, C1, u1, hB1, hC1, p1, q1, b1, c1⟩ := hF
  obtain ⟨B2, C2, u2, hB2, hC2, p2, q2, b2, c2⟩ := hG
  refine ⟨B1 + B2, (B1 + C1 + (B2 + C2)) + (C1 + C2), min u1 u2, by positivity, by positivity, lt_min p1 p2, (min_le_left _ _).trans q1, fun z hz => ?_,
    fun A u hA hu hu0 z hz hv => ?_⟩
  · exact (abs_sub _ _).trans (add_le_add (b1 z hz) (b2 z hz))
  · have h1 := c1 A u hA hu (hu0.trans (min_le_left _ _)) z hz hv
    have h2 := c2 A u hA hu (hu0.trans (min_le_right _ _)) z hz hv
    have hu1 : u ≤ 1 := hu0.trans ((min_le_left _ _).trans q1)
    have s1 := size_le (b1 z hz) h1 hC1 hu1
    have s2 := size_le (b2 z hz) h2 hC2 hu1
    have r := hA.sub (F A z) (G A z)
    have r' : u * |F A z - G A z| ≤ u * (B1 + C1 + (B2 + C2)) := mul_le_mul_of_nonneg_left ((abs_sub _ _).trans (add_le_add s1 s2)) hu
    show |A.sub (F A z) (G A z) - (F0 z - G0 z)| ≤ _
    have e : A.sub (F A z) (G A z) - (F0 z - G0 z) =
      (A.sub (F A z) (G A z) - (F A z - G A z)) + ((F A z - F0 z) - (G A z - G0 z)) := by ring
    rw [e]
    have t1 := abs_add_le (A.sub (F A z) (G A z) - (F A z - G A z)) ((F A z - F0 z) - (G A z - G0 z))
    have t2 := abs_sub (F A z - F0 z) (G A z - G0 z)
    linarith only [t1, t2, r, r', h1, h2]

theorem Near.mul (hF : Near V S F F0) (hG : Near V S G G0) : Near V S (fun A z => A.mul (F A z) (G A z)) (fun z => F0 z * G0 z) := by
  obtain ⟨B1, C1, u1, hB1, hC1, p1, q1, b1, c1⟩ := hF
  obtain ⟨B2, C2, u2, hB2, hC2, p2, q2, b2, c2⟩ := hG
  refine ⟨B1 * B2, (B1 + C1) * (B2 + C2) + (C1 * (B2 + C2) + B1 * C2), min u1 u2, by positivity, by positivity, lt_min p1 p2, (min_le_left _ _).trans q1,
    fun z hz => ?_, fun A u hA hu hu0 z hz hv => ?_⟩
  · show |F0 z * G0 z| ≤ _
    rw [abs_mul]
    exact mul_le_mul (b1 z hz) (b2 z hz) (abs_nonneg _) hB1
  · have h1 := c1 A u hA hu (hu0.trans (min_le_left _ _)) z hz hv
    have h2 := c2 A u hA hu (hu0.trans (min_le_right _ _)) z hz hv
    have hu1 : u ≤ 1 := hu0.trans ((min_le_left _ _).trans q1)
    have s1 := size_le (b1 z hz) h1 hC1 hu1
    have s2 := size_le (b2 z hz) h2 hC2 hu1
    have r := hA.mul (F A z) (G A z)
    have r' : u * |F A z * G A z| ≤ u * ((B1 + C1) * (B2 + C2)) := by
      rw [abs_mul]
      exact mul_le_mul_of_nonneg_left (mul_le_mul s1 s2 (abs_nonneg _) (by positivity)) hu
    have r1 : |(F A z - F0 z) * G A z| ≤ C1 * u * (B2 + C2) := by
      rw [abs_mul]
      exact mul_le_mul h1 s2 (abs_nonneg _) (by positivity)
    have r2 : |F0 z * (G A z - G0 z)| ≤ B1 * (C2 * u) := by
      rw [abs_mul]
      exact mul_le_mul (b1 z hz) h2 (abs_nonneg _) hB1
    show |A.mul (F A z) (G A z) - F0 z * G0 z| ≤ _
    have e : A.mul (F A z) (G A z) - F0 z * G0 z =
      (A.mul (F A z) (G A z) - F A z * G A z) + ((F A z - F0 z) * G A z + F0 z * (G A z - G0 z)) := by ring
    rw [e]
    have t1 := abs_add_le (A.mul (F A z) (G A z) - F A z * G A z) ((F A z - F0 z) * G A z + F0 z * (G A z - G0 z))
    have t2 := abs_add_le ((F A z - F0 z) * G A z) (F0 z * (G A z - G0 z))
    linarith only [t1, t2, r, r', r1, r2]

/-- a lower bound survives -/
theorem stays {b b0 c C u : ℝ} (h0 : c ≤ |b0|) (h : |b - b0| ≤ C * u) (hC : 0 ≤ C) (hu0 : 0 ≤ u) (hu : u ≤ c / (2 * (C + 1))) : c / 2 ≤ |b| := by
  have h1 : C * u ≤ c / 2 := by
    rw [le_div_iff₀ (by positivity)] at hu
    linarith
  have h2 : |b0| ≤ |b| + |b - b0| := by
    have := abs_sub b (b - b0)
    rwa [sub_sub_cancel] at this
  linarith

theorem Near.div (hF : Near V S F F0) (hG : Near V S G G0) {c : ℝ} (hc : 0 < c) (away : ∀ z ∈ S, c ≤ |G0 z|) : Near V S (fun A z => A.div (F A z) (G A z)) (fun z => F0 z / G0 z) := by
  obtain ⟨B1, C1, u1, hB1, hC1, p1, q1, b1, c1⟩ := hF
  obtain ⟨B2, C2, u2, hB2, hC2, p2, q2, b2, c2⟩ := hG
  refine ⟨B1 / c, (B1 + C1) * (2 / c) + (C1 * B2 + B1 * C2) * (2 / (c * c)), min (min u1 u2) (c / (2 * (C2 + 1))), by positivity, by positivity,
    lt_min (lt_min p1 p2) (by positivity), (min_le_left _ _).trans ((min_le_left _ _).trans q1), fun z hz => ?_, fun A u hA hu hu0 z hz hv => ?_⟩
  · show |F0 z / G0 z| ≤ _
    rw [abs_div]
    exact div_le_div₀ hB1 (b1 z hz) hc (away z hz)
  · have hu0' := hu0.trans (min_le_left _ _)
    have h1 := c1 A u hA hu (hu0'.trans (min_le_left _ _)) z hz hv
    have h2 := c2 A u hA hu (hu0'.trans (min_le_right _ _)) z hz hv
    have hu1 : u ≤ 1 := hu0'.trans ((min_le_left _ _).trans q1)
    have s1 := size_le (b1 z hz) h1 hC1 hu1
    have s2 := stays (away z hz) h2 hC2 hu (hu0.trans (min_le_right _ _))
    have g0 : G0 z ≠ 0 := abs_pos.1 (lt_of_lt_of_le hc (away z hz))
    have g1 : G A z ≠ 0 := abs_pos.1 (lt_of_lt_of_le (by positivity) s2)
    have r := hA.div (F A z) (G A z) g1
    have r' : u * |F A z / G A z| ≤ u * ((B1 + C1) * (2 / c)) := by
      refine mul_le_mul_of_nonneg_left ?_ hu
      rw [abs_div]
      refine (div_le_div₀ (by positivity) s1 (by positivity) s2).trans (le_of_eq ?_)
      field_simp
    have r1 : |F A z / G A z - F0 z / G0 z| ≤ (C1 * B2 + B1 * C2) * (2 / (c * c)) * u := by
      have e : F A z / G A z - F0 z / G0 z = ((F A z - F0 z) * G0 z - F0 z * (G A z - G0 z)) / (G A z * G0 z) := by
        field_simp
        ring
      rw [e, abs_div]
      have n1 : |(F A z - F0 z) * G0 z - F0 z * (G A z - G0 z)| ≤ (C1 * B2 + B1 * C2) * u := by
        refine (abs_sub _ _).trans ?_
        rw [abs_mul, abs_mul]
        have m1 := mul_le_mul h1 (b2 z hz) (abs_nonneg _) (by positivity)
        have m2 := mul_le_mul (b1 z hz) h2 (abs_nonneg _) hB1
        linarith only [m1, m2]
      have n2 : c / 2 * c ≤ |G A z * G0 z| := by
        rw [abs_mul]
        exact mul_le_mul s2 (away z hz) hc.le (abs_nonneg _)
      refine (div_le_div₀ (by positivity) n1 (by positivity) n2).trans (le_of_eq ?_)
      field_simp
    show |A.div (F A z) (G A z) - F0 z / G0 z| ≤ _
    have e : A.div (F A z) (G A z) - F0 z / G0 z = (A.div (F A z) (G A z) - F A z / G A z) + (F A z / G A z - F0 z / G0 z) := by ring
    rw [e]
    have t1 := abs_add_le (A.div (F A z) (G A z) - F A z / G A z) (F A z / G A z - F0 z / G0 z)
    linarith only [t1, r, r', r1]

theorem Near.sqrt (hF : Near V S F F0) {c : ℝ} (hc : 0 < c) (away : ∀ z ∈ S, c ≤ F0 z) : Near V S (fun A z => A.sqrt (F A z)) (fun z => Real.sqrt (F0 z)) := by
  obtain ⟨B1, C1, u1, hB1, hC1, p1, q1, b1, c1⟩ := hF
  have sc : 0 < Real.sqrt c := Real.sqrt_pos.2 hc
  refine ⟨Real.sqrt B1, Real.sqrt (B1 + C1) + C1 / Real.sqrt c, min u1 (c / (2 * (C1 + 1))), Real.sqrt_nonneg _, by positivity,
    lt_min p1 (by positivity), (min_le_left _ _).trans q1, fun z hz => ?_, fun A u hA hu hu0 z hz hv => ?_⟩
  · show |Real.sqrt (F0 z)| ≤ _
    rw [abs_of_nonneg (Real.sqrt_nonneg _)]
    exact Real.sqrt_le_sqrt ((le_abs_self _).trans (b1 z hz))
  · have h1 := c1 A u hA hu (hu0.trans (min_le_left _ _)) z hz hv
    have hu1 : u ≤ 1 := hu0.trans ((min_le_left _ _).trans q1)
    have s1 := size_le (b1 z hz) h1 hC1 hu1
    have hf0 := away z hz
    have hpos : 0 ≤ F A z := by
      have h2 : C1 * u ≤ c := by
        have hu2 := hu0.trans (min_le_right _ _)
        rw [le_div_iff₀ (by positivity)] at hu2
        nlinarith
      have := (abs_le.1 h1).1
      linarith
    have r := hA.sqrt (F A z) hpos
    have r' : u * Real.sqrt (F A z) ≤ u * Real.sqrt (B1 + C1) := mul_le_mul_of_nonneg_left (Real.sqrt_le_sqrt ((le_abs_self _).trans s1)) hu
    have r1 : |Real.sqrt (F A z) - Real.sqrt (F0 z)| ≤ C1 / Real.sqrt c * u := by
      have s0 : Real.sqrt c ≤ Real.sqrt (F0 z) := Real.sqrt_le_sqrt hf0
      have sp := Real.sqrt_nonneg (F A z)
      have e : (Real.sqrt (F A z) - Real.sqrt (F0 z)) * (Real.sqrt (F A z) + Real.sqrt (F0 z)) = F A z - F0 z := by
        have e1 := Real.mul_self_sqrt hpos
        have e2 := Real.mul_self_sqrt (hc.le.trans hf0)
        linarith only [e1, e2, show (Real.sqrt (F A z) - Real.sqrt (F0 z)) * (Real.sqrt (F A z) + Real.sqrt (F0 z)) =
          Real.sqrt (F A z) * Real.sqrt (F A z) - Real.sqrt (F0 z) * Real.sqrt (F0 z) by ring]
      have hab : |Real.sqrt (F A z) - Real.sqrt (F0 z)| * (Real.sqrt (F A z) + Real.sqrt (F0 z)) ≤ C1 * u := by
        rw [← abs_of_nonneg (show 0 ≤ Real.sqrt (F A z) + Real.sqrt (F0 z) by positivity), ← abs_mul, e]
        exact h1
      rw [div_mul_eq_mul_div, le_div_iff₀ sc]
      refine le_trans ?_ hab
      exact mul_le_mul_of_nonneg_left (by linarith) (abs_nonneg _)
    show |A.sqrt (F A z) - Real.sqrt (F0 z)| ≤ _
    have e : A.sqrt (F A z) - Real.sqrt (F0 z) = (A.sqrt (F A z) - Real.sqrt (F A z)) + (Real.sqrt (F A z) - Real.sqrt (F0 z)) := by ring
    rw [e]
    have t1 := abs_add_le (A.sqrt (F A z) - Real.sqrt (F A z)) (Real.sqrt (F A z) - Real.sqrt (F0 z))
    linarith only [t1, r, r', r1]

end SpaceHub.Rounded
