import Verif.Proof.BSSmall
import Verif.Props.StepControl
import Verif.Props.ErrorCheck

/-
The error estimators and the step controller, as used by Bulirsch-Stoer.
-/

set_option autoImplicit false

namespace SpaceHub.BS
open SpaceHub Ctl Ctl.Fl Finset

/-- what acceptance of small steps needs of estimator and controller -/
structure Tame (p : Params ℝ) (a e0 lam : ℝ) : Prop where
  a0 : 0 < a
  pos : 0 < e0
  one : e0 ≤ 1
  lam0 : 0 < lam
  small : ∀ (y : List ℝ) (T1 T0 : Arr ℝ) (δ : ℝ), 0 ≤ δ → 1 ≤ y.length → (∀ i, i < y.length → |T0 i - T1 i| ≤ δ * a) → 0 ≤ p.err y T1 T0 ∧ p.err y T1 T0 ≤ δ
  next : ∀ k e, 1 ≤ k → k ≤ p.maxDepth → 0 ≤ e → e ≤ e0 → 1 ≤ p.next (2 * k + 1) e
  low : ∀ k r, 1 ≤ k → k ≤ p.maxDepth → lam ≤ p.limiter (2 * k + 1) r
  up : ∀ k r, 1 ≤ k → k ≤ p.maxDepth → 1 ≤ r → 1 ≤ p.limiter (2 * k + 1) r

theorem lower_ge (o : Nat) (ho : 1 ≤ o) : 1 / 200 ≤ lower o := by
  unfold lower
  rw [if_neg (by omega)]
  have h1 : (1 : ℝ) / o ≤ 1 := by
    rw [div_le_one (by exact_mod_cast (by omega))]
    exact_mod_cast ho
  have h2 : (1 / 50 : ℝ) ^ (1 : ℝ) ≤ (1 / 50 : ℝ) ^ (1 / (o : ℝ)) :=
    Real.rpow_le_rpow_of_exponent_ge (by norm_num) (by norm_num) h1
  rw [Real.rpow_one] at h2
  linarith

theorem pid_next (l : List Setter) (h1 : 0 < (configured l).s1) (h2 : 0 < (configured l).s2) {o : Nat} (ho1 : 1 ≤ o) (ho : o < 50) {e x : ℝ} (he0 : 0 ≤ e)
    (he : e ≤ min 1 ((configured l).s2 * (min 1 (configured l).s1) ^ 50)) (hx : (configured l).next o e = .ok x) : 1 ≤ x := by
  rcases he0.eq_or_lt with rfl | hpos
  · unfold PID.next at hx
    rw [if_pos ho, if_neg (by simp), (configured_tables l).1] at hx
    cases hx
    exact (limits_order o).2.2
  · rw [next_ok l ho h2.le hpos] at hx
    cases hx
    have he' := he.trans (min_le_right _ _)
    generalize (configured l).s1 = s at *
    generalize (configured l).s2 = g at *
    set u := min 1 s with hu
    have u0 : 0 < u := lt_min one_pos h1
    have u1 : u ≤ 1 := min_le_left _ _
    have h3 : (u⁻¹) ^ o ≤ g / e := by
      rw [le_div_iff₀ hpos, inv_pow, inv_mul_le_iff₀ (by positivity)]
      refine he'.trans ?_
      rw [mul_comm]
      exact mul_le_mul_of_nonneg_right (pow_le_pow_of_le_one u0.le u1 (by omega)) h2.le
    have h4 : u⁻¹ ≤ (g / e) ^ (1 / (o : ℝ)) := by
      have := Real.rpow_le_rpow (by positivity) h3 (by positivity : (0 : ℝ) ≤ 1 / (o : ℝ))
      rw [one_div, Real.pow_rpow_inv_natCast (by positivity) (by omega)] at this
      rwa [one_div]
    have h5 : s * u⁻¹ ≤ s * (g / e) ^ (1 / (o : ℝ)) := mul_le_mul_of_nonneg_left h4 h1.le
    have h6 : 1 ≤ s * u⁻¹ := by
      rw [← div_eq_mul_inv, le_div_iff₀ u0, one_mul]
      exact min_le_right _ _
    linarith

theorem limiter_low (l : List Setter) {o : Nat} (ho1 : 1 ≤ o) (ho : o < 50) {r x : ℝ} (hx : (configured l).limiter o r = .ok x) : 1 / 200 ≤ x ∧ (1 ≤ r → 1 ≤ x) := by
  rw [limiter_ok l ho] at hx
  cases hx
  obtain ⟨_, a, b⟩ := limits_order o
  have c := lower_ge o ho1
  exact ⟨le_min (c.trans (le_max_left _ _)) (by linarith), fun h => le_min (h.trans (le_max_right _ _)) b⟩

theorem worst_small {atol rtol : ℝ} (ha : 0 < atol) (hr : 0 ≤ rtol) (n : Nat) (y0 y1 y1p : Nat → ℝ) {q x : ℝ} (hq : 0 ≤ q)
    (h : ∀ i, i < n → |y1p i - y1 i| ≤ q * atol) (hx : worstOffender (fin atol) (fin rtol) n (nums y0) (nums y1) (nums y1p) = fin x) : x ≤ q := by
  have := (C59_worst_offender atol rtol ha.le hr n y0 y1 y1p q hq).2 (fun i hi => (h i hi).trans (mul_le_mul_of_nonneg_left (by
    have : 0 ≤ rtol * max |y0 i| |y1 i| := by positivity
    linarith) hq))
  rw [hx] at this
  exact of_decide_eq_true this

theorem worst_value {atol rtol : ℝ} (ha : 0 < atol) (hr : 0 ≤ rtol) (n : Nat) (y0 y1 y1p : Nat → ℝ) :
    ∃ x, 0 ≤ x ∧ worstOffender (fin atol) (fin rtol) n (nums y0) (nums y1) (nums y1p) = fin x := by
  unfold worstOffender
  have := forLoop_inv (fun _ m => ∃ x, 0 ≤ x ∧ m = fin x) 0 n (Nat.zero_le _) (fun i m =>
    let scale := stdMax (Fl.abs (nums y1 i)) (Fl.abs (nums y0 i))
    mathMax m (div (Fl.abs (sub (nums y1p i) (nums y1 i))) (add (fin atol) (mul scale (fin rtol))))) (fin 0) ⟨0, le_rfl, rfl⟩ (by
      rintro k m _ _ ⟨x, hx, rfl⟩
      show ∃ z, 0 ≤ z ∧ mathMax (fin x) (div (fin |y1p k + -(y1 k)|) (add (fin atol) (mul (stdMax (fin |y1 k|) (fin |y0 k|)) (fin rtol)))) = fin z
      rw [stdMax_fin]
      show ∃ z, 0 ≤ z ∧ mathMax (fin x) (div (fin |y1p k + -(y1 k)|) (fin (atol + max |y1 k| |y0 k| * rtol))) = fin z
      have hp : 0 < atol + max |y1 k| |y0 k| * rtol := by positivity
      rw [div_fin _ _ hp.ne', mathMax_fin]
      exact ⟨_, le_max_of_le_left hx, rfl⟩)
  exact this

theorem rms_value {atol rtol : ℝ} (ha : 0 < atol) (hr : 0 ≤ rtol) (n : Nat) (hn : 1 ≤ n) (y0 y1 y1p : Nat → ℝ) :
    ∃ x, 0 ≤ x ∧ rms (fin atol) (fin rtol) n (nums y0) (nums y1) (nums y1p) = fin x ∧
      ∀ q, 0 ≤ q → (∀ i, i < n → |y1p i - y1 i| ≤ q * atol) → x ≤ q := by
  have hn' : (0 : ℝ) < n := by exact_mod_cast hn
  have key := forLoop_inv (fun k e => ∃ x, 0 ≤ x ∧ e = fin x ∧ ∀ q, 0 ≤ q → (∀ i, i < k → |y1p i - y1 i| ≤ q * atol) → x ≤ k * q ^ 2)
    0 n (Nat.zero_le _) (fun i e =>
    let scale := add (mul (stdMax (Fl.abs (nums y0 i)) (Fl.abs (nums y1 i))) (fin rtol)) (fin atol)
    if isZero scale then e
    else
      let r := div (Fl.abs (sub (nums y1 i) (nums y1p i))) scale
      add e (mul r r)) (fin 0) ⟨0, le_rfl, rfl, fun q _ _ => by simp⟩ (by
      rintro k m _ _ ⟨x, hx, rfl, hxq⟩
      have hsc : add (mul (stdMax (Fl.abs (nums y0 k)) (Fl.abs (nums y1 k))) (fin rtol)) (fin atol) = fin (max |y0 k| |y1 k| * rtol + atol) := by
        show add (mul (stdMax (fin |y0 k|) (fin |y1 k|)) (fin rtol)) (fin atol) = _
        rw [stdMax_fin]; rfl
      have hp : 0 < max |y0 k| |y1 k| * rtol + atol := by positivity
      have hpa : atol ≤ max |y0 k| |y1 k| * rtol + atol := by
        have : 0 ≤ max |y0 k| |y1 k| * rtol := by positivity
        linarith
      dsimp only
      rw [hsc]
      have hz : ¬ isZero (fin (max |y0 k| |y1 k| * rtol + atol)) = true := by
        unfold isZero; simpa using hp.ne'
      rw [if_neg hz]
      generalize max |y0 k| |y1 k| * rtol + atol = sc at *
      have hd : div (Fl.abs (sub (nums y1 k) (nums y1p k))) (fin sc) = fin (|y1p k - y1 k| / sc) := by
        show (if _ then _ else fin (|y1 k + -(y1p k)| / _)) = _
        rw [if_neg hp.ne', ← sub_eq_add_neg, abs_sub_comm]
      rw [hd]
      refine ⟨x + |y1p k - y1 k| / sc * (|y1p k - y1 k| / sc), by positivity, rfl, fun q hq h => ?_⟩
      have h1 := hxq q hq (fun i hi => h i (by omega))
      have h2 : |y1p k - y1 k| / sc ≤ q := by
        rw [div_le_iff₀ hp]
        exact (h k (by omega)).trans (mul_le_mul_of_nonneg_left hpa hq)
      have h3 : 0 ≤ |y1p k - y1 k| / sc := by positivity
      push_cast
      nlinarith)
  obtain ⟨x, hx, e, hq⟩ := key
  refine ⟨Real.sqrt (x / n), Real.sqrt_nonneg _, ?_, fun q hq0 h => ?_⟩
  · unfold rms
    dsimp only at e ⊢
    rw [e]
    show Fl.sqrt (if _ then _ else fin (_ / _)) = _
    rw [if_neg hn'.ne']
    unfold Fl.sqrt
    dsimp only
    rw [if_neg (not_lt.2 (by positivity))]
  · rw [Real.sqrt_le_left hq0, div_le_iff₀ hn', mul_comm]
    exact hq q hq0 h

end SpaceHub.BS
