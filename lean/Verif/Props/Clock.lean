import Verif.Proof.Clock
import Verif.Props.Time
import Mathlib.Algebra.Order.Floor.Semiring

/-
C91: rounding and the end of a run.
-/

set_option autoImplicit false

namespace SpaceHub.Props
open SpaceHub SpaceHub.Comp SpaceHub.Spec SpaceHub.Clock SpaceHub.Integrator

variable {p : Nat} {rnd : ℝ → ℝ}

/-- The relative error of the clock in one step: `n` drifts with coefficients of total size `C` and sum `S`. -/
noncomputable def slack (p : Nat) (cs : List ℚ) : ℝ :=
  (8 * cs.length * (1 + cabs cs) + 2) * (1 / 2 ^ p) + |csum cs - 1|

theorem slack_bounds (p : Nat) (cs : List ℚ) : 0 ≤ slack p cs ∧
    8 * (cs.length : ℝ) * (1 / 2 ^ p) ≤ slack p cs ∧
    8 * (cs.length : ℝ) * (1 / 2 ^ p) * (1 + cabs cs) + |csum cs - 1| + 2 * (1 / 2 ^ p) = slack p cs := by
  have hC := cabs_nonneg cs
  have hu : (0:ℝ) < 1 / 2 ^ p := by positivity
  have hn : (0:ℝ) ≤ cs.length := Nat.cast_nonneg _
  have hs := abs_nonneg (csum cs - 1)
  unfold slack
  set u : ℝ := 1 / 2 ^ p
  have : 0 ≤ (cs.length : ℝ) * u * cabs cs := by positivity
  have : 0 ≤ (cs.length : ℝ) * u := by positivity
  refine ⟨by nlinarith, by nlinarith, by ring⟩

/-- one round of the loop with the plain clock -/
theorem plain_round (N : Nearest p rnd) (hp : 1 ≤ p) (cs : List ℚ) {t T h rtol : ℝ} (hT : 0 < T) (fT : IsFloat p T)
    (hs : slack p cs ≤ 1 / 4) (h0 : 0 ≤ t) (hle : t ≤ T + slack p cs * T) (hh : 4 * (slack p cs * T) ≤ h) (hpos : 0 < h)
    (hr : 4 * slack p cs ≤ rtol) (hne : notAtEnd rnd t T rtol = true) :
    t < T ∧ ((clipStep rnd t T h = h ∧ t + h / 2 ≤ advance rnd (plain rnd) cs h t ∧
        advance rnd (plain rnd) cs h t ≤ T + slack p cs * T) ∨
      |advance rnd (plain rnd) cs (clipStep rnd t T h) t - T| ≤ slack p cs * T) := by
  obtain ⟨s0, s1, s2⟩ := slack_bounds p cs
  have hC := cabs_nonneg cs
  have hlt : t < T := by
    by_contra hc
    push Not at hc
    have := atEnd_of_close N hp (t := t) (rtol := rtol) hT (ε := slack p cs)
      (by rw [abs_of_nonneg (by linarith)]; linarith) hr
    rw [this] at hne
    exact absurd hne (by simp)
  refine ⟨hlt, ?_⟩
  have hd : 0 ≤ rnd (T - t) := rnd_nonneg N (by linarith)
  have hd2 : rnd (T - t) ≤ T := by
    have := N.abs_le_float (x := T - t) fT (by rw [abs_of_nonneg (by linarith), abs_of_pos hT]; linarith)
    rwa [abs_of_nonneg hd, abs_of_pos hT] at this
  have hde := relU N hp (T - t)
  have hu0 : (0:ℝ) < 1 / 2 ^ p := by positivity
  have hrest : rnd (rnd (T - t) * 1) = rnd (T - t) := by rw [mul_one, N.exact (N.float _)]
  have hclip : clipStep rnd t T h = if |h| ≤ |rnd (T - t)| then h else rnd (T - t) := by
    unfold clipStep
    simp only []
    rw [hrest]
  set d := rnd (T - t)
  have hde2 : |d - (T - t)| ≤ 1 / 2 ^ p * T := by
    refine hde.trans (mul_le_mul_of_nonneg_left ?_ hu0.le)
    rw [abs_of_nonneg (by linarith)]; linarith
  have step : ∀ k : ℝ, 0 ≤ k → k ≤ T → |advance rnd (plain rnd) cs k t - (t + k)| ≤
      slack p cs * T - 2 * (1 / 2 ^ p) * T := by
    intro k hk hkT
    have hB : |t| + cabs cs * |k| ≤ (1 + cabs cs) * T := by
      rw [abs_of_nonneg h0, abs_of_nonneg hk]
      nlinarith
    have ha := advance_error N hp k t _ cs hB (by linarith)
    have hb : |csum cs * k - k| ≤ |csum cs - 1| * T := by
      have : csum cs * k - k = (csum cs - 1) * k := by ring
      rw [this, abs_mul, abs_of_nonneg hk]
      exact mul_le_mul_of_nonneg_left hkT (abs_nonneg _)
    have hc := abs_sub_le (advance rnd (plain rnd) cs k t) (t + csum cs * k) (t + k)
    have he : t + csum cs * k - (t + k) = csum cs * k - k := by ring
    rw [he] at hc
    have hf : slack p cs * T - 2 * (1 / 2 ^ p) * T =
        8 * (cs.length : ℝ) * (1 / 2 ^ p) * ((1 + cabs cs) * T) + |csum cs - 1| * T := by rw [← s2]; ring
    rw [hf]; linarith
  by_cases hc : |h| ≤ |d|
  · left
    rw [abs_of_pos hpos, abs_of_nonneg hd] at hc
    have hst := abs_le.1 (step h hpos.le (hc.trans hd2))
    have hd3 := abs_le.1 hde2
    have huT : 0 < 1 / 2 ^ p * T := by positivity
    refine ⟨?_, ?_, ?_⟩
    · rw [hclip, if_pos (by rwa [abs_of_pos hpos, abs_of_nonneg hd])]
    · linarith [hst.1]
    · linarith [hst.2]
  · right
    rw [hclip, if_neg hc]
    have hst := step d hd hd2
    have := abs_sub_le (advance rnd (plain rnd) cs d t) (t + d) T
    have he : t + d - T = d - (T - t) := by ring
    rw [he] at this
    have huT : 0 < 1 / 2 ^ p * T := by positivity
    linarith

theorem plain_loop (N : Nearest p rnd) (hp : 1 ≤ p) (cs : List ℚ) {T h rtol : ℝ} (hT : 0 < T) (fT : IsFloat p T)
    (hs : slack p cs ≤ 1 / 4) (hh : 4 * (slack p cs * T) ≤ h) (hpos : 0 < h) (hr : 4 * slack p cs ≤ rtol) (m : Nat) :
    ∀ t, 0 ≤ t → t ≤ T + slack p cs * T → 2 * (T - t) / h ≤ m →
    ∃ t', t ≤ t' + slack p cs * T ∧ t' ≤ T + slack p cs * T ∧ notAtEnd rnd t' T rtol = false ∧
      ∀ fuel, m + 1 < fuel → loop rnd (plain rnd) cs T rtol fuel h t = .ok t' := by
  have s0 := (slack_bounds p cs).1
  have hsT : 0 ≤ slack p cs * T := by positivity
  have stop : ∀ t k, notAtEnd rnd t T rtol = false → ∀ fuel, 0 < fuel →
      loop rnd (plain rnd) cs T rtol fuel k t = .ok t := by
    intro t k ht fuel hf
    obtain ⟨f, rfl⟩ : ∃ f, fuel = f + 1 := ⟨fuel - 1, by omega⟩
    have : notAtEnd rnd ((plain rnd).shown t) T rtol = false := ht
    simp [loop, this]
  have go : ∀ t k f, notAtEnd rnd t T rtol = true → loop rnd (plain rnd) cs T rtol (f + 1) k t =
      loop rnd (plain rnd) cs T rtol f (clipStep rnd t T k) (advance rnd (plain rnd) cs (clipStep rnd t T k) t) := by
    intro t k f ht
    have : notAtEnd rnd ((plain rnd).shown t) T rtol = true := ht
    rw [loop, if_pos this]
    rfl
  induction m with
  | zero =>
    intro t h0 hle hm
    cases hc : notAtEnd rnd t T rtol with
    | false => exact ⟨t, by linarith, hle, hc, fun fuel hf => stop t h hc fuel (by omega)⟩
    | true =>
      have hlt := (plain_round N hp cs hT fT hs h0 hle hh hpos hr hc).1
      have : 0 < 2 * (T - t) / h := by
        have : 0 < T - t := by linarith
        positivity
      push_cast at hm; linarith
  | succ m ih =>
    intro t h0 hle hm
    cases hc : notAtEnd rnd t T rtol with
    | false => exact ⟨t, by linarith, hle, hc, fun fuel hf => stop t h hc fuel (by omega)⟩
    | true =>
      obtain ⟨hlt, hcase⟩ := plain_round N hp cs hT fT hs h0 hle hh hpos hr hc
      rcases hcase with ⟨h1, h2, h3⟩ | h1
      · obtain ⟨t', g0, g1, g2, g3⟩ := ih (advance rnd (plain rnd) cs h t) (by linarith) h3 (by
          push_cast at hm
          have : 2 * (T - advance rnd (plain rnd) cs h t) / h ≤ 2 * (T - t) / h - 1 := by
            rw [div_sub_one hpos.ne']
            exact div_le_div_of_nonneg_right (by linarith) hpos.le
          linarith)
        refine ⟨t', by linarith, g1, g2, fun fuel hf => ?_⟩
        obtain ⟨f, rfl⟩ : ∃ f, fuel = f + 1 := ⟨fuel - 1, by omega⟩
        rw [go t h f hc, h1]
        exact g3 f (by omega)
      · have hst := atEnd_of_close N hp (rtol := rtol) hT h1 hr
        have hab := abs_le.1 h1
        refine ⟨_, by linarith, by linarith, hst, fun fuel hf => ?_⟩
        obtain ⟨f, rfl⟩ : ∃ f, fuel = f + 1 := ⟨fuel - 1, by omega⟩
        rw [go t h f hc]
        exact stop _ _ hst f (by omega)

/-- Floating-point numbers, any drift/kick integrator with constant steps: if the step and the tolerance exceed four times
the error of the clock in one step, the run ends after at most `⌈2 (T - t0) / h⌉ + 1` steps, within the tolerance of the
end time, and at most one clock error beyond it. -/
theorem C91_ends (N : Nearest p rnd) (hp : 1 ≤ p) (stages : List Stage) {t0 T h rtol : ℝ} (hT : 0 < T) (fT : IsFloat p T)
    (h0 : 0 ≤ t0) (h1 : t0 ≤ T) (hs : slack p (drifts stages) ≤ 1 / 4) (hpos : 0 < h)
    (hh : 4 * (slack p (drifts stages) * T) ≤ h) (hr : 4 * slack p (drifts stages) ≤ rtol) :
    ∃ t, (∀ fuel, ⌈2 * (T - t0) / h⌉₊ + 1 < fuel → loop rnd (plain rnd) (drifts stages) T rtol fuel h t0 = .ok t) ∧
      |t - T| ≤ (1 + 1 / 2 ^ p) ^ 2 * (rtol * T) ∧ t ≤ T + slack p (drifts stages) * T := by
  have s0 := (slack_bounds p (drifts stages)).1
  have hsT : 0 ≤ slack p (drifts stages) * T := by positivity
  obtain ⟨t, _, g1, g2, g3⟩ := plain_loop N hp (drifts stages) hT fT hs hh hpos hr ⌈2 * (T - t0) / h⌉₊ t0 h0 (by linarith)
    (Nat.le_ceil _)
  exact ⟨t, g3, close_of_atEnd N hp hT g2, g1⟩

/-- the integrators of the constant-step methods -/
def integrators : List (List Stage) :=
  [symplectic2nd, leapFrogKDK, symplectic4th, symplectic6th, symplectic8th, symplectic10th]

theorem slack_double {stages : List Stage} (hs : stages ∈ integrators) : slack 53 (drifts stages) ≤ 4e-13 := by
  simp only [integrators, List.mem_cons, List.not_mem_nil, or_false] at hs
  rcases hs with rfl | rfl | rfl | rfl | rfl | rfl
  · norm_num [slack, cabs, csum, drifts, symplectic2nd, abs_of_nonneg, abs_of_nonpos]
  · norm_num [slack, cabs, csum, drifts, leapFrogKDK, abs_of_nonneg, abs_of_nonpos]
  · norm_num [slack, cabs, csum, drifts, symplectic4th, abs_of_nonneg, abs_of_nonpos]
  · norm_num [slack, cabs, csum, drifts, symplectic6th, abs_of_nonneg, abs_of_nonpos]
  · norm_num [slack, cabs, csum, drifts, symplectic8th, abs_of_nonneg, abs_of_nonpos]
  · norm_num [slack, cabs, csum, drifts, symplectic10th, abs_of_nonneg, abs_of_nonpos]

/-- The constant-step methods in double precision: with a step of at least `1.6e-12` times the end time and a tolerance of
at least `1.6e-12` (the default is `1e-8`) the run ends, within the tolerance, and passes the end time by at most `4e-13`
of it. -/
theorem C91_double (N : Nearest 53 rnd) {stages : List Stage} (hs : stages ∈ integrators) {t0 T h rtol : ℝ} (hT : 0 < T)
    (fT : IsFloat 53 T) (h0 : 0 ≤ t0) (h1 : t0 ≤ T) (hh : 1.6e-12 * T ≤ h) (hr : 1.6e-12 ≤ rtol) :
    ∃ t, (∀ fuel, ⌈2 * (T - t0) / h⌉₊ + 1 < fuel → loop rnd (plain rnd) (drifts stages) T rtol fuel h t0 = .ok t) ∧
      |t - T| ≤ 1.0001 * (rtol * T) ∧ t ≤ T + 4e-13 * T := by
  have hsl := slack_double hs
  have hsT : slack 53 (drifts stages) * T ≤ 4e-13 * T := mul_le_mul_of_nonneg_right hsl hT.le
  obtain ⟨t, g1, g2, g3⟩ := C91_ends N (by norm_num) stages hT fT h0 h1 (h := h) (rtol := rtol) (by linarith)
    (by nlinarith) (by linarith) (by linarith)
  refine ⟨t, g1, g2.trans ?_, by linarith⟩
  exact mul_le_mul_of_nonneg_right (by norm_num) (by nlinarith)

/-! ### steps that are too small -/

theorem le_rnd (N : Nearest p rnd) {x y : ℝ} (fy : IsFloat p y) (h : y ≤ x) : y ≤ rnd x := by
  have := N.nearest x y fy
  rw [abs_of_nonpos (a := y - x) (by linarith)] at this
  linarith [(abs_le.1 this).1]

theorem rnd_le (N : Nearest p rnd) {x y : ℝ} (fy : IsFloat p y) (h : x ≤ y) : rnd x ≤ y := by
  have := N.nearest x y fy
  rw [abs_of_nonneg (a := y - x) (by linarith)] at this
  linarith [(abs_le.1 this).2]

/-- Distinct floating-point numbers are not too close. -/
theorem float_gap {a b : ℝ} (ha : IsFloat p a) (hb : IsFloat p b) (hne : a ≠ b) (hle : |b| ≤ |a|) : |b| / 2 ^ p ≤ |a - b| := by
  obtain ⟨A, B, e, f, hA, hB, hfe, rfl, rfl⟩ := Nearest.align ha hb hle
  rw [shift A hfe] at hne ⊢
  set A' : ℤ := A * 2 ^ (e - f).toNat
  have hpf : (0:ℝ) < 2 ^ f := by positivity
  have hne' : A' - B ≠ 0 := by
    intro h0
    apply hne
    rw [sub_eq_zero.1 h0]
  have h1 : (1:ℝ) ≤ |((A' - B : ℤ) : ℝ)| := by
    have := Int.one_le_abs hne'
    exact_mod_cast this
  have e1 : (A' : ℝ) * 2 ^ f - B * 2 ^ f = ((A' - B : ℤ) : ℝ) * 2 ^ f := by push_cast; ring
  rw [e1, abs_mul, abs_mul, abs_of_pos hpf, mul_div_right_comm]
  refine mul_le_mul_of_nonneg_right (le_trans ?_ h1) hpf.le
  rw [div_le_one (by positivity)]
  have : |(B:ℝ)| < 2 ^ p := by exact_mod_cast hB
  exact this.le

/-- A number close to a floating-point number is rounded to it. -/
theorem rnd_near (N : Nearest p rnd) {t x : ℝ} (ht : IsFloat p t) (h : |x - t| < |t| / 2 ^ (p + 2)) : rnd x = t := by
  by_contra hne
  have h1 := N.nearest x t ht
  rw [abs_sub_comm t x] at h1
  have h2 := abs_sub_le (rnd x) x t
  have h3 : |rnd x - t| < |t| / 2 ^ (p + 1) := by
    have : |t| / 2 ^ (p + 2) + |t| / 2 ^ (p + 2) = |t| / 2 ^ (p + 1) := by rw [pow_succ 2 (p + 1)]; ring
    linarith
  have hu0 : (0:ℝ) < 1 / 2 ^ p := by positivity
  have e1 : |t| / 2 ^ (p + 1) = |t| * (1 / 2 ^ p) / 2 := by rw [pow_succ]; field_simp
  have hu1 : (1:ℝ) / 2 ^ p ≤ 1 := by
    rw [div_le_one (by positivity)]; exact one_le_pow₀ (by norm_num)
  set u : ℝ := 1 / 2 ^ p
  rw [e1] at h3
  rcases le_total |t| |rnd x| with hl | hl
  · have := float_gap (N.float x) ht hne hl
    rw [div_eq_mul_one_div] at this
    nlinarith [abs_nonneg t]
  · have := float_gap ht (N.float x) (fun e => hne e.symm) hl
    rw [div_eq_mul_one_div, abs_sub_comm] at this
    have h4 := abs_sub_abs_le_abs_sub t (rnd x)
    rw [abs_sub_comm] at h4
    have h5 : |rnd x - t| * u ≤ |rnd x - t| * 1 := mul_le_mul_of_nonneg_left hu1 (abs_nonneg _)
    have h6 : |t| * u ≤ (|rnd x| + |rnd x - t|) * u := mul_le_mul_of_nonneg_right (by linarith) hu0.le
    nlinarith

theorem advance_stuck (N : Nearest p rnd) (hp : 1 ≤ p) (cs : List ℚ) (hc : ∀ c ∈ cs, |(c : ℝ)| ≤ 3) {t h : ℝ}
    (ft : IsFloat p t) (h0 : |h| < |t| / 2 ^ (p + 5)) : advance rnd (plain rnd) cs h t = t := by
  induction cs with
  | nil => rfl
  | cons c cs ih =>
    have ha : advance rnd (plain rnd) (c :: cs) h t = advance rnd (plain rnd) cs h (rnd (t + substep rnd h c)) := rfl
    have hsub := substep_error N hp h c
    have hu := unit_le hp
    have hch : |(c : ℝ) * h| ≤ 3 * |h| := by
      rw [abs_mul]; exact mul_le_mul_of_nonneg_right (hc c (by simp)) (abs_nonneg _)
    have h1 : |substep rnd h c| ≤ 8 * |h| := by
      have h2 := abs_sub_abs_le_abs_sub (substep rnd h c) (c * h)
      have h3 : 3 * (1 / 2 ^ p) * |(c : ℝ) * h| ≤ 3 / 2 * |(c : ℝ) * h| :=
        mul_le_mul_of_nonneg_right (by linarith) (abs_nonneg _)
      linarith [abs_nonneg h]
    have e1 : |t| / 2 ^ (p + 2) = 8 * (|t| / 2 ^ (p + 5)) := by
      rw [show p + 5 = p + 2 + 3 from rfl, pow_add 2 (p + 2) 3]; field_simp; norm_num
    rw [ha, rnd_near N ft (by rw [add_sub_cancel_left, e1]; linarith)]
    exact ih fun c hc' => hc c (by simp [hc'])

/-- A step far below the spacing of the numbers at the current time: the time does not change, and the run never returns
(there is no message). -/
theorem C91_stagnates (N : Nearest p rnd) (hp : 1 ≤ p) {stages : List Stage} (hs : stages ∈ integrators)
    {t0 T h rtol : ℝ} (h0 : 0 < t0) (ft : IsFloat p t0) (h1 : 2 * t0 ≤ T) (hh : 0 < h) (hh2 : h < t0 / 2 ^ (p + 5))
    (hr : rtol < 1 / 8) (fuel : Nat) : loop rnd (plain rnd) (drifts stages) T rtol fuel h t0 = .diverge := by
  have hc : ∀ c ∈ drifts stages, |(c : ℝ)| ≤ 3 := by
    simp only [integrators, List.mem_cons, List.not_mem_nil, or_false] at hs
    rcases hs with rfl | rfl | rfl | rfl | rfl | rfl <;>
    simp only [symplectic2nd, leapFrogKDK, symplectic4th, symplectic6th, symplectic8th, symplectic10th, drifts,
      List.forall_mem_cons, List.not_mem_nil, false_imp_iff, implies_true, and_true] <;>
    norm_num [abs_of_nonneg, abs_of_nonpos]
  have hT : 0 < T := by linarith
  have hne : notAtEnd rnd t0 T rtol = true := by
    rw [notAtEnd_eq hT]
    have h2 := (quotient_error N hp (t := t0) hT).1
    have hu := unit_le hp
    have hu0 : (0:ℝ) ≤ 1 / 2 ^ p := by positivity
    rw [abs_of_nonpos (by linarith)] at h2
    have h3 : (1 + 1 / (2:ℝ) ^ p) ^ 2 ≤ 4 := by nlinarith
    have h4 := mul_le_mul_of_nonneg_right h3 (by positivity : 0 ≤ |rnd (rnd (t0 - T) / T)| * T)
    by_contra hc
    push Not at hc
    have h5 : |rnd (rnd (t0 - T) / T)| * T ≤ rtol * T := mul_le_mul_of_nonneg_right hc hT.le
    nlinarith
  have ht0 : h ≤ t0 := by
    refine hh2.le.trans (div_le_self h0.le ?_)
    exact one_le_pow₀ (by norm_num)
  have hcl : clipStep rnd t0 T h = h := by
    unfold clipStep
    simp only []
    rw [mul_one, N.exact (N.float _), if_pos]
    have := le_rnd N (x := T - t0) ft (by linarith)
    rw [abs_of_pos hh, abs_of_nonneg (by linarith)]
    linarith
  induction fuel with
  | zero => rfl
  | succ n ih =>
    have : notAtEnd rnd ((plain rnd).shown t0) T rtol = true := hne
    rw [loop, if_pos this]
    change loop rnd (plain rnd) (drifts stages) T rtol n (clipStep rnd t0 T h)
      (advance rnd (plain rnd) (drifts stages) (clipStep rnd t0 T h) t0) = .diverge
    rw [hcl, advance_stuck N hp _ hc ft (by rwa [abs_of_pos hh, abs_of_pos h0])]
    exact ih

/-! ### tolerances below the rounding error -/

theorem IsFloat.int {m : ℤ} (h : |m| < 2 ^ p) : IsFloat p (m : ℝ) := ⟨m, 0, h, by simp⟩

theorem IsFloat.half {m : ℤ} (h : |m| < 2 ^ p) : IsFloat p ((m : ℝ) / 2) := ⟨m, -1, h, by rw [zpow_neg_one]; ring⟩

/-- two half steps of the leap-frog of an integral rest -/
theorem leap (N : Nearest p rnd) (hp : 4 ≤ p) {d : ℤ} (hd : |d| < 8) (t : ℝ) :
    advance rnd (plain rnd) (drifts symplectic2nd) d t = rnd (rnd (t + d / 2) + d / 2) := by
  have h16 : (16:ℤ) ≤ 2 ^ p := by
    calc (16:ℤ) = 2 ^ 4 := by norm_num
      _ ≤ 2 ^ p := pow_le_pow_right₀ (by norm_num) hp
  have e1 : rnd (((1 / 2 : ℚ) : ℚ) : ℝ) = 1 / 2 := by
    have := N.exact (IsFloat.half (p := p) (m := 1) (by rw [abs_one]; omega))
    push_cast at this ⊢
    simpa using this
  have e2 : substep rnd (d : ℝ) (1 / 2) = (d : ℝ) / 2 := by
    unfold substep
    rw [e1, show (1:ℝ) / 2 * d = d / 2 by ring]
    exact N.exact (IsFloat.half (by omega))
  have e3 : drifts symplectic2nd = [1 / 2, 1 / 2] := by norm_num [drifts, symplectic2nd]
  rw [e3]
  change rnd (rnd (t + substep rnd d (1 / 2)) + substep rnd d (1 / 2)) = _
  rw [e2]

theorem tie (E : TiesEven p rnd) {m : ℤ} (h1 : 2 ^ (p - 1) ≤ m) (h2 : m < 2 ^ p) :
    rnd ((m : ℝ) + 1 / 2) = ((if Even m then m else m + 1 : ℤ) : ℝ) := by
  have := E m 0 h1 h2
  simpa using this

theorem clip_rest (N : Nearest p rnd) {t T d : ℤ} (hd : d = T - t) (hlt : |d| < 2 ^ p) {h : ℝ} (hh : |(d:ℝ)| < |h|) :
    clipStep rnd t T h = d := by
  unfold clipStep
  simp only []
  have e : (T:ℝ) - t = (d : ℤ) := by rw [hd]; push_cast; ring
  rw [mul_one, e, N.exact (IsFloat.int hlt), N.exact (IsFloat.int hlt), if_neg (by push Not; exact hh)]

theorem clip_same (N : Nearest p rnd) {t T d : ℤ} (hd : d = T - t) (hlt : |d| < 2 ^ p) :
    clipStep rnd t T d = d := by
  unfold clipStep
  simp only []
  have e : (T:ℝ) - t = (d : ℤ) := by rw [hd]; push_cast; ring
  rw [mul_one, e, N.exact (IsFloat.int hlt), N.exact (IsFloat.int hlt)]
  simp

/-- The default rounding and no tolerance (`time_rtol = 0`): one rounding unit before an end time with odd significand,
both half steps of the leap-frog are rounded back to the current time, and the run never returns. -/
theorem C91_zero_tolerance (N : Nearest p rnd) (E : TiesEven p rnd) (hp : 4 ≤ p) {h : ℝ} (hh : 1 < h) (fuel : Nat) :
    loop rnd (plain rnd) (drifts symplectic2nd) (2 ^ p - 1) 0 fuel h (2 ^ p - 2) = .diverge := by
  have h16 : (16:ℤ) ≤ 2 ^ p := by
    calc (16:ℤ) = 2 ^ 4 := by norm_num
      _ ≤ 2 ^ p := pow_le_pow_right₀ (by norm_num) hp
  have hhalf : (2:ℤ) ^ p = 2 * 2 ^ (p - 1) := by
    obtain ⟨q, rfl⟩ : ∃ q, p = q + 1 := ⟨p - 1, by omega⟩
    simp [pow_succ, mul_comm]
  obtain ⟨b, hb⟩ : ∃ b : ℤ, b = 2 ^ p := ⟨_, rfl⟩
  have hT : (2:ℝ) ^ p - 1 = ((b - 1 : ℤ) : ℝ) := by rw [hb]; push_cast; ring
  have ht : (2:ℝ) ^ p - 2 = ((b - 2 : ℤ) : ℝ) := by rw [hb]; push_cast; ring
  rw [← hb] at h16 hhalf
  rw [hT, ht]
  have hbr : (16:ℝ) ≤ b := by exact_mod_cast h16
  have hTpos : (0:ℝ) < ((b - 1 : ℤ) : ℝ) := by push_cast; linarith
  have hne : notAtEnd rnd ((b - 2 : ℤ) : ℝ) ((b - 1 : ℤ) : ℝ) 0 = true := by
    rw [notAtEnd_eq hTpos]
    have h2 := (quotient_error N (by omega) (t := ((b - 2 : ℤ) : ℝ)) hTpos).1
    have e : ((b - 2 : ℤ) : ℝ) - ((b - 1 : ℤ) : ℝ) = -1 := by push_cast; ring
    rw [e, abs_neg, abs_one] at h2
    rw [e]
    by_contra hc
    push Not at hc
    have h4 : |rnd (rnd (-1) / ((b - 1 : ℤ) : ℝ))| * ((b - 1 : ℤ) : ℝ) ≤ 0 := by nlinarith
    have h5 : (0:ℝ) ≤ (1 + 1 / 2 ^ p) ^ 2 := by positivity
    nlinarith
  have heven : Even (b - 2) := by rw [hhalf]; exact ⟨2 ^ (p - 1) - 1, by ring⟩
  have hstep : advance rnd (plain rnd) (drifts symplectic2nd) ((1 : ℤ) : ℝ) ((b - 2 : ℤ) : ℝ) = ((b - 2 : ℤ) : ℝ) := by
    rw [leap N hp (by norm_num)]
    have := tie E (m := b - 2) (by omega) (by omega)
    rw [if_pos heven] at this
    rw [Int.cast_one, this, this]
  have key : ∀ (n : Nat) (k : ℝ), (k = ((1 : ℤ) : ℝ) ∨ 1 < k) →
      loop rnd (plain rnd) (drifts symplectic2nd) ((b - 1 : ℤ) : ℝ) 0 n k ((b - 2 : ℤ) : ℝ) = .diverge := by
    intro n
    induction n with
    | zero => intro k _; rfl
    | succ n ih =>
      intro k hk
      have : notAtEnd rnd ((plain rnd).shown ((b - 2 : ℤ) : ℝ)) ((b - 1 : ℤ) : ℝ) 0 = true := hne
      rw [loop, if_pos this]
      have hcl : clipStep rnd ((b - 2 : ℤ) : ℝ) ((b - 1 : ℤ) : ℝ) k = ((1 : ℤ) : ℝ) := by
        rcases hk with rfl | hk
        · exact clip_same N (by omega) (by rw [abs_one]; omega)
        · exact clip_rest N (by omega) (by rw [abs_one]; omega) (by
            rw [Int.cast_one, abs_one, abs_of_pos (by linarith)]; exact hk)
      change loop rnd (plain rnd) (drifts symplectic2nd) ((b - 1 : ℤ) : ℝ) 0 n
        (clipStep rnd ((b - 2 : ℤ) : ℝ) ((b - 1 : ℤ) : ℝ) k)
        (advance rnd (plain rnd) (drifts symplectic2nd) (clipStep rnd ((b - 2 : ℤ) : ℝ) ((b - 1 : ℤ) : ℝ) k)
          ((b - 2 : ℤ) : ℝ)) = .diverge
      rw [hcl, hstep]
      exact ih _ (.inl rfl)
  exact key fuel h (.inr hh)

/-- Rounding can carry the time past the end: three units before an end time with odd significand the run ends one unit
after it (here with a tolerance of two units). -/
theorem C91_passes_end (N : Nearest p rnd) (E : TiesEven p rnd) (hp : 4 ≤ p) {h rtol : ℝ} (hh : 3 < h)
    (hr : rtol * (2 ^ p - 3) = 2) (fuel : Nat) (hf : 1 < fuel) :
    loop rnd (plain rnd) (drifts symplectic2nd) (2 ^ p - 3) rtol fuel h (2 ^ p - 6) = .ok (2 ^ p - 3 + 1) := by
  have h16 : (16:ℤ) ≤ 2 ^ p := by
    calc (16:ℤ) = 2 ^ 4 := by norm_num
      _ ≤ 2 ^ p := pow_le_pow_right₀ (by norm_num) hp
  have hu : (1:ℝ) / 2 ^ p ≤ 1 / 16 := by
    refine one_div_le_one_div_of_le (by norm_num) ?_
    exact_mod_cast h16
  have hu0 : (0:ℝ) ≤ 1 / 2 ^ p := by positivity
  have hhalf : (2:ℤ) ^ p = 2 * 2 ^ (p - 1) := by
    obtain ⟨q, rfl⟩ : ∃ q, p = q + 1 := ⟨p - 1, by omega⟩
    simp [pow_succ, mul_comm]
  obtain ⟨b, hb⟩ : ∃ b : ℤ, b = 2 ^ p := ⟨_, rfl⟩
  have hT : (2:ℝ) ^ p - 3 = ((b - 3 : ℤ) : ℝ) := by rw [hb]; push_cast; ring
  have ht : (2:ℝ) ^ p - 6 = ((b - 6 : ℤ) : ℝ) := by rw [hb]; push_cast; ring
  rw [← hb] at h16 hhalf
  rw [hT] at hr
  rw [hT, ht]
  have hbr : (16:ℝ) ≤ b := by exact_mod_cast h16
  have hTpos : (0:ℝ) < ((b - 3 : ℤ) : ℝ) := by push_cast; linarith
  have hne : notAtEnd rnd ((b - 6 : ℤ) : ℝ) ((b - 3 : ℤ) : ℝ) rtol = true := by
    rw [notAtEnd_eq hTpos]
    have h2 := (quotient_error N (by omega) (t := ((b - 6 : ℤ) : ℝ)) hTpos).1
    have e : ((b - 6 : ℤ) : ℝ) - ((b - 3 : ℤ) : ℝ) = -3 := by push_cast; ring
    rw [e, abs_neg, abs_of_pos (by norm_num : (0:ℝ) < 3)] at h2
    rw [e]
    by_contra hc
    push Not at hc
    have h4 : |rnd (rnd (-3) / ((b - 3 : ℤ) : ℝ))| * ((b - 3 : ℤ) : ℝ) ≤ 2 := by nlinarith
    have h5 : (1 + 1 / (2:ℝ) ^ p) ^ 2 ≤ 289 / 256 := by nlinarith
    have h6 := mul_le_mul h5 h4 (by positivity) (by norm_num)
    linarith
  have hend : notAtEnd rnd ((b - 2 : ℤ) : ℝ) ((b - 3 : ℤ) : ℝ) rtol = false := by
    rw [← Bool.not_eq_true, notAtEnd_eq hTpos, not_lt]
    have h2 := (quotient_error N (by omega) (t := ((b - 2 : ℤ) : ℝ)) hTpos).2
    have e : ((b - 2 : ℤ) : ℝ) - ((b - 3 : ℤ) : ℝ) = 1 := by push_cast; ring
    rw [e, abs_one] at h2
    rw [e]
    have h5 : (1 + 1 / (2:ℝ) ^ p) ^ 2 ≤ 289 / 256 := by nlinarith
    have h4 : |rnd (rnd 1 / ((b - 3 : ℤ) : ℝ))| * ((b - 3 : ℤ) : ℝ) ≤ rtol * ((b - 3 : ℤ) : ℝ) := by linarith
    exact le_of_mul_le_mul_right h4 hTpos
  have hstep : advance rnd (plain rnd) (drifts symplectic2nd) ((3 : ℤ) : ℝ) ((b - 6 : ℤ) : ℝ) = ((b - 2 : ℤ) : ℝ) := by
    rw [leap N hp (by norm_num)]
    have t1 := tie E (m := b - 5) (by omega) (by omega)
    have t2 := tie E (m := b - 3) (by omega) (by omega)
    rw [if_neg (by rw [hhalf, Int.not_even_iff_odd]; exact ⟨2 ^ (p - 1) - 3, by ring⟩)] at t1
    rw [if_neg (by rw [hhalf, Int.not_even_iff_odd]; exact ⟨2 ^ (p - 1) - 2, by ring⟩)] at t2
    have e1 : ((b - 6 : ℤ) : ℝ) + ((3 : ℤ) : ℝ) / 2 = ((b - 5 : ℤ) : ℝ) + 1 / 2 := by push_cast; ring
    have e2 : ((b - 5 + 1 : ℤ) : ℝ) + ((3 : ℤ) : ℝ) / 2 = ((b - 3 : ℤ) : ℝ) + 1 / 2 := by push_cast; ring
    rw [e1, t1, e2, t2]
    push_cast; ring
  have hcl : clipStep rnd ((b - 6 : ℤ) : ℝ) ((b - 3 : ℤ) : ℝ) h = ((3 : ℤ) : ℝ) :=
    clip_rest N (by omega) (by rw [abs_of_pos (by norm_num)]; omega) (by
      rw [abs_of_pos (by norm_num), abs_of_pos (by linarith)]; exact_mod_cast hh)
  obtain ⟨f, rfl⟩ : ∃ f, fuel = f + 2 := ⟨fuel - 2, by omega⟩
  have h1 : notAtEnd rnd ((plain rnd).shown ((b - 6 : ℤ) : ℝ)) ((b - 3 : ℤ) : ℝ) rtol = true := hne
  have h2 : notAtEnd rnd ((plain rnd).shown ((b - 2 : ℤ) : ℝ)) ((b - 3 : ℤ) : ℝ) rtol = false := hend
  rw [loop, if_pos h1]
  change loop rnd (plain rnd) (drifts symplectic2nd) ((b - 3 : ℤ) : ℝ) rtol (f + 1)
    (clipStep rnd ((b - 6 : ℤ) : ℝ) ((b - 3 : ℤ) : ℝ) h)
    (advance rnd (plain rnd) (drifts symplectic2nd) (clipStep rnd ((b - 6 : ℤ) : ℝ) ((b - 3 : ℤ) : ℝ) h)
      ((b - 6 : ℤ) : ℝ)) = _
  rw [hcl, hstep, loop, if_neg (by rw [h2]; simp)]
  congr 1
  push_cast; ring

/-! ### the compensated clock -/

/-- states of the compensated clock between the steps `h` of a run -/
structure Ticking (p : Nat) (h : ℝ) (k : Num) : Prop where
  float : IsFloat p k.real
  pos : 0 ≤ k.real
  err : |k.err| ≤ 1 / 2 ^ p * k.real
  large : k = Num.of 0 ∨ h ≤ k.real

/-- one round of the loop with the compensated clock -/
theorem comp_round (N : Nearest p rnd) (hp : 4 ≤ p) {k : Num} {T h rtol : ℝ} (hT : 0 < T) (fT : IsFloat p T)
    (fh : IsFloat p h) (hpos : 0 < h) (hh : 16 * (1 / 2 ^ p * (1 / 2 ^ p) * T) ≤ h) (hr : 32 * (1 / 2 ^ p) ≤ rtol)
    (hk : Ticking p h k) (hle : k.real ≤ T + 8 * (1 / 2 ^ p) * T) (hne : notAtEnd rnd k.real T rtol = true) :
    k.real < T ∧ ((clipStep rnd k.real T h = h ∧
        Ticking p h (advance rnd (compensated rnd) (drifts symplectic2nd) h k) ∧
        k.real - k.err + h / 2 ≤ (advance rnd (compensated rnd) (drifts symplectic2nd) h k).real -
          (advance rnd (compensated rnd) (drifts symplectic2nd) h k).err ∧
        (advance rnd (compensated rnd) (drifts symplectic2nd) h k).real ≤ T + 8 * (1 / 2 ^ p) * T) ∨
      |(advance rnd (compensated rnd) (drifts symplectic2nd) (clipStep rnd k.real T h) k).real - T| ≤
        8 * (1 / 2 ^ p) * T) := by
  have hu : (1:ℝ) / 2 ^ p ≤ 1 / 16 := by
    refine one_div_le_one_div_of_le (by norm_num) ?_
    calc (16:ℝ) = 2 ^ 4 := by norm_num
      _ ≤ 2 ^ p := pow_le_pow_right₀ (by norm_num) hp
  have hu0 : (0:ℝ) < 1 / 2 ^ p := by positivity
  have hp1 : 1 ≤ p := by omega
  have hlt : k.real < T := by
    by_contra hc
    push Not at hc
    have := atEnd_of_close N hp1 (t := k.real) (rtol := rtol) hT (ε := 8 * (1 / 2 ^ p))
      (by rw [abs_of_nonneg (by linarith)]; linarith) (by linarith)
    rw [this] at hne
    exact absurd hne (by simp)
  refine ⟨hlt, ?_⟩
  have hd : 0 ≤ rnd (T - k.real) := rnd_nonneg N (by linarith)
  have hd2 : rnd (T - k.real) ≤ T := rnd_le N fT (by linarith [hk.pos])
  have hde := relU N hp1 (T - k.real)
  have hrest : rnd (rnd (T - k.real) * 1) = rnd (T - k.real) := by rw [mul_one, N.exact (N.float _)]
  have hclip : clipStep rnd k.real T h = if |h| ≤ |rnd (T - k.real)| then h else rnd (T - k.real) := by
    unfold clipStep
    simp only []
    rw [hrest]
  have fd := N.float (T - k.real)
  have hdz : k = Num.of 0 → rnd (T - k.real) = T := by
    rintro rfl
    simp only [Num.of, sub_zero]
    exact N.exact fT
  set d := rnd (T - k.real)
  have huT : 0 < 1 / 2 ^ p * T := by positivity
  have hde2 : |d - (T - k.real)| ≤ 1 / 2 ^ p * T := by
    refine hde.trans (mul_le_mul_of_nonneg_left ?_ hu0.le)
    rw [abs_of_nonneg (by linarith)]; linarith [hk.pos]
  have hd3 := abs_le.1 hde2
  have herr := abs_le.1 hk.err
  have hkT : 1 / 2 ^ p * k.real ≤ 1 / 2 ^ p * T := mul_le_mul_of_nonneg_left hlt.le hu0.le
  -- a step of size `s` from a large time
  have step : ∀ s, 0 ≤ s → s ≤ T → s ≤ k.real →
      IsFloat p (Kahan.add rnd (Kahan.add rnd k (s / 2)) (s / 2)).real ∧
      s ≤ (Kahan.add rnd (Kahan.add rnd k (s / 2)) (s / 2)).real ∧
      |(Kahan.add rnd (Kahan.add rnd k (s / 2)) (s / 2)).err| ≤
        1 / 2 ^ p * (Kahan.add rnd (Kahan.add rnd k (s / 2)) (s / 2)).real ∧
      |(Kahan.add rnd (Kahan.add rnd k (s / 2)) (s / 2)).real - (Kahan.add rnd (Kahan.add rnd k (s / 2)) (s / 2)).err -
        (k.real - k.err + s)| ≤ 1 / 2 ^ p * s + 4 * (1 / 2 ^ p * (1 / 2 ^ p) * T) := by
    intro s s0 s1 s2
    obtain ⟨a1, a2, a3, a4⟩ := kahan_pair N hp hk.float hk.pos hk.err (d := s / 2) (by linarith) (by linarith)
    have e1 : 2 * (s / 2) = s := by ring
    rw [e1] at a2 a4
    refine ⟨a1, a2, a3, a4.trans ?_⟩
    have : 1 / 2 ^ p * (1 / 2 ^ p * k.real) ≤ 1 / 2 ^ p * (1 / 2 ^ p * T) := mul_le_mul_of_nonneg_left hkT hu0.le
    nlinarith
  -- the time shown afterwards
  have shown : ∀ (k2 : Num) (s : ℝ), 0 ≤ s → s ≤ T → 0 ≤ k2.real → |k2.err| ≤ 1 / 2 ^ p * k2.real →
      |k2.real - k2.err - (k.real - k.err + s)| ≤ 1 / 2 ^ p * s + 4 * (1 / 2 ^ p * (1 / 2 ^ p) * T) →
      k.real + s ≤ T + 1 / 2 ^ p * T → |k2.real - (k.real + s)| ≤ 6 * (1 / 2 ^ p * T) := by
    intro k2 s s0 s1 k0 ke kd ks
    have g1 := abs_le.1 ke
    have g2 := abs_le.1 kd
    have g3 : 1 / 2 ^ p * s ≤ 1 / 2 ^ p * T := mul_le_mul_of_nonneg_left s1 hu0.le
    have g4 : 1 / 2 ^ p * (1 / 2 ^ p) * T ≤ 1 / 16 * (1 / 2 ^ p * T) := by
      rw [mul_assoc]; exact mul_le_mul_of_nonneg_right hu huT.le
    have g5 : 1 / 2 ^ p * k2.real ≤ 1 / 16 * k2.real := mul_le_mul_of_nonneg_right hu k0
    have g6 : 1 / 2 ^ p * T ≤ 1 / 16 * T := mul_le_mul_of_nonneg_right hu hT.le
    have g7 : k2.real ≤ 3 / 2 * T := by linarith
    have g8 : 1 / 2 ^ p * k2.real ≤ 1 / 2 ^ p * (3 / 2 * T) := mul_le_mul_of_nonneg_left g7 hu0.le
    rw [abs_le]
    constructor <;> nlinarith
  by_cases hc : |h| ≤ |d|
  · left
    have hcl : clipStep rnd k.real T h = h := by rw [hclip, if_pos hc]
    rw [abs_of_pos hpos, abs_of_nonneg hd] at hc
    refine ⟨hcl, ?_⟩
    rw [leap_comp N hp1 fh]
    rcases hk.large with hz | hl
    · have e : Kahan.add rnd (Kahan.add rnd k (h / 2)) (h / 2) = Num.of h := by
        rw [hz, kahan_zero N (IsFloat.halve fh) (by rwa [mul_div_cancel₀ _ (two_ne_zero)])]
        congr 1; ring
      rw [e]
      refine ⟨⟨fh, hpos.le, ?_, .inr le_rfl⟩, ?_, ?_⟩
      · simp only [Num.of, abs_zero]; positivity
      · rw [hz]; simp only [Num.of]; linarith
      · simp only [Num.of]; linarith
    · obtain ⟨a1, a2, a3, a4⟩ := step h hpos.le (by linarith) hl
      have a5 := shown _ h hpos.le (by linarith) (by linarith) a3 a4 (by linarith [hd3.2])
      set k2 := Kahan.add rnd (Kahan.add rnd k (h / 2)) (h / 2)
      refine ⟨⟨a1, by linarith, a3, .inr a2⟩, ?_, ?_⟩
      · have := (abs_le.1 a4).1
        have : 1 / 2 ^ p * h ≤ 1 / 16 * h := mul_le_mul_of_nonneg_right hu hpos.le
        linarith
      · have := (abs_le.1 a5).2
        linarith [hd3.2]
  · right
    rw [hclip, if_neg hc, leap_comp N hp1 fd]
    rw [abs_of_pos hpos, abs_of_nonneg hd] at hc
    push Not at hc
    rcases hk.large with hz | hl
    · have e : Kahan.add rnd (Kahan.add rnd k (d / 2)) (d / 2) = Num.of d := by
        rw [hz, kahan_zero N (IsFloat.halve fd) (by rwa [mul_div_cancel₀ _ (two_ne_zero)])]
        congr 1; ring
      rw [e, hdz hz]
      simp only [Num.of, sub_self, abs_zero]; positivity
    · obtain ⟨a1, a2, a3, a4⟩ := step d hd hd2 (by linarith)
      have a5 := shown _ d hd hd2 (by linarith) a3 a4 (by linarith [hd3.2])
      set k2 := Kahan.add rnd (Kahan.add rnd k (d / 2)) (d / 2)
      have := abs_sub_le k2.real (k.real + d) T
      have e : k.real + d - T = d - (T - k.real) := by ring
      rw [e] at this
      linarith

theorem comp_loop (N : Nearest p rnd) (hp : 4 ≤ p) {T h rtol : ℝ} (hT : 0 < T) (fT : IsFloat p T)
    (fh : IsFloat p h) (hpos : 0 < h) (hh : 16 * (1 / 2 ^ p * (1 / 2 ^ p) * T) ≤ h) (hr : 32 * (1 / 2 ^ p) ≤ rtol) (m : Nat) :
    ∀ k, Ticking p h k → k.real ≤ T + 8 * (1 / 2 ^ p) * T → 2 * ((1 + 1 / 2 ^ p) * T - (k.real - k.err)) / h ≤ m →
    ∃ k' : Num, k'.real ≤ T + 8 * (1 / 2 ^ p) * T ∧ notAtEnd rnd k'.real T rtol = false ∧
      ∀ fuel, m + 1 < fuel → loop rnd (compensated rnd) (drifts symplectic2nd) T rtol fuel h k = .ok k' := by
  have hu0 : (0:ℝ) < 1 / 2 ^ p := by positivity
  have stop : ∀ k l, notAtEnd rnd k.real T rtol = false → ∀ fuel, 0 < fuel →
      loop rnd (compensated rnd) (drifts symplectic2nd) T rtol fuel l k = .ok k := by
    intro k l ht fuel hf
    obtain ⟨f, rfl⟩ : ∃ f, fuel = f + 1 := ⟨fuel - 1, by omega⟩
    have : notAtEnd rnd ((compensated rnd).shown k) T rtol = false := ht
    simp [loop, this]
  have go : ∀ (k : Num) l f, notAtEnd rnd k.real T rtol = true →
      loop rnd (compensated rnd) (drifts symplectic2nd) T rtol (f + 1) l k =
      loop rnd (compensated rnd) (drifts symplectic2nd) T rtol f (clipStep rnd k.real T l)
        (advance rnd (compensated rnd) (drifts symplectic2nd) (clipStep rnd k.real T l) k) := by
    intro k l f ht
    have : notAtEnd rnd ((compensated rnd).shown k) T rtol = true := ht
    rw [loop, if_pos this]
    rfl
  induction m with
  | zero =>
    intro k hk hle hm
    cases hc : notAtEnd rnd k.real T rtol with
    | false => exact ⟨k, hle, hc, fun fuel hf => stop k h hc fuel (by omega)⟩
    | true =>
      have hlt := (comp_round N hp hT fT fh hpos hh hr hk hle hc).1
      have h1 := (abs_le.1 hk.err).1
      have h2 : 1 / 2 ^ p * k.real ≤ 1 / 2 ^ p * T := mul_le_mul_of_nonneg_left hlt.le hu0.le
      have : 0 < 2 * ((1 + 1 / 2 ^ p) * T - (k.real - k.err)) / h := by
        refine div_pos ?_ hpos
        nlinarith
      push_cast at hm; linarith
  | succ m ih =>
    intro k hk hle hm
    cases hc : notAtEnd rnd k.real T rtol with
    | false => exact ⟨k, hle, hc, fun fuel hf => stop k h hc fuel (by omega)⟩
    | true =>
      obtain ⟨hlt, hcase⟩ := comp_round N hp hT fT fh hpos hh hr hk hle hc
      rcases hcase with ⟨h1, h2, h3, h4⟩ | h1
      · obtain ⟨k', g1, g2, g3⟩ := ih _ h2 h4 (by
          push_cast at hm
          have : 2 * ((1 + 1 / 2 ^ p) * T - ((advance rnd (compensated rnd) (drifts symplectic2nd) h k).real -
              (advance rnd (compensated rnd) (drifts symplectic2nd) h k).err)) / h ≤
              2 * ((1 + 1 / 2 ^ p) * T - (k.real - k.err)) / h - 1 := by
            rw [div_sub_one hpos.ne']
            exact div_le_div_of_nonneg_right (by linarith) hpos.le
          linarith)
        refine ⟨k', g1, g2, fun fuel hf => ?_⟩
        obtain ⟨f, rfl⟩ : ∃ f, fuel = f + 1 := ⟨fuel - 1, by omega⟩
        rw [go k h f hc, h1]
        exact g3 f (by omega)
      · have hst := atEnd_of_close N (by omega) (rtol := rtol) hT h1 (by linarith)
        have hab := abs_le.1 h1
        refine ⟨_, by linarith, hst, fun fuel hf => ?_⟩
        obtain ⟨f, rfl⟩ : ∃ f, fuel = f + 1 := ⟨fuel - 1, by omega⟩
        rw [go k h f hc]
        exact stop _ _ hst f (by omega)

/-- Compensated time (`_Plus` methods), leap-frog with constant steps: the step may be as small as `16 · 2^(-2p)` of the end
time (the plain clock stops advancing at about `2^(-p)`, `C91_stagnates`); the run ends, within the tolerance, and passes
the end time by at most eight rounding units. -/
theorem C91_compensated (N : Nearest p rnd) (hp : 4 ≤ p) {t0 T h rtol : ℝ} (hT : 0 < T) (fT : IsFloat p T)
    (ft : IsFloat p t0) (h0 : t0 = 0 ∨ h ≤ t0) (h1 : t0 ≤ T) (fh : IsFloat p h) (hpos : 0 < h)
    (hh : 16 * (1 / 2 ^ p * (1 / 2 ^ p) * T) ≤ h) (hr : 32 * (1 / 2 ^ p) ≤ rtol) :
    ∃ k : Num, (∀ fuel, ⌈2 * ((1 + 1 / 2 ^ p) * T - t0) / h⌉₊ + 1 < fuel →
        loop rnd (compensated rnd) (drifts symplectic2nd) T rtol fuel h (Num.of t0) = .ok k) ∧
      |k.real - T| ≤ (1 + 1 / 2 ^ p) ^ 2 * (rtol * T) ∧ k.real ≤ T + 8 * (1 / 2 ^ p) * T := by
  have hu0 : (0:ℝ) < 1 / 2 ^ p := by positivity
  have ht0 : 0 ≤ t0 := by rcases h0 with h0 | h0 <;> linarith
  obtain ⟨k, g1, g2, g3⟩ := comp_loop N hp hT fT fh hpos hh hr ⌈2 * ((1 + 1 / 2 ^ p) * T - t0) / h⌉₊ (Num.of t0)
    ⟨ft, ht0, by simp only [Num.of, abs_zero]; positivity, by
      rcases h0 with h0 | h0
      · left; rw [h0]
      · right; exact h0⟩ (by
      have : 0 < 8 * (1 / 2 ^ p) * T := by positivity
      change t0 ≤ _
      linarith) (by
      change 2 * ((1 + 1 / 2 ^ p) * T - (t0 - 0)) / h ≤ _
      rw [sub_zero]
      exact Nat.le_ceil _)
  exact ⟨k, g3, close_of_atEnd N (by omega) hT g2, g1⟩

/-! ### the clock is that of a run -/

theorem advance_exact (stages : List Stage) (h t : ℝ) :
    advance id (plain id) (drifts stages) h t = t + Sys.driftTime (stages.map (Stage.op h)) := by
  induction stages generalizing t with
  | nil => simp [advance, drifts, Sys.driftTime]
  | cons st l ih =>
    cases st with
    | drift c =>
      have : advance id (plain id) (drifts (.drift c :: l)) h t = advance id (plain id) (drifts l) h (t + c * h) := rfl
      rw [this, ih]
      simp only [List.map_cons, Stage.op, Sys.driftTime]
      ring
    | kick c => exact ih t

/-- Without rounding the clock is the time of `Simulator::run` (no callbacks between the steps, no stop conditions) on a
plain system, whatever the particles and the forces. -/
theorem C91_clock {W : Type} (big G T : ℝ) (I : Sys.Interactions) (stages : List Stage) (A : Simu.RunArgs W Sys.Simple)
    (h1 : A.stopCond = []) (h2 : A.opts = []) (fuel : Nat) (h : ℝ) (w : W) (s : Sys.Simple) :
    (Simu.loop (Simu.constSimple big G I stages) A T fuel h (w, s) >>= fun r => (.ok r.2.2.time : Res ℝ)) =
      loop id (plain id) (drifts stages) T A.timeRtol fuel h s.time := by
  induction fuel generalizing h s with
  | zero => rfl
  | succ fuel ih =>
    have e1 : Simu.notAtEnd s.time T A.timeRtol = notAtEnd id s.time T A.timeRtol := by
      unfold Simu.notAtEnd notAtEnd
      split_ifs with hT
      · simp [hT]
      · rfl
    have e2 : Simu.clipStep (Simu.constSimple big G I stages) T h s = clipStep id s.time T h := rfl
    have e3 : (Simu.constSimple big G I stages).time s = s.time := rfl
    have e4 : (plain id).shown s.time = s.time := rfl
    rw [Simu.loop, loop]
    simp only [h1, h2, Simu.checkStops, Simu.callAll, List.foldl_nil, Bool.false_eq_true, if_false, e1, e2, e3, e4]
    by_cases hc : notAtEnd id s.time T A.timeRtol = true
    · simp only [hc, if_true]
      obtain ⟨s', g1, g2⟩ := Sys.C17_simple_time I (stages.map (Stage.op (clipStep id s.time T h))) (s.preIter I)
      have g3 : (Simu.constSimple big G I stages).advance (clipStep id s.time T h) s =
          .ok (s', clipStep id s.time T h) := by
        show ((simpleOps I).run _ (s.preIter I) >>= fun s' => Res.ok (s', clipStep id s.time T h)) = _
        rw [g1]; rfl
      rw [g3]
      change (Simu.loop _ A T fuel _ (w, s') >>= _) = _
      have g4 : (s.preIter I).time = s.time := by
        unfold Sys.Simple.preIter
        split_ifs <;> rfl
      rw [ih, g2, g4, advance_exact]
    · simp only [hc]
      rfl

/-! ### concrete cases -/

/-- IEEE `double` arithmetic (exponents unbounded), one time unit in steps of 1/8: any of the six integrators, default
tolerance. -/
example {stages : List Stage} (hs : stages ∈ integrators) :
    ∃ t, (∀ fuel, ⌈2 * ((1:ℝ) - 0) / (1 / 8)⌉₊ + 1 < fuel →
        loop (roundWith roundEven 53) (plain (roundWith roundEven 53)) (drifts stages) 1 1e-8 fuel (1 / 8) 0 = .ok t) ∧
      |t - 1| ≤ 1.0001 * (1e-8 * 1) ∧ t ≤ 1 + 4e-13 * 1 :=
  C91_double (roundEven_nearest (by norm_num)) hs one_pos (by simpa using IsFloat.int (p := 53) (m := 1) (by norm_num)) le_rfl
    zero_le_one (by norm_num) (by norm_num)

/-- From time 1 with steps of `2^-60` the plain clock never reaches 2 ... -/
example (fuel : Nat) : loop (roundWith roundEven 53) (plain (roundWith roundEven 53)) (drifts symplectic2nd) 2 1e-8 fuel
    (1 / 2 ^ 60) 1 = .diverge :=
  C91_stagnates (roundEven_nearest (by norm_num)) (by norm_num) (by simp [integrators]) one_pos
    (by simpa using IsFloat.int (p := 53) (m := 1) (by norm_num)) (by norm_num) (by norm_num) (by norm_num) (by norm_num) fuel

/-- ... and the compensated clock does. -/
example : ∃ k : Num, (∀ fuel, ⌈2 * ((1 + 1 / 2 ^ 53) * 2 - 1) / (1 / 2 ^ 60 : ℝ)⌉₊ + 1 < fuel →
      loop (roundWith roundEven 53) (compensated (roundWith roundEven 53)) (drifts symplectic2nd) 2 1e-8 fuel (1 / 2 ^ 60)
        (Num.of 1) = .ok k) ∧
    |k.real - 2| ≤ (1 + 1 / 2 ^ 53) ^ 2 * (1e-8 * 2) ∧ k.real ≤ 2 + 8 * (1 / 2 ^ 53) * 2 := by
  refine C91_compensated (roundEven_nearest (by norm_num)) (by norm_num) two_pos ?_ ?_ (.inr (by norm_num)) (by norm_num) ?_
    (by norm_num) (by norm_num) (by norm_num)
  · simpa using IsFloat.int (p := 53) (m := 2) (by norm_num)
  · simpa using IsFloat.int (p := 53) (m := 1) (by norm_num)
  · exact ⟨1, -60, by norm_num, by norm_num⟩

/-- The default rounding of IEEE arithmetic meets the hypotheses of the last two counterexamples. -/
example (fuel : Nat) : loop (roundWith roundEven 53) (plain (roundWith roundEven 53)) (drifts symplectic2nd) (2 ^ 53 - 1) 0
    fuel 100 (2 ^ 53 - 2) = .diverge :=
  C91_zero_tolerance (roundEven_nearest (by norm_num)) (roundEven_tiesEven (by norm_num)) (by norm_num) (by norm_num) fuel

example : loop (roundWith roundEven 53) (plain (roundWith roundEven 53)) (drifts symplectic2nd) (2 ^ 53 - 3)
    (2 / (2 ^ 53 - 3)) 2 100 (2 ^ 53 - 6) = .ok (2 ^ 53 - 3 + 1) :=
  C91_passes_end (roundEven_nearest (by norm_num)) (roundEven_tiesEven (by norm_num)) (by norm_num) (by norm_num)
    (by norm_num) 2 (by norm_num)

end SpaceHub.Props
