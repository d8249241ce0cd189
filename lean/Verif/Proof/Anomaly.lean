import Verif.Proof.OrbitTime
import Verif.Props.Bisection

set_option autoImplicit false

namespace SpaceHub.Orbit
open SpaceHub Spec.Orbit Real

theorem atan2_polar {r θ : ℝ} (hr : 0 < r) (h1 : -π < θ) (h2 : θ ≤ π) : atan2 (r * sin θ) (r * cos θ) = θ := by
  unfold atan2
  have := Complex.arg_mul_cos_add_sin_mul_I hr (θ := θ) ⟨h1, h2⟩
  refine Eq.trans ?_ this
  congr 1
  apply Complex.ext <;> simp [Complex.cos_ofReal_re, Complex.sin_ofReal_re, Complex.cos_ofReal_im, Complex.sin_ofReal_im]

theorem atan2_spec {x y : ℝ} (h : x ≠ 0 ∨ y ≠ 0) :
    ∃ ρ, 0 < ρ ∧ x = ρ * cos (atan2 y x) ∧ y = ρ * sin (atan2 y x) := by
  have hz : (⟨x, y⟩ : ℂ) ≠ 0 := by
    intro hc
    have h1 := congrArg Complex.re hc
    have h2 := congrArg Complex.im hc
    simp at h1 h2
    rcases h with h | h
    · exact h h1
    · exact h h2
  refine ⟨‖(⟨x, y⟩ : ℂ)‖, norm_pos_iff.2 hz, ?_, ?_⟩
  · unfold atan2
    rw [Complex.cos_arg hz]
    have := (norm_pos_iff.2 hz).ne'
    field_simp
  · unfold atan2
    rw [Complex.sin_arg]
    have := (norm_pos_iff.2 hz).ne'
    field_simp

/-- Stretching the coordinates of a direction in the right half-plane, and stretching them back. -/
theorem atan2_stretch {α β θ : ℝ} (hα : 0 < α) (hβ : 0 < β) (h1 : -(π / 2) ≤ θ) (h2 : θ ≤ π / 2) :
    -(π / 2) ≤ atan2 (α * sin θ) (β * cos θ) ∧ atan2 (α * sin θ) (β * cos θ) ≤ π / 2 ∧
      atan2 (β * sin (atan2 (α * sin θ) (β * cos θ))) (α * cos (atan2 (α * sin θ) (β * cos θ))) = θ := by
  have hc : 0 ≤ cos θ := cos_nonneg_of_neg_pi_div_two_le_of_le h1 h2
  have habs : |atan2 (α * sin θ) (β * cos θ)| ≤ π / 2 := Complex.abs_arg_le_pi_div_two_iff.2 (mul_nonneg hβ.le hc)
  refine ⟨(abs_le.1 habs).1, (abs_le.1 habs).2, ?_⟩
  have hne : β * cos θ ≠ 0 ∨ α * sin θ ≠ 0 := by
    by_contra hcon
    push Not at hcon
    have e1 : cos θ = 0 := by simpa [hβ.ne'] using hcon.1
    have e2 : sin θ = 0 := by simpa [hα.ne'] using hcon.2
    have := sin_sq_add_cos_sq θ
    rw [e1, e2] at this
    norm_num at this
  obtain ⟨ρ, hρ, hx, hy⟩ := atan2_spec hne
  set φ := atan2 (α * sin θ) (β * cos θ)
  have e1 : β * sin φ = (α * β / ρ) * sin θ := by
    field_simp
    linear_combination -hy
  have e2 : α * cos φ = (α * β / ρ) * cos θ := by
    field_simp
    linear_combination -hx
  rw [e1, e2]
  exact atan2_polar (by positivity) (by linarith [pi_pos]) (by linarith [pi_pos])

/-- `root_bisection` on an interval `[-a, a]` on which the function has one sign throughout: it ends at the lower end. -/
theorem bisection_no_root {f : ℝ → ℝ} {eps a : ℝ} (heps : 0 < eps) (ha : 0 < a)
    (hf : ∀ x y, x ∈ Set.Icc (-a) a → y ∈ Set.Icc (-a) a → 0 < f x * f y) :
    (∃ fuel x, MathFn.bisection f eps fuel (-a) a = .ok x) ∧
    ∀ fuel x, MathFn.bisection f eps fuel (-a) a = .ok x → -a ≤ x ∧ x ≤ -a + a * eps / 2 := by
  have step : ∀ fuel u x, -a ≤ u → u ≤ a → MathFn.bisection f eps fuel (-a) u = .ok x → -a ≤ x ∧ x ≤ -a + a * eps / 2 := by
    intro fuel
    induction fuel with
    | zero => intro u x _ _ h; cases h
    | succ n ih =>
      intro u x h1 h2 h
      unfold MathFn.bisection at h
      by_cases hc : |u - -a| > |u| * eps
      · rw [if_pos hc] at h
        simp only at h
        rw [if_pos (hf _ _ ⟨by linarith, by linarith⟩ ⟨h1, h2⟩)] at h
        exact ih _ x (by linarith) (by linarith) h
      · rw [if_neg hc] at h
        cases h
        have h3 : |u| ≤ a := abs_le.2 ⟨h1, h2⟩
        rw [not_lt, abs_of_nonneg (by linarith)] at hc
        have : |u| * eps ≤ a * eps := mul_le_mul_of_nonneg_right h3 heps.le
        constructor <;> linarith
  refine ⟨?_, fun fuel x h => step fuel a x (by linarith) le_rfl h⟩
  have run : ∀ n u, -a ≤ u → u ≤ a → (∃ x, MathFn.bisection f eps (n + 1) (-a) u = .ok x) ∨
      |(-a + (u + a) / 2 ^ n)| * eps < (u + a) / 2 ^ n := by
    intro n
    induction n with
    | zero =>
      intro u h1 h2
      by_cases hc : |u - -a| > |u| * eps
      · right
        rw [abs_of_nonneg (by linarith)] at hc
        simp only [pow_zero, div_one]
        rw [show -a + (u + a) = u by ring]
        linarith
      · left
        unfold MathFn.bisection
        rw [if_neg hc]
        exact ⟨_, rfl⟩
    | succ n ih =>
      intro u h1 h2
      unfold MathFn.bisection
      by_cases hc : |u - -a| > |u| * eps
      · rw [if_pos hc]
        simp only
        rw [if_pos (hf _ _ ⟨by linarith, by linarith⟩ ⟨h1, h2⟩)]
        rcases ih (1 / 2 * (u + -a)) (by linarith) (by linarith) with h | h
        · exact .inl h
        · right
          rw [show (1 / 2 * (u + -a) + a) / 2 ^ n = (u + a) / 2 ^ (n + 1) by rw [pow_succ]; field_simp; ring] at h
          exact h
      · rw [if_neg hc]
        exact .inl ⟨_, rfl⟩
  obtain ⟨n, hn⟩ : ∃ n : Nat, 4 * (1 + 1 / eps) < 2 ^ n := pow_unbounded_of_one_lt _ (by norm_num)
  rcases run n a (by linarith) le_rfl with h | h
  · exact ⟨_, h⟩
  · exfalso
    have hp : (0:ℝ) < 2 ^ n := by positivity
    have h4 : (a + a) / 2 ^ n < a / 2 := by
      rw [div_lt_iff₀ hp]
      have : 0 < 1 / eps := by positivity
      nlinarith
    have h5 : a / 2 ≤ |(-a + (a + a) / 2 ^ n)| := by
      rw [abs_of_nonpos (by linarith)]; linarith
    have h6 : a / 2 * eps < (a + a) / 2 ^ n := lt_of_le_of_lt (mul_le_mul_of_nonneg_right h5 heps.le) h
    rw [lt_div_iff₀ hp] at h6
    have h7 : 4 * (1 + 1 / eps) * (a / 2 * eps) < 2 ^ n * (a / 2 * eps) := mul_lt_mul_of_pos_right hn (by positivity)
    have h8 : 4 * (1 + 1 / eps) * (a / 2 * eps) = 2 * a * eps + 2 * a := by field_simp; ring
    have : 0 < a * eps := by positivity
    linarith

/-- The function of Kepler's equation for ellipses. -/
theorem kepler_strictMono {e : ℝ} (he : 0 ≤ e) (he1 : e < 1) : StrictMono fun x => x - e * sin x := by
  apply strictMono_of_deriv_pos
  intro x
  have d : HasDerivAt (fun x => x - e * sin x) (1 - e * cos x) x := (hasDerivAt_id x).sub ((hasDerivAt_sin x).const_mul e)
  rw [d.deriv]
  nlinarith [neg_one_le_cos x, cos_le_one x]

theorem keplerH_strictMono {e : ℝ} (he : 1 < e) : StrictMono fun x => e * sinh x - x := by
  apply strictMono_of_deriv_pos
  intro x
  have d : HasDerivAt (fun x => e * sinh x - x) (e * cosh x - 1) x := ((hasDerivAt_sinh x).const_mul e).sub (hasDerivAt_id x)
  rw [d.deriv]
  nlinarith [one_le_cosh x]

theorem barker_strictMono : StrictMono fun x : ℝ => x + x * x * x / 3 := by
  apply strictMono_of_deriv_pos
  intro x
  have d : HasDerivAt (fun x : ℝ => x + x ^ 3 / 3) (1 + 3 * x ^ 2 / 3) x := by
    have := (hasDerivAt_id x).add ((hasDerivAt_pow 3 x).div_const 3)
    exact this.congr_deriv (by norm_num)
  have e : (fun x : ℝ => x + x * x * x / 3) = fun x : ℝ => x + x ^ 3 / 3 := by funext y; ring
  rw [e, d.deriv]
  positivity

end SpaceHub.Orbit
