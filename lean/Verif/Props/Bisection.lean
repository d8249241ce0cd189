import Verif.Model.MathFn
import Mathlib.Topology.Order.IntermediateValue
import Mathlib.Topology.Instances.Real.Lemmas
import Mathlib.Analysis.SpecificLimits.Basic
import Mathlib.Tactic.Linarith
import Mathlib.Tactic.Ring
import Mathlib.Tactic.NormNum
import Mathlib.Tactic.Positivity
import Mathlib.Tactic.FieldSimp

/-
C35: the root finders.
-/

set_option autoImplicit false

namespace SpaceHub.Props
open SpaceHub MathFn

theorem mid_mem {l h : ℝ} : 1 / 2 * (h + l) ∈ Set.uIcc l h := by
  rw [Set.mem_uIcc]
  rcases le_total l h with e | e
  · left; constructor <;> linarith
  · right; constructor <;> linarith

theorem uIcc_mid_left (l h : ℝ) : Set.uIcc l (1 / 2 * (h + l)) ⊆ Set.uIcc l h :=
  Set.uIcc_subset_uIcc Set.left_mem_uIcc mid_mem

theorem uIcc_mid_right (l h : ℝ) : Set.uIcc (1 / 2 * (h + l)) h ⊆ Set.uIcc l h :=
  Set.uIcc_subset_uIcc mid_mem Set.right_mem_uIcc

/-- What `root_bisection` returns: the middle of an interval inside the given one, `k` times halved, across which the function
changes sign (if it did across the given one), and whose length is within the tolerance - relative to its upper end. -/
theorem C35_bracket (f : ℝ → ℝ) (eps low high x : ℝ) (fuel : Nat) (hsign : f low * f high ≤ 0)
    (h : bisection f eps fuel low high = .ok x) :
    ∃ l u k, l ∈ Set.uIcc low high ∧ u ∈ Set.uIcc low high ∧ f l * f u ≤ 0 ∧ u - l = (high - low) / 2 ^ k ∧ k < fuel ∧
      |u - l| ≤ |u| * eps ∧ x = (l + u) / 2 := by
  induction fuel generalizing low high with
  | zero => cases h
  | succ n ih =>
    unfold bisection at h
    by_cases hc : |high - low| > |high| * eps
    · rw [if_pos hc] at h
      dsimp only at h
      by_cases hm : f (1 / 2 * (high + low)) * f high > 0
      · rw [if_pos hm] at h
        have hs : f low * f (1 / 2 * (high + low)) ≤ 0 := by
          by_contra hp
          push Not at hp
          -- `f low`, `f mid`, `f high` would have one sign
          have h1 : 0 < (f low * f (1 / 2 * (high + low))) * (f (1 / 2 * (high + low)) * f high) := mul_pos hp hm
          have h2 : (f low * f (1 / 2 * (high + low))) * (f (1 / 2 * (high + low)) * f high) =
              (f low * f high) * (f (1 / 2 * (high + low))) ^ 2 := by ring
          rw [h2] at h1
          have := mul_nonpos_of_nonpos_of_nonneg hsign (sq_nonneg (f (1 / 2 * (high + low))))
          linarith
        obtain ⟨l, u, k, h1, h2, h3, h4, h5, h6, h7⟩ := ih low _ hs h
        refine ⟨l, u, k + 1, uIcc_mid_left _ _ h1, uIcc_mid_left _ _ h2, h3, ?_, by omega, h6, h7⟩
        rw [h4, pow_succ]; field_simp; ring
      · rw [if_neg hm] at h
        obtain ⟨l, u, k, h1, h2, h3, h4, h5, h6, h7⟩ := ih _ high (not_lt.1 hm) h
        refine ⟨l, u, k + 1, uIcc_mid_right _ _ h1, uIcc_mid_right _ _ h2, h3, ?_, by omega, h6, h7⟩
        rw [h4, pow_succ]; field_simp; ring
    · rw [if_neg hc] at h
      cases h
      exact ⟨low, high, 0, Set.left_mem_uIcc, Set.right_mem_uIcc, hsign, by simp, by omega, not_lt.1 hc, by ring⟩

/-- For a continuous function the returned number is within half the tolerance of a root inside the given interval. -/
theorem C35_root (f : ℝ → ℝ) (eps low high x : ℝ) (fuel : Nat) (hsign : f low * f high ≤ 0)
    (hcont : ContinuousOn f (Set.uIcc low high)) (h : bisection f eps fuel low high = .ok x) :
    ∃ r u, r ∈ Set.uIcc low high ∧ u ∈ Set.uIcc low high ∧ f r = 0 ∧ |x - r| ≤ |u| * eps / 2 ∧ |u - r| ≤ |u| * eps := by
  obtain ⟨l, u, k, h1, h2, h3, _, _, h6, h7⟩ := C35_bracket f eps low high x fuel hsign h
  have hsub : Set.uIcc l u ⊆ Set.uIcc low high := Set.uIcc_subset_uIcc h1 h2
  have h0 : (0:ℝ) ∈ Set.uIcc (f l) (f u) := by
    rw [Set.mem_uIcc]
    rcases mul_nonpos_iff.1 h3 with h | h
    · right; exact ⟨h.2, h.1⟩
    · left; exact ⟨h.1, h.2⟩
  obtain ⟨r, hr, hfr⟩ := intermediate_value_uIcc (hcont.mono hsub) h0
  refine ⟨r, u, hsub hr, h2, hfr, ?_, ?_⟩
  · rw [h7, abs_le]
    rcases Set.mem_uIcc.1 hr with ⟨a, b⟩ | ⟨a, b⟩
    · rw [abs_of_nonneg (by linarith)] at h6
      constructor <;> linarith
    · rw [abs_of_nonpos (by linarith)] at h6
      constructor <;> linarith
  · rw [abs_le]
    rcases Set.mem_uIcc.1 hr with ⟨a, b⟩ | ⟨a, b⟩
    · rw [abs_of_nonneg (by linarith)] at h6
      constructor <;> linarith
    · rw [abs_of_nonpos (by linarith)] at h6
      constructor <;> linarith

/-- The function is evaluated inside the given interval only: what it is elsewhere does not matter. -/
theorem C35_evaluates_inside (f g : ℝ → ℝ) (eps low high : ℝ) (fuel : Nat) (h : ∀ x ∈ Set.uIcc low high, f x = g x) :
    bisection f eps fuel low high = bisection g eps fuel low high := by
  induction fuel generalizing low high with
  | zero => rfl
  | succ n ih =>
    unfold bisection
    dsimp only
    rw [h _ mid_mem, h high Set.right_mem_uIcc]
    rw [ih low _ fun x hx => h x (uIcc_mid_left _ _ hx), ih _ high fun x hx => h x (uIcc_mid_right _ _ hx)]

/-- As long as the call has not returned, `fuel` halvings have been made: the current interval. -/
theorem bisection_diverge (f : ℝ → ℝ) (eps low high : ℝ) (fuel : Nat) (hsign : f low * f high ≤ 0)
    (h : bisection f eps (fuel + 1) low high = .diverge) :
    ∃ l u, l ∈ Set.uIcc low high ∧ u ∈ Set.uIcc low high ∧ f l * f u ≤ 0 ∧ |u - l| = |high - low| / 2 ^ fuel ∧
      |u| * eps < |u - l| := by
  induction fuel generalizing low high with
  | zero =>
    unfold bisection at h
    by_cases hc : |high - low| > |high| * eps
    · exact ⟨low, high, Set.left_mem_uIcc, Set.right_mem_uIcc, hsign, by simp, hc⟩
    · rw [if_neg hc] at h; cases h
  | succ n ih =>
    unfold bisection at h
    by_cases hc : |high - low| > |high| * eps
    · rw [if_pos hc] at h
      dsimp only at h
      by_cases hm : f (1 / 2 * (high + low)) * f high > 0
      · rw [if_pos hm] at h
        have hs : f low * f (1 / 2 * (high + low)) ≤ 0 := by
          by_contra hp
          push Not at hp
          have h1 : 0 < (f low * f (1 / 2 * (high + low))) * (f (1 / 2 * (high + low)) * f high) := mul_pos hp hm
          have h2 : (f low * f (1 / 2 * (high + low))) * (f (1 / 2 * (high + low)) * f high) =
              (f low * f high) * (f (1 / 2 * (high + low))) ^ 2 := by ring
          rw [h2] at h1
          have := mul_nonpos_of_nonpos_of_nonneg hsign (sq_nonneg (f (1 / 2 * (high + low))))
          linarith
        obtain ⟨l, u, h1, h2, h3, h4, h5⟩ := ih low _ hs h
        refine ⟨l, u, uIcc_mid_left _ _ h1, uIcc_mid_left _ _ h2, h3, ?_, h5⟩
        have e : 1 / 2 * (high + low) - low = (high - low) / 2 := by ring
        rw [h4, e, abs_div, pow_succ, abs_of_pos (by norm_num : (0:ℝ) < 2)]; field_simp
      · rw [if_neg hm] at h
        obtain ⟨l, u, h1, h2, h3, h4, h5⟩ := ih _ high (not_lt.1 hm) h
        refine ⟨l, u, uIcc_mid_right _ _ h1, uIcc_mid_right _ _ h2, h3, ?_, h5⟩
        have e : high - 1 / 2 * (high + low) = (high - low) / 2 := by ring
        rw [h4, e, abs_div, pow_succ, abs_of_pos (by norm_num : (0:ℝ) < 2)]; field_simp
    · rw [if_neg hc] at h; cases h

/-- the only other outcome is that the fuel runs out -/
theorem bisection_cases (f : ℝ → ℝ) (eps low high : ℝ) (fuel : Nat) :
    (∃ x, bisection f eps fuel low high = .ok x) ∨ bisection f eps fuel low high = .diverge := by
  induction fuel generalizing low high with
  | zero => exact .inr rfl
  | succ n ih =>
    unfold bisection
    by_cases hc : |high - low| > |high| * eps
    · rw [if_pos hc]
      dsimp only
      by_cases hm : f (1 / 2 * (high + low)) * f high > 0
      · rw [if_pos hm]; exact ih _ _
      · rw [if_neg hm]; exact ih _ _
    · rw [if_neg hc]; exact .inl ⟨_, rfl⟩

/-- The call returns when the function changes sign and 0 is not a root - more precisely when, near 0, the function does not
change sign.  (Inside an interval that does not contain 0 there is nothing to check.) -/
theorem C35_terminates (f : ℝ → ℝ) (eps low high : ℝ) (heps : 0 < eps) (hsign : f low * f high ≤ 0)
    (h0 : ∃ d, 0 < d ∧ ∀ x y, x ∈ Set.uIcc low high → y ∈ Set.uIcc low high → |x| < d → |y| < d → 0 < f x * f y) :
    ∃ fuel x, bisection f eps fuel low high = .ok x := by
  obtain ⟨d, hd, hpos⟩ := h0
  -- after enough halvings the interval would be close to 0
  obtain ⟨n, hn⟩ : ∃ n : Nat, |high - low| * (1 / eps + 1) < d * 2 ^ n := by
    obtain ⟨n, hn⟩ := pow_unbounded_of_one_lt (|high - low| * (1 / eps + 1) / d) (by norm_num : (1:ℝ) < 2)
    exact ⟨n, by rw [div_lt_iff₀ hd] at hn; linarith⟩
  rcases bisection_cases f eps low high (n + 1) with ⟨x, hx⟩ | hx
  · exact ⟨_, x, hx⟩
  · exfalso
    obtain ⟨l, u, h1, h2, h3, h4, h5⟩ := bisection_diverge f eps low high n hsign hx
    have hp : (0:ℝ) < 2 ^ n := by positivity
    have hu : |u| < |u - l| / eps := by rw [lt_div_iff₀ heps]; exact h5
    have hl : |l| ≤ |u| + |u - l| := by
      have := abs_sub u (u - l)
      simpa using this
    have hb : |u - l| * (1 / eps + 1) < d := by
      rw [h4]
      have : |high - low| / 2 ^ n * (1 / eps + 1) = |high - low| * (1 / eps + 1) / 2 ^ n := by ring
      rw [this, div_lt_iff₀ hp]; exact hn
    have e : |u - l| * (1 / eps + 1) = |u - l| / eps + |u - l| := by ring
    have hn0 := abs_nonneg (u - l)
    have := hpos l u h1 h2 (by linarith) (by linarith)
    linarith

/-- In particular for a function that is continuous and not 0 at 0. -/
theorem C35_terminates_continuous (f : ℝ → ℝ) (eps low high : ℝ) (heps : 0 < eps) (hsign : f low * f high ≤ 0)
    (hc : ContinuousAt f 0) (h0 : f 0 ≠ 0) : ∃ fuel x, bisection f eps fuel low high = .ok x := by
  refine C35_terminates f eps low high heps hsign ?_
  have hpos : 0 < |f 0| := abs_pos.2 h0
  obtain ⟨d, hd, h⟩ := Metric.continuousAt_iff.1 hc (|f 0|) hpos
  refine ⟨d, hd, fun x y _ _ hx hy => ?_⟩
  have h1 := h (x := x) (by simpa [Real.dist_eq] using hx)
  have h2 := h (x := y) (by simpa [Real.dist_eq] using hy)
  rw [Real.dist_eq] at h1 h2
  have a1 := abs_lt.1 h1
  have a2 := abs_lt.1 h2
  rcases lt_or_gt_of_ne h0 with hs | hs
  · rw [abs_of_neg hs] at a1 a2
    exact mul_pos_of_neg_of_neg (by linarith) (by linarith)
  · rw [abs_of_pos hs] at a1 a2
    exact mul_pos (by linarith) (by linarith)

/-- And for every function with a sign change on an interval that does not contain 0. -/
theorem C35_terminates_away (f : ℝ → ℝ) (eps low high : ℝ) (heps : 0 < eps) (hsign : f low * f high ≤ 0)
    (h0 : (0:ℝ) ∉ Set.uIcc low high) : ∃ fuel x, bisection f eps fuel low high = .ok x := by
  refine C35_terminates f eps low high heps hsign ?_
  have hne : low ≠ 0 ∧ high ≠ 0 := ⟨fun h => h0 (h ▸ Set.left_mem_uIcc), fun h => h0 (h ▸ Set.right_mem_uIcc)⟩
  refine ⟨min |low| |high|, lt_min (abs_pos.2 hne.1) (abs_pos.2 hne.2), fun x y hx _ hxs _ => ?_⟩
  exfalso
  rw [lt_min_iff] at hxs
  rw [Set.mem_uIcc] at h0 hx
  push Not at h0
  have a := abs_lt.1 hxs.1
  have b := abs_lt.1 hxs.2
  rcases le_total 0 low with h1 | h1
  · have h2 : 0 ≤ high := by
      by_contra hc
      exact absurd (h0.2 (by linarith)) (not_lt.2 h1)
    rw [abs_of_nonneg h1] at a
    rw [abs_of_nonneg h2] at b
    rcases hx with h | h <;> linarith
  · have h2 : high ≤ 0 := by
      by_contra hc
      exact absurd (h0.1 h1) (by linarith)
    rw [abs_of_nonpos h1] at a
    rw [abs_of_nonpos h2] at b
    rcases hx with h | h <;> linarith

/-- When the root is 0 the tolerance, relative to the upper end, is never met: the call does not return (in exact arithmetic; in
floating-point arithmetic it goes on until a product underflows).  Every function with `f 0 = 0`, positive to the right of 0,
on every interval whose middle is 0. -/
theorem C35_root_zero_never_ends (f : ℝ → ℝ) (eps a : ℝ) (heps : eps < 1) (ha : 0 < a) (h0 : f 0 = 0) (hf : ∀ x, 0 < x → x ≤ a → 0 < f x)
    (fuel : Nat) : bisection f eps fuel (-a) a = .diverge := by
  have key : ∀ n u, 0 < u → u ≤ a → bisection f eps n 0 u = .diverge := by
    intro n
    induction n with
    | zero => intro u _ _; rfl
    | succ n ih =>
      intro u hu hua
      unfold bisection
      have hc : |u - 0| > |u| * eps := by
        rw [sub_zero, abs_of_pos hu]; nlinarith
      rw [if_pos hc]
      dsimp only
      have hm : f (1 / 2 * (u + 0)) * f u > 0 := mul_pos (hf _ (by linarith) (by linarith)) (hf u hu hua)
      rw [if_pos hm]
      exact ih _ (by linarith) (by linarith)
  cases fuel with
  | zero => rfl
  | succ n =>
    unfold bisection
    have hc : |a - -a| > |a| * eps := by
      rw [abs_of_pos (by linarith), abs_of_pos ha]; nlinarith
    rw [if_pos hc]
    dsimp only
    have e : 1 / 2 * (a + -a) = 0 := by ring
    rw [e, h0, zero_mul, if_neg (lt_irrefl _)]
    exact key n a ha le_rfl

/-- `root_newton` returns a number `x` with `x = x0 - f x0` where either the last change is within the tolerance or a
thousand passes were made. -/
theorem C35_newton (f : ℝ → ℝ) (eps : ℝ) :
    (∃ x0, newton f eps = x0 - f x0 ∧ |f x0| ≤ eps) ∨ newton f eps = (fun x => x - f x)^[1000] 0 := by
  have key : ∀ m k x0 x, x0 = (fun x => x - f x)^[k] 0 → (0 < m ∨ x = x0) →
      (∃ y, newtonLoop f eps m x0 x = y - f y ∧ |f y| ≤ eps) ∨ newtonLoop f eps m x0 x = (fun x => x - f x)^[k + m] 0 := by
    intro m
    induction m with
    | zero =>
      intro k x0 x hk h
      right
      rcases h with h | h
      · omega
      · show x = _
        rw [h, hk]; rfl
    | succ m ih =>
      intro k x0 x hk _
      have hk' : x0 - f x0 = (fun x => x - f x)^[k + 1] 0 := by
        rw [Function.iterate_succ_apply', ← hk]
      unfold newtonLoop
      dsimp only
      by_cases hc : |x0 - f x0 - x0| ≤ eps
      · rw [if_pos hc]
        left
        refine ⟨x0, rfl, ?_⟩
        have : x0 - f x0 - x0 = -f x0 := by ring
        rwa [this, abs_neg] at hc
      · rw [if_neg hc]
        rcases ih (k + 1) _ (x0 - f x0) hk' (Or.inr rfl) with h | h
        · left; exact h
        · right; rw [h]; congr 1; omega
  have := key 1000 0 0 1 rfl (Or.inl (by norm_num))
  rw [Nat.zero_add] at this
  exact this

/-- `math::sign` is 1 for positive numbers and -1 otherwise: it is -1, not 0, at 0. -/
theorem C35_sign (x : ℝ) : sign x = if x > 0 then 1 else -1 := by
  unfold sign; split_ifs <;> norm_num

/-- The hypotheses are met: `x^2 - 2` on [1, 2]; and `x` on [-1, 1] for the call that does not end. -/
example : (∃ fuel x, bisection (fun x => x ^ 2 - 2) (1 / 2 ^ 52) fuel 1 2 = .ok x) ∧
    ∀ fuel, bisection (fun x => x) (1 / 2 ^ 52) fuel (-1) 1 = .diverge :=
  ⟨C35_terminates_away _ _ _ _ (by norm_num) (by norm_num) (by rw [Set.uIcc_of_le (by norm_num)]; simp),
   C35_root_zero_never_ends _ _ _ (by norm_num) (by norm_num) rfl fun _ h _ => h⟩

end SpaceHub.Props
