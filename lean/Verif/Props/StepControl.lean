import Verif.Model.StepControl
import Verif.Proof.SysBase

/-
C31: the step controller.
-/

set_option autoImplicit false

namespace SpaceHub.Ctl
open SpaceHub SpaceHub.Sys

/-- What a user can do to a controller. -/
inductive Setter
  | pid (kp ki kd : ℝ)
  | guards (a b : ℝ)
  | limiter (a b : ℝ)

/-- One call of a setter. -/
def Setter.apply : Setter → PID → PID
  | pid kp ki kd, c => c.setPID kp ki kd
  | guards a b, c => c.setGuards a b
  | limiter a b, c => c.setLimiter a b

/-- A controller after some calls of setters. -/
noncomputable def configured (l : List Setter) : PID := l.foldl (fun c s => s.apply c) PID.new

/-- The documented upper limit of the step ratio: `(1 / 0.02)^(1/order)`, 4 for order 0. -/
noncomputable def upper (order : Nat) : ℝ := if order = 0 then 4 else (50 : ℝ) ^ (1 / (order : ℝ))

/-- The documented lower limit of the step ratio: `0.02^(1/order) / 4`, 1/4 for order 0. -/
noncomputable def lower (order : Nat) : ℝ := if order = 0 then 1 / 4 else (1 / 50 : ℝ) ^ (1 / (order : ℝ)) / 4

theorem configured_tables (l : List Setter) :
    (configured l).limMax = upper ∧ (configured l).limMin = lower ∧ (configured l).expon = (fun i : Nat => 1 / (i : ℝ)) := by
  have key : ∀ (l : List Setter) (c : PID), (l.foldl (fun c s => s.apply c) c).limMax = c.limMax ∧
      (l.foldl (fun c s => s.apply c) c).limMin = c.limMin ∧ (l.foldl (fun c s => s.apply c) c).expon = c.expon := by
    intro l
    induction l with
    | nil => intro c; exact ⟨rfl, rfl, rfl⟩
    | cons s l ih =>
      intro c
      obtain ⟨h1, h2, h3⟩ := ih (s.apply c)
      cases s <;> exact ⟨h1, h2, h3⟩
  obtain ⟨h1, h2, h3⟩ := key l PID.new
  refine ⟨h1.trans ?_, h2.trans ?_, h3.trans ?_⟩
  · funext i; simp only [PID.new, upper]; norm_num
  · funext i; simp only [PID.new, lower]; norm_num
  · funext i
    simp only [PID.new]
    by_cases hi : i = 0
    · rw [if_pos hi, hi]; norm_num
    · rw [if_neg hi]

theorem lower_pos (order : Nat) : 0 < lower order := by
  unfold lower
  split_ifs
  · norm_num
  · positivity

theorem limits_order (order : Nat) : 0 < lower order ∧ lower order ≤ 1 / 4 ∧ 1 ≤ upper order := by
  refine ⟨lower_pos order, ?_, ?_⟩
  · unfold lower
    split_ifs
    · exact le_rfl
    · have : (1 / 50 : ℝ) ^ (1 / (order : ℝ)) ≤ 1 := Real.rpow_le_one (by norm_num) (by norm_num) (by positivity)
      linarith
  · unfold upper
    split_ifs
    · norm_num
    · exact Real.one_le_rpow (by norm_num) (by positivity)

theorem inRange_mem {lo hi : ℝ} (h : lo ≤ hi) (x : ℝ) : lo ≤ inRange lo x hi ∧ inRange lo x hi ≤ hi := by
  unfold inRange
  dsimp only
  split_ifs <;> constructor <;> linarith

theorem inRange_eq (lo x hi : ℝ) (h : lo ≤ hi) : inRange lo x hi = min (max lo x) hi := by
  unfold inRange
  dsimp only
  split_ifs with h1 h2 h2
  · linarith
  · rw [max_eq_left h1.le, min_eq_left (not_lt.1 h2)]
  · rw [max_eq_right (not_lt.1 h1), min_eq_right h2.le]
  · rw [max_eq_right (not_lt.1 h1), min_eq_left (not_lt.1 h2)]

theorem limiter_ok (l : List Setter) {order : Nat} (ho : order < 50) (x : ℝ) :
    (configured l).limiter order x = .ok (min (max (lower order) x) (upper order)) := by
  obtain ⟨h1, h2, _⟩ := configured_tables l
  unfold PID.limiter
  rw [if_pos ho, h1, h2, inRange_eq _ _ _ (by obtain ⟨_, a, b⟩ := limits_order order; linarith)]

theorem next_ok (l : List Setter) {order : Nat} (ho : order < 50) (h2 : 0 ≤ (configured l).s2) {e : ℝ} (he : 0 < e) :
    (configured l).next order e = .ok ((configured l).s1 * ((configured l).s2 / e) ^ (1 / (order : ℝ))) := by
  unfold PID.next PID.pow
  rw [if_pos ho, if_pos he.ne', if_neg (not_lt.2 (by positivity)), Res.ok_bind, (configured_tables l).2.2]

theorem nextLim_ok (l : List Setter) {order : Nat} (ho : order < 50) (h2 : 0 ≤ (configured l).s2) {e : ℝ} (he : 0 < e) :
    (configured l).nextLim order e =
      .ok (min (max (lower order) ((configured l).s1 * ((configured l).s2 / e) ^ (1 / (order : ℝ)))) (upper order)) := by
  unfold PID.nextLim
  rw [next_ok l ho h2 he, Res.ok_bind, limiter_ok l ho]

/-- Whatever the settings (second safe guard positive), the non-negative error or pair of errors, and the order below 50:
the factor applied to the step lies between the two limits of that order, which are positive, at most 1/4 and at least 1,
so the step keeps its sign. -/
theorem C31_limits (l : List Setter) (h2 : 0 < (configured l).s2) (order : Nat) (ho : order < 50) (e0 e1 : ℝ) (he0 : 0 ≤ e0)
    (he1 : 0 ≤ e1) :
    ∃ r r2 : ℝ, (configured l).nextLim order e0 = .ok r ∧ (configured l).nextLim2 order e0 e1 = .ok r2 ∧
      (lower order ≤ r ∧ r ≤ upper order) ∧ (lower order ≤ r2 ∧ r2 ≤ upper order) ∧
      (0 < lower order ∧ lower order ≤ 1 / 4 ∧ 1 ≤ upper order) ∧
      ∀ h : ℝ, (0 < h → 0 < h * r) ∧ (h < 0 → h * r < 0) := by
  have hl := limits_order order
  have hmem : ∀ x, lower order ≤ min (max (lower order) x) (upper order) ∧ min (max (lower order) x) (upper order) ≤ upper order :=
    fun x => ⟨le_min (le_max_left _ _) (by linarith [hl.2.1, hl.2.2]), min_le_right _ _⟩
  have hn : ∃ x, (configured l).next order e0 = .ok x := by
    unfold PID.next PID.pow
    rw [if_pos ho, if_neg (not_lt.2 (by positivity))]
    split_ifs <;> exact ⟨_, rfl⟩
  have hn2 : ∃ x, (configured l).next2 order e0 e1 = .ok x := by
    unfold PID.next2 PID.pow
    rw [if_pos ho, if_neg (not_lt.2 (by positivity)), if_neg (not_lt.2 (by positivity))]
    split_ifs <;> exact ⟨_, rfl⟩
  obtain ⟨x, hx⟩ := hn
  obtain ⟨x2, hx2⟩ := hn2
  refine ⟨_, _, ?_, ?_, hmem x, hmem x2, hl, fun h => ?_⟩
  · unfold PID.nextLim; rw [hx, Res.ok_bind, limiter_ok l ho]
  · unfold PID.nextLim2; rw [hx2, Res.ok_bind, limiter_ok l ho]
  · have hp : 0 < min (max (lower order) x) (upper order) := lt_of_lt_of_le hl.1 (hmem x).1
    exact ⟨fun hh => mul_pos hh hp, fun hh => mul_neg_of_neg_of_pos hh hp⟩

/-- Exactly the orders of 50 or more read outside the tables. -/
theorem C31_orders (l : List Setter) (h2 : 0 < (configured l).s2) (order : Nat) (error : ℝ) (he : 0 ≤ error) :
    (configured l).nextLim order error = .ub ↔ 50 ≤ order := by
  by_cases ho : order < 50
  · obtain ⟨r, _, h, _⟩ := C31_limits l h2 order ho error 0 he le_rfl
    rw [h]
    exact ⟨fun h => (by cases h), fun h => (by omega)⟩
  · unfold PID.nextLim PID.next
    rw [if_neg ho]
    exact ⟨fun _ => by omega, fun _ => rfl⟩

/-- An error of 0 gives the upper limit. -/
theorem C31_zero_error (l : List Setter) (order : Nat) (ho : order < 50) (e1 : ℝ) :
    (configured l).nextLim order 0 = .ok (upper order) ∧ (configured l).nextLim2 order 0 e1 = .ok (upper order) := by
  have hl := limits_order order
  have : min (max (lower order) (upper order)) (upper order) = upper order := by
    rw [max_eq_right (by linarith [hl.2.1, hl.2.2]), min_self]
  constructor
  · unfold PID.nextLim PID.next
    rw [if_pos ho, if_neg (by simp), Res.ok_bind, limiter_ok l ho, (configured_tables l).1, this]
  · unfold PID.nextLim2 PID.next2
    rw [if_pos ho, if_neg (by simp), Res.ok_bind, limiter_ok l ho, (configured_tables l).1, this]

/-- A larger error never gives a larger step: with positive safe guards, for any order. -/
theorem C31_monotone (l : List Setter) (order : Nat) (h1 : 0 < (configured l).s1) (h2 : 0 < (configured l).s2)
    (e e' r r' : ℝ) (he : 0 ≤ e) (hee : e ≤ e') (hr : (configured l).nextLim order e = .ok r)
    (hr' : (configured l).nextLim order e' = .ok r') : r' ≤ r := by
  by_cases ho : order < 50
  · rcases he.eq_or_lt with rfl | he
    · rw [(C31_zero_error l order ho 0).1] at hr
      obtain ⟨x, _, hx, _, hb, _⟩ := C31_limits l h2 order ho e' 0 hee le_rfl
      rw [hx] at hr'
      rw [← Res.ok.inj hr, ← Res.ok.inj hr']
      exact hb.2
    · rw [nextLim_ok l ho h2.le he] at hr
      rw [nextLim_ok l ho h2.le (lt_of_lt_of_le he hee)] at hr'
      rw [← Res.ok.inj hr, ← Res.ok.inj hr']
      refine min_le_min_right _ (max_le_max_left _ (mul_le_mul_of_nonneg_left ?_ h1.le))
      refine Real.rpow_le_rpow (div_nonneg h2.le (he.le.trans hee)) ?_ (by positivity)
      exact div_le_div_of_nonneg_left h2.le he hee
  · rw [(C31_orders l h2 order e he).2 (by omega)] at hr; cases hr

/-- The step is kept or increased exactly when the error is at most `s2 · s1^order`. -/
theorem C31_balance (l : List Setter) (order : Nat) (ho1 : 1 ≤ order) (ho : order < 50) (h1 : 0 < (configured l).s1)
    (h2 : 0 < (configured l).s2) (e r : ℝ) (he : 0 < e) (hr : (configured l).nextLim order e = .ok r) :
    1 ≤ r ↔ e ≤ (configured l).s2 * (configured l).s1 ^ order := by
  have hl := limits_order order
  rw [nextLim_ok l ho h2.le he] at hr
  rw [← Res.ok.inj hr]
  set s1 := (configured l).s1
  set s2 := (configured l).s2
  have hx : 0 < s2 / e := by positivity
  have step : 1 ≤ min (max (lower order) (s1 * (s2 / e) ^ (1 / (order : ℝ)))) (upper order) ↔
      1 ≤ s1 * (s2 / e) ^ (1 / (order : ℝ)) := by
    rw [le_min_iff, le_max_iff]
    constructor
    · rintro ⟨h | h, _⟩
      · linarith [hl.2.1]
      · exact h
    · exact fun h => ⟨.inr h, hl.2.2⟩
  rw [step]
  have hn : (order : ℝ) ≠ 0 := by exact_mod_cast (by omega : order ≠ 0)
  have hpow : (s1 * (s2 / e) ^ (1 / (order : ℝ))) ^ order = s1 ^ order * (s2 / e) := by
    rw [mul_pow, ← Real.rpow_natCast ((s2 / e) ^ (1 / (order : ℝ))), ← Real.rpow_mul hx.le, one_div, inv_mul_cancel₀ hn,
      Real.rpow_one]
  have hpos : 0 ≤ s1 * (s2 / e) ^ (1 / (order : ℝ)) := by positivity
  have : 1 ≤ s1 * (s2 / e) ^ (1 / (order : ℝ)) ↔ 1 ≤ (s1 * (s2 / e) ^ (1 / (order : ℝ))) ^ order := by
    constructor
    · exact fun h => one_le_pow₀ h
    · intro h
      by_contra hc
      have := pow_lt_one₀ hpos (not_le.1 hc) (by omega : order ≠ 0)
      linarith
  rw [this, hpow, ← mul_div_assoc, le_div_iff₀ he, one_mul, mul_comm]

/-- With the error of the last step as well: the step is kept or increased exactly when the product of the proportional and
the integral factor, `s1 (s2 / e0)^(Kp/order) (e1 / s2)^(Ki/order)`, is at least 1. -/
theorem C31_balance_pair (l : List Setter) (order : Nat) (ho : order < 50) (h2 : 0 < (configured l).s2) (e0 e1 r : ℝ)
    (he0 : 0 < e0) (he1 : 0 ≤ e1) (hr : (configured l).nextLim2 order e0 e1 = .ok r) :
    1 ≤ r ↔ 1 ≤ (configured l).s1 * ((configured l).s2 / e0) ^ ((configured l).Kp / order) *
      (e1 / (configured l).s2) ^ ((configured l).Ki / order) := by
  have hl := limits_order order
  obtain ⟨_, _, h3⟩ := configured_tables l
  unfold PID.nextLim2 PID.next2 PID.pow at hr
  rw [if_pos ho, if_pos he0.ne', if_neg (not_lt.2 (div_nonneg h2.le he0.le)), if_neg (not_lt.2 (div_nonneg he1 h2.le)), h3,
    Res.ok_bind, Res.ok_bind, Res.ok_bind, limiter_ok l ho] at hr
  rw [← Res.ok.inj hr, le_min_iff, le_max_iff, mul_one_div, mul_one_div]
  constructor
  · rintro ⟨h | h, _⟩
    · linarith [hl.2.1]
    · exact h
  · exact fun h => ⟨.inr h, hl.2.2⟩

/-- The last part of C31 is false of the code: setting the limiter changes nothing that the controller computes. -/
theorem C31_set_limiter_no_effect (c : PID) (a b : ℝ) (order : Nat) (e0 e1 x : ℝ) :
    (c.setLimiter a b).next order e0 = c.next order e0 ∧ (c.setLimiter a b).next2 order e0 e1 = c.next2 order e0 e1 ∧
      (c.setLimiter a b).limiter order x = c.limiter order x ∧ (c.setLimiter a b).limiter0 x = c.limiter0 x ∧
      (c.setLimiter a b).nextLim order e0 = c.nextLim order e0 := ⟨rfl, rfl, rfl, rfl, rfl⟩

/-- Concretely: the controller of the refining iterator (`set_safe_guards(0.7, 1)`, sequent-iterator.hpp:99-102) at order
2 with error 0.49 keeps the step. -/
example : (configured [.guards (7 / 10) 1, .limiter (2 / 100) 4]).nextLim 2 (49 / 100) = .ok 1 := by
  have hl := limits_order 2
  have e : ((1 : ℝ) / (49 / 100)) ^ (1 / ((2 : ℕ) : ℝ)) = 10 / 7 := by
    rw [show (1 : ℝ) / (49 / 100) = (10 / 7) ^ (2 : ℕ) by norm_num, ← Real.rpow_natCast, ← Real.rpow_mul (by norm_num)]
    norm_num
  have e1 : (configured [.guards (7 / 10) 1, .limiter (2 / 100) 4]).s1 = 7 / 10 := rfl
  have e2 : (configured [.guards (7 / 10) 1, .limiter (2 / 100) 4]).s2 = 1 := rfl
  rw [nextLim_ok _ (by norm_num) (by rw [e2]; norm_num) (by norm_num), e1, e2, e, show (7 / 10 : ℝ) * (10 / 7) = 1 by norm_num, max_eq_right (by linarith [hl.2.1]), min_eq_left hl.2.2]

end SpaceHub.Ctl
