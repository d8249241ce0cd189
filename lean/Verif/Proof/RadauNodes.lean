import Verif.Proof.RadauTab
import Mathlib.Algebra.Polynomial.Roots
import Mathlib.Algebra.Polynomial.Eval.Degree
import Mathlib.Topology.Order.IntermediateValue
import Mathlib.Topology.Algebra.Polynomial
import Mathlib.Analysis.SpecialFunctions.Integrals.Basic

/-
The nodes of the Gauss-Radau rule and its degree of exactness.
-/

set_option autoImplicit false

namespace SpaceHub.Radau
open SpaceHub Finset Polynomial

/-- coefficients of the polynomial whose roots are the nodes -/
def nodeCoef (k : Nat) : ℚ := [-8, 252, -2520, 11550, -27720, 36036, -24024, 6435].getD k 0

/-- value of the node polynomial -/
def nodeVal (x : ℚ) : ℚ := ∑ k ∈ range 8, nodeCoef k * x ^ k

/-- The polynomial whose roots are the nodes. -/
noncomputable def nodePoly : ℝ[X] := ∑ k ∈ range 8, C ((nodeCoef k : ℚ) : ℝ) * X ^ k

theorem nodePoly_eval (x : ℝ) : nodePoly.eval x = ∑ k ∈ range 8, (nodeCoef k : ℝ) * x ^ k := by
  unfold nodePoly
  rw [eval_finsetSum]
  refine sum_congr rfl fun k _ => ?_
  simp

theorem nodePoly_eval_rat (x : ℚ) : nodePoly.eval (x : ℝ) = ((nodeVal x : ℚ) : ℝ) := by
  rw [nodePoly_eval]; unfold nodeVal; push_cast; rfl

theorem sign_change : ∀ i, i < 7 → nodeVal (nodes i - 1 / 10 ^ 25) * nodeVal (nodes i + 1 / 10 ^ 25) < 0 := by decide +kernel

/-- each literal node is within 1e-25 of a root -/
theorem exists_root (i : Nat) (hi : i < 7) : ∃ x : ℝ, |x - code.h i| ≤ 1 / 10 ^ 25 ∧ nodePoly.eval x = 0 := by
  have h := sign_change i hi
  set a : ℚ := nodes i - 1 / 10 ^ 25
  set b : ℚ := nodes i + 1 / 10 ^ 25
  have hab : (a : ℝ) ≤ b := by
    have : a ≤ b := by simp only [a, b]; linarith [show (0 : ℚ) ≤ 1 / 10 ^ 25 by norm_num]
    exact_mod_cast this
  have hcont : ContinuousOn (fun x : ℝ => nodePoly.eval x) (Set.Icc (a : ℝ) b) := nodePoly.continuous.continuousOn
  have hroot : ∃ x ∈ Set.Icc (a : ℝ) b, nodePoly.eval x = 0 := by
    rcases mul_neg_iff.1 h with ⟨h1, h2⟩ | ⟨h1, h2⟩
    · have := intermediate_value_Icc' hab hcont
      obtain ⟨x, hx, e⟩ := this (show (0 : ℝ) ∈ Set.Icc (nodePoly.eval (b : ℝ)) (nodePoly.eval (a : ℝ)) by
        rw [nodePoly_eval_rat, nodePoly_eval_rat]
        exact ⟨by exact_mod_cast h2.le, by exact_mod_cast h1.le⟩)
      exact ⟨x, hx, e⟩
    · have := intermediate_value_Icc hab hcont
      obtain ⟨x, hx, e⟩ := this (show (0 : ℝ) ∈ Set.Icc (nodePoly.eval (a : ℝ)) (nodePoly.eval (b : ℝ)) by
        rw [nodePoly_eval_rat, nodePoly_eval_rat]
        exact ⟨by exact_mod_cast h1.le, by exact_mod_cast h2.le⟩)
      exact ⟨x, hx, e⟩
  obtain ⟨x, ⟨h1, h2⟩, e⟩ := hroot
  refine ⟨x, ?_, e⟩
  have e1 : code.h i = ((nodes i : ℚ) : ℝ) := rfl
  rw [e1, abs_le]
  simp only [a, b] at h1 h2
  push_cast at h1 h2
  constructor <;> linarith

theorem gap : ∀ n, n < 7 → ∀ k, k < n → nodes k + 2 / 10 ^ 25 < nodes n := by decide +kernel
theorem first : ∀ n, n < 7 → 1 / 10 ^ 25 < nodes n ∧ nodes n + 1 / 10 ^ 25 < 1 := by decide +kernel

/-- The Gauss-Radau nodes. -/
structure IsNodes (c : Nat → ℝ) : Prop where
  root : ∀ n, n < 7 → nodePoly.eval (c n) = 0
  incr : ∀ n k, n < 7 → k < n → c k < c n
  pos : ∀ n, n < 7 → 0 < c n ∧ c n < 1

theorem exists_nodes : ∃ c : Nat → ℝ, IsNodes c ∧ ∀ n, n < 7 → |c n - code.h n| ≤ 1 / 10 ^ 25 := by
  classical
  let c : Nat → ℝ := fun n => if h : n < 7 then (exists_root n h).choose else 0
  have hc : ∀ n, n < 7 → |c n - code.h n| ≤ 1 / 10 ^ 25 ∧ nodePoly.eval (c n) = 0 := by
    intro n hn
    simp only [c, dif_pos hn]
    exact (exists_root n hn).choose_spec
  have hh : ∀ n, code.h n = ((nodes n : ℚ) : ℝ) := fun _ => rfl
  refine ⟨c, ⟨fun n hn => (hc n hn).2, fun n k hn hk => ?_, fun n hn => ?_⟩, fun n hn => (hc n hn).1⟩
  · have h1 := abs_le.1 (hc n hn).1
    have h2 := abs_le.1 (hc k (by omega)).1
    have h3 : ((nodes k + 2 / 10 ^ 25 : ℚ) : ℝ) < ((nodes n : ℚ) : ℝ) := by exact_mod_cast gap n hn k hk
    push_cast at h3
    rw [hh] at h1 h2
    linarith [h1.1, h2.2]
  · have h1 := abs_le.1 (hc n hn).1
    obtain ⟨h2, h3⟩ := first n hn
    have h2' : ((1 / 10 ^ 25 : ℚ) : ℝ) < ((nodes n : ℚ) : ℝ) := by exact_mod_cast h2
    have h3' : ((nodes n + 1 / 10 ^ 25 : ℚ) : ℝ) < ((1 : ℚ) : ℝ) := by exact_mod_cast h3
    push_cast at h2' h3'
    rw [hh] at h1
    constructor <;> linarith [h1.1, h1.2]

theorem orthogonal : ∀ m : Nat, m < 7 → ∑ k ∈ range 8, nodeCoef k / ((k : ℚ) + (m : ℚ) + 2) = 0 := by decide +kernel

/-- integral of a polynomial times `τ` times the node polynomial -/
theorem integral_orthogonal (q : ℝ[X]) (hq : q.natDegree < 7) :
    ∫ τ in (0 : ℝ)..1, (X * nodePoly * q).eval τ = 0 := by
  have e : ∀ τ : ℝ, (X * nodePoly * q).eval τ =
      ∑ m ∈ range 7, ∑ k ∈ range 8, q.coeff m * (nodeCoef k : ℝ) * τ ^ (k + m + 1) := by
    intro τ
    rw [eval_mul, eval_mul, eval_X, nodePoly_eval, eval_eq_sum_range' hq, mul_sum]
    refine sum_congr rfl fun m _ => ?_
    rw [mul_sum, sum_mul]
    refine sum_congr rfl fun k _ => ?_
    rw [pow_add, pow_add]; ring
  simp only [e]
  rw [intervalIntegral.integral_finsetSum (fun i _ => Continuous.intervalIntegrable (by fun_prop) _ _)]
  refine sum_eq_zero fun m hm => ?_
  rw [intervalIntegral.integral_finsetSum (fun i _ => Continuous.intervalIntegrable (by fun_prop) _ _)]
  simp only [intervalIntegral.integral_const_mul, integral_pow]
  have ho := orthogonal m (mem_range.1 hm)
  have ho' : ((∑ k ∈ range 8, nodeCoef k / ((k : ℚ) + m + 2) : ℚ) : ℝ) = 0 := by rw [ho]; norm_num
  push_cast at ho'
  have : ∀ k ∈ range 8, q.coeff m * (nodeCoef k : ℝ) * ((1 ^ (k + m + 1 + 1) - 0 ^ (k + m + 1 + 1)) / (((k + m + 1 : ℕ) : ℝ) + 1)) =
      q.coeff m * ((nodeCoef k : ℝ) / ((k : ℝ) + m + 2)) := by
    intro k _
    rw [one_pow, zero_pow (by omega), sub_zero, mul_assoc, mul_one_div]
    congr 2
    push_cast; ring
  rw [sum_congr rfl this, ← mul_sum, ho', mul_zero]

/-- `slope` as a polynomial -/
noncomputable def slopePoly (d0 : ℝ) (b : Nat → ℝ) : ℝ[X] := C d0 + ∑ i ∈ range 7, C (b i) * X ^ (i + 1)

theorem slopePoly_eval (d0 : ℝ) (b : Nat → ℝ) (τ : ℝ) : (slopePoly d0 b).eval τ = slope d0 b τ := by
  unfold slopePoly slope
  rw [eval_add, eval_C, eval_finsetSum]
  congr 1
  exact sum_congr rfl fun i _ => by simp

theorem slopePoly_degree (d0 : ℝ) (b : Nat → ℝ) : (slopePoly d0 b).natDegree ≤ 7 := by
  unfold slopePoly
  refine (natDegree_add_le _ _).trans (max_le (by simp) ?_)
  refine natDegree_sum_le_of_forall_le _ _ fun i hi => ?_
  refine (natDegree_C_mul_X_pow_le _ _).trans ?_
  have := mem_range.1 hi
  omega

theorem nodePoly_degree : nodePoly.natDegree = 7 := by
  have hc : nodePoly.coeff 7 = 6435 := by
    unfold nodePoly
    simp only [finsetSum_coeff, coeff_C_mul, coeff_X_pow]
    simp [nodeCoef]
  refine le_antisymm ?_ (le_natDegree_of_ne_zero (by rw [hc]; norm_num))
  unfold nodePoly
  refine natDegree_sum_le_of_forall_le _ _ fun i hi => ?_
  refine (natDegree_C_mul_X_pow_le _ _).trans ?_
  have := mem_range.1 hi
  omega

theorem nodePoly_zero : nodePoly.eval 0 ≠ 0 := by
  rw [nodePoly_eval]
  simp [sum_range_succ, nodeCoef]

theorem nodePoly_ne : nodePoly ≠ 0 := by
  intro h; have := nodePoly_degree; rw [h, natDegree_zero] at this; omega

/-- product of the linear factors of the nodes -/
noncomputable def nodeProd (c : Nat → ℝ) : ℝ[X] := ∏ n ∈ range 7, (X - C (c n))

theorem nodeProd_monic (c : Nat → ℝ) : (nodeProd c).Monic := monic_prod_of_monic _ _ fun _ _ => monic_X_sub_C _

theorem nodeProd_degree (c : Nat → ℝ) : (nodeProd c).natDegree = 7 := by
  unfold nodeProd
  rw [natDegree_prod_of_monic _ _ fun n _ => monic_X_sub_C _]
  simp

theorem IsNodes.distinct {c : Nat → ℝ} (hc : IsNodes c) : Distinct c :=
  ⟨fun n hn => (hc.pos n hn).1.ne', fun n k hn hk => (hc.incr n k hn hk).ne'⟩

theorem coprime_X {c : Nat → ℝ} (hc : Distinct c) : IsCoprime (X : ℝ[X]) (nodeProd c) := by
  unfold nodeProd
  refine IsCoprime.prod_right fun n hn => ?_
  have h := isCoprime_X_sub_C_of_isUnit_sub (R := ℝ) (a := 0) (b := c n)
    (sub_ne_zero.2 (hc.1 n (mem_range.1 hn)).symm).isUnit
  rwa [C_0, sub_zero] at h

theorem nodeProd_dvd {c : Nat → ℝ} (hc : Distinct c) (q : ℝ[X]) (hq : ∀ n, n < 7 → q.eval (c n) = 0) : nodeProd c ∣ q := by
  unfold nodeProd
  refine Finset.prod_dvd_of_coprime ?_ fun n hn => dvd_iff_isRoot.2 (hq n (mem_range.1 hn))
  intro a ha b hb hab
  have ha' : a < 7 := mem_range.1 ha
  have hb' : b < 7 := mem_range.1 hb
  refine isCoprime_X_sub_C_of_isUnit_sub (IsUnit.mk0 _ (sub_ne_zero.2 fun e => ?_))
  rcases lt_trichotomy a b with h | h | h
  · exact hc.2 b a hb' h e.symm
  · exact hab h
  · exact hc.2 a b ha' h e

theorem X_nodeProd_dvd {c : Nat → ℝ} (hc : Distinct c) (q : ℝ[X]) (h0 : q.eval 0 = 0) (hq : ∀ n, n < 7 → q.eval (c n) = 0) :
    X * nodeProd c ∣ q := by
  have hx : (X : ℝ[X]) ∣ q := by
    have := dvd_iff_isRoot.2 (show q.IsRoot 0 from h0)
    rwa [C_0, sub_zero] at this
  exact IsCoprime.mul_dvd (coprime_X hc) hx (nodeProd_dvd hc q hq)

theorem nodePoly_factor {c : Nat → ℝ} (hc : IsNodes c) : ∃ a : ℝ, a ≠ 0 ∧ nodePoly = nodeProd c * C a := by
  obtain ⟨q, hq⟩ := nodeProd_dvd hc.distinct nodePoly hc.root
  have hq0 : q ≠ 0 := fun h => nodePoly_ne (by rw [hq, h, mul_zero])
  have hd := congrArg natDegree hq
  rw [natDegree_mul (nodeProd_monic c).ne_zero hq0, nodePoly_degree, nodeProd_degree] at hd
  obtain ⟨a, ha⟩ := natDegree_eq_zero.1 (show q.natDegree = 0 by omega)
  exact ⟨a, fun h => hq0 (by rw [← ha, h, C_0]), by rw [hq, ha]⟩

theorem nodeProd_eval (c : Nat → ℝ) (τ : ℝ) : (nodeProd c).eval τ = ∏ k ∈ range 7, (τ - c k) := by
  unfold nodeProd
  rw [eval_prod]
  simp

theorem IsNodes.radau {c : Nat → ℝ} (hc : IsNodes c) : RadauNodes c := by
  refine ⟨hc.pos, hc.incr, fun q hq => ?_⟩
  obtain ⟨a, ha0, ha⟩ := nodePoly_factor hc
  have h := integral_orthogonal q hq
  have e : ∀ τ : ℝ, (X * nodePoly * q).eval τ = a * (τ * (∏ k ∈ range 7, (τ - c k)) * q.eval τ) := fun τ => by
    rw [eval_mul, eval_mul, eval_X, ha, eval_mul, eval_C, nodeProd_eval]; ring
  simp only [e] at h
  rw [intervalIntegral.integral_const_mul] at h
  exact (mul_eq_zero.1 h).resolve_left ha0

/-- the rule is exact for polynomials of degree at most 14 -/
theorem quadrature {c : Nat → ℝ} (hc : RadauNodes c) (p : ℝ[X]) (hp : p.natDegree ≤ 14) (b : Nat → ℝ)
    (hb : ∀ n, n < 7 → slope (p.eval 0) b (c n) = p.eval (c n)) :
    ∫ τ in (0 : ℝ)..1, slope (p.eval 0) b τ = ∫ τ in (0 : ℝ)..1, p.eval τ := by
  obtain ⟨q, hq⟩ := X_nodeProd_dvd hc.distinct (p - slopePoly (p.eval 0) b) (by
      rw [eval_sub, slopePoly_eval]; simp [slope]) (fun n hn => by
      rw [eval_sub, slopePoly_eval, hb n hn, sub_self])
  have hdeg : q.natDegree < 7 := by
    by_cases hq0 : q = 0
    · rw [hq0]; simp
    · have h1 : (p - slopePoly (p.eval 0) b).natDegree ≤ 14 :=
        (natDegree_sub_le _ _).trans (max_le hp ((slopePoly_degree _ _).trans (by norm_num)))
      have hn0 := (nodeProd_monic c).ne_zero
      rw [hq, natDegree_mul (mul_ne_zero X_ne_zero hn0) hq0, natDegree_X_mul hn0, nodeProd_degree] at h1
      omega
  have h0 := hc.orthogonal q hdeg
  have e : ∀ τ : ℝ, τ * (∏ k ∈ range 7, (τ - c k)) * q.eval τ = p.eval τ - slope (p.eval 0) b τ := fun τ => by
    rw [← slopePoly_eval, ← eval_sub, hq, eval_mul, eval_mul, eval_X, nodeProd_eval]
  simp only [e] at h0
  rw [intervalIntegral.integral_sub (p.continuous.intervalIntegrable _ _)
    (Continuous.intervalIntegrable (by unfold slope; fun_prop) _ _)] at h0
  linarith

/-- and not for all polynomials of degree 15 -/
theorem not_quadrature {c : Nat → ℝ} (hc : RadauNodes c) : ∃ p : ℝ[X], p.natDegree = 15 ∧ ∃ b : Nat → ℝ,
    (∀ n, n < 7 → slope (p.eval 0) b (c n) = p.eval (c n)) ∧
      ∫ τ in (0 : ℝ)..1, slope (p.eval 0) b τ ≠ ∫ τ in (0 : ℝ)..1, p.eval τ := by
  have hn0 := (nodeProd_monic c).ne_zero
  have ev : ∀ τ : ℝ, (X * nodeProd c * nodeProd c).eval τ = τ * (∏ k ∈ range 7, (τ - c k)) ^ 2 := fun τ => by
    rw [eval_mul, eval_mul, eval_X, nodeProd_eval]; ring
  refine ⟨X * nodeProd c * nodeProd c, ?_, fun _ => 0, fun n hn => ?_, ?_⟩
  · rw [natDegree_mul (mul_ne_zero X_ne_zero hn0) hn0, natDegree_X_mul hn0, nodeProd_degree]
  · have e1 : ∏ k ∈ range 7, (c n - c k) = 0 := prod_eq_zero (mem_range.2 hn) (sub_self (c n))
    rw [ev, ev, e1]; simp [slope]
  · have h1 : ∫ τ in (0 : ℝ)..1, slope ((X * nodeProd c * nodeProd c).eval 0) (fun _ => 0) τ = 0 := by simp [slope]
    rw [h1]
    have hpos : 0 < ∫ τ in (0 : ℝ)..1, (X * nodeProd c * nodeProd c).eval τ := by
      have hcont : Continuous fun τ : ℝ => (X * nodeProd c * nodeProd c).eval τ := (X * nodeProd c * nodeProd c).continuous
      have hne : (∏ k ∈ range 7, ((1 : ℝ) - c k)) ≠ 0 :=
        prod_ne_zero_iff.2 fun k hk => sub_ne_zero.2 (hc.inside k (mem_range.1 hk)).2.ne'
      refine intervalIntegral.integral_pos (by norm_num) hcont.continuousOn (fun τ hτ => ?_) ⟨1, by simp, ?_⟩
      · rw [ev]; exact mul_nonneg hτ.1.le (sq_nonneg _)
      · rw [ev, one_mul]; positivity
    exact hpos.ne

end SpaceHub.Radau
