import Verif.Model.GaussRadau
import Verif.Spec.Radau
import Verif.Proof.Basic
import Mathlib.Algebra.BigOperators.Intervals
import Mathlib.Data.Nat.Choose.Sum
import Mathlib.Tactic.FieldSimp
import Mathlib.Tactic.Linarith

/-
Exact tables for given nodes, and how far the literal tables are from them.
-/

set_option autoImplicit false

namespace SpaceHub.Radau
open SpaceHub Finset

variable {K : Type} [Field K]

/-- Coefficient of `τ^j` in `(τ - c 0) ... (τ - c (n-1))`. -/
def coefG2B (c : Nat → K) : Nat → Nat → K
  | 0, 0 => 1
  | 0, _ + 1 => 0
  | n + 1, 0 => -(c n * coefG2B c n 0)
  | n + 1, j + 1 => coefG2B c n j - c n * coefG2B c n (j + 1)

/-- Coefficient of `(τ - c 0) ... (τ - c (j-1))` in `τ^n`. -/
def coefB2G (c : Nat → K) : Nat → Nat → K
  | 0, 0 => 1
  | 0, _ + 1 => 0
  | n + 1, 0 => c 0 * coefB2G c n 0
  | n + 1, j + 1 => coefB2G c n j + c (j + 1) * coefB2G c n (j + 1)

/-- `1 / (c n ∏ (c n - c k))` over `k < n` for column 0, `1 / ∏ (c n - c k)` over `j ≤ k < n` for column `j + 1`. -/
def coefRS (c : Nat → K) (n : Nat) : Nat → K
  | 0 => (c n * ∏ k ∈ range n, (c n - c k))⁻¹
  | j + 1 => (∏ k ∈ Ico j n, (c n - c k))⁻¹

/-- The exact tables for the nodes `c`. -/
noncomputable def exact (c : Nat → ℝ) : Tab where
  h := c
  rs := coefRS c
  g2b := coefG2B c
  b2g := coefB2G c
  estB := fun n j => (Nat.choose (n + 1) (j + 1) : ℝ)

theorem coefG2B_zero (c : Nat → K) (n j : Nat) (h : n < j) : coefG2B c n j = 0 := by
  induction n generalizing j with
  | zero => cases j with
    | zero => omega
    | succ j => rfl
  | succ n ih => cases j with
    | zero => omega
    | succ j => unfold coefG2B; rw [ih j (by omega), ih (j + 1) (by omega)]; ring

theorem coefB2G_zero (c : Nat → K) (n j : Nat) (h : n < j) : coefB2G c n j = 0 := by
  induction n generalizing j with
  | zero => cases j with
    | zero => omega
    | succ j => rfl
  | succ n ih => cases j with
    | zero => omega
    | succ j => unfold coefB2G; rw [ih j (by omega), ih (j + 1) (by omega)]; ring

/-- the Newton polynomials in powers -/
theorem newton_expand (c : Nat → K) (n N : Nat) (hN : n < N) (τ : K) :
    ∏ k ∈ range n, (τ - c k) = ∑ i ∈ range N, coefG2B c n i * τ ^ i := by
  induction n generalizing N with
  | zero =>
    obtain ⟨M, rfl⟩ : ∃ M, N = M + 1 := ⟨N - 1, by omega⟩
    rw [sum_range_succ']
    simp [coefG2B]
  | succ n ih =>
    obtain ⟨M, rfl⟩ : ∃ M, N = M + 1 := ⟨N - 1, by omega⟩
    rw [prod_range_succ, mul_sub, ih (M + 1) (by omega)]
    rw [sum_range_succ' (fun i => coefG2B c (n + 1) i * τ ^ i)]
    simp only [coefG2B]
    have e1 : (∑ i ∈ range (M + 1), coefG2B c n i * τ ^ i) * τ = ∑ i ∈ range M, coefG2B c n i * τ ^ (i + 1) := by
      rw [sum_range_succ, coefG2B_zero c n M (by omega), zero_mul, add_zero, sum_mul]
      exact sum_congr rfl fun i _ => by ring
    have e2 : (∑ i ∈ range (M + 1), coefG2B c n i * τ ^ i) * c n =
        ∑ i ∈ range M, c n * coefG2B c n (i + 1) * τ ^ (i + 1) + c n * coefG2B c n 0 := by
      rw [sum_range_succ', add_mul, sum_mul]
      congr 1
      · exact sum_congr rfl fun i _ => by ring
      · ring
    rw [e1, e2]
    have e3 : ∑ i ∈ range M, (coefG2B c n i - c n * coefG2B c n (i + 1)) * τ ^ (i + 1) =
        ∑ i ∈ range M, coefG2B c n i * τ ^ (i + 1) - ∑ i ∈ range M, c n * coefG2B c n (i + 1) * τ ^ (i + 1) := by
      rw [← sum_sub_distrib]
      exact sum_congr rfl fun i _ => by ring
    rw [e3]; ring

theorem g2b_b2g (c : Nat → K) (n j N : Nat) (hN : n < N) :
    ∑ k ∈ range N, coefG2B c n k * coefB2G c k j = if n = j then 1 else 0 := by
  induction n generalizing j N with
  | zero =>
    obtain ⟨M, rfl⟩ : ∃ M, N = M + 1 := ⟨N - 1, by omega⟩
    rw [sum_range_succ']
    have : ∑ k ∈ range M, coefG2B c 0 (k + 1) * coefB2G c (k + 1) j = 0 :=
      sum_eq_zero fun k _ => by rw [coefG2B_zero c 0 (k + 1) (by omega)]; ring
    rw [this]
    cases j with
    | zero => simp [coefG2B, coefB2G]
    | succ j => simp [coefG2B, coefB2G]
  | succ n ih =>
    obtain ⟨M, rfl⟩ : ∃ M, N = M + 1 := ⟨N - 1, by omega⟩
    have h1 : ∑ k ∈ range (M + 1), coefG2B c (n + 1) k * coefB2G c k j =
        ∑ k ∈ range M, coefG2B c n k * coefB2G c (k + 1) j - c n * ∑ k ∈ range (M + 1), coefG2B c n k * coefB2G c k j := by
      rw [sum_range_succ', sum_range_succ' (fun k => coefG2B c n k * coefB2G c k j)]
      simp only [coefG2B]
      rw [mul_add, mul_sum]
      have : ∑ k ∈ range M, (coefG2B c n k - c n * coefG2B c n (k + 1)) * coefB2G c (k + 1) j =
          ∑ k ∈ range M, coefG2B c n k * coefB2G c (k + 1) j -
            ∑ k ∈ range M, c n * (coefG2B c n (k + 1) * coefB2G c (k + 1) j) := by
        rw [← sum_sub_distrib]; exact sum_congr rfl fun i _ => by ring
      rw [this]; ring
    rw [h1, ih j (M + 1) (by omega)]
    cases j with
    | zero =>
      have : ∑ k ∈ range M, coefG2B c n k * coefB2G c (k + 1) 0 = c 0 * ∑ k ∈ range M, coefG2B c n k * coefB2G c k 0 := by
        rw [mul_sum]; exact sum_congr rfl fun i _ => by simp only [coefB2G]; ring
      rw [this, ih 0 M (by omega)]
      by_cases hn : n = 0
      · subst hn; simp
      · simp [hn]
    | succ j =>
      have : ∑ k ∈ range M, coefG2B c n k * coefB2G c (k + 1) (j + 1) =
          ∑ k ∈ range M, coefG2B c n k * coefB2G c k j + c (j + 1) * ∑ k ∈ range M, coefG2B c n k * coefB2G c k (j + 1) := by
        rw [mul_sum, ← sum_add_distrib]; exact sum_congr rfl fun i _ => by simp only [coefB2G]; ring
      rw [this, ih j M (by omega), ih (j + 1) M (by omega)]
      by_cases h1 : n = j
      · subst h1; simp
      · by_cases h2 : n = j + 1
        · subst h2; simp
        · simp [h1, h2]

theorem b2g_g2b (c : Nat → K) (n j N : Nat) (hN : n < N) :
    ∑ k ∈ range N, coefB2G c n k * coefG2B c k j = if n = j then 1 else 0 := by
  induction n generalizing j N with
  | zero =>
    obtain ⟨M, rfl⟩ : ∃ M, N = M + 1 := ⟨N - 1, by omega⟩
    rw [sum_range_succ']
    have : ∑ k ∈ range M, coefB2G c 0 (k + 1) * coefG2B c (k + 1) j = 0 :=
      sum_eq_zero fun k _ => by rw [coefB2G_zero c 0 (k + 1) (by omega)]; ring
    rw [this]
    cases j with
    | zero => simp [coefG2B, coefB2G]
    | succ j => simp [coefG2B, coefB2G]
  | succ n ih =>
    obtain ⟨M, rfl⟩ : ∃ M, N = M + 1 := ⟨N - 1, by omega⟩
    have h1 : ∑ k ∈ range (M + 1), coefB2G c (n + 1) k * coefG2B c k j =
        ∑ k ∈ range M, coefB2G c n k * (coefG2B c (k + 1) j + c k * coefG2B c k j) := by
      rw [sum_range_succ']
      have : ∑ k ∈ range M, coefB2G c (n + 1) (k + 1) * coefG2B c (k + 1) j =
          ∑ k ∈ range M, coefB2G c n k * coefG2B c (k + 1) j + ∑ k ∈ range M, coefB2G c n (k + 1) * (c (k + 1) * coefG2B c (k + 1) j) := by
        rw [← sum_add_distrib]; exact sum_congr rfl fun i _ => by simp only [coefB2G]; ring
      rw [this]
      have h2 : ∑ k ∈ range M, coefB2G c n (k + 1) * (c (k + 1) * coefG2B c (k + 1) j) + coefB2G c n 0 * (c 0 * coefG2B c 0 j) =
          ∑ k ∈ range M, coefB2G c n k * (c k * coefG2B c k j) := by
        rw [← sum_range_succ' (fun k => coefB2G c n k * (c k * coefG2B c k j)), sum_range_succ, coefB2G_zero c n M (by omega)]
        ring
      have h3 : coefB2G c (n + 1) 0 * coefG2B c 0 j = coefB2G c n 0 * (c 0 * coefG2B c 0 j) := by
        simp only [coefB2G]; ring
      rw [h3, add_assoc, h2, ← sum_add_distrib]
      exact sum_congr rfl fun i _ => by ring
    rw [h1]
    cases j with
    | zero =>
      rw [if_neg (by omega)]
      exact sum_eq_zero fun k _ => by simp only [coefG2B]; ring
    | succ j =>
      have : ∑ k ∈ range M, coefB2G c n k * (coefG2B c (k + 1) (j + 1) + c k * coefG2B c k (j + 1)) =
          ∑ k ∈ range M, coefB2G c n k * coefG2B c k j := sum_congr rfl fun i _ => by simp only [coefG2B]; ring
      rw [this, ih j M (by omega)]
      by_cases h : n = j
      · subst h; simp
      · simp [h]

/-! ### the literal tables -/

/-- rational entries for the literal nodes -/
def nodes (i : Nat) : ℚ := hList.getD i 0

theorem table_g2b : ∀ n, n < 7 → ∀ j, j ≤ n → |tri g2bList n j - coefG2B nodes n j| ≤ 1 / 10 ^ 28 := by decide +kernel
theorem table_b2g : ∀ n, n < 7 → ∀ j, j ≤ n → |tri b2gList n j - coefB2G nodes n j| ≤ 1 / 10 ^ 28 := by decide +kernel
theorem table_rs : ∀ n, n < 7 → ∀ j, j ≤ n → |tri rsList n j - coefRS nodes n j| ≤ 1 / 10 ^ 26 := by decide +kernel
theorem table_estB : ∀ n, n < 7 → ∀ j, j ≤ n → tri estBList n j = Nat.choose (n + 1) (j + 1) := by decide +kernel

end SpaceHub.Radau
