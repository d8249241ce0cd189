import Verif.Proof.ConvergeExtrap
import Mathlib.Algebra.Polynomial.RuleOfSigns
import Mathlib.LinearAlgebra.Lagrange
import Mathlib.Topology.Algebra.Polynomial
import Mathlib.Analysis.SpecialFunctions.Exp
import Mathlib.Algebra.Polynomial.Expand

/-
The extrapolation of sub-step lengths does not remove odd powers.
-/

set_option autoImplicit false

namespace SpaceHub.Converge
open Polynomial Finset BS BS.Spec

/-- A polynomial has fewer changes of sign than terms. -/
theorem signVariations_lt_card (P : ℝ[X]) (hP : P ≠ 0) : P.signVariations + 1 ≤ #P.support := by
  obtain ⟨n, hn⟩ : ∃ n, #P.support = n := ⟨_, rfl⟩
  induction n generalizing P with
  | zero => exact absurd (card_support_eq_zero.1 hn) hP
  | succ n ih =>
    have h1 := signVariations_le_eraseLead_succ P
    have h2 : #P.eraseLead.support = n := card_support_eraseLead' hn
    by_cases h0 : P.eraseLead = 0
    · have : P.signVariations = 0 := by
        have e := eraseLead_add_monomial_natDegree_leadingCoeff P
        rw [h0, zero_add] at e
        rw [← e]
        exact signVariations_monomial _ _
      omega
    · have := ih P.eraseLead h0 h2
      omega

/-- `q (t²) = t` has at most as many positive solutions as `q` has coefficients. -/
theorem square_roots {k : ℕ} (q : ℝ[X]) (hq : q.natDegree < k) (S : Finset ℝ) (hS : ∀ t ∈ S, 0 < t ∧ q.eval (t ^ 2) = t) : #S ≤ k := by
  set P := expand ℝ 2 q - X with hP
  have hX : (expand ℝ 2 q).coeff 1 = 0 := by rw [coeff_expand (by norm_num), if_neg (by norm_num)]
  have hP0 : P ≠ 0 := fun h => by
    have := congrArg (fun r => coeff r 1) h
    simp [hP, hX] at this
  have hsup : P.support ⊆ insert 1 ((range k).image fun i => 2 * i) := by
    intro i hi
    rw [mem_insert, mem_image]
    by_contra hc
    push Not at hc
    refine mem_support_iff.1 hi ?_
    rw [hP, coeff_sub, coeff_X, if_neg (Ne.symm hc.1), sub_zero, coeff_expand (by norm_num)]
    split_ifs with h2
    · obtain ⟨j, rfl⟩ := h2
      refine coeff_eq_zero_of_natDegree_lt ?_
      have : k ≤ j := by
        by_contra h
        exact hc.2 j (mem_range.2 (not_le.1 h)) rfl
      rw [Nat.mul_div_cancel_left _ (by norm_num)]
      omega
    · rfl
  have hc : #P.support ≤ k + 1 := (card_le_card hsup).trans ((card_insert_le _ _).trans (by
    have := card_image_le (s := range k) (f := fun i => 2 * i)
    rw [card_range] at this
    omega))
  have h1 := signVariations_lt_card P hP0
  have h2 := roots_countP_pos_le_signVariations (P := P)
  have h3 : #S ≤ P.roots.countP (0 < ·) := by
    rw [Multiset.countP_eq_card_filter, ← Finset.card_val]
    refine Multiset.card_le_card ((Multiset.le_iff_subset S.nodup).2 fun t ht => ?_)
    obtain ⟨t0, e⟩ := hS t ht
    rw [Multiset.mem_filter, mem_roots hP0]
    refine ⟨?_, t0⟩
    rw [IsRoot.def, hP, eval_sub, expand_eval, eval_X, e, sub_self]
  omega

theorem through (S : Finset ℕ) {x : ℕ → ℝ} (inj : Set.InjOn x (S : Set ℕ)) (y : ℕ → ℝ) : ∃ p : ℝ[X], (0 < #S → p.natDegree < #S) ∧ ∀ m ∈ S, p.eval (x m) = y m := by
  refine ⟨Lagrange.interpolate S x y, fun h => ?_, fun m hm => Lagrange.eval_interpolate_at_node _ inj hm⟩
  by_cases hp0 : Lagrange.interpolate S x y = 0
  · rw [hp0, natDegree_zero]; omega
  · exact (natDegree_lt_iff_degree_lt hp0).2 (Lagrange.degree_interpolate_lt y inj)

/-- The cubes of the sub-step lengths are not extrapolated to zero. -/
theorem cubes {D k : ℕ} (hk1 : 1 ≤ k) (hk : k ≤ D) : ∑ m ∈ Icc 0 k, weight D 0 k m * (1 / (hSeq D m : ℝ)) ^ 3 ≠ 0 := by
  intro h0
  obtain ⟨t, ht⟩ : ∃ t : ℕ → ℝ, ∀ m, t m = 1 / (hSeq D m : ℝ) := ⟨_, fun _ => rfl⟩
  simp only [← ht] at h0
  have hpos : ∀ m, m ≤ k → 0 < t m := fun m hm => by
    have : 0 < hSeq D m := hSeq_pos (by omega)
    rw [ht]
    positivity
  have inj : ∀ i ∈ Icc 0 k, ∀ j ∈ Icc 0 k, t i = t j → i = j := by
    intro i hi j hj e
    have hi' := (mem_Icc.1 hi).2
    have hj' := (mem_Icc.1 hj).2
    have e' : (hSeq D i : ℝ) = hSeq D j := by
      rw [ht, ht, one_div, one_div] at e
      exact inv_injective e
    have e'' : hSeq D i = hSeq D j := by exact_mod_cast e'
    rcases Nat.lt_trichotomy i j with h | h | h
    · have := hSeq_lt h (by omega : j ≤ D); omega
    · exact h
    · have := hSeq_lt h (by omega : i ≤ D); omega
  have inj2 : Set.InjOn (fun m => t m ^ 2) (Icc 0 k : Finset ℕ) := by
    intro i hi j hj e
    have hi' := (mem_Icc.1 (mem_coe.1 hi)).2
    have hj' := (mem_Icc.1 (mem_coe.1 hj)).2
    exact inj i hi j hj ((sq_eq_sq₀ (hpos i hi').le (hpos j hj').le).1 e)
  obtain ⟨p, hdeg, hval⟩ := through (Icc 0 k) inj2 (fun m => t m ^ 3)
  have hdeg : p.natDegree ≤ k := Nat.lt_succ_iff.1 (by rw [Nat.card_Icc] at hdeg; exact hdeg (by omega))
  have e := zeroStep_poly' hk (Nat.zero_le k) p (by omega)
  rw [zeroStep_weight] at e
  have e0 : p.eval 0 = 0 := by
    rw [← e, ← h0]
    refine sum_congr rfl fun m hm => ?_
    rw [← hval m hm, ht, div_pow, one_pow]
  obtain ⟨q, hq⟩ := X_dvd_iff.2 (by rw [coeff_zero_eq_eval_zero, e0] : p.coeff 0 = 0)
  have hqd : q.natDegree < k := by
    by_cases hq0 : q = 0
    · rw [hq0, natDegree_zero]; omega
    · have := natDegree_X_mul hq0
      rw [← hq] at this
      omega
  have := square_roots q hqd ((Icc 0 k).image t) (fun x hx => by
    obtain ⟨m, hm, rfl⟩ := mem_image.1 hx
    have hm' := hpos m (mem_Icc.1 hm).2
    refine ⟨hm', ?_⟩
    have h1 := hval m hm
    rw [hq, eval_mul, eval_X] at h1
    have h2 : t m ^ 2 ≠ 0 := by positivity
    exact mul_left_cancel₀ h2 (by rw [h1]; ring))
  have hci : #((Icc 0 k).image t) = #(Icc 0 k) := card_image_of_injOn fun i hi j hj e => inj i (mem_coe.1 hi) j (mem_coe.1 hj) e
  rw [hci, Nat.card_Icc] at this
  omega


/-! ### the velocity under a drag, with velocity updates first and last -/

/-- the velocity and the second velocity after a velocity update -/
noncomputable def kickVW (c : ℝ) (q : ℝ × ℝ) : ℝ × ℝ := ((1 + c ^ 2 / 2) * q.1 - (c + c ^ 3 / 4) * q.2, -c * q.1 + (1 + c ^ 2 / 2) * q.2)

theorem full_kicks (j : ℕ) : ∃ r s : ℝ[X], ∀ e : ℝ, (kickVW e)^[j] (kickVW (e / 2) (1, 1)) =
    (1 - (j + 1 / 2) * e + (j + 1 / 2) ^ 2 / 2 * e ^ 2 + (-1 / 32 - j ^ 3 / 6 - j ^ 2 / 4 - 5 * j / 24) * e ^ 3 + e ^ 4 * r.eval e,
      1 - (j + 1 / 2) * e + (j + 1 / 2) ^ 2 / 2 * e ^ 2 + (-j ^ 3 / 6 - j ^ 2 / 4 + j / 24) * e ^ 3 + e ^ 4 * s.eval e) := by
  induction j with
  | zero =>
    refine ⟨0, 0, fun e => ?_⟩
    simp only [Function.iterate_zero, id, kickVW, eval_zero]
    ext1 <;> push_cast <;> ring
  | succ j ih =>
    obtain ⟨r, s, h⟩ := ih
    refine ⟨C (((j : ℝ) + 1 / 2) ^ 2 / 4 + ((j : ℝ) + 1 / 2) / 4 - (-(j : ℝ) ^ 3 / 6 - j ^ 2 / 4 + j / 24)) +
        X * C ((-1 / 32 - (j : ℝ) ^ 3 / 6 - j ^ 2 / 4 - 5 * j / 24) / 2 - ((j : ℝ) + 1 / 2) ^ 2 / 8) - X ^ 2 * C ((-(j : ℝ) ^ 3 / 6 - j ^ 2 / 4 + j / 24) / 4) +
        (1 + X ^ 2 * C (1 / 2)) * r - (X + X ^ 3 * C (1 / 4)) * s,
      C (((j : ℝ) + 1 / 2) ^ 2 / 4 - (-1 / 32 - (j : ℝ) ^ 3 / 6 - j ^ 2 / 4 - 5 * j / 24)) + X * C ((-(j : ℝ) ^ 3 / 6 - j ^ 2 / 4 + j / 24) / 2) -
        X * r + (1 + X ^ 2 * C (1 / 2)) * s, fun e => ?_⟩
    rw [Function.iterate_succ_apply', h e, kickVW]
    simp only [eval_add, eval_sub, eval_mul, eval_C, eval_X, eval_pow, eval_one]
    ext1 <;> push_cast <;> ring

/-- the velocity after `n` sub-steps over `h` with velocity updates first and last -/
noncomputable def runV (n : ℕ) (h : ℝ) : ℝ := (kickVW (h / n / 2) ((kickVW (h / n))^[n - 1] (kickVW (h / n / 2) (1, 1)))).1

theorem runV_expand (n : ℕ) (hn : 1 ≤ n) : ∃ r : ℝ[X], ∀ h : ℝ,
    runV n h = 1 - h + h ^ 2 / 2 + (-1 / 6 - 1 / 12 * (1 / (n : ℝ)) ^ 2 + 1 / 16 * (1 / (n : ℝ)) ^ 3) * h ^ 3 + h ^ 4 * r.eval h := by
  obtain ⟨j, rfl⟩ : ∃ j, n = j + 1 := ⟨n - 1, by omega⟩
  obtain ⟨r, s, H⟩ := full_kicks j
  obtain ⟨b, hb⟩ : ∃ b : ℝ, b = -1 / 32 - (j : ℝ) ^ 3 / 6 - j ^ 2 / 4 - 5 * j / 24 := ⟨_, rfl⟩
  obtain ⟨d, hd⟩ : ∃ d : ℝ, d = -(j : ℝ) ^ 3 / 6 - j ^ 2 / 4 + j / 24 := ⟨_, rfl⟩
  obtain ⟨R, hR⟩ : ∃ R : ℝ[X], ∀ e, (kickVW (e / 2) ((kickVW e)^[j] (kickVW (e / 2) (1, 1)))).1 =
      1 - (j + 1) * e + (j + 1) ^ 2 / 2 * e ^ 2 + (-(j + 1) ^ 3 / 6 - (j + 1) / 12 + 1 / 16) * e ^ 3 + e ^ 4 * R.eval e := by
    refine ⟨C (((j : ℝ) + 1 / 2) ^ 2 / 16 + ((j : ℝ) + 1 / 2) / 32 - d / 2) + X * C (b / 8 - ((j : ℝ) + 1 / 2) ^ 2 / 64) - X ^ 2 * C (d / 32) +
      (1 + X ^ 2 * C (1 / 8)) * r - (X * C (1 / 2) + X ^ 3 * C (1 / 32)) * s, fun e => ?_⟩
    rw [H e, kickVW]
    simp only [eval_add, eval_sub, eval_mul, eval_C, eval_X, eval_pow, eval_one]
    rw [hb, hd]
    ring
  have h0 : ((j : ℝ) + 1) ≠ 0 := by positivity
  refine ⟨C (1 / ((j : ℝ) + 1) ^ 4) * R.comp (X * C (1 / ((j : ℝ) + 1))), fun h => ?_⟩
  rw [runV, Nat.add_sub_cancel, hR, eval_mul, eval_C, eval_comp, eval_mul, eval_X, eval_C]
  push_cast
  rw [show h * (1 / ((j : ℝ) + 1)) = h / (j + 1) by ring]
  generalize eval (h / ((j : ℝ) + 1)) R = ρ
  field_simp

/-- **The extrapolated velocity is off by at least a constant times the cube of the step**, whatever the number of runs. -/
theorem runV_extrap (D : ℕ) : ∃ c h0 : ℝ, 0 < c ∧ 0 < h0 ∧ ∀ k, 1 ≤ k → k ≤ D → ∀ h, 0 ≤ h → h ≤ h0 →
    c * h ^ 3 ≤ |∑ m ∈ Icc 0 k, weight D 0 k m * runV (hSeq D m) h - Real.exp (-h)| := by
  have one : ∀ k : ℕ, ∃ c h0 : ℝ, 0 < c ∧ 0 < h0 ∧ (1 ≤ k → k ≤ D → ∀ h, 0 ≤ h → h ≤ h0 →
      c * h ^ 3 ≤ |∑ m ∈ Icc 0 k, weight D 0 k m * runV (hSeq D m) h - Real.exp (-h)|) := by
    intro k
    by_cases hk : 1 ≤ k ∧ k ≤ D
    swap
    · exact ⟨1, 1, one_pos, one_pos, fun h1 h2 => absurd ⟨h1, h2⟩ hk⟩
    obtain ⟨hk1, hkD⟩ := hk
    have hne := cubes hk1 hkD
    obtain ⟨κ, hκ⟩ : ∃ κ, κ = ∑ m ∈ Icc 0 k, weight D 0 k m * (1 / (hSeq D m : ℝ)) ^ 3 := ⟨_, rfl⟩
    rw [← hκ] at hne
    have ex : ∀ m, ∃ r : ℝ[X], m ≤ k → ∀ h : ℝ, runV (hSeq D m) h =
        1 - h + h ^ 2 / 2 + (-1 / 6 - 1 / 12 * (1 / (hSeq D m : ℝ)) ^ 2 + 1 / 16 * (1 / (hSeq D m : ℝ)) ^ 3) * h ^ 3 + h ^ 4 * r.eval h := by
      intro m
      by_cases hm : m ≤ k
      · obtain ⟨r, hr⟩ := runV_expand (hSeq D m) (hSeq_pos (by omega))
        exact ⟨r, fun _ => hr⟩
      · exact ⟨0, fun h => absurd h hm⟩
    choose r hr using ex
    have w0 := zeroStep_poly' hkD (Nat.zero_le k) 1 (by simp)
    have w2 := zeroStep_poly' hkD (Nat.zero_le k) X (by simp; omega)
    rw [zeroStep_weight] at w0 w2
    simp only [eval_one, mul_one, eval_X] at w0 w2
    obtain ⟨Q, hQ⟩ : ∃ Q : ℝ[X], Q = ∑ m ∈ Icc 0 k, C (weight D 0 k m) * r m := ⟨_, rfl⟩
    have tot : ∀ h : ℝ, ∑ m ∈ Icc 0 k, weight D 0 k m * runV (hSeq D m) h = 1 - h + h ^ 2 / 2 - h ^ 3 / 6 + κ / 16 * h ^ 3 + h ^ 4 * Q.eval h := by
      intro h
      have e1 : ∀ m ∈ Icc 0 k, weight D 0 k m * runV (hSeq D m) h = (1 - h + h ^ 2 / 2 - h ^ 3 / 6) * weight D 0 k m -
          h ^ 3 / 12 * (weight D 0 k m * (1 / (hSeq D m : ℝ) ^ 2)) + h ^ 3 / 16 * (weight D 0 k m * (1 / (hSeq D m : ℝ)) ^ 3) +
          h ^ 4 * (weight D 0 k m * (r m).eval h) := fun m hm => by
        rw [hr m (mem_Icc.1 hm).2 h, show 1 / (hSeq D m : ℝ) ^ 2 = (1 / (hSeq D m : ℝ)) ^ 2 by rw [div_pow, one_pow]]
        ring
      rw [sum_congr rfl e1, sum_add_distrib, sum_add_distrib, sum_sub_distrib, ← mul_sum, ← mul_sum, ← mul_sum, ← mul_sum, w0, w2, ← hκ, hQ, eval_finsetSum]
      simp only [eval_mul, eval_C]
      ring
    obtain ⟨B, hB⟩ := (isCompact_Icc (a := (0 : ℝ)) (b := 1)).exists_bound_of_continuousOn (f := fun h => Q.eval h) Q.continuous.continuousOn
    have hB0 : 0 ≤ B := (norm_nonneg _).trans (hB 0 ⟨le_rfl, zero_le_one⟩)
    have hκ0 : 0 < |κ| := abs_pos.2 hne
    refine ⟨|κ| / 32, min 1 (|κ| / (32 * (B + 1))), by positivity, lt_min one_pos (by positivity), fun _ _ h h0 hh => ?_⟩
    have hh1 : h ≤ 1 := hh.trans (min_le_left _ _)
    have hh2 : h * (B + 1) ≤ |κ| / 32 := by
      have := hh.trans (min_le_right _ _)
      rw [le_div_iff₀ (by positivity)] at this
      linarith
    have hexp := Real.exp_bound (x := -h) (by rw [abs_neg, abs_of_nonneg h0]; exact hh1) (n := 4) (by norm_num)
    have hs : ∑ m ∈ range 4, (-h) ^ m / (m.factorial : ℝ) = 1 - h + h ^ 2 / 2 - h ^ 3 / 6 := by
      simp only [sum_range_succ, range_zero, sum_empty, Nat.factorial]
      push_cast
      ring
    rw [hs, abs_neg, abs_of_nonneg h0] at hexp
    have hexp' : |Real.exp (-h) - (1 - h + h ^ 2 / 2 - h ^ 3 / 6)| ≤ h ^ 4 := hexp.trans (by
      have : (0 : ℝ) ≤ h ^ 4 := by positivity
      norm_num [Nat.factorial]
      linarith)
    have hQB : |h ^ 4 * Q.eval h| ≤ h ^ 4 * B := by
      rw [abs_mul, abs_of_nonneg (by positivity : (0 : ℝ) ≤ h ^ 4)]
      exact mul_le_mul_of_nonneg_left (hB h ⟨h0, hh1⟩) (by positivity)
    rw [tot]
    have e : 1 - h + h ^ 2 / 2 - h ^ 3 / 6 + κ / 16 * h ^ 3 + h ^ 4 * Q.eval h - Real.exp (-h) =
        κ / 16 * h ^ 3 - (-(h ^ 4 * Q.eval h) + (Real.exp (-h) - (1 - h + h ^ 2 / 2 - h ^ 3 / 6))) := by ring
    rw [e]
    have a1 := abs_sub_abs_le_abs_sub (κ / 16 * h ^ 3) (-(h ^ 4 * Q.eval h) + (Real.exp (-h) - (1 - h + h ^ 2 / 2 - h ^ 3 / 6)))
    have a2 := abs_add_le (-(h ^ 4 * Q.eval h)) (Real.exp (-h) - (1 - h + h ^ 2 / 2 - h ^ 3 / 6))
    rw [abs_neg] at a2
    have a3 : |κ / 16 * h ^ 3| = |κ| / 16 * h ^ 3 := by
      rw [abs_mul, abs_div, abs_of_nonneg (by positivity : (0 : ℝ) ≤ h ^ 3)]
      norm_num
    have a4 : h ^ 3 * (h * (B + 1)) ≤ h ^ 3 * (|κ| / 32) := mul_le_mul_of_nonneg_left hh2 (by positivity)
    have a5 : h ^ 3 * (h * (B + 1)) = h ^ 4 * B + h ^ 4 := by ring
    rw [a3] at a1
    linarith
  choose c h0 hc hh0 H using one
  have hne : (range (D + 1)).Nonempty := ⟨0, by simp⟩
  refine ⟨(range (D + 1)).inf' hne c, (range (D + 1)).inf' hne h0, (lt_inf'_iff hne).2 fun k _ => hc k, (lt_inf'_iff hne).2 fun k _ => hh0 k,
    fun k hk1 hkD h hh hle => ?_⟩
  have hm : k ∈ range (D + 1) := mem_range.2 (by omega)
  exact (mul_le_mul_of_nonneg_right (inf'_le _ hm) (by positivity)).trans (H k hk1 hkD h hh (hle.trans (inf'_le _ hm)))

end SpaceHub.Converge
