import Verif.Model.BulirschStoer
import Verif.Spec.BulirschStoer

/-
The extrapolation table of the Bulirsch-Stoer iterator is the Neville scheme.
-/

set_option autoImplicit false

namespace SpaceHub.BS
open SpaceHub Spec

theorem hSeq_pos {D i : Nat} (hi : i ≤ D) : 0 < hSeq D i := by
  unfold hSeq
  split_ifs with h
  · have key : ∀ i, i < 11 → 0 < seqTable.getD i 0 := by decide
    exact key i (by omega)
  · omega

theorem hSeq_lt {D i j : Nat} (hij : i < j) (hj : j ≤ D) : hSeq D i < hSeq D j := by
  unfold hSeq
  split_ifs with h
  · have key : ∀ j, j < 11 → ∀ i, i < j → seqTable.getD i 0 < seqTable.getD j 0 := by decide
    exact key j (by omega) i hij
  · omega

theorem hSeq_injOn {D a b : Nat} (hb : b ≤ D) :
    Set.InjOn (fun i => 1 / (hSeq D i : ℝ) ^ 2) (Finset.Icc a b : Finset Nat) := by
  intro i hi j hj h
  simp only [Finset.coe_Icc, Set.mem_Icc] at hi hj
  have hpi : (0 : ℝ) < hSeq D i := by exact_mod_cast hSeq_pos (by omega)
  have hpj : (0 : ℝ) < hSeq D j := by exact_mod_cast hSeq_pos (by omega)
  dsimp only at h
  rw [one_div, one_div, inv_inj] at h
  have h2 : (hSeq D i : ℝ) = hSeq D j := by
    nlinarith [sq_nonneg ((hSeq D i : ℝ) - hSeq D j), sq_nonneg ((hSeq D i : ℝ) + hSeq D j)]
  have h3 : hSeq D i = hSeq D j := by exact_mod_cast h2
  rcases Nat.lt_trichotomy i j with hlt | he | hlt
  · have := hSeq_lt hlt (show j ≤ D by omega); omega
  · exact he
  · have := hSeq_lt hlt (show i ≤ D by omega); omega

theorem zeroStep_self (n : Nat → Nat) (y : Nat → ℝ) (a : Nat) : zeroStep n y a a = y a := by
  unfold zeroStep
  rw [Finset.Icc_self, Lagrange.interpolate_singleton, Polynomial.eval_C]

/-- one step of the Neville scheme with the coefficient of the code -/
theorem zeroStep_step {D a k : Nat} (y : Nat → ℝ) (hak : a < k) (hk : k ≤ D) :
    zeroStep (hSeq D) y a k = zeroStep (hSeq D) y (a + 1) k +
      (zeroStep (hSeq D) y (a + 1) k - zeroStep (hSeq D) y a (k - 1)) *
        (((hSeq D a * hSeq D a : Nat) : ℝ) / (((hSeq D k * hSeq D k : Nat) : ℝ) - ((hSeq D a * hSeq D a : Nat) : ℝ))) := by
  unfold zeroStep
  rw [Lagrange.interpolate_eq_add_interpolate_erase (i := a) (j := k) y (hSeq_injOn hk) (by simp; omega) (by simp; omega)
    (by omega)]
  have e1 : (Finset.Icc a k).erase k = Finset.Icc a (k - 1) := by
    ext i; simp only [Finset.mem_erase, Finset.mem_Icc]; omega
  have e2 : (Finset.Icc a k).erase a = Finset.Icc (a + 1) k := by
    ext i; simp only [Finset.mem_erase, Finset.mem_Icc]; omega
  rw [e1, e2]
  simp only [Polynomial.eval_add, Polynomial.eval_mul, Lagrange.basisDivisor, Polynomial.eval_sub, Polynomial.eval_X,
    Polynomial.eval_C]
  have hpa : (0 : ℝ) < hSeq D a := by exact_mod_cast hSeq_pos (by omega)
  have hpk : (0 : ℝ) < hSeq D k := by exact_mod_cast hSeq_pos hk
  have hlt : (hSeq D a : ℝ) < hSeq D k := by exact_mod_cast hSeq_lt hak hk
  have hne : (hSeq D k : ℝ) ^ 2 - (hSeq D a : ℝ) ^ 2 ≠ 0 := by nlinarith
  have hne' : (hSeq D a : ℝ) ^ 2 - (hSeq D k : ℝ) ^ 2 ≠ 0 := by nlinarith
  push_cast
  have f1 : (1 / (hSeq D a : ℝ) ^ 2 - 1 / (hSeq D k : ℝ) ^ 2)⁻¹ =
      (hSeq D a : ℝ) ^ 2 * (hSeq D k : ℝ) ^ 2 / ((hSeq D k : ℝ) ^ 2 - (hSeq D a : ℝ) ^ 2) := by
    rw [div_sub_div _ _ (by positivity) (by positivity), inv_div]; ring
  have f2 : (1 / (hSeq D k : ℝ) ^ 2 - 1 / (hSeq D a : ℝ) ^ 2)⁻¹ =
      - ((hSeq D a : ℝ) ^ 2 * (hSeq D k : ℝ) ^ 2 / ((hSeq D k : ℝ) ^ 2 - (hSeq D a : ℝ) ^ 2)) := by
    rw [← f1, ← inv_neg]; congr 1; ring
  rw [f1, f2]
  rw [← pow_two, ← pow_two]
  generalize Polynomial.eval 0 _ = A
  generalize Polynomial.eval 0 _ = B
  field_simp
  ring

theorem tableCoef_eq {D k j : Nat} (hj : j < k) :
    tableCoef (F := ℝ) D k (k - (j + 1)) =
      ((hSeq D j * hSeq D j : Nat) : ℝ) / (((hSeq D k * hSeq D k : Nat) : ℝ) - ((hSeq D j * hSeq D j : Nat) : ℝ)) := by
  unfold tableCoef
  rw [if_pos (by omega)]
  have : k - (k - (j + 1)) - 1 = j := by omega
  dsimp only
  rw [this]
  simp only [ofN, Arith.ofRat, Arith.div, Arith.sub]
  push_cast
  rfl

/-- The rounds of `extrapolate(k)`. -/
theorem extrapolateFrom_spec {D n k i : Nat} (hk : k ≤ D) (hi : i < n) (y : Nat → ℝ) (j : Nat) (hj : j ≤ k)
    (T : Nat → Arr ℝ) (h1 : ∀ r, j ≤ r → r ≤ k → T r i = zeroStep (hSeq D) y r k)
    (h2 : ∀ r, r < j → T r i = zeroStep (hSeq D) y r (k - 1)) :
    ∀ r, r ≤ k → extrapolateFrom D n k j T r i = zeroStep (hSeq D) y r k := by
  induction j generalizing T with
  | zero => intro r hr; exact h1 r (Nat.zero_le _) hr
  | succ j ih =>
    intro r hr
    rw [extrapolateFrom]
    refine ih (by omega) _ (fun r hr1 hr2 => ?_) (fun r hr1 => ?_) r hr
    · by_cases hrj : r = j
      · subst hrj
        rw [if_pos rfl, if_pos hi, tableCoef_eq (by omega), h1 (r + 1) le_rfl (by omega), h2 r (by omega)]
        exact (zeroStep_step y (by omega) hk).symm
      · rw [if_neg hrj]; exact h1 r (by omega) hr2
    · rw [if_neg (by omega)]; exact h2 r (by omega)

theorem extrapolateFrom_other {D n k j : Nat} (T : Nat → Arr ℝ) (r : Nat) (hr : j ≤ r) :
    extrapolateFrom D n k j T r = T r := by
  induction j generalizing T with
  | zero => rfl
  | succ j ih =>
    rw [extrapolateFrom, ih _ (by omega), if_neg (by omega)]

/-- `extrapolate(k)`: from the table of the first `k` results and the new result number `k` in row `k` to the table of
`k + 1` results. -/
theorem extrapolate_spec {D n k i : Nat} (hk : k ≤ D) (hi : i < n) (y : Nat → ℝ) (T : Nat → Arr ℝ)
    (h1 : T k i = y k) (h2 : ∀ r, r < k → T r i = zeroStep (hSeq D) y r (k - 1)) :
    ∀ r, r ≤ k → extrapolate D n k T r i = zeroStep (hSeq D) y r k := by
  refine extrapolateFrom_spec hk hi y k le_rfl T (fun r a b => ?_) h2
  obtain rfl : r = k := by omega
  rw [zeroStep_self]; exact h1

theorem zeroStep_poly {D k : Nat} (hk : k ≤ D) (p : Polynomial ℝ) (hp : p.natDegree ≤ k) :
    zeroStep (hSeq D) (fun i => p.eval (1 / (hSeq D i : ℝ) ^ 2)) 0 k = p.eval 0 := by
  unfold zeroStep
  rw [← Lagrange.eq_interpolate (hSeq_injOn hk)]
  rw [Nat.card_Icc]
  calc p.degree ≤ (p.natDegree : WithBot ℕ) := Polynomial.degree_le_natDegree
    _ < ((k + 1 - 0 : ℕ) : WithBot ℕ) := by exact_mod_cast (by omega)

end SpaceHub.BS
