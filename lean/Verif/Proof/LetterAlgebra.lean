import Verif.Proof.LetterWords
import Mathlib.RingTheory.Nilpotent.Exp
import Mathlib.RingTheory.Polynomial.Pochhammer
import Mathlib.Data.Nat.Choose.Sum
import Mathlib.Algebra.Polynomial.BigOperators
import Mathlib.Algebra.Polynomial.Roots

/-
The coefficients of a word in the powers of a symmetric integrator.
-/

set_option autoImplicit false

namespace SpaceHub.Letters
open Finset

variable {ι : Type*} [DecidableEq ι]

/-- `X` as an operator on the functions of a position in the word: the letter there must be `X`, go on to the next position. -/
def eat (w : List ι) (X : ι) : Module.End ℚ (ℕ → ℚ) where
  toFun G i := if w[i]? = some X then G (i + 1) else 0
  map_add' G H := by funext i; simp only [Pi.add_apply]; split_ifs <;> simp
  map_smul' c G := by funext i; simp only [Pi.smul_apply, RingHom.id_apply]; split_ifs <;> simp

theorem eat_apply (w : List ι) (X : ι) (G : ℕ → ℚ) (i : ℕ) : eat w X G i = if w[i]? = some X then G (i + 1) else 0 := rfl

theorem eat_pow (w : List ι) (X : ι) (k : ℕ) : ∀ (G : ℕ → ℚ) (i : ℕ),
    (eat w X ^ k) G i = if (w.drop i).take k = List.replicate k X then G (i + k) else 0 := by
  induction k with
  | zero => intro G i; simp
  | succ k ih =>
    intro G i
    rw [pow_succ', Module.End.mul_apply, eat_apply, ih]
    by_cases h : i < w.length
    · rw [List.drop_eq_getElem_cons h, List.take_succ_cons, List.replicate_succ, List.getElem?_eq_getElem h]
      rw [show i + 1 + k = i + (k + 1) by omega]
      by_cases h1 : w[i] = X <;> simp [h1]
    · rw [List.getElem?_eq_none (by omega), if_neg (by simp), List.drop_eq_nil_of_le (by omega), if_neg (by simp [List.replicate_succ])]

theorem eat_nil (w : List ι) (X : ι) : eat w X ^ (w.length + 1) = 0 := by
  ext G i
  rw [eat_pow, if_neg]
  · rfl
  intro h
  have := congrArg List.length h
  rw [List.length_take, List.length_replicate, List.length_drop] at this
  omega

theorem smul_eat_nil (w : List ι) (X : ι) (c : ℚ) : (c • eat w X) ^ (w.length + 1) = 0 := by
  rw [smul_pow, eat_nil, smul_zero]

/-- a stage, and a list of stages, as an operator -/
noncomputable def ex (w : List ι) (X : ι) (c : ℚ) : Module.End ℚ (ℕ → ℚ) := IsNilpotent.exp (c • eat w X)
noncomputable def op (w : List ι) (l : List (ι × ℚ)) : Module.End ℚ (ℕ → ℚ) := (l.map fun s => ex w s.1 s.2).prod

theorem ex_apply (w : List ι) (X : ι) (c : ℚ) (G : ℕ → ℚ) (i : ℕ) : ex w X c G i =
    ∑ k ∈ range (w.length + 1), if (w.drop i).take k = List.replicate k X then c ^ k / k.factorial * G (i + k) else 0 := by
  rw [ex, IsNilpotent.exp_eq_sum (smul_eat_nil w X c), LinearMap.sum_apply, Finset.sum_apply]
  refine Finset.sum_congr rfl fun k _ => ?_
  rw [smul_pow, LinearMap.smul_apply, LinearMap.smul_apply, Pi.smul_apply, Pi.smul_apply, eat_pow]
  split_ifs
  · simp only [smul_eq_mul]; ring
  · simp

theorem ex_add (w : List ι) (X : ι) (a b : ℚ) : ex w X (a + b) = ex w X a * ex w X b := by
  rw [ex, add_smul]
  exact IsNilpotent.exp_add_of_commute ((Commute.refl _).smul_left a |>.smul_right b) ⟨_, smul_eat_nil w X a⟩ ⟨_, smul_eat_nil w X b⟩

theorem ex_zero (w : List ι) (X : ι) : ex w X 0 = 1 := by rw [ex, zero_smul, IsNilpotent.exp_zero]

theorem ex_neg_mul (w : List ι) (X : ι) (a : ℚ) : ex w X (-a) * ex w X a = 1 := by rw [← ex_add, neg_add_cancel, ex_zero]
theorem ex_mul_neg (w : List ι) (X : ι) (a : ℚ) : ex w X a * ex w X (-a) = 1 := by rw [← ex_add, add_neg_cancel, ex_zero]

theorem op_cons (w : List ι) (s : ι × ℚ) (l : List (ι × ℚ)) : op w (s :: l) = ex w s.1 s.2 * op w l := by rw [op, List.map_cons, List.prod_cons, op]
theorem op_append (w : List ι) (l l' : List (ι × ℚ)) : op w (l ++ l') = op w l * op w l' := by rw [op, List.map_append, List.prod_append, op, op]

/-- the end of the word -/
def fin (w : List ι) : ℕ → ℚ := fun i => if i = w.length then 1 else 0

theorem op_fin (w : List ι) (l : List (ι × ℚ)) : ∀ i, i ≤ w.length → op w l (fin w) i = wordCoef l (w.drop i) := by
  induction l with
  | nil =>
    intro i hi
    simp only [op, List.map_nil, List.prod_nil, Module.End.one_apply, wordCoef, fin, List.drop_eq_nil_iff]
    congr 1
    exact propext ⟨fun h => h.ge, fun h => by omega⟩
  | cons s l ih =>
    intro i hi
    rw [op_cons, Module.End.mul_apply, ex_apply]
    have h := wordCoef_cons s l (w.drop i) (n := w.length) (by simp)
    have h' : wordCoef (s :: l) (w.drop i) = ∑ k ∈ range (w.length + 1),
        if (w.drop i).take k = List.replicate k s.1 then s.2 ^ k / k.factorial * wordCoef l ((w.drop i).drop k) else 0 := by
      refine Rat.cast_injective (α := ℝ) (h.trans ?_)
      push_cast
      refine Finset.sum_congr rfl fun k _ => ?_
      split_ifs <;> simp
    rw [h']
    refine Finset.sum_congr rfl fun k _ => ?_
    split_ifs with hk
    · have : i + k ≤ w.length := by
        have := congrArg List.length hk
        rw [List.length_take, List.length_replicate, List.length_drop] at this
        omega
      rw [ih _ this, List.drop_drop]
    · rfl

/-! ### changing the sign -/

/-- every second position with the opposite sign -/
def alt : Module.End ℚ (ℕ → ℚ) where
  toFun G i := (-1) ^ i * G i
  map_add' G H := by funext i; simp [mul_add]
  map_smul' c G := by funext i; simp only [Pi.smul_apply, RingHom.id_apply, smul_eq_mul]; ring

theorem alt_apply (G : ℕ → ℚ) (i : ℕ) : alt G i = (-1) ^ i * G i := rfl

theorem alt_alt : alt * alt = 1 := by
  ext G i
  rw [Module.End.mul_apply, alt_apply, alt_apply, ← mul_assoc, ← pow_add, ← two_mul, pow_mul]
  simp

theorem alt_eat (w : List ι) (X : ι) : alt * eat w X = (-1 : ℚ) • (eat w X * alt) := by
  ext G i
  rw [Module.End.mul_apply, alt_apply, eat_apply, LinearMap.smul_apply, Pi.smul_apply, Module.End.mul_apply, eat_apply]
  split_ifs
  · rw [alt_apply, pow_succ, smul_eq_mul]; ring
  · simp

theorem alt_ex (w : List ι) (X : ι) (c : ℚ) : alt * ex w X c = ex w X (-c) * alt := by
  rw [ex, ex, IsNilpotent.exp_eq_sum (smul_eat_nil w X c), IsNilpotent.exp_eq_sum (smul_eat_nil w X (-c)), Finset.mul_sum, Finset.sum_mul]
  refine Finset.sum_congr rfl fun k _ => ?_
  have h : ∀ k, alt * eat w X ^ k = (-1 : ℚ) ^ k • (eat w X ^ k * alt) := by
    intro k
    induction k with
    | zero => simp
    | succ k ih => rw [pow_succ, ← mul_assoc, ih, smul_mul_assoc, mul_assoc, alt_eat, mul_smul_comm, ← mul_assoc, smul_smul, ← pow_succ]
  rw [smul_pow, smul_pow, mul_smul_comm, mul_smul_comm, h, smul_mul_assoc, smul_mul_assoc, smul_smul (c ^ k), neg_pow c, mul_comm (c ^ k)]

/-- a symmetric list of stages is undone by the same list with the opposite step -/
theorem alt_op (w : List ι) (l : List (ι × ℚ)) : alt * op w l * alt * op w l.reverse = 1 := by
  induction l with
  | nil => simp [op, alt_alt]
  | cons s l ih =>
    rw [op_cons, List.reverse_cons, op_append, ← mul_assoc alt, alt_ex, mul_assoc (ex w _ _), mul_assoc (ex w _ _), mul_assoc (ex w _ _), ← mul_assoc _ (op w l.reverse), ih, one_mul, op_cons, op, List.map_nil, List.prod_nil, mul_one, ex_neg_mul]

/-! ### the first letter -/

/-- the sum of the coefficients of a letter -/
def sumLetter (X : ι) : List (ι × ℚ) → ℚ
  | [] => 0
  | s :: l => (if s.1 = X then s.2 else 0) + sumLetter X l

theorem op_tail (w : List ι) (l : List (ι × ℚ)) {G : ℕ → ℚ} {d : ℕ} (hG : ∀ j, d < j → G j = 0) : ∀ i, d ≤ i + 1 →
    op w l G i = G i + (match w[i]? with | some X => sumLetter X l | none => 0) * G (i + 1) := by
  induction l with
  | nil => intro i _; rcases w[i]? with _ | X <;> simp [op, sumLetter]
  | cons s l ih =>
    intro i hi
    rw [op_cons, Module.End.mul_apply, ex_apply]
    have h1 : ∀ j, d < j → op w l G j = 0 := fun j hj => by
      rw [ih j (by omega), hG j hj, hG (j + 1) (by omega)]; simp
    rcases e : w[i]? with _ | X
    · have : w.length ≤ i := List.getElem?_eq_none_iff.1 e
      rw [List.drop_eq_nil_of_le this, Finset.sum_range_succ', Finset.sum_eq_zero]
      · simp [ih i hi, e]
      · intro k _; simp [List.replicate_succ]
    · obtain ⟨hi', rfl⟩ := List.getElem?_eq_some_iff.1 e
      obtain ⟨n, hn⟩ : ∃ n, w.length = n + 1 := ⟨w.length - 1, by omega⟩
      rw [hn, Finset.sum_range_succ', Finset.sum_range_succ', Finset.sum_eq_zero]
      · rw [add_zero i, ih i hi, e]
        simp only [sumLetter]
        have := ih (i + 1) (by omega)
        rw [hG (i + 1 + 1) (by omega), mul_zero, add_zero] at this
        have ht : List.take 1 (List.drop i w) = [w[i]] := by rw [List.drop_eq_getElem_cons hi', List.take_succ_cons, List.take_zero]
        by_cases hl : s.1 = w[i]
        · simp [hl, this, ht]; ring
        · simp [hl, ht, Ne.symm hl]
      · intro k _
        rw [h1 _ (by omega)]
        simp

theorem sub_one_pow (w : List ι) (l : List (ι × ℚ)) (hl : ∀ X, sumLetter X l = 1) (k : ℕ) : k ≤ w.length →
    (∀ j, w.length < j + k → ((op w l - 1) ^ k) (fin w) j = 0) ∧ ((op w l - 1) ^ k) (fin w) (w.length - k) = 1 := by
  induction k with
  | zero => 
    intro _
    refine ⟨fun j hj => ?_, ?_⟩
    · simp [fin]; omega
    · simp [fin]
  | succ k ih =>
    intro hk
    obtain ⟨h1, h2⟩ := ih (by omega)
    have h3 : ∀ i, w.length - k ≤ i + 1 → ((op w l - 1) ^ (k + 1)) (fin w) i = (match w[i]? with | some X => sumLetter X l | none => 0) * ((op w l - 1) ^ k) (fin w) (i + 1) := by
      intro i hi
      rw [pow_succ', Module.End.mul_apply, LinearMap.sub_apply, Pi.sub_apply, op_tail w l (d := w.length - k) (fun j hj => h1 j (by omega)) i hi]
      simp
    refine ⟨fun j hj => ?_, ?_⟩
    · rw [h3 j (by omega), h1 (j + 1) (by omega), mul_zero]
    · rw [h3 _ (by omega), List.getElem?_eq_getElem (by omega)]
      simp only [hl, one_mul]
      rw [show w.length - (k + 1) + 1 = w.length - k by omega, h2]

theorem sub_one_nil (w : List ι) (l : List (ι × ℚ)) (G : ℕ → ℚ) (hG : ∀ j, w.length < j → G j = 0) (k : ℕ) : ∀ j, w.length < j + k → ((op w l - 1) ^ k) G j = 0 := by
  induction k with
  | zero => intro j hj; exact hG j hj
  | succ k ih =>
    intro j hj
    rw [pow_succ', Module.End.mul_apply, LinearMap.sub_apply, Pi.sub_apply, op_tail w l (d := w.length - k) (fun j hj => ih j (by omega)) j (by omega),
      ih (j + 1) (by omega)]
    simp

/-! ### powers -/

open Polynomial in
/-- the value at the first position after `n` steps, as a polynomial in `n` -/
noncomputable def polyOf (w : List ι) (l : List (ι × ℚ)) (G : ℕ → ℚ) : ℚ[X] :=
  ∑ k ∈ range (w.length + 1), C (((op w l - 1) ^ k) G 0 / k.factorial) * descPochhammer ℚ k

open Polynomial

theorem polyOf_eval (w : List ι) (l : List (ι × ℚ)) {G : ℕ → ℚ} (hG : ∀ j, w.length < j → G j = 0) (n : ℕ) : (polyOf w l G).eval (n : ℚ) = (op w l ^ n) G 0 := by
  have e1 : op w l ^ n = ∑ k ∈ range (n + 1), (n.choose k : ℚ) • (op w l - 1) ^ k := by
    conv_lhs => rw [show op w l = (op w l - 1) + 1 by abel]
    rw [(Commute.one_right (op w l - 1)).add_pow]
    refine Finset.sum_congr rfl fun k _ => ?_
    rw [one_pow, mul_one, Nat.cast_smul_eq_nsmul, nsmul_eq_mul, Nat.cast_comm]
  have e2 : (op w l ^ n) G 0 = ∑ k ∈ range (n + 1), (n.choose k : ℚ) * ((op w l - 1) ^ k) G 0 := by
    rw [e1, LinearMap.sum_apply, Finset.sum_apply]
    rfl
  have e3 : (polyOf w l G).eval (n : ℚ) = ∑ k ∈ range (w.length + 1), (n.choose k : ℚ) * ((op w l - 1) ^ k) G 0 := by
    rw [polyOf, eval_finsetSum]
    refine Finset.sum_congr rfl fun k _ => ?_
    rw [eval_mul, eval_C, descPochhammer_eval_eq_descFactorial, Nat.descFactorial_eq_factorial_mul_choose]
    have : (k.factorial : ℚ) ≠ 0 := by positivity
    push_cast
    field_simp
  rw [e2, e3]
  have a1 := Finset.sum_subset (Finset.range_mono (show w.length + 1 ≤ max w.length n + 1 by omega)) (f := fun k => (n.choose k : ℚ) * ((op w l - 1) ^ k) G 0)
    fun k _ hk => by
      rw [Finset.mem_range, not_lt] at hk
      rw [sub_one_nil w l G hG k 0 (by omega), mul_zero]
  have a2 := Finset.sum_subset (Finset.range_mono (show n + 1 ≤ max w.length n + 1 by omega)) (f := fun k => (n.choose k : ℚ) * ((op w l - 1) ^ k) G 0)
    fun k _ hk => by
      rw [Finset.mem_range, not_lt] at hk
      rw [Nat.choose_eq_zero_of_lt (by omega), Nat.cast_zero, zero_mul]
  rw [a1, a2]

theorem polyOf_degree (w : List ι) (l : List (ι × ℚ)) (G : ℕ → ℚ) : (polyOf w l G).natDegree ≤ w.length := by
  refine natDegree_sum_le_of_forall_le _ _ fun k hk => ?_
  refine (natDegree_C_mul_le _ _).trans ?_
  rw [descPochhammer_natDegree]
  have := Finset.mem_range.1 hk
  omega

theorem polyOf_lead (w : List ι) (l : List (ι × ℚ)) (hl : ∀ X, sumLetter X l = 1) : (polyOf w l (fin w)).coeff w.length = 1 / w.length.factorial := by
  rw [polyOf, finsetSum_coeff, Finset.sum_range_succ, Finset.sum_eq_zero, zero_add, coeff_C_mul]
  · have h1 := (sub_one_pow w l hl w.length le_rfl).2
    rw [Nat.sub_self] at h1
    have h2 : (descPochhammer ℚ w.length).coeff w.length = 1 := by
      have := monic_descPochhammer ℚ w.length
      rw [Monic, leadingCoeff, descPochhammer_natDegree] at this
      exact this
    rw [h1, h2, mul_one]
  · intro k hk
    have := Finset.mem_range.1 hk
    rw [coeff_C_mul, coeff_eq_zero_of_natDegree_lt (by rw [descPochhammer_natDegree]; exact this), mul_zero]

theorem op_beyond (w : List ι) (l : List (ι × ℚ)) {G : ℕ → ℚ} (hG : ∀ j, w.length < j → G j = 0) : ∀ j, w.length < j → op w l G j = 0 := by
  intro j hj
  rw [op_tail w l hG j (by omega), hG j hj, hG (j + 1) (by omega)]
  simp

theorem nat_ext {p q : ℚ[X]} (m : ℕ) (h : ∀ n : ℕ, m ≤ n → p.eval (n : ℚ) = q.eval (n : ℚ)) : p = q := by
  refine eq_of_infinite_eval_eq p q ?_
  refine Set.infinite_of_injective_forall_mem (f := fun n : ℕ => ((n + m : ℕ) : ℚ)) (fun a b hab => ?_) fun n => h _ (by omega)
  have : (a + m : ℕ) = b + m := Nat.cast_injective (R := ℚ) hab
  omega

theorem polyOf_even (w : List ι) (l : List (ι × ℚ)) (hr : l.reverse = l) : (polyOf w l (fin w)).comp (-X) = C ((-1) ^ w.length) * polyOf w l (fin w) := by
  set φ := op w l with hφ
  set φ' := alt * φ * alt with hφ'
  have h1 : φ' * φ = 1 := by
    have := alt_op w l
    rwa [hr] at this
  have h2 : φ * φ' = 1 := by
    have h3 : alt * (φ' * φ) * alt = 1 := by rw [h1, mul_one, alt_alt]
    have h4 : alt * (φ' * φ) * alt = alt * alt * (φ * φ') := by rw [hφ']; simp only [mul_assoc]
    rw [h4, alt_alt, one_mul] at h3
    exact h3
  have hfin : ∀ j, w.length < j → fin w j = 0 := fun j hj => by rw [fin, if_neg (by omega)]
  have hbey : ∀ m : ℕ, ∀ j, w.length < j → (φ' ^ m) (fin w) j = 0 := by
    intro m
    induction m with
    | zero => exact hfin
    | succ m ih =>
      intro j hj
      rw [pow_succ', Module.End.mul_apply, hφ', Module.End.mul_apply, Module.End.mul_apply, alt_apply, hφ,
        op_beyond w l (fun j hj => by rw [alt_apply, ih j hj, mul_zero]) j hj, mul_zero]
  have hcancel : ∀ n m : ℕ, φ ^ (n + m) * φ' ^ m = φ ^ n := by
    intro n m
    induction m with
    | zero => simp
    | succ m ih => rw [← add_assoc, pow_succ, pow_succ' φ', mul_assoc, ← mul_assoc φ, h2, one_mul, ih]
  have hconj : ∀ m : ℕ, φ' ^ m = alt * φ ^ m * alt := by
    intro m
    induction m with
    | zero => simp [alt_alt]
    | succ m ih =>
      rw [pow_succ, ih, hφ', mul_assoc (alt * φ ^ m), ← mul_assoc alt (alt * φ), ← mul_assoc alt alt, alt_alt, one_mul, pow_succ]
      simp only [mul_assoc]
  have key : ∀ m : ℕ, (polyOf w l (fin w)).eval (-(m : ℚ)) = (φ' ^ m) (fin w) 0 := by
    intro m
    have e : polyOf w l ((φ' ^ m) (fin w)) = (polyOf w l (fin w)).comp (X - C (m : ℚ)) := by
      refine nat_ext m fun n hn => ?_
      obtain ⟨d, rfl⟩ := Nat.exists_eq_add_of_le hn
      rw [polyOf_eval w l (hbey m), eval_comp, eval_sub, eval_X, eval_C]
      rw [show ((m + d : ℕ) : ℚ) - (m : ℚ) = (d : ℚ) by push_cast; ring, polyOf_eval w l hfin, ← Module.End.mul_apply, add_comm m d, ← hφ, hcancel]
    have e0 := congrArg (eval (0 : ℚ)) e
    rw [eval_comp, eval_sub, eval_X, eval_C, zero_sub] at e0
    rw [← e0]
    have := polyOf_eval w l (hbey m) 0
    rw [Nat.cast_zero] at this
    rw [this, pow_zero, Module.End.one_apply]
  refine nat_ext 0 fun n _ => ?_
  rw [eval_comp, eval_neg, eval_X, key, eval_mul, eval_C, polyOf_eval w l hfin, hconj, Module.End.mul_apply, Module.End.mul_apply, alt_apply, pow_zero, one_mul]
  have : alt (fin w) = (-1 : ℚ) ^ w.length • fin w := by
    funext i
    rw [alt_apply, Pi.smul_apply, fin, smul_eq_mul]
    split_ifs with h
    · rw [h]
    · simp
  rw [this, map_smul, Pi.smul_apply, smul_eq_mul]

/-- The coefficient of a word in `n` steps of the length `1 / n` of a symmetric integrator is a polynomial in `1 / n ^ 2`, with the coefficient of the true
motion as the value at 0. -/
theorem pow_words (w : List ι) (l : List (ι × ℚ)) (hl : ∀ X, sumLetter X l = 1) (hr : l.reverse = l) : ∃ q : ℚ[X], q.natDegree ≤ (w.length - 1) / 2 ∧
    q.eval 0 = 1 / w.length.factorial ∧ ∀ n : ℕ, 1 ≤ n → (1 / (n : ℚ)) ^ w.length * (op w l ^ n) (fin w) 0 = q.eval (1 / (n : ℚ) ^ 2) := by
  have hfin : ∀ j, w.length < j → fin w j = 0 := fun j hj => by rw [fin, if_neg (by omega)]
  rcases Nat.eq_zero_or_pos w.length with h0 | h0
  · refine ⟨1, by simp, by simp [h0], fun n _ => ?_⟩
    rw [← polyOf_eval w l hfin n]
    obtain rfl := List.length_eq_zero_iff.1 h0
    simp [polyOf, fin]
  set p := polyOf w l (fin w) with hp
  set L := w.length with hL
  have hz : p.coeff 0 = 0 := by
    have := polyOf_eval w l hfin 0
    rw [Nat.cast_zero, ← coeff_zero_eq_eval_zero, pow_zero, Module.End.one_apply, fin, if_neg (by omega)] at this
    exact this
  have hpar : ∀ j, j ≤ L → (L - j) % 2 = 1 → p.coeff j = 0 := by
    intro j hj hodd
    have := congrArg (fun q => q.coeff j) (polyOf_even w l hr)
    simp only [show (-X : ℚ[X]) = C (-1) * X by simp, comp_C_mul_X_coeff, coeff_C_mul] at this
    rw [← hp, ← hL] at this
    have e : (-1 : ℚ) ^ L = -(-1) ^ j := by
      rw [show L = j + (L - j) by omega, pow_add, Odd.neg_one_pow (n := L - j) (Nat.odd_iff.2 hodd)]; ring
    rw [e] at this
    have h1 : ((-1 : ℚ) ^ j) ≠ 0 := by positivity
    have h2 : (-1 : ℚ) ^ j * (2 * p.coeff j) = 0 := by linarith
    rcases mul_eq_zero.1 h2 with h3 | h3
    · exact absurd h3 h1
    · linarith
  refine ⟨∑ i ∈ range ((L + 1) / 2), C (p.coeff (L - 2 * i)) * X ^ i, ?_, ?_, fun n hn => ?_⟩
  · refine natDegree_sum_le_of_forall_le _ _ fun i hi => (natDegree_C_mul_X_pow_le _ _).trans ?_
    have := Finset.mem_range.1 hi
    omega
  · obtain ⟨d, hd⟩ : ∃ d, (L + 1) / 2 = d + 1 := ⟨(L + 1) / 2 - 1, by omega⟩
    rw [hd, eval_finsetSum, Finset.sum_range_succ', Finset.sum_eq_zero]
    · simp only [mul_zero, Nat.sub_zero, pow_zero, mul_one, eval_C, zero_add]
      exact polyOf_lead w l hl
    · intro i _; simp
  · have hn0 : (n : ℚ) ≠ 0 := by positivity
    rw [← polyOf_eval w l hfin n, ← hp, eval_eq_sum_range' (n := L + 1) (Nat.lt_succ_of_le (polyOf_degree w l _)), eval_finsetSum, Finset.mul_sum]
    have inj : Set.InjOn (fun i => L - 2 * i) (range ((L + 1) / 2) : Set ℕ) := by
      intro a ha b hb hab
      simp only [coe_range, Set.mem_Iio] at ha hb hab
      omega
    have sub : (range ((L + 1) / 2)).image (fun i => L - 2 * i) ⊆ range (L + 1) := by
      intro j hj
      obtain ⟨i, hi, rfl⟩ := Finset.mem_image.1 hj
      rw [Finset.mem_range]; omega
    rw [← Finset.sum_subset sub, Finset.sum_image inj]
    · refine Finset.sum_congr rfl fun i hi => ?_
      have hi' := Finset.mem_range.1 hi
      rw [eval_mul, eval_C, eval_pow, eval_X]
      obtain ⟨d, hd⟩ : ∃ d, L = d + 2 * i := ⟨L - 2 * i, by omega⟩
      rw [hd, Nat.add_sub_cancel, pow_add, one_div, inv_pow, inv_pow, one_div, inv_pow, ← pow_mul]
      have h3 : (n : ℚ) ^ d ≠ 0 := by positivity
      field_simp
      rw [hp]
    · intro j hj hj'
      have hjL := Finset.mem_range.1 hj
      rcases Nat.eq_zero_or_pos j with rfl | hj0
      · rw [hz]; simp
      rw [hpar j (by omega), zero_mul, mul_zero]
      by_contra hne
      refine hj' (Finset.mem_image.2 ⟨(L - j) / 2, ?_, ?_⟩)
      · rw [Finset.mem_range]; omega
      · show L - 2 * ((L - j) / 2) = j
        omega

end SpaceHub.Letters
