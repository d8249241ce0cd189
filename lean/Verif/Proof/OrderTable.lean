import Verif.Spec.Order
import Mathlib.Data.Rat.Cast.Order
import Mathlib.Algebra.Order.Field.Rat
import Mathlib.Tactic.Ring
import Mathlib.Tactic.FieldSimp
import Mathlib.Tactic.Linarith
import Mathlib.Tactic.NormNum
import Mathlib.Tactic.IntervalCases

/-
The order conditions of the integrators, with integers: the coefficients of all suffixes of a word at once, multiplied by a power of
a common denominator.
-/

set_option autoImplicit false

namespace SpaceHub.Converge
open Integrator Spec Finset

/-- the decimal part of the common denominator -/
def dec : ℤ := 10 ^ 20

/-- the sum over the leading letters `X` of the word -/
def runW (X : Bool) (n : ℤ) : ℕ → ℤ → List Bool → List ℤ → ℤ
  | _, _, _, [] => 0
  | _, t, [], v :: _ => t * v
  | k, t, Y :: w, v :: vs => t * v + if Y = X then runW X n (k + 1) (t * (n * (840 / (k + 1)))) w vs else 0

/-- all suffixes -/
def updW (X : Bool) (n : ℤ) : List Bool → List ℤ → List ℤ
  | [], vs => vs
  | _ :: _, [] => []
  | Y :: w, v :: vs => runW X n 0 1 (Y :: w) (v :: vs) :: updW X n w vs

def startW : List Bool → List ℤ
  | [] => [1]
  | _ :: w => 0 :: startW w

/-- the scaled coefficients of all suffixes of a word -/
def tabW (l : List (Bool × ℤ)) (w : List Bool) : List ℤ := l.foldr (fun s vs => updW s.1 s.2 w vs) (startW w)

/-- the integer form of a stage -/
def scaled (s : Stage) : Bool × ℤ := (letter s, (coef s * dec).num)

/-- all words of a length -/
def allW : ℕ → List (List Bool)
  | 0 => [[]]
  | n + 1 => (allW n).map (true :: ·) ++ (allW n).map (false :: ·)

def closeW (e : ℤ) (m : ℕ) (v : ℤ) : Bool := decide (|m.factorial * v - (dec * 840) ^ m| * e ≤ m.factorial * (dec * 840) ^ m)

/-- the suffixes from the longest on -/
def closeAll (e : ℤ) : List ℤ → Bool
  | [] => true
  | v :: vs => closeW e vs.length v && closeAll e vs

/-- the order conditions up to `p` letters hold up to `1 / e` -/
def checkOrder (e : ℤ) (p : ℕ) (l : List Stage) : Bool :=
  l.all (fun s => decide ((coef s * dec).den = 1)) && (allW p).all fun w => closeAll e (tabW (l.map scaled) w)

/-! ### correctness -/

/-- `vs` holds the scaled coefficients of the suffixes of `w` -/
def Rep (l : List Stage) : List Bool → List ℤ → Prop
  | _, [] => False
  | [], v :: vs => (v : ℚ) = wordCoef l [] ∧ vs = []
  | Y :: w, v :: vs => (v : ℚ) = wordCoef l (Y :: w) * (dec * 840) ^ (w.length + 1) ∧ Rep l w vs

theorem Rep.head {l : List Stage} {w : List Bool} {v : ℤ} {vs : List ℤ} (h : Rep l w (v :: vs)) : (v : ℚ) = wordCoef l w * (dec * 840) ^ w.length := by
  cases w with
  | nil => simpa using h.1
  | cons Y w => exact h.1

theorem div840 {k : ℕ} (hk : k < 8) : ((840 / ((k : ℤ) + 1) : ℤ) : ℚ) = 840 / (k + 1) := by
  interval_cases k <;> norm_num

theorem runW_eq (l : List Stage) (X : Bool) (n : ℤ) (w : List Bool) : ∀ (vs : List ℤ) (k : ℕ) (t : ℤ), Rep l w vs → k + w.length ≤ 8 →
    (runW X n k t w vs : ℚ) = ∑ j ∈ range (w.length + 1), if w.take j = List.replicate j X then
      t * (k.factorial / (k + j).factorial * (n * 840) ^ j) * (wordCoef l (w.drop j) * (dec * 840) ^ (w.length - j)) else 0 := by
  induction w with
  | nil =>
    intro vs k t h _
    cases vs with
    | nil => exact h.elim
    | cons v vs =>
      have := h.head
      simp only [runW, List.length_nil, zero_add, range_one, sum_singleton, List.take_nil, List.replicate_zero, if_true, add_zero, pow_zero, mul_one,
        List.drop_nil, Nat.sub_self] at this ⊢
      push_cast
      rw [this, div_self (by positivity)]
      ring
  | cons Y w ih =>
    intro vs k t h hk
    cases vs with
    | nil => exact h.elim
    | cons v vs =>
      rw [List.length_cons] at hk
      have hv := h.head
      rw [List.length_cons, sum_range_succ', runW]
      simp only [List.take_zero, List.replicate_zero, if_true, List.drop_zero, Nat.sub_zero, add_zero, pow_zero, mul_one]
      rw [div_self (by positivity : (k.factorial : ℚ) ≠ 0), mul_one, add_comm]
      push_cast
      rw [hv, List.length_cons]
      congr 1
      by_cases hY : Y = X
      · rw [if_pos hY, ih vs (k + 1) _ h.2 (by omega)]
        refine sum_congr rfl fun j _ => ?_
        simp only [List.take_succ_cons, List.replicate_succ, List.cons.injEq, hY, true_and, List.drop_succ_cons]
        split_ifs
        · push_cast
          rw [div840 (by omega), show k + 1 + j = k + (j + 1) by ring, Nat.factorial_succ, pow_succ]
          push_cast
          have : (k : ℚ) + 1 ≠ 0 := by positivity
          field_simp
        · rfl
      · rw [if_neg hY]
        refine (sum_eq_zero fun j _ => ?_).symm
        simp [List.replicate_succ, hY]

theorem updW_rep (l : List Stage) (s : Stage) (hd : (coef s * dec).den = 1) (w : List Bool) : ∀ vs, Rep l w vs → w.length ≤ 8 →
    Rep (s :: l) w (updW (letter s) (coef s * dec).num w vs) := by
  have hn : (((coef s * dec).num : ℤ) : ℚ) = coef s * dec := Rat.coe_int_num_of_den_eq_one hd
  have hq : ((dec : ℤ) : ℚ) ≠ 0 := by norm_num [dec]
  induction w with
  | nil =>
    intro vs h _
    cases vs with
    | nil => exact h.elim
    | cons v vs => exact ⟨by rw [h.1]; simp [wordCoef], h.2⟩
  | cons Y w ih =>
    intro vs h hw
    cases vs with
    | nil => exact h.elim
    | cons v vs =>
      refine ⟨?_, ih vs h.2 (by simp only [List.length_cons] at hw; omega)⟩
      rw [runW_eq l _ _ _ _ 0 1 h (by simpa using hw), wordCoef, sum_mul]
      refine sum_congr rfl fun j hj => ?_
      split_ifs
      · have hj' : j ≤ w.length + 1 := by simpa [Nat.lt_succ_iff] using hj
        rw [hn, List.length_cons, Nat.zero_add]
        have e : ((dec : ℤ) * 840 : ℚ) ^ (w.length + 1) = (dec * 840) ^ j * (dec * 840) ^ (w.length + 1 - j) := by rw [← pow_add]; congr 1; omega
        rw [e]
        push_cast
        rw [Nat.factorial_zero, mul_assoc (coef s), mul_pow (coef s)]
        push_cast
        ring
      · rw [zero_mul]

theorem startW_rep (w : List Bool) : Rep [] w (startW w) := by
  induction w with
  | nil => simp [startW, Rep, wordCoef]
  | cons Y w ih => exact ⟨by simp [wordCoef], ih⟩

theorem tabW_rep (l : List Stage) (hd : ∀ s ∈ l, (coef s * dec).den = 1) {w : List Bool} (hw : w.length ≤ 8) : Rep l w (tabW (l.map scaled) w) := by
  induction l with
  | nil => exact startW_rep w
  | cons s l ih => exact updW_rep l s (hd s List.mem_cons_self) w _ (ih fun s hs => hd s (List.mem_cons_of_mem _ hs)) hw

theorem Rep.length {l : List Stage} {w : List Bool} : ∀ {vs : List ℤ}, Rep l w vs → vs.length = w.length + 1 := by
  induction w with
  | nil =>
    intro vs h
    cases vs with
    | nil => exact h.elim
    | cons v vs => simp [h.2]
  | cons Y w ih =>
    intro vs h
    cases vs with
    | nil => exact h.elim
    | cons v vs => simp [ih h.2]

theorem closeW_spec {e : ℤ} (he : 0 < e) {m : ℕ} {v : ℤ} (h : closeW e m v = true) : |(v : ℚ) / (dec * 840) ^ m - 1 / m.factorial| ≤ 1 / e := by
  have h1 : |(m.factorial : ℤ) * v - (dec * 840) ^ m| * e ≤ m.factorial * (dec * 840) ^ m := of_decide_eq_true h
  have h2 : |(m.factorial : ℚ) * v - (dec * 840) ^ m| * e ≤ m.factorial * (dec * 840) ^ m := by exact_mod_cast h1
  have hq : (0 : ℚ) < (dec * 840) ^ m := by simp only [dec]; positivity
  have hf : (0 : ℚ) < m.factorial := by exact_mod_cast m.factorial_pos
  have he' : (0 : ℚ) < e := by exact_mod_cast he
  have e1 : (v : ℚ) / (dec * 840) ^ m - 1 / m.factorial = (m.factorial * v - (dec * 840) ^ m) / (m.factorial * (dec * 840) ^ m) := by
    rw [div_sub_div _ _ hq.ne' hf.ne']; congr 1 <;> ring
  rw [e1, abs_div, abs_of_pos (mul_pos hf hq), div_le_div_iff₀ (mul_pos hf hq) he']
  linarith

theorem closeAll_suffix {e : ℤ} (he : 0 < e) (l : List Stage) (w : List Bool) : ∀ vs, Rep l w vs → closeAll e vs = true →
    ∀ k, |deviation l (w.drop k)| ≤ 1 / e := by
  have hq : ((dec : ℤ) : ℚ) ≠ 0 := by norm_num [dec]
  have head : ∀ (w : List Bool) v vs, Rep l w (v :: vs) → closeAll e (v :: vs) = true → |deviation l w| ≤ 1 / e := by
    intro w v vs h hc
    have h1 := closeW_spec he (Bool.and_eq_true _ _ ▸ hc : _ ∧ _).1
    have hl : vs.length = w.length := by simpa using h.length
    rw [hl, h.head, mul_div_cancel_right₀ _ (by positivity)] at h1
    exact h1
  induction w with
  | nil =>
    intro vs h hc k
    cases vs with
    | nil => exact h.elim
    | cons v vs => rw [List.drop_nil]; exact head _ v vs h hc
  | cons Y w ih =>
    intro vs h hc k
    cases vs with
    | nil => exact h.elim
    | cons v vs =>
      cases k with
      | zero => exact head _ v vs h hc
      | succ k => exact ih vs h.2 (Bool.and_eq_true _ _ ▸ hc : _ ∧ _).2 k

theorem mem_allW (w : List Bool) : w ∈ allW w.length := by
  induction w with
  | nil => simp [allW]
  | cons Y w ih => cases Y <;> simp [allW, ih]

theorem checkOrder_spec {e : ℤ} (he : 0 < e) {p : ℕ} (hp : p ≤ 8) {l : List Stage} (h : checkOrder e p l = true) {w : List Bool} (hw : w.length ≤ p) :
    |deviation l w| ≤ 1 / e := by
  obtain ⟨h1, h2⟩ := (Bool.and_eq_true _ _ ▸ h : _ ∧ _)
  have hd : ∀ s ∈ l, (coef s * dec).den = 1 := fun s hs => of_decide_eq_true (List.all_eq_true.1 h1 s hs)
  set u := List.replicate (p - w.length) true ++ w with hu
  have hul : u.length = p := by rw [hu, List.length_append, List.length_replicate]; omega
  have hm : u ∈ allW p := by rw [← hul]; exact mem_allW u
  have := closeAll_suffix he l u _ (tabW_rep l hd (by omega)) (List.all_eq_true.1 h2 u hm) (p - w.length)
  rwa [hu, List.drop_left' (by simp)] at this

/-! ### the integrators -/

theorem order_2nd : checkOrder (10 ^ 40) 2 symplectic2nd = true := by decide +kernel
theorem order_kdk : checkOrder (10 ^ 40) 2 leapFrogKDK = true := by decide +kernel
theorem order_4th : checkOrder 100000000000000 4 symplectic4th = true := by decide +kernel
theorem order_6th : checkOrder 100000000000000 6 symplectic6th = true := by decide +kernel
theorem order_8th : checkOrder 1000000000000 8 symplectic8th = true := by decide +kernel
theorem order_10th : checkOrder 1000000000000000 4 symplectic10th = true := by decide +kernel

end SpaceHub.Converge
