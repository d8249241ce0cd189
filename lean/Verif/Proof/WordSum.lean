import Mathlib.Analysis.Normed.Module.Basic
import Mathlib.Tactic.Linarith
import Mathlib.Tactic.Ring

/-
Sums over all words of at most `n` letters.
-/

set_option autoImplicit false

namespace SpaceHub.Converge
open Finset

section
variable {E : Type*} [AddCommGroup E]

/-- the sum of `G w` over the words `w` of at most `n` letters -/
def sumW : ℕ → (List Bool → E) → E
  | 0, G => G []
  | n + 1, G => G [] + sumW n (fun u => G (true :: u) + G (false :: u))

theorem sumW_congr (n : ℕ) : ∀ {G H : List Bool → E}, (∀ u, u.length ≤ n → G u = H u) → sumW n G = sumW n H := by
  induction n with
  | zero => exact fun h => h [] le_rfl
  | succ n ih =>
    intro G H h
    rw [sumW, sumW, h [] (Nat.zero_le _), ih fun u hu => ?_]
    rw [h (true :: u) (by simpa using hu), h (false :: u) (by simpa using hu)]

theorem sumW_add (n : ℕ) : ∀ G H : List Bool → E, sumW n (fun u => G u + H u) = sumW n G + sumW n H := by
  induction n with
  | zero => exact fun _ _ => rfl
  | succ n ih =>
    intro G H
    rw [sumW, sumW, sumW]
    rw [show (fun u => G (true :: u) + H (true :: u) + (G (false :: u) + H (false :: u))) =
      fun u => (G (true :: u) + G (false :: u)) + (H (true :: u) + H (false :: u)) from funext fun u => by abel, ih]
    abel

theorem sumW_zero (n : ℕ) : sumW n (fun _ => (0 : E)) = 0 := by
  induction n with
  | zero => rfl
  | succ n ih => rw [sumW]; simpa using ih

theorem sumW_map {F : Type*} [AddCommGroup F] (φ : E →+ F) (n : ℕ) : ∀ G : List Bool → E, φ (sumW n G) = sumW n (fun u => φ (G u)) := by
  induction n with
  | zero => exact fun _ => rfl
  | succ n ih => intro G; rw [sumW, sumW, map_add, ih]; simp only [map_add]

theorem sumW_sub (n : ℕ) (G H : List Bool → E) : sumW n (fun u => G u - H u) = sumW n G - sumW n H := by
  rw [eq_sub_iff_add_eq, ← sumW_add]
  simp

theorem sumW_sum {ι : Type*} (s : Finset ι) (n : ℕ) (G : ι → List Bool → E) : sumW n (fun u => ∑ i ∈ s, G i u) = ∑ i ∈ s, sumW n (G i) := by
  classical
  induction s using Finset.induction_on with
  | empty => simpa using sumW_zero n
  | insert i s hi ih => simp only [sum_insert hi]; rw [sumW_add, ih]

/-- the last letter split off -/
theorem sumW_snoc (n : ℕ) : ∀ G : List Bool → E, sumW (n + 1) G = G [] + sumW n (fun u => G (u ++ [true]) + G (u ++ [false])) := by
  induction n with
  | zero => exact fun _ => rfl
  | succ n ih =>
    intro G
    rw [sumW, ih]
    rw [show sumW (n + 1) (fun u => G (u ++ [true]) + G (u ++ [false])) = (G ([] ++ [true]) + G ([] ++ [false])) +
      sumW n (fun u => (G (true :: u ++ [true]) + G (true :: u ++ [false])) + (G (false :: u ++ [true]) + G (false :: u ++ [false]))) from rfl]
    simp only [List.nil_append]
    rw [show (fun u => (G (true :: u ++ [true]) + G (true :: u ++ [false])) + (G (false :: u ++ [true]) + G (false :: u ++ [false]))) =
      fun u => (G (true :: (u ++ [true])) + G (false :: (u ++ [true]))) + (G (true :: (u ++ [false])) + G (false :: (u ++ [false]))) from
      funext fun u => by simp only [List.cons_append]; abel]

/-- the sum over the words of less than `n` letters -/
def sumL : ℕ → (List Bool → E) → E
  | 0, _ => 0
  | n + 1, G => sumW n G

theorem sumL_snoc (n : ℕ) (G : List Bool → E) : sumL (n + 1) G = G [] + sumL n (fun u => G (u ++ [true]) + G (u ++ [false])) := by
  cases n with
  | zero => simp [sumL, sumW]
  | succ n => exact sumW_snoc n G

theorem sumW_trunc (m : ℕ) : ∀ (n : ℕ), m ≤ n → ∀ G : List Bool → E, sumW n (fun u => if u.length ≤ m then G u else 0) = sumW m G := by
  induction m with
  | zero =>
    intro n _ G
    cases n with
    | zero => simp [sumW]
    | succ n => rw [sumW]; simp [sumW, sumW_zero]
  | succ m ih =>
    intro n hn G
    obtain ⟨n, rfl⟩ : ∃ k, n = k + 1 := ⟨n - 1, by omega⟩
    rw [sumW, sumW, ← ih n (by omega)]
    simp only [List.length_nil, Nat.zero_le, if_true, List.length_cons, Nat.add_le_add_iff_right]
    congr 1
    refine sumW_congr n fun u _ => ?_
    split_ifs <;> simp

theorem sumW_exchange (n : ℕ) (H : ℕ → List Bool → E) :
    sumW n (fun u => ∑ k ∈ range (n + 1 - u.length), H k u) = ∑ k ∈ range (n + 1), sumW (n - k) (H k) := by
  rw [show ∑ k ∈ range (n + 1), sumW (n - k) (H k) = ∑ k ∈ range (n + 1), sumW n (fun u => if u.length ≤ n - k then H k u else 0) from
    sum_congr rfl fun k _ => (sumW_trunc (n - k) n (Nat.sub_le _ _) (H k)).symm, ← sumW_sum]
  refine sumW_congr n fun u hu => ?_
  rw [← sum_filter]
  refine sum_congr (Finset.ext fun k => ?_) fun _ _ => rfl
  simp only [mem_range, mem_filter]
  omega

/-- the words that begin with `X` `k` times -/
theorem sumW_prefix (X : Bool) (k : ℕ) : ∀ (n : ℕ) (G : List Bool → E),
    sumW n (fun u => if u.take k = List.replicate k X then G u else 0) = if k ≤ n then sumW (n - k) (fun u => G (List.replicate k X ++ u)) else 0 := by
  induction k with
  | zero => intro n G; simp
  | succ k ih =>
    intro n G
    cases n with
    | zero => simp [sumW, List.replicate_succ]
    | succ n =>
      rw [sumW]
      simp only [List.take_nil, List.replicate_succ, List.take_succ_cons, List.cons.injEq, Nat.add_le_add_iff_right, Nat.add_sub_add_right]
      rw [if_neg (by simp), zero_add]
      have e : (fun u : List Bool => (if true = X ∧ u.take k = List.replicate k X then G (true :: u) else 0) +
          (if false = X ∧ u.take k = List.replicate k X then G (false :: u) else 0)) =
          fun u => if u.take k = List.replicate k X then G (X :: u) else 0 := by
        funext u
        cases X <;> simp
      rw [e, ih n (fun u => G (X :: u))]
      rfl

end

variable {E : Type*} [NormedAddCommGroup E]

theorem sumW_norm (n : ℕ) : ∀ (G : List Bool → E) {B : ℝ}, 0 ≤ B → (∀ u, u.length ≤ n → ‖G u‖ ≤ B) → ‖sumW n G‖ ≤ 4 ^ n * B := by
  induction n with
  | zero => intro G B hB h; have := h [] le_rfl; rw [sumW]; simpa using this
  | succ n ih =>
    intro G B hB h
    rw [sumW]
    have h1 := h [] (Nat.zero_le _)
    have h2 := ih (fun u => G (true :: u)) hB (fun u hu => h _ (by simpa using hu))
    have h3 := ih (fun u => G (false :: u)) hB (fun u hu => h _ (by simpa using hu))
    rw [sumW_add n (fun u => G (true :: u))]
    refine (norm_add_le _ _).trans ((add_le_add h1 ((norm_add_le _ _).trans (add_le_add h2 h3))).trans ?_)
    have h4 : 1 * B ≤ 4 ^ n * B := mul_le_mul_of_nonneg_right (one_le_pow₀ (by norm_num)) hB
    rw [pow_succ]
    linarith

end SpaceHub.Converge
