import Mathlib.Analysis.Normed.Module.Basic
import Mathlib.Tactic.Linarith
import Mathlib.Tactic.Ring

/-
Sums over all words of at most `n` letters.
-/

set_option autoImplicit false

namespace SpaceHub.Letters
open Finset

section
variable {ι : Type*} [Fintype ι] {E : Type*} [AddCommGroup E]

/-- the sum of `G w` over the words `w` of at most `n` letters -/
def sumW : ℕ → (List ι → E) → E
  | 0, G => G []
  | n + 1, G => G [] + sumW n (fun u => ∑ X, G (X :: u))

theorem sumW_congr (n : ℕ) : ∀ {G H : List ι → E}, (∀ u, u.length ≤ n → G u = H u) → sumW n G = sumW n H := by
  induction n with
  | zero => exact fun h => h [] le_rfl
  | succ n ih =>
    intro G H h
    rw [sumW, sumW, h [] (Nat.zero_le _), ih fun u hu => ?_]
    exact sum_congr rfl fun X _ => h (X :: u) (by simpa using hu)

theorem sumW_add (n : ℕ) : ∀ G H : List ι → E, sumW n (fun u => G u + H u) = sumW n G + sumW n H := by
  induction n with
  | zero => exact fun _ _ => rfl
  | succ n ih =>
    intro G H
    rw [sumW, sumW, sumW]
    simp only [sum_add_distrib]
    rw [ih]
    abel

theorem sumW_zero (n : ℕ) : sumW n (fun _ : List ι => (0 : E)) = 0 := by
  induction n with
  | zero => rfl
  | succ n ih => rw [sumW]; simpa using ih

theorem sumW_map {F : Type*} [AddCommGroup F] (φ : E →+ F) (n : ℕ) : ∀ G : List ι → E, φ (sumW n G) = sumW n (fun u => φ (G u)) := by
  induction n with
  | zero => exact fun _ => rfl
  | succ n ih => intro G; rw [sumW, sumW, map_add, ih]; simp only [map_sum]

theorem sumW_sub (n : ℕ) (G H : List ι → E) : sumW n (fun u => G u - H u) = sumW n G - sumW n H := by
  rw [eq_sub_iff_add_eq, ← sumW_add]
  simp

theorem sumW_sum {κ : Type*} (s : Finset κ) (n : ℕ) (G : κ → List ι → E) : sumW n (fun u => ∑ i ∈ s, G i u) = ∑ i ∈ s, sumW n (G i) := by
  classical
  induction s using Finset.induction_on with
  | empty => simpa using sumW_zero n
  | insert i s hi ih => simp only [sum_insert hi]; rw [sumW_add, ih]

/-- the last letter split off -/
theorem sumW_snoc (n : ℕ) : ∀ G : List ι → E, sumW (n + 1) G = G [] + sumW n (fun u => ∑ X, G (u ++ [X])) := by
  induction n with
  | zero => exact fun _ => rfl
  | succ n ih =>
    intro G
    rw [sumW, ih, sumW]
    simp only [List.nil_append]
    congr 1
    congr 1
    refine sumW_congr n fun u _ => ?_
    simp only [List.cons_append]
    exact sum_comm

/-- the sum over the words of less than `n` letters -/
def sumL : ℕ → (List ι → E) → E
  | 0, _ => 0
  | n + 1, G => sumW n G

theorem sumL_snoc (n : ℕ) (G : List ι → E) : sumL (n + 1) G = G [] + sumL n (fun u => ∑ X, G (u ++ [X])) := by
  cases n with
  | zero => simp [sumL, sumW]
  | succ n => exact sumW_snoc n G

theorem sumW_trunc (m : ℕ) : ∀ (n : ℕ), m ≤ n → ∀ G : List ι → E, sumW n (fun u => if u.length ≤ m then G u else 0) = sumW m G := by
  induction m with
  | zero =>
    intro n _ G
    cases n with
    | zero => simp [sumW]
    | succ n => rw [sumW]; simp [sumW, sumW_zero]
  | succ m ih =>
    intro n hn G
    obtain ⟨n, rfl⟩ : ∃ k, n = k + 1 := ⟨n - 1, by omega⟩
    rw [sumW, sumW, ← ih n (by omega)]
    simp only [List.length_nil, Nat.zero_le, if_true, List.length_cons, Nat.add_le_add_iff_right]
    congr 1
    refine sumW_congr n fun u _ => ?_
    split_ifs <;> simp

theorem sumW_exchange (n : ℕ) (H : ℕ → List ι → E) :
    sumW n (fun u => ∑ k ∈ range (n + 1 - u.length), H k u) = ∑ k ∈ range (n + 1), sumW (n - k) (H k) := by
  rw [show ∑ k ∈ range (n + 1), sumW (n - k) (H k) = ∑ k ∈ range (n + 1), sumW n (fun u => if u.length ≤ n - k then H k u else 0) from
    sum_congr rfl fun k _ => (sumW_trunc (n - k) n (Nat.sub_le _ _) (H k)).symm, ← sumW_sum]
  refine sumW_congr n fun u hu => ?_
  rw [← sum_filter]
  refine sum_congr (Finset.ext fun k => ?_) fun _ _ => rfl
  simp only [mem_range, mem_filter]
  omega

/-- the words that begin with `X` `k` times -/
theorem sumW_prefix [DecidableEq ι] (X : ι) (k : ℕ) : ∀ (n : ℕ) (G : List ι → E),
    sumW n (fun u => if u.take k = List.replicate k X then G u else 0) = if k ≤ n then sumW (n - k) (fun u => G (List.replicate k X ++ u)) else 0 := by
  induction k with
  | zero => intro n G; simp
  | succ k ih =>
    intro n G
    cases n with
    | zero => simp [sumW, List.replicate_succ]
    | succ n =>
      rw [sumW]
      simp only [List.take_nil, List.replicate_succ, List.take_succ_cons, List.cons.injEq, Nat.add_le_add_iff_right, Nat.add_sub_add_right]
      rw [if_neg (by simp), zero_add]
      have e : (fun u : List ι => ∑ Y, if Y = X ∧ u.take k = List.replicate k X then G (Y :: u) else 0) =
          fun u => if u.take k = List.replicate k X then G (X :: u) else 0 := by
        funext u
        simp only [ite_and, Finset.sum_ite_eq', Finset.mem_univ, if_true]
      rw [e, ih n (fun u => G (X :: u))]
      rfl

end

variable {ι : Type*} [Fintype ι] {E : Type*} [NormedAddCommGroup E]

/-- the number of letters, and one -/
def lett (ι : Type*) [Fintype ι] : ℝ := Fintype.card ι + 1

theorem lett_one : 1 ≤ lett ι := by unfold lett; have : (0:ℝ) ≤ Fintype.card ι := Nat.cast_nonneg _; linarith

theorem sumW_norm (n : ℕ) : ∀ (G : List ι → E) {B : ℝ}, 0 ≤ B → (∀ u, u.length ≤ n → ‖G u‖ ≤ B) → ‖sumW n G‖ ≤ lett ι ^ n * B := by
  induction n with
  | zero => intro G B hB h; have := h [] le_rfl; rw [sumW]; simpa using this
  | succ n ih =>
    intro G B hB h
    rw [sumW]
    have h1 := h [] (Nat.zero_le _)
    have h2 : ∀ X ∈ (Finset.univ : Finset ι), ‖sumW n (fun u => G (X :: u))‖ ≤ lett ι ^ n * B := fun X _ =>
      ih (fun u => G (X :: u)) hB (fun u hu => h _ (by simpa using hu))
    rw [sumW_sum]
    have h3 := norm_sum_le_of_le _ h2
    rw [Finset.sum_const, Finset.card_univ, nsmul_eq_mul] at h3
    have h4 : 1 * B ≤ lett ι ^ n * B := mul_le_mul_of_nonneg_right (one_le_pow₀ lett_one) hB
    refine (norm_add_le _ _).trans ((add_le_add h1 h3).trans ?_)
    rw [pow_succ]
    unfold lett at *
    linarith

end SpaceHub.Letters
