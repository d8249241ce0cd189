import Verif.Proof.LetterTable
import Verif.Proof.LetterAlgebra
import Verif.Spec.Forced
import Verif.Spec.Order

/-
The order conditions of the integrators for the three moves.
-/

set_option autoImplicit false

namespace SpaceHub.Letters
open SpaceHub Integrator Spec Finset

def moves : List Move := [.drift, .real, .pseudo]

theorem moves_all (X : Move) : X ∈ moves := by cases X <;> decide

theorem moves_2nd : checkLetters moves moves (10 ^ 40) 1 .drift (symplectic2nd.flatMap split) = true := by decide +kernel
theorem moves_kdk : checkLetters moves moves (10 ^ 40) 1 .drift (leapFrogKDK.flatMap split) = true := by decide +kernel
theorem moves_4th : checkLetters moves moves 100000000000000 3 .drift (symplectic4th.flatMap split) = true := by decide +kernel
theorem moves_6th : checkLetters moves moves 10000000000000 5 .drift (symplectic6th.flatMap split) = true := by decide +kernel
theorem moves_8th_drift : checkLetters moves [.drift] 1000000000000 7 .drift (symplectic8th.flatMap split) = true := by decide +kernel
theorem moves_8th_real : checkLetters moves [.real] 1000000000000 7 .drift (symplectic8th.flatMap split) = true := by decide +kernel
theorem moves_8th_pseudo : checkLetters moves [.pseudo] 1000000000000 7 .drift (symplectic8th.flatMap split) = true := by decide +kernel
theorem moves_10th : checkLetters moves moves 1000000000000 3 .drift (symplectic10th.flatMap split) = true := by decide +kernel

/-- words that end with one of `ends`, or are empty -/
theorem check_words {ends : List Move} {e : ℤ} (he : 0 < e) {p : ℕ} (hp : p < 8) {X : Move} {l : List (Move × ℚ)} (h : checkLetters moves ends e p X l = true)
    {w : List Move} (hw : w.length ≤ p + 1) (hY : ∀ Y, w.getLast? = some Y → Y ∈ ends) : |deviation l w| ≤ 1 / e := by
  rcases List.eq_nil_or_concat w with rfl | ⟨u, Y, rfl⟩
  · have he' : (0 : ℚ) < e := by exact_mod_cast he
    rw [deviation, wordCoef_nil]
    simp
    positivity
  · rw [List.concat_eq_append] at *
    exact checkLetters_spec moves_all he hp h (by simpa using hw) (hY Y (by simp))

theorem check_all {e : ℤ} (he : 0 < e) {p : ℕ} (hp : p < 8) {X : Move} {l : List (Move × ℚ)} (h : checkLetters moves moves e p X l = true)
    {w : List Move} (hw : w.length ≤ p + 1) : |deviation l w| ≤ 1 / e := check_words he hp h hw fun Y _ => moves_all Y

theorem moves_8th {w : List Move} (hw : w.length ≤ 8) : |deviation (symplectic8th.flatMap split) w| ≤ 1 / (1000000000000 : ℤ) := by
  rcases h : w.getLast? with _ | Y
  · exact check_words (by norm_num) (by norm_num) moves_8th_drift hw (fun Y hY => by rw [h] at hY; cases hY)
  · cases Y
    · exact check_words (by norm_num) (by norm_num) moves_8th_drift hw (fun Y hY => by rw [h] at hY; cases hY; decide)
    · exact check_words (by norm_num) (by norm_num) moves_8th_real hw (fun Y hY => by rw [h] at hY; cases hY; decide)
    · exact check_words (by norm_num) (by norm_num) moves_8th_pseudo hw (fun Y hY => by rw [h] at hY; cases hY; decide)

/-! ### the conditions for forces that do not depend on the velocities -/

/-- the move of a letter -/
def moveOf : Bool → Move
  | true => .drift
  | false => .real

theorem moveOf_inj {X Y : Bool} : moveOf X = moveOf Y ↔ X = Y := by cases X <;> cases Y <;> decide

theorem plain_words (stages : List Stage) : ∀ w : List Bool, wordCoef (stages.map fun s => (moveOf (letter s), coef s)) (w.map moveOf) = Spec.wordCoef stages w := by
  induction stages with
  | nil => intro w; simp [wordCoef, Spec.wordCoef]
  | cons s l ih =>
    intro w
    rw [List.map_cons, wordCoef, Spec.wordCoef, List.length_map]
    refine sum_congr rfl fun k _ => ?_
    have : ((w.map moveOf).take k = List.replicate k (moveOf (letter s))) ↔ (w.take k = List.replicate k (letter s)) := by
      rw [← List.map_take, ← List.map_replicate]
      exact ⟨fun h => List.map_injective_iff.2 (fun X Y h => moveOf_inj.1 h) h, fun h => by rw [h]⟩
    simp only [this, ← List.map_drop, ih]

theorem ex_absent (w : List Move) (X : Move) (h : X ∉ w) (c : ℚ) : ex w X c = 1 := by
  have : eat w X = 0 := by
    ext G i
    rw [eat_apply, if_neg]
    · rfl
    · intro e; exact h (List.mem_of_getElem? e)
  rw [ex, this, smul_zero, IsNilpotent.exp_zero]

theorem split_words (stages : List Stage) (w : List Bool) : wordCoef (stages.flatMap split) (w.map moveOf) = Spec.wordCoef stages w := by
  rw [← plain_words]
  have hp : Move.pseudo ∉ w.map moveOf := by
    intro h
    obtain ⟨X, _, e⟩ := List.mem_map.1 h
    cases X <;> cases e
  have key : op (w.map moveOf) (stages.flatMap split) = op (w.map moveOf) (stages.map fun s => (moveOf (letter s), coef s)) := by
    induction stages with
    | nil => rfl
    | cons s l ih =>
      rw [List.flatMap_cons, op_append, List.map_cons, op_cons, ih]
      congr 1
      cases s with
      | drift c => simp [split, op, letter, moveOf, coef]
      | kick c =>
        simp only [split, op, List.map_cons, List.map_nil, List.prod_cons, List.prod_nil, letter, moveOf, coef]
        rw [ex_absent _ _ hp, one_mul, mul_one, ← ex_add, add_halves]
  have h1 := op_fin (w.map moveOf) (stages.flatMap split) 0 (Nat.zero_le _)
  have h2 := op_fin (w.map moveOf) (stages.map fun s => (moveOf (letter s), coef s)) 0 (Nat.zero_le _)
  rw [key, h2] at h1
  simpa using h1.symm

theorem split_deviation (stages : List Stage) (w : List Bool) : Spec.deviation stages w = deviation (stages.flatMap split) (w.map moveOf) := by
  rw [Spec.deviation, deviation, split_words, List.length_map]

end SpaceHub.Letters
