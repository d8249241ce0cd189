import Verif.Props.RadauEnd

/-
C59: what the step error of IAS15 measures, and over which variables.
-/

set_option autoImplicit false

namespace SpaceHub.Props
open SpaceHub Radau Sys Ctl Fl

/-- The variables that IAS15 leaves out of its step error: the time of a system that is not regularised, and the position,
the velocity and (with velocity dependent forces) the auxiliary velocity of slow particles.  The scalar array is laid out
as time, positions, velocities, auxiliary velocities. -/
theorem C59_ias15_mask (regu velDep : Bool) (n : Nat) (slow : Nat → Bool) (i : Nat) :
    maskOf regu velDep n slow i = true ↔ (regu = false ∧ i = 0) ∨
      ∃ p c, p < n ∧ c < 3 ∧ slow p = true ∧
        (i = 1 + 3 * p + c ∨ i = 1 + 3 * n + 3 * p + c ∨ (velDep = true ∧ i = 1 + 6 * n + 3 * p + c)) := by
  unfold maskOf posOffset velOffset auxOffset
  simp only [Bool.or_eq_true, Bool.and_eq_true, Bool.not_eq_true', beq_iff_eq, List.any_eq_true, List.mem_range, decide_eq_true_eq]
  refine or_congr Iff.rfl ⟨?_, ?_⟩
  · rintro ⟨p, hp, hs, h⟩
    rcases h with (h | h) | h
    · exact ⟨p, i - (1 + 3 * p), hp, by omega, hs, Or.inl (by omega)⟩
    · exact ⟨p, i - (1 + 3 * n + 3 * p), hp, by omega, hs, Or.inr (Or.inl (by omega))⟩
    · exact ⟨p, i - (1 + 6 * n + 3 * p), hp, by omega, hs, Or.inr (Or.inr ⟨h.1.1, by omega⟩)⟩
  · rintro ⟨p, c, hp, hc, hs, h⟩
    refine ⟨p, hp, hs, ?_⟩
    rcases h with h | h | ⟨hv, h⟩
    · left; left; omega
    · left; right; omega
    · right; exact ⟨⟨hv, by omega⟩, by omega⟩

/-- The step error is at most `q` exactly when no last coefficient among the variables looked at exceeds `q` times 5e-10
times the largest derivative among them. -/
theorem C59_ias15 (n : Nat) (mask : Nat → Bool) (dyh b6 : Nat → ℝ) (q : ℝ) (hq : 0 ≤ q)
    (hs : ∃ i, i < n ∧ mask i = false ∧ dyh i ≠ 0) :
    le (stepError n mask (fun i => fin (dyh i)) (fun i => fin (b6 i))) (fin q) = true ↔
      ∀ i, i < n → mask i = false → ∃ j, j < n ∧ mask j = false ∧ |b6 i| ≤ q * (5 / 10 ^ 10 * |dyh j|) := by
  have key : ∀ m : Nat, ∃ a b : ℝ, 0 ≤ a ∧ 0 ≤ b ∧ forLoop 0 m (fun i (m : Fl × Fl) =>
      if mask i then m else (stdMax m.1 (Fl.abs (fin (b6 i))), stdMax m.2 (Fl.abs (fin (dyh i))))) (fin 0, fin 0) = (fin a, fin b) ∧
      (∀ i, i < m → mask i = false → |b6 i| ≤ a ∧ |dyh i| ≤ b) ∧
      (a = 0 ∨ ∃ i, i < m ∧ mask i = false ∧ a = |b6 i|) ∧ (b = 0 ∨ ∃ i, i < m ∧ mask i = false ∧ b = |dyh i|) := by
    intro m
    induction m with
    | zero => exact ⟨0, 0, le_rfl, le_rfl, by rw [forLoop_self _ _ le_rfl], fun i hi => absurd hi (Nat.not_lt_zero _), Or.inl rfl, Or.inl rfl⟩
    | succ m ih =>
      obtain ⟨a, b, ha, hb, e, h1, h2, h3⟩ := ih
      rw [forLoop_succ _ _ (Nat.zero_le _), e]
      by_cases hm : mask m
      · rw [if_pos hm]
        refine ⟨a, b, ha, hb, rfl, fun i hi hmi => h1 i ?_ hmi, ?_, ?_⟩
        · rcases Nat.lt_succ_iff_lt_or_eq.1 hi with h | h
          · exact h
          · rw [h, hm] at hmi; cases hmi
        · exact h2.imp id fun ⟨i, hi, h⟩ => ⟨i, by omega, h⟩
        · exact h3.imp id fun ⟨i, hi, h⟩ => ⟨i, by omega, h⟩
      · rw [if_neg hm]
        have hm' : mask m = false := by simpa using hm
        refine ⟨max a |b6 m|, max b |dyh m|, le_max_of_le_left ha, le_max_of_le_left hb, ?_, ?_, ?_, ?_⟩
        · show (stdMax (fin a) (fin |b6 m|), stdMax (fin b) (fin |dyh m|)) = _
          rw [stdMax_fin, stdMax_fin]
        · intro i hi hmi
          rcases Nat.lt_succ_iff_lt_or_eq.1 hi with h | rfl
          · exact ⟨le_max_of_le_left (h1 i h hmi).1, le_max_of_le_left (h1 i h hmi).2⟩
          · exact ⟨le_max_right _ _, le_max_right _ _⟩
        · rcases le_total a |b6 m| with h | h
          · right; exact ⟨m, by omega, hm', max_eq_right h⟩
          · rw [max_eq_left h]; exact h2.imp id fun ⟨i, hi, h⟩ => ⟨i, by omega, h⟩
        · rcases le_total b |dyh m| with h | h
          · right; exact ⟨m, by omega, hm', max_eq_right h⟩
          · rw [max_eq_left h]; exact h3.imp id fun ⟨i, hi, h⟩ => ⟨i, by omega, h⟩
  obtain ⟨a, b, ha, hb, e, h1, h2, h3⟩ := key n
  obtain ⟨i0, hi0, hm0, hd0⟩ := hs
  have hbpos : 0 < b := lt_of_lt_of_le (abs_pos.2 hd0) (h1 i0 hi0 hm0).2
  have hse : stepError n mask (fun i => fin (dyh i)) (fun i => fin (b6 i)) = fin (a / (b * (5 / 10 ^ 10))) := by
    unfold stepError
    dsimp only
    rw [e]
    show (if decide (b = 0) = true then _ else div (fin a) (mul (fin b) (fin (5 / 10 ^ 10)))) = _
    rw [if_neg (by simpa using hbpos.ne')]
    show div (fin a) (fin (b * (5 / 10 ^ 10))) = _
    rw [div_fin _ _ (mul_ne_zero hbpos.ne' (by norm_num))]
  rw [hse]
  show decide (a / (b * (5 / 10 ^ 10)) ≤ q) = true ↔ _
  rw [decide_eq_true_iff, div_le_iff₀ (by positivity)]
  constructor
  · intro h i hi hmi
    rcases h3 with h3 | ⟨j, hj, hmj, h3⟩
    · exact absurd h3 hbpos.ne'
    · refine ⟨j, hj, hmj, (h1 i hi hmi).1.trans ?_⟩
      rw [← h3]; linarith
  · intro h
    rcases h2 with h2 | ⟨i, hi, hmi, h2⟩
    · rw [h2]; positivity
    · obtain ⟨j, hj, hmj, h4⟩ := h i hi hmi
      rw [h2]
      refine h4.trans (mul_le_mul_of_nonneg_left ?_ hq)
      have := (h1 j hj hmj).2
      nlinarith

/-- The hypothesis is met: two variables, the first left out. -/
example : ∃ i, i < 2 ∧ (fun i : Nat => i == 0) i = false ∧ (fun _ : Nat => (2:ℝ)) i ≠ 0 := ⟨1, by norm_num, rfl, by norm_num⟩

end SpaceHub.Props
