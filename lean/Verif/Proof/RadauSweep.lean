import Verif.Proof.Radau

/-
The corrector sweep of the Gauss-Radau integrator, stage by stage.
-/

set_option autoImplicit false

namespace SpaceHub.Radau
open SpaceHub SpaceHub.Sys Finset

variable {S : Type}

/-- everything that happens in the stages `stage, ..., stage + m - 1`: `R` tables before a stage, `s` system before a
stage, `X` system at the node, `D` what the derivative call returns -/
structure Path (T : Tab) (O : RSys S) (H : ℝ) (stage m : Nat) (R : Nat → GR) (s X : Nat → S) (D : Nat → List ℝ × S) : Prop where
  read : ∀ n, stage ≤ n → n < stage + m → O.read (s n) ((R n).stageState T H n) = .ok (X n)
  deriv : ∀ n, stage ≤ n → n < stage + m → O.deriv (X n) = .ok (D n)
  next : ∀ n, stage ≤ n → n < stage + m → R (n + 1) = GR.updateB T { R n with dyh := GR.toArr (D n).1 } n
  back : ∀ n, stage ≤ n → n < stage + m → O.read (D n).2 (R n).input = .ok (s (n + 1))

theorem sweep_path (T : Tab) (O : RSys S) (H : ℝ) (m : Nat) : ∀ (stage : Nat) (r : GR) (x : S) (y : S) (r' : GR),
    sweep T O H m stage r x = .ok (y, r') →
    ∃ R s X D, Path T O H stage m R s X D ∧ R stage = r ∧ s stage = x ∧ R (stage + m) = r' ∧ s (stage + m) = y := by
  induction m with
  | zero =>
    intro stage r x y r' e
    cases e
    exact ⟨fun _ => r, fun _ => x, fun _ => x, fun _ => ([], x), ⟨fun n h1 h2 => absurd h2 (by omega),
      fun n h1 h2 => absurd h2 (by omega), fun n h1 h2 => absurd h2 (by omega), fun n h1 h2 => absurd h2 (by omega)⟩, rfl, rfl, rfl, rfl⟩
  | succ m ih =>
    intro stage r x y r' e
    unfold sweep at e
    obtain ⟨x1, e1, e⟩ := Res.bind_eq_ok.1 e
    obtain ⟨d, e2, e⟩ := Res.bind_eq_ok.1 e
    obtain ⟨x2, e3, e⟩ := Res.bind_eq_ok.1 e
    obtain ⟨R, s, X, D, p, q1, q2, q3, q4⟩ := ih _ _ _ _ _ e
    refine ⟨fun n => if n = stage then r else R n, fun n => if n = stage then x else s n,
      fun n => if n = stage then x1 else X n, fun n => if n = stage then d else D n, ⟨?_, ?_, ?_, ?_⟩, if_pos rfl, if_pos rfl, ?_, ?_⟩
    · intro n h1 h2
      by_cases hn : n = stage
      · subst hn; simp only [if_true]; exact e1
      · simp only [if_neg hn]; exact p.read n (by omega) (by omega)
    · intro n h1 h2
      by_cases hn : n = stage
      · subst hn; simp only [if_true]; exact e2
      · simp only [if_neg hn]; exact p.deriv n (by omega) (by omega)
    · intro n h1 h2
      by_cases hn : n = stage
      · subst hn; simp only [if_true]; rw [if_neg (by omega), q1]
      · simp only [if_neg hn]; rw [if_neg (by omega)]; exact p.next n (by omega) (by omega)
    · intro n h1 h2
      by_cases hn : n = stage
      · subst hn; simp only [if_true]; rw [if_neg (by omega), q2]; exact e3
      · simp only [if_neg hn]; rw [if_neg (by omega)]; exact p.back n (by omega) (by omega)
    · show (if stage + (m + 1) = stage then r else R (stage + (m + 1))) = r'
      rw [if_neg (by omega), show stage + (m + 1) = stage + 1 + m by omega]; exact q3
    · show (if stage + (m + 1) = stage then x else s (stage + (m + 1))) = y
      rw [if_neg (by omega), show stage + (m + 1) = stage + 1 + m by omega]; exact q4

/-- the data that a sweep does not touch -/
theorem Path.fixed {T : Tab} {O : RSys S} {H : ℝ} {R : Nat → GR} {s X : Nat → S} {D : Nat → List ℝ × S} (p : Path T O H 0 7 R s X D) :
    ∀ n, n ≤ 7 → (R n).input = (R 0).input ∧ (R n).dy0 = (R 0).dy0 ∧ (R n).num = (R 0).num ∧ (R n).old = (R 0).old := by
  intro n
  induction n with
  | zero => intro _; exact ⟨rfl, rfl, rfl, rfl⟩
  | succ n ih =>
    intro h
    rw [p.next n (by omega) (by omega)]
    exact ih (by omega)

/-- a stage changes only its own row of `g` -/
theorem Path.g_row {T : Tab} {O : RSys S} {H : ℝ} {R : Nat → GR} {s X : Nat → S} {D : Nat → List ℝ × S} (p : Path T O H 0 7 R s X D)
    (j : Nat) : (∀ n, n ≤ j → n ≤ 7 → (R n).g j = (R 0).g j) ∧ ∀ n, j < n → n ≤ 7 → (R n).g j = (R (j + 1)).g j := by
  constructor
  · intro n
    induction n with
    | zero => intro _ _; rfl
    | succ n ih =>
      intro h1 h2
      rw [p.next n (by omega) (by omega), (updateB_eq T { R n with dyh := GR.toArr (D n).1 } n 0).2.1 j (by omega)]
      exact ih (by omega) (by omega)
  · intro n
    induction n with
    | zero => intro h; omega
    | succ n ih =>
      intro h1 h2
      by_cases hn : n = j
      · rw [hn]
      · rw [p.next n (by omega) (by omega), (updateB_eq T { R n with dyh := GR.toArr (D n).1 } n 0).2.1 j (by omega)]
        exact ih (by omega) (by omega)

theorem Path.consistent {c : Nat → ℝ} {O : RSys S} {H : ℝ} {R : Nat → GR} {s X : Nat → S} {D : Nat → List ℝ × S}
    (p : Path (exact c) O H 0 7 R s X D) (h0 : Consistent c (R 0)) : ∀ n, n ≤ 7 → Consistent c (R n) := by
  intro n
  induction n with
  | zero => intro _; exact h0
  | succ n ih =>
    intro h
    rw [p.next n (by omega) (by omega)]
    have : Consistent c { R n with dyh := GR.toArr (D n).1 } := ih (by omega)
    exact consistent_update this n (by omega)

/-- after the sweep the slope polynomial takes the derivatives found at all nodes -/
theorem Path.interpolates {c : Nat → ℝ} (hc : Distinct c) {O : RSys S} {H : ℝ} {R : Nat → GR} {s X : Nat → S} {D : Nat → List ℝ × S}
    (p : Path (exact c) O H 0 7 R s X D) (h0 : Consistent c (R 0)) (n : Nat) (hn : n < 7) (v : Nat) :
    slope ((R 7).dy0 v) (fun j => (R 7).b j v) (c n) = (D n).1.getD v 0 := by
  have h1 := update_interpolates hc { R n with dyh := GR.toArr (D n).1 } n v hn
  rw [← p.next n (by omega) (by omega)] at h1
  unfold slope
  rw [consistent_newton (p.consistent h0 7 le_rfl)]
  have h2 : ∑ j ∈ range 7, (R 7).g j v * newton c j (c n) = ∑ j ∈ range (n + 1), (R (n + 1)).g j v * newton c j (c n) := by
    rw [range_eq_Ico, ← sum_Ico_consecutive _ (Nat.zero_le (n + 1)) (by omega : n + 1 ≤ 7), range_eq_Ico]
    rw [sum_eq_zero (s := Ico (n + 1) 7) (fun j hj => by rw [newton_node c n j (by have := (mem_Ico.1 hj).1; omega), mul_zero]), add_zero]
    refine sum_congr rfl fun j hj => ?_
    have hj : j < n + 1 := (mem_Ico.1 hj).2
    rw [(p.g_row j).2 7 (by omega) le_rfl, (p.g_row j).2 (n + 1) hj (by omega)]
  rw [h2, h1]
  show (R 7).dy0 v + ((D n).1.getD v 0 - (R n).dy0 v) = _
  rw [(p.fixed 7 le_rfl).2.1, (p.fixed n (by omega)).2.1]
  ring

/-- if no row of `g` changes, no table changes -/
theorem Path.still {T : Tab} {O : RSys S} {H : ℝ} {R : Nat → GR} {s X : Nat → S} {D : Nat → List ℝ × S} (p : Path T O H 0 7 R s X D)
    (v : Nat) (hg : ∀ j, j < 7 → (R 7).g j v = (R 0).g j v) : ∀ n, n ≤ 7 → ∀ j, (R n).b j v = (R 0).b j v := by
  intro n
  induction n with
  | zero => intro _ _; rfl
  | succ n ih =>
    intro h j
    have hu := updateB_eq T { R n with dyh := GR.toArr (D n).1 } n v
    rw [← p.next n (by omega) (by omega)] at hu
    obtain ⟨g1, _, _, b1, b2⟩ := hu
    have hz : newG T { R n with dyh := GR.toArr (D n).1 } n v - (R n).g n v = 0 := by
      rw [← g1, ← (p.g_row n).2 7 (by omega) le_rfl, hg n (by omega), (p.g_row n).1 n le_rfl (by omega), sub_self]
    rcases Nat.lt_or_ge n j with hj | hj
    · rw [b2 j hj]; exact ih (by omega) j
    · rw [b1 j hj]
      show (R n).b j v + (newG T { R n with dyh := GR.toArr (D n).1 } n v - (R n).g n v) * _ = _
      rw [hz, zero_mul, add_zero]; exact ih (by omega) j

end SpaceHub.Radau
