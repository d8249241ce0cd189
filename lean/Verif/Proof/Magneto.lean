import Verif.Model.Magneto
import Verif.Spec.Profile
import Verif.Proof.SysBase
import Mathlib.Tactic.Linarith
import Mathlib.Tactic.FieldSimp
import Mathlib.Tactic.Ring
import Mathlib.Tactic.NormNum

/-
Helper lemmas about table lookups.
-/

set_option autoImplicit false

namespace SpaceHub.Magneto
open SpaceHub Orbit Profile

/-- The `i`-th entry. -/
def at' (t : List ℚ) (i : Nat) : ℚ := t.getD i 0

/-- The slope of cell `i`. -/
def slope (xs ys : List ℚ) (i : Nat) : ℚ := (at' ys (i + 1) - at' ys i) / (at' xs (i + 1) - at' xs i)

/-- What is checked of a table: increasing, nearly uniform, and the kinks are small where the grid is not uniform. -/
structure TableOk (xs ys : List ℚ) (B : ℚ) : Prop where
  len : ys.length = xs.length
  three : 3 ≤ xs.length
  inc : ∀ i < xs.length - 1, at' xs i < at' xs (i + 1)
  hi : ∀ i < xs.length - 1, at' xs (i + 1) ≤ at' xs 0 + (i + 2 : ℚ) * (at' xs 1 - at' xs 0)
  lo : ∀ i < xs.length - 1, at' xs 0 + (i - 1 : ℚ) * (at' xs 1 - at' xs 0) ≤ at' xs i
  kink : ∀ j < xs.length - 2, |at' xs (j + 1) - (at' xs 0 + (j + 1 : ℚ) * (at' xs 1 - at' xs 0))| * |slope xs ys (j + 1) - slope xs ys j| ≤ B

theorem read_ok {t : List ℚ} {i : Nat} (h : i < t.length) : read t i = .ok (at' t i : ℝ) := by
  simp [read, at', List.getElem?_eq_getElem h, List.getD_eq_getElem?_getD]

theorem read_ub {t : List ℚ} {i : Nat} (h : t.length ≤ i) : read t i = .ub := by
  simp [read, List.getElem?_eq_none h]

theorem getElem?_at {t : List ℚ} {i : Nat} (h : i < t.length) : t[i]? = some (at' t i) := by
  simp [at', List.getElem?_eq_getElem h, List.getD_eq_getElem?_getD]

/-- The cell that holds `x`. -/
theorem exists_cell (X : Nat → ℝ) (n : Nat) (x : ℝ) (h0 : X 0 ≤ x) (h1 : x < X n) : ∃ i < n, X i ≤ x ∧ x < X (i + 1) := by
  induction n with
  | zero => exact absurd h1 (not_lt.mpr h0)
  | succ n ih =>
    by_cases h : x < X n
    · obtain ⟨i, hi, h2⟩ := ih h
      exact ⟨i, by omega, h2⟩
    · exact ⟨n, by omega, not_lt.mp h, h1⟩

/-- The value of cell `i` at `x`. -/
noncomputable def cellValue (xs ys : List ℚ) (i : Nat) (x : ℝ) : ℝ := at' ys i + (x - at' xs i) * (slope xs ys i : ℝ)

variable {xs ys : List ℚ} {B : ℚ}

theorem interpolate_cell (T : TableOk xs ys B) (x : ℝ) (k : Nat) (hk : ⌊(x - at' xs 0) / (at' xs 1 - at' xs 0 : ℝ)⌋₊ = k) :
    (k + 1 < xs.length → interpolate x xs ys = .ok (cellValue xs ys k x)) ∧ (xs.length ≤ k + 1 → interpolate x xs ys = .ub) := by
  have h2 := T.three
  have h01 : (at' xs 1 - at' xs 0 : ℝ) ≠ 0 := by
    have := T.inc 0 (by omega)
    have : (at' xs 0 : ℝ) < at' xs 1 := by exact_mod_cast this
    intro h; linarith
  constructor
  · intro h
    have hx : (at' xs (k + 1) - at' xs k : ℝ) ≠ 0 := by
      have := T.inc k (by omega)
      have : (at' xs k : ℝ) < at' xs (k + 1) := by exact_mod_cast this
      intro h; linarith
    have hl := T.len
    simp only [interpolate, read_ok (show 0 < xs.length by omega), read_ok (show 1 < xs.length by omega), fdiv, if_neg h01, Sys.Res.ok_bind, hk,
      read_ok (show k < xs.length by omega), read_ok h, read_ok (show k < ys.length by omega), read_ok (show k + 1 < ys.length by omega), if_neg hx,
      cellValue, slope]
    push_cast
    congr 2
    rw [mul_div_assoc]
  · intro h
    simp only [interpolate, read_ok (show 0 < xs.length by omega), read_ok (show 1 < xs.length by omega), fdiv, if_neg h01, Sys.Res.ok_bind, hk,
      read_ub h]
    by_cases h' : k < xs.length
    · simp only [read_ok h', Sys.Res.ok_bind]; rfl
    · rw [read_ub (by omega)]; rfl

/-- The program's cell is the right one or a neighbour of it, and then the value is close. -/
theorem cell_close (T : TableOk xs ys B) (x : ℝ) (i : Nat) (hi : i < xs.length - 1) (h0 : (at' xs i : ℝ) ≤ x) (h1 : x < at' xs (i + 1))
    (k : Nat) (hk : ⌊(x - at' xs 0) / (at' xs 1 - at' xs 0 : ℝ)⌋₊ = k) :
    (k = i ∨ k + 1 = i ∨ k = i + 1) ∧ (k + 1 < xs.length → |cellValue xs ys k x - cellValue xs ys i x| ≤ B) := by
  have hd : (0:ℝ) < at' xs 1 - at' xs 0 := by
    have := T.inc 0 (by omega)
    have : (at' xs 0 : ℝ) < at' xs 1 := by exact_mod_cast this
    linarith
  have hmono : ∀ m ≤ i, (at' xs 0 : ℝ) ≤ at' xs m := by
    intro m hm
    induction m with
    | zero => exact le_rfl
    | succ m ih =>
      have := T.inc m (by omega)
      have : (at' xs m : ℝ) < at' xs (m + 1) := by exact_mod_cast this
      linarith [ih (by omega)]
  have hx0 : (at' xs 0 : ℝ) ≤ x := le_trans (hmono i le_rfl) h0
  have hq : 0 ≤ (x - at' xs 0) / (at' xs 1 - at' xs 0 : ℝ) := div_nonneg (by linarith) hd.le
  obtain ⟨hk0, hk1⟩ := (Nat.floor_eq_iff hq).mp hk
  rw [le_div_iff₀ hd] at hk0
  rw [div_lt_iff₀ hd] at hk1
  have hhi : (at' xs (i + 1) : ℝ) ≤ at' xs 0 + (i + 2) * (at' xs 1 - at' xs 0) := by exact_mod_cast T.hi i hi
  have hlo : (at' xs 0 : ℝ) + (i - 1) * (at' xs 1 - at' xs 0) ≤ at' xs i := by exact_mod_cast T.lo i hi
  have a1 : k < i + 2 := by
    by_contra h
    have : ((i + 2 : ℕ) : ℝ) ≤ k := by exact_mod_cast not_lt.mp h
    push_cast at this
    nlinarith [mul_le_mul_of_nonneg_right this hd.le]
  have a2 : i < k + 2 := by
    by_contra h
    have : ((k + 2 : ℕ) : ℝ) ≤ i := by exact_mod_cast not_lt.mp h
    push_cast at this
    have h5 := mul_le_mul_of_nonneg_right (show (k:ℝ) + 1 ≤ i - 1 by linarith) hd.le
    nlinarith
  refine ⟨by omega, fun hkn => ?_⟩
  have join : ∀ m, m + 1 < xs.length → ∀ y : ℝ, cellValue xs ys m y = at' ys (m + 1) + (y - at' xs (m + 1)) * slope xs ys m := by
    intro m hm y
    have hx : (at' xs (m + 1) - at' xs m : ℝ) ≠ 0 := by
      have := T.inc m (by omega)
      have : (at' xs m : ℝ) < at' xs (m + 1) := by exact_mod_cast this
      intro h; linarith
    simp only [cellValue, slope]
    push_cast
    field_simp
    ring
  have hB : (0:ℝ) ≤ B := by
    have h3 := T.three
    have := le_trans (mul_nonneg (abs_nonneg _) (abs_nonneg _)) (T.kink 0 (by omega))
    exact_mod_cast this
  rcases (show k = i ∨ k + 1 = i ∨ k = i + 1 by omega) with h | h | h
  · subst h
    rw [sub_self, abs_zero]
    exact hB
  · subst h
    have hkk : |(at' xs (k + 1) : ℝ) - (at' xs 0 + (k + 1) * (at' xs 1 - at' xs 0))| * |(slope xs ys (k + 1) : ℝ) - slope xs ys k| ≤ B := by
      exact_mod_cast T.kink k (by omega)
    rw [join k (by omega), cellValue, show ((at' ys (k + 1) : ℝ) + (x - at' xs (k + 1)) * slope xs ys k) - (at' ys (k + 1) + (x - at' xs (k + 1)) * slope xs ys (k + 1))
      = -((x - at' xs (k + 1)) * (slope xs ys (k + 1) - slope xs ys k)) by ring, abs_neg, abs_mul]
    refine le_trans (mul_le_mul_of_nonneg_right ?_ (abs_nonneg _)) hkk
    rw [abs_of_nonneg (by linarith)]
    refine le_trans ?_ (neg_le_abs _)
    linarith
  · subst h
    have hkk : |(at' xs (i + 1) : ℝ) - (at' xs 0 + (i + 1) * (at' xs 1 - at' xs 0))| * |(slope xs ys (i + 1) : ℝ) - slope xs ys i| ≤ B := by
      exact_mod_cast T.kink i (by omega)
    rw [join i (by omega), cellValue, show ((at' ys (i + 1) : ℝ) + (x - at' xs (i + 1)) * slope xs ys (i + 1)) - (at' ys (i + 1) + (x - at' xs (i + 1)) * slope xs ys i)
      = (x - at' xs (i + 1)) * (slope xs ys (i + 1) - slope xs ys i) by ring, abs_mul]
    refine le_trans (mul_le_mul_of_nonneg_right ?_ (abs_nonneg _)) hkk
    rw [abs_of_nonpos (by linarith)]
    push_cast at hk0
    refine le_trans ?_ (le_abs_self _)
    linarith

theorem rho_table : TableOk lgR lgRho 0.01424 where
  len := by decide +kernel
  three := by decide +kernel
  inc := by decide +kernel
  hi := by decide +kernel
  lo := by decide +kernel
  kink := by decide +kernel

theorem H_table : TableOk lgR lgH 0.000912 where
  len := by decide +kernel
  three := by decide +kernel
  inc := by decide +kernel
  hi := by decide +kernel
  lo := by decide +kernel
  kink := by decide +kernel

theorem vel_table : TableOk lgR vel 13179 where
  len := by decide +kernel
  three := by decide +kernel
  inc := by decide +kernel
  hi := by decide +kernel
  lo := by decide +kernel
  kink := by decide +kernel

theorem drag_table : TableOk gdfLgM gdfI 1e-14 where
  len := by decide +kernel
  three := by decide +kernel
  inc := by decide +kernel
  hi := by decide +kernel
  lo := by decide +kernel
  kink := by decide +kernel

theorem at_lt (T : TableOk xs ys B) : ∀ (j i : Nat), i < j → j < xs.length → (at' xs i : ℝ) < at' xs j := by
  intro j
  induction j with
  | zero => intro i h; omega
  | succ j ih =>
    intro i h hj
    have h1 : (at' xs j : ℝ) < at' xs (j + 1) := by exact_mod_cast T.inc j (by omega)
    rcases Nat.lt_succ_iff_lt_or_eq.mp h with h2 | h2
    · exact lt_trans (ih i h2 (by omega)) h1
    · subst h2; exact h1

/-- The value of the cell that holds `x` lies on the segment. -/
theorem onSegment (T : TableOk xs ys B) (x : ℝ) (i : Nat) (hi : i + 1 < xs.length) (h0 : (at' xs i : ℝ) ≤ x) (h1 : x ≤ at' xs (i + 1)) :
    OnSegment xs ys x (cellValue xs ys i x) := by
  have hl := T.len
  refine ⟨i, at' xs i, at' xs (i + 1), at' ys i, at' ys (i + 1), getElem?_at (by omega), getElem?_at hi, getElem?_at (by omega), getElem?_at (by omega), h0, h1, ?_⟩
  have hx : (at' xs (i + 1) - at' xs i : ℝ) ≠ 0 := by
    have := at_lt T (i + 1) i (by omega) hi
    intro h; linarith
  simp only [cellValue, slope]
  push_cast
  field_simp
  ring

/-- A table whose last entry is not beyond the uniform grid: the lookup stays inside and is close to the interpolation. -/
theorem interpolate_ok (T : TableOk xs ys B)
    (hlast : at' xs (xs.length - 1) ≤ at' xs 0 + ((xs.length - 1 : ℕ) : ℚ) * (at' xs 1 - at' xs 0)) (x : ℝ)
    (h0 : (at' xs 0 : ℝ) ≤ x) (h1 : x < at' xs (xs.length - 1)) :
    ∃ y y', interpolate x xs ys = .ok y ∧ OnSegment xs ys x y' ∧ |y - y'| ≤ B := by
  have h3 := T.three
  obtain ⟨i, hi, h2, h4⟩ := exists_cell (fun i => (at' xs i : ℝ)) (xs.length - 1) x h0 h1
  have hd : (0:ℝ) < at' xs 1 - at' xs 0 := by
    have := at_lt T 1 0 (by omega) (by omega)
    linarith
  have hc := cell_close T x i hi h2 h4 _ rfl
  have hk : ⌊(x - at' xs 0) / (at' xs 1 - at' xs 0 : ℝ)⌋₊ < xs.length - 1 := by
    rw [Nat.floor_lt (div_nonneg (by linarith) hd.le), div_lt_iff₀ hd]
    have : (at' xs (xs.length - 1) : ℝ) ≤ at' xs 0 + ((xs.length - 1 : ℕ) : ℝ) * (at' xs 1 - at' xs 0) := by exact_mod_cast hlast
    linarith
  exact ⟨_, cellValue xs ys i x, (interpolate_cell T x _ rfl).1 (by omega), onSegment T x i (by omega) h2 h4.le, hc.2 (by omega)⟩

theorem head?_at {t : List ℚ} (h : 0 < t.length) : t.head? = some (at' t 0) := by
  rw [List.head?_eq_getElem?, getElem?_at h]

theorem getLast?_at {t : List ℚ} (h : 0 < t.length) : t.getLast? = some (at' t (t.length - 1)) := by
  rw [List.getLast?_eq_getElem?, getElem?_at (by omega)]

theorem lookup_ok (T : TableOk xs ys B)
    (hlast : at' xs (xs.length - 1) ≤ at' xs 0 + ((xs.length - 1 : ℕ) : ℚ) * (at' xs 1 - at' xs 0)) (R : ℝ) :
    ∃ y, lookup xs ys R = .ok y ∧ (R ≠ 0 → ∃ y', ValueAt xs ys R y' ∧ |y - y'| ≤ B) := by
  have h3 := T.three
  have hl := T.len
  have hB : (0:ℝ) ≤ B := by
    have := le_trans (mul_nonneg (abs_nonneg _) (abs_nonneg _)) (T.kink 0 (by omega))
    exact_mod_cast this
  simp only [lookup, read_ok (show 0 < xs.length by omega), read_ok (show xs.length - 1 < xs.length by omega), read_ok (show 0 < ys.length by omega),
    read_ok (show ys.length - 1 < ys.length by omega), Sys.Res.ok_bind]
  by_cases ha : lgBelow R (at' xs 0)
  · rw [if_pos ha]
    refine ⟨_, rfl, fun hR => ⟨at' ys 0, Or.inl ⟨at' xs 0, at' ys 0, head?_at (by omega), head?_at (by omega), ha.resolve_left hR, rfl⟩, ?_⟩⟩
    rw [sub_self, abs_zero]; exact hB
  · rw [if_neg ha]
    have ha' : R ≠ 0 ∧ (at' xs 0 : ℝ) ≤ Real.logb 10 R := by
      unfold lgBelow at ha; push Not at ha; exact ha
    by_cases hb : Real.logb 10 R ≥ at' xs (xs.length - 1)
    · rw [if_pos hb]
      refine ⟨_, rfl, fun _ => ⟨at' ys (ys.length - 1), Or.inr (Or.inl ⟨_, _, getLast?_at (by omega), getLast?_at (by omega), hb, rfl⟩), ?_⟩⟩
      rw [sub_self, abs_zero]; exact hB
    · rw [if_neg hb]
      obtain ⟨y, y', h1, h2, h4⟩ := interpolate_ok T hlast _ ha'.2 (not_le.mp hb)
      exact ⟨y, h1, fun _ => ⟨y', Or.inr (Or.inr h2), h4⟩⟩

theorem lgR_last : at' lgR (lgR.length - 1) ≤ at' lgR 0 + ((lgR.length - 1 : ℕ) : ℚ) * (at' lgR 1 - at' lgR 0) := by decide +kernel

end SpaceHub.Magneto
