import Verif.Proof.LetterWords
import Mathlib.Algebra.Order.Field.Rat
import Mathlib.Tactic.IntervalCases

/-
Order conditions for any number of letters, with integers: the coefficients of a word in all final parts of the product at once, from those of its
suffixes.
-/

set_option autoImplicit false

namespace SpaceHub.Letters
open Finset

variable {ι : Type} [DecidableEq ι]

/-- the decimal part of the common denominator -/
def dec2 : ℤ := 2 * 10 ^ 20

/-- `k v`, with `v` evaluated first -/
noncomputable def force {α : Type} (v : ℤ) (k : ℤ → α) : α :=
  Int.rec (fun n => Nat.rec (k 0) (fun n _ => k (.ofNat (n + 1))) n) (fun n => Nat.rec (k (.negSucc 0)) (fun n _ => k (.negSucc (n + 1))) n) v

theorem force_eq {α : Type} (v : ℤ) (k : ℤ → α) : force v k = k v := by
  cases v with
  | ofNat n => cases n <;> rfl
  | negSucc n => cases n <;> rfl

/-- `840 / k` -/
def parts : List ℤ := [840, 420, 280, 210, 168, 140, 120, 105]

/-- the sum of `v_j n ^ (j + 1)` times the first `j + 1` of the factors -/
noncomputable def horner (n : ℤ) (vs : List ℤ) : List ℤ → ℤ :=
  List.rec (fun _ => 0) (fun v _ ih qs => List.rec 0 (fun q qs' _ => Int.mul (Int.mul q n) (Int.add v (ih qs'))) qs) vs

theorem horner_cons (n v q : ℤ) (vs qs : List ℤ) : horner n (v :: vs) (q :: qs) = q * n * (v + horner n vs qs) := rfl

/-- the older values that are needed -/
def cut : Bool → List ℤ → List ℤ
  | true, r => r
  | false, [] => []
  | false, v :: _ => [v]

/-- A stage, and for the product from this stage on the coefficients of a word and of its suffixes after equal leading letters. -/
structure Cell (ι : Type) where
  s : ι
  n : ℤ
  row : List ℤ

/-- the first row, and the cells -/
structure St (ι : Type) where
  v : ℤ
  old : List ℤ
  cells : List (Cell ι)

/-- one stage more -/
noncomputable def stepRow (X : ι) (same : Bool) (c : Cell ι) (r : St ι) : St ι :=
  Cell.rec (fun s n row => St.rec (fun v old cells =>
    Bool.rec (St.mk v (cut same row) (.mk s n (v :: cut same row) :: cells))
      (force (Int.add v (horner n old parts)) fun u => St.mk u (cut same row) (.mk s n (u :: cut same row) :: cells)) (decide (s = X))) r) c

/-- the cells of the word `X :: w` from those of `w` -/
noncomputable def newRows (X : ι) (same : Bool) (last : List ℤ) (cells : List (Cell ι)) : St ι :=
  List.rec ⟨0, cut same last, []⟩ (fun c _ ih => stepRow X same c ih) cells

theorem newRows_cons (X : ι) (same : Bool) (last : List ℤ) (c : Cell ι) (cells : List (Cell ι)) : newRows X same last (c :: cells) =
    let r := newRows X same last cells
    let u := if c.s = X then r.v + horner c.n r.old parts else r.v
    ⟨u, cut same c.row, ⟨c.s, c.n, u :: cut same c.row⟩ :: r.cells⟩ := by
  show stepRow X same c (newRows X same last cells) = _
  generalize newRows X same last cells = r
  obtain ⟨s, n, row⟩ := c
  obtain ⟨v, old, R⟩ := r
  unfold stepRow
  by_cases h : s = X
  · simp only [decide_eq_true h, if_pos h, force_eq]
    rfl
  · simp only [decide_eq_false h, if_neg h]

def closeL (e : ℤ) (m : ℕ) (v : ℤ) : Bool := decide (|m.factorial * v - (dec2 * 840) ^ m| * e ≤ m.factorial * (dec2 * 840) ^ m)

/-- all words of up to `d` more letters in front of a word of `m` letters that begins with `X` -/
noncomputable def dfs (letters : List ι) (e : ℤ) : ℕ → ℕ → ι → List ℤ → List (Cell ι) → Bool
  | 0, _, _, _, _ => true
  | d + 1, m, X, last, R => letters.all fun Y =>
    St.rec (fun v _ cells => closeL e (m + 1) v && dfs letters e d (m + 1) Y (0 :: cut (decide (Y = X)) last) cells) (newRows Y (decide (Y = X)) last R)

/-- the integer form of a stage -/
def startCell (s : ι × ℚ) : Cell ι := ⟨s.1, (s.2 * (dec2 : ℚ)).num, [1]⟩

/-- the integer form of the stages -/
noncomputable def scaleL {α : Type} : List (ι × ℚ) → (List (Cell ι) → α) → α
  | [], k => k []
  | s :: l, k => scaleL l fun l' => force (s.2 * dec2).num fun v => k (⟨s.1, v, [1]⟩ :: l')

omit [DecidableEq ι] in
theorem scaleL_eq {α : Type} (l : List (ι × ℚ)) : ∀ k : List (Cell ι) → α, scaleL l k = k (l.map startCell) := by
  induction l with
  | nil => exact fun _ => rfl
  | cons s l ih => intro k; rw [scaleL, ih, force_eq]; rfl

/-- the order conditions up to `p` letters hold up to `1 / e` for all words that end with one of `ends` -/
noncomputable def checkLetters (letters ends : List ι) (e : ℤ) (p : ℕ) (X : ι) (l : List (ι × ℚ)) : Bool :=
  l.all (fun s => decide ((s.2 * dec2).den = 1)) && scaleL l fun R => ends.all fun Y =>
    St.rec (fun v _ cells => closeL e 1 v && dfs letters e p 1 Y (0 :: cut (decide (Y = X)) [1]) cells) (newRows Y (decide (Y = X)) [1] R)

/-! ### correctness -/

/-- the integer for the coefficient of a word -/
noncomputable def val (l : List (ι × ℚ)) (w : List ι) : ℚ := wordCoef l w * ((dec2 : ℚ) * 840) ^ w.length

/-- the coefficients of `w` and of its suffixes after leading letters `X` -/
inductive RowOf (l : List (ι × ℚ)) (X : ι) : List ι → List ℤ → Prop
  | one (w : List ι) (v : ℤ) : (v : ℚ) = val l w → w.head? ≠ some X → RowOf l X w [v]
  | cons (w : List ι) (v : ℤ) (vs : List ℤ) : (v : ℚ) = val l (X :: w) → RowOf l X w vs → RowOf l X (X :: w) (v :: vs)

/-- the cells of a word -/
inductive CellsOf (X : ι) (w : List ι) : List (ι × ℚ) → List (Cell ι) → Prop
  | nil : CellsOf X w [] []
  | cons (s : ι × ℚ) (l : List (ι × ℚ)) (c : Cell ι) (cells : List (Cell ι)) : c.s = s.1 → (c.n : ℚ) = s.2 * dec2 → RowOf (s :: l) X w c.row →
      CellsOf X w l cells → CellsOf X w (s :: l) (c :: cells)

theorem cut_row {l : List (ι × ℚ)} {X Y : ι} {w : List ι} {row : List ℤ} (h : RowOf l X w row) (hw : ∀ Z, w.head? = some Z → Z = X) :
    RowOf l Y w (cut (decide (Y = X)) row) := by
  by_cases hY : Y = X
  · rw [decide_eq_true hY, hY]; exact h
  · rw [decide_eq_false hY]
    have hn : w.head? ≠ some Y := fun e => hY (hw Y e)
    cases h with
    | one _ v hv _ => exact .one w v hv hn
    | cons w v vs hv _ => exact .one _ v hv hn

theorem parts_drop {k : ℕ} (hk : k < 8) : ∃ q, parts.drop k = q :: parts.drop (k + 1) ∧ (q : ℚ) = 840 / (k + 1) := by
  interval_cases k <;> refine ⟨_, rfl, by norm_num⟩

/-- the words that begin with the letter of the first stage -/
def lead (l : List (ι × ℚ)) (X : ι) (c : ℚ) (k : ℕ) (w : List ι) : ℚ :=
  ∑ j ∈ range (w.length + 1), if w.take j = List.replicate j X then k.factorial / (k + j + 1).factorial * c ^ (j + 1) * wordCoef l (w.drop j) else 0

theorem lead_other {l : List (ι × ℚ)} {X : ι} {c : ℚ} {k : ℕ} {w : List ι} (h : w.head? ≠ some X) : lead l X c k w = c / (k + 1) * wordCoef l w := by
  rw [lead, sum_range_succ', sum_eq_zero, zero_add]
  · simp only [List.take_zero, List.replicate_zero, if_true, add_zero, zero_add, pow_one, List.drop_zero, Nat.factorial_succ]
    have : (k.factorial : ℚ) ≠ 0 := by positivity
    have : (k : ℚ) + 1 ≠ 0 := by positivity
    push_cast
    field_simp
  · intro j _
    rw [if_neg]
    cases w with
    | nil => simp [List.replicate_succ]
    | cons Y w =>
      have : Y ≠ X := fun e => h (by rw [e]; rfl)
      simp [List.replicate_succ, this]

theorem lead_same {l : List (ι × ℚ)} {X : ι} {c : ℚ} {k : ℕ} {w : List ι} : lead l X c k (X :: w) = c / (k + 1) * (wordCoef l (X :: w) + lead l X c (k + 1) w) := by
  have hf : (k.factorial : ℚ) ≠ 0 := by positivity
  have h1 : (k : ℚ) + 1 ≠ 0 := by positivity
  rw [lead, List.length_cons, sum_range_succ', mul_add, add_comm, lead, mul_sum]
  congr 1
  · simp only [List.take_zero, List.replicate_zero, if_true, add_zero, zero_add, pow_one, List.drop_zero, Nat.factorial_succ]
    push_cast
    field_simp
  · refine sum_congr rfl fun j _ => ?_
    simp only [List.take_succ_cons, List.replicate_succ, List.cons.injEq, true_and, List.drop_succ_cons]
    split_ifs
    · rw [show k + (j + 1) + 1 = k + 1 + j + 1 by ring, Nat.factorial_succ k]
      push_cast
      field_simp
      ring
    · rw [mul_zero]

theorem horner_eq {l : List (ι × ℚ)} {X : ι} {c : ℚ} {n : ℤ} (hn : (n : ℚ) = c * dec2) {w : List ι} {row : List ℤ} (h : RowOf l X w row) :
    ∀ k, k + w.length < 8 → (horner n row (parts.drop k) : ℚ) = lead l X c k w * ((dec2 : ℚ) * 840) ^ (w.length + 1) := by
  induction h with
  | one w v hv hh =>
    intro k hk
    obtain ⟨q, e, hq⟩ := parts_drop (k := k) (by omega)
    rw [e, horner_cons, lead_other hh]
    show ((q * n * (v + 0) : ℤ) : ℚ) = _
    push_cast
    rw [hv, hn, hq, val]
    ring
  | cons w v vs hv _ ih =>
    intro k hk
    rw [List.length_cons] at hk
    obtain ⟨q, e, hq⟩ := parts_drop (k := k) (by omega)
    rw [e, horner_cons, lead_same]
    push_cast
    rw [ih (k + 1) (by omega), hv, hn, hq, val, List.length_cons]
    ring

theorem wordCoef_other {s : ι × ℚ} {l : List (ι × ℚ)} {X : ι} (h : s.1 ≠ X) (w : List ι) : wordCoef (s :: l) (X :: w) = wordCoef l (X :: w) := by
  rw [wordCoef, List.length_cons, sum_range_succ', sum_eq_zero, zero_add]
  · simp
  · intro j _
    rw [if_neg]
    simp [List.replicate_succ, Ne.symm h]

theorem wordCoef_same {s : ι × ℚ} {l : List (ι × ℚ)} {X : ι} (h : s.1 = X) (w : List ι) : wordCoef (s :: l) (X :: w) = wordCoef l (X :: w) + lead l X s.2 0 w := by
  rw [wordCoef, List.length_cons, sum_range_succ', add_comm, lead]
  congr 1
  · simp
  · refine sum_congr rfl fun j _ => ?_
    simp only [List.take_succ_cons, List.replicate_succ, List.cons.injEq, h, true_and, List.drop_succ_cons, Nat.factorial_zero, Nat.cast_one, zero_add]
    split_ifs
    · ring
    · rfl

theorem newRows_spec {X Y : ι} {w : List ι} (hw : ∀ Z, w.head? = some Z → Z = X) (h8 : w.length < 8) {last : List ℤ} (hl : RowOf [] X w last)
    {l : List (ι × ℚ)} {cells : List (Cell ι)} (h : CellsOf X w l cells) :
    ((newRows Y (decide (Y = X)) last cells).v : ℚ) = val l (Y :: w) ∧ RowOf l Y w (newRows Y (decide (Y = X)) last cells).old ∧
      CellsOf Y (Y :: w) l (newRows Y (decide (Y = X)) last cells).cells := by
  induction h with
  | nil =>
    refine ⟨?_, cut_row hl hw, .nil⟩
    show ((0 : ℤ) : ℚ) = _
    simp [val, wordCoef]
  | cons s l c cells hs hn hr _ ih =>
    obtain ⟨i1, i2, i3⟩ := ih
    rw [newRows_cons]
    have key : (((if c.s = Y then (newRows Y (decide (Y = X)) last cells).v + horner c.n (newRows Y (decide (Y = X)) last cells).old parts
        else (newRows Y (decide (Y = X)) last cells).v : ℤ)) : ℚ) = val (s :: l) (Y :: w) := by
      rw [hs]
      by_cases hY : s.1 = Y
      · rw [if_pos hY, val, wordCoef_same hY, add_mul, List.length_cons]
        push_cast
        rw [i1, val, List.length_cons]
        congr 1
        exact horner_eq hn i2 0 (by omega)
      · rw [if_neg hY, i1, val, val, wordCoef_other hY]
    exact ⟨key, cut_row hr hw, .cons s l _ _ hs hn (.cons w _ _ key (cut_row hr hw)) i3⟩

theorem closeL_spec {e : ℤ} (he : 0 < e) {l : List (ι × ℚ)} {w : List ι} {v : ℤ} (hv : (v : ℚ) = val l w) (h : closeL e w.length v = true) :
    |deviation l w| ≤ 1 / e := by
  have h1 : |(w.length.factorial : ℤ) * v - (dec2 * 840) ^ w.length| * e ≤ w.length.factorial * (dec2 * 840) ^ w.length := of_decide_eq_true h
  have h2 : |(w.length.factorial : ℚ) * v - (dec2 * 840) ^ w.length| * e ≤ w.length.factorial * (dec2 * 840) ^ w.length := by exact_mod_cast h1
  have hq : (0 : ℚ) < (dec2 * 840) ^ w.length := by simp only [dec2]; positivity
  have hf : (0 : ℚ) < w.length.factorial := by exact_mod_cast w.length.factorial_pos
  have he' : (0 : ℚ) < e := by exact_mod_cast he
  have e1 : deviation l w = (w.length.factorial * v - (dec2 * 840) ^ w.length) / (w.length.factorial * (dec2 * 840) ^ w.length) := by
    rw [deviation, hv, val, eq_div_iff (by positivity), sub_mul]
    field_simp
  rw [e1, abs_div, abs_of_pos (mul_pos hf hq), div_le_div_iff₀ (mul_pos hf hq) he']
  linarith

theorem one_row (l : List (ι × ℚ)) (X : ι) : RowOf l X [] [1] := .one [] 1 (by simp [val, wordCoef_nil]) (by simp)

theorem last_row {X Y : ι} {w : List ι} {last : List ℤ} (hl : RowOf [] X w last) (hw : ∀ Z, w.head? = some Z → Z = X) :
    RowOf [] Y (Y :: w) (0 :: cut (decide (Y = X)) last) := .cons w 0 _ (by simp [val, wordCoef]) (cut_row hl hw)

theorem dfs_spec {letters : List ι} (hall : ∀ X, X ∈ letters) {e : ℤ} (he : 0 < e) (l : List (ι × ℚ)) (d : ℕ) : ∀ (X : ι) (w : List ι) (last : List ℤ) (cells : List (Cell ι)),
    (∀ Z, w.head? = some Z → Z = X) → w.length + d ≤ 8 → RowOf [] X w last → CellsOf X w l cells → dfs letters e d w.length X last cells = true →
    ∀ u : List ι, u ≠ [] → u.length ≤ d → |deviation l (u ++ w)| ≤ 1 / e := by
  induction d with
  | zero => intro X w last cells _ _ _ _ _ u hu hd; exact absurd (List.length_eq_zero_iff.1 (by omega)) hu
  | succ d ih =>
    intro X w last cells hw h8 hl hc h u hu hd
    obtain ⟨u', Y, rfl⟩ : ∃ u' Y, u = u' ++ [Y] := ⟨u.dropLast, u.getLast hu, (List.dropLast_append_getLast hu).symm⟩
    have hY := List.all_eq_true.1 h Y (hall Y)
    have hs := newRows_spec (Y := Y) hw (by omega) hl hc
    have hY' : (closeL e (w.length + 1) (newRows Y (decide (Y = X)) last cells).v &&
      dfs letters e d (w.length + 1) Y (0 :: cut (decide (Y = X)) last) (newRows Y (decide (Y = X)) last cells).cells) = true := hY
    rw [Bool.and_eq_true] at hY'
    rw [List.append_assoc, List.singleton_append]
    by_cases hu' : u' = []
    · rw [hu', List.nil_append]
      exact closeL_spec he hs.1 hY'.1
    · refine ih Y (Y :: w) _ _ (fun Z hZ => by simpa using hZ.symm) (by rw [List.length_cons]; omega) (last_row hl hw) hs.2.2 hY'.2 u' hu' ?_
      rw [List.length_append, List.length_singleton] at hd
      omega

theorem checkLetters_spec {letters ends : List ι} (hall : ∀ X, X ∈ letters) {e : ℤ} (he : 0 < e) {p : ℕ} (hp : p < 8) {X : ι} {l : List (ι × ℚ)}
    (h : checkLetters letters ends e p X l = true) {u : List ι} (hu : u.length ≤ p) {Y : ι} (hY : Y ∈ ends) : |deviation l (u ++ [Y])| ≤ 1 / e := by
  obtain ⟨h1, h2⟩ := (Bool.and_eq_true _ _ ▸ h : _ ∧ _)
  rw [scaleL_eq] at h2
  have hc : ∀ l' : List (ι × ℚ), (∀ s ∈ l', s ∈ l) → CellsOf X [] l' (l'.map startCell) := by
    intro l'
    induction l' with
    | nil => exact fun _ => .nil
    | cons s l' ih =>
      intro hs
      refine .cons s l' _ _ rfl ?_ (one_row _ _) (ih fun s' hs' => hs s' (List.mem_cons_of_mem _ hs'))
      exact Rat.coe_int_num_of_den_eq_one (of_decide_eq_true (List.all_eq_true.1 h1 s (hs s List.mem_cons_self)))
  have hw : ∀ Z, ([] : List ι).head? = some Z → Z = X := by simp
  have hs := newRows_spec (Y := Y) hw (by simp) (one_row _ _) (hc l fun _ h => h)
  have h3 := List.all_eq_true.1 h2 Y hY
  have h4 : (closeL e 1 (newRows Y (decide (Y = X)) [1] (l.map startCell)).v &&
      dfs letters e p 1 Y (0 :: cut (decide (Y = X)) [1]) (newRows Y (decide (Y = X)) [1] (l.map startCell)).cells) = true := h3
  rw [Bool.and_eq_true] at h4
  by_cases hu' : u = []
  · rw [hu', List.nil_append]
    exact closeL_spec (w := [Y]) he hs.1 h4.1
  · exact dfs_spec hall he l p Y [Y] _ _ (fun Z hZ => by simpa using hZ.symm) (by simp; omega) (last_row (one_row _ _) hw) hs.2.2 h4.2 u hu' hu

end SpaceHub.Letters
