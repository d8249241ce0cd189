import Mathlib.Algebra.Order.BigOperators.Group.Finset
import Verif.Model.StepControl
import Verif.Proof.Basic

/-
C59, C60: the error estimators.
-/

set_option autoImplicit false

namespace SpaceHub.Ctl
open SpaceHub Fl Finset

/-- an array of numbers -/
def nums (a : Nat → ℝ) : Arr Fl := fun i => fin (a i)

theorem forLoop_congr {σ : Type} (lo hi : Nat) (b b' : Nat → σ → σ) (s : σ) (h : ∀ i m, b i m = b' i m) :
    forLoop lo hi b s = forLoop lo hi b' s := by
  have : b = b' := by funext i m; exact h i m
  rw [this]

theorem div_fin (a b : ℝ) (hb : b ≠ 0) : div (fin a) (fin b) = fin (a / b) := by
  show (if b = 0 then _ else _) = _
  rw [if_neg hb]

theorem stdMax_fin (a b : ℝ) : stdMax (fin a) (fin b) = fin (max a b) := by
  unfold stdMax lt
  by_cases h : a < b
  · rw [if_pos (decide_eq_true h), max_eq_right h.le]
  · rw [if_neg (by simpa using h), max_eq_left (not_lt.1 h)]

theorem mathMax_fin (a b : ℝ) : mathMax (fin a) (fin b) = fin (max a b) := stdMax_fin a b

/-- the quotient of a non-negative number and a non-negative number -/
theorem div_le_iff' (d s q : ℝ) (hd : 0 ≤ d) (hs : 0 ≤ s) :
    (∃ r, div (fin d) (fin s) = fin r ∧ 0 ≤ r ∧ (r ≤ q ↔ d ≤ q * s)) ∨ (div (fin d) (fin s) = inf false ∧ ¬ d ≤ q * s) ∨
      (div (fin d) (fin s) = nan ∧ d ≤ q * s) := by
  rcases hs.eq_or_lt with rfl | hs
  · rcases hd.eq_or_lt with rfl | hd
    · right; right
      refine ⟨?_, by simp⟩
      show (if (0 : ℝ) = 0 then (if (0 : ℝ) = 0 then nan else _) else _) = _
      rw [if_pos rfl, if_pos rfl]
    · right; left
      refine ⟨?_, by simp only [mul_zero]; linarith⟩
      show (if (0 : ℝ) = 0 then (if d = 0 then nan else inf _) else _) = _
      rw [if_pos rfl, if_neg hd.ne', decide_eq_false (by linarith)]
  · left
    rw [div_fin _ _ hs.ne']
    exact ⟨d / s, rfl, by positivity, by rw [div_le_iff₀ hs]⟩

theorem maxLoop (n : Nat) (d s : Nat → ℝ) (hd : ∀ i, 0 ≤ d i) (hs : ∀ i, 0 ≤ s i) (q : ℝ) (hq : 0 ≤ q) :
    le (forLoop 0 n (fun i m => mathMax m (div (fin (d i)) (fin (s i)))) (fin 0)) (fin q) = true ↔
      ∀ i, i < n → d i ≤ q * s i := by
  have key := forLoop_inv (fun k m => ((∃ r, m = fin r ∧ 0 ≤ r) ∨ m = inf false) ∧
    (le m (fin q) = true ↔ ∀ i, i < k → d i ≤ q * s i)) 0 n (Nat.zero_le _)
    (fun i m => mathMax m (div (fin (d i)) (fin (s i)))) (fin 0)
    ⟨.inl ⟨0, rfl, le_rfl⟩, by
      constructor
      · exact fun _ i hi => absurd hi (Nat.not_lt_zero _)
      · exact fun _ => decide_eq_true hq⟩
    (by
      intro k m _ _ ⟨hm, hle⟩
      have split : (∀ i, i < k + 1 → d i ≤ q * s i) ↔ (∀ i, i < k → d i ≤ q * s i) ∧ d k ≤ q * s k := by
        constructor
        · exact fun h => ⟨fun i hi => h i (by omega), h k (by omega)⟩
        · rintro ⟨h1, h2⟩ i hi
          rcases Nat.lt_succ_iff_lt_or_eq.1 hi with h | rfl
          · exact h1 i h
          · exact h2
      rw [split, ← hle]
      rcases hm with ⟨r, rfl, hr⟩ | rfl
      · rcases div_le_iff' (d k) (s k) q (hd k) (hs k) with ⟨r', e, hr', hi⟩ | ⟨e, hi⟩ | ⟨e, hi⟩
        · rw [e, mathMax_fin]
          refine ⟨.inl ⟨_, rfl, le_max_of_le_left hr⟩, ?_⟩
          unfold le
          rw [decide_eq_true_iff, decide_eq_true_iff, max_le_iff, hi]
        · rw [e]
          refine ⟨.inr rfl, ?_⟩
          constructor
          · intro h; exact absurd h (by unfold mathMax Fl.lt; simp [Fl.le])
          · exact fun h => absurd h.2 hi
        · rw [e]
          have : mathMax (fin r) nan = fin r := rfl
          rw [this]
          exact ⟨.inl ⟨r, rfl, hr⟩, fun h => ⟨h, hi⟩, fun h => h.1⟩
      · have hinf : ∀ x, (mathMax (inf false) x) = inf false := by
          intro x
          unfold mathMax
          cases x with
          | fin r => rfl
          | nan => rfl
          | inf b => cases b <;> rfl
        rw [hinf]
        refine ⟨.inr rfl, ?_⟩
        constructor
        · intro h; exact absurd h (by simp [Fl.le])
        · intro h; exact absurd h.1 (by simp [Fl.le]))
  exact key.2

/-- `WorstOffender` with tolerances `atol`, `rtol`: the error is at most `q` exactly when every variable differs by at
most `q` times `atol + rtol · max(|before|, |result|)`.  For every number of variables and all numbers, also when that
tolerance is zero. -/
theorem C59_worst_offender (atol rtol : ℝ) (ha : 0 ≤ atol) (hr : 0 ≤ rtol) (n : Nat) (y0 y1 y1p : Nat → ℝ) (q : ℝ) (hq : 0 ≤ q) :
    le (worstOffender (fin atol) (fin rtol) n (nums y0) (nums y1) (nums y1p)) (fin q) = true ↔
      ∀ i, i < n → |y1p i - y1 i| ≤ q * (atol + rtol * max |y0 i| |y1 i|) := by
  have e : worstOffender (fin atol) (fin rtol) n (nums y0) (nums y1) (nums y1p) =
      forLoop 0 n (fun i m => mathMax m (div (fin |y1p i - y1 i|) (fin (atol + rtol * max |y0 i| |y1 i|)))) (fin 0) := by
    unfold worstOffender
    refine forLoop_congr _ _ _ _ _ fun i m => ?_
    show mathMax m (div (fin |y1p i + -(y1 i)|) (add (fin atol) (mul (stdMax (fin |y1 i|) (fin |y0 i|)) (fin rtol)))) = _
    rw [stdMax_fin, max_comm]
    show mathMax m (div (fin |y1p i + -(y1 i)|) (fin (atol + max |y0 i| |y1 i| * rtol))) = _
    rw [← sub_eq_add_neg, mul_comm rtol]
  rw [e]
  exact maxLoop n _ _ (fun i => abs_nonneg _) (fun i => by positivity) q hq

/-- `WorstOffender` on a difference: the error is at most `q` exactly when every difference is at most `q` times
`atol + rtol · |before|`. -/
theorem C59_worst_offender_diff (atol rtol : ℝ) (ha : 0 ≤ atol) (hr : 0 ≤ rtol) (n : Nat) (y0 d : Nat → ℝ) (q : ℝ) (hq : 0 ≤ q) :
    le (worstOffender2 (fin atol) (fin rtol) n (nums y0) (nums d)) (fin q) = true ↔
      ∀ i, i < n → |d i| ≤ q * (atol + rtol * |y0 i|) := by
  have e : worstOffender2 (fin atol) (fin rtol) n (nums y0) (nums d) =
      forLoop 0 n (fun i m => mathMax m (div (fin |d i|) (fin (atol + rtol * |y0 i|)))) (fin 0) := by
    unfold worstOffender2
    refine forLoop_congr _ _ _ _ _ fun i m => ?_
    show mathMax m (div (fin |d i|) (fin (atol + |y0 i| * rtol))) = _
    rw [mul_comm rtol]
  rw [e]
  exact maxLoop n _ _ (fun i => abs_nonneg _) (fun i => by positivity) q hq

/-- `RMS`: the error is at most 1 exactly when the mean square of difference over tolerance is, the mean taken over all
variables but the sum only over those whose tolerance is not zero. -/
theorem C59_rms (atol rtol : ℝ) (n : Nat) (hn : 1 ≤ n) (y0 y1 y1p : Nat → ℝ) :
    le (rms (fin atol) (fin rtol) n (nums y0) (nums y1) (nums y1p)) (fin 1) = true ↔
      (∑ i ∈ range n, if atol + rtol * max |y0 i| |y1 i| = 0 then 0
        else (|y1p i - y1 i| / (atol + rtol * max |y0 i| |y1 i|)) ^ 2) / n ≤ 1 := by
  classical
  set t : Nat → ℝ := fun i => if atol + rtol * max |y0 i| |y1 i| = 0 then 0
    else (|y1p i - y1 i| / (atol + rtol * max |y0 i| |y1 i|)) ^ 2 with ht
  have hloop := forLoop_inv (fun k e => e = fin (∑ i ∈ range k, t i)) 0 n (Nat.zero_le _) (fun i e =>
    let scale := add (mul (stdMax (Fl.abs (nums y0 i)) (Fl.abs (nums y1 i))) (fin rtol)) (fin atol)
    if isZero scale then e
    else
      let r := div (Fl.abs (sub (nums y1 i) (nums y1p i))) scale
      add e (mul r r)) (fin 0) (by simp)
    (by
      intro k e _ _ he
      subst he
      have hsc : add (mul (stdMax (Fl.abs (nums y0 k)) (Fl.abs (nums y1 k))) (fin rtol)) (fin atol) =
          fin (atol + rtol * max |y0 k| |y1 k|) := by
        show add (mul (stdMax (fin |y0 k|) (fin |y1 k|)) (fin rtol)) (fin atol) = _
        rw [stdMax_fin]
        show fin (max |y0 k| |y1 k| * rtol + atol) = _
        congr 1; ring
      dsimp only
      rw [hsc, sum_range_succ]
      by_cases hz : atol + rtol * max |y0 k| |y1 k| = 0
      · have : isZero (fin (atol + rtol * max |y0 k| |y1 k|)) = true := decide_eq_true hz
        rw [if_pos this]
        have : t k = 0 := by simp only [ht]; rw [if_pos hz]
        rw [this, add_zero]
      · have : ¬ isZero (fin (atol + rtol * max |y0 k| |y1 k|)) = true := by
          unfold isZero; simpa using hz
        rw [if_neg this]
        have hd : div (Fl.abs (sub (nums y1 k) (nums y1p k))) (fin (atol + rtol * max |y0 k| |y1 k|)) =
            fin (|y1p k - y1 k| / (atol + rtol * max |y0 k| |y1 k|)) := by
          show (if _ then _ else fin (|y1 k + -(y1p k)| / _)) = _
          rw [if_neg hz, ← sub_eq_add_neg, abs_sub_comm]
        rw [hd]
        show fin (_ + _ * _) = _
        have : t k = (|y1p k - y1 k| / (atol + rtol * max |y0 k| |y1 k|)) ^ 2 := by simp only [ht]; rw [if_neg hz]
        rw [this, sq])
  have hn' : (0 : ℝ) < n := by exact_mod_cast hn
  have hnn : 0 ≤ ∑ i ∈ range n, t i := sum_nonneg fun i _ => by simp only [ht]; split_ifs <;> positivity
  unfold rms
  dsimp only at hloop ⊢
  rw [hloop]
  show le (Fl.sqrt (if _ then _ else fin (_ / _))) (fin 1) = true ↔ _
  rw [if_neg hn'.ne']
  have hnn2 : 0 ≤ (∑ i ∈ range n, t i) / n := by positivity
  unfold Fl.sqrt
  dsimp only
  rw [if_neg (not_lt.2 hnn2)]
  unfold le
  rw [decide_eq_true_iff, Real.sqrt_le_one]

/-- Hence, where no tolerance is zero, an `RMS` error of at most 1 bounds every single difference by `√n` tolerances. -/
theorem C59_rms_each (atol rtol : ℝ) (ha : 0 ≤ atol) (hr : 0 ≤ rtol) (n : Nat) (hn : 1 ≤ n) (y0 y1 y1p : Nat → ℝ)
    (hs : ∀ i, i < n → atol + rtol * max |y0 i| |y1 i| ≠ 0)
    (h : le (rms (fin atol) (fin rtol) n (nums y0) (nums y1) (nums y1p)) (fin 1) = true) (i : Nat) (hi : i < n) :
    |y1p i - y1 i| ≤ Real.sqrt n * (atol + rtol * max |y0 i| |y1 i|) := by
  rw [C59_rms atol rtol n hn] at h
  have hn' : (0 : ℝ) < n := by exact_mod_cast hn
  rw [div_le_one hn'] at h
  have hterm := single_le_sum (f := fun i => if atol + rtol * max |y0 i| |y1 i| = 0 then 0
        else (|y1p i - y1 i| / (atol + rtol * max |y0 i| |y1 i|)) ^ 2)
    (fun j _ => by split_ifs <;> positivity) (mem_range.2 hi)
  have h1 := hterm.trans h
  rw [if_neg (hs i hi)] at h1
  have hpos : 0 < atol + rtol * max |y0 i| |y1 i| := lt_of_le_of_ne (by positivity) (Ne.symm (hs i hi))
  have h2 := Real.le_sqrt_of_sq_le h1
  rwa [div_le_iff₀ hpos] at h2

theorem maxLoop2 (n : Nat) (d s : Nat → ℝ) :
    ∃ D S : ℝ, forLoop 0 n (fun i (m : Fl × Fl) => (stdMax m.1 (fin (d i)), stdMax m.2 (fin (s i)))) (fin 0, fin 0) =
      (fin D, fin S) ∧ 0 ≤ D ∧ 0 ≤ S ∧ (∀ x, 0 ≤ x → (D ≤ x ↔ ∀ i, i < n → d i ≤ x)) ∧
      (∀ x, 0 ≤ x → (S ≤ x ↔ ∀ i, i < n → s i ≤ x)) := by
  refine forLoop_inv (fun k (m : Fl × Fl) => ∃ D S : ℝ, m = (fin D, fin S) ∧ 0 ≤ D ∧ 0 ≤ S ∧
    (∀ x, 0 ≤ x → (D ≤ x ↔ ∀ i, i < k → d i ≤ x)) ∧ (∀ x, 0 ≤ x → (S ≤ x ↔ ∀ i, i < k → s i ≤ x))) 0 n (Nat.zero_le _) _ _
    ⟨0, 0, rfl, le_rfl, le_rfl, fun x hx => ⟨fun _ i hi => absurd hi (Nat.not_lt_zero _), fun _ => hx⟩,
      fun x hx => ⟨fun _ i hi => absurd hi (Nat.not_lt_zero _), fun _ => hx⟩⟩ ?_
  rintro k m _ _ ⟨D, S, rfl, hD, hS, h1, h2⟩
  have split : ∀ (f : Nat → ℝ) (x : ℝ), (∀ i, i < k + 1 → f i ≤ x) ↔ (∀ i, i < k → f i ≤ x) ∧ f k ≤ x := by
    intro f x
    constructor
    · exact fun h => ⟨fun i hi => h i (by omega), h k (by omega)⟩
    · rintro ⟨h1, h2⟩ i hi
      rcases Nat.lt_succ_iff_lt_or_eq.1 hi with h | rfl
      · exact h1 i h
      · exact h2
  refine ⟨max D (d k), max S (s k), by dsimp only; rw [stdMax_fin, stdMax_fin], le_max_of_le_left hD, le_max_of_le_left hS,
    fun x hx => ?_, fun x hx => ?_⟩
  · rw [split, max_le_iff, h1 x hx]
  · rw [split, max_le_iff, h2 x hx]

/-- `MaxRatioError`: the error is at most `q` exactly when every difference is at most `q` times the largest of the
tolerances `atol + rtol · |before|` - provided one of them is not zero. -/
theorem C59_max_ratio (atol rtol : ℝ) (ha : 0 ≤ atol) (hr : 0 ≤ rtol) (n : Nat) (y0 y1 y1p : Nat → ℝ) (q : ℝ) (hq : 0 ≤ q)
    (hs : ∃ i, i < n ∧ 0 < atol + rtol * |y0 i|) :
    le (maxRatio (fin atol) (fin rtol) n (nums y0) (nums y1) (nums y1p)) (fin q) = true ↔
      ∀ i, i < n → ∃ j, j < n ∧ |y1p i - y1 i| ≤ q * (atol + rtol * |y0 j|) := by
  obtain ⟨i0, hi0, hpos⟩ := hs
  obtain ⟨D, S, e, hD, hS, h1, h2⟩ := maxLoop2 n (fun i => |y1p i - y1 i|) (fun i => atol + rtol * |y0 i|)
  have e' : maxRatio (fin atol) (fin rtol) n (nums y0) (nums y1) (nums y1p) = div (fin D) (fin S) := by
    unfold maxRatio
    dsimp only
    rw [forLoop_congr (b' := fun i (m : Fl × Fl) => (stdMax m.1 (fin |y1p i - y1 i|), stdMax m.2 (fin (atol + rtol * |y0 i|))))
      (h := fun i m => ?_), e]
    show (stdMax m.1 (fin |y1p i + -(y1 i)|), stdMax m.2 (fin (atol + |y0 i| * rtol))) = _
    rw [← sub_eq_add_neg, mul_comm rtol]
  -- the maximum is attained
  have hSpos : 0 < S := lt_of_lt_of_le hpos ((h2 S hS).1 le_rfl i0 hi0)
  have hatt : ∃ j, j < n ∧ S ≤ atol + rtol * |y0 j| := by
    by_contra hc
    push Not at hc
    have hne : (range n).Nonempty := ⟨i0, mem_range.2 hi0⟩
    obtain ⟨j, hj, hmax⟩ := exists_max_image (range n) (fun i => atol + rtol * |y0 i|) hne
    have := (h2 (atol + rtol * |y0 j|) (by positivity)).2 fun i hi => hmax i (mem_range.2 hi)
    exact absurd (hc j (mem_range.1 hj)) (not_lt.2 this)
  obtain ⟨j, hj, hSj⟩ := hatt
  rw [e']
  rw [div_fin _ _ hSpos.ne']
  unfold le
  rw [decide_eq_true_iff, div_le_iff₀ hSpos, h1 _ (by positivity)]
  constructor
  · intro h i hi
    exact ⟨j, hj, (h i hi).trans (mul_le_mul_of_nonneg_left hSj hq)⟩
  · intro h i hi
    obtain ⟨j', hj', hle⟩ := h i hi
    exact hle.trans (mul_le_mul_of_nonneg_left ((h2 S hS).1 le_rfl j' hj') hq)

/-- Concretely: before (1, 2), two results (1, 2) and (1, 2.5): with relative tolerance 1/4 within tolerance, with 1/8 not. -/
example : le (worstOffender (fin 0) (fin (1 / 4)) 2 (nums fun i => if i = 0 then 1 else 2) (nums fun i => if i = 0 then 1 else 2)
      (nums fun i => if i = 0 then 1 else 5 / 2)) (fin 1) = true ∧
    le (worstOffender (fin 0) (fin (1 / 8)) 2 (nums fun i => if i = 0 then 1 else 2) (nums fun i => if i = 0 then 1 else 2)
      (nums fun i => if i = 0 then 1 else 5 / 2)) (fin 1) ≠ true := by
  constructor
  · rw [C59_worst_offender _ _ le_rfl (by norm_num) _ _ _ _ _ zero_le_one]
    intro i hi
    have : i = 0 ∨ i = 1 := by omega
    rcases this with rfl | rfl <;> norm_num [abs_of_nonneg]
  · rw [Ne, C59_worst_offender _ _ le_rfl (by norm_num) _ _ _ _ _ zero_le_one]
    intro h
    have := h 1 (by norm_num)
    norm_num [abs_of_nonneg] at this

/-! ### C60: NaN -/

theorem add_nan (x : Fl) : add x nan = nan := by cases x <;> rfl
theorem nan_add (x : Fl) : add nan x = nan := by cases x <;> rfl
theorem div_nan (x : Fl) : div x nan = nan := by cases x <;> rfl
theorem nan_div (x : Fl) : div nan x = nan := by cases x <;> rfl
theorem mathMax_nan (x : Fl) : mathMax x nan = x := by cases x <;> rfl
theorem stdMax_nan (x : Fl) : stdMax x nan = x := by cases x <;> rfl

/-- `RMS` never accepts a result with a NaN: if any variable of the second result is NaN, the error is not at most 1. -/
theorem C60_rms (atol rtol : Fl) (n : Nat) (y0 y1 y1p : Arr Fl) (i : Nat) (hi : i < n) (hnan : y1p i = nan)
    (hscale : isZero (add (mul (stdMax (Fl.abs (y0 i)) (Fl.abs (y1 i))) rtol) atol) = false) :
    le (rms atol rtol n y0 y1 y1p) (fin 1) ≠ true := by
  have hloop := forLoop_inv (fun k e => i < k → e = nan) 0 n (Nat.zero_le _) (fun i e =>
    let scale := add (mul (stdMax (Fl.abs (y0 i)) (Fl.abs (y1 i))) rtol) atol
    if isZero scale then e
    else
      let r := div (Fl.abs (sub (y1 i) (y1p i))) scale
      add e (mul r r)) (fin 0) (fun h => absurd h (Nat.not_lt_zero _))
    (by
      intro k e _ _ he hk
      dsimp only
      by_cases hki : k = i
      · subst hki
        rw [hscale, if_neg (by simp), hnan]
        have e1 : sub (y1 k) nan = nan := add_nan _
        rw [e1]
        show add e (mul (div nan _) (div nan _)) = nan
        rw [nan_div]
        exact add_nan e
      · have := he (by omega)
        subst this
        split_ifs
        · rfl
        · exact nan_add _)
  unfold rms
  dsimp only at hloop ⊢
  rw [hloop hi]
  have : div nan (fin n) = nan := rfl
  rw [this]
  intro h
  cases h

/-- C60 is false of `WorstOffender` (the estimator of the Bulirsch-Stoer and of the refining iterator): NaN components are
ignored; ... -/
theorem C60_worst_offender_ignores_nan (atol rtol : Fl) (n : Nat) (y0 y1 y1p : Arr Fl) (hnan : y1p n = nan) :
    worstOffender atol rtol (n + 1) y0 y1 y1p = worstOffender atol rtol n y0 y1 y1p := by
  unfold worstOffender
  rw [forLoop_succ _ _ (Nat.zero_le _)]
  dsimp only
  rw [hnan]
  show mathMax _ (div nan _) = _
  rw [nan_div, mathMax_nan]

/-- ... a result consisting of NaN only has error 0 and is accepted, whatever the tolerances, by `WorstOffender`; ... -/
theorem C60_worst_offender_accepts_nan (atol rtol : Fl) (n : Nat) (y0 y1 : Arr Fl) :
    worstOffender atol rtol n y0 y1 (fun _ => nan) = fin 0 ∧
      le (worstOffender atol rtol n y0 y1 (fun _ => nan)) (fin 1) = true := by
  have : worstOffender atol rtol n y0 y1 (fun _ => nan) = fin 0 := by
    induction n with
    | zero => rfl
    | succ n ih => rw [C60_worst_offender_ignores_nan _ _ _ _ _ _ rfl, ih]
  rw [this]
  exact ⟨rfl, decide_eq_true zero_le_one⟩

/-- ... and by `MaxRatioError`, if some tolerance is positive. -/
theorem C60_max_ratio_accepts_nan (atol rtol : ℝ) (ha : 0 < atol) (hr : 0 ≤ rtol) (n : Nat) (hn : 1 ≤ n) (y0 : Nat → ℝ) (y1 : Arr Fl) :
    le (maxRatio (fin atol) (fin rtol) n (nums y0) y1 (fun _ => nan)) (fin 1) = true := by
  obtain ⟨D, S, e, hD, hS, h1, h2⟩ := maxLoop2 n (fun _ => 0) (fun i => atol + rtol * |y0 i|)
  have hSpos : 0 < S := lt_of_lt_of_le (by positivity) ((h2 S hS).1 le_rfl 0 hn)
  have hD0 : D ≤ 0 := (h1 0 le_rfl).2 fun _ _ => le_rfl
  have e' : maxRatio (fin atol) (fin rtol) n (nums y0) y1 (fun _ => nan) = div (fin 0) (fin S) := by
    unfold maxRatio
    dsimp only
    have key := forLoop_inv (fun k (m : Fl × Fl) => ∃ m' : Fl × Fl, m' = forLoop 0 k (fun i (m : Fl × Fl) =>
        (stdMax m.1 (fin 0), stdMax m.2 (fin (atol + rtol * |y0 i|)))) (fin 0, fin 0) ∧ m.1 = fin 0 ∧ m.2 = m'.2) 0 n
      (Nat.zero_le _) (fun i (m : Fl × Fl) => (stdMax m.1 (Fl.abs (sub nan (y1 i))), stdMax m.2 (add (fin atol)
        (mul (Fl.abs (nums y0 i)) (fin rtol))))) (fin 0, fin 0) ⟨_, rfl, rfl, rfl⟩
      (by
        rintro k m _ _ ⟨m', h, hm1, hm2⟩
        refine ⟨_, rfl, ?_, ?_⟩
        · have : sub nan (y1 k) = nan := nan_add _
          rw [this]
          exact (stdMax_nan _).trans hm1
        · rw [forLoop_succ _ _ (Nat.zero_le _), ← h, hm2]
          dsimp only
          congr 1
          show fin (atol + |y0 k| * rtol) = _
          rw [mul_comm])
    obtain ⟨m', h, hm1, hm2⟩ := key
    rw [hm1, hm2, h, e]
  rw [e']
  rw [div_fin _ _ hSpos.ne', zero_div]
  exact decide_eq_true zero_le_one

end SpaceHub.Ctl
