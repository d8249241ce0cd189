import Verif.Props.BSFunction
import Verif.Proof.BSSmall
import Mathlib.Tactic.IntervalCases

/-
C111: the Bulirsch-Stoer iterator on a user-supplied derivative never shortens a step.
-/

set_option autoImplicit false

namespace SpaceHub.BS
open SpaceHub SpaceHub.Sys Spec

/-- The value of variable `i` extrapolated to sub-step length 0 from the runs number `a` to `k` of the modified midpoint rule (the derivative does not depend on time). -/
noncomputable def extrapolated (f : Arr ℝ → ℝ → Arr ℝ) (D : Nat) (data : Arr ℝ) (h : ℝ) (a k : Nat) : Arr ℝ :=
  fun i => zeroStep (hSeq D) (fun m => gragg f data 0 h (hSeq D m) i) a k

/-- The error estimate for the result of the runs number 0 to `k`. -/
noncomputable def estimate (f : Arr ℝ → ℝ → Arr ℝ) (p : Params ℝ) (n : Nat) (data : Arr ℝ) (h : ℝ) (k : Nat) : ℝ :=
  p.err ((List.range n).map data) (extrapolated f p.maxDepth data h 1 k) (extrapolated f p.maxDepth data h 0 k)

/-- The error estimator looks at the variables only. -/
def LooksAt (p : Params ℝ) : Prop := ∀ (x : List ℝ) (y z y' z' : Arr ℝ), (∀ i, i < x.length → y i = y' i ∧ z i = z' i) → p.err x y z = p.err x y' z'

section
variable (f : Arr ℝ → ℝ → Arr ℝ) (hf : ∀ x t t', f x t = f x t') (p : Params ℝ) (hp : LooksAt p) (n : Nat) (input : Arr ℝ) (h : ℝ)
include hf hp

/-- One column: what is in the table, what the error estimate is, and what happens next. -/
theorem columnF_step (m k : Nat) (c : State ℝ) (t : ℝ) (hk : 1 ≤ k) (hkD : k ≤ p.maxDepth) (hc : c.first = true)
    (hrows : ∀ r i, r < k → i < n → c.rows r i = extrapolated f p.maxDepth input h r (k - 1) i) :
    ∃ c1 : State ℝ, c1.first = true ∧ c1.rank = c.rank ∧ (∀ r i, r ≤ k → i < n → c1.rows r i = extrapolated f p.maxDepth input h r k i) ∧
      c1.ideal k = h * p.next (2 * k + 1) (estimate f p n input h k) ∧
      columnsF f p n input h (m + 1) k c t = (if estimate f p n input h k ≤ 1 then
        .ok (.accept (c1.rows 0, t + h + h) (h * p.limiter (2 * k + 1) (c1.ideal k / h)) { c1 with reject := false, rank := k })
      else columnsF f p n input h m (k + 1) c1 (t + h)) := by
  have hg : ∀ j, gragg f input t h j = gragg f input 0 h j := fun j => gragg_autonomous hf input t 0 h j
  set c0 : State ℝ := { c with rows := fun r => (if r = k then gragg f input 0 h (hSeq p.maxDepth k) else c.rows r) } with hc0
  have hlen : ((List.range n).map input).length = n := by simp
  have hy : ∀ r i, r ≤ k → i < n → (evalColumn p ((List.range n).map input) h c0 k).1.rows r i = extrapolated f p.maxDepth input h r k i := by
    intro r i hr hi
    refine extrapolate_spec hkD (by rw [hlen]; exact hi) (fun m => gragg f input 0 h (hSeq p.maxDepth m) i) c0.rows ?_ ?_ r hr
    · simp only [hc0, if_true]
    · intro r hr
      simp only [hc0]
      rw [if_neg (by omega), hrows r i hr hi]
      rfl
  have he : (evalColumn p ((List.range n).map input) h c0 k).2 = estimate f p n input h k := by
    refine hp _ _ _ _ _ fun i hi => ?_
    rw [hlen] at hi
    exact ⟨hy 1 i hk hi, hy 0 i (Nat.zero_le _) hi⟩
  have hid : (evalColumn p ((List.range n).map input) h c0 k).1.ideal k = h * p.next (2 * k + 1) (estimate f p n input h k) := by
    rw [← he]
    show (c0.ideal.set k _) k = _
    unfold Arr.set
    rw [if_pos rfl]
    rfl
  refine ⟨(evalColumn p ((List.range n).map input) h c0 k).1, hc, rfl, hy, hid, ?_⟩
  rw [columnsF, chk_ok' hkD, Res.ok_bind]
  dsimp only
  rw [C30_midpoint f input t h _ (hSeq_pos hkD)]
  dsimp only
  rw [hg, ← hc0]
  have hfirst : (evalColumn p ((List.range n).map input) h c0 k).1.first = true := hc
  generalize evalColumn p ((List.range n).map input) h c0 k = ce at he hid hy hfirst
  have hw : inWindow ce.1 k = true := by unfold inWindow; rw [hfirst]; simp
  rw [if_pos hw]
  by_cases hle : estimate f p n input h k ≤ 1
  · rw [if_pos hle, if_pos (show Arith.le ce.2 (Arith.ofRat 1) = true from decide_eq_true (by
      show ce.2 ≤ ((1 : ℚ) : ℝ)
      rw [he, Rat.cast_one]; exact hle))]
    unfold setNextIteration
    rw [if_neg (show ¬ ((!({ ce.1 with reject := false } : State ℝ).first) = true) by
      show ¬ ((!ce.1.first) = true)
      rw [hfirst]; exact fun h => by cases h), chk_ok' hkD]
    rfl
  · rw [if_neg hle, if_neg (show ¬ Arith.le ce.2 (Arith.ofRat 1) = true from fun hd => hle (by
      have h1 : ce.2 ≤ ((1 : ℚ) : ℝ) := of_decide_eq_true hd
      rw [he, Rat.cast_one] at h1; exact h1))]
    unfold isDiverged
    rw [if_neg (show ¬ ((!ce.1.first) = true) by rw [hfirst]; exact fun h => by cases h), Res.ok_bind, if_neg (by exact fun h => by cases h)]

/-- The columns in turn: the first acceptable one is accepted. -/
theorem columnsF_finds (j : Nat) (hjD : j ≤ p.maxDepth) (hj : estimate f p n input h j ≤ 1) (m : Nat) : ∀ (k : Nat) (c : State ℝ) (t : ℝ), 1 ≤ k → k ≤ j → j < k + m →
    (∀ l, k ≤ l → l < j → 1 < estimate f p n input h l) → c.first = true →
    (∀ r i, r < k → i < n → c.rows r i = extrapolated f p.maxDepth input h r (k - 1) i) →
    ∃ (out : Arr ℝ) (t' : ℝ) (c' : State ℝ), (∀ i, i < n → out i = extrapolated f p.maxDepth input h 0 j i) ∧ c'.first = true ∧ c'.rank = j ∧
      columnsF f p n input h m k c t = .ok (.accept (out, t') (h * p.limiter (2 * j + 1) (h * p.next (2 * j + 1) (estimate f p n input h j) / h)) c') := by
  induction m with
  | zero => intro k c t _ h1 h2; omega
  | succ m ih =>
    intro k c t hk h1 h2 hl hc hrows
    obtain ⟨c1, a1, a2, a3, a4, a5⟩ := columnF_step f hf p hp n input h m k c t hk (h1.trans hjD) hc hrows
    rw [a5]
    rcases h1.eq_or_lt with rfl | h1
    · rw [if_pos hj, ← a4]
      exact ⟨_, _, { c1 with reject := false, rank := k }, fun i hi => a3 0 i (Nat.zero_le _) hi, a1, rfl, rfl⟩
    · rw [if_neg (not_le.2 (hl k le_rfl h1))]
      exact ih (k + 1) c1 (t + h) (by omega) (by omega) (by omega) (fun l h3 h4 => hl l (by omega) h4) a1
        (fun r i hr hi => by rw [Nat.add_sub_cancel]; exact a3 r i (by omega) hi)

/-- No acceptable column, and all of them in the tables. -/
theorem columnsF_none (m : Nat) : ∀ (k : Nat) (c : State ℝ) (t : ℝ), 1 ≤ k → k + m ≤ p.maxDepth + 1 →
    (∀ l, k ≤ l → l < k + m → 1 < estimate f p n input h l) → c.first = true →
    (∀ r i, r < k → i < n → c.rows r i = extrapolated f p.maxDepth input h r (k - 1) i) →
    ∃ (t' : ℝ) (c' : State ℝ), c'.first = true ∧ c'.rank = c.rank ∧ columnsF f p n input h m k c t = .ok (.exhausted (input, t') c') := by
  induction m with
  | zero => intro k c t _ _ _ hc _; exact ⟨t, c, hc, rfl, rfl⟩
  | succ m ih =>
    intro k c t hk hkD hl hc hrows
    obtain ⟨c1, a1, a2, a3, a4, a5⟩ := columnF_step f hf p hp n input h m k c t hk (by omega) hc hrows
    rw [a5, if_neg (not_le.2 (hl k le_rfl (by omega)))]
    obtain ⟨t', c', b1, b2, b3⟩ := ih (k + 1) c1 (t + h) (by omega) (by omega) (fun l h3 h4 => hl l (by omega) (by omega)) a1
        (fun r i hr hi => by rw [Nat.add_sub_cancel]; exact a3 r i (by omega) hi)
    exact ⟨t', c', b1, b2.trans a2, b3⟩

/-- No acceptable column in the tables, and the loop goes on behind them. -/
theorem columnsF_outside (m : Nat) : ∀ (k : Nat) (c : State ℝ) (t : ℝ), 1 ≤ k → k ≤ p.maxDepth + 1 → p.maxDepth + 1 < k + m →
    (∀ l, k ≤ l → l ≤ p.maxDepth → 1 < estimate f p n input h l) → c.first = true →
    (∀ r i, r < k → i < n → c.rows r i = extrapolated f p.maxDepth input h r (k - 1) i) → columnsF f p n input h m k c t = .ub := by
  induction m with
  | zero => intro k c t _ h1 h2; omega
  | succ m ih =>
    intro k c t hk h1 h2 hl hc hrows
    rcases h1.eq_or_lt with h1 | h1
    · rw [columnsF]
      have : chk p.maxDepth k = .ub := by unfold chk; rw [if_neg (by omega)]
      rw [this]
      rfl
    · obtain ⟨c1, a1, a2, a3, a4, a5⟩ := columnF_step f hf p hp n input h m k c t hk (by omega) hc hrows
      rw [a5, if_neg (not_le.2 (hl k le_rfl (by omega)))]
      exact ih (k + 1) c1 (t + h) (by omega) (by omega) (by omega) (fun l h3 h4 => hl l (by omega) (by omega)) a1
        (fun r i hr hi => by rw [Nat.add_sub_cancel]; exact a3 r i (by omega) hi)

omit hp in
/-- One attempt. -/
theorem attemptsF_succ (tries : Nat) (c : State ℝ) (t : ℝ) (hc : c.first = true) : ∃ c0 : State ℝ, c0.first = true ∧ c0.rank = c.rank ∧
    (∀ r i, r < 1 → i < n → c0.rows r i = extrapolated f p.maxDepth input h r (1 - 1) i) ∧
    attemptsF f p n input (tries + 1) h c t = (columnsF f p n input h (c.rank + 1) 1 c0 (t + h)).bind fun e => match e with
      | .accept s h c => .ok (s, h, c)
      | .reject s h c => attemptsF f p n input tries h c s.2
      | .exhausted s c => attemptsF f p n input tries h c s.2 := by
  refine ⟨{ c with iterNum := c.iterNum + 1, rows := fun r => if r = 0 then gragg f input 0 h (hSeq p.maxDepth 0) else c.rows r }, hc, rfl, fun r i hr hi => ?_, ?_⟩
  · obtain rfl : r = 0 := by omega
    show gragg f input 0 h (hSeq p.maxDepth 0) i = _
    unfold extrapolated
    rw [show 1 - 1 = 0 from rfl, zeroStep_self]
  · rw [attemptsF]
    dsimp only
    rw [C30_midpoint f input t h _ (hSeq_pos (Nat.zero_le _)), gragg_autonomous hf input t 0]
    show Res.bind _ _ = Res.bind _ _
    dsimp only
    congr 1
    funext e
    cases e <;> rfl

end

/-- **C111, what a call does.** A derivative that does not depend on time, an iterator that has only been used on user functions, every error estimator, step controller and
depth.  The columns 1, 2, … up to the target order plus 1 are looked at in turn, all with the step given.  The call accepts the first whose error estimate is at
most 1, and the target order becomes its number; if there is none it terminates the process, however good the result with a shorter step would be; if the target order is
`max_depth` and no column is acceptable it leaves its tables. -/
theorem C111_outcome (f : Arr ℝ → ℝ → Arr ℝ) (hf : ∀ x t t', f x t = f x t') (p : Params ℝ) (hp : LooksAt p) (n : Nat) (data : Arr ℝ) (t h : ℝ) (c : State ℝ)
    (hc : c.first = true) :
    (∀ j, 1 ≤ j → j ≤ c.rank + 1 → j ≤ p.maxDepth → estimate f p n data h j ≤ 1 → (∀ l, 1 ≤ l → l < j → 1 < estimate f p n data h l) →
      ∃ (out : Arr ℝ) (t' : ℝ) (c' : State ℝ), iterateF f p n data t h c =
          .ok ((out, t'), h * p.limiter (2 * j + 1) (h * p.next (2 * j + 1) (estimate f p n data h j) / h), c') ∧
        (∀ i, i < n → out i = extrapolated f p.maxDepth data h 0 j i) ∧ c'.first = true ∧ c'.rank = j) ∧
    ((∀ l, 1 ≤ l → l ≤ c.rank + 1 → 1 < estimate f p n data h l) → c.rank + 1 ≤ p.maxDepth → iterateF f p n data t h c = .abort) ∧
    ((∀ l, 1 ≤ l → l ≤ p.maxDepth → 1 < estimate f p n data h l) → p.maxDepth < c.rank + 1 → iterateF f p n data t h c = .ub) := by
  refine ⟨fun j h1 h2 h3 h4 h5 => ?_, fun h1 h2 => ?_, fun h1 h2 => ?_⟩
  · obtain ⟨c0, a1, a2, a3, a4⟩ := attemptsF_succ f hf p n data h 99 c t hc
    obtain ⟨out, t', c', b1, b2, b3, b4⟩ := columnsF_finds f hf p hp n data h j h3 h4 (c.rank + 1) 1 c0 (t + h) le_rfl h1 (by omega) h5 a1 a3
    refine ⟨out, t', c', ?_, b1, b2, b3⟩
    show attemptsF f p n data (99 + 1) h c t = _
    rw [a4, b4]
    rfl
  · have : ∀ (tries : Nat) (c : State ℝ) (t : ℝ), c.first = true → (∀ l, 1 ≤ l → l ≤ c.rank + 1 → 1 < estimate f p n data h l) → c.rank + 1 ≤ p.maxDepth →
        attemptsF f p n data tries h c t = .abort := by
      intro tries
      induction tries with
      | zero => intro c t _ _ _; rfl
      | succ tries ih =>
        intro c t hc h1 h2
        obtain ⟨c0, a1, a2, a3, a4⟩ := attemptsF_succ f hf p n data h tries c t hc
        obtain ⟨t', c', b1, b2, b3⟩ := columnsF_none f hf p hp n data h (c.rank + 1) 1 c0 (t + h) le_rfl (by omega) (fun l q1 q2 => h1 l q1 (by omega)) a1 a3
        rw [a4, b3]
        exact ih c' t' b1 (by rw [b2, a2]; exact h1) (by rw [b2, a2]; exact h2)
    exact this 100 c t hc h1 h2
  · obtain ⟨c0, a1, a2, a3, a4⟩ := attemptsF_succ f hf p n data h 99 c t hc
    have b := columnsF_outside f hf p hp n data h (c.rank + 1) 1 c0 (t + h) le_rfl (by omega) (by omega) (fun l q1 q2 => h1 l q1 q2) a1 a3
    show attemptsF f p n data (99 + 1) h c t = _
    rw [a4, b]
    rfl

/-! ### consequences -/

/-- The states of an iterator that is used on user functions: the new one, and those after calls that returned, on any functions and data. -/
inductive UsedF (p : Params ℝ) : State ℝ → Prop
  | new : UsedF p (State.init p.maxDepth)
  | call {c c' : State ℝ} {f : Arr ℝ → ℝ → Arr ℝ} {n : Nat} {data data' : Arr ℝ} {t t' h h' : ℝ} (u : UsedF p c)
      (e : iterateF f p n data t h c = .ok ((data', t'), h', c')) : UsedF p c'

/-- The mark of the first step is never taken away. -/
theorem UsedF.first {p : Params ℝ} {c : State ℝ} (u : UsedF p c) : c.first = true := by
  induction u with
  | new => rfl
  | call _ e ih => exact (C30_time_advances_too_far _ _ _ _ _ _ _ _ _ _ _ ih e).1

/-- **C111 is false of the code: the step is never shortened.** After any history of calls on user functions, a call on a derivative that does not depend on time with a
step for which no error estimate is at most 1 does not return - it terminates the process or leaves its tables -, however small the errors with shorter steps are. -/
theorem C111_never_shortens (f : Arr ℝ → ℝ → Arr ℝ) (hf : ∀ x t t', f x t = f x t') (p : Params ℝ) (hp : LooksAt p) (n : Nat) (data : Arr ℝ) (t h : ℝ) (c : State ℝ)
    (hc : UsedF p c) (he : ∀ l, 1 ≤ l → l ≤ p.maxDepth → 1 < estimate f p n data h l) :
    iterateF f p n data t h c = .abort ∨ iterateF f p n data t h c = .ub := by
  obtain ⟨_, h2, h3⟩ := C111_outcome f hf p hp n data t h c hc.first
  rcases le_or_gt (c.rank + 1) p.maxDepth with hr | hr
  · exact .inl (h2 (fun l h1 h2 => he l h1 (h2.trans hr)) hr)
  · exact .inr (h3 he hr)

/-- The accepted step is always the one asked for. -/
theorem C111_full_step (f : Arr ℝ → ℝ → Arr ℝ) (hf : ∀ x t t', f x t = f x t') (p : Params ℝ) (hp : LooksAt p) (n : Nat) (data data' : Arr ℝ) (t t' h h' : ℝ) (c c' : State ℝ)
    (hc : UsedF p c) (e : iterateF f p n data t h c = .ok ((data', t'), h', c')) :
    ∃ j, 1 ≤ j ∧ j ≤ c.rank + 1 ∧ j ≤ p.maxDepth ∧ estimate f p n data h j ≤ 1 ∧ (∀ i, i < n → data' i = extrapolated f p.maxDepth data h 0 j i) ∧ c'.rank = j := by
  classical
  obtain ⟨h1, h2, h3⟩ := C111_outcome f hf p hp n data t h c hc.first
  by_cases hex : ∃ j, 1 ≤ j ∧ j ≤ c.rank + 1 ∧ j ≤ p.maxDepth ∧ estimate f p n data h j ≤ 1
  · obtain ⟨a1, a2, a3, a4⟩ := Nat.find_spec hex
    obtain ⟨out, t'', c'', b1, b2, b3, b4⟩ := h1 (Nat.find hex) a1 a2 a3 a4 fun l q1 q2 => by
      by_contra hq
      exact Nat.find_min hex q2 ⟨q1, by omega, by omega, not_lt.1 hq⟩
    rw [e] at b1
    cases b1
    exact ⟨_, a1, a2, a3, a4, b2, b4⟩
  · exfalso
    have hn : ∀ l, 1 ≤ l → l ≤ c.rank + 1 → l ≤ p.maxDepth → 1 < estimate f p n data h l := fun l q1 q2 q3 => by
      by_contra hq
      exact hex ⟨l, q1, q2, q3, not_lt.1 hq⟩
    rcases le_or_gt (c.rank + 1) p.maxDepth with hr | hr
    · rw [h2 (fun l q1 q2 => hn l q1 q2 (q2.trans hr)) hr] at e
      cases e
    · rw [h3 (fun l q1 q2 => hn l q1 (by omega) q2) hr] at e
      cases e

/-- An iterator of depth `D` with the absolute tolerance `tol` and the largest deviation of a variable as its error (the `WorstOffender` with relative tolerance 0); any step
controller. -/
noncomputable def tolerant (D : Nat) (tol : ℝ) (next limiter : Nat → ℝ → ℝ) : Params ℝ :=
  ⟨D, false, fun x y z => ((List.range x.length).map fun i => |z i - y i| / tol).foldr max 0, next, limiter⟩

theorem tolerant_looks (D : Nat) (tol : ℝ) (next limiter : Nat → ℝ → ℝ) : LooksAt (tolerant D tol next limiter) := by
  intro x y z y' z' h
  show ((List.range x.length).map fun i => |z i - y i| / tol).foldr max 0 = ((List.range x.length).map fun i => |z' i - y' i| / tol).foldr max 0
  congr 1
  refine List.map_congr_left fun i hi => ?_
  obtain ⟨h1, h2⟩ := h i (List.mem_range.1 hi)
  rw [h1, h2]

theorem tolerant_estimate (f : Arr ℝ → ℝ → Arr ℝ) (D : Nat) {tol : ℝ} (ht : 0 < tol) (next limiter : Nat → ℝ → ℝ) (data : Arr ℝ) (h : ℝ) (k : Nat) :
    estimate f (tolerant D tol next limiter) 1 data h k = |extrapolated f D data h 0 k 0 - extrapolated f D data h 1 k 0| / tol := by
  show max (|extrapolated f D data h 0 k 0 - extrapolated f D data h 1 k 0| / tol) 0 = _
  exact max_eq_left (by positivity)

/-- exponential growth -/
def growth : Arr ℝ → ℝ → Arr ℝ := fun x _ => x

theorem growth_runs (h : ℝ) (i : Nat) : gragg growth (fun _ => 1) 0 h 1 i = 1 + h + h ^ 2 / 2 ∧ gragg growth (fun _ => 1) 0 h 2 i = 1 + h + h ^ 2 / 2 + h ^ 3 / 8 ∧
    gragg growth (fun _ => 1) 0 h 3 i = 1 + h + h ^ 2 / 2 + 4 * h ^ 3 / 27 + 2 * h ^ 4 / 81 ∧
    gragg growth (fun _ => 1) 0 h 5 i = 1 + h + h ^ 2 / 2 + 20 * h ^ 3 / 125 + 22 * h ^ 4 / 625 + 16 * h ^ 5 / 3125 + 8 * h ^ 6 / 15625 := by
  refine ⟨?_, ?_, ?_, ?_⟩ <;>
  · simp only [gragg, graggPoint, growth, Nat.reduceSub]
    push_cast
    ring

/-- the errors of the columns for exponential growth from 1 -/
theorem growth_err {D : Nat} (h2 : 2 ≤ D) (h10 : D ≤ 10) (h : ℝ) :
    extrapolated growth D (fun _ => 1) h 0 1 0 - extrapolated growth D (fun _ => 1) h 1 1 0 = h ^ 3 / 24 ∧
    extrapolated growth D (fun _ => 1) h 0 2 0 - extrapolated growth D (fun _ => 1) h 1 2 0 = h ^ 4 / 180 ∧
    (3 ≤ D → extrapolated growth D (fun _ => 1) h 0 3 0 - extrapolated growth D (fun _ => 1) h 1 3 0 = h ^ 6 / 25200 + h ^ 5 / 2520 - h ^ 4 / 2520) := by
  obtain ⟨g1, g2, g3, g5⟩ := growth_runs h 0
  have s0 : hSeq D 0 = 1 := by unfold hSeq; rw [if_pos (by omega)]; rfl
  have s1 : hSeq D 1 = 2 := by unfold hSeq; rw [if_pos (by omega)]; rfl
  have s2 : hSeq D 2 = 3 := by unfold hSeq; rw [if_pos (by omega)]; rfl
  have s3 : hSeq D 3 = 5 := by unfold hSeq; rw [if_pos (by omega)]; rfl
  unfold extrapolated
  set y : Nat → ℝ := fun m => gragg growth (fun _ => 1) 0 h (hSeq D m) 0 with hy
  have y0 : y 0 = _ := (congrArg (fun q => gragg growth (fun _ => 1) 0 h q 0) s0).trans g1
  have y1 : y 1 = _ := (congrArg (fun q => gragg growth (fun _ => 1) 0 h q 0) s1).trans g2
  have y2 : y 2 = _ := (congrArg (fun q => gragg growth (fun _ => 1) 0 h q 0) s2).trans g3
  have y3 : y 3 = _ := (congrArg (fun q => gragg growth (fun _ => 1) 0 h q 0) s3).trans g5
  have z01 := zeroStep_step (D := D) (a := 0) (k := 1) y (by omega) (by omega)
  have z12 := zeroStep_step (D := D) (a := 1) (k := 2) y (by omega) (by omega)
  have z02 := zeroStep_step (D := D) (a := 0) (k := 2) y (by omega) (by omega)
  simp only [Nat.zero_add, Nat.sub_self, Nat.reduceSub, Nat.reduceAdd, zeroStep_self, s0, s1, s2, y0, y1, y2] at z01 z12 z02
  refine ⟨?_, ?_, fun h3 => ?_⟩
  · rw [z01, zeroStep_self, y1]
    push_cast
    ring
  · rw [z02, z12, z01]
    push_cast
    ring
  · have z23 := zeroStep_step (D := D) (a := 2) (k := 3) y (by omega) (by omega)
    have z13 := zeroStep_step (D := D) (a := 1) (k := 3) y (by omega) (by omega)
    have z03 := zeroStep_step (D := D) (a := 0) (k := 3) y (by omega) (by omega)
    simp only [Nat.zero_add, Nat.reduceSub, Nat.reduceAdd, zeroStep_self, s0, s1, s2, s3, y2, y3] at z23 z13 z03
    rw [z03, z13, z23, z02, z12, z01]
    push_cast
    ring

/-- from 0 there are no errors -/
theorem rest_err {D : Nat} (h2 : 1 ≤ D) (h10 : D ≤ 10) (h : ℝ) : extrapolated growth D (fun _ => 0) h 0 1 0 - extrapolated growth D (fun _ => 0) h 1 1 0 = 0 := by
  have s0 : hSeq D 0 = 1 := by unfold hSeq; rw [if_pos (by omega)]; rfl
  have s1 : hSeq D 1 = 2 := by unfold hSeq; rw [if_pos (by omega)]; rfl
  unfold extrapolated
  rw [zeroStep_step (D := D) (a := 0) (k := 1) _ (by omega) (by omega)]
  simp only [Nat.zero_add, Nat.sub_self, zeroStep_self, s0, s1, gragg, graggPoint, growth, Nat.reduceSub]
  norm_num

/-- **C111 is false of the code: an easy call spoils the next one.** The default depth 7, the tolerance 1/1000, any step controller, the derivative `x ↦ x`.  A new iterator
integrates from 1 over the step 1.  The same iterator, after a call that started from 0 (where nothing moves), terminates the process at that step, but integrates half of it. -/
theorem C111_easy_call_spoils (next limiter : Nat → ℝ → ℝ) (t : ℝ) :
    (∃ out t' h' c', iterateF growth (tolerant 7 (1 / 1000) next limiter) 1 (fun _ => 1) t 1 (State.init 7) = .ok ((out, t'), h', c')) ∧
    ∃ out t' h' c', iterateF growth (tolerant 7 (1 / 1000) next limiter) 1 (fun _ => 0) t 1 (State.init 7) = .ok ((out, t'), h', c') ∧
      iterateF growth (tolerant 7 (1 / 1000) next limiter) 1 (fun _ => 1) t' 1 c' = .abort ∧
      ∃ out' t'' h'' c'', iterateF growth (tolerant 7 (1 / 1000) next limiter) 1 (fun _ => 1) t' (1 / 2) c' = .ok ((out', t''), h'', c'') := by
  have hp := tolerant_looks 7 (1 / 1000) next limiter
  have est : ∀ (data : Arr ℝ) h k, estimate growth (tolerant 7 (1 / 1000) next limiter) 1 data h k =
      |extrapolated growth 7 data h 0 k 0 - extrapolated growth 7 data h 1 k 0| / (1 / 1000) := fun data h k =>
    tolerant_estimate growth 7 (by norm_num) next limiter data h k
  have out := fun data t h c hc => C111_outcome growth (fun _ _ _ => rfl) (tolerant 7 (1 / 1000) next limiter) hp 1 data t h c hc
  obtain ⟨a1, a2, a3⟩ := growth_err (D := 7) (by norm_num) (by norm_num) 1
  obtain ⟨b1, b2, _⟩ := growth_err (D := 7) (by norm_num) (by norm_num) (1 / 2)
  have a3 := a3 (by norm_num)
  have e1 : 1 < estimate growth (tolerant 7 (1 / 1000) next limiter) 1 (fun _ => 1) 1 1 := by rw [est, a1]; norm_num
  have e2 : 1 < estimate growth (tolerant 7 (1 / 1000) next limiter) 1 (fun _ => 1) 1 2 := by rw [est, a2]; norm_num
  have e3 : estimate growth (tolerant 7 (1 / 1000) next limiter) 1 (fun _ => 1) 1 3 ≤ 1 := by rw [est, a3]; norm_num
  have d1 : 1 < estimate growth (tolerant 7 (1 / 1000) next limiter) 1 (fun _ => 1) (1 / 2) 1 := by rw [est, b1]; norm_num
  have d2 : estimate growth (tolerant 7 (1 / 1000) next limiter) 1 (fun _ => 1) (1 / 2) 2 ≤ 1 := by rw [est, b2]; norm_num
  have z1 : estimate growth (tolerant 7 (1 / 1000) next limiter) 1 (fun _ => 0) 1 1 ≤ 1 := by rw [est, rest_err (by norm_num) (by norm_num)]; norm_num
  have e12 : ∀ l, 1 ≤ l → l < 3 → 1 < estimate growth (tolerant 7 (1 / 1000) next limiter) 1 (fun _ => 1) 1 l := fun l h1 h2 => by
    rcases (by omega : l = 1 ∨ l = 2) with rfl | rfl
    · exact e1
    · exact e2
  constructor
  · obtain ⟨o, t', c', q, _⟩ := (out (fun _ => 1) t 1 (State.init 7) rfl).1 3 (by norm_num) (by decide) (by show 3 ≤ 7; norm_num) e3 e12
    exact ⟨o, t', _, c', q⟩
  · obtain ⟨o, t', c', q, _, hf, hr⟩ := (out (fun _ => 0) t 1 (State.init 7) rfl).1 1 le_rfl (by decide) (by show 1 ≤ 7; norm_num) z1 (fun l h1 h2 => by omega)
    refine ⟨o, t', _, c', q, (out (fun _ => 1) t' 1 c' hf).2.1 (fun l h1 h2 => ?_) (by rw [hr]; show 2 ≤ 7; norm_num), ?_⟩
    · rw [hr] at h2
      exact e12 l h1 (by omega)
    · obtain ⟨o', t'', c'', q', _⟩ := (out (fun _ => 1) t' (1 / 2) c' hf).1 2 (by norm_num) (by rw [hr]) (by show 2 ≤ 7; norm_num) d2 (fun l h1 h2 => by
        obtain rfl : l = 1 := by omega
        exact d1)
      exact ⟨o', t'', _, c'', q'⟩

/-- **C111 is false of the code: the tables are left.** The target order is not limited: after a call that was accepted in the last column, a call without an acceptable
column reads and writes behind the tables.  Any depth, function and data. -/
theorem C111_leaves_its_tables (f : Arr ℝ → ℝ → Arr ℝ) (hf : ∀ x t t', f x t = f x t') (p : Params ℝ) (hp : LooksAt p) (n : Nat) (data : Arr ℝ) (t h : ℝ) (c c' : State ℝ)
    (hc : UsedF p c) (hr : p.maxDepth ≤ c.rank + 1) (hD : 1 ≤ p.maxDepth) (hlast : estimate f p n data h p.maxDepth ≤ 1)
    (hbefore : ∀ l, 1 ≤ l → l < p.maxDepth → 1 < estimate f p n data h l) {data1 : Arr ℝ} {t1 h1 : ℝ} (e : iterateF f p n data t h c = .ok ((data1, t1), h1, c'))
    (data2 : Arr ℝ) (t2 h2 : ℝ) (hnone : ∀ l, 1 ≤ l → l ≤ p.maxDepth → 1 < estimate f p n data2 h2 l) : iterateF f p n data2 t2 h2 c' = .ub := by
  obtain ⟨out, t', c'', a1, _, a3, a4⟩ := (C111_outcome f hf p hp n data t h c hc.first).1 p.maxDepth hD hr le_rfl hlast hbefore
  rw [e] at a1
  cases a1
  exact (C111_outcome f hf p hp n data2 t2 h2 c' a3).2.2 hnone (by rw [a4]; omega)

/-- Concretely: depth 2, tolerance 1/100, growth from 1 over the step 1 and then over the step 2. -/
example (next limiter : Nat → ℝ → ℝ) (t : ℝ) : ∃ out t' h' c', iterateF growth (tolerant 2 (1 / 100) next limiter) 1 (fun _ => 1) t 1 (State.init 2) = .ok ((out, t'), h', c') ∧
    iterateF growth (tolerant 2 (1 / 100) next limiter) 1 (fun _ => 1) t' 2 c' = .ub := by
  have hp := tolerant_looks 2 (1 / 100) next limiter
  have est : ∀ (data : Arr ℝ) h k, estimate growth (tolerant 2 (1 / 100) next limiter) 1 data h k =
      |extrapolated growth 2 data h 0 k 0 - extrapolated growth 2 data h 1 k 0| / (1 / 100) := fun data h k =>
    tolerant_estimate growth 2 (by norm_num) next limiter data h k
  obtain ⟨a1, a2, _⟩ := growth_err (D := 2) le_rfl (by norm_num) 1
  obtain ⟨b1, b2, _⟩ := growth_err (D := 2) le_rfl (by norm_num) 2
  have e1 : 1 < estimate growth (tolerant 2 (1 / 100) next limiter) 1 (fun _ => 1) 1 1 := by rw [est, a1]; norm_num
  have e2 : estimate growth (tolerant 2 (1 / 100) next limiter) 1 (fun _ => 1) 1 2 ≤ 1 := by rw [est, a2]; norm_num
  have d1 : 1 < estimate growth (tolerant 2 (1 / 100) next limiter) 1 (fun _ => 1) 2 1 := by rw [est, b1]; norm_num
  have d2 : 1 < estimate growth (tolerant 2 (1 / 100) next limiter) 1 (fun _ => 1) 2 2 := by rw [est, b2]; norm_num
  have hb : ∀ l, 1 ≤ l → l < 2 → 1 < estimate growth (tolerant 2 (1 / 100) next limiter) 1 (fun _ => 1) 1 l := fun l h1 h2 => by interval_cases l; exact e1
  obtain ⟨o, t', c', q, _⟩ := (C111_outcome growth (fun _ _ _ => rfl) (tolerant 2 (1 / 100) next limiter) hp 1 (fun _ => 1) t 1 (State.init 2) rfl).1 2 (by norm_num) le_rfl le_rfl e2 hb
  exact ⟨o, t', _, c', q, C111_leaves_its_tables growth (fun _ _ _ => rfl) (tolerant 2 (1 / 100) next limiter) hp 1 (fun _ => 1) t 1 (State.init 2) c' UsedF.new le_rfl
    (by show 1 ≤ 2; norm_num) e2 hb q (fun _ => 1) t' 2 (fun l h1 h2 => by
      have h2 : l ≤ 2 := h2
      rcases (by omega : l = 1 ∨ l = 2) with rfl | rfl
      · exact d1
      · exact d2)⟩

/-- and a case of `C111_never_shortens`: over the step 2 the iterator of depth 2 gives up -/
example (next limiter : Nat → ℝ → ℝ) (l : Nat) (h1 : 1 ≤ l) (h2 : l ≤ 2) : 1 < estimate growth (tolerant 2 (1 / 100) next limiter) 1 (fun _ => 1) 2 l := by
  obtain ⟨b1, b2, _⟩ := growth_err (D := 2) le_rfl (by norm_num) 2
  interval_cases l
  · rw [tolerant_estimate growth 2 (by norm_num), b1]; norm_num
  · rw [tolerant_estimate growth 2 (by norm_num), b2]; norm_num

end SpaceHub.BS
