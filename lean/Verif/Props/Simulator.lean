import Verif.Spec.Simulator
import Verif.Proof.SysBase
import Verif.Props.Time

/-
C20-C23: runs of the simulator.
-/

set_option autoImplicit false

namespace SpaceHub.Simu
open SpaceHub Spec SpaceHub.Sys

variable {S : Type}

theorem callAll_log (l : List Nat) (e : Nat → ℝ → S → Event S) (h : ℝ) (w : List (Event S)) (s : S) :
    callAll (l.map fun i h (x : List (Event S) × S) => (x.1 ++ [e i h x.2], x.2)) h (w, s) =
      (w ++ l.map (fun i => e i h s), s) := by
  unfold callAll
  induction l generalizing w with
  | nil => simp
  | cons i l ih =>
    simp only [List.map_cons, List.foldl_cons]
    rw [ih]
    simp

theorem checkStops_log (h : ℝ) (conds : List (ℝ → S → Bool)) (i : Nat) (w : List (Event S)) (s : S) :
    checkStops h ((conds.zipIdx i).map fun ci =>
      ({ Mem := Unit, mem := (), call := fun _ h x => (ci.1 h x.2, (), (x.1 ++ [.asked ci.2 h x.2], x.2)) } :
        StopCond (List (Event S)) S)) (w, s) =
      (conds.any (fun c => c h s), (w ++ asks h s i conds, s)) := by
  induction conds generalizing i w with
  | nil => simp [checkStops, asks]
  | cons c cs ih =>
    simp only [List.zipIdx_cons, List.map_cons, checkStops]
    cases hc : c h s with
    | true => simp [asks, hc]
    | false =>
      simp only [Bool.false_eq_true, if_false]
      rw [ih]
      simp [asks, hc]

theorem notAtEnd_iff (t tEnd rtol : ℝ) : notAtEnd t tEnd rtol = true ↔ ¬ AtEnd t tEnd rtol := by
  unfold notAtEnd AtEnd
  split_ifs with h
  · simp
  · rw [decide_eq_true_iff, not_le, abs_div, gt_iff_lt, lt_div_iff₀ (abs_pos.2 h)]

theorem any_iff (conds : List (ℝ → S → Bool)) (h : ℝ) (s : S) :
    conds.any (fun c => c h s) = true ↔ Stops conds h s := by
  simp [Stops]

/-- the record of one round -/
noncomputable def roundLog (M : Machine S) (tEnd : ℝ) (b : Nat) (conds : List (ℝ → S → Bool)) (p : ℝ) (s : S) :
    List (Event S) :=
  asks p s 0 conds ++ group (fun i => .step i (shortened M tEnd p s) s) b

open Classical in
/-- the record of the last check -/
noncomputable def lastLog (M : Machine S) (tEnd rtol : ℝ) (conds : List (ℝ → S → Bool)) (p : ℝ) (s : S) : List (Event S) :=
  if AtEnd (M.time s) tEnd rtol then [] else asks p s 0 conds

theorem loop_iff (M : Machine S) (h0 : ℝ) (eo : Option ℝ) (rtol : ℝ) (a b c : Nat) (conds : List (ℝ → S → Bool))
    (tEnd : ℝ) (fuel : Nat) (h h' : ℝ) (w w' : List (Event S)) (s0 s' : S) :
    loop M (recording h0 eo rtol a b c conds) tEnd fuel h (w, s0) = .ok (h', (w', s')) ↔
    ∃ n, n < fuel ∧ ∃ (s : Nat → S) (p : Nat → ℝ), s 0 = s0 ∧ p 0 = h ∧ Steps M tEnd n s p ∧
      (∀ k, k < n → ¬ AtEnd (M.time (s k)) tEnd rtol ∧ ¬ Stops conds (p k) (s k)) ∧
      (AtEnd (M.time (s n)) tEnd rtol ∨ Stops conds (p n) (s n)) ∧
      s' = s n ∧ h' = p n ∧
      w' = w ++ (List.range n).flatMap (fun k => roundLog M tEnd b conds (p k) (s k)) ++
        lastLog M tEnd rtol conds (p n) (s n) := by
  induction fuel generalizing h w s0 with
  | zero => simp [loop]
  | succ fuel ih =>
    rw [loop]
    dsimp only
    by_cases hend : AtEnd (M.time s0) tEnd rtol
    · have hb : ¬ (notAtEnd (M.time s0) tEnd (recording h0 eo rtol a b c conds).timeRtol = true) := by
        rw [notAtEnd_iff]; exact not_not.2 hend
      rw [if_neg hb]
      constructor
      · intro e
        cases e
        exact ⟨0, by omega, fun _ => s', fun _ => h', rfl, rfl, fun k hk => absurd hk (by omega),
          fun k hk => absurd hk (by omega), .inl hend, rfl, rfl, by simp [lastLog, hend]⟩
      · rintro ⟨n, hn, s, p, rfl, rfl, hst, hgo, hstop, rfl, rfl, rfl⟩
        have : n = 0 := by
          by_contra hne
          exact (hgo 0 (by omega)).1 hend
        subst this
        simp [lastLog, hend]
    · have hb : notAtEnd (M.time s0) tEnd (recording h0 eo rtol a b c conds).timeRtol = true := by
        rw [notAtEnd_iff]; exact hend
      rw [if_pos hb]
      have hc := checkStops_log h conds 0 w s0
      change checkStops h (recording h0 eo rtol a b c conds).stopCond (w, s0) = _ at hc
      rw [hc]
      dsimp only
      by_cases hst : Stops conds h s0
      · rw [if_pos ((any_iff _ _ _).2 hst)]
        constructor
        · intro e
          cases e
          exact ⟨0, by omega, fun _ => s', fun _ => h', rfl, rfl, fun k hk => absurd hk (by omega),
            fun k hk => absurd hk (by omega), .inr hst, rfl, rfl, by simp [lastLog, hend]⟩
        · rintro ⟨n, hn, s, p, rfl, rfl, hsteps, hgo, hstop, rfl, rfl, rfl⟩
          have : n = 0 := by
            by_contra hne
            exact (hgo 0 (by omega)).2 hst
          subst this
          simp [lastLog, hend]
      · rw [if_neg (fun e => hst ((any_iff _ _ _).1 e))]
        have ho := callAll_log (List.range b) Event.step (clipStep M tEnd h s0) (w ++ asks h s0 0 conds) s0
        change callAll (recording h0 eo rtol a b c conds).opts (clipStep M tEnd h s0) (w ++ asks h s0 0 conds, s0) = _ at ho
        rw [ho]
        have hcs : clipStep M tEnd h s0 = shortened M tEnd h s0 := rfl
        rw [hcs]
        constructor
        · intro e
          obtain ⟨y, e1, e2⟩ := Res.bind_eq_ok.1 e
          obtain ⟨n, hn, s, p, hs0, hp0, hsteps, hgo, hstop, rfl, rfl, rfl⟩ := (ih _ _ _).1 e2
          refine ⟨n + 1, by omega, fun k => if k = 0 then s0 else s (k - 1), fun k => if k = 0 then h else p (k - 1),
            rfl, rfl, ?_, ?_, ?_, ?_, ?_, ?_⟩
          · intro k hk
            rcases k with _ | k
            · simp only [if_true, Nat.zero_add, one_ne_zero, if_false, Nat.sub_self, hs0, hp0]; exact e1
            · simpa using hsteps k (by omega)
          · intro k hk
            rcases k with _ | k
            · exact ⟨hend, hst⟩
            · simpa using hgo k (by omega)
          · simpa using hstop
          · simp
          · simp
          · simp [List.range_succ_eq_map, List.flatMap_map, roundLog, group]
        · rintro ⟨n, hn, s, p, rfl, rfl, hsteps, hgo, hstop, rfl, rfl, rfl⟩
          rcases n with _ | n
          · rcases hstop with hx | hx
            · exact absurd hx hend
            · exact absurd hx hst
          refine Res.bind_eq_ok.2 ⟨_, hsteps 0 (by omega), ?_⟩
          refine (ih _ _ _).2 ⟨n, by omega, fun k => s (k + 1), fun k => p (k + 1), rfl, rfl, ?_, ?_, hstop, rfl, rfl, ?_⟩
          · intro k hk; exact hsteps (k + 1) (by omega)
          · intro k hk; exact hgo (k + 1) (by omega)
          · simp [List.range_succ_eq_map, List.flatMap_map, roundLog, group]


/-- the step size a run starts with -/
noncomputable def firstStep (M : Machine S) (h : ℝ) (s : S) : ℝ := if h = 0 then M.defaultStep s else h

theorem run_iff (tHubble : ℝ) (M : Machine S) (h : ℝ) (eo : Option ℝ) (rtol : ℝ) (a b c : Nat)
    (conds : List (ℝ → S → Bool)) (fuel : Nat) (s0 s' : S) (w : List (Event S))
    (hset : conds ≠ [] ∨ eo ≠ none) (hsc : M.scale s0 ≠ 0) :
    run tHubble M (recording h eo rtol a b c conds) fuel ([], s0) = .ok (w, s') ↔
    ∃ n, n < fuel ∧ ∃ (s : Nat → S) (p : Nat → ℝ), s 0 = s0 ∧ p 0 = firstStep M h s0 ∧ Steps M (eo.getD tHubble) n s p ∧
      (∀ k, k < n → ¬ AtEnd (M.time (s k)) (eo.getD tHubble) rtol ∧ ¬ Stops conds (p k) (s k)) ∧
      (AtEnd (M.time (s n)) (eo.getD tHubble) rtol ∨ Stops conds (p n) (s n)) ∧
      s' = s n ∧
      w = group (fun i => .start i (firstStep M h s0) s0) a ++
        (List.range n).flatMap (fun k => roundLog M (eo.getD tHubble) b conds (p k) (s k)) ++
        lastLog M (eo.getD tHubble) rtol conds (p n) (s n) ++ group (fun i => .step i (p n) (s n)) b ++
        group (fun i => .stop i (p n) (s n)) c := by
  unfold run
  have h1 : ¬ ((recording h eo rtol a b c conds).stopCond = [] ∧ (recording h eo rtol a b c conds).endTime = none) := by
    rintro ⟨h2, h3⟩
    rcases hset with hc | he
    · apply hc
      cases conds with
      | nil => rfl
      | cons c cs => simp [recording] at h2
    · exact he h3
  rw [if_neg h1]
  dsimp only
  rw [if_neg hsc]
  have hs := callAll_log (List.range a) Event.start (firstStep M h s0) [] s0
  change callAll (recording h eo rtol a b c conds).startOpts (firstStep M h s0) ([], s0) = _ at hs
  have e0 : (if (recording h eo rtol a b c conds).stepSize = 0 then M.defaultStep s0
      else (recording h eo rtol a b c conds).stepSize) = firstStep M h s0 := rfl
  have e1 : (recording h eo rtol a b c conds).endTime = eo := rfl
  rw [e0, e1, hs]
  have hfin : ∀ (q : ℝ) (w : List (Event S)) (s : S),
      callAll (recording h eo rtol a b c conds).stopOpts q (callAll (recording h eo rtol a b c conds).opts q (w, s)) =
        (w ++ group (fun i => .step i q s) b ++ group (fun i => .stop i q s) c, s) := by
    intro q w s
    have h1 := callAll_log (List.range b) Event.step q w s
    change callAll (recording h eo rtol a b c conds).opts q (w, s) = _ at h1
    rw [h1]
    have h2 := callAll_log (List.range c) Event.stop q (w ++ (List.range b).map (fun i => Event.step i q s)) s
    change callAll (recording h eo rtol a b c conds).stopOpts q _ = _ at h2
    rw [h2]
    rfl
  constructor
  · intro e
    obtain ⟨⟨q, w1, s1⟩, e1, e2⟩ := Res.bind_eq_ok.1 e
    dsimp only at e2
    rw [hfin] at e2
    cases e2
    obtain ⟨n, hn, s, p, hs0, hp0, hst, hgo, hstop, rfl, rfl, rfl⟩ := (loop_iff ..).1 e1
    exact ⟨n, hn, s, p, hs0, hp0, hst, hgo, hstop, rfl, by simp [group, List.append_assoc]⟩
  · rintro ⟨n, hn, s, p, hs0, hp0, hst, hgo, hstop, rfl, rfl⟩
    refine Res.bind_eq_ok.2 ⟨_, (loop_iff ..).2 ⟨n, hn, s, p, hs0, hp0, hst, hgo, hstop, rfl, rfl, rfl⟩, ?_⟩
    dsimp only
    rw [hfin]
    simp [group, List.append_assoc]

/-- calls of operations, as opposed to questions to stop conditions -/
def isCall : Event S → Bool
  | .asked _ _ _ => false
  | _ => true

theorem asks_calls (h : ℝ) (s : S) (i : Nat) (conds : List (ℝ → S → Bool)) : (asks h s i conds).filter isCall = [] := by
  induction conds generalizing i with
  | nil => rfl
  | cons c cs ih =>
    rw [asks, List.filter_cons_of_neg (by simp [isCall])]
    split_ifs
    · rfl
    · exact ih _

theorem group_calls (e : Nat → Event S) (he : ∀ i, isCall (e i) = true) (n : Nat) : (group e n).filter isCall = group e n := by
  unfold group
  rw [List.filter_eq_self]
  intro x hx
  obtain ⟨i, _, rfl⟩ := List.mem_map.1 hx
  exact he i

/-- Callback discipline.  In every run that returns, with any system, iterator, end time and stop conditions: there is a
sequence of states `s 0, ..., s n`, each obtained from the previous by one step of the iterator (with the step size
shortened so as not to pass the end time), and the calls made are exactly: every start operation once, in order, on
`s 0`; then for each `k < n` every operation once, in order, on `s k` with the step about to be made; then every
operation once, in order, on the last state `s n`; then every stop operation once, in order, on `s n`. -/
theorem C20_callbacks (tHubble : ℝ) (M : Machine S) (h : ℝ) (eo : Option ℝ) (rtol : ℝ) (a b c : Nat)
    (conds : List (ℝ → S → Bool)) (fuel : Nat) (s0 s' : S) (w : List (Event S))
    (hset : conds ≠ [] ∨ eo ≠ none) (hsc : M.scale s0 ≠ 0)
    (e : run tHubble M (recording h eo rtol a b c conds) fuel ([], s0) = .ok (w, s')) :
    ∃ (n : Nat) (s : Nat → S) (p : Nat → ℝ), s 0 = s0 ∧ p 0 = (if h = 0 then M.defaultStep s0 else h) ∧ s n = s' ∧
      Steps M (eo.getD tHubble) n s p ∧
      w.filter isCall = group (fun i => .start i (p 0) (s 0)) a ++
        (List.range n).flatMap (fun k => group (fun i => .step i (shortened M (eo.getD tHubble) (p k) (s k)) (s k)) b) ++
        group (fun i => .step i (p n) (s n)) b ++ group (fun i => .stop i (p n) (s n)) c := by
  obtain ⟨n, _, s, p, hs0, hp0, hst, _, _, rfl, rfl⟩ := (run_iff _ _ _ _ _ _ _ _ _ _ _ _ _ hset hsc).1 e
  refine ⟨n, s, p, hs0, hp0, rfl, hst, ?_⟩
  simp only [List.filter_append]
  rw [group_calls _ (fun _ => rfl), group_calls _ (fun _ => rfl), group_calls _ (fun _ => rfl)]
  have h2 : (lastLog M (eo.getD tHubble) rtol conds (p n) (s n)).filter isCall = [] := by
    unfold lastLog; split_ifs
    · rfl
    · exact asks_calls _ _ _ _
  have h3 : ((List.range n).flatMap (fun k => roundLog M (eo.getD tHubble) b conds (p k) (s k))).filter isCall =
      (List.range n).flatMap (fun k => group (fun i => .step i (shortened M (eo.getD tHubble) (p k) (s k)) (s k)) b) := by
    rw [List.filter_flatMap]
    congr 1
    funext k
    simp only [roundLog, List.filter_append, asks_calls, List.nil_append]
    exact group_calls _ (fun _ => rfl) _
  rw [h2, h3, List.append_nil, hs0, hp0]

/-- A run without end time and without stop condition is refused; a system whose step scale is zero is returned as it
is, without a single callback. -/
theorem C20_refusals (tHubble : ℝ) (M : Machine S) {W : Type} (A : RunArgs W S) (fuel : Nat) (x : W × S) :
    (A.stopCond = [] → A.endTime = none → run tHubble M A fuel x = .abort) ∧
    (¬ (A.stopCond = [] ∧ A.endTime = none) → M.scale x.2 = 0 → run tHubble M A fuel x = .ok x) := by
  constructor
  · intro h1 h2
    unfold run
    rw [if_pos ⟨h1, h2⟩]
  · intro h1 h2
    unfold run
    rw [if_neg h1]
    dsimp only
    rw [if_pos h2]

/-- A run stops at the first visited state whose time counts as the end time or on which a stop condition holds: the run
returns `s'` if and only if `s'` is the first such state of the evolution. -/
theorem C22_first_stop (tHubble : ℝ) (M : Machine S) (h : ℝ) (eo : Option ℝ) (rtol : ℝ) (a b c : Nat)
    (conds : List (ℝ → S → Bool)) (s0 s' : S) (hset : conds ≠ [] ∨ eo ≠ none) (hsc : M.scale s0 ≠ 0) :
    (∃ fuel w, run tHubble M (recording h eo rtol a b c conds) fuel ([], s0) = .ok (w, s')) ↔
    ∃ (n : Nat) (s : Nat → S) (p : Nat → ℝ), s 0 = s0 ∧ p 0 = (if h = 0 then M.defaultStep s0 else h) ∧ s n = s' ∧
      Steps M (eo.getD tHubble) n s p ∧
      (AtEnd (M.time (s n)) (eo.getD tHubble) rtol ∨ Stops conds (p n) (s n)) ∧
      ∀ k, k < n → ¬ (AtEnd (M.time (s k)) (eo.getD tHubble) rtol ∨ Stops conds (p k) (s k)) := by
  constructor
  · rintro ⟨fuel, w, e⟩
    obtain ⟨n, _, s, p, hs0, hp0, hst, hgo, hstop, rfl, rfl⟩ := (run_iff _ _ _ _ _ _ _ _ _ _ _ _ _ hset hsc).1 e
    exact ⟨n, s, p, hs0, hp0, rfl, hst, hstop, fun k hk => not_or.2 (hgo k hk)⟩
  · rintro ⟨n, s, p, hs0, hp0, hs', hst, hstop, hgo⟩
    exact ⟨n + 1, _, (run_iff _ _ _ _ _ _ _ _ _ _ _ _ _ hset hsc).2
      ⟨n, by omega, s, p, hs0, hp0, hst, fun k hk => not_or.1 (hgo k hk), hstop, hs'.symm, rfl⟩⟩

/-- questions to stop conditions -/
def isQuestion (e : Event S) : Bool := !isCall e

theorem asks_questions (h : ℝ) (s : S) (i : Nat) (conds : List (ℝ → S → Bool)) :
    (asks h s i conds).filter isQuestion = asks h s i conds := by
  induction conds generalizing i with
  | nil => rfl
  | cons c cs ih =>
    rw [asks, List.filter_cons_of_pos (by simp [isQuestion, isCall])]
    split_ifs
    · rfl
    · rw [ih]

theorem group_questions (e : Nat → Event S) (he : ∀ i, isCall (e i) = true) (n : Nat) :
    (group e n).filter isQuestion = [] := by
  unfold group
  rw [List.filter_eq_nil_iff]
  intro x hx
  obtain ⟨i, _, rfl⟩ := List.mem_map.1 hx
  simp [isQuestion, he i]

/-- The stop conditions are asked on every visited state, in registration order, those behind the first that holds are
not asked; on the last state only if its time is not yet the end time. -/
theorem C22_questions (tHubble : ℝ) (M : Machine S) (h : ℝ) (eo : Option ℝ) (rtol : ℝ) (a b c : Nat)
    (conds : List (ℝ → S → Bool)) (fuel : Nat) (s0 s' : S) (w : List (Event S))
    (hset : conds ≠ [] ∨ eo ≠ none) (hsc : M.scale s0 ≠ 0)
    (e : run tHubble M (recording h eo rtol a b c conds) fuel ([], s0) = .ok (w, s')) :
    ∃ (n : Nat) (s : Nat → S) (p : Nat → ℝ), s 0 = s0 ∧ p 0 = (if h = 0 then M.defaultStep s0 else h) ∧ s n = s' ∧
      Steps M (eo.getD tHubble) n s p ∧
      (AtEnd (M.time (s n)) (eo.getD tHubble) rtol → w.filter isQuestion =
        (List.range n).flatMap (fun k => asks (p k) (s k) 0 conds)) ∧
      (¬ AtEnd (M.time (s n)) (eo.getD tHubble) rtol → w.filter isQuestion =
        (List.range (n + 1)).flatMap (fun k => asks (p k) (s k) 0 conds)) := by
  obtain ⟨n, _, s, p, hs0, hp0, hst, _, _, rfl, rfl⟩ := (run_iff _ _ _ _ _ _ _ _ _ _ _ _ _ hset hsc).1 e
  refine ⟨n, s, p, hs0, hp0, rfl, hst, ?_⟩
  have h3 : ((List.range n).flatMap (fun k => roundLog M (eo.getD tHubble) b conds (p k) (s k))).filter isQuestion =
      (List.range n).flatMap (fun k => asks (p k) (s k) 0 conds) := by
    rw [List.filter_flatMap]
    congr 1
    funext k
    simp only [roundLog, List.filter_append, asks_questions]
    rw [group_questions _ (fun _ => rfl), List.append_nil]
  simp only [List.filter_append]
  rw [group_questions _ (fun _ => rfl), group_questions _ (fun _ => rfl), group_questions _ (fun _ => rfl), h3]
  constructor
  · intro hx
    simp [lastLog, hx]
  · intro hx
    simp [lastLog, hx, List.range_succ, asks_questions]

/-! ### constant steps -/

/-- a system without regularisation under a constant-step iterator -/
def ConstStep (M : Machine S) : Prop :=
  (∀ s, M.scale s = 1) ∧ ∀ h s, ∃ s', M.advance h s = .ok (s', h) ∧ M.time s' = M.time s + h

open Integrator in
theorem constSimple_constStep (big G : ℝ) (I : Interactions) {stages : List Stage}
    (hs : stages ∈ [symplectic2nd, leapFrogKDK, symplectic4th]) : ConstStep (constSimple big G I stages) := by
  refine ⟨fun _ => rfl, fun h s => ?_⟩
  obtain ⟨s', e, ht⟩ := C17_exact_integrators I h (s.preIter I) stages hs
  refine ⟨s', Res.bind_eq_ok.2 ⟨s', e, rfl⟩, ?_⟩
  change s'.time = s.time + h
  rw [ht]
  unfold Simple.preIter
  split_ifs <;> rfl

theorem atEnd_self (T rtol : ℝ) (hr : 0 ≤ rtol) : AtEnd T T rtol := by
  unfold AtEnd
  split_ifs with h
  · exact h
  · rw [sub_self, abs_zero]; positivity

theorem reach {M : Machine S} (hM : ConstStep M) (conds : List (ℝ → S → Bool)) (T rtol : ℝ) (hr : 0 ≤ rtol) (m : Nat) :
    ∀ (s0 : S) (h : ℝ), M.time s0 = T ∨ (0 < (T - M.time s0) / h ∧ (T - M.time s0) / h ≤ m) →
    ∃ n, n ≤ m ∧ ∃ (s : Nat → S) (p : Nat → ℝ), s 0 = s0 ∧ p 0 = h ∧ Steps M T n s p ∧
      (AtEnd (M.time (s n)) T rtol ∨ Stops conds (p n) (s n)) ∧
      (∀ k, k < n → ¬ (AtEnd (M.time (s k)) T rtol ∨ Stops conds (p k) (s k))) ∧
      (∀ k, k ≤ n → M.time (s k) ∈ Set.uIcc (M.time s0) T) ∧
      (∀ k, k < n → M.time (s (k + 1)) ∈ Set.uIcc (M.time (s k)) T) := by
  induction m with
  | zero =>
    intro s0 h hd
    have ht : M.time s0 = T := by
      rcases hd with hd | ⟨h1, h2⟩
      · exact hd
      · push_cast at h2; linarith
    exact ⟨0, le_refl _, fun _ => s0, fun _ => h, rfl, rfl, fun k hk => absurd hk (by omega),
      .inl (ht ▸ atEnd_self T rtol hr), fun k hk => absurd hk (by omega), fun k hk => Set.left_mem_uIcc,
      fun k hk => absurd hk (by omega)⟩
  | succ m ih =>
    intro s0 h hd
    by_cases hstop : AtEnd (M.time s0) T rtol ∨ Stops conds h s0
    · exact ⟨0, by omega, fun _ => s0, fun _ => h, rfl, rfl, fun k hk => absurd hk (by omega),
        hstop, fun k hk => absurd hk (by omega), fun k hk => Set.left_mem_uIcc, fun k hk => absurd hk (by omega)⟩
    · have hne : M.time s0 ≠ T := fun e => hstop (.inl (e ▸ atEnd_self T rtol hr))
      obtain ⟨hpos, hle⟩ := hd.resolve_left hne
      obtain ⟨s1, e1, t1⟩ := hM.2 (shortened M T h s0) s0
      have hh : h ≠ 0 := by rintro rfl; simp at hpos
      have key : (M.time s1 = T ∨ (0 < (T - M.time s1) / shortened M T h s0 ∧
          (T - M.time s1) / shortened M T h s0 ≤ m)) ∧ M.time s1 ∈ Set.uIcc (M.time s0) T := by
        rw [t1]
        unfold shortened
        rw [hM.1, mul_one]
        split_ifs with hc
        · have hq : (T - (M.time s0 + h)) / h = (T - M.time s0) / h - 1 := by field_simp; ring
          have h1 : 1 ≤ (T - M.time s0) / h := by
            have : |(T - M.time s0) / h| = |T - M.time s0| / |h| := abs_div _ _
            rw [abs_of_pos hpos] at this
            rw [this, le_div_iff₀ (abs_pos.2 hh), one_mul]; exact hc
          constructor
          · rw [hq]
            push_cast at hle
            rcases h1.eq_or_lt with he | hl
            · left
              have : (T - (M.time s0 + h)) / h = 0 := by rw [hq]; linarith
              rw [div_eq_zero_iff] at this
              have := this.resolve_right hh
              linarith
            · right; constructor <;> linarith
          · rw [Set.mem_uIcc]
            rcases lt_or_gt_of_ne hh with hn | hp
            · right
              have h2 : T - M.time s0 ≤ h := by rw [le_div_iff_of_neg hn] at h1; linarith
              constructor <;> linarith
            · left
              have h2 : h ≤ T - M.time s0 := by rw [le_div_iff₀ hp] at h1; linarith
              constructor <;> linarith
        · constructor
          · left; ring
          · have : M.time s0 + (T - M.time s0) = T := by ring
            rw [this]; exact Set.right_mem_uIcc
      obtain ⟨n, hn, s, p, hs0, hp0, hst, hend, hgo, hin, hin2⟩ := ih s1 _ key.1
      refine ⟨n + 1, by omega, fun k => if k = 0 then s0 else s (k - 1), fun k => if k = 0 then h else p (k - 1),
        rfl, rfl, ?_, ?_, ?_, ?_, ?_⟩
      · intro k hk
        rcases k with _ | k
        · simp only [if_true, Nat.zero_add, one_ne_zero, if_false, Nat.sub_self, hs0, hp0]; exact e1
        · simpa using hst k (by omega)
      · simpa using hend
      · intro k hk
        rcases k with _ | k
        · exact hstop
        · simpa using hgo k (by omega)
      · intro k hk
        rcases k with _ | k
        · exact Set.left_mem_uIcc
        · have := hin k (by omega)
          simp only [Nat.succ_ne_zero, if_false, Nat.add_sub_cancel]
          exact Set.uIcc_subset_uIcc_right key.2 this
      · intro k hk
        rcases k with _ | k
        · simp only [if_true, Nat.zero_add, one_ne_zero, if_false, Nat.sub_self, hs0]; exact key.2
        · simpa using hin2 k (by omega)

/-- With a constant-step integrator and no regularisation, if the step leads from the current time towards the end time
(also backwards in time), a run returns after at most `⌈|end - start| / |step|⌉` steps: it takes the states `s 0, ..., s
n`, whose times approach the end time monotonically and never pass it, and stops at the first state where the end time
is reached within the relative tolerance or a stop condition holds. -/
theorem C21_const_step {M : Machine S} (hM : ConstStep M) (tHubble h : ℝ) (T rtol : ℝ) (a b c : Nat)
    (conds : List (ℝ → S → Bool)) (s0 : S) (hr : 0 ≤ rtol) (hd : M.time s0 = T ∨ 0 < (T - M.time s0) / h) :
    ∃ n s p, n ≤ ⌈(T - M.time s0) / h⌉₊ ∧ s 0 = s0 ∧ Steps M T n s p ∧
      (∀ fuel, n < fuel → ∃ w, run tHubble M (recording h (some T) rtol a b c conds) fuel ([], s0) = .ok (w, s n)) ∧
      (AtEnd (M.time (s n)) T rtol ∨ Stops conds (p n) (s n)) ∧
      (∀ k, k ≤ n → M.time (s k) ∈ Set.uIcc (M.time s0) T) ∧
      (∀ k, k < n → M.time (s (k + 1)) ∈ Set.uIcc (M.time (s k)) T) ∧
      (∀ k, k < n → ¬ (AtEnd (M.time (s k)) T rtol ∨ Stops conds (p k) (s k))) := by
  have hp : ∀ n (s : Nat → S) (p : Nat → ℝ), s 0 = s0 → p 0 = (if h = 0 then M.defaultStep s0 else h) → Steps M T n s p →
      (AtEnd (M.time (s n)) T rtol ∨ Stops conds (p n) (s n)) →
      (∀ k, k < n → ¬ (AtEnd (M.time (s k)) T rtol ∨ Stops conds (p k) (s k))) →
      ∀ fuel, n < fuel → ∃ w, run tHubble M (recording h (some T) rtol a b c conds) fuel ([], s0) = .ok (w, s n) := by
    intro n s p h1 h2 h3 h4 h5 fuel hf
    exact ⟨_, (run_iff tHubble M h (some T) rtol a b c conds fuel s0 (s n) _ (.inr (by simp))
      (by rw [hM.1]; exact one_ne_zero)).2 ⟨n, hf, s, p, h1, h2, h3, fun k hk => not_or.1 (h5 k hk), h4, rfl, rfl⟩⟩
  by_cases ht : M.time s0 = T
  · refine ⟨0, fun _ => s0, fun _ => if h = 0 then M.defaultStep s0 else h, Nat.zero_le _, rfl,
      fun k hk => absurd hk (by omega), hp 0 (fun _ => s0) (fun _ => if h = 0 then M.defaultStep s0 else h) rfl rfl
        (fun k hk => absurd hk (by omega)) ?_ (fun k hk => absurd hk (by omega)), ?_, fun k _ => Set.left_mem_uIcc,
      fun k hk => absurd hk (by omega), fun k hk => absurd hk (by omega)⟩ <;> exact .inl (ht ▸ atEnd_self T rtol hr)
  · have hd := hd.resolve_left ht
    have hh : h ≠ 0 := by rintro rfl; simp at hd
    obtain ⟨n, hn, s, p, h1, h2, h3, h4, h5, h6, h7⟩ := reach hM conds T rtol hr ⌈(T - M.time s0) / h⌉₊ s0 h
      (.inr ⟨hd, Nat.le_ceil _⟩)
    exact ⟨n, s, p, hn, h1, h3, hp n s p h1 (by rw [if_neg hh]; exact h2) h3 h4 h5, h4, h6, h7, h5⟩

/-- The plain system under the 2nd-order (DKD or KDK) or the 4th-order integrator, without stop condition: the run ends
within the relative tolerance of the end time and not beyond it. -/
theorem C21_simple (big G : ℝ) (I : Interactions) (stages : List Integrator.Stage)
    (hs : stages ∈ [Integrator.symplectic2nd, Integrator.leapFrogKDK, Integrator.symplectic4th])
    (tHubble h T rtol : ℝ) (a b c : Nat) (s0 : Simple) (hr : 0 ≤ rtol) (hh : 0 < h) (hd : s0.time ≤ T) :
    ∃ s' : Simple, s0.time ≤ s'.time ∧ s'.time ≤ T ∧ AtEnd s'.time T rtol ∧
      ∀ fuel, ⌈(T - s0.time) / h⌉₊ < fuel →
        ∃ w, run tHubble (constSimple big G I stages) (recording h (some T) rtol a b c []) fuel ([], s0) = .ok (w, s') := by
  have hM := constSimple_constStep big G I hs
  obtain ⟨n, s, p, hn, h1, h2, h3, h4, h5, h6, h7⟩ := C21_const_step hM tHubble h T rtol a b c [] s0 hr
    (by rcases hd.eq_or_lt with he | hl
        · exact .inl he
        · exact .inr (div_pos (sub_pos.2 hl) hh))
  have h5 := h5 n le_rfl
  change (s n).time ∈ Set.uIcc s0.time T at h5
  rw [Set.uIcc_of_le hd] at h5
  refine ⟨s n, h5.1, h5.2, ?_, fun fuel hf => h3 fuel (lt_of_le_of_lt hn hf)⟩
  rcases h4 with h4 | ⟨c, hc, _⟩
  · exact h4
  · simp at hc

/-- A run whose end time counts as reached at the start returns at once with the initial state (any system). -/
theorem C23_end_time_reached (tHubble : ℝ) (M : Machine S) (h T rtol : ℝ) (a b c : Nat) (conds : List (ℝ → S → Bool))
    (s0 : S) (hsc : M.scale s0 ≠ 0) (hend : AtEnd (M.time s0) T rtol) (fuel : Nat) (hf : 0 < fuel) :
    ∃ w, run tHubble M (recording h (some T) rtol a b c conds) fuel ([], s0) = .ok (w, s0) :=
  ⟨_, (run_iff tHubble M h (some T) rtol a b c conds fuel s0 s0 _ (.inr (by simp)) hsc).2
    ⟨0, hf, fun _ => s0, fun _ => firstStep M h s0, rfl, rfl, fun k hk => absurd hk (by omega),
      fun k hk => absurd hk (by omega), .inl hend, rfl, rfl⟩⟩

theorem loop_diverges {M : Machine S} (hM : ConstStep M) (T rtol h0 : ℝ) (eo : Option ℝ) (a b c : Nat) (fuel : Nat) :
    ∀ (s0 : S) (h : ℝ) (w : List (Event S)), 0 < h → h ≤ M.time s0 - T → ¬ AtEnd (M.time s0) T rtol →
      loop M (recording h0 eo rtol a b c []) T fuel h (w, s0) = .diverge := by
  induction fuel with
  | zero => intros; rfl
  | succ fuel ih =>
    intro s0 h w hh hle hend
    rw [loop]
    dsimp only
    have hb : notAtEnd (M.time s0) T (recording (S := S) h0 eo rtol a b c []).timeRtol = true := by
      rw [notAtEnd_iff]; exact hend
    rw [if_pos hb]
    have hc := checkStops_log h ([] : List (ℝ → S → Bool)) 0 w s0
    change checkStops h (recording h0 eo rtol a b c []).stopCond (w, s0) = _ at hc
    rw [hc]
    dsimp only
    rw [if_neg (show ¬ (([] : List (ℝ → S → Bool)).any (fun c => c h s0) = true) by simp)]
    have ho := callAll_log (List.range b) Event.step (clipStep M T h s0) (w ++ asks h s0 0 []) s0
    change callAll (recording h0 eo rtol a b c []).opts (clipStep M T h s0) (w ++ asks h s0 0 [], s0) = _ at ho
    rw [ho]
    have hcs : clipStep M T h s0 = h := by
      unfold clipStep
      dsimp only
      rw [hM.1, mul_one, abs_of_pos hh, abs_sub_comm, abs_of_pos (lt_of_lt_of_le hh hle), if_pos hle]
    rw [hcs]
    obtain ⟨s1, e1, t1⟩ := hM.2 h s0
    dsimp only
    rw [e1]
    change loop M (recording h0 eo rtol a b c []) T fuel h (_, s1) = .diverge
    refine ih s1 h _ hh (by rw [t1]; linarith) ?_
    rw [t1]
    unfold AtEnd at hend ⊢
    split_ifs at hend ⊢ with h0
    · subst h0; intro he; linarith
    · intro he
      apply hend
      have h2 : 0 < M.time s0 - T := lt_of_lt_of_le hh hle
      rw [abs_of_pos h2]
      rw [abs_of_pos (by linarith)] at he
      linarith

/-- The claim of C23 is false of the code.  With an end time in the past (beyond the tolerance), a positive constant step
and no stop condition: if the step is not longer than the distance to the end time, the run never returns - it evolves
the system away from the end time forever. -/
theorem C23_never_returns {M : Machine S} (hM : ConstStep M) (tHubble T rtol h : ℝ) (a b c : Nat) (s0 : S) (hh : 0 < h)
    (hle : h ≤ M.time s0 - T) (hend : ¬ AtEnd (M.time s0) T rtol) (fuel : Nat) :
    run tHubble M (recording h (some T) rtol a b c []) fuel ([], s0) = .diverge := by
  unfold run
  have h1 : ¬ ((recording (S := S) h (some T) rtol a b c []).stopCond = [] ∧
      (recording (S := S) h (some T) rtol a b c []).endTime = none) := by
    simp [recording]
  rw [if_neg h1]
  dsimp only
  rw [if_neg (by rw [hM.1]; exact one_ne_zero)]
  have e0 : (if (recording (S := S) h (some T) rtol a b c []).stepSize = 0 then M.defaultStep s0
      else (recording (S := S) h (some T) rtol a b c []).stepSize) = h := if_neg hh.ne'
  have hs := callAll_log (List.range a) Event.start h [] s0
  change callAll (recording h (some T) rtol a b c []).startOpts h ([], s0) = _ at hs
  rw [e0, hs]
  have e1 : (recording (S := S) h (some T) rtol a b c []).endTime.getD tHubble = T := rfl
  rw [e1, loop_diverges hM T rtol h (some T) a b c fuel s0 h _ hh hle hend]
  rfl

/-- ... and if the step is longer than that distance, the system is evolved backwards in time, to the end time. -/
theorem C23_runs_backwards {M : Machine S} (hM : ConstStep M) (tHubble T rtol h : ℝ) (a b c : Nat) (s0 : S) (hr : 0 ≤ rtol)
    (hpast : T < M.time s0) (hle : M.time s0 - T < h) (hend : ¬ AtEnd (M.time s0) T rtol) (fuel : Nat) (hf : 1 < fuel) :
    ∃ w s', M.advance (T - M.time s0) s0 = .ok (s', T - M.time s0) ∧ M.time s' = T ∧
      run tHubble M (recording h (some T) rtol a b c []) fuel ([], s0) = .ok (w, s') := by
  obtain ⟨s1, e1, t1⟩ := hM.2 (T - M.time s0) s0
  have t1' : M.time s1 = T := by rw [t1]; ring
  have hh : 0 < h := by linarith
  refine ⟨_, s1, e1, t1', (run_iff tHubble M h (some T) rtol a b c [] fuel s0 s1 _ (.inr (by simp))
    (by rw [hM.1]; exact one_ne_zero)).2 ⟨1, hf, fun k => if k = 0 then s0 else s1,
      fun k => if k = 0 then h else T - M.time s0, rfl, ?_, ?_, ?_, .inl ?_, rfl, rfl⟩⟩
  · simp [firstStep, hh.ne']
  · intro k hk
    obtain rfl : k = 0 := by omega
    have : shortened M T h s0 = T - M.time s0 := by
      unfold shortened
      rw [hM.1, mul_one, if_neg]
      rw [abs_of_pos hh, abs_sub_comm, abs_of_pos (by linarith)]
      linarith
    simp only [Option.getD_some, if_true, Nat.zero_add, one_ne_zero, if_false, this]
    exact e1
  · intro k hk
    obtain rfl : k = 0 := by omega
    exact ⟨hend, fun ⟨c, hc, _⟩ => by simp at hc⟩
  · simp only [one_ne_zero, if_false, Option.getD_some, t1']
    exact atEnd_self T rtol hr

/-- two particles at time 2, end time 1, step 1/2: never returns -/
example (I : Interactions) (P : Force.Particles) (fuel : Nat) :
    run 1 (constSimple 1 1 I Integrator.symplectic2nd) (recording (1 / 2) (some 1) 1e-8 1 1 1 []) fuel
      ([], Simple.init 2 P) = .diverge := by
  refine C23_never_returns (constSimple_constStep 1 1 I (by simp)) 1 1 1e-8 (1 / 2) 1 1 1 _ (by norm_num) ?_ ?_ fuel
  · norm_num [constSimple, Simple.init]
  · norm_num [constSimple, Simple.init, AtEnd]

/-! ### C55: the default step -/

theorem fallTime_eq (G r m : ℝ) (hG : 0 < G) (hr : 0 ≤ r) :
    r ^ (3 / 2 : ℝ) / Real.sqrt m * Real.pi * (1 / 2) / Real.sqrt (2 * G) = fallTime G r m := by
  have h1 : r ^ (3 / 2 : ℝ) = Real.sqrt (r ^ 3) := by
    rw [Real.sqrt_eq_rpow, ← Real.rpow_natCast, ← Real.rpow_mul hr]; norm_num
  unfold fallTime
  rw [h1, Real.sqrt_div (pow_nonneg hr 3), Real.sqrt_mul (by positivity : (0 : ℝ) ≤ 2 * G) m]
  field_simp

theorem minPairs (n : Nat) (f : Nat → Nat → ℝ) (big : ℝ) :
    let r := forLoop 0 n (fun i m => forLoop (i + 1) n (fun j m => if f i j < m then f i j else m) m) big
    r ≤ big ∧ (∀ i j, i < j → j < n → r ≤ f i j) ∧ (r = big ∨ ∃ i j, i < j ∧ j < n ∧ r = f i j) := by
  intro r
  have key : r ≤ big ∧ (∀ i j, i < n → i < j → j < n → r ≤ f i j) ∧ (r = big ∨ ∃ i j, i < j ∧ j < n ∧ r = f i j) := by
    refine forLoop_inv (fun k r => r ≤ big ∧ (∀ i j, i < k → i < j → j < n → r ≤ f i j) ∧
      (r = big ∨ ∃ i j, i < j ∧ j < n ∧ r = f i j)) 0 n (Nat.zero_le _) _ big ⟨le_rfl, fun _ _ h => by omega, .inl rfl⟩ ?_
    intro i t _ hi ⟨h1, h2, h3⟩
    have := forLoop_inv (fun k r => r ≤ t ∧ (∀ j, i < j → j < k → r ≤ f i j) ∧
      (r = t ∨ ∃ j, i < j ∧ j < n ∧ r = f i j)) (i + 1) n hi
      (fun j m => if f i j < m then f i j else m) t ⟨le_rfl, fun _ _ h => by omega, .inl rfl⟩ ?_
    · obtain ⟨a1, a2, a3⟩ := this
      refine ⟨a1.trans h1, fun a j ha haj hj => ?_, ?_⟩
      · rcases Nat.lt_or_ge a i with h | h
        · exact a1.trans (h2 a j h haj hj)
        · obtain rfl : a = i := by omega
          exact a2 j haj hj
      · rcases a3 with a3 | ⟨j, b1, b2, b3⟩
        · rw [a3]; exact h3
        · exact .inr ⟨i, j, b1, b2, b3⟩
    · intro j m hj hjn ⟨b1, b2, b3⟩
      split_ifs with hlt
      · refine ⟨hlt.le.trans b1, fun j' c1 c2 => ?_, .inr ⟨j, hj, hjn, rfl⟩⟩
        rcases Nat.lt_or_ge j' j with h | h
        · exact hlt.le.trans (b2 j' c1 h)
        · obtain rfl : j' = j := by omega
          exact le_rfl
      · refine ⟨b1, fun j' c1 c2 => ?_, b3⟩
        rcases Nat.lt_or_ge j' j with h | h
        · exact b2 j' c1 h
        · obtain rfl : j' = j := by omega
          exact not_lt.1 hlt
  exact ⟨key.1, fun i j h1 h2 => key.2.1 i j (by omega) h1 h2, key.2.2⟩

/-- If no step size is given, at least two particles, no free-fall value overflowing a double (`big` is the largest one):
the first step proposed is the step scale times a tenth of the shortest free-fall time of a pair. -/
theorem C55_default_step (big G : ℝ) (hG : 0 < G) (P : Force.Particles) (h2 : 2 ≤ P.num)
    (hbig : ∀ i j, i < j → j < P.num → Force.norm (P.pos i - P.pos j) ^ (3 / 2 : ℝ) / Real.sqrt (P.mass i + P.mass j) < big) :
    (∀ i j, i < j → j < P.num → fallFreeTime big G P ≤ fallTime G (Force.norm (P.pos i - P.pos j)) (P.mass i + P.mass j)) ∧
    (∃ i j, i < j ∧ j < P.num ∧ fallFreeTime big G P = fallTime G (Force.norm (P.pos i - P.pos j)) (P.mass i + P.mass j)) ∧
    (∀ (I : Interactions) (stages : List Integrator.Stage) (s : Simple), s.P = P →
      firstStep (constSimple big G I stages) 0 s = fallFreeTime big G P / 10) ∧
    (∀ (t : ReguType) (I : Interactions) (stages : List Integrator.Stage) (s : ReguSys), s.P = P →
      firstStep (constRegu big G t I stages) 0 s = s.stepScale * (fallFreeTime big G P / 10)) := by
  obtain ⟨k1, k2, k3⟩ := minPairs P.num
    (fun i j => Force.norm (P.pos i - P.pos j) ^ (3 / 2 : ℝ) / Real.sqrt (P.mass i + P.mass j)) big
  have hc : 0 ≤ Real.pi * (1 / 2) / Real.sqrt (2 * G) := by positivity
  have hval : ∀ i j, i < j → j < P.num →
      Force.norm (P.pos i - P.pos j) ^ (3 / 2 : ℝ) / Real.sqrt (P.mass i + P.mass j) * (Real.pi * (1 / 2) / Real.sqrt (2 * G)) =
        fallTime G (Force.norm (P.pos i - P.pos j)) (P.mass i + P.mass j) := by
    intro i j hi hj
    rw [← fallTime_eq G (Force.norm (P.pos i - P.pos j)) _ hG (Real.sqrt_nonneg _)]
    ring
  have hff : ∀ c, fallFreeTime big G P = c * (Real.pi * (1 / 2) / Real.sqrt (2 * G)) ↔
      fallFreeTime big G P = c * Real.pi * (1 / 2) / Real.sqrt (2 * G) := by
    intro c
    rw [show c * (Real.pi * (1 / 2) / Real.sqrt (2 * G)) = c * Real.pi * (1 / 2) / Real.sqrt (2 * G) by ring]
  refine ⟨fun i j hi hj => ?_, ?_, fun I st s hs => ?_, fun t I st s hs => ?_⟩
  · rw [← hval i j hi hj, (hff _).2 rfl]
    exact mul_le_mul_of_nonneg_right (k2 i j hi hj) hc
  · rcases k3 with k3 | ⟨i, j, hi, hj, k3⟩
    · have := hbig 0 1 (by omega) (by omega)
      have := k2 0 1 (by omega) (by omega)
      rw [k3] at this
      linarith
    · refine ⟨i, j, hi, hj, ?_⟩
      rw [← hval i j hi hj, (hff _).2 rfl, k3]
  · subst hs; simp only [firstStep, if_true, constSimple]; ring
  · subst hs; simp only [firstStep, if_true, constRegu]; ring

/-- two unit masses at distance 1 meet the hypotheses of C55 -/
example : ∃ (P : Force.Particles) (big : ℝ), 2 ≤ P.num ∧ ∀ i j, i < j → j < P.num →
    Force.norm (P.pos i - P.pos j) ^ (3 / 2 : ℝ) / Real.sqrt (P.mass i + P.mass j) < big := by
  refine ⟨{ num := 2, mass := fun _ => 1, pos := fun i => ⟨i, 0, 0⟩, vel := fun _ => ⟨0, 0, 0⟩ }, 10, le_rfl, ?_⟩
  intro i j hi hj
  change j < 2 at hj
  obtain rfl : i = 0 := by omega
  obtain rfl : j = 1 := by omega
  have h1 : Force.norm ((⟨((0 : Nat) : ℝ), 0, 0⟩ : V3 ℝ) - ⟨((1 : Nat) : ℝ), 0, 0⟩) = 1 := by
    simp [Force.norm, V3.sub_x, V3.sub_y, V3.sub_z]
  have h2 : (1 : ℝ) ≤ Real.sqrt (1 + 1) := by rw [Real.le_sqrt (by norm_num) (by norm_num)]; norm_num
  dsimp only
  rw [h1, Real.one_rpow]
  rw [div_lt_iff₀ (by linarith)]
  linarith

end SpaceHub.Simu
