import Verif.Proof.BSTable
import Verif.Proof.BSControl

/-
What an accepted Bulirsch-Stoer step is.
-/

set_option autoImplicit false

namespace SpaceHub.BS
open SpaceHub SpaceHub.Sys Spec

variable {S : Type}

/-- `Fresh` says that a system is in the initial state, ready for integration.  It holds at the start and whenever the
initial variables `input` have been read back after an integration and the increment has been cleared. -/
structure Restores (O : IterSys S ℝ) (input : List ℝ) (Fresh : S → Prop) : Prop where
  again : ∀ x h n s s1, Fresh x → O.integrate h n x = .ok s → O.read s input = .ok s1 → Fresh (O.clear s1)

/-- `s'` results from adding an extrapolated increment of a step `h` to the initial variables `input`, with error estimate
at most 1.  `row m` is the system after `n_m` sub-steps, started from the initial state. -/
def Accepted (O : IterSys S ℝ) (p : Params ℝ) (input : List ℝ) (Fresh : S → Prop) (h : ℝ) (s' : S) : Prop :=
  ∃ (k : Nat) (start row : Nat → S) (T0 T1 : Arr ℝ), 1 ≤ k ∧ k ≤ p.maxDepth ∧
    (∀ m, m ≤ k → Fresh (start m) ∧ O.integrate h (hSeq p.maxDepth m) (start m) = .ok (row m)) ∧
    (∀ i, i < input.length → T0 i = zeroStep (hSeq p.maxDepth) (fun m => O.inc (row m) i) 0 k ∧
      T1 i = zeroStep (hSeq p.maxDepth) (fun m => O.inc (row m) i) 1 k) ∧
    p.err input T1 T0 ≤ 1 ∧
    ∃ s'', O.read (row k) (input.mapIdx fun i x => x + T0 i) = .ok s'' ∧ s' = O.collect false s''

/-- the step tried after some rejections: each multiplies it by a value of the limiter -/
inductive Retried (p : Params ℝ) : ℝ → ℝ → Prop
  | refl (h : ℝ) : Retried p h h
  | again {h h' : ℝ} (order : Nat) (ratio : ℝ) (t : Retried p (h * p.limiter order ratio) h') : Retried p h h'

theorem zeroStep_congr {n : Nat → Nat} {y y' : Nat → ℝ} {a b : Nat} (h : ∀ m, a ≤ m → m ≤ b → y m = y' m) :
    zeroStep n y a b = zeroStep n y' a b := by
  unfold zeroStep
  rw [Lagrange.interpolate_eq_of_values_eq_on y y' (fun i hi => ?_)]
  simp only [Finset.mem_Icc] at hi
  exact h i hi.1 hi.2

theorem columns_accept (O : IterSys S ℝ) (p : Params ℝ) (input : List ℝ) (Fresh : S → Prop) (hR : Restores O input Fresh) (h : ℝ) (m : Nat) :
    ∀ (k : Nat) (c : State ℝ) (s : S) (start row : Nat → S), 1 ≤ k → s = row (k - 1) →
      (∀ r, r < k → Fresh (start r) ∧ O.integrate h (hSeq p.maxDepth r) (start r) = .ok (row r)) →
      (∀ r i, r < k → i < (input).length →
        c.rows r i = zeroStep (hSeq p.maxDepth) (fun m => O.inc (row m) i) r (k - 1)) →
      ∀ e, columns O p (input) h m k c s = .ok e →
        match e with
        | .accept s' h' _ => Accepted O p input Fresh h s' ∧ ∃ order ratio, h' = h * p.limiter order ratio
        | .reject s' h' _ => (∃ x n, Fresh x ∧ O.integrate h n x = .ok s') ∧
            ∃ order ratio, h' = h * p.limiter order ratio
        | .exhausted s' _ => ∃ x n, Fresh x ∧ O.integrate h n x = .ok s' := by
  induction m with
  | zero =>
    intro k c s start row hk hs hrow _ e he
    cases he
    exact ⟨_, _, hs ▸ hrow (k - 1) (by omega)⟩
  | succ m ih =>
    intro k c s start row hk hs hrow hrows e he
    unfold columns at he
    obtain ⟨s1, r1, he⟩ := Res.bind_eq_ok.1 he
    obtain ⟨_, hck, he⟩ := Res.bind_eq_ok.1 he
    have hkD := chk_ok hck
    have hcl : Fresh (O.clear s1) := by
      subst hs
      exact hR.again _ _ _ _ _ (hrow (k - 1) (by omega)).1 (hrow (k - 1) (by omega)).2 r1
    obtain ⟨s2, i2, he⟩ := Res.bind_eq_ok.1 he
    -- the new table
    set start' : Nat → S := fun r => if r = k then O.clear s1 else start r with hstart'
    set row' : Nat → S := fun r => if r = k then s2 else row r with hrow'
    set c1 : State ℝ :=
      { c with rows := fun r => (if r = k then copyRow (input).length (O.inc s2) (c.rows k) else c.rows r) } with hc1
    have hy : ∀ i, i < (input).length → ∀ r, r ≤ k →
        (evalColumn p (input) h c1 k).1.rows r i = zeroStep (hSeq p.maxDepth) (fun m => O.inc (row' m) i) r k := by
      intro i hi
      refine extrapolate_spec hkD hi (fun m => O.inc (row' m) i) c1.rows ?_ ?_
      · simp only [hc1, hrow', if_true, copyRow, if_pos hi]
      · intro r hr
        simp only [hc1]
        rw [if_neg (by omega), hrows r i hr hi]
        refine zeroStep_congr (fun m h1 h2 => ?_)
        simp only [hrow']
        rw [if_neg (by omega)]
    have hrow2 : ∀ r, r ≤ k → Fresh (start' r) ∧ O.integrate h (hSeq p.maxDepth r) (start' r) = .ok (row' r) := by
      intro r hr
      by_cases hrk : r = k
      · subst hrk; simp only [hrow', hstart', if_true]; exact ⟨hcl, i2⟩
      · simp only [hrow', hstart', if_neg hrk]; exact hrow r (by omega)
    have hs2 : s2 = row' k := by simp only [hrow', if_true]
    dsimp only at he
    change (if inWindow (evalColumn p (input) h c1 k).1 k = true then _ else _) = _ at he
    generalize hce : evalColumn p (input) h c1 k = ce at he hy
    have herr : ce.2 = p.err (input) (ce.1.rows 1) (ce.1.rows 0) := by rw [← hce]; rfl
    have go : ∀ e, columns O p (input) h m (k + 1) ce.1 s2 = .ok e → _ :=
      ih (k + 1) ce.1 s2 start' row' (by omega) (by rw [Nat.add_sub_cancel]; exact hs2) (fun r hr => hrow2 r (by omega))
        (fun r i hr hi => by rw [Nat.add_sub_cancel]; exact hy i hi r (by omega))
    by_cases hw : inWindow ce.1 k = true
    · rw [if_pos hw] at he
      by_cases hle : Arith.le ce.2 (Arith.ofRat 1) = true
      · rw [if_pos hle] at he
        obtain ⟨s3, r3, he⟩ := Res.bind_eq_ok.1 he
        obtain ⟨r, _, he⟩ := Res.bind_eq_ok.1 he
        cases he
        refine ⟨⟨k, start', row', ce.1.rows 0, ce.1.rows 1, hk, hkD, hrow2, fun i hi => ⟨hy i hi 0 (by omega), hy i hi 1 hk⟩, ?_, s3,
          ?_, rfl⟩, _, _, rfl⟩
        · rw [← herr]
          have : ce.2 ≤ ((1 : ℚ) : ℝ) := of_decide_eq_true hle
          simpa using this
        · rw [← hs2]; exact r3
      · rw [if_neg hle] at he
        obtain ⟨d, _, he⟩ := Res.bind_eq_ok.1 he
        by_cases hd : d = true
        · rw [if_pos hd] at he
          obtain ⟨r, _, he⟩ := Res.bind_eq_ok.1 he
          cases he
          exact ⟨⟨_, _, hcl, i2⟩, _, _, rfl⟩
        · rw [if_neg hd] at he
          exact go e he
    · rw [if_neg hw] at he
      exact go e he

theorem attempts_accept (O : IterSys S ℝ) (p : Params ℝ) (input : List ℝ) (Fresh : S → Prop) (hR : Restores O input Fresh) (tries : Nat) :
    ∀ (h : ℝ) (c : State ℝ) (s : S), Fresh (O.clear s) →
      ∀ s' h' c', attempts O p (input) tries h c s = .ok (s', h', c') →
        ∃ hAcc order ratio, Retried p h hAcc ∧ Accepted O p input Fresh hAcc s' ∧ h' = hAcc * p.limiter order ratio := by
  induction tries with
  | zero => intro h c s _ s' h' c' he; cases he
  | succ tries ih =>
    intro h c s hcl s' h' c' he
    unfold attempts at he
    obtain ⟨s1, i1, he⟩ := Res.bind_eq_ok.1 he
    obtain ⟨e, hc, he⟩ := Res.bind_eq_ok.1 he
    have := columns_accept O p input Fresh hR h _ 1 _ s1 (fun _ => O.clear s) (fun _ => s1) le_rfl rfl (fun r hr => by
      obtain rfl : r = 0 := by omega
      exact ⟨hcl, i1⟩) (fun r i hr hi => by
      obtain rfl : r = 0 := by omega
      rw [zeroStep_self]
      simp only [if_true, copyRow, if_pos hi]) e hc
    cases e with
    | accept s2 h2 c2 =>
      cases he
      obtain ⟨a1, order, ratio, a2⟩ := this
      exact ⟨h, order, ratio, .refl h, a1, a2⟩
    | reject s2 h2 c2 =>
      obtain ⟨⟨x, n, a0, a1⟩, order, ratio, a2⟩ := this
      obtain ⟨s3, r3, he⟩ := Res.bind_eq_ok.1 he
      obtain ⟨hAcc, o2, ra2, t, b1, b2⟩ := ih h2 c2 s3 (hR.again _ _ _ _ _ a0 a1 r3) _ _ _ he
      subst a2
      exact ⟨hAcc, o2, ra2, .again order ratio t, b1, b2⟩
    | exhausted s2 c2 =>
      obtain ⟨x, n, a0, a1⟩ := this
      obtain ⟨s3, r3, he⟩ := Res.bind_eq_ok.1 he
      exact ih h c2 s3 (hR.again _ _ _ _ _ a0 a1 r3) _ _ _ he

end SpaceHub.BS
