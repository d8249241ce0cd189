import Verif.Proof.BSTable
import Verif.Proof.BSControl

/-
What an accepted Bulirsch-Stoer step is, in any arithmetic.
-/

set_option autoImplicit false

namespace SpaceHub.BS
open SpaceHub SpaceHub.Sys Spec

section
variable {F : Type} [Arith F]

/-- the entry of row `r` once the column `r + d` is there -/
def entry (D : Nat) (y : Nat → F) : Nat → Nat → F
  | 0, r => y r
  | d + 1, r => Arith.add (entry D y d (r + 1)) (Arith.mul (Arith.sub (entry D y d (r + 1)) (entry D y d r)) (tableCoef D (r + d + 1) d))

theorem extrapolateFrom_entry {D n k i : Nat} (hi : i < n) (y : Nat → F) (j : Nat) (hj : j ≤ k)
    (T : Nat → Arr F) (h1 : ∀ r, j ≤ r → r ≤ k → T r i = entry D y (k - r) r)
    (h2 : ∀ r, r < j → T r i = entry D y (k - 1 - r) r) :
    ∀ r, r ≤ k → extrapolateFrom D n k j T r i = entry D y (k - r) r := by
  induction j generalizing T with
  | zero => intro r hr; exact h1 r (Nat.zero_le _) hr
  | succ j ih =>
    intro r hr
    rw [extrapolateFrom]
    refine ih (by omega) _ (fun r hr1 hr2 => ?_) (fun r hr1 => ?_) r hr
    · by_cases hrj : r = j
      · subst hrj
        rw [if_pos rfl, if_pos hi, h1 (r + 1) le_rfl (by omega), h2 r (by omega)]
        obtain ⟨d, rfl⟩ : ∃ d, k = r + d + 1 := ⟨k - r - 1, by omega⟩
        rw [show r + d + 1 - (r + 1) = d by omega, show r + d + 1 - 1 - r = d by omega, show r + d + 1 - r = d + 1 by omega]
        rfl
      · rw [if_neg hrj]; exact h1 r (by omega) hr2
    · rw [if_neg (by omega)]; exact h2 r (by omega)

theorem extrapolate_entry {D n k i : Nat} (hi : i < n) (y : Nat → F) (T : Nat → Arr F)
    (h1 : T k i = y k) (h2 : ∀ r, r < k → T r i = entry D y (k - 1 - r) r) :
    ∀ r, r ≤ k → extrapolate D n k T r i = entry D y (k - r) r := by
  refine extrapolateFrom_entry hi y k le_rfl T (fun r a b => ?_) h2
  obtain rfl : r = k := by omega
  rw [Nat.sub_self]; exact h1

theorem entry_congr {D : Nat} {y y' : Nat → F} : ∀ d r, (∀ m, r ≤ m → m ≤ r + d → y m = y' m) → entry D y d r = entry D y' d r := by
  intro d
  induction d with
  | zero => intro r h; exact h r le_rfl (by omega)
  | succ d ih =>
    intro r h
    rw [entry, entry, ih (r + 1) fun m h1 h2 => h m (by omega) (by omega), ih r fun m h1 h2 => h m h1 (by omega)]

variable {S : Type}

/-- `Fresh` holds at the start and whenever the initial variables have been read back after an integration and the increment has been cleared. -/
structure RestoresAny (O : IterSys S F) (input : List F) (Fresh : S → Prop) : Prop where
  again : ∀ x h n s s1, Fresh x → O.integrate h n x = .ok s → O.read s input = .ok s1 → Fresh (O.clear s1)

/-- `s'` results from adding the last entry of row 0 of the table to the initial variables; `row m` is the system after `n_m` sub-steps. -/
def AcceptedAny (O : IterSys S F) (p : Params F) (input : List F) (Fresh : S → Prop) (h : F) (k : Nat) (s' : S) : Prop :=
  ∃ (start row : Nat → S) (T0 T1 : Arr F), 1 ≤ k ∧ k ≤ p.maxDepth ∧
    (∀ m, m ≤ k → Fresh (start m) ∧ O.integrate h (hSeq p.maxDepth m) (start m) = .ok (row m)) ∧
    (∀ i, i < input.length → T0 i = entry p.maxDepth (fun m => O.inc (row m) i) k 0) ∧
    Arith.le (p.err input T1 T0) (Arith.ofRat 1) = true ∧
    ∃ s'', O.read (row k) (arrayAdvance input T0) = .ok s'' ∧ s' = O.collect false s''

/-- the step tried after some rejections: each multiplies it by a value of the limiter -/
inductive RetriedAny (p : Params F) : F → F → Prop
  | refl (h : F) : RetriedAny p h h
  | again {h h' : F} (order : Nat) (ratio : F) (t : RetriedAny p (Arith.mul h (p.limiter order ratio)) h') : RetriedAny p h h'

theorem columns_any (O : IterSys S F) (p : Params F) (input : List F) (Fresh : S → Prop) (hR : RestoresAny O input Fresh) (h : F) (m : Nat) :
    ∀ (k : Nat) (c : State F) (s : S) (start row : Nat → S), 1 ≤ k → s = row (k - 1) →
      (∀ r, r < k → Fresh (start r) ∧ O.integrate h (hSeq p.maxDepth r) (start r) = .ok (row r)) →
      (∀ r i, r < k → i < (input).length → c.rows r i = entry p.maxDepth (fun m => O.inc (row m) i) (k - 1 - r) r) →
      ∀ e, columns O p (input) h m k c s = .ok e →
        match e with
        | .accept s' h' _ => (∃ k, AcceptedAny O p input Fresh h k s') ∧ ∃ order ratio, h' = Arith.mul h (p.limiter order ratio)
        | .reject s' h' _ => (∃ x n, Fresh x ∧ O.integrate h n x = .ok s') ∧ ∃ order ratio, h' = Arith.mul h (p.limiter order ratio)
        | .exhausted s' _ => ∃ x n, Fresh x ∧ O.integrate h n x = .ok s' := by
  induction m with
  | zero =>
    intro k c s start row hk hs hrow _ e he
    cases he
    exact ⟨_, _, hs ▸ hrow (k - 1) (by omega)⟩
  | succ m ih =>
    intro k c s start row hk hs hrow hrows e he
    unfold columns at he
    obtain ⟨s1, r1, he⟩ := Res.bind_eq_ok.1 he
    obtain ⟨_, hck, he⟩ := Res.bind_eq_ok.1 he
    have hkD := chk_ok hck
    have hcl : Fresh (O.clear s1) := by
      subst hs
      exact hR.again _ _ _ _ _ (hrow (k - 1) (by omega)).1 (hrow (k - 1) (by omega)).2 r1
    obtain ⟨s2, i2, he⟩ := Res.bind_eq_ok.1 he
    set start' : Nat → S := fun r => if r = k then O.clear s1 else start r with hstart'
    set row' : Nat → S := fun r => if r = k then s2 else row r with hrow'
    set c1 : State F :=
      { c with rows := fun r => (if r = k then copyRow (input).length (O.inc s2) (c.rows k) else c.rows r) } with hc1
    have hy : ∀ i, i < (input).length → ∀ r, r ≤ k →
        (evalColumn p (input) h c1 k).1.rows r i = entry p.maxDepth (fun m => O.inc (row' m) i) (k - r) r := by
      intro i hi
      refine extrapolate_entry hi (fun m => O.inc (row' m) i) c1.rows ?_ ?_
      · simp only [hc1, hrow', if_true, copyRow, if_pos hi]
      · intro r hr
        simp only [hc1]
        rw [if_neg (by omega), hrows r i hr hi]
        refine entry_congr _ _ (fun m h1 h2 => ?_)
        simp only [hrow']
        rw [if_neg (by omega)]
    have hrow2 : ∀ r, r ≤ k → Fresh (start' r) ∧ O.integrate h (hSeq p.maxDepth r) (start' r) = .ok (row' r) := by
      intro r hr
      by_cases hrk : r = k
      · subst hrk; simp only [hrow', hstart', if_true]; exact ⟨hcl, i2⟩
      · simp only [hrow', hstart', if_neg hrk]; exact hrow r (by omega)
    have hs2 : s2 = row' k := by simp only [hrow', if_true]
    dsimp only at he
    change (if inWindow (evalColumn p (input) h c1 k).1 k = true then _ else _) = _ at he
    generalize hce : evalColumn p (input) h c1 k = ce at he hy
    have herr : ce.2 = p.err (input) (ce.1.rows 1) (ce.1.rows 0) := by rw [← hce]; rfl
    have go : ∀ e, columns O p (input) h m (k + 1) ce.1 s2 = .ok e → _ :=
      ih (k + 1) ce.1 s2 start' row' (by omega) (by rw [Nat.add_sub_cancel]; exact hs2) (fun r hr => hrow2 r (by omega))
        (fun r i hr hi => by rw [Nat.add_sub_cancel]; exact hy i hi r (by omega))
    by_cases hw : inWindow ce.1 k = true
    · rw [if_pos hw] at he
      by_cases hle : Arith.le ce.2 (Arith.ofRat 1) = true
      · rw [if_pos hle] at he
        obtain ⟨s3, r3, he⟩ := Res.bind_eq_ok.1 he
        obtain ⟨r, _, he⟩ := Res.bind_eq_ok.1 he
        cases he
        refine ⟨⟨k, start', row', ce.1.rows 0, ce.1.rows 1, hk, hkD, hrow2, fun i hi => hy i hi 0 (by omega), ?_, s3, ?_, rfl⟩, _, _, rfl⟩
        · rw [← herr]; exact hle
        · rw [← hs2]; exact r3
      · rw [if_neg hle] at he
        obtain ⟨d, _, he⟩ := Res.bind_eq_ok.1 he
        by_cases hd : d = true
        · rw [if_pos hd] at he
          obtain ⟨r, _, he⟩ := Res.bind_eq_ok.1 he
          cases he
          exact ⟨⟨_, _, hcl, i2⟩, _, _, rfl⟩
        · rw [if_neg hd] at he
          exact go e he
    · rw [if_neg hw] at he
      exact go e he

theorem attempts_any (O : IterSys S F) (p : Params F) (input : List F) (Fresh : S → Prop) (hR : RestoresAny O input Fresh) (tries : Nat) :
    ∀ (h : F) (c : State F) (s : S), Fresh (O.clear s) →
      ∀ s' h' c', attempts O p (input) tries h c s = .ok (s', h', c') →
        ∃ hAcc k order ratio, RetriedAny p h hAcc ∧ AcceptedAny O p input Fresh hAcc k s' ∧ h' = Arith.mul hAcc (p.limiter order ratio) := by
  induction tries with
  | zero => intro h c s _ s' h' c' he; cases he
  | succ tries ih =>
    intro h c s hcl s' h' c' he
    unfold attempts at he
    obtain ⟨s1, i1, he⟩ := Res.bind_eq_ok.1 he
    obtain ⟨e, hc, he⟩ := Res.bind_eq_ok.1 he
    have := columns_any O p input Fresh hR h _ 1 _ s1 (fun _ => O.clear s) (fun _ => s1) le_rfl rfl (fun r hr => by
      obtain rfl : r = 0 := by omega
      exact ⟨hcl, i1⟩) (fun r i hr hi => by
      obtain rfl : r = 0 := by omega
      simp only [if_true, copyRow, if_pos hi]
      rfl) e hc
    cases e with
    | accept s2 h2 c2 =>
      cases he
      obtain ⟨⟨k, a1⟩, order, ratio, a2⟩ := this
      exact ⟨h, k, order, ratio, .refl h, a1, a2⟩
    | reject s2 h2 c2 =>
      obtain ⟨⟨x, n, a0, a1⟩, order, ratio, a2⟩ := this
      obtain ⟨s3, r3, he⟩ := Res.bind_eq_ok.1 he
      obtain ⟨hAcc, k, o2, ra2, t, b1, b2⟩ := ih h2 c2 s3 (hR.again _ _ _ _ _ a0 a1 r3) _ _ _ he
      subst a2
      exact ⟨hAcc, k, o2, ra2, .again order ratio t, b1, b2⟩
    | exhausted s2 c2 =>
      obtain ⟨x, n, a0, a1⟩ := this
      obtain ⟨s3, r3, he⟩ := Res.bind_eq_ok.1 he
      exact ih h c2 s3 (hR.again _ _ _ _ _ a0 a1 r3) _ _ _ he
end

/-- in exact arithmetic the entries are extrapolated values -/
theorem entry_exact {D : Nat} (y : Nat → ℝ) : ∀ d r, r + d ≤ D → entry D y d r = zeroStep (hSeq D) y r (r + d) := by
  intro d
  induction d with
  | zero => intro r _; rw [Nat.add_zero, zeroStep_self]; rfl
  | succ d ih =>
    intro r h
    have e := zeroStep_step y (show r < r + (d + 1) by omega) h
    rw [entry, ih (r + 1) (by omega), ih r (by omega), show r + 1 + d = r + (d + 1) by omega]
    rw [show r + (d + 1) - 1 = r + d by omega] at e
    have t := tableCoef_eq (D := D) (k := r + d + 1) (j := r) (by omega)
    rw [show r + d + 1 - (r + 1) = d by omega] at t
    rw [e, t]
    rfl

end SpaceHub.BS
