import Verif.Proof.BSLawful
import Verif.Spec.BSTries

/-
The attempts of a later call of the Bulirsch-Stoer iterator, decision by decision.
-/

set_option autoImplicit false

namespace SpaceHub.BS
open SpaceHub SpaceHub.Sys Spec

variable {S : Type}

theorem cost_eq (D : Nat) (kdk : Bool) (k : Nat) : (cost D kdk k : ℝ) = work (hSeq D) (kdk.toNat * 2) k := by
  induction k with
  | zero =>
    show (((hSeq D 0 + kdk.toNat * 2 : Nat) : ℚ) : ℝ) = _
    unfold work
    rw [Finset.sum_range_one]; push_cast; ring
  | succ k ih =>
    show (cost D kdk k : ℝ) + (((hSeq D (k + 1) : Nat) : ℚ) : ℝ) + (((kdk.toNat * 2 : Nat) : ℚ) : ℝ) = _
    rw [ih]; unfold work
    rw [Finset.sum_range_succ _ (k + 1)]; push_cast; ring

theorem allowed_eq (D i : Nat) : allowed D i = clip D i := by
  unfold allowed clip; dsimp only; split_ifs <;> omega

theorem clip_low {D : Nat} (hD : 3 ≤ D) (i : Nat) : 2 ≤ clip D i ∧ clip D i ≤ D - 1 := by unfold clip; omega
theorem clip_le {D i j : Nat} (h : i ≤ j) (hj : 2 ≤ j) : clip D i ≤ j := by unfold clip; omega

theorem newOrder_pos {D : Nat} (hD : 3 ≤ D) {W : Nat → ℝ} {A : Prop} {r k : Nat} (hr : 1 ≤ r) : 1 ≤ newOrder D W A r k := by
  have h := fun i => (clip_low hD i).1
  unfold newOrder
  dsimp only
  by_cases h1 : k ≤ r
  · rw [if_pos h1]; exact le_trans (by norm_num) (h _)
  · rw [if_neg h1]
    have ha : 1 ≤ if W (k - 2) < 0.8 * W (k - 1) then clip D (k - 2) else r := by
      by_cases h2 : W (k - 2) < 0.8 * W (k - 1)
      · rw [if_pos h2]; exact le_trans (by norm_num) (h _)
      · rw [if_neg h2]; exact hr
    generalize (if W (k - 2) < 0.8 * W (k - 1) then clip D (k - 2) else r) = a at ha ⊢
    by_cases h3 : W k < 0.9 * W a ∧ A
    · rw [if_pos h3]; exact le_trans (by norm_num) (h _)
    · rw [if_neg h3]; exact ha

theorem alt {a b : ℝ} : (Arith.lt a b = true) = (a < b) := by
  show (decide (a < b) = true) = _
  simp

theorem dec8 (x : ℝ) : Arith.mul (Arith.ofRat (8 / 10) : ℝ) x = 0.8 * x := by
  show ((8 / 10 : ℚ) : ℝ) * x = _
  push_cast; norm_num
theorem dec9 (x : ℝ) : Arith.mul (Arith.ofRat (9 / 10) : ℝ) x = 0.9 * x := by
  show ((9 / 10 : ℚ) : ℝ) * x = _
  push_cast; norm_num

theorem nextStepLen_spec (p : Params ℝ) (c : State ℝ) {r' k : Nat} {q : ℝ} (e : nextStepLen p c r' k = .ok q) :
    r' ≤ k + 1 ∧ q = if r' ≤ k then c.ideal r'
      else c.ideal k * work (hSeq p.maxDepth) (p.kdk.toNat * 2) (k + 1) / work (hSeq p.maxDepth) (p.kdk.toNat * 2) k := by
  unfold nextStepLen at e
  by_cases h1 : r' ≤ k
  · rw [if_pos h1] at e
    obtain ⟨_, _, e⟩ := Res.bind_eq_ok.1 e
    cases e
    exact ⟨by omega, by rw [if_pos h1]⟩
  · rw [if_neg h1] at e
    by_cases h2 : r' = k + 1
    · rw [if_pos h2] at e
      obtain ⟨_, _, e⟩ := Res.bind_eq_ok.1 e
      obtain ⟨_, _, e⟩ := Res.bind_eq_ok.1 e
      cases e
      refine ⟨by omega, ?_⟩
      rw [if_neg h1, ← cost_eq, ← cost_eq]; rfl
    · rw [if_neg h2] at e; cases e

/-- order and step after a decision -/
theorem setNext_spec (p : Params ℝ) (c : State ℝ) (hf : c.first = false) {k : Nat} {r : ℝ × State ℝ}
    (hk : k + 1 = c.rank ∨ k = c.rank ∨ k = c.rank + 1) (e : setNextIteration p c k = .ok r) :
    r.2 = { c with rank := newOrder p.maxDepth c.cpl (c.reject = false) c.rank k } ∧
      nextStepLen p c r.2.rank k = .ok r.1 := by
  have fin : ∀ i, (do
      let c : State ℝ := { c with rank := i }
      let h ← nextStepLen p c c.rank k
      Res.ok (h, c)) = .ok r → r.2 = { c with rank := i } ∧ nextStepLen p c r.2.rank k = .ok r.1 := by
    intro i e
    obtain ⟨h, e1, e2⟩ := Res.bind_eq_ok.1 e
    cases e2
    exact ⟨rfl, e1⟩
  have hrej : ((!c.reject) = true) = (c.reject = false) := by cases c.reject <;> simp
  unfold setNextIteration at e
  rw [if_pos (show (!c.first) = true by rw [hf]; rfl)] at e
  unfold newOrder
  by_cases h1 : k + 1 = c.rank ∨ k = c.rank
  · rw [if_pos h1] at e
    rw [if_pos (by omega)]
    obtain ⟨_, _, e⟩ := Res.bind_eq_ok.1 e
    obtain ⟨_, _, e⟩ := Res.bind_eq_ok.1 e
    simp only [dec8, dec9, Bool.and_eq_true, alt, hrej, allowed_eq] at e
    by_cases a1 : c.cpl (k - 1) < 0.8 * c.cpl k
    · rw [if_pos a1] at e ⊢; exact fin _ e
    · rw [if_neg a1] at e ⊢
      by_cases a2 : c.cpl k < 0.9 * c.cpl (k - 1) ∧ c.reject = false
      · rw [if_pos a2] at e ⊢; exact fin _ e
      · rw [if_neg a2] at e ⊢; exact fin _ e
  · have h2 : k = c.rank + 1 := by omega
    rw [if_neg h1, if_pos h2] at e
    rw [if_neg (by omega)]
    obtain ⟨_, _, e⟩ := Res.bind_eq_ok.1 e
    simp only [dec8, dec9, Bool.and_eq_true, alt, allowed_eq] at e
    have fin2 : ∀ a, (do
        chk p.maxDepth a
        let c1 : State ℝ := { c with rank := a }
        let c : State ℝ := if c1.cpl k < 0.9 * c1.cpl c1.rank ∧ (!c1.reject) = true then { c1 with rank := clip p.maxDepth k } else c1
        let h ← nextStepLen p c c.rank k
        Res.ok (h, c)) = .ok r →
        r.2 = { c with rank := if c.cpl k < 0.9 * c.cpl a ∧ c.reject = false then clip p.maxDepth k else a } ∧
          nextStepLen p c r.2.rank k = .ok r.1 := by
      intro a e
      obtain ⟨_, _, e⟩ := Res.bind_eq_ok.1 e
      simp only [hrej] at e
      by_cases a2 : c.cpl k < 0.9 * c.cpl a ∧ c.reject = false
      · simp only [if_pos a2] at e ⊢; exact fin _ e
      · simp only [if_neg a2] at e ⊢; exact fin _ e
    by_cases a1 : c.cpl (k - 2) < 0.8 * c.cpl (k - 1)
    · simp only [if_pos a1] at e ⊢
      exact fin2 _ e
    · simp only [if_neg a1] at e ⊢
      exact fin2 _ e

theorem isDiverged_spec (p : Params ℝ) (c : State ℝ) (hf : c.first = false) (E : ℝ) (k : Nat) {d : Bool}
    (e : isDiverged p c E k = .ok d) : d = true ↔ giveUp (hSeq p.maxDepth) c.rank k < E := by
  unfold isDiverged at e
  rw [if_pos (show (!c.first) = true by rw [hf]; rfl)] at e
  unfold giveUp
  by_cases h1 : k + 1 = c.rank
  · rw [if_pos h1] at e ⊢
    obtain ⟨_, _, e⟩ := Res.bind_eq_ok.1 e
    obtain ⟨_, _, e⟩ := Res.bind_eq_ok.1 e
    cases e
    rw [alt]
    show ((((hSeq p.maxDepth (k + 1) * hSeq p.maxDepth (k + 2) : Nat) : ℚ) : ℝ) / (((hSeq p.maxDepth 0 * hSeq p.maxDepth 0 : Nat) : ℚ) : ℝ)) *
      ((((hSeq p.maxDepth (k + 1) * hSeq p.maxDepth (k + 2) : Nat) : ℚ) : ℝ) / (((hSeq p.maxDepth 0 * hSeq p.maxDepth 0 : Nat) : ℚ) : ℝ)) < E ↔ _
    push_cast
    rw [← pow_two, ← pow_two]
  · rw [if_neg h1] at e ⊢
    by_cases h2 : k = c.rank
    · rw [if_pos h2] at e ⊢
      obtain ⟨_, _, e⟩ := Res.bind_eq_ok.1 e
      cases e
      rw [alt]
      show (((hSeq p.maxDepth (k + 1) : Nat) : ℚ) : ℝ) / (((hSeq p.maxDepth 0 : Nat) : ℚ) : ℝ) *
        ((((hSeq p.maxDepth (k + 1) : Nat) : ℚ) : ℝ) / (((hSeq p.maxDepth 0 : Nat) : ℚ) : ℝ)) < E ↔ _
      push_cast
      rw [← pow_two]
    · rw [if_neg h2] at e ⊢
      cases e
      rw [alt]
      show ((1 : ℚ) : ℝ) * ((1 : ℚ) : ℝ) < E ↔ _
      norm_num

/-- error of column `k` as the iterator sees it -/
def RawError (O : IterSys S ℝ) (p : Params ℝ) (input : List ℝ) (Fresh : S → Prop) (h : ℝ) (k : Nat) (E : ℝ) : Prop :=
  k ≤ p.maxDepth ∧ ∃ (start row : Nat → S) (T0 T1 : Arr ℝ),
    (∀ m, m ≤ k → Fresh (start m) ∧ O.integrate h (hSeq p.maxDepth m) (start m) = .ok (row m)) ∧
    (∀ i, i < input.length → T0 i = zeroStep (hSeq p.maxDepth) (fun m => O.inc (row m) i) 0 k ∧
      T1 i = zeroStep (hSeq p.maxDepth) (fun m => O.inc (row m) i) 1 k) ∧
    E = p.err input T1 T0

/-- `s'` is the result of column `k` of a step `h` -/
def RawResult (O : IterSys S ℝ) (p : Params ℝ) (input : List ℝ) (Fresh : S → Prop) (h : ℝ) (k : Nat) (s' : S) : Prop :=
  ∃ (start row : Nat → S) (T0 T1 : Arr ℝ), 1 ≤ k ∧ k ≤ p.maxDepth ∧
    (∀ m, m ≤ k → Fresh (start m) ∧ O.integrate h (hSeq p.maxDepth m) (start m) = .ok (row m)) ∧
    (∀ i, i < input.length → T0 i = zeroStep (hSeq p.maxDepth) (fun m => O.inc (row m) i) 0 k ∧
      T1 i = zeroStep (hSeq p.maxDepth) (fun m => O.inc (row m) i) 1 k) ∧
    p.err input T1 T0 ≤ 1 ∧
    ∃ s'', O.read (row k) (input.mapIdx fun i x => x + T0 i) = .ok s'' ∧ s' = O.collect false s''

theorem columns_tries (O : IterSys S ℝ) (p : Params ℝ) (input : List ℝ) (Fresh : S → Prop) (hR : Restores O input Fresh) (hD : 3 ≤ p.maxDepth) (h : ℝ) (m : Nat) :
    ∀ (k : Nat) (c : State ℝ) (s : S) (start row : Nat → S) (E : Nat → ℝ), 1 ≤ c.rank → 1 ≤ k → s = row (k - 1) → c.first = false → m + k = c.rank + 2 →
      (∀ r, r < k → Fresh (start r) ∧ O.integrate h (hSeq p.maxDepth r) (start r) = .ok (row r)) →
      (∀ r i, r < k → i < (input).length →
        c.rows r i = zeroStep (hSeq p.maxDepth) (fun m => O.inc (row m) i) r (k - 1)) →
      (∀ j, 1 ≤ j → j < k → RawError O p input Fresh h j (E j)) →
      (∀ j, 1 ≤ j → c.rank ≤ j + 1 → j < k → 1 < E j ∧ E j ≤ giveUp (hSeq p.maxDepth) c.rank j) →
      (∀ j, 1 ≤ j → j < k → c.ideal j = h * p.next (2 * j + 1) (E j)) →
      (∀ j, 1 ≤ j → j < k → c.cpl j = work (hSeq p.maxDepth) (p.kdk.toNat * 2) j / c.ideal j) →
      ∀ e, columns O p (input) h m k c s = .ok e →
        match e with
        | .accept s' h' c' => ∃ K E q, RawResult O p input Fresh h K s' ∧ DecidedAt (hSeq p.maxDepth) (RawError O p input Fresh h) c.rank K E ∧
            E K ≤ 1 ∧ Aim (hSeq p.maxDepth) p.maxDepth (p.kdk.toNat * 2) p.next h c.rank K E True c'.rank q ∧
            h' = h * p.limiter (2 * K + 1) (q / h) ∧ 1 ≤ c'.rank ∧ c'.first = false ∧ c'.iterNum = c.iterNum ∧ c'.rejNum = c.rejNum
        | .reject s' h' c' => (∃ x n, Fresh x ∧ O.integrate h n x = .ok s') ∧
            ∃ K E q, DecidedAt (hSeq p.maxDepth) (RawError O p input Fresh h) c.rank K E ∧ giveUp (hSeq p.maxDepth) c.rank K < E K ∧
            Aim (hSeq p.maxDepth) p.maxDepth (p.kdk.toNat * 2) p.next h c.rank K E False c'.rank q ∧
            h' = h * p.limiter (2 * K + 1) (q / h) ∧ 1 ≤ c'.rank ∧ c'.first = false ∧ c'.iterNum = c.iterNum ∧ c'.rejNum = c.rejNum + 1
        | .exhausted _ _ => False := by
  induction m with
  | zero =>
    intro k c s start row E hr hk hs hf hmk hrow _ _ hb _ _ e he
    cases he
    have := hb (k - 1) (by omega) (by omega) (by omega)
    unfold giveUp at this
    rw [if_neg (by omega), if_neg (by omega)] at this
    exact absurd this.1 (not_lt.2 this.2)
  | succ m ih =>
    intro k c s start row E hr hk hs hf hmk hrow hrows hE hb hid hcpl e he
    unfold columns at he
    obtain ⟨s1, r1, he⟩ := Res.bind_eq_ok.1 he
    obtain ⟨_, hck, he⟩ := Res.bind_eq_ok.1 he
    have hkD := chk_ok hck
    have hcl : Fresh (O.clear s1) := by
      subst hs
      exact hR.again _ _ _ _ _ (hrow (k - 1) (by omega)).1 (hrow (k - 1) (by omega)).2 r1
    obtain ⟨s2, i2, he⟩ := Res.bind_eq_ok.1 he
    set start' : Nat → S := fun r => if r = k then O.clear s1 else start r with hstart'
    set row' : Nat → S := fun r => if r = k then s2 else row r with hrow'
    set c1 : State ℝ :=
      { c with rows := fun r => (if r = k then copyRow (input).length (O.inc s2) (c.rows k) else c.rows r) } with hc1
    have hy : ∀ i, i < (input).length → ∀ r, r ≤ k →
        (evalColumn p (input) h c1 k).1.rows r i = zeroStep (hSeq p.maxDepth) (fun m => O.inc (row' m) i) r k := by
      intro i hi
      refine extrapolate_spec hkD hi (fun m => O.inc (row' m) i) c1.rows ?_ ?_
      · simp only [hc1, hrow', if_true, copyRow, if_pos hi]
      · intro r hr
        simp only [hc1]
        rw [if_neg (by omega), hrows r i hr hi]
        refine zeroStep_congr (fun m h1 h2 => ?_)
        simp only [hrow']
        rw [if_neg (by omega)]
    have hrow2 : ∀ r, r ≤ k → Fresh (start' r) ∧ O.integrate h (hSeq p.maxDepth r) (start' r) = .ok (row' r) := by
      intro r hr
      by_cases hrk : r = k
      · subst hrk; simp only [hrow', hstart', if_true]; exact ⟨hcl, i2⟩
      · simp only [hrow', hstart', if_neg hrk]; exact hrow r (by omega)
    have hs2 : s2 = row' k := by simp only [hrow', if_true]
    dsimp only at he
    change (if inWindow (evalColumn p (input) h c1 k).1 k = true then _ else _) = _ at he
    generalize hce : evalColumn p (input) h c1 k = ce at he hy
    have herr : ce.2 = p.err (input) (ce.1.rows 1) (ce.1.rows 0) := by rw [← hce]; rfl
    have hfst : ce.1.first = false := by rw [← hce]; exact hf
    have hrk : ce.1.rank = c.rank := by rw [← hce]; rfl
    have hin : ce.1.iterNum = c.iterNum := by rw [← hce]; rfl
    have hrn : ce.1.rejNum = c.rejNum := by rw [← hce]; rfl
    obtain ⟨E', hE'⟩ : ∃ E' : Nat → ℝ, E' = fun j => if j = k then ce.2 else E j := ⟨_, rfl⟩
    have hE'k : E' k = ce.2 := by rw [hE']; simp
    have hE'j : ∀ j, j < k → E' j = E j := fun j hj => by rw [hE']; exact if_neg (by omega)
    have hideal : ∀ j, 1 ≤ j → j < k + 1 → ce.1.ideal j = h * p.next (2 * j + 1) (E' j) := by
      intro j h1 h2
      by_cases hj : j = k
      · subst hj
        rw [hE'k, ← hce]
        show (c1.ideal.set j (h * p.next (2 * j + 1) _)) j = _
        unfold Arr.set
        rw [if_pos rfl]; rfl
      · rw [hE'j j (by omega), ← hid j h1 (by omega), ← hce]
        show (c1.ideal.set k _) j = _
        unfold Arr.set
        rw [if_neg hj]
    have hcost : ∀ j, 1 ≤ j → j < k + 1 → ce.1.cpl j = work (hSeq p.maxDepth) (p.kdk.toNat * 2) j / ce.1.ideal j := by
      intro j h1 h2
      by_cases hj : j = k
      · subst hj
        rw [← hce, ← cost_eq]
        show (c1.cpl.set j _) j = _
        unfold Arr.set
        rw [if_pos rfl]; rfl
      · have e1 : ce.1.ideal j = c.ideal j := by
          rw [← hce]
          show (c1.ideal.set k _) j = _
          unfold Arr.set
          rw [if_neg hj]
        rw [e1, ← hcpl j h1 (by omega), ← hce]
        show (c1.cpl.set k _) j = _
        unfold Arr.set
        rw [if_neg hj]
    have hErr : ∀ j, 1 ≤ j → j < k + 1 → RawError O p input Fresh h j (E' j) := by
      intro j h1 h2
      by_cases hj : j = k
      · subst hj
        rw [hE'k]
        exact ⟨hkD, start', row', ce.1.rows 0, ce.1.rows 1, hrow2, fun i hi => ⟨hy i hi 0 (by omega), hy i hi 1 hk⟩, herr⟩
      · rw [hE'j j (by omega)]; exact hE j h1 (by omega)
    have hb' : ∀ j, 1 ≤ j → c.rank ≤ j + 1 → j < k → 1 < E' j ∧ E' j ≤ giveUp (hSeq p.maxDepth) c.rank j := by
      intro j h1 h2 h3
      rw [hE'j j h3]; exact hb j h1 h2 h3
    have go : (c.rank ≤ k + 1 → 1 < ce.2 ∧ ce.2 ≤ giveUp (hSeq p.maxDepth) c.rank k) →
        ∀ e, columns O p (input) h m (k + 1) ce.1 s2 = .ok e → _ := fun hlast =>
      ih (k + 1) ce.1 s2 start' row' E' (by rw [hrk]; exact hr) (by omega) (by rw [Nat.add_sub_cancel]; exact hs2) hfst (by rw [hrk]; omega)
        (fun r hr => hrow2 r (by omega)) (fun r i hr hi => by rw [Nat.add_sub_cancel]; exact hy i hi r (by omega)) hErr
        (fun j h1 h2 h3 => by
          rw [hrk] at h2 ⊢
          by_cases hj : j = k
          · subst hj; rw [hE'k]; exact hlast h2
          · exact hb' j h1 h2 (by omega)) hideal hcost
    rw [hrk, hin, hrn] at go
    by_cases hw : inWindow ce.1 k = true
    · rw [if_pos hw] at he
      have hwin : k + 1 = c.rank ∨ k = c.rank ∨ k = c.rank + 1 := by
        unfold inWindow at hw
        rw [hrk, hfst] at hw
        simpa [or_assoc] using hw
      have hdec : DecidedAt (hSeq p.maxDepth) (RawError O p input Fresh h) c.rank k E' :=
        ⟨hk, by omega, by omega, fun j h1 h2 => hErr j h1 (by omega), hb'⟩
      have haim : ∀ (c2 : State ℝ) (r : ℝ × State ℝ), c2.first = false → c2.rank = c.rank → c2.ideal = ce.1.ideal → c2.cpl = ce.1.cpl →
          setNextIteration p c2 k = .ok r →
          Aim (hSeq p.maxDepth) p.maxDepth (p.kdk.toNat * 2) p.next h c.rank k E' (c2.reject = false) r.2.rank r.1 ∧
            1 ≤ r.2.rank ∧ r.2.first = false ∧ r.2.iterNum = c2.iterNum ∧ r.2.rejNum = c2.rejNum := by
        intro c2 r a1 a2 a3 a4 e
        obtain ⟨b1, b2⟩ := setNext_spec p c2 a1 (by rw [a2]; exact hwin) e
        obtain ⟨b3, b4⟩ := nextStepLen_spec p c2 b2
        have hpos : 1 ≤ r.2.rank := by rw [b1, a2]; exact newOrder_pos hD hr
        refine ⟨⟨⟨ce.1.cpl, fun j h1 h2 => ?_, ?_⟩, b3, ?_⟩, hpos, ?_, ?_, ?_⟩
        · rw [hcost j h1 (by omega), hideal j h1 (by omega)]
        · rw [b1, a4, a2]
        · rw [b4, a3]
          by_cases hle : r.2.rank ≤ k
          · rw [if_pos hle, if_pos hle]
            exact hideal _ hpos (by omega)
          · rw [if_neg hle, if_neg hle, hideal k hk (by omega)]
        · rw [b1]; exact a1
        · rw [b1]
        · rw [b1]
      by_cases hle : Arith.le ce.2 (Arith.ofRat 1) = true
      · rw [if_pos hle] at he
        obtain ⟨s3, r3, he⟩ := Res.bind_eq_ok.1 he
        obtain ⟨r, hset, he⟩ := Res.bind_eq_ok.1 he
        cases he
        have hle' : ce.2 ≤ 1 := by
          have : ce.2 ≤ ((1 : ℚ) : ℝ) := of_decide_eq_true hle
          simpa using this
        obtain ⟨q1, q0, q2, q3, q4⟩ := haim { ce.1 with reject := false } r hfst hrk rfl rfl hset
        refine ⟨k, E', r.1, ⟨start', row', ce.1.rows 0, ce.1.rows 1, hk, hkD, hrow2, fun i hi => ⟨hy i hi 0 (by omega), hy i hi 1 hk⟩, ?_, s3,
          ?_, rfl⟩, hdec, by rw [hE'k]; exact hle', ?_, rfl, q0, rfl, q3.trans hin, q4.trans hrn⟩
        · rw [← herr]; exact hle'
        · rw [← hs2]; exact r3
        · simpa using q1
      · rw [if_neg hle] at he
        have hgt : 1 < ce.2 := by
          by_contra hcon
          exact hle (decide_eq_true (show ce.2 ≤ ((1 : ℚ) : ℝ) by simpa using hcon))
        obtain ⟨d, hd0, he⟩ := Res.bind_eq_ok.1 he
        have hdv := isDiverged_spec p ce.1 hfst ce.2 k hd0
        rw [hrk] at hdv
        by_cases hd : d = true
        · rw [if_pos hd] at he
          obtain ⟨r, hset, he⟩ := Res.bind_eq_ok.1 he
          cases he
          obtain ⟨q1, q0, q2, q3, q4⟩ := haim { ce.1 with reject := true, rejNum := ce.1.rejNum + 1 } r hfst hrk rfl rfl hset
          refine ⟨⟨_, _, hcl, i2⟩, k, E', r.1, hdec, by rw [hE'k]; exact hdv.1 hd, ?_, rfl, q0, q2, q3.trans hin, ?_⟩
          · simpa using q1
          · rw [q4]; show ce.1.rejNum + 1 = _; rw [hrn]
        · rw [if_neg hd] at he
          exact go (fun _ => ⟨hgt, not_lt.1 fun h => hd (hdv.2 h)⟩) e he
    · rw [if_neg hw] at he
      refine go (fun hle => absurd ?_ hw) e he
      unfold inWindow
      rw [hrk, hfst]
      have : k + 1 = c.rank ∨ k = c.rank ∨ k = c.rank + 1 := by omega
      simpa [or_assoc] using this

/-- All attempts of a later call. -/
theorem attempts_tries (O : IterSys S ℝ) (p : Params ℝ) (input : List ℝ) (Fresh : S → Prop) (hR : Restores O input Fresh) (hD : 3 ≤ p.maxDepth)
    (tries : Nat) : ∀ (h : ℝ) (c : State ℝ) (s : S), Fresh (O.clear s) → c.first = false → 1 ≤ c.rank →
      ∀ s' h' c', attempts O p (input) tries h c s = .ok (s', h', c') →
        ∃ m hAcc k, m < tries ∧
          Tries (hSeq p.maxDepth) p.maxDepth (p.kdk.toNat * 2) p.next p.limiter (RawError O p input Fresh) h c.rank m hAcc k c'.rank h' ∧
          RawResult O p input Fresh hAcc k s' ∧ c'.first = false ∧ c'.iterNum = c.iterNum + m + 1 ∧ c'.rejNum = c.rejNum + m := by
  induction tries with
  | zero => intro h c s _ _ _ s' h' c' he; cases he
  | succ tries ih =>
    intro h c s hcl hf hr s' h' c' he
    unfold attempts at he
    obtain ⟨s1, i1, he⟩ := Res.bind_eq_ok.1 he
    obtain ⟨e, hc, he⟩ := Res.bind_eq_ok.1 he
    have := columns_tries O p input Fresh hR hD h _ 1 _ s1 (fun _ => O.clear s) (fun _ => s1) (fun _ => 0) (by exact hr) le_rfl rfl (by exact hf)
      (by dsimp only) (fun r hr => by
        obtain rfl : r = 0 := by omega
        exact ⟨hcl, i1⟩) (fun r i hr hi => by
        obtain rfl : r = 0 := by omega
        rw [zeroStep_self]
        simp only [if_true, copyRow, if_pos hi]) (fun j h1 h2 => by omega) (fun j h1 _ h2 => by omega) (fun j h1 h2 => by omega)
      (fun j h1 h2 => by omega) e hc
    cases e with
    | accept s2 h2 c2 =>
      cases he
      obtain ⟨K, E, q, b1, b2, b3, b4, b5, b6, b7, b8, b9⟩ := this
      rw [b5]
      exact ⟨0, h, K, by omega, .accept b2 b3 b4, b1, b7, b8, b9⟩
    | reject s2 h2 c2 =>
      obtain ⟨⟨x, n, a0, a1⟩, K, E, q, b2, b3, b4, b5, b6, b7, b8, b9⟩ := this
      obtain ⟨s3, r3, he⟩ := Res.bind_eq_ok.1 he
      obtain ⟨m, hAcc, k, d1, d2, d3, d4, d5, d6⟩ := ih h2 c2 s3 (hR.again _ _ _ _ _ a0 a1 r3) b7 b6 _ _ _ he
      rw [b5] at d2
      refine ⟨m + 1, hAcc, k, by omega, .giveUp b2 b3 b4 d2, d3, d4, ?_, ?_⟩
      · rw [d5, b8]; show c.iterNum + 1 + m + 1 = _; omega
      · rw [d6, b9]; show c.rejNum + 1 + m = _; omega
    | exhausted s2 c2 => exact absurd this id

/-- A first call: the step is never changed, nothing is counted as given up. -/
theorem columns_first_same (O : IterSys S ℝ) (p : Params ℝ) (input : List ℝ) (h : ℝ) (m : Nat) :
    ∀ (k : Nat) (c : State ℝ) (s : S), c.first = true → ∀ e, columns O p (input) h m k c s = .ok e →
        match e with
        | .accept _ _ c' => c'.iterNum = c.iterNum ∧ c'.rejNum = c.rejNum
        | .reject _ _ _ => False
        | .exhausted _ c' => c'.first = true ∧ c'.iterNum = c.iterNum ∧ c'.rejNum = c.rejNum := by
  induction m with
  | zero => intro k c s hf e he; cases he; exact ⟨hf, rfl, rfl⟩
  | succ m ih =>
    intro k c s hf e he
    unfold columns at he
    obtain ⟨s1, r1, he⟩ := Res.bind_eq_ok.1 he
    obtain ⟨_, hck, he⟩ := Res.bind_eq_ok.1 he
    obtain ⟨s2, i2, he⟩ := Res.bind_eq_ok.1 he
    dsimp only at he
    generalize hce : evalColumn p (input) h _ k = ce at he
    have hfst : ce.1.first = true := by rw [← hce]; exact hf
    have hin : ce.1.iterNum = c.iterNum := by rw [← hce]; rfl
    have hrn : ce.1.rejNum = c.rejNum := by rw [← hce]; rfl
    rw [if_pos (by unfold inWindow; rw [hfst]; simp)] at he
    by_cases hle : Arith.le ce.2 (Arith.ofRat 1) = true
    · rw [if_pos hle] at he
      obtain ⟨s3, r3, he⟩ := Res.bind_eq_ok.1 he
      obtain ⟨r, hset, he⟩ := Res.bind_eq_ok.1 he
      cases he
      unfold setNextIteration at hset
      rw [if_neg (by rw [hfst]; simp)] at hset
      obtain ⟨_, _, hset⟩ := Res.bind_eq_ok.1 hset
      cases hset
      exact ⟨hin, hrn⟩
    · rw [if_neg hle, isDiverged_first p _ hfst, Res.ok_bind] at he
      have := ih _ _ _ hfst e he
      rw [hin, hrn] at this
      exact this

theorem attempts_first_same (O : IterSys S ℝ) (p : Params ℝ) (input : List ℝ) (Fresh : S → Prop) (hR : Restores O input Fresh)
    (tries : Nat) : ∀ (h : ℝ) (c : State ℝ) (s : S), Fresh (O.clear s) → c.first = true →
      ∀ s' h' c', attempts O p (input) tries h c s = .ok (s', h', c') →
        ∃ m, m < tries ∧ Accepted O p input Fresh h s' ∧ c'.iterNum = c.iterNum + m + 1 ∧ c'.rejNum = c.rejNum := by
  induction tries with
  | zero => intro h c s _ _ s' h' c' he; cases he
  | succ tries ih =>
    intro h c s hcl hf s' h' c' he
    unfold attempts at he
    obtain ⟨s1, i1, he⟩ := Res.bind_eq_ok.1 he
    obtain ⟨e, hc, he⟩ := Res.bind_eq_ok.1 he
    have h1 := columns_accept O p input Fresh hR h _ 1 _ s1 (fun _ => O.clear s) (fun _ => s1) le_rfl rfl (fun r hr => by
      obtain rfl : r = 0 := by omega
      exact ⟨hcl, i1⟩) (fun r i hr hi => by
      obtain rfl : r = 0 := by omega
      rw [zeroStep_self]
      simp only [if_true, copyRow, if_pos hi]) e hc
    have h2 := columns_first_same O p input h _ 1 _ s1 (by exact hf) e hc
    cases e with
    | accept s2 h2' c2 =>
      cases he
      exact ⟨0, by omega, h1.1, h2.1, h2.2⟩
    | reject s2 h2' c2 => exact absurd h2 id
    | exhausted s2 c2 =>
      obtain ⟨x, n, a0, a1⟩ := h1
      obtain ⟨s3, r3, he⟩ := Res.bind_eq_ok.1 he
      obtain ⟨m, d1, d2, d3, d4⟩ := ih h c2 s3 (hR.again _ _ _ _ _ a0 a1 r3) h2.1 _ _ _ he
      refine ⟨m + 1, by omega, d2, ?_, ?_⟩
      · rw [d3, h2.2.1]; show c.iterNum + 1 + m + 1 = _; omega
      · rw [d4, h2.2.2]

end SpaceHub.BS
