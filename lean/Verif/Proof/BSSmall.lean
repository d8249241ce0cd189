import Verif.Proof.BSAccept

/-
Small Bulirsch-Stoer steps are accepted.
-/

set_option autoImplicit false

namespace SpaceHub.BS
open SpaceHub SpaceHub.Sys Spec

variable {S : Type}

/-- A step `h` that meets no obstacle: all runs end, and all error estimates are small. -/
structure Goes (O : IterSys S ℝ) (p : Params ℝ) (input : List ℝ) (Fresh : S → Prop) (h : ℝ) : Prop where
  run : ∀ x j, Fresh x → j ≤ p.maxDepth → ∃ s, O.integrate h (hSeq p.maxDepth j) x = .ok s
  read : ∀ x n s y, Fresh x → O.integrate h n x = .ok s → y.length = input.length → ∃ s1, O.read s y = .ok s1
  small : ∀ (k : Nat) (start row : Nat → S) (T0 T1 : Arr ℝ), 1 ≤ k → k ≤ p.maxDepth →
    (∀ m, m ≤ k → Fresh (start m) ∧ O.integrate h (hSeq p.maxDepth m) (start m) = .ok (row m)) →
    (∀ i, i < input.length → T0 i = zeroStep (hSeq p.maxDepth) (fun m => O.inc (row m) i) 0 k ∧
      T1 i = zeroStep (hSeq p.maxDepth) (fun m => O.inc (row m) i) 1 k) →
    p.err input T1 T0 ≤ 1 ∧ 1 ≤ p.next (2 * k + 1) (p.err input T1 T0)

/-- members of an iterator before its first call, or after later ones -/
def Ready (D : Nat) (c : State ℝ) : Prop := (c.first = true ∧ c.rank + 1 ≤ D) ∨ Later D c

theorem ofN_real (n : Nat) : (ofN n : ℝ) = n := by
  show ((n : ℚ) : ℝ) = n
  simp

theorem cost_le (D : Nat) (kdk : Bool) (k : Nat) : (0 : ℝ) ≤ cost D kdk k ∧ (cost D kdk k : ℝ) ≤ cost D kdk (k + 1) := by
  have step : ∀ k, (cost D kdk k : ℝ) ≤ cost D kdk (k + 1) := fun k => by
    show _ ≤ (cost D kdk k : ℝ) + ofN (hSeq D (k + 1)) + ofN (kdk.toNat * 2)
    rw [ofN_real, ofN_real]
    have : (0 : ℝ) ≤ hSeq D (k + 1) := Nat.cast_nonneg _
    have : (0 : ℝ) ≤ ((kdk.toNat * 2 : Nat) : ℝ) := Nat.cast_nonneg _
    linarith
  refine ⟨?_, step k⟩
  induction k with
  | zero => show (0 : ℝ) ≤ ofN _; rw [ofN_real]; exact Nat.cast_nonneg _
  | succ k ih => exact ih.trans (step k)

theorem cost_pos (D : Nat) (kdk : Bool) (k : Nat) : (0 : ℝ) < cost D kdk k := by
  induction k with
  | zero =>
    show (0 : ℝ) < ofN _
    rw [ofN_real]
    have : 0 < hSeq D 0 := hSeq_pos (Nat.zero_le _)
    exact_mod_cast (by omega)
  | succ k ih => exact ih.trans_le (cost_le D kdk k).2

theorem chk_ok' {D k : Nat} (h : k ≤ D) : chk D k = .ok () := by unfold chk; rw [if_pos h]

theorem nextStepLen_goes (p : Params ℝ) (c : State ℝ) {kNew k : Nat} {h : ℝ} (h0 : 0 ≤ h) (hk1 : 1 ≤ k) (h1 : 1 ≤ kNew) (h2 : kNew ≤ k + 1) (h3 : kNew ≤ p.maxDepth)
    (h4 : k ≤ p.maxDepth) (hi : ∀ j, 1 ≤ j → j ≤ k → h ≤ c.ideal j) : ∃ r, nextStepLen p c kNew k = .ok r ∧ h ≤ r := by
  unfold nextStepLen
  by_cases a : kNew ≤ k
  · rw [if_pos a, chk_ok' h3, Res.ok_bind]
    exact ⟨_, rfl, hi _ h1 a⟩
  · have b : kNew = k + 1 := by omega
    rw [if_neg a, if_pos b, chk_ok' h4, Res.ok_bind, chk_ok' (by omega), Res.ok_bind]
    refine ⟨_, rfl, ?_⟩
    show h ≤ c.ideal k * cost p.maxDepth p.kdk (k + 1) / cost p.maxDepth p.kdk k
    obtain ⟨_, cl⟩ := cost_le p.maxDepth p.kdk k
    have cp := cost_pos p.maxDepth p.kdk k
    rw [le_div_iff₀ cp]
    exact mul_le_mul (hi k hk1 le_rfl) cl cp.le (h0.trans (hi k hk1 le_rfl))

theorem setNext_goes (p : Params ℝ) (c : State ℝ) (hD : 3 ≤ p.maxDepth) (hc : Ready p.maxDepth c) {k : Nat} {h : ℝ} (h0 : 0 ≤ h) (hk1 : 1 ≤ k)
    (hw : inWindow c k = true) (hkD : k ≤ p.maxDepth) (hi : ∀ j, 1 ≤ j → j ≤ k → h ≤ c.ideal j) :
    ∃ r, setNextIteration p c k = .ok r ∧ h ≤ r.1 := by
  unfold setNextIteration
  rcases hc with ⟨hf, hr⟩ | ⟨hf, hr1, hr2⟩
  · rw [if_neg (by rw [hf]; simp), chk_ok' hkD, Res.ok_bind]
    refine ⟨_, rfl, ?_⟩
    dsimp only
    split_ifs <;> exact hi k hk1 le_rfl
  · rw [if_pos (show (!c.first) = true by rw [hf]; rfl)]
    have hk : k + 1 = c.rank ∨ k = c.rank ∨ k = c.rank + 1 := by
      unfold inWindow at hw
      rw [hf] at hw
      simpa [or_assoc] using hw
    have key : ∀ i, i ≤ k + 1 → ∃ r, (do
        let c : State ℝ := { c with rank := allowed p.maxDepth i }
        let h ← nextStepLen p c c.rank k
        Res.ok (h, c)) = .ok r ∧ h ≤ r.1 := by
      intro i hi'
      have hb := allowed_bounds hD i
      obtain ⟨r, e, hr⟩ := nextStepLen_goes p { c with rank := allowed p.maxDepth i } h0 hk1 (show 1 ≤ allowed p.maxDepth i by omega)
        (allowed_le hi' (by omega)) (by omega) hkD hi
      refine ⟨(r, { c with rank := allowed p.maxDepth i }), ?_, hr⟩
      dsimp only
      rw [e, Res.ok_bind]
    by_cases h1 : k + 1 = c.rank ∨ k = c.rank
    · rw [if_pos h1, chk_ok' (by omega), Res.ok_bind, chk_ok' hkD, Res.ok_bind]
      split_ifs
      · exact key (k - 1) (by omega)
      · exact key (k + 1) (by omega)
      · exact key k (by omega)
    · have h4 : k = c.rank + 1 := by omega
      rw [if_neg h1, if_pos h4, chk_ok' hkD, Res.ok_bind]
      have hb2 := allowed_bounds hD (k - 2)
      have hbk := allowed_bounds hD k
      have hlek : allowed p.maxDepth k ≤ k := allowed_le le_rfl (by omega)
      have hle2 : allowed p.maxDepth (k - 2) ≤ k := allowed_le (by omega) (by omega)
      have fin : ∀ c1 : State ℝ, 1 ≤ c1.rank → c1.rank ≤ p.maxDepth - 1 → c1.rank ≤ k → c1.ideal = c.ideal → ∃ r, (do
          chk p.maxDepth c1.rank
          let c2 := if Arith.lt (c1.cpl k) (Arith.mul (Arith.ofRat (9 / 10)) (c1.cpl c1.rank)) && !c1.reject
            then { c1 with rank := allowed p.maxDepth k } else c1
          let h ← nextStepLen p c2 c2.rank k
          Res.ok (h, c2)) = .ok r ∧ h ≤ r.1 := by
        intro c1 e2 e3 e4 e5
        rw [chk_ok' (by omega), Res.ok_bind]
        dsimp only
        split_ifs
        · obtain ⟨r, e, hr⟩ := nextStepLen_goes p { c1 with rank := allowed p.maxDepth k } h0 hk1 (show 1 ≤ allowed p.maxDepth k by omega)
            (by omega) (by omega) hkD (by show ∀ j, 1 ≤ j → j ≤ k → h ≤ c1.ideal j; rw [e5]; exact hi)
          exact ⟨(r, { c1 with rank := allowed p.maxDepth k }), by rw [e, Res.ok_bind], hr⟩
        · obtain ⟨r, e, hr⟩ := nextStepLen_goes p c1 h0 hk1 e2 (by omega) (by omega) hkD (by rw [e5]; exact hi)
          exact ⟨(r, c1), by rw [e, Res.ok_bind], hr⟩
      refine fin _ ?_ ?_ ?_ ?_
      · split_ifs
        · show 1 ≤ allowed _ _; omega
        · exact hr1
      · split_ifs
        · show allowed _ _ ≤ _; omega
        · exact hr2
      · split_ifs
        · show allowed _ _ ≤ _; omega
        · omega
      · split_ifs <;> rfl

theorem columns_one (O : IterSys S ℝ) (p : Params ℝ) (input : List ℝ) (Fresh : S → Prop) (hR : Restores O input Fresh) (hD : 3 ≤ p.maxDepth) (h : ℝ)
    (h0 : 0 < h) (G : Goes O p input Fresh h) (m : Nat) (k : Nat) (c : State ℝ) (s : S) (start row : Nat → S) (hk : 1 ≤ k) (hs : s = row (k - 1))
    (hrow : ∀ r, r < k → Fresh (start r) ∧ O.integrate h (hSeq p.maxDepth r) (start r) = .ok (row r))
    (hrows : ∀ r i, r < k → i < (input).length →
        c.rows r i = zeroStep (hSeq p.maxDepth) (fun m => O.inc (row m) i) r (k - 1))
    (hc : Ready p.maxDepth c) (hkr : k ≤ c.rank + 1) (hid : ∀ j, 1 ≤ j → j < k → h ≤ c.ideal j)
    (next : ∀ (c' : State ℝ) (s' : S) (start' row' : Nat → S), s' = row' (k + 1 - 1) →
      (∀ r, r < k + 1 → Fresh (start' r) ∧ O.integrate h (hSeq p.maxDepth r) (start' r) = .ok (row' r)) →
      (∀ r i, r < k + 1 → i < (input).length →
        c'.rows r i = zeroStep (hSeq p.maxDepth) (fun m => O.inc (row' m) i) r (k + 1 - 1)) →
      Ready p.maxDepth c' → c'.rank = c.rank ∧ c'.first = c.first → (∀ j, 1 ≤ j → j < k + 1 → h ≤ c'.ideal j) → inWindow c k = false →
      ∃ s'' h' c'', columns O p input h m (k + 1) c' s' = .ok (.accept s'' h' c'') ∧ c''.first = false ∧ (c.first = true → c''.rank = k) ∧
        ∃ o r, 1 ≤ o ∧ o ≤ p.maxDepth ∧ 1 ≤ r ∧ h' = h * p.limiter (2 * o + 1) r) :
    ∃ s' h' c', columns O p input h (m + 1) k c s = .ok (.accept s' h' c') ∧ c'.first = false ∧ (c.first = true → c'.rank = k) ∧
        ∃ o r, 1 ≤ o ∧ o ≤ p.maxDepth ∧ 1 ≤ r ∧ h' = h * p.limiter (2 * o + 1) r := by
  have hkD : k ≤ p.maxDepth := by
    rcases hc with ⟨_, h⟩ | ⟨_, _, h⟩ <;> omega
  have old := hrow (k - 1) (by omega)
  obtain ⟨s1, r1⟩ := G.read _ _ _ input old.1 old.2 rfl
  have hcl : Fresh (O.clear s1) := hR.again _ _ _ _ _ old.1 old.2 r1
  obtain ⟨s2, i2⟩ := G.run (O.clear s1) k hcl hkD
  unfold columns
  subst hs
  rw [r1, Res.ok_bind, chk_ok' hkD, Res.ok_bind, i2, Res.ok_bind]
  set start' : Nat → S := fun r => if r = k then O.clear s1 else start r with hstart'
  set row' : Nat → S := fun r => if r = k then s2 else row r with hrow'
  set c1 : State ℝ :=
    { c with rows := fun r => (if r = k then copyRow (input).length (O.inc s2) (c.rows k) else c.rows r) } with hc1
  have hy : ∀ i, i < (input).length → ∀ r, r ≤ k →
      (evalColumn p (input) h c1 k).1.rows r i = zeroStep (hSeq p.maxDepth) (fun m => O.inc (row' m) i) r k := by
    intro i hi
    refine extrapolate_spec hkD hi (fun m => O.inc (row' m) i) c1.rows ?_ ?_
    · simp only [hc1, hrow', if_true, copyRow, if_pos hi]
    · intro r hr
      simp only [hc1]
      rw [if_neg (by omega), hrows r i hr hi]
      refine zeroStep_congr (fun m h1 h2 => ?_)
      simp only [hrow']
      rw [if_neg (by omega)]
  have hrow2 : ∀ r, r ≤ k → Fresh (start' r) ∧ O.integrate h (hSeq p.maxDepth r) (start' r) = .ok (row' r) := by
    intro r hr
    by_cases hrk : r = k
    · subst hrk; simp only [hrow', hstart', if_true]; exact ⟨hcl, i2⟩
    · simp only [hrow', hstart', if_neg hrk]; exact hrow r (by omega)
  have hs2 : s2 = row' k := by simp only [hrow', if_true]
  obtain ⟨sm1, sm2⟩ := G.small k start' row' _ _ hk hkD hrow2 (fun i hi => ⟨hy i hi 0 (by omega), hy i hi 1 hk⟩)
  have hideal : ∀ j, 1 ≤ j → j < k + 1 → h ≤ (evalColumn p (input) h c1 k).1.ideal j := by
    intro j h1 h2
    show h ≤ (c1.ideal.set k (h * p.next (2 * k + 1) (p.err input ((evalColumn p input h c1 k).1.rows 1) ((evalColumn p input h c1 k).1.rows 0)))) j
    by_cases hj : j = k
    · subst hj
      rw [show (c1.ideal.set j (h * p.next (2 * j + 1) (p.err input ((evalColumn p input h c1 j).1.rows 1) ((evalColumn p input h c1 j).1.rows 0)))) j =
        h * p.next (2 * j + 1) (p.err input ((evalColumn p input h c1 j).1.rows 1) ((evalColumn p input h c1 j).1.rows 0)) from if_pos rfl]
      exact le_mul_of_one_le_right h0.le sm2
    · rw [show ∀ v, (c1.ideal.set k v) j = c.ideal j from fun _ => if_neg hj]
      exact hid j h1 (by omega)
  have hrd : Ready p.maxDepth (evalColumn p (input) h c1 k).1 := hc
  dsimp only
  have hww : inWindow (evalColumn p (input) h c1 k).1 k = inWindow c k := rfl
  by_cases hw : inWindow c k = true
  · rw [if_pos (by rw [hww]; exact hw), if_pos (show Arith.le (evalColumn p (input) h c1 k).2 (Arith.ofRat 1) = true from
      decide_eq_true (by show p.err input ((evalColumn p input h c1 k).1.rows 1) ((evalColumn p input h c1 k).1.rows 0) ≤ ((1 : ℚ) : ℝ); simpa using sm1))]
    obtain ⟨s3, r3⟩ := G.read _ _ _ (arrayAdvance input ((evalColumn p (input) h c1 k).1.rows 0)) hcl i2 (by
      unfold arrayAdvance; rw [List.length_mapIdx])
    obtain ⟨r, er, hr⟩ := setNext_goes p { (evalColumn p (input) h c1 k).1 with reject := false } hD hrd h0.le hk hw hkD
      (fun j h1 h2 => hideal j h1 (by omega))
    rw [r3, Res.ok_bind, er, Res.ok_bind]
    refine ⟨_, _, _, rfl, rfl, fun hf => ?_, k, r.1 / h, hk, hkD, (one_le_div h0).2 hr, rfl⟩
    have sf := (setNext_first p { (evalColumn p (input) h c1 k).1 with reject := false } hf hkD).2 r er
    exact sf.2 rfl
  · rw [if_neg (by rw [hww]; exact hw)]
    exact next _ s2 start' row' hs2 (fun r hr => hrow2 r (by omega)) (fun r i hr hi => hy i hi r (by omega)) hrd ⟨rfl, rfl⟩ hideal (by simpa using hw)

theorem columns_goes (O : IterSys S ℝ) (p : Params ℝ) (input : List ℝ) (Fresh : S → Prop) (hR : Restores O input Fresh) (hD : 3 ≤ p.maxDepth) (h : ℝ)
    (h0 : 0 < h) (G : Goes O p input Fresh h) (m : Nat) :
    ∀ (k : Nat) (c : State ℝ) (s : S) (start row : Nat → S), 1 ≤ k → s = row (k - 1) →
      (∀ r, r < k → Fresh (start r) ∧ O.integrate h (hSeq p.maxDepth r) (start r) = .ok (row r)) →
      (∀ r i, r < k → i < (input).length →
        c.rows r i = zeroStep (hSeq p.maxDepth) (fun m => O.inc (row m) i) r (k - 1)) →
      Ready p.maxDepth c → (m + 1) + k = c.rank + 2 → (∀ j, 1 ≤ j → j < k → h ≤ c.ideal j) →
      ∃ s' h' c', columns O p input h (m + 1) k c s = .ok (.accept s' h' c') ∧ c'.first = false ∧ (c.first = true → c'.rank = k) ∧
        ∃ o r, 1 ≤ o ∧ o ≤ p.maxDepth ∧ 1 ≤ r ∧ h' = h * p.limiter (2 * o + 1) r := by
  induction m with
  | zero =>
    intro k c s start row hk hs hrow hrows hc hmk hid
    refine columns_one O p input Fresh hR hD h h0 G 0 k c s start row hk hs hrow hrows hc (by omega) hid (fun _ _ _ _ _ _ _ _ _ _ hw => ?_)
    exfalso
    unfold inWindow at hw
    have : k = c.rank + 1 := by omega
    simp [this] at hw
  | succ m ih =>
    intro k c s start row hk hs hrow hrows hc hmk hid
    refine columns_one O p input Fresh hR hD h h0 G (m + 1) k c s start row hk hs hrow hrows hc (by omega) hid (fun c' s' start' row' h1 h2 h3 h4 h5 h6 hw => ?_)
    have hf : c.first = false := by
      unfold inWindow at hw
      cases hcf : c.first with
      | false => rfl
      | true => rw [hcf] at hw; simp at hw
    obtain ⟨s2, h2', c2, e, a, _, b⟩ := ih (k + 1) c' s' start' row' (by omega) h1 h2 h3 h4 (by rw [h5.1]; omega) h6
    exact ⟨s2, h2', c2, e, a, fun h => (by rw [hf] at h; cases h), b⟩

theorem attempts_goes (O : IterSys S ℝ) (p : Params ℝ) (input : List ℝ) (Fresh : S → Prop) (hR : Restores O input Fresh) (hD : 3 ≤ p.maxDepth) {h : ℝ}
    (h0 : 0 < h) (G : Goes O p input Fresh h) (tries : Nat) (c : State ℝ) (s : S) (hs : Fresh (O.clear s)) (hc : Ready p.maxDepth c) :
    ∃ s' h' c', attempts O p input (tries + 1) h c s = .ok (s', h', c') ∧ Accepted O p input Fresh h s' ∧ c'.first = false ∧ (c.first = true → c'.rank = 1) ∧
      ∃ o r, 1 ≤ o ∧ o ≤ p.maxDepth ∧ 1 ≤ r ∧ h' = h * p.limiter (2 * o + 1) r := by
  obtain ⟨s1, i1⟩ := G.run _ 0 hs (Nat.zero_le _)
  have b1 : ∀ r, r < 1 → Fresh ((fun _ : Nat => O.clear s) r) ∧ O.integrate h (hSeq p.maxDepth r) ((fun _ : Nat => O.clear s) r) = .ok ((fun _ : Nat => s1) r) := fun r hr => by
    obtain rfl : r = 0 := by omega
    exact ⟨hs, i1⟩
  unfold attempts
  dsimp only
  rw [i1, Res.ok_bind]
  generalize hc1 : ({ c with iterNum := _, rows := _ } : State ℝ) = c1
  have b2 : ∀ r i, r < 1 → i < input.length → c1.rows r i = zeroStep (hSeq p.maxDepth) (fun m => O.inc ((fun _ : Nat => s1) m) i) r (1 - 1) := by
    intro r i hr hi
    obtain rfl : r = 0 := by omega
    rw [zeroStep_self, ← hc1]
    simp only [if_true, copyRow, if_pos hi]
  have hrank : c1.rank = c.rank := by rw [← hc1]
  have hfirst : c1.first = c.first := by rw [← hc1]
  have hrd : Ready p.maxDepth c1 := by
    rcases hc with ⟨a, b⟩ | ⟨a, b⟩
    · exact .inl ⟨hfirst.trans a, by rw [hrank]; exact b⟩
    · exact .inr ⟨hfirst.trans a, by rw [hrank]; exact b⟩
  obtain ⟨s', h', c', e, f1, f2, f3⟩ := columns_goes O p input Fresh hR hD h h0 G c1.rank 1 c1 s1 (fun _ => O.clear s) (fun _ => s1) le_rfl rfl b1 b2 hrd (by omega)
    (fun j h1 h2 => by omega)
  have acc := columns_accept O p input Fresh hR h _ 1 c1 s1 (fun _ => O.clear s) (fun _ => s1) le_rfl rfl b1 b2 _ e
  rw [← hrank, e, Res.ok_bind]
  exact ⟨s', h', c', rfl, acc.1, f1, fun h => f2 (hfirst.trans h), f3⟩

/-- the steps come from the limiter for the order of a column -/
theorem columns_order (O : IterSys S ℝ) (p : Params ℝ) (input : List ℝ) (h : ℝ) (m : Nat) : ∀ (k : Nat) (c : State ℝ) (s : S), 1 ≤ k →
    ∀ e, columns O p input h m k c s = .ok e →
      match e with
      | .accept _ h' _ => ∃ o r, 1 ≤ o ∧ o ≤ p.maxDepth ∧ h' = h * p.limiter (2 * o + 1) r
      | .reject _ h' _ => ∃ o r, 1 ≤ o ∧ o ≤ p.maxDepth ∧ h' = h * p.limiter (2 * o + 1) r
      | .exhausted _ _ => True := by
  induction m with
  | zero => intro k c s _ e he; cases he; trivial
  | succ m ih =>
    intro k c s hk e he
    unfold columns at he
    obtain ⟨s1, r1, he⟩ := Res.bind_eq_ok.1 he
    obtain ⟨_, hck, he⟩ := Res.bind_eq_ok.1 he
    have hkD := chk_ok hck
    obtain ⟨s2, i2, he⟩ := Res.bind_eq_ok.1 he
    dsimp only at he
    generalize evalColumn p input h _ k = ce at he
    by_cases hw : inWindow ce.1 k = true
    · rw [if_pos hw] at he
      by_cases hle : Arith.le ce.2 (Arith.ofRat 1) = true
      · rw [if_pos hle] at he
        obtain ⟨s3, r3, he⟩ := Res.bind_eq_ok.1 he
        obtain ⟨r, _, he⟩ := Res.bind_eq_ok.1 he
        cases he
        exact ⟨k, _, hk, hkD, rfl⟩
      · rw [if_neg hle] at he
        obtain ⟨d, _, he⟩ := Res.bind_eq_ok.1 he
        by_cases hd : d = true
        · rw [if_pos hd] at he
          obtain ⟨r, _, he⟩ := Res.bind_eq_ok.1 he
          cases he
          exact ⟨k, _, hk, hkD, rfl⟩
        · rw [if_neg hd] at he
          exact ih (k + 1) _ _ (by omega) e he
    · rw [if_neg hw] at he
      exact ih (k + 1) _ _ (by omega) e he

/-- A call does not end with a step shorter than `lam * ρ` when all steps up to `ρ` meet no obstacle. -/
theorem attempts_keep (O : IterSys S ℝ) (p : Params ℝ) (input : List ℝ) (Fresh : S → Prop) (hR : Restores O input Fresh) (hD : 3 ≤ p.maxDepth)
    (hr : ∀ s y, O.read s y ≠ .ub) (hi : ∀ h n s, O.integrate h n s ≠ .ub) {lam ρ : ℝ} (hlam : 0 < lam) (hρ : 0 < ρ)
    (L1 : ∀ o r, 1 ≤ o → o ≤ p.maxDepth → lam ≤ p.limiter (2 * o + 1) r)
    (L2 : ∀ o r, 1 ≤ o → o ≤ p.maxDepth → 1 ≤ r → 1 ≤ p.limiter (2 * o + 1) r)
    (G : ∀ h, 0 < h → h ≤ ρ → Goes O p input Fresh h) (tries : Nat) : ∀ (h : ℝ) (c : State ℝ) (s : S), lam * ρ ≤ h → Fresh (O.clear s) → Ready p.maxDepth c →
      ∀ s' h' c', attempts O p input tries h c s = .ok (s', h', c') →
        ∃ hAcc, lam * ρ ≤ hAcc ∧ Accepted O p input Fresh hAcc s' ∧ lam * ρ ≤ h' := by
  have hlr : 0 < lam * ρ := mul_pos hlam hρ
  induction tries with
  | zero => intro h c s _ _ _ s' h' c' he; cases he
  | succ tries ih =>
    intro h c s hh hcl hc s' h' c' he
    have h0 : 0 < h := hlr.trans_le hh
    rcases le_or_gt h ρ with hle | hgt
    · obtain ⟨s2, h2, c2, e, acc, _, _, o, r, ho1, ho2, hr1, hh2⟩ := attempts_goes O p input Fresh hR hD h0 (G h h0 hle) tries c s hcl hc
      rw [e] at he
      cases he
      refine ⟨h, hh, acc, ?_⟩
      rw [hh2]
      exact hh.trans (le_mul_of_one_le_right h0.le (L2 o r ho1 ho2 hr1))
    · unfold attempts at he
      obtain ⟨s1, i1, he⟩ := Res.bind_eq_ok.1 he
      obtain ⟨e, hce, he⟩ := Res.bind_eq_ok.1 he
      have hmul : ∀ o r, 1 ≤ o → o ≤ p.maxDepth → lam * ρ ≤ h * p.limiter (2 * o + 1) r := fun o r h1 h2 => by
        rw [mul_comm lam]
        exact mul_le_mul hgt.le (L1 o r h1 h2) hlam.le h0.le
      have ord := columns_order O p input h _ 1 _ s1 le_rfl e hce
      have this := columns_accept O p input Fresh hR h _ 1 _ s1 (fun _ => O.clear s) (fun _ => s1) le_rfl rfl (fun r hr => by
        obtain rfl : r = 0 := by omega
        exact ⟨hcl, i1⟩) (fun r i hr hi => by
        obtain rfl : r = 0 := by omega
        rw [zeroStep_self]
        simp only [if_true, copyRow, if_pos hi]) e hce
      have ready : match e with
          | .accept _ _ _ => True
          | .reject _ _ c' => Ready p.maxDepth c'
          | .exhausted _ c' => Ready p.maxDepth c' := by
        rcases hc with ⟨a, b⟩ | hL
        · have q := (columns_first O p input h hr hi _ 1 _ s1 (by exact a) (by exact b) (by dsimp only) le_rfl).2 e hce
          cases e with
          | accept => trivial
          | reject => exact absurd q id
          | exhausted s c' => exact .inl ⟨q.1, by rw [q.2]; exact b⟩
        · have q := (columns_later O p input h hD hr hi _ 1 _ s1 (by exact hL) (by dsimp only) le_rfl).2 e hce
          cases e with
          | accept => trivial
          | reject => exact .inr q.1
          | exhausted => exact .inr q.1
      cases e with
      | accept s2 h2 c2 =>
        cases he
        obtain ⟨o, r, o1, o2, a2⟩ := ord
        exact ⟨h, hh, this.1, by rw [a2]; exact hmul o r o1 o2⟩
      | reject s2 h2 c2 =>
        obtain ⟨⟨x, n, a0, a1⟩, _⟩ := this
        obtain ⟨o, r, o1, o2, a2⟩ := ord
        obtain ⟨s3, r3, he⟩ := Res.bind_eq_ok.1 he
        exact ih h2 c2 s3 (by rw [a2]; exact hmul o r o1 o2) (hR.again _ _ _ _ _ a0 a1 r3) ready _ _ _ he
      | exhausted s2 c2 =>
        obtain ⟨x, n, a0, a1⟩ := this
        obtain ⟨s3, r3, he⟩ := Res.bind_eq_ok.1 he
        exact ih h c2 s3 hh (hR.again _ _ _ _ _ a0 a1 r3) ready _ _ _ he

end SpaceHub.BS
