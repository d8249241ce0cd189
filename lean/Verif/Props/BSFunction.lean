import Verif.Proof.BSAccept

/-
C30: the Bulirsch-Stoer iterator on a user-supplied derivative.
-/

set_option autoImplicit false

namespace SpaceHub.BS
open SpaceHub SpaceHub.Sys Spec

theorem midpoint_loop (f : Arr ℝ → ℝ → Arr ℝ) (x : Arr ℝ) (t h : ℝ) (n : Nat) (hn : 1 ≤ n) :
    forLoop 1 n (fun _ st => ((st.2.1, (fun i => Arith.add (st.1 i) (Arith.mul (f st.2.1 st.2.2 i)
      (Arith.mul (Arith.ofRat 2) h)) : Arr ℝ), Arith.add st.2.2 h) : Arr ℝ × Arr ℝ × ℝ))
      (x, fun i => Arith.add (x i) (Arith.mul (f x t i) h), Arith.add t h) =
    (graggPoint f x t h (n - 1), graggPoint f x t h n, t + n * h) := by
  refine forLoop_inv (fun j st => st = (graggPoint f x t h (j - 1), graggPoint f x t h j, t + j * h)) 1 n hn _ _ ?_ ?_
  · refine Prod.ext rfl (Prod.ext ?_ ?_)
    · funext i
      show x i + f x t i * h = x i + h * f x t i
      ring
    · show t + h = t + ((1 : Nat) : ℝ) * h
      push_cast; ring
  · intro j st h1 h2 hst
    subst hst
    obtain ⟨j, rfl⟩ : ∃ m, j = m + 1 := ⟨j - 1, by omega⟩
    simp only [Nat.add_sub_cancel]
    refine Prod.ext rfl (Prod.ext ?_ ?_)
    · funext i
      show graggPoint f x t h j i + f (graggPoint f x t h (j + 1)) (t + ((j + 1 : Nat) : ℝ) * h) i * (((2 : ℚ) : ℝ) * h) =
        graggPoint f x t h j i + 2 * h * f (graggPoint f x t h (j + 1)) (t + ((j : ℝ) + 1) * h) i
      push_cast; ring
    · show t + ((j + 1 : Nat) : ℝ) * h + h = t + ((j + 1 + 1 : Nat) : ℝ) * h
      push_cast; ring

/-- The inner integration of a user function is the modified midpoint rule, and it moves the time variable by the step. -/
theorem C30_midpoint (f : Arr ℝ → ℝ → Arr ℝ) (x : Arr ℝ) (t H : ℝ) (n : Nat) (hn : 1 ≤ n) :
    midpoint f x t H n = (gragg f x t H n, t + H) := by
  unfold midpoint
  dsimp only
  have hn' : (n : ℝ) ≠ 0 := by exact_mod_cast (by omega : n ≠ 0)
  have e : (Arith.div H (ofN n) : ℝ) = H / n := by
    show H / (((n : ℚ)) : ℝ) = _
    push_cast; rfl
  rw [e, midpoint_loop f x t (H / n) n hn]
  refine Prod.ext ?_ ?_
  · funext i
    show (graggPoint f x t (H / n) (n - 1) i + f (graggPoint f x t (H / n) n) (t + n * (H / n)) i * (H / n) +
      graggPoint f x t (H / n) n i) * (((1 / 2 : ℚ)) : ℝ) = gragg f x t H n i
    unfold gragg
    push_cast; ring
  · show t + n * (H / n) = t + H
    rw [mul_div_cancel₀ _ hn']

/-- Concretely: two sub-steps for dx/dt = x from 1 over a step 1: points 1, 3/2, 5/2, result (5/2 + 3/2 + 5/4) / 2. -/
example : (midpoint (fun x _ => x) (fun _ => (1 : ℝ)) 0 1 2).1 0 = 21 / 8 := by
  rw [C30_midpoint _ _ _ _ _ (by norm_num)]
  show (graggPoint _ _ _ _ 2 0 + graggPoint _ _ _ _ 1 0 + _ * graggPoint _ _ _ _ 2 0) / 2 = _
  simp only [graggPoint]
  norm_num

theorem columnsF_first (f : Arr ℝ → ℝ → Arr ℝ) (p : Params ℝ) (n : Nat) (input : Arr ℝ) (h : ℝ) (m : Nat) :
    ∀ (k : Nat) (c : State ℝ) (t t0 : ℝ), 1 ≤ k → c.first = true → (∃ q : Nat, 1 ≤ q ∧ t = t0 + q * h) →
      ∀ e, columnsF f p n input h m k c t = .ok e →
        match e with
        | .accept s' _ c' => c'.first = true ∧ ∃ q : Nat, 3 ≤ q ∧ s'.2 = t0 + q * h
        | .reject _ _ _ => False
        | .exhausted s' c' => c'.first = true ∧ ∃ q : Nat, 1 ≤ q ∧ s'.2 = t0 + q * h := by
  induction m with
  | zero =>
    intro k c t t0 _ hc ht e he
    cases he
    exact ⟨hc, ht⟩
  | succ m ih =>
    intro k c t t0 hk hc ht e he
    unfold columnsF at he
    obtain ⟨_, hck, he⟩ := Res.bind_eq_ok.1 he
    have hkD := chk_ok hck
    have htime : (midpoint f input t h (hSeq p.maxDepth k)).2 = t + h := by
      rw [C30_midpoint _ _ _ _ _ (hSeq_pos hkD)]
    dsimp only at he
    rw [htime] at he
    obtain ⟨q, hq, rfl⟩ := ht
    generalize hce : evalColumn p ((List.range n).map input) h
      { c with rows := fun r => if r = k then (midpoint f input (t0 + q * h) h (hSeq p.maxDepth k)).1 else c.rows r } k = ce at he
    have hfirst : ce.1.first = true := by rw [← hce]; exact hc
    have go : ∀ e, columnsF f p n input h m (k + 1) ce.1 (t0 + q * h + h) = .ok e → _ :=
      ih (k + 1) ce.1 (t0 + q * h + h) t0 (by omega) hfirst ⟨q + 1, by omega, by push_cast; ring⟩
    have hw : inWindow ce.1 k = true := by unfold inWindow; rw [hfirst]; simp
    rw [if_pos hw] at he
    by_cases hle : Arith.le ce.2 (Arith.ofRat 1) = true
    · rw [if_pos hle] at he
      obtain ⟨r, hr, he⟩ := Res.bind_eq_ok.1 he
      cases he
      refine ⟨?_, q + 2, by omega, ?_⟩
      · unfold setNextIteration at hr
        rw [if_neg (by rw [hfirst]; exact fun h => by cases h)] at hr
        obtain ⟨_, _, hr⟩ := Res.bind_eq_ok.1 hr
        cases hr
        dsimp only
        split_ifs <;> exact hfirst
      · show t0 + q * h + h + h = _
        push_cast; ring
    · rw [if_neg hle] at he
      obtain ⟨d, hd, he⟩ := Res.bind_eq_ok.1 he
      unfold isDiverged at hd
      rw [if_neg (by rw [hfirst]; exact fun h => by cases h)] at hd
      cases hd
      rw [if_neg (by exact fun h => by cases h)] at he
      exact go e he

theorem attemptsF_first (f : Arr ℝ → ℝ → Arr ℝ) (p : Params ℝ) (n : Nat) (input : Arr ℝ) (h : ℝ) (tries : Nat) :
    ∀ (c : State ℝ) (t t0 : ℝ), c.first = true → (∃ q : Nat, t = t0 + q * h) →
      ∀ r, attemptsF f p n input tries h c t = .ok r → r.2.2.first = true ∧ ∃ q : Nat, 3 ≤ q ∧ r.1.2 = t0 + q * h := by
  induction tries with
  | zero => intro c t t0 _ _ r he; cases he
  | succ tries ih =>
    intro c t t0 hc ht r he
    unfold attemptsF at he
    dsimp only at he
    have htime : (midpoint f input t h (hSeq p.maxDepth 0)).2 = t + h := by
      rw [C30_midpoint _ _ _ _ _ (hSeq_pos (Nat.zero_le _))]
    rw [htime] at he
    obtain ⟨e, hcol, he⟩ := Res.bind_eq_ok.1 he
    obtain ⟨q, rfl⟩ := ht
    have := columnsF_first f p n input h _ 1 _ _ t0 le_rfl (by exact hc) ⟨q + 1, by omega, by push_cast; ring⟩ e hcol
    cases e with
    | accept s h2 c2 => cases he; exact this
    | reject s h2 c2 => exact this.elim
    | exhausted s c2 =>
      obtain ⟨q', _, hq'⟩ := this.2
      exact ih _ _ _ this.1 ⟨q', hq'⟩ r he

/-- C30 is false of the code: a call that returns has moved the caller's time by a multiple, at least three times, of the
step it took - for every derivative, system size, error estimate, step controller and depth. -/
theorem C30_time_advances_too_far (f : Arr ℝ → ℝ → Arr ℝ) (p : Params ℝ) (n : Nat) (data data' : Arr ℝ) (t t' h h' : ℝ)
    (c c' : State ℝ) (hc : c.first = true) (e : iterateF f p n data t h c = .ok ((data', t'), h', c')) :
    c'.first = true ∧ (∃ q : Nat, 3 ≤ q ∧ t' = t + q * h) ∧ (h ≠ 0 → t' ≠ t + h) := by
  obtain ⟨h1, q, h2, h3⟩ := attemptsF_first f p n data h 100 c t t hc ⟨0, by simp⟩ _ e
  refine ⟨h1, ⟨q, h2, h3⟩, fun hh ht => ?_⟩
  have h3' : t' = t + q * h := h3
  have : ((q : ℝ) - 1) * h = 0 := by linarith
  rcases mul_eq_zero.1 this with h4 | h4
  · have : (q : ℝ) = 1 := by linarith
    have : q = 1 := by exact_mod_cast this
    omega
  · exact hh h4

/-- Such calls exist: if the error estimate is at most 1, a fresh iterator returns, with the time advanced by three
steps. -/
theorem C30_returns (f : Arr ℝ → ℝ → Arr ℝ) (p : Params ℝ) (hD : 1 ≤ p.maxDepth) (herr : ∀ x y z, p.err x y z ≤ 1) (n : Nat)
    (data : Arr ℝ) (t h : ℝ) :
    ∃ data' h' c', iterateF f p n data t h (State.init p.maxDepth) = .ok ((data', t + 3 * h), h', c') := by
  unfold iterateF attemptsF
  dsimp only
  have t0 : ∀ t, (midpoint f data t h (hSeq p.maxDepth 0)).2 = t + h := fun t => by
    rw [C30_midpoint _ _ _ _ _ (hSeq_pos (Nat.zero_le _))]
  have t1 : ∀ t, (midpoint f data t h (hSeq p.maxDepth 1)).2 = t + h := fun t => by
    rw [C30_midpoint _ _ _ _ _ (hSeq_pos hD)]
  rw [t0]
  unfold columnsF
  have hchk : chk p.maxDepth 1 = .ok () := by unfold chk; rw [if_pos hD]
  rw [hchk, Res.ok_bind]
  dsimp only
  rw [t1]
  generalize hce : evalColumn p ((List.range n).map data) h _ 1 = ce
  have hfirst : ce.1.first = true := by rw [← hce]; rfl
  have hw : inWindow ce.1 1 = true := by unfold inWindow; rw [hfirst]; simp
  have hle : Arith.le ce.2 (Arith.ofRat 1) = true := by
    rw [← hce]
    refine decide_eq_true ?_
    show p.err _ _ _ ≤ ((1 : ℚ) : ℝ)
    rw [Rat.cast_one]
    exact herr _ _ _
  rw [if_pos hw, if_pos hle]
  unfold setNextIteration
  rw [if_neg (by show ¬ ((!ce.1.first) = true); rw [hfirst]; exact fun h => by cases h)]
  rw [hchk]
  refine ⟨ce.1.rows 0, Arith.mul h (p.limiter 3 (Arith.div (ce.1.ideal 1) h)), { ce.1 with reject := false, rank := 1 }, ?_⟩
  rw [show t + 3 * h = t + h + h + h by ring]
  rfl

theorem graggPoint_autonomous {f : Arr ℝ → ℝ → Arr ℝ} (hf : ∀ x t t', f x t = f x t') (x : Arr ℝ) (t t' h : ℝ) (m : Nat) :
    graggPoint f x t h m = graggPoint f x t' h m ∧ graggPoint f x t h (m + 1) = graggPoint f x t' h (m + 1) := by
  induction m with
  | zero => exact ⟨rfl, by funext i; simp only [graggPoint]; rw [hf x t t']⟩
  | succ m ih =>
    refine ⟨ih.2, ?_⟩
    funext i
    show graggPoint f x t h m i + 2 * h * f (graggPoint f x t h (m + 1)) _ i =
      graggPoint f x t' h m i + 2 * h * f (graggPoint f x t' h (m + 1)) _ i
    rw [ih.1, ih.2, hf _ (t + ((m : ℝ) + 1) * h) (t' + ((m : ℝ) + 1) * h)]

theorem gragg_autonomous {f : Arr ℝ → ℝ → Arr ℝ} (hf : ∀ x t t', f x t = f x t') (x : Arr ℝ) (t t' H : ℝ) (n : Nat) :
    gragg f x t H n = gragg f x t' H n := by
  funext i
  unfold gragg
  dsimp only
  rw [(graggPoint_autonomous hf x t t' _ n).1, (graggPoint_autonomous hf x t t' _ (n - 1)).1,
    hf _ (t + n * (H / n)) (t' + n * (H / n))]

/-- `data'` is the result of one extrapolated step `h` of the modified midpoint rule from `data`, with error estimate at
most 1. -/
def ExtrapolatedF (f : Arr ℝ → ℝ → Arr ℝ) (p : Params ℝ) (n : Nat) (data : Arr ℝ) (t h : ℝ) (data' : Arr ℝ) : Prop :=
  ∃ (k : Nat) (T1 : Arr ℝ), 1 ≤ k ∧ k ≤ p.maxDepth ∧
    (∀ i, i < n → data' i = zeroStep (hSeq p.maxDepth) (fun m => gragg f data t h (hSeq p.maxDepth m) i) 0 k ∧
      T1 i = zeroStep (hSeq p.maxDepth) (fun m => gragg f data t h (hSeq p.maxDepth m) i) 1 k) ∧
    p.err ((List.range n).map data) T1 data' ≤ 1

theorem columnsF_accept (f : Arr ℝ → ℝ → Arr ℝ) (hf : ∀ x t t', f x t = f x t') (p : Params ℝ) (n : Nat) (input : Arr ℝ)
    (h t0 : ℝ) (m : Nat) :
    ∀ (k : Nat) (c : State ℝ) (t : ℝ), 1 ≤ k →
      (∀ r i, r < k → i < n → c.rows r i =
        zeroStep (hSeq p.maxDepth) (fun m => gragg f input t0 h (hSeq p.maxDepth m) i) r (k - 1)) →
      ∀ e, columnsF f p n input h m k c t = .ok e →
        match e with
        | .accept s' h' _ => ExtrapolatedF f p n input t0 h s'.1 ∧ ∃ order ratio, h' = h * p.limiter order ratio
        | .reject _ h' _ => ∃ order ratio, h' = h * p.limiter order ratio
        | .exhausted _ _ => True := by
  induction m with
  | zero => intro k c t _ _ e he; cases he; trivial
  | succ m ih =>
    intro k c t hk hrows e he
    unfold columnsF at he
    obtain ⟨_, hck, he⟩ := Res.bind_eq_ok.1 he
    have hkD := chk_ok hck
    dsimp only at he
    rw [C30_midpoint f input t h _ (hSeq_pos hkD)] at he
    dsimp only at he
    rw [gragg_autonomous hf input t t0] at he
    set c1 : State ℝ :=
      { c with rows := fun r => (if r = k then gragg f input t0 h (hSeq p.maxDepth k) else c.rows r) } with hc1
    have hlen : ((List.range n).map input).length = n := by simp
    have hy : ∀ i, i < n → ∀ r, r ≤ k →
        (evalColumn p ((List.range n).map input) h c1 k).1.rows r i =
          zeroStep (hSeq p.maxDepth) (fun m => gragg f input t0 h (hSeq p.maxDepth m) i) r k := by
      intro i hi
      refine extrapolate_spec hkD (by rw [hlen]; exact hi) (fun m => gragg f input t0 h (hSeq p.maxDepth m) i) c1.rows ?_ ?_
      · simp only [hc1, if_true]
      · intro r hr
        simp only [hc1]
        rw [if_neg (by omega), hrows r i hr hi]
    generalize hce : evalColumn p ((List.range n).map input) h c1 k = ce at he hy
    have herr : ce.2 = p.err ((List.range n).map input) (ce.1.rows 1) (ce.1.rows 0) := by rw [← hce]; rfl
    have go : ∀ e, columnsF f p n input h m (k + 1) ce.1 (t + h) = .ok e → _ :=
      ih (k + 1) ce.1 (t + h) (by omega) (fun r i hr hi => by rw [Nat.add_sub_cancel]; exact hy i hi r (by omega))
    by_cases hw : inWindow ce.1 k = true
    · rw [if_pos hw] at he
      by_cases hle : Arith.le ce.2 (Arith.ofRat 1) = true
      · rw [if_pos hle] at he
        obtain ⟨r, _, he⟩ := Res.bind_eq_ok.1 he
        cases he
        refine ⟨⟨k, ce.1.rows 1, hk, hkD, fun i hi => ⟨hy i hi 0 (by omega), hy i hi 1 hk⟩, ?_⟩, _, _, rfl⟩
        have h1 : ce.2 ≤ ((1 : ℚ) : ℝ) := of_decide_eq_true hle
        rw [herr, Rat.cast_one] at h1
        exact h1
      · rw [if_neg hle] at he
        obtain ⟨d, _, he⟩ := Res.bind_eq_ok.1 he
        by_cases hd : d = true
        · rw [if_pos hd] at he
          obtain ⟨r, _, he⟩ := Res.bind_eq_ok.1 he
          cases he
          exact ⟨_, _, rfl⟩
        · rw [if_neg hd] at he
          exact go e he
    · rw [if_neg hw] at he
      exact go e he

theorem attemptsF_accept (f : Arr ℝ → ℝ → Arr ℝ) (hf : ∀ x t t', f x t = f x t') (p : Params ℝ) (n : Nat) (input : Arr ℝ)
    (t0 : ℝ) (tries : Nat) :
    ∀ (h : ℝ) (c : State ℝ) (t : ℝ) (r : (Arr ℝ × ℝ) × ℝ × State ℝ), attemptsF f p n input tries h c t = .ok r →
      ∃ hAcc order ratio, Retried p h hAcc ∧ ExtrapolatedF f p n input t0 hAcc r.1.1 ∧ r.2.1 = hAcc * p.limiter order ratio := by
  induction tries with
  | zero => intro h c t r he; cases he
  | succ tries ih =>
    intro h c t r he
    unfold attemptsF at he
    dsimp only at he
    rw [C30_midpoint f input t h _ (hSeq_pos (Nat.zero_le _))] at he
    dsimp only at he
    rw [gragg_autonomous hf input t t0] at he
    obtain ⟨e, hcol, he⟩ := Res.bind_eq_ok.1 he
    have := columnsF_accept f hf p n input h t0 _ 1 _ _ le_rfl (fun r i hr hi => by
      obtain rfl : r = 0 := by omega
      rw [zeroStep_self]
      simp only [if_true]) e hcol
    cases e with
    | accept s h2 c2 =>
      cases he
      obtain ⟨a1, order, ratio, a2⟩ := this
      exact ⟨h, order, ratio, .refl h, a1, a2⟩
    | reject s h2 c2 =>
      obtain ⟨order, ratio, rfl⟩ := this
      obtain ⟨hAcc, o2, ra2, b0, b1, b2⟩ := ih _ _ _ r he
      exact ⟨hAcc, o2, ra2, .again order ratio b0, b1, b2⟩
    | exhausted s c2 => exact ih _ _ _ r he

/-- What remains true: for a derivative that does not depend on time, the data returned are those of one extrapolated step
of the modified midpoint rule, of the step given or (after rejections) of that step times values of the limiter, with an
error estimate of at most 1.  Missing: the time variable (`C30_time_advances_too_far`), and with it every derivative that
depends on time. -/
theorem C30_autonomous_data_partial (f : Arr ℝ → ℝ → Arr ℝ) (hf : ∀ x t t', f x t = f x t') (p : Params ℝ) (n : Nat)
    (data data' : Arr ℝ) (t t' h h' : ℝ) (c c' : State ℝ) (e : iterateF f p n data t h c = .ok ((data', t'), h', c')) :
    ∃ hAcc, Retried p h hAcc ∧ ExtrapolatedF f p n data t hAcc data' := by
  obtain ⟨hAcc, _, _, h1, h2, _⟩ := attemptsF_accept f hf p n data t 100 h c t _ e
  exact ⟨hAcc, h1, h2⟩

/-- Concretely: dx/dt = x, any start, a fresh iterator whose error estimate is 0. -/
example (x t h : ℝ) : ∃ data' h' c', iterateF (fun x _ => x) ⟨7, false, fun _ _ _ => 0, fun _ _ => 1, fun _ _ => 1⟩ 1
    (fun _ => x) t h (State.init 7) = .ok ((data', t + 3 * h), h', c') :=
  C30_returns (fun x _ => x) ⟨7, false, fun _ _ _ => 0, fun _ _ => 1, fun _ _ => 1⟩ (by norm_num) (fun _ _ _ => zero_le_one) 1 _ t h

end SpaceHub.BS
