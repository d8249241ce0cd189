import Verif.Props.GaussRadau
import Verif.Props.StepControl
import Verif.Props.ErrorCheck
import Verif.Proof.BSSystems

/-
C33: the IAS15 iterator.
-/

set_option autoImplicit false

namespace SpaceHub.Radau
open SpaceHub SpaceHub.Sys SpaceHub.Props SpaceHub.BS Ctl Fl

variable {S : Type}

/-- What the iterator relies on for the initial system `s`: `frame` = same fixed data, `same` = same state. -/
structure RLawful (O : RSys S) (s : S) (frame same : S → S → Prop) : Prop where
  refl : frame s s
  trans : ∀ x y z, frame x y → frame y z → frame x z
  deriv : ∀ x d, O.deriv x = .ok d → frame x d.2
  read : ∀ x y v, frame s x → O.read x v = .ok y → frame x y ∧ O.write y = v
  same_refl : same s s
  restore : ∀ x y, frame s x → O.read x (O.write s) = .ok y → same s y

/-- a correction leaves the system in the state it found -/
theorem correct_restores {T : Tab} {O : RSys S} {s : S} {frame same : S → S → Prop} (L : RLawful O s frame same) {H : ℝ} {r r' : GR}
    {x x' : S} (hx : frame s x) (hw : O.write x = O.write s) (e : correct T O H r x = .ok (x', r')) :
    frame s x' ∧ O.write x' = O.write s ∧ same s x' ∧ r'.input = O.write s ∧ r'.num = (O.write s).length := by
  obtain ⟨d, R, st, X, D, hd, p, h0, h7, hR7, hin, hdy, hnum, _⟩ := correct_path e
  have hf : ∀ n, n ≤ 7 → frame s (st n) := by
    intro n
    induction n with
    | zero => intro _; rw [h0]; exact L.trans _ _ _ hx (L.deriv _ _ hd)
    | succ n ih =>
      intro hn
      have f0 := ih (by omega)
      have f1 := L.trans _ _ _ f0 (L.read _ _ _ f0 (p.read n (Nat.zero_le _) (by omega))).1
      have f2 := L.trans _ _ _ f1 (L.deriv _ _ (p.deriv n (Nat.zero_le _) (by omega)))
      exact L.trans _ _ _ f2 (L.read _ _ _ f2 (p.back n (Nat.zero_le _) (by omega))).1
  have f6 := hf 6 (by norm_num)
  have g1 := L.trans _ _ _ f6 (L.read _ _ _ f6 (p.read 6 (by norm_num) (by norm_num))).1
  have g2 := L.trans _ _ _ g1 (L.deriv _ _ (p.deriv 6 (by norm_num) (by norm_num)))
  have hb := p.back 6 (by norm_num) (by norm_num)
  rw [(p.fixed 6 (by norm_num)).1, hin, hw, h7] at hb
  refine ⟨by rw [← h7]; exact hf 7 le_rfl, (L.read _ _ _ g2 hb).2, L.restore _ _ g2 hb, ?_, ?_⟩
  · rw [← hR7, (p.fixed 7 le_rfl).1, hin, hw]
  · rw [← hR7, (p.fixed 7 le_rfl).2.2.1, hnum, hw]

/-- One attempt to make a step of length `h`: `n + 1` corrections, at most thirty, of the systems `y 0, ..., y n` with the
integrators `g 0, ..., g n`; `E i` is the change made by correction `i` relative to its tolerance.  Corrections are repeated as
long as the change is not below tolerance and has become smaller. -/
structure Attempt (T : Tab) (O : RSys S) (big h : ℝ) (n : Nat) (g : Nat → GR) (y : Nat → S) (E : Nat → ℝ) : Prop where
  pass : ∀ i, i ≤ n → correct T O h (g i) (y i) = .ok (y (i + 1), g (i + 1)) ∧ pcError (g (i + 1)) = fin (E i)
  go_on : ∀ i, i < n → 1 ≤ E i ∧ E i < (if i = 0 then big else E (i - 1))
  stop : E n < 1 ∨ E n ≥ (if n = 0 then big else E (n - 1))
  bound : n < 30

theorem stepError_fin (n : Nat) (mask : Nat → Bool) (dyh b6 : Arr ℝ) :
    ∃ a b : ℝ, 0 ≤ a ∧ 0 ≤ b ∧ stepError n mask (fun i => fin (dyh i)) (fun i => fin (b6 i)) =
      if b = 0 then fin 0 else fin (a / (b * (5 / 10 ^ 10))) := by
  have key : ∀ m : Nat, ∃ a b : ℝ, 0 ≤ a ∧ 0 ≤ b ∧ forLoop 0 m (fun i (m : Fl × Fl) =>
      if mask i then m else (stdMax m.1 (abs (fin (b6 i))), stdMax m.2 (abs (fin (dyh i))))) (fin 0, fin 0) = (fin a, fin b) := by
    intro m
    induction m with
    | zero => exact ⟨0, 0, le_rfl, le_rfl, by rw [forLoop_self _ _ le_rfl]⟩
    | succ m ih =>
      obtain ⟨a, b, ha, hb, e⟩ := ih
      rw [forLoop_succ _ _ (Nat.zero_le _), e]
      by_cases hm : mask m
      · rw [if_pos hm]; exact ⟨a, b, ha, hb, rfl⟩
      · rw [if_neg hm]
        refine ⟨max a |b6 m|, max b |dyh m|, le_max_of_le_left ha, le_max_of_le_left hb, ?_⟩
        show (stdMax (fin a) (fin |b6 m|), stdMax (fin b) (fin |dyh m|)) = _
        rw [stdMax_fin, stdMax_fin]
  obtain ⟨a, b, ha, hb, e⟩ := key n
  refine ⟨a, b, ha, hb, ?_⟩
  unfold stepError
  dsimp only
  rw [e]
  by_cases h0 : b = 0
  · rw [if_pos h0]
    show (if decide (b = 0) = true then _ else _) = _
    rw [if_pos (decide_eq_true h0)]
  · rw [if_neg h0]
    show (if decide (b = 0) = true then _ else div (fin a) (mul (fin b) (fin (5 / 10 ^ 10)))) = _
    rw [if_neg (by simpa using h0)]
    show div (fin a) (fin (b * (5 / 10 ^ 10))) = _
    rw [div_fin _ _ (mul_ne_zero h0 (by norm_num))]

/-- the step error is a number and not negative -/
theorem stepError_nonneg {n : Nat} {mask : Nat → Bool} {dyh b6 : Arr ℝ} {se : ℝ}
    (e : toRes (stepError n mask (fun i => fin (dyh i)) (fun i => fin (b6 i))) = .ok se) : 0 ≤ se := by
  obtain ⟨a, b, ha, hb, h⟩ := stepError_fin n mask dyh b6
  rw [h] at e
  by_cases h0 : b = 0
  · rw [if_pos h0] at e; cases e; exact le_rfl
  · rw [if_neg h0] at e; cases e; positivity

theorem ctrl_values : ctrl.s1 = 85 / 100 ∧ ctrl.s2 = 1 ∧ ctrl.limMin 0 = 1 / 4 ∧ ctrl.limMax 0 = 4 ∧
    ctrl.limMax 7 = (50 : ℝ) ^ (1 / (7 : ℝ)) ∧ ctrl.expon 7 = 1 / 7 := by
  refine ⟨rfl, rfl, ?_, ?_, ?_, ?_⟩
  · show PID.new.limMin 0 = _
    simp [PID.new]
  · show PID.new.limMax 0 = _
    simp [PID.new]
  · show PID.new.limMax 7 = _
    simp only [PID.new]
    rw [if_neg (by norm_num)]; norm_num
  · show PID.new.expon 7 = _
    simp [PID.new]

/-- the ratio of steps asked for by the controller for the step error `se` -/
noncomputable def stepRatio (se : ℝ) : ℝ := if se = 0 then (50 : ℝ) ^ (1 / 7 : ℝ) else 17 / 20 * (1 / se) ^ (1 / 7 : ℝ)

theorem ctrl_next {se q : ℝ} (h0 : 0 ≤ se) (e : ctrl.next 7 se = .ok q) : q = stepRatio se := by
  obtain ⟨c1, c2, _, _, c5, c6⟩ := ctrl_values
  unfold PID.next at e
  rw [if_pos (by norm_num)] at e
  unfold stepRatio
  by_cases hz : se = 0
  · rw [if_neg (not_not.2 hz), c5] at e
    rw [if_pos hz]; exact (Res.ok.inj e).symm
  · rw [if_pos hz] at e
    unfold PID.pow at e
    rw [if_neg (by rw [c2]; exact not_lt.2 (by positivity)), c2, c6, c1] at e
    rw [if_neg hz]
    rw [← Res.ok.inj e]
    norm_num

theorem stepRatio_pos {se : ℝ} (h : 0 ≤ se) : 0 < stepRatio se := by
  unfold stepRatio
  split_ifs with hz
  · positivity
  · have : 0 < se := lt_of_le_of_ne h (Ne.symm hz)
    positivity

/-- accepted steps have an error below 3.4^7 -/
theorem stepRatio_accept {se : ℝ} (h : 0 ≤ se) (hq : 1 / 4 < stepRatio se) : se < (17 / 5 : ℝ) ^ 7 := by
  unfold stepRatio at hq
  by_cases hz : se = 0
  · rw [hz]; positivity
  · rw [if_neg hz] at hq
    have hs : 0 < se := lt_of_le_of_ne h (Ne.symm hz)
    by_contra hc
    have hc := not_lt.1 hc
    have h1 : (1 / se) ≤ (5 / 17 : ℝ) ^ 7 := by
      rw [one_div]
      calc se⁻¹ ≤ ((17 / 5 : ℝ) ^ 7)⁻¹ := inv_anti₀ (by positivity) hc
        _ = (5 / 17 : ℝ) ^ 7 := by norm_num
    have h2 : (1 / se) ^ (1 / 7 : ℝ) ≤ ((5 / 17 : ℝ) ^ 7) ^ (1 / 7 : ℝ) :=
      Real.rpow_le_rpow (by positivity) h1 (by norm_num)
    have h3 : ((5 / 17 : ℝ) ^ 7) ^ (1 / 7 : ℝ) = 5 / 17 := by
      have := Real.pow_rpow_inv_natCast (show (0 : ℝ) ≤ 5 / 17 by norm_num) (show (7 : ℕ) ≠ 0 by norm_num)
      rw [one_div]; exact_mod_cast this
    rw [h3] at h2
    linarith

/-- What a successful call of `iterate` with the step `H` did: `m` attempts were rejected; the lengths tried were `h 0 = H`, and then
each time the length before times a ratio in `(0, 1/4]`; in each attempt the corrections were repeated until their change was below
tolerance or grew; before and after all corrections of all attempts the system was in the initial state; the error of the accepted
step, of length `h m`, is below `3.4^7`; the variables at the end are those at the start plus the integral of the derivative
polynomial over the step; and the next step is `h m` times the ratio asked for, limited to `[1/4, 4]`. -/
def Accepted (T : Tab) (O : RSys S) (big : ℝ) (frame same : S → S → Prop) (H : ℝ) (it : IAS) (s s' : S) (it' : IAS) (h' : ℝ) : Prop :=
  ∃ (m : Nat) (h q : Nat → ℝ) (n : Nat → Nat) (g : Nat → Nat → GR) (y : Nat → Nat → S) (E : Nat → Nat → ℝ) (se : ℝ),
    h 0 = H ∧ g 0 0 = it.gr ∧
    (∀ i, i < m → h (i + 1) = h i * q i ∧ 0 < q i ∧ q i ≤ 1 / 4 ∧
      g (i + 1) 0 = if it.warm then (g i (n i + 1)).predict T (q i) else g i (n i + 1)) ∧
    (∀ i, i ≤ m → Attempt T O big (h i) (n i) (g i) (y i) (E i) ∧ ∀ j, j ≤ n i + 1 → same s (y i j) ∧ O.write (y i j) = O.write s) ∧
    toRes (stepError (O.write s).length (O.mask (h m) (y m (n m + 1))) (fun i => fin ((g m (n m + 1)).dyh i))
      (fun i => fin ((g m (n m + 1)).b 6 i))) = .ok se ∧
    0 ≤ se ∧ se < (17 / 5) ^ 7 ∧ h' = h m * min (max (stepRatio se) (1 / 4)) 4 ∧
    it' = { gr := (g m (n m + 1)).predict T (min (max (stepRatio se) (1 / 4)) 4), last := big, warm := true } ∧
    (O.write s').length = (O.write s).length ∧ frame s s' ∧
    ∀ v, v < (O.write s).length → (O.write s').getD v 0 = (O.write s).getD v 0 +
      h m * ∫ τ in (0 : ℝ)..1, slope ((g m (n m + 1)).dy0 v) (fun j => (g m (n m + 1)).b j v) τ

theorem limiter0_eq (q : ℝ) : ctrl.limiter0 q = min (max q (1 / 4)) 4 := by
  obtain ⟨_, _, c3, c4, _, _⟩ := ctrl_values
  unfold PID.limiter0
  rw [inRange_eq _ _ _ (by rw [c3, c4]; norm_num), c3, c4, max_comm]

theorem iterate_aux {T : Tab} {O : RSys S} {s : S} {frame same : S → S → Prop} (L : RLawful O s frame same) (big : ℝ) (fuel : Nat) :
    ∀ (k : Nat) (h : ℝ) (it : IAS) (p : Nat) (g : Nat → GR) (y : Nat → S) (E : Nat → ℝ) (s' : S) (it' : IAS) (h' : ℝ),
    (∀ i, i < p → correct T O h (g i) (y i) = .ok (y (i + 1), g (i + 1)) ∧ pcError (g (i + 1)) = fin (E i)) →
    (∀ i, i < p → 1 ≤ E i ∧ E i < (if i = 0 then big else E (i - 1))) →
    p ≤ k → it.gr = g p → it.last = (if p = 0 then big else E (p - 1)) →
    (∀ j, j ≤ p → same s (y j) ∧ O.write (y j) = O.write s) → frame s (y p) →
    iterate T O big fuel k h it (y p) = .ok (s', it', h') →
    Accepted T O big frame same h { it with gr := g 0 } s s' it' h' := by
  induction fuel with
  | zero => intro k h it p g y E s' it' h' _ _ _ _ _ _ _ e; cases e
  | succ fuel ih =>
    intro k h it p g y E s' it' h' hpass hgo hpk hgr hlast hsame hframe e
    unfold iterate at e
    by_cases hk : k < 30
    swap
    · rw [if_neg hk] at e; cases e
    rw [if_pos hk] at e
    obtain ⟨c, e1, e⟩ := Res.bind_eq_ok.1 e
    obtain ⟨pe, e2, e⟩ := Res.bind_eq_ok.1 e
    dsimp only at e
    obtain ⟨f1, f2, f3, f4, f5⟩ := correct_restores L hframe (hsame p le_rfl).2 e1
    -- the history with this correction
    set g' : Nat → GR := fun i => if i ≤ p then g i else c.2 with hg'
    set y' : Nat → S := fun i => if i ≤ p then y i else c.1 with hy'
    set E' : Nat → ℝ := fun i => if i < p then E i else pe with hE'
    have g1 : ∀ i, i ≤ p → g' i = g i := fun i hi => by simp only [hg', if_pos hi]
    have y1 : ∀ i, i ≤ p → y' i = y i := fun i hi => by simp only [hy', if_pos hi]
    have g2 : g' (p + 1) = c.2 := by simp only [hg']; rw [if_neg (by omega)]
    have y2 : y' (p + 1) = c.1 := by simp only [hy']; rw [if_neg (by omega)]
    have E1 : ∀ i, i < p → E' i = E i := fun i hi => by simp only [hE', if_pos hi]
    have E2 : E' p = pe := by simp only [hE']; rw [if_neg (by omega)]
    have hpe : pcError c.2 = fin pe := by
      cases hx : pcError c.2 with
      | fin r => rw [hx] at e2; cases e2; rfl
      | inf b => rw [hx] at e2; cases e2
      | nan => rw [hx] at e2; cases e2
    have hpass' : ∀ i, i < p + 1 → correct T O h (g' i) (y' i) = .ok (y' (i + 1), g' (i + 1)) ∧ pcError (g' (i + 1)) = fin (E' i) := by
      intro i hi
      rcases Nat.lt_succ_iff_lt_or_eq.1 hi with hlt | rfl
      · rw [g1 i hlt.le, y1 i hlt.le, y1 (i + 1) hlt, g1 (i + 1) hlt, E1 i hlt]; exact hpass i hlt
      · rw [g1 i le_rfl, y1 i le_rfl, y2, g2, E2]
        exact ⟨by rw [← hgr]; exact e1, hpe⟩
    have hlast' : it.last = (if p = 0 then big else E' (p - 1)) := by
      rw [hlast]
      by_cases h0 : p = 0
      · rw [if_pos h0, if_pos h0]
      · rw [if_neg h0, if_neg h0, E1 (p - 1) (by omega)]
    have hgo' : ∀ i, i < p → 1 ≤ E' i ∧ E' i < (if i = 0 then big else E' (i - 1)) := by
      intro i hi
      rw [E1 i hi]
      by_cases h0 : i = 0
      · rw [if_pos h0]; have := hgo i hi; rwa [if_pos h0] at this
      · rw [if_neg h0, E1 (i - 1) (by omega)]; have := hgo i hi; rwa [if_neg h0] at this
    have hsame' : ∀ j, j ≤ p + 1 → same s (y' j) ∧ O.write (y' j) = O.write s := by
      intro j hj
      rcases Nat.le_succ_iff.1 hj with hle | rfl
      · rw [y1 j hle]; exact hsame j hle
      · rw [y2]; exact ⟨f3, f2⟩
    by_cases hconv : pe < 1 ∨ pe ≥ it.last
    · rw [if_pos hconv] at e
      obtain ⟨se, e3, e⟩ := Res.bind_eq_ok.1 e
      obtain ⟨q, e4, e⟩ := Res.bind_eq_ok.1 e
      have hse := stepError_nonneg e3
      have hq := ctrl_next hse e4
      have hatt : Attempt T O big h p g' y' E' := by
        refine ⟨fun i hi => hpass' i (by omega), hgo', ?_, by omega⟩
        rw [E2, ← hlast']; exact hconv
      by_cases hacc : q > ctrl.limMin 0
      · rw [if_pos hacc] at e
        rw [hq, ctrl_values.2.2.1] at hacc
        obtain ⟨z, e5, e⟩ := Res.bind_eq_ok.1 e
        rw [Res.ok.injEq, Prod.mk.injEq, Prod.mk.injEq] at e
        obtain ⟨rfl, rfl, rfl⟩ := e
        obtain ⟨Y, r1, r2, r3⟩ := C47_evaluate O h c.2 c.1 z e5
        obtain ⟨r4, r5⟩ := L.read _ _ _ f1 r1
        rw [f4] at r2 r3
        refine ⟨0, fun _ => h, fun _ => 0, fun _ => p, fun _ => g', fun _ => y', fun _ => E', se, rfl, g1 0 (Nat.zero_le _),
          fun i hi => by omega, fun i _ => ⟨hatt, fun j hj => hsame' j hj⟩, ?_, hse, stepRatio_accept hse hacc, ?_, ?_,
          by rw [r5, r2], L.trans _ _ _ f1 r4, fun v hv => ?_⟩
        · dsimp only; rw [g2, y2, ← f5]; exact e3
        · rw [limiter0_eq, hq]
        · dsimp only; rw [limiter0_eq, hq, g2]
        · dsimp only; rw [r5, r3 v hv, g2]
      · rw [if_neg hacc] at e
        rw [hq, ctrl_values.2.2.1] at hacc
        obtain ⟨m, h1, q1, n1, gg, yy, EE, se1, a1, a2, a3, a4, a5⟩ := ih 1 (h * q) _ 0
          (fun _ => if it.warm then c.2.predict T q else c.2) (fun _ => c.1) (fun _ => 0) s' it' h'
          (fun i hi => by omega) (fun i hi => by omega) (by omega) rfl (by rw [if_pos rfl]) (fun j _ => ⟨f3, f2⟩) f1 e
        refine ⟨m + 1, fun i => match i with | 0 => h | i + 1 => h1 i, fun i => match i with | 0 => q | i + 1 => q1 i,
          fun i => match i with | 0 => p | i + 1 => n1 i, fun i => match i with | 0 => g' | i + 1 => gg i,
          fun i => match i with | 0 => y' | i + 1 => yy i, fun i => match i with | 0 => E' | i + 1 => EE i, se1,
          rfl, g1 0 (Nat.zero_le _), ?_, ?_, a5⟩
        · intro i hi
          cases i with
          | zero =>
            refine ⟨a1, by rw [hq]; exact stepRatio_pos hse, by rw [hq]; exact not_lt.1 hacc, ?_⟩
            show gg 0 0 = if it.warm = true then (g' (p + 1)).predict T q else g' (p + 1)
            rw [a2, g2]
          | succ i => exact a3 i (by omega)
        · intro i hi
          cases i with
          | zero => exact ⟨hatt, fun j hj => hsame' j hj⟩
          | succ i => exact a4 i (by omega)
    · rw [if_neg hconv] at e
      have hconv := not_or.1 hconv
      have key := ih (k + 1) h { gr := c.2, last := pe, warm := it.warm } (p + 1) g' y' E' s' it' h' hpass' (by
        intro i hi
        rcases Nat.lt_succ_iff_lt_or_eq.1 hi with hlt | rfl
        · exact hgo' i hlt
        · rw [E2, ← hlast']
          exact ⟨not_lt.1 hconv.1, not_le.1 hconv.2⟩) (by omega) g2.symm (by rw [if_neg (by omega), Nat.add_sub_cancel, E2]) hsame'
        (by rw [y2]; exact f1) (by rw [y2]; exact e)
      rw [g1 0 (Nat.zero_le _)] at key
      obtain ⟨m, h1, q1, n1, gg, yy, EE, se1, a1, a2, a3⟩ := key
      exact ⟨m, h1, q1, n1, gg, yy, EE, se1, a1, a2, a3⟩

theorem accepted {T : Tab} {O : RSys S} {s : S} {frame same : S → S → Prop} (L : RLawful O s frame same) (big : ℝ) (fuel : Nat) (H : ℝ)
    (it it' : IAS) (s' : S) (h' : ℝ) (hl : it.last = big) (e : iterate T O big fuel 0 H it s = .ok (s', it', h')) :
    Accepted T O big frame same H it s s' it' h' :=
  iterate_aux L big fuel 0 H it 0 (fun _ => it.gr) (fun _ => s) (fun _ => 0) s' it' h' (fun i hi => by omega) (fun i hi => by omega)
    le_rfl rfl (by rw [if_pos rfl]; exact hl) (fun _ _ => ⟨L.same_refl, rfl⟩) L.refl e

/-! ### the particle systems -/

theorem simple_radau (I : Interactions) (s : Simple) : RLawful (radauSimple I) s Simple.Frame (SameSimple I) where
  refl := ⟨rfl, rfl⟩
  trans _ _ _ := Simple.Frame.trans
  deriv x d e := by rw [← Res.ok.inj e]; exact ⟨rfl, rfl⟩
  read x y v _ e := ⟨(Simple.read_frame I x y v e).1, (Simple.read_frame I x y v e).2.2⟩
  same_refl := ⟨rfl, rfl, rfl, fun _ _ => ⟨rfl, rfl, fun _ => rfl⟩⟩
  restore := (simple_lawful I true s).restore

theorem regu_radau (G : ℝ) (type : ReguType) (I : Interactions) (s : ReguSys) :
    RLawful (radauRegu G type I) s ReguSys.Frame (SameRegu I) where
  refl := ⟨rfl, rfl⟩
  trans _ _ _ := ReguSys.Frame.trans
  deriv x d e := by
    obtain ⟨a, _, e⟩ := Res.bind_eq_ok.1 e
    obtain ⟨b, _, e⟩ := Res.bind_eq_ok.1 e
    rw [← Res.ok.inj e]; exact ⟨rfl, rfl⟩
  read x y v _ e := ⟨(ReguSys.read_frame I x y v e).1, (ReguSys.read_frame I x y v e).2.2⟩
  same_refl := ⟨rfl, rfl, rfl, rfl, rfl, fun _ _ => ⟨rfl, rfl, fun _ => rfl⟩⟩
  restore := (regu_lawful G type I true s).restore

theorem chain_radau (I : ChainInteractions) (s : ChainSys)
    (hc : ChainConsistent I.velDep s.P.num s.index s.cpos s.cvel s.caux s.P.pos s.P.vel s.aux) :
    RLawful (radauChain I) s ChainSys.Frame (SameChain I) where
  refl := ⟨rfl, rfl, rfl⟩
  trans _ _ _ := ChainSys.Frame.trans
  deriv x d e := by
    obtain ⟨a, _, e⟩ := Res.bind_eq_ok.1 e
    rw [← Res.ok.inj e]; exact ⟨rfl, rfl, rfl⟩
  read x y v f e := by
    have h := (chain_lawful I true s hc).read x y v f e
    exact ⟨h.1, h.2.2⟩
  same_refl := ⟨rfl, rfl, rfl, rfl, fun _ _ => ⟨rfl, rfl, fun _ => rfl⟩, fun _ _ => ⟨rfl, rfl, fun _ => rfl⟩⟩
  restore := (chain_lawful I true s hc).restore

theorem ar_radau (G : ℝ) (type : ReguType) (I : ChainInteractions) (s : ARSys)
    (hc : ChainConsistent I.velDep s.P.num s.index s.cpos s.cvel s.caux s.P.pos s.P.vel s.aux) :
    RLawful (radauAR G type I) s ARSys.Frame (SameAR I) where
  refl := ⟨rfl, rfl, rfl⟩
  trans _ _ _ := ARSys.Frame.trans
  deriv x d e := by
    obtain ⟨a, _, e⟩ := Res.bind_eq_ok.1 e
    obtain ⟨b, _, e⟩ := Res.bind_eq_ok.1 e
    obtain ⟨c, _, e⟩ := Res.bind_eq_ok.1 e
    obtain ⟨newt, _, e⟩ := Res.bind_eq_ok.1 e
    by_cases hx : (I.velIndep || I.velDep) = true
    · rw [if_pos hx] at e
      obtain ⟨ext, _, e⟩ := Res.bind_eq_ok.1 e
      obtain ⟨cacc, _, e⟩ := Res.bind_eq_ok.1 e
      rw [← Res.ok.inj e]; exact ⟨rfl, rfl, rfl⟩
    · rw [if_neg hx] at e
      obtain ⟨ext, _, e⟩ := Res.bind_eq_ok.1 e
      obtain ⟨cacc, _, e⟩ := Res.bind_eq_ok.1 e
      rw [← Res.ok.inj e]; exact ⟨rfl, rfl, rfl⟩
  read x y v f e := by
    have h := (ar_lawful G type I true s hc).read x y v f e
    exact ⟨h.1, h.2.2⟩
  same_refl := ⟨rfl, rfl, rfl, rfl, rfl, rfl, fun _ _ => ⟨rfl, rfl, fun _ => rfl⟩, fun _ _ => ⟨rfl, rfl, fun _ => rfl⟩⟩
  restore := (ar_lawful G type I true s hc).restore

end SpaceHub.Radau

namespace SpaceHub.Props
open SpaceHub SpaceHub.Sys SpaceHub.BS SpaceHub.Radau Ctl Fl

/-- Iterator objects between calls: new, or left by a call that returned (for any system, with any number of variables). -/
inductive Between (T : Tab) (big : ℝ) : IAS → Prop
  | new : Between T big (IAS.new big)
  | call {S : Type} (O : RSys S) (fuel : Nat) (H h' : ℝ) (it it' : IAS) (s s' : S) : Between T big it →
      Radau.iterate T O big fuel 0 H it s = .ok (s', it', h') → Between T big it'

/-- a call that returns leaves `last` at its initial value -/
theorem iterate_last {S : Type} (T : Tab) (O : RSys S) (big : ℝ) (fuel : Nat) : ∀ (k : Nat) (h : ℝ) (it : IAS) (s s' : S) (it' : IAS) (h' : ℝ),
    Radau.iterate T O big fuel k h it s = .ok (s', it', h') → it'.last = big := by
  induction fuel with
  | zero => intro k h it s s' it' h' e; cases e
  | succ fuel ih =>
    intro k h it s s' it' h' e
    unfold Radau.iterate at e
    by_cases hk : k < 30
    swap
    · rw [if_neg hk] at e; cases e
    rw [if_pos hk] at e
    obtain ⟨c, e1, e⟩ := Res.bind_eq_ok.1 e
    obtain ⟨pe, e2, e⟩ := Res.bind_eq_ok.1 e
    dsimp only at e
    by_cases hconv : pe < 1 ∨ pe ≥ it.last
    · rw [if_pos hconv] at e
      obtain ⟨se, e3, e⟩ := Res.bind_eq_ok.1 e
      obtain ⟨q, e4, e⟩ := Res.bind_eq_ok.1 e
      by_cases hacc : q > ctrl.limMin 0
      · rw [if_pos hacc] at e
        obtain ⟨z, e5, e⟩ := Res.bind_eq_ok.1 e
        rw [Res.ok.injEq, Prod.mk.injEq, Prod.mk.injEq] at e
        rw [← e.2.1]
      · rw [if_neg hacc] at e
        exact ih _ _ _ _ _ _ _ e
    · rw [if_neg hconv] at e
      exact ih _ _ _ _ _ _ _ e

theorem between_last {T : Tab} {big : ℝ} {it : IAS} (h : Between T big it) : it.last = big := by
  cases h with
  | new => rfl
  | call O fuel H h' it it' s s' _ e => exact iterate_last T O big fuel _ _ _ _ _ _ _ e

/-- C33, plain system; `Accepted` is spelled out above. -/
theorem C33_simple (T : Tab) (I : Interactions) (big : ℝ) (fuel : Nat) (H h' : ℝ) (it it' : IAS) (s s' : Simple) (hit : Between T big it)
    (e : Radau.iterate T (radauSimple I) big fuel 0 H it s = .ok (s', it', h')) :
    Accepted T (radauSimple I) big Simple.Frame (SameSimple I) H it s s' it' h' :=
  accepted (simple_radau I s) big fuel H it it' s' h' (between_last hit) e

/-- C33, regularised system. -/
theorem C33_regularized (T : Tab) (G : ℝ) (type : ReguType) (I : Interactions) (big : ℝ) (fuel : Nat) (H h' : ℝ) (it it' : IAS)
    (s s' : ReguSys) (hit : Between T big it) (e : Radau.iterate T (radauRegu G type I) big fuel 0 H it s = .ok (s', it', h')) :
    Accepted T (radauRegu G type I) big ReguSys.Frame (SameRegu I) H it s s' it' h' :=
  accepted (regu_radau G type I s) big fuel H it it' s' h' (between_last hit) e

/-- C33, chain system. -/
theorem C33_chain (T : Tab) (I : ChainInteractions) (big : ℝ) (fuel : Nat) (H h' : ℝ) (it it' : IAS) (s s' : ChainSys)
    (hc : ChainConsistent I.velDep s.P.num s.index s.cpos s.cvel s.caux s.P.pos s.P.vel s.aux) (hit : Between T big it)
    (e : Radau.iterate T (radauChain I) big fuel 0 H it s = .ok (s', it', h')) :
    Accepted T (radauChain I) big ChainSys.Frame (SameChain I) H it s s' it' h' :=
  accepted (chain_radau I s hc) big fuel H it it' s' h' (between_last hit) e

/-- C33, regularised chain system. -/
theorem C33_archain (T : Tab) (G : ℝ) (type : ReguType) (I : ChainInteractions) (big : ℝ) (fuel : Nat) (H h' : ℝ) (it it' : IAS)
    (s s' : ARSys) (hc : ChainConsistent I.velDep s.P.num s.index s.cpos s.cvel s.caux s.P.pos s.P.vel s.aux) (hit : Between T big it)
    (e : Radau.iterate T (radauAR G type I) big fuel 0 H it s = .ok (s', it', h')) :
    Accepted T (radauAR G type I) big ARSys.Frame (SameAR I) H it s s' it' h' :=
  accepted (ar_radau G type I s hc) big fuel H it it' s' h' (between_last hit) e

/-- The derivative polynomial used for the accepted step interpolates: see `C47_corrector`; the integrator of every attempt has a
history, so that theorem applies to each of its corrections. -/
theorem C33_history {S : Type} (T : Tab) (O : RSys S) (big h : ℝ) (n : Nat) (g : Nat → GR) (y : Nat → S) (E : Nat → ℝ)
    (a : Attempt T O big h n g y E) (h0 : Used T (g 0)) : ∀ i, i ≤ n + 1 → Used T (g i) := by
  intro i
  induction i with
  | zero => intro _; exact h0
  | succ i ih => intro hi; exact .correct O h _ _ _ _ (ih (by omega)) (a.pass i (by omega)).1

end SpaceHub.Props
