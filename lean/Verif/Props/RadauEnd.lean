import Verif.Props.RadauConserve

/-
C62: does an IAS15 step end?  Free flight ends after one correction; a jump of the derivative at the start of the step never ends.
-/

set_option autoImplicit false

namespace SpaceHub.Radau
open SpaceHub SpaceHub.Sys SpaceHub.Props SpaceHub.BS V3 Force Core Finset Ctl Fl

variable {S : Type}

/-- all coefficients are zero -/
def Blank (r : GR) : Prop := ∀ j v, r.b j v = 0 ∧ r.g j v = 0

theorem blank_new : Blank GR.new := fun _ _ => ⟨rfl, rfl⟩

theorem blank_update (T : Tab) (r : GR) (stage : Nat) (h : Blank r) (hd : r.dyh = r.dy0) :
    Blank (r.updateB T stage) ∧ ∀ v, (r.updateB T stage).dg v = 0 := by
  have hz : ∀ v, newG T r stage v = 0 := by
    intro v
    unfold newG
    rw [hd, sub_self, zero_mul, sum_eq_zero fun j _ => by rw [(h j v).2, zero_mul], sub_zero]
  refine ⟨fun j v => ?_, fun v => by rw [(updateB_eq T r stage v).2.2.1, hz, (h stage v).2, sub_zero]⟩
  obtain ⟨u1, u2, _, u4, u5⟩ := updateB_eq T r stage v
  constructor
  · rcases Nat.lt_or_ge stage j with hlt | hge
    · rw [u5 j hlt]; exact (h j v).1
    · rw [u4 j hge, hz, (h stage v).2, (h j v).1]; ring
  · by_cases hj : j = stage
    · rw [hj, u1, hz]
    · rw [u2 j hj]; exact (h j v).2

/-- the states met when the derivative is `D` everywhere: `y` plus multiples of `D` -/
noncomputable def along (y : List ℝ) (D : Nat → ℝ) (c : ℝ) : List ℝ := (List.range y.length).map fun i => y.getD i 0 + c * D i

theorem along_zero (y : List ℝ) (D : Nat → ℝ) : along y D 0 = y := by
  unfold along
  refine List.ext_getElem (by simp) fun i h1 h2 => ?_
  simp only [List.getElem_map, List.getElem_range, zero_mul, add_zero]
  rw [List.getD_eq_getElem _ _ h2]

/-- the system has the derivative `D` along the line -/
structure Straight (O : RSys S) (y : List ℝ) (D : Nat → ℝ) (good : S → Prop) : Prop where
  read : ∀ x c, good x → ∃ x', O.read x (along y D c) = .ok x' ∧ good x'
  deriv : ∀ x, good x → ∃ d, O.deriv x = .ok d ∧ GR.toArr d.1 = D ∧ good d.2

theorem sweep_straight {T : Tab} {O : RSys S} {y : List ℝ} {D : Nat → ℝ} {good : S → Prop} (L : Straight O y D good) (H : ℝ) (m : Nat) :
    ∀ (stage : Nat) (r : GR) (x : S), good x → Blank r → r.input = y → r.dy0 = D → r.dyh = D → (∀ v, r.dg v = 0) →
    ∃ x' r', sweep T O H m stage r x = .ok (x', r') ∧ good x' ∧ Blank r' ∧ r'.input = y ∧ r'.dy0 = D ∧ r'.dyh = D ∧ (∀ v, r'.dg v = 0) ∧
      r'.num = r.num := by
  induction m with
  | zero => intro stage r x hx hb hi h0 hh hg; exact ⟨x, r, rfl, hx, hb, hi, h0, hh, hg, rfl⟩
  | succ m ih =>
    intro stage r x hx hb hi h0 hh hg
    have hst : r.stageState T H stage = along y D (T.h stage * H) := by
      unfold GR.stageState along
      rw [hi]
      refine List.map_congr_left fun i _ => ?_
      rw [horner_eq, sum_eq_zero fun j _ => by rw [(hb j i).1, zero_mul, zero_div], h0]; ring
    obtain ⟨x1, e1, g1⟩ := L.read x (T.h stage * H) hx
    obtain ⟨d, e2, hD, g2⟩ := L.deriv x1 g1
    obtain ⟨x2, e3, g3⟩ := L.read d.2 0 g2
    rw [along_zero] at e3
    obtain ⟨b1, b2⟩ := blank_update T { r with dyh := GR.toArr d.1 } stage hb (by rw [hD]; exact h0.symm)
    obtain ⟨x', r', e4, rest⟩ := ih (stage + 1) (GR.updateB T { r with dyh := GR.toArr d.1 } stage) x2 g3 b1 hi h0 hD b2
    refine ⟨x', r', ?_, rest⟩
    unfold sweep
    rw [hst, e1]
    show (do let d ← O.deriv x1
             let r := GR.updateB T { r with dyh := GR.toArr d.1 } stage
             let s ← O.read d.2 r.input
             sweep T O H m (stage + 1) r s) = _
    rw [e2]
    show (do let s ← O.read d.2 (GR.updateB T { r with dyh := GR.toArr d.1 } stage).input
             sweep T O H m (stage + 1) (GR.updateB T { r with dyh := GR.toArr d.1 } stage) s) = _
    rw [show (GR.updateB T { r with dyh := GR.toArr d.1 } stage).input = y from hi, e3]
    exact e4

theorem correct_straight {T : Tab} {O : RSys S} {y : List ℝ} {D : Nat → ℝ} {good : S → Prop} (L : Straight O y D good) (H : ℝ) (r : GR)
    (x : S) (hx : good x) (hw : O.write x = y) (hb : Blank r) :
    ∃ x' r', correct T O H r x = .ok (x', r') ∧ good x' ∧ Blank r' ∧ r'.input = y ∧ r'.dy0 = D ∧ r'.dyh = D ∧ (∀ v, r'.dg v = 0) ∧
      r'.num = y.length := by
  obtain ⟨d, e1, hD, g1⟩ := L.deriv x hx
  have hc : ∀ r1 : GR, r1 = ({ r with input := y } : GR).checkSize y.length → r1.input = y ∧ r1.num = y.length ∧ Blank r1 := by
    intro r1 e
    rw [e]
    unfold GR.checkSize
    by_cases hn : r.num = y.length
    · rw [if_neg (not_not.2 hn)]; exact ⟨rfl, hn, hb⟩
    · rw [if_pos hn]; exact ⟨rfl, rfl, blank_new⟩
  obtain ⟨c1, c2, c3⟩ := hc _ rfl
  set r1 : GR := { ({ r with input := y } : GR).checkSize y.length with dy0 := D } with hr1
  -- the first stage sets dyh and dg
  have hst : r1.stageState T H 0 = along y D (T.h 0 * H) := by
    unfold GR.stageState along
    rw [show r1.input = y from c1]
    refine List.map_congr_left fun i _ => ?_
    rw [horner_eq, sum_eq_zero fun j _ => by rw [show r1.b j i = 0 from (c3 j i).1, zero_mul, zero_div], show r1.dy0 i = D i from rfl]; ring
  obtain ⟨x1, e2, g2⟩ := L.read d.2 (T.h 0 * H) g1
  obtain ⟨d2, e3, hD2, g3⟩ := L.deriv x1 g2
  obtain ⟨x2, e4, g4⟩ := L.read d2.2 0 g3
  rw [along_zero] at e4
  obtain ⟨b1, b2⟩ := blank_update T { r1 with dyh := GR.toArr d2.1 } 0 c3 (by rw [hD2])
  obtain ⟨x', r', e5, k1, k2, k3, k4, k5, k6, k7⟩ :=
    sweep_straight (T := T) L H 6 1 (GR.updateB T { r1 with dyh := GR.toArr d2.1 } 0) x2 g4 b1 c1 rfl hD2 b2
  refine ⟨x', r', ?_, k1, k2, k3, k4, k5, k6, k7.trans c2⟩
  unfold correct
  rw [hw, e1]
  show sweep T O H 7 0 { ({ r with input := y } : GR).checkSize y.length with dy0 := GR.toArr d.1 } d.2 = _
  rw [hD]
  unfold sweep
  show (do let s ← O.read d.2 (r1.stageState T H 0)
           let d ← O.deriv s
           let r := GR.updateB T { r1 with dyh := GR.toArr d.1 } 0
           let s ← O.read d.2 r.input
           sweep T O H 6 1 r s) = _
  rw [hst, e2]
  show (do let d ← O.deriv x1
           let r := GR.updateB T { r1 with dyh := GR.toArr d.1 } 0
           let s ← O.read d.2 r.input
           sweep T O H 6 1 r s) = _
  rw [e3]
  show (do let s ← O.read d2.2 (GR.updateB T { r1 with dyh := GR.toArr d2.1 } 0).input
           sweep T O H 6 1 (GR.updateB T { r1 with dyh := GR.toArr d2.1 } 0) s) = _
  rw [show (GR.updateB T { r1 with dyh := GR.toArr d2.1 } 0).input = y from c1, e4]
  exact e5

/-- closed form of the two maxima -/
theorem maxRatio2_fin (n : Nat) (r : ℝ) (scale diff : Arr ℝ) : ∃ a b : ℝ, 0 ≤ a ∧ 0 ≤ b ∧
    (∀ i, i < n → |diff i| ≤ a ∧ |scale i| * r ≤ b) ∧ (a ≠ 0 → ∃ i, i < n ∧ a = |diff i|) ∧ (b ≠ 0 → ∃ i, i < n ∧ b = |scale i| * r) ∧
    maxRatio2 (fin 0) (fin r) n (fun i => fin (scale i)) (fun i => fin (diff i)) = div (fin a) (fin b) := by
  have key : ∀ m : Nat, ∃ a b : ℝ, 0 ≤ a ∧ 0 ≤ b ∧ (∀ i, i < m → |diff i| ≤ a ∧ |scale i| * r ≤ b) ∧
      (a ≠ 0 → ∃ i, i < m ∧ a = |diff i|) ∧ (b ≠ 0 → ∃ i, i < m ∧ b = |scale i| * r) ∧
      forLoop 0 m (fun i (m : Fl × Fl) => (stdMax m.1 (abs (fin (diff i))), stdMax m.2 (add (fin 0) (mul (abs (fin (scale i))) (fin r)))))
        (fin 0, fin 0) = (fin a, fin b) := by
    intro m
    induction m with
    | zero => exact ⟨0, 0, le_rfl, le_rfl, fun i hi => by omega, fun h => absurd rfl h, fun h => absurd rfl h, by rw [forLoop_self _ _ le_rfl]⟩
    | succ m ih =>
      obtain ⟨a, b, ha, hb, hle, h1, h2, e⟩ := ih
      rw [forLoop_succ _ _ (Nat.zero_le _), e]
      refine ⟨max a |diff m|, max b (|scale m| * r), le_max_of_le_left ha, le_max_of_le_left hb, ?_, ?_, ?_, ?_⟩
      · intro i hi
        rcases Nat.lt_succ_iff_lt_or_eq.1 hi with h | rfl
        · exact ⟨le_max_of_le_left (hle i h).1, le_max_of_le_left (hle i h).2⟩
        · exact ⟨le_max_right _ _, le_max_right _ _⟩
      · intro h
        rcases le_total a |diff m| with hl | hl
        · exact ⟨m, by omega, max_eq_right hl⟩
        · rw [max_eq_left hl] at h ⊢
          obtain ⟨i, hi, e⟩ := h1 h; exact ⟨i, by omega, e⟩
      · intro h
        rcases le_total b (|scale m| * r) with hl | hl
        · exact ⟨m, by omega, max_eq_right hl⟩
        · rw [max_eq_left hl] at h ⊢
          obtain ⟨i, hi, e⟩ := h2 h; exact ⟨i, by omega, e⟩
      · show (stdMax (fin a) (fin |diff m|), stdMax (fin b) (fin (0 + |scale m| * r))) = _
        rw [stdMax_fin, stdMax_fin, zero_add]
  obtain ⟨a, b, ha, hb, hle, h1, h2, e⟩ := key n
  refine ⟨a, b, ha, hb, hle, h1, h2, ?_⟩
  unfold maxRatio2
  dsimp only
  rw [e]

/-- a step along a straight line is accepted after one correction -/
theorem iterate_straight {T : Tab} {O : RSys S} {y : List ℝ} {D : Nat → ℝ} {good : S → Prop} (L : Straight O y D good) (big H : ℝ) (it : IAS)
    (x : S) (hx : good x) (hw : O.write x = y) (hb : Blank it.gr) (hD : ∃ i, i < y.length ∧ D i ≠ 0) (fuel : Nat) :
    ∃ x1 x' it' h', good x1 ∧ O.read x1 (along y D H) = .ok x' ∧ good x' ∧
      Radau.iterate T O big (fuel + 1) 0 H it x = .ok (x', it', h') := by
  obtain ⟨x1, r, e1, g1, b1, i1, d1, d2, dg, hn⟩ := correct_straight (T := T) L H it.gr x hx hw hb
  obtain ⟨i0, hi0, hne⟩ := hD
  have hpc : pcError r = fin 0 := by
    obtain ⟨a, b, ha, hb, hle, h1, h2, e⟩ := maxRatio2_fin r.num (1 / 10 ^ 16) r.dyh r.dg
    unfold pcError
    rw [e]
    have ha0 : a = 0 := by
      by_contra h
      obtain ⟨i, _, e⟩ := h1 h
      rw [dg, abs_zero] at e; exact h e
    have hb0 : b ≠ 0 := by
      have h3 := (hle i0 (by rw [hn]; exact hi0)).2
      rw [d2] at h3
      have h4 : 0 < |D i0| * (1 / 10 ^ 16) := by positivity
      exact (lt_of_lt_of_le h4 h3).ne'
    rw [div_fin _ _ hb0, ha0, zero_div]
  obtain ⟨a, b, ha, hb', hse⟩ := stepError_fin r.num (O.mask H x1) r.dyh (r.b 6)
  have hb6 : r.b 6 = fun _ => 0 := funext fun v => (b1 6 v).1
  have hse : stepError r.num (O.mask H x1) (fun i => fin (r.dyh i)) (fun i => fin (r.b 6 i)) = fin 0 := by
    rw [hb6]
    unfold stepError
    dsimp only
    have key : ∀ m : Nat, ∃ b : ℝ, forLoop 0 m (fun i (m : Fl × Fl) =>
        if O.mask H x1 i then m else (stdMax m.1 (abs (fin 0)), stdMax m.2 (abs (fin (r.dyh i))))) (fin 0, fin 0) = (fin 0, fin b) := by
      intro m
      induction m with
      | zero => exact ⟨0, by rw [forLoop_self _ _ le_rfl]⟩
      | succ m ih =>
        obtain ⟨b, e⟩ := ih
        rw [forLoop_succ _ _ (Nat.zero_le _), e]
        by_cases hm : O.mask H x1 m
        · rw [if_pos hm]; exact ⟨b, rfl⟩
        · rw [if_neg hm]
          refine ⟨max b |r.dyh m|, ?_⟩
          show (stdMax (fin 0) (fin |0|), stdMax (fin b) (fin |r.dyh m|)) = _
          rw [stdMax_fin, stdMax_fin, abs_zero, max_self]
    obtain ⟨b, e⟩ := key r.num
    rw [e]
    show (if decide (b = 0) = true then fin 0 else div (fin 0) (fin (b * (5 / 10 ^ 10)))) = _
    by_cases h0 : b = 0
    · rw [if_pos (decide_eq_true h0)]
    · rw [if_neg (by simpa using h0), div_fin _ _ (mul_ne_zero h0 (by norm_num)), zero_div]
  have hfin : r.finalState H = along y D H := by
    have h1 := finalState_eq r H
    refine List.ext_getElem (by rw [h1.1, i1]; unfold along; simp) fun i p1 p2 => ?_
    have p3 : i < r.input.length := by rw [← h1.1]; exact p1
    have := h1.2 i p3
    rw [List.getD_eq_getElem _ _ p1] at this
    rw [this, slope_integral, sum_eq_zero fun j _ => by rw [(b1 j i).1, zero_mul, zero_div]]
    rw [show (along y D H)[i] = y.getD i 0 + H * D i by simp [along], i1, d1]; ring
  obtain ⟨x2, e2, g2⟩ := L.read x1 H g1
  have hnext : ctrl.next 7 0 = .ok ((50 : ℝ) ^ (1 / 7 : ℝ)) := by
    unfold PID.next
    rw [if_pos (by norm_num), if_neg (by norm_num), ctrl_values.2.2.2.2.1]
  refine ⟨x1, x2, { gr := r.predict T (ctrl.limiter0 ((50 : ℝ) ^ (1 / 7 : ℝ))), last := big, warm := true },
    H * ctrl.limiter0 ((50 : ℝ) ^ (1 / 7 : ℝ)), g1, e2, g2, ?_⟩
  unfold Radau.iterate
  rw [if_pos (by norm_num), e1]
  show (do let e ← toRes (pcError r)
           if e < 1 ∨ e ≥ it.last then do
             let se ← toRes (stepError r.num (O.mask H x1) (fun i => fin (r.dyh i)) (fun i => fin (r.b 6 i)))
             let q ← ctrl.next 7 se
             if q > ctrl.limMin 0 then do
               let s ← evaluate O H r x1
               let q := ctrl.limiter0 q
               .ok (s, ({ gr := r.predict T q, last := big, warm := true } : IAS), H * q)
             else
               iterate T O big fuel 1 (H * q) { gr := if it.warm then r.predict T q else r, last := big, warm := it.warm } x1
           else iterate T O big fuel (0 + 1) H { gr := r, last := e, warm := it.warm } x1) = _
  rw [hpc, hse]
  show (if (0 : ℝ) < 1 ∨ (0 : ℝ) ≥ it.last then _ else _) = _
  rw [if_pos (Or.inl zero_lt_one)]
  show (do let q ← ctrl.next 7 0
           if q > ctrl.limMin 0 then do
             let s ← evaluate O H r x1
             let q := ctrl.limiter0 q
             .ok (s, ({ gr := r.predict T q, last := big, warm := true } : IAS), H * q)
           else
             iterate T O big fuel 1 (H * q) { gr := if it.warm then r.predict T q else r, last := big, warm := it.warm } x1) = _
  rw [hnext]
  show (if (50 : ℝ) ^ (1 / 7 : ℝ) > ctrl.limMin 0 then _ else _) = _
  rw [if_pos (by
    rw [ctrl_values.2.2.1]
    have : (1 : ℝ) ≤ (50 : ℝ) ^ (1 / 7 : ℝ) := Real.one_le_rpow (by norm_num) (by norm_num)
    linarith)]
  unfold evaluate
  rw [hfin, e2]
  rfl

/-! ### free flight -/

/-- no forces -/
def noForces : Interactions := ⟨⟨false, fun _ a => a⟩, []⟩

theorem noForces_acc (P : Particles) : noForces.acc P = fun _ => 0 := by
  unfold Interactions.acc
  simp [noForces, evalAcc, setZero_zero]

/-- as many particles, the same velocities -/
def Cruise (s x : Simple) : Prop := x.P.num = s.P.num ∧ ∀ k, k < s.P.num → x.P.vel k = s.P.vel k

/-- the state on the line is what a moved system writes -/
theorem free_line (s : Simple) (c : ℝ) : along (s.write noForces) (GR.toArr (s.derivative noForces)) c =
    ({ s with time := s.time + c, P := { s.P with pos := fun k => s.P.pos k + c • s.P.vel k } } : Simple).write noForces := by
  have hd : noForces.velDep = false := rfl
  refine List.ext_getElem (by unfold along; simp [C13_simple_size, Simple.variableNumber]) fun i p1 p2 => ?_
  have p3 : i < (s.write noForces).length := by unfold along at p1; simpa using p1
  rw [show (along (s.write noForces) (GR.toArr (s.derivative noForces)) c)[i] =
    (s.write noForces).getD i 0 + c * (s.derivative noForces).getD i 0 by simp [along, GR.toArr],
    ← List.getD_eq_getElem _ 0 p2, Simple.write_getD, Simple.write_getD, Simple.derivative_getD]
  rw [C13_simple_size] at p3
  unfold Simple.variableNumber at p3
  rw [hd] at p3 ⊢
  unfold Flat.val Simple.slopeOf Simple.flat
  simp only [noForces_acc]
  have hz : ∀ c, comp (0 : V3 ℝ) c = 0 := fun c => by unfold comp; split_ifs <;> rfl
  split_ifs with h1 h2 h3 h4
  · ring
  · rw [comp_add, comp_smul]; ring
  · rw [hz]; ring
  all_goals simp at p3; omega

theorem free_straight (s : Simple) :
    Straight (radauSimple noForces) (s.write noForces) (GR.toArr (s.derivative noForces)) (Cruise s) where
  deriv x hx := by
    refine ⟨(x.derivative noForces, x), rfl, ?_, hx⟩
    show GR.toArr (x.derivative noForces) = _
    congr 1
    unfold Simple.derivative
    simp only [addCoordsTo_eq, noForces_acc, hx.1, coords_congr _ _ _ hx.2]
  read x c hx := by
    rw [free_line]
    obtain ⟨x', e, _, h1, h2, _⟩ := C13_simple_read_write noForces x
      ({ s with time := s.time + c, P := { s.P with pos := fun k => s.P.pos k + c • s.P.vel k } } : Simple) hx.1
    exact ⟨x', e, h2.trans hx.1, fun k hk => (h1 k hk).2.1⟩

end SpaceHub.Radau

namespace SpaceHub.Radau
open SpaceHub SpaceHub.Sys SpaceHub.Props SpaceHub.BS V3 Force Core Finset Ctl Fl

/-! ### a derivative that jumps at the start -/

/-- `y' = 1` at the time `t0` and `y' = 2` at all other times; the variables are the time and `y` -/
noncomputable def jumpSys (t0 : ℝ) : RSys (ℝ × ℝ) where
  write := fun s => [s.1, s.2]
  read := fun _ l => .ok (l.getD 0 0, l.getD 1 0)
  deriv := fun s => .ok ([1, if s.1 = t0 then 1 else 2], s)
  mask := fun _ _ i => i == 0

/-- the coefficients `g` of a unit jump, in ℚ -/
def jumpGq : Nat → ℚ
  | 0 => tri rsList 0 0
  | 1 => tri rsList 1 0 - jumpGq 0 * tri rsList 1 1
  | 2 => tri rsList 2 0 - (jumpGq 0 * tri rsList 2 1 + jumpGq 1 * tri rsList 2 2)
  | 3 => tri rsList 3 0 - (jumpGq 0 * tri rsList 3 1 + jumpGq 1 * tri rsList 3 2 + jumpGq 2 * tri rsList 3 3)
  | 4 => tri rsList 4 0 - (jumpGq 0 * tri rsList 4 1 + jumpGq 1 * tri rsList 4 2 + jumpGq 2 * tri rsList 4 3 + jumpGq 3 * tri rsList 4 4)
  | 5 => tri rsList 5 0 - (jumpGq 0 * tri rsList 5 1 + jumpGq 1 * tri rsList 5 2 + jumpGq 2 * tri rsList 5 3 + jumpGq 3 * tri rsList 5 4 +
      jumpGq 4 * tri rsList 5 5)
  | 6 => tri rsList 6 0 - (jumpGq 0 * tri rsList 6 1 + jumpGq 1 * tri rsList 6 2 + jumpGq 2 * tri rsList 6 3 + jumpGq 3 * tri rsList 6 4 +
      jumpGq 4 * tri rsList 6 5 + jumpGq 5 * tri rsList 6 6)
  | _ => 0

noncomputable def jumpG (n : Nat) : ℝ := ((jumpGq n : ℚ) : ℝ)

theorem jumpG_rec (n : Nat) (hn : n < 7) : code.rs n 0 - ∑ j ∈ range n, jumpG j * code.rs n (j + 1) = jumpG n := by
  unfold jumpG code
  dsimp only
  have : ∀ n, n < 7 → jumpGq n = tri rsList n 0 - ∑ j ∈ range n, jumpGq j * tri rsList n (j + 1) := by
    intro n hn
    interval_cases n <;> simp [jumpGq, sum_range_succ]
  rw [this n hn]
  push_cast
  rfl

theorem jumpG_six : 100 ≤ |jumpG 6| := by
  have : (100 : ℚ) ≤ |jumpGq 6| := by decide +kernel
  unfold jumpG
  exact_mod_cast this

theorem code_h (n : Nat) (hn : n < 7) : code.h n ≠ 0 := by
  have : ∀ n, n < 7 → hList.getD n 0 ≠ 0 := by decide +kernel
  unfold code
  dsimp only
  exact_mod_cast this n hn

/-- state of the integrator before `stage`: time column empty, `g` of the other column replaced below `stage` -/
structure Jump (t0 y0 : ℝ) (γ : Nat → ℝ) (stage : Nat) (r : GR) : Prop where
  input : r.input = [t0, y0]
  dy0 : r.dy0 0 = 1 ∧ r.dy0 1 = 1
  col0 : ∀ j, r.b j 0 = 0 ∧ r.g j 0 = 0
  done : ∀ j, j < stage → r.g j 1 = jumpG j
  todo : ∀ j, stage ≤ j → r.g j 1 = γ j

theorem jump_sweep (t0 y0 H : ℝ) (hH : H ≠ 0) (γ : Nat → ℝ) (m : Nat) : ∀ (stage : Nat) (r : GR) (s : ℝ × ℝ), stage + m = 7 → 0 < m →
    Jump t0 y0 γ stage r → ∃ r', sweep code (jumpSys t0) H m stage r s = .ok ((t0, y0), r') ∧ Jump t0 y0 γ 7 r' ∧ r'.num = r.num ∧
      r'.dyh 0 = 1 ∧ r'.dyh 1 = 2 ∧ r'.dg 0 = 0 ∧ r'.dg 1 = jumpG 6 - γ 6 ∧ r'.b 6 1 = r.b 6 1 + (jumpG 6 - γ 6) := by
  induction m with
  | zero => intro _ _ _ _ h; omega
  | succ m ih =>
    intro stage r s hm _ J
    -- the state of the stage
    have hst : r.stageState code H stage = [t0 + code.h stage * H, y0 + GR.horner (fun j => r.b j 1) (r.dy0 1) (code.h stage) * (code.h stage * H)] := by
      unfold GR.stageState
      rw [J.input]
      show [t0 + GR.horner (fun j => r.b j 0) (r.dy0 0) (code.h stage) * (code.h stage * H), _] = _
      rw [horner_eq (fun j => r.b j 0), sum_eq_zero fun j _ => by rw [(J.col0 j).1, zero_mul, zero_div], J.dy0.1]
      congr 1; ring
    have hne : t0 + code.h stage * H ≠ t0 := by
      intro h
      have : code.h stage * H = 0 := by linarith
      exact (mul_ne_zero (code_h stage (by omega)) hH) this
    set Y := y0 + GR.horner (fun j => r.b j 1) (r.dy0 1) (code.h stage) * (code.h stage * H) with hY
    set r1 : GR := { r with dyh := GR.toArr [1, 2] } with hr1
    set r2 := GR.updateB code r1 stage with hr2
    have hng0 : newG code r1 stage 0 = 0 := by
      unfold newG
      rw [show r1.dyh 0 = 1 from rfl, show r1.dy0 0 = 1 from J.dy0.1, sub_self, zero_mul,
        sum_eq_zero fun j _ => by rw [show r1.g j 0 = 0 from (J.col0 j).2, zero_mul], sub_zero]
    have hng1 : newG code r1 stage 1 = jumpG stage := by
      unfold newG
      rw [show r1.dyh 1 = 2 from rfl, show r1.dy0 1 = 1 from J.dy0.2, ← jumpG_rec stage (by omega)]
      rw [sum_congr rfl fun j hj => by rw [show r1.g j 1 = jumpG j from J.done j (mem_range.1 hj)]]
      ring
    obtain ⟨u1, u2, u3, u4, u5⟩ := updateB_eq code r1 stage 0
    obtain ⟨w1, w2, w3, w4, w5⟩ := updateB_eq code r1 stage 1
    have hg0 : r1.g stage 0 = 0 := (J.col0 stage).2
    have hg1 : r1.g stage 1 = γ stage := J.todo stage le_rfl
    have J2 : Jump t0 y0 γ (stage + 1) r2 := by
      refine ⟨J.input, J.dy0, fun j => ⟨?_, ?_⟩, fun j hj => ?_, fun j hj => ?_⟩
      · rcases Nat.lt_or_ge stage j with hlt | hge
        · rw [hr2, u5 j hlt]; exact (J.col0 j).1
        · rw [hr2, u4 j hge, hng0, hg0, show r1.b j 0 = 0 from (J.col0 j).1]; ring
      · by_cases hj : j = stage
        · rw [hj, hr2, u1, hng0]
        · rw [hr2, u2 j hj]; exact (J.col0 j).2
      · by_cases hjs : j = stage
        · rw [hjs, hr2, w1, hng1]
        · rw [hr2, w2 j hjs]; exact J.done j (by omega)
      · rw [hr2, w2 j (by omega)]; exact J.todo j (by omega)
    have hstep : sweep code (jumpSys t0) H (m + 1) stage r s = sweep code (jumpSys t0) H m (stage + 1) r2 (t0, y0) := by
      rw [sweep, hst]
      show (do let d ← (jumpSys t0).deriv (t0 + code.h stage * H, Y)
               let r := GR.updateB code { r with dyh := GR.toArr d.1 } stage
               let s ← (jumpSys t0).read d.2 r.input
               sweep code (jumpSys t0) H m (stage + 1) r s) = _
      show (do let s ← (jumpSys t0).read (t0 + code.h stage * H, Y)
                 (GR.updateB code { r with dyh := GR.toArr [1, if t0 + code.h stage * H = t0 then 1 else 2] } stage).input
               sweep code (jumpSys t0) H m (stage + 1)
                 (GR.updateB code { r with dyh := GR.toArr [1, if t0 + code.h stage * H = t0 then 1 else 2] } stage) s) = _
      rw [if_neg hne]
      show sweep code (jumpSys t0) H m (stage + 1) r2 (r2.input.getD 0 0, r2.input.getD 1 0) = _
      rw [J2.input]; rfl
    rw [hstep]
    rcases Nat.eq_zero_or_pos m with rfl | hpos
    · have h6 : stage = 6 := by omega
      subst h6
      refine ⟨r2, rfl, J2, rfl, rfl, rfl, ?_, ?_, ?_⟩
      · rw [hr2, u3, hng0, hg0, sub_zero]
      · rw [hr2, w3, hng1, hg1]
      · rw [hr2, w4 6 le_rfl, hng1, hg1, show code.g2b 6 6 = 1 by unfold code; dsimp only; exact_mod_cast (by decide +kernel : tri g2bList 6 6 = 1), mul_one]
    · obtain ⟨r', e, k1, k2, k3, k4, k5, k6, k7⟩ := ih (stage + 1) r2 (t0, y0) (by omega) hpos J2
      refine ⟨r', e, k1, k2, k3, k4, k5, k6, ?_⟩
      rw [k7, hr2, w5 6 (by omega)]

theorem jump_correct (t0 y0 H : ℝ) (hH : H ≠ 0) (γ : Nat → ℝ) (r : GR) (hn : r.num = 2) (h0 : ∀ j, r.b j 0 = 0 ∧ r.g j 0 = 0)
    (h1 : ∀ j, r.g j 1 = γ j) :
    ∃ r', correct code (jumpSys t0) H r (t0, y0) = .ok ((t0, y0), r') ∧ r'.num = 2 ∧ (∀ j, r'.b j 0 = 0 ∧ r'.g j 0 = 0) ∧
      (∀ j, j < 7 → r'.g j 1 = jumpG j) ∧ (∀ j, 7 ≤ j → r'.g j 1 = γ j) ∧
      r'.dyh 0 = 1 ∧ r'.dyh 1 = 2 ∧ r'.dg 0 = 0 ∧ r'.dg 1 = jumpG 6 - γ 6 ∧ r'.b 6 1 = r.b 6 1 + (jumpG 6 - γ 6) := by
  set r1 : GR := { r with input := [t0, y0], dy0 := GR.toArr [1, 1] } with hr1
  obtain ⟨r', e, J, k2, k3, k4, k5, k6, k7⟩ := jump_sweep t0 y0 H hH γ 7 0 r1 (t0, y0) rfl (by norm_num)
    ⟨rfl, ⟨rfl, rfl⟩, h0, fun j hj => by omega, fun j _ => h1 j⟩
  refine ⟨r', ?_, k2.trans hn, J.col0, J.done, J.todo, k3, k4, k5, k6, k7⟩
  have hd : (jumpSys t0).deriv (t0, y0) = .ok ([1, 1], (t0, y0)) := by
    show Res.ok ([1, if t0 = t0 then 1 else 2], (t0, y0)) = _
    rw [if_pos rfl]
  have hl : ((jumpSys t0).write (t0, y0)).length = 2 := rfl
  have hs : ({ r with input := (jumpSys t0).write (t0, y0) } : GR).checkSize 2 = { r with input := [t0, y0] } := by
    unfold GR.checkSize; rw [if_neg (not_not.2 hn)]; rfl
  unfold correct
  rw [hd, Res.ok_bind]
  dsimp only
  rw [hl, hs]
  exact e

theorem jump_reject {r : GR} (hn : r.num = 2) (h1 : r.dyh 1 = 2) (h6 : r.b 6 1 = jumpG 6) :
    ∃ q, 0 < q ∧ ¬ q > ctrl.limMin 0 ∧
      (toRes (stepError r.num (fun i => i == 0) (fun i => fin (r.dyh i)) (fun i => fin (r.b 6 i))) >>= fun se => ctrl.next 7 se) = .ok q := by
  have hse : stepError r.num (fun i => i == 0) (fun i => fin (r.dyh i)) (fun i => fin (r.b 6 i)) = fin (|jumpG 6| / (2 * (5 / 10 ^ 10))) := by
    unfold stepError
    dsimp only
    rw [hn, forLoop_succ _ _ (by norm_num), forLoop_succ _ _ (by norm_num), forLoop_self _ _ le_rfl]
    rw [if_pos (show ((0 : Nat) == 0) = true by rfl), if_neg (show ¬ ((1 : Nat) == 0) = true by decide)]
    show (if isZero (stdMax (fin 0) (fin |r.dyh 1|)) = true then _ else
      div (stdMax (fin 0) (fin |r.b 6 1|)) (mul (stdMax (fin 0) (fin |r.dyh 1|)) (fin (5 / 10 ^ 10)))) = _
    rw [stdMax_fin, stdMax_fin, h1, h6, max_eq_right (abs_nonneg _), max_eq_right (abs_nonneg _), abs_of_pos (by norm_num : (0 : ℝ) < 2)]
    show (if decide ((2 : ℝ) = 0) = true then _ else div (fin |jumpG 6|) (fin (2 * (5 / 10 ^ 10)))) = _
    rw [if_neg (by norm_num), div_fin _ _ (by norm_num)]
  set se := |jumpG 6| / (2 * (5 / 10 ^ 10)) with hsedef
  have hbig : (17 / 5 : ℝ) ^ 7 ≤ se := by
    have := jumpG_six
    rw [hsedef, le_div_iff₀ (by norm_num)]
    refine le_trans ?_ this
    norm_num
  have hpos : 0 < se := lt_of_lt_of_le (by positivity) hbig
  obtain ⟨c1, c2, c3, _, _, c6⟩ := ctrl_values
  refine ⟨17 / 20 * (1 / se) ^ (1 / 7 : ℝ), by positivity, ?_, ?_⟩
  · rw [c3]
    have h2 : (1 / se) ^ (1 / 7 : ℝ) ≤ ((5 / 17 : ℝ) ^ 7) ^ (1 / 7 : ℝ) := by
      refine Real.rpow_le_rpow (by positivity) ?_ (by norm_num)
      rw [one_div]
      calc se⁻¹ ≤ ((17 / 5 : ℝ) ^ 7)⁻¹ := inv_anti₀ (by positivity) hbig
        _ = (5 / 17 : ℝ) ^ 7 := by norm_num
    have h3 : ((5 / 17 : ℝ) ^ 7) ^ (1 / 7 : ℝ) = 5 / 17 := by
      have := Real.pow_rpow_inv_natCast (show (0 : ℝ) ≤ 5 / 17 by norm_num) (show (7 : ℕ) ≠ 0 by norm_num)
      rw [one_div]; exact_mod_cast this
    rw [h3] at h2
    linarith
  · rw [hse]
    show ctrl.next 7 se = _
    unfold PID.next
    rw [if_pos (by norm_num), if_pos hpos.ne']
    unfold PID.pow
    rw [if_neg (by rw [c2]; exact not_lt.2 (by positivity)), c2, c6, c1]
    norm_num

/-- tables met while stepping from the jump: before or after the first correction -/
def JumpTab (r : GR) : Prop := r.num = 2 ∧ (∀ j, r.b j 0 = 0 ∧ r.g j 0 = 0) ∧ (∀ j, j < 7 → r.g j 1 = jumpG j) ∧ r.b 6 1 = jumpG 6

theorem jump_iterate (t0 y0 big : ℝ) (fuel : Nat) : ∀ (k : Nat) (h : ℝ) (it : IAS), k ≤ 1 → h ≠ 0 → it.warm = false → JumpTab it.gr →
    Radau.iterate code (jumpSys t0) big fuel k h it (t0, y0) = .diverge := by
  induction fuel with
  | zero => intro k h it _ _ _ _; rfl
  | succ fuel ih =>
    intro k h it hk hh hw ⟨j1, j2, j3, j4⟩
    obtain ⟨r', e, k1, k2, k3, k4, k5, k6, k7, k8, k9⟩ := jump_correct t0 y0 h hh (fun j => it.gr.g j 1) it.gr j1 j2 (fun _ => rfl)
    have h6 : r'.b 6 1 = jumpG 6 := by rw [k9, j3 6 (by norm_num), j4]; ring
    have hpc : pcError r' = fin 0 := by
      obtain ⟨a, b, ha, hb, hle, h1, h2, e⟩ := maxRatio2_fin r'.num (1 / 10 ^ 16) r'.dyh r'.dg
      unfold pcError
      rw [e]
      have ha0 : a = 0 := by
        by_contra h
        obtain ⟨i, hi, e⟩ := h1 h
        rw [k1] at hi
        have : r'.dg i = 0 := by
          interval_cases i
          · exact k7
          · rw [k8, j3 6 (by norm_num), sub_self]
        rw [this, abs_zero] at e; exact h e
      have hb0 : b ≠ 0 := by
        have h3 := (hle 1 (by rw [k1]; norm_num)).2
        rw [k6] at h3
        exact (lt_of_lt_of_le (by positivity) h3).ne'
      rw [div_fin _ _ hb0, ha0, zero_div]
    obtain ⟨q, hq, hrej, eq⟩ := jump_reject k1 k6 h6
    unfold Radau.iterate
    rw [if_pos (by omega), e]
    show (do let e ← toRes (pcError r')
             if e < 1 ∨ e ≥ it.last then do
               let se ← toRes (stepError r'.num (fun i => i == 0) (fun i => fin (r'.dyh i)) (fun i => fin (r'.b 6 i)))
               let q ← ctrl.next 7 se
               if q > ctrl.limMin 0 then do
                 let s ← evaluate (jumpSys t0) h r' (t0, y0)
                 let q := ctrl.limiter0 q
                 .ok (s, ({ gr := r'.predict code q, last := big, warm := true } : IAS), h * q)
               else
                 Radau.iterate code (jumpSys t0) big fuel 1 (h * q) { gr := if it.warm then r'.predict code q else r', last := big, warm := it.warm } (t0, y0)
             else Radau.iterate code (jumpSys t0) big fuel (k + 1) h { gr := r', last := e, warm := it.warm } (t0, y0)) = _
    rw [hpc]
    show (if (0 : ℝ) < 1 ∨ (0 : ℝ) ≥ it.last then _ else _) = _
    rw [if_pos (Or.inl zero_lt_one)]
    cases hs : toRes (stepError r'.num (fun i => i == 0) (fun i => fin (r'.dyh i)) (fun i => fin (r'.b 6 i))) with
    | ok se =>
      rw [hs] at eq
      have eq : ctrl.next 7 se = .ok q := eq
      show (do let q ← ctrl.next 7 se
               if q > ctrl.limMin 0 then do
                 let s ← evaluate (jumpSys t0) h r' (t0, y0)
                 let q := ctrl.limiter0 q
                 .ok (s, ({ gr := r'.predict code q, last := big, warm := true } : IAS), h * q)
               else
                 Radau.iterate code (jumpSys t0) big fuel 1 (h * q) { gr := if it.warm then r'.predict code q else r', last := big, warm := it.warm } (t0, y0)) = _
      rw [eq]
      show (if q > ctrl.limMin 0 then _ else _) = _
      rw [if_neg hrej]
      refine ih 1 (h * q) _ le_rfl (mul_ne_zero hh hq.ne') hw ?_
      rw [hw]
      exact ⟨k1, k2, k3, h6⟩
    | abort => rw [hs] at eq; cases eq
    | ub => rw [hs] at eq; cases eq
    | nan => rw [hs] at eq; cases eq
    | diverge => rw [hs] at eq; cases eq

end SpaceHub.Radau

namespace SpaceHub.Props
open SpaceHub SpaceHub.Sys SpaceHub.BS SpaceHub.Radau SpaceHub.Spec V3 Force Core Finset Ctl Fl

/-- C62 fails in exact arithmetic: with a derivative that jumps at the start of the step, a new iterator rejects one trial step after
the other for ever, whatever step is asked for (`fuel` is the number of passes allowed). -/
theorem C62_never_ends (t0 y0 big H : ℝ) (hH : H ≠ 0) (fuel : Nat) :
    Radau.iterate code (jumpSys t0) big fuel 0 H (IAS.new big) (t0, y0) = .diverge := by
  cases fuel with
  | zero => rfl
  | succ fuel =>
    set r0 : GR := { GR.new with num := 2 } with hr0
    have hc : correct code (jumpSys t0) H GR.new (t0, y0) = correct code (jumpSys t0) H r0 (t0, y0) := by
      have hl : ((jumpSys t0).write (t0, y0)).length = 2 := rfl
      have h1 : ({ GR.new with input := (jumpSys t0).write (t0, y0) } : GR).checkSize 2 =
          ({ r0 with input := (jumpSys t0).write (t0, y0) } : GR).checkSize 2 := by
        unfold GR.checkSize
        simp [hr0, GR.new]
      unfold correct
      dsimp only
      rw [hl, h1]
    obtain ⟨r', e, k1, k2, k3, k4, k5, k6, k7, k8, k9⟩ := jump_correct t0 y0 H hH (fun _ => 0) r0 rfl (fun _ => ⟨rfl, rfl⟩) (fun _ => rfl)
    have h6 : r'.b 6 1 = jumpG 6 := by rw [k9, sub_zero, show r0.b 6 1 = 0 from rfl, zero_add]
    have hpc : ∃ E, pcError r' = fin E := by
      obtain ⟨a, b, ha, hb, hle, h1, h2, e⟩ := maxRatio2_fin r'.num (1 / 10 ^ 16) r'.dyh r'.dg
      unfold pcError
      rw [e]
      have hb0 : b ≠ 0 := by
        have h3 := (hle 1 (by rw [k1]; norm_num)).2
        rw [k6] at h3
        exact (lt_of_lt_of_le (by positivity) h3).ne'
      exact ⟨_, div_fin _ _ hb0⟩
    obtain ⟨E, hE⟩ := hpc
    obtain ⟨q, hq, hrej, eq⟩ := jump_reject k1 k6 h6
    unfold Radau.iterate
    rw [if_pos (by norm_num), show (IAS.new big).gr = GR.new from rfl, hc, e, Res.ok_bind]
    dsimp only
    rw [hE, show toRes (fin E) = .ok E from rfl, Res.ok_bind]
    by_cases hconv : E < 1 ∨ E ≥ (IAS.new big).last
    · rw [if_pos hconv, show (jumpSys t0).mask H (t0, y0) = fun i => i == 0 from rfl]
      cases hs : toRes (stepError r'.num (fun i => i == 0) (fun i => fin (r'.dyh i)) (fun i => fin (r'.b 6 i))) with
      | ok se =>
        rw [hs, Res.ok_bind] at eq
        rw [Res.ok_bind, eq, Res.ok_bind, if_neg hrej]
        exact jump_iterate t0 y0 big fuel 1 (H * q) _ le_rfl (mul_ne_zero hH hq.ne') rfl ⟨k1, k2, k3, h6⟩
      | abort => rw [hs] at eq; cases eq
      | ub => rw [hs] at eq; cases eq
      | nan => rw [hs] at eq; cases eq
      | diverge => rw [hs] at eq; cases eq
    · rw [if_neg hconv]
      exact jump_iterate t0 y0 big fuel 1 H _ le_rfl hH rfl ⟨k1, k2, k3, h6⟩

/-- A trial step of length `h` from the state of `s` whose error estimate was too large. -/
def Rejected {S : Type} (T : Tab) (O : RSys S) (h : ℝ) : Prop := ∃ (r r' : GR) (x x' : S) (se : ℝ), correct T O h r x = .ok (x', r') ∧
  toRes (stepError r'.num (O.mask h x') (fun i => fin (r'.dyh i)) (fun i => fin (r'.b 6 i))) = .ok se ∧ (17 / 5) ^ 7 ≤ se

theorem stepRatio_reject {se : ℝ} (h : 0 ≤ se) (hq : stepRatio se ≤ 1 / 4) : (17 / 5 : ℝ) ^ 7 ≤ se := by
  unfold stepRatio at hq
  by_cases hz : se = 0
  · rw [if_pos hz] at hq
    have : (1 : ℝ) ≤ (50 : ℝ) ^ (1 / 7 : ℝ) := Real.one_le_rpow (by norm_num) (by norm_num)
    linarith
  · rw [if_neg hz] at hq
    have hs : 0 < se := lt_of_le_of_ne h (Ne.symm hz)
    by_contra hc
    have hc := not_le.1 hc
    have h1 : (5 / 17 : ℝ) ^ 7 < 1 / se := by
      rw [one_div]
      calc (5 / 17 : ℝ) ^ 7 = ((17 / 5 : ℝ) ^ 7)⁻¹ := by norm_num
        _ < se⁻¹ := inv_strictAnti₀ hs hc
    have h2 : ((5 / 17 : ℝ) ^ 7) ^ (1 / 7 : ℝ) < (1 / se) ^ (1 / 7 : ℝ) :=
      Real.rpow_lt_rpow (by positivity) h1 (by norm_num)
    have h3 : ((5 / 17 : ℝ) ^ 7) ^ (1 / 7 : ℝ) = 5 / 17 := by
      have := Real.pow_rpow_inv_natCast (show (0 : ℝ) ≤ 5 / 17 by norm_num) (show (7 : ℕ) ≠ 0 by norm_num)
      rw [one_div]; exact_mod_cast this
    rw [h3] at h2
    linarith

theorem toRes_diverge (x : Fl) : toRes x ≠ .diverge := by cases x <;> (intro h; cases h)

theorem next_diverge (p : PID) (o : Nat) (x : ℝ) : p.next o x ≠ .diverge := by
  intro h
  unfold PID.next at h
  split_ifs at h
  unfold PID.pow at h
  split_ifs at h <;> cases h

theorem diverge_aux {S : Type} (T : Tab) (O : RSys S) (big : ℝ) (hO : ∀ x v, O.read x v ≠ .diverge)
    (hC : ∀ h r x, correct T O h r x ≠ .diverge) (fuel : Nat) : ∀ (k : Nat) (H : ℝ) (it : IAS) (s : S), k ≤ 30 →
    Radau.iterate T O big fuel k H it s = .diverge →
    ∃ (m : Nat) (h : Nat → ℝ), h 0 = H ∧ fuel + k ≤ 30 + 29 * m ∧ ∀ i, i < m → Rejected T O (h i) ∧ |h (i + 1)| ≤ |h i| / 4 := by
  induction fuel with
  | zero => intro k H it s hk _; exact ⟨0, fun _ => H, rfl, by omega, fun i hi => by omega⟩
  | succ fuel ih =>
    intro k H it s hk e
    unfold Radau.iterate at e
    by_cases hk' : k < 30
    swap
    · rw [if_neg hk'] at e; cases e
    rw [if_pos hk'] at e
    cases hc : correct T O H it.gr s with
    | abort => rw [hc] at e; cases e
    | ub => rw [hc] at e; cases e
    | nan => rw [hc] at e; cases e
    | diverge => exact absurd hc (hC _ _ _)
    | ok c =>
      rw [hc, Res.ok_bind] at e
      cases hp : toRes (pcError c.2) with
      | abort => rw [hp] at e; cases e
      | ub => rw [hp] at e; cases e
      | nan => rw [hp] at e; cases e
      | diverge => exact absurd hp (toRes_diverge _)
      | ok pe =>
        rw [hp, Res.ok_bind] at e
        by_cases hconv : pe < 1 ∨ pe ≥ it.last
        · rw [if_pos hconv] at e
          cases hs : toRes (stepError c.2.num (O.mask H c.1) (fun i => fin (c.2.dyh i)) (fun i => fin (c.2.b 6 i))) with
          | abort => rw [hs] at e; cases e
          | ub => rw [hs] at e; cases e
          | nan => rw [hs] at e; cases e
          | diverge => exact absurd hs (toRes_diverge _)
          | ok se =>
            rw [hs, Res.ok_bind] at e
            cases hq : ctrl.next 7 se with
            | abort => rw [hq] at e; cases e
            | ub => rw [hq] at e; cases e
            | nan => rw [hq] at e; cases e
            | diverge => exact absurd hq (next_diverge _ _ _)
            | ok q =>
              rw [hq, Res.ok_bind] at e
              have hse := stepError_nonneg hs
              have hqe := ctrl_next hse hq
              by_cases hacc : q > ctrl.limMin 0
              · rw [if_pos hacc] at e
                cases hv : evaluate O H c.2 c.1 with
                | diverge => exact absurd hv (hO _ _)
                | ok z => rw [hv] at e; cases e
                | abort => rw [hv] at e; cases e
                | ub => rw [hv] at e; cases e
                | nan => rw [hv] at e; cases e
              · rw [if_neg hacc] at e
                obtain ⟨m, h, h0, h1, h2⟩ := ih 1 _ _ _ (by omega) e
                rw [ctrl_values.2.2.1, hqe] at hacc
                have hacc := not_lt.1 hacc
                refine ⟨m + 1, fun i => match i with | 0 => H | i + 1 => h i, rfl, by omega, fun i hi => ?_⟩
                cases i with
                | zero =>
                  refine ⟨⟨it.gr, c.2, s, c.1, se, hc, hs, stepRatio_reject hse hacc⟩, ?_⟩
                  show |h 0| ≤ |H| / 4
                  rw [h0, hqe, abs_mul, abs_of_pos (stepRatio_pos hse)]
                  have := abs_nonneg H
                  nlinarith
                | succ i => exact h2 i (by omega)
        · rw [if_neg hconv] at e
          obtain ⟨m, h, h0, h1, h2⟩ := ih (k + 1) H _ _ (by omega) e
          exact ⟨m, h, h0, by omega, h2⟩

/-- What holds of C62 for every system whose own functions end: a call that has not ended after `fuel` passes has made at least
`(fuel - 30) / 29` trial steps, each at most a quarter as long as the one before and each with an error estimate of at least
`3.4^7`.  So a call ends unless arbitrarily short steps keep being rejected. -/
theorem C62_only_by_rejection_partial {S : Type} (T : Tab) (O : RSys S) (big : ℝ) (hO : ∀ x v, O.read x v ≠ .diverge)
    (hD : ∀ x, O.deriv x ≠ .diverge) (fuel : Nat) (H : ℝ) (it : IAS) (s : S) (e : Radau.iterate T O big fuel 0 H it s = .diverge) :
    ∃ (m : Nat) (h : Nat → ℝ), h 0 = H ∧ fuel ≤ 30 + 29 * m ∧ ∀ i, i < m → Rejected T O (h i) ∧ |h i| ≤ |H| / 4 ^ i := by
  have hsw : ∀ h m stage r x, sweep T O h m stage r x ≠ .diverge := by
    intro h m
    induction m with
    | zero => intro stage r x e; cases e
    | succ m ih =>
      intro stage r x e
      unfold sweep at e
      cases h1 : O.read x (r.stageState T h stage) with
      | diverge => exact hO _ _ h1
      | abort => rw [h1] at e; cases e
      | ub => rw [h1] at e; cases e
      | nan => rw [h1] at e; cases e
      | ok y =>
        rw [h1, Res.ok_bind] at e
        cases h2 : O.deriv y with
        | diverge => exact hD _ h2
        | abort => rw [h2] at e; cases e
        | ub => rw [h2] at e; cases e
        | nan => rw [h2] at e; cases e
        | ok d =>
          rw [h2, Res.ok_bind] at e
          dsimp only at e
          cases h3 : O.read d.2 (GR.updateB T { r with dyh := GR.toArr d.1 } stage).input with
          | diverge => exact hO _ _ h3
          | abort => rw [h3] at e; cases e
          | ub => rw [h3] at e; cases e
          | nan => rw [h3] at e; cases e
          | ok z => rw [h3, Res.ok_bind] at e; exact ih _ _ _ e
  have hC : ∀ h r x, correct T O h r x ≠ .diverge := by
    intro h r x e
    unfold correct at e
    cases h2 : O.deriv x with
    | diverge => exact hD _ h2
    | abort => rw [h2] at e; cases e
    | ub => rw [h2] at e; cases e
    | nan => rw [h2] at e; cases e
    | ok d => rw [h2, Res.ok_bind] at e; exact hsw _ _ _ _ _ e
  obtain ⟨m, h, h0, h1, h2⟩ := diverge_aux T O big hO hC fuel 0 H it s (by norm_num) e
  refine ⟨m, h, h0, by omega, fun i hi => ⟨(h2 i hi).1, ?_⟩⟩
  induction i with
  | zero => rw [h0, pow_zero, div_one]
  | succ i ih =>
    have := ih (by omega)
    have h3 := (h2 i (by omega)).2
    rw [pow_succ, ← div_div]
    linarith

/-- the plain systems meet the hypotheses -/
theorem simple_read_ends (I : Interactions) (s : Simple) (y : List ℝ) : s.read I y ≠ .diverge := by
  intro e
  by_cases h : y.length = s.variableNumber I
  · obtain ⟨s', e', _⟩ := C13_simple_write_read I s y h
    rw [e'] at e; cases e
  · rw [C13_simple_abort I s y h] at e; cases e

/-- A system that is in uniform motion (no forces) is stepped by one correction, with the exact result. -/
theorem C62_free_partial (T : Tab) (big H : ℝ) (s : Simple) (fuel : Nat) :
    ∃ s' it' h', Radau.iterate T (radauSimple noForces) big (fuel + 1) 0 H (IAS.new big) s = .ok (s', it', h') ∧ s'.P.num = s.P.num ∧
      s'.time = s.time + H ∧ ∀ k, k < s.P.num → s'.P.vel k = s.P.vel k ∧ s'.P.pos k = s.P.pos k + H • s.P.vel k := by
  obtain ⟨x1, x', it', h', g1, e1, g2, e2⟩ := iterate_straight (T := T) (free_straight s) big H (IAS.new big) s ⟨rfl, fun _ _ => rfl⟩ rfl blank_new
    ⟨0, by rw [C13_simple_size]; unfold Simple.variableNumber; omega, by
      show (s.derivative noForces).getD 0 0 ≠ 0
      rw [Simple.derivative_getD]
      show (1 : ℝ) ≠ 0
      norm_num⟩ fuel
  rw [free_line] at e1
  obtain ⟨y, e, h1, h2, h3, _⟩ := C13_simple_read_write noForces x1
    ({ s with time := s.time + H, P := { s.P with pos := fun k => s.P.pos k + H • s.P.vel k } } : Simple) g1.1
  have : y = x' := Res.ok.inj (e.symm.trans e1)
  subst this
  exact ⟨y, it', h', e2, g2.1, h1, fun k hk => ⟨g2.2 k hk, (h2 k hk).1⟩⟩

/-- no forces: no net force -/
theorem noForces_neutral (n : Nat) (m : Arr ℝ) : AllForces noForces (NoNetForce n m) := by
  refine ⟨fun P acc _ _ => ?_, fun f hf => by cases hf⟩
  rfl

/-- The hypotheses of C33 and C63 are met: two particles moving freely, with a momentum, take a step. -/
example : ∃ (s0 s : Simple) (it : IAS) (h' : ℝ), s0.P.num = 2 ∧ momentum s0.P ≠ 0 ∧ s.time = s0.time + 3 ∧
    Radau.iterate code (radauSimple noForces) 1000 1 0 3 (IAS.new 1000) s0 = .ok (s, it, h') ∧
    Course code (radauSimple noForces) 1000 (fun s => s.preIter noForces) s0 s it ∧ Between code 1000 it := by
  set s0 : Simple := { P := { num := 2, pos := fun _ => ⟨0, 0, 0⟩, vel := fun _ => ⟨1, 0, 0⟩, mass := fun _ => 1 }, time := 0, aux := fun _ => 0, inc := fun _ => 0, sync := false } with hs0
  obtain ⟨s, it, h', e, _, ht, _⟩ := C62_free_partial code 1000 3 s0 0
  refine ⟨s0, s, it, h', rfl, ?_, ht, e, .step s0 s _ it 1 3 h' .start e, .call _ 1 3 h' _ it s0 s .new e⟩
  intro h
  have : (momentum s0.P).x = 0 := by rw [h]; rfl
  unfold momentum at this
  rw [show s0.P.num = 2 from rfl, sum_range_succ, sum_range_succ, sum_range_zero] at this
  simp only [hs0, one_smul, zero_add, add_x] at this
  norm_num at this

/-- A NaN in the last variable goes unnoticed by both error estimates of IAS15: they are what they are without that variable. -/
theorem C60_ias15_ignores_nan (atol rtol : Fl) (n : Nat) (mask : Nat → Bool) (dyh dg b6 : Arr Fl) (h1 : dyh n = nan) (h2 : dg n = nan)
    (h3 : b6 n = nan) :
    maxRatio2 atol rtol (n + 1) dyh dg = maxRatio2 atol rtol n dyh dg ∧ stepError (n + 1) mask dyh b6 = stepError n mask dyh b6 := by
  have hs : ∀ x : Fl, stdMax x nan = x := fun x => by cases x <;> rfl
  constructor
  · unfold maxRatio2
    rw [forLoop_succ _ _ (Nat.zero_le _)]
    dsimp only
    rw [h1, h2]
    have e : add atol (mul (Fl.abs nan) rtol) = nan := by
      cases atol <;> rfl
    rw [e, show Fl.abs nan = nan from rfl, hs, hs]
  · unfold stepError
    rw [forLoop_succ _ _ (Nat.zero_le _)]
    dsimp only
    rw [h1, h3, show Fl.abs nan = nan from rfl, hs, hs]
    simp only [Prod.mk.eta, ite_self]

end SpaceHub.Props
