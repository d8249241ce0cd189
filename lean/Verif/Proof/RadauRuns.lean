import Verif.Proof.RadauRegu

/-
Calls of IAS15 that return although the derivatives of the system may fail somewhere.
-/

set_option autoImplicit false

namespace SpaceHub.Sys
open SpaceHub V3 Force Core Integrator Spec Props Finset Converge Radau BS Ctl Fl
open scoped ContDiff

variable {S : Type}

/-- the system whose derivatives never fail -/
noncomputable def total (O : RSys S) : RSys S where
  write := O.write
  read := O.read
  deriv := fun s => match O.deriv s with
    | .ok d => .ok d
    | _ => .ok ([], s)
  mask := O.mask

theorem total_ok {O : RSys S} {s : S} {d : List ℝ × S} (h : O.deriv s = .ok d) : (total O).deriv s = .ok d := by
  unfold total
  dsimp only
  rw [h]

theorem total_runs (O : RSys S) (s : S) : ∃ d, (total O).deriv s = .ok d ∧ (O.deriv s = .ok d ∨ d.2 = s) := by
  unfold total
  dsimp only
  cases h : O.deriv s with
  | ok d => exact ⟨d, rfl, .inl rfl⟩
  | abort => exact ⟨_, rfl, .inr rfl⟩
  | ub => exact ⟨_, rfl, .inr rfl⟩
  | nan => exact ⟨_, rfl, .inr rfl⟩
  | diverge => exact ⟨_, rfl, .inr rfl⟩

theorem path_sweep {T : Tab} {O : RSys S} {H : ℝ} {R : Nat → GR} {s X : Nat → S} {D : Nat → List ℝ × S} (m : Nat) : ∀ stage,
    Path T O H stage m R s X D → sweep T O H m stage (R stage) (s stage) = .ok (s (stage + m), R (stage + m)) := by
  induction m with
  | zero => intro stage _; rfl
  | succ m ih =>
    intro stage p
    have q := ih (stage + 1) ⟨fun n a b => p.read n (by omega) (by omega), fun n a b => p.deriv n (by omega) (by omega), fun n a b => p.next n (by omega) (by omega),
      fun n a b => p.back n (by omega) (by omega)⟩
    have e1 := p.read stage le_rfl (by omega)
    have e2 := p.deriv stage le_rfl (by omega)
    have e3 := p.next stage le_rfl (by omega)
    have e4 := p.back stage le_rfl (by omega)
    unfold sweep
    rw [e1]
    show (do let d ← O.deriv (X stage)
             let r := GR.updateB T { R stage with dyh := GR.toArr d.1 } stage
             let s ← O.read d.2 r.input
             sweep T O H m (stage + 1) r s) = _
    rw [e2]
    show (do let s ← O.read (D stage).2 (R stage).input
             sweep T O H m (stage + 1) (GR.updateB T { R stage with dyh := GR.toArr (D stage).1 } stage) s) = _
    rw [e4, ← e3]
    rw [show stage + (m + 1) = stage + 1 + m by omega]
    exact q

/-- a correction whose nodes have derivatives -/
theorem correct_of_total {T : Tab} {O : RSys S} {H : ℝ} {r r' : GR} {s s' : S} (h0 : ∃ d, O.deriv s = .ok d)
    (v : Visits T (total O) H r s s' r' fun x => ∃ d, O.deriv x = .ok d) : correct T O H r s = .ok (s', r') := by
  obtain ⟨d, R, st, X, D, e0, p, r0, s0, s7, r7, hX⟩ := v
  obtain ⟨d0, h0⟩ := h0
  have e0' := total_ok h0
  rw [e0] at e0'
  cases e0'
  have p' : Path T O H 0 7 R st X D := by
    refine ⟨p.read, fun n a b => ?_, p.next, p.back⟩
    obtain ⟨d1, h1⟩ := hX n (by omega)
    have := total_ok h1
    rw [p.deriv n a b] at this
    cases this
    exact h1
  have q := path_sweep 7 0 p'
  rw [r0, s0, show 0 + 7 = 7 from rfl, s7, r7] at q
  unfold correct
  rw [h0]
  exact q

theorem pc_small' {r : GR} {C c : ℝ} (hc : 0 < c) (hC : C * 10 ^ 16 < c) (hd : ∀ i, i < r.num → |r.dg i| ≤ C) (hn : 0 < r.num) (h1 : c ≤ |r.dyh 0|) :
    ∃ e, pcError r = Fl.fin e ∧ e < 1 := by
  obtain ⟨a, b, ha, hb, hle, h1', h2, e⟩ := maxRatio2_fin r.num (1 / 10 ^ 16) r.dyh r.dg
  have hb1 : c / 10 ^ 16 ≤ b := by
    have := (hle 0 hn).2
    have h2 : c * (1 / 10 ^ 16) ≤ |r.dyh 0| * (1 / 10 ^ 16) := mul_le_mul_of_nonneg_right h1 (by norm_num)
    have e : c / 10 ^ 16 = c * (1 / 10 ^ 16) := by ring
    rw [e]
    exact h2.trans this
  have hb0 : 0 < b := lt_of_lt_of_le (by positivity) hb1
  refine ⟨a / b, by unfold pcError; rw [e, div_fin _ _ hb0.ne'], ?_⟩
  rw [div_lt_one hb0]
  refine lt_of_lt_of_le ?_ hb1
  by_cases h0 : a = 0
  · rw [h0]; positivity
  · obtain ⟨i, hi, ea⟩ := h1' h0
    rw [ea, lt_div_iff₀ (by norm_num)]
    exact lt_of_le_of_lt (mul_le_mul_of_nonneg_right (hd i hi) (by norm_num)) hC

/-- a call whose first correction has small errors -/
theorem small_step {T : Tab} {O : RSys S} {big H er se : ℝ} {frame same : S → S → Prop} {s x1 s' : S} (L : RLawful O s frame same) {it : IAS} {r : GR} (hH : 0 ≤ H)
    (e : correct T O H it.gr s = .ok (x1, r)) (hpc : pcError r = Fl.fin er) (her : er < 1)
    (hse : stepError r.num (O.mask H x1) (fun i => Fl.fin (r.dyh i)) (fun i => Fl.fin (r.b 6 i)) = Fl.fin se) (hse0 : 0 ≤ se) (hse1 : se ≤ 1)
    (e2 : evaluate O H r x1 = .ok s') :
    ∃ it' h', (∀ fuel, Radau.iterate T O big (fuel + 1) 0 H it s = .ok (s', it', h')) ∧ StepBy T O big frame same 1 H H it s s' it' h' ∧ H / 4 ≤ h' ∧ h' ≤ 4 * H := by
  obtain ⟨f1, f2, f3, f4, f5⟩ := correct_restores L L.refl rfl e
  obtain ⟨Y, r1, r2, r3⟩ := C47_evaluate O H r x1 s' e2
  obtain ⟨r4, r5⟩ := L.read _ _ _ f1 r1
  rw [f4] at r2 r3
  have acc : AcceptedBy T O big frame same H it s s' { gr := r.predict T (min (max (stepRatio se) (1 / 4)) 4), last := big, warm := true }
      (H * min (max (stepRatio se) (1 / 4)) 4) 0 (fun _ => H) (fun _ => 0) (fun _ => 0) (fun _ i => if i = 0 then it.gr else r) (fun _ i => if i = 0 then s else x1) (fun _ _ => er) se := by
    refine ⟨rfl, rfl, fun i hi => by omega, fun i _ => ⟨⟨fun j hj => ?_, fun j hj => absurd hj (Nat.not_lt_zero j), .inl her, by norm_num⟩, fun j hj => ?_⟩, ?_, hse0, ?_, rfl, rfl, by rw [r5, r2],
      L.trans _ _ _ f1 r4, fun v hv => ?_⟩
    · obtain rfl : j = 0 := Nat.le_zero.1 hj
      exact ⟨e, hpc⟩
    · rcases j with _ | j
      · exact ⟨L.same_refl, rfl⟩
      · exact ⟨f3, f2⟩
    · show toRes (stepError (O.write s).length (O.mask H x1) (fun i => Fl.fin (r.dyh i)) (fun i => Fl.fin (r.b 6 i))) = _
      rw [← f5, hse]; rfl
    · exact lt_of_le_of_lt hse1 (by norm_num)
    · rw [r5, r3 v hv]; rfl
  refine ⟨_, _, fun fuel => one_pass e hpc her hse hse0 hse1 e2 fuel, ⟨0, _, _, _, _, _, _, se, le_rfl, rfl, acc⟩, ?_, ?_⟩
  · have : 1 / 4 ≤ min (max (stepRatio se) (1 / 4)) 4 := le_min (le_max_right _ _) (by norm_num)
    nlinarith
  · have : min (max (stepRatio se) (1 / 4)) 4 ≤ 4 := min_le_right _ _
    nlinarith

/-! ### a sequence of calls -/

/-- the state after a call, if it returns -/
noncomputable def nextOf (O : RSys S) (pre : S → S) (big H : ℝ) (a : S × IAS) : S × IAS × ℝ :=
  match Radau.iterate code O big 1 0 H a.2 (pre a.1) with
  | .ok r => r
  | _ => (a.1, a.2, 0)

noncomputable def callsOf (O : RSys S) (pre : S → S) (big : ℝ) (H : Nat → ℝ) (s : S) : Nat → S × IAS
  | 0 => (s, IAS.new big)
  | i + 1 => let a := nextOf O pre big (H i) (callsOf O pre big H s i); (a.1, a.2.1)

theorem nextOf_of {O : RSys S} {pre : S → S} {big H h' : ℝ} {s s' : S} {it it' : IAS} (e : Radau.iterate code O big 1 0 H it (pre s) = .ok (s', it', h')) :
    nextOf O pre big H (s, it) = (s', it', h') := by
  unfold nextOf
  dsimp only
  rw [e]

end SpaceHub.Sys
