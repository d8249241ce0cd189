import Verif.Proof.Conserve
import Mathlib.Tactic.NormNum
import Mathlib.Tactic.FieldSimp
import Mathlib.Tactic.Linarith

/-
C17: time bookkeeping of the integrators.
-/

set_option autoImplicit false

namespace SpaceHub.Sys
open SpaceHub V3 Force Core Integrator

/-- the sum of the sizes of all drifts -/
def driftTime : List Op → ℝ
  | [] => 0
  | .drift h :: l => h + driftTime l
  | .kick _ :: l => driftTime l

theorem driftTime_append (l l' : List Op) : driftTime (l ++ l') = driftTime l + driftTime l' := by
  induction l with
  | nil => simp [driftTime]
  | cons op l ih => cases op <;> simp [driftTime, ih, add_assoc]

/-- A plain system: the calls always succeed and the time advances by the sum of the drifts, whatever the forces. -/
theorem C17_simple_time (I : Interactions) (ops : List Op) (s : Simple) :
    ∃ s', (simpleOps I).run ops s = .ok s' ∧ s'.time = s.time + driftTime ops := by
  induction ops generalizing s with
  | nil => exact ⟨s, rfl, by simp [driftTime]⟩
  | cons op ops ih =>
    cases op with
    | drift h =>
      obtain ⟨s', e, ht⟩ := ih (s.drift h)
      refine ⟨s', e, ?_⟩
      obtain ⟨i, hi⟩ := s.drift_fields h
      rw [ht, hi]; simp only [driftTime]; ring
    | kick h =>
      obtain ⟨s', e, ht⟩ := ih (s.kick I h)
      refine ⟨s', e, ?_⟩
      rw [ht, (s.kick_frame I h).2.2.2.1]; rfl

theorem ChainSys.drift_time (s s' : ChainSys) (h : ℝ) (e : s.drift h = .ok s') : s'.time = s.time + h := by
  unfold ChainSys.drift at e
  simp only [Res.bind_eq_ok] at e
  obtain ⟨r, _, e⟩ := e
  have e := Res.ok.inj e
  obtain ⟨i, hi⟩ := ChainSys.syncTime_fields { s with time := s.time + h, P := { s.P with pos := r.1 }, cpos := r.2 } h
  rw [hi] at e
  obtain ⟨j, hj⟩ := ChainSys.syncPos_fields
    { s with time := s.time + h, P := { s.P with pos := r.1 }, cpos := r.2, inc := i } s.cvel h
  have := e.symm.trans hj
  rw [this]

theorem ChainSys.kickReal_time {I : ChainInteractions} {s s' : ChainSys} {a : Arr (V3 ℝ)} {h : ℝ}
    (e : s.kickReal I a h = .ok s') : s'.time = s.time := by
  unfold ChainSys.kickReal at e
  simp only [Res.bind_eq_ok] at e
  obtain ⟨x, _, c, _, r, hr, e⟩ := e
  obtain ⟨i, hi⟩ := ChainSys.syncVel_fields { s with P := { s.P with vel := r.1 }, cvel := r.2 } c h
  rw [hi] at e; cases e; rfl

theorem ChainSys.kickPseu_time {I : ChainInteractions} {s s' : ChainSys} {a : Arr (V3 ℝ)} {h : ℝ}
    (e : s.kickPseu I a h = .ok s') : s'.time = s.time := by
  unfold ChainSys.kickPseu at e
  simp only [Res.bind_eq_ok] at e
  obtain ⟨x, _, c, _, r, hr, e⟩ := e
  obtain ⟨i, hi⟩ := ChainSys.syncAux_fields { s with aux := r.1, caux := r.2 } c h
  rw [hi] at e; cases e; rfl

theorem ChainSys.kick_time {I : ChainInteractions} {s s' : ChainSys} {h : ℝ} (e : s.kick I h = .ok s') :
    s'.time = s.time := by
  unfold ChainSys.kick at e
  split_ifs at e
  · simp only [Res.bind_eq_ok] at e
    obtain ⟨a, _, s1, e1, s2, e2, e3⟩ := e
    rw [ChainSys.kickReal_time e3, ChainSys.kickPseu_time e2, ChainSys.kickReal_time e1]
  · simp only [Res.bind_eq_ok] at e
    obtain ⟨x, _, c, _, r, hr, e⟩ := e
    obtain ⟨i, hj⟩ := ChainSys.syncVel_fields { s with P := { s.P with vel := r.1 }, cvel := r.2 } c h
    rw [hj] at e; cases e; rfl

/-- A chain system, in every state and with every force: if the calls return, the time has advanced by the sum of the
drifts. -/
theorem C17_chain_time (I : ChainInteractions) (ops : List Op) (s s' : ChainSys) (e : (chainOps I).run ops s = .ok s') :
    s'.time = s.time + driftTime ops := by
  induction ops generalizing s with
  | nil => cases e; simp [driftTime]
  | cons op ops ih =>
    obtain ⟨s1, e1, e2⟩ := Res.bind_eq_ok.1 e
    cases op with
    | drift h => rw [ih s1 e2, ChainSys.drift_time s s1 h e1]; simp only [driftTime]; ring
    | kick h => rw [ih s1 e2, ChainSys.kick_time (I := I) e1]; rfl

/-! ### the integrators -/

/-- sum of the drift coefficients -/
def driftSum : List Stage → ℚ
  | [] => 0
  | .drift c :: l => c + driftSum l
  | .kick _ :: l => driftSum l

theorem driftTime_stages (l : List Stage) (h : ℝ) : driftTime (l.map (Stage.op h)) = driftSum l * h := by
  induction l with
  | nil => simp [driftTime, driftSum]
  | cons s l ih => cases s <;> simp [driftTime, driftSum, Stage.op, ih, add_mul]

/-- One step `h` of the leap-frogs and of the fourth-order integrator advances the time by exactly `h`. -/
theorem C17_exact_integrators (I : Interactions) (h : ℝ) (s : Simple) (stages : List Stage)
    (hs : stages ∈ [symplectic2nd, leapFrogKDK, symplectic4th]) :
    ∃ s', integrate (simpleOps I) stages h s = .ok s' ∧ s'.time = s.time + h := by
  obtain ⟨s', e, ht⟩ := C17_simple_time I (stages.map (Stage.op h)) s
  refine ⟨s', e, ?_⟩
  rw [ht, driftTime_stages]
  have : driftSum stages = 1 := by
    simp only [List.mem_cons, List.not_mem_nil, or_false] at hs
    rcases hs with rfl | rfl | rfl
    · norm_num [driftSum, symplectic2nd]
    · norm_num [driftSum, leapFrogKDK]
    · norm_num [driftSum, symplectic4th]
  rw [this]; norm_num

theorem driftSum_high {stages : List Stage} (hs : stages ∈ [symplectic6th, symplectic8th, symplectic10th]) :
    |driftSum stages - 1| ≤ 3e-16 := by
  simp only [List.mem_cons, List.not_mem_nil, or_false] at hs
  rcases hs with rfl | rfl | rfl
  · norm_num [driftSum, symplectic6th, abs_le]
  · norm_num [driftSum, symplectic8th, abs_le]
  · norm_num [driftSum, symplectic10th, abs_le]

theorem time_error {q : ℚ} (hq : |q - 1| ≤ 3e-16) (t h : ℝ) : |t + q * h - (t + h)| ≤ 3e-16 * |h| := by
  have e : t + q * h - (t + h) = ((q - 1 : ℚ) : ℝ) * h := by push_cast; ring
  have : |((q - 1 : ℚ) : ℝ)| ≤ 3e-16 := by
    rw [← Rat.cast_abs]
    calc ((|q - 1| : ℚ) : ℝ) ≤ ((3e-16 : ℚ) : ℝ) := Rat.cast_le.2 hq
      _ = 3e-16 := by norm_num
  rw [e, abs_mul]
  exact mul_le_mul_of_nonneg_right this (abs_nonneg _)

/-- The higher orders advance it by `h` up to the precision of the tabulated coefficients. -/
theorem C17_high_order_integrators (I : Interactions) (h : ℝ) (s : Simple) (stages : List Stage)
    (hs : stages ∈ [symplectic6th, symplectic8th, symplectic10th]) :
    ∃ s', integrate (simpleOps I) stages h s = .ok s' ∧ |s'.time - (s.time + h)| ≤ 3e-16 * |h| := by
  obtain ⟨s', e, ht⟩ := C17_simple_time I (stages.map (Stage.op h)) s
  refine ⟨s', e, ?_⟩
  rw [ht, driftTime_stages]
  exact time_error (driftSum_high hs) _ _

/-- The same for a chain system, whenever the step returns. -/
theorem C17_chain_integrators (I : ChainInteractions) (h : ℝ) (s s' : ChainSys) (stages : List Stage)
    (hs : stages ∈ [symplectic2nd, leapFrogKDK, symplectic4th, symplectic6th, symplectic8th, symplectic10th])
    (e : integrate (chainOps I) stages h s = .ok s') :
    |s'.time - (s.time + h)| ≤ 3e-16 * |h| ∧
    (stages ∈ [symplectic2nd, leapFrogKDK, symplectic4th] → s'.time = s.time + h) := by
  have ht := C17_chain_time I _ s s' e
  rw [ht, driftTime_stages]
  by_cases hlow : stages ∈ [symplectic2nd, leapFrogKDK, symplectic4th]
  · obtain ⟨t, e1, ht1⟩ := C17_exact_integrators ⟨⟨false, fun _ a => a⟩, []⟩ h
      (Simple.init 0 ⟨0, fun _ => 0, fun _ => 0, fun _ => 0⟩) stages hlow
    obtain ⟨t', e2, ht2⟩ := C17_simple_time ⟨⟨false, fun _ a => a⟩, []⟩ (stages.map (Stage.op h))
      (Simple.init 0 ⟨0, fun _ => 0, fun _ => 0, fun _ => 0⟩)
    have : t = t' := Res.ok.inj (e1.symm.trans e2)
    rw [← this, ht1, driftTime_stages] at ht2
    have hh : (driftSum stages : ℝ) * h = h := by linarith
    rw [hh]
    exact ⟨by rw [sub_self, abs_zero]; positivity, fun _ => rfl⟩
  · refine ⟨time_error (driftSum_high ?_) _ _, fun h => absurd h hlow⟩
    simp only [List.mem_cons, List.not_mem_nil, or_false] at hs hlow ⊢
    tauto

theorem driftTime_loopDKD (h : ℝ) (n : Nat) (hn : 1 ≤ n) :
    driftTime (forLoop 1 n (fun _ l => l ++ [Op.kick h, Op.drift h]) []) = (n - 1) * h := by
  refine forLoop_inv (σ := List Op) (fun k l => driftTime l = ((k : ℝ) - 1) * h) 1 n hn _ ?_ ?_ ?_
  · simp [driftTime]
  · intro k l _ _ ih
    rw [driftTime_append, ih]
    simp only [driftTime]
    push_cast; ring

theorem driftTime_loopKDK (h : ℝ) (n : Nat) (hn : 1 ≤ n) :
    driftTime (forLoop 1 n (fun _ l => l ++ [Op.drift h, Op.kick h]) []) = (n - 1) * h := by
  refine forLoop_inv (σ := List Op) (fun k l => driftTime l = ((k : ℝ) - 1) * h) 1 n hn _ ?_ ?_ ?_
  · simp [driftTime]
  · intro k l _ _ ih
    rw [driftTime_append, ih]
    simp only [driftTime]
    push_cast; ring

theorem driftTime_substeps (H : ℝ) (n : Nat) (hn : 1 ≤ n) :
    driftTime (substepsDKD H n) = H ∧ driftTime (substepsKDK H n) = H := by
  have h0 : (n : ℝ) ≠ 0 := by positivity
  constructor
  · unfold substepsDKD
    simp only [driftTime_append, driftTime_loopDKD (H / n) n hn, driftTime]
    field_simp; ring
  · unfold substepsKDK
    simp only [driftTime_append, driftTime_loopKDK (H / n) n hn, driftTime]
    field_simp; ring

/-- The `n >= 1` sub-steps of a Bulirsch-Stoer macro step `H` advance the time by exactly `H`, in both leap-frog
variants, for plain and chain systems. -/
theorem C17_bulirsch_stoer_substeps (H : ℝ) (n : Nat) (hn : 1 ≤ n) :
    (∀ (I : Interactions) (s : Simple), ∃ s1 s2, (simpleOps I).run (substepsDKD H n) s = .ok s1 ∧ s1.time = s.time + H ∧
      (simpleOps I).run (substepsKDK H n) s = .ok s2 ∧ s2.time = s.time + H) ∧
    (∀ (I : ChainInteractions) (s s' : ChainSys), (chainOps I).run (substepsDKD H n) s = .ok s' ∨
      (chainOps I).run (substepsKDK H n) s = .ok s' → s'.time = s.time + H) := by
  obtain ⟨h1, h2⟩ := driftTime_substeps H n hn
  constructor
  · intro I s
    obtain ⟨s1, e1, t1⟩ := C17_simple_time I (substepsDKD H n) s
    obtain ⟨s2, e2, t2⟩ := C17_simple_time I (substepsKDK H n) s
    exact ⟨s1, s2, e1, by rw [t1, h1], e2, by rw [t2, h2]⟩
  · rintro I s s' (e | e)
    · rw [C17_chain_time I _ s s' e, h1]
    · rw [C17_chain_time I _ s s' e, h2]

end SpaceHub.Sys
