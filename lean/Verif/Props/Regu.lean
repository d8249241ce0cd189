import Verif.Props.Conserve
import Verif.Proof.Increment

/-
C48: what the regularisation variables do.
-/

set_option autoImplicit false

namespace SpaceHub.Sys
open SpaceHub V3 Force Core Integrator Spec Props Finset

/-- what a position update divides the step by -/
noncomputable def posDivisor (type : ReguType) (s : ReguSys) : ℝ :=
  match type with
  | .logH => s.R.bindE + kinetic s.P
  | .ttl => s.R.omega
  | .none => 1

/-- what a velocity update divides the step by: minus the potential energy -/
noncomputable def velDivisor (G : ℝ) (type : ReguType) (s : ReguSys) : ℝ :=
  match type with
  | .logH | .ttl => - Spec.potential G s.P.num s.P.mass s.P.pos
  | .none => 1

theorem posPhyTime_eq (type : ReguType) (s : ReguSys) (h : ℝ) :
    s.R.posPhyTime type (kinetic s.P) h = if posDivisor type s = 0 then .nan else
      .ok ({ s.R with scale := if type = .none then s.R.scale else posDivisor type s }, h / posDivisor type s) := by
  unfold Regu.posPhyTime posDivisor Regu.divStep
  cases type
  · dsimp only
    split_ifs <;> first | rfl | contradiction
  · dsimp only
    split_ifs <;> first | rfl | contradiction
  · simp

theorem velPhyTime_eq (G : ℝ) (type : ReguType) (s : ReguSys) (h : ℝ) :
    s.R.velPhyTime type (potentialDirect G s.P) h = if velDivisor G type s = 0 then .nan else
      .ok ({ s.R with scale := if type = .none then s.R.scale else velDivisor G type s }, h / velDivisor G type s) := by
  unfold Regu.velPhyTime velDivisor Regu.divStep
  rw [potentialDirect_eq]
  cases type
  · dsimp only
    split_ifs <;> first | rfl | contradiction
  · dsimp only
    split_ifs <;> first | rfl | contradiction
  · simp

/-- A position update moves every particle along its velocity for the physical time `h / D` where `D` is the binding
energy plus the kinetic energy (LogH), `omega` (TTL) or 1 (none); the clock advances by the same amount, the step scale
reported afterwards is `D`, velocities and regularisation variables are unchanged.  It fails exactly if `D = 0`. -/
theorem C48_position_update (type : ReguType) (s : ReguSys) (h : ℝ) :
    (posDivisor type s = 0 → s.drift type h = .nan) ∧
    (posDivisor type s ≠ 0 → ∃ s', s.drift type h = .ok s' ∧
      s'.time = s.time + h / posDivisor type s ∧
      (∀ k, k < s.P.num → s'.P.pos k = s.P.pos k + (h / posDivisor type s) • s.P.vel k) ∧
      s'.P.vel = s.P.vel ∧ s'.P.mass = s.P.mass ∧ s'.P.num = s.P.num ∧ s'.aux = s.aux ∧
      s'.stepScale = (if type = .none then s.stepScale else posDivisor type s) ∧
      s'.R.omega = s.R.omega ∧ s'.R.bindE = s.R.bindE) := by
  constructor
  · intro h0
    unfold ReguSys.drift
    rw [posPhyTime_eq, if_pos h0]; rfl
  · intro h0
    have ex : ∃ s', s.drift type h = .ok s' := by
      unfold ReguSys.drift
      rw [posPhyTime_eq, if_neg h0]; exact ⟨_, rfl⟩
    obtain ⟨s', e⟩ := ex
    refine ⟨s', e, ?_⟩
    obtain ⟨rt, i, hr, hs'⟩ := ReguSys.drift_fields type s s' h e
    rw [posPhyTime_eq, if_neg h0] at hr
    have hr := Res.ok.inj hr
    subst hr
    subst hs'
    refine ⟨rfl, fun k hk => ?_, rfl, rfl, rfl, rfl, rfl, rfl, rfl⟩
    show advance _ _ _ _ k = _
    rw [advance_apply, if_pos hk]

/-- work done in unit time by the accelerations `a` on particles moving with velocities `v` -/
noncomputable def power (P : Particles) (v a : Arr (V3 ℝ)) : ℝ := ∑ k ∈ range P.num, P.mass k * dot (v k) (a k)

theorem kinetic_change (P : Particles) (a : Arr (V3 ℝ)) (t : ℝ) :
    kinetic { P with vel := advance P.num P.vel a t } - kinetic P =
      power P P.vel a * (1 / 2 * t) + power P (advance P.num P.vel a t) a * (1 / 2 * t) := by
  rw [kinetic_eq, kinetic_eq, power, power, sum_mul, sum_mul, ← sum_add_distrib, ← sum_sub_distrib]
  refine sum_congr rfl fun k hk => ?_
  simp only [advance_apply, if_pos (mem_range.1 hk)]
  simp only [dot, add_x, add_y, add_z, smul_x, smul_y, smul_z]
  ring

/-- A velocity update without extra forces: every velocity changes by the physical time `h / D` times the internal
acceleration, `D` being minus the potential energy; the step scale reported afterwards is `D`; the binding energy does
not change; `omega` changes (TTL) by the work of the internal accelerations, which is exactly the change of the kinetic
energy. -/
theorem C48_velocity_update (G : ℝ) (type : ReguType) (f : ForceClass Particles) (s : ReguSys) (h : ℝ) :
    (velDivisor G type s = 0 → s.kick G type ⟨f, []⟩ h = .nan) ∧
    (velDivisor G type s ≠ 0 → ∃ s', s.kick G type ⟨f, []⟩ h = .ok s' ∧
      (∀ k, k < s.P.num → s'.P.vel k = s.P.vel k + (h / velDivisor G type s) • (Interactions.mk f []).newtonianAcc s.P k) ∧
      s'.P.pos = s.P.pos ∧ s'.P.mass = s.P.mass ∧ s'.P.num = s.P.num ∧ s'.time = s.time ∧ s'.aux = s.aux ∧
      s'.stepScale = (if type = .none then s.stepScale else velDivisor G type s) ∧
      s'.R.bindE = s.R.bindE ∧
      s'.R.omega = s.R.omega + (if type = .ttl then kinetic s'.P - kinetic s.P else 0)) := by
  have hd : (Interactions.mk f []).velDep = false := rfl
  have hi : (Interactions.mk f []).velIndep = false := rfl
  constructor
  · intro h0
    rw [ReguSys.kick_eq, velPhyTime_eq, if_pos h0]; rfl
  · intro h0
    rw [ReguSys.kick_eq, velPhyTime_eq, if_neg h0]
    simp only [Res.ok_bind, hd, hi, Bool.false_eq_true, if_false]
    refine ⟨_, rfl, ?_⟩
    obtain ⟨i, e⟩ := ReguSys.kickElse_fields type ⟨f, []⟩ ((Interactions.mk f []).newtonianAcc s.P)
      ((Interactions.mk f []).velIndepAcc s.P) ((Interactions.mk f []).newtonianAcc s.P) (h / velDivisor G type s)
      { s with R := { s.R with scale := if type = .none then s.R.scale else velDivisor G type s } }
    rw [e]
    refine ⟨fun k hk => ?_, rfl, rfl, rfl, rfl, rfl, rfl, ?_, ?_⟩
    · show advance _ _ _ _ k = _
      rw [advance_apply, if_pos hk]
    · simp [hi]
    · by_cases ht : type = .ttl
      · subst ht
        have hk := kinetic_change s.P ((Interactions.mk f []).newtonianAcc s.P) (h / velDivisor G .ttl s)
        rw [if_pos rfl]
        simp only [ReguSys.dW, ReguSys.domegaDt, if_true, contract_eq]
        simp only [power] at hk
        rw [hk, add_assoc]
      · simp [ReguSys.dW, ReguSys.domegaDt, ht]

/-- Velocity update with velocity-independent extra forces only: the binding energy (LogH) changes by minus the work of
the extra forces, `omega` (TTL) by the work of the internal one (trapezoidal in the velocities before and after). -/
theorem C48_extra_work (G : ℝ) (type : ReguType) (I : Interactions) (hd : I.velDep = false) (hi : I.velIndep = true)
    (s s' : ReguSys) (h : ℝ) (e : s.kick G type I h = .ok s') :
    (∀ k, k < s.P.num → s'.P.vel k = s.P.vel k + (h / velDivisor G type s) • (I.velIndepAcc s.P k + I.newtonianAcc s.P k)) ∧
    s'.R.bindE = s.R.bindE - (if type = .logH then
      (power s.P s.P.vel (I.velIndepAcc s.P) + power s.P s'.P.vel (I.velIndepAcc s.P)) / 2 * (h / velDivisor G type s) else 0) ∧
    s'.R.omega = s.R.omega + (if type = .ttl then
      (power s.P s.P.vel (I.newtonianAcc s.P) + power s.P s'.P.vel (I.newtonianAcc s.P)) / 2 * (h / velDivisor G type s) else 0) := by
  rw [ReguSys.kick_eq, velPhyTime_eq] at e
  by_cases h0 : velDivisor G type s = 0
  · rw [if_pos h0] at e; cases e
  rw [if_neg h0] at e
  simp only [Res.ok_bind, hd, hi, Bool.false_eq_true, if_false, if_true] at e
  have e := Res.ok.inj e
  obtain ⟨i, ek⟩ := ReguSys.kickElse_fields type I (I.newtonianAcc s.P) (I.velIndepAcc s.P)
    (arrayAdd s.P.num (I.velIndepAcc s.P) (I.newtonianAcc s.P)) (h / velDivisor G type s)
    { s with R := { s.R with scale := if type = .none then s.R.scale else velDivisor G type s } }
  rw [ek] at e
  subst e
  refine ⟨fun k hk => ?_, ?_, ?_⟩
  · show advance _ _ _ _ k = _
    rw [advance_apply, if_pos hk, arrayAdd_apply, if_pos hk]
  · simp only [hi, if_true, ReguSys.dB, ReguSys.dbindEDt, Bool.true_or, true_and, contract_eq, power]
    split_ifs <;> ring
  · simp only [ReguSys.dW, ReguSys.domegaDt, contract_eq, power]
    split_ifs <;> ring

/-! ### whole runs -/

/-- Without extra forces the binding energy never changes. -/
theorem C48_binding_energy_constant (G : ℝ) (type : ReguType) (f : ForceClass Particles) (oss : List (List Op))
    (s s' : ReguSys) (e : steps (reguStep G type ⟨f, []⟩) oss s = .ok s') : s'.R.bindE = s.R.bindE := by
  refine regu_steps_inv (Q := fun t => t.R.bindE = s.R.bindE) ?_ ?_ ?_ oss s s' rfl e
  · intro t h; unfold ReguSys.preIter; split_ifs <;> exact h
  · intro t t' h q e
    by_cases h0 : posDivisor type t = 0
    · rw [(C48_position_update type t h).1 h0] at e; cases e
    · obtain ⟨t'', e', r⟩ := (C48_position_update type t h).2 h0
      rw [e] at e'; cases e'
      rw [← q]; exact r.2.2.2.2.2.2.2.2
  · intro t t' h q e
    by_cases h0 : velDivisor G type t = 0
    · rw [(C48_velocity_update G type f t h).1 h0] at e; cases e
    · obtain ⟨t'', e', r⟩ := (C48_velocity_update G type f t h).2 h0
      rw [e] at e'; cases e'
      rw [← q]; exact r.2.2.2.2.2.2.2.1

theorem kinetic_of {P P' : Particles} (h1 : P'.vel = P.vel) (h2 : P'.mass = P.mass) (h3 : P'.num = P.num) :
    kinetic P' = kinetic P := by unfold kinetic; rw [h1, h2, h3]

/-- Without extra forces the TTL variable `omega` is always the binding energy plus the kinetic energy, through every
history of a system built by the constructor: a TTL step divides by the same number as a LogH step. -/
theorem C48_ttl_omega (G : ℝ) (f : ForceClass Particles) (time : ℝ) (P : Particles) (oss : List (List Op))
    (s : ReguSys) (e : steps (reguStep G .ttl ⟨f, []⟩) oss (ReguSys.init G .ttl time P) = .ok s) :
    s.R.omega = s.R.bindE + kinetic s.P ∧ s.R.bindE = - totalEnergy G P := by
  refine ⟨?_, C48_binding_energy_constant G .ttl f oss _ s e⟩
  refine regu_steps_inv (Q := fun t => t.R.omega = t.R.bindE + kinetic t.P) ?_ ?_ ?_ oss _ s ?_ e
  · intro t h; unfold ReguSys.preIter; split_ifs <;> exact h
  · intro t t' h q e
    by_cases h0 : posDivisor .ttl t = 0
    · rw [(C48_position_update .ttl t h).1 h0] at e; cases e
    · obtain ⟨t'', e', _, _, r1, r2, r3, _, _, r4, r5⟩ := (C48_position_update .ttl t h).2 h0
      rw [e] at e'; cases e'
      rw [r4, r5, kinetic_of r1 r2 r3, q]
  · intro t t' h q e
    by_cases h0 : velDivisor G .ttl t = 0
    · rw [(C48_velocity_update G .ttl f t h).1 h0] at e; cases e
    · obtain ⟨t'', e', _, _, _, _, _, _, _, r4, r5⟩ := (C48_velocity_update G .ttl f t h).2 h0
      rw [e] at e'; cases e'
      rw [r5, r4, if_pos rfl, q]; ring
  · show -potentialDirect G P = -totalEnergy G P + kinetic P
    unfold totalEnergy; ring

/-- the corresponding states of a LogH system `s` and a TTL system `t` -/
structure Twin (s t : ReguSys) : Prop where
  P : s.P = t.P
  time : s.time = t.time
  aux : s.aux = t.aux
  bindE : s.R.bindE = t.R.bindE
  scale : s.R.scale = t.R.scale
  omega : t.R.omega = t.R.bindE + kinetic t.P

/-- both fail, or both succeed with corresponding states -/
def TwinRes (r q : Res ReguSys) : Prop := (r = .nan ∧ q = .nan) ∨ ∃ s t, r = .ok s ∧ q = .ok t ∧ Twin s t

theorem twin_op (G : ℝ) (f : ForceClass Particles) (op : Op) (s t : ReguSys) (w : Twin s t) :
    TwinRes ((reguOps G .logH ⟨f, []⟩).apply op s) ((reguOps G .ttl ⟨f, []⟩).apply op t) := by
  cases op with
  | drift h =>
    change TwinRes (s.drift .logH h) (t.drift .ttl h)
    have hD : posDivisor .logH s = posDivisor .ttl t := by
      show s.R.bindE + kinetic s.P = t.R.omega
      rw [w.omega, w.bindE, w.P]
    by_cases h0 : posDivisor .ttl t = 0
    · exact Or.inl ⟨(C48_position_update .logH s h).1 (hD.trans h0), (C48_position_update .ttl t h).1 h0⟩
    · have hs0 : posDivisor .logH s ≠ 0 := by rw [hD]; exact h0
      obtain ⟨s', e1, _, _, p1, p2, p3, p4, p5, p6, p7⟩ := (C48_position_update .logH s h).2 hs0
      obtain ⟨t', e2, _, _, q1, q2, q3, q4, q5, q6, q7⟩ := (C48_position_update .ttl t h).2 h0
      refine Or.inr ⟨s', t', e1, e2, ?_, ?_, ?_, ?_, ?_, ?_⟩
      · obtain ⟨rt, i, hr, hs'⟩ := ReguSys.drift_fields .logH s s' h e1
        obtain ⟨rt', i', hr', ht'⟩ := ReguSys.drift_fields .ttl t t' h e2
        rw [posPhyTime_eq, if_neg hs0] at hr
        rw [posPhyTime_eq, if_neg h0] at hr'
        rw [hs', ht', ← Res.ok.inj hr, ← Res.ok.inj hr', hD, w.P]
      · obtain ⟨rt, i, hr, hs'⟩ := ReguSys.drift_fields .logH s s' h e1
        obtain ⟨rt', i', hr', ht'⟩ := ReguSys.drift_fields .ttl t t' h e2
        rw [posPhyTime_eq, if_neg hs0] at hr
        rw [posPhyTime_eq, if_neg h0] at hr'
        rw [hs', ht', ← Res.ok.inj hr, ← Res.ok.inj hr', hD, w.time]
      · rw [p4, q4, w.aux]
      · rw [p7, q7, w.bindE]
      · have a : s'.R.scale = posDivisor .logH s := p5
        have b : t'.R.scale = posDivisor .ttl t := q5
        rw [a, b, hD]
      · rw [q6, q7, kinetic_of q1 q2 q3, w.omega]
  | kick h =>
    change TwinRes (s.kick G .logH ⟨f, []⟩ h) (t.kick G .ttl ⟨f, []⟩ h)
    have hD : velDivisor G .logH s = velDivisor G .ttl t := by
      show -Spec.potential G s.P.num s.P.mass s.P.pos = -Spec.potential G t.P.num t.P.mass t.P.pos
      rw [w.P]
    by_cases h0 : velDivisor G .ttl t = 0
    · exact Or.inl ⟨(C48_velocity_update G .logH f s h).1 (hD.trans h0), (C48_velocity_update G .ttl f t h).1 h0⟩
    · have hs0 : velDivisor G .logH s ≠ 0 := by rw [hD]; exact h0
      obtain ⟨s', e1, _, p1, p2, p3, p4, p5, p6, p7, p8⟩ := (C48_velocity_update G .logH f s h).2 hs0
      obtain ⟨t', e2, _, q1, q2, q3, q4, q5, q6, q7, q8⟩ := (C48_velocity_update G .ttl f t h).2 h0
      refine Or.inr ⟨s', t', e1, e2, ?_, ?_, ?_, ?_, ?_, ?_⟩
      · have hd : (Interactions.mk f []).velDep = false := rfl
        have hi : (Interactions.mk f []).velIndep = false := rfl
        rw [ReguSys.kick_eq, velPhyTime_eq, if_neg hs0] at e1
        rw [ReguSys.kick_eq, velPhyTime_eq, if_neg h0] at e2
        simp only [Res.ok_bind, hd, hi, Bool.false_eq_true, if_false] at e1 e2
        rw [← Res.ok.inj e1, ← Res.ok.inj e2]
        obtain ⟨i, k1⟩ := ReguSys.kickElse_fields .logH ⟨f, []⟩ ((Interactions.mk f []).newtonianAcc s.P)
          ((Interactions.mk f []).velIndepAcc s.P) ((Interactions.mk f []).newtonianAcc s.P) (h / velDivisor G .logH s)
          { s with R := { s.R with scale := if ReguType.logH = .none then s.R.scale else velDivisor G .logH s } }
        obtain ⟨j, k2⟩ := ReguSys.kickElse_fields .ttl ⟨f, []⟩ ((Interactions.mk f []).newtonianAcc t.P)
          ((Interactions.mk f []).velIndepAcc t.P) ((Interactions.mk f []).newtonianAcc t.P) (h / velDivisor G .ttl t)
          { t with R := { t.R with scale := if ReguType.ttl = .none then t.R.scale else velDivisor G .ttl t } }
        rw [k1, k2, hD]
        simp only [w.P]
      · rw [p4, q4, w.time]
      · rw [p5, q5, w.aux]
      · rw [p7, q7, w.bindE]
      · have a : s'.R.scale = velDivisor G .logH s := p6
        have b : t'.R.scale = velDivisor G .ttl t := q6
        rw [a, b, hD]
      · rw [q8, q7, if_pos rfl, w.omega]; ring

theorem twin_run (G : ℝ) (f : ForceClass Particles) (ops : List Op) (s t : ReguSys) (w : Twin s t) :
    TwinRes ((reguOps G .logH ⟨f, []⟩).run ops s) ((reguOps G .ttl ⟨f, []⟩).run ops t) := by
  induction ops generalizing s t with
  | nil => exact Or.inr ⟨s, t, rfl, rfl, w⟩
  | cons op ops ih =>
    unfold Ops.run
    rcases twin_op G f op s t w with ⟨e1, e2⟩ | ⟨s', t', e1, e2, w'⟩
    · rw [e1, e2]; exact Or.inl ⟨rfl, rfl⟩
    · rw [e1, e2]; exact ih s' t' w'

/-- Without extra forces the logarithmic-Hamiltonian and the time-transformed-leapfrog regularisation are the same
method: built from the same particles and given the same calls they have the same particles, time and step scale at
every moment, and divide by zero at the same moment if ever. -/
theorem C48_ttl_equals_logH (G : ℝ) (f : ForceClass Particles) (time : ℝ) (P : Particles) (oss : List (List Op)) :
    (steps (reguStep G .logH ⟨f, []⟩) oss (ReguSys.init G .logH time P) = .nan ∧
      steps (reguStep G .ttl ⟨f, []⟩) oss (ReguSys.init G .ttl time P) = .nan) ∨
    ∃ s t, steps (reguStep G .logH ⟨f, []⟩) oss (ReguSys.init G .logH time P) = .ok s ∧
      steps (reguStep G .ttl ⟨f, []⟩) oss (ReguSys.init G .ttl time P) = .ok t ∧
      s.P = t.P ∧ s.time = t.time ∧ s.stepScale = t.stepScale := by
  have key : ∀ s t, Twin s t →
      TwinRes (steps (reguStep G .logH ⟨f, []⟩) oss s) (steps (reguStep G .ttl ⟨f, []⟩) oss t) := by
    induction oss with
    | nil => exact fun s t w => Or.inr ⟨s, t, rfl, rfl, w⟩
    | cons ops oss ih =>
      intro s t w
      unfold steps reguStep
      have hp : ∀ u : ReguSys, u.preIter ⟨f, []⟩ = u := fun u => rfl
      rw [hp, hp]
      rcases twin_run G f ops s t w with ⟨e1, e2⟩ | ⟨s', t', e1, e2, w'⟩
      · rw [e1, e2]; exact Or.inl ⟨rfl, rfl⟩
      · rw [e1, e2]; exact ih s' t' w'
  have w0 : Twin (ReguSys.init G .logH time P) (ReguSys.init G .ttl time P) := by
    refine ⟨rfl, rfl, rfl, rfl, rfl, ?_⟩
    show -potentialDirect G P = -totalEnergy G P + kinetic P
    unfold totalEnergy; ring
  rcases key _ _ w0 with h | ⟨s, t, e1, e2, w⟩
  · exact Or.inl h
  · exact Or.inr ⟨s, t, e1, e2, w.P, w.time, w.scale⟩

/-- AR-chain systems: the binding energy stays what the constructor computed, minus the total energy, and for TTL
`omega` stays the binding energy plus the kinetic energy. -/
theorem C48_archain {IC : ChainInteractions} {f : ForceClass Particles} (A : AgreesI IC ⟨f, []⟩) (G : ℝ) (type : ReguType)
    (time : ℝ) (P : Particles) (idx : Arr Nat) (hidx : IndexOf P idx) (s0 s : ARSys)
    (h0 : ARSys.init G type time P idx = .ok s0) (oss : List (List Op)) (hr : Steps (ARStep G type IC) oss s0 (.ok s)) :
    s.R.bindE = - totalEnergy G P ∧ (type = .ttl → s.R.omega = s.R.bindE + kinetic s.P) := by
  obtain ⟨s0', e0, _, hall⟩ := C53_archain_evolves_like_regularized A G type time P idx hidx oss
  rw [h0] at e0; cases e0
  rcases hall _ hr with ⟨s', t, e, et, k1, _, _, k4⟩ | ⟨hn, _⟩
  · cases e
    rw [k1, k4]
    refine ⟨C48_binding_energy_constant G type f oss _ t et, ?_⟩
    rintro rfl
    exact (C48_ttl_omega G f time P oss t et).1
  · cases hn

/-- two bodies at rest at unit distance -/
def exR : Particles := { num := 2, pos := fun k => if k = 0 then ⟨0, 0, 0⟩ else ⟨1, 0, 0⟩, vel := fun _ => ⟨0, 0, 0⟩, mass := fun _ => 1 }

theorem exR_pot : Spec.potential 1 exR.num exR.mass exR.pos = -1 := by
  have : ((range 2) ×ˢ (range 2)).filter (fun p : ℕ × ℕ => p.1 < p.2) = {(0, 1)} := by decide
  unfold Spec.potential
  show ∑ p ∈ ((range 2) ×ˢ (range 2)).filter (fun p : ℕ × ℕ => p.1 < p.2), _ = _
  rw [this, sum_singleton]
  simp [exR, Spec.len, dot, sub_x, sub_y, sub_z]

/-- Concretely: two bodies at rest; the divisor of the first position update is minus the
potential energy, which is not zero, so it succeeds. -/
example (h : ℝ) : ∃ s', (ReguSys.init 1 .logH 0 exR).drift .logH h = .ok s' ∧ s'.stepScale = 1 := by
  have hk : kinetic exR = 0 := by rw [kinetic_eq]; simp [exR, dot]
  have hp : potentialDirect 1 exR = -1 := by
    rw [potentialDirect_eq]; exact exR_pot
  have hD : posDivisor .logH (ReguSys.init 1 .logH 0 exR) = 1 := by
    show -totalEnergy 1 exR + kinetic exR = 1
    unfold totalEnergy; rw [hk, hp]; norm_num
  obtain ⟨s', e, r⟩ := (C48_position_update .logH (ReguSys.init 1 .logH 0 exR) h).2 (by rw [hD]; norm_num)
  refine ⟨s', e, ?_⟩
  rw [r.2.2.2.2.2.2.1]; simp [hD]

end SpaceHub.Sys
