import Verif.Props.Time
import Verif.Props.Systems
import Verif.Spec.Motion

/-
C18: time reversibility.
-/

set_option autoImplicit false

namespace SpaceHub.Sys
open SpaceHub V3 Force Core Integrator Spec Props

/-- the call with the opposite step -/
def inv : Op → Op
  | .drift h => .drift (-h)
  | .kick h => .kick (-h)

/-- the same calls backwards with opposite steps -/
def undo (ops : List Op) : List Op := (ops.map inv).reverse

theorem run_append {S : Type} (o : Ops S) (l l' : List Op) (s : S) : o.run (l ++ l') s = o.run l s >>= o.run l' := by
  induction l generalizing s with
  | nil => rfl
  | cons op l ih =>
    show (o.apply op s >>= o.run (l ++ l')) = (o.apply op s >>= o.run l) >>= o.run l'
    cases o.apply op s with
    | ok s1 => exact ih s1
    | _ => rfl

theorem run_undo {S : Type} (o : Ops S) (E : S → S → Prop)
    (hE : ∀ op s s1 t, o.apply op s = .ok s1 → E s1 t → ∃ t', o.apply (inv op) t = .ok t' ∧ E s t')
    (ops : List Op) (s s' t : S) (e : o.run ops s = .ok s') (ht : E s' t) :
    ∃ t', o.run (undo ops) t = .ok t' ∧ E s t' := by
  induction ops generalizing s with
  | nil => cases e; exact ⟨t, rfl, ht⟩
  | cons op ops ih =>
    obtain ⟨s1, e1, e2⟩ := Res.bind_eq_ok.1 e
    obtain ⟨t1, h1, h2⟩ := ih s1 e2
    obtain ⟨t', h3, h4⟩ := hE op s s1 t1 e1 h2
    refine ⟨t', ?_, h4⟩
    unfold undo at h1 ⊢
    rw [List.map_cons, List.reverse_cons, run_append, h1]
    simp only [Res.ok_bind, Ops.run, h3]

/-! ### the forces -/

/-- internal force and all forces declared velocity independent only look at positions -/
structure HonestForces (I : Interactions) : Prop where
  internal : PositionOnly I.internal
  extra : ∀ f ∈ I.extra, f.velDep = false → PositionOnly f

namespace HonestForces
variable {I : Interactions} (H : HonestForces I) (P : Particles) (v : Arr (V3 ℝ))
include H

theorem newtonianAcc_eq : I.newtonianAcc { P with vel := v } = I.newtonianAcc P := by
  unfold Interactions.newtonianAcc evalNewtonianAcc
  exact H.internal P v _

theorem invoke_eq (a : Arr (V3 ℝ)) : invokeVelIndep { P with vel := v } I.extra a = invokeVelIndep P I.extra a := by
  have := H.extra
  revert this
  generalize I.extra = l
  intro hl
  induction l generalizing a with
  | nil => rfl
  | cons f l ih =>
    rw [invokeVelIndep, invokeVelIndep, ih _ (fun g hg => hl g (List.mem_cons_of_mem _ hg))]
    congr 1
    by_cases hf : f.velDep = false
    · rw [hl f List.mem_cons_self hf P v]
    · simp [hf]

theorem velIndepAcc_eq : I.velIndepAcc { P with vel := v } = I.velIndepAcc P := by
  unfold Interactions.velIndepAcc evalExtraVelIndepAcc
  rw [H.invoke_eq]

theorem acc_eq (hd : I.velDep = false) : I.acc { P with vel := v } = I.acc P := by
  unfold Interactions.acc evalAcc
  simp only
  rw [H.internal P v]
  have h1 := H.extra
  have h2 : ∀ f ∈ I.extra, f.velDep = false := by
    intro f hf
    by_contra h
    have : I.velDep = true := List.any_eq_true.2 ⟨f, hf, by simpa using h⟩
    rw [hd] at this; cases this
  revert h1 h2
  generalize I.internal.addAccTo P (setZero P.num fun _ => 0) = a
  generalize I.extra = l
  intro h1 h2
  induction l generalizing a with
  | nil => rfl
  | cons f l ih =>
    rw [List.foldl_cons, List.foldl_cons, h1 f List.mem_cons_self (h2 f List.mem_cons_self) P v]
    exact ih _ (fun g hg => h1 g (List.mem_cons_of_mem _ hg)) (fun g hg => h2 g (List.mem_cons_of_mem _ hg))

theorem totVelIndepAcc_eq : Simple.totVelIndepAcc I { P with vel := v } = Simple.totVelIndepAcc I P := by
  unfold Simple.totVelIndepAcc
  simp only
  rw [H.newtonianAcc_eq, H.velIndepAcc_eq]

theorem totAcc_eq : ReguSys.totAcc I { P with vel := v } = ReguSys.totAcc I P := by
  unfold ReguSys.totAcc
  rw [H.newtonianAcc_eq, H.velIndepAcc_eq]
end HonestForces

/-! ### plain systems -/

/-- same particles, time and auxiliary velocities -/
def SameS (s t : Simple) : Prop := t.P = s.P ∧ t.time = s.time ∧ t.aux = s.aux

theorem simple_undo_op {I : Interactions} (H : HonestForces I) (op : Op) (s s1 t : Simple)
    (e : (simpleOps I).apply op s = .ok s1) (ht : SameS s1 t) :
    ∃ t', (simpleOps I).apply (inv op) t = .ok t' ∧ SameS s t' := by
  obtain ⟨hP, hT, hA⟩ := ht
  cases op with
  | drift h =>
    cases e
    refine ⟨_, rfl, ?_⟩
    obtain ⟨i, hi⟩ := s.drift_fields h
    obtain ⟨j, hj⟩ := t.drift_fields (-h)
    rw [hi] at hP hT hA
    rw [hj]
    refine ⟨?_, ?_, ?_⟩
    · simp only [hP, advance_neg]
    · simp only [hT]; ring
    · simp only [hA]
  | kick h =>
    cases e
    refine ⟨_, rfl, ?_⟩
    show SameS s (t.kick I (-h))
    unfold Simple.kick at hP hT hA ⊢
    cases hd : I.velDep
    · simp only [hd, Bool.false_eq_true, if_false] at hP hT hA ⊢
      obtain ⟨i, hi⟩ := Simple.syncVel_fields { s with P := { s.P with vel := advance s.P.num s.P.vel (I.acc s.P) h } } (I.acc s.P) h
      rw [hi] at hP hT hA
      obtain ⟨j, hj⟩ := Simple.syncVel_fields { t with P := { t.P with vel := advance t.P.num t.P.vel (I.acc t.P) (-h) } } (I.acc t.P) (-h)
      rw [hj]
      refine ⟨?_, hT, hA⟩
      have hacc := H.acc_eq s.P (advance s.P.num s.P.vel (I.acc s.P) h) hd
      rw [hP]
      simp only [hacc, advance_neg]
    · simp only [hd, if_true] at hP hT hA ⊢
      have e0 : Simple.totVelIndepAcc I t.P = Simple.totVelIndepAcc I s.P := by
        have hpos : ∃ v, t.P = { s.P with vel := v } := by
          refine ⟨t.P.vel, ?_⟩
          have := (s.kick_frame I h)
          unfold Simple.kick at this
          simp only [hd, if_true] at this
          rw [← hP] at this
          obtain ⟨h1, h2, h3, _⟩ := this
          cases t with | mk P _ _ _ _ => cases P; simp only at h1 h2 h3 ⊢; rw [h1, h2, h3]
        obtain ⟨v, hv⟩ := hpos
        rw [hv, H.totVelIndepAcc_eq]
      rw [e0]
      generalize Simple.totVelIndepAcc I s.P = tot at *
      obtain ⟨i, hi⟩ := s.kickReal_fields I tot (1 / 2 * h)
      generalize s.kickReal I tot (1 / 2 * h) = s1 at *
      obtain ⟨j, hj⟩ := s1.kickPseu_fields I tot h
      generalize s1.kickPseu I tot h = s2 at *
      obtain ⟨k, hk⟩ := s2.kickReal_fields I tot (1 / 2 * h)
      rw [hk] at hP hT hA
      obtain ⟨i', hi'⟩ := t.kickReal_fields I tot (1 / 2 * -h)
      generalize t.kickReal I tot (1 / 2 * -h) = t1 at *
      obtain ⟨j', hj'⟩ := t1.kickPseu_fields I tot (-h)
      generalize t1.kickPseu I tot (-h) = t2 at *
      obtain ⟨k', hk'⟩ := t2.kickReal_fields I tot (1 / 2 * -h)
      rw [hk']
      have m : (1 / 2 * -h : ℝ) = -(1 / 2 * h) := by ring
      have a1 : t1.P = s2.P ∧ t1.aux = s2.aux ∧ t1.time = s2.time := by
        rw [hi', m]; simp only [hP, hA, hT, advance_neg, and_self]
      have a2 : t2.P = s1.P ∧ t2.aux = s1.aux ∧ t2.time = s1.time := by
        have b1 : s2.P = s1.P ∧ s2.time = s1.time ∧ s2.aux = advance s1.P.num s1.aux (arrayAdd s1.P.num tot (I.velDepAcc s1.P)) h := by
          rw [hj]; exact ⟨rfl, rfl, rfl⟩
        rw [hj']; simp only [a1, b1, advance_neg, and_self]
      refine ⟨?_, ?_, ?_⟩
      · simp only [a2, m]; rw [hi]; simp only [advance_neg]
      · simp only [a2]; rw [hi]
      · simp only [a2]; rw [hi]

/-- A plain system: making any calls and then the same calls backwards with opposite steps gives back the particles,
the time and the auxiliary velocities exactly.  The velocity-dependent forces may be anything. -/
theorem C18_simple_undo (I : Interactions) (H : HonestForces I) (ops : List Op) (s s' : Simple)
    (e : (simpleOps I).run ops s = .ok s') :
    ∃ s'', (simpleOps I).run (undo ops) s' = .ok s'' ∧ s''.P = s.P ∧ s''.time = s.time ∧ s''.aux = s.aux :=
  run_undo (simpleOps I) SameS (simple_undo_op H) ops s s' s' e ⟨rfl, rfl, rfl⟩

/-! ### regularised systems -/

/-- same particles, time, auxiliary velocities and regularisation variables (the step scale is recomputed in each call) -/
def SameR (s t : ReguSys) : Prop :=
  t.P = s.P ∧ t.time = s.time ∧ t.aux = s.aux ∧ t.R.omega = s.R.omega ∧ t.R.bindE = s.R.bindE

theorem posPhyTime_undo {type : ReguType} {kin h : ℝ} {r r' : Regu} {rt : Regu × ℝ} (e : r.posPhyTime type kin h = .ok rt) :
    (rt.1.omega = r.omega ∧ rt.1.bindE = r.bindE) ∧
    (r'.omega = r.omega → r'.bindE = r.bindE → ∃ rt', r'.posPhyTime type kin (-h) = .ok rt' ∧ rt'.2 = -rt.2 ∧
      rt'.1.omega = r.omega ∧ rt'.1.bindE = r.bindE) := by
  unfold Regu.posPhyTime at e ⊢
  cases type
  · simp only [Regu.divStep] at e ⊢
    split_ifs at e with h0
    · simp at e
    · cases e
      refine ⟨⟨rfl, rfl⟩, fun h1 h2 => ?_⟩
      rw [h2, if_neg h0]
      exact ⟨_, rfl, neg_div _ _, h1, rfl⟩
  · simp only [Regu.divStep] at e ⊢
    split_ifs at e with h0
    · simp at e
    · cases e
      refine ⟨⟨rfl, rfl⟩, fun h1 h2 => ?_⟩
      rw [h1, if_neg h0]
      exact ⟨_, rfl, neg_div _ _, rfl, h2⟩
  · cases e
    exact ⟨⟨rfl, rfl⟩, fun h1 h2 => ⟨_, rfl, rfl, h1, h2⟩⟩

theorem velPhyTime_undo {type : ReguType} {pot h : ℝ} {r r' : Regu} {rt : Regu × ℝ} (e : r.velPhyTime type pot h = .ok rt) :
    (rt.1.omega = r.omega ∧ rt.1.bindE = r.bindE) ∧
    ∃ rt', r'.velPhyTime type pot (-h) = .ok rt' ∧ rt'.2 = -rt.2 ∧ rt'.1.omega = r'.omega ∧ rt'.1.bindE = r'.bindE := by
  unfold Regu.velPhyTime at e ⊢
  cases type
  · simp only [Regu.divStep] at e ⊢
    split_ifs at e with h0
    · simp at e
    · cases e
      rw [if_neg h0]
      exact ⟨⟨rfl, rfl⟩, _, rfl, neg_div _ _, rfl, rfl⟩
  · simp only [Regu.divStep] at e ⊢
    split_ifs at e with h0
    · simp at e
    · cases e
      rw [if_neg h0]
      exact ⟨⟨rfl, rfl⟩, _, rfl, neg_div _ _, rfl, rfl⟩
  · cases e
    exact ⟨⟨rfl, rfl⟩, _, rfl, rfl, rfl, rfl⟩

theorem potentialDirect_vel (G : ℝ) (P : Particles) (v : Arr (V3 ℝ)) :
    potentialDirect G { P with vel := v } = potentialDirect G P := rfl

theorem kinetic_pos (P : Particles) (x : Arr (V3 ℝ)) : kinetic { P with pos := x } = kinetic P := rfl

theorem particles_eta {P Q : Particles} (h1 : P.num = Q.num) (h2 : P.mass = Q.mass) (h3 : P.pos = Q.pos) :
    P = { Q with vel := P.vel } := by
  cases P; cases Q; simp only at h1 h2 h3 ⊢; subst h1 h2 h3; rfl

theorem regu_undo_op {G : ℝ} {type : ReguType} {I : Interactions} (H : HonestForces I) (op : Op) (s s1 t : ReguSys)
    (e : (reguOps G type I).apply op s = .ok s1) (ht : SameR s1 t) :
    ∃ t', (reguOps G type I).apply (inv op) t = .ok t' ∧ SameR s t' := by
  obtain ⟨hP, hT, hA, hO, hB⟩ := ht
  cases op with
  | drift h =>
    change s.drift type h = .ok s1 at e
    show ∃ t', t.drift type (-h) = .ok t' ∧ _
    obtain ⟨rt, i, hr, hs1⟩ := ReguSys.drift_fields type s s1 h e
    obtain ⟨⟨r1, r2⟩, r3⟩ := posPhyTime_undo (r' := t.R) hr
    rw [hs1] at hP hT hA hO hB
    obtain ⟨rt', e2, h1, h2, h3⟩ := r3 (by rw [hO]; exact r1) (by rw [hB]; exact r2)
    have hkin : kinetic t.P = kinetic s.P := by rw [hP]; rfl
    have : ∃ t', t.drift type (-h) = .ok t' := by
      unfold ReguSys.drift; rw [hkin, e2]; exact ⟨_, rfl⟩
    obtain ⟨t', e3⟩ := this
    refine ⟨t', e3, ?_⟩
    obtain ⟨rt2, j, e4, ht'⟩ := ReguSys.drift_fields type t t' (-h) e3
    rw [hkin, e2] at e4; cases e4
    rw [ht']
    refine ⟨?_, ?_, hA, h2, h3⟩
    · simp only [hP, h1, advance_neg]
    · simp only [hT, h1]; ring
  | kick h =>
    change s.kick G type I h = .ok s1 at e
    show ∃ t', t.kick G type I (-h) = .ok t' ∧ _
    rw [ReguSys.kick_eq] at e
    obtain ⟨rt, hr, e⟩ := Res.bind_eq_ok.1 e
    have e := Res.ok.inj e
    change (if I.velDep = true then
      ((ReguSys.kickReal I (ReguSys.totAcc I s.P) (1 / 2 * rt.2) { s with R := rt.1 }).kickPseu type I (I.newtonianAcc s.P)
        (I.velIndepAcc s.P) (ReguSys.totAcc I s.P) rt.2).kickReal I (ReguSys.totAcc I s.P) (1 / 2 * rt.2)
      else ReguSys.kickElse type I (I.newtonianAcc s.P) (I.velIndepAcc s.P) (ReguSys.totAcc I s.P) rt.2 { s with R := rt.1 }) = s1 at e
    obtain ⟨⟨r1, r2⟩, rt', e2, h1, h2, h3⟩ := velPhyTime_undo (r' := t.R) hr
    -- only velocities changed
    have hfr : s1.P.num = s.P.num ∧ s1.P.mass = s.P.mass ∧ s1.P.pos = s.P.pos := by
      rw [← e]
      split_ifs
      · obtain ⟨i, hi⟩ := ReguSys.kickReal_fields I (ReguSys.totAcc I s.P) (1 / 2 * rt.2) { s with R := rt.1 }
        generalize ReguSys.kickReal I (ReguSys.totAcc I s.P) (1 / 2 * rt.2) { s with R := rt.1 } = u1 at *
        obtain ⟨j, hj⟩ := ReguSys.kickPseu_fields type I (I.newtonianAcc s.P) (I.velIndepAcc s.P) (ReguSys.totAcc I s.P) rt.2 u1
        generalize u1.kickPseu type I (I.newtonianAcc s.P) (I.velIndepAcc s.P) (ReguSys.totAcc I s.P) rt.2 = u2 at *
        obtain ⟨k, hk⟩ := ReguSys.kickReal_fields I (ReguSys.totAcc I s.P) (1 / 2 * rt.2) u2
        rw [hk, hj, hi]; exact ⟨rfl, rfl, rfl⟩
      · obtain ⟨i, hi⟩ := ReguSys.kickElse_fields type I (I.newtonianAcc s.P) (I.velIndepAcc s.P) (ReguSys.totAcc I s.P) rt.2 { s with R := rt.1 }
        rw [hi]; exact ⟨rfl, rfl, rfl⟩
    have hPv : t.P = { s.P with vel := t.P.vel } := particles_eta (hP ▸ hfr.1) (hP ▸ hfr.2.1) (hP ▸ hfr.2.2)
    have q1 : potentialDirect G t.P = potentialDirect G s.P := by rw [hPv]; rfl
    have q2 : I.newtonianAcc t.P = I.newtonianAcc s.P := by rw [hPv, H.newtonianAcc_eq]
    have q3 : I.velIndepAcc t.P = I.velIndepAcc s.P := by rw [hPv, H.velIndepAcc_eq]
    have q4 : ReguSys.totAcc I t.P = ReguSys.totAcc I s.P := by rw [hPv, H.totAcc_eq]
    rw [ReguSys.kick_eq, q1, e2, Res.ok_bind]
    refine ⟨_, rfl, ?_⟩
    change SameR s (if I.velDep = true then
      ((ReguSys.kickReal I (ReguSys.totAcc I t.P) (1 / 2 * rt'.2) { t with R := rt'.1 }).kickPseu type I (I.newtonianAcc t.P)
        (I.velIndepAcc t.P) (ReguSys.totAcc I t.P) rt'.2).kickReal I (ReguSys.totAcc I t.P) (1 / 2 * rt'.2)
      else ReguSys.kickElse type I (I.newtonianAcc t.P) (I.velIndepAcc t.P) (ReguSys.totAcc I t.P) rt'.2 { t with R := rt'.1 })
    rw [q2, q3, q4, h1]
    obtain ⟨tau, htau⟩ : ∃ tau, tau = rt.2 := ⟨_, rfl⟩
    rw [← htau] at e ⊢
    generalize ReguSys.totAcc I s.P = tot at *
    generalize I.newtonianAcc s.P = newt at *
    generalize I.velIndepAcc s.P = ext at *
    have m : (1 / 2 * -tau : ℝ) = -(1 / 2 * tau) := by ring
    cases hd : I.velDep
    · simp only [hd, Bool.false_eq_true, if_false] at e ⊢
      obtain ⟨i, hi⟩ := ReguSys.kickElse_fields type I newt ext tot tau { s with R := rt.1 }
      obtain ⟨j, hj⟩ := ReguSys.kickElse_fields type I newt ext tot (-tau) { t with R := rt'.1 }
      rw [← e, hi] at hP hT hA hO hB
      rw [hj]
      refine ⟨?_, hT, hA, ?_, ?_⟩
      · simp only [hP, advance_neg]
      · simp only [h2, hO, r1, hP, ReguSys.dW, advance_neg]; ring
      · simp only [h3, hB, r2, hP, ReguSys.dB, advance_neg]
        split_ifs <;> ring
    · simp only [hd, if_true] at e ⊢
      obtain ⟨i, hi⟩ := ReguSys.kickReal_fields I tot (1 / 2 * tau) { s with R := rt.1 }
      generalize ReguSys.kickReal I tot (1 / 2 * tau) { s with R := rt.1 } = u1 at *
      obtain ⟨j, hj⟩ := ReguSys.kickPseu_fields type I newt ext tot tau u1
      generalize u1.kickPseu type I newt ext tot tau = u2 at *
      obtain ⟨k, hk⟩ := ReguSys.kickReal_fields I tot (1 / 2 * tau) u2
      rw [← e, hk] at hP hT hA hO hB
      obtain ⟨i', hi'⟩ := ReguSys.kickReal_fields I tot (1 / 2 * -tau) { t with R := rt'.1 }
      generalize ReguSys.kickReal I tot (1 / 2 * -tau) { t with R := rt'.1 } = t1 at *
      obtain ⟨j', hj'⟩ := ReguSys.kickPseu_fields type I newt ext tot (-tau) t1
      generalize t1.kickPseu type I newt ext tot (-tau) = t2 at *
      obtain ⟨k', hk'⟩ := ReguSys.kickReal_fields I tot (1 / 2 * -tau) t2
      rw [hk']
      have a1 : t1.P = u2.P ∧ t1.aux = u2.aux ∧ t1.time = u2.time ∧ t1.R.omega = u2.R.omega ∧ t1.R.bindE = u2.R.bindE := by
        rw [hi', m]; simp only [hP, hA, hT, h2, hO, h3, hB, advance_neg, and_self]
      have b1 : u2.P = u1.P ∧ u2.time = u1.time ∧ u2.aux = advance u1.P.num u1.aux (arrayAdd u1.P.num tot (I.velDepAcc u1.P)) tau ∧
          u2.R.omega = u1.R.omega + u1.dW type u1.P.vel newt * tau ∧
          u2.R.bindE = u1.R.bindE + u1.dB type I u1.P.vel (u1.extTot I ext) * tau := by
        rw [hj]; exact ⟨rfl, rfl, rfl, rfl, rfl⟩
      have a2 : t2.P = u1.P ∧ t2.aux = u1.aux ∧ t2.time = u1.time ∧ t2.R.omega = u1.R.omega ∧ t2.R.bindE = u1.R.bindE := by
        rw [hj']
        refine ⟨?_, ?_, ?_, ?_, ?_⟩
        · simp only [a1, b1]
        · simp only [a1, b1, advance_neg]
        · simp only [a1, b1]
        · simp only [a1, b1, ReguSys.dW]; ring
        · simp only [a1, b1, ReguSys.dB, ReguSys.extTot]; ring
      refine ⟨?_, ?_, ?_, ?_, ?_⟩
      · simp only [a2, m]; rw [hi]; simp only [advance_neg]
      · simp only [a2]; rw [hi]
      · simp only [a2]; rw [hi]
      · simp only [a2]; rw [hi]; exact r1
      · simp only [a2]; rw [hi]; exact r2

/-- A regularised system (logarithmic Hamiltonian, time-transformed leap-frog or none): the same, and the regularisation
variables come back too.  Undoing never divides by zero if doing did not. -/
theorem C18_regularized_undo (G : ℝ) (type : ReguType) (I : Interactions) (H : HonestForces I) (ops : List Op)
    (s s' : ReguSys) (e : (reguOps G type I).run ops s = .ok s') :
    ∃ s'', (reguOps G type I).run (undo ops) s' = .ok s'' ∧ s''.P = s.P ∧ s''.time = s.time ∧ s''.aux = s.aux ∧
      s''.R.omega = s.R.omega ∧ s''.R.bindE = s.R.bindE :=
  run_undo (reguOps G type I) SameR (regu_undo_op H) ops s s' s' e ⟨rfl, rfl, rfl, rfl, rfl⟩

/-! ### the integrators: a step `h` followed by a step `-h` -/

theorem undo_stages (l : List Stage) (h : ℝ) : undo (l.map (Stage.op h)) = l.reverse.map (Stage.op (-h)) := by
  unfold undo
  rw [List.map_map, ← List.map_reverse]
  refine List.map_congr_left fun s _ => ?_
  cases s <;> simp [Stage.op, inv]

theorem loop_rotate (a b : Op) (n : Nat) :
    forLoop 1 n (fun _ l => l ++ [a, b]) [] ++ [a] = a :: forLoop 1 n (fun _ l => l ++ [b, a]) [] := by
  induction n with
  | zero => rfl
  | succ n ih =>
    rcases Nat.eq_zero_or_pos n with rfl | hn
    · rfl
    · rw [forLoop_succ 1 n hn, forLoop_succ 1 n hn, ← List.cons_append, ← ih]
      simp

theorem undo_loop (a b : Op) (n : Nat) :
    undo (forLoop 1 n (fun _ l => l ++ [a, b]) []) = forLoop 1 n (fun _ l => l ++ [inv b, inv a]) [] := by
  have key : ∀ m (l : List Op), (∃ k, l = forLoop 1 k (fun _ l => l ++ [a, b]) [] ∧ k = m) →
      undo l = forLoop 1 m (fun _ l => l ++ [inv b, inv a]) [] := by
    intro m
    induction m with
    | zero => rintro l ⟨k, rfl, rfl⟩; rfl
    | succ m ih =>
      rintro l ⟨k, rfl, rfl⟩
      rcases Nat.eq_zero_or_pos m with rfl | hm
      · rfl
      · rw [forLoop_succ 1 m hm]
        have := ih _ ⟨m, rfl, rfl⟩
        unfold undo at this ⊢
        rw [List.map_append, List.reverse_append, this]
        show inv b :: inv a :: forLoop 1 m (fun _ l => l ++ [inv b, inv a]) [] = _
        rw [← loop_rotate (inv a) (inv b) m, ← List.cons_append, ← loop_rotate (inv b) (inv a) m, forLoop_succ 1 m hm]
        simp
  exact key n _ ⟨n, rfl, rfl⟩

theorem undo_append (l l' : List Op) : undo (l ++ l') = undo l' ++ undo l := by
  unfold undo; rw [List.map_append, List.reverse_append]

theorem undo_substepsDKD (H : ℝ) (n : Nat) : undo (substepsDKD H n) = substepsDKD (-H) n := by
  unfold substepsDKD
  simp only [undo_append, undo_loop, neg_div]
  show [Op.drift (-(1 / 2 * (H / n))), Op.kick (-(H / n))] ++ (forLoop 1 n (fun _ l => l ++ [Op.drift (-(H / n)), Op.kick (-(H / n))]) [] ++
    [Op.drift (-(1 / 2 * (H / n)))]) = _
  have := loop_rotate (Op.kick (-(H / n))) (Op.drift (-(H / n))) n
  rw [show (1 / 2 * -(H / n) : ℝ) = -(1 / 2 * (H / n)) by ring]
  simp only [List.cons_append, List.nil_append]
  rw [show ∀ (x y : Op) (l : List Op), l ++ [x, y] = (l ++ [x]) ++ [y] by simp, this]
  simp

theorem undo_substepsKDK (H : ℝ) (n : Nat) : undo (substepsKDK H n) = substepsKDK (-H) n := by
  unfold substepsKDK
  simp only [undo_append, undo_loop, neg_div]
  show [Op.kick (-(1 / 2 * (H / n))), Op.drift (-(H / n))] ++ (forLoop 1 n (fun _ l => l ++ [Op.kick (-(H / n)), Op.drift (-(H / n))]) [] ++
    [Op.kick (-(1 / 2 * (H / n)))]) = _
  have := loop_rotate (Op.drift (-(H / n))) (Op.kick (-(H / n))) n
  rw [show (1 / 2 * -(H / n) : ℝ) = -(1 / 2 * (H / n)) by ring]
  simp only [List.cons_append, List.nil_append]
  rw [show ∀ (x y : Op) (l : List Op), l ++ [x, y] = (l ++ [x]) ++ [y] by simp, this]
  simp

/-- The calls made in a step `h` by the library's integrators: the six symplectic ones, and the sub-steps of
Bulirsch-Stoer in both variants. -/
inductive LibStep : ℝ → List Op → List Op → Prop
  | symplectic (stages : List Stage) (h : ℝ)
      (hs : stages ∈ [symplectic2nd, leapFrogKDK, symplectic4th, symplectic6th, symplectic8th, symplectic10th]) :
      LibStep h (stages.map (Stage.op h)) (stages.map (Stage.op (-h)))
  | substepsDKD (h : ℝ) (n : Nat) : LibStep h (substepsDKD h n) (substepsDKD (-h) n)
  | substepsKDK (h : ℝ) (n : Nat) : LibStep h (substepsKDK h n) (substepsKDK (-h) n)

theorem LibStep.undo_eq {h : ℝ} {ops back : List Op} (H : LibStep h ops back) : undo ops = back := by
  cases H with
  | symplectic stages h hs =>
    rw [undo_stages]
    congr 1
    simp only [List.mem_cons, List.not_mem_nil, or_false] at hs
    rcases hs with rfl | rfl | rfl | rfl | rfl | rfl <;> rfl
  | substepsDKD h n => exact undo_substepsDKD h n
  | substepsKDK h n => exact undo_substepsKDK h n

/-- Plain system without velocity-dependent forces: advancing by `h` and then by `-h` (two complete steps of the
simulator) gives back the particles and the time exactly, with every integrator of the library, for every `h`. -/
theorem C18_simple (I : Interactions) (H : HonestForces I) (hd : I.velDep = false) (h : ℝ) (ops back : List Op)
    (hl : LibStep h ops back) (s : Simple) :
    ∃ s', steps (simpleStep I) [ops, back] s = .ok s' ∧ s'.P = s.P ∧ s'.time = s.time := by
  have hp : ∀ t : Simple, t.preIter I = t := by intro t; unfold Simple.preIter; rw [hd]; rfl
  obtain ⟨s1, e1, _⟩ := C17_simple_time I ops s
  obtain ⟨s2, e2, h1, h2, _⟩ := C18_simple_undo I H ops s s1 e1
  rw [hl.undo_eq] at e2
  refine ⟨s2, ?_, h1, h2⟩
  simp only [steps, simpleStep, hp, e1, Res.ok_bind, e2]

/-- Regularised system without velocity-dependent forces (logarithmic Hamiltonian, time-transformed leap-frog, none):
the same, including the regularisation variables; if the step does not divide by zero, neither does the way back. -/
theorem C18_regularized (G : ℝ) (type : ReguType) (I : Interactions) (H : HonestForces I) (hd : I.velDep = false) (h : ℝ)
    (ops back : List Op) (hl : LibStep h ops back) (s s1 : ReguSys) (e1 : steps (reguStep G type I) [ops] s = .ok s1) :
    ∃ s', steps (reguStep G type I) [ops, back] s = .ok s' ∧ s'.P = s.P ∧ s'.time = s.time ∧
      s'.R.omega = s.R.omega ∧ s'.R.bindE = s.R.bindE := by
  have hp : ∀ t : ReguSys, t.preIter I = t := by intro t; unfold ReguSys.preIter; rw [hd]; rfl
  simp only [steps, reguStep, hp] at e1 ⊢
  obtain ⟨s1', e, e'⟩ := Res.bind_eq_ok.1 e1
  cases e'
  obtain ⟨s2, e2, h1, h2, _, h3, h4⟩ := C18_regularized_undo G type I H ops s s1 e
  rw [hl.undo_eq] at e2
  refine ⟨s2, ?_, h1, h2, h3, h4⟩
  simp only [e, Res.ok_bind, e2]

/-- Chain system built from any particles, without velocity-dependent forces: the same, whatever indices the
simulator picks after each of the two steps. -/
theorem C18_chain {IC : ChainInteractions} {I : Interactions} (A : AgreesI IC I) (H : HonestForces I)
    (hd : I.velDep = false) (h : ℝ) (ops back : List Op) (hl : LibStep h ops back) (time : ℝ) (P : Particles)
    (idx : Arr Nat) (hidx : IndexOf P idx) (s0 : ChainSys) (h0 : ChainSys.init time P idx = .ok s0) (r : Res ChainSys)
    (hr : Steps (ChainStep IC) [ops, back] s0 r) : ∃ s, r = .ok s ∧ s.P = P ∧ s.time = time := by
  obtain ⟨s0', t, e0, e1, _, hall⟩ := C53_chain_evolves_like_plain A time P idx hidx [ops, back]
  rw [h0] at e0; cases e0
  obtain ⟨s, e, h1, h2, _⟩ := hall r hr
  obtain ⟨s', e2, h3, h4⟩ := C18_simple I H hd h ops back hl (Simple.init time P)
  rw [e1] at e2; cases e2
  exact ⟨s, e, h1.trans h3, h2.trans h4⟩

/-- AR-chain system: the same, unless the first step itself divides by zero. -/
theorem C18_archain {IC : ChainInteractions} {I : Interactions} (A : AgreesI IC I) (H : HonestForces I)
    (hd : I.velDep = false) (G : ℝ) (type : ReguType) (h : ℝ) (ops back : List Op) (hl : LibStep h ops back) (time : ℝ)
    (P : Particles) (idx : Arr Nat) (hidx : IndexOf P idx) (s0 s1 : ARSys) (h0 : ARSys.init G type time P idx = .ok s0)
    (h1 : Steps (ARStep G type IC) [ops] s0 (.ok s1)) (r : Res ARSys) (hr : Steps (ARStep G type IC) [ops, back] s0 r) :
    ∃ s, r = .ok s ∧ s.P = P ∧ s.time = time ∧ s.R.omega = s0.R.omega ∧ s.R.bindE = s0.R.bindE := by
  obtain ⟨s0', e0, _, hall1⟩ := C53_archain_evolves_like_regularized A G type time P idx hidx [ops]
  rw [h0] at e0; cases e0
  obtain ⟨s0', e0, _, hall⟩ := C53_archain_evolves_like_regularized A G type time P idx hidx [ops, back]
  rw [h0] at e0; cases e0
  rcases hall1 _ h1 with ⟨_, t1, _, et1, _⟩ | ⟨hn, _⟩
  swap; · cases hn
  obtain ⟨s', e2, q1, q2, q3, q4⟩ := C18_regularized G type I H hd h ops back hl (ReguSys.init G type time P) t1 et1
  have hR : s0.R = (ReguSys.init G type time P).R := by
    obtain ⟨s0', e0, _, a, _⟩ := ARSys.init_sim G type time P idx hidx.two_le hidx.isIndex
    rw [h0] at e0; cases e0
    rw [← a]; rfl
  rcases hall r hr with ⟨s, t, e, e3, k1, k2, _, k4⟩ | ⟨_, hn⟩
  · rw [e2] at e3; cases e3
    exact ⟨s, e, k1.trans q1, k2.trans q2, by rw [k4, hR]; exact q3, by rw [k4, hR]; exact q4⟩
  · rw [e2] at hn; cases hn

theorem newton_positionOnly : PositionOnly Lib.newton := fun _ _ _ => rfl

/-- Newtonian gravity on its own meets the hypotheses, also in a chain system. -/
theorem C18_newtonian_gravity : HonestForces ⟨Lib.newton, []⟩ ∧ (Interactions.mk Lib.newton []).velDep = false ∧
    AgreesI ⟨Lib.newtonC, []⟩ ⟨Lib.newton, []⟩ :=
  ⟨⟨newton_positionOnly, by intro f hf; cases hf⟩, rfl, ⟨agrees_newton, .nil⟩⟩

/-- So do forces declared velocity dependent, whatever they look at, for the calls of one step (`C18_simple_undo`). -/
example (c : ℝ) : HonestForces ⟨Lib.newton, [Lib.pn 1 c .pn1]⟩ := by
  refine ⟨newton_positionOnly, fun f hf hv => ?_⟩
  rw [List.mem_singleton.1 hf] at hv
  cases hv

/-- Concretely: the tenth-order integrator run forwards and backwards on three bodies in a chain. -/
example (h : ℝ) : ∃ idx s0 s, IndexOf exP idx ∧ ChainSys.init 0 exP idx = .ok s0 ∧
    Steps (ChainStep ⟨Lib.newtonC, []⟩) [symplectic10th.map (Stage.op h), symplectic10th.map (Stage.op (-h))] s0 (.ok s) ∧
    s.P = exP ∧ s.time = 0 := by
  obtain ⟨H, hd, A⟩ := C18_newtonian_gravity
  obtain ⟨idx, hi⟩ := IndexOf.exists exP (by simp [exP])
  obtain ⟨s0, t, e0, _, ⟨r, hr⟩, _⟩ :=
    C53_chain_evolves_like_plain A 0 exP idx hi [symplectic10th.map (Stage.op h), symplectic10th.map (Stage.op (-h))]
  obtain ⟨s, rfl, h1, h2⟩ := C18_chain A H hd h _ _ (.symplectic symplectic10th h (by simp)) 0 exP idx hi s0 e0 r hr
  exact ⟨idx, s0, s, hi, e0, hr, h1, h2⟩

end SpaceHub.Sys
