import Verif.Proof.Evolve
import Verif.Spec.Motion
import Mathlib.Algebra.Module.LinearMap.Basic

set_option autoImplicit false

namespace SpaceHub.Sys
open SpaceHub V3 Force Core Integrator Finset Spec

/-- a linear functional of the accelerations (momentum, torque) -/
def Lin (n : Nat) (φ : Nat → V3 ℝ →ₗ[ℝ] V3 ℝ) (a : Arr (V3 ℝ)) : V3 ℝ := ∑ k ∈ range n, φ k (a k)

theorem Lin_advance (n : Nat) (φ : Nat → V3 ℝ →ₗ[ℝ] V3 ℝ) (v a : Arr (V3 ℝ)) (h : ℝ) :
    Lin n φ (advance n v a h) = Lin n φ v + h • Lin n φ a := by
  unfold Lin
  rw [smul_sum, ← sum_add_distrib]
  refine sum_congr rfl fun k hk => ?_
  rw [advance_apply, if_pos (mem_range.1 hk), map_add, map_smul]

theorem Lin_arrayAdd (n : Nat) (φ : Nat → V3 ℝ →ₗ[ℝ] V3 ℝ) (a b : Arr (V3 ℝ)) :
    Lin n φ (arrayAdd n a b) = Lin n φ a + Lin n φ b := by
  unfold Lin
  rw [← sum_add_distrib]
  refine sum_congr rfl fun k hk => ?_
  rw [arrayAdd_apply, if_pos (mem_range.1 hk), map_add]

theorem Lin_zero (n : Nat) (φ : Nat → V3 ℝ →ₗ[ℝ] V3 ℝ) : Lin n φ (fun _ => 0) = 0 := by simp [Lin]

theorem setZero_zero (n : Nat) : setZero n (fun _ => 0) = fun _ => 0 := by funext k; simp [setZero]

/-- the force does not change the functional, for particles at the given places -/
def Neutral (n : Nat) (m : Arr ℝ) (x : Arr (V3 ℝ)) (φ : Nat → V3 ℝ →ₗ[ℝ] V3 ℝ) (f : ForceClass Particles) : Prop :=
  ∀ P acc, P.num = n → P.mass = m → P.pos = x → Lin n φ (f.addAccTo P acc) = Lin n φ acc

structure NeutralI (n : Nat) (m : Arr ℝ) (x : Arr (V3 ℝ)) (φ : Nat → V3 ℝ →ₗ[ℝ] V3 ℝ) (I : Interactions) : Prop where
  internal : Neutral n m x φ I.internal
  extra : ∀ f ∈ I.extra, Neutral n m x φ f

namespace NeutralI
variable {n : Nat} {m : Arr ℝ} {x : Arr (V3 ℝ)} {φ : Nat → V3 ℝ →ₗ[ℝ] V3 ℝ} {I : Interactions}
  (N : NeutralI n m x φ I) {P : Particles} (hn : P.num = n) (hm : P.mass = m) (hx : P.pos = x)
include hn hm hx

theorem foldl_eq {l : List (ForceClass Particles)} (hl : ∀ f ∈ l, Neutral n m x φ f) (a : Arr (V3 ℝ)) :
    Lin n φ (l.foldl (fun acc f => f.addAccTo P acc) a) = Lin n φ a := by
  induction l generalizing a with
  | nil => rfl
  | cons f l ih =>
    rw [List.foldl_cons, ih (fun g hg => hl g (List.mem_cons_of_mem _ hg)), hl f List.mem_cons_self P a hn hm hx]

theorem dep_eq {l : List (ForceClass Particles)} (hl : ∀ f ∈ l, Neutral n m x φ f) (a : Arr (V3 ℝ)) :
    Lin n φ (invokeVelDep P l a) = Lin n φ a := by
  induction l generalizing a with
  | nil => rfl
  | cons f l ih =>
    rw [invokeVelDep, ih (fun g hg => hl g (List.mem_cons_of_mem _ hg))]
    split_ifs
    · exact hl f List.mem_cons_self P a hn hm hx
    · rfl

theorem indep_eq {l : List (ForceClass Particles)} (hl : ∀ f ∈ l, Neutral n m x φ f) (a : Arr (V3 ℝ)) :
    Lin n φ (invokeVelIndep P l a) = Lin n φ a := by
  induction l generalizing a with
  | nil => rfl
  | cons f l ih =>
    rw [invokeVelIndep, ih (fun g hg => hl g (List.mem_cons_of_mem _ hg))]
    split_ifs
    · exact hl f List.mem_cons_self P a hn hm hx
    · rfl

include N

theorem acc_zero : Lin n φ (I.acc P) = 0 := by
  unfold Interactions.acc evalAcc
  simp only
  rw [foldl_eq hn hm hx N.extra, N.internal P _ hn hm hx, setZero_zero, Lin_zero]

theorem velDepAcc_zero : Lin n φ (I.velDepAcc P) = 0 := by
  unfold Interactions.velDepAcc evalExtraVelDepAcc
  split_ifs
  · rw [dep_eq hn hm hx N.extra, setZero_zero, Lin_zero]
  · rw [Lin_zero]

theorem velIndepAcc_zero : Lin n φ (I.velIndepAcc P) = 0 := by
  unfold Interactions.velIndepAcc evalExtraVelIndepAcc
  split_ifs
  · rw [indep_eq hn hm hx N.extra, setZero_zero, Lin_zero]
  · rw [Lin_zero]

theorem newtonianAcc_zero : Lin n φ (I.newtonianAcc P) = 0 := by
  unfold Interactions.newtonianAcc evalNewtonianAcc
  simp only
  rw [N.internal P _ hn hm hx, setZero_zero, Lin_zero]
end NeutralI

/-! ### what a kick can change -/

namespace Simple
variable (I : Interactions)

theorem syncPos_fields (s : Simple) (v : Arr (V3 ℝ)) (h : ℝ) : ∃ i, s.syncPos v h = { s with inc := i } := by
  unfold syncPos; split_ifs
  · exact ⟨_, rfl⟩
  · exact ⟨s.inc, rfl⟩
theorem syncVel_fields (s : Simple) (v : Arr (V3 ℝ)) (h : ℝ) : ∃ i, s.syncVel v h = { s with inc := i } := by
  unfold syncVel; split_ifs
  · exact ⟨_, rfl⟩
  · exact ⟨s.inc, rfl⟩
theorem syncAux_fields (s : Simple) (v : Arr (V3 ℝ)) (h : ℝ) : ∃ i, s.syncAux v h = { s with inc := i } := by
  unfold syncAux; split_ifs
  · exact ⟨_, rfl⟩
  · exact ⟨s.inc, rfl⟩
theorem syncTime_fields (s : Simple) (h : ℝ) : ∃ i, s.syncTime h = { s with inc := i } := by
  unfold syncTime; split_ifs
  · exact ⟨_, rfl⟩
  · exact ⟨s.inc, rfl⟩

theorem drift_fields (s : Simple) (h : ℝ) :
    ∃ i, s.drift h = { s with P := { s.P with pos := advance s.P.num s.P.pos s.P.vel h }, time := s.time + h, inc := i } := by
  unfold drift
  simp only
  obtain ⟨i, hi⟩ := syncTime_fields
    { s with P := { s.P with pos := advance s.P.num s.P.pos s.P.vel h }, time := s.time + h } h
  rw [hi]
  obtain ⟨j, hj⟩ := syncPos_fields
    { s with P := { s.P with pos := advance s.P.num s.P.pos s.P.vel h }, time := s.time + h, inc := i } s.P.vel h
  exact ⟨j, hj⟩

theorem kickReal_fields (a : Arr (V3 ℝ)) (h : ℝ) (s : Simple) :
    ∃ i, s.kickReal I a h =
      { s with P := { s.P with vel := advance s.P.num s.P.vel (arrayAdd s.P.num a (I.velDepAcc { s.P with vel := s.aux })) h }, inc := i } := by
  unfold kickReal
  simp only
  obtain ⟨i, hi⟩ := syncVel_fields { s with
      P := { s.P with vel := advance s.P.num s.P.vel (arrayAdd s.P.num a (I.velDepAcc { s.P with vel := s.aux })) h } }
    (arrayAdd s.P.num a (I.velDepAcc { s.P with vel := s.aux })) h
  exact ⟨i, hi⟩

theorem kickPseu_fields (a : Arr (V3 ℝ)) (h : ℝ) (s : Simple) :
    ∃ i, s.kickPseu I a h = { s with inc := i, aux := advance s.P.num s.aux (arrayAdd s.P.num a (I.velDepAcc s.P)) h } := by
  unfold kickPseu
  simp only
  obtain ⟨i, hi⟩ := syncAux_fields { s with aux := advance s.P.num s.aux (arrayAdd s.P.num a (I.velDepAcc s.P)) h }
    (arrayAdd s.P.num a (I.velDepAcc s.P)) h
  exact ⟨i, hi⟩

theorem kick_lin {n : Nat} {m : Arr ℝ} {x : Arr (V3 ℝ)} {φ : Nat → V3 ℝ →ₗ[ℝ] V3 ℝ} {I : Interactions}
    (N : NeutralI n m x φ I) (s : Simple) (hn : s.P.num = n) (hm : s.P.mass = m) (hx : s.P.pos = x) (h : ℝ) :
    Lin n φ (s.kick I h).P.vel = Lin n φ s.P.vel := by
  have ht : Lin n φ (totVelIndepAcc I s.P) = 0 := by
    unfold totVelIndepAcc
    simp only
    split_ifs
    · rw [hn, Lin_arrayAdd, N.newtonianAcc_zero hn hm hx, N.velIndepAcc_zero hn hm hx, add_zero]
    · exact N.newtonianAcc_zero hn hm hx
  unfold kick
  split_ifs
  · generalize totVelIndepAcc I s.P = tot at *
    simp only
    obtain ⟨i, hi⟩ := s.kickReal_fields I tot (1 / 2 * h)
    generalize s.kickReal I tot (1 / 2 * h) = s1 at *
    obtain ⟨j, hj⟩ := s1.kickPseu_fields I tot h
    generalize s1.kickPseu I tot h = s2 at *
    obtain ⟨k, hk⟩ := s2.kickReal_fields I tot (1 / 2 * h)
    have n2 : s2.P.num = n ∧ s2.P.mass = m ∧ s2.P.pos = x ∧ s2.P.vel = s1.P.vel := by rw [hj, hi]; exact ⟨hn, hm, hx, rfl⟩
    rw [hk]
    simp only [n2.1]
    rw [Lin_advance, Lin_arrayAdd, ht, N.velDepAcc_zero (P := ⟨n, s2.P.pos, s2.aux, s2.P.mass⟩) rfl n2.2.1 n2.2.2.1, n2.2.2.2, hi]
    simp only [hn]
    rw [Lin_advance, Lin_arrayAdd, ht, N.velDepAcc_zero (P := ⟨n, s.P.pos, s.aux, s.P.mass⟩) rfl hm hx]
    simp
  · simp only
    obtain ⟨i, hi⟩ := syncVel_fields { s with P := { s.P with vel := advance s.P.num s.P.vel (I.acc s.P) h } } (I.acc s.P) h
    rw [hi]
    simp only [hn]
    rw [Lin_advance, N.acc_zero hn hm hx]; simp

/-- a kick changes nothing but velocities, auxiliary velocities and increments -/
theorem kick_frame (s : Simple) (h : ℝ) :
    (s.kick I h).P.num = s.P.num ∧ (s.kick I h).P.mass = s.P.mass ∧ (s.kick I h).P.pos = s.P.pos ∧
      (s.kick I h).time = s.time ∧ (s.kick I h).sync = s.sync := by
  unfold kick
  split_ifs
  · generalize totVelIndepAcc I s.P = tot at *
    simp only
    obtain ⟨i, hi⟩ := s.kickReal_fields I tot (1 / 2 * h)
    generalize s.kickReal I tot (1 / 2 * h) = s1 at *
    obtain ⟨j, hj⟩ := s1.kickPseu_fields I tot h
    generalize s1.kickPseu I tot h = s2 at *
    obtain ⟨k, hk⟩ := s2.kickReal_fields I tot (1 / 2 * h)
    rw [hk, hj, hi]
    exact ⟨rfl, rfl, rfl, rfl, rfl⟩
  · simp only
    obtain ⟨i, hi⟩ := syncVel_fields { s with P := { s.P with vel := advance s.P.num s.P.vel (I.acc s.P) h } } (I.acc s.P) h
    rw [hi]
    exact ⟨rfl, rfl, rfl, rfl, rfl⟩
end Simple

/-! ### RegularizedSystem -/

namespace ReguSys
variable (G : ℝ) (type : ReguType) (I : Interactions)

theorem syncVel_fields (s : ReguSys) (v : Arr (V3 ℝ)) (h : ℝ) : ∃ i, s.syncVel v h = { s with inc := i } := by
  unfold syncVel; split_ifs
  · exact ⟨_, rfl⟩
  · exact ⟨s.inc, rfl⟩
theorem syncAux_fields (s : ReguSys) (v : Arr (V3 ℝ)) (h : ℝ) : ∃ i, s.syncAux v h = { s with inc := i } := by
  unfold syncAux; split_ifs
  · exact ⟨_, rfl⟩
  · exact ⟨s.inc, rfl⟩
theorem syncTime_fields (s : ReguSys) (h : ℝ) : ∃ i, s.syncTime h = { s with inc := i } := by
  unfold syncTime; split_ifs
  · exact ⟨_, rfl⟩
  · exact ⟨s.inc, rfl⟩

/-- work of the accelerations `d` on the particles moving with `v`, as used for `omega` -/
noncomputable def dW (s : ReguSys) (v d : Arr (V3 ℝ)) : ℝ := domegaDt type s.P.num s.P.mass v d
/-- the same for the binding energy -/
noncomputable def dB (s : ReguSys) (v d : Arr (V3 ℝ)) : ℝ := dbindEDt type (I.velIndep || I.velDep) s.P.num s.P.mass v d

theorem advanceOmega_fields (v d : Arr (V3 ℝ)) (t : ℝ) (s : ReguSys) :
    ∃ i, s.advanceOmega type I v d t = { s with R := { s.R with omega := s.R.omega + s.dW type v d * t }, inc := i } := by
  unfold advanceOmega syncOmega dW
  dsimp only
  split_ifs
  · exact ⟨_, rfl⟩
  · exact ⟨s.inc, rfl⟩

theorem advanceBindE_fields (v d : Arr (V3 ℝ)) (t : ℝ) (s : ReguSys) :
    ∃ i, s.advanceBindE type I v d t = { s with R := { s.R with bindE := s.R.bindE + s.dB type I v d * t }, inc := i } := by
  unfold advanceBindE syncBindE dB
  dsimp only
  split_ifs
  · exact ⟨_, rfl⟩
  · exact ⟨s.inc, rfl⟩

theorem kickReal_fields (a : Arr (V3 ℝ)) (h : ℝ) (s : ReguSys) :
    ∃ i, s.kickReal I a h =
      { s with P := { s.P with vel := advance s.P.num s.P.vel (arrayAdd s.P.num a (I.velDepAcc { s.P with vel := s.aux })) h }, inc := i } := by
  unfold kickReal
  simp only
  obtain ⟨i, hi⟩ := syncVel_fields { s with
      P := { s.P with vel := advance s.P.num s.P.vel (arrayAdd s.P.num a (I.velDepAcc { s.P with vel := s.aux })) h } }
    (arrayAdd s.P.num a (I.velDepAcc { s.P with vel := s.aux })) h
  exact ⟨i, hi⟩

/-- the acceleration that changes the binding energy in `kick_pseu_vel` -/
noncomputable def extTot (s : ReguSys) (ext : Arr (V3 ℝ)) : Arr (V3 ℝ) :=
  if I.velIndep then arrayAdd s.P.num ext (I.velDepAcc s.P) else I.velDepAcc s.P

theorem kickPseu_fields (newt ext tot : Arr (V3 ℝ)) (t : ℝ) (s : ReguSys) :
    ∃ i, s.kickPseu type I newt ext tot t =
      { s with aux := advance s.P.num s.aux (arrayAdd s.P.num tot (I.velDepAcc s.P)) t, inc := i,
               R := { s.R with omega := s.R.omega + s.dW type s.P.vel newt * t,
                               bindE := s.R.bindE + s.dB type I s.P.vel (s.extTot I ext) * t } } := by
  unfold kickPseu extTot
  simp only
  obtain ⟨i, hi⟩ := syncAux_fields { s with aux := advance s.P.num s.aux (arrayAdd s.P.num tot (I.velDepAcc s.P)) t }
    (arrayAdd s.P.num tot (I.velDepAcc s.P)) t
  rw [hi]
  obtain ⟨j, hj⟩ := advanceOmega_fields type I s.P.vel newt t
    { s with aux := advance s.P.num s.aux (arrayAdd s.P.num tot (I.velDepAcc s.P)) t, inc := i }
  rw [hj]
  split_ifs with hv
  · obtain ⟨k, hk⟩ := advanceBindE_fields type I s.P.vel (arrayAdd s.P.num ext (I.velDepAcc s.P)) t
      { s with aux := advance s.P.num s.aux (arrayAdd s.P.num tot (I.velDepAcc s.P)) t, inc := j,
               R := { s.R with omega := s.R.omega + s.dW type s.P.vel newt * t } }
    exact ⟨k, hk⟩
  · obtain ⟨k, hk⟩ := advanceBindE_fields type I s.P.vel (I.velDepAcc s.P) t
      { s with aux := advance s.P.num s.aux (arrayAdd s.P.num tot (I.velDepAcc s.P)) t, inc := j,
               R := { s.R with omega := s.R.omega + s.dW type s.P.vel newt * t } }
    exact ⟨k, hk⟩

theorem iteBindE_fields (v d : Arr (V3 ℝ)) (t : ℝ) (s : ReguSys) :
    ∃ i, (if I.velIndep = true then s.advanceBindE type I v d t else s) =
      { s with R := { s.R with bindE := s.R.bindE + if I.velIndep = true then s.dB type I v d * t else 0 }, inc := i } := by
  split_ifs
  · exact advanceBindE_fields type I v d t s
  · exact ⟨s.inc, by simp⟩

theorem kickElse_fields (newt ext tot : Arr (V3 ℝ)) (t : ℝ) (s : ReguSys) :
    ∃ i, s.kickElse type I newt ext tot t =
      { s with P := { s.P with vel := advance s.P.num s.P.vel tot t }, inc := i,
               R := { s.R with omega := s.R.omega + s.dW type s.P.vel newt * (1 / 2 * t)
                                  + s.dW type (advance s.P.num s.P.vel tot t) newt * (1 / 2 * t),
                               bindE := s.R.bindE + (if I.velIndep = true then s.dB type I s.P.vel ext * (1 / 2 * t) else 0)
                                  + if I.velIndep = true then s.dB type I (advance s.P.num s.P.vel tot t) ext * (1 / 2 * t) else 0 } } := by
  unfold kickElse
  simp only
  obtain ⟨i, hi⟩ := advanceOmega_fields type I s.P.vel newt (1 / 2 * t) s
  generalize s.advanceOmega type I s.P.vel newt (1 / 2 * t) = s1 at *
  obtain ⟨j, hj⟩ := iteBindE_fields type I s1.P.vel ext (1 / 2 * t) s1
  generalize (if I.velIndep = true then s1.advanceBindE type I s1.P.vel ext (1 / 2 * t) else s1) = s2 at *
  obtain ⟨k, hk⟩ := syncVel_fields { s2 with P := { s2.P with vel := advance s2.P.num s2.P.vel tot t } } tot t
  generalize syncVel { s2 with P := { s2.P with vel := advance s2.P.num s2.P.vel tot t } } tot t = s3 at *
  obtain ⟨l, hl⟩ := iteBindE_fields type I s3.P.vel ext (1 / 2 * t) s3
  generalize (if I.velIndep = true then s3.advanceBindE type I s3.P.vel ext (1 / 2 * t) else s3) = s4 at *
  obtain ⟨o, ho⟩ := advanceOmega_fields type I s4.P.vel newt (1 / 2 * t) s4
  rw [ho, hl, hk, hj, hi]
  exact ⟨_, rfl⟩

/-- the velocity-independent accelerations used by a kick -/
noncomputable def totAcc (P : Particles) : Arr (V3 ℝ) :=
  if I.velIndep then arrayAdd P.num (I.velIndepAcc P) (I.newtonianAcc P) else I.newtonianAcc P

theorem kick_lin {n : Nat} {m : Arr ℝ} {x : Arr (V3 ℝ)} {φ : Nat → V3 ℝ →ₗ[ℝ] V3 ℝ} {I : Interactions}
    (N : NeutralI n m x φ I) (s s' : ReguSys) (hn : s.P.num = n) (hm : s.P.mass = m) (hx : s.P.pos = x) (h : ℝ)
    (e : s.kick G type I h = .ok s') :
    Lin n φ s'.P.vel = Lin n φ s.P.vel ∧ s'.P.num = n ∧ s'.P.mass = m ∧ s'.P.pos = x ∧ s'.time = s.time := by
  rw [kick_eq] at e
  obtain ⟨rt, _, e⟩ := Res.bind_eq_ok.1 e
  simp only at e
  have e' := Res.ok.inj e
  have ht : Lin n φ (totAcc I s.P) = 0 := by
    unfold totAcc
    split_ifs
    · rw [hn, Lin_arrayAdd, N.newtonianAcc_zero hn hm hx, N.velIndepAcc_zero hn hm hx, add_zero]
    · exact N.newtonianAcc_zero hn hm hx
  change (if I.velDep = true then
      ((kickReal I (totAcc I s.P) (1 / 2 * rt.2) { s with R := rt.1 }).kickPseu type I (I.newtonianAcc s.P)
        (I.velIndepAcc s.P) (totAcc I s.P) rt.2).kickReal I (totAcc I s.P) (1 / 2 * rt.2)
      else kickElse type I (I.newtonianAcc s.P) (I.velIndepAcc s.P) (totAcc I s.P) rt.2 { s with R := rt.1 }) = s' at e'
  generalize totAcc I s.P = tot at *
  have hv : ∀ v, Lin n φ (I.velDepAcc ⟨n, x, v, m⟩) = 0 := fun v => N.velDepAcc_zero rfl rfl rfl
  split_ifs at e'
  · obtain ⟨i, hi⟩ := kickReal_fields I tot (1 / 2 * rt.2) { s with R := rt.1 }
    generalize kickReal I tot (1 / 2 * rt.2) { s with R := rt.1 } = s1 at *
    obtain ⟨j, hj⟩ := kickPseu_fields type I (I.newtonianAcc s.P) (I.velIndepAcc s.P) tot rt.2 s1
    generalize kickPseu type I (I.newtonianAcc s.P) (I.velIndepAcc s.P) tot rt.2 s1 = s2 at *
    obtain ⟨k, hk⟩ := kickReal_fields I tot (1 / 2 * rt.2) s2
    have n2 : s2.P.num = n ∧ s2.P.mass = m ∧ s2.P.pos = x ∧ s2.P.vel = s1.P.vel ∧ s2.time = s.time := by
      rw [hj, hi]; exact ⟨hn, hm, hx, rfl, rfl⟩
    rw [← e', hk]
    refine ⟨?_, n2.1, n2.2.1, n2.2.2.1, n2.2.2.2.2⟩
    simp only [n2]
    rw [Lin_advance, Lin_arrayAdd, ht, hv, hi]
    simp only [hn, hm, hx]
    rw [Lin_advance, Lin_arrayAdd, ht, hv]
    simp
  · obtain ⟨i, hi⟩ := kickElse_fields type I (I.newtonianAcc s.P) (I.velIndepAcc s.P) tot rt.2 { s with R := rt.1 }
    rw [← e', hi]
    refine ⟨?_, hn, hm, hx, rfl⟩
    simp only [hn]
    rw [Lin_advance, ht]; simp

theorem drift_fields (s s' : ReguSys) (h : ℝ) (e : s.drift type h = .ok s') :
    ∃ rt i, s.R.posPhyTime type (kinetic s.P) h = .ok rt ∧
      s' = { s with P := { s.P with pos := advance s.P.num s.P.pos s.P.vel rt.2 }, time := s.time + rt.2, inc := i, R := rt.1 } := by
  unfold drift at e
  obtain ⟨rt, hr, e⟩ := Res.bind_eq_ok.1 e
  refine ⟨rt, ?_⟩
  have e' := Res.ok.inj e
  obtain ⟨i, hi⟩ := syncTime_fields
    { s with P := { s.P with pos := advance s.P.num s.P.pos s.P.vel rt.2 }, time := s.time + rt.2, R := rt.1 } rt.2
  obtain ⟨j, hj⟩ := syncPos_fields
    { s with P := { s.P with pos := advance s.P.num s.P.pos s.P.vel rt.2 }, time := s.time + rt.2, inc := i, R := rt.1 } s.P.vel rt.2
  rw [hi] at e'
  exact ⟨j, hr, e'.symm.trans hj⟩
end ReguSys

end SpaceHub.Sys
