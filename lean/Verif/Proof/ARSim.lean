import Verif.Proof.ChainSim

/-
`ARchainSystem` simulates `RegularizedSystem`.
-/

set_option autoImplicit false

namespace SpaceHub.Sys
open SpaceHub V3 Force Core

namespace ReguSys
theorem syncPos_fields (s : ReguSys) (v : Arr (V3 ℝ)) (h : ℝ) : ∃ i, s.syncPos v h = { s with inc := i } := by
  unfold syncPos; split_ifs
  · exact ⟨_, rfl⟩
  · exact ⟨s.inc, rfl⟩
end ReguSys

namespace ARSys

/-- the state of a plain regularised system that an AR-chain system represents (without increment collection) -/
def abs (s : ARSys) : ReguSys :=
  { P := s.P, time := s.time, aux := s.aux, R := s.R, inc := fun _ => 0, sync := false }

/-- at least two particles, and all chain coordinates describe the Cartesian ones -/
structure Good (velDep : Bool) (s : ARSys) : Prop where
  two : 2 ≤ s.P.num
  cons : ChainConsistent velDep s.P.num s.index s.cpos s.cvel s.caux s.P.pos s.P.vel s.aux

variable {b : Bool} {s : ARSys}

theorem Good.consistent (g : Good b s) : Consistent s.P s.view := ⟨g.cons.index, g.cons.pos, g.cons.vel⟩
theorem Good.weaken (g : Good b s) : Good false s := ⟨g.two, ⟨g.cons.num, g.cons.index, g.cons.pos, g.cons.vel, fun h => by simp at h⟩⟩

theorem syncTime_fields (s : ARSys) (h : ℝ) : ∃ i, s.syncTime h = { s with inc := i } := by
  unfold syncTime; split_ifs
  · exact ⟨_, rfl⟩
  · exact ⟨s.inc, rfl⟩
theorem syncPos_fields (s : ARSys) (v : Arr (V3 ℝ)) (h : ℝ) : ∃ i, s.syncPos v h = { s with inc := i } := by
  unfold syncPos; split_ifs
  · exact ⟨_, rfl⟩
  · exact ⟨s.inc, rfl⟩
theorem syncVel_fields (s : ARSys) (v : Arr (V3 ℝ)) (h : ℝ) : ∃ i, s.syncVel v h = { s with inc := i } := by
  unfold syncVel; split_ifs
  · exact ⟨_, rfl⟩
  · exact ⟨s.inc, rfl⟩
theorem syncAux_fields (s : ARSys) (v : Arr (V3 ℝ)) (h : ℝ) : ∃ i, s.syncAux v h = { s with inc := i } := by
  unfold syncAux; split_ifs
  · exact ⟨_, rfl⟩
  · exact ⟨s.inc, rfl⟩

/-- a step that succeeds, stays consistent along the same chain, and does to the represented state what the plain
step does -/
def SimOk (b : Bool) (s : ARSys) (r : Res ARSys) (t : ReguSys) : Prop :=
  ∃ s', r = .ok s' ∧ Good b s' ∧ s'.index = s.index ∧ s'.abs = t

/-- the same for steps that may divide the step by zero: both do or neither -/
def Sim (b : Bool) (s : ARSys) (r : Res ARSys) (t : Res ReguSys) : Prop :=
  (∃ t', t = .ok t' ∧ SimOk b s r t') ∨ (t = .nan ∧ r = .nan)

theorem divStep_cases (h x : ℝ) : (∃ t, Regu.divStep h x = .ok t) ∨ Regu.divStep h x = .nan := by
  unfold Regu.divStep; split_ifs
  · exact .inr rfl
  · exact .inl ⟨_, rfl⟩

theorem posPhyTime_cases (type : ReguType) (kin h : ℝ) (r : Regu) :
    (∃ x, r.posPhyTime type kin h = .ok x) ∨ r.posPhyTime type kin h = .nan := by
  unfold Regu.posPhyTime
  cases type
  · dsimp only
    rcases divStep_cases h (r.bindE + kin) with ⟨t, e⟩ | e
    · rw [e]; exact .inl ⟨_, rfl⟩
    · rw [e]; exact .inr rfl
  · dsimp only
    rcases divStep_cases h r.omega with ⟨t, e⟩ | e
    · rw [e]; exact .inl ⟨_, rfl⟩
    · rw [e]; exact .inr rfl
  · exact .inl ⟨_, rfl⟩

theorem velPhyTime_cases (type : ReguType) (pot h : ℝ) (r : Regu) :
    (∃ x, r.velPhyTime type pot h = .ok x) ∨ r.velPhyTime type pot h = .nan := by
  unfold Regu.velPhyTime
  cases type
  · dsimp only
    rcases divStep_cases h (-pot) with ⟨t, e⟩ | e
    · rw [e]; exact .inl ⟨_, rfl⟩
    · rw [e]; exact .inr rfl
  · dsimp only
    rcases divStep_cases h (-pot) with ⟨t, e⟩ | e
    · rw [e]; exact .inl ⟨_, rfl⟩
    · rw [e]; exact .inr rfl
  · exact .inl ⟨_, rfl⟩

theorem drift_sim (type : ReguType) (g : Good b s) (h : ℝ) : Sim b s (s.drift type h) (s.abs.drift type h) := by
  unfold drift ReguSys.drift
  have e : s.abs.R = s.R ∧ s.abs.P = s.P := ⟨rfl, rfl⟩
  rw [e.1, e.2]
  rcases posPhyTime_cases type (kinetic s.P) h s.R with ⟨⟨R', t⟩, e1⟩ | e1
  · rw [e1]
    simp only [Res.ok_bind, chainAdvance_eq g.cons.num g.cons.index t g.cons.pos g.cons.vel]
    obtain ⟨i, hi⟩ := syncTime_fields
      { s with R := R', time := s.time + t, P := { s.P with pos := advance s.P.num s.P.pos s.P.vel t },
               cpos := advance s.P.num s.cpos s.cvel t } t
    obtain ⟨j, hj⟩ := syncPos_fields
      { s with R := R', time := s.time + t, P := { s.P with pos := advance s.P.num s.P.pos s.P.vel t },
               cpos := advance s.P.num s.cpos s.cvel t, inc := i } s.cvel t
    rw [hi, hj]
    refine .inl ⟨_, rfl, _, rfl, ⟨g.two, ⟨g.cons.num, g.cons.index, ?_, g.cons.vel, g.cons.aux⟩⟩, rfl, rfl⟩
    exact belongs_advance g.cons.num g.cons.index t g.cons.pos g.cons.vel
  · rw [e1]; exact .inr ⟨rfl, rfl⟩

section kick
variable {IC : ChainInteractions} {I : Interactions} (A : AgreesI IC I)

theorem advanceOmega_sim (type : ReguType) (g : Good b s) (v d : Arr (V3 ℝ)) (t : ℝ) :
    Good b (s.advanceOmega type IC v d t) ∧ (s.advanceOmega type IC v d t).index = s.index ∧
    (s.advanceOmega type IC v d t).abs = s.abs.advanceOmega type I v d t ∧
    (s.advanceOmega type IC v d t).P = s.P := by
  unfold advanceOmega syncOmega
  dsimp only
  split_ifs <;> exact ⟨⟨g.two, g.cons⟩, rfl, rfl, rfl⟩

include A in
theorem advanceBindE_sim (type : ReguType) (g : Good b s) (v d : Arr (V3 ℝ)) (t : ℝ) :
    Good b (s.advanceBindE type IC v d t) ∧ (s.advanceBindE type IC v d t).index = s.index ∧
    (s.advanceBindE type IC v d t).abs = s.abs.advanceBindE type I v d t ∧
    (s.advanceBindE type IC v d t).P = s.P := by
  unfold advanceBindE syncBindE
  rw [A.velDep_eq, A.velIndep_eq]
  dsimp only
  split_ifs <;> exact ⟨⟨g.two, g.cons⟩, rfl, rfl, rfl⟩

include A in
theorem kickReal_sim (g : Good true s) (a : Arr (V3 ℝ)) (h : ℝ) :
    SimOk true s (s.kickReal IC a h) (s.abs.kickReal I a h) := by
  have hc : Consistent { s.P with vel := s.aux } { s.view with chainVel := s.caux } :=
    ⟨g.cons.index, g.cons.pos, g.cons.aux rfl⟩
  unfold kickReal
  rw [A.velDepAcc_eq (P := { s.P with vel := s.aux }) g.two hc]
  obtain ⟨c, hc1, hb⟩ := toChain_ok g.cons.num s.index
    (arrayAdd s.P.num a (I.velDepAcc { s.P with vel := s.aux })) (fun _ => 0)
  simp only [Res.ok_bind, hc1, chainAdvance_eq g.cons.num g.cons.index h g.cons.vel hb]
  generalize hx : arrayAdd s.P.num a (I.velDepAcc { s.P with vel := s.aux }) = x at *
  obtain ⟨i, hi⟩ := syncVel_fields
    { s with P := { s.P with vel := advance s.P.num s.P.vel x h }, cvel := advance s.P.num s.cvel c h } c h
  rw [hi]
  refine ⟨_, rfl, ⟨g.two, ⟨g.cons.num, g.cons.index, g.cons.pos, ?_, g.cons.aux⟩⟩, rfl, by rw [← hx]; rfl⟩
  exact belongs_advance g.cons.num g.cons.index h g.cons.vel hb

include A in
theorem kickPseu_sim (type : ReguType) (g : Good true s) (newt ext a : Arr (V3 ℝ)) (h : ℝ) :
    SimOk true s (s.kickPseu type IC newt ext a h) (s.abs.kickPseu type I newt ext a h) := by
  unfold kickPseu
  rw [A.velDepAcc_eq g.two g.consistent]
  obtain ⟨c, hc1, hb⟩ := toChain_ok g.cons.num s.index (arrayAdd s.P.num a (I.velDepAcc s.P)) (fun _ => 0)
  simp only [Res.ok_bind, hc1, chainAdvance_eq g.cons.num g.cons.index h (g.cons.aux rfl) hb]
  obtain ⟨i, hi⟩ := syncAux_fields
    { s with aux := advance s.P.num s.aux (arrayAdd s.P.num a (I.velDepAcc s.P)) h, caux := advance s.P.num s.caux c h } c h
  rw [hi]
  generalize hs1 : ARSys.mk _ _ _ _ _ _ _ _ _ _ = s1
  have g1 : Good true s1 := by
    subst hs1
    exact ⟨g.two, ⟨g.cons.num, g.cons.index, g.cons.pos, g.cons.vel,
      fun _ => belongs_advance g.cons.num g.cons.index h (g.cons.aux rfl) hb⟩⟩
  have i1 : s1.index = s.index := by subst hs1; rfl
  have a1 : s1.abs = { s.abs with aux := advance s.P.num s.aux (arrayAdd s.P.num a (I.velDepAcc s.P)) h } := by
    subst hs1; rfl
  obtain ⟨g2, i2, a2, hp1⟩ := advanceOmega_sim (IC := IC) (I := I) type g1 s1.P.vel newt h
  obtain ⟨g3, i3, a3, _⟩ := advanceBindE_sim A type g2 (s1.advanceOmega type IC s1.P.vel newt h).P.vel
    (arrayAdd s1.P.num ext (I.velDepAcc s.P)) h
  obtain ⟨g4, i4, a4, _⟩ := advanceBindE_sim A type g2 (s1.advanceOmega type IC s1.P.vel newt h).P.vel
    (I.velDepAcc s.P) h
  have hp0 : s1.P = s.P := by subst hs1; rfl
  rw [hp1] at a3 a4 g3 g4 i3 i4 ⊢
  rw [A.velIndep_eq]
  unfold ReguSys.kickPseu
  cases hv : I.velIndep
  · simp only [Bool.false_eq_true, if_false]
    refine ⟨_, rfl, g4, by rw [i4, i2, i1], ?_⟩
    rw [a4, a2, a1, hp0]; rfl
  · simp only [if_true]
    refine ⟨_, rfl, g3, by rw [i3, i2, i1], ?_⟩
    rw [a3, a2, a1, hp0]; rfl

/-- the branch of `kick` without velocity-dependent forces -/
noncomputable def kickElse (type : ReguType) (I : ChainInteractions) (newt ext tot : Arr (V3 ℝ)) (t : ℝ) (s : ARSys) :
    Res ARSys := do
  let cacc ← Chain.toChain s.P.num tot (fun _ => 0) s.index
  let s := s.advanceOmega type I s.P.vel newt (1 / 2 * t)
  let s := if I.velIndep then s.advanceBindE type I s.P.vel ext (1 / 2 * t) else s
  let r ← ChainSys.chainAdvance s.P.num s.index s.P.vel s.cvel cacc t
  let s := { s with P := { s.P with vel := r.1 }, cvel := r.2 }
  let s := s.syncVel cacc t
  let s := if I.velIndep then s.advanceBindE type I s.P.vel ext (1 / 2 * t) else s
  .ok (s.advanceOmega type I s.P.vel newt (1 / 2 * t))

/-- the branch of `kick` without velocity-dependent forces -/
noncomputable def _root_.SpaceHub.Sys.ReguSys.kickElse (type : ReguType) (I : Interactions) (newt ext tot : Arr (V3 ℝ))
    (t : ℝ) (s : ReguSys) : ReguSys :=
  let s := s.advanceOmega type I s.P.vel newt (1 / 2 * t)
  let s := if I.velIndep then s.advanceBindE type I s.P.vel ext (1 / 2 * t) else s
  let s := { s with P := { s.P with vel := advance s.P.num s.P.vel tot t } }
  let s := s.syncVel tot t
  let s := if I.velIndep then s.advanceBindE type I s.P.vel ext (1 / 2 * t) else s
  s.advanceOmega type I s.P.vel newt (1 / 2 * t)

theorem kickVel_sim (g : Good b s) (tot c : Arr (V3 ℝ)) (hb : BelongsTo s.P.num s.index c tot) (t : ℝ) :
    ∃ r, ChainSys.chainAdvance s.P.num s.index s.P.vel s.cvel c t = .ok r ∧
      Good b (ARSys.syncVel { s with P := { s.P with vel := r.1 }, cvel := r.2 } c t) ∧
      (ARSys.syncVel { s with P := { s.P with vel := r.1 }, cvel := r.2 } c t).index = s.index ∧
      (ARSys.syncVel { s with P := { s.P with vel := r.1 }, cvel := r.2 } c t).abs =
        ReguSys.syncVel { s.abs with P := { s.abs.P with vel := advance s.abs.P.num s.abs.P.vel tot t } } tot t := by
  refine ⟨_, chainAdvance_eq g.cons.num g.cons.index t g.cons.vel hb, ?_⟩
  have hv := belongs_advance g.cons.num g.cons.index t g.cons.vel hb
  unfold syncVel
  split_ifs <;>
  exact ⟨⟨g.two, ⟨g.cons.num, g.cons.index, g.cons.pos, hv, g.cons.aux⟩⟩, rfl, rfl⟩

include A in
theorem kickElse_sim (type : ReguType) (g : Good b s) (newt ext tot : Arr (V3 ℝ)) (t : ℝ) :
    SimOk b s (s.kickElse type IC newt ext tot t) (s.abs.kickElse type I newt ext tot t) := by
  unfold kickElse ReguSys.kickElse
  obtain ⟨c, hc1, hb⟩ := toChain_ok g.cons.num s.index tot (fun _ => 0)
  rw [hc1]
  simp only [Res.ok_bind]
  obtain ⟨g1, i1, a1, p1⟩ := advanceOmega_sim (IC := IC) (I := I) type g s.P.vel newt (1 / 2 * t)
  have e1 : s.abs.advanceOmega type I s.abs.P.vel newt (1 / 2 * t) =
    (s.advanceOmega type IC s.P.vel newt (1 / 2 * t)).abs := a1.symm
  rw [e1]
  generalize s.advanceOmega type IC s.P.vel newt (1 / 2 * t) = w at *
  replace hb : BelongsTo w.P.num w.index c tot := by rw [i1, p1]; exact hb
  rw [A.velIndep_eq]
  obtain ⟨g2, i2, a2, p2⟩ : Good b (if I.velIndep = true then w.advanceBindE type IC w.P.vel ext (1 / 2 * t) else w) ∧
      (if I.velIndep = true then w.advanceBindE type IC w.P.vel ext (1 / 2 * t) else w).index = w.index ∧
      (if I.velIndep = true then w.abs.advanceBindE type I w.abs.P.vel ext (1 / 2 * t) else w.abs) =
        (if I.velIndep = true then w.advanceBindE type IC w.P.vel ext (1 / 2 * t) else w).abs ∧
      (if I.velIndep = true then w.advanceBindE type IC w.P.vel ext (1 / 2 * t) else w).P = w.P := by
    split_ifs
    · obtain ⟨x, y, z, u⟩ := advanceBindE_sim A type g1 w.P.vel ext (1 / 2 * t)
      exact ⟨x, y, z.symm, u⟩
    · exact ⟨g1, rfl, rfl, rfl⟩
  rw [a2]
  clear a2
  generalize (if I.velIndep = true then w.advanceBindE type IC w.P.vel ext (1 / 2 * t) else w) = u at *
  replace hb : BelongsTo u.P.num u.index c tot := by rw [i2, p2]; exact hb
  obtain ⟨r, hr, g3, i3, a3⟩ := kickVel_sim g2 tot c hb t
  rw [hr]
  simp only [Res.ok_bind]
  rw [← a3]
  generalize ARSys.syncVel _ c t = w' at *
  obtain ⟨g4, i4, a4, p4⟩ : Good b (if I.velIndep = true then w'.advanceBindE type IC w'.P.vel ext (1 / 2 * t) else w') ∧
      (if I.velIndep = true then w'.advanceBindE type IC w'.P.vel ext (1 / 2 * t) else w').index = w'.index ∧
      (if I.velIndep = true then w'.abs.advanceBindE type I w'.abs.P.vel ext (1 / 2 * t) else w'.abs) =
        (if I.velIndep = true then w'.advanceBindE type IC w'.P.vel ext (1 / 2 * t) else w').abs ∧
      (if I.velIndep = true then w'.advanceBindE type IC w'.P.vel ext (1 / 2 * t) else w').P = w'.P := by
    split_ifs
    · obtain ⟨x, y, z, u⟩ := advanceBindE_sim A type g3 w'.P.vel ext (1 / 2 * t)
      exact ⟨x, y, z.symm, u⟩
    · exact ⟨g3, rfl, rfl, rfl⟩
  rw [a4]
  clear a4
  generalize (if I.velIndep = true then w'.advanceBindE type IC w'.P.vel ext (1 / 2 * t) else w') = v at *
  obtain ⟨g5, i5, a5, _⟩ := advanceOmega_sim (IC := IC) (I := I) type g4 v.P.vel newt (1 / 2 * t)
  exact ⟨_, rfl, g5, by rw [i5, i4, i3, i2, i1], a5⟩

theorem _root_.SpaceHub.Sys.ReguSys.kick_eq (G : ℝ) (type : ReguType) (I : Interactions) (h : ℝ) (s : ReguSys) :
    s.kick G type I h = (s.R.velPhyTime type (potentialDirect G s.P) h) >>= fun rt =>
      let s' : ReguSys := { s with R := rt.1 }
      let newt := I.newtonianAcc s.P
      let ext := I.velIndepAcc s.P
      let tot := if I.velIndep then arrayAdd s.P.num ext newt else newt
      .ok (if I.velDep then ((s'.kickReal I tot (1 / 2 * rt.2)).kickPseu type I newt ext tot rt.2).kickReal I tot (1 / 2 * rt.2)
        else s'.kickElse type I newt ext tot rt.2) := by
  unfold ReguSys.kick
  congr 1
  funext rt
  cases I.velDep <;> rfl

include A in
theorem kick_sim (G : ℝ) (type : ReguType) (hb : b = I.velDep) (g : Good b s) (h : ℝ) :
    Sim b s (s.kick G type IC h) (s.abs.kick G type I h) := by
  rw [ReguSys.kick_eq]
  unfold kick
  have e : s.abs.R = s.R ∧ s.abs.P = s.P := ⟨rfl, rfl⟩
  rw [potentialChain_eq G s.P s.view g.two g.cons.index g.cons.pos, e.1, e.2, potentialDirect_eq]
  simp only [Res.ok_bind]
  rcases velPhyTime_cases type (Spec.potential G s.P.num s.P.mass s.P.pos) h s.R with ⟨⟨R', t⟩, e1⟩ | e1
  · rw [e1]
    have n1 : IC.newtonianAcc s.P ({ s with R := R' } : ARSys).view = .ok (I.newtonianAcc s.P) :=
      A.newtonianAcc_eq g.two g.consistent
    have n2 : IC.velIndepAcc s.P ({ s with R := R' } : ARSys).view = .ok (I.velIndepAcc s.P) :=
      A.velIndepAcc_eq g.two g.consistent
    simp only [Res.ok_bind, n1, n2]
    rw [A.velDep_eq]
    have hvi := A.velIndep_eq
    have g0 : Good b ({ s with R := R' } : ARSys) := ⟨g.two, g.cons⟩
    refine .inl ⟨_, rfl, ?_⟩
    cases hd : I.velDep
    · obtain ⟨s', q1, q2, q3, q4⟩ := kickElse_sim A type g0 (I.newtonianAcc s.P) (I.velIndepAcc s.P)
        (if I.velIndep then arrayAdd s.P.num (I.velIndepAcc s.P) (I.newtonianAcc s.P) else I.newtonianAcc s.P) t
      refine ⟨s', ?_, q2, q3, q4⟩
      rw [← q1, ← hvi]
      rfl
    · subst hb
      rw [hd] at g0
      obtain ⟨s1, e1, g1, i1, a1⟩ := kickReal_sim A g0
        (if I.velIndep then arrayAdd s.P.num (I.velIndepAcc s.P) (I.newtonianAcc s.P) else I.newtonianAcc s.P) (1 / 2 * t)
      obtain ⟨s2, e2, g2, i2, a2⟩ := kickPseu_sim A type g1 (I.newtonianAcc s.P) (I.velIndepAcc s.P)
        (if I.velIndep then arrayAdd s.P.num (I.velIndepAcc s.P) (I.newtonianAcc s.P) else I.newtonianAcc s.P) t
      obtain ⟨s3, e3, g3, i3, a3⟩ := kickReal_sim A g2
        (if I.velIndep then arrayAdd s.P.num (I.velIndepAcc s.P) (I.newtonianAcc s.P) else I.newtonianAcc s.P) (1 / 2 * t)
      simp only [if_true, hvi, Res.ok_bind, e1, e2]
      refine ⟨s3, e3, by rw [hd]; exact g3, by rw [i3, i2, i1], ?_⟩
      rw [a3, a2, a1]
      rfl
  · rw [e1]; exact .inr ⟨rfl, rfl⟩

include A in
theorem preIter_sim (g : Good false s) : Good I.velDep (s.preIter IC) ∧ (s.preIter IC).abs = s.abs.preIter I := by
  unfold preIter ReguSys.preIter
  rw [A.velDep_eq]
  cases I.velDep
  · exact ⟨g, rfl⟩
  · exact ⟨⟨g.two, ⟨g.cons.num, g.cons.index, g.cons.pos, g.cons.vel, fun _ => g.cons.vel⟩⟩, rfl⟩
end kick

theorem postIter_sim (g : Good false s) (newIdx : Arr Nat) (hi : IsIndex s.P.num newIdx) :
    ∃ s', s.postIter newIdx = .ok s' ∧ Good false s' ∧ s'.abs = s.abs ∧ ∀ k, k < s.P.num → s'.index k = newIdx k := by
  unfold postIter
  split_ifs with h
  · obtain ⟨l, hl, hlen, hb⟩ := Chain.C04_update_chain s.P.num g.cons.num s.index newIdx g.cons.index hi s.cpos s.P.pos g.cons.pos
    obtain ⟨l', hl', hlen', hb'⟩ := Chain.C04_update_chain s.P.num g.cons.num s.index newIdx g.cons.index hi s.cvel s.P.vel g.cons.vel
    have bp := belongs_congr (chain' := fun k => if k < s.P.num then l.getD k 0 else s.cpos k) g.cons.num hi
      (fun k hk => by simp [hk]) (fun _ _ => rfl) (hb 0)
    have bv := belongs_congr (chain' := fun k => if k < s.P.num then l'.getD k 0 else s.cvel k) g.cons.num hi
      (fun k hk => by simp [hk]) (fun _ _ => rfl) (hb' 0)
    simp only [hl, hl', store_ok _ hlen, store_ok _ hlen', Res.ok_bind, toCartesian_belongs g.cons.num hi _ _ _ bp,
      toCartesian_belongs g.cons.num hi _ _ _ bv]
    refine ⟨_, rfl, ⟨g.two, ⟨g.cons.num, hi, ?_, ?_, fun h => by simp at h⟩⟩, ?_, fun _ _ => rfl⟩
    · simpa using bp
    · simpa using bv
    · simp [abs]
  · refine ⟨s, rfl, g, rfl, fun k hk => ?_⟩
    by_contra hne
    exact h ⟨k, hk, fun e => hne e.symm⟩

theorem init_sim (G : ℝ) (type : ReguType) (time : ℝ) (P : Particles) (idx : Arr Nat) (hn : 2 ≤ P.num)
    (hi : IsIndex P.num idx) :
    ∃ s, init G type time P idx = .ok s ∧ Good true s ∧ s.abs = ReguSys.init G type time P ∧ s.index = idx := by
  have h0 : P.num ≠ 0 := by omega
  obtain ⟨c, hc, hb⟩ := toChain_ok h0 idx P.pos (fun _ => 0)
  obtain ⟨d, hd, hb'⟩ := toChain_ok h0 idx P.vel (fun _ => 0)
  unfold init
  simp only [hc, hd, Res.ok_bind]
  rw [potentialChain_eq G P { chainPos := c, chainVel := d, index := idx } hn hi hb]
  simp only [Res.ok_bind]
  refine ⟨_, rfl, ⟨hn, ⟨h0, hi, hb, hb', fun _ => hb'⟩⟩, ?_, rfl⟩
  simp only [abs, ReguSys.init, totalEnergy, potentialDirect_eq]
end ARSys
end SpaceHub.Sys
