import Verif.Proof.Evolve
import Verif.Props.Force
import Mathlib.Logic.Relation

/-
C14 (Cartesian coordinates belong to the chain) and C53 (chain and plain systems evolve identically).
-/

set_option autoImplicit false

namespace SpaceHub.Sys
open SpaceHub V3 Force Core Integrator Props

/-! ### C14 -/

/-- The calls a user (or an iterator) can make on a chain system, each returning normally. -/
inductive ChainCall (I : ChainInteractions) : ChainSys → ChainSys → Prop
  | drift (s s' h) (e : s.drift h = .ok s') : ChainCall I s s'
  | kick (s s' h) (e : s.kick I h = .ok s') : ChainCall I s s'
  | read (s s' y) (e : s.read I y = .ok s') : ChainCall I s s'
  | preIter (s) : ChainCall I s (s.preIter I)
  | postIter (s s' idx) (hi : IndexOf s.P idx) (e : s.postIter idx = .ok s') : ChainCall I s s'
  | collect (s b) : ChainCall I s (s.collect b)
  | clearInc (s) : ChainCall I s (s.clearInc I)

/-- The same for an AR-chain system. -/
inductive ARCall (G : ℝ) (type : ReguType) (I : ChainInteractions) : ARSys → ARSys → Prop
  | drift (s s' h) (e : s.drift type h = .ok s') : ARCall G type I s s'
  | kick (s s' h) (e : s.kick G type I h = .ok s') : ARCall G type I s s'
  | read (s s' y) (e : s.read I y = .ok s') : ARCall G type I s s'
  | preIter (s) : ARCall G type I s (s.preIter I)
  | postIter (s s' idx) (hi : IndexOf s.P idx) (e : s.postIter idx = .ok s') : ARCall G type I s s'
  | collect (s b) : ARCall G type I s (s.collect b)
  | clearInc (s) : ARCall G type I s (s.clearInc I)

/-- consistent, with the given number of particles and masses -/
structure CInv (n : Nat) (m : Arr ℝ) (s : ChainSys) : Prop where
  good : ChainSys.Good false s
  num : s.P.num = n
  mass : s.P.mass = m

theorem chainAdvance_ok {n : Nat} {idx : Arr Nat} (hn : n ≠ 0) (hi : IsIndex n idx) {c x ci : Arr (V3 ℝ)} {t : ℝ}
    {r : Arr (V3 ℝ) × Arr (V3 ℝ)} (h : ChainSys.chainAdvance n idx x c ci t = .ok r) : BelongsTo n idx r.2 r.1 := by
  obtain ⟨x', h1, h2⟩ := chainAdvance_belongs hn hi c x ci t
  rw [h1] at h; cases h; exact h2

theorem CInv.kickReal {I : ChainInteractions} {n : Nat} {m : Arr ℝ} {s s' : ChainSys} (v : CInv n m s) {a : Arr (V3 ℝ)}
    {h : ℝ} (e : s.kickReal I a h = .ok s') : CInv n m s' := by
  unfold ChainSys.kickReal at e
  simp only [Res.bind_eq_ok] at e
  obtain ⟨x, _, c, _, r, hr, e⟩ := e
  obtain ⟨i, hi⟩ := ChainSys.syncVel_fields { s with P := { s.P with vel := r.1 }, cvel := r.2 } c h
  rw [hi] at e; cases e
  exact ⟨⟨v.good.two, ⟨v.good.cons.num, v.good.cons.index, v.good.cons.pos,
    chainAdvance_ok v.good.cons.num v.good.cons.index hr, fun h => by simp at h⟩⟩, v.num, v.mass⟩

theorem CInv.kickPseu {I : ChainInteractions} {n : Nat} {m : Arr ℝ} {s s' : ChainSys} (v : CInv n m s) {a : Arr (V3 ℝ)}
    {h : ℝ} (e : s.kickPseu I a h = .ok s') : CInv n m s' := by
  unfold ChainSys.kickPseu at e
  simp only [Res.bind_eq_ok] at e
  obtain ⟨x, _, c, _, r, hr, e⟩ := e
  obtain ⟨i, hi⟩ := ChainSys.syncAux_fields { s with aux := r.1, caux := r.2 } c h
  rw [hi] at e; cases e
  exact ⟨⟨v.good.two, ⟨v.good.cons.num, v.good.cons.index, v.good.cons.pos, v.good.cons.vel, fun h => by simp at h⟩⟩,
    v.num, v.mass⟩

theorem CInv.call {I : ChainInteractions} {n : Nat} {m : Arr ℝ} {s s' : ChainSys} (v : CInv n m s)
    (c : ChainCall I s s') : CInv n m s' := by
  have two := v.good.two
  have hn := v.good.cons.num
  have hi := v.good.cons.index
  cases c with
  | drift _ h e =>
    obtain ⟨s1, e1, g, i, a⟩ := ChainSys.drift_sim v.good h
    rw [e1] at e; cases e
    have hP := congrArg Simple.P a
    exact ⟨g, (congrArg Particles.num hP).trans v.num, (congrArg Particles.mass hP).trans v.mass⟩
  | kick _ h e =>
    unfold ChainSys.kick at e
    split_ifs at e
    · simp only [Res.bind_eq_ok] at e
      obtain ⟨a, _, s1, e1, s2, e2, e3⟩ := e
      exact ((v.kickReal e1).kickPseu e2).kickReal e3
    · simp only [Res.bind_eq_ok] at e
      obtain ⟨x, _, c, _, r, hr, e⟩ := e
      obtain ⟨i, hj⟩ := ChainSys.syncVel_fields { s with P := { s.P with vel := r.1 }, cvel := r.2 } c h
      rw [hj] at e; cases e
      exact ⟨⟨two, ⟨hn, hi, v.good.cons.pos, chainAdvance_ok hn hi hr, fun h => by simp at h⟩⟩, v.num, v.mass⟩
  | read _ y e =>
    by_cases hy : y.length = s.variableNumber I
    · obtain ⟨s1, e1, _, hc⟩ := C13_chain_write_read I s hn hi y hy
      rw [e1] at e; cases e
      rw [ChainSys.read_eq I s y hy] at e1
      obtain ⟨t, _, e2⟩ := Res.bind_eq_ok.1 e1
      unfold ChainSys.fill at e2
      simp only [Res.bind_eq_ok] at e2
      obtain ⟨p, _, w, _, e2⟩ := e2
      have hP : s'.P.num = s.P.num ∧ s'.P.mass = s.P.mass ∧ s'.index = s.index := by
        split_ifs at e2
        · obtain ⟨x, _, e2⟩ := Res.bind_eq_ok.1 e2
          cases e2; exact ⟨rfl, rfl, rfl⟩
        · cases e2; exact ⟨rfl, rfl, rfl⟩
      refine ⟨⟨by rw [hP.1]; exact two, ?_⟩, hP.1.trans v.num, hP.2.1.trans v.mass⟩
      rw [hP.1, hP.2.2]
      exact ⟨hc.num, hc.index, hc.pos, hc.vel, fun h => by simp at h⟩
    · rw [C13_chain_abort I s y hy] at e; simp at e
  | preIter =>
    unfold ChainSys.preIter
    split_ifs
    · exact ⟨⟨two, ⟨hn, hi, v.good.cons.pos, v.good.cons.vel, fun h => by simp at h⟩⟩, v.num, v.mass⟩
    · exact v
  | postIter _ idx hidx e =>
    obtain ⟨s1, e1, g, a, _⟩ := ChainSys.postIter_sim v.good idx hidx.isIndex
    rw [e1] at e; cases e
    have hP := congrArg Simple.P a
    exact ⟨g, (congrArg Particles.num hP).trans v.num, (congrArg Particles.mass hP).trans v.mass⟩
  | collect b => exact ⟨⟨two, v.good.cons⟩, v.num, v.mass⟩
  | clearInc => exact ⟨⟨two, v.good.cons⟩, v.num, v.mass⟩

/-- Whatever finite sequence of calls is made on a `ChainSystem` after its construction, with whatever forces: the
index stays a permutation of the particles and the Cartesian positions and velocities are the ones described by the
chain coordinates; particle number and masses never change. -/
theorem C14_chain_coordinates_consistent (I : ChainInteractions) (time : ℝ) (P : Particles) (idx : Arr Nat)
    (hidx : IndexOf P idx) (s0 s : ChainSys) (h0 : ChainSys.init time P idx = .ok s0)
    (hrun : Relation.ReflTransGen (ChainCall I) s0 s) :
    IsIndex P.num s.index ∧ BelongsTo P.num s.index s.cpos s.P.pos ∧ BelongsTo P.num s.index s.cvel s.P.vel ∧
      s.P.num = P.num ∧ s.P.mass = P.mass := by
  have hv : CInv P.num P.mass s := by
    induction hrun with
    | refl =>
      obtain ⟨s1, e1, g, a, _⟩ := ChainSys.init_sim time P idx hidx.two_le hidx.isIndex
      rw [h0] at e1; cases e1
      have hP := congrArg Simple.P a
      exact ⟨g.weaken, congrArg Particles.num hP, congrArg Particles.mass hP⟩
    | tail _ c ih => exact ih.call c
  have hc := hv.good.cons
  rw [hv.num] at hc
  exact ⟨hc.index, hc.pos, hc.vel, hv.num, hv.mass⟩

/-- consistent, with the given number of particles and masses -/
structure ARInv (n : Nat) (m : Arr ℝ) (s : ARSys) : Prop where
  good : ARSys.Good false s
  num : s.P.num = n
  mass : s.P.mass = m

theorem ARInv.kickReal {I : ChainInteractions} {n : Nat} {m : Arr ℝ} {s s' : ARSys} (v : ARInv n m s) {a : Arr (V3 ℝ)}
    {h : ℝ} (e : s.kickReal I a h = .ok s') : ARInv n m s' := by
  unfold ARSys.kickReal at e
  simp only [Res.bind_eq_ok] at e
  obtain ⟨x, _, c, _, r, hr, e⟩ := e
  obtain ⟨i, hi⟩ := ARSys.syncVel_fields { s with P := { s.P with vel := r.1 }, cvel := r.2 } c h
  rw [hi] at e; cases e
  exact ⟨⟨v.good.two, ⟨v.good.cons.num, v.good.cons.index, v.good.cons.pos,
    chainAdvance_ok v.good.cons.num v.good.cons.index hr, fun h => by simp at h⟩⟩, v.num, v.mass⟩

theorem ARInv.omega {I : ChainInteractions} {n : Nat} {m : Arr ℝ} {s : ARSys} (v : ARInv n m s) (type : ReguType)
    (w d : Arr (V3 ℝ)) (h : ℝ) : ARInv n m (s.advanceOmega type I w d h) := by
  unfold ARSys.advanceOmega ARSys.syncOmega
  dsimp only
  split_ifs <;> exact ⟨⟨v.good.two, v.good.cons⟩, v.num, v.mass⟩

theorem ARInv.bindE {I : ChainInteractions} {n : Nat} {m : Arr ℝ} {s : ARSys} (v : ARInv n m s) (type : ReguType)
    (w d : Arr (V3 ℝ)) (h : ℝ) : ARInv n m (s.advanceBindE type I w d h) := by
  unfold ARSys.advanceBindE ARSys.syncBindE
  dsimp only
  split_ifs <;> exact ⟨⟨v.good.two, v.good.cons⟩, v.num, v.mass⟩

theorem ARInv.kickPseu {I : ChainInteractions} {type : ReguType} {n : Nat} {m : Arr ℝ} {s s' : ARSys} (v : ARInv n m s)
    {b c a : Arr (V3 ℝ)} {h : ℝ} (e : s.kickPseu type I b c a h = .ok s') : ARInv n m s' := by
  unfold ARSys.kickPseu at e
  simp only [Res.bind_eq_ok] at e
  obtain ⟨x, _, c, _, r, hr, e⟩ := e
  obtain ⟨i, hi⟩ := ARSys.syncAux_fields { s with aux := r.1, caux := r.2 } c h
  rw [hi] at e
  have v1 : ARInv n m ({ s with aux := r.1, caux := r.2, inc := i } : ARSys) :=
    ⟨⟨v.good.two, ⟨v.good.cons.num, v.good.cons.index, v.good.cons.pos, v.good.cons.vel, fun h => by simp at h⟩⟩,
      v.num, v.mass⟩
  split_ifs at e
  · cases e; exact (v1.omega _ _ _ _).bindE _ _ _ _
  · cases e; exact (v1.omega _ _ _ _).bindE _ _ _ _

theorem ARInv.iteBindE {I : ChainInteractions} {n : Nat} {m : Arr ℝ} {s : ARSys} (v : ARInv n m s) (type : ReguType)
    (d : Arr (V3 ℝ)) (h : ℝ) : ARInv n m (if I.velIndep = true then s.advanceBindE type I s.P.vel d h else s) := by
  split_ifs
  · exact v.bindE _ _ _ _
  · exact v

theorem ARInv.syncVel {n : Nat} {m : Arr ℝ} {s : ARSys} (v : ARInv n m s) (w : Arr (V3 ℝ)) (h : ℝ) :
    ARInv n m (s.syncVel w h) := by
  unfold ARSys.syncVel
  split_ifs
  · exact ⟨⟨v.good.two, v.good.cons⟩, v.num, v.mass⟩
  · exact v

theorem ARInv.call {G : ℝ} {type : ReguType} {I : ChainInteractions} {n : Nat} {m : Arr ℝ} {s s' : ARSys}
    (v : ARInv n m s) (c : ARCall G type I s s') : ARInv n m s' := by
  have two := v.good.two
  have hn := v.good.cons.num
  have hi := v.good.cons.index
  cases c with
  | drift _ h e =>
    rcases ARSys.drift_sim type v.good h with ⟨t', ht, s1, e1, g, i, a⟩ | ⟨_, e1⟩
    · rw [e1] at e; cases e
      have hP : s'.P.num = s.P.num ∧ s'.P.mass = s.P.mass := by
        have e3 : t'.P = s'.P := (congrArg ReguSys.P a).symm
        rw [← e3]
        unfold ReguSys.drift at ht
        obtain ⟨rt, _, ht⟩ := Res.bind_eq_ok.1 ht
        cases ht; exact ⟨rfl, rfl⟩
      exact ⟨g, hP.1.trans v.num, hP.2.trans v.mass⟩
    · rw [e1] at e; simp at e
  | kick _ h e =>
    unfold ARSys.kick at e
    simp only [Res.bind_eq_ok] at e
    obtain ⟨pot, _, rt, _, newt, _, ext, _, e⟩ := e
    have v0 : ARInv n m ({ s with R := rt.1 } : ARSys) := ⟨⟨two, v.good.cons⟩, v.num, v.mass⟩
    cases hd : I.velDep
    · rw [hd] at e
      simp only [Bool.false_eq_true, if_false, Res.bind_eq_ok] at e
      obtain ⟨c, _, r, hr, e⟩ := e
      have v1 := v0.omega (I := I) type s.P.vel newt (1 / 2 * rt.2)
      have v2 := v1.iteBindE (I := I) type ext (1 / 2 * rt.2)
      have v3 : ARInv n m (s' : ARSys) := by
        cases e
        refine (ARInv.iteBindE (I := I) ?_ type _ _).omega _ _ _ _
        refine ARInv.syncVel ?_ _ _
        refine ⟨⟨?_, ⟨?_, ?_, ?_, ?_, fun h => by simp at h⟩⟩, ?_, ?_⟩
        · exact v2.good.two
        · exact v2.good.cons.num
        · exact v2.good.cons.index
        · exact v2.good.cons.pos
        · exact chainAdvance_ok v2.good.cons.num v2.good.cons.index hr
        · exact v2.num
        · exact v2.mass
      exact v3
    · rw [hd] at e
      simp only [if_true, Res.bind_eq_ok] at e
      obtain ⟨s1, e1, s2, e2, e3⟩ := e
      exact ((v0.kickReal e1).kickPseu e2).kickReal e3
  | read _ y e =>
    by_cases hy : y.length = s.variableNumber I
    · obtain ⟨s1, e1, _, hc⟩ := C13_archain_write_read I s hn hi y hy
      rw [e1] at e; cases e
      rw [ARSys.read_eq I s y hy] at e1
      obtain ⟨t, _, e2⟩ := Res.bind_eq_ok.1 e1
      unfold ARSys.fill at e2
      simp only [Res.bind_eq_ok] at e2
      obtain ⟨p, _, w, _, e2⟩ := e2
      have hP : s'.P.num = s.P.num ∧ s'.P.mass = s.P.mass ∧ s'.index = s.index := by
        split_ifs at e2
        · obtain ⟨x, _, e2⟩ := Res.bind_eq_ok.1 e2
          cases e2; exact ⟨rfl, rfl, rfl⟩
        · cases e2; exact ⟨rfl, rfl, rfl⟩
      refine ⟨⟨by rw [hP.1]; exact two, ?_⟩, hP.1.trans v.num, hP.2.1.trans v.mass⟩
      rw [hP.1, hP.2.2]
      exact ⟨hc.num, hc.index, hc.pos, hc.vel, fun h => by simp at h⟩
    · rw [C13_archain_abort I s y hy] at e; simp at e
  | preIter =>
    unfold ARSys.preIter
    split_ifs
    · exact ⟨⟨two, ⟨hn, hi, v.good.cons.pos, v.good.cons.vel, fun h => by simp at h⟩⟩, v.num, v.mass⟩
    · exact v
  | postIter _ idx hidx e =>
    obtain ⟨s1, e1, g, a, _⟩ := ARSys.postIter_sim v.good idx hidx.isIndex
    rw [e1] at e; cases e
    have hP := congrArg ReguSys.P a
    exact ⟨g, (congrArg Particles.num hP).trans v.num, (congrArg Particles.mass hP).trans v.mass⟩
  | collect b => exact ⟨⟨two, v.good.cons⟩, v.num, v.mass⟩
  | clearInc => exact ⟨⟨two, v.good.cons⟩, v.num, v.mass⟩

/-- The same for an `ARchainSystem`. -/
theorem C14_archain_coordinates_consistent (G : ℝ) (type : ReguType) (I : ChainInteractions) (time : ℝ) (P : Particles)
    (idx : Arr Nat) (hidx : IndexOf P idx) (s0 s : ARSys) (h0 : ARSys.init G type time P idx = .ok s0)
    (hrun : Relation.ReflTransGen (ARCall G type I) s0 s) :
    IsIndex P.num s.index ∧ BelongsTo P.num s.index s.cpos s.P.pos ∧ BelongsTo P.num s.index s.cvel s.P.vel ∧
      s.P.num = P.num ∧ s.P.mass = P.mass := by
  have hv : ARInv P.num P.mass s := by
    induction hrun with
    | refl =>
      obtain ⟨s1, e1, g, a, _⟩ := ARSys.init_sim G type time P idx hidx.two_le hidx.isIndex
      rw [h0] at e1; cases e1
      have hP := congrArg ReguSys.P a
      exact ⟨g.weaken, congrArg Particles.num hP, congrArg Particles.mass hP⟩
    | tail _ c ih => exact ih.call c
  have hc := hv.good.cons
  rw [hv.num] at hc
  exact ⟨hc.index, hc.pos, hc.vel, hv.num, hv.mass⟩

/-- The hypotheses are met: three particles, an index exists, the constructor succeeds and a drift can follow. -/
example : ∃ idx s0 s, IndexOf exP idx ∧ ChainSys.init 0 exP idx = .ok s0 ∧
    Relation.ReflTransGen (ChainCall ⟨Lib.newtonC, []⟩) s0 s ∧ s.time = 1 := by
  obtain ⟨idx, hi⟩ := IndexOf.exists exP (by simp [exP])
  obtain ⟨s0, e0, g, a, _⟩ := ChainSys.init_sim 0 exP idx hi.two_le hi.isIndex
  obtain ⟨s1, e1, _, _, a1⟩ := ChainSys.drift_sim g 1
  refine ⟨idx, s0, s1, hi, e0, .tail .refl (.drift s0 s1 1 e1), ?_⟩
  have : s1.time = (s0.abs.drift 1).time := congrArg Simple.time a1
  rw [this, a]
  simp [Simple.drift, Simple.init, Simple.syncPos, Simple.syncTime]

/-- and so do the calls on an AR-chain system. -/
example : ∃ idx s0 s, IndexOf exP idx ∧ ARSys.init 1 .none 0 exP idx = .ok s0 ∧
    Relation.ReflTransGen (ARCall 1 .none ⟨Lib.newtonC, []⟩) s0 s ∧ s.time = 1 := by
  obtain ⟨idx, hi⟩ := IndexOf.exists exP (by simp [exP])
  obtain ⟨s0, e0, g, a, _⟩ := ARSys.init_sim 1 .none 0 exP idx hi.two_le hi.isIndex
  rcases ARSys.drift_sim .none g 1 with ⟨t, h1, s1, e1, _, _, a1⟩ | ⟨h1, _⟩
  · refine ⟨idx, s0, s1, hi, e0, .tail .refl (.drift s0 s1 1 e1), ?_⟩
    have : s1.time = t.time := congrArg ReguSys.time a1
    rw [this]
    rw [a] at h1
    unfold ReguSys.drift at h1
    simp only [Regu.posPhyTime, Res.ok_bind] at h1
    cases h1
    simp [ReguSys.syncPos, ReguSys.syncTime, ReguSys.init]
  · unfold ReguSys.drift at h1
    simp only [Regu.posPhyTime, Res.ok_bind] at h1
    cases h1

/-! ### C53 -/

/-- A `ChainSystem` and a `SimpleSystem` built from the same particles, with forces that agree, stay equal for ever:
whatever calls the iterator makes in each step (any integrator, any steps), the chain system neither fails nor goes out
of bounds, and after any number of steps its particles (positions, velocities, masses), time and auxiliary velocities
are exactly those of the plain system, whichever index is chosen when distances tie. -/
theorem C53_chain_evolves_like_plain {IC : ChainInteractions} {I : Interactions} (A : AgreesI IC I) (time : ℝ)
    (P : Particles) (idx : Arr Nat) (hidx : IndexOf P idx) (oss : List (List Op)) :
    ∃ s0 t, ChainSys.init time P idx = .ok s0 ∧ steps (simpleStep I) oss (Simple.init time P) = .ok t ∧
      (∃ r, Steps (ChainStep IC) oss s0 r) ∧
      ∀ r, Steps (ChainStep IC) oss s0 r → ∃ s, r = .ok s ∧ s.P = t.P ∧ s.time = t.time ∧ s.aux = t.aux := by
  obtain ⟨s0, e0, g, a, _⟩ := ChainSys.init_sim time P idx hidx.two_le hidx.isIndex
  obtain ⟨t, e1, hex, hall⟩ := chainSteps_sim A oss s0 g.weaken
  rw [a] at e1
  refine ⟨s0, t, e0, e1, hex, fun r hr => ?_⟩
  obtain ⟨s, e, _, h⟩ := hall r hr
  subst h
  exact ⟨s, e, rfl, rfl, rfl⟩

/-- An `ARchainSystem` and a `RegularizedSystem`: the same, including the regularisation variables.  Both runs end in a
division by zero, or neither does. -/
theorem C53_archain_evolves_like_regularized {IC : ChainInteractions} {I : Interactions} (A : AgreesI IC I) (G : ℝ)
    (type : ReguType) (time : ℝ) (P : Particles) (idx : Arr Nat) (hidx : IndexOf P idx) (oss : List (List Op)) :
    ∃ s0, ARSys.init G type time P idx = .ok s0 ∧ (∃ r, Steps (ARStep G type IC) oss s0 r) ∧
      ∀ r, Steps (ARStep G type IC) oss s0 r →
        (∃ s t, r = .ok s ∧ steps (reguStep G type I) oss (ReguSys.init G type time P) = .ok t ∧
          s.P = t.P ∧ s.time = t.time ∧ s.aux = t.aux ∧ s.R = t.R) ∨
        (r = .nan ∧ steps (reguStep G type I) oss (ReguSys.init G type time P) = .nan) := by
  obtain ⟨s0, e0, g, a, _⟩ := ARSys.init_sim G type time P idx hidx.two_le hidx.isIndex
  obtain ⟨hex, hall⟩ := arSteps_sim A G type oss s0 g.weaken
  rw [a] at hall
  refine ⟨s0, e0, hex, fun r hr => ?_⟩
  rcases hall r hr with ⟨s, e, _, h⟩ | h
  · exact Or.inl ⟨s, s.abs, e, h, rfl, rfl, rfl, rfl⟩
  · exact Or.inr h

/-- The library's own forces agree, in any combination: Newtonian gravity as the internal force and any list of PN1,
PN2.5, tidal, disk and drag forces as extra forces (not PN2, see C10). -/
theorem C53_library_forces (G c : ℝ) (T : TideData) (rad : Arr ℝ) (D : DiskParams) (dc cs : Arr ℝ)
    (l : List (ChainForce × ForceClass Particles))
    (hl : ∀ f ∈ l, f = (Lib.newtonC, Lib.newton) ∨ f = (Lib.pnC G c .pn1, Lib.pn G c .pn1) ∨
      f = (Lib.pnC G c .pn2p5, Lib.pn G c .pn2p5) ∨ f = (Lib.tidalC G T, Lib.tidal G T) ∨
      f = (Lib.captureC rad, Lib.capture rad) ∨ f = (Lib.alphaC G D rad, Lib.alpha G D rad) ∨
      f = (Lib.dragC dc cs, Lib.drag dc cs)) :
    AgreesI ⟨Lib.newtonC, l.map Prod.fst⟩ ⟨Lib.newton, l.map Prod.snd⟩ := by
  refine ⟨agrees_newton, ?_⟩
  show List.Forall₂ AgreesF (l.map Prod.fst) (l.map Prod.snd)
  induction l with
  | nil => exact .nil
  | cons f l ih =>
    refine .cons ?_ (ih fun g hg => hl g (List.mem_cons_of_mem _ hg))
    rcases hl f List.mem_cons_self with rfl | rfl | rfl | rfl | rfl | rfl | rfl
    · exact agrees_newton
    · exact agrees_pn1 G c
    · exact agrees_pn2p5 G c
    · exact agrees_tidal G T
    · exact agrees_capture rad
    · exact agrees_alpha G D rad
    · exact agrees_drag dc cs

/-- Concretely: the leap-frog integration of three particles by both systems, with any step. -/
example (h : ℝ) : ∃ idx, IndexOf exP idx ∧ AgreesI ⟨Lib.newtonC, [Lib.pnC 1 1 .pn1]⟩ ⟨Lib.newton, [Lib.pn 1 1 .pn1]⟩ ∧
    ∃ s0 r, ChainSys.init 0 exP idx = .ok s0 ∧
      Steps (ChainStep ⟨Lib.newtonC, [Lib.pnC 1 1 .pn1]⟩) [symplectic2nd.map (Stage.op h)] s0 r := by
  obtain ⟨idx, hi⟩ := IndexOf.exists exP (by simp [exP])
  have A : AgreesI ⟨Lib.newtonC, [Lib.pnC 1 1 .pn1]⟩ ⟨Lib.newton, [Lib.pn 1 1 .pn1]⟩ :=
    ⟨agrees_newton, .cons (agrees_pn1 1 1) .nil⟩
  obtain ⟨s0, t, e0, _, ⟨r, hr⟩, _⟩ := C53_chain_evolves_like_plain A 0 exP idx hi [symplectic2nd.map (Stage.op h)]
  exact ⟨idx, hi, A, s0, r, e0, hr⟩

end SpaceHub.Sys
