import Verif.Proof.BSChain
import Verif.Props.ConvergeBSRegu
import Verif.Props.Systems

/-
C97: Bulirsch-Stoer on chain systems; C58 and C95 for them.
-/

set_option autoImplicit false

namespace SpaceHub.Sys
open SpaceHub V3 Force Core Integrator Spec Props Finset Converge BS BS.Spec

/-- An accepted step `h` of Bulirsch-Stoer on a plain system, whatever the error estimate: every variable of `t'` is extrapolated to zero sub-step length from
leap-frog runs over `h` that all start from `t`. -/
abbrev PlainStep (I : Interactions) (kdk : Bool) (D : Nat) (h : ℝ) (t t' : Simple) : Prop :=
  ExtrapolatedStep (hSeq D) D (Simple.write I) (fun h n => (simpleOps I).run (if kdk then substepsKDK h n else substepsDKD h n)) (SameSimple I)
    (fun _ _ _ => 0) h t t' ∧ t'.P.num = t.P.num ∧ t'.P.mass = t.P.mass

/-- The same for a regularised system. -/
abbrev ReguStep (G : ℝ) (type : ReguType) (I : Interactions) (kdk : Bool) (D : Nat) (h : ℝ) (t t' : ReguSys) : Prop :=
  ExtrapolatedStep (hSeq D) D (ReguSys.write I) (fun h n => (reguOps G type I).run (if kdk then substepsKDK h n else substepsDKD h n)) (SameRegu I)
    (fun _ _ _ => 0) h t t' ∧ t'.P.num = t.P.num ∧ t'.P.mass = t.P.mass

section
variable {IC : ChainInteractions} {I : Interactions} (A : AgreesI IC I)
include A

theorem chain_step {kdk : Bool} {p : Params ℝ} {h h' : ℝ} {c c' : State ℝ} {s u : ChainSys} (g : ChainSys.Good false s)
    (e : iterate (chainSys IC kdk) p h c (s.preIter IC) = .ok (u, h', c')) :
    ChainSys.Good false u ∧ ∃ a k, Retried p h a ∧ ExtrapolatedAt (hSeq p.maxDepth) p.maxDepth (Simple.write I)
        (fun h n => (simpleOps I).run (if kdk then substepsKDK h n else substepsDKD h n)) (SameSimple I) (fun _ _ _ => 0) a (s.abs.preIter I) u.abs k ∧
      u.P.num = s.P.num ∧ u.P.mass = s.P.mass := by
  obtain ⟨gp, ap⟩ := ChainSys.preIter_sim A g
  rw [← A.velDep_eq] at gp
  have gu := chain_good gp e
  obtain ⟨a, R, ⟨k, X⟩, ⟨hn, hm, hi⟩, _⟩ := C29_chain IC kdk p h c c' _ u h' gp.cons e
  refine ⟨gu.weaken, a, k, R, ?_, ?_, ?_⟩
  · rw [← ap]
    exact chain_extrap A gp gu hn hi X
  · rw [hn]; unfold ChainSys.preIter; split_ifs <;> rfl
  · rw [hm]; unfold ChainSys.preIter; split_ifs <;> rfl

theorem ar_step {G : ℝ} {type : ReguType} {kdk : Bool} {p : Params ℝ} {h h' : ℝ} {c c' : State ℝ} {s u : ARSys} (g : ARSys.Good false s)
    (e : iterate (archainSys G type IC kdk) p h c (s.preIter IC) = .ok (u, h', c')) :
    ARSys.Good false u ∧ ∃ a k, Retried p h a ∧ ExtrapolatedAt (hSeq p.maxDepth) p.maxDepth (ReguSys.write I)
        (fun h n => (reguOps G type I).run (if kdk then substepsKDK h n else substepsDKD h n)) (SameRegu I) (fun _ _ _ => 0) a (s.abs.preIter I) u.abs k ∧
      u.P.num = s.P.num ∧ u.P.mass = s.P.mass := by
  obtain ⟨gp, ap⟩ := ARSys.preIter_sim A g
  rw [← A.velDep_eq] at gp
  have gu := ar_good gp e
  obtain ⟨a, R, ⟨k, X⟩, ⟨hn, hm, hi⟩, _⟩ := C29_archain G type IC kdk p h c c' _ u h' gp.cons e
  refine ⟨gu.weaken, a, k, R, ?_, ?_, ?_⟩
  · rw [← ap]
    exact ar_extrap A gp gu hn hi X
  · rw [hn]; unfold ARSys.preIter; split_ifs <;> rfl
  · rw [hm]; unfold ARSys.preIter; split_ifs <;> rfl

theorem chain_calls_good {kdk : Bool} {p : Params ℝ} {time : ℝ} {P : Particles} {idx : Arr Nat} (hidx : IndexOf P idx) {N : Nat} {s : Nat → ChainSys}
    {c : Nat → State ℝ} {h h' : Nat → ℝ} (h0 : ChainSys.init time P idx = .ok (s 0))
    (hc : ∀ i, i < N → ChainMacro IC kdk p (h i) (c i) (s i) (s (i + 1)) (h' i) (c (i + 1))) :
    (s 0).abs = Simple.init time P ∧ ∀ i, i ≤ N → ChainSys.Good false (s i) := by
  obtain ⟨s0, e0, g, a, _⟩ := ChainSys.init_sim time P idx hidx.two_le hidx.isIndex
  rw [h0] at e0; cases e0
  refine ⟨a, fun i => ?_⟩
  induction i with
  | zero => intro _; exact g.weaken
  | succ i ih =>
    intro hi
    obtain ⟨u, x, e, hx, e2⟩ := hc i (by omega)
    obtain ⟨gu, _⟩ := chain_step A (ih (by omega)) e
    obtain ⟨s', e3, g3, _⟩ := ChainSys.postIter_sim gu x hx.isIndex
    rw [e2] at e3; cases e3
    exact g3

theorem ar_calls_good {G : ℝ} {type : ReguType} {kdk : Bool} {p : Params ℝ} {time : ℝ} {P : Particles} {idx : Arr Nat} (hidx : IndexOf P idx) {N : Nat}
    {s : Nat → ARSys} {c : Nat → State ℝ} {h h' : Nat → ℝ} (h0 : ARSys.init G type time P idx = .ok (s 0))
    (hc : ∀ i, i < N → ARMacro G type IC kdk p (h i) (c i) (s i) (s (i + 1)) (h' i) (c (i + 1))) :
    (s 0).abs = ReguSys.init G type time P ∧ ∀ i, i ≤ N → ARSys.Good false (s i) := by
  obtain ⟨s0, e0, g, a, _⟩ := ARSys.init_sim G type time P idx hidx.two_le hidx.isIndex
  rw [h0] at e0; cases e0
  refine ⟨a, fun i => ?_⟩
  induction i with
  | zero => intro _; exact g.weaken
  | succ i ih =>
    intro hi
    obtain ⟨u, x, e, hx, e2⟩ := hc i (by omega)
    obtain ⟨gu, _⟩ := ar_step A (ih (by omega)) e
    obtain ⟨s', e3, g3, _⟩ := ARSys.postIter_sim gu x hx.isIndex
    rw [e2] at e3; cases e3
    exact g3

/-- **C97.** A simulation of a chain system with Bulirsch-Stoer, and the plain systems `t i` with the same particles at the same time: `t 0` is the plain system
made of the initial particles, and each macro step takes `t i` to `t (i + 1)` by an accepted extrapolated step of the plain system, of length the given
step times limiter values.  The chain coordinates describe the Cartesian ones all the time.  After a call that returns, updating the chain does not fail. -/
theorem C97_chain (kdk : Bool) (p : Params ℝ) (time : ℝ) (P : Particles) (idx : Arr Nat) (hidx : IndexOf P idx) (N : Nat) (s : Nat → ChainSys)
    (c : Nat → State ℝ) (h h' : Nat → ℝ) (h0 : ChainSys.init time P idx = .ok (s 0))
    (hc : ∀ i, i < N → ChainMacro IC kdk p (h i) (c i) (s i) (s (i + 1)) (h' i) (c (i + 1))) :
    ∃ t : Nat → Simple, t 0 = Simple.init time P ∧
      (∀ i, i ≤ N → (s i).P = (t i).P ∧ (s i).time = (t i).time ∧ IsIndex (s i).P.num (s i).index ∧
        BelongsTo (s i).P.num (s i).index (s i).cpos (s i).P.pos ∧ BelongsTo (s i).P.num (s i).index (s i).cvel (s i).P.vel) ∧
      (∀ i, i < N → ∃ a, Retried p (h i) a ∧ PlainStep I kdk p.maxDepth a ((t i).preIter I) (t (i + 1))) ∧
      ∀ u h'' c', iterate (chainSys IC kdk) p (h N) (c N) ((s N).preIter IC) = .ok (u, h'', c') →
        (∃ idx, IndexOf u.P idx) ∧ ∀ idx, IndexOf u.P idx → ∃ s', u.postIter idx = .ok s' := by
  obtain ⟨a, good⟩ := chain_calls_good A hidx h0 hc
  refine ⟨fun i => (s i).abs, a, fun i hi => ⟨rfl, rfl, (good i hi).cons.index, (good i hi).cons.pos, (good i hi).cons.vel⟩, fun i hi => ?_, fun u h'' c' e => ?_⟩
  · obtain ⟨u, x, e, hx, e2⟩ := hc i hi
    obtain ⟨gu, b, k, R, X, hn, hm⟩ := chain_step A (good i (by omega)) e
    obtain ⟨s', e3, _, a3, _⟩ := ChainSys.postIter_sim gu x hx.isIndex
    rw [e2] at e3; cases e3
    refine ⟨b, R, ?_⟩
    show PlainStep I kdk p.maxDepth b ((s i).abs.preIter I) (s (i + 1)).abs
    rw [a3]
    refine ⟨⟨k, X⟩, ?_, ?_⟩
    · refine hn.trans ?_; unfold Simple.preIter; split_ifs <;> rfl
    · refine hm.trans ?_; unfold Simple.preIter; split_ifs <;> rfl
  · obtain ⟨gu, _⟩ := chain_step A (good N le_rfl) e
    refine ⟨IndexOf.exists u.P gu.two, fun x hx => ?_⟩
    obtain ⟨s', e3, _⟩ := ChainSys.postIter_sim gu x hx.isIndex
    exact ⟨s', e3⟩

/-- The same for an AR-chain system and the regularised system, including the regularisation variables. -/
theorem C97_archain (G : ℝ) (type : ReguType) (kdk : Bool) (p : Params ℝ) (time : ℝ) (P : Particles) (idx : Arr Nat) (hidx : IndexOf P idx) (N : Nat)
    (s : Nat → ARSys) (c : Nat → State ℝ) (h h' : Nat → ℝ) (h0 : ARSys.init G type time P idx = .ok (s 0))
    (hc : ∀ i, i < N → ARMacro G type IC kdk p (h i) (c i) (s i) (s (i + 1)) (h' i) (c (i + 1))) :
    ∃ t : Nat → ReguSys, t 0 = ReguSys.init G type time P ∧
      (∀ i, i ≤ N → (s i).P = (t i).P ∧ (s i).time = (t i).time ∧ (s i).R = (t i).R ∧ IsIndex (s i).P.num (s i).index ∧
        BelongsTo (s i).P.num (s i).index (s i).cpos (s i).P.pos ∧ BelongsTo (s i).P.num (s i).index (s i).cvel (s i).P.vel) ∧
      (∀ i, i < N → ∃ a, Retried p (h i) a ∧ ReguStep G type I kdk p.maxDepth a ((t i).preIter I) (t (i + 1))) ∧
      ∀ u h'' c', iterate (archainSys G type IC kdk) p (h N) (c N) ((s N).preIter IC) = .ok (u, h'', c') →
        (∃ idx, IndexOf u.P idx) ∧ ∀ idx, IndexOf u.P idx → ∃ s', u.postIter idx = .ok s' := by
  obtain ⟨a, good⟩ := ar_calls_good A hidx h0 hc
  refine ⟨fun i => (s i).abs, a, fun i hi => ⟨rfl, rfl, rfl, (good i hi).cons.index, (good i hi).cons.pos, (good i hi).cons.vel⟩, fun i hi => ?_, fun u h'' c' e => ?_⟩
  · obtain ⟨u, x, e, hx, e2⟩ := hc i hi
    obtain ⟨gu, b, k, R, X, hn, hm⟩ := ar_step A (good i (by omega)) e
    obtain ⟨s', e3, _, a3, _⟩ := ARSys.postIter_sim gu x hx.isIndex
    rw [e2] at e3; cases e3
    refine ⟨b, R, ?_⟩
    show ReguStep G type I kdk p.maxDepth b ((s i).abs.preIter I) (s (i + 1)).abs
    rw [a3]
    refine ⟨⟨k, X⟩, ?_, ?_⟩
    · refine hn.trans ?_; unfold ReguSys.preIter; split_ifs <;> rfl
    · refine hm.trans ?_; unfold ReguSys.preIter; split_ifs <;> rfl
  · obtain ⟨gu, _⟩ := ar_step A (good N le_rfl) e
    refine ⟨IndexOf.exists u.P gu.two, fun x hx => ?_⟩
    obtain ⟨s', e3, _⟩ := ARSys.postIter_sim gu x hx.isIndex
    exact ⟨s', e3⟩

/-! ### what the steps conserve -/

/-- C58 for a macro step of a chain system (`A`: the force classes have no net momentum). -/
theorem C58_chain (kdk : Bool) (p : Params ℝ) (time : ℝ) (P : Particles) (idx : Arr Nat) (hidx : IndexOf P idx) (hI : AllForces I (NoNetForce P.num P.mass))
    (N : Nat) (s : Nat → ChainSys) (c : Nat → State ℝ) (h h' : Nat → ℝ) (h0 : ChainSys.init time P idx = .ok (s 0))
    (hc : ∀ i, i < N → ChainMacro IC kdk p (h i) (c i) (s i) (s (i + 1)) (h' i) (c (i + 1))) :
    momentum (s N).P = momentum P ∧ massMoment (s N).P = massMoment P + ((s N).time - time) • momentum P := by
  obtain ⟨t, ht0, hst, hstep, _⟩ := C97_chain A kdk p time P idx hidx N s c h h' h0 hc
  have key : ∀ i, i ≤ N → (t i).P.num = P.num ∧ (t i).P.mass = P.mass ∧ momentum (t i).P = momentum P ∧
      massMoment (t i).P = massMoment P + ((t i).time - time) • momentum P := by
    intro i
    induction i with
    | zero => intro _; rw [ht0]; exact ⟨rfl, rfl, rfl, by simp [Simple.init]⟩
    | succ i ih =>
      intro hi
      obtain ⟨q1, q2, q3, q4⟩ := ih (by omega)
      obtain ⟨a, _, X, hn, hm⟩ := hstep i (by omega)
      have ep : ((t i).preIter I).P = (t i).P := by unfold Simple.preIter; split_ifs <;> rfl
      have et : ((t i).preIter I).time = (t i).time := by unfold Simple.preIter; split_ifs <;> rfl
      obtain ⟨m1, m2, m3⟩ := simple_moments (by rw [ep, q1, q2]; exact hI) X hn hm
      rw [ep] at hn hm m2 m3
      rw [et] at m1
      refine ⟨hn.trans q1, hm.trans q2, m2.trans q3, ?_⟩
      rw [m3, q4, q3, m1, add_assoc, ← add_smul]
      congr 2; ring
  obtain ⟨_, _, k3, k4⟩ := key N le_rfl
  obtain ⟨e1, e2, _⟩ := hst N le_rfl
  rw [e1, e2]
  exact ⟨k3, k4⟩

/-- C58 for a macro step of an AR-chain system. -/
theorem C58_archain (G : ℝ) (type : ReguType) (kdk : Bool) (p : Params ℝ) (time : ℝ) (P : Particles) (idx : Arr Nat) (hidx : IndexOf P idx)
    (hI : AllForces I (NoNetForce P.num P.mass))
    (N : Nat) (s : Nat → ARSys) (c : Nat → State ℝ) (h h' : Nat → ℝ) (h0 : ARSys.init G type time P idx = .ok (s 0))
    (hc : ∀ i, i < N → ARMacro G type IC kdk p (h i) (c i) (s i) (s (i + 1)) (h' i) (c (i + 1))) :
    momentum (s N).P = momentum P ∧ massMoment (s N).P = massMoment P + ((s N).time - time) • momentum P := by
  obtain ⟨t, ht0, hst, hstep, _⟩ := C97_archain A G type kdk p time P idx hidx N s c h h' h0 hc
  have key : ∀ i, i ≤ N → (t i).P.num = P.num ∧ (t i).P.mass = P.mass ∧ momentum (t i).P = momentum P ∧
      massMoment (t i).P = massMoment P + ((t i).time - time) • momentum P := by
    intro i
    induction i with
    | zero => intro _; rw [ht0]; exact ⟨rfl, rfl, rfl, by simp [ReguSys.init]⟩
    | succ i ih =>
      intro hi
      obtain ⟨q1, q2, q3, q4⟩ := ih (by omega)
      obtain ⟨a, _, X, hn, hm⟩ := hstep i (by omega)
      have ep : ((t i).preIter I).P = (t i).P := by unfold ReguSys.preIter; split_ifs <;> rfl
      have et : ((t i).preIter I).time = (t i).time := by unfold ReguSys.preIter; split_ifs <;> rfl
      obtain ⟨m2, m3⟩ := regu_moments (by rw [ep, q1, q2]; exact hI) X hn hm
      rw [ep] at hn hm m2 m3
      rw [et] at m3
      refine ⟨hn.trans q1, hm.trans q2, m2.trans q3, ?_⟩
      rw [m3, q4, q3, add_assoc, ← add_smul]
      congr 2; ring
  obtain ⟨_, _, k3, k4⟩ := key N le_rfl
  obtain ⟨e1, e2, _⟩ := hst N le_rfl
  rw [e1, e2]
  exact ⟨k3, k4⟩

end

/-! ### the order -/

/-- gravity, for chain systems -/
noncomputable def chainGravity : ChainInteractions := ⟨Lib.newtonC, []⟩

theorem agrees_gravity : AgreesI chainGravity gravity := ⟨agrees_newton, .nil⟩

/-- **C95, chain systems.** The particles of a chain system are off the true ones by at most a constant times the sum of the powers `2 k + 3` of the steps. -/
theorem C95_chain {n : Nat} {m : Nat → ℝ} {x v : ℝ → Nat → V3 ℝ} {t0 t1 : ℝ} (ht : t0 ≤ t1) (M : NewtonMotion n m x v t0 t1) (D : Nat) :
    ∃ K ρ : ℝ, 0 ≤ K ∧ 0 < ρ ∧ ∀ P, InState n m x v t0 P → ∀ (kdk : Bool) (p : Params ℝ), p.maxDepth = D → ∀ idx, IndexOf P idx →
      ∀ (N : Nat) (s : Nat → ChainSys) (c : Nat → State ℝ) (h h' : Nat → ℝ), ChainSys.init t0 P idx = .ok (s 0) →
      (∀ i, i < N → ChainMacro chainGravity kdk p (h i) (c i) (s i) (s (i + 1)) (h' i) (c (i + 1))) →
      (∀ i, i < N → (s i).time ≤ (s (i + 1)).time ∧ (s (i + 1)).time - (s i).time ≤ ρ) → (s N).time ≤ t1 →
      ∃ k : Nat → Nat, (∀ i, i < N → 1 ≤ k i ∧ k i ≤ D ∧ Retried p (h i) ((s (i + 1)).time - (s i).time)) ∧
        WithinOf n m x v (s N).time (K * ∑ i ∈ range N, ((s (i + 1)).time - (s i).time) ^ (2 * k i + 3)) (s N).P := by
  obtain ⟨K, ρ, hK, hρ, H⟩ := order_core ht M D
  refine ⟨K, ρ, hK, hρ, fun P S kdk p hD idx hidx N s c h h' h0 hc hst hend => ?_⟩
  obtain ⟨a, good⟩ := chain_calls_good agrees_gravity hidx h0 hc
  have each : ∀ i, ∃ k, i < N → SimpleAt kdk { p with err := fun _ _ _ => 0 } ((s (i + 1)).time - (s i).time) (s i).abs (s (i + 1)).abs k ∧
      (s (i + 1)).P.num = (s i).P.num ∧ (s (i + 1)).P.mass = (s i).P.mass ∧ Retried p (h i) ((s (i + 1)).time - (s i).time) := by
    intro i
    rcases Nat.lt_or_ge i N with hi | hi
    · obtain ⟨u, y, e, hy, e2⟩ := hc i hi
      obtain ⟨gu, b, k, R, X, hn, hm⟩ := chain_step agrees_gravity (good i (by omega)) e
      obtain ⟨s', e3, _, a3, _⟩ := ChainSys.postIter_sim gu y hy.isIndex
      rw [e2] at e3; cases e3
      have X' : SimpleAt kdk { p with err := fun _ _ _ => 0 } b (s i).abs (s (i + 1)).abs k := by rw [a3]; exact X
      have e4 : (s (i + 1)).abs.P = u.abs.P := congrArg Simple.P a3
      have hn' : (s (i + 1)).P.num = (s i).P.num := (congrArg Particles.num e4).trans hn
      have hm' : (s (i + 1)).P.mass = (s i).P.mass := (congrArg Particles.mass e4).trans hm
      have tm := (simple_extrap (m := (s i).P.mass) X' rfl (fun _ _ => rfl) hn').1
      have tb : (s (i + 1)).time - (s i).time = b := by
        have : (s (i + 1)).time = (s i).time + b := tm
        linarith
      refine ⟨k, fun _ => ?_⟩
      rw [tb]
      exact ⟨X', hn', hm', R⟩
    · exact ⟨0, fun h => absurd h (by omega)⟩
  choose k hk using each
  refine ⟨k, fun i hi => ?_, ?_⟩
  · obtain ⟨⟨_, _, _, _, h1, h2, _⟩, _, _, R⟩ := hk i hi
    exact ⟨h1, hD ▸ h2, R⟩
  · exact H P S kdk { p with err := fun _ _ _ => 0 } hD N (fun i => (s i).abs) k a (fun i hi => ⟨(hk i hi).1, (hk i hi).2.1, (hk i hi).2.2.1⟩) hst hend

/-- **C95, AR-chain systems** with the logarithmic Hamiltonian, as for regularised systems. -/
theorem C95_archain {n : Nat} {m : Nat → ℝ} {x v : ℝ → Nat → V3 ℝ} {t0 t1 t2 : ℝ} (h02 : t0 ≤ t2) (h21 : t2 < t1) (M : NewtonMotion n m x v t0 t1)
    (hn : 2 ≤ n) (hmass : ∀ k, k < n → 0 < m k) (D : Nat) :
    ∃ K κ ρ : ℝ, 0 ≤ K ∧ 0 < κ ∧ 0 < ρ ∧ ∀ P, InState n m x v t0 P → ∀ (kdk : Bool) (p : Params ℝ), p.maxDepth = D → ∀ idx, IndexOf P idx →
      ∀ (N : Nat) (s : Nat → ARSys) (c : Nat → State ℝ) (h h' : Nat → ℝ), ARSys.init 1 .logH t0 P idx = .ok (s 0) →
      (∀ i, i < N → ARMacro 1 .logH chainGravity kdk p (h i) (c i) (s i) (s (i + 1)) (h' i) (c (i + 1))) →
      ∃ (a : Nat → ℝ) (k : Nat → Nat), (∀ i, i < N → Retried p (h i) (a i) ∧ 1 ≤ k i ∧ k i ≤ D) ∧
        ((∀ i, i < N → 0 ≤ a i ∧ a i ≤ ρ) → (∀ i, i ≤ N → (s i).time ≤ t2) →
          t0 + κ * ∑ i ∈ range N, a i ≤ (s N).time ∧ WithinOf n m x v (s N).time (K * ∑ i ∈ range N, a i ^ (2 * k i + 3)) (s N).P ∧
          ∀ b, 0 ≤ b → b ≤ ρ → ∀ j, j ≤ D → ∀ r, SameAR chainGravity (s N) r →
            ∃ r', (arOps 1 .logH chainGravity).run (if kdk then substepsKDK b (hSeq D j) else substepsDKD b (hSeq D j)) r = .ok r') := by
  obtain ⟨K, κ, ρ, hK, hκ, hρ, H⟩ := logH_core h02 h21 M hn hmass D
  refine ⟨K, κ, ρ, hK, hκ, hρ, fun P S kdk p hD idx hidx N s c h h' h0 hc => ?_⟩
  obtain ⟨a0, good⟩ := ar_calls_good agrees_gravity hidx h0 hc
  have each : ∀ i, ∃ b k, i < N → Retried p (h i) b ∧ ReguAt kdk { p with err := fun _ _ _ => 0 } b (s i).abs (s (i + 1)).abs k ∧
      (s (i + 1)).P.num = (s i).P.num ∧ (s (i + 1)).P.mass = (s i).P.mass := by
    intro i
    rcases Nat.lt_or_ge i N with hi | hi
    · obtain ⟨u, y, e, hy, e2⟩ := hc i hi
      obtain ⟨gu, b, k, R, X, hn, hm⟩ := ar_step agrees_gravity (good i (by omega)) e
      obtain ⟨s', e3, _, a3, _⟩ := ARSys.postIter_sim gu y hy.isIndex
      rw [e2] at e3; cases e3
      have e4 : (s (i + 1)).abs.P = u.abs.P := congrArg ReguSys.P a3
      refine ⟨b, k, fun _ => ⟨R, ?_, (congrArg Particles.num e4).trans hn, (congrArg Particles.mass e4).trans hm⟩⟩
      rw [a3]; exact X
    · exact ⟨0, 0, fun h => absurd h (by omega)⟩
  choose a k hk using each
  refine ⟨a, k, fun i hi => ?_, fun ha htm => ?_⟩
  · obtain ⟨R, ⟨_, _, _, _, h1, h2, _⟩, _⟩ := hk i hi
    exact ⟨R, h1, hD ▸ h2⟩
  · obtain ⟨r1, r2, r3⟩ := H P S kdk { p with err := fun _ _ _ => 0 } hD N (fun i => (s i).abs) a k a0 (fun i hi => (hk i hi).2) ha htm
    refine ⟨r1, r2, fun b hb0 hb j hj r hr => ?_⟩
    obtain ⟨q1, q2, q3, q4, q5, q6, q7, q8⟩ := hr
    obtain ⟨r', e⟩ := r3 b hb0 hb j hj r.abs ⟨q1, q2, q3, q5, q6, fun l hl => ⟨(q7 l hl).1, (q7 l hl).2.1, fun hd => absurd hd (by decide)⟩⟩
    have gr : ARSys.Good chainGravity.velDep r := same_good_ar (good N le_rfl) ⟨q1, q2, q3, q4, q5, q6, q7, q8⟩
    rcases arOps_run agrees_gravity 1 .logH rfl (if kdk then substepsKDK b (hSeq D j) else substepsDKD b (hSeq D j)) r gr with ⟨s', e1, _, _⟩ | ⟨_, e2⟩
    · exact ⟨s', e1⟩
    · rw [e] at e2; cases e2

/-! ### the hypotheses are met -/

/-- a tolerance never exceeded, and steps that are never changed -/
noncomputable def easy (kdk : Bool) : Params ℝ := ⟨7, kdk, fun _ _ _ => 0, fun _ _ => 1, fun _ _ => 1⟩

theorem chain_returns (kdk : Bool) (h : ℝ) (s : ChainSys) (g : ChainSys.Good false s) :
    ∃ s' h' c', ChainMacro chainGravity kdk (easy kdk) h (State.init 7) s s' h' c' := by
  have gp : ChainSys.Good chainGravity.velDep (s.preIter chainGravity) := (ChainSys.preIter_sim agrees_gravity g).1
  have L := chain_lawful chainGravity kdk _ gp.cons
  obtain ⟨u, h', c', e⟩ := lawful_returns L (easy kdk) (by show 1 ≤ 7; norm_num) (fun _ _ _ => zero_le_one) h (fun x j F _ => by
      have gx := same_good gp F.2.2.2.1
      obtain ⟨s', t, e1, _⟩ := chainOps_run agrees_gravity rfl (if kdk then substepsKDK h (hSeq (easy kdk).maxDepth j) else substepsDKD h (hSeq (easy kdk).maxDepth j)) x gx
      exact ⟨s', e1⟩) (fun x v f hv => by
      obtain ⟨y, e1, _⟩ := C13_chain_write_read chainGravity x (by rw [f.1]; exact gp.cons.num) (by rw [f.1, f.2.2]; exact gp.cons.index) v
        (by rw [hv, show (chainSys chainGravity kdk).write (s.preIter chainGravity) = (s.preIter chainGravity).write chainGravity from rfl, C13_chain_size]
            unfold ChainSys.variableNumber; rw [f.1])
      exact ⟨y, e1⟩)
  obtain ⟨gu, _⟩ := chain_step agrees_gravity g e
  obtain ⟨idx, hi⟩ := IndexOf.exists u.P gu.two
  obtain ⟨s', e2, _⟩ := ChainSys.postIter_sim gu idx hi.isIndex
  exact ⟨s', h', c', u, idx, e, hi, e2⟩

/-- Concretely: any two or more particles, one macro step of a fresh iterator. -/
example (kdk : Bool) (time h : ℝ) (P : Particles) (hP : 2 ≤ P.num) : ∃ idx s0 s1 h' c', IndexOf P idx ∧ ChainSys.init time P idx = .ok s0 ∧
    ChainMacro chainGravity kdk (easy kdk) h (State.init 7) s0 s1 h' c' ∧ momentum s1.P = momentum P := by
  obtain ⟨idx, hi⟩ := IndexOf.exists P hP
  obtain ⟨s0, e0, g, _⟩ := ChainSys.init_sim time P idx hP hi.isIndex
  obtain ⟨s1, h', c', e⟩ := chain_returns kdk h s0 g.weaken
  refine ⟨idx, s0, s1, h', c', hi, e0, e, ?_⟩
  exact (C58_chain agrees_gravity kdk (easy kdk) time P idx hi
    ⟨by intro P acc hn hm; rw [← hn, ← hm]; exact (Props.C07_newton_third_law P acc).1, by simp⟩ 1 (fun i => if i = 0 then s0 else s1)
    (fun i => if i = 0 then State.init 7 else c') (fun _ => h) (fun _ => h') (by simpa using e0) (fun i hi => by
      obtain rfl : i = 0 := by omega
      simpa using e)).1

/-- The circular motion of two masses, integrated as an AR-chain system. -/
example (t0 : ℝ) : ∃ K κ ρ : ℝ, 0 < κ ∧ 0 < ρ ∧ ∀ h, 0 ≤ h → h ≤ ρ → ∃ idx s0 s1 h' c' k,
    ARSys.init 1 .logH t0 ⟨2, circlePos t0, circleVel t0, fun _ => 1 / 2⟩ idx = .ok s0 ∧
    ARMacro 1 .logH chainGravity true (easy true) h (State.init 7) s0 s1 h' c' ∧
    (s1.time ≤ t0 + 1 → t0 + κ * h ≤ s1.time ∧ WithinOf 2 (fun _ => 1 / 2) circlePos circleVel s1.time (K * h ^ (2 * k + 3)) s1.P) := by
  obtain ⟨K, κ, ρ, _, hκ, hρ, H⟩ := C95_archain (by linarith : t0 ≤ t0 + 1) (by linarith : t0 + 1 < t0 + 2) (circle_motion t0 (t0 + 2)) le_rfl
    (fun _ _ => by norm_num) 7
  refine ⟨K, κ, ρ, hκ, hρ, fun h hh hle => ?_⟩
  set P : Particles := ⟨2, circlePos t0, circleVel t0, fun _ => 1 / 2⟩ with hP
  have S : InState 2 (fun _ => 1 / 2) circlePos circleVel t0 P := ⟨rfl, fun _ _ => rfl, fun _ _ => rfl, fun _ _ => rfl⟩
  obtain ⟨idx, hi⟩ := IndexOf.exists P le_rfl
  obtain ⟨s0, e0, g0, _⟩ := ARSys.init_sim 1 .logH t0 P idx le_rfl hi.isIndex
  have g := g0.weaken
  obtain ⟨_, _, _, H0⟩ := H P S true (easy true) rfl idx hi 0 (fun _ => s0) (fun _ => State.init 7) (fun _ => h) (fun _ => h) e0 (fun i hi => absurd hi (by omega))
  have st : s0.time ≤ t0 + 1 := by
    have : s0.time = t0 := by
      obtain ⟨s0', e0', _, a, _⟩ := ARSys.init_sim 1 .logH t0 P idx le_rfl hi.isIndex
      rw [e0] at e0'; cases e0'
      exact congrArg ReguSys.time a
    linarith
  obtain ⟨_, _, runs⟩ := H0 (fun i hi => absurd hi (by omega)) (fun _ _ => st)
  have gp : ARSys.Good chainGravity.velDep (s0.preIter chainGravity) := (ARSys.preIter_sim agrees_gravity g).1
  have ep : s0.preIter chainGravity = s0 := rfl
  have L := ar_lawful 1 .logH chainGravity true _ gp.cons
  obtain ⟨u, h', c', e⟩ := lawful_returns L (easy true) (by show 1 ≤ 7; norm_num) (fun _ _ _ => zero_le_one) h (fun x j F hj =>
      runs h hh hle j (by omega) x F.2.2.2.1) (fun x v f hv => by
      obtain ⟨y, e1, _⟩ := C13_archain_write_read chainGravity x (by rw [f.1]; exact gp.cons.num) (by rw [f.1, f.2.2]; exact gp.cons.index) v
        (by rw [hv, show (archainSys 1 .logH chainGravity true).write (s0.preIter chainGravity) = (s0.preIter chainGravity).write chainGravity from rfl, C13_archain_size]
            unfold ARSys.variableNumber; rw [f.1])
      exact ⟨y, e1⟩)
  obtain ⟨gu, _⟩ := ar_step agrees_gravity g e
  obtain ⟨idx', hi'⟩ := IndexOf.exists u.P gu.two
  obtain ⟨s1, e2, _⟩ := ARSys.postIter_sim gu idx' hi'.isIndex
  have mac : ARMacro 1 .logH chainGravity true (easy true) h (State.init 7) s0 s1 h' c' := ⟨u, idx', e, hi', e2⟩
  obtain ⟨a, k, hk, W⟩ := H P S true (easy true) rfl idx hi 1 (fun i => if i = 0 then s0 else s1) (fun i => if i = 0 then State.init 7 else c')
    (fun _ => h) (fun _ => h') (by simpa using e0) (fun i hi => by
      obtain rfl : i = 0 := by omega
      simpa using mac)
  have ha : a 0 = h := retried_one (fun _ _ => rfl) (hk 0 one_pos).1
  refine ⟨idx, s0, s1, h', c', k 0, e0, mac, fun ht => ?_⟩
  obtain ⟨w1, w2, _⟩ := W (fun i hi => by
      obtain rfl : i = 0 := by omega
      rw [ha]; exact ⟨hh, hle⟩) (fun i hi => by
      rcases Nat.lt_or_ge i 1 with h1 | h1
      · obtain rfl : i = 0 := by omega
        simpa using st
      · obtain rfl : i = 1 := by omega
        simpa using ht)
  simp only [if_neg (show ¬ (1 = 0) by omega), sum_range_one, ha] at w1 w2
  exact ⟨w1, w2⟩

end SpaceHub.Sys
