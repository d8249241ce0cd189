import Verif.Proof.ARSim
import Verif.Proof.Force
import Verif.Model.Forces

/-
Runs of whole steps: the chain systems against the plain ones.
-/

set_option autoImplicit false

namespace SpaceHub.Sys
open SpaceHub V3 Force Core Integrator

/-! ### the library forces agree -/

theorem accumulates_unique {n : Nat} {F : Nat → Nat → V3 ℝ} {a x y : Arr (V3 ℝ)} (h1 : Spec.Accumulates n F a x)
    (h2 : Spec.Accumulates n F a y) : x = y := by
  funext k
  rcases Nat.lt_or_ge k n with hk | hk
  · rw [h1.1 k hk, h2.1 k hk]
  · rw [h1.2 k hk, h2.2 k hk]

theorem agrees_newton : AgreesF Lib.newtonC Lib.newton := by
  refine ⟨rfl, fun P C a hn hc => ?_⟩
  obtain ⟨a', h1, h2⟩ := chainLoopsFar_spec (newton_symmetric P) hc hn a
  show chainLoopsFar (newtonForce P.mass) P C a = _
  rw [h1, accumulates_unique h2 (directLoops_spec (newton_symmetric P) a)]; rfl

theorem agrees_pn1 (G c : ℝ) : AgreesF (Lib.pnC G c .pn1) (Lib.pn G c .pn1) := by
  refine ⟨rfl, fun P C a hn hc => ?_⟩
  obtain ⟨a', h1, h2⟩ := chainLoopsNear_spec (pn1_symmetric G c P) hc hn a
  show chainLoopsNear (pn1Force G c P.vel P.mass) P C a = _
  rw [h1, accumulates_unique h2 (directLoops_spec (pn1_symmetric G c P) a)]; rfl

theorem agrees_pn2p5 (G c : ℝ) : AgreesF (Lib.pnC G c .pn2p5) (Lib.pn G c .pn2p5) := by
  refine ⟨rfl, fun P C a hn hc => ?_⟩
  obtain ⟨a', h1, h2⟩ := chainLoopsNear_spec (pn2p5_symmetric G c P) hc hn a
  show chainLoopsNear (pn2p5Force G c P.mass) P C a = _
  rw [h1, accumulates_unique h2 (directLoops_spec (pn2p5_symmetric G c P) a)]; rfl

theorem agrees_tidal (G : ℝ) (T : TideData) : AgreesF (Lib.tidalC G T) (Lib.tidal G T) := by
  refine ⟨rfl, fun P C a hn hc => ?_⟩
  obtain ⟨a', h1, h2⟩ := chainLoopsFar_spec (tidal_symmetric G T P) hc hn a
  show chainLoopsFar (tidalForce G P.mass T) P C a = _
  rw [h1, accumulates_unique h2 (directLoops_spec (tidal_symmetric G T P) a)]; rfl

theorem agrees_capture (rad : Arr ℝ) : AgreesF (Lib.captureC rad) (Lib.capture rad) := ⟨rfl, fun _ _ _ _ _ => rfl⟩
theorem agrees_alpha (G : ℝ) (D : DiskParams) (rad : Arr ℝ) : AgreesF (Lib.alphaC G D rad) (Lib.alpha G D rad) :=
  ⟨rfl, fun _ _ _ _ _ => rfl⟩
theorem agrees_drag (c cs : Arr ℝ) : AgreesF (Lib.dragC c cs) (Lib.drag c cs) := ⟨rfl, fun _ _ _ _ _ => rfl⟩

/-! ### runs, plain against chain -/

section
variable {IC : ChainInteractions} {I : Interactions} (A : AgreesI IC I)
include A

theorem chainOps_run {b : Bool} (hb : b = I.velDep) (ops : List Op) (s : ChainSys) (g : ChainSys.Good b s) :
    ∃ s' t, (chainOps IC).run ops s = .ok s' ∧ (simpleOps I).run ops s.abs = .ok t ∧ ChainSys.Good b s' ∧ s'.abs = t := by
  induction ops generalizing s with
  | nil => exact ⟨s, s.abs, rfl, rfl, g, rfl⟩
  | cons op ops ih =>
    cases op with
    | drift h =>
      obtain ⟨s1, e1, g1, _, a1⟩ := ChainSys.drift_sim g h
      obtain ⟨s', t, e2, e3, g2, a2⟩ := ih s1 g1
      refine ⟨s', t, ?_, ?_, g2, a2⟩
      · show s.drift h >>= _ = _; rw [e1]; exact e2
      · show (simpleOps I).run ops (s.abs.drift h) = _; rw [← a1]; exact e3
    | kick h =>
      obtain ⟨s1, e1, g1, _, a1⟩ := ChainSys.kick_sim A hb g h
      obtain ⟨s', t, e2, e3, g2, a2⟩ := ih s1 g1
      refine ⟨s', t, ?_, ?_, g2, a2⟩
      · show s.kick IC h >>= _ = _; rw [e1]; exact e2
      · show (simpleOps I).run ops (s.abs.kick I h) = _; rw [← a1]; exact e3

theorem chainStep_sim (ops : List Op) (s : ChainSys) (g : ChainSys.Good false s) :
    ∃ t, simpleStep I ops s.abs = .ok t ∧ (∃ r, ChainStep IC ops s r) ∧
      ∀ r, ChainStep IC ops s r → ∃ s', r = .ok s' ∧ ChainSys.Good false s' ∧ s'.abs = t := by
  obtain ⟨gp, ap⟩ := ChainSys.preIter_sim A g
  obtain ⟨s1, t, e1, e2, g1, a1⟩ := chainOps_run A rfl ops _ gp
  rw [ap] at e2
  refine ⟨t, e2, ?_, ?_⟩
  · obtain ⟨idx, hi⟩ := IndexOf.exists s1.P g1.two
    exact ⟨_, Or.inl ⟨s1, idx, e1, hi, rfl⟩⟩
  · rintro r (⟨s2, idx, e3, hi, rfl⟩ | ⟨hne, _⟩)
    · rw [e1] at e3; cases e3
      obtain ⟨s', e4, g4, a4, _⟩ := ChainSys.postIter_sim g1.weaken idx hi.isIndex
      exact ⟨s', e4, g4, a4.trans a1⟩
    · exact absurd e1 (hne s1)

theorem chainSteps_sim (oss : List (List Op)) (s : ChainSys) (g : ChainSys.Good false s) :
    ∃ t, steps (simpleStep I) oss s.abs = .ok t ∧ (∃ r, Steps (ChainStep IC) oss s r) ∧
      ∀ r, Steps (ChainStep IC) oss s r → ∃ s', r = .ok s' ∧ ChainSys.Good false s' ∧ s'.abs = t := by
  induction oss generalizing s with
  | nil =>
    refine ⟨s.abs, rfl, ⟨_, .nil s⟩, ?_⟩
    intro r h; cases h; exact ⟨s, rfl, g, rfl⟩
  | cons ops oss ih =>
    obtain ⟨t1, e1, ⟨r1, hr1⟩, hall⟩ := chainStep_sim A ops s g
    obtain ⟨s1, rfl, g1, a1⟩ := hall r1 hr1
    obtain ⟨t, e2, ⟨r2, hr2⟩, _⟩ := ih s1 g1
    rw [a1] at e2
    refine ⟨t, by simp only [steps, e1, Res.ok_bind, e2], ⟨r2, .cons _ _ _ _ _ hr1 hr2⟩, ?_⟩
    intro r h
    cases h with
    | cons _ _ _ s2 _ h1 h2 =>
      obtain ⟨s3, e3, g3, a3⟩ := hall _ h1
      cases e3
      obtain ⟨t', e4, _, hall'⟩ := ih s2 g3
      rw [a3, e2] at e4; cases e4
      exact hall' r h2
    | fail _ _ _ _ h1 h2 =>
      obtain ⟨s3, e3, _⟩ := hall _ h1
      exact absurd e3 (h2 s3)

variable (G : ℝ) (type : ReguType)

theorem arOps_run {b : Bool} (hb : b = I.velDep) (ops : List Op) (s : ARSys) (g : ARSys.Good b s) :
    (∃ s', (arOps G type IC).run ops s = .ok s' ∧ (reguOps G type I).run ops s.abs = .ok s'.abs ∧ ARSys.Good b s') ∨
    ((arOps G type IC).run ops s = .nan ∧ (reguOps G type I).run ops s.abs = .nan) := by
  induction ops generalizing s with
  | nil => exact Or.inl ⟨s, rfl, rfl, g⟩
  | cons op ops ih =>
    cases op with
    | drift h =>
      show (∃ s', (s.drift type h >>= _) = _ ∧ (s.abs.drift type h >>= _) = _ ∧ _) ∨ ((s.drift type h >>= _) = _ ∧ (s.abs.drift type h >>= _) = _)
      rcases ARSys.drift_sim type g h with ⟨t1, h1, s1, e1, g1, _, a1⟩ | ⟨h1, h2⟩
      · rw [e1, h1, ← a1, Res.ok_bind, Res.ok_bind]; exact ih s1 g1
      · rw [h1, h2]; exact Or.inr ⟨rfl, rfl⟩
    | kick h =>
      show (∃ s', (s.kick G type IC h >>= _) = _ ∧ (s.abs.kick G type I h >>= _) = _ ∧ _) ∨ ((s.kick G type IC h >>= _) = _ ∧ (s.abs.kick G type I h >>= _) = _)
      rcases ARSys.kick_sim A G type hb g h with ⟨t1, h1, s1, e1, g1, _, a1⟩ | ⟨h1, h2⟩
      · rw [e1, h1, ← a1, Res.ok_bind, Res.ok_bind]; exact ih s1 g1
      · rw [h1, h2]; exact Or.inr ⟨rfl, rfl⟩

/-- what a run of an AR-chain system looks like next to the run of the regularised system -/
def ARAgree (r : Res ARSys) (t : Res ReguSys) : Prop :=
  (∃ s', r = .ok s' ∧ ARSys.Good false s' ∧ t = .ok s'.abs) ∨ (r = .nan ∧ t = .nan)

theorem arStep_sim (ops : List Op) (s : ARSys) (g : ARSys.Good false s) :
    (∃ r, ARStep G type IC ops s r) ∧ ∀ r, ARStep G type IC ops s r → ARAgree r (reguStep G type I ops s.abs) := by
  obtain ⟨gp, ap⟩ := ARSys.preIter_sim A g
  have := arOps_run A G type rfl ops _ gp
  rw [ap] at this
  rcases this with ⟨s1, e1, e2, g1⟩ | ⟨e1, e2⟩
  · constructor
    · obtain ⟨idx, hi⟩ := IndexOf.exists s1.P g1.two
      exact ⟨_, Or.inl ⟨s1, idx, e1, hi, rfl⟩⟩
    · rintro r (⟨s2, idx, e3, hi, rfl⟩ | ⟨hne, _⟩)
      · rw [e1] at e3; cases e3
        obtain ⟨s', e4, g4, a4, _⟩ := ARSys.postIter_sim g1.weaken idx hi.isIndex
        exact Or.inl ⟨s', e4, g4, by rw [a4]; exact e2⟩
      · exact absurd e1 (hne s1)
  · constructor
    · exact ⟨_, Or.inr ⟨fun s1 h => by simp [e1] at h, rfl⟩⟩
    · rintro r (⟨s2, idx, e3, hi, rfl⟩ | ⟨_, rfl⟩)
      · rw [e1] at e3; simp at e3
      · exact Or.inr ⟨e1, e2⟩

theorem arSteps_sim (oss : List (List Op)) (s : ARSys) (g : ARSys.Good false s) :
    (∃ r, Steps (ARStep G type IC) oss s r) ∧
      ∀ r, Steps (ARStep G type IC) oss s r → ARAgree r (steps (reguStep G type I) oss s.abs) := by
  induction oss generalizing s with
  | nil =>
    refine ⟨⟨_, .nil s⟩, ?_⟩
    intro r h; cases h; exact Or.inl ⟨s, rfl, g, rfl⟩
  | cons ops oss ih =>
    obtain ⟨⟨r1, hr1⟩, hall⟩ := arStep_sim A G type ops s g
    constructor
    · rcases hall r1 hr1 with ⟨s1, rfl, g1, _⟩ | ⟨rfl, _⟩
      · obtain ⟨⟨r2, hr2⟩, _⟩ := ih s1 g1
        exact ⟨r2, .cons _ _ _ _ _ hr1 hr2⟩
      · exact ⟨_, .fail _ _ _ _ hr1 (by simp)⟩
    · intro r h
      cases h with
      | cons _ _ _ s2 _ h1 h2 =>
        rcases hall _ h1 with ⟨s3, e3, g3, a3⟩ | ⟨e, _⟩
        · cases e3
          simp only [steps, a3, Res.ok_bind]
          exact (ih s2 g3).2 r h2
        · simp at e
      | fail _ _ _ _ h1 h2 =>
        rcases hall _ h1 with ⟨s3, e3, _⟩ | ⟨rfl, e⟩
        · exact absurd e3 (h2 s3)
        · simp only [steps, e, Res.nan_bind]; exact Or.inr ⟨rfl, rfl⟩
end

end SpaceHub.Sys
