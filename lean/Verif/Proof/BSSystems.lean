import Verif.Proof.BSLawful
import Verif.Proof.Increment

/-
The particle systems under the Bulirsch-Stoer iterator: what `drift`, `kick` and `read_from_scalar_array` leave alone.
-/

set_option autoImplicit false

namespace SpaceHub.Sys
open SpaceHub V3 Force Core Integrator

/-- a relation kept by every call is kept by a run -/
theorem run_keeps {S : Type} (o : Ops S) (R : S → S → Prop) (refl : ∀ s, R s s) (trans : ∀ a b c, R a b → R b c → R a c)
    (H : ∀ op s s', o.apply op s = .ok s' → R s s') (ops : List Op) (s s' : S) (e : o.run ops s = .ok s') : R s s' := by
  induction ops generalizing s with
  | nil => cases e; exact refl _
  | cons op ops ih =>
    obtain ⟨s1, e1, e2⟩ := Res.bind_eq_ok.1 e
    exact trans _ _ _ (H op s s1 e1) (ih s1 e2)

/-- number and masses of the particles -/
def Simple.Frame (s s' : Simple) : Prop := s'.P.num = s.P.num ∧ s'.P.mass = s.P.mass
def ReguSys.Frame (s s' : ReguSys) : Prop := s'.P.num = s.P.num ∧ s'.P.mass = s.P.mass
/-- number, masses and chain of the particles -/
def ChainSys.Frame (s s' : ChainSys) : Prop := s'.P.num = s.P.num ∧ s'.P.mass = s.P.mass ∧ s'.index = s.index
def ARSys.Frame (s s' : ARSys) : Prop := s'.P.num = s.P.num ∧ s'.P.mass = s.P.mass ∧ s'.index = s.index

theorem Simple.Frame.trans {a b c : Simple} (x : Frame a b) (y : Frame b c) : Frame a c := ⟨y.1.trans x.1, y.2.trans x.2⟩
theorem ReguSys.Frame.trans {a b c : ReguSys} (x : Frame a b) (y : Frame b c) : Frame a c := ⟨y.1.trans x.1, y.2.trans x.2⟩
theorem ChainSys.Frame.trans {a b c : ChainSys} (x : Frame a b) (y : Frame b c) : Frame a c :=
  ⟨y.1.trans x.1, y.2.1.trans x.2.1, y.2.2.trans x.2.2⟩
theorem ARSys.Frame.trans {a b c : ARSys} (x : Frame a b) (y : Frame b c) : Frame a c :=
  ⟨y.1.trans x.1, y.2.1.trans x.2.1, y.2.2.trans x.2.2⟩

/-! ### plain system -/

theorem Simple.drift_frame (s : Simple) (h : ℝ) : Simple.Frame s (s.drift h) := by
  unfold Simple.drift Simple.syncTime Simple.syncPos
  dsimp only
  split_ifs <;> exact ⟨rfl, rfl⟩

theorem Simple.kickReal_frame (I : Interactions) (a : Arr (V3 ℝ)) (h : ℝ) (s : Simple) :
    Simple.Frame s (s.kickReal I a h) := by
  unfold Simple.kickReal Simple.syncVel
  dsimp only
  split_ifs <;> exact ⟨rfl, rfl⟩

theorem Simple.kickPseu_frame (I : Interactions) (a : Arr (V3 ℝ)) (h : ℝ) (s : Simple) :
    Simple.Frame s (s.kickPseu I a h) := by
  unfold Simple.kickPseu Simple.syncAux
  dsimp only
  split_ifs <;> exact ⟨rfl, rfl⟩

theorem Simple.kick_frame' (I : Interactions) (h : ℝ) (s : Simple) : Simple.Frame s (s.kick I h) := by
  unfold Simple.kick
  by_cases hd : I.velDep = true
  · rw [if_pos hd]
    exact ((s.kickReal_frame I _ _).trans (Simple.kickPseu_frame I _ _ _)).trans (Simple.kickReal_frame I _ _ _)
  · rw [if_neg hd]
    unfold Simple.syncVel
    dsimp only
    split_ifs <;> exact ⟨rfl, rfl⟩

theorem Simple.run_frame (I : Interactions) (ops : List Op) (s s' : Simple) (e : (simpleOps I).run ops s = .ok s') :
    Simple.Frame s s' := by
  refine run_keeps (simpleOps I) Simple.Frame (fun _ => ⟨rfl, rfl⟩) (fun _ _ _ => Simple.Frame.trans) ?_ ops s s' e
  intro op s s' e
  cases op with
  | drift h => cases e; exact s.drift_frame h
  | kick h => cases e; exact s.kick_frame' I h

/-! ### regularised system -/

theorem ReguSys.drift_frame (type : ReguType) (s s' : ReguSys) (h : ℝ) (e : s.drift type h = .ok s') :
    ReguSys.Frame s s' := by
  unfold ReguSys.drift at e
  obtain ⟨rt, _, e⟩ := Res.bind_eq_ok.1 e
  rw [← Res.ok.inj e]
  unfold ReguSys.syncTime ReguSys.syncPos
  dsimp only
  split_ifs <;> exact ⟨rfl, rfl⟩

theorem ReguSys.kickReal_frame (I : Interactions) (a : Arr (V3 ℝ)) (h : ℝ) (s : ReguSys) :
    ReguSys.Frame s (s.kickReal I a h) := by
  unfold ReguSys.kickReal ReguSys.syncVel
  dsimp only
  split_ifs <;> exact ⟨rfl, rfl⟩

theorem ReguSys.advanceOmega_frame (type : ReguType) (I : Interactions) (v d : Arr (V3 ℝ)) (t : ℝ) (s : ReguSys) :
    ReguSys.Frame s (s.advanceOmega type I v d t) := by
  unfold ReguSys.advanceOmega ReguSys.syncOmega
  dsimp only
  split_ifs <;> exact ⟨rfl, rfl⟩

theorem ReguSys.advanceBindE_frame (type : ReguType) (I : Interactions) (v d : Arr (V3 ℝ)) (t : ℝ) (s : ReguSys) :
    ReguSys.Frame s (s.advanceBindE type I v d t) := by
  unfold ReguSys.advanceBindE ReguSys.syncBindE
  dsimp only
  split_ifs <;> exact ⟨rfl, rfl⟩

theorem ReguSys.advanceBindE_if_frame (type : ReguType) (I : Interactions) (v d : Arr (V3 ℝ)) (t : ℝ) (s : ReguSys) (b : Bool) :
    ReguSys.Frame s (if b then s.advanceBindE type I v d t else s) := by
  cases b
  · exact ⟨rfl, rfl⟩
  · exact s.advanceBindE_frame type I v d t

theorem ReguSys.syncVel_frame (a : Arr (V3 ℝ)) (h : ℝ) (s : ReguSys) : ReguSys.Frame s (s.syncVel a h) := by
  unfold ReguSys.syncVel; split_ifs <;> exact ⟨rfl, rfl⟩
theorem ReguSys.syncAux_frame (a : Arr (V3 ℝ)) (h : ℝ) (s : ReguSys) : ReguSys.Frame s (s.syncAux a h) := by
  unfold ReguSys.syncAux; split_ifs <;> exact ⟨rfl, rfl⟩

theorem ReguSys.kickPseu_frame (type : ReguType) (I : Interactions) (newt ext tot : Arr (V3 ℝ)) (t : ℝ) (s : ReguSys) :
    ReguSys.Frame s (s.kickPseu type I newt ext tot t) := by
  unfold ReguSys.kickPseu
  dsimp only
  have h1 : ReguSys.Frame s { s with aux := advance s.P.num s.aux (arrayAdd s.P.num tot (I.velDepAcc s.P)) t } := ⟨rfl, rfl⟩
  have h2 := h1.trans (ReguSys.syncAux_frame (arrayAdd s.P.num tot (I.velDepAcc s.P)) t _)
  by_cases hd : I.velIndep = true
  · rw [if_pos hd]
    exact (h2.trans (ReguSys.advanceOmega_frame type I _ newt t _)).trans (ReguSys.advanceBindE_frame type I _ _ t _)
  · rw [if_neg hd]
    exact (h2.trans (ReguSys.advanceOmega_frame type I _ newt t _)).trans (ReguSys.advanceBindE_frame type I _ _ t _)

theorem ReguSys.kick_frame' (G : ℝ) (type : ReguType) (I : Interactions) (h : ℝ) (s s' : ReguSys)
    (e : s.kick G type I h = .ok s') : ReguSys.Frame s s' := by
  unfold ReguSys.kick at e
  obtain ⟨rt, _, e⟩ := Res.bind_eq_ok.1 e
  have h0 : ReguSys.Frame s { s with R := rt.1 } := ⟨rfl, rfl⟩
  dsimp only at e
  by_cases hd : I.velDep = true
  · rw [if_pos hd] at e
    rw [← Res.ok.inj e]
    exact ((h0.trans (ReguSys.kickReal_frame I _ _ _)).trans (ReguSys.kickPseu_frame type I _ _ _ _ _)).trans
      (ReguSys.kickReal_frame I _ _ _)
  · rw [if_neg hd] at e
    rw [← Res.ok.inj e]
    refine ReguSys.Frame.trans ?_ (ReguSys.advanceOmega_frame type I _ _ _ _)
    refine ReguSys.Frame.trans ?_ (ReguSys.advanceBindE_if_frame type I _ _ _ _ I.velIndep)
    refine ReguSys.Frame.trans ?_ (ReguSys.syncVel_frame _ _ _)
    exact (h0.trans (ReguSys.advanceOmega_frame type I s.P.vel (I.newtonianAcc s.P) (1 / 2 * rt.2) _)).trans
      (ReguSys.advanceBindE_if_frame type I
        (ReguSys.advanceOmega type I s.P.vel (I.newtonianAcc s.P) (1 / 2 * rt.2) { s with R := rt.1 }).P.vel
        (I.velIndepAcc s.P) (1 / 2 * rt.2) _ I.velIndep)

theorem ReguSys.run_frame (G : ℝ) (type : ReguType) (I : Interactions) (ops : List Op) (s s' : ReguSys)
    (e : (reguOps G type I).run ops s = .ok s') : ReguSys.Frame s s' := by
  refine run_keeps (reguOps G type I) ReguSys.Frame (fun _ => ⟨rfl, rfl⟩) (fun _ _ _ => ReguSys.Frame.trans) ?_ ops s s' e
  intro op s s' e
  cases op with
  | drift h => exact s.drift_frame type s' h e
  | kick h => exact s.kick_frame' G type I h s' e

/-! ### chain system -/

theorem ChainSys.drift_frame (s s' : ChainSys) (h : ℝ) (e : s.drift h = .ok s') : ChainSys.Frame s s' := by
  unfold ChainSys.drift at e
  obtain ⟨r, _, e⟩ := Res.bind_eq_ok.1 e
  rw [← Res.ok.inj e]
  unfold ChainSys.syncTime ChainSys.syncPos
  dsimp only
  split_ifs <;> exact ⟨rfl, rfl, rfl⟩

theorem ChainSys.kickReal_frame (I : ChainInteractions) (a : Arr (V3 ℝ)) (h : ℝ) (s s' : ChainSys)
    (e : s.kickReal I a h = .ok s') : ChainSys.Frame s s' := by
  unfold ChainSys.kickReal at e
  obtain ⟨_, _, e⟩ := Res.bind_eq_ok.1 e
  obtain ⟨cacc, _, e⟩ := Res.bind_eq_ok.1 e
  obtain ⟨r, _, e⟩ := Res.bind_eq_ok.1 e
  rw [← Res.ok.inj e]
  unfold ChainSys.syncVel
  dsimp only
  split_ifs <;> exact ⟨rfl, rfl, rfl⟩

theorem ChainSys.kickPseu_frame (I : ChainInteractions) (a : Arr (V3 ℝ)) (h : ℝ) (s s' : ChainSys)
    (e : s.kickPseu I a h = .ok s') : ChainSys.Frame s s' := by
  unfold ChainSys.kickPseu at e
  obtain ⟨_, _, e⟩ := Res.bind_eq_ok.1 e
  obtain ⟨cacc, _, e⟩ := Res.bind_eq_ok.1 e
  obtain ⟨r, _, e⟩ := Res.bind_eq_ok.1 e
  rw [← Res.ok.inj e]
  unfold ChainSys.syncAux
  dsimp only
  split_ifs <;> exact ⟨rfl, rfl, rfl⟩

theorem ChainSys.kick_frame' (I : ChainInteractions) (h : ℝ) (s s' : ChainSys) (e : s.kick I h = .ok s') :
    ChainSys.Frame s s' := by
  unfold ChainSys.kick at e
  by_cases hd : I.velDep = true
  · rw [if_pos hd] at e
    obtain ⟨a, _, e⟩ := Res.bind_eq_ok.1 e
    obtain ⟨s1, e1, e⟩ := Res.bind_eq_ok.1 e
    obtain ⟨s2, e2, e3⟩ := Res.bind_eq_ok.1 e
    exact ((s.kickReal_frame I _ _ _ e1).trans (s1.kickPseu_frame I _ _ _ e2)).trans (s2.kickReal_frame I _ _ _ e3)
  · rw [if_neg hd] at e
    obtain ⟨_, _, e⟩ := Res.bind_eq_ok.1 e
    obtain ⟨cacc, _, e⟩ := Res.bind_eq_ok.1 e
    obtain ⟨r, _, e⟩ := Res.bind_eq_ok.1 e
    rw [← Res.ok.inj e]
    unfold ChainSys.syncVel
    dsimp only
    split_ifs <;> exact ⟨rfl, rfl, rfl⟩

theorem ChainSys.run_frame (I : ChainInteractions) (ops : List Op) (s s' : ChainSys) (e : (chainOps I).run ops s = .ok s') :
    ChainSys.Frame s s' := by
  refine run_keeps (chainOps I) ChainSys.Frame (fun _ => ⟨rfl, rfl, rfl⟩) (fun _ _ _ => ChainSys.Frame.trans) ?_ ops s s' e
  intro op s s' e
  cases op with
  | drift h => exact s.drift_frame s' h e
  | kick h => exact s.kick_frame' I h s' e

/-! ### AR-chain system -/

theorem ARSys.drift_frame (type : ReguType) (s s' : ARSys) (h : ℝ) (e : s.drift type h = .ok s') : ARSys.Frame s s' := by
  unfold ARSys.drift at e
  obtain ⟨rt, _, e⟩ := Res.bind_eq_ok.1 e
  obtain ⟨r, _, e⟩ := Res.bind_eq_ok.1 e
  rw [← Res.ok.inj e]
  unfold ARSys.syncTime ARSys.syncPos
  dsimp only
  split_ifs <;> exact ⟨rfl, rfl, rfl⟩

theorem ARSys.kickReal_frame (I : ChainInteractions) (a : Arr (V3 ℝ)) (h : ℝ) (s s' : ARSys)
    (e : s.kickReal I a h = .ok s') : ARSys.Frame s s' := by
  unfold ARSys.kickReal at e
  obtain ⟨_, _, e⟩ := Res.bind_eq_ok.1 e
  obtain ⟨cacc, _, e⟩ := Res.bind_eq_ok.1 e
  obtain ⟨r, _, e⟩ := Res.bind_eq_ok.1 e
  rw [← Res.ok.inj e]
  unfold ARSys.syncVel
  dsimp only
  split_ifs <;> exact ⟨rfl, rfl, rfl⟩

theorem ARSys.advanceOmega_frame (type : ReguType) (I : ChainInteractions) (v d : Arr (V3 ℝ)) (t : ℝ) (s : ARSys) :
    ARSys.Frame s (s.advanceOmega type I v d t) := by
  unfold ARSys.advanceOmega ARSys.syncOmega
  dsimp only
  split_ifs <;> exact ⟨rfl, rfl, rfl⟩

theorem ARSys.advanceBindE_frame (type : ReguType) (I : ChainInteractions) (v d : Arr (V3 ℝ)) (t : ℝ) (s : ARSys) :
    ARSys.Frame s (s.advanceBindE type I v d t) := by
  unfold ARSys.advanceBindE ARSys.syncBindE
  dsimp only
  split_ifs <;> exact ⟨rfl, rfl, rfl⟩

theorem ARSys.advanceBindE_if_frame (type : ReguType) (I : ChainInteractions) (v d : Arr (V3 ℝ)) (t : ℝ) (s : ARSys) (b : Bool) :
    ARSys.Frame s (if b then s.advanceBindE type I v d t else s) := by
  cases b
  · exact ⟨rfl, rfl, rfl⟩
  · exact s.advanceBindE_frame type I v d t

theorem ARSys.syncVel_frame (a : Arr (V3 ℝ)) (h : ℝ) (s : ARSys) : ARSys.Frame s (s.syncVel a h) := by
  unfold ARSys.syncVel; split_ifs <;> exact ⟨rfl, rfl, rfl⟩
theorem ARSys.syncAux_frame (a : Arr (V3 ℝ)) (h : ℝ) (s : ARSys) : ARSys.Frame s (s.syncAux a h) := by
  unfold ARSys.syncAux; split_ifs <;> exact ⟨rfl, rfl, rfl⟩

theorem ARSys.kickPseu_frame (type : ReguType) (I : ChainInteractions) (newt ext tot : Arr (V3 ℝ)) (t : ℝ) (s s' : ARSys)
    (e : s.kickPseu type I newt ext tot t = .ok s') : ARSys.Frame s s' := by
  unfold ARSys.kickPseu at e
  obtain ⟨_, _, e⟩ := Res.bind_eq_ok.1 e
  obtain ⟨cacc, _, e⟩ := Res.bind_eq_ok.1 e
  obtain ⟨r, _, e⟩ := Res.bind_eq_ok.1 e
  dsimp only at e
  have h1 : ARSys.Frame s { s with aux := r.1, caux := r.2 } := ⟨rfl, rfl, rfl⟩
  have h2 := (h1.trans (ARSys.syncAux_frame cacc t _)).trans (ARSys.advanceOmega_frame type I
    (ARSys.syncAux { s with aux := r.1, caux := r.2 } cacc t).P.vel newt t _)
  by_cases hd : I.velIndep = true
  · rw [if_pos hd] at e
    rw [← Res.ok.inj e]
    exact h2.trans (ARSys.advanceBindE_frame type I _ _ t _)
  · rw [if_neg hd] at e
    rw [← Res.ok.inj e]
    exact h2.trans (ARSys.advanceBindE_frame type I _ _ t _)

theorem ARSys.kick_frame' (G : ℝ) (type : ReguType) (I : ChainInteractions) (h : ℝ) (s s' : ARSys)
    (e : s.kick G type I h = .ok s') : ARSys.Frame s s' := by
  unfold ARSys.kick at e
  obtain ⟨_, _, e⟩ := Res.bind_eq_ok.1 e
  obtain ⟨rt, _, e⟩ := Res.bind_eq_ok.1 e
  have h0 : ARSys.Frame s { s with R := rt.1 } := ⟨rfl, rfl, rfl⟩
  dsimp only at e
  obtain ⟨newt, _, e⟩ := Res.bind_eq_ok.1 e
  obtain ⟨ext, _, e⟩ := Res.bind_eq_ok.1 e
  by_cases hd : I.velDep = true
  · rw [if_pos hd] at e
    obtain ⟨s1, e1, e⟩ := Res.bind_eq_ok.1 e
    obtain ⟨s2, e2, e3⟩ := Res.bind_eq_ok.1 e
    exact ((h0.trans (ARSys.kickReal_frame I _ _ _ _ e1)).trans (ARSys.kickPseu_frame type I _ _ _ _ _ _ e2)).trans
      (ARSys.kickReal_frame I _ _ _ _ e3)
  · rw [if_neg hd] at e
    obtain ⟨cacc, _, e⟩ := Res.bind_eq_ok.1 e
    obtain ⟨r, _, e⟩ := Res.bind_eq_ok.1 e
    rw [← Res.ok.inj e]
    refine ARSys.Frame.trans ?_ (ARSys.advanceOmega_frame type I _ _ _ _)
    refine ARSys.Frame.trans ?_ (ARSys.advanceBindE_if_frame type I _ _ _ _ I.velIndep)
    refine ARSys.Frame.trans ?_ (ARSys.syncVel_frame _ _ _)
    exact (h0.trans (ARSys.advanceOmega_frame type I s.P.vel newt (1 / 2 * rt.2) _)).trans
      (ARSys.advanceBindE_if_frame type I
        (ARSys.advanceOmega type I s.P.vel newt (1 / 2 * rt.2) { s with R := rt.1 }).P.vel ext (1 / 2 * rt.2) _ I.velIndep)

theorem ARSys.run_frame (G : ℝ) (type : ReguType) (I : ChainInteractions) (ops : List Op) (s s' : ARSys)
    (e : (arOps G type I).run ops s = .ok s') : ARSys.Frame s s' := by
  refine run_keeps (arOps G type I) ARSys.Frame (fun _ => ⟨rfl, rfl, rfl⟩) (fun _ _ _ => ARSys.Frame.trans) ?_ ops s s' e
  intro op s s' e
  cases op with
  | drift h => exact s.drift_frame type s' h e
  | kick h => exact s.kick_frame' G type I h s' e

end SpaceHub.Sys

namespace SpaceHub.Sys
open SpaceHub V3 Force Core Integrator

theorem Simple.read_frame (I : Interactions) (s s' : Simple) (y : List ℝ) (e : s.read I y = .ok s') :
    Simple.Frame s s' ∧ s'.sync = s.sync ∧ s'.write I = y := by
  have hy : y.length = s.variableNumber I := by
    by_contra h
    rw [C13_simple_abort I s y h] at e; cases e
  refine ⟨?_, ?_, ?_⟩
  rotate_left 2
  · obtain ⟨t, ht, hw⟩ := C13_simple_write_read I s y hy
    rw [ht] at e; rw [← Res.ok.inj e]; exact hw
  all_goals
    unfold Simple.read at e
    rw [if_pos hy] at e
    obtain ⟨pos, _, e⟩ := Res.bind_eq_ok.1 e
    obtain ⟨vel, _, e⟩ := Res.bind_eq_ok.1 e
    dsimp only at e
    by_cases hd : I.velDep = true
    · rw [if_pos hd] at e
      obtain ⟨aux, _, e⟩ := Res.bind_eq_ok.1 e
      have e := (Res.ok.inj e).symm
      first | exact ⟨by rw [e], by rw [e]⟩ | rw [e]
    · rw [if_neg hd] at e
      have e := (Res.ok.inj e).symm
      first | exact ⟨by rw [e], by rw [e]⟩ | rw [e]

theorem ReguSys.read_frame (I : Interactions) (s s' : ReguSys) (y : List ℝ) (e : s.read I y = .ok s') :
    ReguSys.Frame s s' ∧ s'.sync = s.sync ∧ s'.write I = y := by
  have hy : y.length = s.variableNumber I := by
    by_contra h
    rw [C13_regu_abort I s y h] at e; cases e
  refine ⟨?_, ?_, ?_⟩
  rotate_left 2
  · obtain ⟨t, ht, hw⟩ := C13_regu_write_read I s y hy
    rw [ht] at e; rw [← Res.ok.inj e]; exact hw
  all_goals
    unfold ReguSys.read at e
    rw [if_pos hy] at e
    obtain ⟨pos, _, e⟩ := Res.bind_eq_ok.1 e
    obtain ⟨vel, _, e⟩ := Res.bind_eq_ok.1 e
    dsimp only at e
    by_cases hd : I.velDep = true
    · rw [if_pos hd] at e
      obtain ⟨aux, _, e⟩ := Res.bind_eq_ok.1 e
      have e := (Res.ok.inj e).symm
      first | exact ⟨by rw [e], by rw [e]⟩ | rw [e]
    · rw [if_neg hd] at e
      have e := (Res.ok.inj e).symm
      first | exact ⟨by rw [e], by rw [e]⟩ | rw [e]

theorem ChainSys.read_frame (I : ChainInteractions) (s s' : ChainSys) (y : List ℝ) (hn : s.P.num ≠ 0)
    (hi : IsIndex s.P.num s.index) (e : s.read I y = .ok s') :
    ChainSys.Frame s s' ∧ s'.sync = s.sync ∧ s'.write I = y := by
  have hy : y.length = s.variableNumber I := by
    by_contra h
    unfold ChainSys.read at e
    rw [if_neg h] at e; cases e
  refine ⟨?_, ?_, ?_⟩
  rotate_left 2
  · obtain ⟨t, ht, hw, _⟩ := C13_chain_write_read I s hn hi y hy
    rw [ht] at e; rw [← Res.ok.inj e]; exact hw
  all_goals
    unfold ChainSys.read at e
    rw [if_pos hy] at e
    obtain ⟨cpos, _, e⟩ := Res.bind_eq_ok.1 e
    obtain ⟨cvel, _, e⟩ := Res.bind_eq_ok.1 e
    obtain ⟨pos, _, e⟩ := Res.bind_eq_ok.1 e
    obtain ⟨vel, _, e⟩ := Res.bind_eq_ok.1 e
    dsimp only at e
    by_cases hd : I.velDep = true
    · rw [if_pos hd] at e
      obtain ⟨caux, _, e⟩ := Res.bind_eq_ok.1 e
      obtain ⟨aux, _, e⟩ := Res.bind_eq_ok.1 e
      have e := (Res.ok.inj e).symm
      first | exact ⟨by rw [e], by rw [e], by rw [e]⟩ | rw [e]
    · rw [if_neg hd] at e
      have e := (Res.ok.inj e).symm
      first | exact ⟨by rw [e], by rw [e], by rw [e]⟩ | rw [e]

theorem ARSys.read_frame (I : ChainInteractions) (s s' : ARSys) (y : List ℝ) (hn : s.P.num ≠ 0)
    (hi : IsIndex s.P.num s.index) (e : s.read I y = .ok s') :
    ARSys.Frame s s' ∧ s'.sync = s.sync ∧ s'.write I = y := by
  have hy : y.length = s.variableNumber I := by
    by_contra h
    unfold ARSys.read at e
    rw [if_neg h] at e; cases e
  refine ⟨?_, ?_, ?_⟩
  rotate_left 2
  · obtain ⟨t, ht, hw, _⟩ := C13_archain_write_read I s hn hi y hy
    rw [ht] at e; rw [← Res.ok.inj e]; exact hw
  all_goals
    unfold ARSys.read at e
    rw [if_pos hy] at e
    obtain ⟨cpos, _, e⟩ := Res.bind_eq_ok.1 e
    obtain ⟨cvel, _, e⟩ := Res.bind_eq_ok.1 e
    obtain ⟨pos, _, e⟩ := Res.bind_eq_ok.1 e
    obtain ⟨vel, _, e⟩ := Res.bind_eq_ok.1 e
    dsimp only at e
    by_cases hd : I.velDep = true
    · rw [if_pos hd] at e
      obtain ⟨caux, _, e⟩ := Res.bind_eq_ok.1 e
      obtain ⟨aux, _, e⟩ := Res.bind_eq_ok.1 e
      have e := (Res.ok.inj e).symm
      first | exact ⟨by rw [e], by rw [e], by rw [e]⟩ | rw [e]
    · rw [if_neg hd] at e
      have e := (Res.ok.inj e).symm
      first | exact ⟨by rw [e], by rw [e], by rw [e]⟩ | rw [e]

end SpaceHub.Sys

namespace SpaceHub.BS
open SpaceHub SpaceHub.Sys V3 Force Core Integrator

/-- the same particles at the same time -/
def SameSimple (I : Interactions) (s s' : Simple) : Prop :=
  s'.time = s.time ∧ s'.P.num = s.P.num ∧ s'.P.mass = s.P.mass ∧
    ∀ k, k < s.P.num → s'.P.pos k = s.P.pos k ∧ s'.P.vel k = s.P.vel k ∧ (I.velDep = true → s'.aux k = s.aux k)

/-- the same particles at the same time, with the same regularisation variables -/
def SameRegu (I : Interactions) (s s' : ReguSys) : Prop :=
  s'.time = s.time ∧ s'.P.num = s.P.num ∧ s'.P.mass = s.P.mass ∧ s'.R.omega = s.R.omega ∧ s'.R.bindE = s.R.bindE ∧
    ∀ k, k < s.P.num → s'.P.pos k = s.P.pos k ∧ s'.P.vel k = s.P.vel k ∧ (I.velDep = true → s'.aux k = s.aux k)

/-- the same particles at the same time in the same chain -/
def SameChain (I : ChainInteractions) (s s' : ChainSys) : Prop :=
  s'.time = s.time ∧ s'.P.num = s.P.num ∧ s'.P.mass = s.P.mass ∧ s'.index = s.index ∧
    (∀ k, k < s.P.num → s'.P.pos k = s.P.pos k ∧ s'.P.vel k = s.P.vel k ∧ (I.velDep = true → s'.aux k = s.aux k)) ∧
    ∀ k, k < s.P.num → s'.cpos k = s.cpos k ∧ s'.cvel k = s.cvel k ∧ (I.velDep = true → s'.caux k = s.caux k)

/-- the same particles at the same time in the same chain, with the same regularisation variables -/
def SameAR (I : ChainInteractions) (s s' : ARSys) : Prop :=
  s'.time = s.time ∧ s'.P.num = s.P.num ∧ s'.P.mass = s.P.mass ∧ s'.index = s.index ∧ s'.R.omega = s.R.omega ∧
    s'.R.bindE = s.R.bindE ∧
    (∀ k, k < s.P.num → s'.P.pos k = s.P.pos k ∧ s'.P.vel k = s.P.vel k ∧ (I.velDep = true → s'.aux k = s.aux k)) ∧
    ∀ k, k < s.P.num → s'.cpos k = s.cpos k ∧ s'.cvel k = s.cvel k ∧ (I.velDep = true → s'.caux k = s.caux k)

theorem simple_lawful (I : Interactions) (kdk : Bool) (s : Simple) :
    Lawful (simpleSys I kdk) s Simple.Frame (SameSimple I) Simple.sync where
  trans _ _ _ := Simple.Frame.trans
  run h n x y hs e := by
    obtain ⟨a, _, b⟩ := run_follows (simpleOps I) I.velDep Simple.sync Simple.flat (by
      intro op s s' hs e
      cases op with
      | drift h => cases e; exact s.drift_follows I.velDep h hs
      | kick h => cases e; exact s.kick_follows I h hs) _ _ y hs e
    refine ⟨a, Simple.run_frame I _ _ _ e, fun i _ => ?_⟩
    show y.inc i - x.inc i = (y.write I).getD i 0 - (x.write I).getD i 0
    rw [Simple.write_getD, Simple.write_getD]; exact b i
  len x y f := by
    show (y.write I).length = (x.write I).length
    rw [C13_simple_size, C13_simple_size]; unfold Simple.variableNumber; rw [f.1]
  read x y v _ e := Simple.read_frame I x y v e
  restore x y f e := by
    obtain ⟨t, ht, h1, h2, h3, h4, _⟩ := C13_simple_read_write I x s f.1
    rw [show x.read I (s.write I) = .ok y from e] at ht
    rw [Res.ok.inj ht]
    exact ⟨h1, h3.trans f.1, h4.trans f.2, h2⟩
  clear_frame _ := ⟨rfl, rfl⟩
  clear_sync _ := rfl
  clear_write _ := rfl
  clear_inc x i hi := by
    show (if i < x.variableNumber I then (0 : ℝ) else x.inc i) = 0
    rw [if_pos (by rw [← C13_simple_size]; exact hi)]
  clear_same _ h := h
  collect_frame _ _ := ⟨rfl, rfl⟩
  collect_sync _ _ := rfl
  collect_write _ _ := rfl
  collect_same := ⟨rfl, rfl, rfl, fun _ _ => ⟨rfl, rfl, fun _ => rfl⟩⟩

theorem regu_lawful (G : ℝ) (type : ReguType) (I : Interactions) (kdk : Bool) (s : ReguSys) :
    Lawful (reguSys G type I kdk) s ReguSys.Frame (SameRegu I) ReguSys.sync where
  trans _ _ _ := ReguSys.Frame.trans
  run h n x y hs e := by
    obtain ⟨a, _, b⟩ := run_follows (reguOps G type I) I.velDep ReguSys.sync ReguSys.flat (by
      intro op s s' hs e
      cases op with
      | drift h => exact s.drift_follows type I.velDep h s' hs e
      | kick h => exact s.kick_follows G type I h s' hs e) _ _ y hs e
    refine ⟨a, ReguSys.run_frame G type I _ _ _ e, fun i _ => ?_⟩
    show y.inc i - x.inc i = (y.write I).getD i 0 - (x.write I).getD i 0
    rw [ReguSys.write_getD, ReguSys.write_getD]; exact b i
  len x y f := by
    show (y.write I).length = (x.write I).length
    rw [C13_regu_size, C13_regu_size]; unfold ReguSys.variableNumber; rw [f.1]
  read x y v _ e := ReguSys.read_frame I x y v e
  restore x y f e := by
    obtain ⟨t, ht, h1, ho, hb, h2, h3, h4, _⟩ := C13_regu_read_write I x s f.1
    rw [show x.read I (s.write I) = .ok y from e] at ht
    rw [Res.ok.inj ht]
    exact ⟨h1, h3.trans f.1, h4.trans f.2, ho, hb, h2⟩
  clear_frame _ := ⟨rfl, rfl⟩
  clear_sync _ := rfl
  clear_write _ := rfl
  clear_inc x i hi := by
    show (if i < x.variableNumber I then (0 : ℝ) else x.inc i) = 0
    rw [if_pos (by rw [← C13_regu_size]; exact hi)]
  clear_same _ h := h
  collect_frame _ _ := ⟨rfl, rfl⟩
  collect_sync _ _ := rfl
  collect_write _ _ := rfl
  collect_same := ⟨rfl, rfl, rfl, rfl, rfl, fun _ _ => ⟨rfl, rfl, fun _ => rfl⟩⟩

theorem chain_lawful (I : ChainInteractions) (kdk : Bool) (s : ChainSys)
    (hc : ChainConsistent I.velDep s.P.num s.index s.cpos s.cvel s.caux s.P.pos s.P.vel s.aux) :
    Lawful (chainSys I kdk) s ChainSys.Frame (SameChain I) ChainSys.sync where
  trans _ _ _ := ChainSys.Frame.trans
  run h n x y hs e := by
    obtain ⟨a, _, b⟩ := run_follows (chainOps I) I.velDep ChainSys.sync ChainSys.flat (by
      intro op s s' hs e
      cases op with
      | drift h => exact s.drift_follows I.velDep h s' hs e
      | kick h => exact s.kick_follows I h s' hs e) _ _ y hs e
    refine ⟨a, ChainSys.run_frame I _ _ _ e, fun i _ => ?_⟩
    show y.inc i - x.inc i = (y.write I).getD i 0 - (x.write I).getD i 0
    rw [ChainSys.write_getD, ChainSys.write_getD]; exact b i
  len x y f := by
    show (y.write I).length = (x.write I).length
    rw [C13_chain_size, C13_chain_size]; unfold ChainSys.variableNumber; rw [f.1]
  read x y v f e := ChainSys.read_frame I x y v (by rw [f.1]; exact hc.num) (by rw [f.1, f.2.2]; exact hc.index) e
  restore x y f e := by
    obtain ⟨t, ht, h1, hi, h2, h2', h3, h4, _⟩ := C13_chain_read_write I x s f.1 f.2.2 hc
    rw [show x.read I (s.write I) = .ok y from e] at ht
    rw [Res.ok.inj ht]
    exact ⟨h1, h3.trans f.1, h4.trans f.2.1, hi, h2, h2'⟩
  clear_frame _ := ⟨rfl, rfl, rfl⟩
  clear_sync _ := rfl
  clear_write _ := rfl
  clear_inc x i hi := by
    show (if i < x.variableNumber I then (0 : ℝ) else x.inc i) = 0
    rw [if_pos (by rw [← C13_chain_size]; exact hi)]
  clear_same _ h := h
  collect_frame _ _ := ⟨rfl, rfl, rfl⟩
  collect_sync _ _ := rfl
  collect_write _ _ := rfl
  collect_same := ⟨rfl, rfl, rfl, rfl, fun _ _ => ⟨rfl, rfl, fun _ => rfl⟩, fun _ _ => ⟨rfl, rfl, fun _ => rfl⟩⟩

theorem ar_lawful (G : ℝ) (type : ReguType) (I : ChainInteractions) (kdk : Bool) (s : ARSys)
    (hc : ChainConsistent I.velDep s.P.num s.index s.cpos s.cvel s.caux s.P.pos s.P.vel s.aux) :
    Lawful (archainSys G type I kdk) s ARSys.Frame (SameAR I) ARSys.sync where
  trans _ _ _ := ARSys.Frame.trans
  run h n x y hs e := by
    obtain ⟨a, _, b⟩ := run_follows (arOps G type I) I.velDep ARSys.sync ARSys.flat (by
      intro op s s' hs e
      cases op with
      | drift h => exact s.drift_follows type I.velDep h s' hs e
      | kick h => exact s.kick_follows G type I h s' hs e) _ _ y hs e
    refine ⟨a, ARSys.run_frame G type I _ _ _ e, fun i _ => ?_⟩
    show y.inc i - x.inc i = (y.write I).getD i 0 - (x.write I).getD i 0
    rw [ARSys.write_getD, ARSys.write_getD]; exact b i
  len x y f := by
    show (y.write I).length = (x.write I).length
    rw [C13_archain_size, C13_archain_size]; unfold ARSys.variableNumber; rw [f.1]
  read x y v f e := ARSys.read_frame I x y v (by rw [f.1]; exact hc.num) (by rw [f.1, f.2.2]; exact hc.index) e
  restore x y f e := by
    obtain ⟨t, ht, h1, ho, hb, hi, h2, h2', h3, h4, _⟩ := C13_archain_read_write I x s f.1 f.2.2 hc
    rw [show x.read I (s.write I) = .ok y from e] at ht
    rw [Res.ok.inj ht]
    exact ⟨h1, h3.trans f.1, h4.trans f.2.1, hi, ho, hb, h2, h2'⟩
  clear_frame _ := ⟨rfl, rfl, rfl⟩
  clear_sync _ := rfl
  clear_write _ := rfl
  clear_inc x i hi := by
    show (if i < x.variableNumber I then (0 : ℝ) else x.inc i) = 0
    rw [if_pos (by rw [← C13_archain_size]; exact hi)]
  clear_same _ h := h
  collect_frame _ _ := ⟨rfl, rfl, rfl⟩
  collect_sync _ _ := rfl
  collect_write _ _ := rfl
  collect_same := ⟨rfl, rfl, rfl, rfl, rfl, rfl, fun _ _ => ⟨rfl, rfl, fun _ => rfl⟩, fun _ _ => ⟨rfl, rfl, fun _ => rfl⟩⟩

end SpaceHub.BS
