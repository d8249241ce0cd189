import Verif.Proof.Conserve
import Verif.Props.Systems

/-
C15 (momentum and centre-of-mass motion) and C16 (angular momentum) along whole runs of all four particle systems.
A run is any list of steps, each of which makes any list of drift and kick calls.
-/

set_option autoImplicit false

namespace SpaceHub.Sys
open SpaceHub V3 Force Core Integrator Finset Spec Props

/-- every force of the interactions satisfies `p` -/
def AllForces (I : Interactions) (p : ForceClass Particles → Prop) : Prop := p I.internal ∧ ∀ f ∈ I.extra, p f

/-- `m •` as a linear map -/
def massMap (m : Arr ℝ) (k : Nat) : V3 ℝ →ₗ[ℝ] V3 ℝ where
  toFun v := m k • v
  map_add' _ _ := smul_add _ _ _
  map_smul' _ _ := smul_comm _ _ _

/-- `m • (x × ·)` as a linear map -/
def torqueMap (m : Arr ℝ) (x : Arr (V3 ℝ)) (k : Nat) : V3 ℝ →ₗ[ℝ] V3 ℝ where
  toFun v := m k • cross (x k) v
  map_add' a b := by rw [cross_add_right, smul_add]
  map_smul' c a := by ext <;> simp [cross] <;> ring

theorem neutral_mass {n : Nat} {m : Arr ℝ} {I : Interactions} (h : AllForces I (NoNetForce n m)) (x : Arr (V3 ℝ)) :
    NeutralI n m x (massMap m) I :=
  ⟨fun P acc hn hm _ => h.1 P acc hn hm, fun f hf P acc hn hm _ => h.2 f hf P acc hn hm⟩

theorem neutral_torque {n : Nat} {m : Arr ℝ} {I : Interactions} (h : AllForces I (NoNetTorque n m)) (x : Arr (V3 ℝ)) :
    NeutralI n m x (torqueMap m x) I :=
  ⟨fun P acc hn hm hx => by subst hx; exact h.1 P acc hn hm, fun f hf P acc hn hm hx => by subst hx; exact h.2 f hf P acc hn hm⟩

/-! ### one call -/

/-- what is conserved, relative to the state `P0` at time `t0` -/
structure Cons15 (P0 : Particles) (t0 : ℝ) (P : Particles) (t : ℝ) : Prop where
  num : P.num = P0.num
  mass : P.mass = P0.mass
  mom : momentum P = momentum P0
  com : massMoment P = massMoment P0 + (t - t0) • momentum P0

theorem Cons15.drift {P0 P : Particles} {t0 t : ℝ} (c : Cons15 P0 t0 P t) (d : ℝ) :
    Cons15 P0 t0 { P with pos := advance P.num P.pos P.vel d } (t + d) := by
  refine ⟨c.num, c.mass, c.mom, ?_⟩
  have h1 := Lin_advance P.num (massMap P.mass) P.pos P.vel d
  change massMoment { P with pos := advance P.num P.pos P.vel d } = massMoment P + d • momentum P at h1
  rw [h1, c.com, c.mom, add_assoc, ← add_smul]
  congr 2; ring

theorem Cons15.refl (P : Particles) (t : ℝ) : Cons15 P t P t := ⟨rfl, rfl, rfl, by simp⟩

theorem Cons15.kick {P0 P P' : Particles} {t0 t : ℝ} (c : Cons15 P0 t0 P t) (hn : P'.num = P.num) (hm : P'.mass = P.mass)
    (hx : P'.pos = P.pos) (hl : Lin P.num (massMap P.mass) P'.vel = Lin P.num (massMap P.mass) P.vel) :
    Cons15 P0 t0 P' t := by
  refine ⟨hn.trans c.num, hm.trans c.mass, ?_, ?_⟩
  · have : momentum P' = momentum P := by unfold momentum; rw [hn, hm]; exact hl
    rw [this, c.mom]
  · have : massMoment P' = massMoment P := by unfold massMoment; rw [hn, hm, hx]
    rw [this, c.com]

structure Cons16 (P0 P : Particles) : Prop where
  num : P.num = P0.num
  mass : P.mass = P0.mass
  ang : angMomentum P = angMomentum P0

theorem Cons16.drift {P0 P : Particles} (c : Cons16 P0 P) (d : ℝ) :
    Cons16 P0 { P with pos := advance P.num P.pos P.vel d } := by
  refine ⟨c.num, c.mass, ?_⟩
  rw [← c.ang]
  refine sum_congr rfl fun k hk => ?_
  simp only
  rw [advance_apply, if_pos (mem_range.1 hk)]
  congr 1
  ext <;> simp [cross] <;> ring

theorem Cons16.kick {P0 P P' : Particles} (c : Cons16 P0 P) (hn : P'.num = P.num) (hm : P'.mass = P.mass)
    (hx : P'.pos = P.pos) (hl : Lin P.num (torqueMap P.mass P.pos) P'.vel = Lin P.num (torqueMap P.mass P.pos) P.vel) :
    Cons16 P0 P' := by
  refine ⟨hn.trans c.num, hm.trans c.mass, ?_⟩
  have : angMomentum P' = angMomentum P := by unfold angMomentum; rw [hn, hm, hx]; exact hl
  rw [this, c.ang]

/-! ### invariants of runs -/

theorem simple_run_inv {I : Interactions} {Q : Simple → Prop} (hd : ∀ s h, Q s → Q (s.drift h))
    (hk : ∀ s h, Q s → Q (s.kick I h)) (ops : List Op) (s s' : Simple) (hs : Q s)
    (e : (simpleOps I).run ops s = .ok s') : Q s' := by
  induction ops generalizing s with
  | nil => cases e; exact hs
  | cons op ops ih =>
    cases op with
    | drift h => exact ih _ (hd s h hs) e
    | kick h => exact ih _ (hk s h hs) e

theorem simple_steps_inv {I : Interactions} {Q : Simple → Prop} (hp : ∀ s, Q s → Q (s.preIter I))
    (hd : ∀ s h, Q s → Q (s.drift h)) (hk : ∀ s h, Q s → Q (s.kick I h)) (oss : List (List Op)) (s s' : Simple) (hs : Q s)
    (e : steps (simpleStep I) oss s = .ok s') : Q s' := by
  induction oss generalizing s with
  | nil => cases e; exact hs
  | cons ops oss ih =>
    obtain ⟨s1, e1, e2⟩ := Res.bind_eq_ok.1 e
    exact ih s1 (simple_run_inv hd hk ops _ s1 (hp s hs) e1) e2

theorem regu_run_inv {G : ℝ} {type : ReguType} {I : Interactions} {Q : ReguSys → Prop}
    (hd : ∀ s s' h, Q s → s.drift type h = .ok s' → Q s') (hk : ∀ s s' h, Q s → s.kick G type I h = .ok s' → Q s')
    (ops : List Op) (s s' : ReguSys) (hs : Q s) (e : (reguOps G type I).run ops s = .ok s') : Q s' := by
  induction ops generalizing s with
  | nil => cases e; exact hs
  | cons op ops ih =>
    obtain ⟨s1, e1, e2⟩ := Res.bind_eq_ok.1 e
    cases op with
    | drift h => exact ih s1 (hd s s1 h hs e1) e2
    | kick h => exact ih s1 (hk s s1 h hs e1) e2

theorem regu_steps_inv {G : ℝ} {type : ReguType} {I : Interactions} {Q : ReguSys → Prop} (hp : ∀ s, Q s → Q (s.preIter I))
    (hd : ∀ s s' h, Q s → s.drift type h = .ok s' → Q s') (hk : ∀ s s' h, Q s → s.kick G type I h = .ok s' → Q s')
    (oss : List (List Op)) (s s' : ReguSys) (hs : Q s) (e : steps (reguStep G type I) oss s = .ok s') : Q s' := by
  induction oss generalizing s with
  | nil => cases e; exact hs
  | cons ops oss ih =>
    obtain ⟨s1, e1, e2⟩ := Res.bind_eq_ok.1 e
    exact ih s1 (regu_run_inv hd hk ops _ s1 (hp s hs) e1) e2

theorem simple_cons15 {I : Interactions} (s s' : Simple) (hI : AllForces I (NoNetForce s.P.num s.P.mass))
    (oss : List (List Op)) (e : steps (simpleStep I) oss s = .ok s') : Cons15 s.P s.time s'.P s'.time := by
  refine simple_steps_inv (I := I) (Q := fun t => Cons15 s.P s.time t.P t.time) ?_ ?_ ?_ oss s s' (.refl _ _) e
  · intro t ht; unfold Simple.preIter; split_ifs <;> exact ht
  · intro t h ht
    obtain ⟨i, hi⟩ := t.drift_fields h
    rw [hi]; exact ht.drift h
  · intro t h ht
    obtain ⟨h1, h2, h3, h4, _⟩ := t.kick_frame I h
    rw [h4]
    have hI' : AllForces I (NoNetForce t.P.num t.P.mass) := by rw [ht.num, ht.mass]; exact hI
    exact ht.kick h1 h2 h3 (Simple.kick_lin (neutral_mass hI' t.P.pos) t rfl rfl rfl h)

theorem simple_cons16 {I : Interactions} (s s' : Simple) (hI : AllForces I (NoNetTorque s.P.num s.P.mass))
    (oss : List (List Op)) (e : steps (simpleStep I) oss s = .ok s') : Cons16 s.P s'.P := by
  refine simple_steps_inv (I := I) (Q := fun t => Cons16 s.P t.P) ?_ ?_ ?_ oss s s' ⟨rfl, rfl, rfl⟩ e
  · intro t ht; unfold Simple.preIter; split_ifs <;> exact ht
  · intro t h ht
    obtain ⟨i, hi⟩ := t.drift_fields h
    rw [hi]; exact ht.drift h
  · intro t h ht
    obtain ⟨h1, h2, h3, h4, _⟩ := t.kick_frame I h
    have hI' : AllForces I (NoNetTorque t.P.num t.P.mass) := by rw [ht.num, ht.mass]; exact hI
    exact ht.kick h1 h2 h3 (Simple.kick_lin (neutral_torque hI' t.P.pos) t rfl rfl rfl h)

theorem regu_cons15 {G : ℝ} {type : ReguType} {I : Interactions} (s s' : ReguSys)
    (hI : AllForces I (NoNetForce s.P.num s.P.mass)) (oss : List (List Op))
    (e : steps (reguStep G type I) oss s = .ok s') : Cons15 s.P s.time s'.P s'.time := by
  refine regu_steps_inv (G := G) (type := type) (I := I) (Q := fun t => Cons15 s.P s.time t.P t.time) ?_ ?_ ?_ oss s s' (.refl _ _) e
  · intro t ht; unfold ReguSys.preIter; split_ifs <;> exact ht
  · intro t t' h ht e
    obtain ⟨rt, i, _, hi⟩ := ReguSys.drift_fields type t t' h e
    rw [hi]; exact ht.drift rt.2
  · intro t t' h ht e
    have hI' : AllForces I (NoNetForce t.P.num t.P.mass) := by rw [ht.num, ht.mass]; exact hI
    obtain ⟨h0, h1, h2, h3, h4⟩ := ReguSys.kick_lin G type (neutral_mass hI' t.P.pos) t t' rfl rfl rfl h e
    rw [h4]
    exact ht.kick h1 h2 h3 h0

theorem regu_cons16 {G : ℝ} {type : ReguType} {I : Interactions} (s s' : ReguSys)
    (hI : AllForces I (NoNetTorque s.P.num s.P.mass)) (oss : List (List Op))
    (e : steps (reguStep G type I) oss s = .ok s') : Cons16 s.P s'.P := by
  refine regu_steps_inv (G := G) (type := type) (I := I) (Q := fun t => Cons16 s.P t.P) ?_ ?_ ?_ oss s s' ⟨rfl, rfl, rfl⟩ e
  · intro t ht; unfold ReguSys.preIter; split_ifs <;> exact ht
  · intro t t' h ht e
    obtain ⟨rt, i, _, hi⟩ := ReguSys.drift_fields type t t' h e
    rw [hi]; exact ht.drift rt.2
  · intro t t' h ht e
    have hI' : AllForces I (NoNetTorque t.P.num t.P.mass) := by rw [ht.num, ht.mass]; exact hI
    obtain ⟨h0, h1, h2, h3, h4⟩ := ReguSys.kick_lin G type (neutral_torque hI' t.P.pos) t t' rfl rfl rfl h e
    exact ht.kick h1 h2 h3 h0

/-! ### C15 -/

/-- A plain system whose forces carry no net momentum: after any number of steps of any integrator, the total momentum
is what it was and the centre of mass has moved uniformly over the elapsed time. -/
theorem C15_simple (I : Interactions) (s s' : Simple) (hI : AllForces I (NoNetForce s.P.num s.P.mass))
    (oss : List (List Op)) (e : steps (simpleStep I) oss s = .ok s') :
    momentum s'.P = momentum s.P ∧ massMoment s'.P = massMoment s.P + (s'.time - s.time) • momentum s.P :=
  ⟨(simple_cons15 s s' hI oss e).mom, (simple_cons15 s s' hI oss e).com⟩

/-- A regularised system, where the elapsed physical time depends on the state. -/
theorem C15_regularized (G : ℝ) (type : ReguType) (I : Interactions) (s s' : ReguSys)
    (hI : AllForces I (NoNetForce s.P.num s.P.mass)) (oss : List (List Op))
    (e : steps (reguStep G type I) oss s = .ok s') :
    momentum s'.P = momentum s.P ∧ massMoment s'.P = massMoment s.P + (s'.time - s.time) • momentum s.P :=
  ⟨(regu_cons15 s s' hI oss e).mom, (regu_cons15 s s' hI oss e).com⟩

/-- A chain system built from particles `P`, through every run including re-chaining. -/
theorem C15_chain {IC : ChainInteractions} {I : Interactions} (A : AgreesI IC I) (time : ℝ) (P : Particles)
    (hI : AllForces I (NoNetForce P.num P.mass)) (idx : Arr Nat) (hidx : IndexOf P idx) (s0 : ChainSys)
    (h0 : ChainSys.init time P idx = .ok s0) (oss : List (List Op)) (r : Res ChainSys)
    (hr : Steps (ChainStep IC) oss s0 r) :
    ∃ s, r = .ok s ∧ momentum s.P = momentum P ∧ massMoment s.P = massMoment P + (s.time - time) • momentum P := by
  obtain ⟨s0', t, e0, e1, _, hall⟩ := C53_chain_evolves_like_plain A time P idx hidx oss
  rw [h0] at e0; cases e0
  obtain ⟨s, e, h1, h2, _⟩ := hall r hr
  have := C15_simple I (Simple.init time P) t hI oss e1
  refine ⟨s, e, ?_⟩
  rw [h1, h2]; exact this

/-- An AR-chain system; the run may end in a division by zero. -/
theorem C15_archain {IC : ChainInteractions} {I : Interactions} (A : AgreesI IC I) (G : ℝ) (type : ReguType) (time : ℝ)
    (P : Particles) (hI : AllForces I (NoNetForce P.num P.mass)) (idx : Arr Nat) (hidx : IndexOf P idx) (s0 : ARSys)
    (h0 : ARSys.init G type time P idx = .ok s0) (oss : List (List Op)) (r : Res ARSys)
    (hr : Steps (ARStep G type IC) oss s0 r) :
    (∃ s, r = .ok s ∧ momentum s.P = momentum P ∧ massMoment s.P = massMoment P + (s.time - time) • momentum P) ∨
      r = .nan := by
  obtain ⟨s0', e0, _, hall⟩ := C53_archain_evolves_like_regularized A G type time P idx hidx oss
  rw [h0] at e0; cases e0
  rcases hall r hr with ⟨s, t, e, e1, h1, h2, _⟩ | ⟨e, _⟩
  · have := C15_regularized G type I (ReguSys.init G type time P) t hI oss e1
    refine Or.inl ⟨s, e, ?_⟩
    rw [h1, h2]; exact this
  · exact Or.inr e

/-- The library's internal and pairwise forces carry no net momentum. -/
theorem C15_library_forces (G : ℝ) (T : TideData) (rad : Arr ℝ) (D : DiskParams) (n : Nat) (m : Arr ℝ) :
    NoNetForce n m Lib.newton ∧
    ((∀ i, i < n → m i ≠ 0) → NoNetForce n m (Lib.tidal G T) ∧ NoNetForce n m (Lib.capture rad) ∧
      NoNetForce n m (Lib.alpha G D rad)) := by
  refine ⟨?_, fun hm => ⟨?_, ?_, ?_⟩⟩
  · rintro P acc rfl rfl; exact (C07_newton_third_law P acc).1
  · rintro P acc rfl rfl; exact (C12_tidal G T P hm acc).2.1
  · rintro P acc rfl rfl; exact C12_disk_capture rad P hm acc
  · rintro P acc rfl rfl; exact C12_alpha_disk G D rad P hm acc

/-! ### C16 -/

/-- A plain system whose forces carry no net torque keeps its total angular momentum through every run. -/
theorem C16_simple (I : Interactions) (s s' : Simple) (hI : AllForces I (NoNetTorque s.P.num s.P.mass))
    (oss : List (List Op)) (e : steps (simpleStep I) oss s = .ok s') : angMomentum s'.P = angMomentum s.P :=
  (simple_cons16 s s' hI oss e).ang

theorem C16_regularized (G : ℝ) (type : ReguType) (I : Interactions) (s s' : ReguSys)
    (hI : AllForces I (NoNetTorque s.P.num s.P.mass)) (oss : List (List Op))
    (e : steps (reguStep G type I) oss s = .ok s') : angMomentum s'.P = angMomentum s.P :=
  (regu_cons16 s s' hI oss e).ang

theorem C16_chain {IC : ChainInteractions} {I : Interactions} (A : AgreesI IC I) (time : ℝ) (P : Particles)
    (hI : AllForces I (NoNetTorque P.num P.mass)) (idx : Arr Nat) (hidx : IndexOf P idx) (s0 : ChainSys)
    (h0 : ChainSys.init time P idx = .ok s0) (oss : List (List Op)) (r : Res ChainSys)
    (hr : Steps (ChainStep IC) oss s0 r) : ∃ s, r = .ok s ∧ angMomentum s.P = angMomentum P := by
  obtain ⟨s0', t, e0, e1, _, hall⟩ := C53_chain_evolves_like_plain A time P idx hidx oss
  rw [h0] at e0; cases e0
  obtain ⟨s, e, h1, h2, _⟩ := hall r hr
  exact ⟨s, e, by rw [h1]; exact C16_simple I (Simple.init time P) t hI oss e1⟩

theorem C16_archain {IC : ChainInteractions} {I : Interactions} (A : AgreesI IC I) (G : ℝ) (type : ReguType) (time : ℝ)
    (P : Particles) (hI : AllForces I (NoNetTorque P.num P.mass)) (idx : Arr Nat) (hidx : IndexOf P idx) (s0 : ARSys)
    (h0 : ARSys.init G type time P idx = .ok s0) (oss : List (List Op)) (r : Res ARSys)
    (hr : Steps (ARStep G type IC) oss s0 r) : (∃ s, r = .ok s ∧ angMomentum s.P = angMomentum P) ∨ r = .nan := by
  obtain ⟨s0', e0, _, hall⟩ := C53_archain_evolves_like_regularized A G type time P idx hidx oss
  rw [h0] at e0; cases e0
  rcases hall r hr with ⟨s, t, e, e1, h1, h2, _⟩ | ⟨e, _⟩
  · exact Or.inl ⟨s, e, by rw [h1]; exact C16_regularized G type I (ReguSys.init G type time P) t hI oss e1⟩
  · exact Or.inr e

/-- Newtonian gravity carries no net torque, nor does the tidal force (it acts along the line joining the bodies). -/
theorem C16_library_forces (G : ℝ) (T : TideData) (n : Nat) (m : Arr ℝ) :
    NoNetTorque n m Lib.newton ∧ ((∀ i, i < n → m i ≠ 0) → NoNetTorque n m (Lib.tidal G T)) := by
  refine ⟨?_, fun hm => ?_⟩
  · rintro P acc rfl rfl; exact (C07_newton_third_law P acc).2
  · rintro P acc rfl rfl
    refine torque_of_accumulates P.mass P.pos (C12_tidal G T P hm acc).1 fun i j hi hj hij => ?_
    have h1 := hm i hi
    have h2 := hm j hj
    have hr := r_swap P i j
    have hdot : dot (P.vel i - P.vel j) (P.pos i - P.pos j) = dot (P.vel j - P.vel i) (P.pos j - P.pos i) := by
      simp [dot]; ring
    simp only [Spec.tidal, two] at hr ⊢
    rw [hr, hdot]
    generalize (TwoBody.r _) = r
    generalize dot (P.vel j - P.vel i) (P.pos j - P.pos i) = d
    ext <;> simp [cross] <;> field_simp <;> ring

/-- Three bodies under Newtonian gravity and tides meet the hypotheses. -/
example (T : TideData) : AllForces ⟨Lib.newton, [Lib.tidal 1 T]⟩ (NoNetForce exP.num exP.mass) ∧
    AllForces ⟨Lib.newton, [Lib.tidal 1 T]⟩ (NoNetTorque exP.num exP.mass) ∧
    AgreesI ⟨Lib.newtonC, [Lib.tidalC 1 T]⟩ ⟨Lib.newton, [Lib.tidal 1 T]⟩ := by
  have hm : ∀ i, i < exP.num → exP.mass i ≠ 0 := by intro i _; simp only [exP]; positivity
  have D : DiskParams := ⟨1, 1, 1, 1⟩
  refine ⟨⟨(C15_library_forces 1 T (fun _ => 0) D _ _).1, ?_⟩, ⟨(C16_library_forces 1 T _ _).1, ?_⟩,
    ⟨agrees_newton, .cons (agrees_tidal 1 T) .nil⟩⟩
  · intro f hf
    rw [List.mem_singleton.1 hf]
    exact ((C15_library_forces 1 T (fun _ => 0) D _ _).2 hm).1
  · intro f hf
    rw [List.mem_singleton.1 hf]
    exact (C16_library_forces 1 T _ _).2 hm

end SpaceHub.Sys
