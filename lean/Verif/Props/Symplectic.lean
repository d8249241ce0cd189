import Verif.Proof.Variation
import Verif.Props.Regu
import Verif.Props.Reverse
import Mathlib.Analysis.SpecialFunctions.Trigonometric.Deriv
import Mathlib.Tactic.IntervalCases

/-
C89: symplectic integrators are symplectic.  C90: energy and forces belong together.
-/

set_option autoImplicit false

namespace SpaceHub.Sys
open SpaceHub V3 Force Core Integrator Spec Props Finset Topology

/-- gravity only -/
noncomputable abbrev gravity : Interactions := ⟨Lib.newton, []⟩

theorem gravity_acc (P : Particles) (k : Nat) (hk : k < P.num) : gravity.newtonianAcc P k = pull P k ∧ gravity.acc P k = pull P k := by
  have h : setZero P.num (fun _ => (0 : V3 ℝ)) k = 0 := by simp [setZero]
  exact ⟨newtonianAcc_pull P k hk _ h, newtonianAcc_pull P k hk _ h⟩

/-! ### plain system -/

theorem simple_drift_P (s : Simple) (h : ℝ) : (s.drift h).P = { s.P with pos := advance s.P.num s.P.pos s.P.vel h } := by
  obtain ⟨i, e⟩ := s.drift_fields h; rw [e]

theorem simple_kick_P (s : Simple) (h : ℝ) : (s.kick gravity h).P = { s.P with vel := advance s.P.num s.P.vel (gravity.acc s.P) h } := by
  have hd : gravity.velDep = false := rfl
  unfold Simple.kick Simple.syncVel
  rw [hd]
  simp only [Bool.false_eq_true, if_false]
  split_ifs <;> rfl

theorem var_drift {γ : ℝ → Particles} {t : ℝ} {P : Particles} {ξ η : Nat → V3 ℝ} (V : Variation γ t P ξ η) (h : ℝ) :
    Variation (fun e => { γ e with pos := advance (γ e).num (γ e).pos (γ e).vel h }) t { P with pos := advance P.num P.pos P.vel h }
      (fun k => ξ k + h • η k) η := by
  refine ⟨by simp only [V.here], V.num, V.mass, fun k hk => ?_, V.vel⟩
  refine Rate.congr ((V.pos k hk).add ((V.vel k hk).const_smul h)) ?_
  filter_upwards [V.num] with e hn
  have hk : k < P.num := hk
  show advance (γ e).num (γ e).pos (γ e).vel h k = _
  rw [advance_apply, hn, if_pos hk]

theorem var_kick {γ : ℝ → Particles} {t : ℝ} {P : Particles} {ξ η : Nat → V3 ℝ} (V : Variation γ t P ξ η) (A : Apart P) (h : ℝ) :
    Variation (fun e => { γ e with vel := advance (γ e).num (γ e).vel (gravity.acc (γ e)) h }) t { P with vel := advance P.num P.vel (gravity.acc P) h }
      ξ (fun k => η k + h • dpull P ξ k) := by
  refine ⟨by simp only [V.here], V.num, V.mass, V.pos, fun k hk => ?_⟩
  refine Rate.congr ((V.vel k hk).add ((V.pull A k hk).const_smul h)) ?_
  filter_upwards [V.num] with e hn
  have hk : k < P.num := hk
  show advance (γ e).num (γ e).vel (gravity.acc (γ e)) h k = _
  rw [advance_apply, hn, if_pos hk, (gravity_acc (γ e) k (by rw [hn]; exact hk)).2]

theorem form_drift (P : Particles) (ξ₁ η₁ ξ₂ η₂ : Nat → V3 ℝ) (h : ℝ) :
    form P (fun k => ξ₁ k + h • η₁ k) η₁ (fun k => ξ₂ k + h • η₂ k) η₂ = form P ξ₁ η₁ ξ₂ η₂ := by
  unfold form
  refine sum_congr rfl fun k _ => ?_
  simp only [dot, add_x, add_y, add_z, smul_x, smul_y, smul_z]
  ring

theorem form_kick (P : Particles) (ξ₁ η₁ ξ₂ η₂ : Nat → V3 ℝ) (h : ℝ) :
    form P ξ₁ (fun k => η₁ k + h • dpull P ξ₁ k) ξ₂ (fun k => η₂ k + h • dpull P ξ₂ k) = form P ξ₁ η₁ ξ₂ η₂ := by
  have e : form P ξ₁ (fun k => η₁ k + h • dpull P ξ₁ k) ξ₂ (fun k => η₂ k + h • dpull P ξ₂ k) = form P ξ₁ η₁ ξ₂ η₂ +
      h * (∑ k ∈ range P.num, P.mass k * dot (ξ₁ k) (dpull P ξ₂ k) - ∑ k ∈ range P.num, P.mass k * dot (ξ₂ k) (dpull P ξ₁ k)) := by
    unfold form
    rw [← sum_sub_distrib, mul_sum, ← sum_add_distrib]
    refine sum_congr rfl fun k _ => ?_
    simp only [dot, add_x, add_y, add_z, smul_x, smul_y, smul_z]
    ring
  rw [e, dpull_symm, sub_self, mul_zero, add_zero]

theorem simple_symplectic : ∀ (ops : List Op) (S₁ S₂ : ℝ → Simple) (s s' : Simple) (ξ₁ η₁ ξ₂ η₂ : Nat → V3 ℝ), S₁ 0 = s → S₂ 0 = s →
    Variation (fun e => (S₁ e).P) 0 s.P ξ₁ η₁ → Variation (fun e => (S₂ e).P) 0 s.P ξ₂ η₂ → (simpleOps gravity).run ops s = .ok s' →
    (∀ pre h suf q, ops = pre ++ .kick h :: suf → (simpleOps gravity).run pre s = .ok q → Apart q.P) →
    ∃ (r₁ r₂ : ℝ → Simple) (ξ₁' η₁' ξ₂' η₂' : Nat → V3 ℝ),
      (∀ e, (simpleOps gravity).run ops (S₁ e) = .ok (r₁ e)) ∧ (∀ e, (simpleOps gravity).run ops (S₂ e) = .ok (r₂ e)) ∧
      Variation (fun e => (r₁ e).P) 0 s'.P ξ₁' η₁' ∧ Variation (fun e => (r₂ e).P) 0 s'.P ξ₂' η₂' ∧
      form s'.P ξ₁' η₁' ξ₂' η₂' = form s.P ξ₁ η₁ ξ₂ η₂ := by
  intro ops
  induction ops with
  | nil =>
    intro S₁ S₂ s s' ξ₁ η₁ ξ₂ η₂ h1 h2 V1 V2 e _
    cases e
    exact ⟨S₁, S₂, ξ₁, η₁, ξ₂, η₂, fun _ => rfl, fun _ => rfl, V1, V2, rfl⟩
  | cons op ops ih =>
    intro S₁ S₂ s s' ξ₁ η₁ ξ₂ η₂ h1 h2 V1 V2 e ha
    cases op with
    | drift h =>
      have e' : (simpleOps gravity).run ops (s.drift h) = .ok s' := e
      obtain ⟨r₁, r₂, a, b, c, d, e1, e2, W1, W2, f⟩ := ih (fun x => (S₁ x).drift h) (fun x => (S₂ x).drift h) (s.drift h) s' _ _ _ _
        (by simp only [h1]) (by simp only [h2])
        (by simp only [simple_drift_P]; exact var_drift V1 h) (by simp only [simple_drift_P]; exact var_drift V2 h) e'
        (fun pre k suf q hp hr => ha (.drift h :: pre) k suf q (by rw [hp]; rfl) hr)
      exact ⟨r₁, r₂, a, b, c, d, e1, e2, W1, W2, by rw [f, simple_drift_P]; exact form_drift s.P ξ₁ η₁ ξ₂ η₂ h⟩
    | kick h =>
      have e' : (simpleOps gravity).run ops (s.kick gravity h) = .ok s' := e
      have A : Apart s.P := ha [] h ops s rfl rfl
      obtain ⟨r₁, r₂, a, b, c, d, e1, e2, W1, W2, f⟩ := ih (fun x => (S₁ x).kick gravity h) (fun x => (S₂ x).kick gravity h) (s.kick gravity h) s' _ _ _ _
        (by simp only [h1]) (by simp only [h2])
        (by simp only [simple_kick_P]; exact var_kick V1 A h) (by simp only [simple_kick_P]; exact var_kick V2 A h) e'
        (fun pre k suf q hp hr => ha (.kick h :: pre) k suf q (by rw [hp]; rfl) hr)
      exact ⟨r₁, r₂, a, b, c, d, e1, e2, W1, W2, by rw [f, simple_kick_P]; exact form_kick s.P ξ₁ η₁ ξ₂ η₂ h⟩

theorem steps_eq_run (oss : List (List Op)) : ∀ s, steps (simpleStep gravity) oss s = (simpleOps gravity).run oss.flatten s := by
  induction oss with
  | nil => intro s; rfl
  | cons ops oss ih =>
    intro s
    rw [List.flatten_cons, run_append]
    show simpleStep gravity ops s >>= _ = _
    have : simpleStep gravity ops s = (simpleOps gravity).run ops s := rfl
    rw [this]
    cases (simpleOps gravity).run ops s with
    | ok t => exact ih t
    | _ => rfl

/-- **C89, plain system.** Vary the initial state of any number of particles in two ways.  After any steps, each any sequence of position and velocity
updates, the final states form two variations of the final state, and the symplectic form of the two is what it was at the start.  No two particles may
be in the same place when velocities are updated. -/
theorem C89_simple (time : ℝ) (P : Particles) (γ₁ γ₂ : ℝ → Particles) (ξ₁ η₁ ξ₂ η₂ : Nat → V3 ℝ) (V₁ : Variation γ₁ 0 P ξ₁ η₁) (V₂ : Variation γ₂ 0 P ξ₂ η₂)
    (oss : List (List Op)) (s : Simple) (e : steps (simpleStep gravity) oss (Simple.init time P) = .ok s)
    (ha : ∀ pre h suf q, oss.flatten = pre ++ .kick h :: suf → (simpleOps gravity).run pre (Simple.init time P) = .ok q → Apart q.P) :
    ∃ (r₁ r₂ : ℝ → Simple) (ξ₁' η₁' ξ₂' η₂' : Nat → V3 ℝ),
      (∀ x, steps (simpleStep gravity) oss (Simple.init time (γ₁ x)) = .ok (r₁ x)) ∧
      (∀ x, steps (simpleStep gravity) oss (Simple.init time (γ₂ x)) = .ok (r₂ x)) ∧
      Variation (fun x => (r₁ x).P) 0 s.P ξ₁' η₁' ∧ Variation (fun x => (r₂ x).P) 0 s.P ξ₂' η₂' ∧
      form s.P ξ₁' η₁' ξ₂' η₂' = form P ξ₁ η₁ ξ₂ η₂ := by
  simp only [steps_eq_run] at e ⊢
  exact simple_symplectic oss.flatten (fun x => Simple.init time (γ₁ x)) (fun x => Simple.init time (γ₂ x)) (Simple.init time P) s ξ₁ η₁ ξ₂ η₂
    (by simp only [V₁.here]) (by simp only [V₂.here]) V₁ V₂ e ha

/-- **C89, chain system.** The same, whatever chains the steps build. -/
theorem C89_chain (time : ℝ) (P : Particles) (γ₁ γ₂ : ℝ → Particles) (ξ₁ η₁ ξ₂ η₂ : Nat → V3 ℝ) (V₁ : Variation γ₁ 0 P ξ₁ η₁) (V₂ : Variation γ₂ 0 P ξ₂ η₂)
    (oss : List (List Op)) (s : Simple) (e : steps (simpleStep gravity) oss (Simple.init time P) = .ok s)
    (ha : ∀ pre h suf q, oss.flatten = pre ++ .kick h :: suf → (simpleOps gravity).run pre (Simple.init time P) = .ok q → Apart q.P)
    (i₁ i₂ : ℝ → Arr Nat) (hi₁ : ∀ x, IndexOf (γ₁ x) (i₁ x)) (hi₂ : ∀ x, IndexOf (γ₂ x) (i₂ x)) (c₁ c₂ r₁ r₂ : ℝ → ChainSys)
    (hc₁ : ∀ x, ChainSys.init time (γ₁ x) (i₁ x) = .ok (c₁ x)) (hc₂ : ∀ x, ChainSys.init time (γ₂ x) (i₂ x) = .ok (c₂ x))
    (hr₁ : ∀ x, Steps (ChainStep ⟨Lib.newtonC, []⟩) oss (c₁ x) (.ok (r₁ x))) (hr₂ : ∀ x, Steps (ChainStep ⟨Lib.newtonC, []⟩) oss (c₂ x) (.ok (r₂ x))) :
    ∃ (ξ₁' η₁' ξ₂' η₂' : Nat → V3 ℝ), Variation (fun x => (r₁ x).P) 0 s.P ξ₁' η₁' ∧ Variation (fun x => (r₂ x).P) 0 s.P ξ₂' η₂' ∧
      form s.P ξ₁' η₁' ξ₂' η₂' = form P ξ₁ η₁ ξ₂ η₂ := by
  obtain ⟨t₁, t₂, a, b, c, d, e1, e2, W1, W2, f⟩ := C89_simple time P γ₁ γ₂ ξ₁ η₁ ξ₂ η₂ V₁ V₂ oss s e ha
  have A : AgreesI ⟨Lib.newtonC, []⟩ gravity := ⟨agrees_newton, .nil⟩
  have key : ∀ (Q : Particles) (i : Arr Nat) (c r : ChainSys) (t : Simple), IndexOf Q i → ChainSys.init time Q i = .ok c →
      Steps (ChainStep ⟨Lib.newtonC, []⟩) oss c (.ok r) → steps (simpleStep gravity) oss (Simple.init time Q) = .ok t → r.P = t.P := by
    intro Q i c r t hi hc hr ht
    obtain ⟨s0, t', e0, et, _, hall⟩ := C53_chain_evolves_like_plain A time Q i hi oss
    rw [hc] at e0; cases e0
    rw [ht] at et; cases et
    obtain ⟨r', er, hP, _⟩ := hall _ hr
    cases er
    exact hP
  have k1 : (fun x => (r₁ x).P) = fun x => (t₁ x).P := funext fun x => key _ _ _ _ _ (hi₁ x) (hc₁ x) (hr₁ x) (e1 x)
  have k2 : (fun x => (r₂ x).P) = fun x => (t₂ x).P := funext fun x => key _ _ _ _ _ (hi₂ x) (hc₂ x) (hr₂ x) (e2 x)
  rw [k1, k2]
  exact ⟨a, b, c, d, W1, W2, f⟩

/-! ### regularised system -/

/-- A family of regularised systems: particles, time (rate `τ`) and binding energy (rate `β`). -/
structure ReguVariation (S : ℝ → ReguSys) (s : ReguSys) (ξ η : Nat → V3 ℝ) (τ β : ℝ) : Prop where
  here : S 0 = s
  part : Variation (fun e => (S e).P) 0 s.P ξ η
  time : HasDerivAt (fun e => (S e).time) τ 0
  bind : HasDerivAt (fun e => (S e).R.bindE) β 0

/-- the result of a call that returned, anything otherwise -/
def Res.orElse {α : Type} (d : α) : Res α → α
  | .ok a => a
  | _ => d

theorem regu_drift_var {S : ℝ → ReguSys} {s s' : ReguSys} {ξ η : Nat → V3 ℝ} {τ β : ℝ} (V : ReguVariation S s ξ η τ β) (h : ℝ)
    (e : s.drift .logH h = .ok s') :
    let D := s.R.bindE + kinetic s.P
    let δ := β + ∑ k ∈ range s.P.num, s.P.mass k * dot (s.P.vel k) (η k)
    ∃ R : ℝ → ReguSys, (∀ᶠ x in 𝓝 0, (S x).drift .logH h = .ok (R x)) ∧ s'.P.num = s.P.num ∧ s'.P.mass = s.P.mass ∧
      ReguVariation R s' (fun k => ξ k + ((h / D) • η k + (-(h * δ / D ^ 2)) • s.P.vel k)) η (τ + -(h * δ / D ^ 2)) β := by
  intro D δ
  have hD : D ≠ 0 := by
    intro hD
    rw [(C48_position_update .logH s h).1 hD] at e; cases e
  have dD : HasDerivAt (fun x => (S x).R.bindE + kinetic (S x).P) δ 0 := V.bind.fun_add V.part.kinetic
  have hD0 : (S 0).R.bindE + kinetic (S 0).P = D := by rw [V.here]
  have ev : ∀ᶠ x in 𝓝 0, (S x).R.bindE + kinetic (S x).P ≠ 0 :=
    dD.continuousAt.eventually_ne (by rw [hD0]; exact hD)
  have dq : HasDerivAt (fun x => h / ((S x).R.bindE + kinetic (S x).P)) (-(h * δ / D ^ 2)) 0 := by
    refine ((hasDerivAt_const (0 : ℝ) h).fun_div dD (by rw [hD0]; exact hD)).congr_deriv ?_
    rw [hD0]; ring
  refine ⟨fun x => Res.orElse s' ((S x).drift .logH h), ?_, ?_⟩
  · filter_upwards [ev] with x hx
    obtain ⟨t, et, _⟩ := (C48_position_update .logH (S x) h).2 hx
    rw [et]; rfl
  · have R : ∀ᶠ x in 𝓝 0, (Res.orElse s' ((S x).drift .logH h)).time = (S x).time + h / ((S x).R.bindE + kinetic (S x).P) ∧
        (∀ k, k < (S x).P.num → (Res.orElse s' ((S x).drift .logH h)).P.pos k = (S x).P.pos k + (h / ((S x).R.bindE + kinetic (S x).P)) • (S x).P.vel k) ∧
        (Res.orElse s' ((S x).drift .logH h)).P.vel = (S x).P.vel ∧ (Res.orElse s' ((S x).drift .logH h)).P.mass = (S x).P.mass ∧
        (Res.orElse s' ((S x).drift .logH h)).P.num = (S x).P.num ∧ (Res.orElse s' ((S x).drift .logH h)).R.bindE = (S x).R.bindE := by
      filter_upwards [ev] with x hx
      obtain ⟨t, et, r1, r2, r3, r4, r5, _, _, _, r6⟩ := (C48_position_update .logH (S x) h).2 hx
      rw [et]
      exact ⟨r1, r2, r3, r4, r5, r6⟩
    obtain ⟨t, et, _, _, _, r4, r5, _⟩ := (C48_position_update .logH s h).2 hD
    rw [e] at et; cases et
    refine ⟨r5, r4, by rw [V.here, e]; rfl, ⟨by rw [V.here, e]; rfl, ?_, ?_, fun k hk => ?_, fun k hk => ?_⟩, ?_, ?_⟩
    · filter_upwards [R, V.part.num] with x a b; rw [a.2.2.2.2.1, b, r5]
    · filter_upwards [R, V.part.mass] with x a b; rw [a.2.2.2.1, b, r4]
    · rw [r5] at hk
      have := (V.part.pos k hk).add ((V.part.vel k hk).smul dq)
      rw [hD0, V.here] at this
      refine this.congr ?_
      filter_upwards [R, V.part.num] with x a b
      exact a.2.1 k (by rw [b]; exact hk)
    · rw [r5] at hk
      refine (V.part.vel k hk).congr ?_
      filter_upwards [R] with x a
      rw [a.2.2.1]
    · refine (V.time.fun_add dq).congr_of_eventuallyEq ?_
      filter_upwards [R] with x a
      exact a.1
    · refine V.bind.congr_of_eventuallyEq ?_
      filter_upwards [R] with x a
      exact a.2.2.2.2.2

theorem regu_kick_var {S : ℝ → ReguSys} {s s' : ReguSys} {ξ η : Nat → V3 ℝ} {τ β : ℝ} (V : ReguVariation S s ξ η τ β) (A : Apart s.P) (h : ℝ)
    (e : s.kick 1 .logH gravity h = .ok s') :
    let U := - Spec.potential 1 s.P.num s.P.mass s.P.pos
    let δ := ∑ k ∈ range s.P.num, s.P.mass k * dot (pull s.P k) (ξ k)
    ∃ R : ℝ → ReguSys, (∀ᶠ x in 𝓝 0, (S x).kick 1 .logH gravity h = .ok (R x)) ∧ s'.P.num = s.P.num ∧ s'.P.mass = s.P.mass ∧
      ReguVariation R s' ξ (fun k => η k + ((h / U) • dpull s.P ξ k + (-(h * δ / U ^ 2)) • pull s.P k)) τ β := by
  intro U δ
  have hU : U ≠ 0 := by
    intro hU
    rw [(C48_velocity_update 1 .logH Lib.newton s h).1 hU] at e; cases e
  have dU : HasDerivAt (fun x => - Spec.potential 1 (S x).P.num (S x).P.mass (S x).P.pos) δ 0 := by
    refine (V.part.potential A 1).neg.congr_deriv ?_
    simp only [one_mul, neg_neg]; rfl
  have hU0 : - Spec.potential 1 (S 0).P.num (S 0).P.mass (S 0).P.pos = U := by rw [V.here]
  have ev : ∀ᶠ x in 𝓝 0, - Spec.potential 1 (S x).P.num (S x).P.mass (S x).P.pos ≠ 0 :=
    dU.continuousAt.eventually_ne (by rw [hU0]; exact hU)
  have dq : HasDerivAt (fun x => h / - Spec.potential 1 (S x).P.num (S x).P.mass (S x).P.pos) (-(h * δ / U ^ 2)) 0 := by
    refine ((hasDerivAt_const (0 : ℝ) h).fun_div dU (by rw [hU0]; exact hU)).congr_deriv ?_
    rw [hU0]; ring
  refine ⟨fun x => Res.orElse s' ((S x).kick 1 .logH gravity h), ?_, ?_⟩
  · filter_upwards [ev] with x hx
    obtain ⟨t, et, _⟩ := (C48_velocity_update 1 .logH Lib.newton (S x) h).2 hx
    rw [et]; rfl
  · have R : ∀ᶠ x in 𝓝 0, (∀ k, k < (S x).P.num → (Res.orElse s' ((S x).kick 1 .logH gravity h)).P.vel k =
          (S x).P.vel k + (h / - Spec.potential 1 (S x).P.num (S x).P.mass (S x).P.pos) • gravity.newtonianAcc (S x).P k) ∧
        (Res.orElse s' ((S x).kick 1 .logH gravity h)).P.pos = (S x).P.pos ∧ (Res.orElse s' ((S x).kick 1 .logH gravity h)).P.mass = (S x).P.mass ∧
        (Res.orElse s' ((S x).kick 1 .logH gravity h)).P.num = (S x).P.num ∧ (Res.orElse s' ((S x).kick 1 .logH gravity h)).time = (S x).time ∧
        (Res.orElse s' ((S x).kick 1 .logH gravity h)).R.bindE = (S x).R.bindE := by
      filter_upwards [ev] with x hx
      obtain ⟨t, et, r1, r2, r3, r4, r5, _, _, r6, _⟩ := (C48_velocity_update 1 .logH Lib.newton (S x) h).2 hx
      rw [et]
      exact ⟨r1, r2, r3, r4, r5, r6⟩
    obtain ⟨t, et, _, _, r4, r5, _⟩ := (C48_velocity_update 1 .logH Lib.newton s h).2 hU
    rw [e] at et; cases et
    refine ⟨r5, r4, by rw [V.here, e]; rfl, ⟨by rw [V.here, e]; rfl, ?_, ?_, fun k hk => ?_, fun k hk => ?_⟩, ?_, ?_⟩
    · filter_upwards [R, V.part.num] with x a b; rw [a.2.2.2.1, b, r5]
    · filter_upwards [R, V.part.mass] with x a b; rw [a.2.2.1, b, r4]
    · rw [r5] at hk
      refine (V.part.pos k hk).congr ?_
      filter_upwards [R] with x a
      rw [a.2.1]
    · rw [r5] at hk
      have := (V.part.vel k hk).add ((V.part.pull A k hk).smul dq)
      rw [hU0, V.here] at this
      refine this.congr ?_
      filter_upwards [R, V.part.num] with x a b
      rw [a.1 k (by rw [b]; exact hk), (gravity_acc (S x).P k (by rw [b]; exact hk)).1]
    · refine V.time.congr_of_eventuallyEq ?_
      filter_upwards [R] with x a
      exact a.2.2.2.2.1
    · refine V.bind.congr_of_eventuallyEq ?_
      filter_upwards [R] with x a
      exact a.2.2.2.2.2

theorem form_frame {P Q : Particles} (hn : Q.num = P.num) (hm : Q.mass = P.mass) (ξ₁ η₁ ξ₂ η₂ : Nat → V3 ℝ) : form Q ξ₁ η₁ ξ₂ η₂ = form P ξ₁ η₁ ξ₂ η₂ := by
  unfold form; rw [hn, hm]

theorem form_regu_drift (P : Particles) (ξ₁ η₁ ξ₂ η₂ : Nat → V3 ℝ) (τ₁ β₁ τ₂ β₂ q c : ℝ) :
    let δ₁ := β₁ + ∑ k ∈ range P.num, P.mass k * dot (P.vel k) (η₁ k)
    let δ₂ := β₂ + ∑ k ∈ range P.num, P.mass k * dot (P.vel k) (η₂ k)
    form P (fun k => ξ₁ k + (q • η₁ k + (-(c * δ₁)) • P.vel k)) η₁ (fun k => ξ₂ k + (q • η₂ k + (-(c * δ₂)) • P.vel k)) η₂ +
      ((τ₁ + -(c * δ₁)) * β₂ - β₁ * (τ₂ + -(c * δ₂))) = form P ξ₁ η₁ ξ₂ η₂ + (τ₁ * β₂ - β₁ * τ₂) := by
  intro δ₁ δ₂
  have e : form P (fun k => ξ₁ k + (q • η₁ k + (-(c * δ₁)) • P.vel k)) η₁ (fun k => ξ₂ k + (q • η₂ k + (-(c * δ₂)) • P.vel k)) η₂ =
      form P ξ₁ η₁ ξ₂ η₂ + (-(c * δ₁) * (∑ k ∈ range P.num, P.mass k * dot (P.vel k) (η₂ k)) +
        c * δ₂ * (∑ k ∈ range P.num, P.mass k * dot (P.vel k) (η₁ k))) := by
    unfold form
    rw [mul_sum, mul_sum, ← sum_add_distrib, ← sum_add_distrib]
    refine sum_congr rfl fun k _ => ?_
    simp only [dot, add_x, add_y, add_z, smul_x, smul_y, smul_z]
    ring
  rw [e]
  have h1 : ∑ k ∈ range P.num, P.mass k * dot (P.vel k) (η₁ k) = δ₁ - β₁ := by simp only [δ₁]; ring
  have h2 : ∑ k ∈ range P.num, P.mass k * dot (P.vel k) (η₂ k) = δ₂ - β₂ := by simp only [δ₂]; ring
  rw [h1, h2]
  ring

theorem form_regu_kick (P : Particles) (ξ₁ η₁ ξ₂ η₂ : Nat → V3 ℝ) (q c : ℝ) :
    let δ₁ := ∑ k ∈ range P.num, P.mass k * dot (pull P k) (ξ₁ k)
    let δ₂ := ∑ k ∈ range P.num, P.mass k * dot (pull P k) (ξ₂ k)
    form P ξ₁ (fun k => η₁ k + (q • dpull P ξ₁ k + (-(c * δ₁)) • pull P k)) ξ₂ (fun k => η₂ k + (q • dpull P ξ₂ k + (-(c * δ₂)) • pull P k)) =
      form P ξ₁ η₁ ξ₂ η₂ := by
  intro δ₁ δ₂
  have e : form P ξ₁ (fun k => η₁ k + (q • dpull P ξ₁ k + (-(c * δ₁)) • pull P k)) ξ₂ (fun k => η₂ k + (q • dpull P ξ₂ k + (-(c * δ₂)) • pull P k)) =
      form P ξ₁ η₁ ξ₂ η₂ + (q * (∑ k ∈ range P.num, P.mass k * dot (ξ₁ k) (dpull P ξ₂ k) - ∑ k ∈ range P.num, P.mass k * dot (ξ₂ k) (dpull P ξ₁ k)) +
        (-(c * δ₂) * δ₁ + c * δ₁ * δ₂)) := by
    have d1 : δ₁ = ∑ k ∈ range P.num, P.mass k * dot (pull P k) (ξ₁ k) := rfl
    have d2 : δ₂ = ∑ k ∈ range P.num, P.mass k * dot (pull P k) (ξ₂ k) := rfl
    have : -(c * δ₂) * δ₁ + c * δ₁ * δ₂ = ∑ k ∈ range P.num, (-(c * δ₂) * (P.mass k * dot (pull P k) (ξ₁ k)) + c * δ₁ * (P.mass k * dot (pull P k) (ξ₂ k))) := by
      rw [sum_add_distrib, ← mul_sum, ← mul_sum, ← d1, ← d2]
    rw [this]
    clear_value δ₁ δ₂
    unfold form
    rw [← sum_sub_distrib, mul_sum, ← sum_add_distrib, ← sum_add_distrib]
    refine sum_congr rfl fun k _ => ?_
    simp only [dot, add_x, add_y, add_z, smul_x, smul_y, smul_z]
    ring
  rw [e, dpull_symm]
  ring

theorem regu_symplectic : ∀ (ops : List Op) (S₁ S₂ : ℝ → ReguSys) (s s' : ReguSys) (ξ₁ η₁ ξ₂ η₂ : Nat → V3 ℝ) (τ₁ β₁ τ₂ β₂ : ℝ),
    ReguVariation S₁ s ξ₁ η₁ τ₁ β₁ → ReguVariation S₂ s ξ₂ η₂ τ₂ β₂ → (reguOps 1 .logH gravity).run ops s = .ok s' →
    (∀ pre h suf q, ops = pre ++ .kick h :: suf → (reguOps 1 .logH gravity).run pre s = .ok q → Apart q.P) →
    ∃ (r₁ r₂ : ℝ → ReguSys) (ξ₁' η₁' ξ₂' η₂' : Nat → V3 ℝ) (τ₁' β₁' τ₂' β₂' : ℝ),
      (∀ᶠ x in 𝓝 0, (reguOps 1 .logH gravity).run ops (S₁ x) = .ok (r₁ x)) ∧ (∀ᶠ x in 𝓝 0, (reguOps 1 .logH gravity).run ops (S₂ x) = .ok (r₂ x)) ∧
      ReguVariation r₁ s' ξ₁' η₁' τ₁' β₁' ∧ ReguVariation r₂ s' ξ₂' η₂' τ₂' β₂' ∧
      form s'.P ξ₁' η₁' ξ₂' η₂' + (τ₁' * β₂' - β₁' * τ₂') = form s.P ξ₁ η₁ ξ₂ η₂ + (τ₁ * β₂ - β₁ * τ₂) := by
  intro ops
  induction ops with
  | nil =>
    intro S₁ S₂ s s' ξ₁ η₁ ξ₂ η₂ τ₁ β₁ τ₂ β₂ V1 V2 e _
    cases e
    exact ⟨S₁, S₂, ξ₁, η₁, ξ₂, η₂, τ₁, β₁, τ₂, β₂, .of_forall fun _ => rfl, .of_forall fun _ => rfl, V1, V2, rfl⟩
  | cons op ops ih =>
    intro S₁ S₂ s s' ξ₁ η₁ ξ₂ η₂ τ₁ β₁ τ₂ β₂ V1 V2 e ha
    cases op with
    | drift h =>
      have e' : (s.drift .logH h) >>= (reguOps 1 .logH gravity).run ops = .ok s' := e
      obtain ⟨t, et, e'⟩ := Res.bind_eq_ok.1 e'
      obtain ⟨R1, g1, hn, hm, W1⟩ := regu_drift_var V1 h et
      obtain ⟨R2, g2, _, _, W2⟩ := regu_drift_var V2 h et
      obtain ⟨r₁, r₂, a, b, c, d, p, q, u, v, e1, e2, W1', W2', f⟩ := ih R1 R2 t s' _ _ _ _ _ _ _ _ W1 W2 e'
        (fun pre k suf q hp hr => ha (.drift h :: pre) k suf q (by rw [hp]; rfl) (by
          show (s.drift .logH h) >>= (reguOps 1 .logH gravity).run pre = _
          rw [et]; exact hr))
      refine ⟨r₁, r₂, a, b, c, d, p, q, u, v, ?_, ?_, W1', W2', ?_⟩
      · filter_upwards [g1, e1] with x y z
        show (S₁ x).drift .logH h >>= _ = _
        rw [y]; exact z
      · filter_upwards [g2, e2] with x y z
        show (S₂ x).drift .logH h >>= _ = _
        rw [y]; exact z
      · rw [f, form_frame hn hm]
        have := form_regu_drift s.P ξ₁ η₁ ξ₂ η₂ τ₁ β₁ τ₂ β₂ (h / (s.R.bindE + kinetic s.P)) (h / (s.R.bindE + kinetic s.P) ^ 2)
        simp only [div_mul_eq_mul_div] at this
        exact this
    | kick h =>
      have e' : (s.kick 1 .logH gravity h) >>= (reguOps 1 .logH gravity).run ops = .ok s' := e
      obtain ⟨t, et, e'⟩ := Res.bind_eq_ok.1 e'
      have A : Apart s.P := ha [] h ops s rfl rfl
      obtain ⟨R1, g1, hn, hm, W1⟩ := regu_kick_var V1 A h et
      obtain ⟨R2, g2, _, _, W2⟩ := regu_kick_var V2 A h et
      obtain ⟨r₁, r₂, a, b, c, d, p, q, u, v, e1, e2, W1', W2', f⟩ := ih R1 R2 t s' _ _ _ _ _ _ _ _ W1 W2 e'
        (fun pre k suf q hp hr => ha (.kick h :: pre) k suf q (by rw [hp]; rfl) (by
          show (s.kick 1 .logH gravity h) >>= (reguOps 1 .logH gravity).run pre = _
          rw [et]; exact hr))
      refine ⟨r₁, r₂, a, b, c, d, p, q, u, v, ?_, ?_, W1', W2', ?_⟩
      · filter_upwards [g1, e1] with x y z
        show (S₁ x).kick 1 .logH gravity h >>= _ = _
        rw [y]; exact z
      · filter_upwards [g2, e2] with x y z
        show (S₂ x).kick 1 .logH gravity h >>= _ = _
        rw [y]; exact z
      · rw [f, form_frame hn hm]
        have := form_regu_kick s.P ξ₁ η₁ ξ₂ η₂ (h / - Spec.potential 1 s.P.num s.P.mass s.P.pos) (h / (- Spec.potential 1 s.P.num s.P.mass s.P.pos) ^ 2)
        simp only [div_mul_eq_mul_div] at this
        rw [this]

theorem regu_steps_eq_run (oss : List (List Op)) : ∀ s, steps (reguStep 1 .logH gravity) oss s = (reguOps 1 .logH gravity).run oss.flatten s := by
  induction oss with
  | nil => intro s; rfl
  | cons ops oss ih =>
    intro s
    rw [List.flatten_cons, run_append]
    show reguStep 1 .logH gravity ops s >>= _ = _
    have : reguStep 1 .logH gravity ops s = (reguOps 1 .logH gravity).run ops s := rfl
    rw [this]
    cases (reguOps 1 .logH gravity).run ops s with
    | ok t => exact ih t
    | _ => rfl

/-- **C89, LogH.** In the phase space extended by time and binding energy the LogH-regularised steps are symplectic: vary particles, time and binding
energy of a state in two ways; after any steps that return, the same steps from the varied states return too (for small variations), the results are
variations of the final state, and the extended form `Σ dx ∧ dp + dt ∧ dB` of the two is unchanged. -/
theorem C89_logH (s : ReguSys) (S₁ S₂ : ℝ → ReguSys) (ξ₁ η₁ ξ₂ η₂ : Nat → V3 ℝ) (τ₁ β₁ τ₂ β₂ : ℝ) (V₁ : ReguVariation S₁ s ξ₁ η₁ τ₁ β₁)
    (V₂ : ReguVariation S₂ s ξ₂ η₂ τ₂ β₂) (oss : List (List Op)) (s' : ReguSys) (e : steps (reguStep 1 .logH gravity) oss s = .ok s')
    (ha : ∀ pre h suf q, oss.flatten = pre ++ .kick h :: suf → (reguOps 1 .logH gravity).run pre s = .ok q → Apart q.P) :
    ∃ (r₁ r₂ : ℝ → ReguSys) (ξ₁' η₁' ξ₂' η₂' : Nat → V3 ℝ) (τ₁' β₁' τ₂' β₂' : ℝ),
      (∀ᶠ x in 𝓝 0, steps (reguStep 1 .logH gravity) oss (S₁ x) = .ok (r₁ x)) ∧
      (∀ᶠ x in 𝓝 0, steps (reguStep 1 .logH gravity) oss (S₂ x) = .ok (r₂ x)) ∧
      ReguVariation r₁ s' ξ₁' η₁' τ₁' β₁' ∧ ReguVariation r₂ s' ξ₂' η₂' τ₂' β₂' ∧
      form s'.P ξ₁' η₁' ξ₂' η₂' + (τ₁' * β₂' - β₁' * τ₂') = form s.P ξ₁ η₁ ξ₂ η₂ + (τ₁ * β₂ - β₁ * τ₂) := by
  simp only [regu_steps_eq_run] at e ⊢
  exact regu_symplectic oss.flatten S₁ S₂ s s' ξ₁ η₁ ξ₂ η₂ τ₁ β₁ τ₂ β₂ V₁ V₂ e ha

/-- Constructing the regularised system from varied particles varies the binding energy by minus the energy. -/
theorem init_variation {γ : ℝ → Particles} {P : Particles} {ξ η : Nat → V3 ℝ} (V : Variation γ 0 P ξ η) (A : Apart P) (time : ℝ) :
    ReguVariation (fun x => ReguSys.init 1 .logH time (γ x)) (ReguSys.init 1 .logH time P) ξ η 0
      (∑ k ∈ range P.num, P.mass k * dot (pull P k) (ξ k) - ∑ k ∈ range P.num, P.mass k * dot (P.vel k) (η k)) := by
  refine ⟨by simp only [V.here], V, hasDerivAt_const _ _, ?_⟩
  have e : (fun x => (ReguSys.init 1 .logH time (γ x)).R.bindE) = fun x => -(Spec.potential 1 (γ x).num (γ x).mass (γ x).pos + kinetic (γ x)) := by
    funext x
    show -(totalEnergy 1 (γ x)) = _
    unfold totalEnergy; rw [potentialDirect_eq]
  rw [e]
  refine ((V.potential A 1).fun_add V.kinetic).neg.congr_deriv ?_
  simp only [one_mul]; ring

/-- **C89, LogH and AR chain from the start.** Particles varied in two ways and put into new LogH-regularised systems or AR chains: after any steps the
form of the final particles differs from the initial one only by the part due to the different times reached. -/
theorem C89_archain (time : ℝ) (P : Particles) (γ₁ γ₂ : ℝ → Particles) (ξ₁ η₁ ξ₂ η₂ : Nat → V3 ℝ) (V₁ : Variation γ₁ 0 P ξ₁ η₁) (V₂ : Variation γ₂ 0 P ξ₂ η₂)
    (A : Apart P) (oss : List (List Op)) (s : ReguSys) (e : steps (reguStep 1 .logH gravity) oss (ReguSys.init 1 .logH time P) = .ok s)
    (ha : ∀ pre h suf q, oss.flatten = pre ++ .kick h :: suf → (reguOps 1 .logH gravity).run pre (ReguSys.init 1 .logH time P) = .ok q → Apart q.P)
    (i₁ i₂ : ℝ → Arr Nat) (hi₁ : ∀ x, IndexOf (γ₁ x) (i₁ x)) (hi₂ : ∀ x, IndexOf (γ₂ x) (i₂ x)) (c₁ c₂ r₁ r₂ : ℝ → ARSys)
    (hc₁ : ∀ x, ARSys.init 1 .logH time (γ₁ x) (i₁ x) = .ok (c₁ x)) (hc₂ : ∀ x, ARSys.init 1 .logH time (γ₂ x) (i₂ x) = .ok (c₂ x))
    (hr₁ : ∀ x, Steps (ARStep 1 .logH ⟨Lib.newtonC, []⟩) oss (c₁ x) (.ok (r₁ x)))
    (hr₂ : ∀ x, Steps (ARStep 1 .logH ⟨Lib.newtonC, []⟩) oss (c₂ x) (.ok (r₂ x))) :
    ∃ (ξ₁' η₁' ξ₂' η₂' : Nat → V3 ℝ) (τ₁' β₁' τ₂' β₂' : ℝ),
      Variation (fun x => (r₁ x).P) 0 s.P ξ₁' η₁' ∧ Variation (fun x => (r₂ x).P) 0 s.P ξ₂' η₂' ∧
      HasDerivAt (fun x => (r₁ x).time) τ₁' 0 ∧ HasDerivAt (fun x => (r₂ x).time) τ₂' 0 ∧
      HasDerivAt (fun x => (r₁ x).R.bindE) β₁' 0 ∧ HasDerivAt (fun x => (r₂ x).R.bindE) β₂' 0 ∧
      form s.P ξ₁' η₁' ξ₂' η₂' + (τ₁' * β₂' - β₁' * τ₂') = form P ξ₁ η₁ ξ₂ η₂ := by
  obtain ⟨t₁, t₂, a, b, c, d, p, q, u, v, e1, e2, W1, W2, f⟩ := C89_logH _ _ _ _ _ _ _ _ _ _ _ (init_variation V₁ A time) (init_variation V₂ A time) oss s e ha
  have Ag : AgreesI ⟨Lib.newtonC, []⟩ gravity := ⟨agrees_newton, .nil⟩
  have key : ∀ (Q : Particles) (i : Arr Nat) (c r : ARSys) (t : ReguSys), IndexOf Q i → ARSys.init 1 .logH time Q i = .ok c →
      Steps (ARStep 1 .logH ⟨Lib.newtonC, []⟩) oss c (.ok r) → steps (reguStep 1 .logH gravity) oss (ReguSys.init 1 .logH time Q) = .ok t →
      t.P = r.P ∧ t.time = r.time ∧ t.R.bindE = r.R.bindE := by
    intro Q i c r t hi hc hr ht
    obtain ⟨s0, e0, _, hall⟩ := C53_archain_evolves_like_regularized Ag 1 .logH time Q i hi oss
    rw [hc] at e0; cases e0
    rcases hall _ hr with ⟨s', t', er, et, k1, k2, _, k4⟩ | ⟨hx, _⟩
    · cases er
      rw [ht] at et; cases et
      exact ⟨k1.symm, k2.symm, by rw [k4]⟩
    · cases hx
  have k1 : ∀ᶠ x in 𝓝 0, (t₁ x).P = (r₁ x).P ∧ (t₁ x).time = (r₁ x).time ∧ (t₁ x).R.bindE = (r₁ x).R.bindE := by
    filter_upwards [e1] with x h; exact key _ _ _ _ _ (hi₁ x) (hc₁ x) (hr₁ x) h
  have k2 : ∀ᶠ x in 𝓝 0, (t₂ x).P = (r₂ x).P ∧ (t₂ x).time = (r₂ x).time ∧ (t₂ x).R.bindE = (r₂ x).R.bindE := by
    filter_upwards [e2] with x h; exact key _ _ _ _ _ (hi₂ x) (hc₂ x) (hr₂ x) h
  have tr : ∀ {γ γ' : ℝ → Particles} {Q : Particles} {ξ η : Nat → V3 ℝ}, Variation γ 0 Q ξ η → (∀ᶠ x in 𝓝 0, γ x = γ' x) → Variation γ' 0 Q ξ η := by
    intro γ γ' Q ξ η V h
    refine ⟨by rw [← h.self_of_nhds, V.here], ?_, ?_, fun k hk => (V.pos k hk).congr ?_, fun k hk => (V.vel k hk).congr ?_⟩
    · filter_upwards [h, V.num] with x a b; rw [← a, b]
    · filter_upwards [h, V.mass] with x a b; rw [← a, b]
    · filter_upwards [h] with x a; rw [← a]
    · filter_upwards [h] with x a; rw [← a]
  refine ⟨a, b, c, d, p, q, u, v, tr W1.part (k1.mono fun _ h => h.1), tr W2.part (k2.mono fun _ h => h.1), ?_, ?_, ?_, ?_, by rw [f]; simp [ReguSys.init]⟩
  · exact W1.time.congr_of_eventuallyEq (k1.mono fun _ h => h.2.1.symm)
  · exact W2.time.congr_of_eventuallyEq (k2.mono fun _ h => h.2.1.symm)
  · exact W1.bind.congr_of_eventuallyEq (k1.mono fun _ h => h.2.2.symm)
  · exact W2.bind.congr_of_eventuallyEq (k2.mono fun _ h => h.2.2.symm)

/-! ### C90 -/

/-- **C90, gradient.** However the particles are displaced, the potential energy reported changes at minus the rate at which the accelerations
evaluated from the same positions do work. -/
theorem C90_gradient (P : Particles) (A : Apart P) (γ : ℝ → Particles) (t : ℝ) (ξ η : Nat → V3 ℝ) (V : Variation γ t P ξ η) :
    HasDerivAt (fun x => potentialDirect 1 (γ x)) (-∑ k ∈ range P.num, P.mass k * dot (gravity.acc P k) (ξ k)) t := by
  simp only [potentialDirect_eq]
  refine (V.potential A 1).congr_deriv ?_
  rw [one_mul]
  congr 1
  exact sum_congr rfl fun k hk => by rw [(gravity_acc P k (mem_range.1 hk)).2]

/-- **C90, energy.** The total energy reported is constant along every motion that solves the equations of motion given by the evaluated accelerations,
as long as no two particles meet. -/
theorem C90_energy (γ : ℝ → Particles) (a b : ℝ) (M : ∀ t ∈ Set.Ioo a b, Variation γ t (γ t) (γ t).vel (gravity.acc (γ t))) (A : ∀ t ∈ Set.Ioo a b, Apart (γ t))
    (t t' : ℝ) (ht : t ∈ Set.Ioo a b) (ht' : t' ∈ Set.Ioo a b) : totalEnergy 1 (γ t) = totalEnergy 1 (γ t') := by
  have d : ∀ u ∈ Set.Ioo a b, HasDerivAt (fun x => totalEnergy 1 (γ x)) 0 u := by
    intro u hu
    unfold totalEnergy
    refine ((C90_gradient (γ u) (A u hu) γ u _ _ (M u hu)).fun_add (M u hu).kinetic).congr_deriv ?_
    rw [neg_add_eq_zero]
    exact sum_congr rfl fun k _ => by rw [dot_comm']
  exact (convex_Ioo a b).is_const_of_fderivWithin_eq_zero (𝕜 := ℝ) (f := fun x => totalEnergy 1 (γ x))
    (fun u hu => (d u hu).differentiableAt.differentiableWithinAt)
    (fun u hu => by
      have := ((d u hu).hasFDerivAt.hasFDerivWithinAt (s := Set.Ioo a b)).fderivWithin (isOpen_Ioo.uniqueDiffWithinAt hu)
      rw [this]; ext; simp) ht ht'

/-! ### concrete cases -/

/-- the two bodies at rest, the second displaced by `e` -/
def displaced (e : ℝ) : Particles := { exR with pos := fun k => if k = 0 then ⟨0, 0, 0⟩ else ⟨1 + e, 0, 0⟩ }
/-- the same, the second pushed with velocity `e` -/
def pushed (e : ℝ) : Particles := { exR with vel := fun k => if k = 0 then ⟨0, 0, 0⟩ else ⟨e, 0, 0⟩ }

theorem displaced_var : Variation displaced 0 exR (fun k => if k = 0 then 0 else ⟨1, 0, 0⟩) (fun _ => 0) := by
  refine ⟨by unfold displaced exR; simp, .of_forall fun _ => rfl, .of_forall fun _ => rfl, fun k _ => ?_, fun k _ => ?_⟩
  · by_cases h : k = 0
    · simp only [displaced, h, if_true]
      exact ⟨hasDerivAt_const _ _, hasDerivAt_const _ _, hasDerivAt_const _ _⟩
    · simp only [displaced, h, if_false]
      exact ⟨(hasDerivAt_id' (0 : ℝ)).const_add 1, hasDerivAt_const _ _, hasDerivAt_const _ _⟩
  · exact ⟨hasDerivAt_const _ _, hasDerivAt_const _ _, hasDerivAt_const _ _⟩

theorem pushed_var : Variation pushed 0 exR (fun _ => 0) (fun k => if k = 0 then 0 else ⟨1, 0, 0⟩) := by
  refine ⟨by unfold pushed exR; simp, .of_forall fun _ => rfl, .of_forall fun _ => rfl, fun k _ => ?_, fun k _ => ?_⟩
  · exact ⟨hasDerivAt_const (0 : ℝ) (exR.pos k).x, hasDerivAt_const (0 : ℝ) (exR.pos k).y, hasDerivAt_const (0 : ℝ) (exR.pos k).z⟩
  · by_cases h : k = 0
    · simp only [pushed, h, if_true]
      exact ⟨hasDerivAt_const _ _, hasDerivAt_const _ _, hasDerivAt_const _ _⟩
    · simp only [pushed, h, if_false]
      exact ⟨hasDerivAt_id' (0 : ℝ), hasDerivAt_const _ _, hasDerivAt_const _ _⟩

theorem exR_apart {P : Particles} (hn : P.num = 2) (hp : P.pos 0 = ⟨0, 0, 0⟩ ∧ P.pos 1 = ⟨1, 0, 0⟩) : Apart P := by
  have h01 : P.pos 0 ≠ P.pos 1 := by
    rw [hp.1, hp.2]; intro h; have := congrArg V3.x h; norm_num at this
  intro i j hi hj hij
  rw [hn] at hi hj
  interval_cases i <;> interval_cases j
  · exact absurd rfl hij
  · exact h01
  · exact Ne.symm h01
  · exact absurd rfl hij

/-- Concretely: one leapfrog step of any size of the two bodies; the form of displacement and push is 1 before and after. -/
example (h : ℝ) : ∃ (s : Simple) (r₁ r₂ : ℝ → Simple) (ξ₁ η₁ ξ₂ η₂ : Nat → V3 ℝ),
    (∀ x, steps (simpleStep gravity) [[.drift (h / 2), .kick h, .drift (h / 2)]] (Simple.init 0 (displaced x)) = .ok (r₁ x)) ∧
    (∀ x, steps (simpleStep gravity) [[.drift (h / 2), .kick h, .drift (h / 2)]] (Simple.init 0 (pushed x)) = .ok (r₂ x)) ∧
    Variation (fun x => (r₁ x).P) 0 s.P ξ₁ η₁ ∧ Variation (fun x => (r₂ x).P) 0 s.P ξ₂ η₂ ∧ form s.P ξ₁ η₁ ξ₂ η₂ = 1 := by
  have e : steps (simpleStep gravity) [[.drift (h / 2), .kick h, .drift (h / 2)]] (Simple.init 0 exR) =
      .ok ((((Simple.init 0 exR).drift (h / 2)).kick gravity h).drift (h / 2)) := rfl
  obtain ⟨r₁, r₂, a, b, c, d, e1, e2, W1, W2, f⟩ := C89_simple 0 exR displaced pushed _ _ _ _ displaced_var pushed_var _ _ e (by
    intro pre k suf q hp hr
    have : pre = [.drift (h / 2)] := by
      rcases pre with _ | ⟨x, _ | ⟨y, _ | ⟨z, pre⟩⟩⟩ <;> simp at hp ⊢
      · exact hp.1.symm
    subst this
    cases hr
    refine exR_apart ?_ ?_
    · show ((Simple.init 0 exR).drift (h / 2)).P.num = 2
      rw [simple_drift_P]; rfl
    · show ((Simple.init 0 exR).drift (h / 2)).P.pos 0 = _ ∧ ((Simple.init 0 exR).drift (h / 2)).P.pos 1 = _
      rw [simple_drift_P]
      constructor <;> (dsimp only; rw [advance_apply]; simp [Simple.init, exR]; right; rfl))
  refine ⟨_, r₁, r₂, a, b, c, d, e1, e2, W1, W2, ?_⟩
  rw [f, form]
  show ∑ k ∈ range 2, _ = _
  rw [sum_range_succ, sum_range_succ, sum_range_zero]
  simp [exR, dot]

/-- two bodies of mass 1/2 on a circle -/
noncomputable def circling (t : ℝ) : Particles :=
  { num := 2, mass := fun _ => 1 / 2,
    pos := fun k => if k = 0 then ⟨Real.cos t * (1 / 2), Real.sin t * (1 / 2), 0⟩ else ⟨Real.cos t * (-1 / 2), Real.sin t * (-1 / 2), 0⟩,
    vel := fun k => if k = 0 then ⟨-Real.sin t * (1 / 2), Real.cos t * (1 / 2), 0⟩ else ⟨-Real.sin t * (-1 / 2), Real.cos t * (-1 / 2), 0⟩ }

theorem circling_acc (t : ℝ) : pull (circling t) 0 = ⟨-Real.cos t * (1 / 2), -Real.sin t * (1 / 2), 0⟩ ∧
    pull (circling t) 1 = ⟨-Real.cos t * (-1 / 2), -Real.sin t * (-1 / 2), 0⟩ := by
  have cs := Real.cos_sq_add_sin_sq t
  have hl : ∀ a b : V3 ℝ, dot (b - a) (b - a) = 1 → len (b - a) = 1 := fun a b h => by unfold len; rw [h, Real.sqrt_one]
  constructor
  · unfold pull
    have : (range (circling t).num).erase 0 = {1} := by show (range 2).erase 0 = {1}; decide
    rw [this, sum_singleton, newton, hl _ _ (by simp [circling, dot]; linear_combination cs)]
    ext <;> simp [circling] <;> ring
  · unfold pull
    have : (range (circling t).num).erase 1 = {0} := by show (range 2).erase 1 = {0}; decide
    rw [this, sum_singleton, newton, hl _ _ (by simp [circling, dot]; linear_combination cs)]
    ext <;> simp [circling] <;> ring

/-- Concretely: they solve the equations of motion and never meet, so their energy is constant. -/
example (t t' : ℝ) : totalEnergy 1 (circling t) = totalEnergy 1 (circling t') := by
  refine C90_energy circling (min t t' - 1) (max t t' + 1) (fun u _ => ?_) (fun u _ => ?_) t t'
    ⟨by linarith [min_le_left t t'], by linarith [le_max_left t t']⟩ ⟨by linarith [min_le_right t t'], by linarith [le_max_right t t']⟩
  · have hc := Real.hasDerivAt_cos u
    have hs := Real.hasDerivAt_sin u
    refine ⟨rfl, .of_forall fun _ => rfl, .of_forall fun _ => rfl, fun k hk => ?_, fun k hk => ?_⟩
    · have hk : k < 2 := hk
      interval_cases k
      · exact ⟨hc.mul_const _, hs.mul_const _, hasDerivAt_const _ _⟩
      · exact ⟨hc.mul_const _, hs.mul_const _, hasDerivAt_const _ _⟩
    · rw [(gravity_acc (circling u) k hk).2]
      have hk : k < 2 := hk
      interval_cases k
      · rw [(circling_acc u).1]
        exact ⟨hs.fun_neg.mul_const _, hc.mul_const _, hasDerivAt_const _ _⟩
      · rw [(circling_acc u).2]
        exact ⟨hs.fun_neg.mul_const _, hc.mul_const _, hasDerivAt_const _ _⟩
  · have h01 : (circling u).pos 0 ≠ (circling u).pos 1 := by
      intro h
      have hx := congrArg V3.x h
      have hy := congrArg V3.y h
      simp [circling] at hx hy
      have cs := Real.cos_sq_add_sin_sq u
      have h1 : Real.cos u = 0 := hx.resolve_left (by norm_num)
      have h2 : Real.sin u = 0 := hy.resolve_left (by norm_num)
      rw [h1, h2] at cs; norm_num at cs
    intro i j hi hj hij
    have hi : i < 2 := hi
    have hj : j < 2 := hj
    interval_cases i <;> interval_cases j
    · exact absurd rfl hij
    · exact h01
    · exact Ne.symm h01
    · exact absurd rfl hij

end SpaceHub.Sys
