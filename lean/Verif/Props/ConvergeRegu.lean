import Verif.Proof.ConvergeClock
import Verif.Props.Converge
import Verif.Props.Regu

/-
C92, regularised systems.
-/

set_option autoImplicit false

namespace SpaceHub.Sys
open SpaceHub V3 Force Core Integrator Spec Props Finset Converge

/-! ### the model and the abstract integrator -/

theorem ext_conf (n : Nat) (x : Nat → V3 ℝ) {k : Nat} (hk : k < n) : ext n (conf n x) k = x k := by
  rw [Converge.ext, dif_pos hk]; rfl

theorem kinC_conf {n : Nat} {m : Nat → ℝ} {P : Particles} (hn : P.num = n) (hm : ∀ k, k < n → P.mass k = m k) :
    kinetic P = kinC n m (conf n P.vel) := by
  rw [kinetic_eq, kinC, hn]
  refine sum_congr rfl fun i hi => ?_
  rw [ext_conf n _ (mem_range.1 hi), hm i (mem_range.1 hi)]

theorem potC_conf {n : Nat} {m : Nat → ℝ} {P : Particles} (hn : P.num = n) (hm : ∀ k, k < n → P.mass k = m k) :
    potential 1 P.num P.mass P.pos = -potC n m (conf n P.pos) := by
  rw [potC, neg_neg, potential_eq, potential_eq, hn]
  refine sum_congr rfl fun i hi => sum_congr rfl fun j hj => ?_
  rw [ext_conf n _ (mem_Ico.1 hi).2, ext_conf n _ (mem_Ico.1 hj).2, hm i (mem_Ico.1 hi).2, hm j (mem_Ico.1 hj).2]

/-- the time transformations of the logarithmic Hamiltonian -/
noncomputable def fB (n : Nat) (m : Nat → ℝ) (B : ℝ) (v : Conf n) : ℝ := 1 / (B + kinC n m v)
noncomputable def gU (n : Nat) (m : Nat → ℝ) (x : Conf n) : ℝ := 1 / potC n m x

/-- the state of the model is the state of the abstract integrator -/
structure Rel (n : Nat) (m : Nat → ℝ) (B t0 : ℝ) (s : ReguSys) (z : TS (Conf n)) : Prop where
  num : s.P.num = n
  mass : ∀ k, k < n → s.P.mass k = m k
  bind : s.R.bindE = B
  time : s.time = t0 + z.t
  pos : conf n s.P.pos = z.x
  vel : conf n s.P.vel = z.v

theorem rel_stage {n : Nat} {m : Nat → ℝ} {B t0 h : ℝ} {s : ReguSys} {z : TS (Conf n)} (R : Rel n m B t0 s z) (st : Stage)
    (hB : B + kinC n m z.v ≠ 0) (hU : potC n m z.x ≠ 0) :
    ∃ s', (reguOps 1 .logH gravity).apply (st.op h) s = .ok s' ∧ Rel n m B t0 s' (tstage (grav n m) (fB n m B) (gU n m) h z st) := by
  cases st with
  | drift c =>
    have hd : posDivisor .logH s = B + kinC n m z.v := by
      show s.R.bindE + kinetic s.P = _
      rw [R.bind, kinC_conf R.num R.mass, R.vel]
    obtain ⟨s', e, a1, a2, a3, a4, a5, _, _, _, a9⟩ := (C48_position_update .logH s (c * h)).2 (by rw [hd]; exact hB)
    rw [hd] at a1 a2
    have hk : (c : ℝ) * h / (B + kinC n m z.v) = h * c * fB n m B z.v := by rw [fB]; ring
    rw [hk] at a1 a2
    refine ⟨s', e, by rw [a5, R.num], by rw [a4]; exact R.mass, by rw [a9, R.bind], ?_, ?_, ?_⟩
    · rw [a1, R.time]; simp only [tstage]; ring
    · simp only [tstage]
      rw [← R.pos]
      funext k
      show co (s'.P.pos k) = co (s.P.pos k) + (h * c * fB n m B z.v) • z.v k
      rw [a2 k (by rw [R.num]; exact k.2), co_add, co_smul, ← R.vel]
      rfl
    · simp only [tstage]; rw [a3, R.vel]
  | kick c =>
    have hd : velDivisor 1 .logH s = potC n m z.x := by
      show -potential 1 s.P.num s.P.mass s.P.pos = _
      rw [potC_conf R.num R.mass, R.pos, neg_neg]
    obtain ⟨s', e, a1, a2, a3, a4, a5, _, _, a8, _⟩ := (C48_velocity_update 1 .logH Lib.newton s (c * h)).2 (by rw [hd]; exact hU)
    rw [hd] at a1
    have hk : (c : ℝ) * h / potC n m z.x = h * c * gU n m z.x := by rw [gU]; ring
    rw [hk] at a1
    refine ⟨s', e, by rw [a4, R.num], by rw [a3]; exact R.mass, by rw [a8, R.bind], by rw [a5, R.time]; rfl, ?_, ?_⟩
    · simp only [tstage]; rw [a2, R.pos]
    · simp only [tstage]
      rw [← R.vel]
      funext k
      have hg := grav_conf n m s.P R.num R.mass k
      rw [R.pos] at hg
      have h1 := a1 k (by rw [R.num]; exact k.2)
      have h2 : gravity.newtonianAcc s.P k = gravity.acc s.P k := rfl
      rw [show (Interactions.mk Lib.newton []).newtonianAcc s.P k = gravity.acc s.P k from h2] at h1
      show co (s'.P.vel k) = co (s.P.vel k) + (h * c * gU n m z.x) • grav n m z.x k
      rw [h1, co_add, co_smul, hg]

theorem rel_stages {n : Nat} {m : Nat → ℝ} {B t0 h : ℝ} (stages : List Stage) : ∀ (s : ReguSys) (z : TS (Conf n)), Rel n m B t0 s z →
    (∀ pre suf, stages = pre ++ suf → B + kinC n m (tstep (grav n m) (fB n m B) (gU n m) pre h z).v ≠ 0 ∧
      potC n m (tstep (grav n m) (fB n m B) (gU n m) pre h z).x ≠ 0) →
    ∃ s', (reguOps 1 .logH gravity).run (stages.map (Stage.op h)) s = .ok s' ∧ Rel n m B t0 s' (tstep (grav n m) (fB n m B) (gU n m) stages h z) := by
  induction stages with
  | nil => exact fun s z R _ => ⟨s, rfl, R⟩
  | cons st l ih =>
    intro s z R hok
    obtain ⟨o1, o2⟩ := hok [] (st :: l) rfl
    obtain ⟨s1, e1, R1⟩ := rel_stage (h := h) R st o1 o2
    obtain ⟨s2, e2, R2⟩ := ih s1 _ R1 (fun pre suf e => hok (st :: pre) suf (by rw [e]; rfl))
    refine ⟨s2, ?_, R2⟩
    show Res.bind _ _ = _
    exact Res.bind_eq_ok.2 ⟨s1, e1, e2⟩

/-! ### energy along the motion -/

theorem motion_energy {n : Nat} {m : Nat → ℝ} {x v : ℝ → Nat → V3 ℝ} {t0 t1 : ℝ} (M : NewtonMotion n m x v t0 t1) {t : ℝ} (ht : t ∈ Set.Icc t0 t1) :
    kinC n m (conf n (v t)) - potC n m (conf n (x t)) = kinC n m (conf n (v t0)) - potC n m (conf n (x t0)) := by
  set γ : ℝ → Particles := fun t => ⟨n, x t, v t, m⟩ with hγ
  have hV : ∀ u ∈ Set.Icc t0 t1, Variation γ u (γ u) (v u) (gravity.acc (γ u)) := fun u hu =>
    ⟨rfl, Filter.Eventually.of_forall fun _ => rfl, Filter.Eventually.of_forall fun _ => rfl, fun k hk => M.pos u hu k hk, fun k hk => by
      rw [(gravity_acc (γ u) k hk).2]
      exact M.vel u hu k hk⟩
  have d : ∀ u ∈ Set.Icc t0 t1, HasDerivWithinAt (fun e => totalEnergy 1 (γ e)) 0 (Set.Icc t0 t1) u := by
    intro u hu
    unfold totalEnergy
    refine (((C90_gradient (γ u) (M.apart u hu) γ u _ _ (hV u hu)).fun_add (hV u hu).kinetic).congr_deriv ?_).hasDerivWithinAt
    rw [neg_add_eq_zero]
    exact sum_congr rfl fun k _ => by rw [dot_comm']
  have h := Convex.norm_image_sub_le_of_norm_hasDerivWithin_le (C := 0) d (fun _ _ => by simp) (convex_Icc t0 t1)
    (Set.left_mem_Icc.2 (ht.1.trans ht.2)) ht
  rw [zero_mul, norm_le_zero_iff, sub_eq_zero] at h
  have e : ∀ u, totalEnergy 1 (γ u) = kinC n m (conf n (v u)) - potC n m (conf n (x u)) := by
    intro u
    rw [totalEnergy, potentialDirect_eq, potC_conf (P := γ u) rfl (fun _ _ => rfl), kinC_conf (P := γ u) rfl (fun _ _ => rfl)]
    ring
  rw [← e, ← e]
  exact h

theorem motion_clocks {n : Nat} {m : Nat → ℝ} {x v : ℝ → Nat → V3 ℝ} {t0 t1 : ℝ} (ht : t0 ≤ t1) (M : NewtonMotion n m x v t0 t1) (hn : 2 ≤ n)
    (hm : ∀ k, k < n → 0 < m k) (B : ℝ) (hB : B = potC n m (conf n (x t0)) - kinC n m (conf n (v t0))) :
    ∃ r A L V F Λ f0, Tube (grav n m) (fun t => conf n (x (t0 + t))) (fun t => conf n (v (t0 + t))) (t1 - t0) r A L V ∧
      Clocks (fB n m B) (gU n m) (fun t => conf n (x (t0 + t))) (fun t => conf n (v (t0 + t))) (t1 - t0) r F Λ f0 ∧
      ∀ t ∈ Set.Icc 0 (t1 - t0), (∀ w, ‖w - conf n (v (t0 + t))‖ ≤ r → B + kinC n m w ≠ 0) ∧
        ∀ y, ‖y - conf n (x (t0 + t))‖ ≤ r → potC n m y ≠ 0 := by
  obtain ⟨r, A, L, V, _, H, _⟩ := motion_tube M
  have mem : ∀ t ∈ Set.Icc 0 (t1 - t0), t0 + t ∈ Set.Icc t0 t1 := fun t ht => ⟨by linarith [ht.1], by linarith [ht.2]⟩
  have hfree : ∀ t ∈ Set.Icc 0 (t1 - t0), conf n (x (t0 + t)) ∈ free n := by
    intro t ht i j hij h
    exact M.apart _ (mem t ht) i j i.2 j.2 (fun e => hij (Fin.ext e)) (congrArg ve h)
  have cq : ContinuousOn (fun t => conf n (x (t0 + t))) (Set.Icc 0 (t1 - t0)) := fun t ht => (H.dq t ht).continuousWithinAt
  have cw : ContinuousOn (fun t => conf n (v (t0 + t))) (Set.Icc 0 (t1 - t0)) := fun t ht => (H.dv t ht).continuousWithinAt
  have hU : IsOpen {w : Conf n | B + kinC n m w ≠ 0} := isOpen_ne_fun (continuous_const.add (kinC_smooth (d := 1) n m).continuous) continuous_const
  have hf : ContDiffOn ℝ 1 (fB n m B) {w : Conf n | B + kinC n m w ≠ 0} := fun w hw =>
    ((contDiffAt_const (c := (1 : ℝ))).div (contDiffAt_const.add (kinC_smooth n m).contDiffAt) hw).contDiffWithinAt
  have hg : ContDiffOn ℝ 1 (gU n m) (free n) := fun y hy =>
    (contDiffWithinAt_const (c := (1 : ℝ))).div ((potC_smooth n m) y hy) (potC_pos hn hm hy).ne'
  have key : ∀ t ∈ Set.Icc 0 (t1 - t0), B + kinC n m (conf n (v (t0 + t))) = potC n m (conf n (x (t0 + t))) := fun t ht => by
    have := motion_energy M (mem t ht)
    rw [hB]; linarith
  have pos : ∀ t ∈ Set.Icc 0 (t1 - t0), 0 < potC n m (conf n (x (t0 + t))) := fun t ht => potC_pos hn hm (hfree t ht)
  obtain ⟨r0, hr0, F, Λ, f0, hc⟩ := exists_clocks hU hf (free_open n) hg cq cw (fun t ht => by rw [Set.mem_ofPred_eq, key t ht]; exact (pos t ht).ne') hfree
    (by linarith) (fun t ht => by show 0 < 1 / _; rw [key t ht]; exact one_div_pos.2 (pos t ht)) (fun t ht => by show 1 / _ = 1 / _; rw [key t ht])
  obtain ⟨Q, hsafe⟩ := hc (min r r0) (min_le_right _ _)
  refine ⟨min r r0, A, L, V, F, Λ, f0, H.mono (lt_min H.hr hr0) (min_le_left _ _), Q, fun t ht => ⟨(hsafe t ht).1, fun y hy => ?_⟩⟩
  exact (potC_pos hn hm ((hsafe t ht).2 y hy)).ne'

/-! ### the property -/

theorem regu_steps_snoc {type : ReguType} {I : Interactions} (oss : List (List Op)) (os : List Op) : ∀ s a : ReguSys, steps (reguStep 1 type I) oss s = .ok a →
    steps (reguStep 1 type I) (oss ++ [os]) s = reguStep 1 type I os a := by
  induction oss with
  | nil =>
    intro s a e1
    cases e1
    show Res.bind _ _ = _
    cases reguStep 1 type I os s <;> rfl
  | cons o l ih =>
    intro s a e1
    obtain ⟨c, f1, f2⟩ := Res.bind_eq_ok.1 e1
    rw [List.cons_append, steps, f1]
    exact ih c a f2

/-- **C92, regularised systems.** With the logarithmic Hamiltonian or the time-transformed leap-frog: the steps are steps of the transformed time, the
physical time is part of the result.  For every bound on the number and the size of the coefficients: if the simulation has not passed the time `t1` before
its last step, nothing is divided by zero, and if it has not passed it after that step either, the time has gone on at a rate of at least `κ`, and the
particles are off the true ones at the time the simulation has reached by at most `K` times the longest step (plus the deviation `δ` of the sums of the
coefficients from 1). -/
theorem C92_regularised {n : Nat} {m : Nat → ℝ} {x v : ℝ → Nat → V3 ℝ} {t0 t1 : ℝ} (ht : t0 ≤ t1) (M : NewtonMotion n m x v t0 t1) (hn : 2 ≤ n)
    (hmass : ∀ k, k < n → 0 < m k) (N : Nat) (c : ℝ) :
    ∃ K κ ρ : ℝ, 0 < κ ∧ 0 < ρ ∧ ∀ stages : List Stage, stages.length ≤ N → (∀ s ∈ stages, |((coef s : ℚ) : ℝ)| ≤ c) →
      ∀ P, InState n m x v t0 P → ∀ hm δ, 0 ≤ hm → |(sumDrift stages : ℝ) - 1| ≤ δ → |(sumKick stages : ℝ) - 1| ≤ δ → hm + δ ≤ ρ →
      ∀ type ∈ [ReguType.logH, .ttl], ∀ hs : List ℝ, (∀ h ∈ hs, 0 ≤ h ∧ h ≤ hm) →
      (∀ pre suf s, hs = pre ++ suf → suf ≠ [] →
        steps (reguStep 1 type gravity) (pre.map fun h => stages.map (Stage.op h)) (ReguSys.init 1 type t0 P) = .ok s → s.time ≤ t1) →
      ∃ s, steps (reguStep 1 type gravity) (hs.map fun h => stages.map (Stage.op h)) (ReguSys.init 1 type t0 P) = .ok s ∧
        (s.time ≤ t1 → t0 + κ * hs.sum ≤ s.time ∧ WithinOf n m x v s.time (K * (hm + δ)) s.P) := by
  set B := potC n m (conf n (x t0)) - kinC n m (conf n (v t0)) with hB
  obtain ⟨r, A, L, V, F, Λ, f0, H, Q, safe⟩ := motion_clocks ht M hn hmass B hB
  have hA := H.hA
  have hL := H.hL
  have hV := H.hV
  have hr := H.hr
  have hF := Q.hF
  have hΛ := Q.hΛ
  have hf0 := Q.hf0
  have hT : 0 ≤ t1 - t0 := by linarith
  set C := max c 0 with hC
  have hC0 : 0 ≤ C := le_max_right _ _
  obtain ⟨η, hη, hsm⟩ := exists_small H Q hT (N := N) (c := C) (by positivity) hC0
  have hM : 0 ≤ tconst N C r A L V F Λ := by unfold tconst speed; positivity
  refine ⟨2 * tglob N C (t1 - t0) r A L V F Λ f0, f0 / 4, η, by positivity, hη, fun stages hN hco P S hm δ hm0 hd hd' hle => ?_⟩
  have hδ0 : 0 ≤ δ := (abs_nonneg _).trans hd
  have Sm := hsm hm δ hm0 hδ0 hle
  have hco' : ∀ s ∈ stages, |((coef s : ℚ) : ℝ)| ≤ C := fun s hs => (hco s hs).trans (le_max_left _ _)
  have next : ∀ (l : List ℝ) (h : ℝ) (s : ReguSys) (z : TS (Conf n)), 0 ≤ h → h ≤ hm →
      steps (reguStep 1 .logH gravity) (l.map fun h => stages.map (Stage.op h)) (ReguSys.init 1 .logH t0 P) = .ok s → Rel n m B t0 s z →
      Near (fun t => conf n (x (t0 + t))) (fun t => conf n (v (t0 + t))) (t1 - t0) f0 (tconst N C r A L V F Λ) (hm + δ) l.sum z →
      ∃ s' z', steps (reguStep 1 .logH gravity) ((l ++ [h]).map fun h => stages.map (Stage.op h)) (ReguSys.init 1 .logH t0 P) = .ok s' ∧ Rel n m B t0 s' z' ∧
        (s'.time ≤ t1 →
          Near (fun t => conf n (x (t0 + t))) (fun t => conf n (v (t0 + t))) (t1 - t0) f0 (tconst N C r A L V F Λ) (hm + δ) (l ++ [h]).sum z') := by
    intro l h s z h0 h1 e R Y
    have htz : z.t ∈ Set.Icc 0 (t1 - t0) := ⟨le_trans (mul_nonneg Y.hσ (by positivity)) Y.low, Y.high⟩
    obtain ⟨n1, n2⟩ := Near.next H Q (by exact_mod_cast hN) hC0 hco' h0 h1 hd hd' Sm Y
    have Rp : Rel n m B t0 (s.preIter gravity) z := by
      have : s.preIter gravity = s := rfl
      rw [this]; exact R
    obtain ⟨s', e', R'⟩ := rel_stages (h := h) stages (s.preIter gravity) z Rp (fun pre suf ep => by
      obtain ⟨p1, p2⟩ := n1 pre suf ep
      exact ⟨(safe z.t htz).1 _ p2, (safe z.t htz).2 _ p1⟩)
    have e2 : steps (reguStep 1 .logH gravity) ((l ++ [h]).map fun h => stages.map (Stage.op h)) (ReguSys.init 1 .logH t0 P) = .ok s' := by
      rw [List.map_append, List.map_cons, List.map_nil, regu_steps_snoc _ _ _ _ e]
      exact e'
    refine ⟨s', _, e2, R', fun ht' => ?_⟩
    rw [R'.time] at ht'
    rw [List.sum_append, List.sum_singleton]
    exact n2 (by linarith)
  have main : ∀ hs : List ℝ, (∀ h ∈ hs, 0 ≤ h ∧ h ≤ hm) →
      (∀ pre suf s, hs = pre ++ suf →
        steps (reguStep 1 .logH gravity) (pre.map fun h => stages.map (Stage.op h)) (ReguSys.init 1 .logH t0 P) = .ok s → s.time ≤ t1) →
      ∃ s z, steps (reguStep 1 .logH gravity) (hs.map fun h => stages.map (Stage.op h)) (ReguSys.init 1 .logH t0 P) = .ok s ∧ Rel n m B t0 s z ∧
        Near (fun t => conf n (x (t0 + t))) (fun t => conf n (v (t0 + t))) (t1 - t0) f0 (tconst N C r A L V F Λ) (hm + δ) hs.sum z := by
    intro hs
    induction hs using List.reverseRecOn with
    | nil =>
      intro _ _
      have e0 := start_conf S
      have e1 : conf n P.pos = conf n (x t0) := congrArg Prod.fst e0
      have e2 : conf n P.vel = conf n (v t0) := congrArg Prod.snd e0
      refine ⟨_, ⟨0, conf n (x t0), conf n (v t0)⟩, rfl, ⟨S.num, S.mass, ?_, by simp [ReguSys.init], e1, e2⟩, ⟨le_rfl, by simp, hT, by simp, by simp⟩⟩
      show -totalEnergy 1 P = B
      rw [totalEnergy, potentialDirect_eq, potC_conf S.num S.mass, kinC_conf S.num S.mass, e1, e2, hB]
      ring
    | append_singleton hs h ih =>
      intro hhs hpre
      obtain ⟨s, z, e, R, Y⟩ := ih (fun h hh => hhs h (List.mem_append_left _ hh))
        (fun pre suf s' e' => hpre pre (suf ++ [h]) s' (by rw [e', List.append_assoc]))
      obtain ⟨h0, h1⟩ := hhs h (by simp)
      obtain ⟨s', z', e2, R', hY⟩ := next hs h s z h0 h1 e R Y
      exact ⟨s', z', e2, R', hY (hpre (hs ++ [h]) [] s' (by simp) e2)⟩
  have final : ∀ hs : List ℝ, (∀ h ∈ hs, 0 ≤ h ∧ h ≤ hm) →
      (∀ pre suf s, hs = pre ++ suf → suf ≠ [] →
        steps (reguStep 1 .logH gravity) (pre.map fun h => stages.map (Stage.op h)) (ReguSys.init 1 .logH t0 P) = .ok s → s.time ≤ t1) →
      ∃ s, steps (reguStep 1 .logH gravity) (hs.map fun h => stages.map (Stage.op h)) (ReguSys.init 1 .logH t0 P) = .ok s ∧
        (s.time ≤ t1 → t0 + f0 / 4 * hs.sum ≤ s.time ∧ WithinOf n m x v s.time (2 * tglob N C (t1 - t0) r A L V F Λ f0 * (hm + δ)) s.P) := by
    intro hs hhs hpre
    have last : ∃ s z, steps (reguStep 1 .logH gravity) (hs.map fun h => stages.map (Stage.op h)) (ReguSys.init 1 .logH t0 P) = .ok s ∧ Rel n m B t0 s z ∧
        (s.time ≤ t1 →
          Near (fun t => conf n (x (t0 + t))) (fun t => conf n (v (t0 + t))) (t1 - t0) f0 (tconst N C r A L V F Λ) (hm + δ) hs.sum z) := by
      rcases List.eq_nil_or_concat hs with rfl | ⟨l, h, rfl⟩
      · obtain ⟨s, z, e, R, Y⟩ := main [] (by simp) (fun pre suf s e es => by
          have : pre = [] := (List.append_eq_nil_iff.1 e.symm).1
          subst this
          cases es
          exact ht)
        exact ⟨s, z, e, R, fun _ => Y⟩
      · rw [List.concat_eq_append] at hhs hpre ⊢
        obtain ⟨s, z, e, R, Y⟩ := main l (fun h hh => hhs h (List.mem_append_left _ hh))
          (fun pre suf s' e' => hpre pre (suf ++ [h]) s' (by rw [e', List.append_assoc]) (by simp))
        obtain ⟨h0, h1⟩ := hhs h (by simp)
        exact next l h s z h0 h1 e R Y
    obtain ⟨s, z, e, R, hY⟩ := last
    refine ⟨s, e, fun hle => ?_⟩
    have Y := hY hle
    have hb := Y.le hM (by positivity) hf0
    refine ⟨by rw [R.time]; linarith [Y.low], ?_⟩
    rw [mul_assoc]
    refine within_of R.num R.mass ?_
    rw [R.pos, R.vel, R.time, Prod.mk_sub_mk, Prod.norm_def]
    exact max_le (Y.pos.trans hb) (Y.vel.trans hb)
  intro type htype hs hhs hpre
  simp only [List.mem_cons, List.not_mem_nil, or_false] at htype
  rcases htype with rfl | rfl
  · exact final hs hhs hpre
  · have twin : ∀ l : List ℝ, ∀ s, steps (reguStep 1 .logH gravity) (l.map fun h => stages.map (Stage.op h)) (ReguSys.init 1 .logH t0 P) = .ok s →
        ∃ t, steps (reguStep 1 .ttl gravity) (l.map fun h => stages.map (Stage.op h)) (ReguSys.init 1 .ttl t0 P) = .ok t ∧ s.P = t.P ∧ s.time = t.time := by
      intro l s e
      rcases C48_ttl_equals_logH 1 Lib.newton t0 P (l.map fun h => stages.map (Stage.op h)) with ⟨h1, _⟩ | ⟨s1, t, h1, h2, h3, h4, _⟩
      · have : (Res.ok s : Res ReguSys) = .nan := e.symm.trans h1
        cases this
      · have : (Res.ok s : Res ReguSys) = .ok s1 := e.symm.trans h1
        cases this
        exact ⟨t, h2, h3, h4⟩
    obtain ⟨s, e, f⟩ := final hs hhs (fun pre suf s e' hs es => by
      obtain ⟨t, g1, _, g3⟩ := twin pre s es
      rw [g3]
      exact hpre pre suf t e' hs g1)
    obtain ⟨t, g1, g2, g3⟩ := twin hs s e
    rw [g2, g3] at f
    exact ⟨t, g1, f⟩

/-- the steps of a fixed length up to the first that passes `t1` -/
theorem reach_end {I : Interactions} {n : Nat} {m : Nat → ℝ} {x v : ℝ → Nat → V3 ℝ} {t0 t1 κ h E : ℝ} {stages : List Stage} {type : ReguType} {P : Particles} (ht : t0 ≤ t1)
    (hκ : 0 < κ) (hh : 0 < h)
    (HH : ∀ hs : List ℝ, (∀ y ∈ hs, 0 ≤ y ∧ y ≤ h) →
      (∀ pre suf s, hs = pre ++ suf → suf ≠ [] →
        steps (reguStep 1 type I) (pre.map fun h => stages.map (Stage.op h)) (ReguSys.init 1 type t0 P) = .ok s → s.time ≤ t1) →
      ∃ s, steps (reguStep 1 type I) (hs.map fun h => stages.map (Stage.op h)) (ReguSys.init 1 type t0 P) = .ok s ∧
        (s.time ≤ t1 → t0 + κ * hs.sum ≤ s.time ∧ WithinOf n m x v s.time E s.P)) :
    ∃ (k : Nat) (s : Nat → ReguSys),
        (∀ i, i ≤ k + 1 →
          steps (reguStep 1 type I) (List.replicate i (stages.map (Stage.op h))) (ReguSys.init 1 type t0 P) = .ok (s i)) ∧
        (∀ i, i ≤ k → (s i).time ≤ t1 ∧ WithinOf n m x v (s i).time E (s i).P) ∧ t1 < (s (k + 1)).time := by
  have rep : ∀ i : Nat, (List.replicate i h).map (fun h => stages.map (Stage.op h)) = List.replicate i (stages.map (Stage.op h)) := fun i => by simp
  -- the state after `i` steps, if there is one
  set st : Nat → Res ReguSys := fun i => steps (reguStep 1 type I) (List.replicate i (stages.map (Stage.op h))) (ReguSys.init 1 type t0 P) with hst
  have app : ∀ i, (∀ j, j < i → ∀ s, st j = .ok s → s.time ≤ t1) → ∃ s, st i = .ok s ∧ (s.time ≤ t1 → t0 + κ * (i * h) ≤ s.time ∧
      WithinOf n m x v s.time (E) s.P) := by
    intro i hi
    have := HH (List.replicate i h) (fun y hy => by rw [(List.mem_replicate.1 hy).2]; exact ⟨hh.le, le_rfl⟩) (fun pre suf s e hsuf es => by
      obtain ⟨e1, e2, e3⟩ := List.append_eq_replicate_iff.1 e.symm
      have hlt : pre.length < i := by
        have : 0 < suf.length := List.length_pos_iff.2 hsuf
        omega
      refine hi pre.length hlt s ?_
      rw [e2, rep] at es
      exact es)
    rw [rep] at this
    simpa using this
  have stop : ∃ i, ∃ s, st i = .ok s ∧ t1 < s.time := by
    by_contra hcon
    have hall : ∀ i s, st i = .ok s → s.time ≤ t1 := fun i s e => by
      by_contra hlt
      exact hcon ⟨i, s, e, not_le.1 hlt⟩
    obtain ⟨i, hi⟩ := exists_nat_gt ((t1 - t0) / (κ * h))
    obtain ⟨s, e, f⟩ := app i (fun j _ => hall j)
    obtain ⟨f1, _⟩ := f (hall i s e)
    have h1 := hall i s e
    rw [div_lt_iff₀ (by positivity)] at hi
    linarith [show κ * (i * h) = i * (κ * h) by ring]
  classical
  let i0 := Nat.find stop
  obtain ⟨s0, hs0, ht0⟩ := Nat.find_spec stop
  have before : ∀ j, j < i0 → ∀ s, st j = .ok s → s.time ≤ t1 := fun j hj s e => by
    by_contra hlt
    exact Nat.find_min stop hj ⟨s, e, not_le.1 hlt⟩
  have hpos : i0 ≠ 0 := by
    intro h0
    have hs0' : st i0 = .ok s0 := hs0
    rw [h0] at hs0'
    cases hs0'
    have : (ReguSys.init 1 type t0 P).time = t0 := rfl
    rw [this] at ht0
    linarith
  obtain ⟨k, hk⟩ := Nat.exists_eq_succ_of_ne_zero hpos
  have ex : ∀ i, i ≤ k + 1 → ∃ s, st i = .ok s ∧ (s.time ≤ t1 → t0 + κ * (i * h) ≤ s.time ∧ WithinOf n m x v s.time (E) s.P) :=
    fun i hi => app i (fun j hj => before j (by omega))
  have : Nonempty ReguSys := ⟨ReguSys.init 1 type t0 P⟩
  choose! s hs using ex
  refine ⟨k, s, fun i hi => (hs i hi).1, fun i hi => ?_, ?_⟩
  · have h1 := before i (by omega) (s i) (hs i (by omega)).1
    exact ⟨h1, ((hs i (by omega)).2 h1).2⟩
  · have h1 := (hs (k + 1) le_rfl).1
    have h2 : st (k + 1) = .ok s0 := by rw [← Nat.succ_eq_add_one, ← hk]; exact hs0
    rw [h2] at h1
    cases h1
    exact ht0

/-- A simulation of a regularised system with a fixed step `h` of the transformed time passes `t1` after finitely many steps; at every step before, all
positions and velocities are within `K (h + δ)` of the true ones. -/
theorem C92_regularised_reaches {n : Nat} {m : Nat → ℝ} {x v : ℝ → Nat → V3 ℝ} {t0 t1 : ℝ} (ht : t0 ≤ t1) (M : NewtonMotion n m x v t0 t1) (hn : 2 ≤ n)
    (hmass : ∀ k, k < n → 0 < m k) (N : Nat) (c : ℝ) :
    ∃ K ρ : ℝ, 0 < ρ ∧ ∀ stages : List Stage, stages.length ≤ N → (∀ s ∈ stages, |((coef s : ℚ) : ℝ)| ≤ c) →
      ∀ P, InState n m x v t0 P → ∀ h δ, 0 < h → |(sumDrift stages : ℝ) - 1| ≤ δ → |(sumKick stages : ℝ) - 1| ≤ δ → h + δ ≤ ρ →
      ∀ type ∈ [ReguType.logH, .ttl], ∃ (k : Nat) (s : Nat → ReguSys),
        (∀ i, i ≤ k + 1 →
          steps (reguStep 1 type gravity) (List.replicate i (stages.map (Stage.op h))) (ReguSys.init 1 type t0 P) = .ok (s i)) ∧
        (∀ i, i ≤ k → (s i).time ≤ t1 ∧ WithinOf n m x v (s i).time (K * (h + δ)) (s i).P) ∧ t1 < (s (k + 1)).time := by
  obtain ⟨K, κ, ρ, hκ, hρ, H⟩ := C92_regularised ht M hn hmass N c
  refine ⟨K, ρ, hρ, fun stages hN hco P S h δ hh hd hd' hle type htype => ?_⟩
  exact reach_end ht hκ hh (H stages hN hco P S h δ hh.le hd hd' hle type htype)

/-- the same steps of the ARchain system -/
theorem archain_end {IC : ChainInteractions} {I : Interactions} (A : AgreesI IC I) {n : Nat} {m : Nat → ℝ} {x v : ℝ → Nat → V3 ℝ} {t0 t1 h E : ℝ} {stages : List Stage} {type : ReguType} {P : Particles} {idx : Arr Nat}
    (hi : IndexOf P idx) {k : Nat} {s : Nat → ReguSys}
    (h1 : ∀ i, i ≤ k + 1 → steps (reguStep 1 type I) (List.replicate i (stages.map (Stage.op h))) (ReguSys.init 1 type t0 P) = .ok (s i))
    (h2 : ∀ i, i ≤ k → (s i).time ≤ t1 ∧ WithinOf n m x v (s i).time E (s i).P) (h3 : t1 < (s (k + 1)).time) :
    ∃ s0, ARSys.init 1 type t0 P idx = .ok s0 ∧ ∃ k : Nat,
        (∀ i, i ≤ k + 1 → ∃ r, Steps (ARStep 1 type IC) (List.replicate i (stages.map (Stage.op h))) s0 (.ok r)) ∧
        (∀ i r, i ≤ k → Steps (ARStep 1 type IC) (List.replicate i (stages.map (Stage.op h))) s0 r →
          ∃ s, r = .ok s ∧ s.time ≤ t1 ∧ WithinOf n m x v s.time E s.P) ∧
        ∀ r, Steps (ARStep 1 type IC) (List.replicate (k + 1) (stages.map (Stage.op h))) s0 r → ∃ s, r = .ok s ∧ t1 < s.time := by
  obtain ⟨s0, e0, _, _⟩ := C53_archain_evolves_like_regularized A 1 type t0 P idx hi []
  have key : ∀ i, i ≤ k + 1 → (∃ r, Steps (ARStep 1 type IC) (List.replicate i (stages.map (Stage.op h))) s0 r) ∧
      ∀ r, Steps (ARStep 1 type IC) (List.replicate i (stages.map (Stage.op h))) s0 r → ∃ a, r = .ok a ∧ a.P = (s i).P ∧ a.time = (s i).time := by
    intro i hik
    obtain ⟨s0', e0', hex, hall⟩ := C53_archain_evolves_like_regularized A 1 type t0 P idx hi (List.replicate i (stages.map (Stage.op h)))
    rw [e0] at e0'; cases e0'
    refine ⟨hex, fun r hr => ?_⟩
    rcases hall r hr with ⟨a, t, ea, et, k1, k2, _⟩ | ⟨_, en⟩
    · rw [h1 i hik] at et; cases et
      exact ⟨a, ea, k1, k2⟩
    · rw [h1 i hik] at en; cases en
  refine ⟨s0, e0, k, fun i hik => ?_, fun i r hik hr => ?_, fun r hr => ?_⟩
  · obtain ⟨⟨r, hr⟩, hall⟩ := key i hik
    obtain ⟨a, ea, _⟩ := hall r hr
    exact ⟨a, ea ▸ hr⟩
  · obtain ⟨a, ea, k1, k2⟩ := (key i (by omega)).2 r hr
    refine ⟨a, ea, by rw [k2]; exact (h2 i hik).1, ?_⟩
    rw [k1, k2]
    exact (h2 i hik).2
  · obtain ⟨a, ea, k1, k2⟩ := (key (k + 1) le_rfl).2 r hr
    exact ⟨a, ea, by rw [k2]; exact h3⟩

/-- **C92, ARchain systems.** The same, whatever chains the steps build. -/
theorem C92_archain {n : Nat} {m : Nat → ℝ} {x v : ℝ → Nat → V3 ℝ} {t0 t1 : ℝ} (ht : t0 ≤ t1) (M : NewtonMotion n m x v t0 t1) (hn : 2 ≤ n)
    (hmass : ∀ k, k < n → 0 < m k) (N : Nat) (c : ℝ) :
    ∃ K ρ : ℝ, 0 < ρ ∧ ∀ stages : List Stage, stages.length ≤ N → (∀ s ∈ stages, |((coef s : ℚ) : ℝ)| ≤ c) →
      ∀ P, InState n m x v t0 P → ∀ idx, IndexOf P idx → ∀ h δ, 0 < h → |(sumDrift stages : ℝ) - 1| ≤ δ → |(sumKick stages : ℝ) - 1| ≤ δ → h + δ ≤ ρ →
      ∀ type ∈ [ReguType.logH, .ttl], ∃ s0, ARSys.init 1 type t0 P idx = .ok s0 ∧ ∃ k : Nat,
        (∀ i, i ≤ k + 1 → ∃ r, Steps (ARStep 1 type ⟨Lib.newtonC, []⟩) (List.replicate i (stages.map (Stage.op h))) s0 (.ok r)) ∧
        (∀ i r, i ≤ k → Steps (ARStep 1 type ⟨Lib.newtonC, []⟩) (List.replicate i (stages.map (Stage.op h))) s0 r →
          ∃ s, r = .ok s ∧ s.time ≤ t1 ∧ WithinOf n m x v s.time (K * (h + δ)) s.P) ∧
        ∀ r, Steps (ARStep 1 type ⟨Lib.newtonC, []⟩) (List.replicate (k + 1) (stages.map (Stage.op h))) s0 r → ∃ s, r = .ok s ∧ t1 < s.time := by
  obtain ⟨K, ρ, hρ, H⟩ := C92_regularised_reaches ht M hn hmass N c
  refine ⟨K, ρ, hρ, fun stages hN hco P S idx hi h δ hh hd hd' hle type htype => ?_⟩
  obtain ⟨k, s, h1, h2, h3⟩ := H stages hN hco P S h δ hh hd hd' hle type htype
  exact archain_end (IC := ⟨Lib.newtonC, []⟩) (I := gravity) ⟨agrees_newton, .nil⟩ hi h1 h2 h3

/-- Non-vacuity: the circular motion of two masses, over any stretch of time, with all six integrators. -/
example (t0 t1 : ℝ) (ht : t0 ≤ t1) : ∃ K ρ : ℝ, 0 < ρ ∧ ∀ stages ∈ [symplectic2nd, leapFrogKDK, symplectic4th, symplectic6th, symplectic8th, symplectic10th],
    ∀ h, 0 < h → h + 1e-15 ≤ ρ → ∃ (k : Nat) (s : Nat → ReguSys), (∀ i, i ≤ k + 1 →
      steps (reguStep 1 .logH gravity) (List.replicate i (stages.map (Stage.op h)))
        (ReguSys.init 1 .logH t0 ⟨2, circlePos t0, circleVel t0, fun _ => 1 / 2⟩) = .ok (s i)) ∧
      (∀ i, i ≤ k → (s i).time ≤ t1 ∧ WithinOf 2 (fun _ => 1 / 2) circlePos circleVel (s i).time (K * (h + 1e-15)) (s i).P) ∧ t1 < (s (k + 1)).time := by
  obtain ⟨K, ρ, hρ, H⟩ := C92_regularised_reaches ht (circle_motion t0 t1) le_rfl (fun _ _ => by norm_num) 63 3
  refine ⟨K, ρ, hρ, fun stages hs h h0 hle => ?_⟩
  obtain ⟨c1, c2, c3, c4⟩ := C92_coefficients stages hs
  exact H stages c1 c2 _ ⟨rfl, fun _ _ => rfl, fun _ _ => rfl, fun _ _ => rfl⟩ h _ h0 c3 c4 hle .logH (by simp)

end SpaceHub.Sys
