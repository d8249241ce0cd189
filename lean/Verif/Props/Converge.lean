import Verif.Proof.ConvergeTube
import Verif.Props.Symplectic
import Verif.Props.Systems
import Verif.Props.Simulator
import Mathlib.Analysis.Calculus.Deriv.Prod

/-
C92: the computed motion converges to the true motion.
-/

set_option autoImplicit false

namespace SpaceHub.Sys
open SpaceHub V3 Force Core Integrator Spec Props Finset Converge

/-! ### the model and the abstract integrator -/

def conf (n : Nat) (x : Nat → V3 ℝ) : Conf n := fun k => co (x k)

theorem grav_conf (n : Nat) (m : Nat → ℝ) (P : Particles) (hn : P.num = n) (hm : ∀ k, k < n → P.mass k = m k) (k : Fin n) :
    grav n m (conf n P.pos) k = co (gravity.acc P k) := by
  have hk : (k : Nat) < P.num := by rw [hn]; exact k.2
  rw [(gravity_acc P k hk).2, pull, co_sum]
  subst hn
  unfold grav
  refine (sum_nbij (fun j : Fin P.num => (j : Nat)) ?_ ?_ ?_ ?_)
  · intro j hj
    simp only [mem_erase, mem_univ, and_true, mem_range] at hj ⊢
    exact ⟨fun h => hj (Fin.ext h), j.2⟩
  · intro i _ j _ h
    exact Fin.ext h
  · intro j hj
    simp only [coe_erase, Set.mem_sdiff, mem_coe, mem_range, Set.mem_singleton_iff] at hj
    exact ⟨⟨j, hj.1⟩, by simpa [Fin.ext_iff] using hj.2, rfl⟩
  · intro j _
    rw [← hm j j.2]
    rfl

theorem conf_advance (n : Nat) (x w : Arr (V3 ℝ)) (h : ℝ) : conf n (advance n x w h) = conf n x + h • conf n w := by
  funext k
  show co (advance n x w h k) = _
  rw [advance_apply, if_pos k.2, co_add, co_smul]
  rfl

theorem stages_link {n : Nat} {m : Nat → ℝ} (h : ℝ) (stages : List Stage) : ∀ s : Simple, s.P.num = n → (∀ k, k < n → s.P.mass k = m k) →
    ∃ s', (simpleOps gravity).run (stages.map (Stage.op h)) s = .ok s' ∧ s'.P.num = n ∧ (∀ k, k < n → s'.P.mass k = m k) ∧
      (conf n s'.P.pos, conf n s'.P.vel) = stepE (grav n m) stages h (conf n s.P.pos, conf n s.P.vel) := by
  induction stages with
  | nil => exact fun s hn hm => ⟨s, rfl, hn, hm, rfl⟩
  | cons st l ih =>
    intro s hn hm
    cases st with
    | drift c =>
      obtain ⟨s', e, a1, a2, a3⟩ := ih (s.drift (c * h)) (by rw [simple_drift_P]; exact hn) (by rw [simple_drift_P]; exact hm)
      refine ⟨s', e, a1, a2, a3.trans ?_⟩
      rw [simple_drift_P]
      show stepE (grav n m) l h (conf n (advance s.P.num s.P.pos s.P.vel (c * h)), conf n s.P.vel) = stepE (grav n m) l h (stageF (grav n m) (.drift c) h _)
      congr 1
      rw [hn, conf_advance, stageF, stageG]
      ext1
      · simp only [Prod.fst_add, Prod.smul_fst, smul_smul, mul_comm]
      · simp
    | kick c =>
      obtain ⟨s', e, a1, a2, a3⟩ := ih (s.kick gravity (c * h)) (by rw [simple_kick_P]; exact hn) (by rw [simple_kick_P]; exact hm)
      refine ⟨s', e, a1, a2, a3.trans ?_⟩
      rw [simple_kick_P]
      show stepE (grav n m) l h (conf n s.P.pos, conf n (advance s.P.num s.P.vel (gravity.acc s.P) (c * h))) = stepE (grav n m) l h (stageF (grav n m) (.kick c) h _)
      congr 1
      have hg : conf n (gravity.acc s.P) = grav n m (conf n s.P.pos) := funext fun k => (grav_conf n m s.P hn hm k).symm
      rw [hn, conf_advance, hg, stageF, stageG]
      ext1
      · simp
      · simp only [Prod.snd_add, Prod.smul_snd, smul_smul, mul_comm]

theorem steps_link {n : Nat} {m : Nat → ℝ} (stages : List Stage) (hs : List ℝ) : ∀ s : Simple, s.P.num = n → (∀ k, k < n → s.P.mass k = m k) →
    ∃ s', steps (simpleStep gravity) (hs.map fun h => stages.map (Stage.op h)) s = .ok s' ∧ s'.P.num = n ∧ (∀ k, k < n → s'.P.mass k = m k) ∧
      (conf n s'.P.pos, conf n s'.P.vel) = iter (stepE (grav n m) stages) hs (conf n s.P.pos, conf n s.P.vel) := by
  induction hs with
  | nil => exact fun s hn hm => ⟨s, rfl, hn, hm, rfl⟩
  | cons h l ih =>
    intro s hn hm
    obtain ⟨s1, e1, a1, a2, a3⟩ := stages_link h stages s hn hm
    obtain ⟨s2, e2, b1, b2, b3⟩ := ih s1 a1 a2
    refine ⟨s2, ?_, b1, b2, ?_⟩
    · have : simpleStep gravity (stages.map (Stage.op h)) s = .ok s1 := e1
      rw [List.map_cons, steps, this]
      exact e2
    · rw [b3, a3]; rfl

theorem steps_time (stages : List Stage) (hs : List ℝ) : ∀ s s' : Simple,
    steps (simpleStep gravity) (hs.map fun h => stages.map (Stage.op h)) s = .ok s' → s'.time = s.time + driftSum stages * hs.sum := by
  induction hs with
  | nil => intro s s' e; cases e; simp
  | cons h l ih =>
    intro s s' e
    obtain ⟨s1, e1, e2⟩ := Res.bind_eq_ok.1 e
    obtain ⟨s1', f1, f2⟩ := C17_simple_time gravity (stages.map (Stage.op h)) s
    have : simpleStep gravity (stages.map (Stage.op h)) s = .ok s1' := f1
    rw [this] at e1
    cases e1
    rw [ih _ _ e2, f2, driftTime_stages, List.sum_cons]
    ring

/-! ### the motion as a curve -/

theorem len_le_norm (d : V3 ℝ) : len d ≤ 2 * ‖co d‖ := by
  unfold len
  have h1 : |d.x| ≤ ‖co d‖ := norm_fst_le (co d)
  have h2 : |d.y| ≤ ‖co d‖ := (norm_fst_le (co d).2).trans (norm_snd_le (co d))
  have h3 : |d.z| ≤ ‖co d‖ := (norm_snd_le (co d).2).trans (norm_snd_le (co d))
  refine Real.sqrt_le_iff.2 ⟨by positivity, ?_⟩
  have e1 : d.x ^ 2 ≤ ‖co d‖ ^ 2 := sq_le_sq' (by linarith [neg_abs_le d.x]) ((le_abs_self _).trans h1)
  have e2 : d.y ^ 2 ≤ ‖co d‖ ^ 2 := sq_le_sq' (by linarith [neg_abs_le d.y]) ((le_abs_self _).trans h2)
  have e3 : d.z ^ 2 ≤ ‖co d‖ ^ 2 := sq_le_sq' (by linarith [neg_abs_le d.z]) ((le_abs_self _).trans h3)
  unfold dot
  nlinarith

theorem rate_co {f : ℝ → V3 ℝ} {d : V3 ℝ} {t : ℝ} (h : Rate f d t) : HasDerivAt (fun e => co (f e)) (co d) t :=
  h.1.prodMk (h.2.1.prodMk h.2.2)

theorem curve {n : Nat} {x : ℝ → Nat → V3 ℝ} {d : Nat → V3 ℝ} {t : ℝ} (t0 : ℝ) (h : ∀ k, k < n → Rate (fun e => x e k) (d k) (t0 + t)) :
    HasDerivAt (fun e => conf n (x (t0 + e))) (conf n d) t := by
  rw [hasDerivAt_pi]
  intro k
  have := (rate_co (h k k.2)).comp_const_add t0 t
  exact this

theorem motion_tube {n : Nat} {m : Nat → ℝ} {x v : ℝ → Nat → V3 ℝ} {t0 t1 : ℝ} (M : NewtonMotion n m x v t0 t1) :
    ∃ r A L V Q, Tube (grav n m) (fun t => conf n (x (t0 + t))) (fun t => conf n (v (t0 + t))) (t1 - t0) r A L V ∧ 0 ≤ Q ∧
      Expands (grav n m) (fun t => conf n (x (t0 + t))) (t1 - t0) r L Q := by
  have mem : ∀ t ∈ Set.Icc 0 (t1 - t0), t0 + t ∈ Set.Icc t0 t1 := fun t ht => ⟨by linarith [ht.1], by linarith [ht.2]⟩
  refine exists_tube (free_open n) (grav_smooth n m) (fun t ht => (curve t0 (M.pos _ (mem t ht))).hasDerivWithinAt) (fun t ht => ?_) (fun t ht => ?_)
  · have h1 := curve t0 (M.vel _ (mem t ht))
    have e : conf n (fun k => ∑ j ∈ (range n).erase k, newton (m j) (x (t0 + t) k) (x (t0 + t) j)) = grav n m (conf n (x (t0 + t))) := by
      funext k
      have hk := grav_conf n m ⟨n, x (t0 + t), v (t0 + t), m⟩ rfl (fun _ _ => rfl) k
      rw [hk, (gravity_acc _ k k.2).2]
      rfl
    rw [e] at h1
    exact h1.hasDerivWithinAt
  · intro i j hij h
    exact M.apart _ (mem t ht) i j i.2 j.2 (fun e => hij (Fin.ext e)) (congrArg ve h)

theorem within_of {n : Nat} {m : Nat → ℝ} {x v : ℝ → Nat → V3 ℝ} {t ε : ℝ} {P : Particles} (hn : P.num = n) (hm : ∀ k, k < n → P.mass k = m k)
    (h : ‖(conf n P.pos, conf n P.vel) - (conf n (x t), conf n (v t))‖ ≤ ε) : WithinOf n m x v t (2 * ε) P := by
  have h1 := (norm_fst_le _).trans h
  have h2 := (norm_snd_le _).trans h
  have f : ∀ (y z : Nat → V3 ℝ), ‖conf n y - conf n z‖ ≤ ε → ∀ k, k < n → len (y k - z k) ≤ 2 * ε := by
    intro y z hyz k hk
    have := (norm_le_pi_norm (conf n y - conf n z) ⟨k, hk⟩).trans hyz
    refine (len_le_norm _).trans ?_
    rw [co_sub]
    have e : ‖co (y k) - co (z k)‖ ≤ ε := this
    linarith
  exact ⟨hn, hm, f _ _ h1, f _ _ h2⟩

theorem start_conf {n : Nat} {m : Nat → ℝ} {x v : ℝ → Nat → V3 ℝ} {t : ℝ} {P : Particles} (S : InState n m x v t P) :
    (conf n P.pos, conf n P.vel) = (conf n (x t), conf n (v t)) := by
  have h1 : conf n P.pos = conf n (x t) := funext fun k => congrArg co (S.pos k k.2)
  have h2 : conf n P.vel = conf n (v t) := funext fun k => congrArg co (S.vel k k.2)
  rw [h1, h2]

theorem driftSum_eq (stages : List Stage) : driftSum stages = sumDrift stages := by
  induction stages with
  | nil => rfl
  | cons s l ih => cases s <;> simp [driftSum, sumDrift, ih]

/-! ### the property -/

theorem small_steps {c r : ℝ} (hc : 0 ≤ c) (hr : 0 < r) : ∃ h0 : ℝ, 0 < h0 ∧ h0 ≤ 1 ∧ ∀ h, h ≤ h0 → c * h ≤ r := by
  refine ⟨min 1 (r / (c + 1)), lt_min one_pos (by positivity), min_le_left _ _, fun h hh => ?_⟩
  have h1 : h ≤ r / (c + 1) := hh.trans (min_le_right _ _)
  have h2 : c * h ≤ c * (r / (c + 1)) := mul_le_mul_of_nonneg_left h1 hc
  refine h2.trans ?_
  rw [mul_div_assoc', div_le_iff₀ (by linarith)]
  nlinarith

/-- **C92, second order.** Particles move from `t0` to `t1` under Newton's laws without colliding.  A simulation that starts from their state at `t0` with
one of the two leap-frogs stays close to them: for small enough steps, constant or not, every position and velocity is at every time up to `t1` off by
at most `K` times the square of the longest step. -/
theorem C92_leapfrogs {n : Nat} {m : Nat → ℝ} {x v : ℝ → Nat → V3 ℝ} {t0 t1 : ℝ} (ht : t0 ≤ t1) (M : NewtonMotion n m x v t0 t1) :
    ∃ K h0 : ℝ, 0 < h0 ∧ ∀ stages ∈ [symplectic2nd, leapFrogKDK], ∀ P, InState n m x v t0 P → ∀ hm, 0 ≤ hm → hm ≤ h0 →
      ∀ hs : List ℝ, (∀ h ∈ hs, 0 ≤ h ∧ h ≤ hm) → t0 + hs.sum ≤ t1 →
      ∃ s, steps (simpleStep gravity) (hs.map fun h => stages.map (Stage.op h)) (Simple.init t0 P) = .ok s ∧
        s.time = t0 + hs.sum ∧ WithinOf n m x v (t0 + hs.sum) (K * hm ^ 2) s.P := by
  obtain ⟨r, A, L, V, Q, H, hQ, hx⟩ := motion_tube M
  have hr := H.hr
  have hV := H.hV
  have hA := H.hA
  have hL := H.hL
  have hT : 0 ≤ t1 - t0 := by linarith
  have hK : 0 ≤ const2 (t1 - t0) A L V Q := by unfold const2 locC; positivity
  obtain ⟨h0, h0p, h01, hsm⟩ := small_steps (c := (V + A) + 6 * (A + V + r) + 2 * const2 (t1 - t0) A L V Q) (by positivity) hr
  refine ⟨2 * const2 (t1 - t0) A L V Q, h0, h0p, fun stages hst P S hm hm0 hmh hs hhs hsum => ?_⟩
  have hc := hsm hm hmh
  have p1 : 0 ≤ (V + A) * hm := by positivity
  have p2 : 0 ≤ (A + V + r) * hm := by positivity
  have p3 : 0 ≤ const2 (t1 - t0) A L V Q * hm := by positivity
  have p4 : const2 (t1 - t0) A L V Q * hm ^ 2 ≤ const2 (t1 - t0) A L V Q * hm := by
    refine mul_le_mul_of_nonneg_left ?_ hK
    nlinarith [hmh.trans h01]
  obtain ⟨s, e, a1, a2, a3⟩ := steps_link (m := m) stages hs (Simple.init t0 P) S.num S.mass
  have hst' : stages = symplectic2nd ∨ stages = leapFrogKDK := by simpa using hst
  have key := H.second hQ hx hst' hm0 (hmh.trans h01) (by linarith) (by linarith) (by linarith) hT hs hhs (by linarith)
  refine ⟨s, e, ?_, ?_⟩
  · rw [steps_time stages hs _ _ e]
    have : driftSum stages = 1 := by rcases hst' with rfl | rfl <;> norm_num [driftSum, symplectic2nd, leapFrogKDK]
    rw [this]
    simp [Simple.init]
  · rw [mul_assoc]
    refine within_of a1 a2 ?_
    have e0 : (conf n (Simple.init t0 P).P.pos, conf n (Simple.init t0 P).P.vel) = (conf n (x (t0 + 0)), conf n (v (t0 + 0))) := by
      rw [add_zero]; exact start_conf S
    rw [a3, e0]
    exact key

/-- **C92, every integrator made of position and velocity updates.** For every bound on the number and the size of its coefficients: the error is at most
`K` times the sum of the longest step and the deviation `δ` of the sums of the coefficients from 1. -/
theorem C92_first_order {n : Nat} {m : Nat → ℝ} {x v : ℝ → Nat → V3 ℝ} {t0 t1 : ℝ} (ht : t0 ≤ t1) (M : NewtonMotion n m x v t0 t1) (N : Nat) (c : ℝ) :
    ∃ K ρ : ℝ, 0 < ρ ∧ ∀ stages : List Stage, stages.length ≤ N → (∀ s ∈ stages, |((coef s : ℚ) : ℝ)| ≤ c) →
      ∀ P, InState n m x v t0 P → ∀ hm δ, 0 ≤ hm → |(sumDrift stages : ℝ) - 1| ≤ δ → |(sumKick stages : ℝ) - 1| ≤ δ → hm + δ ≤ ρ →
      ∀ hs : List ℝ, (∀ h ∈ hs, 0 ≤ h ∧ h ≤ hm) → t0 + hs.sum ≤ t1 →
      ∃ s, steps (simpleStep gravity) (hs.map fun h => stages.map (Stage.op h)) (Simple.init t0 P) = .ok s ∧
        s.time = t0 + sumDrift stages * hs.sum ∧ WithinOf n m x v (t0 + hs.sum) (K * (hm + δ)) s.P := by
  obtain ⟨r, A, L, V, _, H, _⟩ := motion_tube M
  have hr := H.hr
  have hV := H.hV
  have hA := H.hA
  have hL := H.hL
  have hT : 0 ≤ t1 - t0 := by linarith
  set C := max c 0 with hC
  have hC0 : 0 ≤ C := le_max_right _ _
  set k := const1 N C (t1 - t0) r A L V with hk
  have hk0 : 0 ≤ k := by rw [hk]; unfold const1; positivity
  obtain ⟨ρ, h0p, _, hsm⟩ := small_steps (c := V + 2 * (N * (C * (A + V + r))) + 2 * (k * (1 + V + A))) (by positivity) hr
  refine ⟨2 * (k * (1 + V + A)), ρ, h0p, fun stages hN hco P S hm δ hm0 hd hd' hle hs hhs hsum => ?_⟩
  have hδ0 : 0 ≤ δ := (abs_nonneg _).trans hd
  have hc := hsm _ hle
  have p1 : 0 ≤ V * δ := by positivity
  have p2 : 0 ≤ N * (C * (A + V + r)) * δ := by positivity
  have p3 : 0 ≤ V * hm := by positivity
  have p4 : 0 ≤ N * (C * (A + V + r)) * hm := by positivity
  have p5 : 0 ≤ k * (1 + V + A) * (hm + δ) := by positivity
  have p6 : k * (hm + δ * (V + A)) ≤ k * (1 + V + A) * (hm + δ) := by
    rw [mul_assoc]
    refine mul_le_mul_of_nonneg_left ?_ hk0
    nlinarith [mul_nonneg hV hm0, mul_nonneg hA hm0]
  obtain ⟨s, e, a1, a2, a3⟩ := steps_link (m := m) stages hs (Simple.init t0 P) S.num S.mass
  have key := H.first hT (N := N) (c := C) (stages := stages) (by exact_mod_cast hN) (fun s hs => (hco s hs).trans (le_max_left _ _)) hC0
    (hm := hm) (δ := δ * (V + A)) hm0
    (by nlinarith [abs_nonneg ((sumDrift stages : ℝ) - 1), mul_nonneg hδ0 hA])
    (by nlinarith [abs_nonneg ((sumKick stages : ℝ) - 1), mul_nonneg hδ0 hV])
    (by nlinarith) (by nlinarith) (by rw [← hk]; nlinarith) hs hhs (by linarith)
  refine ⟨s, e, ?_, ?_⟩
  · rw [steps_time stages hs _ _ e, driftSum_eq]
    rfl
  · rw [mul_assoc]
    refine within_of a1 a2 ?_
    have e0 : (conf n (Simple.init t0 P).P.pos, conf n (Simple.init t0 P).P.vel) = (conf n (x (t0 + 0)), conf n (v (t0 + 0))) := by
      rw [add_zero]; exact start_conf S
    rw [a3, e0]
    exact key.trans p6

/-- The coefficients of the six integrators: at most 63, of size at most 3, and with sums that are 1 up to `1e-15`. -/
theorem C92_coefficients : ∀ stages ∈ [symplectic2nd, leapFrogKDK, symplectic4th, symplectic6th, symplectic8th, symplectic10th],
    stages.length ≤ 63 ∧ (∀ s ∈ stages, |((coef s : ℚ) : ℝ)| ≤ 3) ∧ |(sumDrift stages : ℝ) - 1| ≤ 1e-15 ∧ |(sumKick stages : ℝ) - 1| ≤ 1e-15 := by
  have key : ∀ stages ∈ [symplectic2nd, leapFrogKDK, symplectic4th, symplectic6th, symplectic8th, symplectic10th],
      stages.length ≤ 63 ∧ (∀ s ∈ stages, -3 ≤ coef s ∧ coef s ≤ 3) ∧ (-(1 / 10 ^ 15) ≤ sumDrift stages - 1 ∧ sumDrift stages - 1 ≤ 1 / 10 ^ 15) ∧
        (-(1 / 10 ^ 15) ≤ sumKick stages - 1 ∧ sumKick stages - 1 ≤ 1 / 10 ^ 15) := by
    decide +kernel
  intro stages hs
  obtain ⟨h1, h2, h3, h4⟩ := key stages hs
  have e : (1e-15 : ℝ) = ((1 / 10 ^ 15 : ℚ) : ℝ) := by norm_num
  refine ⟨h1, fun s hs => ?_, ?_, ?_⟩
  · obtain ⟨a, b⟩ := h2 s hs
    exact abs_le.2 ⟨by exact_mod_cast a, by exact_mod_cast b⟩
  · rw [e]
    refine abs_le.2 ⟨?_, ?_⟩
    · have := h3.1; exact_mod_cast this
    · have := h3.2; exact_mod_cast this
  · rw [e]
    refine abs_le.2 ⟨?_, ?_⟩
    · have := h4.1; exact_mod_cast this
    · have := h4.2; exact_mod_cast this

/-- **C92, exact integrators** (the leap-frogs and the fourth-order integrator): the error vanishes with the step. -/
theorem C92_converges {n : Nat} {m : Nat → ℝ} {x v : ℝ → Nat → V3 ℝ} {t0 t1 : ℝ} (ht : t0 ≤ t1) (M : NewtonMotion n m x v t0 t1)
    (stages : List Stage) (h1 : sumDrift stages = 1) (h2 : sumKick stages = 1) :
    ∃ K h0 : ℝ, 0 < h0 ∧ ∀ P, InState n m x v t0 P → ∀ hm, 0 ≤ hm → hm ≤ h0 →
      ∀ hs : List ℝ, (∀ h ∈ hs, 0 ≤ h ∧ h ≤ hm) → t0 + hs.sum ≤ t1 →
      ∃ s, steps (simpleStep gravity) (hs.map fun h => stages.map (Stage.op h)) (Simple.init t0 P) = .ok s ∧
        s.time = t0 + hs.sum ∧ WithinOf n m x v (t0 + hs.sum) (K * hm) s.P := by
  have hb : ∃ c : ℝ, ∀ s ∈ stages, |((coef s : ℚ) : ℝ)| ≤ c := by
    clear h1 h2
    induction stages with
    | nil => exact ⟨0, by simp⟩
    | cons s l ih =>
      obtain ⟨c, hc⟩ := ih
      refine ⟨max c |((coef s : ℚ) : ℝ)|, fun u hu => ?_⟩
      rcases List.mem_cons.1 hu with rfl | hu
      · exact le_max_right _ _
      · exact (hc u hu).trans (le_max_left _ _)
  obtain ⟨c, hc⟩ := hb
  obtain ⟨K, ρ, hρ, key⟩ := C92_first_order ht M stages.length c
  refine ⟨K, ρ, hρ, fun P S hm hm0 hle hs hhs hsum => ?_⟩
  obtain ⟨s, e, a, b⟩ := key stages le_rfl hc P S hm 0 hm0 (by simp [h1]) (by simp [h2]) (by simpa using hle) hs hhs hsum
  refine ⟨s, e, ?_, by simpa using b⟩
  rw [a, h1]; simp

/-! ### runs of the simulator -/

theorem steps_snoc {I : Interactions} (oss : List (List Op)) (os : List Op) : ∀ s a b : Simple, steps (simpleStep I) oss s = .ok a →
    simpleStep I os a = .ok b → steps (simpleStep I) (oss ++ [os]) s = .ok b := by
  induction oss with
  | nil =>
    intro s a b e1 e2
    cases e1
    exact Res.bind_eq_ok.2 ⟨b, e2, rfl⟩
  | cons o l ih =>
    intro s a b e1 e2
    obtain ⟨c, f1, f2⟩ := Res.bind_eq_ok.1 e1
    exact Res.bind_eq_ok.2 ⟨c, f1, ih c a b f2 e2⟩

/-- the steps of a run: none is longer than asked for, and none leads beyond the end time -/
theorem run_steps (big G : ℝ) {I : Interactions} {stages : List Stage} (hst : stages ∈ [symplectic2nd, leapFrogKDK, symplectic4th]) {T h : ℝ} {s0 : Simple} (hh : 0 ≤ h)
    (h0 : s0.time ≤ T) (n : Nat) (s : Nat → Simple) (p : Nat → ℝ) (e0 : s 0 = s0) (ep : p 0 = h)
    (hS : Simu.Spec.Steps (Simu.constSimple big G I stages) T n s p) : ∀ k, k ≤ n → (0 ≤ p k ∧ p k ≤ h) ∧ (s k).time ≤ T ∧
      ∃ hs : List ℝ, (∀ x ∈ hs, 0 ≤ x ∧ x ≤ h) ∧ (s k).time = s0.time + hs.sum ∧
        steps (simpleStep I) (hs.map fun h => stages.map (Stage.op h)) s0 = .ok (s k) := by
  intro k
  induction k with
  | zero =>
    intro _
    rw [e0, ep]
    exact ⟨⟨hh, le_rfl⟩, h0, [], by simp, by simp, rfl⟩
  | succ k ih =>
    intro hk
    obtain ⟨⟨a1, a2⟩, a3, hs, b1, b2, b3⟩ := ih (by omega)
    have e := hS k hk
    obtain ⟨s1, e1, t1⟩ := (Simu.constSimple_constStep big G I hst).2 (Simu.Spec.shortened (Simu.constSimple big G I stages) T (p k) (s k)) (s k)
    rw [e1] at e
    have e2 := Res.ok.inj e
    have e3 : s1 = s (k + 1) := congrArg Prod.fst e2
    have e4 : Simu.Spec.shortened (Simu.constSimple big G I stages) T (p k) (s k) = p (k + 1) := congrArg Prod.snd e2
    rw [e4, e3] at e1 t1
    change (s (k + 1)).time = (s k).time + p (k + 1) at t1
    have c : 0 ≤ p (k + 1) ∧ p (k + 1) ≤ h ∧ p (k + 1) ≤ T - (s k).time := by
      rw [← e4]
      unfold Simu.Spec.shortened
      change _ ≤ (if |p k| ≤ |(T - (s k).time) * 1| then p k else (T - (s k).time) * 1) ∧ (if |p k| ≤ |(T - (s k).time) * 1| then p k else (T - (s k).time) * 1) ≤ _ ∧
        (if |p k| ≤ |(T - (s k).time) * 1| then p k else (T - (s k).time) * 1) ≤ _
      rw [mul_one, abs_of_nonneg a1, abs_of_nonneg (by linarith : 0 ≤ T - (s k).time)]
      split_ifs with hc
      · exact ⟨a1, a2, hc⟩
      · exact ⟨by linarith, by linarith, le_rfl⟩
    refine ⟨⟨c.1, c.2.1⟩, by linarith [c.2.2], hs ++ [p (k + 1)], ?_, ?_, ?_⟩
    · intro x hx
      rcases List.mem_append.1 hx with hx | hx
      · exact b1 x hx
      · rw [List.mem_singleton.1 hx]; exact ⟨c.1, c.2.1⟩
    · rw [List.sum_append, List.sum_singleton, t1, b2, add_assoc]
    · rw [List.map_append]
      refine steps_snoc _ _ _ _ _ b3 ?_
      obtain ⟨s2, f1, f2⟩ := Res.bind_eq_ok.1 e1
      have : s2 = s (k + 1) := congrArg Prod.fst (Res.ok.inj f2)
      rw [← this]
      exact f1

/-- **C92, runs of the simulator.** A run of a plain system with a fixed step `h` from the state of the motion at `t0` to the end time `T` (in the time
the motion is given for) returns, at a time that counts as `T`, with particles that are off the true ones of that time by at most `K h²` with the two
leap-frogs, by at most `K h` with the fourth-order integrator. -/
theorem C92_run {n : Nat} {m : Nat → ℝ} {x v : ℝ → Nat → V3 ℝ} {t0 t1 : ℝ} (ht : t0 ≤ t1) (M : NewtonMotion n m x v t0 t1) :
    ∃ K h0 : ℝ, 0 < h0 ∧ ∀ P, InState n m x v t0 P → ∀ (big G tHubble h T rtol : ℝ) (a b c : Nat), 0 < h → h ≤ h0 → t0 ≤ T → T ≤ t1 → 0 ≤ rtol →
      ∀ stages ∈ [symplectic2nd, leapFrogKDK, symplectic4th], ∃ s : Simple, Simu.Spec.AtEnd s.time T rtol ∧ t0 ≤ s.time ∧ s.time ≤ T ∧
        WithinOf n m x v s.time (K * if stages = symplectic4th then h else h ^ 2) s.P ∧
        ∀ fuel, ⌈(T - t0) / h⌉₊ < fuel →
          ∃ w, Simu.run tHubble (Simu.constSimple big G gravity stages) (Simu.Spec.recording h (some T) rtol a b c []) fuel ([], Simple.init t0 P) = .ok (w, s) := by
  obtain ⟨K1, h1, h1p, H1⟩ := C92_leapfrogs ht M
  obtain ⟨K2, h2, h2p, H2⟩ := C92_converges ht M symplectic4th (by decide +kernel) (by decide +kernel)
  refine ⟨max K1 K2, min h1 h2, lt_min h1p h2p, fun P S big G tHubble h T rtol a b c hp hle hT hT1 hr stages hst => ?_⟩
  obtain ⟨s', b1, b2, b3, b4⟩ := Simu.C21_simple big G gravity stages hst tHubble h T rtol a b c (Simple.init t0 P) hr hp hT
  refine ⟨s', b3, b1, b2, ?_, b4⟩
  obtain ⟨w, hw⟩ := b4 _ (Nat.lt_succ_self _)
  obtain ⟨k, _, s, p, e0, ep, hS, _, _, es, _⟩ := (Simu.run_iff tHubble (Simu.constSimple big G gravity stages) h (some T) rtol a b c [] _ _ _ w
    (.inr (by simp)) (by exact one_ne_zero)).1 hw
  have ep' : p 0 = h := by rw [ep]; unfold Simu.firstStep; rw [if_neg hp.ne']
  obtain ⟨_, c1, hs, c2, c3, c4⟩ := run_steps big G hst hp.le (s0 := Simple.init t0 P) hT k s p e0 ep' hS k le_rfl
  rw [← es] at c1 c3 c4
  change s'.time = t0 + hs.sum at c3
  have weaken : ∀ ε ε' Q, ε ≤ ε' → WithinOf n m x v s'.time ε Q → WithinOf n m x v s'.time ε' Q :=
    fun ε ε' Q hε W => ⟨W.num, W.mass, fun k hk => (W.pos k hk).trans hε, fun k hk => (W.vel k hk).trans hε⟩
  by_cases hf : stages = symplectic4th
  · rw [if_pos hf]
    subst hf
    obtain ⟨s2, f1, f2, f3⟩ := H2 P S h hp.le (hle.trans (min_le_right _ _)) hs c2 (by linarith)
    rw [f1] at c4; cases c4
    rw [← c3] at f3
    exact weaken _ _ _ (mul_le_mul_of_nonneg_right (le_max_right _ _) hp.le) f3
  · rw [if_neg hf]
    have hst' : stages ∈ [symplectic2nd, leapFrogKDK] := by
      simp only [List.mem_cons, List.not_mem_nil, or_false] at hst ⊢
      rcases hst with h | h | h
      · exact .inl h
      · exact .inr h
      · exact absurd h hf
    obtain ⟨s2, f1, f2, f3⟩ := H1 stages hst' P S h hp.le (hle.trans (min_le_left _ _)) hs c2 (by linarith)
    rw [f1] at c4; cases c4
    rw [← c3] at f3
    exact weaken _ _ _ (mul_le_mul_of_nonneg_right (le_max_left _ _) (by positivity)) f3

/-- **C92, chain system.** A chain system started from the particles of a plain one goes through the same states, whatever chains it builds. -/
theorem C92_chain {n : Nat} {m : Nat → ℝ} {x v : ℝ → Nat → V3 ℝ} {t0 t1 : ℝ} (ht : t0 ≤ t1) (M : NewtonMotion n m x v t0 t1) :
    ∃ K h0 : ℝ, 0 < h0 ∧ ∀ stages ∈ [symplectic2nd, leapFrogKDK], ∀ P, InState n m x v t0 P → ∀ idx, IndexOf P idx → ∀ hm, 0 ≤ hm → hm ≤ h0 →
      ∀ hs : List ℝ, (∀ h ∈ hs, 0 ≤ h ∧ h ≤ hm) → t0 + hs.sum ≤ t1 →
      ∃ s0, ChainSys.init t0 P idx = .ok s0 ∧
        (∃ r, Steps (ChainStep ⟨Lib.newtonC, []⟩) (hs.map fun h => stages.map (Stage.op h)) s0 r) ∧
        ∀ r, Steps (ChainStep ⟨Lib.newtonC, []⟩) (hs.map fun h => stages.map (Stage.op h)) s0 r →
          ∃ s, r = .ok s ∧ s.time = t0 + hs.sum ∧ WithinOf n m x v (t0 + hs.sum) (K * hm ^ 2) s.P := by
  obtain ⟨K, h0, h0p, H⟩ := C92_leapfrogs ht M
  refine ⟨K, h0, h0p, fun stages hst P S idx hi hm hm0 hle hs hhs hsum => ?_⟩
  have A : AgreesI ⟨Lib.newtonC, []⟩ gravity := ⟨agrees_newton, .nil⟩
  obtain ⟨t, e1, e2, e3⟩ := H stages hst P S hm hm0 hle hs hhs hsum
  obtain ⟨s0, t', f1, f2, f3, f4⟩ := C53_chain_evolves_like_plain A t0 P idx hi (hs.map fun h => stages.map (Stage.op h))
  rw [e1] at f2; cases f2
  refine ⟨s0, f1, f3, fun r hr => ?_⟩
  obtain ⟨s, g1, g2, g3, _⟩ := f4 r hr
  exact ⟨s, g1, g3.trans e2, g2 ▸ e3⟩

/-! ### a motion: two equal masses on a circle -/

noncomputable def circlePos (t : ℝ) (k : Nat) : V3 ℝ := if k = 0 then ⟨Real.cos t / 2, Real.sin t / 2, 0⟩ else ⟨-(Real.cos t / 2), -(Real.sin t / 2), 0⟩
noncomputable def circleVel (t : ℝ) (k : Nat) : V3 ℝ := if k = 0 then ⟨-(Real.sin t / 2), Real.cos t / 2, 0⟩ else ⟨Real.sin t / 2, -(Real.cos t / 2), 0⟩

theorem circle_pull (t : ℝ) : newton (1 / 2) (circlePos t 0) (circlePos t 1) = ⟨-(Real.cos t / 2), -(Real.sin t / 2), 0⟩ ∧
    newton (1 / 2) (circlePos t 1) (circlePos t 0) = ⟨Real.cos t / 2, Real.sin t / 2, 0⟩ := by
  have one : Real.cos t * Real.cos t + Real.sin t * Real.sin t = 1 := by nlinarith [Real.sin_sq_add_cos_sq t]
  have d0 : circlePos t 1 - circlePos t 0 = ⟨-Real.cos t, -Real.sin t, 0⟩ := by
    ext1 <;> simp [circlePos]
    · ring
    · ring
  have d1 : circlePos t 0 - circlePos t 1 = ⟨Real.cos t, Real.sin t, 0⟩ := by
    ext1 <;> simp [circlePos]
  have l0 : len (⟨-Real.cos t, -Real.sin t, 0⟩ : V3 ℝ) = 1 := by
    unfold len dot
    simp [one]
  have l1 : len (⟨Real.cos t, Real.sin t, 0⟩ : V3 ℝ) = 1 := by
    unfold len dot
    simp [one]
  unfold newton
  rw [d0, d1, l0, l1]
  constructor
  · ext1 <;> simp <;> ring
  · ext1 <;> simp <;> ring

theorem circle_motion (t0 t1 : ℝ) : NewtonMotion 2 (fun _ => 1 / 2) circlePos circleVel t0 t1 := by
  have hc : ∀ t, HasDerivAt (fun e => Real.cos e / 2) (-(Real.sin t / 2)) t := fun t => by simpa [neg_div] using (Real.hasDerivAt_cos t).div_const 2
  have hs : ∀ t, HasDerivAt (fun e => Real.sin e / 2) (Real.cos t / 2) t := fun t => (Real.hasDerivAt_sin t).div_const 2
  have hc' : ∀ t, HasDerivAt (fun e => -(Real.cos e / 2)) (Real.sin t / 2) t := fun t => by
    have := (hc t).neg
    rw [neg_neg] at this
    exact this
  have hs' : ∀ t, HasDerivAt (fun e => -(Real.sin e / 2)) (-(Real.cos t / 2)) t := fun t => (hs t).neg
  have hz : ∀ t, HasDerivAt (fun _ : ℝ => (0 : ℝ)) 0 t := fun t => hasDerivAt_const t 0
  refine ⟨fun t _ k hk => ?_, fun t _ k hk => ?_, fun t _ i j hi hj hij => ?_⟩
  · interval_cases k
    · exact ⟨hc t, hs t, hz t⟩
    · exact ⟨hc' t, hs' t, hz t⟩
  · have e0 : (range 2).erase 0 = {1} := by decide
    have e1 : (range 2).erase 1 = {0} := by decide
    interval_cases k
    · rw [e0, sum_singleton, (circle_pull t).1]
      exact ⟨hs' t, hc t, hz t⟩
    · rw [e1, sum_singleton, (circle_pull t).2]
      exact ⟨hs t, hc' t, hz t⟩
  · intro e
    have one : Real.cos t * Real.cos t + Real.sin t * Real.sin t = 1 := by nlinarith [Real.sin_sq_add_cos_sq t]
    have hx := congrArg V3.x e
    have hy := congrArg V3.y e
    interval_cases i <;> interval_cases j
    · exact hij rfl
    · simp only [circlePos, if_true, one_ne_zero, if_false] at hx hy
      have c0 : Real.cos t = 0 := by linarith
      have s0 : Real.sin t = 0 := by linarith
      rw [c0, s0] at one
      norm_num at one
    · simp only [circlePos, if_true, one_ne_zero, if_false] at hx hy
      have c0 : Real.cos t = 0 := by linarith
      have s0 : Real.sin t = 0 := by linarith
      rw [c0, s0] at one
      norm_num at one
    · exact hij rfl

/-- Non-vacuity: the hypotheses of the theorems hold of a circular motion over any stretch of time. -/
example (t0 t1 : ℝ) : NewtonMotion 2 (fun _ => 1 / 2) circlePos circleVel t0 t1 ∧
    InState 2 (fun _ => 1 / 2) circlePos circleVel t0 ⟨2, circlePos t0, circleVel t0, fun _ => 1 / 2⟩ :=
  ⟨circle_motion t0 t1, rfl, fun _ _ => rfl, fun _ _ => rfl, fun _ _ => rfl⟩

end SpaceHub.Sys
