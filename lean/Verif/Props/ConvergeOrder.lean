import Verif.Proof.ConvergeOrder
import Verif.Proof.OrderTable
import Verif.Props.Converge

/-
C93: the integrators have their order on gravity.
-/

set_option autoImplicit false

namespace SpaceHub.Sys
open SpaceHub V3 Force Core Integrator Spec Props Finset Converge
open scoped ContDiff

/-! ### the plain system as a sum of two fields -/

/-- positions move with the velocities, velocities with the accelerations -/
noncomputable def plainF (n : Nat) (m : Nat → ℝ) : Bool → Conf n × Conf n → Conf n × Conf n
  | true, z => (z.2, 0)
  | false, z => (0, grav n m z.1)

theorem plain_straight (n : Nat) (m : Nat → ℝ) (X : Bool) : Straight (plainF n m X) := by
  intro y s
  cases X <;> simp [plainF]

theorem plain_smooth (n : Nat) (m : Nat → ℝ) (X : Bool) : ContDiffOn ℝ ∞ (plainF n m X) (Prod.fst ⁻¹' free n) := by
  cases X
  · exact contDiffOn_const.prodMk ((grav_smooth n m).comp contDiffOn_fst fun _ h => h)
  · exact contDiffOn_snd.prodMk contDiffOn_const

theorem plain_flow (n : Nat) (m : Nat → ℝ) (s : Stage) (h : ℝ) (z : Conf n × Conf n) : flow (plainF n m) s h z = stageF (grav n m) s h z := by
  cases s <;> simp [flow, stageF, plainF, stageG, coef, letter, smul_smul]

theorem plain_step (n : Nat) (m : Nat → ℝ) (stages : List Stage) : wstep (plainF n m) stages = stepE (grav n m) stages := by
  rw [wstep, stepE, show flow (plainF n m) = stageF (grav n m) from funext fun s => funext fun h => funext fun z => plain_flow n m s h z]

/-! ### the property -/

/-- **C93.** Particles move from `t0` to `t1` under Newton's laws without colliding.  For every order `p` and every bound on the number and the size of the
coefficients of an integrator: if its coefficients for all words of at most `p` letters are those of the true motion (up to a deviation that contributes at
most `δ`), then for small enough steps, constant or not, every position and velocity is at every time up to `t1` off by at most `K (hm ^ p + δ)`. -/
theorem C93_order {n : Nat} {m : Nat → ℝ} {x v : ℝ → Nat → V3 ℝ} {t0 t1 : ℝ} (ht : t0 ≤ t1) (M : NewtonMotion n m x v t0 t1) (p N : Nat) (hp : 1 ≤ p) (c : ℝ) :
    ∃ K ρ : ℝ, 0 ≤ K ∧ 0 < ρ ∧ ∀ stages : List Stage, stages.length ≤ N → (∀ s ∈ stages, |((coef s : ℚ) : ℝ)| ≤ c) →
      ∀ P, InState n m x v t0 P → ∀ hm δ, 0 ≤ hm → hm ≤ ρ → 0 ≤ δ → δ ≤ ρ →
      (∀ w : List Bool, 1 ≤ w.length → w.length ≤ p → |(deviation stages w : ℝ)| * hm ^ (w.length - 1) ≤ δ) →
      ∀ hs : List ℝ, (∀ h ∈ hs, 0 ≤ h ∧ h ≤ hm) → t0 + hs.sum ≤ t1 →
      ∃ s, steps (simpleStep gravity) (hs.map fun h => stages.map (Stage.op h)) (Simple.init t0 P) = .ok s ∧
        s.time = t0 + sumDrift stages * hs.sum ∧ WithinOf n m x v (t0 + hs.sum) (K * (hm ^ p + δ)) s.P := by
  obtain ⟨r, A, L, V, Q, H, hQ, hx⟩ := motion_tube M
  have mem : ∀ t ∈ Set.Icc 0 (t1 - t0), t0 + t ∈ Set.Icc t0 t1 := fun t ht => ⟨by linarith [ht.1], by linarith [ht.2]⟩
  have hfree : ∀ t ∈ Set.Icc 0 (t1 - t0), conf n (x (t0 + t)) ∈ free n := by
    intro t ht i j hij h
    exact M.apart _ (mem t ht) i j i.2 j.2 (fun e => hij (Fin.ext e)) (congrArg ve h)
  obtain ⟨K, ρ, hK, hρ, _, key⟩ := order_global ((free_open n).preimage continuous_fst) (plain_smooth n m) (plain_straight n m)
    (T := t1 - t0) (by linarith) (y := fun t => (conf n (x (t0 + t)), conf n (v (t0 + t)))) (fun t ht => by
      have := (H.dq t ht).prodMk (H.dv t ht)
      refine this.congr_deriv ?_
      simp [plainF]) hfree p N hp c one_pos
  refine ⟨2 * ((t1 - t0) * K), ρ, mul_nonneg (by norm_num) (mul_nonneg (by linarith) hK), hρ, fun stages hN hco P S hm δ hm0 hmρ hδ0 hδρ hdev hs hhs hsum => ?_⟩
  obtain ⟨s, e, a1, a2, a3⟩ := steps_link (m := m) stages hs (Simple.init t0 P) S.num S.mass
  have g := (((key stages hN hco hm δ hm0 hmρ hδ0 hδρ hdev).2 hs hhs (by linarith))).1
  refine ⟨s, e, ?_, ?_⟩
  · rw [steps_time stages hs _ _ e, driftSum_eq]
    rfl
  · rw [mul_assoc]
    refine within_of a1 a2 ?_
    have e0 : (conf n (Simple.init t0 P).P.pos, conf n (Simple.init t0 P).P.vel) = (conf n (x (t0 + 0)), conf n (v (t0 + 0))) := by
      rw [add_zero]; exact start_conf S
    rw [a3, e0, ← plain_step]
    refine g.trans ?_
    rw [mul_assoc]
    exact mul_le_mul_of_nonneg_right (by linarith) (by positivity)

/-- The integrators and the order for which their coefficients are those of the true motion. -/
def nominal : List (List Stage × Nat) :=
  [(symplectic2nd, 2), (leapFrogKDK, 2), (symplectic4th, 4), (symplectic6th, 6), (symplectic8th, 8), (symplectic10th, 4)]

/-- **C93, order conditions** of the six integrators (for `Symplectic10th` only up to the order 4, see C54): up to `1e-12`, the leap-frogs exactly, the
fourth-order integrator exactly for the words of one and two letters. -/
theorem C93_conditions :
    (∀ q ∈ nominal, q.1.length ≤ 63 ∧ (∀ s ∈ q.1, |((coef s : ℚ) : ℝ)| ≤ 3) ∧ ∀ w : List Bool, w.length ≤ q.2 → |deviation q.1 w| ≤ 1e-12) ∧
    (∀ stages ∈ [symplectic2nd, leapFrogKDK, symplectic4th], ∀ w : List Bool, w.length ≤ 2 → deviation stages w = 0) ∧
    ∀ w : List Bool, w.length ≤ 4 → |deviation symplectic4th w| ≤ 1e-14 := by
  have two : ∀ stages ∈ [symplectic2nd, leapFrogKDK, symplectic4th], ∀ w : List Bool, w.length ≤ 2 → deviation stages w = 0 := by
    intro stages hst w hw
    have hst' : stages = symplectic2nd ∨ stages = leapFrogKDK ∨ stages = symplectic4th := by simpa using hst
    rcases w with _ | ⟨X, _ | ⟨Y, _ | ⟨Z, w⟩⟩⟩
    · rw [deviation, wordCoef_nil]; simp
    · rcases hst' with rfl | rfl | rfl <;> cases X <;> decide +kernel
    · rcases hst' with rfl | rfl | rfl <;> cases X <;> cases Y <;> decide +kernel
    · simp only [List.length_cons] at hw; omega
  refine ⟨fun q hq => ?_, two, fun w hw => (checkOrder_spec (by norm_num) (by norm_num) order_4th hw).trans (by norm_num)⟩
  have small : ∀ s : List Stage, s ∈ [symplectic2nd, leapFrogKDK, symplectic4th, symplectic6th, symplectic8th, symplectic10th] →
      s.length ≤ 63 ∧ ∀ u ∈ s, |((coef u : ℚ) : ℝ)| ≤ 3 := fun s hs => ⟨(C92_coefficients s hs).1, (C92_coefficients s hs).2.1⟩
  simp only [nominal, List.mem_cons, List.not_mem_nil, or_false] at hq
  rcases hq with rfl | rfl | rfl | rfl | rfl | rfl
  · refine ⟨(small symplectic2nd (by simp)).1, (small symplectic2nd (by simp)).2, fun w hw => ?_⟩
    rw [two symplectic2nd (by simp) w hw]; norm_num
  · refine ⟨(small leapFrogKDK (by simp)).1, (small leapFrogKDK (by simp)).2, fun w hw => ?_⟩
    rw [two leapFrogKDK (by simp) w hw]; norm_num
  · exact ⟨(small symplectic4th (by simp)).1, (small symplectic4th (by simp)).2, fun w hw =>
      (checkOrder_spec (by norm_num) (by norm_num) order_4th hw).trans (by norm_num)⟩
  · exact ⟨(small symplectic6th (by simp)).1, (small symplectic6th (by simp)).2, fun w hw =>
      (checkOrder_spec (by norm_num) (by norm_num) order_6th hw).trans (by norm_num)⟩
  · exact ⟨(small symplectic8th (by simp)).1, (small symplectic8th (by simp)).2, fun w hw =>
      (checkOrder_spec (by norm_num) (by norm_num) order_8th hw).trans (by norm_num)⟩
  · exact ⟨(small symplectic10th (by simp)).1, (small symplectic10th (by simp)).2, fun w hw =>
      (checkOrder_spec (by norm_num) (by norm_num) order_10th hw).trans (by norm_num)⟩

theorem wordCoef_drift (l : List Stage) : wordCoef l [true] = sumDrift l := by
  induction l with
  | nil => simp [wordCoef, sumDrift]
  | cons s l ih =>
    cases s <;> simp [wordCoef, sumDrift, sum_range_succ, letter, coef, ih, wordCoef_nil, add_comm]

/-- **C93, all orders up to 8 at once.** One constant for all integrators with up to 63 stages and coefficients up to 3 whose order conditions are met up to
`ε`; by `C93_conditions` these are the six of the library with `ε = 1e-12` and the orders in `nominal`. -/
theorem C93_uniform {n : Nat} {m : Nat → ℝ} {x v : ℝ → Nat → V3 ℝ} {t0 t1 : ℝ} (ht : t0 ≤ t1) (M : NewtonMotion n m x v t0 t1) :
    ∃ K ρ : ℝ, 0 < ρ ∧ ∀ ε, 0 ≤ ε → ε ≤ ρ → ∀ q : List Stage × Nat, 1 ≤ q.2 → q.2 ≤ 8 → q.1.length ≤ 63 → (∀ s ∈ q.1, |((coef s : ℚ) : ℝ)| ≤ 3) →
      (∀ w : List Bool, w.length ≤ q.2 → |(deviation q.1 w : ℝ)| ≤ ε) → ∀ P, InState n m x v t0 P → ∀ hm, 0 ≤ hm → hm ≤ ρ →
      ∀ hs : List ℝ, (∀ h ∈ hs, 0 ≤ h ∧ h ≤ hm) → t0 + hs.sum ≤ t1 →
      ∃ s, steps (simpleStep gravity) (hs.map fun h => q.1.map (Stage.op h)) (Simple.init t0 P) = .ok s ∧
        |s.time - (t0 + hs.sum)| ≤ ε * hs.sum ∧ WithinOf n m x v (t0 + hs.sum) (K * (hm ^ q.2 + ε)) s.P := by
  choose K ρ hK hρ H using fun p : Nat => C93_order ht M (p + 1) 63 (by omega) 3
  have hne : (range 8).Nonempty := ⟨0, by simp⟩
  refine ⟨∑ k ∈ range 8, K k, min ((range 8).inf' hne ρ) 1, lt_min ((lt_inf'_iff hne).2 fun k _ => hρ k) one_pos,
    fun ε hε hερ q hq1 hq8 c1 c2 c3 P S hm hm0 hmρ hs hhs hsum => ?_⟩
  have hm1 : hm ≤ 1 := hmρ.trans (min_le_right _ _)
  obtain ⟨k, hk⟩ : ∃ k, q.2 = k + 1 := ⟨q.2 - 1, by omega⟩
  have hmem : k ∈ range 8 := by rw [mem_range]; omega
  have hk1 : K k ≤ ∑ k ∈ range 8, K k := single_le_sum (fun i _ => hK i) hmem
  have hk2 : min ((range 8).inf' hne ρ) 1 ≤ ρ k := (min_le_left _ _).trans (inf'_le _ hmem)
  obtain ⟨s, e, a, W⟩ := H k q.1 c1 c2 P S hm ε hm0 (hmρ.trans hk2) hε (hερ.trans hk2) (fun w hw hw' => by
    have h3 : hm ^ (w.length - 1) ≤ 1 := pow_le_one₀ hm0 hm1
    calc |(deviation q.1 w : ℝ)| * hm ^ (w.length - 1) ≤ ε * 1 := mul_le_mul (c3 w (by omega)) h3 (by positivity) hε
      _ = ε := mul_one _) hs hhs hsum
  refine ⟨s, e, ?_, ?_⟩
  · have hd := c3 [true] (by simpa using hq1)
    rw [deviation, wordCoef_drift] at hd
    simp only [List.length_singleton, Nat.factorial_one, Nat.cast_one, div_one, Rat.cast_sub, Rat.cast_one] at hd
    have h0 : 0 ≤ hs.sum := List.sum_nonneg fun h hh => (hhs h hh).1
    rw [a, show t0 + (sumDrift q.1 : ℝ) * hs.sum - (t0 + hs.sum) = ((sumDrift q.1 : ℝ) - 1) * hs.sum by ring, abs_mul, abs_of_nonneg h0]
    exact mul_le_mul_of_nonneg_right hd h0
  · rw [hk]
    have : K k * (hm ^ (k + 1) + ε) ≤ (∑ k ∈ range 8, K k) * (hm ^ (k + 1) + ε) := mul_le_mul_of_nonneg_right hk1 (by positivity)
    exact ⟨W.num, W.mass, fun i hi => (W.pos i hi).trans this, fun i hi => (W.vel i hi).trans this⟩

theorem fourth_dev {hm : ℝ} (hm0 : 0 ≤ hm) (hm1 : hm ≤ 1) (w : List Bool) (_hw : 1 ≤ w.length) (hw' : w.length ≤ 4) :
    |(deviation symplectic4th w : ℝ)| * hm ^ (w.length - 1) ≤ 1e-14 * hm ^ 2 := by
  by_cases h2 : w.length ≤ 2
  · rw [C93_conditions.2.1 symplectic4th (by simp) w h2]
    simp only [Rat.cast_zero, abs_zero, zero_mul]
    positivity
  · have h1 := C93_conditions.2.2 w hw'
    have h2' : |(deviation symplectic4th w : ℝ)| ≤ 1e-14 := by
      have : ((|deviation symplectic4th w| : ℚ) : ℝ) ≤ ((1e-14 : ℚ) : ℝ) := by exact_mod_cast h1
      rw [Rat.cast_abs] at this
      refine this.trans (by norm_num)
    have h3 : hm ^ (w.length - 1) ≤ hm ^ 2 := pow_le_pow_of_le_one hm0 hm1 (by omega)
    exact mul_le_mul h2' h3 (by positivity) (by norm_num)

/-- **C93, the fourth-order integrator** without a residual error: the deviation of its coefficients adds to the error at most `1e-14` times the square of
the step. -/
theorem C93_fourth {n : Nat} {m : Nat → ℝ} {x v : ℝ → Nat → V3 ℝ} {t0 t1 : ℝ} (ht : t0 ≤ t1) (M : NewtonMotion n m x v t0 t1) :
    ∃ K h0 : ℝ, 0 < h0 ∧ ∀ P, InState n m x v t0 P → ∀ hm, 0 ≤ hm → hm ≤ h0 →
      ∀ hs : List ℝ, (∀ h ∈ hs, 0 ≤ h ∧ h ≤ hm) → t0 + hs.sum ≤ t1 →
      ∃ s, steps (simpleStep gravity) (hs.map fun h => symplectic4th.map (Stage.op h)) (Simple.init t0 P) = .ok s ∧
        s.time = t0 + hs.sum ∧ WithinOf n m x v (t0 + hs.sum) (K * (hm ^ 4 + 1e-14 * hm ^ 2)) s.P := by
  obtain ⟨K, ρ, hK, hρ, H⟩ := C93_order ht M 4 63 (by norm_num) 3
  refine ⟨K, min ρ 1, lt_min hρ one_pos, fun P S hm hm0 hmρ hs hhs hsum => ?_⟩
  have hm1 : hm ≤ 1 := hmρ.trans (min_le_right _ _)
  have hmr : hm ≤ ρ := hmρ.trans (min_le_left _ _)
  obtain ⟨c1, c2, _⟩ := C93_conditions.1 (symplectic4th, 4) (by simp [nominal])
  have hsq : hm ^ 2 ≤ hm := pow_le_of_le_one hm0 hm1 (by norm_num)
  obtain ⟨s, e, a, W⟩ := H symplectic4th c1 c2 P S hm (1e-14 * hm ^ 2) hm0 hmr (by positivity) (by linarith [sq_nonneg hm]) (fourth_dev hm0 hm1) hs hhs hsum
  refine ⟨s, e, ?_, W⟩
  rw [a, show sumDrift symplectic4th = 1 by decide +kernel]
  simp

/-- **C93, runs of the simulator** of a plain system with the fourth-order integrator and a fixed step. -/
theorem C93_run {n : Nat} {m : Nat → ℝ} {x v : ℝ → Nat → V3 ℝ} {t0 t1 : ℝ} (ht : t0 ≤ t1) (M : NewtonMotion n m x v t0 t1) :
    ∃ K h0 : ℝ, 0 < h0 ∧ ∀ P, InState n m x v t0 P → ∀ (big G tHubble h T rtol : ℝ) (a b c : Nat), 0 < h → h ≤ h0 → t0 ≤ T → T ≤ t1 → 0 ≤ rtol →
      ∃ s : Simple, Simu.Spec.AtEnd s.time T rtol ∧ t0 ≤ s.time ∧ s.time ≤ T ∧ WithinOf n m x v s.time (K * (h ^ 4 + 1e-14 * h ^ 2)) s.P ∧
        ∀ fuel, ⌈(T - t0) / h⌉₊ < fuel →
          ∃ w, Simu.run tHubble (Simu.constSimple big G gravity symplectic4th) (Simu.Spec.recording h (some T) rtol a b c []) fuel ([], Simple.init t0 P) =
            .ok (w, s) := by
  obtain ⟨K, h0, h0p, H⟩ := C93_fourth ht M
  refine ⟨K, h0, h0p, fun P S big G tHubble h T rtol a b c hp hle hT hT1 hr => ?_⟩
  have hst : symplectic4th ∈ [symplectic2nd, leapFrogKDK, symplectic4th] := by simp
  obtain ⟨s', b1, b2, b3, b4⟩ := Simu.C21_simple big G gravity symplectic4th hst tHubble h T rtol a b c (Simple.init t0 P) hr hp hT
  refine ⟨s', b3, b1, b2, ?_, b4⟩
  obtain ⟨w, hw⟩ := b4 _ (Nat.lt_succ_self _)
  obtain ⟨k, _, s, p, e0, ep, hS, _, _, es, _⟩ := (Simu.run_iff tHubble (Simu.constSimple big G gravity symplectic4th) h (some T) rtol a b c [] _ _ _ w
    (.inr (by simp)) (by exact one_ne_zero)).1 hw
  have ep' : p 0 = h := by rw [ep]; unfold Simu.firstStep; rw [if_neg hp.ne']
  obtain ⟨_, c1, hs, c2, c3, c4⟩ := run_steps big G hst hp.le (s0 := Simple.init t0 P) hT k s p e0 ep' hS k le_rfl
  rw [← es] at c1 c3 c4
  change s'.time = t0 + hs.sum at c3
  obtain ⟨s2, f1, f2, f3⟩ := H P S h hp.le hle hs c2 (by linarith)
  rw [f1] at c4; cases c4
  rw [← c3] at f3
  exact f3

/-- **C93, chain system.** -/
theorem C93_chain {n : Nat} {m : Nat → ℝ} {x v : ℝ → Nat → V3 ℝ} {t0 t1 : ℝ} (ht : t0 ≤ t1) (M : NewtonMotion n m x v t0 t1) (p N : Nat) (hp : 1 ≤ p) (c : ℝ) :
    ∃ K ρ : ℝ, 0 ≤ K ∧ 0 < ρ ∧ ∀ stages : List Stage, stages.length ≤ N → (∀ s ∈ stages, |((coef s : ℚ) : ℝ)| ≤ c) →
      ∀ P, InState n m x v t0 P → ∀ idx, IndexOf P idx → ∀ hm δ, 0 ≤ hm → hm ≤ ρ → 0 ≤ δ → δ ≤ ρ →
      (∀ w : List Bool, 1 ≤ w.length → w.length ≤ p → |(deviation stages w : ℝ)| * hm ^ (w.length - 1) ≤ δ) →
      ∀ hs : List ℝ, (∀ h ∈ hs, 0 ≤ h ∧ h ≤ hm) → t0 + hs.sum ≤ t1 →
      ∃ s0, ChainSys.init t0 P idx = .ok s0 ∧
        (∃ r, Steps (ChainStep ⟨Lib.newtonC, []⟩) (hs.map fun h => stages.map (Stage.op h)) s0 r) ∧
        ∀ r, Steps (ChainStep ⟨Lib.newtonC, []⟩) (hs.map fun h => stages.map (Stage.op h)) s0 r →
          ∃ s, r = .ok s ∧ s.time = t0 + sumDrift stages * hs.sum ∧ WithinOf n m x v (t0 + hs.sum) (K * (hm ^ p + δ)) s.P := by
  obtain ⟨K, ρ, hK, hρ, H⟩ := C93_order ht M p N hp c
  refine ⟨K, ρ, hK, hρ, fun stages hN hco P S idx hi hm δ hm0 hle hδ0 hδ hdev hs hhs hsum => ?_⟩
  have A : AgreesI ⟨Lib.newtonC, []⟩ gravity := ⟨agrees_newton, .nil⟩
  obtain ⟨t, e1, e2, e3⟩ := H stages hN hco P S hm δ hm0 hle hδ0 hδ hdev hs hhs hsum
  obtain ⟨s0, t', f1, f2, f3, f4⟩ := C53_chain_evolves_like_plain A t0 P idx hi (hs.map fun h => stages.map (Stage.op h))
  rw [e1] at f2; cases f2
  refine ⟨s0, f1, f3, fun r hr => ?_⟩
  obtain ⟨s, g1, g2, g3, _⟩ := f4 r hr
  exact ⟨s, g1, g3.trans e2, g2 ▸ e3⟩

/-- Non-vacuity: the hypotheses hold of a circular motion and of the fourth-order integrator with the order 4. -/
example (t0 t1 : ℝ) : NewtonMotion 2 (fun _ => 1 / 2) circlePos circleVel t0 t1 ∧
    InState 2 (fun _ => 1 / 2) circlePos circleVel t0 ⟨2, circlePos t0, circleVel t0, fun _ => 1 / 2⟩ ∧
    ∀ w : List Bool, w.length ≤ 4 → |deviation symplectic4th w| ≤ 1e-14 :=
  ⟨circle_motion t0 t1, ⟨rfl, fun _ _ => rfl, fun _ _ => rfl, fun _ _ => rfl⟩, C93_conditions.2.2⟩

end SpaceHub.Sys
