import Verif.Proof.Forced
import Verif.Proof.ForcedFields
import Verif.Proof.MoveTable
import Verif.Proof.LetterExtrap
import Verif.Props.ConvergeOrder

/-
C100: the integrators have their order also with additional forces.
-/

set_option autoImplicit false

namespace SpaceHub.Sys
open SpaceHub V3 Force Core Integrator Spec Props Finset Converge
open scoped ContDiff

/-- the motion as a curve -/
theorem forced_curve {n : Nat} {a : Field n} {x v : ℝ → Nat → V3 ℝ} {t0 t1 : ℝ} (M : ForcedMotion n a x v t0 t1) {t : ℝ} (ht : t ∈ Set.Icc 0 (t1 - t0)) :
    HasDerivWithinAt (fun e => conf n (x (t0 + e))) (conf n (v (t0 + t))) (Set.Icc 0 (t1 - t0)) t ∧
    HasDerivWithinAt (fun e => conf n (v (t0 + e))) (fieldOf a (conf n (x (t0 + t))) (conf n (v (t0 + t)))) (Set.Icc 0 (t1 - t0)) t := by
  have mem : t0 + t ∈ Set.Icc t0 t1 := ⟨by linarith [ht.1], by linarith [ht.2]⟩
  refine ⟨(curve t0 fun k hk => M.pos _ mem k hk).hasDerivWithinAt, ?_⟩
  have h2 : HasDerivAt (fun e => conf n (v (t0 + e))) (fieldOf a (conf n (x (t0 + t))) (conf n (v (t0 + t)))) t := by
    rw [hasDerivAt_pi]
    intro k
    exact (rate_co (M.vel _ mem k)).comp_const_add t0 t
  exact h2.hasDerivWithinAt

/-! ### the property -/

/-- **C100.** `n` particles of masses `m` move from `t0` to `t1` with the accelerations that the forces `I` give them, gravity and any additional forces,
dependent on the velocities or not; the accelerations are smooth along the motion.  For every order `p` and every bound on the number and the size of the
coefficients of an integrator: if its coefficients for all words of at most `p` moves are those of the true motion (up to a deviation that contributes at
most `δ`), then for small enough steps, constant or not, every position and velocity is at every time up to `t1` off by at most `K (hm ^ p + δ)`. -/
theorem C100_order {I : Interactions} {n : Nat} {m : Nat → ℝ} {a : Field n} (A : Acts I n m a) {x v : ℝ → Nat → V3 ℝ} {t0 t1 : ℝ} (ht : t0 ≤ t1)
    (M : ForcedMotion n a x v t0 t1) (hS : SmoothAlong a x v t0 t1) (p N : Nat) (hp : 1 ≤ p) (c : ℝ) :
    ∃ K ρ : ℝ, 0 ≤ K ∧ 0 < ρ ∧ ∀ stages : List Stage, stages.length ≤ N → (∀ s ∈ stages, |((coef s : ℚ) : ℝ)| ≤ c) →
      ∀ P, InState n m x v t0 P → ∀ hm δ, 0 ≤ hm → hm ≤ ρ → 0 ≤ δ → δ ≤ ρ →
      (∀ w : List Move, 1 ≤ w.length → w.length ≤ p → |(Letters.deviation (stages.flatMap split) w : ℝ)| * hm ^ (w.length - 1) ≤ δ) →
      ∀ hs : List ℝ, (∀ h ∈ hs, 0 ≤ h ∧ h ≤ hm) → t0 + hs.sum ≤ t1 →
      ∃ s, steps (simpleStep I) (hs.map fun h => stages.map (Stage.op h)) (Simple.init t0 P) = .ok s ∧
        s.time = t0 + sumDrift stages * hs.sum ∧ WithinOf n m x v (t0 + hs.sum) (K * (hm ^ p + δ)) s.P := by
  obtain ⟨U, hU, hsm, hin⟩ := hS
  have mem : ∀ t ∈ Set.Icc 0 (t1 - t0), t0 + t ∈ Set.Icc t0 t1 := fun t ht => ⟨by linarith [ht.1], by linarith [ht.2]⟩
  cases hd : I.velDep with
  | true =>
    have cx : Continuous (fun z : Ext n => (z.1, z.2.1)) := by fun_prop
    have cw : Continuous (fun z : Ext n => (z.1, z.2.2)) := by fun_prop
    obtain ⟨K, ρ, hK, hρ, _, key⟩ := Letters.order_global (f := moveF a) (U := (fun z : Ext n => (z.1, z.2.1)) ⁻¹' U ∩ (fun z : Ext n => (z.1, z.2.2)) ⁻¹' U)
      ((hU.preimage cx).inter (hU.preimage cw)) (by
        intro X
        cases X with
        | drift => exact (contDiff_snd.fst.prodMk contDiff_const).contDiffOn
        | real =>
          refine contDiffOn_const.prodMk (ContDiffOn.prodMk ?_ contDiffOn_const)
          exact hsm.comp (f := fun z : Ext n => (z.1, z.2.2)) (contDiff_fst.prodMk contDiff_snd.snd).contDiffOn fun z hz => hz.2
        | pseudo =>
          refine contDiffOn_const.prodMk (ContDiffOn.prodMk contDiffOn_const ?_)
          exact hsm.comp (f := fun z : Ext n => (z.1, z.2.1)) (contDiff_fst.prodMk contDiff_snd.fst).contDiffOn fun z hz => hz.1)
      (move_straight a) (T := t1 - t0) (by linarith) (y := fun t => (conf n (x (t0 + t)), conf n (v (t0 + t)), conf n (v (t0 + t))))
      (fun t ht => by
        obtain ⟨d1, d2⟩ := forced_curve M ht
        refine (d1.prodMk (d2.prodMk d2)).congr_deriv ?_
        rw [show (univ : Finset Move) = {.drift, .real, .pseudo} from rfl, sum_insert (by decide), sum_insert (by decide), sum_singleton]
        simp [moveF]) (fun t ht => ⟨hin _ (mem t ht), hin _ (mem t ht)⟩) p (3 * N) hp c equalize_norm (fun t _ => rfl) one_pos
    refine ⟨2 * ((t1 - t0) * K), ρ, mul_nonneg (by norm_num) (mul_nonneg (by linarith) hK), hρ, fun stages hN hco P S hm δ hm0 hmρ hδ0 hδρ hdev hs hhs hsum => ?_⟩
    obtain ⟨s, e, a1, a2, a3⟩ := steps_link3 A hd stages hs (Simple.init t0 P) S.num S.mass
    have g := ((key _ ((Letters.split_length stages).trans (by omega)) (Letters.split_coef hco) hm δ hm0 hmρ hδ0 hδρ hdev).2 hs hhs (by linarith)).1
    refine ⟨s, e, ?_, ?_⟩
    · rw [steps_timeI I stages hs _ _ e, driftSum_eq]
      rfl
    · rw [mul_assoc]
      refine within_of a1 a2 ?_
      have e0 : extOf n (Simple.init t0 P) = (conf n (x (t0 + 0)), conf n (v (t0 + 0)), conf n (v (t0 + 0))) := by
        rw [add_zero]
        have := Prod.ext_iff.1 (start_conf S)
        exact Prod.ext this.1 (Prod.ext this.2 this.2)
      rw [← e0, ← a3] at g
      have g' : ‖extOf n s - (conf n (x (t0 + hs.sum)), conf n (v (t0 + hs.sum)), conf n (v (t0 + hs.sum)))‖ ≤ (t1 - t0) * K * (hm ^ p + δ) := by
        refine g.trans ?_
        rw [mul_assoc]
        exact mul_le_mul_of_nonneg_right (by linarith) (by positivity)
      have g1 : ‖conf n s.P.pos - conf n (x (t0 + hs.sum))‖ ≤ (t1 - t0) * K * (hm ^ p + δ) :=
        (norm_fst_le (extOf n s - (conf n (x (t0 + hs.sum)), conf n (v (t0 + hs.sum)), conf n (v (t0 + hs.sum))))).trans g'
      have g2 : ‖conf n s.P.vel - conf n (v (t0 + hs.sum))‖ ≤ (t1 - t0) * K * (hm ^ p + δ) :=
        ((norm_fst_le _).trans (norm_snd_le (extOf n s - (conf n (x (t0 + hs.sum)), conf n (v (t0 + hs.sum)), conf n (v (t0 + hs.sum)))))).trans g'
      exact norm_prod_le_iff.2 ⟨g1, g2⟩
  | false =>
    obtain ⟨K, ρ, hK, hρ, _, key⟩ := order_global (f := restF a) hU (by
        intro X
        cases X
        · exact contDiffOn_const.prodMk hsm
        · exact (contDiff_snd.prodMk contDiff_const).contDiffOn)
      (rest_straight A hd) (T := t1 - t0) (by linarith) (y := fun t => (conf n (x (t0 + t)), conf n (v (t0 + t))))
      (fun t ht => by
        obtain ⟨d1, d2⟩ := forced_curve M ht
        refine (d1.prodMk d2).congr_deriv ?_
        simp [restF]) (fun t ht => hin _ (mem t ht)) p N hp c one_pos
    refine ⟨2 * ((t1 - t0) * K), ρ, mul_nonneg (by norm_num) (mul_nonneg (by linarith) hK), hρ, fun stages hN hco P S hm δ hm0 hmρ hδ0 hδρ hdev hs hhs hsum => ?_⟩
    obtain ⟨s, e, a1, a2, a3⟩ := steps_link2 A hd stages hs (Simple.init t0 P) S.num S.mass
    have g := ((key stages hN hco hm δ hm0 hmρ hδ0 hδρ (fun w h1 h2 => by
      rw [Letters.split_deviation]
      simpa using hdev (w.map Letters.moveOf) (by simpa using h1) (by simpa using h2))).2 hs hhs (by linarith)).1
    refine ⟨s, e, ?_, ?_⟩
    · rw [steps_timeI I stages hs _ _ e, driftSum_eq]
      rfl
    · rw [mul_assoc]
      refine within_of a1 a2 ?_
      have e0 : (conf n (Simple.init t0 P).P.pos, conf n (Simple.init t0 P).P.vel) = (conf n (x (t0 + 0)), conf n (v (t0 + 0))) := by
        rw [add_zero]; exact start_conf S
      rw [a3, e0]
      refine g.trans ?_
      rw [mul_assoc]
      exact mul_le_mul_of_nonneg_right (by linarith) (by positivity)

/-- **C100, order conditions** of the six integrators for the three moves: the orders of C93 remain. -/
theorem C100_conditions :
    (∀ q ∈ nominal, ∀ w : List Move, w.length ≤ q.2 → |Letters.deviation (q.1.flatMap split) w| ≤ 1e-12) ∧
    (∀ stages ∈ [symplectic2nd, leapFrogKDK, symplectic4th], ∀ w : List Move, w.length ≤ 2 → Letters.deviation (stages.flatMap split) w = 0) ∧
    ∀ w : List Move, w.length ≤ 4 → |Letters.deviation (symplectic4th.flatMap split) w| ≤ 1e-14 := by
  have two : ∀ stages ∈ [symplectic2nd, leapFrogKDK, symplectic4th], ∀ w : List Move, w.length ≤ 2 → Letters.deviation (stages.flatMap split) w = 0 := by
    intro stages hst w hw
    have hst' : stages = symplectic2nd ∨ stages = leapFrogKDK ∨ stages = symplectic4th := by simpa using hst
    rcases w with _ | ⟨X, _ | ⟨Y, _ | ⟨Z, w⟩⟩⟩
    · rw [Letters.deviation, Letters.wordCoef_nil]; simp
    · rcases hst' with rfl | rfl | rfl <;> cases X <;> decide +kernel
    · rcases hst' with rfl | rfl | rfl <;> cases X <;> cases Y <;> decide +kernel
    · simp only [List.length_cons] at hw; omega
  refine ⟨fun q hq w hw => ?_, two, fun w hw => (Letters.check_all (by norm_num) (by norm_num) Letters.moves_4th hw).trans (by norm_num)⟩
  simp only [nominal, List.mem_cons, List.not_mem_nil, or_false] at hq
  rcases hq with rfl | rfl | rfl | rfl | rfl | rfl
  · rw [two symplectic2nd (by simp) w hw]; norm_num
  · rw [two leapFrogKDK (by simp) w hw]; norm_num
  · exact (Letters.check_all (by norm_num) (by norm_num) Letters.moves_4th hw).trans (by norm_num)
  · exact (Letters.check_all (by norm_num) (by norm_num) Letters.moves_6th hw).trans (by norm_num)
  · exact (Letters.moves_8th hw).trans (by norm_num)
  · exact (Letters.check_all (by norm_num) (by norm_num) Letters.moves_10th hw).trans (by norm_num)

/-- **C100, all orders up to 8 at once.** One constant for all integrators with up to 63 stages and coefficients up to 3 whose order conditions are met up to
`ε`; by `C93_conditions` and `C100_conditions` these are the six of the library with `ε = 1e-12` and the orders in `nominal`. -/
theorem C100_uniform {I : Interactions} {n : Nat} {m : Nat → ℝ} {a : Field n} (A : Acts I n m a) {x v : ℝ → Nat → V3 ℝ} {t0 t1 : ℝ} (ht : t0 ≤ t1)
    (M : ForcedMotion n a x v t0 t1) (hS : SmoothAlong a x v t0 t1) :
    ∃ K ρ : ℝ, 0 < ρ ∧ ∀ ε, 0 ≤ ε → ε ≤ ρ → ∀ q : List Stage × Nat, 1 ≤ q.2 → q.2 ≤ 8 → q.1.length ≤ 63 → (∀ s ∈ q.1, |((coef s : ℚ) : ℝ)| ≤ 3) →
      (∀ w : List Move, w.length ≤ q.2 → |(Letters.deviation (q.1.flatMap split) w : ℝ)| ≤ ε) → ∀ P, InState n m x v t0 P → ∀ hm, 0 ≤ hm → hm ≤ ρ →
      ∀ hs : List ℝ, (∀ h ∈ hs, 0 ≤ h ∧ h ≤ hm) → t0 + hs.sum ≤ t1 →
      ∃ s, steps (simpleStep I) (hs.map fun h => q.1.map (Stage.op h)) (Simple.init t0 P) = .ok s ∧
        |s.time - (t0 + hs.sum)| ≤ ε * hs.sum ∧ WithinOf n m x v (t0 + hs.sum) (K * (hm ^ q.2 + ε)) s.P := by
  choose K ρ hK hρ H using fun p : Nat => C100_order A ht M hS (p + 1) 63 (by omega) 3
  have hne : (range 8).Nonempty := ⟨0, by simp⟩
  refine ⟨∑ k ∈ range 8, K k, min ((range 8).inf' hne ρ) 1, lt_min ((lt_inf'_iff hne).2 fun k _ => hρ k) one_pos,
    fun ε hε hερ q hq1 hq8 c1 c2 c3 P S hm hm0 hmρ hs hhs hsum => ?_⟩
  have hm1 : hm ≤ 1 := hmρ.trans (min_le_right _ _)
  obtain ⟨k, hk⟩ : ∃ k, q.2 = k + 1 := ⟨q.2 - 1, by omega⟩
  have hmem : k ∈ range 8 := by rw [mem_range]; omega
  have hk1 : K k ≤ ∑ k ∈ range 8, K k := single_le_sum (fun i _ => hK i) hmem
  have hk2 : min ((range 8).inf' hne ρ) 1 ≤ ρ k := (min_le_left _ _).trans (inf'_le _ hmem)
  obtain ⟨s, e, a, W⟩ := H k q.1 c1 c2 P S hm ε hm0 (hmρ.trans hk2) hε (hερ.trans hk2) (fun w hw hw' => by
    have h3 : hm ^ (w.length - 1) ≤ 1 := pow_le_one₀ hm0 hm1
    calc |(Letters.deviation (q.1.flatMap split) w : ℝ)| * hm ^ (w.length - 1) ≤ ε * 1 := mul_le_mul (c3 w (by omega)) h3 (by positivity) hε
      _ = ε := mul_one _) hs hhs hsum
  refine ⟨s, e, ?_, ?_⟩
  · have hd := c3 [.drift] (by simpa using hq1)
    rw [show [Move.drift] = [true].map Letters.moveOf from rfl, ← Letters.split_deviation, deviation, wordCoef_drift] at hd
    simp only [List.length_singleton, Nat.factorial_one, Nat.cast_one, div_one, Rat.cast_sub, Rat.cast_one] at hd
    have h0 : 0 ≤ hs.sum := List.sum_nonneg fun h hh => (hhs h hh).1
    rw [a, show t0 + (sumDrift q.1 : ℝ) * hs.sum - (t0 + hs.sum) = ((sumDrift q.1 : ℝ) - 1) * hs.sum by ring, abs_mul, abs_of_nonneg h0]
    exact mul_le_mul_of_nonneg_right hd h0
  · rw [hk]
    have : K k * (hm ^ (k + 1) + ε) ≤ (∑ k ∈ range 8, K k) * (hm ^ (k + 1) + ε) := mul_le_mul_of_nonneg_right hk1 (by positivity)
    exact ⟨W.num, W.mass, fun i hi => (W.pos i hi).trans this, fun i hi => (W.vel i hi).trans this⟩

/-- the deviations of the fourth-order integrator and of the leap-frogs, times the power of the step -/
theorem exact_dev {hm : ℝ} (hm0 : 0 ≤ hm) (hm1 : hm ≤ 1) (w : List Move) (_hw : 1 ≤ w.length) (hw' : w.length ≤ 4) :
    |(Letters.deviation (symplectic4th.flatMap split) w : ℝ)| * hm ^ (w.length - 1) ≤ 1e-14 * hm ^ 2 := by
  by_cases h2 : w.length ≤ 2
  · rw [C100_conditions.2.1 symplectic4th (by simp) w h2]
    simp only [Rat.cast_zero, abs_zero, zero_mul]
    positivity
  · have h1 := C100_conditions.2.2 w hw'
    have h2' : |(Letters.deviation (symplectic4th.flatMap split) w : ℝ)| ≤ 1e-14 := by
      have : ((|Letters.deviation (symplectic4th.flatMap split) w| : ℚ) : ℝ) ≤ ((1e-14 : ℚ) : ℝ) := by exact_mod_cast h1
      rw [Rat.cast_abs] at this
      refine this.trans (by norm_num)
    have h3 : hm ^ (w.length - 1) ≤ hm ^ 2 := pow_le_pow_of_le_one hm0 hm1 (by omega)
    exact mul_le_mul h2' h3 (by positivity) (by norm_num)

/-- what the integrators with an exact clock are off by -/
noncomputable def errorOf (stages : List Stage) (h : ℝ) : ℝ := if stages = symplectic4th then h ^ 4 + 1e-14 * h ^ 2 else h ^ 2

/-- **C100, the leap-frogs and the fourth-order integrator**, without a residual error. -/
theorem C100_exact {I : Interactions} {n : Nat} {m : Nat → ℝ} {a : Field n} (A : Acts I n m a) {x v : ℝ → Nat → V3 ℝ} {t0 t1 : ℝ} (ht : t0 ≤ t1)
    (M : ForcedMotion n a x v t0 t1) (hS : SmoothAlong a x v t0 t1) :
    ∃ K h0 : ℝ, 0 < h0 ∧ ∀ P, InState n m x v t0 P → ∀ hm, 0 ≤ hm → hm ≤ h0 → ∀ stages ∈ [symplectic2nd, leapFrogKDK, symplectic4th],
      ∀ hs : List ℝ, (∀ h ∈ hs, 0 ≤ h ∧ h ≤ hm) → t0 + hs.sum ≤ t1 →
      ∃ s, steps (simpleStep I) (hs.map fun h => stages.map (Stage.op h)) (Simple.init t0 P) = .ok s ∧
        s.time = t0 + hs.sum ∧ WithinOf n m x v (t0 + hs.sum) (K * errorOf stages hm) s.P := by
  obtain ⟨K, ρ, hK, hρ, H⟩ := C100_order A ht M hS 4 63 (by norm_num) 3
  obtain ⟨K', ρ', hK', hρ', H'⟩ := C100_order A ht M hS 2 63 (by norm_num) 3
  refine ⟨K + K', min (min ρ ρ') 1, lt_min (lt_min hρ hρ') one_pos, fun P S hm hm0 hmρ stages hst hs hhs hsum => ?_⟩
  have hm1 : hm ≤ 1 := hmρ.trans (min_le_right _ _)
  have hmr : hm ≤ ρ := (hmρ.trans (min_le_left _ _)).trans (min_le_left _ _)
  have hmr' : hm ≤ ρ' := (hmρ.trans (min_le_left _ _)).trans (min_le_right _ _)
  have small : stages.length ≤ 63 ∧ ∀ u ∈ stages, |((coef u : ℚ) : ℝ)| ≤ 3 := by
    have : stages ∈ [symplectic2nd, leapFrogKDK, symplectic4th, symplectic6th, symplectic8th, symplectic10th] := by
      simp only [List.mem_cons, List.not_mem_nil, or_false] at hst ⊢; tauto
    exact ⟨(C92_coefficients stages this).1, (C92_coefficients stages this).2.1⟩
  have one : sumDrift stages = 1 := by
    have hst' : stages = symplectic2nd ∨ stages = leapFrogKDK ∨ stages = symplectic4th := by simpa using hst
    rcases hst' with rfl | rfl | rfl <;> decide +kernel
  have hsq : hm ^ 2 ≤ hm := pow_le_of_le_one hm0 hm1 (by norm_num)
  by_cases h4 : stages = symplectic4th
  · subst h4
    obtain ⟨s, e, b, W⟩ := H symplectic4th small.1 small.2 P S hm (1e-14 * hm ^ 2) hm0 hmr (by positivity) (by linarith [sq_nonneg hm]) (exact_dev hm0 hm1) hs hhs hsum
    refine ⟨s, e, by rw [b, one]; simp, ?_⟩
    rw [errorOf, if_pos rfl]
    have : K * (hm ^ 4 + 1e-14 * hm ^ 2) ≤ (K + K') * (hm ^ 4 + 1e-14 * hm ^ 2) := mul_le_mul_of_nonneg_right (by linarith) (by positivity)
    exact ⟨W.num, W.mass, fun i hi => (W.pos i hi).trans this, fun i hi => (W.vel i hi).trans this⟩
  · obtain ⟨s, e, b, W⟩ := H' stages small.1 small.2 P S hm 0 hm0 hmr' le_rfl hρ'.le (fun w _ hw' => by
      rw [C100_conditions.2.1 stages hst w hw']; simp) hs hhs hsum
    refine ⟨s, e, by rw [b, one]; simp, ?_⟩
    rw [errorOf, if_neg h4]
    rw [add_zero] at W
    have : K' * hm ^ 2 ≤ (K + K') * hm ^ 2 := mul_le_mul_of_nonneg_right (by linarith) (by positivity)
    exact ⟨W.num, W.mass, fun i hi => (W.pos i hi).trans this, fun i hi => (W.vel i hi).trans this⟩

/-- **C100, runs of the simulator** of a plain system with a fixed step. -/
theorem C100_run {I : Interactions} {n : Nat} {m : Nat → ℝ} {a : Field n} (A : Acts I n m a) {x v : ℝ → Nat → V3 ℝ} {t0 t1 : ℝ} (ht : t0 ≤ t1)
    (M : ForcedMotion n a x v t0 t1) (hS : SmoothAlong a x v t0 t1) :
    ∃ K h0 : ℝ, 0 < h0 ∧ ∀ P, InState n m x v t0 P → ∀ (big G tHubble h T rtol : ℝ) (a b c : Nat), 0 < h → h ≤ h0 → t0 ≤ T → T ≤ t1 → 0 ≤ rtol →
      ∀ stages ∈ [symplectic2nd, leapFrogKDK, symplectic4th], ∃ s : Simple, Simu.Spec.AtEnd s.time T rtol ∧ t0 ≤ s.time ∧ s.time ≤ T ∧
        WithinOf n m x v s.time (K * errorOf stages h) s.P ∧
        ∀ fuel, ⌈(T - t0) / h⌉₊ < fuel →
          ∃ w, Simu.run tHubble (Simu.constSimple big G I stages) (Simu.Spec.recording h (some T) rtol a b c []) fuel ([], Simple.init t0 P) = .ok (w, s) := by
  obtain ⟨K, h0, h0p, H⟩ := C100_exact A ht M hS
  refine ⟨K, h0, h0p, fun P S big G tHubble h T rtol a b c hp hle hT hT1 hr stages hst => ?_⟩
  obtain ⟨s', b1, b2, b3, b4⟩ := Simu.C21_simple big G I stages hst tHubble h T rtol a b c (Simple.init t0 P) hr hp hT
  refine ⟨s', b3, b1, b2, ?_, b4⟩
  obtain ⟨w, hw⟩ := b4 _ (Nat.lt_succ_self _)
  obtain ⟨k, _, s, p, e0, ep, hS, _, _, es, _⟩ := (Simu.run_iff tHubble (Simu.constSimple big G I stages) h (some T) rtol a b c [] _ _ _ w
    (.inr (by simp)) (by exact one_ne_zero)).1 hw
  have ep' : p 0 = h := by rw [ep]; unfold Simu.firstStep; rw [if_neg hp.ne']
  obtain ⟨_, c1, hs, c2, c3, c4⟩ := run_steps big G hst hp.le (s0 := Simple.init t0 P) hT k s p e0 ep' hS k le_rfl
  rw [← es] at c1 c3 c4
  change s'.time = t0 + hs.sum at c3
  obtain ⟨s2, f1, f2, f3⟩ := H P S h hp.le hle stages hst hs c2 (by linarith)
  rw [f1] at c4; cases c4
  rw [← c3] at f3
  exact f3

/-- **C100, chain system** with forces that agree. -/
theorem C100_chain {IC : ChainInteractions} {I : Interactions} (AI : AgreesI IC I) {n : Nat} {m : Nat → ℝ} {a : Field n} (A : Acts I n m a)
    {x v : ℝ → Nat → V3 ℝ} {t0 t1 : ℝ} (ht : t0 ≤ t1) (M : ForcedMotion n a x v t0 t1) (hS : SmoothAlong a x v t0 t1) (p N : Nat) (hp : 1 ≤ p) (c : ℝ) :
    ∃ K ρ : ℝ, 0 ≤ K ∧ 0 < ρ ∧ ∀ stages : List Stage, stages.length ≤ N → (∀ s ∈ stages, |((coef s : ℚ) : ℝ)| ≤ c) →
      ∀ P, InState n m x v t0 P → ∀ idx, IndexOf P idx → ∀ hm δ, 0 ≤ hm → hm ≤ ρ → 0 ≤ δ → δ ≤ ρ →
      (∀ w : List Move, 1 ≤ w.length → w.length ≤ p → |(Letters.deviation (stages.flatMap split) w : ℝ)| * hm ^ (w.length - 1) ≤ δ) →
      ∀ hs : List ℝ, (∀ h ∈ hs, 0 ≤ h ∧ h ≤ hm) → t0 + hs.sum ≤ t1 →
      ∃ s0, ChainSys.init t0 P idx = .ok s0 ∧
        (∃ r, Steps (ChainStep IC) (hs.map fun h => stages.map (Stage.op h)) s0 r) ∧
        ∀ r, Steps (ChainStep IC) (hs.map fun h => stages.map (Stage.op h)) s0 r →
          ∃ s, r = .ok s ∧ s.time = t0 + sumDrift stages * hs.sum ∧ WithinOf n m x v (t0 + hs.sum) (K * (hm ^ p + δ)) s.P := by
  obtain ⟨K, ρ, hK, hρ, H⟩ := C100_order A ht M hS p N hp c
  refine ⟨K, ρ, hK, hρ, fun stages hN hco P S idx hi hm δ hm0 hle hδ0 hδ hdev hs hhs hsum => ?_⟩
  obtain ⟨t, e1, e2, e3⟩ := H stages hN hco P S hm δ hm0 hle hδ0 hδ hdev hs hhs hsum
  obtain ⟨s0, t', f1, f2, f3, f4⟩ := C53_chain_evolves_like_plain AI t0 P idx hi (hs.map fun h => stages.map (Stage.op h))
  rw [e1] at f2; cases f2
  refine ⟨s0, f1, f3, fun r hr => ?_⟩
  obtain ⟨s, g1, g2, g3, _⟩ := f4 r hr
  exact ⟨s, g1, g3.trans e2, g2 ▸ e3⟩

/-- **C100, the forces of the library**: gravity with any list of post-Newtonian corrections (orders 1 and 2.5), tides and drag.  Along every motion of the
formulas without collisions (and never exactly at a speed of sound) the hypotheses of the theorems above hold of the system with those force classes, and
of the chain system with its variants of them. -/
theorem C100_library (G c : ℝ) (n : Nat) (m : Nat → ℝ) (fs : List Extra) :
    Acts ⟨Lib.newton, fs.map (libOf G c)⟩ n m (withExtras G c n m fs) ∧
    AgreesI ⟨Lib.newtonC, fs.map (libChainOf G c)⟩ ⟨Lib.newton, fs.map (libOf G c)⟩ ∧
    ∀ (x v : ℝ → Nat → V3 ℝ) (t0 t1 : ℝ), (∀ t ∈ Set.Icc t0 t1, ∀ i j, i < n → j < n → i ≠ j → x t i ≠ x t j) → (∀ e ∈ fs, e.Away n v t0 t1) →
      SmoothAlong (withExtras G c n m fs) x v t0 t1 :=
  ⟨lib_acts G c n m fs, lib_agrees G c fs, fun _ _ _ _ h1 h2 => smooth_along G c n m fs h1 h2⟩

/-- **C100 for a run with the forces of the library.** -/
theorem C100_library_run (G c : ℝ) {n : Nat} {m : Nat → ℝ} {fs : List Extra} {x v : ℝ → Nat → V3 ℝ} {t0 t1 : ℝ} (ht : t0 ≤ t1)
    (M : ForcedMotion n (withExtras G c n m fs) x v t0 t1) (apart : ∀ t ∈ Set.Icc t0 t1, ∀ i j, i < n → j < n → i ≠ j → x t i ≠ x t j)
    (away : ∀ e ∈ fs, e.Away n v t0 t1) :
    ∃ K h0 : ℝ, 0 < h0 ∧ ∀ P, InState n m x v t0 P → ∀ (big g tHubble h T rtol : ℝ) (a b d : Nat), 0 < h → h ≤ h0 → t0 ≤ T → T ≤ t1 → 0 ≤ rtol →
      ∀ stages ∈ [symplectic2nd, leapFrogKDK, symplectic4th], ∃ s : Simple, Simu.Spec.AtEnd s.time T rtol ∧ t0 ≤ s.time ∧ s.time ≤ T ∧
        WithinOf n m x v s.time (K * errorOf stages h) s.P ∧
        ∀ fuel, ⌈(T - t0) / h⌉₊ < fuel →
          ∃ w, Simu.run tHubble (Simu.constSimple big g ⟨Lib.newton, fs.map (libOf G c)⟩ stages) (Simu.Spec.recording h (some T) rtol a b d []) fuel
            ([], Simple.init t0 P) = .ok (w, s) :=
  C100_run (lib_acts G c n m fs) ht M (smooth_along G c n m fs apart away)

/-! ### examples -/

/-- Non-vacuity, gravity with its first post-Newtonian correction: two bodies of mass 1 at distance 1 and speed 1/2 stay on a circle, if the speed of light
is `√(29/2)`. -/
theorem circle_pn1 (t0 t1 : ℝ) : ForcedMotion 2 (withExtras 1 (Real.sqrt (29 / 2)) 2 (fun _ => 1) [.pn1]) circlePos circleVel t0 t1 := by
  have hc : ∀ t, HasDerivAt (fun e => Real.cos e / 2) (-(Real.sin t / 2)) t := fun t => by simpa [neg_div] using (Real.hasDerivAt_cos t).div_const 2
  have hs : ∀ t, HasDerivAt (fun e => Real.sin e / 2) (Real.cos t / 2) t := fun t => (Real.hasDerivAt_sin t).div_const 2
  have hc' : ∀ t, HasDerivAt (fun e => -(Real.cos e / 2)) (Real.sin t / 2) t := fun t => by
    have := (hc t).neg
    rw [neg_neg] at this
    exact this
  have hs' : ∀ t, HasDerivAt (fun e => -(Real.sin e / 2)) (-(Real.cos t / 2)) t := fun t => (hs t).neg
  have hz : ∀ t, HasDerivAt (fun _ : ℝ => (0 : ℝ)) 0 t := fun t => hasDerivAt_const t 0
  have one : ∀ t, Real.cos t * Real.cos t + Real.sin t * Real.sin t = 1 := fun t => by nlinarith [Real.sin_sq_add_cos_sq t]
  have sq : Real.sqrt (29 / 2) ^ 2 = 29 / 2 := Real.sq_sqrt (by norm_num)
  have pull : ∀ t, ∀ k : Fin 2, withExtras 1 (Real.sqrt (29 / 2)) 2 (fun _ => 1) [.pn1] (fun j => circlePos t j) (fun j => circleVel t j) k = -circlePos t k := by
    intro t k
    have l1 : len (circlePos t 1 - circlePos t 0) = 1 := by
      rw [len, show dot (circlePos t 1 - circlePos t 0) (circlePos t 1 - circlePos t 0) = 1 by
        simp only [circlePos, one_ne_zero, if_true, if_false, dot]; simp; linarith [one t], Real.sqrt_one]
    have l0 : len (circlePos t 0 - circlePos t 1) = 1 := by
      rw [len, show dot (circlePos t 0 - circlePos t 1) (circlePos t 0 - circlePos t 1) = 1 by
        simp only [circlePos, one_ne_zero, if_true, if_false, dot]; simp; linarith [one t], Real.sqrt_one]
    have d1 : ∀ a : V3 ℝ, a / (1 : ℝ) = a := fun a => by ext <;> simp
    have c1 : Real.cos t * Real.cos t = 1 - Real.sin t * Real.sin t := by linarith [one t]
    fin_cases k
    · have e0 : (univ : Finset (Fin 2)).erase 0 = {1} := by decide
      show withExtras 1 (Real.sqrt (29 / 2)) 2 (fun _ => 1) [.pn1] (fun j => circlePos t j) (fun j => circleVel t j) 0 = -circlePos t 0
      simp only [withExtras, e0, sum_singleton, List.map_cons, List.map_nil, List.sum_cons, List.sum_nil, add_zero, Extra.field]
      simp only [pair, newton, TwoBody.pn1, TwoBody.r, TwoBody.n, TwoBody.nv1, TwoBody.nv2, TwoBody.vv, TwoBody.v1s, TwoBody.v2s, Fin.val_zero, Fin.val_one,
        l1, l0, d1, sq]
      simp only [circlePos, circleVel, one_ne_zero, if_true, if_false, dot]
      ext1
      · simp
        ring_nf
        have := one t
        generalize Real.cos t = C at *
        generalize Real.sin t = S at *
        linear_combination (-7 / 58 * C) * this
      · simp
        ring_nf
        have := one t
        generalize Real.cos t = C at *
        generalize Real.sin t = S at *
        linear_combination (-7 / 58 * S) * this
      · simp
    · have e1 : (univ : Finset (Fin 2)).erase 1 = {0} := by decide
      show withExtras 1 (Real.sqrt (29 / 2)) 2 (fun _ => 1) [.pn1] (fun j => circlePos t j) (fun j => circleVel t j) 1 = -circlePos t 1
      simp only [withExtras, e1, sum_singleton, List.map_cons, List.map_nil, List.sum_cons, List.sum_nil, add_zero, Extra.field]
      simp only [pair, newton, TwoBody.pn1, TwoBody.r, TwoBody.n, TwoBody.nv1, TwoBody.nv2, TwoBody.vv, TwoBody.v1s, TwoBody.v2s, Fin.val_zero, Fin.val_one,
        l1, l0, d1, sq]
      simp only [circlePos, circleVel, one_ne_zero, if_true, if_false, dot]
      ext1
      · simp
        ring_nf
        have := one t
        generalize Real.cos t = C at *
        generalize Real.sin t = S at *
        linear_combination (7 / 58 * C) * this
      · simp
        ring_nf
        have := one t
        generalize Real.cos t = C at *
        generalize Real.sin t = S at *
        linear_combination (7 / 58 * S) * this
      · simp
  refine ⟨fun t _ k hk => ?_, fun t _ k => ?_⟩
  · interval_cases k
    · exact ⟨hc t, hs t, hz t⟩
    · exact ⟨hc' t, hs' t, hz t⟩
  · rw [pull t k]
    have p0 : -circlePos t 0 = ⟨-(Real.cos t / 2), -(Real.sin t / 2), 0⟩ := by ext1 <;> simp [circlePos]
    have p1 : -circlePos t 1 = ⟨Real.cos t / 2, Real.sin t / 2, 0⟩ := by ext1 <;> simp [circlePos]
    fin_cases k
    · show Rate _ (-circlePos t 0) t
      rw [p0]
      exact ⟨hs' t, hc t, hz t⟩
    · show Rate _ (-circlePos t 1) t
      rw [p1]
      exact ⟨hs t, hc' t, hz t⟩

example (t0 t1 : ℝ) : SmoothAlong (withExtras 1 (Real.sqrt (29 / 2)) 2 (fun _ => 1) [.pn1]) circlePos circleVel t0 t1 :=
  (C100_library _ _ _ _ _).2.2 _ _ _ _ (circle_motion t0 t1).apart (by simp [Extra.Away])

/-- Non-vacuity, drag: a body that the gas slows down, in one place of three dimensions. -/
theorem slowed (t1 : ℝ) : ForcedMotion 1 (withExtras 1 1 1 (fun _ => 1) [.drag (fun _ => 1) (fun _ => 2)]) (fun t _ => ⟨-Real.exp (-t), 0, 0⟩)
      (fun t _ => ⟨Real.exp (-t), 0, 0⟩) 0 t1 ∧
    (Extra.drag (fun _ => 1) (fun _ => 2)).Away 1 (fun t _ => ⟨Real.exp (-t), 0, 0⟩) 0 t1 := by
  have hl : ∀ t : ℝ, len (⟨Real.exp (-t), 0, 0⟩ : V3 ℝ) = Real.exp (-t) := fun t => by
    rw [len, show dot (⟨Real.exp (-t), 0, 0⟩ : V3 ℝ) ⟨Real.exp (-t), 0, 0⟩ = Real.exp (-t) * Real.exp (-t) by simp [dot], Real.sqrt_mul_self (Real.exp_pos _).le]
  have sub : ∀ t ∈ Set.Icc 0 t1, len (⟨Real.exp (-t), 0, 0⟩ : V3 ℝ) < 2 := fun t ht => by
    rw [hl]
    have := Real.exp_le_one_iff.2 (show -t ≤ 0 by linarith [ht.1])
    linarith
  have hd : ∀ t : ℝ, HasDerivAt (fun e : ℝ => Real.exp (-e)) (-Real.exp (-t)) t := fun t => by
    have := (Real.hasDerivAt_exp (-t)).comp t (hasDerivAt_neg t)
    rwa [mul_neg, mul_one] at this
  have hz : ∀ t, HasDerivAt (fun _ : ℝ => (0 : ℝ)) 0 t := fun t => hasDerivAt_const t 0
  refine ⟨⟨fun t _ k _ => ⟨?_, hz t, hz t⟩, fun t ht k => ?_⟩, fun t ht k _ => .inl (sub t ht)⟩
  · have := (hd t).neg
    rw [neg_neg] at this
    exact this
  · have e : (univ : Finset (Fin 1)).erase k = ∅ := by fin_cases k; decide
    have pull : withExtras 1 1 1 (fun _ => 1) [.drag (fun _ => 1) (fun _ => 2)] (fun _ => ⟨-Real.exp (-t), 0, 0⟩) (fun _ => ⟨Real.exp (-t), 0, 0⟩) k =
        ⟨-Real.exp (-t), 0, 0⟩ := by
      simp only [withExtras, e, sum_empty, List.map_cons, List.map_nil, List.sum_cons, List.sum_nil, add_zero, Extra.field, if_pos (sub t ht)]
      ext1 <;> simp
    rw [pull]
    exact ⟨hd t, hz t, hz t⟩

end SpaceHub.Sys
