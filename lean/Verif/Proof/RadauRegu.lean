import Verif.Props.ConvergeIAS15Sys
import Verif.Props.ConvergeReguOrder
import Verif.Proof.ReguSlope

/-
The regularised systems as one field on times, positions, velocities and the two additional variables, and the error of IAS15 in it.
-/

set_option autoImplicit false

namespace SpaceHub.Sys
open SpaceHub V3 Force Core Integrator Spec Props Finset Converge Radau BS
open scoped ContDiff

/-! ### the field -/

/-- time, positions, velocities, the time-transforming function, the binding energy -/
abbrev Full (n : Nat) := ℝ × (Conf n × Conf n) × ℝ × ℝ

/-- the power of the accelerations `a` -/
noncomputable def powC (n : Nat) (m : Nat → ℝ) (v a : Conf n) : ℝ := ∑ k ∈ range n, m k * dot (Converge.ext n v k) (Converge.ext n a k)

/-- what a step of the positions is divided by -/
noncomputable def gapP (n : Nat) (m : Nat → ℝ) (type : ReguType) (z : Full n) : ℝ :=
  match type with
  | .logH => z.2.2.2 + kinC n m z.2.1.2
  | .ttl => z.2.2.1
  | .none => 1

/-- what a step of the velocities is divided by -/
noncomputable def gapQ (n : Nat) (m : Nat → ℝ) (type : ReguType) (x : Conf n) : ℝ :=
  match type with
  | .logH | .ttl => potC n m x
  | .none => 1

open Classical in
/-- the derivatives of all variables; `e` says whether there are additional forces -/
noncomputable def fullF {n : Nat} (m : Nat → ℝ) (type : ReguType) (a : Field n) (e : Prop) (z : Full n) : Full n :=
  (1 / gapP n m type z, ((1 / gapP n m type z) • z.2.1.2, (1 / gapQ n m type z.2.1.1) • fieldOf a z.2.1.1 z.2.1.2),
    if type = .ttl then 1 / gapQ n m type z.2.1.1 * powC n m z.2.1.2 (grav n m z.2.1.1) else 0,
    if type = .logH ∧ e then -(1 / gapQ n m type z.2.1.1 * powC n m z.2.1.2 (fieldOf a z.2.1.1 z.2.1.2)) else 0)

/-- where it is smooth -/
def fullU {n : Nat} (m : Nat → ℝ) (type : ReguType) (U : Set (Conf n × Conf n)) : Set (Full n) :=
  {z | gapP n m type z ≠ 0 ∧ z.2.1.1 ∈ free n ∧ z.2.1 ∈ U}

theorem gapP_smooth {n : Nat} (m : Nat → ℝ) (type : ReguType) {d : WithTop ℕ∞} : ContDiff ℝ d (gapP n m type) := by
  cases type
  · have h1 : ContDiff ℝ d (fun z : Full n => z.2.2.2) := contDiff_snd.comp (contDiff_snd.comp contDiff_snd)
    have h2 : ContDiff ℝ d (fun z : Full n => z.2.1.2) := contDiff_snd.comp (contDiff_fst.comp contDiff_snd)
    exact h1.add ((kinC_smooth n m).comp h2)
  · have h1 : ContDiff ℝ d (fun z : Full n => z.2.2.1) := contDiff_fst.comp (contDiff_snd.comp contDiff_snd)
    exact h1
  · exact contDiff_const

theorem full_open {n : Nat} (m : Nat → ℝ) (type : ReguType) {U : Set (Conf n × Conf n)} (hU : IsOpen U) : IsOpen (fullU m type U) := by
  have h1 : IsOpen {z : Full n | gapP n m type z ≠ 0} := isOpen_ne_fun (gapP_smooth (d := 1) m type).continuous continuous_const
  have c : Continuous fun z : Full n => z.2.1 := continuous_fst.comp continuous_snd
  exact h1.inter (((free_open n).preimage (continuous_fst.comp c)).inter (hU.preimage c))

theorem gapQ_pos {n : Nat} {m : Nat → ℝ} (type : ReguType) (hn : 2 ≤ n) (hm : ∀ k, k < n → 0 < m k) {x : Conf n} (hx : x ∈ free n) : 0 < gapQ n m type x := by
  cases type
  · exact potC_pos hn hm hx
  · exact potC_pos hn hm hx
  · exact one_pos

theorem gapQ_smooth {n : Nat} (m : Nat → ℝ) (type : ReguType) {d : WithTop ℕ∞} : ContDiffOn ℝ d (gapQ n m type) (free n) := by
  cases type
  · exact potC_smooth n m
  · exact potC_smooth n m
  · exact contDiffOn_const

theorem powC_smooth {E : Type*} [NormedAddCommGroup E] [NormedSpace ℝ E] {n : Nat} (m : Nat → ℝ) {d : WithTop ℕ∞} {f g : E → Conf n} {s : Set E}
    (hf : ContDiffOn ℝ d f s) (hg : ContDiffOn ℝ d g s) : ContDiffOn ℝ d (fun z => powC n m (f z) (g z)) s := by
  unfold powC
  refine ContDiffOn.sum fun i hi => contDiffOn_const.mul ?_
  obtain ⟨h1, h2, h3⟩ := ext_smooth (d := d) n (mem_range.1 hi)
  exact (((h1.comp_contDiffOn hf).mul (h1.comp_contDiffOn hg)).add ((h2.comp_contDiffOn hf).mul (h2.comp_contDiffOn hg))).add
    ((h3.comp_contDiffOn hf).mul (h3.comp_contDiffOn hg))

theorem full_smooth {n : Nat} {m : Nat → ℝ} (type : ReguType) {a : Field n} {U : Set (Conf n × Conf n)} (hsm : ContDiffOn ℝ ∞ (inNumbers a) U) (e : Prop)
    (hn : 2 ≤ n) (hm : ∀ k, k < n → 0 < m k) : ContDiffOn ℝ ∞ (fullF m type a e) (fullU m type U) := by
  classical
  have c : ContDiff ℝ ∞ fun z : Full n => z.2.1 := contDiff_fst.comp contDiff_snd
  have hp : ContDiffOn ℝ ∞ (fun z : Full n => 1 / gapP n m type z) (fullU m type U) := fun z hz =>
    ((contDiffAt_const (c := (1 : ℝ))).div (gapP_smooth m type).contDiffAt hz.1).contDiffWithinAt
  have hq : ContDiffOn ℝ ∞ (fun z : Full n => 1 / gapQ n m type z.2.1.1) (fullU m type U) := by
    have h1 : ContDiffOn ℝ ∞ (fun x => 1 / gapQ n m type x) (free n) := fun y hy =>
      (contDiffWithinAt_const (c := (1 : ℝ))).div ((gapQ_smooth m type) y hy) (gapQ_pos type hn hm hy).ne'
    exact h1.comp (contDiff_fst.comp c).contDiffOn fun z hz => hz.2.1
  have ha : ContDiffOn ℝ ∞ (fun z : Full n => fieldOf a z.2.1.1 z.2.1.2) (fullU m type U) := hsm.comp c.contDiffOn fun z hz => hz.2.2
  have hv : ContDiffOn ℝ ∞ (fun z : Full n => z.2.1.2) (fullU m type U) := (contDiff_snd.comp c).contDiffOn
  have hg : ContDiffOn ℝ ∞ (fun z : Full n => grav n m z.2.1.1) (fullU m type U) := (grav_smooth n m).comp (contDiff_fst.comp c).contDiffOn fun z hz => hz.2.1
  refine hp.prodMk (((hp.smul hv).prodMk (hq.smul ha)).prodMk (ContDiffOn.prodMk ?_ ?_))
  · by_cases ht : type = .ttl
    · simp only [if_pos ht]
      exact hq.mul (powC_smooth m hv hg)
    · simp only [if_neg ht]
      exact contDiffOn_const
  · by_cases ht : type = .logH ∧ e
    · simp only [if_pos ht]
      exact (hq.mul (powC_smooth m hv ha)).neg
    · simp only [if_neg ht]
      exact contDiffOn_const

/-! ### the motion -/

/-- The potential energy along a motion, whatever the forces. -/
theorem potC_rate {n : Nat} {m : Nat → ℝ} {a : Field n} {x v : ℝ → Nat → V3 ℝ} {t0 t1 : ℝ} (M : ForcedMotion n a x v t0 t1)
    (apart : ∀ t ∈ Set.Icc t0 t1, ∀ i j, i < n → j < n → i ≠ j → x t i ≠ x t j) {t : ℝ} (ht : t ∈ Set.Icc 0 (t1 - t0)) :
    HasDerivWithinAt (fun e => potC n m (conf n (x (t0 + e)))) (powC n m (conf n (v (t0 + t))) (grav n m (conf n (x (t0 + t))))) (Set.Icc 0 (t1 - t0)) t := by
  have mem : t0 + t ∈ Set.Icc t0 t1 := ⟨by linarith [ht.1], by linarith [ht.2]⟩
  set γ : ℝ → Particles := fun t => ⟨n, x t, v t, m⟩ with hγ
  have V : Variation γ (t0 + t) (γ (t0 + t)) (v (t0 + t)) (fun k => if h : k < n then a (fun j => x (t0 + t) j) (fun j => v (t0 + t) j) ⟨k, h⟩ else 0) :=
    ⟨rfl, Filter.Eventually.of_forall fun _ => rfl, Filter.Eventually.of_forall fun _ => rfl, fun k hk => M.pos _ mem k hk, fun k hk => by
      have hk' : k < n := hk
      rw [dif_pos hk']
      exact M.vel _ mem ⟨k, hk'⟩⟩
  have d := (C90_gradient (γ (t0 + t)) (apart _ mem) γ (t0 + t) _ _ V).neg
  have d2 := (HasDerivAt.comp_const_add t0 t d).hasDerivWithinAt (s := Set.Icc 0 (t1 - t0))
  refine (d2.congr_deriv ?_).congr (fun e _ => ?_) ?_
  · rw [neg_neg]
    unfold powC
    refine sum_congr rfl fun k hk => ?_
    have hk' : k < n := mem_range.1 hk
    rw [ext_conf n _ hk']
    have e1 : Converge.ext n (grav n m (conf n (x (t0 + t)))) k = gravity.acc (γ (t0 + t)) k := by
      rw [Converge.ext, dif_pos hk']
      exact congrArg ve (grav_conf n m (γ (t0 + t)) rfl (fun _ _ => rfl) ⟨k, hk'⟩)
    rw [e1]; unfold dot; ring
  · have := potC_conf (P := γ (t0 + e)) (n := n) (m := m) rfl fun _ _ => rfl
    show _ = -potentialDirect 1 (γ (t0 + e))
    rw [potentialDirect_eq, this, neg_neg]
  · have := potC_conf (P := γ (t0 + t)) (n := n) (m := m) rfl fun _ _ => rfl
    show _ = -potentialDirect 1 (γ (t0 + t))
    rw [potentialDirect_eq, this, neg_neg]

/-- The kinetic energy along a motion, whatever the forces. -/
theorem kinC_rate {n : Nat} {m : Nat → ℝ} {a : Field n} {x v : ℝ → Nat → V3 ℝ} {t0 t1 : ℝ} (M : ForcedMotion n a x v t0 t1) {t : ℝ}
    (ht : t ∈ Set.Icc 0 (t1 - t0)) :
    HasDerivWithinAt (fun e => kinC n m (conf n (v (t0 + e)))) (powC n m (conf n (v (t0 + t))) (fieldOf a (conf n (x (t0 + t))) (conf n (v (t0 + t)))))
      (Set.Icc 0 (t1 - t0)) t := by
  have mem : t0 + t ∈ Set.Icc t0 t1 := ⟨by linarith [ht.1], by linarith [ht.2]⟩
  set γ : ℝ → Particles := fun t => ⟨n, x t, v t, m⟩ with hγ
  have V : Variation γ (t0 + t) (γ (t0 + t)) (v (t0 + t)) (fun k => if h : k < n then a (fun j => x (t0 + t) j) (fun j => v (t0 + t) j) ⟨k, h⟩ else 0) :=
    ⟨rfl, Filter.Eventually.of_forall fun _ => rfl, Filter.Eventually.of_forall fun _ => rfl, fun k hk => M.pos _ mem k hk, fun k hk => by
      have hk' : k < n := hk
      rw [dif_pos hk']
      exact M.vel _ mem ⟨k, hk'⟩⟩
  have d2 := (HasDerivAt.comp_const_add t0 t V.kinetic).hasDerivWithinAt (s := Set.Icc 0 (t1 - t0))
  refine (d2.congr_deriv ?_).congr (fun e _ => ?_) ?_
  · unfold powC
    refine sum_congr rfl fun k hk => ?_
    have hk' : k < n := mem_range.1 hk
    rw [ext_conf n _ hk', dif_pos hk', Converge.ext, dif_pos hk']
    rfl
  · exact (kinC_conf (P := γ (t0 + e)) rfl fun _ _ => rfl).symm
  · exact (kinC_conf (P := γ (t0 + t)) rfl fun _ _ => rfl).symm

open Classical in
/-- all variables at the time `t` of a motion -/
noncomputable def fullAt (n : Nat) (m : Nat → ℝ) (type : ReguType) (e : Prop) (x v : ℝ → Nat → V3 ℝ) (t0 t : ℝ) : Full n :=
  (t, (conf n (x t), conf n (v t)), potC n m (conf n (x (if type = .ttl then t else t0))),
    potC n m (conf n (x t0)) - kinC n m (conf n (v (if type = .logH ∧ e then t else t0))))

theorem fullAt_bind (n : Nat) (m : Nat → ℝ) (type : ReguType) (e : Prop) (x v : ℝ → Nat → V3 ℝ) (t0 t : ℝ) :
    (fullAt n m type e x v t0 t0).2.2.2 = potC n m (conf n (x t0)) - kinC n m (conf n (v t0)) ∧
    (type = .logH ∧ e → (fullAt n m type e x v t0 t).2.2.2 = potC n m (conf n (x t0)) - kinC n m (conf n (v t))) ∧
    (¬ (type = .logH ∧ e) → (fullAt n m type e x v t0 t).2.2.2 = potC n m (conf n (x t0)) - kinC n m (conf n (v t0))) := by
  unfold fullAt
  dsimp only
  exact ⟨by rw [ite_self], fun h => by rw [if_pos h], fun h => by rw [if_neg h]⟩

/-- The motion that the derivatives describe: the clock runs at the rate `1 / gapP` and the velocities change at the rate `a / gapQ`. -/
def Led {n : Nat} (m : Nat → ℝ) (type : ReguType) (a : Field n) (e : Prop) (x v : ℝ → Nat → V3 ℝ) (t0 t1 : ℝ) : Prop :=
  ∃ b : Field n, ForcedMotion n b x v t0 t1 ∧ ∀ t ∈ Set.Icc t0 t1, 0 < gapP n m type (fullAt n m type e x v t0 t) ∧
    fieldOf b (conf n (x t)) (conf n (v t)) =
      (gapP n m type (fullAt n m type e x v t0 t) / gapQ n m type (conf n (x t))) • fieldOf a (conf n (x t)) (conf n (v t))

theorem powC_smul (n : Nat) (m : Nat → ℝ) (v a : Conf n) (c : ℝ) : powC n m v (c • a) = c * powC n m v a := by
  unfold powC
  rw [mul_sum]
  refine sum_congr rfl fun k hk => ?_
  have hk' := mem_range.1 hk
  simp only [Converge.ext, dif_pos hk', ve, dot, Pi.smul_apply, Prod.smul_fst, Prod.smul_snd, smul_eq_mul]
  ring

theorem full_continuous {n : Nat} (m : Nat → ℝ) {b : Field n} {x v : ℝ → Nat → V3 ℝ} {t0 t1 : ℝ} (M : ForcedMotion n b x v t0 t1)
    (apart : ∀ t ∈ Set.Icc t0 t1, ∀ i j, i < n → j < n → i ≠ j → x t i ≠ x t j) (type : ReguType) (e : Prop) :
    ContinuousOn (fun t => fullAt n m type e x v t0 (t0 + t)) (Set.Icc 0 (t1 - t0)) := by
  classical
  have mem : ∀ t ∈ Set.Icc 0 (t1 - t0), t0 + t ∈ Set.Icc t0 t1 := fun t ht => ⟨by linarith [ht.1], by linarith [ht.2]⟩
  have hfree : ∀ t ∈ Set.Icc 0 (t1 - t0), conf n (x (t0 + t)) ∈ free n := by
    intro t ht i j hij h
    exact apart _ (mem t ht) i j i.2 j.2 (fun e => hij (Fin.ext e)) (congrArg ve h)
  have cq : ContinuousOn (fun t => conf n (x (t0 + t))) (Set.Icc 0 (t1 - t0)) := fun t ht => (forced_curve M ht).1.continuousWithinAt
  have cv : ContinuousOn (fun t => conf n (v (t0 + t))) (Set.Icc 0 (t1 - t0)) := fun t ht => (forced_curve M ht).2.continuousWithinAt
  refine (continuousOn_const.add continuousOn_id).prodMk ((cq.prodMk cv).prodMk (ContinuousOn.prodMk ?_ ?_))
  · by_cases hty : type = .ttl
    · simp only [if_pos hty]
      exact (potC_smooth (d := 1) n m).continuousOn.comp cq hfree
    · simp only [if_neg hty]
      exact continuousOn_const
  · refine continuousOn_const.sub ?_
    by_cases hty : type = .logH ∧ e
    · simp only [if_pos hty]
      exact (kinC_smooth (d := 1) n m).continuous.comp_continuousOn cv
    · simp only [if_neg hty]
      exact continuousOn_const

/-- the velocities change continuously -/
theorem led_continuous {n : Nat} {m : Nat → ℝ} {a : Field n} {x v : ℝ → Nat → V3 ℝ} {t0 t1 : ℝ} {U : Set (Conf n × Conf n)} (hsm : ContDiffOn ℝ ∞ (inNumbers a) U)
    (hin : ∀ t ∈ Set.Icc t0 t1, (conf n (x t), conf n (v t)) ∈ U) (apart : ∀ t ∈ Set.Icc t0 t1, ∀ i j, i < n → j < n → i ≠ j → x t i ≠ x t j)
    (hn : 2 ≤ n) (hm : ∀ k, k < n → 0 < m k) {type : ReguType} {e : Prop} {b : Field n} (M : ForcedMotion n b x v t0 t1)
    (hb : ∀ t ∈ Set.Icc t0 t1, fieldOf b (conf n (x t)) (conf n (v t)) =
      (gapP n m type (fullAt n m type e x v t0 t) / gapQ n m type (conf n (x t))) • fieldOf a (conf n (x t)) (conf n (v t))) :
    ContinuousOn (fun t => fieldOf b (conf n (x (t0 + t))) (conf n (v (t0 + t)))) (Set.Icc 0 (t1 - t0)) := by
  have mem : ∀ t ∈ Set.Icc 0 (t1 - t0), t0 + t ∈ Set.Icc t0 t1 := fun t ht => ⟨by linarith [ht.1], by linarith [ht.2]⟩
  have hfree : ∀ t ∈ Set.Icc 0 (t1 - t0), conf n (x (t0 + t)) ∈ free n := by
    intro t ht i j hij h
    exact apart _ (mem t ht) i j i.2 j.2 (fun e => hij (Fin.ext e)) (congrArg ve h)
  have cq : ContinuousOn (fun t => conf n (x (t0 + t))) (Set.Icc 0 (t1 - t0)) := fun t ht => (forced_curve M ht).1.continuousWithinAt
  have cv : ContinuousOn (fun t => conf n (v (t0 + t))) (Set.Icc 0 (t1 - t0)) := fun t ht => (forced_curve M ht).2.continuousWithinAt
  have c1 : ContinuousOn (fun t => gapP n m type (fullAt n m type e x v t0 (t0 + t))) (Set.Icc 0 (t1 - t0)) :=
    (gapP_smooth (d := 1) m type).continuous.comp_continuousOn (full_continuous m M apart type e)
  have c2 : ContinuousOn (fun t => gapQ n m type (conf n (x (t0 + t)))) (Set.Icc 0 (t1 - t0)) := (gapQ_smooth (d := 1) m type).continuousOn.comp cq hfree
  have c3 : ContinuousOn (fun t => fieldOf a (conf n (x (t0 + t))) (conf n (v (t0 + t)))) (Set.Icc 0 (t1 - t0)) :=
    hsm.continuousOn.comp (cq.prodMk cv) fun t ht => hin _ (mem t ht)
  exact ((c1.div c2 fun t ht => (gapQ_pos type hn hm (hfree t ht)).ne').smul c3).congr fun t ht => hb _ (mem t ht)

theorem full_motion {n : Nat} {m : Nat → ℝ} {a : Field n} {x v : ℝ → Nat → V3 ℝ} {t0 t1 : ℝ} (ht : t0 ≤ t1)
    {U : Set (Conf n × Conf n)} (hin : ∀ t ∈ Set.Icc t0 t1, (conf n (x t), conf n (v t)) ∈ U)
    (apart : ∀ t ∈ Set.Icc t0 t1, ∀ i j, i < n → j < n → i ≠ j → x t i ≠ x t j) (hn : 2 ≤ n) (hm : ∀ k, k < n → 0 < m k) (type : ReguType) (e : Prop)
    (L : Led m type a e x v t0 t1) :
    ∃ (τ1 κ F : ℝ) (θ : ℝ → ℝ), 0 ≤ τ1 ∧ 0 < κ ∧ 0 < F ∧ θ 0 = 0 ∧ θ τ1 = t1 - t0 ∧ (∀ τ ∈ Set.Icc 0 τ1, θ τ ∈ Set.Icc 0 (t1 - t0)) ∧
      (∀ τ ∈ Set.Icc 0 τ1, ∀ τ' ∈ Set.Icc 0 τ1, τ ≤ τ' → κ * (τ' - τ) ≤ θ τ' - θ τ ∧ θ τ' - θ τ ≤ F * (τ' - τ)) ∧
      (∀ τ ∈ Set.Icc 0 τ1, fullAt n m type e x v t0 (t0 + θ τ) ∈ fullU m type U) ∧
      ∀ τ ∈ Set.Icc 0 τ1, HasDerivWithinAt (fun τ => fullAt n m type e x v t0 (t0 + θ τ)) (fullF m type a e (fullAt n m type e x v t0 (t0 + θ τ))) (Set.Icc 0 τ1) τ := by
  classical
  obtain ⟨b, M, hL⟩ := L
  have mem : ∀ t ∈ Set.Icc 0 (t1 - t0), t0 + t ∈ Set.Icc t0 t1 := fun t ht => ⟨by linarith [ht.1], by linarith [ht.2]⟩
  have hfree : ∀ t ∈ Set.Icc 0 (t1 - t0), conf n (x (t0 + t)) ∈ free n := by
    intro t ht i j hij h
    exact apart _ (mem t ht) i j i.2 j.2 (fun e => hij (Fin.ext e)) (congrArg ve h)
  have cq : ContinuousOn (fun t => conf n (x (t0 + t))) (Set.Icc 0 (t1 - t0)) := fun t ht => (forced_curve M ht).1.continuousWithinAt
  have cv : ContinuousOn (fun t => conf n (v (t0 + t))) (Set.Icc 0 (t1 - t0)) := fun t ht => (forced_curve M ht).2.continuousWithinAt
  have pos : ∀ t ∈ Set.Icc 0 (t1 - t0), 0 < gapP n m type (fullAt n m type e x v t0 (t0 + t)) := fun t ht => (hL _ (mem t ht)).1
  have posQ : ∀ t ∈ Set.Icc 0 (t1 - t0), 0 < gapQ n m type (conf n (x (t0 + t))) := fun t ht => gapQ_pos type hn hm (hfree t ht)
  obtain ⟨τ1, κ, F, θ, h1, h2, h3, h4, h5, h6, h7, h8⟩ := time_change (T := t1 - t0) (by linarith)
    (u := fun t => gapP n m type (fullAt n m type e x v t0 (t0 + t))) ((gapP_smooth (d := 1) m type).continuous.comp_continuousOn (full_continuous m M apart type e)) pos
  refine ⟨τ1, κ, F, θ, h1, h2, h3, h4, h5, h6, h8, fun τ hτ => ⟨(pos _ (h6 τ hτ)).ne', hfree _ (h6 τ hτ), hin _ (mem _ (h6 τ hτ))⟩, fun τ hτ => ?_⟩
  have hb := (hL _ (mem _ (h6 τ hτ))).2
  have hp := pos _ (h6 τ hτ)
  have hq := posQ _ (h6 τ hτ)
  have d1 := HasDerivWithinAt.scomp τ (forced_curve M (h6 τ hτ)).1 (h7 τ hτ) h6
  have d2 := HasDerivWithinAt.scomp τ (forced_curve M (h6 τ hτ)).2 (h7 τ hτ) h6
  have d3 : HasDerivWithinAt (fun τ => potC n m (conf n (x (if type = .ttl then t0 + θ τ else t0))))
      (if type = .ttl then 1 / gapQ n m type (conf n (x (t0 + θ τ))) * powC n m (conf n (v (t0 + θ τ))) (grav n m (conf n (x (t0 + θ τ)))) else 0)
      (Set.Icc 0 τ1) τ := by
    by_cases hty : type = .ttl
    · simp only [if_pos hty]
      have d := HasDerivWithinAt.scomp τ (potC_rate (m := m) M apart (h6 τ hτ)) (h7 τ hτ) h6
      subst hty
      exact d
    · simp only [if_neg hty]
      exact hasDerivWithinAt_const _ _ _
  have d4 : HasDerivWithinAt (fun τ => potC n m (conf n (x t0)) - kinC n m (conf n (v (if type = .logH ∧ e then t0 + θ τ else t0))))
      (if type = .logH ∧ e then -(1 / gapQ n m type (conf n (x (t0 + θ τ))) * powC n m (conf n (v (t0 + θ τ)))
        (fieldOf a (conf n (x (t0 + θ τ))) (conf n (v (t0 + θ τ))))) else 0) (Set.Icc 0 τ1) τ := by
    by_cases hty : type = .logH ∧ e
    · simp only [if_pos hty]
      have d := (HasDerivWithinAt.scomp τ (kinC_rate (m := m) M (h6 τ hτ)) (h7 τ hτ) h6).const_sub (potC n m (conf n (x t0)))
      refine d.congr_deriv ?_
      rw [hb, powC_smul, smul_eq_mul]
      field_simp
    · simp only [if_neg hty]
      exact hasDerivWithinAt_const _ _ _
  refine (((h7 τ hτ).const_add t0).prodMk ((d1.prodMk d2).prodMk (d3.prodMk d4))).congr_deriv ?_
  have e2 : (1 / gapP n m type (fullAt n m type e x v t0 (t0 + θ τ))) • fieldOf b (conf n (x (t0 + θ τ))) (conf n (v (t0 + θ τ))) =
      (1 / gapQ n m type (conf n (x (t0 + θ τ)))) • fieldOf a (conf n (x (t0 + θ τ))) (conf n (v (t0 + θ τ))) := by
    rw [hb, smul_smul]
    congr 1
    field_simp
  rw [e2]
  rfl

/-! ### the error -/

/-- the error of a course of IAS15 on a regularised system, and what a correction does along the course -/
theorem full_tube {S : Type} {n : Nat} {m : Nat → ℝ} {a : Field n} {x v : ℝ → Nat → V3 ℝ} {t0 t1 t2 : ℝ} (h02 : t0 ≤ t2) (h21 : t2 < t1)
    (hS : SmoothAlong a x v t0 t1) (apart : ∀ t ∈ Set.Icc t0 t1, ∀ i j, i < n → j < n → i ≠ j → x t i ≠ x t j)
    (hn : 2 ≤ n) (hm : ∀ k, k < n → 0 < m k) (type : ReguType) (e : Prop)
    (L : Led m type a e x v t0 t1) (k : Nat) (hk : 1 ≤ k) (hk14 : k ≤ 14) :
    ∃ (K κ h0 C : ℝ) (c : Rate (Full n)) (U : Set (Conf n × Conf n)) (W' : Set (Full n)), 0 ≤ K ∧ 0 < κ ∧ 0 < h0 ∧ 0 ≤ C ∧ IsCompact W' ∧ W' ⊆ fullU m type U ∧
      (∀ {O : RSys S} {ok : S → Prop} {nv : ℕ} {A : (ℕ → ℝ) →ₗ[ℝ] Full n}, Shadow O ok nv A (fullF m type a e) (fullU m type U) →
        ∀ {H h : ℝ} {r r' : GR} {s s' : S}, correct code O H r s = .ok (s', r') → ok s → ok s' → O.write s' = O.write s → (O.write s).length = nv → 0 ≤ H → H ≤ h → h ≤ h0 →
          A (GR.toArr (O.write s)) ∈ W' → Tame code A r (c.k0 * h) (c.k1 * h) (1 / 10 ^ 26 * (c.k2 * h)) →
          ‖A r'.dg‖ ≤ C * h ∧ ‖A (r'.b 6)‖ ≤ C * h ∧ ‖A r'.dyh - fullF m type a e (A (GR.toArr (O.write s)))‖ ≤ C * h ∧
          Visits code O H r s s' r' fun x => A (GR.toArr (O.write x)) ∈ fullU m type U) ∧
      ∀ {O : RSys S} {nv : ℕ} {A : ℕ → (ℕ → ℝ) →ₗ[ℝ] Full n} {big h : ℝ} {frame same : S → S → Prop} {H h' τ : ℕ → ℝ}
      {it : ℕ → IAS} {s s' : ℕ → S}, 0 ≤ h → h ≤ h0 → it 0 = IAS.new big → A 0 (GR.toArr (O.write (s 0))) = fullAt n m type e x v t0 t0 →
      ∀ N, (∀ i, i < N → 0 ≤ H i ∧ H i ≤ h ∧ (∃ ok, Shadow O ok nv (A i) (fullF m type a e) Set.univ ∧ ∀ x, same (s i) x → ok x) ∧ (O.write (s i)).length = nv ∧
          StepBy code O big frame same k (H i) (τ i) (it i) (s i) (s' i) (it (i + 1)) (h' i) ∧
          A (i + 1) (GR.toArr (O.write (s (i + 1)))) = A i (GR.toArr (O.write (s' i))) ∧ ∀ w, ‖A (i + 1) w‖ = ‖A i w‖) →
        (∀ i, i < N → (A i (GR.toArr (O.write (s i)))).1 ≤ t2) → (A N (GR.toArr (O.write (s N)))).1 ≤ t1 ∧
          t0 + κ * ∑ i ∈ range N, τ i ≤ (A N (GR.toArr (O.write (s N)))).1 ∧
          0 ≤ ∑ i ∈ range N, τ i ∧
          ‖(A N (GR.toArr (O.write (s N)))).2.1 - (conf n (x (A N (GR.toArr (O.write (s N)))).1), conf n (v (A N (GR.toArr (O.write (s N)))).1))‖
            ≤ K * (h ^ (k + 1) + h / 10 ^ 26) ∧
          A N (GR.toArr (O.write (s N))) ∈ W' ∧ Tame code (A N) (it N).gr (c.k0 * h) (c.k1 * h) (1 / 10 ^ 26 * (c.k2 * h)) := by
  have ht : t0 ≤ t1 := by linarith
  obtain ⟨U, hU, hsm, hin⟩ := hS
  have L' := L
  obtain ⟨bf, M, hb⟩ := L'
  have mem : ∀ t ∈ Set.Icc 0 (t1 - t0), t0 + t ∈ Set.Icc t0 t1 := fun t ht => ⟨by linarith [ht.1], by linarith [ht.2]⟩
  -- the motion is Lipschitz
  obtain ⟨V, hV, lip⟩ : ∃ V : ℝ, 0 ≤ V ∧ ∀ t ∈ Set.Icc t0 t1, ∀ t' ∈ Set.Icc t0 t1,
      ‖(conf n (x t), conf n (v t)) - (conf n (x t'), conf n (v t'))‖ ≤ V * |t - t'| := by
    have dq : ∀ t ∈ Set.Icc 0 (t1 - t0), HasDerivWithinAt (fun t => (conf n (x (t0 + t)), conf n (v (t0 + t)))) (forcedF bf (conf n (x (t0 + t)), conf n (v (t0 + t))))
        (Set.Icc 0 (t1 - t0)) t := fun t ht => (forced_curve M ht).1.prodMk (forced_curve M ht).2
    have hF := led_continuous hsm hin apart hn hm M fun t ht => (hb t ht).2
    have cq : ContinuousOn (fun t => (conf n (x (t0 + t)), conf n (v (t0 + t)))) (Set.Icc 0 (t1 - t0)) := fun t ht => (dq t ht).continuousWithinAt
    obtain ⟨V, hV⟩ := isCompact_Icc.exists_bound_of_continuousOn (cq.snd.prodMk hF)
    refine ⟨max V 0, le_max_right _ _, fun t h t' h' => ?_⟩
    have := Convex.norm_image_sub_le_of_norm_hasDerivWithin_le (C := max V 0) dq (fun t ht => (hV t ht).trans (le_max_left _ _)) (convex_Icc 0 (t1 - t0))
      (x := t' - t0) (y := t - t0) ⟨by linarith [h'.1], by linarith [h'.2]⟩ ⟨by linarith [h.1], by linarith [h.2]⟩
    rw [show t0 + (t - t0) = t by ring, show t0 + (t' - t0) = t' by ring, show t - t0 - (t' - t0) = t - t' by ring, Real.norm_eq_abs] at this
    exact this
  obtain ⟨τ1, κ, F, θ, hτ1, hκ, hF, θ0, θ1, θin, θlip, hsafe, dy⟩ := full_motion ht hin apart hn hm type e L
  obtain ⟨cst, K, h0, C, W', hK, hh0, hC, hWc, hWU, first, key⟩ := course_vary (S := S) code_near code_nodes code_quad (by norm_num) code_small (full_open m type hU)
    (full_smooth type hsm e hn hm) (y := fun τ => fullAt n m type e x v t0 (t0 + θ τ)) (L := τ1) hτ1 dy hsafe k hk hk14
  -- how small
  obtain ⟨h1, hh1, hh1', hsm1⟩ := small_enough (c := (K * 2) * (τ1 + 1) + F) (by positivity) (show 0 < min ((t1 - t2) / 2) (κ / 2) from lt_min (by linarith) (by linarith))
  refine ⟨K * (τ1 * (1 + V)), κ / 2, min h0 h1, C, cst, U, W', by positivity, by positivity, lt_min hh0 hh1, hC, hWc, hWU,
    fun {O ok nv A} sh {H h r r' s s'} b1 b2 b3 b4 b5 b6 b7 b8 b9 b10 => first sh b1 b2 b3 b4 b5 b6 b7 (b8.trans (min_le_left _ _)) b9 b10,
    fun {O nv A big h frame same H h' τ it s s'} a1 a2 a3 a4 N a6 a7 => ?_⟩
  have hle : h ≤ h0 := a2.trans (min_le_left _ _)
  have hle1 : h ≤ h1 := a2.trans (min_le_right _ _)
  have hone : h ≤ 1 := hle1.trans hh1'
  obtain ⟨ε, hε⟩ : ∃ ε, ε = h ^ (k + 1) + 1 / 10 ^ 26 * h := ⟨_, rfl⟩
  have hε0 : 0 ≤ ε := by rw [hε]; positivity
  have hε2 : ε ≤ 2 * h := by
    have : h ^ (k + 1) ≤ h := pow_le_of_le_one a1 hone (by omega)
    have : 1 / 10 ^ 26 * h ≤ 1 * h := mul_le_mul_of_nonneg_right (by norm_num) a1
    rw [hε]; linarith
  have sm := hsm1 h hle1
  have e1 : ((K * 2) * (τ1 + 1) + F) * h = τ1 * (K * (2 * h)) + K * (2 * h) + F * h := by ring
  have q1 : K * ε ≤ K * (2 * h) := mul_le_mul_of_nonneg_left hε2 hK
  have q2 : τ1 * (K * ε) ≤ τ1 * (K * (2 * h)) := mul_le_mul_of_nonneg_left q1 hτ1
  have q3 : 0 ≤ K * ε := by positivity
  have q4 : 0 ≤ τ1 * (K * ε) := by positivity
  have q5 : 0 ≤ F * h := by positivity
  have sm1 := sm.trans (min_le_left _ _)
  have sm2 := sm.trans (min_le_right _ _)
  have hτ : ∀ i, i < N → 0 ≤ τ i ∧ τ i ≤ h := fun i hi => by
    obtain ⟨b1, b2, _, _, ⟨mm, hh, q, nn, g, y, E, se, _, hmm, acc⟩, _⟩ := a6 i hi
    obtain ⟨c1, c2⟩ := lengths acc b1 mm le_rfl
    rw [hmm] at c1 c2
    exact ⟨c1, c2.trans b2⟩
  have close : ∀ i, i ≤ N → (∑ j ∈ range i, τ j) ≤ τ1 → 0 ≤ (∑ j ∈ range i, τ j) ∧
      ‖A i (GR.toArr (O.write (s i))) - fullAt n m type e x v t0 (t0 + θ (∑ j ∈ range i, τ j))‖ ≤ (∑ j ∈ range i, τ j) * (K * ε) ∧
      A i (GR.toArr (O.write (s i))) ∈ W' ∧ Tame code (A i) (it i).gr (cst.k0 * h) (cst.k1 * h) (1 / 10 ^ 26 * (cst.k2 * h)) := by
    intro i hi hsum
    obtain ⟨b1, _, b2, b3⟩ := key (O := O) (nv := nv) (A := A) (big := big) (h := h) (frame := frame) (same := same) (H := H) (τ := τ)
      (h' := h') (it := it) (s := s) (s' := s') a1 hle a3 (by rw [a4, θ0, add_zero]) i (fun j hj => by
        obtain ⟨c1, c2, ⟨ok, c3, c4⟩, c5⟩ := a6 j (by omega)
        exact ⟨c1, c2, ⟨ok, c3.mono (Set.subset_univ _), c4⟩, c5⟩) hsum
    refine ⟨b1, b2.trans (le_of_eq ?_), b3⟩
    rw [hε]; ring
  have room : ∀ i, i ≤ N → (∑ j ∈ range i, τ j) ≤ τ1 := by
    intro i
    induction i with
    | zero => intro _; simpa using hτ1
    | succ i ih =>
      intro hi
      have hs := ih (by omega)
      obtain ⟨c0, c1, _⟩ := close i (by omega) hs
      have g1 : |(A i (GR.toArr (O.write (s i)))).1 - (t0 + θ (∑ j ∈ range i, τ j))| ≤ (∑ j ∈ range i, τ j) * (K * ε) := (norm_fst_le _).trans c1
      have g2 : (∑ j ∈ range i, τ j) * (K * ε) ≤ τ1 * (K * ε) := mul_le_mul_of_nonneg_right hs q3
      have g3 := a7 i (by omega)
      obtain ⟨_, b⟩ := θlip _ ⟨c0, hs⟩ τ1 ⟨hτ1, le_rfl⟩ hs
      rw [θ1] at b
      have hab := abs_le.1 g1
      obtain ⟨u1, u2⟩ := hτ i (by omega)
      rw [sum_range_succ]
      have hlow : F * h ≤ F * (τ1 - ∑ j ∈ range i, τ j) := by linarith
      have := le_of_mul_le_mul_left hlow hF
      linarith
  have hsN := room N le_rfl
  obtain ⟨c0, c1, c2⟩ := close N le_rfl hsN
  obtain ⟨σ, hσ⟩ : ∃ σ, σ = ∑ j ∈ range N, τ j := ⟨_, rfl⟩
  obtain ⟨z, hz⟩ : ∃ z, z = A N (GR.toArr (O.write (s N))) := ⟨_, rfl⟩
  rw [← hσ] at c0 c1 hsN ⊢
  have hzt : (A N (GR.toArr (O.write (s N)))).1 ≤ t1 := by
    have g1 : |(A N (GR.toArr (O.write (s N)))).1 - (t0 + θ σ)| ≤ σ * (K * ε) := (norm_fst_le _).trans c1
    have g2 : σ * (K * ε) ≤ τ1 * (K * ε) := mul_le_mul_of_nonneg_right hsN q3
    have hab := abs_le.1 g1
    rcases Nat.eq_zero_or_pos N with h0 | h0
    · have : σ = 0 := by rw [hσ, h0, sum_range_zero]
      rw [this, θ0] at hab
      linarith
    · obtain ⟨N', rfl⟩ : ∃ N', N = N' + 1 := ⟨N - 1, by omega⟩
      have hs' := room N' (by omega)
      obtain ⟨d0, d1, _⟩ := close N' (by omega) hs'
      have k1 : |(A N' (GR.toArr (O.write (s N')))).1 - (t0 + θ (∑ j ∈ range N', τ j))| ≤ (∑ j ∈ range N', τ j) * (K * ε) := (norm_fst_le _).trans d1
      have k2 : (∑ j ∈ range N', τ j) * (K * ε) ≤ τ1 * (K * ε) := mul_le_mul_of_nonneg_right hs' q3
      have k3 := a7 N' (by omega)
      have hab' := abs_le.1 k1
      obtain ⟨u1, u2⟩ := hτ N' (by omega)
      have hσ' : σ = (∑ j ∈ range N', τ j) + τ N' := by rw [hσ, sum_range_succ]
      obtain ⟨_, b⟩ := θlip _ ⟨d0, hs'⟩ σ ⟨c0, hsN⟩ (by linarith)
      have : F * (σ - ∑ j ∈ range N', τ j) ≤ F * h := mul_le_mul_of_nonneg_left (by linarith) hF.le
      linarith
  rw [← hz] at c1 hzt ⊢
  have g1 : |z.1 - (t0 + θ σ)| ≤ σ * (K * ε) := (norm_fst_le _).trans c1
  have g2 : ‖z.2.1 - (conf n (x (t0 + θ σ)), conf n (v (t0 + θ σ)))‖ ≤ σ * (K * ε) := (norm_fst_le _).trans ((norm_snd_le _).trans c1)
  obtain ⟨b, _⟩ := θlip 0 ⟨le_rfl, hτ1⟩ σ ⟨c0, hsN⟩ c0
  rw [θ0, sub_zero, sub_zero] at b
  have hab := abs_le.1 g1
  have hrate : t0 + κ / 2 * σ ≤ z.1 := by
    have : σ * (K * ε) ≤ σ * (κ / 2) := mul_le_mul_of_nonneg_left (by linarith) c0
    linarith
  rw [hz]
  refine ⟨hz ▸ hzt, hz ▸ hrate, c0, ?_, c2⟩
  rw [← hz]
  have hκσ : 0 ≤ κ / 2 * σ := by positivity
  have hl := lip (t0 + θ σ) (mem _ (θin σ ⟨c0, hsN⟩)) z.1 ⟨by linarith, by linarith⟩
  rw [abs_sub_comm] at hl
  have hl2 := hl.trans (mul_le_mul_of_nonneg_left g1 hV)
  have q6 : σ * (K * ε) ≤ τ1 * (K * ε) := mul_le_mul_of_nonneg_right hsN q3
  have q7 := mul_le_mul_of_nonneg_left q6 hV
  have tri := norm_add_le (z.2.1 - (conf n (x (t0 + θ σ)), conf n (v (t0 + θ σ)))) ((conf n (x (t0 + θ σ)), conf n (v (t0 + θ σ))) - (conf n (x z.1), conf n (v z.1)))
  rw [sub_add_sub_cancel] at tri
  have e3 : K * (τ1 * (1 + V)) * (h ^ (k + 1) + h / 10 ^ 26) = τ1 * (K * ε) + V * (τ1 * (K * ε)) := by rw [hε]; ring
  rw [e3]
  linarith

/-- The error of a course of calls of a system with a transformed time. -/
theorem full_course {S : Type} {n : Nat} {m : Nat → ℝ} {a : Field n} {x v : ℝ → Nat → V3 ℝ} {t0 t1 t2 : ℝ} (h02 : t0 ≤ t2) (h21 : t2 < t1)
    (hS : SmoothAlong a x v t0 t1) (apart : ∀ t ∈ Set.Icc t0 t1, ∀ i j, i < n → j < n → i ≠ j → x t i ≠ x t j)
    (hn : 2 ≤ n) (hm : ∀ k, k < n → 0 < m k) (type : ReguType) (e : Prop)
    (L : Led m type a e x v t0 t1) (k : Nat) (hk : 1 ≤ k) (hk14 : k ≤ 14) :
    ∃ (K κ h0 : ℝ), 0 ≤ K ∧ 0 < κ ∧ 0 < h0 ∧ ∀ {O : RSys S} {nv : ℕ} {A : ℕ → (ℕ → ℝ) →ₗ[ℝ] Full n} {big h : ℝ} {frame same : S → S → Prop} {H h' τ : ℕ → ℝ}
      {it : ℕ → IAS} {s s' : ℕ → S}, 0 ≤ h → h ≤ h0 → it 0 = IAS.new big → A 0 (GR.toArr (O.write (s 0))) = fullAt n m type e x v t0 t0 →
      ∀ N, (∀ i, i < N → 0 ≤ H i ∧ H i ≤ h ∧ (∃ ok, Shadow O ok nv (A i) (fullF m type a e) Set.univ ∧ ∀ x, same (s i) x → ok x) ∧ (O.write (s i)).length = nv ∧
          StepBy code O big frame same k (H i) (τ i) (it i) (s i) (s' i) (it (i + 1)) (h' i) ∧
          A (i + 1) (GR.toArr (O.write (s (i + 1)))) = A i (GR.toArr (O.write (s' i))) ∧ ∀ w, ‖A (i + 1) w‖ = ‖A i w‖) →
        (∀ i, i < N → (A i (GR.toArr (O.write (s i)))).1 ≤ t2) → (A N (GR.toArr (O.write (s N)))).1 ≤ t1 ∧
          t0 + κ * ∑ i ∈ range N, τ i ≤ (A N (GR.toArr (O.write (s N)))).1 ∧
          0 ≤ ∑ i ∈ range N, τ i ∧
          ‖(A N (GR.toArr (O.write (s N)))).2.1 - (conf n (x (A N (GR.toArr (O.write (s N)))).1), conf n (v (A N (GR.toArr (O.write (s N)))).1))‖
            ≤ K * (h ^ (k + 1) + h / 10 ^ 26) := by
  obtain ⟨K, κ, h0, _, _, _, _, hK, hκ, hh0, _, _, _, _, key⟩ := full_tube (S := S) h02 h21 hS apart hn hm type e L k hk hk14
  refine ⟨K, κ, h0, hK, hκ, hh0, fun {O nv A big h frame same H h' τ it s s'} a1 a2 a3 a4 N a6 a7 => ?_⟩
  obtain ⟨w0, w1, w2, w3, _⟩ := key (frame := frame) (same := same) (s' := s') (τ := τ) a1 a2 a3 a4 N a6 a7
  exact ⟨w0, w1, w2, w3⟩

end SpaceHub.Sys
