import Verif.Props.ConvergeIAS15Regu
import Verif.Props.Forced

/-
Regularised systems with any additional forces as the composition of three straight motions.
-/

set_option autoImplicit false

namespace SpaceHub.Sys
open SpaceHub V3 Force Core Integrator Spec Props Finset Converge
open scoped ContDiff

/-! ### the motions -/

/-- time; positions, velocities, second velocities; the time-transforming function; the binding energy -/
abbrev Wide (n : Nat) := ℝ × Ext n × ℝ × ℝ

/-- without the second velocities -/
def narrow {n : Nat} (z : Wide n) : Full n := (z.1, (z.2.1.1, z.2.1.2.1), z.2.2)

/-- the rates of the time-transforming function and of the binding energy in a velocity update -/
noncomputable def workF {n : Nat} (m : Nat → ℝ) (type : ReguType) (a : Field n) (x v : Conf n) : ℝ × ℝ :=
  (if type = .ttl then 1 / gapQ n m type x * powC n m v (grav n m x) else 0,
    if type = .logH then -(1 / gapQ n m type x * powC n m v (fieldOf a x v - grav n m x)) else 0)

/-- the three moves; `dep` says whether there are forces that depend on the velocities -/
noncomputable def wideF {n : Nat} (dep : Bool) (m : Nat → ℝ) (type : ReguType) (a : Field n) : Move → Wide n → Wide n
  | .drift, z => (1 / gapP n m type (narrow z), ((1 / gapP n m type (narrow z)) • z.2.1.2.1, 0, 0), 0)
  | .real, z => if dep then (0, (0, (1 / gapQ n m type z.2.1.1) • fieldOf a z.2.1.1 z.2.1.2.2, 0), 0) else (0, 0, workF m type a z.2.1.1 z.2.1.2.1)
  | .pseudo, z => if dep then (0, (0, 0, (1 / gapQ n m type z.2.1.1) • fieldOf a z.2.1.1 z.2.1.2.1), workF m type a z.2.1.1 z.2.1.2.1)
      else (0, (0, (1 / gapQ n m type z.2.1.1) • fieldOf a z.2.1.1 z.2.1.2.1, 0), 0)

theorem wide_straight {I : Interactions} {n : Nat} {m : Nat → ℝ} {a : Field n} (A : Acts I n m a) (type : ReguType) (X : Move) :
    Letters.Straight (wideF I.velDep m type a X) := by
  intro y s
  cases X with
  | drift =>
    have e : gapP n m type (narrow (y + s • wideF I.velDep m type a .drift y)) = gapP n m type (narrow y) := by
      cases type <;> simp [gapP, narrow, wideF]
    simp only [wideF] at e ⊢
    rw [e]
    simp
  | real =>
    cases hd : I.velDep with
    | true => simp [wideF]
    | false => simp [wideF]
  | pseudo =>
    cases hd : I.velDep with
    | true => simp [wideF]
    | false =>
      simp only [wideF, Bool.false_eq_true, if_false]
      simp only [Prod.snd_add, Prod.fst_add, Prod.smul_snd, Prod.smul_fst, smul_zero, add_zero]
      rw [field_rest A hd _ _ y.2.1.2.1]

/-- where all is smooth -/
def wideU {n : Nat} (dep : Bool) (m : Nat → ℝ) (type : ReguType) (U : Set (Conf n × Conf n)) : Set (Wide n) :=
  {z | narrow z ∈ fullU m type U ∧ (dep = true → (z.2.1.1, z.2.1.2.2) ∈ U)}

theorem narrow_smooth {n : Nat} {d : WithTop ℕ∞} : ContDiff ℝ d (narrow (n := n)) := by
  unfold narrow
  fun_prop

theorem wide_open {n : Nat} (dep : Bool) (m : Nat → ℝ) (type : ReguType) {U : Set (Conf n × Conf n)} (hU : IsOpen U) : IsOpen (wideU dep m type U) := by
  have h1 : IsOpen {z : Wide n | narrow z ∈ fullU m type U} := (full_open m type hU).preimage (narrow_smooth (d := 1)).continuous
  have c : Continuous fun z : Wide n => (z.2.1.1, z.2.1.2.2) := by fun_prop
  cases dep with
  | true =>
    have e : wideU true m type U = {z : Wide n | narrow z ∈ fullU m type U} ∩ (fun z : Wide n => (z.2.1.1, z.2.1.2.2)) ⁻¹' U := by ext; simp [wideU]
    rw [e]
    exact h1.inter (hU.preimage c)
  | false => simpa [wideU] using h1

theorem gapQ_inv_smooth {n : Nat} {m : Nat → ℝ} (type : ReguType) (hn : 2 ≤ n) (hm : ∀ k, k < n → 0 < m k) :
    ContDiffOn ℝ ∞ (fun x => 1 / gapQ n m type x) (free n) := fun y hy =>
  (contDiffWithinAt_const (c := (1 : ℝ))).div ((gapQ_smooth m type) y hy) (gapQ_pos type hn hm hy).ne'

theorem wide_smooth {n : Nat} {m : Nat → ℝ} (dep : Bool) (type : ReguType) {a : Field n} {U : Set (Conf n × Conf n)} (hsm : ContDiffOn ℝ ∞ (inNumbers a) U)
    (hn : 2 ≤ n) (hm : ∀ k, k < n → 0 < m k) (X : Move) : ContDiffOn ℝ ∞ (wideF dep m type a X) (wideU dep m type U) := by
  have cx : ContDiff ℝ ∞ fun z : Wide n => z.2.1.1 := by fun_prop
  have cv : ContDiff ℝ ∞ fun z : Wide n => z.2.1.2.1 := by fun_prop
  have cw : ContDiff ℝ ∞ fun z : Wide n => z.2.1.2.2 := by fun_prop
  have hp : ContDiffOn ℝ ∞ (fun z : Wide n => 1 / gapP n m type (narrow z)) (wideU dep m type U) := fun z hz =>
    ((contDiffAt_const (c := (1 : ℝ))).div ((gapP_smooth m type).comp narrow_smooth).contDiffAt hz.1.1).contDiffWithinAt
  have hq : ContDiffOn ℝ ∞ (fun z : Wide n => 1 / gapQ n m type z.2.1.1) (wideU dep m type U) :=
    (gapQ_inv_smooth type hn hm).comp cx.contDiffOn fun z hz => hz.1.2.1
  have ha : ContDiffOn ℝ ∞ (fun z : Wide n => fieldOf a z.2.1.1 z.2.1.2.1) (wideU dep m type U) :=
    hsm.comp (f := fun z : Wide n => (z.2.1.1, z.2.1.2.1)) (cx.prodMk cv).contDiffOn fun z hz => hz.1.2.2
  have hg : ContDiffOn ℝ ∞ (fun z : Wide n => grav n m z.2.1.1) (wideU dep m type U) := (grav_smooth n m).comp cx.contDiffOn fun z hz => hz.1.2.1
  have hw : ContDiffOn ℝ ∞ (fun z : Wide n => workF m type a z.2.1.1 z.2.1.2.1) (wideU dep m type U) := by
    unfold workF
    refine ContDiffOn.prodMk ?_ ?_
    · by_cases ht : type = .ttl
      · simp only [if_pos ht]
        exact hq.mul (powC_smooth m cv.contDiffOn hg)
      · simp only [if_neg ht]
        exact contDiffOn_const
    · by_cases ht : type = .logH
      · simp only [if_pos ht]
        exact (hq.mul (powC_smooth m cv.contDiffOn (ha.sub hg))).neg
      · simp only [if_neg ht]
        exact contDiffOn_const
  cases X with
  | drift => exact hp.prodMk (((hp.smul cv.contDiffOn).prodMk contDiffOn_const).prodMk contDiffOn_const)
  | real =>
    cases dep with
    | true =>
      have hb : ContDiffOn ℝ ∞ (fun z : Wide n => fieldOf a z.2.1.1 z.2.1.2.2) (wideU true m type U) :=
        hsm.comp (f := fun z : Wide n => (z.2.1.1, z.2.1.2.2)) (cx.prodMk cw).contDiffOn fun z hz => hz.2 rfl
      exact contDiffOn_const.prodMk ((contDiffOn_const.prodMk ((hq.smul hb).prodMk contDiffOn_const)).prodMk contDiffOn_const)
    | false => exact contDiffOn_const.prodMk (contDiffOn_const.prodMk hw)
  | pseudo =>
    cases dep with
    | true => exact contDiffOn_const.prodMk ((contDiffOn_const.prodMk (contDiffOn_const.prodMk (hq.smul ha))).prodMk hw)
    | false => exact contDiffOn_const.prodMk ((contDiffOn_const.prodMk ((hq.smul ha).prodMk contDiffOn_const)).prodMk contDiffOn_const)

/-- second velocities are made equal, if there are any -/
def level {n : Nat} (dep : Bool) (z : Wide n) : Wide n := if dep then (z.1, equalize z.2.1, z.2.2) else z

theorem level_norm {n : Nat} (dep : Bool) (z z' : Wide n) : ‖level dep z - level dep z'‖ ≤ ‖z - z'‖ := by
  cases dep with
  | true =>
    have h1 := norm_fst_le (z - z')
    have h2 := (norm_fst_le (z - z').2).trans (norm_snd_le (z - z'))
    have h3 := (norm_snd_le (z - z').2).trans (norm_snd_le (z - z'))
    exact norm_prod_le_iff.2 ⟨h1, norm_prod_le_iff.2 ⟨(equalize_norm _ _).trans h2, h3⟩⟩
  | false => exact le_rfl

/-! ### the motion -/

/-- all variables at the time `t` of a motion -/
noncomputable def wideAt (n : Nat) (dep : Bool) (m : Nat → ℝ) (type : ReguType) (x v : ℝ → Nat → V3 ℝ) (t0 t : ℝ) : Wide n :=
  (t, (conf n (x t), conf n (v t), if dep then conf n (v t) else 0), potC n m (conf n (x (if type = .ttl then t else t0))),
    potC n m (conf n (x (if type = .logH then t else t0))) - kinC n m (conf n (v (if type = .logH then t else t0))))

theorem powC_sub (n : Nat) (m : Nat → ℝ) (v a b : Conf n) : powC n m v (a - b) = powC n m v a - powC n m v b := by
  unfold powC
  rw [← sum_sub_distrib]
  refine sum_congr rfl fun k hk => ?_
  have hk' := mem_range.1 hk
  simp only [Converge.ext, dif_pos hk', ve, dot, Pi.sub_apply, Prod.fst_sub, Prod.snd_sub]
  ring

theorem wide_motion {n : Nat} {m : Nat → ℝ} {a : Field n} {x v : ℝ → Nat → V3 ℝ} {t0 t1 : ℝ} (ht : t0 ≤ t1) (M : ForcedMotion n a x v t0 t1)
    {U : Set (Conf n × Conf n)} (hin : ∀ t ∈ Set.Icc t0 t1, (conf n (x t), conf n (v t)) ∈ U)
    (apart : ∀ t ∈ Set.Icc t0 t1, ∀ i j, i < n → j < n → i ≠ j → x t i ≠ x t j) (hn : 2 ≤ n) (hm : ∀ k, k < n → 0 < m k) (type : ReguType) (dep : Bool) :
    ∃ (τ1 κ F : ℝ) (θ : ℝ → ℝ), 0 ≤ τ1 ∧ 0 < κ ∧ 0 < F ∧ θ 0 = 0 ∧ θ τ1 = t1 - t0 ∧ (∀ τ ∈ Set.Icc 0 τ1, θ τ ∈ Set.Icc 0 (t1 - t0)) ∧
      (∀ τ ∈ Set.Icc 0 τ1, ∀ τ' ∈ Set.Icc 0 τ1, τ ≤ τ' → κ * (τ' - τ) ≤ θ τ' - θ τ ∧ θ τ' - θ τ ≤ F * (τ' - τ)) ∧
      (∀ τ ∈ Set.Icc 0 τ1, wideAt n dep m type x v t0 (t0 + θ τ) ∈ wideU dep m type U) ∧
      ∀ τ ∈ Set.Icc 0 τ1, HasDerivWithinAt (fun τ => wideAt n dep m type x v t0 (t0 + θ τ)) (∑ X, wideF dep m type a X (wideAt n dep m type x v t0 (t0 + θ τ)))
        (Set.Icc 0 τ1) τ := by
  have mem : ∀ t ∈ Set.Icc 0 (t1 - t0), t0 + t ∈ Set.Icc t0 t1 := fun t ht => ⟨by linarith [ht.1], by linarith [ht.2]⟩
  have hfree : ∀ t ∈ Set.Icc 0 (t1 - t0), conf n (x (t0 + t)) ∈ free n := by
    intro t ht i j hij h
    exact apart _ (mem t ht) i j i.2 j.2 (fun e => hij (Fin.ext e)) (congrArg ve h)
  have cq : ContinuousOn (fun t => conf n (x (t0 + t))) (Set.Icc 0 (t1 - t0)) := fun t ht => (forced_curve M ht).1.continuousWithinAt
  have key : ∀ t, gapP n m type (narrow (wideAt n dep m type x v t0 (t0 + t))) = gapQ n m type (conf n (x (t0 + t))) := fun t => by
    cases type
    · show potC n m (conf n (x (t0 + t))) - kinC n m (conf n (v (t0 + t))) + kinC n m (conf n (v (t0 + t))) = potC n m (conf n (x (t0 + t)))
      ring
    · rfl
    · rfl
  have pos : ∀ t ∈ Set.Icc 0 (t1 - t0), 0 < gapQ n m type (conf n (x (t0 + t))) := fun t ht => gapQ_pos type hn hm (hfree t ht)
  obtain ⟨τ1, κ, F, θ, h1, h2, h3, h4, h5, h6, h7, h8⟩ := time_change (T := t1 - t0) (by linarith)
    (u := fun t => gapQ n m type (conf n (x (t0 + t)))) ((gapQ_smooth (d := 1) m type).continuousOn.comp cq hfree) pos
  refine ⟨τ1, κ, F, θ, h1, h2, h3, h4, h5, h6, h8, fun τ hτ => ⟨⟨?_, hfree _ (h6 τ hτ), hin _ (mem _ (h6 τ hτ))⟩, fun hd => ?_⟩, fun τ hτ => ?_⟩
  · rw [key]
    exact (pos _ (h6 τ hτ)).ne'
  · simp only [wideAt, hd, if_true]
    exact hin _ (mem _ (h6 τ hτ))
  · have d1 := HasDerivWithinAt.scomp τ (forced_curve M (h6 τ hτ)).1 (h7 τ hτ) h6
    have d2 := HasDerivWithinAt.scomp τ (forced_curve M (h6 τ hτ)).2 (h7 τ hτ) h6
    have dU := HasDerivWithinAt.scomp τ (potC_rate (m := m) M apart (h6 τ hτ)) (h7 τ hτ) h6
    have dK := HasDerivWithinAt.scomp τ (kinC_rate (m := m) M (h6 τ hτ)) (h7 τ hτ) h6
    have d3 : HasDerivWithinAt (fun τ => potC n m (conf n (x (if type = .ttl then t0 + θ τ else t0))))
        (workF m type a (conf n (x (t0 + θ τ))) (conf n (v (t0 + θ τ)))).1 (Set.Icc 0 τ1) τ := by
      unfold workF
      by_cases hty : type = .ttl
      · simp only [if_pos hty]
        exact dU
      · simp only [if_neg hty]
        exact hasDerivWithinAt_const _ _ _
    have d4 : HasDerivWithinAt (fun τ => potC n m (conf n (x (if type = .logH then t0 + θ τ else t0))) - kinC n m (conf n (v (if type = .logH then t0 + θ τ else t0))))
        (workF m type a (conf n (x (t0 + θ τ))) (conf n (v (t0 + θ τ)))).2 (Set.Icc 0 τ1) τ := by
      unfold workF
      by_cases hty : type = .logH
      · simp only [if_pos hty]
        refine (dU.sub dK).congr_deriv ?_
        rw [powC_sub]
        simp only [smul_eq_mul]
        ring
      · simp only [if_neg hty]
        exact hasDerivWithinAt_const _ _ _
    have dw : HasDerivWithinAt (fun τ => if dep then conf n (v (t0 + θ τ)) else 0)
        (if dep then (1 / gapQ n m type (conf n (x (t0 + θ τ)))) • fieldOf a (conf n (x (t0 + θ τ))) (conf n (v (t0 + θ τ))) else 0) (Set.Icc 0 τ1) τ := by
      cases dep with
      | true => exact d2
      | false => exact hasDerivWithinAt_const _ _ _
    refine (((h7 τ hτ).const_add t0).prodMk ((d1.prodMk (d2.prodMk dw)).prodMk (d3.prodMk d4))).congr_deriv ?_
    rw [show (univ : Finset Move) = {.drift, .real, .pseudo} from rfl, sum_insert (by decide), sum_insert (by decide), sum_singleton]
    have hk := key (θ τ)
    generalize hz : wideAt n dep m type x v t0 (t0 + θ τ) = z at hk ⊢
    have z1 : z.2.1.1 = conf n (x (t0 + θ τ)) := by rw [← hz]; rfl
    have z2 : z.2.1.2.1 = conf n (v (t0 + θ τ)) := by rw [← hz]; rfl
    have z3 : dep = true → z.2.1.2.2 = conf n (v (t0 + θ τ)) := fun h => by rw [← hz]; simp [wideAt, h]
    cases dep with
    | true =>
      simp only [wideF, if_true, z1, z2, z3, hk]
      simp only [Prod.mk_add_mk, add_zero, zero_add]
    | false =>
      simp only [wideF, Bool.false_eq_true, if_false, z1, z2, hk]
      simp only [Prod.mk_add_mk, Prod.mk_zero_zero, add_zero, zero_add]

/-! ### the model -/

/-- the variables of a system -/
noncomputable def wideOf (n : Nat) (dep : Bool) (s : ReguSys) : Wide n :=
  (s.time, (conf n s.P.pos, conf n s.P.vel, if dep then conf n s.aux else 0), s.R.omega, s.R.bindE)

theorem drift_wide {type : ReguType} {n : Nat} {m : Nat → ℝ} {s : ReguSys} (hF : FrameR n m s) (dep : Bool) (a : Field n) (c : ℚ) (h : ℝ)
    (hP : gapP n m type (narrow (wideOf n dep s)) ≠ 0) :
    ∃ s', s.drift type (c * h) = .ok s' ∧ FrameR n m s' ∧ wideOf n dep s' = Letters.flow (wideF dep m type a) (.drift, c) h (wideOf n dep s) := by
  have e0 : posDivisor type s = gapP n m type (narrow (wideOf n dep s)) := (regu_divisors hF).1
  obtain ⟨s', e, a1, a2, a3, a4, a5, a6, _, a8, a9⟩ := (C48_position_update type s (c * h)).2 (by rw [e0]; exact hP)
  refine ⟨s', e, ⟨a5.trans hF.1, fun k hk => by rw [a4]; exact hF.2 k hk⟩, ?_⟩
  have px : conf n s'.P.pos = conf n s.P.pos + (h * c) • ((1 / gapP n m type (narrow (wideOf n dep s))) • conf n s.P.vel) := by
    funext k
    show co (s'.P.pos k) = co (s.P.pos k) + (h * c) • ((1 / gapP n m type (narrow (wideOf n dep s))) • co (s.P.vel k))
    rw [a2 k (by rw [hF.1]; exact k.2), co_add, co_smul, smul_smul, e0]
    congr 2
    ring
  unfold Letters.flow
  simp only [wideF]
  unfold wideOf
  refine Prod.ext ?_ (Prod.ext (Prod.ext px (Prod.ext ?_ ?_)) (Prod.ext ?_ ?_))
  · simp only [Prod.fst_add, Prod.smul_fst, smul_eq_mul]
    rw [a1, e0]
    unfold wideOf
    ring
  · simp [a3]
  · simp [a6]
  · simp [a8]
  · simp [a9]

theorem arrayAdd_comm (n : Nat) (x y : Arr (V3 ℝ)) (k : Nat) (hk : k < n) : arrayAdd n x y k = arrayAdd n y x k := by
  rw [arrayAdd_apply, arrayAdd_apply, if_pos hk, if_pos hk, add_comm]

/-- `s` with `w` for the velocities -/
theorem rest_regu {I : Interactions} {n : Nat} {m : Nat → ℝ} {a : Field n} (A : Acts I n m a) (hd : I.velDep = true) (P : Particles) (hn : P.num = n)
    (hm : ∀ k, k < n → P.mass k = m k) : RestAt I n a P.mass P.pos (ReguSys.totAcc I P) := by
  intro w
  rw [← rest_at A hd P hn hm w]
  funext k
  show co (arrayAdd n _ _ (k : Nat)) = co (arrayAdd n _ _ (k : Nat))
  rw [arrayAdd_apply, arrayAdd_apply, if_pos k.2, if_pos k.2]
  congr 2
  unfold ReguSys.totAcc Simple.totVelIndepAcc
  by_cases hi : I.velIndep = true
  · simp only [hi, if_true]
    exact arrayAdd_comm _ _ _ _ (by rw [hn]; exact k.2)
  · simp only [hi, if_false, Bool.false_eq_true]

/-- without velocity-dependent forces the velocity-independent accelerations are all -/
theorem rest_all {I : Interactions} {n : Nat} {m : Nat → ℝ} {a : Field n} (A : Acts I n m a) (hd : I.velDep = false) (P : Particles) (hn : P.num = n)
    (hm : ∀ k, k < n → P.mass k = m k) : conf n (ReguSys.totAcc I P) = fieldOf a (conf n P.pos) (conf n P.vel) := by
  classical
  rw [← field_conf A P hn hm]
  funext k
  refine congrArg co ?_
  have hk : (k : Nat) < P.num := by rw [hn]; exact k.2
  let g : ForceClass Particles → Nat → V3 ℝ := fun f => if h : f ∈ I.internal :: I.extra then Classical.choose (A.adds f h P) else fun _ => 0
  have hg : ∀ f ∈ I.internal :: I.extra, Adds f P (g f) := fun f hf => by
    simp only [g, dif_pos hf]; exact Classical.choose_spec (A.adds f hf P)
  obtain ⟨h1, h2, _, h4, _, h6⟩ := C11_force_splitting Particles.num I.internal I.extra P g (hg _ List.mem_cons_self)
    (fun f hf => hg f (List.mem_cons_of_mem _ hf)) (fun _ => 0) k hk
  have e1 : I.newtonianAcc P k = g I.internal k := h1
  have e2 : I.acc P k = _ := h2
  have none : I.extra.filter (fun f => f.velDep) = [] := by
    rw [List.filter_eq_nil_iff]
    intro f hf h
    have : I.velDep = true := List.any_eq_true.2 ⟨f, hf, h⟩
    rw [hd] at this
    cases this
  rw [e2, h6, none]
  unfold ReguSys.totAcc
  by_cases hi : I.velIndep = true
  · have e4 : I.velIndepAcc P k = _ := h4 hi
    simp only [hi, if_true]
    rw [arrayAdd_apply, if_pos hk, e1, e4]
    simp only [List.map_nil, List.sum_nil, zero_add]
    abel
  · simp only [hi, if_false, Bool.false_eq_true]
    rw [e1]
    have : I.extra.filter (fun f => !f.velDep) = [] := by
      rw [List.filter_eq_nil_iff]
      intro f hf h
      exact hi (List.any_eq_true.2 ⟨f, hf, h⟩)
    rw [this]
    simp

theorem newt_conf {ex : List (ForceClass Particles)} {n : Nat} {m : Nat → ℝ} (P : Particles) (hn : P.num = n) (hm : ∀ k, k < n → P.mass k = m k) :
    conf n ((withGravity ex).newtonianAcc P) = grav n m (conf n P.pos) := funext fun k => by
  rw [grav_conf n m P hn hm k]
  refine congrArg co ?_
  have hk : (k : Nat) < P.num := by rw [hn]; exact k.2
  rw [(gravity_acc P k hk).2, ← (gravity_acc P k hk).1]
  rfl

theorem dW_conf {n : Nat} {m : Nat → ℝ} {type : ReguType} (s : ReguSys) (hF : FrameR n m s) (v d : Arr (V3 ℝ)) :
    s.dW type v d = if type = .ttl then powC n m (conf n v) (conf n d) else 0 := by
  have := power_conf (P := { s.P with vel := v }) hF.1 hF.2 d
  unfold ReguSys.dW ReguSys.domegaDt
  rw [contract_eq, ← this]
  rfl

theorem dB_conf {n : Nat} {m : Nat → ℝ} {type : ReguType} {I : Interactions} (s : ReguSys) (hF : FrameR n m s) (v d : Arr (V3 ℝ))
    (h : (I.velIndep || I.velDep) = true) : s.dB type I v d = if type = .logH then -powC n m (conf n v) (conf n d) else 0 := by
  have := power_conf (P := { s.P with vel := v }) hF.1 hF.2 d
  unfold ReguSys.dB ReguSys.dbindEDt
  rw [contract_eq, ← this, h]
  simp only [true_and]
  rfl

section
variable {ex : List (ForceClass Particles)} {n : Nat} {m : Nat → ℝ} {a : Field n} (A : Acts (withGravity ex) n m a)

theorem real_wide {type : ReguType} {tot : Arr (V3 ℝ)} (s : ReguSys) (hF : FrameR n m s) (T : RestAt (withGravity ex) n a s.P.mass s.P.pos tot) (h : ℝ) :
    FrameR n m (s.kickReal (withGravity ex) tot (h / gapQ n m type (conf n s.P.pos))) ∧
      (s.kickReal (withGravity ex) tot (h / gapQ n m type (conf n s.P.pos))).P.mass = s.P.mass ∧
      (s.kickReal (withGravity ex) tot (h / gapQ n m type (conf n s.P.pos))).P.pos = s.P.pos ∧
      wideOf n true (s.kickReal (withGravity ex) tot (h / gapQ n m type (conf n s.P.pos))) =
        wideOf n true s + h • wideF true m type a .real (wideOf n true s) := by
  obtain ⟨⟨N, x, v, M⟩, t, w, R, inc, sy⟩ := s
  have hn' : n = N := hF.1.symm
  subst hn'
  obtain ⟨i, hi⟩ := ReguSys.kickReal_fields (withGravity ex) tot (h / gapQ n m type (conf n x)) ⟨⟨n, x, v, M⟩, t, w, R, inc, sy⟩
  rw [hi]
  refine ⟨hF, rfl, rfl, ?_⟩
  simp only [wideOf, conf_advance, wideF, if_true]
  rw [T w]
  refine Prod.ext ?_ (Prod.ext (Prod.ext ?_ (Prod.ext ?_ ?_)) ?_)
  · simp
  · simp
  · simp [smul_smul, div_eq_mul_inv]
  · simp
  · simp

theorem pseudo_wide {type : ReguType} {newt ext tot : Arr (V3 ℝ)} (hd : (withGravity ex).velDep = true) (s : ReguSys) (hF : FrameR n m s)
    (T : RestAt (withGravity ex) n a s.P.mass s.P.pos tot) (hN : conf n newt = grav n m (conf n s.P.pos))
    (htot : tot = if (withGravity ex).velIndep then arrayAdd n ext newt else newt) (h : ℝ) :
    (s.kickPseu type (withGravity ex) newt ext tot (h / gapQ n m type (conf n s.P.pos))).P = s.P ∧
      wideOf n true (s.kickPseu type (withGravity ex) newt ext tot (h / gapQ n m type (conf n s.P.pos))) =
        wideOf n true s + h • wideF true m type a .pseudo (wideOf n true s) := by
  have hx : conf n (s.extTot (withGravity ex) ext) = fieldOf a (conf n s.P.pos) (conf n s.P.vel) - grav n m (conf n s.P.pos) := by
    rw [← hN, ← T s.P.vel, htot]
    have hP : (⟨n, s.P.pos, s.P.vel, s.P.mass⟩ : Particles) = s.P := by rw [← hF.1]
    rw [hP]
    funext k
    show co _ = co _ - co _
    rw [← co_sub]
    refine congrArg co ?_
    unfold ReguSys.extTot
    rw [hF.1, arrayAdd_apply, if_pos k.2]
    by_cases hi : (withGravity ex).velIndep = true
    · simp only [hi, if_true]
      rw [arrayAdd_apply, arrayAdd_apply, if_pos k.2, if_pos k.2]
      abel
    · simp only [hi, if_false, Bool.false_eq_true]
      abel
  have w1 := dW_conf (type := type) s hF s.P.vel newt
  have w2 := dB_conf (type := type) (I := withGravity ex) s hF s.P.vel (s.extTot (withGravity ex) ext) (by rw [hd]; simp)
  rw [hN] at w1
  rw [hx] at w2
  obtain ⟨i, hi⟩ := ReguSys.kickPseu_fields type (withGravity ex) newt ext tot (h / gapQ n m type (conf n s.P.pos)) s
  rw [hi, w1, w2]
  refine ⟨rfl, ?_⟩
  obtain ⟨⟨N, x, v, M⟩, t, w, R, inc, sy⟩ := s
  have hn' : n = N := hF.1.symm
  subst hn'
  simp only [wideOf, conf_advance, wideF, if_true]
  rw [T v]
  refine Prod.ext ?_ (Prod.ext (Prod.ext ?_ (Prod.ext ?_ ?_)) (Prod.ext ?_ ?_))
  · simp
  · simp
  · simp
  · simp [smul_smul, div_eq_mul_inv]
  · simp only [workF, Prod.snd_add, Prod.fst_add, Prod.smul_snd, Prod.smul_fst, smul_eq_mul]
    by_cases ht : type = .ttl
    · simp only [if_pos ht]; ring
    · simp only [if_neg ht]; ring
  · simp only [workF, Prod.snd_add, Prod.smul_snd, smul_eq_mul]
    by_cases ht : type = .logH
    · simp only [if_pos ht]; ring
    · simp only [if_neg ht]; ring

include A

theorem kick_wide {type : ReguType} (s : ReguSys) (hF : FrameR n m s) (c : ℚ) (h : ℝ) (hQ : gapQ n m type (conf n s.P.pos) ≠ 0) :
    ∃ s', s.kick 1 type (withGravity ex) (c * h) = .ok s' ∧ FrameR n m s' ∧
      wideOf n (withGravity ex).velDep s' =
        Letters.wstep (wideF (withGravity ex).velDep m type a) (split (.kick c)) h (wideOf n (withGravity ex).velDep s) := by
  have e0 := (regu_divisors (type := type) hF).2
  rw [ReguSys.kick_eq, velPhyTime_eq, if_neg (by rw [e0]; exact hQ)]
  simp only [Res.ok_bind]
  refine ⟨_, rfl, ?_⟩
  rw [e0]
  have e1 : (1 / 2 * (c * h / gapQ n m type (conf n s.P.pos)) : ℝ) = h * ((c / 2 : ℚ) : ℝ) / gapQ n m type (conf n s.P.pos) := by push_cast; ring
  have e2 : (c * h : ℝ) = h * (c : ℝ) := by ring
  have hN := newt_conf (ex := ex) s.P hF.1 hF.2
  generalize hs : ({ s with R := { s.R with scale := if type = .none then s.R.scale else gapQ n m type (conf n s.P.pos) } } : ReguSys) = s0
  have q1 : s0.P = s.P := by rw [← hs]
  have q2 : ∀ b, wideOf n b s0 = wideOf n b s := fun b => by rw [← hs]; rfl
  have hF0 : FrameR n m s0 := by rw [← hs]; exact hF
  cases hd : (withGravity ex).velDep with
  | true =>
    simp only [if_true]
    have T := rest_regu A hd s.P hF.1 hF.2
    have ht : ReguSys.totAcc (withGravity ex) s.P = if (withGravity ex).velIndep then
        arrayAdd n ((withGravity ex).velIndepAcc s.P) ((withGravity ex).newtonianAcc s.P) else (withGravity ex).newtonianAcc s.P := by
      unfold ReguSys.totAcc; rw [hF.1]
    rw [hF.1, ← ht]
    generalize ReguSys.totAcc (withGravity ex) s.P = tot at T ht ⊢
    generalize (withGravity ex).velIndepAcc s.P = ext at ht ⊢
    generalize (withGravity ex).newtonianAcc s.P = newt at ht hN ⊢
    rw [← q2 true]
    rw [← q1] at T hN e1 ⊢
    rw [e1, e2]
    clear e0 hQ hs q2 q1 hF
    obtain ⟨a1, a2, a3, a4⟩ := real_wide (m := m) (type := type) s0 hF0 T (h * ((c / 2 : ℚ) : ℝ))
    generalize s0.kickReal (withGravity ex) tot (h * ((c / 2 : ℚ) : ℝ) / gapQ n m type (conf n s0.P.pos)) = s1 at *
    rw [← a2, ← a3] at T
    rw [← a3] at hN ⊢
    obtain ⟨b1, b2⟩ := pseudo_wide (m := m) (type := type) hd s1 a1 T hN ht (h * (c : ℝ))
    generalize s1.kickPseu type (withGravity ex) newt ext tot (h * (c : ℝ) / gapQ n m type (conf n s1.P.pos)) = s2 at *
    rw [← b1] at T ⊢
    obtain ⟨c1, _, _, c4⟩ := real_wide (m := m) (type := type) s2 ⟨by rw [b1]; exact a1.1, fun k hk => by rw [b1]; exact a1.2 k hk⟩ T (h * ((c / 2 : ℚ) : ℝ))
    refine ⟨c1, ?_⟩
    rw [c4, b2, a4]
    rfl
  | false =>
    simp only [Bool.false_eq_true, if_false]
    have T := rest_all A hd s.P hF.1 hF.2
    have ht : (if (withGravity ex).velIndep = true then arrayAdd s.P.num ((withGravity ex).velIndepAcc s.P) ((withGravity ex).newtonianAcc s.P)
        else (withGravity ex).newtonianAcc s.P) = ReguSys.totAcc (withGravity ex) s.P := rfl
    rw [ht]
    have hx : (withGravity ex).velIndep = true →
        conf n ((withGravity ex).velIndepAcc s.P) = fieldOf a (conf n s.P.pos) (conf n s.P.vel) - grav n m (conf n s.P.pos) := fun hi => by
      rw [← hN, ← T]
      funext k
      show co _ = co _ - co _
      rw [← co_sub]
      refine congrArg co ?_
      unfold ReguSys.totAcc
      simp only [hi, if_true]
      rw [hF.1, arrayAdd_apply, if_pos k.2]
      abel
    have hx0 : ¬ (withGravity ex).velIndep = true → fieldOf a (conf n s.P.pos) (conf n s.P.vel) - grav n m (conf n s.P.pos) = 0 := fun hi => by
      rw [← hN, ← T]
      unfold ReguSys.totAcc
      rw [if_neg hi, sub_self]
    generalize ReguSys.totAcc (withGravity ex) s.P = tot at T ht ⊢
    generalize (withGravity ex).velIndepAcc s.P = ext at ht hx ⊢
    generalize (withGravity ex).newtonianAcc s.P = newt at ht hN ⊢
    rw [← q2 false]
    rw [← q1] at T hN hx hx0 ⊢
    obtain ⟨i, hi⟩ := ReguSys.kickElse_fields type (withGravity ex) newt ext tot (c * h / gapQ n m type (conf n s0.P.pos)) s0
    rw [hi]
    refine ⟨hF0, ?_⟩
    have wW : ∀ v, s0.dW type v newt = if type = .ttl then powC n m (conf n v) (grav n m (conf n s0.P.pos)) else 0 := fun v => by
      rw [dW_conf s0 hF0, hN]
    have wB : ∀ v, (if (withGravity ex).velIndep = true then s0.dB type (withGravity ex) v ext * (1 / 2 * (c * h / gapQ n m type (conf n s0.P.pos))) else 0) =
        (if type = .logH then -powC n m (conf n v) (fieldOf a (conf n s0.P.pos) (conf n v) - grav n m (conf n s0.P.pos)) else 0) *
          (1 / 2 * (c * h / gapQ n m type (conf n s0.P.pos))) := fun v => by
      rw [field_rest A hd (conf n s0.P.pos) (conf n v) (conf n s0.P.vel)]
      by_cases hv : (withGravity ex).velIndep = true
      · rw [if_pos hv, dB_conf s0 hF0 v ext (by rw [hv]; simp), hx hv]
      · have z : powC n m (conf n v) 0 = 0 := by
          have := powC_sub n m (conf n v) 0 0
          rw [sub_self] at this
          linarith
        rw [if_neg hv, hx0 hv, z]
        simp
    rw [wW, wW, wB, wB]
    simp only [split]
    show _ = Letters.flow _ _ h (Letters.flow _ _ h (Letters.flow _ _ h _))
    unfold Letters.flow
    simp only [wideF, Bool.false_eq_true, if_false]
    simp only [wideOf, Bool.false_eq_true, if_false]
    obtain ⟨⟨N, x, v, M⟩, t, w, R, inc, sy⟩ := s0
    have hn' : n = N := hF0.1.symm
    subst hn'
    simp only [Prod.snd_add, Prod.fst_add, Prod.smul_snd, Prod.smul_fst, smul_zero, add_zero]
    have adv : conf n (advance n v tot (c * h / gapQ n m type (conf n x))) =
        conf n v + (h * (c : ℝ)) • (1 / gapQ n m type (conf n x)) • fieldOf a (conf n x) (conf n v) := by
      rw [conf_advance, T, smul_smul]
      congr 2
      ring
    rw [adv]
    refine Prod.ext ?_ (Prod.ext (Prod.ext ?_ (Prod.ext ?_ ?_)) (Prod.ext ?_ ?_))
    · simp
    · simp
    · simp
    · simp
    · simp only [workF, Prod.snd_add, Prod.fst_add, Prod.smul_snd, Prod.smul_fst, smul_eq_mul, Prod.fst_zero]
      by_cases ht : type = .ttl
      · simp only [if_pos ht]; push_cast; ring
      · simp only [if_neg ht]; ring
    · simp only [workF, Prod.snd_add, Prod.smul_snd, smul_eq_mul, Prod.snd_zero]
      by_cases ht : type = .logH
      · simp only [if_pos ht]; push_cast; ring
      · simp only [if_neg ht]; ring

/-- The stages of a step, while nothing is divided by zero. -/
theorem stages_wide {type : ReguType} (h : ℝ) (stages : List Stage) : ∀ s : ReguSys, FrameR n m s →
    (∀ pre suf, stages = pre ++ suf →
      gapP n m type (narrow (Letters.wstep (wideF (withGravity ex).velDep m type a) (pre.flatMap split) h (wideOf n (withGravity ex).velDep s))) ≠ 0 ∧
      gapQ n m type (Letters.wstep (wideF (withGravity ex).velDep m type a) (pre.flatMap split) h (wideOf n (withGravity ex).velDep s)).2.1.1 ≠ 0) →
    ∃ s', (reguOps 1 type (withGravity ex)).run (stages.map (Stage.op h)) s = .ok s' ∧ FrameR n m s' ∧
      wideOf n (withGravity ex).velDep s' =
        Letters.wstep (wideF (withGravity ex).velDep m type a) (stages.flatMap split) h (wideOf n (withGravity ex).velDep s) := by
  induction stages with
  | nil => exact fun s hF _ => ⟨s, rfl, hF, rfl⟩
  | cons st l ih =>
    intro s hF hok
    obtain ⟨o1, o2⟩ := hok [] (st :: l) rfl
    have one : ∃ s1, (reguOps 1 type (withGravity ex)).apply (st.op h) s = .ok s1 ∧ FrameR n m s1 ∧
        wideOf n (withGravity ex).velDep s1 =
          Letters.wstep (wideF (withGravity ex).velDep m type a) (split st) h (wideOf n (withGravity ex).velDep s) := by
      cases st with
      | drift c => exact drift_wide hF _ a c h o1
      | kick c => exact kick_wide A s hF c h o2
    obtain ⟨s1, e1, F1, w1⟩ := one
    have app : ∀ l' : List Stage, Letters.wstep (wideF (withGravity ex).velDep m type a) ((st :: l').flatMap split) h (wideOf n (withGravity ex).velDep s) =
        Letters.wstep (wideF (withGravity ex).velDep m type a) (l'.flatMap split) h (wideOf n (withGravity ex).velDep s1) := fun l' => by
      rw [w1, List.flatMap_cons]
      cases st <;> rfl
    obtain ⟨s2, e2, F2, w2⟩ := ih s1 F1 (fun pre suf e => by
      rw [← app]
      exact hok (st :: pre) suf (by rw [e]; rfl))
    refine ⟨s2, ?_, F2, by rw [app, w2]⟩
    show Res.bind _ _ = _
    exact Res.bind_eq_ok.2 ⟨s1, e1, e2⟩
end

end SpaceHub.Sys
