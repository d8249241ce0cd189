import Verif.Proof.TimeChange
import Verif.Props.ConvergeOrder
import Verif.Props.ConvergeRegu

/-
C93, regularised systems.
-/

set_option autoImplicit false

namespace SpaceHub.Sys
open SpaceHub V3 Force Core Integrator Spec Props Finset Converge
open scoped ContDiff

/-! ### the regularised system as a sum of two fields on times, positions and velocities -/

/-- positions and time move with the velocities, velocities with the accelerations, each with its own time transformation -/
noncomputable def reguF (n : Nat) (m : Nat → ℝ) (B : ℝ) : Bool → ℝ × Conf n × Conf n → ℝ × Conf n × Conf n
  | true, z => (fB n m B z.2.2, fB n m B z.2.2 • z.2.2, 0)
  | false, z => (0, 0, gU n m z.2.1 • grav n m z.2.1)

/-- where nothing is divided by zero -/
def safeU (n : Nat) (m : Nat → ℝ) (B : ℝ) : Set (ℝ × Conf n × Conf n) := {z | B + kinC n m z.2.2 ≠ 0 ∧ z.2.1 ∈ free n}

theorem regu_straight (n : Nat) (m : Nat → ℝ) (B : ℝ) (X : Bool) : Straight (reguF n m B X) := by
  intro y s
  cases X <;> simp [reguF]

theorem safe_open (n : Nat) (m : Nat → ℝ) (B : ℝ) : IsOpen (safeU n m B) := by
  have h1 : IsOpen {z : ℝ × Conf n × Conf n | B + kinC n m z.2.2 ≠ 0} :=
    isOpen_ne_fun (continuous_const.add ((kinC_smooth (d := 1) n m).continuous.comp (continuous_snd.comp continuous_snd))) continuous_const
  exact h1.inter ((free_open n).preimage (continuous_fst.comp continuous_snd))

theorem regu_smooth {n : Nat} {m : Nat → ℝ} (B : ℝ) (hn : 2 ≤ n) (hm : ∀ k, k < n → 0 < m k) (X : Bool) :
    ContDiffOn ℝ ∞ (reguF n m B X) (safeU n m B) := by
  have p1 : ContDiff ℝ ∞ (fun z : ℝ × Conf n × Conf n => z.2.1) := contDiff_fst.comp contDiff_snd
  have p2 : ContDiff ℝ ∞ (fun z : ℝ × Conf n × Conf n => z.2.2) := contDiff_snd.comp contDiff_snd
  cases X
  · have hg : ContDiffOn ℝ ∞ (gU n m) (free n) := fun y hy =>
      (contDiffWithinAt_const (c := (1 : ℝ))).div ((potC_smooth n m) y hy) (potC_pos hn hm hy).ne'
    have h : ContDiffOn ℝ ∞ (fun z : ℝ × Conf n × Conf n => gU n m z.2.1 • grav n m z.2.1) (safeU n m B) :=
      (hg.comp p1.contDiffOn fun _ h => h.2).smul ((grav_smooth n m).comp p1.contDiffOn fun _ h => h.2)
    exact contDiffOn_const.prodMk (contDiffOn_const.prodMk h)
  · have hf : ContDiffOn ℝ ∞ (fun z : ℝ × Conf n × Conf n => fB n m B z.2.2) (safeU n m B) := fun z hz =>
      ((contDiffAt_const (c := (1 : ℝ))).div (contDiffAt_const.add ((kinC_smooth n m).comp p2).contDiffAt) hz.1).contDiffWithinAt
    exact hf.prodMk ((hf.smul p2.contDiffOn).prodMk contDiffOn_const)

/-- a state as a triple -/
def trip {n : Nat} (z : TS (Conf n)) : ℝ × Conf n × Conf n := (z.t, z.x, z.v)

theorem regu_flow (n : Nat) (m : Nat → ℝ) (B : ℝ) (s : Stage) (h : ℝ) (z : TS (Conf n)) :
    flow (reguF n m B) s h (trip z) = trip (tstage (grav n m) (fB n m B) (gU n m) h z s) := by
  cases s <;> simp [flow, trip, reguF, tstage, coef, letter, smul_smul]

theorem regu_wstep (n : Nat) (m : Nat → ℝ) (B h : ℝ) (l : List Stage) : ∀ z : TS (Conf n),
    wstep (reguF n m B) l h (trip z) = trip (tstep (grav n m) (fB n m B) (gU n m) l h z) := by
  induction l with
  | nil => intro z; rfl
  | cons s l ih => intro z; rw [wstep_cons, regu_flow, ih]; rfl

theorem iter_snoc {Z : Type*} (Φ : ℝ → Z → Z) (l : List ℝ) (h : ℝ) : ∀ z, iter Φ (l ++ [h]) z = Φ h (iter Φ l z) := by
  induction l with
  | nil => intro z; rfl
  | cons a l ih => intro z; exact ih _

/-! ### the motion in the transformed time -/

theorem motion_regu {n : Nat} {m : Nat → ℝ} {x v : ℝ → Nat → V3 ℝ} {t0 t1 : ℝ} (ht : t0 ≤ t1) (M : NewtonMotion n m x v t0 t1) (hn : 2 ≤ n)
    (hm : ∀ k, k < n → 0 < m k) (B : ℝ) (hB : B = potC n m (conf n (x t0)) - kinC n m (conf n (v t0))) :
    ∃ (τ1 κ F : ℝ) (θ : ℝ → ℝ), 0 ≤ τ1 ∧ 0 < κ ∧ 0 < F ∧ θ 0 = 0 ∧ θ τ1 = t1 - t0 ∧ (∀ τ ∈ Set.Icc 0 τ1, θ τ ∈ Set.Icc 0 (t1 - t0)) ∧
      (∀ τ ∈ Set.Icc 0 τ1, ∀ τ' ∈ Set.Icc 0 τ1, τ ≤ τ' → κ * (τ' - τ) ≤ θ τ' - θ τ ∧ θ τ' - θ τ ≤ F * (τ' - τ)) ∧
      (∀ τ ∈ Set.Icc 0 τ1, (θ τ, conf n (x (t0 + θ τ)), conf n (v (t0 + θ τ))) ∈ safeU n m B) ∧
      ∀ τ ∈ Set.Icc 0 τ1, HasDerivWithinAt (fun τ => (θ τ, conf n (x (t0 + θ τ)), conf n (v (t0 + θ τ))))
        (reguF n m B true (θ τ, conf n (x (t0 + θ τ)), conf n (v (t0 + θ τ))) + reguF n m B false (θ τ, conf n (x (t0 + θ τ)), conf n (v (t0 + θ τ))))
        (Set.Icc 0 τ1) τ := by
  obtain ⟨r, A, L, V, _, H, _⟩ := motion_tube M
  have mem : ∀ t ∈ Set.Icc 0 (t1 - t0), t0 + t ∈ Set.Icc t0 t1 := fun t ht => ⟨by linarith [ht.1], by linarith [ht.2]⟩
  have hfree : ∀ t ∈ Set.Icc 0 (t1 - t0), conf n (x (t0 + t)) ∈ free n := by
    intro t ht i j hij h
    exact M.apart _ (mem t ht) i j i.2 j.2 (fun e => hij (Fin.ext e)) (congrArg ve h)
  have cq : ContinuousOn (fun t => conf n (x (t0 + t))) (Set.Icc 0 (t1 - t0)) := fun t ht => (H.dq t ht).continuousWithinAt
  have key : ∀ t ∈ Set.Icc 0 (t1 - t0), B + kinC n m (conf n (v (t0 + t))) = potC n m (conf n (x (t0 + t))) := fun t ht => by
    have := motion_energy M (mem t ht)
    rw [hB]; linarith
  have pos : ∀ t ∈ Set.Icc 0 (t1 - t0), 0 < potC n m (conf n (x (t0 + t))) := fun t ht => potC_pos hn hm (hfree t ht)
  obtain ⟨τ1, κ, F, θ, h1, h2, h3, h4, h5, h6, h7, h8⟩ := time_change (T := t1 - t0) (by linarith)
    (u := fun t => potC n m (conf n (x (t0 + t)))) ((potC_smooth (d := 1) n m).continuousOn.comp cq hfree) pos
  refine ⟨τ1, κ, F, θ, h1, h2, h3, h4, h5, h6, h8, fun τ hτ => ⟨?_, hfree _ (h6 τ hτ)⟩, fun τ hτ => ?_⟩
  · show B + kinC n m (conf n (v (t0 + θ τ))) ≠ 0
    rw [key _ (h6 τ hτ)]
    exact (pos _ (h6 τ hτ)).ne'
  · have d1 := HasDerivWithinAt.scomp τ (H.dq _ (h6 τ hτ)) (h7 τ hτ) h6
    have d2 := HasDerivWithinAt.scomp τ (H.dv _ (h6 τ hτ)) (h7 τ hτ) h6
    refine ((h7 τ hτ).prodMk (d1.prodMk d2)).congr_deriv ?_
    simp only [reguF, fB, gU, Prod.mk_add_mk, add_zero, zero_add, key _ (h6 τ hτ)]

/-! ### the property -/

/-- **C93, regularised systems.** With the logarithmic Hamiltonian or the time-transformed leap-frog, up to any time `t2` before the end `t1` of the motion.
The steps are steps of the transformed time, the physical time is part of the result.  If the simulation has not passed the time `t2` before its last step,
nothing is divided by zero, and if it has not passed it after that step either, the time has gone on at a rate of at least `κ`, and the particles are off the
true ones at the time the simulation has reached by at most `K (hm ^ p + δ)`. -/
theorem C93_regularised {n : Nat} {m : Nat → ℝ} {x v : ℝ → Nat → V3 ℝ} {t0 t1 t2 : ℝ} (h02 : t0 ≤ t2) (h21 : t2 < t1) (M : NewtonMotion n m x v t0 t1)
    (hn : 2 ≤ n) (hmass : ∀ k, k < n → 0 < m k) (p N : Nat) (hp : 1 ≤ p) (c : ℝ) :
    ∃ K κ ρ : ℝ, 0 ≤ K ∧ 0 < κ ∧ 0 < ρ ∧ ∀ stages : List Stage, stages.length ≤ N → (∀ s ∈ stages, |((coef s : ℚ) : ℝ)| ≤ c) →
      ∀ P, InState n m x v t0 P → ∀ hm δ, 0 ≤ hm → hm ≤ ρ → 0 ≤ δ → δ ≤ ρ →
      (∀ w : List Bool, 1 ≤ w.length → w.length ≤ p → |(deviation stages w : ℝ)| * hm ^ (w.length - 1) ≤ δ) →
      ∀ type ∈ [ReguType.logH, .ttl], ∀ hs : List ℝ, (∀ h ∈ hs, 0 ≤ h ∧ h ≤ hm) →
      (∀ pre suf s, hs = pre ++ suf → suf ≠ [] →
        steps (reguStep 1 type gravity) (pre.map fun h => stages.map (Stage.op h)) (ReguSys.init 1 type t0 P) = .ok s → s.time ≤ t2) →
      ∃ s, steps (reguStep 1 type gravity) (hs.map fun h => stages.map (Stage.op h)) (ReguSys.init 1 type t0 P) = .ok s ∧
        (s.time ≤ t2 → t0 + κ * hs.sum ≤ s.time ∧ WithinOf n m x v s.time (K * (hm ^ p + δ)) s.P) := by
  have ht : t0 ≤ t1 := by linarith
  set B := potC n m (conf n (x t0)) - kinC n m (conf n (v t0)) with hB
  obtain ⟨r, A, L, V, _, H, _⟩ := motion_tube M
  have hA := H.hA
  have hV := H.hV
  obtain ⟨τ1, κ, F, θ, hτ1, hκ, hF, θ0, θ1, θin, θlip, hsafe, dy⟩ := motion_regu ht M hn hmass B hB
  set y : ℝ → ℝ × Conf n × Conf n := fun τ => (θ τ, conf n (x (t0 + θ τ)), conf n (v (t0 + θ τ))) with hy
  obtain ⟨K, ρ, hK, hρ, _, key⟩ := order_global (safe_open n m B) (regu_smooth B hn hmass) (regu_straight n m B) hτ1 dy hsafe p N hp c
    (ε := min ((t1 - t2) / 2) (κ / 2)) (lt_min (by linarith) (by linarith))
  refine ⟨2 * (τ1 * K * (1 + V + A)), κ / 2, min ρ ((t1 - t2) / (2 * F)), by positivity, by positivity,
    lt_min hρ (div_pos (by linarith) (by linarith)), fun stages hN hco P S hm δ hm0 hmρ hδ0 hδρ hdev => ?_⟩
  obtain ⟨hsm, key⟩ := key stages hN hco hm δ hm0 (hmρ.trans (min_le_left _ _)) hδ0 (hδρ.trans (min_le_left _ _)) hdev
  set η := K * (hm ^ p + δ) with hη
  have hη0 : 0 ≤ η := by positivity
  have hητ : τ1 * η ≤ (t1 - t2) / 2 := by
    have := hsm.trans (min_le_left _ _)
    linarith [show (τ1 + 1) * η = τ1 * η + η by ring]
  have hηκ : η ≤ κ / 2 := by
    have := hsm.trans (min_le_right _ _)
    have : 0 ≤ τ1 * η := by positivity
    linarith [show (τ1 + 1) * η = τ1 * η + η by ring]
  have hmF : hm * F ≤ (t1 - t2) / 2 := by
    have := (le_div_iff₀ (by positivity)).1 (hmρ.trans (min_le_right _ _))
    linarith
  -- the model follows the abstract integrator
  have main : ∀ hs : List ℝ, (∀ h ∈ hs, 0 ≤ h ∧ h ≤ hm) → hs.sum ≤ τ1 →
      ∃ s z, steps (reguStep 1 .logH gravity) (hs.map fun h => stages.map (Stage.op h)) (ReguSys.init 1 .logH t0 P) = .ok s ∧ Rel n m B t0 s z ∧
        trip z = iter (wstep (reguF n m B) stages) hs (y 0) := by
    intro hs
    induction hs using List.reverseRecOn with
    | nil =>
      intro _ _
      have e0 := start_conf S
      have e1 : conf n P.pos = conf n (x t0) := congrArg Prod.fst e0
      have e2 : conf n P.vel = conf n (v t0) := congrArg Prod.snd e0
      refine ⟨_, ⟨0, conf n (x t0), conf n (v t0)⟩, rfl, ⟨S.num, S.mass, ?_, by simp [ReguSys.init], e1, e2⟩, ?_⟩
      · show -totalEnergy 1 P = B
        rw [totalEnergy, potentialDirect_eq, potC_conf S.num S.mass, kinC_conf S.num S.mass, e1, e2, hB]
        ring
      · show trip _ = y 0
        simp only [hy, trip, θ0, add_zero]
    | append_singleton hs h ih =>
      intro hhs hsum
      obtain ⟨h0, h1⟩ := hhs h (by simp)
      have hhs' : ∀ h ∈ hs, 0 ≤ h ∧ h ≤ hm := fun h hh => hhs h (List.mem_append_left _ hh)
      rw [List.sum_append, List.sum_singleton] at hsum
      obtain ⟨s, z, e, R, hz⟩ := ih hhs' (by linarith)
      have Rp : Rel n m B t0 (s.preIter gravity) z := by
        have : s.preIter gravity = s := rfl
        rw [this]; exact R
      obtain ⟨s', e', R'⟩ := rel_stages (h := h) stages (s.preIter gravity) z Rp (fun pre suf ep => by
        have g := (key hs hhs' (by linarith)).2 pre suf h ep h0 h1
        rw [← hz, regu_wstep] at g
        exact ⟨g.1, (potC_pos hn hmass g.2).ne'⟩)
      refine ⟨s', _, ?_, R', ?_⟩
      · rw [List.map_append, List.map_cons, List.map_nil, regu_steps_snoc _ _ _ _ e]
        exact e'
      · rw [iter_snoc, ← hz, regu_wstep]
  have near : ∀ (hs : List ℝ) (s : ReguSys) (z : TS (Conf n)), (∀ h ∈ hs, 0 ≤ h ∧ h ≤ hm) → hs.sum ≤ τ1 → Rel n m B t0 s z →
      trip z = iter (wstep (reguF n m B) stages) hs (y 0) → ‖trip z - y hs.sum‖ ≤ hs.sum * η := by
    intro hs s z hhs hsum R hz
    rw [hz]
    exact (key hs hhs hsum).1
  have room : ∀ hs : List ℝ, (∀ h ∈ hs, 0 ≤ h ∧ h ≤ hm) → (∀ pre suf s, hs = pre ++ suf → suf ≠ [] →
      steps (reguStep 1 .logH gravity) (pre.map fun h => stages.map (Stage.op h)) (ReguSys.init 1 .logH t0 P) = .ok s → s.time ≤ t2) → hs.sum ≤ τ1 := by
    intro hs
    induction hs using List.reverseRecOn with
    | nil => intro _ _; simpa using hτ1
    | append_singleton hs h ih =>
      intro hhs hpre
      obtain ⟨h0, h1⟩ := hhs h (by simp)
      have hhs' : ∀ h ∈ hs, 0 ≤ h ∧ h ≤ hm := fun h hh => hhs h (List.mem_append_left _ hh)
      have hle := ih hhs' (fun pre suf s e _ es => hpre pre (suf ++ [h]) s (by rw [e, List.append_assoc]) (by simp) es)
      have h00 : 0 ≤ hs.sum := List.sum_nonneg fun h hh => (hhs' h hh).1
      obtain ⟨s, z, e, R, hz⟩ := main hs hhs' hle
      have hs2 := hpre hs [h] s rfl (by simp) e
      have g := (norm_fst_le _).trans (near hs s z hhs' hle R hz)
      have g' : |z.t - θ hs.sum| ≤ hs.sum * η := g
      have g2 : hs.sum * η ≤ τ1 * η := mul_le_mul_of_nonneg_right hle hη0
      rw [R.time] at hs2
      obtain ⟨_, b⟩ := θlip hs.sum ⟨h00, hle⟩ τ1 ⟨hτ1, le_rfl⟩ hle
      rw [θ1] at b
      have hab := abs_le.1 g'
      rw [List.sum_append, List.sum_singleton]
      have hlow : (t1 - t2) / 2 ≤ F * (τ1 - hs.sum) := by linarith
      have : F * hm ≤ F * (τ1 - hs.sum) := by linarith
      have := le_of_mul_le_mul_left this hF
      linarith
  have final : ∀ hs : List ℝ, (∀ h ∈ hs, 0 ≤ h ∧ h ≤ hm) →
      (∀ pre suf s, hs = pre ++ suf → suf ≠ [] →
        steps (reguStep 1 .logH gravity) (pre.map fun h => stages.map (Stage.op h)) (ReguSys.init 1 .logH t0 P) = .ok s → s.time ≤ t2) →
      ∃ s, steps (reguStep 1 .logH gravity) (hs.map fun h => stages.map (Stage.op h)) (ReguSys.init 1 .logH t0 P) = .ok s ∧
        (s.time ≤ t2 → t0 + κ / 2 * hs.sum ≤ s.time ∧ WithinOf n m x v s.time (2 * (τ1 * K * (1 + V + A)) * (hm ^ p + δ)) s.P) := by
    intro hs hhs hpre
    have hle := room hs hhs hpre
    have h00 : 0 ≤ hs.sum := List.sum_nonneg fun h hh => (hhs h hh).1
    obtain ⟨s, z, e, R, hz⟩ := main hs hhs hle
    refine ⟨s, e, fun h2 => ?_⟩
    have g := near hs s z hhs hle R hz
    have g1 : |z.t - θ hs.sum| ≤ hs.sum * η := (norm_fst_le _).trans g
    have g2 := (norm_snd_le _).trans g
    have gx : ‖z.x - conf n (x (t0 + θ hs.sum))‖ ≤ hs.sum * η := (norm_fst_le _).trans g2
    have gv : ‖z.v - conf n (v (t0 + θ hs.sum))‖ ≤ hs.sum * η := (norm_snd_le _).trans g2
    obtain ⟨b, _⟩ := θlip 0 ⟨le_rfl, hτ1⟩ hs.sum ⟨h00, hle⟩ h00
    rw [θ0, sub_zero, sub_zero] at b
    have hab := abs_le.1 g1
    have hrate : κ / 2 * hs.sum ≤ z.t := by
      have := mul_le_mul_of_nonneg_left hηκ h00
      linarith
    have hzt : 0 ≤ z.t := le_trans (by positivity) hrate
    refine ⟨by rw [R.time]; linarith, ?_⟩
    have hz1 : z.t ∈ Set.Icc 0 (t1 - t0) := ⟨hzt, by rw [R.time] at h2; linarith⟩
    have hθ := θin hs.sum ⟨h00, hle⟩
    have lx := Convex.norm_image_sub_le_of_norm_hasDerivWithin_le (C := V) H.dq (fun t ht => H.vel t ht) (convex_Icc 0 (t1 - t0)) hz1 hθ
    have lv := Convex.norm_image_sub_le_of_norm_hasDerivWithin_le (C := A) H.dv (fun t ht => H.acc t ht _ (by simpa using H.hr.le))
      (convex_Icc 0 (t1 - t0)) hz1 hθ
    rw [Real.norm_eq_abs, abs_sub_comm] at lx lv
    have q1 : hs.sum * η ≤ τ1 * η := mul_le_mul_of_nonneg_right hle hη0
    have lx' := lx.trans (mul_le_mul_of_nonneg_left (g1.trans q1) hV)
    have lv' := lv.trans (mul_le_mul_of_nonneg_left (g1.trans q1) hA)
    have nx : ‖z.x - conf n (x (t0 + z.t))‖ ≤ τ1 * η * (1 + V + A) := by
      have := norm_add_le (z.x - conf n (x (t0 + θ hs.sum))) (conf n (x (t0 + θ hs.sum)) - conf n (x (t0 + z.t)))
      rw [sub_add_sub_cancel] at this
      have p1 : 0 ≤ A * (τ1 * η) := by positivity
      linarith [show τ1 * η * (1 + V + A) = τ1 * η + V * (τ1 * η) + A * (τ1 * η) by ring]
    have nv : ‖z.v - conf n (v (t0 + z.t))‖ ≤ τ1 * η * (1 + V + A) := by
      have := norm_add_le (z.v - conf n (v (t0 + θ hs.sum))) (conf n (v (t0 + θ hs.sum)) - conf n (v (t0 + z.t)))
      rw [sub_add_sub_cancel] at this
      have p1 : 0 ≤ V * (τ1 * η) := by positivity
      linarith [show τ1 * η * (1 + V + A) = τ1 * η + V * (τ1 * η) + A * (τ1 * η) by ring]
    have e3 : 2 * (τ1 * K * (1 + V + A)) * (hm ^ p + δ) = 2 * (τ1 * η * (1 + V + A)) := by rw [hη]; ring
    rw [e3]
    refine within_of R.num R.mass ?_
    rw [R.pos, R.vel, R.time, Prod.mk_sub_mk, Prod.norm_def]
    exact max_le nx nv
  intro type htype hs hhs hpre
  simp only [List.mem_cons, List.not_mem_nil, or_false] at htype
  rcases htype with rfl | rfl
  · exact final hs hhs hpre
  · have twin : ∀ l : List ℝ, ∀ s, steps (reguStep 1 .logH gravity) (l.map fun h => stages.map (Stage.op h)) (ReguSys.init 1 .logH t0 P) = .ok s →
        ∃ t, steps (reguStep 1 .ttl gravity) (l.map fun h => stages.map (Stage.op h)) (ReguSys.init 1 .ttl t0 P) = .ok t ∧ s.P = t.P ∧ s.time = t.time := by
      intro l s e
      rcases C48_ttl_equals_logH 1 Lib.newton t0 P (l.map fun h => stages.map (Stage.op h)) with ⟨h1, _⟩ | ⟨s1, t, h1, h2, h3, h4, _⟩
      · have : (Res.ok s : Res ReguSys) = .nan := e.symm.trans h1
        cases this
      · have : (Res.ok s : Res ReguSys) = .ok s1 := e.symm.trans h1
        cases this
        exact ⟨t, h2, h3, h4⟩
    obtain ⟨s, e, f⟩ := final hs hhs (fun pre suf s e' hs es => by
      obtain ⟨t, g1, _, g3⟩ := twin pre s es
      rw [g3]
      exact hpre pre suf t e' hs g1)
    obtain ⟨t, g1, g2, g3⟩ := twin hs s e
    rw [g2, g3] at f
    exact ⟨t, g1, f⟩

/-- A simulation of a regularised system with a fixed step `h` of the transformed time passes `t2` after finitely many steps; at every step before, all
positions and velocities are within `K (h ^ p + δ)` of the true ones. -/
theorem C93_regularised_reaches {n : Nat} {m : Nat → ℝ} {x v : ℝ → Nat → V3 ℝ} {t0 t1 t2 : ℝ} (h02 : t0 ≤ t2) (h21 : t2 < t1)
    (M : NewtonMotion n m x v t0 t1) (hn : 2 ≤ n) (hmass : ∀ k, k < n → 0 < m k) (p N : Nat) (hp : 1 ≤ p) (c : ℝ) :
    ∃ K ρ : ℝ, 0 ≤ K ∧ 0 < ρ ∧ ∀ stages : List Stage, stages.length ≤ N → (∀ s ∈ stages, |((coef s : ℚ) : ℝ)| ≤ c) →
      ∀ P, InState n m x v t0 P → ∀ h δ, 0 < h → h ≤ ρ → 0 ≤ δ → δ ≤ ρ →
      (∀ w : List Bool, 1 ≤ w.length → w.length ≤ p → |(deviation stages w : ℝ)| * h ^ (w.length - 1) ≤ δ) →
      ∀ type ∈ [ReguType.logH, .ttl], ∃ (k : Nat) (s : Nat → ReguSys),
        (∀ i, i ≤ k + 1 →
          steps (reguStep 1 type gravity) (List.replicate i (stages.map (Stage.op h))) (ReguSys.init 1 type t0 P) = .ok (s i)) ∧
        (∀ i, i ≤ k → (s i).time ≤ t2 ∧ WithinOf n m x v (s i).time (K * (h ^ p + δ)) (s i).P) ∧ t2 < (s (k + 1)).time := by
  obtain ⟨K, κ, ρ, hK, hκ, hρ, H⟩ := C93_regularised h02 h21 M hn hmass p N hp c
  exact ⟨K, ρ, hK, hρ, fun stages hN hco P S h δ hh hle hδ0 hδ hdev type htype =>
    reach_end h02 hκ hh (H stages hN hco P S h δ hh.le hle hδ0 hδ hdev type htype)⟩

/-- **C93, ARchain systems.** The same, whatever chains the steps build. -/
theorem C93_archain {n : Nat} {m : Nat → ℝ} {x v : ℝ → Nat → V3 ℝ} {t0 t1 t2 : ℝ} (h02 : t0 ≤ t2) (h21 : t2 < t1)
    (M : NewtonMotion n m x v t0 t1) (hn : 2 ≤ n) (hmass : ∀ k, k < n → 0 < m k) (p N : Nat) (hp : 1 ≤ p) (c : ℝ) :
    ∃ K ρ : ℝ, 0 ≤ K ∧ 0 < ρ ∧ ∀ stages : List Stage, stages.length ≤ N → (∀ s ∈ stages, |((coef s : ℚ) : ℝ)| ≤ c) →
      ∀ P, InState n m x v t0 P → ∀ idx, IndexOf P idx → ∀ h δ, 0 < h → h ≤ ρ → 0 ≤ δ → δ ≤ ρ →
      (∀ w : List Bool, 1 ≤ w.length → w.length ≤ p → |(deviation stages w : ℝ)| * h ^ (w.length - 1) ≤ δ) →
      ∀ type ∈ [ReguType.logH, .ttl], ∃ s0, ARSys.init 1 type t0 P idx = .ok s0 ∧ ∃ k : Nat,
        (∀ i, i ≤ k + 1 → ∃ r, Steps (ARStep 1 type ⟨Lib.newtonC, []⟩) (List.replicate i (stages.map (Stage.op h))) s0 (.ok r)) ∧
        (∀ i r, i ≤ k → Steps (ARStep 1 type ⟨Lib.newtonC, []⟩) (List.replicate i (stages.map (Stage.op h))) s0 r →
          ∃ s, r = .ok s ∧ s.time ≤ t2 ∧ WithinOf n m x v s.time (K * (h ^ p + δ)) s.P) ∧
        ∀ r, Steps (ARStep 1 type ⟨Lib.newtonC, []⟩) (List.replicate (k + 1) (stages.map (Stage.op h))) s0 r → ∃ s, r = .ok s ∧ t2 < s.time := by
  obtain ⟨K, ρ, hK, hρ, H⟩ := C93_regularised_reaches h02 h21 M hn hmass p N hp c
  refine ⟨K, ρ, hK, hρ, fun stages hN hco P S idx hi h δ hh hle hδ0 hδ hdev type htype => ?_⟩
  obtain ⟨k, s, h1, h2, h3⟩ := H stages hN hco P S h δ hh hle hδ0 hδ hdev type htype
  exact archain_end (IC := ⟨Lib.newtonC, []⟩) (I := gravity) ⟨agrees_newton, .nil⟩ hi h1 h2 h3

/-- Non-vacuity: the circular motion of two masses over any stretch of time with the fourth-order integrator, without a residual error. -/
example (t0 t2 : ℝ) (ht : t0 ≤ t2) : ∃ K h0 : ℝ, 0 < h0 ∧ ∀ h, 0 < h → h ≤ h0 → ∃ (k : Nat) (s : Nat → ReguSys), (∀ i, i ≤ k + 1 →
      steps (reguStep 1 .logH gravity) (List.replicate i (symplectic4th.map (Stage.op h)))
        (ReguSys.init 1 .logH t0 ⟨2, circlePos t0, circleVel t0, fun _ => 1 / 2⟩) = .ok (s i)) ∧
      (∀ i, i ≤ k → (s i).time ≤ t2 ∧ WithinOf 2 (fun _ => 1 / 2) circlePos circleVel (s i).time (K * (h ^ 4 + 1e-14 * h ^ 2)) (s i).P) ∧
      t2 < (s (k + 1)).time := by
  obtain ⟨K, ρ, hK, hρ, H⟩ := C93_regularised_reaches ht (lt_add_one t2) (circle_motion t0 (t2 + 1)) le_rfl (fun _ _ => by norm_num) 4 63 (by norm_num) 3
  refine ⟨K, min ρ 1, lt_min hρ one_pos, fun h hh hle => ?_⟩
  have hm1 : h ≤ 1 := hle.trans (min_le_right _ _)
  have hmr : h ≤ ρ := hle.trans (min_le_left _ _)
  obtain ⟨c1, c2, _⟩ := C93_conditions.1 (symplectic4th, 4) (by simp [nominal])
  have hsq : h ^ 2 ≤ h := pow_le_of_le_one hh.le hm1 (by norm_num)
  exact H symplectic4th c1 c2 _ ⟨rfl, fun _ _ => rfl, fun _ _ => rfl, fun _ _ => rfl⟩ h (1e-14 * h ^ 2) hh hmr (by positivity)
    (by linarith [sq_nonneg h]) (fourth_dev hh.le hm1) .logH (by simp)

end SpaceHub.Sys
