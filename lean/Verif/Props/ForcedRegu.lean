import Verif.Proof.ReguForced

/-
C104: the integrators have their order on regularised systems and AR-chain systems with additional forces.
-/

set_option autoImplicit false

namespace SpaceHub.Sys
open SpaceHub V3 Force Core Integrator Spec Props Finset Converge
open scoped ContDiff

/-- a motion with smooth accelerations is Lipschitz -/
theorem forced_lip {n : Nat} {a : Field n} {x v : ℝ → Nat → V3 ℝ} {t0 t1 : ℝ} (M : ForcedMotion n a x v t0 t1) {U : Set (Conf n × Conf n)}
    (hsm : ContDiffOn ℝ ∞ (inNumbers a) U) (hin : ∀ t ∈ Set.Icc t0 t1, (conf n (x t), conf n (v t)) ∈ U) :
    ∃ V : ℝ, 0 ≤ V ∧ ∀ t ∈ Set.Icc t0 t1, ∀ t' ∈ Set.Icc t0 t1, ‖(conf n (x t), conf n (v t)) - (conf n (x t'), conf n (v t'))‖ ≤ V * |t - t'| := by
  have mem : ∀ t ∈ Set.Icc 0 (t1 - t0), t0 + t ∈ Set.Icc t0 t1 := fun t ht => ⟨by linarith [ht.1], by linarith [ht.2]⟩
  have dq : ∀ t ∈ Set.Icc 0 (t1 - t0), HasDerivWithinAt (fun t => (conf n (x (t0 + t)), conf n (v (t0 + t)))) (forcedF a (conf n (x (t0 + t)), conf n (v (t0 + t))))
      (Set.Icc 0 (t1 - t0)) t := fun t ht => (forced_curve M ht).1.prodMk (forced_curve M ht).2
  have hF : ContDiffOn ℝ ∞ (forcedF a) U := contDiffOn_snd.prodMk hsm
  have cq : ContinuousOn (fun t => (conf n (x (t0 + t)), conf n (v (t0 + t)))) (Set.Icc 0 (t1 - t0)) := fun t ht => (dq t ht).continuousWithinAt
  obtain ⟨V, hV⟩ := isCompact_Icc.exists_bound_of_continuousOn (hF.continuousOn.comp cq fun t ht => hin _ (mem t ht))
  refine ⟨max V 0, le_max_right _ _, fun t h t' h' => ?_⟩
  have := Convex.norm_image_sub_le_of_norm_hasDerivWithin_le (C := max V 0) dq (fun t ht => (hV t ht).trans (le_max_left _ _)) (convex_Icc 0 (t1 - t0))
    (x := t' - t0) (y := t - t0) ⟨by linarith [h'.1], by linarith [h'.2]⟩ ⟨by linarith [h.1], by linarith [h.2]⟩
  rw [show t0 + (t - t0) = t by ring, show t0 + (t' - t0) = t' by ring, show t - t0 - (t' - t0) = t - t' by ring, Real.norm_eq_abs] at this
  exact this

/-! ### the property -/

/-- **C104, regularised systems.** `n` particles of positive masses `m` move from `t0` to `t1` with the accelerations that gravity and the additional forces
`ex` give them, dependent on the velocities or not, without collisions; the accelerations are smooth along the motion.  With the logarithmic Hamiltonian, the
time-transformed leap-frog or no transformation, up to any time `t2` before `t1`: for every order `p` and every bound on the number and the size of the
coefficients of an integrator: if its coefficients for all words of at most `p` moves are those of the true motion (up to a deviation that contributes at
most `δ`), then for small enough steps, constant or not: if the simulation has not passed the time `t2` before its last step, nothing is divided by zero; and if
it has not passed it after that step either, the time has gone on at a rate of at least `κ`, and the particles are off the true ones at the time the simulation
has reached by at most `K (hm ^ p + δ)`. -/
theorem C104_regularised {ex : List (ForceClass Particles)} {n : Nat} {m : Nat → ℝ} {a : Field n} (A : Acts (withGravity ex) n m a)
    {x v : ℝ → Nat → V3 ℝ} {t0 t1 t2 : ℝ} (h02 : t0 ≤ t2) (h21 : t2 < t1) (M : ForcedMotion n a x v t0 t1) (hS : SmoothAlong a x v t0 t1)
    (apart : ∀ t ∈ Set.Icc t0 t1, ∀ i j, i < n → j < n → i ≠ j → x t i ≠ x t j) (hn : 2 ≤ n) (hmass : ∀ k, k < n → 0 < m k) (type : ReguType)
    (p N : Nat) (hp : 1 ≤ p) (c : ℝ) :
    ∃ K κ ρ : ℝ, 0 ≤ K ∧ 0 < κ ∧ 0 < ρ ∧ ∀ stages : List Stage, stages.length ≤ N → (∀ s ∈ stages, |((coef s : ℚ) : ℝ)| ≤ c) →
      ∀ P, InState n m x v t0 P → ∀ hm δ, 0 ≤ hm → hm ≤ ρ → 0 ≤ δ → δ ≤ ρ →
      (∀ w : List Move, 1 ≤ w.length → w.length ≤ p → |(Letters.deviation (stages.flatMap split) w : ℝ)| * hm ^ (w.length - 1) ≤ δ) →
      ∀ hs : List ℝ, (∀ h ∈ hs, 0 ≤ h ∧ h ≤ hm) →
      (∀ pre suf s, hs = pre ++ suf → suf ≠ [] →
        steps (reguStep 1 type (withGravity ex)) (pre.map fun h => stages.map (Stage.op h)) (ReguSys.init 1 type t0 P) = .ok s → s.time ≤ t2) →
      ∃ s, steps (reguStep 1 type (withGravity ex)) (hs.map fun h => stages.map (Stage.op h)) (ReguSys.init 1 type t0 P) = .ok s ∧
        (s.time ≤ t2 → t0 + κ * hs.sum ≤ s.time ∧ WithinOf n m x v s.time (K * (hm ^ p + δ)) s.P) := by
  have ht : t0 ≤ t1 := by linarith
  obtain ⟨U, hU, hsm, hin⟩ := hS
  have mem : ∀ t ∈ Set.Icc 0 (t1 - t0), t0 + t ∈ Set.Icc t0 t1 := fun t ht => ⟨by linarith [ht.1], by linarith [ht.2]⟩
  obtain ⟨V, hV, lip⟩ := forced_lip M hsm hin
  obtain ⟨dep, hdep⟩ : ∃ dep, dep = (withGravity ex).velDep := ⟨_, rfl⟩
  obtain ⟨τ1, κ, F, θ, hτ1, hκ, hF, θ0, θ1, θin, θlip, hsafe, dy⟩ := wide_motion ht M hin apart hn hmass type dep
  set y : ℝ → Wide n := fun τ => wideAt n dep m type x v t0 (t0 + θ τ) with hy
  obtain ⟨K, ρ, hK, hρ, _, key⟩ := Letters.order_global (wide_open dep m type hU) (wide_smooth dep type hsm hn hmass)
    (fun X => by rw [hdep]; exact wide_straight A type X) hτ1 dy hsafe p (3 * N) hp c
    (π := level dep) (level_norm dep) (fun t _ => by cases dep <;> rfl)
    (ε := min ((t1 - t2) / 2) (κ / 2)) (lt_min (by linarith) (by linarith))
  refine ⟨2 * (τ1 * K * (1 + V)), κ / 2, min ρ ((t1 - t2) / (2 * F)), by positivity, by positivity,
    lt_min hρ (div_pos (by linarith) (by linarith)), fun stages hN hco P S hm δ hm0 hmρ hδ0 hδρ hdev => ?_⟩
  obtain ⟨hsm', key⟩ := key _ ((Letters.split_length stages).trans (by omega)) (Letters.split_coef hco) hm δ hm0 (hmρ.trans (min_le_left _ _)) hδ0
    (hδρ.trans (min_le_left _ _)) hdev
  set η := K * (hm ^ p + δ) with hη
  have hη0 : 0 ≤ η := by positivity
  have hητ : τ1 * η ≤ (t1 - t2) / 2 := by
    have := hsm'.trans (min_le_left _ _)
    linarith [show (τ1 + 1) * η = τ1 * η + η by ring]
  have hηκ : η ≤ κ / 2 := by
    have := hsm'.trans (min_le_right _ _)
    have : 0 ≤ τ1 * η := by positivity
    linarith [show (τ1 + 1) * η = τ1 * η + η by ring]
  have hmF : hm * F ≤ (t1 - t2) / 2 := by
    have := (le_div_iff₀ (by positivity)).1 (hmρ.trans (min_le_right _ _))
    linarith
  -- the model follows the abstract integrator
  have main : ∀ hs : List ℝ, (∀ h ∈ hs, 0 ≤ h ∧ h ≤ hm) → hs.sum ≤ τ1 →
      ∃ s, steps (reguStep 1 type (withGravity ex)) (hs.map fun h => stages.map (Stage.op h)) (ReguSys.init 1 type t0 P) = .ok s ∧ FrameR n m s ∧
        wideOf n dep s = iter (fun h z => Letters.wstep (wideF dep m type a) (stages.flatMap split) h (level dep z)) hs (y 0) := by
    intro hs
    induction hs using List.reverseRecOn with
    | nil =>
      intro _ _
      have e0 := start_conf S
      have e1 : conf n P.pos = conf n (x t0) := congrArg Prod.fst e0
      have e2 : conf n P.vel = conf n (v t0) := congrArg Prod.snd e0
      refine ⟨_, rfl, ⟨S.num, S.mass⟩, ?_⟩
      show wideOf n dep (ReguSys.init 1 type t0 P) = y 0
      simp only [hy, θ0, add_zero]
      have o1 : (ReguSys.init 1 type t0 P).R.omega = potC n m (conf n (x t0)) := by
        show -potentialDirect 1 P = _
        rw [potentialDirect_eq, potC_conf S.num S.mass, e1, neg_neg]
      have o2 : (ReguSys.init 1 type t0 P).R.bindE = potC n m (conf n (x t0)) - kinC n m (conf n (v t0)) := by
        show -totalEnergy 1 P = _
        rw [totalEnergy, potentialDirect_eq, potC_conf S.num S.mass, kinC_conf S.num S.mass, e1, e2]
        ring
      unfold wideOf wideAt
      rw [o1, o2]
      simp only [ite_self, ReguSys.init, e1, e2]
    | append_singleton hs h ih =>
      intro hhs hsum
      obtain ⟨h0, h1⟩ := hhs h (by simp)
      have hhs' : ∀ h ∈ hs, 0 ≤ h ∧ h ≤ hm := fun h hh => hhs h (List.mem_append_left _ hh)
      rw [List.sum_append, List.sum_singleton] at hsum
      obtain ⟨s, e, R, hz⟩ := ih hhs' (by linarith)
      have Rp : FrameR n m (s.preIter (withGravity ex)) := by
        unfold ReguSys.preIter
        split_ifs <;> exact R
      have lv : wideOf n dep (s.preIter (withGravity ex)) = level dep (wideOf n dep s) := by
        unfold ReguSys.preIter level
        rw [← hdep]
        cases dep <;> rfl
      subst hdep
      obtain ⟨s', e', R', w'⟩ := stages_wide A (type := type) h stages (s.preIter (withGravity ex)) Rp (fun pre suf ep => by
        have g := (key hs hhs' (by linarith)).2 (pre.flatMap split) (suf.flatMap split) h (by rw [ep, List.flatMap_append]) h0 h1
        rw [← hz, ← lv] at g
        exact ⟨g.1.1, (gapQ_pos type hn hmass g.1.2.1).ne'⟩)
      refine ⟨s', ?_, R', ?_⟩
      · rw [List.map_append, List.map_cons, List.map_nil, regu_steps_snoc _ _ _ _ e]
        exact e'
      · rw [iter_snoc, ← hz, w', lv]
  have near : ∀ (hs : List ℝ) (s : ReguSys), (∀ h ∈ hs, 0 ≤ h ∧ h ≤ hm) → hs.sum ≤ τ1 →
      wideOf n dep s = iter (fun h z => Letters.wstep (wideF dep m type a) (stages.flatMap split) h (level dep z)) hs (y 0) →
      |s.time - (t0 + θ hs.sum)| ≤ hs.sum * η ∧
        ‖(conf n s.P.pos, conf n s.P.vel) - (conf n (x (t0 + θ hs.sum)), conf n (v (t0 + θ hs.sum)))‖ ≤ hs.sum * η := by
    intro hs s hhs hsum hz
    have g := (key hs hhs hsum).1
    rw [← hz] at g
    have g2 := (norm_fst_le (wideOf n dep s - y hs.sum).2).trans ((norm_snd_le (wideOf n dep s - y hs.sum)).trans g)
    have g3 := (norm_fst_le (wideOf n dep s - y hs.sum).2.1).trans g2
    have g4 := (norm_fst_le (wideOf n dep s - y hs.sum).2.1.2).trans ((norm_snd_le (wideOf n dep s - y hs.sum).2.1).trans g2)
    exact ⟨(norm_fst_le _).trans g, norm_prod_le_iff.2 ⟨g3, g4⟩⟩
  have room : ∀ hs : List ℝ, (∀ h ∈ hs, 0 ≤ h ∧ h ≤ hm) → (∀ pre suf s, hs = pre ++ suf → suf ≠ [] →
      steps (reguStep 1 type (withGravity ex)) (pre.map fun h => stages.map (Stage.op h)) (ReguSys.init 1 type t0 P) = .ok s → s.time ≤ t2) → hs.sum ≤ τ1 := by
    intro hs
    induction hs using List.reverseRecOn with
    | nil => intro _ _; simpa using hτ1
    | append_singleton hs h ih =>
      intro hhs hpre
      obtain ⟨h0, h1⟩ := hhs h (by simp)
      have hhs' : ∀ h ∈ hs, 0 ≤ h ∧ h ≤ hm := fun h hh => hhs h (List.mem_append_left _ hh)
      have hle := ih hhs' (fun pre suf s e _ es => hpre pre (suf ++ [h]) s (by rw [e, List.append_assoc]) (by simp) es)
      have h00 : 0 ≤ hs.sum := List.sum_nonneg fun h hh => (hhs' h hh).1
      obtain ⟨s, e, _, hz⟩ := main hs hhs' hle
      have hs2 := hpre hs [h] s rfl (by simp) e
      have g' := (near hs s hhs' hle hz).1
      have g2 : hs.sum * η ≤ τ1 * η := mul_le_mul_of_nonneg_right hle hη0
      obtain ⟨_, b⟩ := θlip hs.sum ⟨h00, hle⟩ τ1 ⟨hτ1, le_rfl⟩ hle
      rw [θ1] at b
      have hab := abs_le.1 g'
      rw [List.sum_append, List.sum_singleton]
      have hlow : (t1 - t2) / 2 ≤ F * (τ1 - hs.sum) := by linarith
      have : F * hm ≤ F * (τ1 - hs.sum) := by linarith
      have := le_of_mul_le_mul_left this hF
      linarith
  intro hs hhs hpre
  have hle := room hs hhs hpre
  have h00 : 0 ≤ hs.sum := List.sum_nonneg fun h hh => (hhs h hh).1
  obtain ⟨s, e, R, hz⟩ := main hs hhs hle
  refine ⟨s, e, fun h2 => ?_⟩
  obtain ⟨g1, g2⟩ := near hs s hhs hle hz
  obtain ⟨b, _⟩ := θlip 0 ⟨le_rfl, hτ1⟩ hs.sum ⟨h00, hle⟩ h00
  rw [θ0, sub_zero, sub_zero] at b
  have hab := abs_le.1 g1
  have hrate : t0 + κ / 2 * hs.sum ≤ s.time := by
    have := mul_le_mul_of_nonneg_left hηκ h00
    linarith
  have hκ0 : 0 ≤ κ / 2 * hs.sum := by positivity
  refine ⟨hrate, ?_⟩
  have q1 : hs.sum * η ≤ τ1 * η := mul_le_mul_of_nonneg_right hle hη0
  have l := lip (t0 + θ hs.sum) (mem _ (θin hs.sum ⟨h00, hle⟩)) s.time ⟨by linarith, by linarith⟩
  rw [abs_sub_comm] at l
  have l' := l.trans (mul_le_mul_of_nonneg_left (g1.trans q1) hV)
  have tri := norm_add_le ((conf n s.P.pos, conf n s.P.vel) - (conf n (x (t0 + θ hs.sum)), conf n (v (t0 + θ hs.sum))))
    ((conf n (x (t0 + θ hs.sum)), conf n (v (t0 + θ hs.sum))) - (conf n (x s.time), conf n (v s.time)))
  rw [sub_add_sub_cancel] at tri
  have e3 : 2 * (τ1 * K * (1 + V)) * (hm ^ p + δ) = 2 * (τ1 * η + V * (τ1 * η)) := by rw [hη]; ring
  rw [e3]
  exact within_of R.1 R.2 (by linarith)

/-- A simulation of a regularised system with a fixed step `h` of the transformed time passes `t2` after finitely many steps; at every step before, all
positions and velocities are within `K (h ^ p + δ)` of the true ones. -/
theorem C104_regularised_reaches {ex : List (ForceClass Particles)} {n : Nat} {m : Nat → ℝ} {a : Field n} (A : Acts (withGravity ex) n m a)
    {x v : ℝ → Nat → V3 ℝ} {t0 t1 t2 : ℝ} (h02 : t0 ≤ t2) (h21 : t2 < t1) (M : ForcedMotion n a x v t0 t1) (hS : SmoothAlong a x v t0 t1)
    (apart : ∀ t ∈ Set.Icc t0 t1, ∀ i j, i < n → j < n → i ≠ j → x t i ≠ x t j) (hn : 2 ≤ n) (hmass : ∀ k, k < n → 0 < m k) (type : ReguType)
    (p N : Nat) (hp : 1 ≤ p) (c : ℝ) :
    ∃ K ρ : ℝ, 0 ≤ K ∧ 0 < ρ ∧ ∀ stages : List Stage, stages.length ≤ N → (∀ s ∈ stages, |((coef s : ℚ) : ℝ)| ≤ c) →
      ∀ P, InState n m x v t0 P → ∀ h δ, 0 < h → h ≤ ρ → 0 ≤ δ → δ ≤ ρ →
      (∀ w : List Move, 1 ≤ w.length → w.length ≤ p → |(Letters.deviation (stages.flatMap split) w : ℝ)| * h ^ (w.length - 1) ≤ δ) →
      ∃ (k : Nat) (s : Nat → ReguSys),
        (∀ i, i ≤ k + 1 →
          steps (reguStep 1 type (withGravity ex)) (List.replicate i (stages.map (Stage.op h))) (ReguSys.init 1 type t0 P) = .ok (s i)) ∧
        (∀ i, i ≤ k → (s i).time ≤ t2 ∧ WithinOf n m x v (s i).time (K * (h ^ p + δ)) (s i).P) ∧ t2 < (s (k + 1)).time := by
  obtain ⟨K, κ, ρ, hK, hκ, hρ, H⟩ := C104_regularised A h02 h21 M hS apart hn hmass type p N hp c
  exact ⟨K, ρ, hK, hρ, fun stages hN hco P S h δ hh hle hδ0 hδ hdev =>
    reach_end h02 hκ hh (H stages hN hco P S h δ hh.le hle hδ0 hδ hdev)⟩

/-- **C104, AR-chain systems** with forces that agree: the same, whatever chains the steps build. -/
theorem C104_archain {IC : ChainInteractions} {ex : List (ForceClass Particles)} (AI : AgreesI IC (withGravity ex)) {n : Nat} {m : Nat → ℝ} {a : Field n}
    (A : Acts (withGravity ex) n m a) {x v : ℝ → Nat → V3 ℝ} {t0 t1 t2 : ℝ} (h02 : t0 ≤ t2) (h21 : t2 < t1) (M : ForcedMotion n a x v t0 t1)
    (hS : SmoothAlong a x v t0 t1) (apart : ∀ t ∈ Set.Icc t0 t1, ∀ i j, i < n → j < n → i ≠ j → x t i ≠ x t j) (hn : 2 ≤ n)
    (hmass : ∀ k, k < n → 0 < m k) (type : ReguType) (p N : Nat) (hp : 1 ≤ p) (c : ℝ) :
    ∃ K ρ : ℝ, 0 ≤ K ∧ 0 < ρ ∧ ∀ stages : List Stage, stages.length ≤ N → (∀ s ∈ stages, |((coef s : ℚ) : ℝ)| ≤ c) →
      ∀ P, InState n m x v t0 P → ∀ idx, IndexOf P idx → ∀ h δ, 0 < h → h ≤ ρ → 0 ≤ δ → δ ≤ ρ →
      (∀ w : List Move, 1 ≤ w.length → w.length ≤ p → |(Letters.deviation (stages.flatMap split) w : ℝ)| * h ^ (w.length - 1) ≤ δ) →
      ∃ s0, ARSys.init 1 type t0 P idx = .ok s0 ∧ ∃ k : Nat,
        (∀ i, i ≤ k + 1 → ∃ r, Steps (ARStep 1 type IC) (List.replicate i (stages.map (Stage.op h))) s0 (.ok r)) ∧
        (∀ i r, i ≤ k → Steps (ARStep 1 type IC) (List.replicate i (stages.map (Stage.op h))) s0 r →
          ∃ s, r = .ok s ∧ s.time ≤ t2 ∧ WithinOf n m x v s.time (K * (h ^ p + δ)) s.P) ∧
        ∀ r, Steps (ARStep 1 type IC) (List.replicate (k + 1) (stages.map (Stage.op h))) s0 r → ∃ s, r = .ok s ∧ t2 < s.time := by
  obtain ⟨K, ρ, hK, hρ, H⟩ := C104_regularised_reaches A h02 h21 M hS apart hn hmass type p N hp c
  refine ⟨K, ρ, hK, hρ, fun stages hN hco P S idx hi h δ hh hle hδ0 hδ hdev => ?_⟩
  obtain ⟨k, s, h1, h2, h3⟩ := H stages hN hco P S h δ hh hle hδ0 hδ hdev
  exact archain_end AI hi h1 h2 h3

/-! ### the integrators and the forces of the library -/

/-- **C104, the leap-frogs and the fourth-order integrator** (whose coefficients have 15 decimals, hence the `1e-14 h²` in `errorOf`), on regularised systems and on AR-chain systems: a simulation with a fixed
step passes `t2` after finitely many steps, and at every step before, all positions and velocities are within `K errorOf h` of the true ones. -/
theorem C104_exact {IC : ChainInteractions} {ex : List (ForceClass Particles)} (AI : AgreesI IC (withGravity ex)) {n : Nat} {m : Nat → ℝ} {a : Field n}
    (A : Acts (withGravity ex) n m a) {x v : ℝ → Nat → V3 ℝ} {t0 t1 t2 : ℝ} (h02 : t0 ≤ t2) (h21 : t2 < t1) (M : ForcedMotion n a x v t0 t1)
    (hS : SmoothAlong a x v t0 t1) (apart : ∀ t ∈ Set.Icc t0 t1, ∀ i j, i < n → j < n → i ≠ j → x t i ≠ x t j) (hn : 2 ≤ n)
    (hmass : ∀ k, k < n → 0 < m k) (type : ReguType) :
    ∃ K h0 : ℝ, 0 < h0 ∧ ∀ P, InState n m x v t0 P → ∀ h, 0 < h → h ≤ h0 → ∀ stages ∈ [symplectic2nd, leapFrogKDK, symplectic4th],
      (∃ (k : Nat) (s : Nat → ReguSys),
        (∀ i, i ≤ k + 1 →
          steps (reguStep 1 type (withGravity ex)) (List.replicate i (stages.map (Stage.op h))) (ReguSys.init 1 type t0 P) = .ok (s i)) ∧
        (∀ i, i ≤ k → (s i).time ≤ t2 ∧ WithinOf n m x v (s i).time (K * errorOf stages h) (s i).P) ∧ t2 < (s (k + 1)).time) ∧
      ∀ idx, IndexOf P idx → ∃ s0, ARSys.init 1 type t0 P idx = .ok s0 ∧ ∃ k : Nat,
        (∀ i, i ≤ k + 1 → ∃ r, Steps (ARStep 1 type IC) (List.replicate i (stages.map (Stage.op h))) s0 (.ok r)) ∧
        (∀ i r, i ≤ k → Steps (ARStep 1 type IC) (List.replicate i (stages.map (Stage.op h))) s0 r →
          ∃ s, r = .ok s ∧ s.time ≤ t2 ∧ WithinOf n m x v s.time (K * errorOf stages h) s.P) ∧
        ∀ r, Steps (ARStep 1 type IC) (List.replicate (k + 1) (stages.map (Stage.op h))) s0 r → ∃ s, r = .ok s ∧ t2 < s.time := by
  obtain ⟨K, ρ, hK, hρ, H⟩ := C104_regularised_reaches A h02 h21 M hS apart hn hmass type 4 63 (by norm_num) 3
  obtain ⟨K', ρ', hK', hρ', H'⟩ := C104_regularised_reaches A h02 h21 M hS apart hn hmass type 2 63 (by norm_num) 3
  refine ⟨K + K', min (min ρ ρ') 1, lt_min (lt_min hρ hρ') one_pos, fun P S h hh hhρ stages hst => ?_⟩
  have h1 : h ≤ 1 := hhρ.trans (min_le_right _ _)
  have hr : h ≤ ρ := (hhρ.trans (min_le_left _ _)).trans (min_le_left _ _)
  have hr' : h ≤ ρ' := (hhρ.trans (min_le_left _ _)).trans (min_le_right _ _)
  have small : stages.length ≤ 63 ∧ ∀ u ∈ stages, |((coef u : ℚ) : ℝ)| ≤ 3 := by
    have : stages ∈ [symplectic2nd, leapFrogKDK, symplectic4th, symplectic6th, symplectic8th, symplectic10th] := by
      simp only [List.mem_cons, List.not_mem_nil, or_false] at hst ⊢; tauto
    exact ⟨(C92_coefficients stages this).1, (C92_coefficients stages this).2.1⟩
  have hsq : h ^ 2 ≤ h := pow_le_of_le_one hh.le h1 (by norm_num)
  have plain : ∃ (k : Nat) (s : Nat → ReguSys),
      (∀ i, i ≤ k + 1 →
        steps (reguStep 1 type (withGravity ex)) (List.replicate i (stages.map (Stage.op h))) (ReguSys.init 1 type t0 P) = .ok (s i)) ∧
      (∀ i, i ≤ k → (s i).time ≤ t2 ∧ WithinOf n m x v (s i).time ((K + K') * errorOf stages h) (s i).P) ∧ t2 < (s (k + 1)).time := by
    by_cases h4 : stages = symplectic4th
    · subst h4
      obtain ⟨k, s, a1, a2, a3⟩ := H symplectic4th small.1 small.2 P S h (1e-14 * h ^ 2) hh hr (by positivity) (by linarith [sq_nonneg h])
        (exact_dev hh.le h1)
      refine ⟨k, s, a1, fun i hi => ⟨(a2 i hi).1, ?_⟩, a3⟩
      have W := (a2 i hi).2
      rw [errorOf, if_pos rfl]
      have : K * (h ^ 4 + 1e-14 * h ^ 2) ≤ (K + K') * (h ^ 4 + 1e-14 * h ^ 2) := mul_le_mul_of_nonneg_right (by linarith) (by positivity)
      exact ⟨W.num, W.mass, fun i hi => (W.pos i hi).trans this, fun i hi => (W.vel i hi).trans this⟩
    · obtain ⟨k, s, a1, a2, a3⟩ := H' stages small.1 small.2 P S h 0 hh hr' le_rfl hρ'.le (fun w _ hw' => by
        rw [C100_conditions.2.1 stages hst w hw']; simp)
      refine ⟨k, s, a1, fun i hi => ⟨(a2 i hi).1, ?_⟩, a3⟩
      have W := (a2 i hi).2
      rw [errorOf, if_neg h4]
      rw [add_zero] at W
      have : K' * h ^ 2 ≤ (K + K') * h ^ 2 := mul_le_mul_of_nonneg_right (by linarith) (by positivity)
      exact ⟨W.num, W.mass, fun i hi => (W.pos i hi).trans this, fun i hi => (W.vel i hi).trans this⟩
  refine ⟨plain, fun idx hi => ?_⟩
  obtain ⟨k, s, a1, a2, a3⟩ := plain
  exact archain_end AI hi a1 a2 a3

/-- **C104, the forces of the library**: gravity with any list of post-Newtonian corrections (orders 1 and 2.5), tides and drag, with all three kinds of
regularisation. -/
theorem C104_library (G c : ℝ) {n : Nat} {m : Nat → ℝ} {fs : List Extra} {x v : ℝ → Nat → V3 ℝ} {t0 t1 t2 : ℝ} (h02 : t0 ≤ t2) (h21 : t2 < t1)
    (M : ForcedMotion n (withExtras G c n m fs) x v t0 t1) (apart : ∀ t ∈ Set.Icc t0 t1, ∀ i j, i < n → j < n → i ≠ j → x t i ≠ x t j)
    (away : ∀ e ∈ fs, e.Away n v t0 t1) (hn : 2 ≤ n) (hmass : ∀ k, k < n → 0 < m k) (type : ReguType) :
    ∃ K h0 : ℝ, 0 < h0 ∧ ∀ P, InState n m x v t0 P → ∀ h, 0 < h → h ≤ h0 → ∀ stages ∈ [symplectic2nd, leapFrogKDK, symplectic4th],
      (∃ (k : Nat) (s : Nat → ReguSys),
        (∀ i, i ≤ k + 1 → steps (reguStep 1 type ⟨Lib.newton, fs.map (libOf G c)⟩) (List.replicate i (stages.map (Stage.op h)))
          (ReguSys.init 1 type t0 P) = .ok (s i)) ∧
        (∀ i, i ≤ k → (s i).time ≤ t2 ∧ WithinOf n m x v (s i).time (K * errorOf stages h) (s i).P) ∧ t2 < (s (k + 1)).time) ∧
      ∀ idx, IndexOf P idx → ∃ s0, ARSys.init 1 type t0 P idx = .ok s0 ∧ ∃ k : Nat,
        (∀ i, i ≤ k + 1 → ∃ r, Steps (ARStep 1 type ⟨Lib.newtonC, fs.map (libChainOf G c)⟩) (List.replicate i (stages.map (Stage.op h))) s0 (.ok r)) ∧
        (∀ i r, i ≤ k → Steps (ARStep 1 type ⟨Lib.newtonC, fs.map (libChainOf G c)⟩) (List.replicate i (stages.map (Stage.op h))) s0 r →
          ∃ s, r = .ok s ∧ s.time ≤ t2 ∧ WithinOf n m x v s.time (K * errorOf stages h) s.P) ∧
        ∀ r, Steps (ARStep 1 type ⟨Lib.newtonC, fs.map (libChainOf G c)⟩) (List.replicate (k + 1) (stages.map (Stage.op h))) s0 r →
          ∃ s, r = .ok s ∧ t2 < s.time := by
  obtain ⟨A, AI, hS⟩ := C100_library G c n m fs
  have A' : Acts (withGravity (fs.map (libOf G c))) n m (withExtras G c n m fs) := A
  have AI' : AgreesI ⟨Lib.newtonC, fs.map (libChainOf G c)⟩ (withGravity (fs.map (libOf G c))) := AI
  exact C104_exact AI' A' h02 h21 M (hS x v t0 t1 apart away) apart hn hmass type

/-! ### examples -/

/-- Non-vacuity: two bodies on a circle around each other with the first post-Newtonian correction, over any stretch of time, with the logarithmic Hamiltonian
and the fourth-order integrator. -/
example (t0 t2 : ℝ) (ht : t0 ≤ t2) : ∃ K h0 : ℝ, 0 < h0 ∧ ∀ h, 0 < h → h ≤ h0 → ∃ (k : Nat) (s : Nat → ReguSys),
      (∀ i, i ≤ k + 1 → steps (reguStep 1 .logH ⟨Lib.newton, [libOf 1 (Real.sqrt (29 / 2)) .pn1]⟩) (List.replicate i (symplectic4th.map (Stage.op h)))
        (ReguSys.init 1 .logH t0 ⟨2, circlePos t0, circleVel t0, fun _ => 1⟩) = .ok (s i)) ∧
      (∀ i, i ≤ k → (s i).time ≤ t2 ∧ WithinOf 2 (fun _ => 1) circlePos circleVel (s i).time (K * errorOf symplectic4th h) (s i).P) ∧
      t2 < (s (k + 1)).time := by
  obtain ⟨K, h0, hh0, H⟩ := C104_library 1 (Real.sqrt (29 / 2)) (fs := [.pn1]) ht (lt_add_one t2) (circle_pn1 t0 (t2 + 1)) (circle_motion t0 (t2 + 1)).apart
    (by simp [Extra.Away]) le_rfl (fun _ _ => one_pos) .logH
  exact ⟨K, h0, hh0, fun h hh hle => (H _ ⟨rfl, fun _ _ => rfl, fun _ _ => rfl, fun _ _ => rfl⟩ h hh hle symplectic4th (by simp)).1⟩

end SpaceHub.Sys
