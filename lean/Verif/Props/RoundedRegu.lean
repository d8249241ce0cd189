import Verif.Proof.RoundedReguRun

/-
C117: rounding errors of regularised systems.
-/

set_option autoImplicit false

namespace SpaceHub.Rounded
open SpaceHub V3 Force Core Integrator Spec Sys Props Converge
open scoped ContDiff

variable {n : Nat} {m : Nat → ℝ}

/-! ### the start -/

theorem near_start {type : ReguType} (hty : type ≠ .none) (t0 : ℝ) {y0 : Conf n × Conf n} (hy : y0.1 ∈ free n) : ∃ K ρ : ℝ, 0 ≤ K ∧ 0 < ρ ∧
    ∀ A u, Accurate A u → 0 ≤ u → u ≤ ρ → ∀ P e, P.num = n → (∀ k, k < n → P.mass k = m k) → e ≤ ρ → ‖(conf n P.pos, conf n P.vel) - y0‖ ≤ e →
      |bindOf type (initR A 1 type t0 P) - (potC n m y0.1 - kinC n m y0.2)| ≤ K * (e + u) := by
  have hU : IsOpen (Prod.fst ⁻¹' free n : Set (Conf n × Conf n)) := (free_open n).preimage continuous_fst
  have smooth : ContDiffAt ℝ 1 (fun z : Conf n × Conf n => potC n m z.1 - kinC n m z.2) y0 :=
    (((potC_smooth n m).contDiffAt ((free_open n).mem_nhds hy)).comp y0 contDiff_fst.contDiffAt).sub ((kinC_smooth n m).contDiffAt.comp y0 contDiff_snd.contDiffAt)
  obtain ⟨L, N, hN, lip⟩ := smooth.exists_lipschitzOnWith
  obtain ⟨r, hr, hsub⟩ := Metric.nhds_basis_closedBall.mem_iff.1 (Filter.inter_mem hN (hU.mem_nhds hy))
  set S : Set Particles := {P | P.num = n ∧ (∀ k, k < n → P.mass k = m k) ∧ (conf n P.pos, conf n P.vel) ∈ Metric.closedBall y0 r} with hS
  have cpt : IsCompact (Metric.closedBall y0 r) := isCompact_closedBall y0 r
  obtain ⟨R, hR⟩ := cpt.isBounded.exists_norm_le
  have hP : NearP n (fun _ _ => True) S (fun _ P => P) (fun P => P) := by
    refine ⟨fun _ P h => h.1, fun P h => h.1, fun k hk => .fixed (fun P : Particles => P.mass k) (B := |m k|) fun P h => by rw [h.2.1 k hk], fun k hk => ?_, fun k hk => ?_⟩
    · have key : ∀ P ∈ S, |(P.pos k).x| ≤ R ∧ |(P.pos k).y| ≤ R ∧ |(P.pos k).z| ≤ R := fun P h => coord_le _ k hk ((norm_fst_le (conf n P.pos, conf n P.vel)).trans (hR _ h.2.2))
      exact ⟨.fixed (fun P : Particles => (P.pos k).x) fun z hz => (key z hz).1, .fixed (fun P : Particles => (P.pos k).y) fun z hz => (key z hz).2.1,
        .fixed (fun P : Particles => (P.pos k).z) fun z hz => (key z hz).2.2⟩
    · have key : ∀ P ∈ S, |(P.vel k).x| ≤ R ∧ |(P.vel k).y| ≤ R ∧ |(P.vel k).z| ≤ R := fun P h => coord_le _ k hk ((norm_snd_le (conf n P.pos, conf n P.vel)).trans (hR _ h.2.2))
      exact ⟨.fixed (fun P : Particles => (P.vel k).x) fun z hz => (key z hz).1, .fixed (fun P : Particles => (P.vel k).y) fun z hz => (key z hz).2.1,
        .fixed (fun P : Particles => (P.vel k).z) fun z hz => (key z hz).2.2⟩
  have hap : Apart n S (fun P => P) := by
    intro i j hij hj
    have hi : i < n := by omega
    have cont : Continuous (fun z : Conf n × Conf n => sq (ve (z.1 ⟨j, hj⟩) - ve (z.1 ⟨i, hi⟩))) := by
      unfold sq ve
      simp only [V3.sub_x, V3.sub_y, V3.sub_z]
      fun_prop
    obtain ⟨c, hc, key⟩ := cpt.exists_forall_le' (f := fun z : Conf n × Conf n => sq (ve (z.1 ⟨j, hj⟩) - ve (z.1 ⟨i, hi⟩))) cont.continuousOn (a := 0) fun z hz => by
      have := dot_pos (sub_ne_zero.2 ((hsub hz).2 ⟨j, hj⟩ ⟨i, hi⟩ (fun h => by have := congrArg Fin.val h; simp at this; omega)))
      exact this
    exact ⟨c, hc, fun P h => key _ h.2.2⟩
  have nb : Near (fun _ _ => True) S (fun A P => bindOf type (initR A 1 type t0 P)) (fun P => potC n m (conf n P.pos) - kinC n m (conf n P.vel)) := by
    cases type with
    | logH => exact ((hP.potential hap 1).add hP.kinetic).neg.congr (fun A P _ => rfl) fun P h => by rw [pot_conf h.1 h.2.1, kin_conf h.1 h.2.1]; ring
    | ttl => exact ((hP.potential hap 1).neg.plus hP.kinetic'.neg).congr (fun A P _ => rfl) fun P h => by rw [pot_conf h.1 h.2.1, kin_conf h.1 h.2.1]; ring
    | none => exact absurd rfl hty
  obtain ⟨_, C, u0, _, hC, p0, _, _, key⟩ := nb
  refine ⟨C + L, min u0 r, by positivity, lt_min p0 hr, fun A u hA hu hle P e h1 h2 he h3 => ?_⟩
  have hPS : P ∈ S := ⟨h1, h2, mem_closedBall_iff_norm.2 (h3.trans (he.trans (min_le_right _ _)))⟩
  have k1 := key A u hA hu (hle.trans (min_le_left _ _)) P hPS trivial
  have k2 := lip.dist_le_mul _ (hsub hPS.2.2).1 y0 (hsub (Metric.mem_closedBall_self hr.le)).1
  rw [dist_eq_norm, dist_eq_norm, Real.norm_eq_abs] at k2
  have k3 := k2.trans (mul_le_mul_of_nonneg_left h3 L.2)
  have k4 := abs_sub_le (bindOf type (initR A 1 type t0 P)) (potC n m (conf n P.pos) - kinC n m (conf n P.vel)) (potC n m y0.1 - kinC n m y0.2)
  have he0 : 0 ≤ e := (norm_nonneg _).trans h3
  have k5 : 0 ≤ C * e + L * u := add_nonneg (mul_nonneg hC he0) (mul_nonneg L.2 hu)
  have k6 : (C + L) * (e + u) = C * u + L * e + (C * e + L * u) := by ring
  linarith

theorem within_norm {x v : ℝ → Nat → V3 ℝ} {t0 e : ℝ} {P : Particles} (he : 0 ≤ e) (S : WithinOf n m x v t0 e P) :
    ‖(conf n P.pos, conf n P.vel) - (conf n (x t0), conf n (v t0))‖ ≤ e := by
  have f : ∀ a b : Nat → V3 ℝ, (∀ k, k < n → len (a k - b k) ≤ e) → ‖conf n a - conf n b‖ ≤ e := fun a b hab =>
    le_coord a b he fun k hk => ⟨((norm_le_len (a k - b k)).1).trans (hab k hk), ((norm_le_len (a k - b k)).2.1).trans (hab k hk),
      ((norm_le_len (a k - b k)).2.2).trans (hab k hk)⟩
  exact norm_prod_le_iff.2 ⟨f _ _ S.pos, f _ _ S.vel⟩

/-! ### the curve of the motion in the transformed time -/

theorem quad_curve {B T t0 : ℝ} {θ : ℝ → ℝ} {x v : ℝ → Nat → V3 ℝ}
    (dy : ∀ τ ∈ Set.Icc 0 T, HasDerivWithinAt (fun τ => (θ τ, conf n (x (t0 + θ τ)), conf n (v (t0 + θ τ))))
      (reguF n m B true (θ τ, conf n (x (t0 + θ τ)), conf n (v (t0 + θ τ))) + reguF n m B false (θ τ, conf n (x (t0 + θ τ)), conf n (v (t0 + θ τ)))) (Set.Icc 0 T) τ) :
    ∀ τ ∈ Set.Icc 0 T, HasDerivWithinAt (fun τ => ((t0 + θ τ, conf n (x (t0 + θ τ)), conf n (v (t0 + θ τ)), B) : Quad n))
      (quadF n m true (t0 + θ τ, conf n (x (t0 + θ τ)), conf n (v (t0 + θ τ)), B) + quadF n m false (t0 + θ τ, conf n (x (t0 + θ τ)), conf n (v (t0 + θ τ)), B))
      (Set.Icc 0 T) τ := by
  intro τ hτ
  have d := dy τ hτ
  have d1 := ((ContinuousLinearMap.fst ℝ ℝ (Conf n × Conf n)).hasFDerivAt.comp_hasDerivWithinAt τ d).const_add t0
  have d2 := (ContinuousLinearMap.snd ℝ ℝ (Conf n × Conf n)).hasFDerivAt.comp_hasDerivWithinAt τ d
  have d3 := (ContinuousLinearMap.fst ℝ (Conf n) (Conf n)).hasFDerivAt.comp_hasDerivWithinAt τ d2
  have d4 := (ContinuousLinearMap.snd ℝ (Conf n) (Conf n)).hasFDerivAt.comp_hasDerivWithinAt τ d2
  refine (d1.prodMk (d3.prodMk (d4.prodMk (hasDerivWithinAt_const τ (Set.Icc 0 T) B)))).congr_deriv ?_
  simp [quadF, reguF]

/-- A run follows the motion, as long as the transformed time is not used up and the errors are small. -/
theorem regu_follows {x v : ℝ → Nat → V3 ℝ} {t0 t1 : ℝ} (ht : t0 ≤ t1) (M : NewtonMotion n m x v t0 t1)
    (hn : 2 ≤ n) (hmass : ∀ k, k < n → 0 < m k) (p : Nat) (stages : List Stage) {type : ReguType} (hty : type ≠ .none) :
    ∃ (T κ F X K C D ρ V : ℝ) (θ : ℝ → ℝ), 0 ≤ T ∧ 0 < κ ∧ 0 < F ∧ 0 < X ∧ 0 ≤ K ∧ 0 ≤ C ∧ 0 ≤ D ∧ 0 < ρ ∧ ρ ≤ 1 ∧ 0 ≤ V ∧ θ 0 = 0 ∧ θ T = t1 - t0 ∧
      (∀ τ ∈ Set.Icc 0 T, θ τ ∈ Set.Icc 0 (t1 - t0)) ∧
      (∀ τ ∈ Set.Icc 0 T, ∀ τ' ∈ Set.Icc 0 T, τ ≤ τ' → κ * (τ' - τ) ≤ θ τ' - θ τ ∧ θ τ' - θ τ ≤ F * (τ' - τ)) ∧
      (∀ τ ∈ Set.Icc 0 T, ∀ t ∈ Set.Icc t0 t1, ‖conf n (x (t0 + θ τ)) - conf n (x t)‖ ≤ V * |t - (t0 + θ τ)| ∧
        ‖conf n (v (t0 + θ τ)) - conf n (v t)‖ ≤ V * |t - (t0 + θ τ)|) ∧
      ∀ A u, Accurate A u → 0 ≤ u → u ≤ ρ → ∀ e P, 0 ≤ e → e ≤ ρ → WithinOf n m x v t0 e P → ∀ hm δ, 0 ≤ hm → hm ≤ ρ → 0 ≤ δ →
        (∀ w : List Bool, 1 ≤ w.length → w.length ≤ p → |(deviation stages w : ℝ)| * hm ^ (w.length - 1) ≤ δ) →
        ∀ l : List ℝ, (∀ h ∈ l, 0 ≤ h ∧ h ≤ hm) → l.sum ≤ T → X * (K * (e + u) + T * (C * (hm ^ p + δ)) + l.length * (D * u)) ≤ ρ →
          ((runR A 1 type stages l (initR A 1 type t0 P)).P.num = n ∧ ∀ k, k < n → (runR A 1 type stages l (initR A 1 type t0 P)).P.mass k = m k) ∧
          |(runR A 1 type stages l (initR A 1 type t0 P)).time - (t0 + θ l.sum)| ≤ X * (K * (e + u) + l.sum * (C * (hm ^ p + δ)) + l.length * (D * u)) ∧
          ‖conf n (runR A 1 type stages l (initR A 1 type t0 P)).P.pos - conf n (x (t0 + θ l.sum))‖ ≤
            X * (K * (e + u) + l.sum * (C * (hm ^ p + δ)) + l.length * (D * u)) ∧
          ‖conf n (runR A 1 type stages l (initR A 1 type t0 P)).P.vel - conf n (v (t0 + θ l.sum))‖ ≤
            X * (K * (e + u) + l.sum * (C * (hm ^ p + δ)) + l.length * (D * u)) := by
  obtain ⟨B, hB⟩ : ∃ B, B = potC n m (conf n (x t0)) - kinC n m (conf n (v t0)) := ⟨_, rfl⟩
  obtain ⟨r0, A0, L0, V0, _, H, _⟩ := motion_tube M
  have hA0 := H.hA
  have hV0 := H.hV
  obtain ⟨T, κ, F, θ, hT, hκ, hF, θ0, θ1, θin, θlip, hsafe, dy⟩ := motion_regu ht M hn hmass B hB
  obtain ⟨y, hy⟩ : ∃ y : ℝ → Quad n, y = fun τ => (t0 + θ τ, conf n (x (t0 + θ τ)), conf n (v (t0 + θ τ)), B) := ⟨_, rfl⟩
  have dq : ∀ τ ∈ Set.Icc 0 T, HasDerivWithinAt y (quadF n m true (y τ) + quadF n m false (y τ)) (Set.Icc 0 T) τ := by
    rw [hy]; exact quad_curve dy
  obtain ⟨r, C, L, ρ1, W, hr, hC, hL, hρ1, hρ11, cW, hWU, key⟩ := order_parts (safeQ_open n m) (quad_smooth hn hmass) (quad_straight n m) (T := T) (y := y) dq
    (fun τ hτ => by rw [hy]; exact hsafe τ hτ) p stages.length (stages.map fun s => |((coef s : ℚ) : ℝ)|).sum
  obtain ⟨stab, inW, loc⟩ := key stages le_rfl fun s hs => List.single_le_sum (by
    intro z hz
    obtain ⟨s, _, rfl⟩ := List.mem_map.1 hz
    exact abs_nonneg _) _ (List.mem_map.2 ⟨s, hs, rfl⟩)
  obtain ⟨D, u0, hD, hu0, rnd⟩ := near_stepR hn hmass hty cW hWU inW
  have free0 : conf n (x t0) ∈ free n := by
    have h := (hsafe 0 ⟨le_rfl, hT⟩).2
    simp only [θ0, add_zero] at h
    exact h
  obtain ⟨K0, ρ0, hK0, hρ0, st⟩ := near_start (m := m) hty t0 (y0 := (conf n (x t0), conf n (v t0))) free0
  refine ⟨T, κ, F, Real.exp (L * T), K0 + 1, C, D, min (min ρ1 u0) (min ρ0 r), V0 + A0, θ, hT, hκ, hF, Real.exp_pos _, by positivity, hC, hD,
    lt_min (lt_min hρ1 hu0) (lt_min hρ0 hr), ((min_le_left _ _).trans (min_le_left _ _)).trans hρ11, by positivity, θ0, θ1, θin, θlip, fun τ hτ t htt => ?_,
    fun A u hA hu huρ e P he heρ S hm δ hm0 hmρ hδ0 hdev l hl hsum small => ?_⟩
  · have hz1 : t - t0 ∈ Set.Icc 0 (t1 - t0) := ⟨by linarith [htt.1], by linarith [htt.2]⟩
    have lx := Convex.norm_image_sub_le_of_norm_hasDerivWithin_le (C := V0) H.dq (fun t ht => H.vel t ht) (convex_Icc 0 (t1 - t0)) hz1 (θin τ hτ)
    have lv := Convex.norm_image_sub_le_of_norm_hasDerivWithin_le (C := A0) H.dv (fun t ht => H.acc t ht _ (by simpa using H.hr.le))
      (convex_Icc 0 (t1 - t0)) hz1 (θin τ hτ)
    have ed : ‖θ τ - (t - t0)‖ = |t - (t0 + θ τ)| := by
      rw [Real.norm_eq_abs, abs_sub_comm, show t - t0 - θ τ = t - (t0 + θ τ) by ring]
    rw [ed] at lx lv
    simp only [add_sub_cancel] at lx lv
    have n0 := abs_nonneg (t - (t0 + θ τ))
    refine ⟨lx.trans (mul_le_mul_of_nonneg_right (by linarith) n0), lv.trans (mul_le_mul_of_nonneg_right (by linarith) n0)⟩
  have q1 : min (min ρ1 u0) (min ρ0 r) ≤ ρ1 := (min_le_left _ _).trans (min_le_left _ _)
  have q2 : min (min ρ1 u0) (min ρ0 r) ≤ u0 := (min_le_left _ _).trans (min_le_right _ _)
  have q3 : min (min ρ1 u0) (min ρ0 r) ≤ ρ0 := (min_le_right _ _).trans (min_le_left _ _)
  have q4 : min (min ρ1 u0) (min ρ0 r) ≤ r := (min_le_right _ _).trans (min_le_right _ _)
  obtain ⟨ε, hε⟩ : ∃ ε, ε = C * (hm ^ p + δ) := ⟨_, rfl⟩
  obtain ⟨e0, he0⟩ : ∃ e0, e0 = (K0 + 1) * (e + u) := ⟨_, rfl⟩
  have hε0 : 0 ≤ ε := by rw [hε]; positivity
  have he00 : 0 ≤ e0 := by rw [he0]; positivity
  have l0 : 0 ≤ l.sum := List.sum_nonneg fun h hh => (hl h hh).1
  rw [← hε, ← he0] at small ⊢
  have start : ‖pointR n type (initR A 1 type t0 P) - y 0‖ ≤ e0 := by
    have c1 := within_norm he S
    have c2 := st A u hA hu (huρ.trans q3) P e S.num S.mass (heρ.trans q3) c1
    have c3 : e ≤ e0 := by
      rw [he0, show (K0 + 1) * (e + u) = K0 * (e + u) + e + u by ring]
      linarith only [mul_nonneg hK0 (add_nonneg he hu), hu]
    have c4 : K0 * (e + u) ≤ e0 := by
      rw [he0, show (K0 + 1) * (e + u) = K0 * (e + u) + e + u by ring]
      linarith only [he, hu]
    have c5 := norm_prod_le_iff.1 c1
    rw [hy]
    refine norm_prod_le_iff.2 ⟨?_, norm_prod_le_iff.2 ⟨?_, norm_prod_le_iff.2 ⟨?_, ?_⟩⟩⟩
    · show ‖t0 - (t0 + θ 0)‖ ≤ e0
      rw [θ0]
      simpa using he00
    · show ‖conf n P.pos - conf n (x (t0 + θ 0))‖ ≤ e0
      rw [θ0, add_zero]
      exact c5.1.trans c3
    · show ‖conf n P.vel - conf n (v (t0 + θ 0))‖ ≤ e0
      rw [θ0, add_zero]
      exact c5.2.trans c3
    · show ‖bindOf type (initR A 1 type t0 P) - B‖ ≤ e0
      rw [hB]
      exact c2.trans c4
  have sm : Real.exp (L * T) * (e0 + T * ε + l.length * (D * u)) ≤ r := small.trans q4
  have g := global_perturbed (Φ := wstep (quadF n m) stages) (Ψ := fun h s => stepR A 1 type stages h s) (ζ := pointR n type)
    (I := fun _ _ s => s.P.num = n ∧ ∀ k, k < n → s.P.mass k = m k) (y := y) (T := T) (r := r) (M := L) (hm := hm)
    (ε := ε) (ε1 := ε) (κ := 0) (η := D * u) (e := e0) (N := l.length) hL hε0 (by rw [add_zero]) (by positivity) he00
    (fun t ht h hh => stab t ht h ⟨hh.1, hh.2.trans (hmρ.trans q1)⟩) (by rw [hε]; exact loc hm δ hm0 (hmρ.trans q1) hδ0 hdev)
    (fun t h k s ht0 h0 hh htT hk ⟨i1, i2⟩ hz => by
      have ht' : t ∈ Set.Icc 0 T := ⟨ht0, by linarith⟩
      have j1 := rnd A u hA hu (huρ.trans q2) (h, s) ⟨⟨h0, hh.trans (hmρ.trans q1)⟩, i1, i2, t, ht', hz⟩
      obtain ⟨k1, k2⟩ := stepR_keeps A 1 type h stages s
      exact ⟨⟨k1.trans i1, fun k hk => by rw [k2]; exact i2 k hk⟩, by rw [mul_zero, zero_add]; exact j1⟩)
    sm l 0 0 (initR A 1 type t0 P) hl le_rfl (by linarith) (by omega) ⟨S.num, S.mass⟩ (by simpa using start)
  rw [zero_add, zero_add] at g
  have g' := g.2.trans (mul_le_mul_of_nonneg_right (Real.exp_le_exp.2 (mul_le_mul_of_nonneg_left hsum hL)) (by positivity))
  rw [hy] at g'
  have a1 := norm_prod_le_iff.1 g'
  have a2 := norm_prod_le_iff.1 a1.2
  have a3 := norm_prod_le_iff.1 a2.2
  exact ⟨g.1, a1.1, a2.1, a3.1⟩

/-! ### the arithmetic of the bounds -/

theorem bound_small {X K T C D e u hp δ N r ρ : ℝ} (hX : 0 ≤ X) (hK : 0 ≤ K) (hT : 0 ≤ T) (hC : 0 ≤ C) (hD : 0 ≤ D) (hr : 0 ≤ r)
    (hρ : ρ ≤ r / (X * (2 * K + 2 * (T * C) + D) + 1)) (he : e ≤ ρ) (hu : u ≤ ρ) (hh : hp ≤ ρ) (hδ : δ ≤ ρ) (hN : N * u ≤ ρ) :
    X * (K * (e + u) + T * (C * (hp + δ)) + N * (D * u)) ≤ r := by
  have hQ : 0 ≤ X * (2 * K + 2 * (T * C) + D) := by positivity
  have a5 : X * (2 * K + 2 * (T * C) + D) * (r / (X * (2 * K + 2 * (T * C) + D) + 1)) ≤ r := by
    rw [mul_div_assoc', div_le_iff₀ (by positivity)]
    linarith only [hr, show r * (X * (2 * K + 2 * (T * C) + D) + 1) = X * (2 * K + 2 * (T * C) + D) * r + r by ring]
  have b1 : K * (e + u) ≤ K * (ρ + ρ) := mul_le_mul_of_nonneg_left (by linarith) hK
  have b2 : T * (C * (hp + δ)) ≤ T * (C * (ρ + ρ)) := mul_le_mul_of_nonneg_left (mul_le_mul_of_nonneg_left (by linarith) hC) hT
  have b3 : D * (N * u) ≤ D * ρ := mul_le_mul_of_nonneg_left hN hD
  have b4 := mul_le_mul_of_nonneg_left (show K * (e + u) + T * (C * (hp + δ)) + N * (D * u) ≤ (2 * K + 2 * (T * C) + D) * ρ by
    linarith only [b1, b2, b3, show (2 * K + 2 * (T * C) + D) * ρ = K * (ρ + ρ) + T * (C * (ρ + ρ)) + D * ρ by ring, show N * (D * u) = D * (N * u) by ring]) hX
  have b5 := mul_le_mul_of_nonneg_left hρ hQ
  linarith only [b4, b5, a5, show X * ((2 * K + 2 * (T * C) + D) * ρ) = X * (2 * K + 2 * (T * C) + D) * ρ by ring]

theorem bound_error {X K T C D e u hp δ N s : ℝ} (hX : 0 ≤ X) (hK : 0 ≤ K) (hT : 0 ≤ T) (hC : 0 ≤ C) (hD : 0 ≤ D) (he : 0 ≤ e) (hu : 0 ≤ u) (hh : 0 ≤ hp)
    (hδ : 0 ≤ δ) (hN : 0 ≤ N) (hs : s ≤ T) :
    X * (K * (e + u) + s * (C * (hp + δ)) + N * (D * u)) ≤ X * (K + T * C + D) * (hp + δ + e + (N + 1) * u) := by
  have f1 : s * (C * (hp + δ)) ≤ T * (C * (hp + δ)) := mul_le_mul_of_nonneg_right hs (by positivity)
  have f2 := mul_le_mul_of_nonneg_left (show K * (e + u) + s * (C * (hp + δ)) + N * (D * u) ≤ (K + T * C + D) * (hp + δ + e + (N + 1) * u) by
    have d1 : 0 ≤ (K + D) * (hp + δ) := by positivity
    have d2 : 0 ≤ T * C * (e + (N + 1) * u) := by positivity
    have d3 : 0 ≤ K * (N * u) + D * (e + u) := by positivity
    linarith only [f1, d1, d2, d3, show (K + T * C + D) * (hp + δ + e + (N + 1) * u) = K * (e + u) + T * (C * (hp + δ)) + N * (D * u) + (K + D) * (hp + δ) +
      T * C * (e + (N + 1) * u) + (K * (N * u) + D * (e + u)) by ring]) hX
  linarith only [f2, show X * ((K + T * C + D) * (hp + δ + e + (N + 1) * u)) = X * (K + T * C + D) * (hp + δ + e + (N + 1) * u) by ring]

theorem bound_rate {X K C D e u hp δ N s κ ρ : ℝ} (hX : 0 ≤ X) (hC : 0 ≤ C) (hD : 0 ≤ D) (hK : 0 ≤ K) (hκ : 0 ≤ κ) (he : 0 ≤ e) (hu : 0 ≤ u) (hN : 0 ≤ N)
    (hρ : ρ ≤ κ / (4 * (X * C) + 1)) (hh : hp ≤ ρ) (hδ : δ ≤ ρ) (hs : 0 ≤ s) :
    X * (K * (e + u) + s * (C * (hp + δ)) + N * (D * u)) ≤ s * (κ / 2) + X * (K + D) * (e + (N + 1) * u) := by
  have a2 : X * C * (hp + δ) ≤ X * C * (2 * (κ / (4 * (X * C) + 1))) := mul_le_mul_of_nonneg_left (by linarith) (by positivity)
  have a3 : X * C * (2 * (κ / (4 * (X * C) + 1))) ≤ κ / 2 := by
    rw [show X * C * (2 * (κ / (4 * (X * C) + 1))) = 2 * (X * C) * κ / (4 * (X * C) + 1) by ring, div_le_iff₀ (by positivity)]
    linarith only [hκ, show κ / 2 * (4 * (X * C) + 1) = 2 * (X * C) * κ + κ / 2 by ring]
  have a4 := mul_le_mul_of_nonneg_left (a2.trans a3) hs
  have a5 : 0 ≤ X * (K * (N * u) + D * (e + u)) := by positivity
  linarith only [a4, a5, show X * (K * (e + u) + s * (C * (hp + δ)) + N * (D * u)) = s * (X * C * (hp + δ)) + X * (K * (e + u) + N * (D * u)) by ring,
    show X * (K + D) * (e + (N + 1) * u) = X * (K * (e + u) + N * (D * u)) + X * (K * (N * u) + D * (e + u)) by ring]

/-! ### the property -/

/-- **C117.** Particles move from `t0` to `t1` under Newton's laws without colliding, `t2` is before `t1`.  A regularised system (logarithmic Hamiltonian or
time-transformed leap-frog) is integrated from a state that is within `e` of theirs, with an integrator of the order `p` (up to a deviation `δ` of its
coefficients) and steps of at most `hm` of the transformed time, in an arithmetic whose operations have the relative error `u`.  If the clock has not
passed `t2` before the last of `N` steps, it has gone on at a rate of at least `κ` up to `K (e + (N + 1) u)`; if it has not passed `t2` after that step either
(and is not before `t0`), every position and velocity is within `K (hm ^ p + δ + e + (N + 1) u)` of the true one at the time the clock shows; provided
that `hm`, `δ`, `e` and `(N + 1) u` are small enough.  `Θ` is all the transformed time there is. -/
theorem C117_rounded {x v : ℝ → Nat → V3 ℝ} {t0 t1 t2 : ℝ} (h02 : t0 ≤ t2) (h21 : t2 < t1) (M : NewtonMotion n m x v t0 t1)
    (hn : 2 ≤ n) (hmass : ∀ k, k < n → 0 < m k) (p : Nat) (hp : 1 ≤ p) (stages : List Stage) (type : ReguType) (hty : type ∈ [ReguType.logH, .ttl]) :
    ∃ K κ ρ Θ : ℝ, 0 ≤ K ∧ 0 < κ ∧ 0 < ρ ∧ 0 ≤ Θ ∧ ∀ A u, Accurate A u → 0 ≤ u → ∀ e P, 0 ≤ e → e ≤ ρ → WithinOf n m x v t0 e P →
      ∀ hm δ, 0 ≤ hm → hm ≤ ρ → 0 ≤ δ → δ ≤ ρ →
      (∀ w : List Bool, 1 ≤ w.length → w.length ≤ p → |(deviation stages w : ℝ)| * hm ^ (w.length - 1) ≤ δ) →
      ∀ hs : List ℝ, (∀ h ∈ hs, 0 ≤ h ∧ h ≤ hm) → (hs.length + 1) * u ≤ ρ →
      (∀ pre suf, hs = pre ++ suf → suf ≠ [] → (runR A 1 type stages pre (initR A 1 type t0 P)).time ≤ t2) →
        hs.sum ≤ Θ ∧ t0 + κ * hs.sum ≤ (runR A 1 type stages hs (initR A 1 type t0 P)).time + K * (e + (hs.length + 1) * u) ∧
        (t0 ≤ (runR A 1 type stages hs (initR A 1 type t0 P)).time → (runR A 1 type stages hs (initR A 1 type t0 P)).time ≤ t2 →
          WithinOf n m x v (runR A 1 type stages hs (initR A 1 type t0 P)).time (K * (hm ^ p + δ + e + (hs.length + 1) * u))
            (runR A 1 type stages hs (initR A 1 type t0 P)).P) := by
  have hty' : type ≠ .none := by rintro rfl; simp at hty
  obtain ⟨T, κ, F, X, K, C, D, ρ0, V, θ, hT, hκ, hF, hX, hK, hC, hD, hρ0, hρ1, hV, θ0, θ1, θin, θlip, hlip, follow⟩ :=
    regu_follows (by linarith) M hn hmass p stages hty'
  obtain ⟨r, hr⟩ : ∃ r, r = min ρ0 ((t1 - t2) / 2) := ⟨_, rfl⟩
  have hr0 : 0 < r := by rw [hr]; exact lt_min hρ0 (by linarith)
  have hrρ : r ≤ ρ0 := by rw [hr]; exact min_le_left _ _
  have hrt : r ≤ (t1 - t2) / 2 := by rw [hr]; exact min_le_right _ _
  obtain ⟨ρ, hρ⟩ : ∃ ρ, ρ = min ρ0 (min (r / (X * (2 * K + 2 * (T * C) + D) + 1)) (min ((t1 - t2) / (2 * F)) (κ / (4 * (X * C) + 1)))) := ⟨_, rfl⟩
  have q1 : ρ ≤ ρ0 := by rw [hρ]; exact min_le_left _ _
  have q2 : ρ ≤ r / (X * (2 * K + 2 * (T * C) + D) + 1) := by rw [hρ]; exact (min_le_right _ _).trans (min_le_left _ _)
  have q3 : ρ ≤ (t1 - t2) / (2 * F) := by rw [hρ]; exact ((min_le_right _ _).trans (min_le_right _ _)).trans (min_le_left _ _)
  have q4 : ρ ≤ κ / (4 * (X * C) + 1) := by rw [hρ]; exact ((min_le_right _ _).trans (min_le_right _ _)).trans (min_le_right _ _)
  have hρpos : 0 < ρ := by rw [hρ]; exact lt_min hρ0 (lt_min (by positivity) (lt_min (div_pos (by linarith) (by linarith)) (by positivity)))
  refine ⟨2 * ((1 + V) * (X * (K + T * C + D))), κ / 2, ρ, T, by positivity, by positivity, hρpos, hT,
    fun A u hA hu e P he heρ S hm δ hm0 hmρ hδ0 hδρ hdev hs hhs hN hpre => ?_⟩
  have hmp : hm ^ p ≤ hm := pow_le_of_le_one hm0 (hmρ.trans (q1.trans hρ1)) (by omega)
  have hmp0 : 0 ≤ hm ^ p := pow_nonneg hm0 p
  have huρ : u ≤ ρ := by
    have : 0 ≤ hs.length * u := by positivity
    linarith only [hN, this, show ((hs.length : ℝ) + 1) * u = hs.length * u + u by ring]
  have hmF : F * hm ≤ (t1 - t2) / 2 := by
    have := (le_div_iff₀ (by linarith)).1 (hmρ.trans q3)
    linarith only [this, show hm * (2 * F) = 2 * (F * hm) by ring]
  have small : ∀ l : List ℝ, l.length ≤ hs.length → X * (K * (e + u) + T * (C * (hm ^ p + δ)) + l.length * (D * u)) ≤ r := fun l hl => by
    have hl' : (l.length : ℝ) ≤ hs.length := by exact_mod_cast hl
    exact bound_small hX.le hK hT hC hD hr0.le q2 heρ huρ (hmp.trans hmρ) hδρ ((mul_le_mul_of_nonneg_right (by linarith) hu).trans hN)
  have near := fun (l : List ℝ) (hl : ∀ h ∈ l, 0 ≤ h ∧ h ≤ hm) (hsum : l.sum ≤ T) (hlen : l.length ≤ hs.length) =>
    follow A u hA hu (huρ.trans q1) e P he (heρ.trans q1) S hm δ hm0 (hmρ.trans q1) hδ0 hdev l hl hsum ((small l hlen).trans hrρ)
  have room : ∀ l : List ℝ, (∀ h ∈ l, 0 ≤ h ∧ h ≤ hm) → l.length ≤ hs.length →
      (∀ pre suf, l = pre ++ suf → suf ≠ [] → (runR A 1 type stages pre (initR A 1 type t0 P)).time ≤ t2) → l.sum ≤ T := by
    intro l
    induction l using List.reverseRecOn with
    | nil => intro _ _ _; simpa using hT
    | append_singleton l h ih =>
      intro hl hlen hpre
      obtain ⟨h0, h1⟩ := hl h (by simp)
      have hl' : ∀ h ∈ l, 0 ≤ h ∧ h ≤ hm := fun h hh => hl h (List.mem_append_left _ hh)
      have hlen' : l.length ≤ hs.length := by rw [List.length_append] at hlen; omega
      have hle := ih hl' hlen' (fun pre suf e _ => hpre pre (suf ++ [h]) (by rw [e, List.append_assoc]) (by simp))
      have h00 : 0 ≤ l.sum := List.sum_nonneg fun h hh => (hl' h hh).1
      have hs2 := hpre l [h] rfl (by simp)
      have g := (near l hl' hle hlen').2.1
      have g2 : X * (K * (e + u) + l.sum * (C * (hm ^ p + δ)) + l.length * (D * u)) ≤ (t1 - t2) / 2 := by
        refine le_trans (mul_le_mul_of_nonneg_left ?_ hX.le) ((small l hlen').trans hrt)
        have a2 : l.sum * (C * (hm ^ p + δ)) ≤ T * (C * (hm ^ p + δ)) := mul_le_mul_of_nonneg_right hle (by positivity)
        linarith only [a2]
      obtain ⟨_, b⟩ := θlip l.sum ⟨h00, hle⟩ T ⟨hT, le_rfl⟩ hle
      rw [θ1] at b
      have hab := (abs_le.1 g).1
      rw [List.sum_append, List.sum_singleton]
      have : F * hm ≤ F * (T - l.sum) := by linarith only [hmF, b, hab, g2, hs2]
      have := le_of_mul_le_mul_left this hF
      linarith only [this, h1]
  have hle := room hs hhs le_rfl hpre
  have h00 : 0 ≤ hs.sum := List.sum_nonneg fun h hh => (hhs h hh).1
  obtain ⟨⟨i1, i2⟩, g1, gx, gv⟩ := near hs hhs hle le_rfl
  obtain ⟨s, hsdef⟩ : ∃ s, s = runR A 1 type stages hs (initR A 1 type t0 P) := ⟨_, rfl⟩
  rw [← hsdef] at i1 i2 g1 gx gv ⊢
  have hN0 : (0 : ℝ) ≤ hs.length := Nat.cast_nonneg _
  have hN1 : 0 ≤ (hs.length + 1) * u := by positivity
  have e1 := bound_rate hX.le hC hD hK hκ.le he hu hN0 q4 (hmp.trans hmρ) hδρ h00
  have e2 := bound_error (s := hs.sum) hX.le hK hT hC hD he hu hmp0 hδ0 hN0 hle
  obtain ⟨err, herr⟩ : ∃ err, err = X * (K * (e + u) + hs.sum * (C * (hm ^ p + δ)) + hs.length * (D * u)) := ⟨_, rfl⟩
  rw [← herr] at g1 gx gv e1 e2
  have herr0 : 0 ≤ err := (abs_nonneg _).trans g1
  refine ⟨hle, ?_, fun hlo hhi => ?_⟩
  · obtain ⟨b, _⟩ := θlip 0 ⟨le_rfl, hT⟩ hs.sum ⟨h00, hle⟩ h00
    rw [θ0, sub_zero, sub_zero] at b
    have hab := (abs_le.1 g1).1
    have c3 : X * (K + D) * (e + (hs.length + 1) * u) ≤ 2 * ((1 + V) * (X * (K + T * C + D))) * (e + (hs.length + 1) * u) := by
      refine mul_le_mul_of_nonneg_right ?_ (by positivity)
      have d1 : 0 ≤ X * (K + D) + 2 * (X * (T * C)) + 2 * (V * (X * (K + T * C + D))) := by positivity
      linarith only [d1, show 2 * ((1 + V) * (X * (K + T * C + D))) = X * (K + D) + (X * (K + D) + 2 * (X * (T * C)) + 2 * (V * (X * (K + T * C + D)))) by ring]
    linarith only [b, hab, e1, c3]
  · obtain ⟨lx, lv⟩ := hlip hs.sum ⟨h00, hle⟩ s.time ⟨hlo, by linarith⟩
    have lx' := lx.trans (mul_le_mul_of_nonneg_left g1 hV)
    have lv' := lv.trans (mul_le_mul_of_nonneg_left g1 hV)
    have nx : ‖conf n s.P.pos - conf n (x s.time)‖ ≤ err * (1 + V) := by
      have := norm_add_le (conf n s.P.pos - conf n (x (t0 + θ hs.sum))) (conf n (x (t0 + θ hs.sum)) - conf n (x s.time))
      rw [sub_add_sub_cancel] at this
      linarith only [this, gx, lx', show err * (1 + V) = err + V * err by ring]
    have nv : ‖conf n s.P.vel - conf n (v s.time)‖ ≤ err * (1 + V) := by
      have := norm_add_le (conf n s.P.vel - conf n (v (t0 + θ hs.sum))) (conf n (v (t0 + θ hs.sum)) - conf n (v s.time))
      rw [sub_add_sub_cancel] at this
      linarith only [this, gv, lv', show err * (1 + V) = err + V * err by ring]
    have Wn := within_of (x := x) (v := v) (t := s.time) i1 i2 (norm_prod_le_iff.2 ⟨nx, nv⟩)
    have le : 2 * (err * (1 + V)) ≤ 2 * ((1 + V) * (X * (K + T * C + D))) * (hm ^ p + δ + e + (hs.length + 1) * u) := by
      have f4 := mul_le_mul_of_nonneg_right e2 (show 0 ≤ 1 + V by positivity)
      linarith only [f4, show 2 * ((1 + V) * (X * (K + T * C + D))) * (hm ^ p + δ + e + (hs.length + 1) * u) =
        2 * (X * (K + T * C + D) * (hm ^ p + δ + e + (hs.length + 1) * u) * (1 + V)) by ring]
    exact ⟨Wn.num, Wn.mass, fun k hk => (Wn.pos k hk).trans le, fun k hk => (Wn.vel k hk).trans le⟩

/-- **C117, a constant step** `h` of the transformed time, in an arithmetic with a relative error `u` that is small compared with `h`: the clock passes `t2` after
finitely many steps; at every step before (unless the clock is before `t0`), all positions and velocities are within `K (h ^ p + δ + e + u / h)` of the true ones. -/
theorem C117_reaches {x v : ℝ → Nat → V3 ℝ} {t0 t1 t2 : ℝ} (h02 : t0 ≤ t2) (h21 : t2 < t1) (M : NewtonMotion n m x v t0 t1)
    (hn : 2 ≤ n) (hmass : ∀ k, k < n → 0 < m k) (p : Nat) (hp : 1 ≤ p) (stages : List Stage) (type : ReguType) (hty : type ∈ [ReguType.logH, .ttl]) :
    ∃ K ρ : ℝ, 0 ≤ K ∧ 0 < ρ ∧ ∀ A u, Accurate A u → 0 ≤ u → ∀ e P, 0 ≤ e → e ≤ ρ → WithinOf n m x v t0 e P →
      ∀ h δ, 0 < h → h ≤ ρ → u ≤ ρ * h → 0 ≤ δ → δ ≤ ρ →
      (∀ w : List Bool, 1 ≤ w.length → w.length ≤ p → |(deviation stages w : ℝ)| * h ^ (w.length - 1) ≤ δ) →
      ∃ k : Nat, (∀ i, i ≤ k → (runR A 1 type stages (List.replicate i h) (initR A 1 type t0 P)).time ≤ t2 ∧
          (t0 ≤ (runR A 1 type stages (List.replicate i h) (initR A 1 type t0 P)).time →
            WithinOf n m x v (runR A 1 type stages (List.replicate i h) (initR A 1 type t0 P)).time (K * (h ^ p + δ + e + u / h))
              (runR A 1 type stages (List.replicate i h) (initR A 1 type t0 P)).P)) ∧
        t2 < (runR A 1 type stages (List.replicate (k + 1) h) (initR A 1 type t0 P)).time := by
  obtain ⟨K, κ, ρ, Θ, hK, hκ, hρ, hΘ, H⟩ := C117_rounded h02 h21 M hn hmass p hp stages type hty
  refine ⟨K * (Θ + 3), min (min 1 ρ) (ρ / (Θ + 3)), by positivity, lt_min (lt_min one_pos hρ) (by positivity),
    fun A u hA hu e P he heρ S h δ h0 hhρ huh hδ0 hδρ hdev => ?_⟩
  have r1 : min (min 1 ρ) (ρ / (Θ + 3)) ≤ 1 := (min_le_left _ _).trans (min_le_left _ _)
  have r2 : min (min 1 ρ) (ρ / (Θ + 3)) ≤ ρ := (min_le_left _ _).trans (min_le_right _ _)
  have h1 : h ≤ 1 := hhρ.trans r1
  have uh : u / h ≤ ρ / (Θ + 3) := by
    rw [div_le_iff₀ h0]
    exact huh.trans (mul_le_mul_of_nonneg_right (min_le_right _ _) h0.le)
  have uh0 : 0 ≤ u / h := by positivity
  -- how much the roundings of `i` steps do
  have cnt : ∀ i : Nat, i ≤ ⌊Θ / h⌋₊ + 1 → ((i : ℝ) + 1) * u ≤ (Θ + 3) * (u / h) := by
    intro i hi
    have a1 : (i : ℝ) ≤ ⌊Θ / h⌋₊ + 1 := by exact_mod_cast hi
    have a2 : (⌊Θ / h⌋₊ : ℝ) ≤ Θ / h := Nat.floor_le (by positivity)
    have a3 : ((i : ℝ) + 1) * h ≤ Θ + 3 := by
      have := mul_le_mul_of_nonneg_right (show (i : ℝ) + 1 ≤ Θ / h + 2 by linarith) h0.le
      rw [add_mul (Θ / h), div_mul_cancel₀ _ h0.ne'] at this
      linarith only [this, h1]
    rw [show (Θ + 3) * (u / h) = (Θ + 3) * u / h by ring, le_div_iff₀ h0]
    linarith [mul_le_mul_of_nonneg_right a3 hu, show ((i : ℝ) + 1) * u * h = (i + 1) * h * u by ring]
  have step : ∀ i : Nat, i ≤ ⌊Θ / h⌋₊ + 1 → (∀ j, j < i → (runR A 1 type stages (List.replicate j h) (initR A 1 type t0 P)).time ≤ t2) →
      (i : ℝ) * h ≤ Θ ∧ (t0 ≤ (runR A 1 type stages (List.replicate i h) (initR A 1 type t0 P)).time →
        (runR A 1 type stages (List.replicate i h) (initR A 1 type t0 P)).time ≤ t2 →
        WithinOf n m x v (runR A 1 type stages (List.replicate i h) (initR A 1 type t0 P)).time (K * (h ^ p + δ + e + (i + 1) * u))
          (runR A 1 type stages (List.replicate i h) (initR A 1 type t0 P)).P) := by
    intro i hi hlt
    have small : ((List.replicate i h).length + 1 : ℝ) * u ≤ ρ := by
      rw [List.length_replicate]
      refine (cnt i hi).trans ((mul_le_mul_of_nonneg_left uh (by positivity)).trans (le_of_eq ?_))
      field_simp
    have := H A u hA hu e P he (heρ.trans r2) S h δ h0.le (hhρ.trans r2) hδ0 (hδρ.trans r2) hdev (List.replicate i h)
      (fun y hy => by rw [(List.mem_replicate.1 hy).2]; exact ⟨h0.le, le_rfl⟩) small (fun pre suf e hsuf => by
        obtain ⟨e1, e2, e3⟩ := List.append_eq_replicate_iff.1 e.symm
        have : 0 < suf.length := List.length_pos_iff.2 hsuf
        rw [e2]
        exact hlt _ (by omega))
    rw [List.sum_replicate, nsmul_eq_mul, List.length_replicate] at this
    exact ⟨this.1, this.2.2⟩
  have ex : ∃ i, t2 < (runR A 1 type stages (List.replicate i h) (initR A 1 type t0 P)).time := by
    by_contra hno
    have := (step (⌊Θ / h⌋₊ + 1) le_rfl fun j _ => not_lt.1 fun hl => hno ⟨j, hl⟩).1
    have f := (div_lt_iff₀ h0).1 (Nat.lt_floor_add_one (Θ / h))
    push_cast at this
    linarith
  classical
  obtain ⟨hlast, hbefore⟩ := And.intro (Nat.find_spec ex) (fun j => Nat.find_min (m := j) ex)
  set N := Nat.find ex with hN
  have hpos : N ≠ 0 := by
    intro h
    rw [h] at hlast
    exact absurd hlast (not_lt.2 h02)
  obtain ⟨k, hk⟩ := Nat.exists_eq_succ_of_ne_zero hpos
  refine ⟨k, fun i hi => ?_, by rw [hk] at hlast; exact hlast⟩
  have hle : ∀ j, j ≤ i → (runR A 1 type stages (List.replicate j h) (initR A 1 type t0 P)).time ≤ t2 := fun j hj => not_lt.1 (hbefore j (by omega))
  have hi' : i ≤ ⌊Θ / h⌋₊ + 1 := by
    by_contra hbig
    have := (step (⌊Θ / h⌋₊ + 1) le_rfl fun j hj => hle j (by omega)).1
    have f := (div_lt_iff₀ h0).1 (Nat.lt_floor_add_one (Θ / h))
    push_cast at this
    linarith
  refine ⟨hle i le_rfl, fun hlo => ?_⟩
  have W := (step i hi' fun j hj => hle j hj.le).2 hlo (hle i le_rfl)
  have le : K * (h ^ p + δ + e + (i + 1) * u) ≤ K * (Θ + 3) * (h ^ p + δ + e + u / h) := by
    rw [mul_assoc]
    refine mul_le_mul_of_nonneg_left ?_ hK
    have d1 : 0 ≤ (Θ + 2) * (h ^ p + δ + e) := by positivity
    linarith [cnt i hi', show (Θ + 3) * (h ^ p + δ + e + u / h) = h ^ p + δ + e + (Θ + 2) * (h ^ p + δ + e) + (Θ + 3) * (u / h) by ring]
  exact ⟨W.num, W.mass, fun k hk => (W.pos k hk).trans le, fun k hk => (W.vel k hk).trans le⟩

/-- **C117, the integrators of the library** with a constant step `h` of the transformed time in rounded arithmetic with `b` bits: off by at most
`K (h ^ q + 1e-12 + 1 / (2 ^ b h))`, `q` the order of the integrator (for `Symplectic10th` it is 4, see C54), until the clock has passed `t2`. -/
theorem C117_integrators {x v : ℝ → Nat → V3 ℝ} {t0 t1 t2 : ℝ} (h02 : t0 ≤ t2) (h21 : t2 < t1) (M : NewtonMotion n m x v t0 t1)
    (hn : 2 ≤ n) (hmass : ∀ k, k < n → 0 < m k) (type : ReguType) (hty : type ∈ [ReguType.logH, .ttl]) (q : List Stage × Nat) (hq : q ∈ nominal) :
    ∃ K ρ : ℝ, 0 ≤ K ∧ 0 < ρ ∧ ((1e-12 : ℝ) ≤ ρ → ∀ (b : Nat) (rnd : ℝ → ℝ), 1 ≤ b → Nearest b rnd → ∀ P, InState n m x v t0 P →
      ∀ h, 0 < h → h ≤ ρ → (1 : ℝ) / 2 ^ b ≤ ρ * h →
      ∃ k : Nat, (∀ i, i ≤ k → (runR (ieee rnd) 1 type q.1 (List.replicate i h) (initR (ieee rnd) 1 type t0 P)).time ≤ t2 ∧
          (t0 ≤ (runR (ieee rnd) 1 type q.1 (List.replicate i h) (initR (ieee rnd) 1 type t0 P)).time →
            WithinOf n m x v (runR (ieee rnd) 1 type q.1 (List.replicate i h) (initR (ieee rnd) 1 type t0 P)).time (K * (h ^ q.2 + 1e-12 + 1 / 2 ^ b / h))
              (runR (ieee rnd) 1 type q.1 (List.replicate i h) (initR (ieee rnd) 1 type t0 P)).P)) ∧
        t2 < (runR (ieee rnd) 1 type q.1 (List.replicate (k + 1) h) (initR (ieee rnd) 1 type t0 P)).time) := by
  have q1 : 1 ≤ q.2 := by
    simp only [nominal, List.mem_cons, List.not_mem_nil, or_false] at hq
    rcases hq with rfl | rfl | rfl | rfl | rfl | rfl <;> norm_num
  obtain ⟨K, ρ, hK, hρ, H⟩ := C117_reaches h02 h21 M hn hmass q.2 q1 q.1 type hty
  refine ⟨K, min ρ 1, hK, lt_min hρ one_pos, fun h12 b rnd hb N P S h h0 hhρ hbh => ?_⟩
  have l := min_le_left ρ 1
  have hm1 : h ≤ 1 := hhρ.trans (min_le_right _ _)
  have W0 : WithinOf n m x v t0 0 P := ⟨S.num, S.mass, fun k hk => by rw [S.pos k hk]; simp [len, dot], fun k hk => by rw [S.vel k hk]; simp [len, dot]⟩
  obtain ⟨k, R1, R2⟩ := H (ieee rnd) _ (C113_nearest hb N) (by positivity) 0 P le_rfl hρ.le W0 h 1e-12 h0 (hhρ.trans l)
    (hbh.trans (mul_le_mul_of_nonneg_right l h0.le)) (by norm_num) (h12.trans l) (fun w _ hw => by
      have h1 := (C93_conditions.1 q hq).2.2 w hw
      have h2 : |(deviation q.1 w : ℝ)| ≤ 1e-12 := by
        have : ((|deviation q.1 w| : ℚ) : ℝ) ≤ ((1e-12 : ℚ) : ℝ) := by exact_mod_cast h1
        rw [Rat.cast_abs] at this
        exact this.trans (by norm_num)
      have h3 : h ^ (w.length - 1) ≤ 1 := pow_le_one₀ h0.le hm1
      calc |(deviation q.1 w : ℝ)| * h ^ (w.length - 1) ≤ 1e-12 * 1 := mul_le_mul h2 h3 (by positivity) (by norm_num)
        _ = 1e-12 := mul_one _)
  refine ⟨k, fun i hi => ?_, R2⟩
  have := R1 i hi
  rwa [add_zero] at this

/-! ### exact arithmetic -/

theorem posTime_exact {type : ReguType} {h : ℝ} {s : ReguSys} {rt : Regu × ℝ} (e : Regu.posPhyTime type (kinetic s.P) h s.R = .ok rt) :
    posTimeR .exact type h s = rt := by
  cases type with
  | none => cases e; rfl
  | logH =>
    by_cases hz : s.R.bindE + kinetic s.P = 0
    · have e' : Regu.posPhyTime .logH (kinetic s.P) h s.R = .nan := by
        show (Regu.divStep h (s.R.bindE + kinetic s.P) >>= _) = _
        rw [Regu.divStep, if_pos hz]; rfl
      rw [e'] at e; cases e
    · have e' : Regu.posPhyTime .logH (kinetic s.P) h s.R = .ok ({ s.R with scale := s.R.bindE + kinetic s.P }, h / (s.R.bindE + kinetic s.P)) := by
        show (Regu.divStep h (s.R.bindE + kinetic s.P) >>= _) = _
        rw [Regu.divStep, if_neg hz]; rfl
      rw [e'] at e; cases e
      show (({ s.R with scale := s.R.bindE + kineticR .exact s.P } : Regu), h / (s.R.bindE + kineticR .exact s.P)) = _
      rw [kin_exact]
  | ttl =>
    by_cases hz : s.R.omega = 0
    · have e' : Regu.posPhyTime .ttl (kinetic s.P) h s.R = .nan := by
        show (Regu.divStep h s.R.omega >>= _) = _
        rw [Regu.divStep, if_pos hz]; rfl
      rw [e'] at e; cases e
    · have e' : Regu.posPhyTime .ttl (kinetic s.P) h s.R = .ok ({ s.R with scale := s.R.omega }, h / s.R.omega) := by
        show (Regu.divStep h s.R.omega >>= _) = _
        rw [Regu.divStep, if_neg hz]; rfl
      rw [e'] at e; cases e
      rfl

theorem velTime_exact {type : ReguType} {G h : ℝ} {s : ReguSys} {rt : Regu × ℝ} (e : Regu.velPhyTime type (potentialDirect G s.P) h s.R = .ok rt) :
    velTimeR .exact G type h s = rt := by
  have key : type ≠ .none → velTimeR .exact G type h s = rt := by
    intro hty
    by_cases hz : -potentialDirect G s.P = 0
    · have e' : Regu.velPhyTime type (potentialDirect G s.P) h s.R = .nan := by
        cases type with
        | none => exact absurd rfl hty
        | logH =>
          show (Regu.divStep h (-potentialDirect G s.P) >>= _) = _
          rw [Regu.divStep, if_pos hz]; rfl
        | ttl =>
          show (Regu.divStep h (-potentialDirect G s.P) >>= _) = _
          rw [Regu.divStep, if_pos hz]; rfl
      rw [e'] at e; cases e
    · have e' : Regu.velPhyTime type (potentialDirect G s.P) h s.R = .ok ({ s.R with scale := -potentialDirect G s.P }, h / -potentialDirect G s.P) := by
        cases type with
        | none => exact absurd rfl hty
        | logH =>
          show (Regu.divStep h (-potentialDirect G s.P) >>= _) = _
          rw [Regu.divStep, if_neg hz]; rfl
        | ttl =>
          show (Regu.divStep h (-potentialDirect G s.P) >>= _) = _
          rw [Regu.divStep, if_neg hz]; rfl
      rw [e'] at e; cases e
      cases type with
      | none => exact absurd rfl hty
      | logH => rfl
      | ttl => rfl
  by_cases hty : type = .none
  · subst hty; cases e; rfl
  · exact key hty

theorem driftR_exact {type : ReguType} {h : ℝ} {s t : ReguSys} (hs : s.sync = false) (e : ReguSys.drift type h s = .ok t) :
    driftR .exact type h s = t ∧ t.sync = false := by
  unfold ReguSys.drift at e
  cases hp : Regu.posPhyTime type (kinetic s.P) h s.R with
  | ok rt =>
    rw [hp] at e
    have e1 := posTime_exact hp
    obtain ⟨P, tm, a, R, inc, b⟩ := s
    obtain rfl : b = false := hs
    cases e
    refine ⟨?_, rfl⟩
    unfold driftR
    rw [e1]
    rfl
  | abort => rw [hp] at e; cases e
  | ub => rw [hp] at e; cases e
  | nan => rw [hp] at e; cases e
  | diverge => rw [hp] at e; cases e

theorem kickR_exact {G : ℝ} {type : ReguType} {h : ℝ} {s t : ReguSys} (hs : s.sync = false) (e : ReguSys.kick G type gravity h s = .ok t) :
    kickR .exact G type h s = t ∧ t.sync = false := by
  unfold ReguSys.kick at e
  cases hp : Regu.velPhyTime type (potentialDirect G s.P) h s.R with
  | ok rt =>
    rw [hp] at e
    have e1 := velTime_exact hp
    obtain ⟨P, tm, a, R, inc, b⟩ := s
    obtain rfl : b = false := hs
    cases e
    refine ⟨?_, rfl⟩
    unfold kickR
    rw [e1, acc_exact]
    have half : ∀ c : ℝ, Arith.exact.mul (Arith.exact.lit (1 / 2)) c = 1 / 2 * c := fun c => by
      show ((1 / 2 : ℚ) : ℝ) * c = _
      push_cast
      rfl
    simp only [half]
    rfl
  | abort => rw [hp] at e; cases e
  | ub => rw [hp] at e; cases e
  | nan => rw [hp] at e; cases e
  | diverge => rw [hp] at e; cases e

theorem stepR_exact {G : ℝ} {type : ReguType} (stages : List Stage) (h : ℝ) : ∀ s t : ReguSys, s.sync = false →
    (reguOps G type gravity).run (stages.map (Stage.op h)) s = .ok t → stepR .exact G type stages h s = t ∧ t.sync = false := by
  induction stages with
  | nil => intro s t hs e; cases e; exact ⟨rfl, hs⟩
  | cons c l ih =>
    intro s t hs e
    have e0 : ((reguOps G type gravity).apply (Stage.op h c) s >>= (reguOps G type gravity).run (l.map (Stage.op h))) = .ok t := e
    cases hp : (reguOps G type gravity).apply (Stage.op h c) s with
    | ok s1 =>
      rw [hp] at e0
      have one : stageR .exact G type h c s = s1 ∧ s1.sync = false := by
        cases c with
        | drift c => exact driftR_exact hs hp
        | kick c => exact kickR_exact hs hp
      obtain ⟨a, b⟩ := ih s1 t one.2 e0
      refine ⟨?_, b⟩
      show stepR .exact G type l h (stageR .exact G type h c s) = t
      rw [one.1, a]
    | abort => rw [hp] at e0; cases e0
    | ub => rw [hp] at e0; cases e0
    | nan => rw [hp] at e0; cases e0
    | diverge => rw [hp] at e0; cases e0

/-- **C117, without rounding** the computation is that of the systems in exact arithmetic (C17, C48, C92, C93, C97 and all others about regularised systems), as
long as that does not divide by zero. -/
theorem C117_exact (G : ℝ) (type : ReguType) (stages : List Stage) (t0 : ℝ) (P : Particles) :
    initR .exact G type t0 P = ReguSys.init G type t0 P ∧ ∀ (hs : List ℝ) (s : ReguSys),
      steps (reguStep G type gravity) (hs.map fun h => stages.map (Stage.op h)) (ReguSys.init G type t0 P) = .ok s →
        runR .exact G type stages hs (initR .exact G type t0 P) = s := by
  have init : initR .exact G type t0 P = ReguSys.init G type t0 P := by
    show ReguSys.mk _ _ _ _ _ _ = _
    have e : totalEnergyR .exact G P = totalEnergy G P := by
      show potentialDirect G P + kineticR .exact P = _
      rw [kin_exact]; rfl
    rw [e]
    rfl
  refine ⟨init, fun hs s e => ?_⟩
  rw [init]
  have gen : ∀ (hs : List ℝ) (a s : ReguSys), a.sync = false → steps (reguStep G type gravity) (hs.map fun h => stages.map (Stage.op h)) a = .ok s →
      runR .exact G type stages hs a = s := by
    intro hs
    induction hs with
    | nil => intro a s _ e; cases e; rfl
    | cons h l ih =>
      intro a s ha e
      have e0 : ((reguOps G type gravity).run (stages.map (Stage.op h)) a >>= steps (reguStep G type gravity) (l.map fun h => stages.map (Stage.op h))) = .ok s := e
      cases hp : (reguOps G type gravity).run (stages.map (Stage.op h)) a with
      | ok s1 =>
        rw [hp] at e0
        obtain ⟨b1, b2⟩ := stepR_exact stages h a s1 ha hp
        show runR .exact G type stages l (stepR .exact G type stages h a) = s
        rw [b1]
        exact ih s1 s b2 e0
      | abort => rw [hp] at e0; cases e0
      | ub => rw [hp] at e0; cases e0
      | nan => rw [hp] at e0; cases e0
      | diverge => rw [hp] at e0; cases e0
  exact gen hs _ s rfl e

/-- Non-vacuity: the hypotheses on the motion, the start, the rounding and the integrator hold of a circular motion and rounding to 53 bits, and those on the
steps for any `ρ ≥ 1e-3` and the step `1e-3`. -/
example (t0 : ℝ) (rnd : ℝ → ℝ) (N : Nearest 53 rnd) (ρ : ℝ) (hρ : 1e-3 ≤ ρ) : NewtonMotion 2 (fun _ => 1 / 2) circlePos circleVel t0 (t0 + 1) ∧
    WithinOf 2 (fun _ => 1 / 2) circlePos circleVel t0 0 ⟨2, circlePos t0, circleVel t0, fun _ => 1 / 2⟩ ∧
    Accurate (ieee rnd) (1 / 2 ^ 53) ∧ (1 : ℝ) / 2 ^ 53 ≤ ρ * 1e-3 ∧
    ∀ w : List Bool, 1 ≤ w.length → w.length ≤ 4 → |(deviation symplectic4th w : ℝ)| * 1e-3 ^ (w.length - 1) ≤ 1e-14 * 1e-3 ^ 2 := by
  refine ⟨circle_motion t0 _, ⟨rfl, fun _ _ => rfl, fun _ _ => by simp [len, dot], fun _ _ => by simp [len, dot]⟩, C113_nearest (by norm_num) N,
    le_trans (by norm_num) (mul_le_mul_of_nonneg_right hρ (by norm_num)), fourth_dev (by norm_num) (by norm_num)⟩

end SpaceHub.Rounded
