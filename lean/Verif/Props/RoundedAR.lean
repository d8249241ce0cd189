import Verif.Proof.RoundedARRun
import Verif.Props.RoundedChain
import Verif.Props.RoundedRegu

/-
C118: rounding errors of ARchain systems.
-/

set_option autoImplicit false

namespace SpaceHub.Rounded
open SpaceHub V3 Force Core Integrator Spec Sys Props Converge
open scoped ContDiff

variable {n : Nat} {m : Nat → ℝ}

/-! ### the start -/

/-- states near a given one -/
def ball (n : Nat) (m : Nat → ℝ) (y0 : Conf n × Conf n) (r : ℝ) : Set Particles :=
  {P | P.num = n ∧ (∀ k, k < n → P.mass k = m k) ∧ (conf n P.pos, conf n P.vel) ∈ Metric.closedBall y0 r}

theorem near_compact {W : Set (Conf n × Conf n)} (cpt : IsCompact W) (hsub : W ⊆ Prod.fst ⁻¹' free n) :
    NearP n (fun _ _ => True) {P : Particles | P.num = n ∧ (∀ k, k < n → P.mass k = m k) ∧ (conf n P.pos, conf n P.vel) ∈ W} (fun _ P => P) (fun P => P) ∧
    Apart n {P : Particles | P.num = n ∧ (∀ k, k < n → P.mass k = m k) ∧ (conf n P.pos, conf n P.vel) ∈ W} (fun P => P) := by
  obtain ⟨R, hR⟩ := cpt.isBounded.exists_norm_le
  refine ⟨⟨fun _ P h => h.1, fun P h => h.1, fun k hk => .fixed (fun P : Particles => P.mass k) (B := |m k|) fun P h => by rw [h.2.1 k hk],
    fun k hk => ?_, fun k hk => ?_⟩, ?_⟩
  · have key : ∀ P ∈ {P : Particles | P.num = n ∧ (∀ k, k < n → P.mass k = m k) ∧ (conf n P.pos, conf n P.vel) ∈ W}, |(P.pos k).x| ≤ R ∧ |(P.pos k).y| ≤ R ∧ |(P.pos k).z| ≤ R :=
      fun P h => coord_le _ k hk ((norm_fst_le (conf n P.pos, conf n P.vel)).trans (hR _ h.2.2))
    exact ⟨.fixed (fun P : Particles => (P.pos k).x) fun z hz => (key z hz).1, .fixed (fun P : Particles => (P.pos k).y) fun z hz => (key z hz).2.1,
      .fixed (fun P : Particles => (P.pos k).z) fun z hz => (key z hz).2.2⟩
  · have key : ∀ P ∈ {P : Particles | P.num = n ∧ (∀ k, k < n → P.mass k = m k) ∧ (conf n P.pos, conf n P.vel) ∈ W}, |(P.vel k).x| ≤ R ∧ |(P.vel k).y| ≤ R ∧ |(P.vel k).z| ≤ R :=
      fun P h => coord_le _ k hk ((norm_snd_le (conf n P.pos, conf n P.vel)).trans (hR _ h.2.2))
    exact ⟨.fixed (fun P : Particles => (P.vel k).x) fun z hz => (key z hz).1, .fixed (fun P : Particles => (P.vel k).y) fun z hz => (key z hz).2.1,
      .fixed (fun P : Particles => (P.vel k).z) fun z hz => (key z hz).2.2⟩
  · intro i j hij hj
    have hi : i < n := by omega
    have cont : Continuous (fun z : Conf n × Conf n => sq (ve (z.1 ⟨j, hj⟩) - ve (z.1 ⟨i, hi⟩))) := by
      unfold sq ve
      simp only [V3.sub_x, V3.sub_y, V3.sub_z]
      fun_prop
    obtain ⟨c, hc, key⟩ := cpt.exists_forall_le' (f := fun z : Conf n × Conf n => sq (ve (z.1 ⟨j, hj⟩) - ve (z.1 ⟨i, hi⟩))) cont.continuousOn (a := 0) fun z hz => by
      have := dot_pos (sub_ne_zero.2 ((hsub hz) ⟨j, hj⟩ ⟨i, hi⟩ (fun h => by have := congrArg Fin.val h; simp at this; omega)))
      exact this
    exact ⟨c, hc, fun P h => key _ h.2.2⟩

theorem near_ball {y0 : Conf n × Conf n} (hy : y0.1 ∈ free n) : ∃ r : ℝ, 0 < r ∧
    NearP n (fun _ _ => True) (ball n m y0 r) (fun _ P => P) (fun P => P) ∧ Apart n (ball n m y0 r) (fun P => P) := by
  have hU : IsOpen (Prod.fst ⁻¹' free n : Set (Conf n × Conf n)) := (free_open n).preimage continuous_fst
  obtain ⟨r, hr, hsub⟩ := Metric.nhds_basis_closedBall.mem_iff.1 (hU.mem_nhds hy)
  exact ⟨r, hr, near_compact (isCompact_closedBall y0 r) hsub⟩

theorem near_initAR (hn : 2 ≤ n) (t0 : ℝ) (type : ReguType) {S : Set Particles} (hP : NearP n (fun _ _ => True) S (fun _ P => P) (fun P => P))
    (hap : Apart n S (fun P => P)) {σ : Arr Nat} (hi : IsIndex n σ) :
    NearAR n type (fun _ _ => True) S σ (fun A P => initAR A 1 type t0 P σ) (fun P => initR .exact 1 type t0 P) := by
  have L : ∀ x : Particles → Arr (V3 ℝ), NearA n (fun _ _ => True) S (fun _ => x) x →
      Links n (fun _ _ => True) S σ (fun A P => toChainR A P.num (x P) (fun _ => 0) σ) x := by
    intro x hx
    have l := Links.ofChain hi hx (by omega) fun _ _ _ => 0
    refine ⟨fun i h => (l.link i h).congr (fun A z hz => ?_) fun _ _ => rfl, l.base.congr (fun A z hz => ?_) fun _ _ => rfl⟩
    · rw [hP.num0 z hz]
    · rw [hP.num0 z hz]
  have C : NearC n (fun _ _ => True) S σ (fun A P => chainPart (initAR A 1 type t0 P σ)) (fun P => simplePart (initR .exact 1 type t0 P)) :=
    { num := fun A z hz => hP.num A z hz
      num0 := fun z hz => hP.num0 z hz
      index := fun _ _ _ => rfl
      mass := hP.mass
      pos := hP.pos
      vel := hP.vel
      cpos := L _ hP.pos
      cvel := L _ hP.vel
      time := .fixed (fun _ => t0) (B := |t0|) fun _ _ => le_rfl }
  have pot := NearC.potential hn hi C hap 1
  exact ⟨C, fun _ => pot.neg.congr (fun _ _ _ => rfl) fun _ _ => rfl, fun _ => (pot.add hP.kinetic).neg.congr (fun _ _ _ => rfl) fun _ _ => rfl⟩

theorem accurate_exact : Accurate .exact 0 := by
  constructor <;> intros <;> simp [Arith.exact]

theorem ar_start (hn : 2 ≤ n) {type : ReguType} (hty : type ≠ .none) (t0 : ℝ) {y0 : Conf n × Conf n} (hy : y0.1 ∈ free n) : ∃ K ρ : ℝ, 0 ≤ K ∧ 0 < ρ ∧
    ∀ σ ∈ indices n, ∀ A u, Accurate A u → 0 ≤ u → u ≤ ρ → ∀ P e, P.num = n → (∀ k, k < n → P.mass k = m k) → e ≤ ρ → ‖(conf n P.pos, conf n P.vel) - y0‖ ≤ e →
      ‖pointR n type (plainAR (initAR A 1 type t0 P σ)) - (t0, y0.1, y0.2, potC n m y0.1 - kinC n m y0.2)‖ ≤ K * (e + u) := by
  obtain ⟨r, hr, hP, hap⟩ := near_ball (m := m) hy
  obtain ⟨K0, ρ0, hK0, hρ0, st⟩ := near_start (m := m) hty t0 hy
  obtain ⟨C, u0, hC, hu0, key⟩ := finite_uniform (fun σ : Arr Nat => fun C u0 => ∀ A u, Accurate A u → 0 ≤ u → u ≤ u0 → ∀ P ∈ ball n m y0 r,
      ‖pointR n type (plainAR (initAR A 1 type t0 P σ)) - pointR n type (initR .exact 1 type t0 P)‖ ≤ C * u)
    (fun σ C C' u u' hC hu h A v hA h0 hv z hz => (h A v hA h0 (hv.trans hu) z hz).trans (mul_le_mul_of_nonneg_right hC h0)) (indices n) fun σ hσ => by
      obtain ⟨C, u0, a, b, c⟩ := (near_initAR hn t0 type hP hap (indices_isIndex hσ)).point hn (indices_isIndex hσ) hty
      exact ⟨C, u0, a, b, fun A u hA h0 hu P hP => c A u hA h0 hu P hP trivial⟩
  refine ⟨C + (K0 + 1), min u0 (min ρ0 r), by positivity, lt_min hu0 (lt_min hρ0 hr), fun σ hσ A u hA hu hle P e h1 h2 he h3 => ?_⟩
  have he0 : 0 ≤ e := (norm_nonneg _).trans h3
  have k1 := key σ hσ A u hA hu (hle.trans (min_le_left _ _)) P
    ⟨h1, h2, mem_closedBall_iff_norm.2 (h3.trans (he.trans ((min_le_right _ _).trans (min_le_right _ _))))⟩
  have k2 := st .exact 0 accurate_exact le_rfl hρ0.le P e h1 h2 (he.trans ((min_le_right _ _).trans (min_le_left _ _))) h3
  rw [add_zero] at k2
  have e1 : K0 * e ≤ (K0 + 1) * e := mul_le_mul_of_nonneg_right (by linarith) he0
  have e2 : e ≤ (K0 + 1) * e := by linarith [mul_nonneg hK0 he0]
  have c5 := norm_prod_le_iff.1 h3
  have k3 : ‖pointR n type (initR .exact 1 type t0 P) - (t0, y0.1, y0.2, potC n m y0.1 - kinC n m y0.2)‖ ≤ (K0 + 1) * e := by
    refine norm_prod_le_iff.2 ⟨?_, norm_prod_le_iff.2 ⟨c5.1.trans e2, norm_prod_le_iff.2 ⟨c5.2.trans e2, k2.trans e1⟩⟩⟩
    show ‖t0 - t0‖ ≤ _
    rw [sub_self, norm_zero]
    positivity
  have k4 := (norm_sub_le_norm_sub_add_norm_sub (pointR n type (plainAR (initAR A 1 type t0 P σ))) (pointR n type (initR .exact 1 type t0 P))
    (t0, y0.1, y0.2, potC n m y0.1 - kinC n m y0.2)).trans (add_le_add k1 k3)
  refine k4.trans ?_
  have d1 : 0 ≤ C * e + (K0 + 1) * u := by positivity
  linarith only [d1, show (C + (K0 + 1)) * (e + u) = C * u + (K0 + 1) * e + (C * e + (K0 + 1) * u) by ring]

theorem StepsToAR.tied {A : Arith} {type : ReguType} {stages : List Stage} {h δ : ℝ} {s s' : ARSys} (hn : 1 ≤ n) (st : StepsToAR A 1 type stages h s s')
    (T : Tied A n δ (chainPart s)) (hi : s.index ∈ indices n) : Tied A n δ (chainPart s') ∧ s'.index ∈ indices n ∧ s'.P.mass = s.P.mass ∧
      ∃ τ ∈ indices n, s' = postIterAR A τ (stepAR A 1 type stages h s) := by
  obtain ⟨τ, hτ, rfl⟩ := st
  obtain ⟨b1, b2, b3, b4⟩ := chainPart_step A 1 type h hn stages s T
  have hτi : τ ∈ indices n := by
    have := hτ.mem
    rwa [show (stepAR A 1 type stages h s).P.num = n from b1.num] at this
  obtain ⟨p1, _, p3, _⟩ := postIterAR_keeps A τ (stepAR A 1 type stages h s)
  refine ⟨?_, ?_, p1.trans b2, τ, hτi, rfl⟩
  · rw [chainPart_post]
    exact b1.post hn (indices_isIndex hτi)
  · rcases p3 with h | h
    · rw [h]; exact hτi
    · rw [h, b3]; exact hi

/-- A run follows the motion, as long as the transformed time is not used up and the errors are small. -/
theorem archain_follows {x v : ℝ → Nat → V3 ℝ} {t0 t1 : ℝ} (ht : t0 ≤ t1) (M : NewtonMotion n m x v t0 t1)
    (hn : 2 ≤ n) (hmass : ∀ k, k < n → 0 < m k) (p : Nat) (stages : List Stage) {type : ReguType} (hty : type ≠ .none) :
    ∃ (T κ F X K C D ρ V : ℝ) (θ : ℝ → ℝ), 0 ≤ T ∧ 0 < κ ∧ 0 < F ∧ 0 < X ∧ 0 ≤ K ∧ 0 ≤ C ∧ 0 ≤ D ∧ 0 < ρ ∧ ρ ≤ 1 ∧ 0 ≤ V ∧ θ 0 = 0 ∧ θ T = t1 - t0 ∧
      (∀ τ ∈ Set.Icc 0 T, θ τ ∈ Set.Icc 0 (t1 - t0)) ∧
      (∀ τ ∈ Set.Icc 0 T, ∀ τ' ∈ Set.Icc 0 T, τ ≤ τ' → κ * (τ' - τ) ≤ θ τ' - θ τ ∧ θ τ' - θ τ ≤ F * (τ' - τ)) ∧
      (∀ τ ∈ Set.Icc 0 T, ∀ t ∈ Set.Icc t0 t1, ‖conf n (x (t0 + θ τ)) - conf n (x t)‖ ≤ V * |t - (t0 + θ τ)| ∧
        ‖conf n (v (t0 + θ τ)) - conf n (v t)‖ ≤ V * |t - (t0 + θ τ)|) ∧
      ∀ A u, Accurate A u → 0 ≤ u → u ≤ ρ → ∀ e P, 0 ≤ e → e ≤ ρ → WithinOf n m x v t0 e P → ∀ hm δ, 0 ≤ hm → hm ≤ ρ → 0 ≤ δ →
        (∀ w : List Bool, 1 ≤ w.length → w.length ≤ p → |(deviation stages w : ℝ)| * hm ^ (w.length - 1) ≤ δ) →
        ∀ l : List ℝ, (∀ h ∈ l, 0 ≤ h ∧ h ≤ hm) → l.sum ≤ T → X * (K * (e + u) + T * (C * (hm ^ p + δ)) + l.length * (D * u)) ≤ ρ →
          ∀ idx, IndexOfR A P idx → ∀ s, Runs (StepsToAR A 1 type stages) l (initAR A 1 type t0 P idx) s →
          (s.P.num = n ∧ ∀ k, k < n → s.P.mass k = m k) ∧
          |s.time - (t0 + θ l.sum)| ≤ X * (K * (e + u) + l.sum * (C * (hm ^ p + δ)) + l.length * (D * u)) ∧
          ‖conf n s.P.pos - conf n (x (t0 + θ l.sum))‖ ≤ X * (K * (e + u) + l.sum * (C * (hm ^ p + δ)) + l.length * (D * u)) ∧
          ‖conf n s.P.vel - conf n (v (t0 + θ l.sum))‖ ≤ X * (K * (e + u) + l.sum * (C * (hm ^ p + δ)) + l.length * (D * u)) := by
  obtain ⟨B, hB⟩ : ∃ B, B = potC n m (conf n (x t0)) - kinC n m (conf n (v t0)) := ⟨_, rfl⟩
  obtain ⟨r0, A0, L0, V0, _, H, _⟩ := motion_tube M
  have hA0 := H.hA
  have hV0 := H.hV
  obtain ⟨T, κ, F, θ, hT, hκ, hF, θ0, θ1, θin, θlip, hsafe, dy⟩ := motion_regu ht M hn hmass B hB
  obtain ⟨y, hy⟩ : ∃ y : ℝ → Quad n, y = fun τ => (t0 + θ τ, conf n (x (t0 + θ τ)), conf n (v (t0 + θ τ)), B) := ⟨_, rfl⟩
  have dq : ∀ τ ∈ Set.Icc 0 T, HasDerivWithinAt y (quadF n m true (y τ) + quadF n m false (y τ)) (Set.Icc 0 T) τ := by
    rw [hy]; exact quad_curve dy
  obtain ⟨r, C, L, ρ1, W, hr, hC, hL, hρ1, hρ11, cW, hWU, key⟩ := order_parts (safeQ_open n m) (quad_smooth hn hmass) (quad_straight n m) (T := T) (y := y) dq
    (fun τ hτ => by rw [hy]; exact hsafe τ hτ) p stages.length (stages.map fun s => |((coef s : ℚ) : ℝ)|).sum
  obtain ⟨stab, inW, loc⟩ := key stages le_rfl fun s hs => List.single_le_sum (by
    intro z hz
    obtain ⟨s, _, rfl⟩ := List.mem_map.1 hz
    exact abs_nonneg _) _ (List.mem_map.2 ⟨s, hs, rfl⟩)
  obtain ⟨R, hR⟩ := cW.isBounded.exists_norm_le
  obtain ⟨z0, hz0⟩ : ∃ z0 : Conf n × Conf n, z0 = (conf n (x t0), conf n (v t0)) := ⟨_, rfl⟩
  obtain ⟨κ1, v1, hκ1, hv1, close1⟩ := chain_close n (by omega) (‖z0‖ + 1)
  obtain ⟨κ2, v2, hκ2, hv2, close2⟩ := partial_close n (2 * R)
  obtain ⟨κc, hκc⟩ : ∃ κc, κc = max κ1 κ2 := ⟨_, rfl⟩
  have k1c : κ1 ≤ κc := by rw [hκc]; exact le_max_left _ _
  have k2c : κ2 ≤ κc := by rw [hκc]; exact le_max_right _ _
  have hκc0 : 0 ≤ κc := hκ1.trans k1c
  obtain ⟨D, u0, hD, hu0, rnd⟩ := archain_steps hn hmass hty hκc0 cW hWU inW hρ1.le
  have free0 : conf n (x t0) ∈ free n := by
    have h := (hsafe 0 ⟨le_rfl, hT⟩).2
    simp only [θ0, add_zero] at h
    exact h
  obtain ⟨K0, ρ0, hK0, hρ0, st⟩ := ar_start (m := m) hn hty t0 (y0 := (conf n (x t0), conf n (v t0))) free0
  obtain ⟨ρ, hρ⟩ : ∃ ρ, ρ = min (min ρ1 u0) (min (min ρ0 r) (min v1 v2)) := ⟨_, rfl⟩
  have q1 : ρ ≤ ρ1 := by rw [hρ]; exact (min_le_left _ _).trans (min_le_left _ _)
  have q2 : ρ ≤ u0 := by rw [hρ]; exact (min_le_left _ _).trans (min_le_right _ _)
  have q3 : ρ ≤ ρ0 := by rw [hρ]; exact ((min_le_right _ _).trans (min_le_left _ _)).trans (min_le_left _ _)
  have q4 : ρ ≤ r := by rw [hρ]; exact ((min_le_right _ _).trans (min_le_left _ _)).trans (min_le_right _ _)
  have q5 : ρ ≤ v1 := by rw [hρ]; exact ((min_le_right _ _).trans (min_le_right _ _)).trans (min_le_left _ _)
  have q6 : ρ ≤ v2 := by rw [hρ]; exact ((min_le_right _ _).trans (min_le_right _ _)).trans (min_le_right _ _)
  have hρpos : 0 < ρ := by rw [hρ]; exact lt_min (lt_min hρ1 hu0) (lt_min (lt_min hρ0 hr) (lt_min hv1 hv2))
  refine ⟨T, κ, F, Real.exp (L * T), K0 + κc, C, D, ρ, V0 + A0, θ, hT, hκ, hF, Real.exp_pos _, by positivity, hC, hD,
    hρpos, q1.trans hρ11, by positivity, θ0, θ1, θin, θlip, fun τ hτ t htt => ?_,
    fun A u hA hu huρ e P he heρ S hm δ hm0 hmρ hδ0 hdev l hl hsum small idx hidx s' Rn => ?_⟩
  · have hz1 : t - t0 ∈ Set.Icc 0 (t1 - t0) := ⟨by linarith [htt.1], by linarith [htt.2]⟩
    have lx := Convex.norm_image_sub_le_of_norm_hasDerivWithin_le (C := V0) H.dq (fun t ht => H.vel t ht) (convex_Icc 0 (t1 - t0)) hz1 (θin τ hτ)
    have lv := Convex.norm_image_sub_le_of_norm_hasDerivWithin_le (C := A0) H.dv (fun t ht => H.acc t ht _ (by simpa using H.hr.le))
      (convex_Icc 0 (t1 - t0)) hz1 (θin τ hτ)
    have ed : ‖θ τ - (t - t0)‖ = |t - (t0 + θ τ)| := by
      rw [Real.norm_eq_abs, abs_sub_comm, show t - t0 - θ τ = t - (t0 + θ τ) by ring]
    rw [ed] at lx lv
    simp only [add_sub_cancel] at lx lv
    have n0 := abs_nonneg (t - (t0 + θ τ))
    refine ⟨lx.trans (mul_le_mul_of_nonneg_right (by linarith) n0), lv.trans (mul_le_mul_of_nonneg_right (by linarith) n0)⟩
  obtain ⟨ε, hε⟩ : ∃ ε, ε = C * (hm ^ p + δ) := ⟨_, rfl⟩
  obtain ⟨e0, he0⟩ : ∃ e0, e0 = K0 * (e + u) := ⟨_, rfl⟩
  have hε0 : 0 ≤ ε := by rw [hε]; positivity
  have he00 : 0 ≤ e0 := by rw [he0]; positivity
  have l0 : 0 ≤ l.sum := List.sum_nonneg fun h hh => (hl h hh).1
  have X1 : 1 ≤ Real.exp (L * T) := Real.one_le_exp (by positivity)
  have hku : 0 ≤ κc * u := by positivity
  have split : (K0 + κc) * (e + u) = e0 + κc * u + κc * e := by rw [he0]; ring
  have hke : 0 ≤ κc * e := by positivity
  rw [← hε, split] at small ⊢
  have hidxi : idx ∈ indices n := by
    have := hidx.mem
    rwa [S.num] at this
  have hii := indices_isIndex hidxi
  have c1 := within_norm he S
  have start : ‖pointR n type (plainAR (initAR A 1 type t0 P idx)) - y 0‖ ≤ e0 := by
    have c2 := st idx hidxi A u hA hu (huρ.trans q3) P e S.num S.mass (heρ.trans q3) c1
    rw [hy, he0]
    simp only [θ0, add_zero]
    rw [hB]
    exact c2
  -- what is stored stands for what the chain stands for
  have tied_close : ∀ s : ChainSys, Tied A n (κc * u) s → ‖point n (plainOf s)‖ ≤ R → Close n (κc * u) s.P.pos s.cpos s.index ∧ Close n (κc * u) s.P.vel s.cvel s.index := by
    intro s ts hb
    exact ⟨tie_close (close2 A u hA hu (huρ.trans q6) s.cpos (bdd_chain (by omega) ts.index (fun i hi => plain_pos (by omega) ts.num ts.index i hi)
        ((norm_fst_le (point n (plainOf s))).trans hb))) k2c hu ts.pos,
      tie_close (close2 A u hA hu (huρ.trans q6) s.cvel (bdd_chain (by omega) ts.index (fun i hi => plain_vel (by omega) ts.num ts.index i hi)
        ((norm_snd_le (point n (plainOf s))).trans hb))) k2c hu ts.vel⟩
  have near_R : ∀ t ∈ Set.Icc 0 T, ∀ s : ARSys, ‖pointR n type (plainAR s) - y t‖ ≤ r → ‖point n (plainOf (chainPart s))‖ ≤ R := fun t ht s h => by
    have b := hR _ (inW t ht 0 ⟨le_rfl, hρ1.le⟩ _ h [] stages rfl)
    have b' : ‖pointR n type (plainAR s)‖ ≤ R := b
    have b1 := norm_prod_le_iff.1 (norm_prod_le_iff.1 b').2
    exact norm_prod_le_iff.2 ⟨b1.1, (norm_prod_le_iff.1 b1.2).1⟩
  have tied0 : Tied A n (κc * u) (chainPart (initAR A 1 type t0 P idx)) := by
    have st0 : ‖(conf n P.pos, conf n P.vel)‖ ≤ ‖z0‖ + 1 := by
      have := norm_add_le z0 ((conf n P.pos, conf n P.vel) - z0)
      rw [add_sub_cancel] at this
      rw [← hz0] at c1
      linarith [heρ.trans (q1.trans hρ11)]
    have cc : ∀ z : Arr (V3 ℝ), ‖conf n z‖ ≤ ‖z0‖ + 1 → Close n (κc * u) z (toChainR A n z (fun _ => 0) idx) idx := fun z hz i hi => by
      obtain ⟨a1, a2, a3⟩ := close1 A u hA hu (huρ.trans q5) idx hii z (fun k hk => coord_le z k hk hz) i hi
      have l : κ1 * u ≤ κc * u := mul_le_mul_of_nonneg_right k1c hu
      exact ⟨a1.trans l, a2.trans l, a3.trans l⟩
    refine ⟨S.num, hii, .inr ?_, .inr ?_⟩
    · show Close n (κc * u) P.pos (toChainR A P.num P.pos (fun _ => 0) idx) idx
      rw [S.num]
      exact cc _ ((norm_fst_le _).trans st0)
    · show Close n (κc * u) P.vel (toChainR A P.num P.vel (fun _ => 0) idx) idx
      rw [S.num]
      exact cc _ ((norm_snd_le _).trans st0)
  have sm : Real.exp (L * T) * (e0 + T * ε + l.length * (D * u)) ≤ r :=
    (mul_le_mul_of_nonneg_left (by linarith only [hku, hke]) (by linarith only [X1])).trans (small.trans q4)
  have g := global_related (Φ := wstep (quadF n m) stages) (Ψ := StepsToAR A 1 type stages) (ζ := fun s => pointR n type (plainAR s))
    (I := fun _ _ s => Tied A n (κc * u) (chainPart s) ∧ s.index ∈ indices n ∧ ∀ k, k < n → s.P.mass k = m k) (y := y) (T := T) (r := r) (M := L) (hm := hm)
    (ε := ε) (ε1 := ε) (κ := 0) (η := D * u) (e := e0) (N := l.length) hL hε0 (by rw [add_zero]) (by positivity) he00
    (fun t ht h hh => stab t ht h ⟨hh.1, hh.2.trans (hmρ.trans q1)⟩) (by rw [hε]; exact loc hm δ hm0 (hmρ.trans q1) hδ0 hdev)
    (fun t h k s s1 hst ht0 h0 hh htT hk ⟨i1, i2, i3⟩ hz => by
      have ht' : t ∈ Set.Icc 0 T := ⟨ht0, by linarith⟩
      obtain ⟨b1, b2, b3, τ, hτ, rfl⟩ := hst.tied (by omega) i1 i2
      have j1 := rnd s.index i2 τ hτ A u hA hu (huρ.trans q2) (h, s) ⟨rfl, ⟨h0, hh.trans (hmρ.trans q1)⟩, i1.num, i3, t, ht', hz⟩
        (tied_close _ i1 (near_R t ht' s hz))
      exact ⟨⟨b1, b2, fun k hk => by rw [b3]; exact i3 k hk⟩, by rw [mul_zero, zero_add]; exact j1⟩)
    sm Rn 0 0 hl le_rfl (by linarith) (by omega) ⟨tied0, hidxi, S.mass⟩ (by simpa using start)
  rw [zero_add, zero_add] at g
  obtain ⟨⟨g1, _, g2⟩, g3⟩ := g
  have g' := g3.trans (mul_le_mul_of_nonneg_right (Real.exp_le_exp.2 (mul_le_mul_of_nonneg_left hsum hL)) (by positivity))
  have fin : ‖pointR n type (plainAR s') - y l.sum‖ ≤ r := g'.trans ((mul_le_mul_of_nonneg_left (by
    have : l.sum * ε ≤ T * ε := mul_le_mul_of_nonneg_right hsum hε0
    linarith only [this]) (by linarith only [X1])).trans sm)
  obtain ⟨w1, w2⟩ := tied_close _ g1 (near_R _ ⟨l0, hsum⟩ s' fin)
  have w3 := norm_prod_le_iff.1 (close_norm hn g1.num g1.index hku w1 w2)
  rw [hy] at g'
  have a1 := norm_prod_le_iff.1 g'
  have a2 := norm_prod_le_iff.1 a1.2
  have a3 := norm_prod_le_iff.1 a2.2
  have up : ∀ a : ℝ, 0 ≤ a → κc * u + Real.exp (L * T) * (e0 + a) ≤ Real.exp (L * T) * (e0 + κc * u + κc * e + a) := fun a ha => by
    have u1 := mul_le_mul_of_nonneg_right X1 hku
    have u2 : 0 ≤ Real.exp (L * T) * (κc * e) := by positivity
    linarith only [u1, u2, show Real.exp (L * T) * (e0 + κc * u + κc * e + a) = Real.exp (L * T) * (e0 + a) + Real.exp (L * T) * (κc * u) + Real.exp (L * T) * (κc * e) by ring]
  have up' := up (l.sum * ε + l.length * (D * u)) (by positivity)
  rw [← add_assoc, ← add_assoc] at up'
  have tr : ∀ a b c : Conf n, ‖a - b‖ ≤ κc * u → ‖b - c‖ ≤ Real.exp (L * T) * (e0 + l.sum * ε + l.length * (D * u)) →
      ‖a - c‖ ≤ Real.exp (L * T) * (e0 + κc * u + κc * e + l.sum * ε + l.length * (D * u)) := fun a b c h1 h2 =>
    (norm_sub_le_norm_sub_add_norm_sub a b c).trans ((add_le_add h1 h2).trans up')
  exact ⟨⟨g1.num, g2⟩, a1.1.trans (by linarith only [up', hku]), tr _ _ _ w3.1 a2.1, tr _ _ _ w3.2 a3.1⟩

/-! ### the property -/

theorem Runs.mono {X : Type} {R R' : ℝ → X → X → Prop} (h : ∀ c a b, R c a b → R' c a b) {l : List ℝ} {s s' : X} (r : Runs R l s s') : Runs R' l s s' := by
  induction r with
  | nil s => exact .nil s
  | cons e _ ih => exact .cons (h _ _ _ e) ih

theorem Runs.snoc {X : Type} {R : ℝ → X → X → Prop} {l : List ℝ} {h : ℝ} {s s' : X} (r : Runs R (l ++ [h]) s s') : ∃ s1, Runs R l s s1 ∧ R h s1 s' := by
  induction l generalizing s with
  | nil =>
    cases r with
    | cons e t => cases t; exact ⟨_, .nil _, e⟩
  | cons c l ih =>
    cases r with
    | cons e t =>
      obtain ⟨s1, a, b⟩ := ih t
      exact ⟨s1, .cons e a, b⟩

/-- **C118.** Particles move from `t0` to `t1` under Newton's laws without colliding, `t2` is before `t1`.  An ARchain system (logarithmic Hamiltonian or
time-transformed leap-frog, chain coordinates) is made of a state that is within `e` of theirs and integrated with an integrator of the order `p` (up to a
deviation `δ` of its coefficients) and steps of at most `hm` of the transformed time, in an arithmetic whose operations have the relative error `u`; the chain is
rebuilt after every step, in whatever way the distances as computed and the ties between them allow.  As long as the clock has not passed `t2` before the last
of `N` steps, it has gone on at a rate of at least `κ` up to `K (e + (N + 1) u)`; if it has not passed `t2` after that step either (and is not before `t0`),
every position and velocity is within `K (hm ^ p + δ + e + (N + 1) u)` of the true one at the time the clock shows; provided that `hm`, `δ`, `e` and
`(N + 1) u` are small enough.  `Θ` is all the transformed time there is. -/
theorem C118_rounded {x v : ℝ → Nat → V3 ℝ} {t0 t1 t2 : ℝ} (h02 : t0 ≤ t2) (h21 : t2 < t1) (M : NewtonMotion n m x v t0 t1)
    (hn : 2 ≤ n) (hmass : ∀ k, k < n → 0 < m k) (p : Nat) (hp : 1 ≤ p) (stages : List Stage) (type : ReguType) (hty : type ∈ [ReguType.logH, .ttl]) :
    ∃ K κ ρ Θ : ℝ, 0 ≤ K ∧ 0 < κ ∧ 0 < ρ ∧ 0 ≤ Θ ∧ ∀ A u, Accurate A u → 0 ≤ u → ∀ e P, 0 ≤ e → e ≤ ρ → WithinOf n m x v t0 e P →
      ∀ hm δ, 0 ≤ hm → hm ≤ ρ → 0 ≤ δ → δ ≤ ρ →
      (∀ w : List Bool, 1 ≤ w.length → w.length ≤ p → |(deviation stages w : ℝ)| * hm ^ (w.length - 1) ≤ δ) →
      ∀ hs : List ℝ, (∀ h ∈ hs, 0 ≤ h ∧ h ≤ hm) → (hs.length + 1) * u ≤ ρ →
      ∀ idx, IndexOfR A P idx → ∀ s, Runs (fun h a b => a.time ≤ t2 ∧ StepsToAR A 1 type stages h a b) hs (initAR A 1 type t0 P idx) s →
        hs.sum ≤ Θ ∧ t0 + κ * hs.sum ≤ s.time + K * (e + (hs.length + 1) * u) ∧
        (t0 ≤ s.time → s.time ≤ t2 → WithinOf n m x v s.time (K * (hm ^ p + δ + e + (hs.length + 1) * u)) s.P) := by
  have hty' : type ≠ .none := by rintro rfl; simp at hty
  obtain ⟨T, κ, F, X, K, C, D, ρ0, V, θ, hT, hκ, hF, hX, hK, hC, hD, hρ0, hρ1, hV, θ0, θ1, θin, θlip, hlip, follow⟩ :=
    archain_follows (by linarith) M hn hmass p stages hty'
  obtain ⟨r, hr⟩ : ∃ r, r = min ρ0 ((t1 - t2) / 2) := ⟨_, rfl⟩
  have hr0 : 0 < r := by rw [hr]; exact lt_min hρ0 (by linarith)
  have hrρ : r ≤ ρ0 := by rw [hr]; exact min_le_left _ _
  have hrt : r ≤ (t1 - t2) / 2 := by rw [hr]; exact min_le_right _ _
  obtain ⟨ρ, hρ⟩ : ∃ ρ, ρ = min ρ0 (min (r / (X * (2 * K + 2 * (T * C) + D) + 1)) (min ((t1 - t2) / (2 * F)) (κ / (4 * (X * C) + 1)))) := ⟨_, rfl⟩
  have q1 : ρ ≤ ρ0 := by rw [hρ]; exact min_le_left _ _
  have q2 : ρ ≤ r / (X * (2 * K + 2 * (T * C) + D) + 1) := by rw [hρ]; exact (min_le_right _ _).trans (min_le_left _ _)
  have q3 : ρ ≤ (t1 - t2) / (2 * F) := by rw [hρ]; exact ((min_le_right _ _).trans (min_le_right _ _)).trans (min_le_left _ _)
  have q4 : ρ ≤ κ / (4 * (X * C) + 1) := by rw [hρ]; exact ((min_le_right _ _).trans (min_le_right _ _)).trans (min_le_right _ _)
  have hρpos : 0 < ρ := by rw [hρ]; exact lt_min hρ0 (lt_min (by positivity) (lt_min (div_pos (by linarith) (by linarith)) (by positivity)))
  refine ⟨2 * ((1 + V) * (X * (K + T * C + D))), κ / 2, ρ, T, by positivity, by positivity, hρpos, hT,
    fun A u hA hu e P he heρ S hm δ hm0 hmρ hδ0 hδρ hdev hs hhs hN idx hidx s Rn => ?_⟩
  have hmp : hm ^ p ≤ hm := pow_le_of_le_one hm0 (hmρ.trans (q1.trans hρ1)) (by omega)
  have hmp0 : 0 ≤ hm ^ p := pow_nonneg hm0 p
  have huρ : u ≤ ρ := by
    have : 0 ≤ hs.length * u := by positivity
    linarith only [hN, this, show ((hs.length : ℝ) + 1) * u = hs.length * u + u by ring]
  have hmF : F * hm ≤ (t1 - t2) / 2 := by
    have := (le_div_iff₀ (by linarith)).1 (hmρ.trans q3)
    linarith only [this, show hm * (2 * F) = 2 * (F * hm) by ring]
  have small : ∀ l : List ℝ, l.length ≤ hs.length → X * (K * (e + u) + T * (C * (hm ^ p + δ)) + l.length * (D * u)) ≤ r := fun l hl => by
    have hl' : (l.length : ℝ) ≤ hs.length := by exact_mod_cast hl
    exact bound_small hX.le hK hT hC hD hr0.le q2 heρ huρ (hmp.trans hmρ) hδρ ((mul_le_mul_of_nonneg_right (by linarith) hu).trans hN)
  have near := fun (l : List ℝ) (hl : ∀ h ∈ l, 0 ≤ h ∧ h ≤ hm) (hsum : l.sum ≤ T) (hlen : l.length ≤ hs.length) =>
    follow A u hA hu (huρ.trans q1) e P he (heρ.trans q1) S hm δ hm0 (hmρ.trans q1) hδ0 hdev l hl hsum ((small l hlen).trans hrρ) idx hidx
  have room : ∀ l : List ℝ, (∀ h ∈ l, 0 ≤ h ∧ h ≤ hm) → l.length ≤ hs.length → ∀ s,
      Runs (fun h a b => a.time ≤ t2 ∧ StepsToAR A 1 type stages h a b) l (initAR A 1 type t0 P idx) s → l.sum ≤ T := by
    intro l
    induction l using List.reverseRecOn with
    | nil => intro _ _ _ _; simpa using hT
    | append_singleton l h ih =>
      intro hl hlen s Rn
      obtain ⟨h0, h1⟩ := hl h (by simp)
      have hl' : ∀ h ∈ l, 0 ≤ h ∧ h ≤ hm := fun h hh => hl h (List.mem_append_left _ hh)
      have hlen' : l.length ≤ hs.length := by rw [List.length_append] at hlen; omega
      obtain ⟨s1, R1, hs2, _⟩ := Rn.snoc
      have hle := ih hl' hlen' s1 R1
      have h00 : 0 ≤ l.sum := List.sum_nonneg fun h hh => (hl' h hh).1
      have g := (near l hl' hle hlen' s1 (R1.mono fun _ _ _ q => q.2)).2.1
      have g2 : X * (K * (e + u) + l.sum * (C * (hm ^ p + δ)) + l.length * (D * u)) ≤ (t1 - t2) / 2 := by
        refine le_trans (mul_le_mul_of_nonneg_left ?_ hX.le) ((small l hlen').trans hrt)
        have a2 : l.sum * (C * (hm ^ p + δ)) ≤ T * (C * (hm ^ p + δ)) := mul_le_mul_of_nonneg_right hle (by positivity)
        linarith only [a2]
      obtain ⟨_, b⟩ := θlip l.sum ⟨h00, hle⟩ T ⟨hT, le_rfl⟩ hle
      rw [θ1] at b
      have hab := (abs_le.1 g).1
      rw [List.sum_append, List.sum_singleton]
      have : F * hm ≤ F * (T - l.sum) := by linarith only [hmF, b, hab, g2, hs2]
      have := le_of_mul_le_mul_left this hF
      linarith only [this, h1]
  have hle := room hs hhs le_rfl s Rn
  have h00 : 0 ≤ hs.sum := List.sum_nonneg fun h hh => (hhs h hh).1
  obtain ⟨⟨i1, i2⟩, g1, gx, gv⟩ := near hs hhs hle le_rfl s (Rn.mono fun _ _ _ q => q.2)
  have hN0 : (0 : ℝ) ≤ hs.length := Nat.cast_nonneg _
  have hN1 : 0 ≤ (hs.length + 1) * u := by positivity
  have e1 := bound_rate hX.le hC hD hK hκ.le he hu hN0 q4 (hmp.trans hmρ) hδρ h00
  have e2 := bound_error (s := hs.sum) hX.le hK hT hC hD he hu hmp0 hδ0 hN0 hle
  obtain ⟨err, herr⟩ : ∃ err, err = X * (K * (e + u) + hs.sum * (C * (hm ^ p + δ)) + hs.length * (D * u)) := ⟨_, rfl⟩
  rw [← herr] at g1 gx gv e1 e2
  have herr0 : 0 ≤ err := (abs_nonneg _).trans g1
  refine ⟨hle, ?_, fun hlo hhi => ?_⟩
  · obtain ⟨b, _⟩ := θlip 0 ⟨le_rfl, hT⟩ hs.sum ⟨h00, hle⟩ h00
    rw [θ0, sub_zero, sub_zero] at b
    have hab := (abs_le.1 g1).1
    have c3 : X * (K + D) * (e + (hs.length + 1) * u) ≤ 2 * ((1 + V) * (X * (K + T * C + D))) * (e + (hs.length + 1) * u) := by
      refine mul_le_mul_of_nonneg_right ?_ (by positivity)
      have d1 : 0 ≤ X * (K + D) + 2 * (X * (T * C)) + 2 * (V * (X * (K + T * C + D))) := by positivity
      linarith only [d1, show 2 * ((1 + V) * (X * (K + T * C + D))) = X * (K + D) + (X * (K + D) + 2 * (X * (T * C)) + 2 * (V * (X * (K + T * C + D)))) by ring]
    linarith only [b, hab, e1, c3]
  · obtain ⟨lx, lv⟩ := hlip hs.sum ⟨h00, hle⟩ s.time ⟨hlo, by linarith⟩
    have lx' := lx.trans (mul_le_mul_of_nonneg_left g1 hV)
    have lv' := lv.trans (mul_le_mul_of_nonneg_left g1 hV)
    have nx : ‖conf n s.P.pos - conf n (x s.time)‖ ≤ err * (1 + V) := by
      have := norm_add_le (conf n s.P.pos - conf n (x (t0 + θ hs.sum))) (conf n (x (t0 + θ hs.sum)) - conf n (x s.time))
      rw [sub_add_sub_cancel] at this
      linarith only [this, gx, lx', show err * (1 + V) = err + V * err by ring]
    have nv : ‖conf n s.P.vel - conf n (v s.time)‖ ≤ err * (1 + V) := by
      have := norm_add_le (conf n s.P.vel - conf n (v (t0 + θ hs.sum))) (conf n (v (t0 + θ hs.sum)) - conf n (v s.time))
      rw [sub_add_sub_cancel] at this
      linarith only [this, gv, lv', show err * (1 + V) = err + V * err by ring]
    have Wn := within_of (x := x) (v := v) (t := s.time) i1 i2 (norm_prod_le_iff.2 ⟨nx, nv⟩)
    have le : 2 * (err * (1 + V)) ≤ 2 * ((1 + V) * (X * (K + T * C + D))) * (hm ^ p + δ + e + (hs.length + 1) * u) := by
      have f4 := mul_le_mul_of_nonneg_right e2 (show 0 ≤ 1 + V by positivity)
      linarith only [f4, show 2 * ((1 + V) * (X * (K + T * C + D))) * (hm ^ p + δ + e + (hs.length + 1) * u) =
        2 * (X * (K + T * C + D) * (hm ^ p + δ + e + (hs.length + 1) * u) * (1 + V)) by ring]
    exact ⟨Wn.num, Wn.mass, fun k hk => (Wn.pos k hk).trans le, fun k hk => (Wn.vel k hk).trans le⟩

theorem Runs.concat {X : Type} {R : ℝ → X → X → Prop} {l : List ℝ} {h : ℝ} {s s1 s' : X} (r : Runs R l s s1) (e : R h s1 s') : Runs R (l ++ [h]) s s' := by
  induction r with
  | nil s => exact .cons e (.nil _)
  | cons e' _ ih => exact .cons e' (ih e)

theorem Runs.ofSeq {X : Type} {R : ℝ → X → X → Prop} {h : ℝ} (S : ℕ → X) (i : ℕ) (hS : ∀ j, j < i → R h (S j) (S (j + 1))) : Runs R (List.replicate i h) (S 0) (S i) := by
  induction i with
  | zero => exact .nil _
  | succ i ih =>
    rw [List.replicate_succ']
    exact (ih fun j hj => hS j (by omega)).concat (hS i (by omega))

/-- **C118, a constant step** `h` of the transformed time, in an arithmetic with a relative error `u` that is small compared with `h`: the clock passes `t2` after
finitely many steps; at every step before (unless the clock is before `t0`), all positions and velocities are within `K (h ^ p + δ + e + u / h)` of the true ones. -/
theorem C118_reaches {x v : ℝ → Nat → V3 ℝ} {t0 t1 t2 : ℝ} (h02 : t0 ≤ t2) (h21 : t2 < t1) (M : NewtonMotion n m x v t0 t1)
    (hn : 2 ≤ n) (hmass : ∀ k, k < n → 0 < m k) (p : Nat) (hp : 1 ≤ p) (stages : List Stage) (type : ReguType) (hty : type ∈ [ReguType.logH, .ttl]) :
    ∃ K ρ : ℝ, 0 ≤ K ∧ 0 < ρ ∧ ∀ A u, Accurate A u → 0 ≤ u → ∀ e P, 0 ≤ e → e ≤ ρ → WithinOf n m x v t0 e P →
      ∀ h δ, 0 < h → h ≤ ρ → u ≤ ρ * h → 0 ≤ δ → δ ≤ ρ →
      (∀ w : List Bool, 1 ≤ w.length → w.length ≤ p → |(deviation stages w : ℝ)| * h ^ (w.length - 1) ≤ δ) →
      ∀ idx, IndexOfR A P idx → ∀ S : ℕ → ARSys, S 0 = initAR A 1 type t0 P idx → (∀ i, StepsToAR A 1 type stages h (S i) (S (i + 1))) →
      ∃ k : Nat, (∀ i, i ≤ k → (S i).time ≤ t2 ∧ (t0 ≤ (S i).time → WithinOf n m x v (S i).time (K * (h ^ p + δ + e + u / h)) (S i).P)) ∧
        t2 < (S (k + 1)).time := by
  obtain ⟨K, κ, ρ, Θ, hK, hκ, hρ, hΘ, H⟩ := C118_rounded h02 h21 M hn hmass p hp stages type hty
  refine ⟨K * (Θ + 3), min (min 1 ρ) (ρ / (Θ + 3)), by positivity, lt_min (lt_min one_pos hρ) (by positivity),
    fun A u hA hu e P he heρ W0 h δ h0 hhρ huh hδ0 hδρ hdev idx hidx S hS0 hS => ?_⟩
  have r1 : min (min 1 ρ) (ρ / (Θ + 3)) ≤ 1 := (min_le_left _ _).trans (min_le_left _ _)
  have r2 : min (min 1 ρ) (ρ / (Θ + 3)) ≤ ρ := (min_le_left _ _).trans (min_le_right _ _)
  have h1 : h ≤ 1 := hhρ.trans r1
  have uh : u / h ≤ ρ / (Θ + 3) := by
    rw [div_le_iff₀ h0]
    exact huh.trans (mul_le_mul_of_nonneg_right (min_le_right _ _) h0.le)
  have uh0 : 0 ≤ u / h := by positivity
  -- how much the roundings of `i` steps do
  have cnt : ∀ i : Nat, i ≤ ⌊Θ / h⌋₊ + 1 → ((i : ℝ) + 1) * u ≤ (Θ + 3) * (u / h) := by
    intro i hi
    have a1 : (i : ℝ) ≤ ⌊Θ / h⌋₊ + 1 := by exact_mod_cast hi
    have a2 : (⌊Θ / h⌋₊ : ℝ) ≤ Θ / h := Nat.floor_le (by positivity)
    have a3 : ((i : ℝ) + 1) * h ≤ Θ + 3 := by
      have := mul_le_mul_of_nonneg_right (show (i : ℝ) + 1 ≤ Θ / h + 2 by linarith) h0.le
      rw [add_mul (Θ / h), div_mul_cancel₀ _ h0.ne'] at this
      linarith only [this, h1]
    rw [show (Θ + 3) * (u / h) = (Θ + 3) * u / h by ring, le_div_iff₀ h0]
    linarith [mul_le_mul_of_nonneg_right a3 hu, show ((i : ℝ) + 1) * u * h = (i + 1) * h * u by ring]
  have step : ∀ i : Nat, i ≤ ⌊Θ / h⌋₊ + 1 → (∀ j, j < i → (S j).time ≤ t2) →
      (i : ℝ) * h ≤ Θ ∧ (t0 ≤ (S i).time →
        (S i).time ≤ t2 →
        WithinOf n m x v (S i).time (K * (h ^ p + δ + e + (i + 1) * u))
          (S i).P) := by
    intro i hi hlt
    have small : ((List.replicate i h).length + 1 : ℝ) * u ≤ ρ := by
      rw [List.length_replicate]
      refine (cnt i hi).trans ((mul_le_mul_of_nonneg_left uh (by positivity)).trans (le_of_eq ?_))
      field_simp
    have rn := Runs.ofSeq (R := fun h a b => a.time ≤ t2 ∧ StepsToAR A 1 type stages h a b) S i fun j hj => ⟨hlt j hj, hS j⟩
    rw [hS0] at rn
    have := H A u hA hu e P he (heρ.trans r2) W0 h δ h0.le (hhρ.trans r2) hδ0 (hδρ.trans r2) hdev (List.replicate i h)
      (fun y hy => by rw [(List.mem_replicate.1 hy).2]; exact ⟨h0.le, le_rfl⟩) small idx hidx (S i) rn
    rw [List.sum_replicate, nsmul_eq_mul, List.length_replicate] at this
    exact ⟨this.1, this.2.2⟩
  have ex : ∃ i, t2 < (S i).time := by
    by_contra hno
    have := (step (⌊Θ / h⌋₊ + 1) le_rfl fun j _ => not_lt.1 fun hl => hno ⟨j, hl⟩).1
    have f := (div_lt_iff₀ h0).1 (Nat.lt_floor_add_one (Θ / h))
    push_cast at this
    linarith
  classical
  obtain ⟨hlast, hbefore⟩ := And.intro (Nat.find_spec ex) (fun j => Nat.find_min (m := j) ex)
  set N := Nat.find ex with hN
  have hpos : N ≠ 0 := by
    intro h
    rw [h] at hlast
    rw [hS0] at hlast
    exact absurd hlast (not_lt.2 h02)
  obtain ⟨k, hk⟩ := Nat.exists_eq_succ_of_ne_zero hpos
  refine ⟨k, fun i hi => ?_, by rw [hk] at hlast; exact hlast⟩
  have hle : ∀ j, j ≤ i → (S j).time ≤ t2 := fun j hj => not_lt.1 (hbefore j (by omega))
  have hi' : i ≤ ⌊Θ / h⌋₊ + 1 := by
    by_contra hbig
    have := (step (⌊Θ / h⌋₊ + 1) le_rfl fun j hj => hle j (by omega)).1
    have f := (div_lt_iff₀ h0).1 (Nat.lt_floor_add_one (Θ / h))
    push_cast at this
    linarith
  refine ⟨hle i le_rfl, fun hlo => ?_⟩
  have W := (step i hi' fun j hj => hle j hj.le).2 hlo (hle i le_rfl)
  have le : K * (h ^ p + δ + e + (i + 1) * u) ≤ K * (Θ + 3) * (h ^ p + δ + e + u / h) := by
    rw [mul_assoc]
    refine mul_le_mul_of_nonneg_left ?_ hK
    have d1 : 0 ≤ (Θ + 2) * (h ^ p + δ + e) := by positivity
    linarith [cnt i hi', show (Θ + 3) * (h ^ p + δ + e + u / h) = h ^ p + δ + e + (Θ + 2) * (h ^ p + δ + e) + (Θ + 3) * (u / h) by ring]
  exact ⟨W.num, W.mass, fun k hk => (W.pos k hk).trans le, fun k hk => (W.vel k hk).trans le⟩

/-- **C118, the integrators of the library** with a constant step `h` of the transformed time in rounded arithmetic with `b` bits: off by at most
`K (h ^ q + 1e-12 + 1 / (2 ^ b h))`, `q` the order of the integrator (for `Symplectic10th` it is 4, see C54), until the clock has passed `t2`. -/
theorem C118_integrators {x v : ℝ → Nat → V3 ℝ} {t0 t1 t2 : ℝ} (h02 : t0 ≤ t2) (h21 : t2 < t1) (M : NewtonMotion n m x v t0 t1)
    (hn : 2 ≤ n) (hmass : ∀ k, k < n → 0 < m k) (type : ReguType) (hty : type ∈ [ReguType.logH, .ttl]) (q : List Stage × Nat) (hq : q ∈ nominal) :
    ∃ K ρ : ℝ, 0 ≤ K ∧ 0 < ρ ∧ ((1e-12 : ℝ) ≤ ρ → ∀ (b : Nat) (rnd : ℝ → ℝ), 1 ≤ b → Nearest b rnd → ∀ P, InState n m x v t0 P →
      ∀ h, 0 < h → h ≤ ρ → (1 : ℝ) / 2 ^ b ≤ ρ * h →
      ∀ idx, IndexOfR (ieee rnd) P idx → ∀ S : ℕ → ARSys, S 0 = initAR (ieee rnd) 1 type t0 P idx →
      (∀ i, StepsToAR (ieee rnd) 1 type q.1 h (S i) (S (i + 1))) →
      ∃ k : Nat, (∀ i, i ≤ k → (S i).time ≤ t2 ∧ (t0 ≤ (S i).time → WithinOf n m x v (S i).time (K * (h ^ q.2 + 1e-12 + 1 / 2 ^ b / h)) (S i).P)) ∧
        t2 < (S (k + 1)).time) := by
  have q1 : 1 ≤ q.2 := by
    simp only [nominal, List.mem_cons, List.not_mem_nil, or_false] at hq
    rcases hq with rfl | rfl | rfl | rfl | rfl | rfl <;> norm_num
  obtain ⟨K, ρ, hK, hρ, H⟩ := C118_reaches h02 h21 M hn hmass q.2 q1 q.1 type hty
  refine ⟨K, min ρ 1, hK, lt_min hρ one_pos, fun h12 b rnd hb N P I h h0 hhρ hbh idx hidx S hS0 hS => ?_⟩
  have l := min_le_left ρ 1
  have hm1 : h ≤ 1 := hhρ.trans (min_le_right _ _)
  have W0 : WithinOf n m x v t0 0 P := ⟨I.num, I.mass, fun k hk => by rw [I.pos k hk]; simp [len, dot], fun k hk => by rw [I.vel k hk]; simp [len, dot]⟩
  obtain ⟨k, R1, R2⟩ := H (ieee rnd) _ (C113_nearest hb N) (by positivity) 0 P le_rfl hρ.le W0 h 1e-12 h0 (hhρ.trans l)
    (hbh.trans (mul_le_mul_of_nonneg_right l h0.le)) (by norm_num) (h12.trans l) (fun w _ hw => by
      have h1 := (C93_conditions.1 q hq).2.2 w hw
      have h2 : |(deviation q.1 w : ℝ)| ≤ 1e-12 := by
        have : ((|deviation q.1 w| : ℚ) : ℝ) ≤ ((1e-12 : ℚ) : ℝ) := by exact_mod_cast h1
        rw [Rat.cast_abs] at this
        exact this.trans (by norm_num)
      have h3 : h ^ (w.length - 1) ≤ 1 := pow_le_one₀ h0.le hm1
      calc |(deviation q.1 w : ℝ)| * h ^ (w.length - 1) ≤ 1e-12 * 1 := mul_le_mul h2 h3 (by positivity) (by norm_num)
        _ = 1e-12 := mul_one _) idx hidx S hS0 hS
  refine ⟨k, fun i hi => ?_, R2⟩
  have := R1 i hi
  rwa [add_zero] at this

theorem postIterAR_num (A : Arith) (τ : Arr Nat) (s : ARSys) : (postIterAR A τ s).P.num = s.P.num := (postIterAR_keeps A τ s).2.1

theorem stepAR_num (A : Arith) (G : ℝ) (type : ReguType) (h : ℝ) (stages : List Stage) : ∀ s : ARSys, (stepAR A G type stages h s).P.num = s.P.num := by
  induction stages with
  | nil => exact fun _ => rfl
  | cons c l ih => exact fun s => (ih _).trans (by cases c <;> rfl)

/-- An index is found and an unending sequence of steps exists, whatever the arithmetic. -/
theorem C118_exists (A : Arith) (G : ℝ) (type : ReguType) (stages : List Stage) (h t0 : ℝ) (P : Particles) (hn : 2 ≤ P.num) : ∃ idx, IndexOfR A P idx ∧
    ∃ S : ℕ → ARSys, S 0 = initAR A G type t0 P idx ∧ ∀ i, StepsToAR A G type stages h (S i) (S (i + 1)) := by
  obtain ⟨idx, hidx⟩ := (C116_exists A).1 P hn
  have step : ∀ s : {s : ARSys // 2 ≤ s.P.num}, ∃ s' : {s : ARSys // 2 ≤ s.P.num}, StepsToAR A G type stages h s.1 s'.1 := by
    rintro ⟨s, hs⟩
    have k := stepAR_num A G type h stages s
    obtain ⟨τ, hτ⟩ := (C116_exists A).1 (stepAR A G type stages h s).P (by omega)
    exact ⟨⟨postIterAR A τ (stepAR A G type stages h s), by rw [postIterAR_num]; omega⟩, τ, hτ, rfl⟩
  choose next hnext using step
  have hn' : 2 ≤ (initAR A G type t0 P idx).P.num := hn
  refine ⟨idx, hidx, fun i => ((next^[i]) ⟨initAR A G type t0 P idx, hn'⟩).1, rfl, fun i => ?_⟩
  show StepsToAR A G type stages h ((next^[i]) ⟨initAR A G type t0 P idx, hn'⟩).1 ((next^[i + 1]) ⟨initAR A G type t0 P idx, hn'⟩).1
  rw [Function.iterate_succ_apply']
  exact hnext _

/-! ### exact arithmetic -/

theorem initAR_exact (G : ℝ) (type : ReguType) (t0 : ℝ) (P : Particles) (idx : Arr Nat) (hn : 2 ≤ P.num) :
    ARSys.init G type t0 P idx = .ok (initAR .exact G type t0 P idx) := by
  unfold ARSys.init
  show (Chain.toChain P.num P.pos (fun _ => 0) idx >>= _) = _
  rw [toChain_exact _ (by omega)]
  show (Chain.toChain P.num P.vel (fun _ => 0) idx >>= _) = _
  rw [toChain_exact _ (by omega)]
  show (potentialChain G P _ >>= _) = _
  rw [(C115_exact G P _ hn).2.2.2.1]
  refine congrArg Res.ok ?_
  rw [← kin_exact]
  rfl

theorem driftAR_exact {type : ReguType} {h : ℝ} {s t : ARSys} (hn : 2 ≤ s.P.num) (hs : s.sync = false) (e : ARSys.drift type h s = .ok t) :
    driftAR .exact type h s = t ∧ t.sync = false := by
  unfold ARSys.drift at e
  cases hp : Regu.posPhyTime type (kinetic s.P) h s.R with
  | ok rt =>
    rw [hp] at e
    have e1 : posTimeAR .exact type h s = rt := posTime_exact (s := reguPart s) hp
    change (ChainSys.chainAdvance s.P.num s.index s.P.pos s.cpos s.cvel rt.2 >>= _) = _ at e
    rw [chainAdvance_exact _ (by omega)] at e
    obtain ⟨P, tm, cp, cv, ix, a, ca, R, inc, b⟩ := s
    obtain rfl : b = false := hs
    cases e
    refine ⟨?_, rfl⟩
    unfold driftAR
    rw [e1]
    rfl
  | abort => rw [hp] at e; cases e
  | ub => rw [hp] at e; cases e
  | nan => rw [hp] at e; cases e
  | diverge => rw [hp] at e; cases e

theorem newton_exact (s : ARSys) (hn : 2 ≤ s.P.num) : chainGravity.newtonianAcc s.P s.view = .ok (accChain .exact (chainPart s)) := by
  have h : setZero s.P.num (fun _ => (0 : V3 ℝ)) = fun _ => 0 := by funext k; simp [setZero]
  unfold ChainInteractions.newtonianAcc
  rw [h]
  show newtonChain s.P s.view (fun _ => 0) = _
  unfold newtonChain chainLoopsFar
  rw [if_neg (by omega)]
  rfl

theorem velTimeAR_exact {type : ReguType} {G h : ℝ} {s : ARSys} {rt : Regu × ℝ} (e : Regu.velPhyTime type (potentialChainR .exact G s.P s.view) h s.R = .ok rt) :
    velTimeAR .exact G type h s = rt := by
  have key : type ≠ .none → velTimeAR .exact G type h s = rt := by
    intro hty
    by_cases hz : -potentialChainR .exact G s.P s.view = 0
    · have e' : Regu.velPhyTime type (potentialChainR .exact G s.P s.view) h s.R = .nan := by
        cases type with
        | none => exact absurd rfl hty
        | logH =>
          show (Regu.divStep h (-potentialChainR .exact G s.P s.view) >>= _) = _
          rw [Regu.divStep, if_pos hz]; rfl
        | ttl =>
          show (Regu.divStep h (-potentialChainR .exact G s.P s.view) >>= _) = _
          rw [Regu.divStep, if_pos hz]; rfl
      rw [e'] at e; cases e
    · have e' : Regu.velPhyTime type (potentialChainR .exact G s.P s.view) h s.R =
          .ok ({ s.R with scale := -potentialChainR .exact G s.P s.view }, h / -potentialChainR .exact G s.P s.view) := by
        cases type with
        | none => exact absurd rfl hty
        | logH =>
          show (Regu.divStep h (-potentialChainR .exact G s.P s.view) >>= _) = _
          rw [Regu.divStep, if_neg hz]; rfl
        | ttl =>
          show (Regu.divStep h (-potentialChainR .exact G s.P s.view) >>= _) = _
          rw [Regu.divStep, if_neg hz]; rfl
      rw [e'] at e; cases e
      cases type with
      | none => exact absurd rfl hty
      | logH => rfl
      | ttl => rfl
  by_cases hty : type = .none
  · subst hty; cases e; rfl
  · exact key hty

theorem kickAR_exact {G : ℝ} {type : ReguType} {h : ℝ} {s t : ARSys} (hn : 2 ≤ s.P.num) (hs : s.sync = false) (e : ARSys.kick G type chainGravity h s = .ok t) :
    kickAR .exact G type h s = t ∧ t.sync = false := by
  unfold ARSys.kick at e
  change (potentialChain G s.P s.view >>= _) = _ at e
  rw [(C115_exact G s.P _ hn).2.2.2.1] at e
  change (Regu.velPhyTime type (potentialChainR .exact G s.P s.view) h s.R >>= _) = _ at e
  cases hp : Regu.velPhyTime type (potentialChainR .exact G s.P s.view) h s.R with
  | ok rt =>
    rw [hp] at e
    have e1 := velTimeAR_exact hp
    change (chainGravity.newtonianAcc s.P s.view >>= _) = _ at e
    rw [newton_exact s hn] at e
    change (Chain.toChain s.P.num _ (fun _ => 0) s.index >>= _) = _ at e
    rw [toChain_exact _ (by omega)] at e
    obtain ⟨P, tm, cp, cv, ix, a, ca, R, inc, b⟩ := s
    obtain rfl : b = false := hs
    change (ChainSys.chainAdvance P.num ix P.vel cv _ rt.2 >>= _) = _ at e
    rw [chainAdvance_exact _ (show 1 ≤ P.num by change 2 ≤ P.num at hn; omega)] at e
    cases e
    refine ⟨?_, rfl⟩
    unfold kickAR
    rw [e1]
    have half : ∀ c : ℝ, Arith.exact.mul (Arith.exact.lit (1 / 2)) c = 1 / 2 * c := fun c => by
      show ((1 / 2 : ℚ) : ℝ) * c = _
      push_cast
      rfl
    simp only [half]
    rfl
  | abort => rw [hp] at e; cases e
  | ub => rw [hp] at e; cases e
  | nan => rw [hp] at e; cases e
  | diverge => rw [hp] at e; cases e

theorem stepAR_exact {G : ℝ} {type : ReguType} (stages : List Stage) (h : ℝ) : ∀ s t : ARSys, 2 ≤ s.P.num → s.sync = false →
    (arOps G type chainGravity).run (stages.map (Stage.op h)) s = .ok t → stepAR .exact G type stages h s = t ∧ t.sync = false := by
  induction stages with
  | nil => intro s t _ hs e; cases e; exact ⟨rfl, hs⟩
  | cons c l ih =>
    intro s t hn hs e
    have e0 : ((arOps G type chainGravity).apply (Stage.op h c) s >>= (arOps G type chainGravity).run (l.map (Stage.op h))) = .ok t := e
    cases hp : (arOps G type chainGravity).apply (Stage.op h c) s with
    | ok s1 =>
      rw [hp] at e0
      have one : stageAR .exact G type h c s = s1 ∧ s1.sync = false := by
        cases c with
        | drift c => exact driftAR_exact hn hs hp
        | kick c => exact kickAR_exact hn hs hp
      have hn1 : 2 ≤ s1.P.num := by
        rw [← one.1]
        cases c <;> exact hn
      obtain ⟨a, b⟩ := ih s1 t hn1 one.2 e0
      refine ⟨?_, b⟩
      show stepAR .exact G type l h (stageAR .exact G type h c s) = t
      rw [one.1, a]
    | abort => rw [hp] at e0; cases e0
    | ub => rw [hp] at e0; cases e0
    | nan => rw [hp] at e0; cases e0
    | diverge => rw [hp] at e0; cases e0

theorem postIterAR_exact (τ : Arr Nat) (s : ARSys) (hn : 1 ≤ s.P.num) : s.postIter τ = .ok (postIterAR .exact τ s) := by
  unfold ARSys.postIter postIterAR
  by_cases h : ∃ k, k < s.P.num ∧ τ k ≠ s.index k
  · rw [if_pos h, if_pos h]
    have u1 := update_exact s.P.num hn s.cpos s.P.pos s.index τ
    have u2 := update_exact s.P.num hn s.cvel s.P.vel s.index τ
    obtain ⟨l1, e1⟩ : ∃ l, Chain.updateChain s.P.num s.cpos s.P.pos s.index τ = .ok l := ⟨_, by unfold Chain.updateChain; rw [if_neg (by omega)]⟩
    obtain ⟨l2, e2⟩ : ∃ l, Chain.updateChain s.P.num s.cvel s.P.vel s.index τ = .ok l := ⟨_, by unfold Chain.updateChain; rw [if_neg (by omega)]⟩
    rw [e1] at u1
    rw [e2] at u2
    change store s.P.num l1 s.cpos = _ at u1
    change store s.P.num l2 s.cvel = _ at u2
    show (Chain.updateChain s.P.num s.cpos s.P.pos s.index τ >>= _) = _
    rw [e1]
    show (store s.P.num l1 s.cpos >>= _) = _
    rw [u1]
    show (Chain.toCartesian s.P.num (updateChainR .exact s.P.num s.cpos s.P.pos s.index τ) s.P.pos τ >>= _) = _
    rw [toCart_exact _ hn]
    show (Chain.updateChain s.P.num s.cvel s.P.vel s.index τ >>= _) = _
    rw [e2]
    show (store s.P.num l2 s.cvel >>= _) = _
    rw [u2]
    show (Chain.toCartesian s.P.num (updateChainR .exact s.P.num s.cvel s.P.vel s.index τ) s.P.vel τ >>= _) = _
    rw [toCart_exact _ hn]
    rfl
  · rw [if_neg h, if_neg h]

/-- **C118, without rounding** the computation is that of the systems in exact arithmetic (C17, C48, C92, C93 and all others about ARchain systems), as long as
that does not divide by zero. -/
theorem C118_exact (G : ℝ) (type : ReguType) (stages : List Stage) :
    (∀ (t0 : ℝ) (P : Particles) (idx : Arr Nat), 2 ≤ P.num → ARSys.init G type t0 P idx = .ok (initAR .exact G type t0 P idx)) ∧
    ∀ (hs : List ℝ) (s s' : ARSys), 2 ≤ s.P.num → s.sync = false → Steps (ARStep G type chainGravity) (hs.map fun h => stages.map (Stage.op h)) s (.ok s') →
      Runs (StepsToAR .exact G type stages) hs s s' := by
  refine ⟨fun t0 P idx hn => initAR_exact G type t0 P idx hn, fun hs => ?_⟩
  have one : ∀ (h : ℝ) (s s' : ARSys), 2 ≤ s.P.num → s.sync = false → ARStep G type chainGravity (stages.map (Stage.op h)) s (.ok s') →
      StepsToAR .exact G type stages h s s' ∧ 2 ≤ s'.P.num ∧ s'.sync = false := by
    intro h s s' hn hs e
    have hp : s.preIter chainGravity = s := by unfold ARSys.preIter; rw [if_neg (by simp [chainGravity, ChainInteractions.velDep])]
    rcases e with ⟨s1, idx, e, hi, er⟩ | ⟨e, er⟩
    · rw [hp] at e
      obtain ⟨a, b⟩ := stepAR_exact stages h s s1 hn hs e
      subst a
      have k := stepAR_num .exact G type h stages s
      rw [postIterAR_exact idx _ (by omega)] at er
      obtain rfl := Res.ok.inj er
      refine ⟨⟨idx, hi, rfl⟩, by rw [postIterAR_num]; omega, ?_⟩
      unfold postIterAR
      split_ifs
      · exact b
      · exact b
    · exact absurd er.symm (e s')
  induction hs with
  | nil =>
    intro s s' _ _ e
    rw [List.map_nil] at e
    cases e
    exact .nil s
  | cons h l ih =>
    intro s s' hn hs e
    rw [List.map_cons] at e
    cases e with
    | cons _ _ _ s1 _ e t =>
      obtain ⟨a, b, c⟩ := one h s s1 hn hs e
      exact .cons a (ih s1 s' b c t)
    | fail _ _ _ _ e hr => exact absurd rfl (hr s')

/-- Non-vacuity: two bodies on a circle, rounding to 53 bits; an index and an unending sequence of steps exist, and the hypotheses on the motion, the start,
the rounding and the integrator hold of them, those on the steps for any `ρ ≥ 1e-3` and the step `1e-3`. -/
example (t0 : ℝ) (rnd : ℝ → ℝ) (N : Nearest 53 rnd) (ρ : ℝ) (hρ : 1e-3 ≤ ρ) : NewtonMotion 2 (fun _ => 1 / 2) circlePos circleVel t0 (t0 + 1) ∧
    WithinOf 2 (fun _ => 1 / 2) circlePos circleVel t0 0 ⟨2, circlePos t0, circleVel t0, fun _ => 1 / 2⟩ ∧
    Accurate (ieee rnd) (1 / 2 ^ 53) ∧ (1 : ℝ) / 2 ^ 53 ≤ ρ * 1e-3 ∧
    (∀ w : List Bool, 1 ≤ w.length → w.length ≤ 4 → |(deviation symplectic4th w : ℝ)| * 1e-3 ^ (w.length - 1) ≤ 1e-14 * 1e-3 ^ 2) ∧
    ∃ idx, IndexOfR (ieee rnd) ⟨2, circlePos t0, circleVel t0, fun _ => 1 / 2⟩ idx ∧
      ∃ S : ℕ → ARSys, S 0 = initAR (ieee rnd) 1 .ttl t0 ⟨2, circlePos t0, circleVel t0, fun _ => 1 / 2⟩ idx ∧
        ∀ i, StepsToAR (ieee rnd) 1 .ttl symplectic4th 1e-3 (S i) (S (i + 1)) :=
  ⟨circle_motion t0 _, ⟨rfl, fun _ _ => rfl, fun _ _ => by simp [len, dot], fun _ _ => by simp [len, dot]⟩, C113_nearest (by norm_num) N,
    le_trans (by norm_num) (mul_le_mul_of_nonneg_right hρ (by norm_num)), fourth_dev (by norm_num) (by norm_num),
    C118_exists (ieee rnd) 1 .ttl symplectic4th 1e-3 t0 ⟨2, circlePos t0, circleVel t0, fun _ => 1 / 2⟩ le_rfl⟩

end SpaceHub.Rounded
