import Verif.Model.RoundedEnergy
import Verif.Spec.Reported
import Verif.Props.RoundedAR
import Verif.Props.RoundedBS
import Verif.Model.Callbacks

/-
C120: the energy a simulation reports.
-/

set_option autoImplicit false

namespace SpaceHub.Rounded
open SpaceHub V3 Force Core Integrator Spec Sys Props Converge BS Finset

variable {n : Nat} {m : Nat → ℝ}

theorem point_within {x v : ℝ → Nat → V3 ℝ} {t ε : ℝ} {P : Particles} (h0 : 0 ≤ ε) (w : WithinOf n m x v t ε P) :
    ‖(conf n P.pos, conf n P.vel) - (conf n (x t), conf n (v t))‖ ≤ ε :=
  norm_prod_le_iff.2 ⟨le_coord _ _ h0 fun k hk => by
      have := norm_le_len (P.pos k - x t k)
      exact ⟨this.1.trans (w.pos k hk), this.2.1.trans (w.pos k hk), this.2.2.trans (w.pos k hk)⟩,
    le_coord _ _ h0 fun k hk => by
      have := norm_le_len (P.vel k - v t k)
      exact ⟨this.1.trans (w.vel k hk), this.2.1.trans (w.vel k hk), this.2.2.trans (w.vel k hk)⟩⟩

/-- computed energies near a motion -/
theorem energies_near {x v : ℝ → Nat → V3 ℝ} {t0 t1 : ℝ} (M : NewtonMotion n m x v t0 t1) :
    ∃ B C ρ : ℝ, 0 ≤ B ∧ 0 ≤ C ∧ 0 < ρ ∧ ρ ≤ 1 ∧ ∀ t ∈ Set.Icc t0 t1, |kinC n m (conf n (v t))| ≤ B ∧ |potC n m (conf n (x t))| ≤ B ∧
      ∀ A u, Accurate A u → 0 ≤ u → u ≤ ρ → ∀ ε P, 0 ≤ ε → ε ≤ ρ → WithinOf n m x v t ε P →
        |kineticR A P - kinC n m (conf n (v t))| ≤ C * (ε + u) ∧ |potentialR A 1 P + potC n m (conf n (x t))| ≤ C * (ε + u) := by
  obtain ⟨_, _, _, _, _, H, _, _⟩ := motion_tube M
  obtain ⟨y, hy⟩ : ∃ y : ℝ → Conf n × Conf n, y = fun t => (conf n (x (t0 + t)), conf n (v (t0 + t))) := ⟨_, rfl⟩
  have mem : ∀ t ∈ Set.Icc 0 (t1 - t0), t0 + t ∈ Set.Icc t0 t1 := fun t ht => ⟨by linarith [ht.1], by linarith [ht.2]⟩
  have hfree : ∀ t ∈ Set.Icc 0 (t1 - t0), y t ∈ (Prod.fst ⁻¹' free n : Set (Conf n × Conf n)) := by
    intro t ht i j hij h
    rw [hy] at h
    exact M.apart _ (mem t ht) i j i.2 j.2 (fun e => hij (Fin.ext e)) (congrArg ve h)
  have cy : ContinuousOn y (Set.Icc 0 (t1 - t0)) := by
    rw [hy]
    exact ContinuousOn.prodMk (fun t ht => (H.dq t ht).continuousWithinAt) (fun t ht => (H.dv t ht).continuousWithinAt)
  have hU : IsOpen (Prod.fst ⁻¹' free n : Set (Conf n × Conf n)) := (free_open n).preimage continuous_fst
  obtain ⟨r1, p1, B1, b1, L1, l1, h1⟩ := exists_lip (f := fun z : Conf n × Conf n => kinC n m z.2) hU ((kinC_smooth n m).comp contDiff_snd).contDiffOn cy hfree
  obtain ⟨r2, p2, B2, b2, L2, l2, h2⟩ := exists_lip (f := fun z : Conf n × Conf n => potC n m z.1) hU
    ((potC_smooth n m).comp contDiff_fst.contDiffOn fun z hz => hz) cy hfree
  have hK : IsCompact (y '' Set.Icc 0 (t1 - t0)) := isCompact_Icc.image_of_continuousOn cy
  obtain ⟨r3, p3, sub⟩ := hK.exists_cthickening_subset_open hU (by rintro _ ⟨t, ht, rfl⟩; exact hfree t ht)
  obtain ⟨nearP, apart⟩ := near_compact (m := m) (hK.cthickening (r := r3)) sub
  obtain ⟨_, C1, u1, _, c1, q1, _, _, k1⟩ := nearP.kinetic
  obtain ⟨_, C2, u2, _, c2, q2, _, _, k2⟩ := nearP.potential apart 1
  refine ⟨max B1 B2, (C1 + C2) + (L1 + L2), min 1 (min (min r1 (min r2 r3)) (min u1 u2)), le_max_of_le_left b1, by positivity,
    lt_min one_pos (lt_min (lt_min p1 (lt_min p2 p3)) (lt_min q1 q2)), min_le_left _ _, fun t ht => ?_⟩
  have mt : t - t0 ∈ Set.Icc 0 (t1 - t0) := ⟨by linarith [ht.1], by linarith [ht.2]⟩
  have yt : y (t - t0) = (conf n (x t), conf n (v t)) := by rw [hy]; simp
  have a1 := (h1 _ mt (y (t - t0)) (by simp [p1.le])).2.1
  have a2 := (h2 _ mt (y (t - t0)) (by simp [p2.le])).2.1
  rw [yt] at a1 a2
  refine ⟨a1.trans (le_max_left _ _), a2.trans (le_max_right _ _), fun A u hA hu hle ε P he hεle w => ?_⟩
  have d := point_within he w
  have e1 : ε ≤ r1 := hεle.trans ((min_le_right _ _).trans ((min_le_left _ _).trans (min_le_left _ _)))
  have e2 : ε ≤ r2 := hεle.trans ((min_le_right _ _).trans ((min_le_left _ _).trans ((min_le_right _ _).trans (min_le_left _ _))))
  have e3 : ε ≤ r3 := hεle.trans ((min_le_right _ _).trans ((min_le_left _ _).trans ((min_le_right _ _).trans (min_le_right _ _))))
  have f1 : u ≤ u1 := hle.trans ((min_le_right _ _).trans ((min_le_right _ _).trans (min_le_left _ _)))
  have f2 : u ≤ u2 := hle.trans ((min_le_right _ _).trans ((min_le_right _ _).trans (min_le_right _ _)))
  rw [← yt] at d
  have inS : P ∈ {P : Particles | P.num = n ∧ (∀ k, k < n → P.mass k = m k) ∧ (conf n P.pos, conf n P.vel) ∈ Metric.cthickening r3 (y '' Set.Icc 0 (t1 - t0))} :=
    ⟨w.num, w.mass, Metric.mem_cthickening_of_dist_le _ (y (t - t0)) _ _ ⟨_, mt, rfl⟩ (by rw [dist_eq_norm]; exact d.trans e3)⟩
  have g1 := k1 A u hA hu f1 P inS trivial
  have g2 := k2 A u hA hu f2 P inS trivial
  have i1 := (h1 _ mt _ (d.trans e1)).2.2
  have i2 := (h2 _ mt _ (d.trans e2)).2.2
  beta_reduce at g1 g2
  rw [kin_conf w.num w.mass] at g1
  rw [pot_conf w.num w.mass] at g2
  have d' := mul_le_mul_of_nonneg_left d l1
  have d'' := mul_le_mul_of_nonneg_left d l2
  rw [yt] at i1 i2 d' d''
  have t1 := abs_sub_le (kineticR A P) (kinC n m (conf n P.vel)) (kinC n m (conf n (v t)))
  have t2 := abs_sub_le (potentialR A 1 P) (-potC n m (conf n P.pos)) (-potC n m (conf n (x t)))
  have t3 : |-potC n m (conf n P.pos) - -potC n m (conf n (x t))| = |potC n m (conf n P.pos) - potC n m (conf n (x t))| := by
    rw [← abs_neg]; congr 1; ring
  rw [t3, sub_neg_eq_add (potentialR A 1 P) (potC n m (conf n (x t)))] at t2
  have s1 : 0 ≤ C1 * ε := mul_nonneg c1 he
  have s2 : 0 ≤ C2 * ε := mul_nonneg c2 he
  have s3 : 0 ≤ L1 * u := mul_nonneg l1 hu
  have s4 : 0 ≤ L2 * u := mul_nonneg l2 hu
  have s5 : 0 ≤ C1 * u := mul_nonneg c1 hu
  have s6 : 0 ≤ C2 * u := mul_nonneg c2 hu
  have s7 : 0 ≤ L1 * ε := mul_nonneg l1 he
  have s8 : 0 ≤ L2 * ε := mul_nonneg l2 he
  have ex : ((C1 + C2) + (L1 + L2)) * (ε + u) = C1 * ε + C1 * u + C2 * ε + C2 * u + (L1 * ε + L1 * u + L2 * ε + L2 * u) := by ring
  rw [ex]
  constructor <;> linarith only [g1, g2, i1, i2, d', d'', t1, t2, s1, s2, s3, s4, s5, s6, s7, s8]

theorem energyOf_eq (x v : Nat → V3 ℝ) : energyOf n m x v = kinC n m (conf n v) - potC n m (conf n x) := by
  have k : kinC n m (conf n v) = ∑ i ∈ range n, 1 / 2 * m i * dot (v i) (v i) := by
    unfold kinC
    exact sum_congr rfl fun i hi => by rw [ext_conf n _ (mem_range.1 hi)]
  have w : potC n m (conf n x) = -potential 1 n m x := by
    unfold potC potential
    congr 1
    refine sum_congr rfl fun p hp => ?_
    obtain ⟨hp, _⟩ := mem_filter.1 hp
    obtain ⟨a, b⟩ := mem_product.1 hp
    rw [ext_conf n _ (mem_range.1 a), ext_conf n _ (mem_range.1 b)]
  rw [k, w]
  unfold energyOf
  ring

/-! ### numbers near energies -/

/-- `T` and `V` are near the kinetic energy `k` and the potential energy `-q`, both of at most the size `B` -/
structure NearE (B C u k q ε T V : ℝ) : Prop where
  kle : |k| ≤ B
  qle : |q| ≤ B
  T : |T - k| ≤ C * (ε + u)
  V : |V + q| ≤ C * (ε + u)

theorem NearE.sum {B C u k q ε T V : ℝ} (h : NearE B C u k q ε T V) : |T + V - (k - q)| ≤ 2 * C * (ε + u) := by
  have e : T + V - (k - q) = (T - k) + (V + q) := by ring
  rw [e]
  have := abs_add_le (T - k) (V + q)
  linarith [h.T, h.V]

theorem NearE.size {B C u k q ε T V : ℝ} (h : NearE B C u k q ε T V) (hC : 0 ≤ C) (hs : ε + u ≤ 2) : |T + V| ≤ 2 * B + 4 * C := by
  have h1 := h.sum
  have h2 := abs_sub k q
  have h3 := abs_sub_abs_le_abs_sub (T + V) (k - q)
  have h4 := mul_le_mul_of_nonneg_left hs (show 0 ≤ 2 * C by linarith)
  linarith [h.kle, h.qle]

theorem NearE.total {A : Arith} {B C u k q ε T V : ℝ} (h : NearE B C u k q ε T V) (hA : Accurate A u) (hB : 0 ≤ B) (hC : 0 ≤ C) (hu : 0 ≤ u) (hu1 : u ≤ 1) (he : 0 ≤ ε) (he1 : ε ≤ 1) :
    |A.add V T - (k - q)| ≤ (2 * C + (2 * B + 4 * C)) * (ε + u) := by
  have a := hA.add V T
  have sz := h.size hC (by linarith)
  rw [add_comm] at sz
  have w1 := mul_le_mul_of_nonneg_left sz hu
  have s := h.sum
  rw [add_comm T V] at s
  have t := abs_sub_le (A.add V T) (V + T) (k - q)
  have p : 0 ≤ (2 * B + 4 * C) * ε := mul_nonneg (by positivity) he
  linarith [show (2 * C + (2 * B + 4 * C)) * (ε + u) = 2 * C * (ε + u) + (2 * B + 4 * C) * ε + u * (2 * B + 4 * C) by ring]

/-- the relative error of the energy, as it is computed -/
theorem err_bound {A : Arith} {u : ℝ} (hA : Accurate A u) (hu : 0 ≤ u) (hu1 : u ≤ 1) {a V E E0 Q W : ℝ} (hE : E ≠ 0) (h1 : |a + V - E| ≤ Q) (h2 : |E0 - E| ≤ Q)
    (hW : |a + V| ≤ W) (hQ : Q ≤ |E| / 2) : |A.div (A.sub (A.sub a (-V)) E0) E0| ≤ 8 / |E| * (2 * Q + W * u) := by
  have pE : 0 < |E| := abs_pos.2 hE
  have s0 : |E| / 2 ≤ |E0| := by
    have := abs_sub_abs_le_abs_sub E E0
    rw [abs_sub_comm] at this
    linarith
  have p0 : 0 < |E0| := by linarith
  have x1 := hA.sub a (-V)
  rw [sub_neg_eq_add] at x1
  have x2 := hA.sub (A.sub a (-V)) E0
  have x3 := hA.div (A.sub (A.sub a (-V)) E0) E0 (abs_pos.1 p0)
  have y1 : |A.sub a (-V) - E0| ≤ 2 * Q + W * u := by
    have e : A.sub a (-V) - E0 = (A.sub a (-V) - (a + V)) + (a + V - E) + (E - E0) := by ring
    rw [e]
    have := abs_add_three (A.sub a (-V) - (a + V)) (a + V - E) (E - E0)
    rw [abs_sub_comm E E0] at this
    have := mul_le_mul_of_nonneg_left hW hu
    linarith
  have y2 : |A.sub (A.sub a (-V)) E0| ≤ 2 * (2 * Q + W * u) := by
    have := abs_sub_abs_le_abs_sub (A.sub (A.sub a (-V)) E0) (A.sub a (-V) - E0)
    have := mul_le_mul_of_nonneg_right hu1 (abs_nonneg (A.sub a (-V) - E0))
    linarith
  have y3 : |A.sub (A.sub a (-V)) E0 / E0| ≤ 4 / |E| * (2 * Q + W * u) := by
    rw [abs_div, div_le_iff₀ p0]
    have q : 0 ≤ 2 * Q + W * u := (abs_nonneg _).trans y1
    calc |A.sub (A.sub a (-V)) E0| ≤ 2 * (2 * Q + W * u) := y2
      _ = 4 / |E| * (2 * Q + W * u) * (|E| / 2) := by field_simp; ring
      _ ≤ 4 / |E| * (2 * Q + W * u) * |E0| := mul_le_mul_of_nonneg_left s0 (by positivity)
  have y4 := abs_sub_abs_le_abs_sub (A.div (A.sub (A.sub a (-V)) E0) E0) (A.sub (A.sub a (-V)) E0 / E0)
  have y5 := mul_le_mul_of_nonneg_right hu1 (abs_nonneg (A.sub (A.sub a (-V)) E0 / E0))
  linarith [show 8 / |E| * (2 * Q + W * u) = 2 * (4 / |E| * (2 * Q + W * u)) by ring]

/-- The relative error of an energy that is not 0. -/
theorem written_of {B C E : ℝ} (hB : 0 ≤ B) (hC : 0 ≤ C) (hE : E ≠ 0) : ∃ K ρ : ℝ, 0 ≤ K ∧ 0 < ρ ∧ ∀ A u, Accurate A u → 0 ≤ u → u ≤ ρ → ∀ ε0 ε, 0 ≤ ε0 → ε0 ≤ ρ → 0 ≤ ε → ε ≤ ρ →
    ∀ k0 q0 k q T0 V0 T V, k0 - q0 = E → k - q = E → NearE B C u k0 q0 ε0 T0 V0 → NearE B C u k q ε T V → energyErrorOf A T V (A.add V0 T0) ≤ K * (ε0 + ε + u) := by
  have pE : 0 < |E| := abs_pos.2 hE
  obtain ⟨J, hJ⟩ : ∃ J, J = 2 * C + (2 * B + 4 * C) := ⟨_, rfl⟩
  have hJ0 : 0 ≤ J := by rw [hJ]; positivity
  refine ⟨8 / |E| * (2 * J + (2 * B + 4 * C)), min 1 (|E| / (6 * J + 1)), by positivity, lt_min one_pos (by positivity),
    fun A u hA hu hle ε0 ε he0 he0le he hele k0 q0 k q T0 V0 T V e0 e1 h0 h => ?_⟩
  have m1 : min 1 (|E| / (6 * J + 1)) ≤ 1 := min_le_left _ _
  have m3 : min 1 (|E| / (6 * J + 1)) ≤ |E| / (6 * J + 1) := min_le_right _ _
  have k' := h0.total hA hB hC hu (hle.trans m1) he0 (he0le.trans m1)
  rw [e0, ← hJ] at k'
  have s := h.sum
  rw [e1] at s
  have hQ : J * (ε0 + ε + u) ≤ |E| / 2 := by
    have l : ε0 + ε + u ≤ 3 * (|E| / (6 * J + 1)) := by linarith
    calc J * (ε0 + ε + u) ≤ J * (3 * (|E| / (6 * J + 1))) := mul_le_mul_of_nonneg_left l hJ0
      _ = 3 * J * |E| / (6 * J + 1) := by ring
      _ ≤ |E| / 2 := by rw [div_le_div_iff₀ (by positivity) (by norm_num)]; nlinarith
  have n1 : 0 ≤ J * ε := mul_nonneg hJ0 he
  have k'' : |A.add V0 T0 - E| ≤ J * (ε0 + ε + u) := by linarith [show J * (ε0 + ε + u) = J * (ε0 + u) + J * ε by ring]
  have s' : |T + V - E| ≤ J * (ε0 + ε + u) := by
    have n5 : 0 ≤ (2 * B + 4 * C) * (ε + u) := by positivity
    have n6 : 0 ≤ J * ε0 := by positivity
    linarith [show J * (ε0 + ε + u) = 2 * C * (ε + u) + (2 * B + 4 * C) * (ε + u) + J * ε0 by rw [hJ]; ring]
  have fin := err_bound hA hu (hle.trans m1) hE s' k'' (h.size hC (by linarith)) hQ
  refine fin.trans ?_
  have : 2 * (J * (ε0 + ε + u)) + (2 * B + 4 * C) * u ≤ (2 * J + (2 * B + 4 * C)) * (ε0 + ε + u) := by
    have : 0 ≤ (2 * B + 4 * C) * (ε0 + ε) := by positivity
    linarith [show (2 * J + (2 * B + 4 * C)) * (ε0 + ε + u) = 2 * (J * (ε0 + ε + u)) + (2 * B + 4 * C) * u + (2 * B + 4 * C) * (ε0 + ε) by ring]
  rw [mul_assoc]
  exact mul_le_mul_of_nonneg_left this (by positivity)

/-- the logarithm of a number near 1 -/
theorem log_near {r d : ℝ} (h : |r - 1| ≤ d) (hd : d ≤ 1 / 2) : |Real.log (|r|)| ≤ 2 * d := by
  obtain ⟨a, b⟩ := abs_le.1 h
  have hr : 0 < r := by linarith
  rw [abs_of_pos hr, abs_le]
  have u := Real.log_le_sub_one_of_pos hr
  have l := Real.one_sub_inv_le_log_of_pos hr
  have i : r⁻¹ ≤ 1 + 2 * d := by
    rw [inv_le_comm₀ hr (by linarith)]
    have : (1 + 2 * d)⁻¹ ≤ 1 - d := by
      rw [inv_le_iff_one_le_mul₀ (by linarith)]
      nlinarith
    linarith
  exact ⟨by linarith, by linarith⟩

/-- the ratio of kinetic plus binding energy to minus the potential energy, as it is computed -/
theorem ratio_bound {A : Arith} {u : ℝ} (hA : Accurate A u) (hu : 0 ≤ u) (hu1 : u ≤ 1) {a V E E0 Q W c : ℝ} (hc : 0 < c) (hV : c ≤ -V) (h1 : |a + V - E| ≤ Q)
    (h2 : |E0 - E| ≤ Q) (hW : |V| ≤ W) (hQ : 2 * Q ≤ W) : |A.div (A.add a (-E0)) (-V) - 1| ≤ 4 / c * (Q + W * u) + u := by
  have pV : 0 < -V := hc.trans_le hV
  have x1 := hA.add a (-E0)
  have x3 := hA.div (A.add a (-E0)) (-V) pV.ne'
  have y0 : |a + -E0 - -V| ≤ 2 * Q := by
    have e : a + -E0 - -V = (a + V - E) + (E - E0) := by ring
    rw [e]
    have := abs_add_le (a + V - E) (E - E0)
    rw [abs_sub_comm E E0] at this
    linarith
  have sz : |a + -E0| ≤ 2 * W := by
    have := abs_sub_abs_le_abs_sub (a + -E0) (-V)
    rw [abs_neg] at this
    linarith
  have y1 : |A.add a (-E0) - -V| ≤ 2 * (Q + W * u) := by
    have := abs_sub_le (A.add a (-E0)) (a + -E0) (-V)
    have := mul_le_mul_of_nonneg_left sz hu
    linarith
  have y2 : |A.add a (-E0) / -V - 1| ≤ 2 / c * (Q + W * u) := by
    have e : A.add a (-E0) / -V - 1 = (A.add a (-E0) - -V) / -V := by rw [sub_div, div_self pV.ne']
    rw [e, abs_div, abs_of_pos pV, div_le_iff₀ pV]
    have q : 0 ≤ Q + W * u := by have := (abs_nonneg _).trans y1; linarith
    calc |A.add a (-E0) - -V| ≤ 2 * (Q + W * u) := y1
      _ = 2 / c * (Q + W * u) * c := by field_simp
      _ ≤ 2 / c * (Q + W * u) * -V := mul_le_mul_of_nonneg_left hV (by positivity)
  have y3 : |A.add a (-E0) / -V| ≤ 1 + 2 / c * (Q + W * u) := by
    have := abs_sub_abs_le_abs_sub (A.add a (-E0) / -V) 1
    rw [abs_one] at this
    linarith
  have y4 := mul_le_mul_of_nonneg_left y3 hu
  have y5 := abs_sub_le (A.div (A.add a (-E0)) (-V)) (A.add a (-E0) / -V) 1
  have y6 : u * (2 / c * (Q + W * u)) ≤ 1 * (2 / c * (Q + W * u)) := mul_le_mul_of_nonneg_right hu1 ((abs_nonneg _).trans y2)
  linarith [show 4 / c * (Q + W * u) = 2 * (2 / c * (Q + W * u)) by ring]

/-- The logarithm of the ratio of energies. -/
theorem log_of {B C c E : ℝ} (hB : 0 ≤ B) (hC : 0 ≤ C) (hc : 0 < c) : ∃ K ρ : ℝ, 0 ≤ K ∧ 0 < ρ ∧ ∀ A u, Accurate A u → 0 ≤ u → u ≤ ρ → ∀ ε0 ε, 0 ≤ ε0 → ε0 ≤ ρ → 0 ≤ ε → ε ≤ ρ →
    ∀ k0 q0 k q T0 V0 T V, k0 - q0 = E → k - q = E → c ≤ q → NearE B C u k0 q0 ε0 T0 V0 → NearE B C u k q ε T V →
      |energyLogOf A T V (-A.add V0 T0)| ≤ K * (ε0 + ε + u) := by
  obtain ⟨J, hJ⟩ : ∃ J, J = 2 * C + (2 * B + 4 * C) := ⟨_, rfl⟩
  have hJ0 : 0 ≤ J := by rw [hJ]; positivity
  obtain ⟨W, hW⟩ : ∃ W, W = B + 2 * C + 1 := ⟨_, rfl⟩
  have hW0 : 0 ≤ W := by rw [hW]; positivity
  obtain ⟨L, hL⟩ : ∃ L, L = 8 / c * (J + W) + 1 := ⟨_, rfl⟩
  have hL0 : 0 < L := by rw [hL]; positivity
  obtain ⟨ρ, hρ⟩ : ∃ ρ, ρ = min (min 1 (c / (4 * C + 1))) (min (1 / (6 * J + 1)) (1 / (6 * L))) := ⟨_, rfl⟩
  have m1 : ρ ≤ 1 := by rw [hρ]; exact (min_le_left _ _).trans (min_le_left _ _)
  have m2 : ρ ≤ c / (4 * C + 1) := by rw [hρ]; exact (min_le_left _ _).trans (min_le_right _ _)
  have m3 : ρ ≤ 1 / (6 * J + 1) := by rw [hρ]; exact (min_le_right _ _).trans (min_le_left _ _)
  have m4 : ρ ≤ 1 / (6 * L) := by rw [hρ]; exact (min_le_right _ _).trans (min_le_right _ _)
  refine ⟨2 * L, ρ, by positivity, by rw [hρ]; exact lt_min (lt_min one_pos (by positivity)) (lt_min (by positivity) (by positivity)),
    fun A u hA hu hle ε0 ε he0 he0le he hele k0 q0 k q T0 V0 T V e0 e1 hq h0 h => ?_⟩
  obtain ⟨z, hz⟩ : ∃ z, z = ε0 + ε + u := ⟨_, rfl⟩
  have z0 : 0 ≤ z := by rw [hz]; positivity
  have z3 : z ≤ 3 * ρ := by rw [hz]; linarith
  have k' := h0.total hA hB hC hu (hle.trans m1) he0 (he0le.trans m1)
  rw [e0, ← hJ] at k'
  have s := h.sum
  rw [e1] at s
  have n1 : 0 ≤ J * ε := mul_nonneg hJ0 he
  have k'' : |A.add V0 T0 - E| ≤ J * z := by rw [hz]; linarith [show J * (ε0 + ε + u) = J * (ε0 + u) + J * ε by ring]
  have s' : |T + V - E| ≤ J * z := by
    have n5 : 0 ≤ (2 * B + 4 * C) * (ε + u) := by positivity
    have n6 : 0 ≤ J * ε0 := by positivity
    rw [hz]
    linarith [show J * (ε0 + ε + u) = 2 * C * (ε + u) + (2 * B + 4 * C) * (ε + u) + J * ε0 by rw [hJ]; ring]
  have hQ : 2 * (J * z) ≤ W := by
    have : J * z ≤ 1 / 2 := by
      calc J * z ≤ J * (3 * (1 / (6 * J + 1))) := mul_le_mul_of_nonneg_left (by linarith) hJ0
        _ = 3 * J / (6 * J + 1) := by ring
        _ ≤ 1 / 2 := by rw [div_le_div_iff₀ (by positivity) (by norm_num)]; linarith
    rw [hW]; linarith
  have hv := abs_le.1 h.V
  have small : C * (ε + u) ≤ c / 2 := by
    calc C * (ε + u) ≤ C * (2 * (c / (4 * C + 1))) := mul_le_mul_of_nonneg_left (by linarith) hC
      _ = 2 * C * c / (4 * C + 1) := by ring
      _ ≤ c / 2 := by rw [div_le_div_iff₀ (by positivity) (by norm_num)]; linarith only [hc, show c * (4 * C + 1) = 2 * C * c * 2 + c by ring]
  have hV : c / 2 ≤ -V := by linarith
  have hVW : |V| ≤ W := by
    have e : V = (V + q) - q := by ring
    have t := abs_sub (V + q) q
    rw [← e] at t
    have := mul_le_mul_of_nonneg_left (show ε + u ≤ 2 by linarith) hC
    rw [hW]
    linarith [h.V, h.qle]
  have fin := ratio_bound hA hu (hle.trans m1) (half_pos hc) hV s' k'' hVW hQ
  have uz : u ≤ z := by rw [hz]; linarith
  have fin' : |A.div (A.add T (-A.add V0 T0)) (-V) - 1| ≤ L * z := by
    refine fin.trans ?_
    have a1 : 8 / c * (J * z + W * u) ≤ 8 / c * ((J + W) * z) := by
      refine mul_le_mul_of_nonneg_left ?_ (by positivity)
      have := mul_le_mul_of_nonneg_left uz hW0
      linarith
    have a2 : 4 / (c / 2) = 8 / c := by field_simp; norm_num
    rw [a2, hL]
    linarith
  have Lz : L * z ≤ 1 / 2 := by
    calc L * z ≤ L * (3 * (1 / (6 * L))) := mul_le_mul_of_nonneg_left (by linarith) hL0.le
      _ = 1 / 2 := by field_simp; norm_num
  have last := log_near fin' Lz
  rw [mul_assoc, ← hz]
  exact last

/-- the energies of a motion without collisions are those of the start -/
theorem energy_const {x v : ℝ → Nat → V3 ℝ} {t0 t1 : ℝ} (M : NewtonMotion n m x v t0 t1) {t : ℝ} (ht : t ∈ Set.Icc t0 t1) :
    kinC n m (conf n (v t)) - potC n m (conf n (x t)) = energyOf n m (x t0) (v t0) := by rw [energyOf_eq, motion_energy M ht]

/-- the potential energy of a motion without collisions is away from 0 -/
theorem pot_away {x v : ℝ → Nat → V3 ℝ} {t0 t1 : ℝ} (M : NewtonMotion n m x v t0 t1) (hn : 2 ≤ n) (hmass : ∀ k, k < n → 0 < m k) :
    ∃ c : ℝ, 0 < c ∧ ∀ t ∈ Set.Icc t0 t1, c ≤ potC n m (conf n (x t)) := by
  have cx : ContinuousOn (fun t => potC n m (conf n (x t))) (Set.Icc t0 t1) := by
    have c1 : ContinuousOn (fun t => conf n (x t)) (Set.Icc t0 t1) := fun t ht => by
      have := curve 0 (x := x) (d := v t) (t := t) (by simpa using M.pos t ht)
      simp only [zero_add] at this
      exact this.continuousAt.continuousWithinAt
    exact (potC_smooth (d := 1) n m).continuousOn.comp c1 fun t ht i j hij h => M.apart t ht i j i.2 j.2 (fun e => hij (Fin.ext e)) (congrArg ve h)
  obtain ⟨c, hc, key⟩ := isCompact_Icc.exists_forall_le' cx (a := 0) fun t ht =>
    potC_pos hn hmass fun i j hij h => M.apart t ht i j i.2 j.2 (fun e => hij (Fin.ext e)) (congrArg ve h)
  exact ⟨c, hc, key⟩

/-- how small the step, the deviation, the error of the start and the rounding errors have to be -/
theorem small_sum {K ρ r a b c d : ℝ} (hK : 0 ≤ K) (hr : r = ρ / (4 * K + 1)) (hρ : 0 ≤ ρ) (ha : a ≤ r) (hb : b ≤ r) (hc : c ≤ r) (hd : d ≤ r) :
    K * (a + b + c + d) ≤ ρ := by
  calc K * (a + b + c + d) ≤ K * (4 * r) := mul_le_mul_of_nonneg_left (by linarith) hK
    _ = 4 * K * ρ / (4 * K + 1) := by rw [hr]; ring
    _ ≤ ρ := by rw [div_le_iff₀ (by positivity)]; nlinarith

/-- what the bounds of the theorems about whole runs are bounded by -/
theorem sizes {K σ hm δ e N u z : ℝ} {p : Nat} (hz : z = hm ^ p + δ + e + (N + 1) * u) (hp : 1 ≤ p) (hK : 0 ≤ K) (hσ : 0 ≤ σ) (hσ1 : σ ≤ 1) (hm0 : 0 ≤ hm)
    (hmle : hm ≤ min σ (σ / (4 * K + 1))) (hδ : 0 ≤ δ) (hδle : δ ≤ min σ (σ / (4 * K + 1))) (he : 0 ≤ e) (hele : e ≤ min σ (σ / (4 * K + 1))) (hu : 0 ≤ u)
    (hN : (N + 1) * u ≤ min σ (σ / (4 * K + 1))) (N0 : 0 ≤ N := by positivity) : 0 ≤ z ∧ e + u ≤ z ∧ u ≤ σ ∧ K * z ≤ σ := by
  have q1 : min σ (σ / (4 * K + 1)) ≤ σ := min_le_left _ _
  have q2 : min σ (σ / (4 * K + 1)) ≤ σ / (4 * K + 1) := min_le_right _ _
  have Nu : 0 ≤ N * u := by positivity
  have hu1 : u ≤ (N + 1) * u := by linarith [show (N + 1) * u = N * u + u by ring]
  have hmp0 : 0 ≤ hm ^ p := by positivity
  have hmp : hm ^ p ≤ hm := by
    calc hm ^ p ≤ hm ^ 1 := pow_le_pow_of_le_one hm0 (hmle.trans (q1.trans hσ1)) hp
      _ = hm := pow_one _
  exact ⟨by rw [hz]; positivity, by rw [hz]; linarith, hu1.trans (hN.trans q1),
    by rw [hz]; exact small_sum hK rfl hσ (hmp.trans (hmle.trans q2)) (hδle.trans q2) (hele.trans q2) (hN.trans q2)⟩

/-! ### the property -/

/-- **C120, without rounding** the numbers are those of the model in exact arithmetic (C50), for chain systems too, if the chain is that of the coordinates. -/
theorem C120_exact (G : ℝ) (P : Particles) : totalEnergyR .exact G P = totalEnergy G P ∧
    (∀ E0, energyErrorOf .exact (kineticR .exact P) (potentialR .exact G P) E0 = Callbacks.energyError (totalEnergy G P) E0) ∧
    (∀ e, energyWriteR .exact G e P = Callbacks.energyWrite e (totalEnergy G P)) ∧
    ∀ s : ChainSys, 2 ≤ s.P.num → IsIndex s.P.num s.index → BelongsTo s.P.num s.index s.cpos s.P.pos →
      ∀ e, energyWriteC .exact G e s = Callbacks.energyWrite e (totalEnergy G s.P) := by
  have t : ∀ P, totalEnergyR .exact G P = totalEnergy G P := by
    intro P
    show potentialDirect G P + kineticR .exact P = _
    rw [kin_exact]; rfl
  have h : ∀ P E0, energyErrorOf .exact (kineticR .exact P) (potentialR .exact G P) E0 = Callbacks.energyError (totalEnergy G P) E0 := by
    intro P E0
    show |(kineticR .exact P - -potentialR .exact G P - E0) / E0| = |(totalEnergy G P - E0) / E0|
    rw [← t]
    congr 2
    show _ = potentialR .exact G P + kineticR .exact P - E0
    ring
  have w : ∀ P e, energyWriteR .exact G e P = Callbacks.energyWrite e (totalEnergy G P) := fun P e => by
    cases e with
    | none => show (some _, _) = (some _, _); rw [t, h]
    | some e => show (some _, _) = (some _, _); rw [h, t]
  refine ⟨t P, h P, w P, fun s hn hi hc => ?_⟩
  have e1 := potentialChain_eq G s.P s.view hn hi hc
  rw [(C115_exact G s.P _ hn).2.2.2.1] at e1
  have e2 : potentialChainR .exact G s.P s.view = potentialR .exact G s.P := by
    have e3 : potentialR .exact G s.P = potential G s.P.num s.P.mass s.P.pos := potentialDirect_eq G s.P
    rw [e3]
    exact Res.ok.inj e1
  have e4 : ∀ e, energyWriteC .exact G e s = energyWriteR .exact G e s.P := fun e => by
    unfold energyWriteC energyWriteR totalEnergyC totalEnergyR
    rw [e2]
  exact fun e => by rw [e4, w]

/-- **C120, states.** Particles move under Newton's laws without colliding.  The total energy computed of particles that are, at some time of the motion, within
`ε` of it, in an arithmetic with the relative error `u`, is off by at most `K (ε + u)` from the energy at the start. -/
theorem C120_energy {x v : ℝ → Nat → V3 ℝ} {t0 t1 : ℝ} (M : NewtonMotion n m x v t0 t1) :
    ∃ K ρ : ℝ, 0 ≤ K ∧ 0 < ρ ∧ ∀ A u, Accurate A u → 0 ≤ u → u ≤ ρ → ∀ t ∈ Set.Icc t0 t1, ∀ ε P, 0 ≤ ε → ε ≤ ρ → WithinOf n m x v t ε P →
      |totalEnergyR A 1 P - energyOf n m (x t0) (v t0)| ≤ K * (ε + u) := by
  obtain ⟨B, C, ρ, hB, hC, hρ, hρ1, H⟩ := energies_near M
  refine ⟨2 * C + (2 * B + 4 * C), ρ, by positivity, hρ, fun A u hA hu hle t ht ε P he hεle w => ?_⟩
  obtain ⟨b1, b2, g⟩ := H t ht
  obtain ⟨g1, g2⟩ := g A u hA hu hle ε P he hεle w
  rw [← energy_const M ht]
  exact NearE.total ⟨b1, b2, g1, g2⟩ hA hB hC hu (hle.trans hρ1) he (hεle.trans hρ1)

/-- **C120, the writer.** The energy is not 0.  `EnergyErrWriter` is called first with a state near the start of the motion and then with a state near a later one:
the second number it writes is at most `K (ε0 + ε + u)`. -/
theorem C120_written {x v : ℝ → Nat → V3 ℝ} {t0 t1 : ℝ} (M : NewtonMotion n m x v t0 t1) (hE : energyOf n m (x t0) (v t0) ≠ 0) :
    ∃ K ρ : ℝ, 0 ≤ K ∧ 0 < ρ ∧ ∀ A u, Accurate A u → 0 ≤ u → u ≤ ρ → ∀ ε0 P0, 0 ≤ ε0 → ε0 ≤ ρ → WithinOf n m x v t0 ε0 P0 →
      ∀ t ∈ Set.Icc t0 t1, ∀ ε P, 0 ≤ ε → ε ≤ ρ → WithinOf n m x v t ε P →
      (energyWriteR A 1 (energyWriteR A 1 none P0).1 P).2 ≤ K * (ε0 + ε + u) := by
  obtain ⟨B, C, ρ, hB, hC, hρ, hρ1, H⟩ := energies_near M
  obtain ⟨K, ρ', hK, hρ', H'⟩ := written_of hB hC hE
  refine ⟨K, min ρ ρ', hK, lt_min hρ hρ', fun A u hA hu hle ε0 P0 he0 he0le w0 t ht ε P he hele w => ?_⟩
  have m1 : min ρ ρ' ≤ ρ := min_le_left _ _
  have m2 : min ρ ρ' ≤ ρ' := min_le_right _ _
  have h0 : t0 ∈ Set.Icc t0 t1 := Set.left_mem_Icc.2 (ht.1.trans ht.2)
  obtain ⟨a1, a2, f⟩ := H t0 h0
  obtain ⟨b1, b2, g⟩ := H t ht
  obtain ⟨f1, f2⟩ := f A u hA hu (hle.trans m1) ε0 P0 he0 (he0le.trans m1) w0
  obtain ⟨g1, g2⟩ := g A u hA hu (hle.trans m1) ε P he (hele.trans m1) w
  exact H' A u hA hu (hle.trans m2) ε0 ε he0 (he0le.trans m2) he (hele.trans m2) _ _ _ _ _ _ _ _ (energy_const M h0) (energy_const M ht) ⟨a1, a2, f1, f2⟩ ⟨b1, b2, g1, g2⟩

/-- **C120, plain systems.** As in C113: the energy of the state that is reached is computed as that of the start up to `K (hm ^ p + δ + e + (N + 1) u)`, and so
is, if the energy is not 0, the number that `EnergyErrWriter` writes, when it was called at the start. -/
theorem C120_plain {x v : ℝ → Nat → V3 ℝ} {t0 t1 : ℝ} (ht : t0 ≤ t1) (M : NewtonMotion n m x v t0 t1) (p : Nat) (hp : 1 ≤ p) (stages : List Stage) :
    ∃ K ρ : ℝ, 0 ≤ K ∧ 0 < ρ ∧ ∀ A u, Accurate A u → 0 ≤ u → u ≤ ρ → ∀ e P, 0 ≤ e → e ≤ ρ → WithinOf n m x v t0 e P →
      ∀ hm δ, 0 ≤ hm → hm ≤ ρ → 0 ≤ δ → δ ≤ ρ →
      (∀ w : List Bool, 1 ≤ w.length → w.length ≤ p → |(deviation stages w : ℝ)| * hm ^ (w.length - 1) ≤ δ) →
      ∀ hs : List ℝ, (∀ h ∈ hs, 0 ≤ h ∧ h ≤ hm) → t0 + hs.sum ≤ t1 → hs.length * u ≤ ρ →
        |totalEnergyR A 1 (run A stages hs (Simple.init t0 P)).P - energyOf n m (x t0) (v t0)| ≤ K * (hm ^ p + δ + e + (hs.length + 1) * u) ∧
        (energyOf n m (x t0) (v t0) ≠ 0 →
          (energyWriteR A 1 (energyWriteR A 1 none P).1 (run A stages hs (Simple.init t0 P)).P).2 ≤ K * (hm ^ p + δ + e + (hs.length + 1) * u)) := by
  obtain ⟨K, ρ, hK, hρ, H⟩ := C113_rounded ht M p hp stages
  obtain ⟨K1, ρ1, hK1, hρ1, H1⟩ := C120_energy M
  obtain ⟨K2, ρ2, hK2, hρ2, H2⟩ : ∃ K2 ρ2 : ℝ, 0 ≤ K2 ∧ 0 < ρ2 ∧ (energyOf n m (x t0) (v t0) ≠ 0 → ∀ A u, Accurate A u → 0 ≤ u → u ≤ ρ2 →
      ∀ ε0 P0, 0 ≤ ε0 → ε0 ≤ ρ2 → WithinOf n m x v t0 ε0 P0 → ∀ t ∈ Set.Icc t0 t1, ∀ ε P, 0 ≤ ε → ε ≤ ρ2 → WithinOf n m x v t ε P →
      (energyWriteR A 1 (energyWriteR A 1 none P0).1 P).2 ≤ K2 * (ε0 + ε + u)) := by
    by_cases hE : energyOf n m (x t0) (v t0) = 0
    · exact ⟨0, 1, le_rfl, one_pos, fun h => absurd hE h⟩
    · obtain ⟨K2, ρ2, a, b, c⟩ := C120_written M hE
      exact ⟨K2, ρ2, a, b, fun _ => c⟩
  obtain ⟨σ, hσ⟩ : ∃ σ, σ = min ρ (min ρ1 ρ2) := ⟨_, rfl⟩
  have σ0 : 0 < σ := by rw [hσ]; exact lt_min hρ (lt_min hρ1 hρ2)
  have σ1 : σ ≤ ρ := by rw [hσ]; exact min_le_left _ _
  have σ2 : σ ≤ ρ1 := by rw [hσ]; exact (min_le_right _ _).trans (min_le_left _ _)
  have σ3 : σ ≤ ρ2 := by rw [hσ]; exact (min_le_right _ _).trans (min_le_right _ _)
  obtain ⟨r, hr⟩ : ∃ r, r = σ / (4 * K + 1) := ⟨_, rfl⟩
  have r0 : 0 < r := by rw [hr]; positivity
  refine ⟨K1 * (K + 1) + K2 * (K + 1), min 1 (min σ r), by positivity, lt_min one_pos (lt_min σ0 r0),
    fun A u hA hu hle e P he hele w hm δ hm0 hmle hδ hδle dev hs hhs hsum hN => ?_⟩
  have q1 : min 1 (min σ r) ≤ σ := (min_le_right _ _).trans (min_le_left _ _)
  have q2 : min 1 (min σ r) ≤ r := (min_le_right _ _).trans (min_le_right _ _)
  obtain ⟨_, g⟩ := H A u hA hu (hle.trans (q1.trans σ1)) e P he (hele.trans (q1.trans σ1)) w hm δ hm0 (hmle.trans (q1.trans σ1)) hδ (hδle.trans (q1.trans σ1)) dev hs hhs
    hsum (hN.trans (q1.trans σ1))
  obtain ⟨N, hNdef⟩ : ∃ N : ℝ, N = hs.length := ⟨_, rfl⟩
  rw [← hNdef] at g hN ⊢
  have N0 : 0 ≤ N := by rw [hNdef]; positivity
  have Nu : 0 ≤ N * u := by positivity
  have hmp : hm ^ p ≤ hm := by
    calc hm ^ p ≤ hm ^ 1 := pow_le_pow_of_le_one hm0 (hmle.trans (min_le_left _ _)) hp
      _ = hm := pow_one _
  have hmp0 : 0 ≤ hm ^ p := by positivity
  have ε0 : 0 ≤ K * (hm ^ p + δ + e + N * u) := by positivity
  have εle : K * (hm ^ p + δ + e + N * u) ≤ σ := small_sum hK hr σ0.le (hmp.trans (hmle.trans q2)) (hδle.trans q2) (hele.trans q2) (hN.trans q2)
  have hs0 : 0 ≤ hs.sum := List.sum_nonneg fun h hh => (hhs h hh).1
  have mt : t0 + hs.sum ∈ Set.Icc t0 t1 := ⟨by linarith, hsum⟩
  have z0 : 0 ≤ hm ^ p + δ + e + (N + 1) * u := by positivity
  constructor
  · refine (H1 A u hA hu (hle.trans (q1.trans σ2)) _ mt _ _ ε0 (εle.trans σ2) g).trans ?_
    have a : K * (hm ^ p + δ + e + N * u) + u ≤ (K + 1) * (hm ^ p + δ + e + (N + 1) * u) := by
      have : 0 ≤ K * u := mul_nonneg hK hu
      linarith [show (K + 1) * (hm ^ p + δ + e + (N + 1) * u) = K * (hm ^ p + δ + e + N * u) + K * u + (hm ^ p + δ + e + N * u) + u by ring]
    have b : 0 ≤ K2 * (K + 1) * (hm ^ p + δ + e + (N + 1) * u) := by positivity
    have := mul_le_mul_of_nonneg_left a hK1
    linarith
  · intro hE
    refine (H2 hE A u hA hu (hle.trans (q1.trans σ3)) e P he (hele.trans (q1.trans σ3)) w _ mt _ _ ε0 (εle.trans σ3) g).trans ?_
    have a : e + K * (hm ^ p + δ + e + N * u) + u ≤ (K + 1) * (hm ^ p + δ + e + (N + 1) * u) := by
      have : 0 ≤ K * u := mul_nonneg hK hu
      linarith [show (K + 1) * (hm ^ p + δ + e + (N + 1) * u) = K * (hm ^ p + δ + e + N * u) + K * u + (hm ^ p + δ + N * u) + e + u by ring]
    have b : 0 ≤ K1 * (K + 1) * (hm ^ p + δ + e + (N + 1) * u) := by positivity
    have := mul_le_mul_of_nonneg_left a hK2
    linarith

/-- **C120, Bulirsch-Stoer.** As in C119: after `N` calls of the iterator the energy is computed as that of the start up to `K (hm ^ 4 + e + (N + 1) u)`,
and so is, if the energy is not 0, the number that `EnergyErrWriter` writes, when it was called at the start. -/
theorem C120_bulirsch_stoer {x v : ℝ → Nat → V3 ℝ} {t0 t1 : ℝ} (ht : t0 ≤ t1) (M : NewtonMotion n m x v t0 t1) (kdk : Bool) (D : Nat) :
    ∃ K ρ : ℝ, 0 ≤ K ∧ 0 < ρ ∧ ∀ A u, Accurate A u → 0 ≤ u → u ≤ ρ → ∀ e P, 0 ≤ e → e ≤ ρ → WithinOf n m x v t0 e P →
      ∀ p : BS.Params ℝ, p.maxDepth = D → ∀ (N : Nat) (s : Nat → Simple) (c : Nat → BS.State ℝ) (h h' : Nat → ℝ) (hm : ℝ), s 0 = Simple.init t0 P → hm ≤ ρ →
      (∀ i, i < N → bsIterate A kdk p (h i) (c i) (s i) = .ok (s (i + 1), h' i, c (i + 1))) →
      ∃ a : Nat → ℝ, (∀ i, i < N → @RetriedAny ℝ A.scalar p (h i) (a i)) ∧
        ((∀ i, i < N → 0 ≤ a i ∧ a i ≤ hm) → 0 ≤ hm → t0 + ∑ i ∈ range N, a i ≤ t1 → N * u ≤ ρ →
          |totalEnergyR A 1 (s N).P - energyOf n m (x t0) (v t0)| ≤ K * (hm ^ 4 + e + (N + 1) * u) ∧
          (energyOf n m (x t0) (v t0) ≠ 0 →
            (energyWriteR A 1 (energyWriteR A 1 none P).1 (s N).P).2 ≤ K * (hm ^ 4 + e + (N + 1) * u))) := by
  obtain ⟨K, ρ, hK, hρ, H⟩ := C119_fourth ht M kdk D
  obtain ⟨K1, ρa, hK1, hρa, H1⟩ := C120_energy M
  obtain ⟨K2, ρb, hK2, hρb, H2⟩ : ∃ K2 ρ2 : ℝ, 0 ≤ K2 ∧ 0 < ρ2 ∧ (energyOf n m (x t0) (v t0) ≠ 0 → ∀ A u, Accurate A u → 0 ≤ u → u ≤ ρ2 →
      ∀ ε0 P0, 0 ≤ ε0 → ε0 ≤ ρ2 → WithinOf n m x v t0 ε0 P0 → ∀ t ∈ Set.Icc t0 t1, ∀ ε P, 0 ≤ ε → ε ≤ ρ2 → WithinOf n m x v t ε P →
      (energyWriteR A 1 (energyWriteR A 1 none P0).1 P).2 ≤ K2 * (ε0 + ε + u)) := by
    by_cases hE : energyOf n m (x t0) (v t0) = 0
    · exact ⟨0, 1, le_rfl, one_pos, fun h => absurd hE h⟩
    · obtain ⟨K2, ρ2, a, b, c⟩ := C120_written M hE
      exact ⟨K2, ρ2, a, b, fun _ => c⟩
  obtain ⟨ρ1, hρ1e⟩ : ∃ ρ1, ρ1 = min ρa ρb := ⟨_, rfl⟩
  have hρ1 : 0 < ρ1 := by rw [hρ1e]; exact lt_min hρa hρb
  have la : ρ1 ≤ ρa := by rw [hρ1e]; exact min_le_left _ _
  have lb : ρ1 ≤ ρb := by rw [hρ1e]; exact min_le_right _ _
  obtain ⟨r, hr⟩ : ∃ r, r = ρ1 / (4 * K + 1) := ⟨_, rfl⟩
  have r0 : 0 < r := by rw [hr]; positivity
  refine ⟨K1 * (K + 1) + K2 * (K + 1), min (min 1 ρ) (min ρ1 r), by positivity, lt_min (lt_min one_pos hρ) (lt_min hρ1 r0),
    fun A u hA hu hle e P he hele w p hD N s c h h' hm hs0 hmle hit => ?_⟩
  have q0 : min (min 1 ρ) (min ρ1 r) ≤ 1 := (min_le_left _ _).trans (min_le_left _ _)
  have q1 : min (min 1 ρ) (min ρ1 r) ≤ ρ := (min_le_left _ _).trans (min_le_right _ _)
  have q2 : min (min 1 ρ) (min ρ1 r) ≤ ρ1 := (min_le_right _ _).trans (min_le_left _ _)
  have q3 : min (min 1 ρ) (min ρ1 r) ≤ r := (min_le_right _ _).trans (min_le_right _ _)
  obtain ⟨a, R, G⟩ := H A u hA hu (hle.trans q1) e P he (hele.trans q1) w p hD N s c h h' hm hs0 (hmle.trans q1) hit
  refine ⟨a, R, fun ha hm0 hsum hN => ?_⟩
  obtain ⟨_, g⟩ := G ha hsum (hN.trans q1)
  have N0 : (0 : ℝ) ≤ N := by positivity
  have Nu : 0 ≤ N * u := by positivity
  have h4 : hm ^ 4 ≤ hm := by
    calc hm ^ 4 ≤ hm ^ 1 := pow_le_pow_of_le_one hm0 (hmle.trans q0) (by norm_num)
      _ = hm := pow_one _
  have ε0 : 0 ≤ K * (hm ^ 4 + e + N * u) := by positivity
  have εle : K * (hm ^ 4 + e + N * u) ≤ ρ1 := by
    have := small_sum hK hr hρ1.le (h4.trans (hmle.trans q3)) (hele.trans q3) (hN.trans q3) r0.le
    rwa [add_zero] at this
  have s0 : 0 ≤ ∑ i ∈ range N, a i := sum_nonneg fun i hi => (ha i (mem_range.1 hi)).1
  have mt : t0 + ∑ i ∈ range N, a i ∈ Set.Icc t0 t1 := ⟨by linarith, hsum⟩
  have Ku : 0 ≤ K * u := mul_nonneg hK hu
  have z : 0 ≤ hm ^ 4 + e + N * u := by positivity
  have z0 : 0 ≤ hm ^ 4 + e + ((N:ℝ) + 1) * u := by positivity
  have ex : (K + 1) * (hm ^ 4 + e + ((N:ℝ) + 1) * u) = K * (hm ^ 4 + e + N * u) + K * u + (hm ^ 4 + e + N * u) + u := by ring
  have hm40 : 0 ≤ hm ^ 4 := by positivity
  have pos1 : 0 ≤ K1 * (K + 1) * (hm ^ 4 + e + ((N:ℝ) + 1) * u) := by positivity
  have pos2 : 0 ≤ K2 * (K + 1) * (hm ^ 4 + e + ((N:ℝ) + 1) * u) := by positivity
  constructor
  · refine (H1 A u hA hu (hle.trans (q2.trans la)) _ mt _ _ ε0 (εle.trans la) g).trans ?_
    have b1 : K * (hm ^ 4 + e + N * u) + u ≤ (K + 1) * (hm ^ 4 + e + ((N:ℝ) + 1) * u) := by linarith only [ex, Ku, z]
    have := mul_le_mul_of_nonneg_left b1 hK1
    rw [add_mul, mul_assoc K1]
    linarith only [this, pos2]
  · intro hE
    refine (H2 hE A u hA hu (hle.trans (q2.trans lb)) e P he (hele.trans (q2.trans lb)) w _ mt _ _ ε0 (εle.trans lb) g).trans ?_
    have b1 : e + K * (hm ^ 4 + e + N * u) + u ≤ (K + 1) * (hm ^ 4 + e + ((N:ℝ) + 1) * u) := by linarith only [ex, Ku, hm40, Nu]
    have := mul_le_mul_of_nonneg_left b1 hK2
    rw [add_mul, mul_assoc K2]
    linarith only [this, pos1]

/-! ### regularised systems -/

theorem stageR_bindE (A : Arith) (G : ℝ) (type : ReguType) (h : ℝ) (c : Stage) (s : ReguSys) : (stageR A G type h c s).R.bindE = s.R.bindE := by
  cases c <;> cases type <;> rfl

theorem stepR_bindE (A : Arith) (G : ℝ) (type : ReguType) (h : ℝ) (stages : List Stage) : ∀ s : ReguSys, (stepR A G type stages h s).R.bindE = s.R.bindE := by
  induction stages with
  | nil => exact fun _ => rfl
  | cons c l ih => exact fun s => (ih _).trans (stageR_bindE A G type h c s)

/-- the binding energy that a regularised system keeps is the one of the start -/
theorem runR_bindE (A : Arith) (G : ℝ) (type : ReguType) (stages : List Stage) (hs : List ℝ) : ∀ s : ReguSys, (runR A G type stages hs s).R.bindE = s.R.bindE := by
  induction hs with
  | nil => exact fun _ => rfl
  | cons h l ih => exact fun s => (ih _).trans (stepR_bindE A G type h stages s)

/-- **C120, regularised systems.** As in C117: the energy of the state that is reached is computed as that of the start up to `K (hm ^ p + δ + e + (N + 1) u)`,
and the number that `EnergyErrWriter` writes, the logarithm of a ratio of energies, is 0 up to as much. -/
theorem C120_regularised {x v : ℝ → Nat → V3 ℝ} {t0 t1 t2 : ℝ} (h02 : t0 ≤ t2) (h21 : t2 < t1) (M : NewtonMotion n m x v t0 t1)
    (hn : 2 ≤ n) (hmass : ∀ k, k < n → 0 < m k) (p : Nat) (hp : 1 ≤ p) (stages : List Stage) (type : ReguType) (hty : type ∈ [ReguType.logH, .ttl]) :
    ∃ K ρ : ℝ, 0 ≤ K ∧ 0 < ρ ∧ ∀ A u, Accurate A u → 0 ≤ u → ∀ e P, 0 ≤ e → e ≤ ρ → WithinOf n m x v t0 e P →
      ∀ hm δ, 0 ≤ hm → hm ≤ ρ → 0 ≤ δ → δ ≤ ρ →
      (∀ w : List Bool, 1 ≤ w.length → w.length ≤ p → |(deviation stages w : ℝ)| * hm ^ (w.length - 1) ≤ δ) →
      ∀ hs : List ℝ, (∀ h ∈ hs, 0 ≤ h ∧ h ≤ hm) → (hs.length + 1) * u ≤ ρ →
      (∀ pre suf, hs = pre ++ suf → suf ≠ [] → (runR A 1 type stages pre (initR A 1 type t0 P)).time ≤ t2) →
      ∀ s, s = runR A 1 type stages hs (initR A 1 type t0 P) → t0 ≤ s.time → s.time ≤ t2 →
        |totalEnergyR A 1 s.P - energyOf n m (x t0) (v t0)| ≤ K * (hm ^ p + δ + e + (hs.length + 1) * u) ∧
        |energyLogR A 1 s| ≤ K * (hm ^ p + δ + e + (hs.length + 1) * u) := by
  obtain ⟨K, _, ρ, _, hK, _, hρ, _, H⟩ := C117_rounded h02 h21 M hn hmass p hp stages type hty
  obtain ⟨K1, ρ1, hK1, hρ1, H1⟩ := C120_energy M
  obtain ⟨B, C, ρ2, hB, hC, hρ2, _, H2⟩ := energies_near M
  obtain ⟨c, hc, low⟩ := pot_away M hn hmass
  obtain ⟨L, ρ3, hL, hρ3, H3⟩ := log_of (E := energyOf n m (x t0) (v t0)) hB hC hc
  obtain ⟨σ, hσ⟩ : ∃ σ, σ = min (min ρ 1) (min ρ1 (min ρ2 ρ3)) := ⟨_, rfl⟩
  have σ0 : 0 < σ := by rw [hσ]; exact lt_min (lt_min hρ one_pos) (lt_min hρ1 (lt_min hρ2 hρ3))
  have s1 : σ ≤ ρ := by rw [hσ]; exact (min_le_left _ _).trans (min_le_left _ _)
  have s2 : σ ≤ 1 := by rw [hσ]; exact (min_le_left _ _).trans (min_le_right _ _)
  have s3 : σ ≤ ρ1 := by rw [hσ]; exact (min_le_right _ _).trans (min_le_left _ _)
  have s4 : σ ≤ ρ2 := by rw [hσ]; exact (min_le_right _ _).trans ((min_le_right _ _).trans (min_le_left _ _))
  have s5 : σ ≤ ρ3 := by rw [hσ]; exact (min_le_right _ _).trans ((min_le_right _ _).trans (min_le_right _ _))
  refine ⟨K1 * (K + 1) + L * (K + 1), min σ (σ / (4 * K + 1)), by positivity, lt_min σ0 (by positivity),
    fun A u hA hu e P he hele w hm δ hm0 hmle hδ hδle dev hs hhs hN stay s hs' ts1 ts2 => ?_⟩
  have q1 : min σ (σ / (4 * K + 1)) ≤ σ := min_le_left _ _
  have g := (H A u hA hu e P he (hele.trans (q1.trans s1)) w hm δ hm0 (hmle.trans (q1.trans s1)) hδ (hδle.trans (q1.trans s1)) dev hs hhs
    (hN.trans (q1.trans s1)) stay).2.2
  rw [← hs'] at g
  have g := g ts1 ts2
  have bind : s.R.bindE = -totalEnergyR A 1 P := by rw [hs', runR_bindE]; rfl
  obtain ⟨z, hz⟩ : ∃ z, z = hm ^ p + δ + e + (hs.length + 1) * u := ⟨_, rfl⟩
  rw [← hz] at g ⊢
  obtain ⟨z0, euz, uσ, εσ⟩ := sizes hz hp hK σ0.le s2 hm0 hmle hδ hδle he hele hu hN
  have ε0 : 0 ≤ K * z := by positivity
  have mt : s.time ∈ Set.Icc t0 t1 := ⟨ts1, by linarith⟩
  have h0 : t0 ∈ Set.Icc t0 t1 := ⟨le_rfl, by linarith⟩
  have f1 := H1 A u hA hu (uσ.trans s3) _ mt _ _ ε0 (εσ.trans s3) g
  obtain ⟨a1, a2, f⟩ := H2 t0 h0
  obtain ⟨b1, b2, f'⟩ := H2 _ mt
  obtain ⟨c1, c2⟩ := f A u hA hu (uσ.trans s4) e P he (hele.trans (q1.trans s4)) w
  obtain ⟨d1, d2⟩ := f' A u hA hu (uσ.trans s4) _ _ ε0 (εσ.trans s4) g
  have f2 := H3 A u hA hu (uσ.trans s5) e _ he (hele.trans (q1.trans s5)) ε0 (εσ.trans s5) _ _ _ _ _ _ _ _ (energy_const M h0) (energy_const M mt) (low _ mt)
    ⟨a1, a2, c1, c2⟩ ⟨b1, b2, d1, d2⟩
  have l1 : K * z + u ≤ (K + 1) * z := by linarith
  have l2 : e + K * z + u ≤ (K + 1) * z := by linarith
  have p1 := mul_le_mul_of_nonneg_left l1 hK1
  have p2 := mul_le_mul_of_nonneg_left l2 hL
  have p3 : 0 ≤ K1 * ((K + 1) * z) := by positivity
  have p4 : 0 ≤ L * ((K + 1) * z) := by positivity
  have ex : (K1 * (K + 1) + L * (K + 1)) * z = K1 * ((K + 1) * z) + L * ((K + 1) * z) := by ring
  rw [ex]
  refine ⟨by linarith, ?_⟩
  unfold energyLogR
  rw [bind]
  exact f2.trans (by linarith)

/-- Non-vacuity: the circular motion of two masses 1/2 about each other at the distance 1: its energy is not 0; the other hypotheses hold of rounding to 53 bits
and a fourth order integrator with the step `1e-3`. -/
example (t0 : ℝ) (rnd : ℝ → ℝ) (N : Nearest 53 rnd) : NewtonMotion 2 (fun _ => 1 / 2) circlePos circleVel t0 (t0 + 1) ∧
    energyOf 2 (fun _ => 1 / 2) (circlePos t0) (circleVel t0) ≠ 0 ∧
    WithinOf 2 (fun _ => 1 / 2) circlePos circleVel t0 0 ⟨2, circlePos t0, circleVel t0, fun _ => 1 / 2⟩ ∧ Accurate (ieee rnd) (1 / 2 ^ 53) ∧
    ∀ w : List Bool, 1 ≤ w.length → w.length ≤ 4 → |(deviation symplectic4th w : ℝ)| * 1e-3 ^ (w.length - 1) ≤ 1e-14 * 1e-3 ^ 2 := by
  refine ⟨circle_motion t0 _, ?_, ⟨rfl, fun _ _ => rfl, fun _ _ => by simp [len, dot], fun _ _ => by simp [len, dot]⟩, C113_nearest (by norm_num) N,
    fourth_dev (by norm_num) (by norm_num)⟩
  have one : Real.cos t0 * Real.cos t0 + Real.sin t0 * Real.sin t0 = 1 := by nlinarith [Real.sin_sq_add_cos_sq t0]
  have d1 : circlePos t0 0 - circlePos t0 1 = ⟨Real.cos t0, Real.sin t0, 0⟩ := by
    ext1 <;> simp [circlePos]
  have l1 : len (circlePos t0 0 - circlePos t0 1) = 1 := by
    rw [d1]
    unfold len dot
    simp [one]
  have f : ((range 2) ×ˢ (range 2)).filter (fun p => p.1 < p.2) = {(0, 1)} := by decide
  have pot : potential 1 2 (fun _ => 1 / 2) (circlePos t0) = -(1 / 4) := by
    unfold potential
    rw [f, sum_singleton]
    simp only [l1]
    norm_num
  have kin : ∑ i ∈ range 2, 1 / 2 * (1 / 2 : ℝ) * dot (circleVel t0 i) (circleVel t0 i) = 1 / 8 := by
    rw [sum_range_succ, sum_range_one]
    simp only [circleVel, dot, if_true, if_neg one_ne_zero]
    linarith only [one, show 1 / 2 * (1 / 2 : ℝ) * (-(Real.sin t0 / 2) * -(Real.sin t0 / 2) + Real.cos t0 / 2 * (Real.cos t0 / 2) + 0 * 0) +
      1 / 2 * (1 / 2) * (Real.sin t0 / 2 * (Real.sin t0 / 2) + -(Real.cos t0 / 2) * -(Real.cos t0 / 2) + 0 * 0) =
      1 / 8 * (Real.cos t0 * Real.cos t0 + Real.sin t0 * Real.sin t0) by ring]
  unfold energyOf
  rw [pot, kin]
  norm_num

end SpaceHub.Rounded
