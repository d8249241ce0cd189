import Verif.Props.OrbitTime

/-
C74: the period.
-/

set_option autoImplicit false

namespace SpaceHub.Props
open SpaceHub Orbit Spec.Orbit Real

/-! ### The mean anomaly of an ellipse on the whole line -/

/-- The mean anomaly as a smooth function of the true anomaly. -/
noncomputable def smoothMean (e ν : ℝ) : ℝ :=
  ν - 2 * arctan (e / (1 + sqrt (1 - e ^ 2)) * sin ν / (1 + e / (1 + sqrt (1 - e ^ 2)) * cos ν)) -
    e * sqrt (1 - e ^ 2) * sin ν / (1 + e * cos ν)

theorem smoothMean_turn (e ν : ℝ) (n : ℤ) : smoothMean e (ν + n * (2 * π)) = smoothMean e ν + n * (2 * π) := by
  unfold smoothMean
  rw [sin_add_int_mul_two_pi, cos_add_int_mul_two_pi]
  ring

theorem deriv_smoothMean {e : ℝ} (he : 0 ≤ e) (he1 : e < 1) (ν : ℝ) :
    HasDerivAt (smoothMean e) (sqrt (1 - e ^ 2) ^ 3 / (1 + e * cos ν) ^ 2) ν := by
  have hw : 0 < 1 - e ^ 2 := by nlinarith
  set s := sqrt (1 - e ^ 2) with hs
  have hs0 : 0 < s := sqrt_pos.2 hw
  have hs2 : s ^ 2 = 1 - e ^ 2 := sq_sqrt hw.le
  set β := e / (1 + s) with hβ
  have hβ0 : 0 ≤ β := div_nonneg he (by linarith)
  have hβ1 : β < 1 := by rw [hβ, div_lt_one (by linarith)]; linarith
  have hc := neg_one_le_cos ν
  have hc1 := cos_le_one ν
  have h1 : 0 < 1 + β * cos ν := by nlinarith
  have h2 : 0 < 1 + e * cos ν := by nlinarith
  have hsc := sin_sq_add_cos_sq ν
  have dA : HasDerivAt (fun x => β * sin x / (1 + β * cos x)) ((β * cos ν + β ^ 2) / (1 + β * cos ν) ^ 2) ν := by
    have := ((hasDerivAt_sin ν).const_mul β).div (((hasDerivAt_cos ν).const_mul β).const_add 1) h1.ne'
    refine this.congr_deriv ?_
    field_simp
    linear_combination β ^ 2 * hsc
  have dB : HasDerivAt (fun x => e * s * sin x / (1 + e * cos x)) (e * s * (cos ν + e) / (1 + e * cos ν) ^ 2) ν := by
    have := ((hasDerivAt_sin ν).const_mul (e * s)).div (((hasDerivAt_cos ν).const_mul e).const_add 1) h2.ne'
    refine this.congr_deriv ?_
    congr 1
    linear_combination e ^ 2 * s * hsc
  have d := ((hasDerivAt_id ν).sub ((dA.arctan).const_mul 2)).sub dB
  refine HasDerivAt.congr_deriv (f := smoothMean e) d ?_
  have h3 : 1 + (β * sin ν / (1 + β * cos ν)) ^ 2 = (1 + 2 * β * cos ν + β ^ 2) / (1 + β * cos ν) ^ 2 := by
    field_simp
    linear_combination β ^ 2 * hsc
  have hb1 : β * (1 + s) = e := by rw [hβ]; field_simp
  have h4 : (1 + 2 * β * cos ν + β ^ 2) = (1 + β ^ 2) * (1 + e * cos ν) := by
    have : 2 * β = (1 + β ^ 2) * e := by
      apply mul_right_cancel₀ (show (1 + s) ^ 2 ≠ 0 by positivity)
      have e2 : e ^ 2 = 1 - s ^ 2 := by linarith
      linear_combination (2 * (1 + s) - e * (β * (1 + s) + e)) * hb1 - e * e2
    linear_combination cos ν * this
  have h5 : 1 - β ^ 2 = (1 + β ^ 2) * s := by
    apply mul_right_cancel₀ (show (1 + s) ^ 2 ≠ 0 by positivity)
    linear_combination (-(1 + s)) * (β * (1 + s) + e) * hb1 - (1 + s) * hs2
  rw [h3, h4]
  have h6 : (1 + β ^ 2) ≠ 0 := by positivity
  have h7 : 2 * (1 / ((1 + β ^ 2) * (1 + e * cos ν) / (1 + β * cos ν) ^ 2) * ((β * cos ν + β ^ 2) / (1 + β * cos ν) ^ 2)) =
      1 - s / (1 + e * cos ν) := by
    field_simp
    linear_combination h4 - h5
  rw [h7]
  field_simp
  linear_combination (-s) * hs2

theorem smoothMean_strictMono {e : ℝ} (he : 0 ≤ e) (he1 : e < 1) : StrictMono (smoothMean e) := by
  apply strictMono_of_deriv_pos
  intro ν
  rw [(deriv_smoothMean he he1 ν).deriv]
  have hw : 0 < 1 - e ^ 2 := by nlinarith
  have := sqrt_pos.2 hw
  have : 0 < 1 + e * cos ν := by nlinarith [neg_one_le_cos ν]
  positivity

theorem smoothMean_surjective {e : ℝ} (he : 0 ≤ e) (he1 : e < 1) : Function.Surjective (smoothMean e) := by
  have hcont : Continuous (smoothMean e) := continuous_iff_continuousAt.2 fun ν => (deriv_smoothMean he he1 ν).continuousAt
  have h0 : smoothMean e 0 = 0 := by simp [smoothMean]
  intro y
  obtain ⟨n, hn⟩ := exists_nat_gt (|y| / (2 * π))
  have hn' : |y| < n * (2 * π) := by rwa [div_lt_iff₀ (by positivity)] at hn
  have h1 := smoothMean_turn e 0 n
  have h2 := smoothMean_turn e 0 (-n)
  rw [h0] at h1 h2
  push_cast at h1 h2
  have hb := abs_lt.1 hn'
  exact mem_range_of_exists_le_of_exists_ge hcont ⟨_, (h2.le.trans (by linarith [hb.1]))⟩ ⟨_, le_trans (by linarith [hb.2]) h1.ge⟩

/-! ### C74 -/

/-- Kepler's third law; a non-positive semi-major axis is refused. -/
theorem C74_third_law (m1 m2 a : ℝ) (hm : 0 < m1 + m2) :
    (0 < a → ∃ T, period m1 m2 a = .ok T ∧ 0 < T ∧ T ^ 2 * (m1 + m2) = 4 * π ^ 2 * a ^ 3) ∧ (a ≤ 0 → period m1 m2 a = .abort) := by
  constructor
  · intro ha
    have hq : 0 < a * a * a / (m1 + m2) := by positivity
    refine ⟨2 * π * sqrt (a * a * a / (m1 + m2)), ?_, ?_, ?_⟩
    · unfold period
      rw [if_pos ha]
      simp only [fdiv, G, mul_one, hm.ne', if_false, fsqrt, not_lt.2 hq.le, Sys.Res.ok_bind]
    · have := sqrt_pos.2 hq
      positivity
    · rw [mul_pow, sq_sqrt hq.le]
      field_simp
      ring
  · intro ha
    unfold period
    rw [if_neg (not_lt.2 ha)]

/-- The mean anomaly grows at the rate `2π / T`. -/
theorem mean_rate {m1 m2 p e T : ℝ} {ν : ℝ → ℝ} (hm : 0 < m1 + m2) (hp : 0 < p) (he : 0 ≤ e) (he1 : e < 1)
    (hT : period m1 m2 (p / (1 - e * e)) = .ok T) (harea : LawOfAreas (m1 + m2) p e ν Set.univ) (t t' : ℝ) :
    T * (smoothMean e (ν t) - smoothMean e (ν t')) = 2 * π * (t - t') := by
  have hw : 0 < 1 - e ^ 2 := by nlinarith
  have hw' : 0 < 1 - e * e := by nlinarith
  have ha : 0 < p / (1 - e * e) := by positivity
  obtain ⟨T', hT', hpos, h3⟩ := (C74_third_law m1 m2 _ hm).1 ha
  rw [hT] at hT'
  cases hT'
  set s := sqrt (1 - e ^ 2) with hs
  have hs0 : 0 < s := sqrt_pos.2 hw
  have hs2 : s ^ 2 = 1 - e ^ 2 := sq_sqrt hw.le
  set q := sqrt ((m1 + m2) * p) with hq
  have hq0 : 0 < q := sqrt_pos.2 (by positivity)
  have hq2 : q ^ 2 = (m1 + m2) * p := sq_sqrt (by positivity)
  have hkey : T * (s ^ 3 * q) = 2 * π * p ^ 2 := by
    have hsq : (T * (s ^ 3 * q)) ^ 2 = (2 * π * p ^ 2) ^ 2 := by
      rw [show 1 - e * e = s ^ 2 by linarith] at h3
      field_simp at h3
      linear_combination (p : ℝ) * h3 + T ^ 2 * s ^ 6 * hq2
    rcases sq_eq_sq_iff_eq_or_eq_neg.1 hsq with h | h
    · exact h
    · have h1 : 0 < T * (s ^ 3 * q) := by positivity
      have h2 : 0 < 2 * π * p ^ 2 := by have := pi_pos; positivity
      linarith
  have hd : ∀ x ∈ Set.Ioo (min t t' - 1) (max t t' + 1), HasDerivAt (fun y => T * smoothMean e (ν y)) (2 * π) x := by
    intro x _
    obtain ⟨hx, hν⟩ := harea x trivial
    have d := ((deriv_smoothMean he he1 (ν x)).comp x hν).const_mul T
    refine d.congr_deriv ?_
    rw [← hs, ← hq]
    field_simp
    linear_combination hkey
  have := of_rate hd (t := t) (t' := t') ⟨by linarith [min_le_left t t'], by linarith [le_max_left t t']⟩
    ⟨by linarith [min_le_right t t'], by linarith [le_max_right t t']⟩
  linarith

variable (k : Kepler) (ν : ℝ → ℝ) (T : ℝ)

/-- After one period the body is back at its position with its velocity, whatever the instant. -/
theorem C74_returns (hm : 0 < k.m1 + k.m2) (hp : 0 < k.p) (he : 0 ≤ k.e) (he1 : k.e < 1) (hT : periodOf k = .ok T)
    (harea : LawOfAreas (k.m1 + k.m2) k.p k.e ν Set.univ) (t : ℝ) :
    ν (t + T) = ν t + 2 * π ∧ ∃ pos vel, orbitToCoord { k with nu := ν t } = .ok (pos, vel) ∧ orbitToCoord { k with nu := ν (t + T) } = .ok (pos, vel) := by
  have hw' : 0 < 1 - k.e * k.e := by nlinarith
  unfold periodOf at hT
  simp only [fdiv, hw'.ne', if_false, Sys.Res.ok_bind] at hT
  have hr := mean_rate hm hp he he1 hT harea (t + T) t
  obtain ⟨T', hT', hpos, -⟩ := (C74_third_law k.m1 k.m2 (k.p / (1 - k.e * k.e)) hm).1 (by positivity)
  rw [hT] at hT'
  cases hT'
  have h1 : ν (t + T) = ν t + 2 * π := by
    apply (smoothMean_strictMono he he1).injective
    have := smoothMean_turn k.e (ν t) 1
    push_cast at this
    rw [one_mul] at this
    rw [this]
    apply mul_left_cancel₀ hpos.ne'
    linear_combination hr
  have hq := (harea t trivial).1.ne'
  refine ⟨h1, _, _, orbitToCoord_ok { k with nu := ν t } hp hm hq, ?_⟩
  rw [orbitToCoord_ok { k with nu := ν (t + T) } hp hm (by simp only [h1, cos_add_two_pi]; exact hq)]
  simp only [h1, position, velocity, cos_add_two_pi, sin_add_two_pi]

/-- No shorter time brings it back. -/
theorem C74_least (hm : 0 < k.m1 + k.m2) (hp : 0 < k.p) (he : 0 ≤ k.e) (he1 : k.e < 1) (hT : periodOf k = .ok T)
    (harea : LawOfAreas (k.m1 + k.m2) k.p k.e ν Set.univ) (t τ : ℝ) (hτ : 0 < τ)
    (hback : orbitToCoord { k with nu := ν (t + τ) } = orbitToCoord { k with nu := ν t }) : T ≤ τ := by
  have hw' : 0 < 1 - k.e * k.e := by nlinarith
  unfold periodOf at hT
  simp only [fdiv, hw'.ne', if_false, Sys.Res.ok_bind] at hT
  obtain ⟨T', hT', hpos, -⟩ := (C74_third_law k.m1 k.m2 (k.p / (1 - k.e * k.e)) hm).1 (by positivity)
  rw [hT] at hT'
  cases hT'
  have hr := mean_rate hm hp he he1 hT harea (t + τ) t
  rw [orbitToCoord_ok { k with nu := ν t } hp hm (harea t trivial).1.ne',
    orbitToCoord_ok { k with nu := ν (t + τ) } hp hm (harea (t + τ) trivial).1.ne'] at hback
  have hv := neg_injective (congrArg Prod.snd (Res.ok.inj hback))
  simp only [velocity_frame] at hv
  have fr := frame k.i k.Omega k.omega
  have hsu := sqrt_pos.2 (div_pos hm hp)
  have hP := congrArg (fun v => V3.dot v ((1:ℝ) • peri k.i k.Omega k.omega + (0:ℝ) • along k.i k.Omega k.omega + (0:ℝ) • normal k.i k.Omega)) hv
  have hQ := congrArg (fun v => V3.dot v ((0:ℝ) • peri k.i k.Omega k.omega + (1:ℝ) • along k.i k.Omega k.omega + (0:ℝ) • normal k.i k.Omega)) hv
  simp only [fr.dot] at hP hQ
  have hsin : sin (ν (t + τ)) = sin (ν t) := by
    apply mul_left_cancel₀ hsu.ne'
    linear_combination -hP
  have hcos : cos (ν (t + τ)) = cos (ν t) := by
    apply mul_left_cancel₀ hsu.ne'
    linear_combination hQ
  obtain ⟨n, hn⟩ := sameAngle_of hcos hsin
  rw [hn, smoothMean_turn] at hr
  have hπ := pi_pos
  have h2 : T * n = τ := by
    apply mul_left_cancel₀ (show 2 * π ≠ 0 by positivity)
    linear_combination hr
  have hn1 : (1:ℝ) ≤ n := by
    have : (0:ℝ) < n := by
      by_contra hc
      nlinarith
    exact_mod_cast this
  nlinarith

/-- There is such a motion through every point of every ellipse, and it lasts for ever. -/
theorem C74_motion_exists (t0 : ℝ) (hm : 0 < k.m1 + k.m2) (hp : 0 < k.p) (he : 0 ≤ k.e) (he1 : k.e < 1) :
    ∃ ν : ℝ → ℝ, ν t0 = k.nu ∧ LawOfAreas (k.m1 + k.m2) k.p k.e ν Set.univ := by
  have hw : 0 < 1 - k.e ^ 2 := by nlinarith
  set s := sqrt (1 - k.e ^ 2) with hs
  have hs0 : 0 < s := sqrt_pos.2 hw
  have hq0 : 0 < sqrt ((k.m1 + k.m2) * k.p) := sqrt_pos.2 (by positivity)
  have hmono := smoothMean_strictMono he he1
  let iso := hmono.orderIsoOfSurjective _ (smoothMean_surjective he he1)
  set c := s ^ 3 * sqrt ((k.m1 + k.m2) * k.p) / k.p ^ 2 with hc
  refine ⟨fun t => iso.symm (smoothMean k.e k.nu + c * (t - t0)), ?_, ?_⟩
  · simp only [sub_self, mul_zero, add_zero]
    exact iso.symm_apply_apply k.nu
  · intro t _
    set y := smoothMean k.e k.nu + c * (t - t0) with hy
    have hq : 0 < 1 + k.e * cos (iso.symm y) := by nlinarith [neg_one_le_cos (iso.symm y)]
    refine ⟨hq, ?_⟩
    have d1 : HasDerivAt (fun x => iso.symm x) (s ^ 3 / (1 + k.e * cos (iso.symm y)) ^ 2)⁻¹ y := by
      refine HasDerivAt.of_local_left_inverse (f := smoothMean k.e) iso.symm.continuous.continuousAt (deriv_smoothMean he he1 _) ?_ ?_
      · positivity
      · exact Filter.Eventually.of_forall fun x => iso.apply_symm_apply x
    have d2 : HasDerivAt (fun t => smoothMean k.e k.nu + c * (t - t0)) c t := by
      have := (((hasDerivAt_id t).sub_const t0).const_mul c).const_add (smoothMean k.e k.nu)
      simpa using this
    have d := d1.comp t d2
    refine HasDerivAt.congr_deriv (f := fun t => iso.symm (smoothMean k.e k.nu + c * (t - t0))) d ?_
    show (s ^ 3 / (1 + k.e * cos (iso.symm y)) ^ 2)⁻¹ * c = sqrt ((k.m1 + k.m2) * k.p) / (k.p / (1 + k.e * cos (iso.symm y))) ^ 2
    clear d d1 d2 hy
    generalize iso.symm y = z at hq ⊢
    rw [hc]
    field_simp

/-- An eccentric orbit with its eternal motion and its period. -/
example : ∃ (k : Kepler) (ν : ℝ → ℝ) (T : ℝ), k.e = 1 / 2 ∧ LawOfAreas (k.m1 + k.m2) k.p k.e ν Set.univ ∧ periodOf k = .ok T := by
  let k : Kepler := { m1 := 1, m2 := 2, p := 3, e := 1 / 2, i := 1, Omega := 1, omega := 2, nu := 3, type := .ellipse }
  have hm : 0 < k.m1 + k.m2 := by norm_num [k]
  obtain ⟨ν, -, h⟩ := C74_motion_exists k 0 hm (by norm_num [k]) (by norm_num [k]) (by norm_num [k])
  obtain ⟨T, hT, -⟩ := (C74_third_law k.m1 k.m2 (k.p / (1 - k.e * k.e)) hm).1 (by norm_num [k])
  refine ⟨k, ν, T, rfl, h, ?_⟩
  unfold periodOf
  have : (1:ℝ) - k.e * k.e ≠ 0 := by norm_num [k]
  simp only [fdiv, this, if_false, Sys.Res.ok_bind, hT]

end SpaceHub.Props
