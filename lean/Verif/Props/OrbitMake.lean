import Verif.Proof.OrbitTime
import Verif.Props.Anomaly

/-
C73: orbits from physical parameters.  C74: the period.
-/

set_option autoImplicit false

namespace SpaceHub.Props
open SpaceHub Orbit Spec.Orbit Real

/-! ### C73 -/

/-- What the constructor of `Hyperbolic` computes, when the speed at infinity `w`, the impact parameter `b` and the total mass `u` are
not zero and energy and angular momentum allow the distance `r`. -/
theorem hyperbolic_core {u w b r : ℝ} (hu : 0 < u) (hw : w ≠ 0) (hb : b ≠ 0) (hr : 0 < r) (hreach : (b * w) ^ 2 ≤ r ^ 2 * w ^ 2 + 2 * u * r) :
    ∃ e, 1 < e ∧ sqrt (1 + b * b / (-u / (w * w) * (-u / (w * w)))) = e ∧ u ^ 2 * (e ^ 2 - 1) = b ^ 2 * w ^ 4 ∧
      -u / (w * w) * (1 - e) ≤ r ∧ -1 ≤ ((b * w) * (b * w) / u - r) / (e * r) ∧ ((b * w) * (b * w) / u - r) / (e * r) ≤ 1 := by
  have hw2 : 0 < w ^ 2 := by positivity
  have hb2 : 0 < b ^ 2 := by positivity
  have hq : b * b / (-u / (w * w) * (-u / (w * w))) = b ^ 2 * w ^ 4 / u ^ 2 := by field_simp
  rw [hq]
  set e := sqrt (1 + b ^ 2 * w ^ 4 / u ^ 2) with he
  have hpos : 0 < b ^ 2 * w ^ 4 / u ^ 2 := by positivity
  have hsq : e ^ 2 = 1 + b ^ 2 * w ^ 4 / u ^ 2 := sq_sqrt (by linarith)
  have he0 : 0 ≤ e := sqrt_nonneg _
  have he1 : 1 < e := by nlinarith
  have hu2 : u ^ 2 * (e ^ 2 - 1) = b ^ 2 * w ^ 4 := by
    rw [hsq]; field_simp; ring
  -- the closest approach
  have hc : u * e ≤ r * w ^ 2 + u := by
    apply le_of_sq_le_sq _ (by positivity)
    have h1 : w ^ 2 * (b * w) ^ 2 ≤ w ^ 2 * (r ^ 2 * w ^ 2 + 2 * u * r) := mul_le_mul_of_nonneg_left hreach hw2.le
    nlinarith
  refine ⟨e, he1, rfl, hu2, ?_, ?_, ?_⟩
  · rw [show -u / (w * w) * (1 - e) = u * (e - 1) / w ^ 2 by field_simp; ring, div_le_iff₀ hw2]
    linarith
  · rw [le_div_iff₀ (by positivity)]
    have : 0 ≤ b * w * (b * w) / u := div_nonneg (mul_self_nonneg _) hu.le
    nlinarith
  · rw [div_le_iff₀ (by positivity), one_mul]
    have h1 : b * w * (b * w) / u = u * (e - 1) / w ^ 2 * (e + 1) := by
      field_simp
      linear_combination -hu2
    have h2 : u * (e - 1) / w ^ 2 ≤ r := by
      rw [div_le_iff₀ hw2]; linarith
    have h3 : u * (e - 1) / w ^ 2 * (e + 1) ≤ r * (e + 1) := mul_le_mul_of_nonneg_right h2 (by linarith)
    rw [h1]; linarith

/-- `Hyperbolic`: the coordinates of the orbit are at distance `r`, with the energy `w^2/2` of a body of speed `w` at infinity and the
angular momentum `b w` of impact parameter `b`, in the plane asked for, and moving inwards (`r.v ≤ 0`) or outwards (`r.v ≥ 0`).  The
condition on `r` says that at this distance the speed is enough for the angular momentum. -/
theorem C73_hyperbolic (eps : ℝ) (fuel : Nat) (m1 m2 w b i Ω ω r : ℝ) (io : Hyper) (hm : 0 < m1 + m2) (hw : w ≠ 0) (hb : b ≠ 0)
    (hr : 0 < r) (hreach : (b * w) ^ 2 ≤ r ^ 2 * w ^ 2 + 2 * (m1 + m2) * r) :
    ∃ k pos vel, mkHyperbolic eps fuel m1 m2 w b (.given i) (.given Ω) (.given ω) r io = .ok k ∧ orbitToCoord k = .ok (pos, vel) ∧
      k.type = .hyperbola ∧ 1 < k.e ∧
      len pos = r ∧ energy (m1 + m2) pos vel = w ^ 2 / 2 ∧ pos.cross vel = |b * w| • normal i Ω ∧
      (io = .inward → pos.dot vel ≤ 0) ∧ (io = .outward → 0 ≤ pos.dot vel) ∧
      (pos.dot vel = 0 ↔ (b * w) ^ 2 = r ^ 2 * w ^ 2 + 2 * (m1 + m2) * r) := by
  obtain ⟨e, he1, hsq, hu2, hc, hl, hh⟩ := hyperbolic_core hm hw hb hr hreach
  have hw2 : 0 < w ^ 2 := by positivity
  have hb2 : 0 < b ^ 2 := by positivity
  have hp : 0 < b * w * (b * w) / (m1 + m2) := by
    have : b * w ≠ 0 := mul_ne_zero hb hw
    have : 0 < (b * w) ^ 2 := by positivity
    apply div_pos _ hm
    nlinarith
  set p := b * w * (b * w) / (m1 + m2) with hpdef
  set c := (p - r) / (e * r) with hcdef
  have her : e * r ≠ 0 := by positivity
  have hclass : classify eps 0 ≠ .none := by simp [classify]
  have hmk : mkHyperbolic eps fuel m1 m2 w b (.given i) (.given Ω) (.given ω) r io =
      .ok { m1 := m1, m2 := m2, p := p, e := e, i := i, Omega := Ω, omega := ω,
            nu := if io = .outward then -(arccos c) * -1 else -(arccos c), type := .hyperbola } := by
    have hww : w * w ≠ 0 := by positivity
    have haa : -(m1 + m2) / (w * w) * (-(m1 + m2) / (w * w)) ≠ 0 := mul_self_ne_zero.2 (div_ne_zero (neg_ne_zero.2 hm.ne') hww)
    have hs0 : ¬ 1 + b * b / (-(m1 + m2) / (w * w) * (-(m1 + m2) / (w * w))) < 0 := by
      intro h
      rw [sqrt_eq_zero_of_nonpos h.le] at hsq
      linarith
    unfold mkHyperbolic mkKepler
    rw [if_neg (by norm_num), if_neg hclass]
    simp only [Sys.Res.ok_bind, G, one_mul, fdiv, hww, if_false, haa, fsqrt, hs0, hsq, hm.ne', ← hpdef]
    rw [if_neg (not_le.2 hp), if_neg (not_lt.2 hc), if_neg her]
    simp only [Sys.Res.ok_bind, facos, ← hcdef]
    rw [if_pos ⟨hl, hh⟩]
    rfl
  have hcos : cos (if io = .outward then -(arccos c) * -1 else -(arccos c)) = c := by
    split_ifs
    · rw [show -(arccos c) * -1 = arccos c by ring, cos_arccos hl hh]
    · rw [cos_neg, cos_arccos hl hh]
  have hq : 1 + e * c = p / r := by rw [hcdef]; field_simp; ring
  have hq0 : 0 < 1 + e * c := by rw [hq]; positivity
  set ν := (if io = .outward then -(arccos c) * -1 else -(arccos c)) with hν
  refine ⟨_, _, _, hmk, orbitToCoord_ok _ hp hm (by simp only [hcos]; exact hq0.ne'), rfl, he1, ?_, ?_, ?_, ?_⟩
  · rw [len_neg, position_len _ _ _ _ hp (by rw [hcos]; exact hq0), hcos, hq]
    field_simp
  · rw [← position_add_pi, ← velocity_add_pi, state_energy _ _ _ _ hp hm (by rw [hcos]; exact hq0), hpdef]
    field_simp
    linear_combination hu2
  · rw [← position_add_pi, ← velocity_add_pi, position_cross_velocity _ _ _ _ hp hm (by rw [hcos]; exact hq0.ne'), hpdef]
    congr 1
    rw [show (m1 + m2) * (b * w * (b * w) / (m1 + m2)) = (b * w) ^ 2 by field_simp, sqrt_sq_eq_abs]
  · have hdot : (-position p e i Ω ω ν).dot (-velocity (m1 + m2) p e i Ω ω ν) = r / p * sqrt ((m1 + m2) / p) * p * e * sin ν := by
      have hfr := frame i Ω ω
      have : (-position p e i Ω ω ν).dot (-velocity (m1 + m2) p e i Ω ω ν) = (position p e i Ω ω ν).dot (velocity (m1 + m2) p e i Ω ω ν) := by
        simp [V3.dot]
      rw [this, position_frame, velocity_frame, hfr.dot, hcos, hq]
      field_simp
      ring
    have hK : 0 < r / p * sqrt ((m1 + m2) / p) * p * e := by
      have := sqrt_pos.2 (div_pos hm hp)
      positivity
    simp only [hdot]
    refine ⟨?_, ?_, ?_⟩
    · intro h
      have : ν = -arccos c := by rw [hν, if_neg (by rw [h]; decide)]
      rw [this, sin_neg]
      have := sin_nonneg_of_nonneg_of_le_pi (arccos_nonneg c) (arccos_le_pi c)
      nlinarith
    · intro h
      have : ν = arccos c := by rw [hν, if_pos h]; ring
      rw [this]
      have := sin_nonneg_of_nonneg_of_le_pi (arccos_nonneg c) (arccos_le_pi c)
      positivity
    · have hs : sin ν = 0 ↔ c ^ 2 = 1 := by
        have := sin_sq_add_cos_sq ν
        rw [hcos] at this
        constructor
        · intro h; rw [h] at this; linarith
        · intro h; exact pow_eq_zero_iff two_ne_zero |>.1 (by linarith)
      rw [mul_eq_zero, or_iff_right hK.ne', hs]
      have hcm : c ≠ -1 := by
        intro h
        rw [h] at hq
        have : 0 < p / r := by positivity
        linarith
      have h1 : c ^ 2 = 1 ↔ c = 1 := by
        constructor
        · intro h
          rcases sq_eq_sq_iff_eq_or_eq_neg.1 (show c ^ 2 = 1 ^ 2 by rw [h]; norm_num) with h | h
          · exact h
          · exact absurd h hcm
        · intro h; rw [h]; norm_num
      rw [h1, hcdef, div_eq_one_iff_eq her]
      have hpu : p * (m1 + m2) = (b * w) ^ 2 := by rw [hpdef]; field_simp
      have hpe : p * w ^ 2 = (m1 + m2) * (e ^ 2 - 1) := by
        apply mul_right_cancel₀ hm.ne'
        linear_combination w ^ 2 * hpu - hu2
      constructor
      · intro h
        have hp' : p = r * (1 + e) := by linarith
        have h3 : r * w ^ 2 = (m1 + m2) * (e - 1) := by
          apply mul_right_cancel₀ (show (1 + e) ≠ 0 by positivity)
          linear_combination hpe - w ^ 2 * hp'
        rw [← hpu]
        linear_combination (m1 + m2) * hp' - r * h3
      · intro h
        rw [← hpu] at h
        -- (r w² + u)² = u² e²
        have h4 : (r * w ^ 2 + (m1 + m2)) ^ 2 = ((m1 + m2) * e) ^ 2 := by
          linear_combination (-w ^ 2) * h + (m1 + m2) * hpe
        have h5 : r * w ^ 2 + (m1 + m2) = (m1 + m2) * e := by
          rcases sq_eq_sq_iff_eq_or_eq_neg.1 h4 with h | h
          · exact h
          · exfalso
            have : 0 < r * w ^ 2 := by positivity
            nlinarith
        apply mul_right_cancel₀ hm.ne'
        have h6 : r * w ^ 2 = (m1 + m2) * (e - 1) := by linarith
        linear_combination h + r * h6

/-- The hypotheses are met by an incoming body. -/
example : ∃ k pos vel, mkHyperbolic 1 0 1 2 3 4 (.given (π / 3)) (.given 1) (.given 2) 50 .inward = .ok k ∧ orbitToCoord k = .ok (pos, vel) ∧
    len pos = 50 ∧ pos.dot vel < 0 := by
  obtain ⟨k, pos, vel, h1, h2, -, -, h3, -, -, h4, -, h5⟩ := C73_hyperbolic 1 0 1 2 3 4 (π / 3) 1 2 50 .inward (by norm_num) (by norm_num)
    (by norm_num) (by norm_num) (by norm_num)
  exact ⟨k, pos, vel, h1, h2, h3, lt_of_le_of_ne (h4 rfl) fun h => by have := h5.1 h; norm_num at this⟩

/-- A distance the body cannot reach with its energy and angular momentum is refused; so are a head-on orbit, a non-positive total mass
and a body at rest at infinity (the last and a zero total mass with NaN). -/
theorem C73_hyperbolic_refuses (eps : ℝ) (fuel : Nat) (m1 m2 w b i Ω ω r : ℝ) (io : Hyper) :
    (0 < m1 + m2 → w ≠ 0 → b ≠ 0 → 0 < r → r ^ 2 * w ^ 2 + 2 * (m1 + m2) * r < (b * w) ^ 2 →
      mkHyperbolic eps fuel m1 m2 w b (.given i) (.given Ω) (.given ω) r io = .abort) ∧
    (m1 + m2 ≠ 0 → w ≠ 0 → b = 0 ∨ m1 + m2 < 0 → mkHyperbolic eps fuel m1 m2 w b (.given i) (.given Ω) (.given ω) r io = .abort) ∧
    (m1 + m2 = 0 ∨ w = 0 → mkHyperbolic eps fuel m1 m2 w b (.given i) (.given Ω) (.given ω) r io = .nan) := by
  have hclass : classify eps 0 ≠ .none := by simp [classify]
  have hsn : ∀ a, ¬ 1 + b * b / (a * a) < 0 := fun a => by
    have : 0 ≤ b * b / (a * a) := div_nonneg (mul_self_nonneg _) (mul_self_nonneg _)
    linarith
  have hstart : mkHyperbolic eps fuel m1 m2 w b (.given i) (.given Ω) (.given ω) r io = (do
      let a ← fdiv (-(m1 + m2)) (w * w)
      let q ← fdiv (b * b) (a * a)
      let e ← fsqrt (1 + q)
      let p ← fdiv ((b * w) * (b * w)) (m1 + m2)
      if p ≤ 0 then .abort
      else if r < a * (1 - e) then .abort
      else do
        let c ← fdiv (p - r) (e * r)
        let t ← facos c
        let nu := if io = .outward then -t * -1 else -t
        Res.ok { m1 := m1, m2 := m2, p := p, e := e, i := i, Omega := Ω, omega := ω, nu := nu, type := .hyperbola }) := by
    unfold mkHyperbolic mkKepler
    rw [if_neg (by norm_num), if_neg hclass]
    simp only [Sys.Res.ok_bind, G, one_mul]
  rw [hstart]
  refine ⟨?_, ?_, ?_⟩
  · intro hm hw hb hr hreach
    have hw2 : 0 < w ^ 2 := by positivity
    have hww : w * w ≠ 0 := by positivity
    have haa : -(m1 + m2) / (w * w) * (-(m1 + m2) / (w * w)) ≠ 0 := mul_self_ne_zero.2 (div_ne_zero (neg_ne_zero.2 hm.ne') hww)
    have hbw : b * w ≠ 0 := mul_ne_zero hb hw
    have hp : 0 < b * w * (b * w) / (m1 + m2) := div_pos (mul_self_pos.2 hbw) hm
    simp only [fdiv, hww, if_false, haa, Sys.Res.ok_bind, fsqrt, hsn, hm.ne']
    rw [if_neg (not_le.2 hp), if_pos]
    have hq : b * b / (-(m1 + m2) / (w * w) * (-(m1 + m2) / (w * w))) = b ^ 2 * w ^ 4 / (m1 + m2) ^ 2 := by field_simp
    rw [hq]
    set e := sqrt (1 + b ^ 2 * w ^ 4 / (m1 + m2) ^ 2) with he
    have hpos : 0 < b ^ 2 * w ^ 4 / (m1 + m2) ^ 2 := by positivity
    have hsq : e ^ 2 = 1 + b ^ 2 * w ^ 4 / (m1 + m2) ^ 2 := sq_sqrt (by linarith)
    have he0 : 0 ≤ e := sqrt_nonneg _
    have hu2 : (m1 + m2) ^ 2 * (e ^ 2 - 1) = b ^ 2 * w ^ 4 := by
      rw [hsq]; field_simp; ring
    rw [show -(m1 + m2) / (w * w) * (1 - e) = (m1 + m2) * (e - 1) / w ^ 2 by field_simp; ring, lt_div_iff₀ hw2]
    have h1 : w ^ 2 * (r ^ 2 * w ^ 2 + 2 * (m1 + m2) * r) < w ^ 2 * (b * w) ^ 2 := mul_lt_mul_of_pos_left hreach hw2
    have h2 : (r * w ^ 2 + (m1 + m2)) ^ 2 < ((m1 + m2) * e) ^ 2 := by nlinarith
    have := lt_of_pow_lt_pow_left₀ 2 (by positivity) h2
    linarith
  · intro hm hw h
    have hww : w * w ≠ 0 := mul_self_ne_zero.2 hw
    have haa : -(m1 + m2) / (w * w) * (-(m1 + m2) / (w * w)) ≠ 0 := mul_self_ne_zero.2 (div_ne_zero (neg_ne_zero.2 hm) hww)
    have hp : b * w * (b * w) / (m1 + m2) ≤ 0 := by
      rcases h with h | h
      · simp [h]
      · exact div_nonpos_of_nonneg_of_nonpos (mul_self_nonneg _) h.le
    simp only [fdiv, hww, if_false, haa, Sys.Res.ok_bind, fsqrt, hsn, hm]
    rw [if_pos hp]
  · intro h
    by_cases hw : w = 0
    · simp only [fdiv, hw, mul_zero, if_true]; rfl
    · have hm : m1 + m2 = 0 := h.resolve_right hw
      have hww : w * w ≠ 0 := mul_self_ne_zero.2 hw
      simp only [fdiv, hww, hm, neg_zero, zero_div, mul_zero, if_false, if_true, Sys.Res.ok_bind]; rfl

/-- `Elliptic`: for an eccentricity in `[0, 1)` and a positive semi-major axis, at every anomaly, the energy of the coordinates is that of
semi-major axis `a`, and their eccentricity is `e`. -/
theorem C73_elliptic (eps : ℝ) (fuel : Nat) (m1 m2 a e i Ω ω ν : ℝ) (hm : 0 < m1 + m2) (ha : 0 < a) (he : 0 ≤ e) (he1 : e < 1) :
    ∃ k pos vel, mkElliptic eps fuel m1 m2 a e (.given i) (.given Ω) (.given ω) (.given ν) = .ok k ∧ orbitToCoord k = .ok (pos, vel) ∧
      k.type = .ellipse ∧ energy (m1 + m2) pos vel = -(m1 + m2) / (2 * a) ∧ len (eccVector (m1 + m2) pos vel) = e ∧
      pos.cross vel = len (pos.cross vel) • normal i Ω ∧ a * (1 - e) ≤ len pos ∧ len pos ≤ a * (1 + e) := by
  have hw : 0 < 1 - e * e := by nlinarith
  have hp : 0 < a * (1 - e * e) := by positivity
  have hq : 0 < 1 + e * cos ν := by nlinarith [neg_one_le_cos ν]
  have hcl : classify eps e = .ellipse := by simp [classify, he, he1]
  have hmk : mkElliptic eps fuel m1 m2 a e (.given i) (.given Ω) (.given ω) (.given ν) =
      .ok { m1 := m1, m2 := m2, p := a * (1 - e * e), e := e, i := i, Omega := Ω, omega := ω, nu := ν, type := .ellipse } := by
    unfold mkElliptic mkKepler
    rw [if_neg (not_le.2 hp), hcl, if_neg (by decide)]
    simp only [Sys.Res.ok_bind]
    rw [if_neg (by simp)]
  have hl := position_len i Ω (ω + π) ν hp hq
  refine ⟨_, _, _, hmk, orbitToCoord_ok _ hp hm hq.ne', rfl, ?_⟩
  rw [← position_add_pi, ← velocity_add_pi]
  simp only
  refine ⟨?_, ?_, ?_, ?_, ?_⟩
  · rw [state_energy _ _ _ _ hp hm hq]
    have : 1 - e ^ 2 ≠ 0 := by nlinarith
    rw [show 1 - e * e = 1 - e ^ 2 by ring]
    field_simp
  · rw [state_ecc _ _ _ _ hp hm hq]
    apply len_eq_of he
    have h1 := (frame i Ω (ω + π)).pp
    simp only [V3.dot, V3.smul_x, V3.smul_y, V3.smul_z] at *
    linear_combination e ^ 2 * h1
  · have hc := position_cross_velocity i Ω (ω + π) ν hp hm hq.ne'
    rw [hc]
    congr 1
    symm
    apply len_eq_of (sqrt_nonneg _)
    have h1 := (frame i Ω 0).ww
    simp only [V3.dot, V3.smul_x, V3.smul_y, V3.smul_z] at *
    linear_combination sqrt ((m1 + m2) * (a * (1 - e * e))) ^ 2 * h1
  · rw [hl, le_div_iff₀ hq]
    nlinarith [mul_nonneg (mul_nonneg ha.le (sub_nonneg.2 he1.le)) (mul_nonneg he (sub_nonneg.2 (cos_le_one ν)))]
  · rw [hl, div_le_iff₀ hq]
    have h := neg_one_le_cos ν
    nlinarith [mul_nonneg (mul_nonneg ha.le (show 0 ≤ 1 + e by linarith)) (mul_nonneg he (show 0 ≤ 1 + cos ν by linarith))]

/-- `Elliptic` refuses every other eccentricity and semi-major axis (`e = 1` gives `p = 0`). -/
theorem C73_elliptic_refuses (eps : ℝ) (fuel : Nat) (m1 m2 a e i Ω ω ν : ℝ) (h : a ≤ 0 ∨ e < 0 ∨ 1 ≤ e) :
    mkElliptic eps fuel m1 m2 a e (.given i) (.given Ω) (.given ω) (.given ν) = .abort := by
  unfold mkElliptic mkKepler
  by_cases hp : a * (1 - e * e) ≤ 0
  · rw [if_pos hp]; rfl
  · rw [if_neg hp]
    have hne : classify eps e ≠ .ellipse := by
      unfold classify
      by_cases hc : 0 ≤ e ∧ e < 1
      · exfalso
        have ha : a ≤ 0 := by
          rcases h with h | h | h
          · exact h
          · linarith [hc.1]
          · linarith [hc.2]
        exact hp (mul_nonpos_of_nonpos_of_nonneg ha (by nlinarith [hc.1, hc.2]))
      · rw [if_neg hc]
        split_ifs <;> decide
    by_cases hn : classify eps e = .none
    · rw [if_pos hn]; rfl
    · rw [if_neg hn]
      simp only [Sys.Res.ok_bind]
      rw [if_pos hne]

example : ∃ k, mkElliptic 1 0 1 2 3 (1 / 2) (.given 1) (.given 2) (.given 3) (.given 4) = .ok k := by
  obtain ⟨k, _, _, h, _⟩ := C73_elliptic 1 0 1 2 3 (1 / 2) 1 2 3 4 (by norm_num) (by norm_num) (by norm_num) (by norm_num)
  exact ⟨k, h⟩
example : mkElliptic (1 / 10) 0 1 2 3 (3 / 2) (.given 1) (.given 2) (.given 3) (.given 4) = .abort :=
  C73_elliptic_refuses _ _ _ _ _ _ _ _ _ _ (by norm_num)

/-- Random angles: for every number the generator can deliver (within the limits passed to `Uniform`), the inclination lies in `[0, π]`
and has the drawn number as its cosine, and the longitude of the node and the argument of periapsis lie in `[-π, π]`. -/
theorem C73_random_angles (eps : ℝ) (fuel : Nat) (m1 m2 p e u1 u2 u3 ν : ℝ) (h1 : |u1| ≤ 1) (h2 : |u2| ≤ π) (h3 : |u3| ≤ π)
    (hp : 0 < p) (he : 0 ≤ e) (h0 : 0 < eps) :
    ∃ k, mkKepler eps fuel m1 m2 p e (.random u1) (.random u2) (.random u3) (.given ν) = .ok k ∧
      0 ≤ k.i ∧ k.i ≤ π ∧ cos k.i = u1 ∧ |k.Omega| ≤ π ∧ |k.omega| ≤ π ∧ k.nu = ν ∧ k.p = p ∧ k.e = e := by
  have hn : classify eps e ≠ .none := by
    obtain ⟨c1, c2, c3⟩ := classify_spec h0 he
    rcases lt_trichotomy e 1 with h | h | h
    · rw [c1.2 h]; decide
    · rw [(classify_parabola h0 he).2 h]; decide
    · unfold classify
      rw [if_neg (fun hc => by linarith [hc.2]), if_pos h]; decide
  refine ⟨{ m1 := m1, m2 := m2, p := p, e := e, i := arccos u1, Omega := u2, omega := u3, nu := ν, type := classify eps e }, ?_,
    arccos_nonneg u1, arccos_le_pi u1, cos_arccos (abs_le.1 h1).1 (abs_le.1 h1).2, h2, h3, rfl, rfl, rfl⟩
  unfold mkKepler
  rw [if_neg (not_le.2 hp), if_neg hn]
  simp only [facos, abs_le.1 h1, and_self, if_true, Sys.Res.ok_bind]

/-- A random anomaly: on an ellipse it lies in `[-π, π]` and belongs to an eccentric anomaly that solves Kepler's equation for the drawn
mean anomaly up to the tolerance; for a parabola or a hyperbola it is refused. -/
theorem C73_random_anomaly (eps : ℝ) (m1 m2 p e i Ω ω M : ℝ) (hM : |M| ≤ π) (hp : 0 < p) (he : 0 ≤ e) (h0 : 0 < eps) :
    (e < 1 → (∃ fuel k, mkKepler eps fuel m1 m2 p e (.given i) (.given Ω) (.given ω) (.random M) = .ok k) ∧
      ∀ fuel k, mkKepler eps fuel m1 m2 p e (.given i) (.given Ω) (.given ω) (.random M) = .ok k →
        ∃ E, eToT eps E e = .ok k.nu ∧ |E - e * sin E - M| ≤ π * eps) ∧
    (1 ≤ e → ∀ fuel, mkKepler eps fuel m1 m2 p e (.given i) (.given Ω) (.given ω) (.random M) = .abort) := by
  constructor
  · intro he1
    have hcl : classify eps e = .ellipse := by simp [classify, he, he1]
    have hmk : ∀ fuel, mkKepler eps fuel m1 m2 p e (.given i) (.given Ω) (.given ω) (.random M) = (do
        let E ← mToE eps fuel M e
        let T ← eToT eps E e
        Res.ok { m1 := m1, m2 := m2, p := p, e := e, i := i, Omega := Ω, omega := ω, nu := T, type := .ellipse }) := by
      intro fuel
      unfold mkKepler
      rw [if_neg (not_le.2 hp), hcl, if_neg (by decide)]
      simp only [Sys.Res.ok_bind, if_true]
      cases mToE eps fuel M e <;> rfl
    obtain ⟨⟨fuel, E, hE⟩, hall⟩ := C44_mean_ellipse eps M e h0 he he1 hM
    have hT : ∀ E, ∃ T, eToT eps E e = .ok T := fun E => by
      unfold eToT
      rw [if_pos ⟨he, he1⟩]
      exact ⟨_, rfl⟩
    constructor
    · obtain ⟨T, hT⟩ := hT E
      refine ⟨fuel, { m1 := m1, m2 := m2, p := p, e := e, i := i, Omega := Ω, omega := ω, nu := T, type := .ellipse }, ?_⟩
      rw [hmk, hE]
      simp only [Sys.Res.ok_bind, hT]
    · intro fuel k hk
      rw [hmk] at hk
      obtain ⟨E, hE, hk⟩ := Sys.Res.bind_eq_ok.1 hk
      obtain ⟨T, hT, hk⟩ := Sys.Res.bind_eq_ok.1 hk
      cases hk
      exact ⟨E, hT, (hall fuel E hE).1⟩
  · intro he1 fuel
    unfold mkKepler
    rw [if_neg (not_le.2 hp)]
    have hcl : classify eps e ≠ .ellipse := by
      unfold classify
      rw [if_neg (fun hc => by linarith [hc.2])]
      split_ifs <;> decide
    by_cases hn : classify eps e = .none
    · rw [if_pos hn]
    · rw [if_neg hn]
      simp only [Sys.Res.ok_bind]
      rw [if_neg hcl]
      rfl

example : ∃ k, mkKepler 1 0 1 2 3 (1 / 2) (.random (1 / 3)) (.random 2) (.random 3) (.given 1) = .ok k ∧ cos k.i = 1 / 3 := by
  obtain ⟨k, h, -, -, h', -⟩ := C73_random_angles 1 0 1 2 3 (1 / 2) (1 / 3) 2 3 1 (by norm_num [abs_le])
    (by rw [abs_of_pos (by norm_num)]; linarith [pi_gt_three]) (by rw [abs_of_pos (by norm_num)]; linarith [pi_gt_three]) (by norm_num)
    (by norm_num) (by norm_num)
  exact ⟨k, h, h'⟩

end SpaceHub.Props
