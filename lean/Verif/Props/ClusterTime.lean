import Verif.Props.OrbitTime
import Verif.Props.Manip

/-
C72, for two groups of particles.
-/

set_option autoImplicit false

namespace SpaceHub.Props
open SpaceHub Orbit Manip Spec.Orbit Spec.Cluster Real

variable (eps : ℝ) (k : Kepler) (ν : ℝ → ℝ) (a b tp t : ℝ) (h0 : 0 < eps) (hm : 0 < k.m1 + k.m2) (hp : 0 < k.p)
  (harea : LawOfAreas (k.m1 + k.m2) k.p k.e ν (Set.Ioo a b)) (hpi : ∀ s ∈ Set.Ioo a b, -π < ν s ∧ ν s < π)
  (htp : tp ∈ Set.Ioo a b) (h0p : ν tp = 0) (ht : t ∈ Set.Ioo a b)
include hm hp harea hpi htp h0p ht h0

/-- With the absolute value of the anomaly in place of the anomaly, the result is the absolute value of the time. -/
theorem overload_abs (hty : k.type = classify eps k.e) (he : 0 ≤ k.e) :
    ∃ M, tToM eps |ν t| k.e = .ok M ∧
      timeToPeriapsisOfType k.type (k.m1 + k.m2) (if k.e = 1 then k.p else k.p / (1 - k.e * k.e)) M = .ok |t - tp| := by
  have hmono : StrictMonoOn ν (Set.Ioo a b) := by
    apply strictMonoOn_of_deriv_pos (convex_Ioo a b)
    · exact fun s hs => (harea s hs).2.continuousAt.continuousWithinAt
    · intro s hs
      rw [interior_Ioo] at hs
      rw [(harea s hs).2.deriv]
      have := (harea s hs).1
      have := sqrt_pos.2 (mul_pos hm hp)
      positivity
  rcases le_total tp t with h | h
  · have hν : 0 ≤ ν t := by rw [← h0p]; exact hmono.monotoneOn htp ht h
    rw [abs_of_nonneg hν, abs_of_nonneg (by linarith)]
    exact C72_overload_elapsed eps k ν a b tp t h0 hm hp harea hpi htp h0p ht hty he
  · have hν : ν t ≤ 0 := by rw [← h0p]; exact hmono.monotoneOn ht htp h
    rw [abs_of_nonpos hν, abs_of_nonpos (by linarith)]
    -- the motion reflected in time at periapsis
    have hmem : ∀ s, s ∈ Set.Ioo (2 * tp - b) (2 * tp - a) → 2 * tp - s ∈ Set.Ioo a b := fun s hs => ⟨by linarith [hs.2], by linarith [hs.1]⟩
    have := C72_overload_elapsed eps k (fun s => -ν (2 * tp - s)) (2 * tp - b) (2 * tp - a) tp (2 * tp - t) h0 hm hp ?_ ?_
      ⟨by linarith [htp.2], by linarith [htp.1]⟩ ?_ ⟨by linarith [ht.2], by linarith [ht.1]⟩ hty he
    · have h2 : 2 * tp - t - tp = tp - t := by ring
      have h3 : 2 * tp - (2 * tp - t) = t := by ring
      simpa only [h2, h3, neg_sub] using this
    · intro s hs
      obtain ⟨h1, h2⟩ := harea _ (hmem s hs)
      rw [cos_neg]
      refine ⟨h1, ?_⟩
      have d := (h2.comp s ((hasDerivAt_id s).const_sub (2 * tp))).neg
      refine HasDerivAt.congr_deriv (f := fun s => -ν (2 * tp - s)) d ?_
      simp
    · intro s hs
      have := hpi _ (hmem s hs)
      exact ⟨by linarith [this.2], by linarith [this.1]⟩
    · simp [two_mul, h0p]

/-- `time_to_periapsis` of two groups whose centres of mass are on an orbit that is not a circle: the time between now and periapsis,
without a sign, so that a body receding from periapsis cannot be told from one approaching it.  For a circle, NaN. -/
theorem C72_groups_unsigned (hty : k.type = classify eps k.e) (he : 0 ≤ k.e) (c1 c2 : Manip.Cluster) (X1 X2 V1 V2 : V3 ℝ)
    (hm1 : totalMass (members c1) ≠ 0) (hm2 : totalMass (members c2) ≠ 0)
    (hmass : totalMass (members c1) + totalMass (members c2) = k.m1 + k.m2)
    (hX1 : IsCentre (members c1) X1) (hX2 : IsCentre (members c2) X2) (hV1 : IsCentreVel (members c1) V1) (hV2 : IsCentreVel (members c2) V2)
    (horb : orbitToCoord { k with nu := ν t } = .ok (X1 - X2, V1 - V2)) :
    (k.e ≠ 0 → timeToPeriapsisC eps c1 c2 = .ok |t - tp|) ∧ (k.e = 0 → timeToPeriapsisC eps c1 c2 = .nan) := by
  obtain ⟨Y1, h1, g1⟩ := comP_ok hm1
  obtain ⟨Y2, h2, g2⟩ := comP_ok hm2
  obtain ⟨W1, h3, g3⟩ := comV_ok hm1
  obtain ⟨W2, h4, g4⟩ := comV_ok hm2
  obtain rfl := centre_unique hm1 hX1 g1
  obtain rfl := centre_unique hm2 hX2 g2
  obtain rfl := centreVel_unique hm1 hV1 g3
  obtain rfl := centreVel_unique hm2 hV2 g4
  have hrel : relative c1 c2 = .ok (X1 - X2, V1 - V2) := by
    unfold relative
    simp only [h1, h2, h3, h4, Sys.Res.ok_bind]
  obtain ⟨M, hM, hres⟩ := overload_abs eps k ν a b tp t h0 hm hp harea hpi htp h0p ht hty he
  obtain ⟨P, V, hc, hlen, -, hL2, hen, hecc⟩ := C42_invariants { k with nu := ν t } hm hp (harea t ht).1
  rw [horb] at hc
  obtain ⟨rfl, rfl⟩ := Prod.mk.inj (Res.ok.inj hc)
  simp only at hlen hL2 hen hecc
  set dr := X1 - X2
  set dv := V1 - V2
  have hq := (harea t ht).1
  have hl : 0 < len dr := by rw [hlen]; positivity
  have hdr : dr ≠ 0 := fun h => by rw [h, len_eq_zero.2 rfl] at hl; exact lt_irrefl _ hl
  have hcode := ecc_code (dv := dv) hm.ne' hdr
  have hnd : norm dr ≠ 0 := by rw [norm_eq_len]; exact hl.ne'
  have hv2 : norm dv * norm dv = dv.norm2 := by
    rw [norm_eq_len, ← pow_two, len_sq]; rfl
  have hr1 : (dv.norm2 - (k.m1 + k.m2) / norm dr) = dv.norm2 - (k.m1 + k.m2) * (1 / norm dr) := by ring
  have hh : (dr.cross dv).dot (dr.cross dv) / (k.m1 + k.m2) = k.p := by
    rw [← len_sq, hL2]; field_simp
  have hw : k.p / norm dr - 1 = k.e * cos (ν t) := by
    rw [norm_eq_len, hlen]; field_simp; ring
  have hstart : timeToPeriapsisC eps c1 c2 = (do
      let c ← fdiv (k.e * cos (ν t)) k.e
      let T ← facos c
      let M ← tToM eps T k.e
      if classify eps k.e = .parabola then timeToPeriapsisOfType (classify eps k.e) (k.m1 + k.m2) k.p M
      else do
        let a ← fdiv (-(k.m1 + k.m2)) (2 * energy (k.m1 + k.m2) dr dv)
        timeToPeriapsisOfType (classify eps k.e) (k.m1 + k.m2) a M) := by
    have hden : dv.norm2 - 2 * (k.m1 + k.m2) / norm dr = 2 * energy (k.m1 + k.m2) dr dv := by
      rw [norm_eq_len, energy, len_sq]
      simp only [V3.norm2, V3.dot]
      field_simp
    unfold timeToPeriapsisC
    simp only [hrel, Sys.Res.ok_bind, mTot_eq, hmass, G, one_mul, hv2]
    rw [norm_eq_len] at hnd hr1 hw hden
    have e1 : fdiv (k.m1 + k.m2) (len dr) = .ok ((k.m1 + k.m2) / len dr) := by rw [fdiv, if_neg hnd]
    have e2 : vdiv ((dv.norm2 - (k.m1 + k.m2) / len dr) • dr - (dr.dot dv) • dv) (k.m1 + k.m2) = .ok (eccVector (k.m1 + k.m2) dr dv) := by
      rw [vdiv, if_neg hm.ne', hr1, ← norm_eq_len dr, hcode]
    have e3 : fdiv ((dr.cross dv).dot (dr.cross dv)) (k.m1 + k.m2) = .ok k.p := by rw [fdiv, if_neg hm.ne', hh]
    have e4 : fdiv k.p (len dr) = .ok (k.p / len dr) := by rw [fdiv, if_neg hnd]
    have e5 : fdiv (2 * (k.m1 + k.m2)) (len dr) = .ok (2 * (k.m1 + k.m2) / len dr) := by rw [fdiv, if_neg hnd]
    simp only [norm_eq_len]
    simp only [e1, e2, e3, e4, e5, Sys.Res.ok_bind, hecc, abs_of_nonneg he]
    rw [if_pos he]
    simp only [hw, hden]
  rw [hstart]
  constructor
  · intro hne
    rw [fdiv, if_neg hne, mul_div_cancel_left₀ _ hne]
    simp only [Sys.Res.ok_bind, facos]
    rw [if_pos ⟨neg_one_le_cos _, cos_le_one _⟩]
    simp only [Sys.Res.ok_bind]
    have hT : arccos (cos (ν t)) = |ν t| := by
      rw [← cos_abs]
      exact arccos_cos (abs_nonneg _) (abs_le.2 ⟨(hpi t ht).1.le, (hpi t ht).2.le⟩)
    rw [hT, hM]
    simp only [Sys.Res.ok_bind]
    rw [hty] at hres
    by_cases h1 : k.e = 1
    · rw [if_pos h1] at hres
      rw [if_pos ((classify_parabola h0 he).2 h1), hres]
    · rw [if_neg h1] at hres
      rw [if_neg fun h => h1 ((classify_parabola h0 he).1 h)]
      have hw2 : 1 - k.e ^ 2 ≠ 0 := by
        intro h
        have : (1 - k.e) * (1 + k.e) = 0 := by linarith
        rcases mul_eq_zero.1 this with h | h
        · exact h1 (by linarith)
        · linarith
      have hE : 2 * energy (k.m1 + k.m2) dr dv ≠ 0 := by
        rw [hen]
        simp [hm.ne', hw2, hp.ne']
      have ha : -(k.m1 + k.m2) / (2 * energy (k.m1 + k.m2) dr dv) = k.p / (1 - k.e * k.e) := by
        rw [hen, show 1 - k.e * k.e = 1 - k.e ^ 2 by ring]
        field_simp
      rw [fdiv, if_neg hE, ha]
      simp only [Sys.Res.ok_bind]
      exact hres
  · intro h
    rw [h, fdiv, if_pos rfl]
    rfl

omit hpi htp h0p ht h0 in
/-- Two particles at the relative coordinates of any point of the motion meet the hypotheses. -/
example (h1 : k.m1 ≠ 0) (h2 : k.m2 ≠ 0) (ht : t ∈ Set.Ioo a b) : ∃ (c1 c2 : Manip.Cluster) (X1 X2 V1 V2 : V3 ℝ),
    totalMass (members c1) ≠ 0 ∧ totalMass (members c2) ≠ 0 ∧ totalMass (members c1) + totalMass (members c2) = k.m1 + k.m2 ∧
    IsCentre (members c1) X1 ∧ IsCentre (members c2) X2 ∧ IsCentreVel (members c1) V1 ∧ IsCentreVel (members c2) V2 ∧
    orbitToCoord { k with nu := ν t } = .ok (X1 - X2, V1 - V2) := by
  obtain ⟨P, V, hc⟩ : ∃ P V, orbitToCoord { k with nu := ν t } = .ok (P, V) :=
    ⟨_, _, orbitToCoord_ok { k with nu := ν t } hp hm (harea t ht).1.ne'⟩
  refine ⟨.one ⟨k.m1, P, V, 0⟩, .one ⟨k.m2, 0, 0, 0⟩, P, 0, V, 0, ?_, ?_, ?_, ?_, ?_, ?_, ?_, ?_⟩
  · simpa [totalMass, members] using h1
  · simpa [totalMass, members] using h2
  · simp [totalMass, members]
  · simp [IsCentre, members]
  · simp [IsCentre, members]
  · simp [IsCentreVel, members]
  · simp [IsCentreVel, members]
  · rw [sub_zero, sub_zero]; exact hc

end SpaceHub.Props
