import Verif.Proof.RadauColl

/-
The end of a collocation step at the Radau nodes is as accurate as the quadrature at these nodes.
-/

set_option autoImplicit false

namespace SpaceHub.Radau
open Set Finset SpaceHub.Converge
open scoped ContDiff

section Dir

variable {P E : Type*} [NormedAddCommGroup P] [NormedSpace ℝ P] [NormedAddCommGroup E] [NormedSpace ℝ E]

/-- the repeated derivatives of `f` in the direction `v` -/
noncomputable def dir (v : P) (f : P → E) : ℕ → P → E
  | 0 => f
  | i + 1 => fun p => fderiv ℝ (dir v f i) p v

theorem dir_smooth {v : P} {f : P → E} {O : Set P} (hO : IsOpen O) (hf : ContDiffOn ℝ ∞ f O) : ∀ i, ContDiffOn ℝ ∞ (dir v f i) O
  | 0 => hf
  | i + 1 => ((dir_smooth hO hf i).fderiv_of_isOpen hO (by simp)).clm_apply contDiffOn_const

theorem dir_bound {v : P} {f : P → E} {O K : Set P} (hO : IsOpen O) (hf : ContDiffOn ℝ ∞ f O) (hK : IsCompact K) (hKO : K ⊆ O) (N : ℕ) :
    ∃ B, 0 ≤ B ∧ ∀ i, i ≤ N → ∀ p ∈ K, ‖dir v f i p‖ ≤ B := by
  choose A hA using fun i => hK.exists_bound_of_continuousOn ((dir_smooth (v := v) hO hf i).continuousOn.mono hKO)
  refine ⟨∑ i ∈ range (N + 1), |A i|, sum_nonneg fun _ _ => abs_nonneg _, fun i hi p hp => ?_⟩
  have := single_le_sum (f := fun i => |A i|) (fun i _ => abs_nonneg _) (mem_range.2 (by omega : i < N + 1))
  exact (hA i p hp).trans ((le_abs_self _).trans this)

theorem dir_line {v : P} {f : P → E} {O : Set P} (hO : IsOpen O) (hf : ContDiffOn ℝ ∞ f O) (p : P) {s : ℝ} (hs : p + s • v ∈ O) (i : ℕ) :
    HasDerivAt (fun s => dir v f i (p + s • v)) (dir v f (i + 1) (p + s • v)) s := by
  have hd := (((dir_smooth (v := v) hO hf i).differentiableOn (by simp)).differentiableAt (hO.mem_nhds hs)).hasFDerivAt
  have hl : HasDerivAt (fun s : ℝ => p + s • v) v s := by
    simpa using ((hasDerivAt_id s).smul_const v).const_add p
  exact hd.comp_hasDerivAt s hl

end Dir

variable {E : Type*} [NormedAddCommGroup E] [NormedSpace ℝ E]

/-- a time in the step, the length of the step, the state before it, and the coefficients of the slope in powers of the time -/
abbrev Par (E : Type*) := ℝ × ℝ × E × (Fin 8 → E)

/-- the state at a time in the step -/
noncomputable def polU (p : Par E) : E := p.2.2.1 + ∑ j : Fin 8, (p.1 ^ ((j : ℕ) + 1) / (((j : ℕ) : ℝ) + 1)) • p.2.2.2 j

/-- its slope -/
noncomputable def polV (p : Par E) : E := ∑ j : Fin 8, p.1 ^ (j : ℕ) • p.2.2.2 j

/-- what the failure of the polynomial to follow the field makes of the end -/
noncomputable def polQ (F : E → E) (p : Par E) : E :=
  ∑ i ∈ range 15, ((p.2.1 - p.1) ^ i / (i.factorial : ℝ)) • fderiv ℝ (lie F i) (polU p) (polV p - F (polU p))

theorem polU_smooth : ContDiff ℝ ∞ (polU : Par E → E) := by
  unfold polU; fun_prop

theorem polV_smooth : ContDiff ℝ ∞ (polV : Par E → E) := by
  unfold polV; fun_prop

theorem polQ_smooth {F : E → E} {U : Set E} (hU : IsOpen U) (hF : ContDiffOn ℝ ∞ F U) : ContDiffOn ℝ ∞ (polQ F) (polU ⁻¹' U) := by
  unfold polQ
  refine ContDiffOn.sum fun i _ => ?_
  have hu : ContDiffOn ℝ ∞ (polU : Par E → E) (polU ⁻¹' U) := polU_smooth.contDiffOn
  have h1 : ContDiffOn ℝ ∞ (fun p : Par E => fderiv ℝ (lie F i) (polU p)) (polU ⁻¹' U) :=
    ((lie_smooth hU hF i).fderiv_of_isOpen hU (by simp)).comp hu fun p hp => hp
  have h2 : ContDiffOn ℝ ∞ (fun p : Par E => polV p - F (polU p)) (polU ⁻¹' U) := polV_smooth.contDiffOn.sub (hF.comp hu fun p hp => hp)
  have h3 : ContDiff ℝ ∞ (fun p : Par E => (p.2.1 - p.1) ^ i / (i.factorial : ℝ)) := by fun_prop
  exact h3.contDiffOn.smul (h1.clm_apply h2)

theorem polU_near {p : Par E} {A : ℝ} (h0 : 0 ≤ p.1) (h1 : p.1 ≤ 1) (hA : ‖p.2.2.2‖ ≤ A) : ‖polU p - p.2.2.1‖ ≤ 8 * A * p.1 := by
  unfold polU
  rw [add_sub_cancel_left]
  refine (norm_sum_le _ _).trans ?_
  have : ∀ j ∈ (univ : Finset (Fin 8)), ‖(p.1 ^ ((j : ℕ) + 1) / (((j : ℕ) : ℝ) + 1)) • p.2.2.2 j‖ ≤ p.1 * A := fun j _ => by
    have a0 : 0 ≤ p.1 ^ ((j : ℕ) + 1) / (((j : ℕ) : ℝ) + 1) := by positivity
    have a1 : p.1 ^ ((j : ℕ) + 1) / (((j : ℕ) : ℝ) + 1) ≤ p.1 := by
      rw [div_le_iff₀ (by positivity)]
      have b : p.1 ^ ((j : ℕ) + 1) ≤ p.1 := pow_le_of_le_one h0 h1 (by omega)
      have : (0 : ℝ) ≤ (j : ℕ) := by positivity
      nlinarith
    rw [norm_smul, Real.norm_of_nonneg a0]
    exact mul_le_mul a1 ((norm_le_pi_norm _ j).trans hA) (norm_nonneg _) h0
  refine (sum_le_sum this).trans (le_of_eq ?_)
  rw [sum_const, card_univ, Fintype.card_fin, nsmul_eq_mul]; push_cast; ring

theorem polV_le {p : Par E} {A : ℝ} (h0 : 0 ≤ p.1) (h1 : p.1 ≤ 1) (hA : ‖p.2.2.2‖ ≤ A) : ‖polV p‖ ≤ 8 * A := by
  unfold polV
  refine (norm_sum_le _ _).trans ?_
  have : ∀ j ∈ (univ : Finset (Fin 8)), ‖p.1 ^ (j : ℕ) • p.2.2.2 j‖ ≤ 1 * A := fun j _ => by
    rw [norm_smul, Real.norm_of_nonneg (pow_nonneg h0 _)]
    exact mul_le_mul (pow_le_one₀ h0 h1) ((norm_le_pi_norm _ j).trans hA) (norm_nonneg _) zero_le_one
  refine (sum_le_sum this).trans (le_of_eq ?_)
  rw [sum_const, card_univ, Fintype.card_fin, nsmul_eq_mul]; push_cast; ring

theorem polU_deriv (s H : ℝ) (z : E) (a : Fin 8 → E) : HasDerivAt (fun s => polU ((s, H, z, a) : Par E)) (polV ((s, H, z, a) : Par E)) s := by
  unfold polU polV
  refine (HasDerivAt.fun_sum fun j _ => ?_).const_add _
  refine HasDerivAt.smul_const ?_ _
  have := ((hasDerivAt_pow ((j : ℕ) + 1) s).div_const (((j : ℕ) : ℝ) + 1))
  convert this using 1
  have h1 : (((j : ℕ) : ℝ) + 1) ≠ 0 := by positivity
  push_cast
  field_simp

/-- the end of the exact motion from the point the polynomial has reached -/
noncomputable def polG (F : E → E) (p : Par E) : E := tay F 15 (p.2.1 - p.1) (polU p)

theorem polG_deriv {F : E → E} {U : Set E} (hU : IsOpen U) (hF : ContDiffOn ℝ ∞ F U) (s H : ℝ) (z : E) (a : Fin 8 → E) (hs : polU ((s, H, z, a) : Par E) ∈ U) :
    HasDerivAt (fun s => polG F ((s, H, z, a) : Par E)) (polQ F ((s, H, z, a) : Par E) +
      ((H - s) ^ 15 / ((15 : ℕ).factorial : ℝ)) • fderiv ℝ (lie F 15) (polU ((s, H, z, a) : Par E)) (polV ((s, H, z, a) : Par E))) s := by
  set u := polU ((s, H, z, a) : Par E) with hu
  set v := polV ((s, H, z, a) : Par E) with hv
  have hl : ∀ i, HasDerivAt (fun s => lie F i (polU ((s, H, z, a) : Par E))) (fderiv ℝ (lie F i) u v) s := fun i => by
    have hf := (((lie_smooth hU hF i).differentiableOn (by simp)).differentiableAt (hU.mem_nhds hs)).hasFDerivAt
    exact hf.comp_hasDerivAt s (polU_deriv s H z a)
  have hsum : (fun s => polG F ((s, H, z, a) : Par E)) = fun s => (∑ i ∈ range 15, ((H - s) ^ (i + 1) / ((i + 1).factorial : ℝ)) • lie F (i + 1) (polU ((s, H, z, a) : Par E))) +
      lie F 0 (polU ((s, H, z, a) : Par E)) := by
    funext s
    show tay F 15 (H - s) _ = _
    rw [tay_eq, add_comm]; rfl
  rw [hsum]
  have hd : ∀ i ∈ range 15, HasDerivAt (fun s => ((H - s) ^ (i + 1) / ((i + 1).factorial : ℝ)) • lie F (i + 1) (polU ((s, H, z, a) : Par E)))
      (((H - s) ^ (i + 1) / ((i + 1).factorial : ℝ)) • fderiv ℝ (lie F (i + 1)) u v + (-((H - s) ^ i / (i.factorial : ℝ))) • lie F (i + 1) u) s := fun i _ => by
    refine HasDerivAt.fun_smul ?_ (hl (i + 1))
    have h1 : HasDerivAt (fun s : ℝ => H - s) (-1) s := by simpa using (hasDerivAt_id s).const_sub H
    have := ((h1.pow (i + 1)).div_const ((i + 1).factorial : ℝ))
    refine this.congr_deriv ?_
    rw [Nat.factorial_succ, Nat.add_sub_cancel]
    push_cast
    have h0 : (i.factorial : ℝ) ≠ 0 := by positivity
    have h1 : ((i : ℝ) + 1) ≠ 0 := by positivity
    field_simp
  have hfull := (HasDerivAt.fun_sum hd).fun_add (hl 0)
  convert hfull using 1
  rw [sum_add_distrib, add_right_comm]
  have e : (∑ i ∈ range 15, ((H - s) ^ (i + 1) / ((i + 1).factorial : ℝ)) • fderiv ℝ (lie F (i + 1)) u v) + fderiv ℝ (lie F 0) u v =
      (∑ i ∈ range 15, ((H - s) ^ i / (i.factorial : ℝ)) • fderiv ℝ (lie F i) u v) + ((H - s) ^ 15 / ((15 : ℕ).factorial : ℝ)) • fderiv ℝ (lie F 15) u v := by
    rw [← sum_range_succ (fun i => ((H - s) ^ i / (i.factorial : ℝ)) • fderiv ℝ (lie F i) u v) 15,
      sum_range_succ' (fun i => ((H - s) ^ i / (i.factorial : ℝ)) • fderiv ℝ (lie F i) u v) 15]
    simp
  rw [e]
  have e2 : polQ F ((s, H, z, a) : Par E) = (∑ i ∈ range 15, ((H - s) ^ i / (i.factorial : ℝ)) • fderiv ℝ (lie F i) u v) +
      ∑ i ∈ range 15, (-((H - s) ^ i / (i.factorial : ℝ))) • lie F (i + 1) u := by
    rw [← sum_add_distrib]
    refine sum_congr rfl fun i _ => ?_
    show ((H - s) ^ i / (i.factorial : ℝ)) • fderiv ℝ (lie F i) u (v - F u) = _
    rw [map_sub, smul_sub, neg_smul, ← sub_eq_add_neg]; rfl
  rw [e2]; abel

/-- A quadrature with the node zero, whose weight does not matter, and seven others. -/
structure Quad (c w : ℕ → ℝ) (η : ℝ) : Prop where
  pos : 0 ≤ η
  near : ∀ i : ℕ, 1 ≤ i → i ≤ 14 → |∑ n ∈ range 7, w n * c n ^ i - 1 / ((i : ℝ) + 1)| ≤ η

/-- the end of a step whose slope has the coefficients `b` -/
noncomputable def endE (F : E → E) (H : ℝ) (z : E) (b : ℕ → E) : E := z + H • (F z + ∑ j ∈ range 7, (1 / ((j : ℝ) + 2)) • b j)

/-- the coefficients of the slope in powers of the time -/
noncomputable def coefA (F : E → E) (H : ℝ) (z : E) (b : ℕ → E) (j : Fin 8) : E :=
  if (j : ℕ) = 0 then F z else (1 / H ^ (j : ℕ)) • b ((j : ℕ) - 1)

theorem polV_coefA (F : E → E) {H : ℝ} (hH : H ≠ 0) (z : E) (b : ℕ → E) (x : ℝ) :
    polV ((H * x, H, z, coefA F H z b) : Par E) = F z + ∑ j ∈ range 7, x ^ (j + 1) • b j := by
  unfold polV
  show ∑ j : Fin 8, (H * x) ^ (j : ℕ) • coefA F H z b j = _
  rw [Fin.sum_univ_succ, ← Fin.sum_univ_eq_sum_range (fun j => x ^ (j + 1) • b j) 7]
  congr 1
  · simp [coefA]
  · refine sum_congr rfl fun j _ => ?_
    simp only [coefA, Fin.val_succ, Nat.succ_ne_zero, if_false, smul_smul, Nat.add_sub_cancel]
    congr 1
    rw [mul_pow]
    have : H ^ ((j : ℕ) + 1) ≠ 0 := pow_ne_zero _ hH
    field_simp

theorem polU_coefA (F : E → E) {H : ℝ} (hH : H ≠ 0) (z : E) (b : ℕ → E) (x : ℝ) :
    polU ((H * x, H, z, coefA F H z b) : Par E) = z + (H * x) • (F z + ∑ j ∈ range 7, (x ^ (j + 1) / ((j : ℝ) + 2)) • b j) := by
  unfold polU
  show z + ∑ j : Fin 8, ((H * x) ^ ((j : ℕ) + 1) / (((j : ℕ) : ℝ) + 1)) • coefA F H z b j = _
  rw [Fin.sum_univ_succ, ← Fin.sum_univ_eq_sum_range (fun j => (x ^ (j + 1) / ((j : ℝ) + 2)) • b j) 7, smul_add, smul_sum]
  congr 2
  · simp [coefA]
  · refine sum_congr rfl fun j _ => ?_
    simp only [coefA, Fin.val_succ, Nat.succ_ne_zero, if_false, smul_smul, Nat.add_sub_cancel]
    congr 1
    rw [mul_pow]
    push_cast
    have : H ^ ((j : ℕ) + 1) ≠ 0 := pow_ne_zero _ hH
    have h1 : ((j : ℕ) : ℝ) + 1 + 1 ≠ 0 := by positivity
    have h2 : ((j : ℕ) : ℝ) + 2 ≠ 0 := by positivity
    rw [show ((j : ℕ) : ℝ) + 1 + 1 = ((j : ℕ) : ℝ) + 2 by ring]
    field_simp
    ring

theorem coefA_le {c : ℕ → ℝ} {ι : ℕ → ℕ → ℝ} {J : ℝ} {F : E → E} {W : Set E} {M r H : ℝ} {z : E} (hc : Nodes c) (S : Solves c ι J) (m : Mild F W M) (hr0 : 0 ≤ r)
    (hr : Metric.closedBall z r ⊆ W) (hH : 0 < H) (hH1 : H ≤ 1)
    (h1 : H * (M + 4) ≤ r) (h3 : J * (M * (H * 4)) ≤ 1 / 2) (h4 : 8 * M * H ≤ r) (h5 : 8 * M * H ≤ 1 / 2) {b : ℕ → E} (hb : Coll c F H z b)
    (hb1 : ∀ j, j < 7 → ‖b j‖ ≤ 1) : ‖coefA F H z b‖ ≤ M + 4 * J * M := by
  have hM := m.hM
  have hJ := S.one
  have zW : z ∈ W := hr (Metric.mem_closedBall_self hr0)
  refine (pi_norm_le_iff_of_nonneg (by positivity)).2 fun j => ?_
  unfold coefA
  split_ifs with h
  · have := Mild.valF m zW
    have : 0 ≤ 4 * J * M := by positivity
    linarith
  · obtain ⟨i, hi⟩ : ∃ i, (j : ℕ) = i + 1 := ⟨(j : ℕ) - 1, by omega⟩
    have hi7 : i < 7 := by have := j.2; omega
    rw [hi, Nat.add_sub_cancel, norm_smul, Real.norm_of_nonneg (by positivity), one_div_mul_eq_div, div_le_iff₀ (by positivity)]
    have a1 := coll_tay hc S m hr0 hr hH.le hH1 h1 h3 h4 h5 hb hb1 i hi7
    have a2 : ‖slopeTay F H z i‖ ≤ H ^ (i + 1) * M := by
      unfold slopeTay
      rw [norm_smul, Real.norm_of_nonneg (by positivity)]
      refine mul_le_mul ?_ (m.val (i + 2) (by omega) (by omega) z zW) (norm_nonneg _) (by positivity)
      refine div_le_self (by positivity) ?_
      exact_mod_cast Nat.one_le_iff_ne_zero.2 (Nat.factorial_ne_zero (i + 1))
    have a3 : H ^ 8 ≤ H ^ (i + 1) := pow_le_pow_of_le_one hH.le hH1 (by omega)
    have a4 : ‖b i‖ ≤ ‖b i - slopeTay F H z i‖ + ‖slopeTay F H z i‖ := by
      have := norm_add_le (b i - slopeTay F H z i) (slopeTay F H z i)
      rwa [sub_add_cancel] at this
    have a5 : 4 * J * M * H ^ 8 ≤ 4 * J * M * H ^ (i + 1) := mul_le_mul_of_nonneg_left a3 (by positivity)
    have e : (M + 4 * J * M) * H ^ (i + 1) = H ^ (i + 1) * M + 4 * J * M * H ^ (i + 1) := by ring
    rw [e]; linarith

set_option maxHeartbeats 1000000 in
/-- **The end of a collocation step.** -/
theorem coll_end [FiniteDimensional ℝ E] {c w : ℕ → ℝ} {η : ℝ} {ι : ℕ → ℕ → ℝ} {J : ℝ} {F : E → E} {U W W' : Set E} {M r : ℝ} (hc : Nodes c) (S : Solves c ι J) (hq : Quad c w η)
    (hU : IsOpen U) (hF : ContDiffOn ℝ ∞ F U) (m : Mild F W M) (hWU : W ⊆ U) (hW' : IsCompact W') (hr0 : 0 < r) (hr : ∀ z ∈ W', Metric.closedBall z r ⊆ W) :
    ∃ h0 C : ℝ, 0 < h0 ∧ 0 ≤ C ∧ ∀ H z b, 0 ≤ H → H ≤ h0 → z ∈ W' → Coll c F H z b → (∀ j, j < 7 → ‖b j‖ ≤ 1) →
      ‖endE F H z b - tay F 15 H z‖ ≤ C * (H ^ 16 + η * H ^ 2) := by
  have hM := m.hM
  have hJ := S.one
  set A := M + 4 * J * M with hA
  have hA1 : 1 ≤ A := by have : 0 ≤ 4 * J * M := by positivity
                         linarith
  set D := M + 4 + J * M * 8 + 16 * M + 8 * A with hD
  have hD0 : 0 < D := by positivity
  set h0 := min 1 (min (r / D) (1 / D)) with hh0
  have hpos : 0 < h0 := by positivity
  have hD1 : ∀ H, 0 ≤ H → H ≤ h0 → H ≤ 1 ∧ D * H ≤ r ∧ D * H ≤ 1 := fun H _ h => by
    refine ⟨h.trans (min_le_left _ _), ?_, ?_⟩
    · have := h.trans ((min_le_right _ _).trans (min_le_left _ _))
      rw [le_div_iff₀ hD0] at this; linarith
    · have := h.trans ((min_le_right _ _).trans (min_le_right _ _))
      rw [le_div_iff₀ hD0] at this; linarith
  -- the compact set of the steps
  set K : Set (Par E) := Icc 0 h0 ×ˢ Icc 0 h0 ×ˢ W' ×ˢ Metric.closedBall 0 A with hK
  have cK : IsCompact K := isCompact_Icc.prod (isCompact_Icc.prod (hW'.prod (isCompact_closedBall _ _)))
  have inW : ∀ p ∈ K, polU p ∈ W := fun p hp => by
    obtain ⟨h1, h2, h3, h4⟩ := hp
    have h4' : ‖p.2.2.2‖ ≤ A := by simpa using h4
    refine hr _ h3 ?_
    rw [mem_closedBall_iff_norm]
    obtain ⟨q1, q2, _⟩ := hD1 p.1 h1.1 h1.2
    refine (polU_near h1.1 q1 h4').trans (le_trans ?_ q2)
    refine mul_le_mul_of_nonneg_right ?_ h1.1
    have : 0 ≤ J * M * 8 := by positivity
    rw [hD]; linarith
  have KU : K ⊆ polU ⁻¹' U := fun p hp => hWU (inW p hp)
  have oU : IsOpen (polU ⁻¹' U : Set (Par E)) := hU.preimage polU_smooth.continuous
  have sQ := polQ_smooth hU hF
  set v : Par E := (1, 0, 0, 0) with hv
  obtain ⟨B, hB0, hB⟩ := dir_bound (v := v) oU sQ cK KU 15
  set ω' := ∑ n ∈ range 7, |w n| with hω
  have hω0 : 0 ≤ ω' := sum_nonneg fun _ _ => abs_nonneg _
  refine ⟨h0, B + 16 * (M * (8 * A)) + ω' * B + 14 * B, hpos, by positivity, fun H z b hH hHh hz hb hb1 => ?_⟩
  obtain ⟨q1, q2, q3⟩ := hD1 H hH hHh
  rcases hH.eq_or_lt with rfl | hHp
  · have : endE F 0 z b = tay F 15 0 z := by rw [tay_eq]; simp [endE]
    rw [this, sub_self, norm_zero]
    have := hq.pos
    positivity
  have p1 : 0 ≤ J * M * 8 := by positivity
  have hle : ∀ x, 0 ≤ x → x ≤ D → x * H ≤ D * H := fun x _ hx => mul_le_mul_of_nonneg_right hx hH
  have c1 : H * (M + 4) ≤ r := by have := hle (M + 4) (by positivity) (by rw [hD]; linarith); linarith
  have c3 : J * (M * (H * 4)) ≤ 1 / 2 := by have := hle (J * M * 8) p1 (by rw [hD]; linarith); linarith
  have c4 : 8 * M * H ≤ r := by have := hle (8 * M) (by positivity) (by rw [hD]; linarith); linarith
  have c5 : 8 * M * H ≤ 1 / 2 := by have := hle (16 * M) (by positivity) (by rw [hD]; linarith); linarith
  set a := coefA F H z b with ha
  have haA : ‖a‖ ≤ A := coefA_le hc S m hr0.le (hr z hz) hHp q1 c1 c3 c4 c5 hb hb1
  have mK : ∀ s ∈ Icc 0 H, ((s, H, z, a) : Par E) ∈ K := fun s hs => ⟨⟨hs.1, hs.2.trans hHh⟩, ⟨hH, hHh⟩, hz, by simpa using haA⟩
  have line : ∀ s : ℝ, ((0, H, z, a) : Par E) + s • v = (s, H, z, a) := fun s => by simp [hv]
  set q : ℕ → ℝ → E := fun i s => dir v (polQ F) i ((s, H, z, a) : Par E) with hqd
  have dq : ∀ i, ∀ s ∈ Icc 0 H, HasDerivAt (q i) (q (i + 1) s) s := fun i s hs => by
    have := dir_line (v := v) oU sQ ((0, H, z, a) : Par E) (s := s) (by rw [line]; exact KU (mK s hs)) i
    simp only [line] at this
    exact this
  have bq : ∀ i, i ≤ 15 → ∀ s ∈ Icc 0 H, ‖q i s‖ ≤ B := fun i hi s hs => hB i hi _ (mK s hs)
  have m0 : (0 : ℝ) ∈ Icc 0 H := ⟨le_rfl, hH⟩
  have mH : H ∈ Icc 0 H := ⟨hH, le_rfl⟩
  -- the end against the exact motion
  have T1 := taylor_near (E := E) q1 (δ := M * (8 * A) * H ^ 15) (B := B) (by positivity) hB0 16
    (fun i => match i with | 0 => fun s => polG F ((s, H, z, a) : Par E) | i + 1 => q i)
    (fun i => match i with
      | 0 => fun s => polQ F ((s, H, z, a) : Par E) + ((H - s) ^ 15 / ((15 : ℕ).factorial : ℝ)) • fderiv ℝ (lie F 15) (polU ((s, H, z, a) : Par E)) (polV ((s, H, z, a) : Par E))
      | i + 1 => q (i + 1))
    (fun i hi s hs => by
      cases i with
      | zero => exact (polG_deriv hU hF s H z a (KU (mK s hs))).hasDerivWithinAt
      | succ i => exact (dq i s hs).hasDerivWithinAt)
    (fun i hi s hs => by
      cases i with
      | zero =>
        show ‖polQ F ((s, H, z, a) : Par E) + _ - polQ F ((s, H, z, a) : Par E)‖ ≤ _
        rw [add_sub_cancel_left, norm_smul]
        have s0 : 0 ≤ H - s := by linarith [hs.2]
        have s1 : H - s ≤ H := by linarith [hs.1]
        have x1 : ‖(H - s) ^ 15 / ((15 : ℕ).factorial : ℝ)‖ ≤ H ^ 15 := by
          rw [Real.norm_of_nonneg (by positivity)]
          refine (div_le_self (by positivity) ?_).trans (pow_le_pow_left₀ s0 s1 15)
          exact_mod_cast Nat.one_le_iff_ne_zero.2 (Nat.factorial_ne_zero 15)
        have x2 : ‖fderiv ℝ (lie F 15) (polU ((s, H, z, a) : Par E)) (polV ((s, H, z, a) : Par E))‖ ≤ M * (8 * A) := by
          refine (ContinuousLinearMap.le_opNorm _ _).trans ?_
          exact mul_le_mul (m.der 15 (by omega) _ (inW _ (mK s hs))) (polV_le hs.1 (hs.2.trans q1) haA) (norm_nonneg _) (by linarith)
        have := mul_le_mul x1 x2 (norm_nonneg _) (by positivity)
        linarith
      | succ i =>
        show ‖q (i + 1) s - q (i + 1) s‖ ≤ _
        rw [sub_self, norm_zero]; positivity)
    (fun s hs => bq 15 le_rfl s hs) H mH
  -- the defect at the nodes
  have T2 := fun s hs => taylor_near (E := E) q1 (δ := 0) (B := B) le_rfl hB0 15 q (fun i => q (i + 1))
    (fun i hi s hs => (dq i s hs).hasDerivWithinAt) (fun i hi s hs => by simp) (fun s hs => bq 15 le_rfl s hs) s hs
  have van : ∀ x, polV ((H * x, H, z, a) : Par E) = F (polU ((H * x, H, z, a) : Par E)) → q 0 (H * x) = 0 := fun x hx => by
    show polQ F ((H * x, H, z, a) : Par E) = 0
    unfold polQ
    exact sum_eq_zero fun i _ => by rw [hx, sub_self, map_zero, smul_zero]
  have q00 : q 0 0 = 0 := by
    have := van 0 (by rw [ha, polV_coefA F hHp.ne', polU_coefA F hHp.ne']; simp)
    rwa [mul_zero] at this
  have qn : ∀ n, n < 7 → q 0 (H * c n) = 0 := fun n hn => van (c n) (by
    rw [ha, polV_coefA F hHp.ne', polU_coefA F hHp.ne', hb n hn]
    show F z + (F (nodeE c F H z b n) - F z) = F (nodeE c F H z b n)
    abel)
  set T : ℝ → E := fun s => ∑ i ∈ range 15, (s ^ i / (i.factorial : ℝ)) • q i 0 with hT
  have Tn : ∀ n, n < 7 → ‖T (H * c n)‖ ≤ B * H ^ 15 := fun n hn => by
    obtain ⟨c0, c1⟩ := hc.inside n hn
    have x0 : 0 ≤ H * c n := mul_nonneg hH c0.le
    have x1 : H * c n ≤ H := mul_le_of_le_one_right hH c1
    have := T2 (H * c n) ⟨x0, x1⟩
    rw [qn n hn, zero_sub, norm_neg] at this
    refine this.trans ?_
    have := mul_le_mul_of_nonneg_left (pow_le_pow_left₀ x0 x1 15) hB0
    linarith
  -- the integral of the Taylor polynomial of the defect
  set I : E := ∑ i ∈ range 15, (H ^ (i + 1) / ((i + 1).factorial : ℝ)) • q i 0 with hI
  have eI : I = ∑ n ∈ range 7, (H * w n) • T (H * c n) + ∑ i ∈ range 15, (H ^ (i + 1) / (i.factorial : ℝ) * (1 / ((i : ℝ) + 1) - ∑ n ∈ range 7, w n * c n ^ i)) • q i 0 := by
    have e1 : ∑ n ∈ range 7, (H * w n) • T (H * c n) = ∑ i ∈ range 15, (H ^ (i + 1) / (i.factorial : ℝ) * ∑ n ∈ range 7, w n * c n ^ i) • q i 0 := by
      simp only [hT, smul_sum, smul_smul]
      rw [sum_comm]
      refine sum_congr rfl fun i _ => ?_
      rw [← sum_smul, mul_sum]
      congr 1
      refine sum_congr rfl fun n _ => ?_
      rw [mul_pow]; ring
    rw [e1, ← sum_add_distrib, hI]
    refine sum_congr rfl fun i _ => ?_
    rw [← add_smul]
    congr 1
    rw [Nat.factorial_succ]
    push_cast
    have h0 : (i.factorial : ℝ) ≠ 0 := by positivity
    have h1 : ((i : ℝ) + 1) ≠ 0 := by positivity
    field_simp
    ring
  have bI : ‖I‖ ≤ ω' * B * H ^ 16 + 14 * B * (η * H ^ 2) := by
    rw [eI]
    refine (norm_add_le _ _).trans (add_le_add ?_ ?_)
    · have : ∀ n ∈ range 7, ‖(H * w n) • T (H * c n)‖ ≤ |w n| * (H * (B * H ^ 15)) := fun n hn => by
        rw [norm_smul, Real.norm_eq_abs, abs_mul, abs_of_nonneg hH]
        have := mul_le_mul_of_nonneg_left (Tn n (mem_range.1 hn)) (mul_nonneg hH (abs_nonneg (w n)))
        linarith
      refine (norm_sum_le _ _).trans ((sum_le_sum this).trans (le_of_eq ?_))
      rw [← sum_mul, ← hω]; ring
    · rw [sum_range_succ', q00, smul_zero, add_zero]
      have : ∀ i ∈ range 14, ‖(H ^ (i + 1 + 1) / ((i + 1).factorial : ℝ) * (1 / (((i + 1 : ℕ) : ℝ) + 1) - ∑ n ∈ range 7, w n * c n ^ (i + 1))) • q (i + 1) 0‖ ≤ H ^ 2 * η * B := fun i hi => by
        have hi' := mem_range.1 hi
        rw [norm_smul, norm_mul, Real.norm_of_nonneg (by positivity : 0 ≤ H ^ (i + 1 + 1) / ((i + 1).factorial : ℝ)), Real.norm_eq_abs, abs_sub_comm]
        have b1 : H ^ (i + 1 + 1) / ((i + 1).factorial : ℝ) ≤ H ^ 2 := by
          refine (div_le_self (by positivity) ?_).trans (pow_le_pow_of_le_one hH q1 (by omega))
          exact_mod_cast Nat.one_le_iff_ne_zero.2 (Nat.factorial_ne_zero (i + 1))
        exact mul_le_mul (mul_le_mul b1 (hq.near (i + 1) (by omega) (by omega)) (abs_nonneg _) (by positivity)) (bq (i + 1) (by omega) 0 m0) (norm_nonneg _)
          (mul_nonneg (by positivity) hq.pos)
      refine (norm_sum_le _ _).trans ((sum_le_sum this).trans (le_of_eq ?_))
      rw [sum_const, card_range, nsmul_eq_mul]; push_cast; ring
  -- together
  have uH : polG F ((H, H, z, a) : Par E) = endE F H z b := by
    have h1 := polU_coefA F hHp.ne' z b 1
    rw [mul_one] at h1
    show tay F 15 (H - H) (polU ((H, H, z, a) : Par E)) = _
    rw [sub_self, tay_eq, ha, h1]
    simp [endE]
  have u0 : polG F ((0, H, z, a) : Par E) = tay F 15 H z := by
    have h1 := polU_coefA F hHp.ne' z b 0
    rw [mul_zero] at h1
    show tay F 15 (H - 0) (polU ((0, H, z, a) : Par E)) = _
    rw [sub_zero, ha, h1]
    simp
  rw [sum_range_succ'] at T1
  simp only [pow_zero, Nat.factorial_zero, Nat.cast_one, div_one, one_smul, uH, u0] at T1
  have e3 : endE F H z b - tay F 15 H z = (endE F H z b - (I + tay F 15 H z)) + I := by abel
  rw [e3]
  have hη := hq.pos
  have x1 : 0 ≤ M * (8 * A) := by positivity
  have y1 : 0 ≤ H ^ 16 := by positivity
  have y2 : 0 ≤ η * H ^ 2 := by positivity
  refine (norm_add_le _ _).trans ((add_le_add T1 bI).trans ?_)
  have e4 : (B + 16 * (M * (8 * A)) + ω' * B + 14 * B) * (H ^ 16 + η * H ^ 2) - (B * H ^ 16 + (16 : ℕ) * (M * (8 * A) * H ^ 15) * H + (ω' * B * H ^ 16 + 14 * B * (η * H ^ 2))) =
      14 * B * H ^ 16 + (B + 16 * (M * (8 * A)) + ω' * B) * (η * H ^ 2) := by push_cast; ring
  have : 0 ≤ 14 * B * H ^ 16 + (B + 16 * (M * (8 * A)) + ω' * B) * (η * H ^ 2) := by positivity
  linarith

end SpaceHub.Radau
