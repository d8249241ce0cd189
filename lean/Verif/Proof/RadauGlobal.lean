import Verif.Proof.RadauStep
import Verif.Proof.RadauSuper

/-
The error of one call of the IAS15 iterator, and of a course of calls.
-/

set_option autoImplicit false

namespace SpaceHub.Radau
open SpaceHub SpaceHub.Sys SpaceHub.Props Finset SpaceHub.Converge Ctl Fl
open scoped ContDiff

variable {S : Type}

/-- `Accepted`, for given numbers of attempts and corrections, and given lengths and tables -/
def AcceptedBy (T : Tab) (O : RSys S) (big : ℝ) (frame same : S → S → Prop) (H : ℝ) (it : IAS) (s s' : S) (it' : IAS) (h' : ℝ)
    (m : Nat) (h q : Nat → ℝ) (n : Nat → Nat) (g : Nat → Nat → GR) (y : Nat → Nat → S) (E : Nat → Nat → ℝ) (se : ℝ) : Prop :=
    h 0 = H ∧ g 0 0 = it.gr ∧
    (∀ i, i < m → h (i + 1) = h i * q i ∧ 0 < q i ∧ q i ≤ 1 / 4 ∧
      g (i + 1) 0 = if it.warm then (g i (n i + 1)).predict T (q i) else g i (n i + 1)) ∧
    (∀ i, i ≤ m → Attempt T O big (h i) (n i) (g i) (y i) (E i) ∧ ∀ j, j ≤ n i + 1 → same s (y i j) ∧ O.write (y i j) = O.write s) ∧
    toRes (stepError (O.write s).length (O.mask (h m) (y m (n m + 1))) (fun i => fin ((g m (n m + 1)).dyh i))
      (fun i => fin ((g m (n m + 1)).b 6 i))) = .ok se ∧
    0 ≤ se ∧ se < (17 / 5) ^ 7 ∧ h' = h m * min (max (stepRatio se) (1 / 4)) 4 ∧
    it' = { gr := (g m (n m + 1)).predict T (min (max (stepRatio se) (1 / 4)) 4), last := big, warm := true } ∧
    (O.write s').length = (O.write s).length ∧ frame s s' ∧
    ∀ v, v < (O.write s).length → (O.write s').getD v 0 = (O.write s).getD v 0 +
      h m * ∫ τ in (0 : ℝ)..1, slope ((g m (n m + 1)).dy0 v) (fun j => (g m (n m + 1)).b j v) τ

theorem accepted_by (T : Tab) (O : RSys S) (big : ℝ) (frame same : S → S → Prop) (H : ℝ) (it : IAS) (s s' : S) (it' : IAS) (h' : ℝ) :
    Accepted T O big frame same H it s s' it' h' ↔ ∃ m h q n g y E se, AcceptedBy T O big frame same H it s s' it' h' m h q n g y E se := Iff.rfl

theorem lengths {T : Tab} {O : RSys S} {big : ℝ} {frame same : S → S → Prop} {H : ℝ} {it : IAS} {s s' : S} {it' : IAS} {h' : ℝ}
    {m : Nat} {h q : Nat → ℝ} {n : Nat → Nat} {g : Nat → Nat → GR} {y : Nat → Nat → S} {E : Nat → Nat → ℝ} {se : ℝ}
    (a : AcceptedBy T O big frame same H it s s' it' h' m h q n g y E se) (hH : 0 ≤ H) : ∀ i, i ≤ m → 0 ≤ h i ∧ h i ≤ H := by
  intro i
  induction i with
  | zero => intro _; rw [a.1]; exact ⟨hH, le_rfl⟩
  | succ i ih =>
    intro hi
    obtain ⟨b1, b2⟩ := ih (by omega)
    obtain ⟨c1, c2, c3, _⟩ := a.2.2.1 i (by omega)
    rw [c1]
    exact ⟨mul_nonneg b1 c2.le, (mul_le_of_le_one_right b1 (by linarith)).trans b2⟩

/-- a functional that changes at the rate `κ` -/
theorem flat_by {T : Tab} {O : RSys S} {s s' : S} {frame same : S → S → Prop} {ok : S → Prop} (hsf : ∀ x, same s x → ok x)
    (hrd : ∀ x y v, ok x → O.read x v = .ok y → ok y ∧ O.write y = v) (hdv : ∀ x d, ok x → O.deriv x = .ok d → ok d.2)
    {L : (Nat → ℝ) →ₗ[ℝ] ℝ} {κ : ℝ} (hR : ∀ x d, ok x → O.deriv x = .ok d → L (GR.toArr d.1) = κ) (hL : LocalTo (O.write s).length L)
    {big H h' : ℝ} {it it' : IAS} (h2 : FlatFor L it.gr)
    {m : Nat} {h q : Nat → ℝ} {n : Nat → Nat} {g : Nat → Nat → GR} {y : Nat → Nat → S} {E : Nat → Nat → ℝ} {se : ℝ}
    (a : AcceptedBy T O big frame same H it s s' it' h' m h q n g y E se) :
    FlatFor L it'.gr ∧ L (GR.toArr (O.write s')) = L (GR.toArr (O.write s)) + κ * h m := by
  obtain ⟨a1, a2, a3, a4, _, _, _, _, a5, _, _, a6⟩ := a
  have hR' : Rates O ok (0 : (Nat → ℝ) →ₗ[ℝ] ℝ) L 0 κ := fun x d hx e => ⟨rfl, fun _ => hR x d hx e⟩
  have z0 : ∀ r, FlatFor (0 : (Nat → ℝ) →ₗ[ℝ] ℝ) r := fun r j _ => ⟨rfl, rfl, rfl⟩
  have pass : ∀ i, i ≤ m → FlatFor L (g i 0) → ∀ j, j ≤ n i + 1 → FlatFor L (g i j) ∧ (j ≠ 0 → L (g i j).dy0 = κ) := by
    intro i hi f2 j
    induction j with
    | zero => intro _; exact ⟨f2, fun h => absurd rfl h⟩
    | succ j ih =>
      intro hj
      obtain ⟨b2, _⟩ := ih (by omega)
      obtain ⟨c1, c2⟩ := (a4 i hi).2 j (by omega)
      obtain ⟨_, d2, _, d4, _⟩ := flat_correct hR' hrd hdv (N := (O.write s).length) (fun _ _ _ => rfl) (hsf _ c1) (by rw [c2]) rfl
        (z0 _) b2 ((a4 i hi).1.pass j (by omega)).1
      exact ⟨d2, fun _ => d4⟩
  have start : ∀ i, i ≤ m → FlatFor L (g i 0) := by
    intro i
    induction i with
    | zero => intro _; rw [a2]; exact h2
    | succ i ih =>
      intro hi
      obtain ⟨c2, _⟩ := pass i (by omega) (ih (by omega)) (n i + 1) le_rfl
      rw [(a3 i (by omega)).2.2.2]
      split_ifs
      · exact flat_predict T c2 _
      · exact c2
  obtain ⟨c2, c3⟩ := pass m le_rfl (start m le_rfl) (n m + 1) le_rfl
  have c4 := c3 (by omega)
  rw [a5]
  refine ⟨flat_predict T c2 _, ?_⟩
  rw [flat_integral hL c2 (h m) 1 (O.write s) _ a6, c4]; ring

variable {E : Type*} [NormedAddCommGroup E] [NormedSpace ℝ E]

/-- the constants for the error of a call -/
structure Rate (E : Type*) [NormedAddCommGroup E] [NormedSpace ℝ E] where
  h0 : ℝ
  K : ℝ
  k0 : ℝ
  k1 : ℝ
  k2 : ℝ
  hh0 : 0 < h0
  hK : 0 ≤ K
  kb : ℝ
  hk0 : 0 ≤ k0
  hk1 : 0 ≤ k1
  hk2 : 0 ≤ k2
  hkb : 0 ≤ kb

set_option maxHeartbeats 1000000 in
/-- **The error of a call.** -/
theorem call_error [FiniteDimensional ℝ E] {T : Tab} {η Γ : ℝ} (N : Near T η Γ) (hc : Nodes T.h) {w : ℕ → ℝ} (hq : Quad T.h w η) (hη1 : η ≤ 1)
    (hη2 : η * (14 * (2 * bigQ Γ + 1)) ≤ 1) {F : E → E} {U W W' : Set E} {M r : ℝ} (hU : IsOpen U) (hF : ContDiffOn ℝ ∞ F U) (mild : Mild F W M) (hWU : W ⊆ U)
    (hW' : IsCompact W') (hr0 : 0 < r) (hr : ∀ z ∈ W', Metric.closedBall z r ⊆ W) (k : ℕ) (hk : 1 ≤ k) (hk14 : k ≤ 14) :
    ∃ c : Rate E, (∀ {O : RSys S} {ok : S → Prop} {nv : ℕ} {A : (ℕ → ℝ) →ₗ[ℝ] E}, Shadow O ok nv A F W →
      ∀ {H h : ℝ} {s : S} {n : Nat} {g : Nat → GR} {y : Nat → S}, (∀ i, i ≤ n → correct T O H (g i) (y i) = .ok (y (i + 1), g (i + 1))) → (∀ j, j ≤ n + 1 → ok (y j) ∧ O.write (y j) = O.write s) →
        (O.write s).length = nv → 0 ≤ H → H ≤ h → h ≤ c.h0 → A (GR.toArr (O.write s)) ∈ W' → Tame T A (g 0) (c.k0 * h) (c.k1 * h) (η * (c.k2 * h)) →
        ∀ l, 1 ≤ l → l ≤ n + 1 → ∀ j, j < 7 → ‖A ((g l).g j)‖ ≤ c.k0 * h ∧ ‖A ((g l).b j)‖ ≤ c.kb * h) ∧
      ∀ {O : RSys S} {ok : S → Prop} {nv : ℕ} {A : (ℕ → ℝ) →ₗ[ℝ] E}, Shadow O ok nv A F W →
      ∀ {big H h h' : ℝ} {it it' : IAS} {s s' : S} {frame same : S → S → Prop} {m : Nat} {hl q : Nat → ℝ} {n : Nat → Nat} {g : Nat → Nat → GR} {y : Nat → Nat → S}
        {Er : Nat → Nat → ℝ} {se : ℝ}, AcceptedBy T O big frame same H it s s' it' h' m hl q n g y Er se → (∀ x, same s x → ok x) → (O.write s).length = nv →
        k ≤ n m + 1 → 0 ≤ H → H ≤ h → h ≤ c.h0 → A (GR.toArr (O.write s)) ∈ W' → Tame T A it.gr (c.k0 * h) (c.k1 * h) (η * (c.k2 * h)) →
        Tame T A it'.gr (c.k0 * h) (c.k1 * h) (η * (c.k2 * h)) ∧
        ‖A (GR.toArr (O.write s')) - tay F 15 (hl m) (A (GR.toArr (O.write s)))‖ ≤ c.K * (hl m * (h ^ (k + 1) + η * h)) := by
  obtain ⟨ι, J, S'⟩ := exists_solves hc.distinct
  have hM := mild.hM
  have hJ := S'.one
  have hΓ := N.hΓ
  have hη := N.hη
  obtain ⟨h00, Cs, hh00, hCs, hend⟩ := coll_end hc S' hq hU hF mild hWU hW' hr0 hr
  set G : ℝ := 1 + ∑ j ∈ range 7, ∑ k ∈ range 7, |coefB2G T.h j k| with hG
  have hG0 : 0 ≤ ∑ j ∈ range 7, ∑ k ∈ range 7, |coefB2G T.h j k| := sum_nonneg fun _ _ => sum_nonneg fun _ _ => abs_nonneg _
  have hG1 : 1 ≤ G := by rw [hG]; linarith
  have hGle : ∀ j k, j < 7 → k < 7 → |coefB2G T.h j k| ≤ G := fun j k hj hk => by
    have h1 := single_le_sum (f := fun k => |coefB2G T.h j k|) (fun _ _ => abs_nonneg _) (mem_range.2 hk)
    have h2 := single_le_sum (f := fun j => ∑ k ∈ range 7, |coefB2G T.h j k|) (fun _ _ => sum_nonneg fun _ _ => abs_nonneg _) (mem_range.2 hj)
    rw [hG]; linarith
  obtain ⟨C1, hC1d⟩ : ∃ C1, C1 = J * (M * (M + 4)) := ⟨_, rfl⟩
  have hC1 : 0 ≤ C1 := by rw [hC1d]; positivity
  obtain ⟨C2, hC2d⟩ : ∃ C2, C2 = 7 * (G * C1) := ⟨_, rfl⟩
  have hC2 : 0 ≤ C2 := by rw [hC2d]; positivity
  obtain ⟨P, hPd⟩ : ∃ P, P = bigP Γ := ⟨_, rfl⟩
  have hP1 : 1 ≤ P := by rw [hPd]; exact bigP_pos hΓ
  obtain ⟨Q, hQd⟩ : ∃ Q, Q = bigQ Γ := ⟨_, rfl⟩
  have hQ0 : 0 ≤ Q := by rw [hQd]; unfold bigQ; positivity
  obtain ⟨V, hVd⟩ : ∃ V, V = 1 + P * C2 := ⟨_, rfl⟩
  have hV : 0 ≤ V := by rw [hVd]; positivity
  obtain ⟨X, hXd⟩ : ∃ X, X = C1 + 7 * (Γ * (1 + 2 * V)) + 7 * C2 := ⟨_, rfl⟩
  have hX : 0 ≤ X := by rw [hXd]; positivity
  obtain ⟨κ1, hκ1d⟩ : ∃ κ1, κ1 = Q * (2 * X) := ⟨_, rfl⟩
  have hκ1 : 0 ≤ κ1 := by rw [hκ1d]; positivity
  obtain ⟨Z, hZd⟩ : ∃ Z, Z = (Q + 1) * (2 * X) + κ1 := ⟨_, rfl⟩
  have hZ : 0 ≤ Z := by rw [hZd]; positivity
  obtain ⟨κ0, hκ0d⟩ : ∃ κ0, κ0 = 7 * (Γ * Z) + (C2 + (1 + 2 * V)) := ⟨_, rfl⟩
  have hκ0 : 0 ≤ κ0 := by rw [hκ0d]; positivity
  obtain ⟨κ2, hκ2d⟩ : ∃ κ2, κ2 = 7 * Z := ⟨_, rfl⟩
  have hκ2 : 0 ≤ κ2 := by rw [hκ2d]; positivity
  have hηκ : η * κ2 ≤ X := by
    have e : η * κ2 = η * (14 * (2 * Q + 1)) * X := by rw [hκ2d, hZd, hκ1d]; ring
    rw [e, hQd]
    exact mul_le_of_le_one_left hX hη2
  obtain ⟨e0, he0d⟩ : ∃ e0, e0 = κ0 + C2 := ⟨_, rfl⟩
  have he0 : 0 ≤ e0 := by rw [he0d]; positivity
  obtain ⟨K3, hK3d⟩ : ∃ K3, K3 = C1 + κ2 + 7 * (Γ * (e0 + 2 * V + P * (M * (e0 + 2 * V + κ2 + C2) + C2))) + 7 * C2 := ⟨_, rfl⟩
  have hK3 : 0 ≤ K3 := by rw [hK3d]; positivity
  obtain ⟨D, hDd⟩ : ∃ D, D = (M + 4) + C1 + J * M * 8 + 2 * (M * P) + P * (M * e0) + P * (M * (κ2 + C2)) + K3 := ⟨_, rfl⟩
  have q1 : 0 ≤ J * M * 8 := by positivity
  have q2 : 0 ≤ 2 * (M * P) := by positivity
  have q3 : 0 ≤ P * (M * e0) := by positivity
  have q4 : 0 ≤ P * (M * (κ2 + C2)) := by positivity
  have hD : 0 < D := by rw [hDd]; positivity
  obtain ⟨K4, hK4d⟩ : ∃ K4, K4 = κ2 + 7 * (Γ * ((P * M) ^ k * e0 + 2 * V)) + 7 * C2 := ⟨_, rfl⟩
  have hK4 : 0 ≤ K4 := by rw [hK4d]; positivity
  have attempt0 : ∀ {O : RSys S} {ok : S → Prop} {nv : ℕ} {A : (ℕ → ℝ) →ₗ[ℝ] E}, Shadow O ok nv A F W →
      ∀ {H h : ℝ} {s : S} {n : Nat} {g : Nat → GR} {y : Nat → S}, (∀ i, i ≤ n → correct T O H (g i) (y i) = .ok (y (i + 1), g (i + 1))) → (∀ j, j ≤ n + 1 → ok (y j) ∧ O.write (y j) = O.write s) →
        (O.write s).length = nv → 0 ≤ H → H ≤ h → h ≤ min h00 (min 1 (min (r / D) (1 / D))) → A (GR.toArr (O.write s)) ∈ W' → Tame T A (g 0) (κ0 * h) (κ1 * h) (η * (κ2 * h)) →
      ∃ β : ℕ → E, Coll T.h F H (A (GR.toArr (O.write s))) β ∧ (∀ j, j < 7 → ‖β j‖ ≤ 1) ∧
      ∀ l, 1 ≤ l → l ≤ n + 1 → (∀ j, j < 7 → ‖A ((g l).g j)‖ ≤ κ0 * h) ∧ (∀ j, j < 7 → ‖A ((g l).old j)‖ ≤ κ1 * h) ∧
        (∀ j, j < 7 → ‖defectE T (fun j => A ((g l).b j)) (fun j => A ((g l).g j)) j‖ ≤ η * (κ2 * h)) ∧ (∀ j, j < 7 → ‖A ((g l).b j)‖ ≤ 2 * X * h) ∧
        A (g l).dy0 = F (A (GR.toArr (O.write s))) ∧
        (∀ j, j < 7 → ‖A ((g l).b j) - β j‖ ≤ η * (κ2 * h) + 7 * (Γ * ((P * M * h) ^ l * (e0 * h) + 2 * (η * (V * h)))) + 7 * (η * (C2 * h))) := by
    intro O ok nv A sh H h s n g y at_ hy hnv l0 l2 hh hz ht
    set z := A (GR.toArr (O.write s)) with hzd
    have h0 : 0 ≤ h := l0.trans l2
    have hh1 : h ≤ 1 := hh.trans ((min_le_right _ _).trans (min_le_left _ _))
    have hhr : D * h ≤ r := by
      have := hh.trans ((min_le_right _ _).trans ((min_le_right _ _).trans (min_le_left _ _)))
      rw [le_div_iff₀ hD] at this; linarith
    have hhD : D * h ≤ 1 := by
      have := hh.trans ((min_le_right _ _).trans ((min_le_right _ _).trans (min_le_right _ _)))
      rw [le_div_iff₀ hD] at this; linarith
    have pick : ∀ x, x ≤ D → x * h ≤ r ∧ x * h ≤ 1 := fun x hx =>
      ⟨(mul_le_mul_of_nonneg_right hx h0).trans hhr, (mul_le_mul_of_nonneg_right hx h0).trans hhD⟩
    have lx : ∀ x, 0 ≤ x → x * H ≤ x * h := fun x hx => mul_le_mul_of_nonneg_left l2 hx
    have c1 : H * (M + 4) ≤ r := by
      have := (pick (M + 4) (by rw [hDd]; linarith)).1
      have := lx (M + 4) (by linarith)
      linarith
    have cC : C1 * h ≤ 1 := (pick C1 (by rw [hDd]; linarith)).2
    have c2 : J * (M * (H * (M + 4))) ≤ C1 * h := by
      have := lx C1 hC1
      have e : J * (M * (H * (M + 4))) = C1 * H := by rw [hC1d]; ring
      linarith
    have c3 : J * (M * (H * 4)) ≤ 1 / 2 := by
      have := (pick (J * M * 8) (by rw [hDd]; linarith)).2
      have := lx (J * M * 8) q1
      linarith
    obtain ⟨β, hβ, hβ1⟩ := exists_coll (z := z) hc S' mild hr0.le (hr z hz) l0 c1 (c2.trans cC) c3
    have hβC : ∀ j, j < 7 → ‖β j‖ ≤ C1 * h := fun j hj => (hβ1 j hj).trans c2
    have hC1h : 0 ≤ C1 * h := by positivity
    have ha : ∀ k, k < 7 → ‖gammaE T.h β k‖ ≤ C2 * h := fun k hk => by
      refine (sum_seven (X := G * (C1 * h)) (by simp) (by positivity) fun j hj => ?_).trans (le_of_eq (by rw [hC2d]; ring))
      rw [norm_smul, Real.norm_eq_abs]
      exact mul_le_mul (hGle j k (mem_range.1 hj) hk) (hβC j (mem_range.1 hj)) (norm_nonneg _) (by linarith)
    have ha' : ∀ n, n < 7 → ‖F (nodeE T.h F (H) z β n) - F z‖ ≤ C2 * h := fun n hn => by
      rw [← hβ n hn]
      obtain ⟨n0, n1⟩ := hc.inside n hn
      refine (sum_seven (X := 1 * (C1 * h)) (by simp) (by positivity) fun j hj => ?_).trans ?_
      · rw [norm_smul, Real.norm_of_nonneg (by positivity)]
        exact mul_le_mul (pow_le_one₀ n0.le n1) (hβC j (mem_range.1 hj)) (norm_nonneg _) zero_le_one
      · have : 1 * (C1 * h) ≤ G * (C1 * h) := mul_le_mul_of_nonneg_right hG1 hC1h
        rw [hC2d]; linarith
    have hMP : M * H * bigP Γ ≤ 1 / 2 := by
      have := (pick (2 * (M * P)) (by rw [hDd]; linarith)).2
      have := lx (2 * (M * P)) q2
      rw [← hPd]; linarith
    have hη2h : 0 ≤ η * (κ2 * h) := by positivity
    have dat : StepData T η Γ F W M r (H) z β (C1 * h) (C2 * h) (η * (κ2 * h)) :=
      ⟨N, hc, mild, hr0.le, hr z hz, l0, c1, hβ, hβC, ha, ha', hη2h, hMP⟩
    have he : ∀ k, k < 7 → ‖A ((g 0).g k) - gammaE T.h β k‖ ≤ e0 * h := fun k hk => by
      have := norm_sub_le (A ((g 0).g k)) (gammaE T.h β k)
      have e : e0 * h = κ0 * h + C2 * h := by rw [he0d]; ring
      linarith [ht.g k hk, ha k hk]
    obtain ⟨Dl, hDl⟩ : ∃ Dl, Dl = bigP Γ * (M * H * (η * (κ2 * h) + η * (C2 * h)) + η * (C2 * h)) := ⟨_, rfl⟩
    have hDl' : Dl ≤ η * (V * h) := by
      have e : Dl = η * h * (P * (M * (κ2 + C2)) * H + P * C2) := by rw [hDl, ← hPd]; ring
      have b1 := (lx _ q4).trans (pick (P * (M * (κ2 + C2))) (by rw [hDd]; linarith)).2
      have e2 : η * (V * h) = η * h * (1 + P * C2) := by rw [hVd]; ring
      rw [e, e2]
      exact mul_le_mul_of_nonneg_left (by linarith) (by positivity)
    have hVh : η * (V * h) ≤ V * h := mul_le_of_le_one_left (by positivity) hη1
    have hDl0 : 0 ≤ Dl := by rw [hDl, ← hPd]; positivity
    have hρe : P * (M * H) * (e0 * h) ≤ h := by
      have b1 := (lx _ q3).trans (pick (P * (M * e0)) (by rw [hDd]; linarith)).2
      have e : P * (M * H) * (e0 * h) = P * (M * e0) * H * h := by ring
      rw [e]; exact mul_le_of_le_one_left h0 b1
    have c2h : η * (C2 * h) ≤ C2 * h := mul_le_of_le_one_left (by positivity) hη1
    have k2h : η * (κ2 * h) ≤ κ2 * h := mul_le_of_le_one_left (by positivity) hη1
    have small : C1 * h + η * (κ2 * h) + 7 * (Γ * (e0 * h + 2 * Dl + bigP Γ * (M * H * (e0 * h + 2 * Dl + η * (κ2 * h) + η * (C2 * h)) + η * (C2 * h)))) +
        7 * (η * (C2 * h)) ≤ 1 := by
      have b0 := (pick K3 (by rw [hDd]; linarith)).2
      have b1 : e0 * h + 2 * Dl + η * (κ2 * h) + η * (C2 * h) ≤ (e0 + 2 * V + κ2 + C2) * h := by
        have e : (e0 + 2 * V + κ2 + C2) * h = e0 * h + 2 * (V * h) + κ2 * h + C2 * h := by ring
        linarith
      have b2 : M * H * (e0 * h + 2 * Dl + η * (κ2 * h) + η * (C2 * h)) ≤ M * ((e0 + 2 * V + κ2 + C2) * h) := by
        have b3 : M * H ≤ M := mul_le_of_le_one_right (by linarith) (l2.trans hh1)
        exact mul_le_mul b3 b1 (by positivity) (by linarith)
      have b4 : bigP Γ * (M * H * (e0 * h + 2 * Dl + η * (κ2 * h) + η * (C2 * h)) + η * (C2 * h)) ≤ P * (M * ((e0 + 2 * V + κ2 + C2) * h) + C2 * h) := by
        rw [← hPd]
        exact mul_le_mul_of_nonneg_left (by linarith) (by linarith)
      have b5 : Γ * (e0 * h + 2 * Dl + bigP Γ * (M * H * (e0 * h + 2 * Dl + η * (κ2 * h) + η * (C2 * h)) + η * (C2 * h))) ≤
          Γ * (e0 * h + 2 * (V * h) + P * (M * ((e0 + 2 * V + κ2 + C2) * h) + C2 * h)) :=
        mul_le_mul_of_nonneg_left (by linarith) (by linarith)
      have e : K3 * h = C1 * h + κ2 * h + 7 * (Γ * (e0 * h + 2 * (V * h) + P * (M * ((e0 + 2 * V + κ2 + C2) * h) + C2 * h))) + 7 * (C2 * h) := by rw [hK3d]; ring
      linarith
    have res := attempt_close (ok := ok) (n := nv) dat sh hnv at_ hy
      (by have e : e0 * h = κ0 * h + C2 * h := by rw [he0d]; ring
          have : 0 ≤ κ0 * h := by positivity
          linarith) he ht.defect ht.old rfl hDl small
    refine ⟨β, hβ, fun j hj => (hβC j hj).trans cC, fun l hl1 hl2 => ?_⟩
    obtain ⟨r1, r2, r3, _, r5⟩ := res l hl1 hl2
    have ρ0 : 0 ≤ bigP Γ * (M * H) := by rw [← hPd]; positivity
    have ρ1 : bigP Γ * (M * H) ≤ 1 := by linarith
    have pe : (bigP Γ * (M * H)) ^ l * (e0 * h) ≤ h := by
      have : (bigP Γ * (M * H)) ^ l ≤ bigP Γ * (M * H) := pow_le_of_le_one ρ0 ρ1 (by omega)
      have := mul_le_mul_of_nonneg_right this (by positivity : 0 ≤ e0 * h)
      rw [← hPd] at this ⊢
      linarith
    have r1' : ∀ k, k < 7 → ‖A ((g l).g k) - gammaE T.h β k‖ ≤ (1 + 2 * V) * h := fun k hk => by
      have := r1 k hk
      have e : (1 + 2 * V) * h = h + 2 * (V * h) := by ring
      linarith
    have df := fun j hj => diff_le N (b := fun j => A ((g l).b j)) (g := fun j => A ((g l).g j)) r2 r1 ha (j := j) hj
    refine ⟨fun j hj => ?_, r5, r2, fun j hj => ?_, r3, fun j hj => (df j hj).trans ?_⟩
    · have b1 := norm_add_le (A ((g l).g j) - gammaE T.h β j) (gammaE T.h β j)
      rw [sub_add_cancel] at b1
      have e : κ0 * h = 7 * (Γ * Z) * h + (C2 * h + (1 + 2 * V) * h) := by rw [hκ0d]; ring
      have : 0 ≤ 7 * (Γ * Z) * h := by positivity
      linarith [r1' j hj, ha j hj]
    · have b1 := norm_add_le (A ((g l).b j) - β j) (β j)
      rw [sub_add_cancel] at b1
      have b2 := diff_le N (b := fun j => A ((g l).b j)) (g := fun j => A ((g l).g j)) r2 r1' ha (j := j) hj
      have b3 : η * (κ2 * h) ≤ X * h := by
        have := mul_le_mul_of_nonneg_right hηκ h0
        linarith
      have e : 2 * X * h = X * h + (C1 * h + 7 * (Γ * ((1 + 2 * V) * h)) + 7 * (C2 * h)) := by
        have : 2 * X * h = X * h + X * h := by ring
        rw [this]; congr 1; rw [hXd]; ring
      linarith [hβC j hj]
    · have b1 : bigP Γ * (M * H) ≤ P * M * h := by
        rw [← hPd]
        have := lx (P * M) (by positivity)
        linarith
      have b2 : (bigP Γ * (M * H)) ^ l * (e0 * h) ≤ (P * M * h) ^ l * (e0 * h) :=
        mul_le_mul_of_nonneg_right (pow_le_pow_left₀ ρ0 b1 l) (by positivity)
      have b3 : Γ * ((bigP Γ * (M * H)) ^ l * (e0 * h) + 2 * Dl) ≤ Γ * ((P * M * h) ^ l * (e0 * h) + 2 * (η * (V * h))) :=
        mul_le_mul_of_nonneg_left (by linarith) (by linarith)
      linarith
  refine ⟨⟨min h00 (min 1 (min (r / D) (1 / D))), 4 * K4 + Cs, κ0, κ1, κ2, by positivity, by positivity, 2 * X, hκ0, hκ1, hκ2, by positivity⟩, ?_, ?_⟩
  · intro O ok nv A sh H h s n g y at_ hy hnv l0 l2 hh hz ht l hl1 hl2 j hj
    obtain ⟨_, _, _, hat⟩ := attempt0 sh at_ hy hnv l0 l2 hh hz ht
    obtain ⟨t1, _, _, t4, _⟩ := hat l hl1 hl2
    exact ⟨t1 j hj, t4 j hj⟩
  intro O ok nv A sh big H h h' it it' s s' frame same m hl q n g y Er se acc hsame hnv hkn hH hHh hh hz ht
  dsimp only at hh ht ⊢
  have hlen := lengths acc hH
  obtain ⟨a1, a2, a3, a4, _, _, _, _, a5, _, _, a6⟩ := acc
  set z := A (GR.toArr (O.write s)) with hzd
  have h0 : 0 ≤ h := hH.trans hHh
  have hh1 : h ≤ 1 := hh.trans ((min_le_right _ _).trans (min_le_left _ _))
  have hhr : D * h ≤ r := by
    have := hh.trans ((min_le_right _ _).trans ((min_le_right _ _).trans (min_le_left _ _)))
    rw [le_div_iff₀ hD] at this; linarith
  have hhD : D * h ≤ 1 := by
    have := hh.trans ((min_le_right _ _).trans ((min_le_right _ _).trans (min_le_right _ _)))
    rw [le_div_iff₀ hD] at this; linarith
  have pick : ∀ x, x ≤ D → x * h ≤ r ∧ x * h ≤ 1 := fun x hx =>
    ⟨(mul_le_mul_of_nonneg_right hx h0).trans hhr, (mul_le_mul_of_nonneg_right hx h0).trans hhD⟩
  -- one attempt
  have attempt : ∀ i, i ≤ m → Tame T A (g i 0) (κ0 * h) (κ1 * h) (η * (κ2 * h)) → ∃ β : ℕ → E, Coll T.h F (hl i) z β ∧ (∀ j, j < 7 → ‖β j‖ ≤ 1) ∧
      ∀ l, 1 ≤ l → l ≤ n i + 1 → (∀ j, j < 7 → ‖A ((g i l).g j)‖ ≤ κ0 * h) ∧ (∀ j, j < 7 → ‖A ((g i l).old j)‖ ≤ κ1 * h) ∧
        (∀ j, j < 7 → ‖defectE T (fun j => A ((g i l).b j)) (fun j => A ((g i l).g j)) j‖ ≤ η * (κ2 * h)) ∧ (∀ j, j < 7 → ‖A ((g i l).b j)‖ ≤ 2 * X * h) ∧
        A (g i l).dy0 = F z ∧ (∀ j, j < 7 → ‖A ((g i l).b j) - β j‖ ≤ η * (κ2 * h) + 7 * (Γ * ((P * M * h) ^ l * (e0 * h) + 2 * (η * (V * h)))) + 7 * (η * (C2 * h))) :=
    fun i hi ht => attempt0 sh (fun j hj => ((a4 i hi).1.pass j hj).1) (fun j hj => ⟨hsame _ ((a4 i hi).2 j hj).1, ((a4 i hi).2 j hj).2⟩) hnv (hlen i hi).1 ((hlen i hi).2.trans hHh) hh hz ht
  have pred : ∀ {r : GR} {q : ℝ}, 0 ≤ q → q ≤ 4 → (∀ j, j < 7 → ‖A (r.b j)‖ ≤ 2 * X * h) → (∀ j, j < 7 → ‖A (r.old j)‖ ≤ κ1 * h) →
      Tame T A (r.predict T q) (κ0 * h) (κ1 * h) (η * (κ2 * h)) := fun {r q} hq0 hq4 hb ho => by
    have t := predict_tame N hb ho hq0 hq4
    rw [← hQd] at t
    have e : (Q + 1) * (2 * X * h) + κ1 * h = Z * h := by rw [hZd]; ring
    rw [e] at t
    refine ⟨fun j hj => (t.g j hj).trans ?_, fun j hj => (t.old j hj).trans (le_of_eq (by rw [hκ1d]; ring)), fun j hj => (t.defect j hj).trans (le_of_eq (by rw [hκ2d]; ring))⟩
    have e : κ0 * h = 7 * (Γ * (Z * h)) + (C2 + (1 + 2 * V)) * h := by rw [hκ0d]; ring
    have : 0 ≤ (C2 + (1 + 2 * V)) * h := by positivity
    linarith
  have start : ∀ i, i ≤ m → Tame T A (g i 0) (κ0 * h) (κ1 * h) (η * (κ2 * h)) := by
    intro i
    induction i with
    | zero => intro _; rw [a2]; exact ht
    | succ i ih =>
      intro hi
      obtain ⟨β, _, _, hat⟩ := attempt i (by omega) (ih (by omega))
      obtain ⟨t1, t2, t3, t4, _, _⟩ := hat (n i + 1) (by omega) le_rfl
      obtain ⟨_, b2, b3, b4⟩ := a3 i (by omega)
      rw [b4]
      split_ifs
      · exact pred b2.le (by linarith) t4 t2
      · exact ⟨t1, t2, t3⟩
  obtain ⟨β, hβ, hβ1, hat⟩ := attempt m le_rfl (start m le_rfl)
  obtain ⟨_, t2, _, t4, t5, t6⟩ := hat (n m + 1) (by omega) le_rfl
  obtain ⟨l0, l1⟩ := hlen m le_rfl
  have l2 : hl m ≤ h := l1.trans hHh
  refine ⟨?_, ?_⟩
  · rw [a5]
    refine pred ?_ (min_le_right _ _) t4 t2
    exact le_min (le_max_of_le_right (by norm_num)) (by norm_num)
  -- the end
  rw [hnv] at a6
  have hfin := shadow_integral sh.loc (g m (n m + 1)) (hl m) 1 (O.write s) (O.write s') a6
  rw [← hzd, t5, mul_one] at hfin
  have hd : ∀ j, j < 7 → ‖A ((g m (n m + 1)).b j) - β j‖ ≤ K4 * (h ^ (k + 1) + η * h) := fun j hj => by
    refine (t6 j hj).trans ?_
    have b0 : 0 ≤ P * M * h := by positivity
    have b1 : P * M * h ≤ 1 := by
      have := (pick (2 * (M * P)) (by rw [hDd]; linarith)).2
      linarith
    have b2 : (P * M * h) ^ (n m + 1) * (e0 * h) ≤ (P * M) ^ k * e0 * h ^ (k + 1) := by
      have := mul_le_mul_of_nonneg_right (pow_le_pow_of_le_one b0 b1 hkn) (by positivity : 0 ≤ e0 * h)
      refine this.trans (le_of_eq ?_)
      rw [mul_pow, pow_succ]; ring
    have b3 : Γ * ((P * M * h) ^ (n m + 1) * (e0 * h) + 2 * (η * (V * h))) ≤ Γ * ((P * M) ^ k * e0 * h ^ (k + 1) + 2 * (η * (V * h))) :=
      mul_le_mul_of_nonneg_left (by linarith) (by linarith)
    have e : K4 * (h ^ (k + 1) + η * h) - (η * (κ2 * h) + 7 * (Γ * ((P * M) ^ k * e0 * h ^ (k + 1) + 2 * (η * (V * h)))) + 7 * (η * (C2 * h))) =
        (κ2 + 7 * (Γ * (2 * V)) + 7 * C2) * h ^ (k + 1) + 7 * (Γ * ((P * M) ^ k * e0)) * (η * h) := by rw [hK4d]; ring
    have : 0 ≤ (κ2 + 7 * (Γ * (2 * V)) + 7 * C2) * h ^ (k + 1) + 7 * (Γ * ((P * M) ^ k * e0)) * (η * h) := by positivity
    linarith
  have hy0 : 0 ≤ h ^ (k + 1) + η * h := by positivity
  have e1 : A (GR.toArr (O.write s')) - endE F (hl m) z β = hl m • ∑ j ∈ range 7, ((1 : ℝ) ^ (j + 1) / ((j : ℝ) + 2)) • (A ((g m (n m + 1)).b j) - β j) := by
    rw [hfin]
    unfold endE
    simp only [smul_sub, sum_sub_distrib, smul_add, one_pow]; abel
  have e2 : ‖A (GR.toArr (O.write s')) - endE F (hl m) z β‖ ≤ hl m * (4 * (K4 * (h ^ (k + 1) + η * h))) := by
    rw [e1, norm_smul, Real.norm_of_nonneg l0]
    exact mul_le_mul_of_nonneg_left (slope_norm zero_le_one le_rfl hd (by positivity)) l0
  have e3 := hend (hl m) z β l0 (l2.trans (hh.trans (min_le_left _ _))) hz hβ hβ1
  have e4 : hl m ^ 16 + η * hl m ^ 2 ≤ hl m * (h ^ (k + 1) + η * h) := by
    have b1 : hl m ^ 16 ≤ hl m * h ^ (k + 1) := by
      have : hl m ^ 15 ≤ h ^ (k + 1) := (pow_le_pow_left₀ l0 l2 15).trans (pow_le_pow_of_le_one h0 hh1 (by omega))
      calc hl m ^ 16 = hl m * hl m ^ 15 := by ring
        _ ≤ _ := mul_le_mul_of_nonneg_left this l0
    have b2 : η * hl m ^ 2 ≤ hl m * (η * h) := by
      have := mul_le_mul_of_nonneg_left l2 (mul_nonneg hη l0)
      calc η * hl m ^ 2 = η * hl m * hl m := by ring
        _ ≤ η * hl m * h := this
        _ = _ := by ring
    rw [mul_add]; linarith
  have e5 := mul_le_mul_of_nonneg_left e4 hCs
  have e6 := norm_add_le (A (GR.toArr (O.write s')) - endE F (hl m) z β) (endE F (hl m) z β - tay F 15 (hl m) z)
  rw [sub_add_sub_cancel] at e6
  have e7 : (4 * K4 + Cs) * (hl m * (h ^ (k + 1) + η * h)) = hl m * (4 * (K4 * (h ^ (k + 1) + η * h))) + Cs * (hl m * (h ^ (k + 1) + η * h)) := by ring
  rw [e7]
  linarith

end SpaceHub.Radau
