import Verif.Proof.RadauTaylor
import Verif.Spec.Radau
import Mathlib.LinearAlgebra.Vandermonde
import Mathlib.LinearAlgebra.Matrix.NonsingularInverse
import Mathlib.Topology.MetricSpace.Contracting

/-
The collocation equations: the polynomial whose derivative agrees with the field at given nodes.
-/

set_option autoImplicit false

namespace SpaceHub.Radau
open Set Finset SpaceHub.Converge

variable {E : Type*} [NormedAddCommGroup E] [NormedSpace ℝ E]

/-- The state at node `n` of a step of length `H` from `z` if the slope has the coefficients `b`. -/
noncomputable def nodeE (c : ℕ → ℝ) (F : E → E) (H : ℝ) (z : E) (b : ℕ → E) (n : ℕ) : E :=
  z + (H * c n) • (F z + ∑ j ∈ range 7, (c n ^ (j + 1) / ((j : ℝ) + 2)) • b j)

/-- the nodes are different and lie in the step -/
structure Nodes (c : ℕ → ℝ) : Prop where
  inside : ∀ n, n < 7 → 0 < c n ∧ c n ≤ 1
  distinct : Distinct c

theorem weights_le {x : ℝ} (h0 : 0 ≤ x) (h1 : x ≤ 1) : ∑ j ∈ range 7, x ^ (j + 1) / ((j : ℝ) + 2) ≤ 4 := by
  have : ∀ j ∈ range 7, x ^ (j + 1) / ((j : ℝ) + 2) ≤ 1 / 2 := fun j _ => by
    have a : x ^ (j + 1) ≤ 1 := pow_le_one₀ h0 h1
    rw [div_le_div_iff₀ (by positivity) (by norm_num)]
    have : (0 : ℝ) ≤ j := by positivity
    linarith
  refine (sum_le_sum this).trans ?_
  rw [sum_const, card_range]; norm_num

theorem slope_norm {x : ℝ} (h0 : 0 ≤ x) (h1 : x ≤ 1) {b : ℕ → E} {B : ℝ} (hB : ∀ j, j < 7 → ‖b j‖ ≤ B) (hB0 : 0 ≤ B) :
    ‖∑ j ∈ range 7, (x ^ (j + 1) / ((j : ℝ) + 2)) • b j‖ ≤ 4 * B := by
  have : ∀ j ∈ range 7, ‖(x ^ (j + 1) / ((j : ℝ) + 2)) • b j‖ ≤ x ^ (j + 1) / ((j : ℝ) + 2) * B := fun j hj => by
    have p : 0 ≤ x ^ (j + 1) / ((j : ℝ) + 2) := by positivity
    rw [norm_smul, Real.norm_of_nonneg p]
    exact mul_le_mul_of_nonneg_left (hB j (mem_range.1 hj)) p
  refine (norm_sum_le _ _).trans ((sum_le_sum this).trans ?_)
  rw [← sum_mul]
  exact mul_le_mul_of_nonneg_right (weights_le h0 h1) hB0

variable {c : ℕ → ℝ} {F : E → E} {H : ℝ} {z : E}

theorem node_near (hc : Nodes c) (hH : 0 ≤ H) {b : ℕ → E} {B : ℝ} (hB : ∀ j, j < 7 → ‖b j‖ ≤ B) (hB0 : 0 ≤ B) {n : ℕ} (hn : n < 7) :
    ‖nodeE c F H z b n - z‖ ≤ H * (‖F z‖ + 4 * B) := by
  obtain ⟨c0, c1⟩ := hc.inside n hn
  unfold nodeE
  rw [add_sub_cancel_left, norm_smul, Real.norm_of_nonneg (mul_nonneg hH c0.le)]
  have a := (norm_add_le (F z) (∑ j ∈ range 7, (c n ^ (j + 1) / ((j : ℝ) + 2)) • b j)).trans (add_le_add le_rfl (slope_norm c0.le c1 hB hB0))
  have p : H * c n ≤ H := mul_le_of_le_one_right hH c1
  exact mul_le_mul p a (norm_nonneg _) hH

theorem node_diff (hc : Nodes c) (hH : 0 ≤ H) {b b' : ℕ → E} {D : ℝ} (hD : ∀ j, j < 7 → ‖b j - b' j‖ ≤ D) (hD0 : 0 ≤ D) {n : ℕ} (hn : n < 7) :
    ‖nodeE c F H z b n - nodeE c F H z b' n‖ ≤ H * (4 * D) := by
  obtain ⟨c0, c1⟩ := hc.inside n hn
  have e : nodeE c F H z b n - nodeE c F H z b' n = (H * c n) • ∑ j ∈ range 7, (c n ^ (j + 1) / ((j : ℝ) + 2)) • (b j - b' j) := by
    unfold nodeE
    simp only [smul_sub, sum_sub_distrib, smul_add]; abel
  rw [e, norm_smul, Real.norm_of_nonneg (mul_nonneg hH c0.le)]
  exact mul_le_mul (mul_le_of_le_one_right hH c1) (slope_norm c0.le c1 hD hD0) (norm_nonneg _) hH

/-- the coefficients of a polynomial without constant term from its values at the nodes -/
theorem exists_inverse (hc : Distinct c) : ∃ ι : ℕ → ℕ → ℝ,
    (∀ i j, i < 7 → j < 7 → ∑ n ∈ range 7, ι j n * c n ^ (i + 1) = if i = j then 1 else 0) ∧
    (∀ n m, n < 7 → m < 7 → ∑ j ∈ range 7, c n ^ (j + 1) * ι j m = if n = m then 1 else 0) := by
  set v : Fin 7 → ℝ := fun n => c n with hv
  have inj : Function.Injective v := by
    intro a b hab
    rcases lt_trichotomy (a : ℕ) b with h | h | h
    · exact absurd hab.symm (hc.2 b a b.2 h)
    · exact Fin.ext h
    · exact absurd hab (hc.2 a b a.2 h)
  have hdet : IsUnit (Matrix.vandermonde v).det := (Matrix.det_vandermonde_ne_zero_iff.2 inj).isUnit
  set A := (Matrix.vandermonde v)⁻¹ with hA
  have e1 : A * Matrix.vandermonde v = 1 := Matrix.nonsing_inv_mul _ hdet
  have e2 : Matrix.vandermonde v * A = 1 := Matrix.mul_nonsing_inv _ hdet
  refine ⟨fun j n => if h : j < 7 ∧ n < 7 then A ⟨j, h.1⟩ ⟨n, h.2⟩ / c n else 0, fun i j hi hj => ?_, fun n m hn hm => ?_⟩
  · have h1 := congrFun (congrFun e1 ⟨j, hj⟩) ⟨i, hi⟩
    rw [Matrix.mul_apply, Matrix.one_apply] at h1
    rw [← Fin.sum_univ_eq_sum_range (fun n => (if h : j < 7 ∧ n < 7 then A ⟨j, h.1⟩ ⟨n, h.2⟩ / c n else 0) * c n ^ (i + 1)) 7]
    have h2 : ∀ n : Fin 7, (if h : j < 7 ∧ (n : ℕ) < 7 then A ⟨j, h.1⟩ ⟨n, h.2⟩ / c n else 0) * c n ^ (i + 1) = A ⟨j, hj⟩ n * Matrix.vandermonde v n ⟨i, hi⟩ := fun n => by
      rw [dif_pos ⟨hj, n.2⟩, Matrix.vandermonde_apply, pow_succ]
      have := hc.1 n n.2
      show A ⟨j, hj⟩ n / c n * _ = A ⟨j, hj⟩ n * c n ^ i
      field_simp
    rw [sum_congr rfl fun n _ => h2 n, h1]
    simp only [Fin.mk.injEq]
    exact if_congr eq_comm rfl rfl
  · have h1 := congrFun (congrFun e2 ⟨n, hn⟩) ⟨m, hm⟩
    rw [Matrix.mul_apply, Matrix.one_apply] at h1
    rw [← Fin.sum_univ_eq_sum_range (fun j => c n ^ (j + 1) * (if h : j < 7 ∧ m < 7 then A ⟨j, h.1⟩ ⟨m, h.2⟩ / c m else 0)) 7]
    have h2 : ∀ j : Fin 7, c n ^ ((j : ℕ) + 1) * (if h : (j : ℕ) < 7 ∧ m < 7 then A ⟨j, h.1⟩ ⟨m, h.2⟩ / c m else 0) =
        c n / c m * (Matrix.vandermonde v ⟨n, hn⟩ j * A j ⟨m, hm⟩) := fun j => by
      rw [dif_pos ⟨j.2, hm⟩, Matrix.vandermonde_apply, pow_succ]
      show _ = c n / c m * (c n ^ (j : ℕ) * _)
      ring
    rw [sum_congr rfl fun n _ => h2 n, ← mul_sum, h1]
    simp only [Fin.mk.injEq]
    split_ifs with h
    · rw [h, mul_one, div_self (hc.1 m hm)]
    · rw [mul_zero]

/-- a bound for the coefficients by the values at the nodes -/
structure Solves (c : ℕ → ℝ) (ι : ℕ → ℕ → ℝ) (J : ℝ) : Prop where
  left : ∀ i j, i < 7 → j < 7 → ∑ n ∈ range 7, ι j n * c n ^ (i + 1) = if i = j then 1 else 0
  right : ∀ n m, n < 7 → m < 7 → ∑ j ∈ range 7, c n ^ (j + 1) * ι j m = if n = m then 1 else 0
  one : 1 ≤ J
  le : ∀ j, j < 7 → ∑ n ∈ range 7, |ι j n| ≤ J

theorem exists_solves (hc : Distinct c) : ∃ ι J, Solves c ι J := by
  obtain ⟨ι, h1, h2⟩ := exists_inverse hc
  refine ⟨ι, 1 + ∑ j ∈ range 7, ∑ n ∈ range 7, |ι j n|, h1, h2, ?_, fun j hj => ?_⟩
  · have : 0 ≤ ∑ j ∈ range 7, ∑ n ∈ range 7, |ι j n| := sum_nonneg fun _ _ => sum_nonneg fun _ _ => abs_nonneg _
    linarith
  · have := single_le_sum (f := fun j => ∑ n ∈ range 7, |ι j n|) (fun _ _ => sum_nonneg fun _ _ => abs_nonneg _) (mem_range.2 hj)
    linarith

variable {ι : ℕ → ℕ → ℝ} {J : ℝ}

theorem Solves.norm (S : Solves c ι J) {d : ℕ → E} {D : ℝ} (hD : ∀ n, n < 7 → ‖d n‖ ≤ D) {j : ℕ} (hj : j < 7) :
    ‖∑ n ∈ range 7, ι j n • d n‖ ≤ J * D := by
  have hD0 : 0 ≤ D := (norm_nonneg _).trans (hD 0 (by norm_num))
  have : ∀ n ∈ range 7, ‖ι j n • d n‖ ≤ |ι j n| * D := fun n hn => by
    rw [norm_smul, Real.norm_eq_abs]; exact mul_le_mul_of_nonneg_left (hD n (mem_range.1 hn)) (abs_nonneg _)
  refine (norm_sum_le _ _).trans ((sum_le_sum this).trans ?_)
  rw [← sum_mul]
  exact mul_le_mul_of_nonneg_right (S.le j hj) hD0

theorem Solves.coef (S : Solves c ι J) (b : ℕ → E) {j : ℕ} (hj : j < 7) : b j = ∑ n ∈ range 7, ι j n • ∑ i ∈ range 7, c n ^ (i + 1) • b i := by
  simp only [smul_sum, smul_smul]
  rw [sum_comm]
  simp only [← sum_smul]
  have : ∀ i ∈ range 7, (∑ n ∈ range 7, ι j n * c n ^ (i + 1)) • b i = if i = j then b i else 0 := fun i hi => by
    rw [S.left i j (mem_range.1 hi) hj]; split_ifs <;> simp
  rw [sum_congr rfl this, sum_ite_eq' (range 7) j, if_pos (mem_range.2 hj)]

theorem Solves.value (S : Solves c ι J) (d : ℕ → E) {n : ℕ} (hn : n < 7) : ∑ j ∈ range 7, c n ^ (j + 1) • ∑ m ∈ range 7, ι j m • d m = d n := by
  simp only [smul_sum, smul_smul]
  rw [sum_comm]
  simp only [← sum_smul]
  have : ∀ m ∈ range 7, (∑ j ∈ range 7, c n ^ (j + 1) * ι j m) • d m = if n = m then d m else 0 := fun m hm => by
    rw [S.right n m hn (mem_range.1 hm)]; split_ifs <;> simp
  rw [sum_congr rfl this, sum_ite_eq (range 7) n, if_pos (mem_range.2 hn)]

/-- what the collocation coefficients of a step are -/
def Coll (c : ℕ → ℝ) (F : E → E) (H : ℝ) (z : E) (b : ℕ → E) : Prop :=
  ∀ n, n < 7 → ∑ j ∈ range 7, c n ^ (j + 1) • b j = F (nodeE c F H z b n) - F z

variable {W : Set E} {M r : ℝ}

theorem Mild.lipF (m : Mild F W M) (hr : Metric.closedBall z r ⊆ W) {x x' : E} (hx : ‖x - z‖ ≤ r) (hx' : ‖x' - z‖ ≤ r) : ‖F x - F x'‖ ≤ M * ‖x - x'‖ := by
  have := m.lip (i := 1) (by omega) hr hx hx'
  rwa [lie_one, lie_one] at this

theorem Mild.valF (m : Mild F W M) (hz : z ∈ W) : ‖F z‖ ≤ M := by
  have := m.val 1 le_rfl (by omega) z hz
  rwa [lie_one] at this

/-- The collocation equations of short steps have a solution. -/
theorem exists_coll [CompleteSpace E] (hc : Nodes c) (S : Solves c ι J) (m : Mild F W M) (hr0 : 0 ≤ r) (hr : Metric.closedBall z r ⊆ W) (hH : 0 ≤ H)
    (h1 : H * (M + 4) ≤ r) (h2 : J * (M * (H * (M + 4))) ≤ 1) (h3 : J * (M * (H * 4)) ≤ 1 / 2) :
    ∃ b : ℕ → E, Coll c F H z b ∧ ∀ j, j < 7 → ‖b j‖ ≤ J * (M * (H * (M + 4))) := by
  have hM := m.hM
  have hJ := S.one
  have zW : z ∈ W := hr (Metric.mem_closedBall_self hr0)
  have hFz := Mild.valF m zW
  set ext : (Fin 7 → E) → ℕ → E := fun β j => if h : j < 7 then β ⟨j, h⟩ else 0 with hext
  set Φ : (Fin 7 → E) → Fin 7 → E := fun β j => ∑ n ∈ range 7, ι j n • (F (nodeE c F H z (ext β) n) - F z) with hΦ
  have extb : ∀ β : Fin 7 → E, ‖β‖ ≤ 1 → ∀ j, j < 7 → ‖ext β j‖ ≤ 1 := fun β hβ j hj => by
    simp only [hext, dif_pos hj]; exact (norm_le_pi_norm β _).trans hβ
  have near : ∀ β : Fin 7 → E, ‖β‖ ≤ 1 → ∀ n, n < 7 → ‖nodeE c F H z (ext β) n - z‖ ≤ H * (M + 4) := fun β hβ n hn => by
    refine (node_near hc hH (extb β hβ) zero_le_one hn).trans (mul_le_mul_of_nonneg_left ?_ hH)
    linarith
  have zr : ‖z - z‖ ≤ r := by simpa using hr0
  have bnd : ∀ β : Fin 7 → E, ‖β‖ ≤ 1 → ∀ j, ‖Φ β j‖ ≤ J * (M * (H * (M + 4))) := fun β hβ j => by
    refine S.norm (fun n hn => ?_) j.2
    exact (Mild.lipF m hr ((near β hβ n hn).trans h1) zr).trans (mul_le_mul_of_nonneg_left (near β hβ n hn) (by linarith))
  have maps : MapsTo Φ (Metric.closedBall 0 1) (Metric.closedBall 0 1) := fun β hβ => by
    rw [mem_closedBall_zero_iff] at hβ ⊢
    exact (pi_norm_le_iff_of_nonneg zero_le_one).2 fun j => (bnd β hβ j).trans h2
  have contr : ∀ β β' : Fin 7 → E, ‖β‖ ≤ 1 → ‖β'‖ ≤ 1 → ‖Φ β - Φ β'‖ ≤ 1 / 2 * ‖β - β'‖ := fun β β' hβ hβ' => by
    refine (pi_norm_le_iff_of_nonneg (by positivity)).2 fun j => ?_
    have e : (Φ β - Φ β') j = ∑ n ∈ range 7, ι j n • (F (nodeE c F H z (ext β) n) - F (nodeE c F H z (ext β') n)) := by
      show Φ β j - Φ β' j = _
      rw [hΦ, ← sum_sub_distrib]
      exact sum_congr rfl fun n _ => by rw [← smul_sub]; congr 1; abel
    rw [e]
    have hd : ∀ i, i < 7 → ‖ext β i - ext β' i‖ ≤ ‖β - β'‖ := fun i hi => by
      simp only [hext, dif_pos hi]; exact norm_le_pi_norm (β - β') ⟨i, hi⟩
    refine (S.norm (D := M * (H * (4 * ‖β - β'‖))) (fun n hn => ?_) j.2).trans ?_
    · exact (Mild.lipF m hr ((near β hβ n hn).trans h1) ((near β' hβ' n hn).trans h1)).trans
        (mul_le_mul_of_nonneg_left (node_diff hc hH hd (norm_nonneg _) hn) (by linarith))
    · have : J * (M * (H * (4 * ‖β - β'‖))) = J * (M * (H * 4)) * ‖β - β'‖ := by ring
      rw [this]; exact mul_le_mul_of_nonneg_right h3 (norm_nonneg _)
  obtain ⟨β, hβ, hfix, _⟩ := ContractingWith.exists_fixedPoint' (K := 1 / 2) (f := Φ) (s := Metric.closedBall (0 : Fin 7 → E) 1)
    Metric.isClosed_closedBall.isComplete maps ⟨by
      rw [← NNReal.coe_lt_coe]; norm_num, LipschitzWith.of_dist_le_mul fun a b => by
        have := contr a b (by have := a.2; rwa [mem_closedBall_zero_iff] at this) (by have := b.2; rwa [mem_closedBall_zero_iff] at this)
        rw [Subtype.dist_eq, Subtype.dist_eq, dist_eq_norm, dist_eq_norm]
        simpa using this⟩ (x := 0) (by simp) (edist_ne_top _ _)
  rw [mem_closedBall_zero_iff] at hβ
  have hb : ∀ j, j < 7 → ext β j = ∑ n ∈ range 7, ι j n • (F (nodeE c F H z (ext β) n) - F z) := fun j hj => by
    have := congrFun hfix ⟨j, hj⟩
    simp only [hext, dif_pos hj]
    rw [← this]
  refine ⟨ext β, fun n hn => ?_, fun j hj => ?_⟩
  · rw [sum_congr rfl fun j hj => by rw [hb j (mem_range.1 hj)], S.value _ hn]
  · rw [hb j hj]; exact bnd β hβ ⟨j, hj⟩

/-- the Taylor coefficients of the slope -/
noncomputable def slopeTay (F : E → E) (H : ℝ) (z : E) (j : ℕ) : E := (H ^ (j + 1) / ((j + 1).factorial : ℝ)) • lie F (j + 2) z

theorem node_tay (c : ℕ → ℝ) (F : E → E) (H : ℝ) (z : E) (n : ℕ) : nodeE c F H z (slopeTay F H z) n = tay F 8 (H * c n) z := by
  unfold nodeE slopeTay
  rw [tay_eq, sum_range_succ' (fun i => ((H * c n) ^ (i + 1) / ((i + 1).factorial : ℝ)) • lie F (i + 1) z) 7]
  simp only [zero_add, pow_one, Nat.factorial_one, Nat.cast_one, div_one, lie_one]
  rw [smul_add, smul_sum, add_comm (∑ i ∈ range 7, _)]
  congr 2
  refine sum_congr rfl fun j _ => ?_
  rw [smul_smul, smul_smul]
  congr 1
  rw [Nat.factorial_succ (j + 1)]
  push_cast
  have h0 : ((j + 1).factorial : ℝ) ≠ 0 := by positivity
  have h1 : ((j : ℝ) + 2) ≠ 0 := by positivity
  have h2 : ((j : ℝ) + 1 + 1) ≠ 0 := by positivity
  rw [show (j : ℝ) + 1 + 1 = j + 2 by ring]
  field_simp
  ring

theorem value_tay (c : ℕ → ℝ) (F : E → E) (H : ℝ) (z : E) (n : ℕ) : ∑ j ∈ range 7, c n ^ (j + 1) • slopeTay F H z j = tayD F 8 (H * c n) z - F z := by
  unfold tayD slopeTay
  rw [sum_range_succ' (fun i => ((H * c n) ^ i / (i.factorial : ℝ)) • lie F (i + 1) z) 7]
  simp only [pow_zero, Nat.factorial_zero, Nat.cast_one, div_one, one_smul, zero_add, lie_one, add_sub_cancel_right]
  refine sum_congr rfl fun j _ => ?_
  rw [smul_smul]
  congr 1
  rw [mul_pow]; ring

/-- The collocation coefficients are the Taylor coefficients of the slope up to the eighth power of the step. -/
theorem coll_tay (hc : Nodes c) (S : Solves c ι J) (m : Mild F W M) (hr0 : 0 ≤ r) (hr : Metric.closedBall z r ⊆ W) (hH : 0 ≤ H) (hH1 : H ≤ 1)
    (h1 : H * (M + 4) ≤ r) (h3 : J * (M * (H * 4)) ≤ 1 / 2) (h4 : 8 * M * H ≤ r) (h5 : 8 * M * H ≤ 1 / 2) {b : ℕ → E} (hb : Coll c F H z b)
    (hb1 : ∀ j, j < 7 → ‖b j‖ ≤ 1) : ∀ j, j < 7 → ‖b j - slopeTay F H z j‖ ≤ 4 * J * M * H ^ 8 := by
  have hM := m.hM
  have hJ := S.one
  have zW : z ∈ W := hr (Metric.mem_closedBall_self hr0)
  set d := ∑ j ∈ range 7, ‖b j - slopeTay F H z j‖ with hd
  -- the largest difference
  obtain ⟨j0, hj0, hmax⟩ := exists_max_image (range 7) (fun j => ‖b j - slopeTay F H z j‖) ⟨0, by simp⟩
  set D := ‖b j0 - slopeTay F H z j0‖ with hD
  have hD0 : 0 ≤ D := norm_nonneg _
  have le : ∀ j, j < 7 → ‖b j - slopeTay F H z j‖ ≤ D := fun j hj => hmax j (mem_range.2 hj)
  have val : ∀ n, n < 7 → ‖∑ j ∈ range 7, c n ^ (j + 1) • (b j - slopeTay F H z j)‖ ≤ M * (H * (4 * D)) + 2 * M * H ^ 8 := fun n hn => by
    obtain ⟨c0, c1⟩ := hc.inside n hn
    have x0 : 0 ≤ H * c n := mul_nonneg hH c0.le
    have x1 : H * c n ≤ H := mul_le_of_le_one_right hH c1
    have e : ∑ j ∈ range 7, c n ^ (j + 1) • (b j - slopeTay F H z j) =
        (F (nodeE c F H z b n) - F (nodeE c F H z (slopeTay F H z) n)) + (F (tay F 8 (H * c n) z) - tayD F 8 (H * c n) z) := by
      simp only [smul_sub, sum_sub_distrib]
      rw [hb n hn, value_tay, node_tay]; abel
    have n1 : ‖nodeE c F H z b n - z‖ ≤ r := by
      refine (node_near hc hH hb1 zero_le_one hn).trans (le_trans ?_ h1)
      exact mul_le_mul_of_nonneg_left (by linarith [Mild.valF m zW]) hH
    have x2 : (8 : ℕ) * M * (H * c n) ≤ 8 * M * H := by push_cast; exact mul_le_mul_of_nonneg_left x1 (by positivity)
    have n2 : ‖nodeE c F H z (slopeTay F H z) n - z‖ ≤ r := by
      rw [node_tay]
      exact (tay_near m (by omega) x0 (x1.trans hH1) zW).trans (x2.trans h4)
    have a1 := (Mild.lipF m hr n1 n2).trans (mul_le_mul_of_nonneg_left (node_diff hc hH le hD0 hn) (by linarith))
    have a2 := tay_solves m (N := 8) (by omega) hr0 hr x0 (x1.trans hH1) (x2.trans h4) (x2.trans h5)
    have a3 : 2 * M * (H * c n) ^ 8 ≤ 2 * M * H ^ 8 := mul_le_mul_of_nonneg_left (pow_le_pow_left₀ x0 x1 8) (by linarith)
    rw [e]
    exact (norm_add_le _ _).trans (by linarith)
  have key : D ≤ J * (M * (H * (4 * D)) + 2 * M * H ^ 8) := by
    have h := S.norm val (mem_range.1 hj0)
    rw [← S.coef (fun j => b j - slopeTay F H z j) (mem_range.1 hj0)] at h
    exact h
  have e : J * (M * (H * (4 * D)) + 2 * M * H ^ 8) = J * (M * (H * 4)) * D + 2 * J * M * H ^ 8 := by ring
  have h6 := mul_le_mul_of_nonneg_right h3 hD0
  intro j hj
  have := le j hj
  rw [e] at key
  linarith

end SpaceHub.Radau
