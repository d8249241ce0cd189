import Verif.Proof.ConvergeLeap
import Verif.Proof.Variation
import Mathlib.Analysis.Calculus.ContDiff.RCLike
import Mathlib.Analysis.Calculus.ContDiff.Operations
import Mathlib.Analysis.SpecialFunctions.Sqrt
import Mathlib.Topology.MetricSpace.Thickening

/-
Bounds near a motion of gravitating particles that does not collide.
-/

set_option autoImplicit false

namespace SpaceHub.Converge
open Set Real SpaceHub.Integrator

section
variable {E : Type*} [NormedAddCommGroup E] [NormedSpace ℝ E]

/-- A compact set inside an open set where `a` is twice continuously differentiable. -/
theorem exists_bounds [ProperSpace E] {F : Type*} [NormedAddCommGroup F] [NormedSpace ℝ F] {f : E → F} {U K : Set E} (hU : IsOpen U)
    (hf : ContDiffOn ℝ 1 f U) (hK : IsCompact K) (hKU : K ⊆ U) :
    ∃ r > 0, ∃ B ≥ 0, ∃ Λ ≥ 0, ∀ x ∈ K, ∀ z, ‖z - x‖ ≤ r → z ∈ U ∧ ‖f z‖ ≤ B ∧ ‖fderiv ℝ f z‖ ≤ Λ := by
  obtain ⟨r, hr, hrU⟩ := hK.exists_cthickening_subset_open hU hKU
  have hc : IsCompact (Metric.cthickening r K) := hK.cthickening
  obtain ⟨B, hB⟩ := hc.exists_bound_of_continuousOn (hf.continuousOn.mono hrU)
  obtain ⟨Λ, hΛ⟩ := hc.exists_bound_of_continuousOn ((hf.continuousOn_fderiv_of_isOpen hU le_rfl).mono hrU)
  refine ⟨r, hr, max B 0, le_max_right _ _, max Λ 0, le_max_right _ _, fun x hx z hz => ?_⟩
  have hm : z ∈ Metric.cthickening r K := Metric.mem_cthickening_of_dist_le z x r K hx (by rwa [dist_eq_norm])
  exact ⟨hrU hm, (hB z hm).trans (le_max_left _ _), (hΛ z hm).trans (le_max_left _ _)⟩

theorem exists_tube [ProperSpace E] {a : E → E} {U : Set E} (hU : IsOpen U) (ha : ContDiffOn ℝ 2 a U) {q v : ℝ → E} {T : ℝ}
    (dq : ∀ t ∈ Icc 0 T, HasDerivWithinAt q (v t) (Icc 0 T) t) (dv : ∀ t ∈ Icc 0 T, HasDerivWithinAt v (a (q t)) (Icc 0 T) t)
    (hq : ∀ t ∈ Icc 0 T, q t ∈ U) : ∃ r A L V Q, Tube a q v T r A L V ∧ 0 ≤ Q ∧ Expands a q T r L Q := by
  have cq : ContinuousOn q (Icc 0 T) := fun t ht => (dq t ht).continuousWithinAt
  have cv : ContinuousOn v (Icc 0 T) := fun t ht => (dv t ht).continuousWithinAt
  have hK : IsCompact (q '' Icc 0 T) := isCompact_Icc.image_of_continuousOn cq
  have hKU : q '' Icc 0 T ⊆ U := by rintro _ ⟨t, ht, rfl⟩; exact hq t ht
  have ha1 : ContDiffOn ℝ 1 a U := ha.of_le (by norm_num)
  have hd1 : ContDiffOn ℝ 1 (fderiv ℝ a) U := ha.fderiv_of_isOpen hU (by norm_num)
  obtain ⟨r1, hr1, A, hA, L, hL, h1⟩ := exists_bounds hU ha1 hK hKU
  obtain ⟨r2, hr2, _, _, Q, hQ, h2⟩ := exists_bounds hU hd1 hK hKU
  obtain ⟨V, hV⟩ := isCompact_Icc.exists_bound_of_continuousOn cv
  have mem : ∀ t ∈ Icc 0 T, q t ∈ q '' Icc 0 T := fun t ht => ⟨t, ht, rfl⟩
  have diff : ∀ x ∈ U, DifferentiableAt ℝ a x := fun x hx => ((ha1.differentiableOn (by norm_num)) x hx).differentiableAt (hU.mem_nhds hx)
  have diff2 : ∀ x ∈ U, DifferentiableAt ℝ (fderiv ℝ a) x := fun x hx =>
    ((hd1.differentiableOn (by norm_num)) x hx).differentiableAt (hU.mem_nhds hx)
  refine ⟨min r1 r2, A, L, max V 0, Q, ⟨lt_min hr1 hr2, hA, hL, le_max_right _ _, ?_, ?_, ?_, dq, dv⟩, hQ, ?_⟩
  · exact fun t ht x hx => (h1 _ (mem t ht) x (hx.trans (min_le_left _ _))).2.1
  · intro t ht x x' hx hx'
    have conv := convex_closedBall (q t) (min r1 r2)
    have inb : ∀ z ∈ Metric.closedBall (q t) (min r1 r2), ‖z - q t‖ ≤ r1 := fun z hz => by
      rw [mem_closedBall_iff_norm] at hz; exact hz.trans (min_le_left _ _)
    exact conv.norm_image_sub_le_of_norm_fderiv_le (𝕜 := ℝ) (fun z hz => diff z (h1 _ (mem t ht) z (inb z hz)).1)
      (fun z hz => (h1 _ (mem t ht) z (inb z hz)).2.2) (mem_closedBall_iff_norm.2 hx') (mem_closedBall_iff_norm.2 hx)
  · exact fun t ht => (hV t ht).trans (le_max_left _ _)
  · intro t ht
    refine ⟨fderiv ℝ a (q t), (h1 _ (mem t ht) (q t) (by simpa using hr1.le)).2.2, fun x hx => ?_⟩
    set ρ := ‖x - q t‖ with hρ
    have inb : ∀ z ∈ Metric.closedBall (q t) ρ, ‖z - q t‖ ≤ r2 := fun z hz => by
      rw [mem_closedBall_iff_norm] at hz; exact hz.trans (hx.trans (min_le_right _ _))
    have conv := convex_closedBall (q t) ρ
    have hc : q t ∈ Metric.closedBall (q t) ρ := by simp [hρ]
    have hxm : x ∈ Metric.closedBall (q t) ρ := by rw [mem_closedBall_iff_norm]
    have lipD : ∀ z ∈ Metric.closedBall (q t) ρ, ‖fderiv ℝ a z - fderiv ℝ a (q t)‖ ≤ Q * ρ := fun z hz => by
      have := conv.norm_image_sub_le_of_norm_fderiv_le (𝕜 := ℝ) (fun z hz => diff2 z (h2 _ (mem t ht) z (inb z hz)).1)
        (fun z hz => (h2 _ (mem t ht) z (inb z hz)).2.2) hc hz
      rw [mem_closedBall_iff_norm] at hz
      exact this.trans (mul_le_mul_of_nonneg_left hz hQ)
    have := conv.norm_image_sub_le_of_norm_hasFDerivWithin_le' (f := a) (f' := fderiv ℝ a) (φ := fderiv ℝ a (q t))
      (fun z hz => (diff z (h2 _ (mem t ht) z (inb z hz)).1).hasFDerivAt.hasFDerivWithinAt) lipD hc hxm
    refine this.trans (le_of_eq ?_)
    rw [← hρ]; ring

end

/-! ### gravity -/

open SpaceHub V3 Force SpaceHub.Spec Finset

/-- the coordinates of a vector -/
def co (a : V3 ℝ) : ℝ × ℝ × ℝ := (a.x, a.y, a.z)

/-- the vector with given coordinates -/
def ve (p : ℝ × ℝ × ℝ) : V3 ℝ := ⟨p.1, p.2.1, p.2.2⟩

@[simp] theorem ve_co (a : V3 ℝ) : ve (co a) = a := rfl
@[simp] theorem co_ve (p : ℝ × ℝ × ℝ) : co (ve p) = p := rfl
theorem co_add (a b : V3 ℝ) : co (a + b) = co a + co b := rfl
theorem co_sub (a b : V3 ℝ) : co (a - b) = co a - co b := rfl
theorem co_smul (c : ℝ) (a : V3 ℝ) : co (c • a) = c • co a := by
  simp [co, mul_comm]
theorem co_zero : co 0 = 0 := rfl

theorem co_sum {ι : Type*} [DecidableEq ι] (s : Finset ι) (f : ι → V3 ℝ) : co (∑ i ∈ s, f i) = ∑ i ∈ s, co (f i) := by
  induction s using Finset.induction_on with
  | empty => simp [co_zero]
  | insert i s hi ih => rw [sum_insert hi, sum_insert hi, co_add, ih]

/-- positions (or velocities) of `n` particles -/
abbrev Conf (n : Nat) := Fin n → ℝ × ℝ × ℝ

/-- the acceleration of `n` particles of masses `m` by gravity -/
noncomputable def grav (n : Nat) (m : Nat → ℝ) (x : Conf n) : Conf n :=
  fun k => ∑ j ∈ univ.erase k, co (newton (m j) (ve (x k)) (ve (x j)))

/-- no two particles in one place -/
def free (n : Nat) : Set (Conf n) := {x | ∀ i j, i ≠ j → x i ≠ x j}

theorem free_open (n : Nat) : IsOpen (free n) := by
  have : free n = ⋂ i, ⋂ j, {x | i ≠ j → x i ≠ x j} := by ext x; simp [free]
  rw [this]
  refine isOpen_iInter_of_finite fun i => isOpen_iInter_of_finite fun j => ?_
  by_cases h : i = j
  · simp [h]
  · simp only [ne_eq, h, not_false_eq_true, true_imp_iff]
    exact isOpen_ne_fun (continuous_apply i) (continuous_apply j)

theorem dot_pos {d : ℝ × ℝ × ℝ} (h : d ≠ 0) : 0 < d.1 * d.1 + d.2.1 * d.2.1 + d.2.2 * d.2.2 := by
  obtain ⟨x, y, z⟩ := d
  simp only
  rcases eq_or_ne x 0 with hx | hx
  · rcases eq_or_ne y 0 with hy | hy
    · rcases eq_or_ne z 0 with hz | hz
      · exact absurd (by rw [hx, hy, hz]; rfl) h
      · have := mul_self_pos.2 hz; nlinarith [mul_self_nonneg x, mul_self_nonneg y]
    · have := mul_self_pos.2 hy; nlinarith [mul_self_nonneg x, mul_self_nonneg z]
  · have := mul_self_pos.2 hx; nlinarith [mul_self_nonneg z, mul_self_nonneg y]

theorem grav_smooth {d : WithTop ℕ∞} (n : Nat) (m : Nat → ℝ) : ContDiffOn ℝ d (grav n m) (free n) := by
  intro x hx
  refine ContDiffAt.contDiffWithinAt ?_
  rw [contDiffAt_pi]
  intro k
  have : (fun x : Conf n => grav n m x k) = fun x => ∑ j ∈ univ.erase k, co (newton (m j) (ve (x k)) (ve (x j))) := rfl
  rw [this]
  refine ContDiffAt.sum fun j hj => ?_
  have hjk : j ≠ k := (mem_erase.1 hj).1
  have hd : ContDiffAt ℝ d (fun x : Conf n => x j - x k) x :=
    ((contDiff_apply ℝ (ℝ × ℝ × ℝ) j).sub (contDiff_apply ℝ (ℝ × ℝ × ℝ) k)).contDiffAt
  have h1 : ContDiffAt ℝ d (fun x : Conf n => (x j - x k).1) x := hd.fst
  have h2 : ContDiffAt ℝ d (fun x : Conf n => (x j - x k).2.1) x := hd.snd.fst
  have h3 : ContDiffAt ℝ d (fun x : Conf n => (x j - x k).2.2) x := hd.snd.snd
  have hs := ((h1.mul h1).add (h2.mul h2)).add (h3.mul h3)
  have hp : 0 < (x j - x k).1 * (x j - x k).1 + (x j - x k).2.1 * (x j - x k).2.1 + (x j - x k).2.2 * (x j - x k).2.2 :=
    dot_pos (sub_ne_zero.2 (hx j k hjk))
  have hl := hs.sqrt hp.ne'
  have hl3 := hl.pow 3
  have hne : Real.sqrt ((x j - x k).1 * (x j - x k).1 + (x j - x k).2.1 * (x j - x k).2.1 + (x j - x k).2.2 * (x j - x k).2.2) ^ 3 ≠ 0 :=
    pow_ne_zero _ (Real.sqrt_pos.2 hp).ne'
  have hq := (contDiffAt_const (c := m j)).div hl3 hne
  refine (hq.smul hd).congr_of_eventuallyEq (Filter.Eventually.of_forall fun x => ?_)
  show co (newton (m j) (ve (x k)) (ve (x j))) = _
  rw [newton, co_smul, co_sub]
  rfl

end SpaceHub.Converge
