import Verif.Proof.ConvergeTube
import Verif.Proof.ConvergeRegu
import Verif.Proof.Core

/-
The energies of gravitating particles as functions of their positions and velocities, and the time transformation of the logarithmic Hamiltonian.
-/

set_option autoImplicit false

namespace SpaceHub.Converge
open Set Real SpaceHub.Integrator

section
variable {E : Type*} [NormedAddCommGroup E] [NormedSpace ℝ E]

theorem Tube.mono {a : E → E} {q v : ℝ → E} {T r r' A L V : ℝ} (H : Tube a q v T r A L V) (h0 : 0 < r') (h : r' ≤ r) : Tube a q v T r' A L V :=
  ⟨h0, H.hA, H.hL, H.hV, fun t ht x hx => H.acc t ht x (hx.trans h), fun t ht x x' hx hx' => H.lip t ht x x' (hx.trans h) (hx'.trans h),
    H.vel, H.dq, H.dv⟩

/-- bounds and Lipschitz constant of a function near a curve -/
theorem exists_lip [ProperSpace E] {f : E → ℝ} {U : Set E} (hU : IsOpen U) (hf : ContDiffOn ℝ 1 f U) {w : ℝ → E} {T : ℝ} (cw : ContinuousOn w (Icc 0 T))
    (hw : ∀ t ∈ Icc 0 T, w t ∈ U) : ∃ r > 0, ∃ B ≥ 0, ∃ Λ ≥ 0, ∀ t ∈ Icc 0 T, ∀ z, ‖z - w t‖ ≤ r → z ∈ U ∧ |f z| ≤ B ∧ |f z - f (w t)| ≤ Λ * ‖z - w t‖ := by
  have hK : IsCompact (w '' Icc 0 T) := isCompact_Icc.image_of_continuousOn cw
  have hKU : w '' Icc 0 T ⊆ U := by rintro _ ⟨t, ht, rfl⟩; exact hw t ht
  obtain ⟨r, hr, B, hB, Λ, hΛ, h⟩ := exists_bounds hU hf hK hKU
  refine ⟨r, hr, B, hB, Λ, hΛ, fun t ht z hz => ?_⟩
  have mem : w t ∈ w '' Icc 0 T := ⟨t, ht, rfl⟩
  refine ⟨(h _ mem z hz).1, (h _ mem z hz).2.1, ?_⟩
  have inb : ∀ y ∈ Metric.closedBall (w t) r, ‖y - w t‖ ≤ r := fun y hy => by rwa [mem_closedBall_iff_norm] at hy
  exact (convex_closedBall (w t) r).norm_image_sub_le_of_norm_fderiv_le (𝕜 := ℝ)
    (fun y hy => ((hf.differentiableOn (by norm_num)) y (h _ mem y (inb y hy)).1).differentiableAt (hU.mem_nhds (h _ mem y (inb y hy)).1))
    (fun y hy => (h _ mem y (inb y hy)).2.2) (Metric.mem_closedBall_self hr.le) (mem_closedBall_iff_norm.2 hz)

theorem exists_clocks [ProperSpace E] {f g : E → ℝ} {U W : Set E} (hU : IsOpen U) (hf : ContDiffOn ℝ 1 f U) (hW : IsOpen W) (hg : ContDiffOn ℝ 1 g W)
    {q w : ℝ → E} {T : ℝ} (cq : ContinuousOn q (Icc 0 T)) (cw : ContinuousOn w (Icc 0 T)) (hw : ∀ t ∈ Icc 0 T, w t ∈ U) (hq : ∀ t ∈ Icc 0 T, q t ∈ W)
    (hT : 0 ≤ T) (pos : ∀ t ∈ Icc 0 T, 0 < f (w t)) (eq : ∀ t ∈ Icc 0 T, f (w t) = g (q t)) :
    ∃ r0 > 0, ∃ F Λ f0, ∀ r, r ≤ r0 → Clocks f g q w T r F Λ f0 ∧
      ∀ t ∈ Icc 0 T, (∀ v, ‖v - w t‖ ≤ r → v ∈ U) ∧ ∀ x, ‖x - q t‖ ≤ r → x ∈ W := by
  obtain ⟨r1, p1, B1, b1, Λ1, l1, h1⟩ := exists_lip hU hf cw hw
  obtain ⟨r2, p2, B2, b2, Λ2, l2, h2⟩ := exists_lip hW hg cq hq
  obtain ⟨t', ht', hmin⟩ := isCompact_Icc.exists_isMinOn (nonempty_Icc.2 hT) (f := fun t => f (w t))
    (ContinuousOn.comp (t := U) hf.continuousOn cw hw)
  refine ⟨min r1 r2, lt_min p1 p2, max B1 B2, max Λ1 Λ2, f (w t'), fun r hr => ⟨⟨le_max_of_le_left b1, le_max_of_le_left l1, pos t' ht', ?_, ?_, ?_, ?_,
    fun t ht => hmin ht, eq⟩, fun t ht => ⟨fun v hv => (h1 t ht v ?_).1, fun x hx => (h2 t ht x ?_).1⟩⟩⟩
  · exact fun t ht v hv => (h1 t ht v (hv.trans (hr.trans (min_le_left _ _)))).2.1.trans (le_max_left _ _)
  · exact fun t ht v hv => (h2 t ht v (hv.trans (hr.trans (min_le_right _ _)))).2.1.trans (le_max_right _ _)
  · exact fun t ht v hv => (h1 t ht v (hv.trans (hr.trans (min_le_left _ _)))).2.2.trans (by gcongr; exact le_max_left _ _)
  · exact fun t ht v hv => (h2 t ht v (hv.trans (hr.trans (min_le_right _ _)))).2.2.trans (by gcongr; exact le_max_right _ _)
  · exact hv.trans (hr.trans (min_le_left _ _))
  · exact hx.trans (hr.trans (min_le_right _ _))

end

/-! ### energies -/

open SpaceHub V3 Force SpaceHub.Spec Core Finset

/-- vectors of `n` particles as an array -/
noncomputable def ext (n : Nat) (x : Conf n) (k : Nat) : V3 ℝ := if h : k < n then ve (x ⟨k, h⟩) else 0

/-- minus the potential energy -/
noncomputable def potC (n : Nat) (m : Nat → ℝ) (x : Conf n) : ℝ := -potential 1 n m (ext n x)

/-- the kinetic energy -/
noncomputable def kinC (n : Nat) (m : Nat → ℝ) (v : Conf n) : ℝ := ∑ i ∈ Finset.range n, 1 / 2 * m i * dot (ext n v i) (ext n v i)

theorem ext_smooth {d : WithTop ℕ∞} (n : Nat) {k : Nat} (hk : k < n) :
    ContDiff ℝ d (fun x : Conf n => (ext n x k).x) ∧ ContDiff ℝ d (fun x : Conf n => (ext n x k).y) ∧ ContDiff ℝ d (fun x : Conf n => (ext n x k).z) := by
  have h := contDiff_apply (n := d) ℝ (ℝ × ℝ × ℝ) (⟨k, hk⟩ : Fin n)
  have e : ∀ x : Conf n, ext n x k = ve (x ⟨k, hk⟩) := fun x => dif_pos hk
  simp only [e]
  exact ⟨h.fst, h.snd.fst, h.snd.snd⟩

theorem kinC_smooth {d : WithTop ℕ∞} (n : Nat) (m : Nat → ℝ) : ContDiff ℝ d (kinC n m) := by
  have : kinC n m = fun v => ∑ i ∈ Finset.range n, 1 / 2 * m i * dot (ext n v i) (ext n v i) := rfl
  rw [this]
  refine ContDiff.sum fun i hi => ?_
  obtain ⟨h1, h2, h3⟩ := ext_smooth n (Finset.mem_range.1 hi)
  exact contDiff_const.mul (((h1.mul h1).add (h2.mul h2)).add (h3.mul h3))

theorem potC_smooth {d : WithTop ℕ∞} (n : Nat) (m : Nat → ℝ) : ContDiffOn ℝ d (potC n m) (free n) := by
  have : potC n m = fun x => -∑ i ∈ Finset.Ico 0 n, ∑ j ∈ Finset.Ico (i + 1) n, -(1 * m i * m j / len (ext n x i - ext n x j)) := by
    funext x; rw [potC, potential_eq]
  rw [this]
  intro x hx
  refine ContDiffAt.contDiffWithinAt (ContDiffAt.neg ?_)
  refine ContDiffAt.sum fun i hi => ContDiffAt.sum fun j hj => ?_
  have hi' : i < n := (Finset.mem_Ico.1 hi).2
  have hj' : j < n := (Finset.mem_Ico.1 hj).2
  have hij : i ≠ j := by have := (Finset.mem_Ico.1 hj).1; omega
  obtain ⟨a1, a2, a3⟩ := ext_smooth (d := d) n hi'
  obtain ⟨b1, b2, b3⟩ := ext_smooth (d := d) n hj'
  have d1 := (a1.sub b1).contDiffAt (x := x)
  have d2 := (a2.sub b2).contDiffAt (x := x)
  have d3 := (a3.sub b3).contDiffAt (x := x)
  have hs := ((d1.mul d1).add (d2.mul d2)).add (d3.mul d3)
  have hne : x ⟨i, hi'⟩ - x ⟨j, hj'⟩ ≠ 0 := sub_ne_zero.2 (hx _ _ (by simpa [Fin.ext_iff] using hij))
  have hp := dot_pos hne
  have e1 : ext n x i = ve (x ⟨i, hi'⟩) := dif_pos hi'
  have e2 : ext n x j = ve (x ⟨j, hj'⟩) := dif_pos hj'
  have hp' : ((ext n x i).x - (ext n x j).x) * ((ext n x i).x - (ext n x j).x) + ((ext n x i).y - (ext n x j).y) * ((ext n x i).y - (ext n x j).y) +
      ((ext n x i).z - (ext n x j).z) * ((ext n x i).z - (ext n x j).z) ≠ 0 := by
    rw [e1, e2]; exact hp.ne'
  have hl := hs.sqrt hp'
  have hl0 : √(((ext n x i).x - (ext n x j).x) * ((ext n x i).x - (ext n x j).x) + ((ext n x i).y - (ext n x j).y) * ((ext n x i).y - (ext n x j).y) +
      ((ext n x i).z - (ext n x j).z) * ((ext n x i).z - (ext n x j).z)) ≠ 0 := by
    rw [e1, e2]; exact (Real.sqrt_pos.2 hp).ne'
  exact ((contDiffAt_const (c := 1 * m i * m j)).div hl hl0).neg

theorem potC_pos {n : Nat} {m : Nat → ℝ} (hn : 2 ≤ n) (hm : ∀ k, k < n → 0 < m k) {x : Conf n} (hx : x ∈ free n) : 0 < potC n m x := by
  rw [potC, potential_eq, ← Finset.sum_neg_distrib]
  have term : ∀ i j, i < n → j < n → i ≠ j → 0 < 1 * m i * m j / len (ext n x i - ext n x j) := by
    intro i j hi hj hij
    have e1 : ext n x i = ve (x ⟨i, hi⟩) := dif_pos hi
    have e2 : ext n x j = ve (x ⟨j, hj⟩) := dif_pos hj
    have hne : x ⟨i, hi⟩ - x ⟨j, hj⟩ ≠ 0 := sub_ne_zero.2 (hx _ _ (by simpa [Fin.ext_iff] using hij))
    have hp := dot_pos hne
    have hl : 0 < len (ext n x i - ext n x j) := by rw [e1, e2]; exact Real.sqrt_pos.2 hp
    have := hm i hi
    have := hm j hj
    positivity
  refine Finset.sum_pos' (fun i hi => ?_) ⟨0, by simp; omega, ?_⟩
  · rw [← Finset.sum_neg_distrib]
    refine Finset.sum_nonneg fun j hj => ?_
    rw [neg_neg]
    have h1 := Finset.mem_Ico.1 hi
    have h2 := Finset.mem_Ico.1 hj
    exact (term i j h1.2 h2.2 (by omega)).le
  · rw [← Finset.sum_neg_distrib]
    refine Finset.sum_pos (fun j hj => ?_) ⟨1, by simp; omega⟩
    rw [neg_neg]
    have h2 := Finset.mem_Ico.1 hj
    exact term 0 j (by omega) h2.2 (by omega)

end SpaceHub.Converge
