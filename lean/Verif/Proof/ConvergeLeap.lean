import Verif.Proof.ConvergePlain
import Mathlib.Analysis.Calculus.Deriv.Pow

/-
The two leap-frogs are of second order.
-/

set_option autoImplicit false

namespace SpaceHub.Converge
open Set Real SpaceHub.Integrator SpaceHub.Spec

variable {E : Type*} [NormedAddCommGroup E] [NormedSpace ℝ E]
variable {a : E → E} {q v : ℝ → E} {T r A L V Q : ℝ}

/-- First-order expansion of the acceleration near the motion. -/
def Expands (a : E → E) (q : ℝ → E) (T r L Q : ℝ) : Prop :=
  ∀ t ∈ Icc 0 T, ∃ D : E →L[ℝ] E, ‖D‖ ≤ L ∧ ∀ x, ‖x - q t‖ ≤ r → ‖a x - a (q t) - D (x - q t)‖ ≤ Q * ‖x - q t‖ ^ 2

/-- the velocity -/
theorem Tube.vel3 (H : Tube a q v T r A L V) (hQ : 0 ≤ Q) {t h β : ℝ} (ht : 0 ≤ t) (h0 : 0 ≤ h) (hT : t + h ≤ T) (hVr : V * h ≤ r)
    {D : E →L[ℝ] E} (hD : ‖D‖ ≤ L) (hx : ∀ x, ‖x - q t‖ ≤ r → ‖a x - a (q t) - D (x - q t)‖ ≤ Q * ‖x - q t‖ ^ 2) {b : E}
    (hb : ‖b - a (q t) - (h / 2) • D (v t)‖ ≤ β * h ^ 2) : ‖v (t + h) - v t - h • b‖ ≤ (Q * V ^ 2 + L * A + β) * h ^ 3 := by
  have sub : Icc t (t + h) ⊆ Icc 0 T := Icc_subset_Icc ht hT
  have htT : t ∈ Icc 0 T := ⟨ht, by linarith⟩
  have hV := H.hV
  have hA := H.hA
  have hL := H.hL
  have key := Convex.norm_image_sub_le_of_norm_hasDerivWithin_le
    (f := fun s => v s - (s - t) • b - ((s - t) ^ 2 / 2 - (s - t) * (h / 2)) • D (v t))
    (f' := fun s => a (q s) - b - ((s - t) - h / 2) • D (v t))
    (s := Icc t (t + h)) (C := (Q * V ^ 2 + L * A + β) * h ^ 2) (x := t) (y := t + h) (fun s hs => by
      have e0 : HasDerivWithinAt (fun s : ℝ => s - t) 1 (Icc t (t + h)) s := (hasDerivWithinAt_id s _).sub_const t
      have e1 : HasDerivWithinAt (fun s => (s - t) • b) ((1:ℝ) • b) (Icc t (t + h)) s := e0.smul_const b
      have e2 : HasDerivWithinAt (fun s : ℝ => (s - t) ^ 2 / 2 - (s - t) * (h / 2)) ((s - t) - h / 2) (Icc t (t + h)) s := by
        have := ((e0.pow 2).div_const 2).sub (e0.mul_const (h / 2))
        refine this.congr_deriv ?_
        norm_num
      have e3 := e2.smul_const (D (v t))
      rw [one_smul] at e1
      exact (((H.dv s (sub hs)).mono sub).sub e1).sub e3) (fun s hs => by
      have hs1 : 0 ≤ s - t := by linarith [hs.1]
      have hs2 : s - t ≤ h := by linarith [hs.2]
      have habs : |s - t| = s - t := abs_of_nonneg hs1
      have n1 := H.q_near htT (sub hs)
      rw [habs] at n1
      have n1' : ‖q s - q t‖ ≤ V * h := n1.trans (mul_le_mul_of_nonneg_left hs2 hV)
      have n2 := hx (q s) (n1'.trans hVr)
      have n2' : Q * ‖q s - q t‖ ^ 2 ≤ Q * V ^ 2 * h ^ 2 := by
        have : ‖q s - q t‖ ^ 2 ≤ (V * h) ^ 2 := by gcongr
        calc Q * ‖q s - q t‖ ^ 2 ≤ Q * (V * h) ^ 2 := by gcongr
          _ = _ := by ring
      have subs : Icc t (t + (s - t)) ⊆ Icc 0 T := Icc_subset_Icc ht (by linarith)
      have n3 := taylor1 (y := q) (w := v) (W := A * h) hs1 (fun u hu => (H.dq u (subs hu)).mono subs) (fun u hu => by
        refine (H.v_near htT (subs hu)).trans (mul_le_mul_of_nonneg_left ?_ hA)
        rw [abs_of_nonneg (by linarith [hu.1])]; linarith [hu.2])
      rw [add_sub_cancel] at n3
      have n4 : ‖D (q s - q t - (s - t) • v t)‖ ≤ L * A * h ^ 2 := by
        refine (D.le_opNorm _).trans ?_
        calc ‖D‖ * ‖q s - q t - (s - t) • v t‖ ≤ L * (A * h * h) := by
              gcongr
              exact n3.trans (mul_le_mul_of_nonneg_left hs2 (by positivity))
          _ = _ := by ring
      have e : a (q s) - b - ((s - t) - h / 2) • D (v t) = (a (q s) - a (q t) - D (q s - q t)) + D (q s - q t - (s - t) • v t) -
          (b - a (q t) - (h / 2) • D (v t)) := by
        rw [map_sub D (q s - q t), map_smul, sub_smul]; abel
      rw [e]
      have m1 := norm_sub_le ((a (q s) - a (q t) - D (q s - q t)) + D (q s - q t - (s - t) • v t)) (b - a (q t) - (h / 2) • D (v t))
      have m2 := norm_add_le (a (q s) - a (q t) - D (q s - q t)) (D (q s - q t - (s - t) • v t))
      rw [add_mul, add_mul]
      linarith) (convex_Icc _ _) ⟨le_rfl, by linarith⟩ ⟨by linarith, le_rfl⟩
  have e : v (t + h) - (t + h - t) • b - ((t + h - t) ^ 2 / 2 - (t + h - t) * (h / 2)) • D (v t) -
      (v t - (t - t) • b - ((t - t) ^ 2 / 2 - (t - t) * (h / 2)) • D (v t)) = v (t + h) - v t - h • b := by
    have c1 : (t + h - t) ^ 2 / 2 - (t + h - t) * (h / 2) = 0 := by ring
    have c2 : (t - t) ^ 2 / 2 - (t - t) * (h / 2) = 0 := by ring
    rw [c1, c2, add_sub_cancel_left, sub_self]
    simp only [zero_smul, sub_zero]
    abel
  beta_reduce at key
  rw [e, add_sub_cancel_left, norm_of_nonneg h0] at key
  refine key.trans (le_of_eq ?_)
  ring

/-- the position -/
theorem Tube.pos3 (H : Tube a q v T r A L V) {t h γ : ℝ} (ht : 0 ≤ t) (h0 : 0 ≤ h) (hT : t + h ≤ T) {b : E}
    (hγ : 0 ≤ γ) (hb : ∀ s ∈ Icc t (t + h), ‖a (q s) - b‖ ≤ γ * h) : ‖q (t + h) - q t - h • v t - (h ^ 2 / 2) • b‖ ≤ γ * h ^ 3 := by
  have sub : Icc t (t + h) ⊆ Icc 0 T := Icc_subset_Icc ht hT
  have h1 : ∀ s ∈ Icc t (t + h), ‖v s - v t - (s - t) • b‖ ≤ γ * h ^ 2 := by
    intro s hs
    have key := Convex.norm_image_sub_le_of_norm_hasDerivWithin_le (f := fun s => v s - (s - t) • b) (f' := fun s => a (q s) - b)
      (s := Icc t (t + h)) (C := γ * h) (x := t) (y := s) (fun s hs => by
        have e0 : HasDerivWithinAt (fun s : ℝ => s - t) 1 (Icc t (t + h)) s := (hasDerivWithinAt_id s _).sub_const t
        have e1 : HasDerivWithinAt (fun s => (s - t) • b) ((1:ℝ) • b) (Icc t (t + h)) s := e0.smul_const b
        rw [one_smul] at e1
        exact ((H.dv s (sub hs)).mono sub).sub e1) hb (convex_Icc _ _) ⟨le_rfl, by linarith⟩ hs
    have e : v s - (s - t) • b - (v t - (t - t) • b) = v s - v t - (s - t) • b := by
      rw [sub_self, zero_smul, sub_zero]; abel
    simp only [e] at key
    refine key.trans ?_
    rw [norm_of_nonneg (by linarith [hs.1])]
    calc γ * h * (s - t) ≤ γ * h * h := mul_le_mul_of_nonneg_left (by linarith [hs.2]) (by positivity)
      _ = _ := by ring
  have key := Convex.norm_image_sub_le_of_norm_hasDerivWithin_le (f := fun s => q s - (s - t) • v t - ((s - t) ^ 2 / 2) • b)
      (f' := fun s => v s - v t - (s - t) • b)
      (s := Icc t (t + h)) (C := γ * h ^ 2) (x := t) (y := t + h) (fun s hs => by
        have e0 : HasDerivWithinAt (fun s : ℝ => s - t) 1 (Icc t (t + h)) s := (hasDerivWithinAt_id s _).sub_const t
        have e1 : HasDerivWithinAt (fun s => (s - t) • v t) ((1:ℝ) • v t) (Icc t (t + h)) s := e0.smul_const (v t)
        have e2 : HasDerivWithinAt (fun s : ℝ => (s - t) ^ 2 / 2) (s - t) (Icc t (t + h)) s := by
          refine ((e0.pow 2).div_const 2).congr_deriv ?_
          norm_num
        rw [one_smul] at e1
        exact (((H.dq s (sub hs)).mono sub).sub e1).sub (e2.smul_const b)) h1 (convex_Icc _ _) ⟨le_rfl, by linarith⟩ ⟨by linarith, le_rfl⟩
  have e : q (t + h) - (t + h - t) • v t - ((t + h - t) ^ 2 / 2) • b - (q t - (t - t) • v t - ((t - t) ^ 2 / 2) • b) =
      q (t + h) - q t - h • v t - (h ^ 2 / 2) • b := by
    have c2 : (t - t) ^ 2 / 2 = 0 := by ring
    rw [c2, add_sub_cancel_left, sub_self]
    simp only [zero_smul, sub_zero]
    abel
  beta_reduce at key
  rw [e, add_sub_cancel_left, norm_of_nonneg h0] at key
  refine key.trans (le_of_eq ?_)
  ring

/-- the constant of the local error of the leap-frogs -/
noncomputable def locC (A L V Q : ℝ) : ℝ := Q * (V + A) ^ 2 * 2 + L * (2 * V + 3 * A)

theorem step_dkd (a : E → E) (h : ℝ) (z : E × E) : stepE a symplectic2nd h z =
    (z.1 + h • z.2 + (h ^ 2 / 2) • a (z.1 + (h / 2) • z.2), z.2 + h • a (z.1 + (h / 2) • z.2)) := by
  have e : z.1 + h • ((0.5 : ℚ) : ℝ) • z.2 = z.1 + (h / 2) • z.2 := by
    rw [smul_smul]; congr 2; norm_num; ring
  simp only [stepE, comp, symplectic2nd, List.map_cons, List.map_nil, List.foldl_cons, List.foldl_nil, stageF, stageG,
    Prod.fst_add, Prod.snd_add, Prod.smul_fst, Prod.smul_snd, smul_zero, add_zero, e]
  ext1
  · simp only [Prod.fst_add, Prod.smul_fst]
    rw [e]
    norm_num
    module
  · simp only [Prod.snd_add, Prod.smul_snd]
    norm_num

theorem step_kdk (a : E → E) (h : ℝ) (z : E × E) : stepE a leapFrogKDK h z =
    (z.1 + h • z.2 + (h ^ 2 / 2) • a z.1,
      z.2 + h • ((1 / 2 : ℝ) • (a z.1 + a (z.1 + h • z.2 + (h ^ 2 / 2) • a z.1)))) := by
  have e : z.1 + h • ((1 : ℚ) : ℝ) • (z.2 + h • ((0.5 : ℚ) : ℝ) • a z.1) = z.1 + h • z.2 + (h ^ 2 / 2) • a z.1 := by
    norm_num
    module
  simp only [stepE, comp, leapFrogKDK, List.map_cons, List.map_nil, List.foldl_cons, List.foldl_nil, stageF, stageG,
    Prod.fst_add, Prod.snd_add, Prod.smul_fst, Prod.smul_snd, smul_zero, add_zero]
  ext1
  · simp only [Prod.fst_add, Prod.smul_fst, smul_zero, add_zero]
    exact e
  · simp only [Prod.snd_add, Prod.smul_snd, smul_zero, add_zero]
    rw [e]
    norm_num
    module

theorem Tube.loc_dkd (H : Tube a q v T r A L V) (hQ : 0 ≤ Q) (hx : Expands a q T r L Q) {t h : ℝ} (ht : 0 ≤ t) (h0 : 0 ≤ h)
    (hT : t + h ≤ T) (hr : (V + A) * h ≤ r) :
    ‖stepE a symplectic2nd h (q t, v t) - (q (t + h), v (t + h))‖ ≤ h * (locC A L V Q * h ^ 2) := by
  have hV := H.hV
  have hA := H.hA
  have hL := H.hL
  have htT : t ∈ Icc 0 T := ⟨ht, by linarith⟩
  have hvt := H.vel t htT
  have hVr : V * h ≤ r := le_trans (by gcongr; linarith) hr
  obtain ⟨D, hD, hDx⟩ := hx t htT
  set b := a (q t + (h / 2) • v t) with hb
  have hxh : ‖q t + (h / 2) • v t - q t‖ ≤ V * h := by
    rw [add_sub_cancel_left, norm_smul, norm_of_nonneg (by positivity)]
    nlinarith [norm_nonneg (v t)]
  have b1 : ‖b - a (q t) - (h / 2) • D (v t)‖ ≤ Q * V ^ 2 * h ^ 2 := by
    have := hDx _ (hxh.trans hVr)
    rw [add_sub_cancel_left, map_smul] at this
    refine this.trans ?_
    rw [add_sub_cancel_left] at hxh
    calc Q * ‖(h / 2) • v t‖ ^ 2 ≤ Q * (V * h) ^ 2 := by gcongr
      _ = _ := by ring
  have c1 := H.vel3 hQ ht h0 hT hVr hD hDx b1
  have sub : Icc t (t + h) ⊆ Icc 0 T := Icc_subset_Icc ht hT
  have c2 := H.pos3 ht h0 hT (b := b) (γ := 2 * (L * V)) (by positivity) (fun s hs => by
    have n1 := H.q_near htT (sub hs)
    rw [abs_of_nonneg (by linarith [hs.1])] at n1
    have n1' : ‖q s - q t‖ ≤ V * h := n1.trans (mul_le_mul_of_nonneg_left (by linarith [hs.2]) hV)
    have n2 := H.lip t htT (q s) (q t + (h / 2) • v t) (n1'.trans hVr) (hxh.trans hVr)
    have n3 : ‖q s - (q t + (h / 2) • v t)‖ ≤ V * h + V * h := by
      have e : q s - (q t + (h / 2) • v t) = (q s - q t) - (q t + (h / 2) • v t - q t) := by abel
      rw [e]
      exact (norm_sub_le _ _).trans (add_le_add n1' hxh)
    refine n2.trans ((mul_le_mul_of_nonneg_left n3 hL).trans (le_of_eq (by ring))))
  rw [step_dkd, Prod.mk_sub_mk, Prod.norm_def]
  have e1 : ‖q t + h • v t + (h ^ 2 / 2) • b - q (t + h)‖ = ‖q (t + h) - q t - h • v t - (h ^ 2 / 2) • b‖ := by
    rw [← norm_neg]; congr 1; abel
  have e2 : ‖v t + h • b - v (t + h)‖ = ‖v (t + h) - v t - h • b‖ := by rw [← norm_neg]; congr 1; abel
  simp only [← hb, e1, e2]
  have hh3 : 0 ≤ h ^ 3 := by positivity
  have hQV : Q * V ^ 2 ≤ Q * (V + A) ^ 2 := by gcongr; linarith
  have hLA : 0 ≤ L * A := by positivity
  have hLV : 0 ≤ L * V := by positivity
  have hQA : 0 ≤ Q * (V + A) ^ 2 := by positivity
  have f : h * (locC A L V Q * h ^ 2) = locC A L V Q * h ^ 3 := by ring
  rw [f]
  refine max_le (c2.trans ?_) (c1.trans ?_) <;> refine mul_le_mul_of_nonneg_right ?_ hh3 <;> unfold locC <;> nlinarith

theorem Tube.loc_kdk (H : Tube a q v T r A L V) (hQ : 0 ≤ Q) (hx : Expands a q T r L Q) {t h : ℝ} (ht : 0 ≤ t) (h0 : 0 ≤ h)
    (hT : t + h ≤ T) (hr : (V + A) * h ≤ r) (hle : h ≤ 1) :
    ‖stepE a leapFrogKDK h (q t, v t) - (q (t + h), v (t + h))‖ ≤ h * (locC A L V Q * h ^ 2) := by
  have hV := H.hV
  have hA := H.hA
  have hL := H.hL
  have htT : t ∈ Icc 0 T := ⟨ht, by linarith⟩
  have hvt := H.vel t htT
  have hat := H.acc_on htT
  have hVr : V * h ≤ r := le_trans (by gcongr; linarith) hr
  obtain ⟨D, hD, hDx⟩ := hx t htT
  set x1 := q t + h • v t + (h ^ 2 / 2) • a (q t) with hx1
  have ex : x1 - q t = h • v t + (h ^ 2 / 2) • a (q t) := by rw [hx1]; abel
  have hxh : ‖x1 - q t‖ ≤ (V + A) * h := by
    rw [ex]
    refine (norm_add_le _ _).trans ?_
    rw [norm_smul, norm_smul, norm_of_nonneg h0, norm_of_nonneg (by positivity)]
    have m1 : h * ‖v t‖ ≤ h * V := by gcongr
    have m2 : h ^ 2 / 2 * ‖a (q t)‖ ≤ h * A := by
      have : h ^ 2 / 2 ≤ h := by nlinarith
      gcongr
    linarith
  set b := (1 / 2 : ℝ) • (a (q t) + a x1) with hb
  have b1 : ‖b - a (q t) - (h / 2) • D (v t)‖ ≤ (Q * (V + A) ^ 2 + L * A) * h ^ 2 := by
    have n1 := hDx _ (hxh.trans hr)
    have n2 : Q * ‖x1 - q t‖ ^ 2 ≤ Q * (V + A) ^ 2 * h ^ 2 := by
      calc Q * ‖x1 - q t‖ ^ 2 ≤ Q * ((V + A) * h) ^ 2 := by gcongr
        _ = _ := by ring
    have n3 : ‖(h ^ 2 / 2) • D (a (q t))‖ ≤ L * A * h ^ 2 := by
      rw [norm_smul, norm_of_nonneg (by positivity)]
      have : ‖D (a (q t))‖ ≤ L * A := (D.le_opNorm _).trans (by gcongr)
      calc h ^ 2 / 2 * ‖D (a (q t))‖ ≤ h ^ 2 * (L * A) := by gcongr; linarith [sq_nonneg h]
        _ = _ := by ring
    have e : b - a (q t) - (h / 2) • D (v t) = (1 / 2 : ℝ) • ((a x1 - a (q t) - D (x1 - q t)) + (h ^ 2 / 2) • D (a (q t))) := by
      rw [ex, map_add, map_smul, map_smul, hb]
      module
    rw [e, norm_smul, norm_of_nonneg (by norm_num)]
    have := norm_add_le (a x1 - a (q t) - D (x1 - q t)) ((h ^ 2 / 2) • D (a (q t)))
    rw [add_mul]
    have := norm_nonneg ((a x1 - a (q t) - D (x1 - q t)) + (h ^ 2 / 2) • D (a (q t)))
    linarith
  have c1 := H.vel3 hQ ht h0 hT hVr hD hDx b1
  have sub : Icc t (t + h) ⊆ Icc 0 T := Icc_subset_Icc ht hT
  have c2 := H.pos3 ht h0 hT (b := a (q t)) (γ := L * V) (by positivity) (fun s hs => by
    have h5 : |s - t| ≤ h := by rw [abs_of_nonneg (by linarith [hs.1])]; linarith [hs.2]
    refine (H.a_near htT (sub hs) ((mul_le_mul_of_nonneg_left h5 hV).trans hVr)).trans ?_
    gcongr)
  rw [step_kdk, Prod.mk_sub_mk, Prod.norm_def]
  have e1 : ‖x1 - q (t + h)‖ = ‖q (t + h) - q t - h • v t - (h ^ 2 / 2) • a (q t)‖ := by
    rw [← norm_neg, hx1]; congr 1; abel
  have e2 : ‖v t + h • b - v (t + h)‖ = ‖v (t + h) - v t - h • b‖ := by rw [← norm_neg]; congr 1; abel
  simp only [← hx1, ← hb, e1, e2]
  have hh3 : 0 ≤ h ^ 3 := by positivity
  have hQV : Q * V ^ 2 ≤ Q * (V + A) ^ 2 := by gcongr; linarith
  have hLA : 0 ≤ L * A := by positivity
  have hLV : 0 ≤ L * V := by positivity
  have hQA : 0 ≤ Q * (V + A) ^ 2 := by positivity
  have f : h * (locC A L V Q * h ^ 2) = locC A L V Q * h ^ 3 := by ring
  rw [f]
  refine max_le (c2.trans ?_) (c1.trans ?_) <;> refine mul_le_mul_of_nonneg_right ?_ hh3 <;> unfold locC <;> nlinarith

/-- the constant of the second-order bound -/
noncomputable def const2 (T A L V Q : ℝ) : ℝ := exp (3 * (1 + L) * T) * (T * locC A L V Q)

/-- The leap-frogs: the error is of the order of the square of the step. -/
theorem Tube.second (H : Tube a q v T r A L V) (hQ : 0 ≤ Q) (hx : Expands a q T r L Q) {stages : List Stage}
    (hst : stages = symplectic2nd ∨ stages = leapFrogKDK) {hm : ℝ} (_hm0 : 0 ≤ hm) (hm1 : hm ≤ 1)
    (hr : (V + A) * hm ≤ r) (h1 : 3 * (hm * (A + V + r)) ≤ r / 2) (h2 : const2 T A L V Q * hm ^ 2 ≤ r / 2) (_hT : 0 ≤ T)
    (hs : List ℝ) (hhs : ∀ h ∈ hs, 0 ≤ h ∧ h ≤ hm) (hsum : hs.sum ≤ T) :
    ‖iter (stepE a stages) hs (q 0, v 0) - (q hs.sum, v hs.sum)‖ ≤ const2 T A L V Q * hm ^ 2 := by
  have hr0 := H.hr.le
  have hV := H.hV
  have hA := H.hA
  have hL := H.hL
  have hC : 0 ≤ locC A L V Q := by unfold locC; positivity
  have hlen : stages.length = 3 := by rcases hst with rfl | rfl <;> rfl
  have hco : ∀ s ∈ stages, |((coef s : ℚ) : ℝ)| ≤ 1 := by
    rcases hst with rfl | rfl <;> intro s hs <;> simp only [symplectic2nd, leapFrogKDK, List.mem_cons, List.not_mem_nil, or_false] at hs <;>
      rcases hs with rfl | rfl | rfl <;> norm_num [coef, abs_of_nonneg]
  set l := stages.map fun s => (stageF a s, stageG a s) with hl
  have hmap : comp (l.map Prod.fst) = stepE a stages := by simp [hl, stepE, Function.comp_def]
  have hll : (l.length : ℝ) = 3 := by rw [hl, List.length_map, hlen]; norm_num
  have hsm : ∀ h, 0 ≤ h → h ≤ hm → (l.length : ℝ) * (h * (1 * (A + V + r) + 0 * hm)) ≤ r / 2 := by
    intro h g0 g1
    rw [hll, zero_mul, add_zero, one_mul]
    exact le_trans (by gcongr) h1
  have key := global (Φ := stepE a stages) (y := fun t => (q t, v t)) (T := T) (r := r / 2) (M := 3 * (1 + L)) (hm := hm)
    (ε := locC A L V Q * hm ^ 2) (by positivity) (by positivity)
    (fun t ht h hh z hz => by
      have := comp_stable (y := fun t => (q t, v t)) l (fun p hp => by
        obtain ⟨s, hs', rfl⟩ := List.mem_map.1 hp
        exact H.good hm (hco s hs')) (by positivity) le_rfl (by positivity) ht hh z (q t, v t)
        (by have := hsm h hh.1 hh.2; linarith)
        (by have := hsm h hh.1 hh.2; simp only [sub_self, norm_zero]; linarith)
      rw [hmap, hll, one_mul] at this
      exact this)
    (fun t h ht h0 h3 hth => by
      have hr' : (V + A) * h ≤ r := le_trans (by gcongr) hr
      have : ‖stepE a stages h (q t, v t) - (q (t + h), v (t + h))‖ ≤ h * (locC A L V Q * h ^ 2) := by
        rcases hst with rfl | rfl
        · exact H.loc_dkd hQ hx ht h0 hth hr'
        · exact H.loc_kdk hQ hx ht h0 hth hr' (h3.trans hm1)
      refine this.trans ?_
      gcongr)
    (by rw [← mul_assoc]; unfold const2 at h2; linarith) hs 0 (q 0, v 0) hhs le_rfl (by linarith) (by simp)
  rw [zero_add] at key
  refine key.trans ?_
  have hs0 : 0 ≤ hs.sum := List.sum_nonneg fun x hx => (hhs x hx).1
  have e : const2 T A L V Q * hm ^ 2 = exp (3 * (1 + L) * T) * (T * (locC A L V Q * hm ^ 2)) := by unfold const2; ring
  rw [e]
  gcongr

end SpaceHub.Converge
