import Verif.Proof.Converge
import Verif.Spec.Gravity

/-
Convergence of the drift/kick integrators for `x'' = a(x)`.
-/

set_option autoImplicit false

namespace SpaceHub.Converge
open Set Real SpaceHub.Integrator SpaceHub.Spec

variable {E : Type*} [NormedAddCommGroup E] [NormedSpace ℝ E]

/-- A motion `q` with velocity `v` under the acceleration field `a`, and bounds near it. -/
structure Tube (a : E → E) (q v : ℝ → E) (T r A L V : ℝ) : Prop where
  hr : 0 < r
  hA : 0 ≤ A
  hL : 0 ≤ L
  hV : 0 ≤ V
  acc : ∀ t ∈ Icc 0 T, ∀ x, ‖x - q t‖ ≤ r → ‖a x‖ ≤ A
  lip : ∀ t ∈ Icc 0 T, ∀ x x', ‖x - q t‖ ≤ r → ‖x' - q t‖ ≤ r → ‖a x - a x'‖ ≤ L * ‖x - x'‖
  vel : ∀ t ∈ Icc 0 T, ‖v t‖ ≤ V
  dq : ∀ t ∈ Icc 0 T, HasDerivWithinAt q (v t) (Icc 0 T) t
  dv : ∀ t ∈ Icc 0 T, HasDerivWithinAt v (a (q t)) (Icc 0 T) t

/-- the field of one stage -/
def stageG (a : E → E) : Stage → E × E → E × E
  | .drift c, z => ((c : ℝ) • z.2, 0)
  | .kick c, z => (0, (c : ℝ) • a z.1)

/-- one stage -/
def stageF (a : E → E) (s : Stage) (h : ℝ) (z : E × E) : E × E := z + h • stageG a s z

/-- one step -/
def stepE (a : E → E) (stages : List Stage) : ℝ → E × E → E × E := comp (stages.map (stageF a))

variable {a : E → E} {q v : ℝ → E} {T r A L V : ℝ}

theorem Tube.good (H : Tube a q v T r A L V) {c : ℝ} (h1 : ℝ) {s : Stage} (hs : |((coef s : ℚ) : ℝ)| ≤ c) :
    Good (fun t => (q t, v t)) T r h1 (c * (A + V + r)) (c * (1 + L)) 0 (stageF a s) (stageG a s) := by
  have hc : 0 ≤ c := (abs_nonneg _).trans hs
  have hr := H.hr.le
  have hA := H.hA
  have hV := H.hV
  have hL := H.hL
  have hlip : ∀ t ∈ Icc 0 T, ∀ z z' : E × E, ‖z - (q t, v t)‖ ≤ r → ‖z' - (q t, v t)‖ ≤ r →
      ‖stageG a s z - stageG a s z'‖ ≤ c * (1 + L) * ‖z - z'‖ := by
    intro t ht z z' hz hz'
    cases s with
    | drift k =>
      simp only [stageG, Prod.mk_sub_mk, sub_self, ← smul_sub, Prod.norm_def, norm_zero]
      rw [max_eq_left (norm_nonneg _), norm_smul, norm_eq_abs]
      have a1 : ‖z.2 - z'.2‖ ≤ max ‖(z - z').1‖ ‖(z - z').2‖ := le_max_right _ _
      have a2 : 0 ≤ ‖z.2 - z'.2‖ := norm_nonneg _
      have a3 : |(k : ℝ)| * ‖z.2 - z'.2‖ ≤ c * ‖z.2 - z'.2‖ := mul_le_mul_of_nonneg_right hs a2
      have a4 : c * ‖z.2 - z'.2‖ ≤ c * (1 + L) * max ‖(z - z').1‖ ‖(z - z').2‖ := by
        have : c * 1 ≤ c * (1 + L) := mul_le_mul_of_nonneg_left (by linarith) hc
        calc c * ‖z.2 - z'.2‖ = c * 1 * ‖z.2 - z'.2‖ := by ring
          _ ≤ c * (1 + L) * max ‖(z - z').1‖ ‖(z - z').2‖ := by gcongr
      linarith
    | kick k =>
      simp only [stageG, Prod.mk_sub_mk, sub_self, ← smul_sub, Prod.norm_def, norm_zero]
      rw [max_eq_right (norm_nonneg _), norm_smul, norm_eq_abs]
      have b1 := H.lip t ht z.1 z'.1 ((norm_fst_le (z - (q t, v t))).trans hz) ((norm_fst_le (z' - (q t, v t))).trans hz')
      have a1 : ‖z.1 - z'.1‖ ≤ max ‖(z - z').1‖ ‖(z - z').2‖ := le_max_left _ _
      have a2 : 0 ≤ ‖z.1 - z'.1‖ := norm_nonneg _
      calc |(k : ℝ)| * ‖a z.1 - a z'.1‖ ≤ c * (L * ‖z.1 - z'.1‖) := by gcongr; exact hs
        _ ≤ c * ((1 + L) * max ‖(z - z').1‖ ‖(z - z').2‖) := by gcongr; linarith
        _ = c * (1 + L) * max ‖(z - z').1‖ ‖(z - z').2‖ := by ring
  refine ⟨?_, hlip, ?_, ?_⟩
  · intro t ht z hz
    have hz1 := (norm_fst_le (z - (q t, v t))).trans hz
    have hz2 := (norm_snd_le (z - (q t, v t))).trans hz
    cases s with
    | drift k =>
      simp only [stageG, Prod.norm_def, norm_zero]
      rw [max_eq_left (norm_nonneg _), norm_smul, norm_eq_abs]
      have : ‖z.2‖ ≤ V + r := by
        have h1 := norm_sub_norm_le z.2 (v t)
        have h2 := H.vel t ht
        have h3 : ‖z.2 - v t‖ ≤ r := hz2
        linarith
      calc |(k : ℝ)| * ‖z.2‖ ≤ c * (V + r) := by gcongr; exact hs
        _ ≤ c * (A + V + r) := by gcongr; linarith
    | kick k =>
      simp only [stageG, Prod.norm_def, norm_zero]
      rw [max_eq_right (norm_nonneg _), norm_smul, norm_eq_abs]
      calc |(k : ℝ)| * ‖a z.1‖ ≤ c * A := by gcongr; exacts [hs, H.acc t ht z.1 hz1]
        _ ≤ c * (A + V + r) := by gcongr; linarith
  · intro t _ h _ z _
    simp [stageF]
  · intro t ht h hh z z' hz hz'
    have e : stageF a s h z - stageF a s h z' = (z - z') + h • (stageG a s z - stageG a s z') := by
      unfold stageF; rw [smul_sub]; abel
    rw [e]
    refine (norm_add_le _ _).trans ?_
    rw [norm_smul, norm_of_nonneg hh.1]
    have := mul_le_mul_of_nonneg_left (hlip t ht z z' hz hz') hh.1
    linarith

theorem field_stages (a : E → E) (stages : List Stage) (z : E × E) :
    field (stages.map fun s => (stageF a s, stageG a s)) z = ((sumDrift stages : ℝ) • z.2, (sumKick stages : ℝ) • a z.1) := by
  induction stages with
  | nil => simp [field, sumDrift, sumKick]; rfl
  | cons s l ih =>
    have e : field ((s :: l).map fun s => (stageF a s, stageG a s)) z = stageG a s z + field (l.map fun s => (stageF a s, stageG a s)) z := by
      simp [field]
    rw [e, ih]
    cases s <;> simp [stageG, sumDrift, sumKick, add_smul]

theorem Tube.q_near (H : Tube a q v T r A L V) {t s : ℝ} (ht : t ∈ Icc 0 T) (hs : s ∈ Icc 0 T) : ‖q s - q t‖ ≤ V * |s - t| :=
  Convex.norm_image_sub_le_of_norm_hasDerivWithin_le (fun x hx => H.dq x hx) (fun x hx => H.vel x hx) (convex_Icc _ _) ht hs

theorem Tube.acc_on (H : Tube a q v T r A L V) {t : ℝ} (ht : t ∈ Icc 0 T) : ‖a (q t)‖ ≤ A := H.acc t ht _ (by simpa using H.hr.le)

theorem Tube.v_near (H : Tube a q v T r A L V) {t s : ℝ} (ht : t ∈ Icc 0 T) (hs : s ∈ Icc 0 T) : ‖v s - v t‖ ≤ A * |s - t| :=
  Convex.norm_image_sub_le_of_norm_hasDerivWithin_le (fun x hx => H.dv x hx) (fun _ hx => H.acc_on hx) (convex_Icc _ _) ht hs

theorem Tube.a_near (H : Tube a q v T r A L V) {t s : ℝ} (ht : t ∈ Icc 0 T) (hs : s ∈ Icc 0 T) (hsm : V * |s - t| ≤ r) :
    ‖a (q s) - a (q t)‖ ≤ L * V * |s - t| := by
  have h1 := H.q_near ht hs
  have h2 := H.lip t ht (q s) (q t) (h1.trans hsm) (by simpa using H.hr.le)
  refine h2.trans ?_
  rw [mul_assoc]
  exact mul_le_mul_of_nonneg_left h1 H.hL

theorem Tube.w_near (H : Tube a q v T r A L V) {t s : ℝ} (ht : t ∈ Icc 0 T) (hs : s ∈ Icc 0 T) (hsm : V * |s - t| ≤ r) :
    ‖(v s, a (q s)) - (v t, a (q t))‖ ≤ (A + L * V) * |s - t| := by
  rw [Prod.mk_sub_mk, Prod.norm_def]
  have h1 := H.v_near ht hs
  have h2 := H.a_near ht hs hsm
  have h3 : 0 ≤ A * |s - t| := mul_nonneg H.hA (abs_nonneg _)
  have h4 : 0 ≤ L * V * |s - t| := mul_nonneg (mul_nonneg H.hL H.hV) (abs_nonneg _)
  rw [add_mul]
  exact max_le (by simp only; linarith) (by simp only; linarith)

/-- the constant of the first-order bound: `N` stages with coefficients at most `c` -/
noncomputable def const1 (N c T r A L V : ℝ) : ℝ :=
  exp (N * (c * (1 + L)) * T) * (T * (N * (c * (1 + L) * (N * (c * (A + V + r)))) + (A + L * V) + 1))

/-- Every drift/kick integrator: the error is of the order of the step, plus the error of the sums of its coefficients. -/
theorem Tube.first (H : Tube a q v T r A L V) (hT : 0 ≤ T) {N c : ℝ} {stages : List Stage} (hN : (stages.length : ℝ) ≤ N)
    (hc : ∀ s ∈ stages, |((coef s : ℚ) : ℝ)| ≤ c) (hc0 : 0 ≤ c) {hm δ : ℝ} (hm0 : 0 ≤ hm)
    (hδ : |(sumDrift stages : ℝ) - 1| * V ≤ δ) (hδ' : |(sumKick stages : ℝ) - 1| * A ≤ δ) (hVr : V * hm ≤ r)
    (h1 : N * (hm * (c * (A + V + r))) ≤ r / 2) (h2 : const1 N c T r A L V * (hm + δ) ≤ r / 2)
    (hs : List ℝ) (hhs : ∀ h ∈ hs, 0 ≤ h ∧ h ≤ hm) (hsum : hs.sum ≤ T) :
    ‖iter (stepE a stages) hs (q 0, v 0) - (q hs.sum, v hs.sum)‖ ≤ const1 N c T r A L V * (hm + δ) := by
  have hr := H.hr.le
  have hA := H.hA
  have hV := H.hV
  have hL := H.hL
  have hδ0 : 0 ≤ δ := (mul_nonneg (abs_nonneg _) hV).trans hδ
  have hn0 : (0:ℝ) ≤ stages.length := Nat.cast_nonneg _
  have hN0 : 0 ≤ N := hn0.trans hN
  set l := stages.map fun s => (stageF a s, stageG a s) with hl
  have hlen : (l.length : ℝ) = stages.length := by simp [hl]
  have hmap : comp (l.map Prod.fst) = stepE a stages := by simp [hl, stepE, Function.comp_def]
  have hB : 0 ≤ c * (A + V + r) := by positivity
  have hΛ : 0 ≤ c * (1 + L) := by positivity
  have hle : exp (l.length * (c * (1 + L)) * T) * (T * ((l.length * (0 + c * (1 + L) * (l.length * (c * (A + V + r) + 0 * hm))) +
      (A + L * V)) * hm + δ)) ≤ const1 N c T r A L V * (hm + δ) := by
    rw [hlen, const1, zero_add, zero_mul, add_zero]
    set D := N * (c * (1 + L) * (N * (c * (A + V + r)))) + (A + L * V) with hDdef
    set d := (stages.length : ℝ) * (c * (1 + L) * (stages.length * (c * (A + V + r)))) + (A + L * V) with hddef
    have hd : 0 ≤ d := by positivity
    have hD2 : d ≤ D := by rw [hddef, hDdef]; gcongr
    have hD : 0 ≤ D := hd.trans hD2
    have e1 : d * hm + δ ≤ (D + 1) * (hm + δ) := by
      have : d * hm ≤ D * hm := by gcongr
      nlinarith [mul_nonneg hD hδ0]
    have e0 : 0 ≤ d * hm + δ := by positivity
    have e2 : exp (N * (c * (1 + L)) * T) * (T * (D + 1)) * (hm + δ) = exp (N * (c * (1 + L)) * T) * (T * ((D + 1) * (hm + δ))) := by ring
    rw [e2]
    gcongr
  have key := first_order (y := fun t => (q t, v t)) (w := fun t => (v t, a (q t))) l
    (fun p hp => by
      obtain ⟨s, hs', rfl⟩ := List.mem_map.1 hp
      exact H.good hm (hc s hs')) hB le_rfl hΛ (W := A + L * V) (δ := δ) (hm := hm) (by positivity) hδ0 hm0 le_rfl
    (fun s hs' => (H.dq s hs').prodMk (H.dv s hs'))
    (fun t ht s hs' h3 h4 => by
      have h5 : |s - t| = s - t := abs_of_nonneg (by linarith)
      have := H.w_near ht hs' (by rw [h5]; exact (mul_le_mul_of_nonneg_left h4 hV).trans hVr)
      rwa [h5] at this)
    (fun t ht => by
      have e : field l (q t, v t) - (v t, a (q t)) = (((sumDrift stages : ℝ) - 1) • v t, ((sumKick stages : ℝ) - 1) • a (q t)) := by
        rw [hl, field_stages]; simp [sub_smul]
      simp only [e, Prod.norm_def, norm_smul, norm_eq_abs]
      exact max_le (le_trans (by gcongr; exact H.vel t ht) hδ) (le_trans (by gcongr; exact H.acc_on ht) hδ'))
    (by
      rw [hlen, zero_mul, add_zero]
      exact le_trans (by gcongr) h1) hr
    (hle.trans h2) hs hhs hsum
  rw [hmap] at key
  exact key.trans hle

end SpaceHub.Converge
