import Mathlib.Analysis.Calculus.MeanValue
import Mathlib.Analysis.SpecialFunctions.Exp

/-
One-step methods converge: stability and local error give the global error.
-/

set_option autoImplicit false

namespace SpaceHub.Converge
open Set Real

variable {Z : Type*} [NormedAddCommGroup Z] [NormedSpace ℝ Z]

/-- The method `Φ` applied with the steps of a list. -/
def iter (Φ : ℝ → Z → Z) : List ℝ → Z → Z
  | [], z => z
  | h :: l, z => iter Φ l (Φ h z)

omit [NormedSpace ℝ Z] in
/-- Local error at most `h ε` and stability on a tube around the exact solution `y`: the global error is at most
`exp (M T) T ε`. -/
theorem global {Φ : ℝ → Z → Z} {y : ℝ → Z} {T r M hm ε : ℝ} (hM : 0 ≤ M) (hε : 0 ≤ ε)
    (stab : ∀ t ∈ Icc 0 T, ∀ h ∈ Icc 0 hm, ∀ z, ‖z - y t‖ ≤ r → ‖Φ h z - Φ h (y t)‖ ≤ exp (M * h) * ‖z - y t‖)
    (loc : ∀ t h, 0 ≤ t → 0 ≤ h → h ≤ hm → t + h ≤ T → ‖Φ h (y t) - y (t + h)‖ ≤ h * ε)
    (small : exp (M * T) * (T * ε) ≤ r) (l : List ℝ) :
    ∀ t z, (∀ h ∈ l, 0 ≤ h ∧ h ≤ hm) → 0 ≤ t → t + l.sum ≤ T → ‖z - y t‖ ≤ exp (M * t) * (t * ε) →
      ‖iter Φ l z - y (t + l.sum)‖ ≤ exp (M * (t + l.sum)) * ((t + l.sum) * ε) := by
  induction l with
  | nil => intro t z _ _ _ hz; simpa [iter] using hz
  | cons h l ih =>
    intro t z hl ht hs hz
    obtain ⟨h0, h1⟩ := hl h (by simp)
    have hsum : 0 ≤ l.sum := List.sum_nonneg fun x hx => (hl x (List.mem_cons_of_mem _ hx)).1
    rw [List.sum_cons, ← add_assoc] at hs ⊢
    have htT : t ≤ T := by linarith
    refine ih (t + h) (Φ h z) (fun x hx => hl x (List.mem_cons_of_mem _ hx)) (by linarith) hs ?_
    have hzr : ‖z - y t‖ ≤ r := hz.trans (le_trans (by gcongr) small)
    have a1 := stab t ⟨ht, htT⟩ h ⟨h0, h1⟩ z hzr
    have a2 := loc t h ht h0 h1 (by linarith)
    have a3 : ‖Φ h z - y (t + h)‖ ≤ ‖Φ h z - Φ h (y t)‖ + ‖Φ h (y t) - y (t + h)‖ := norm_sub_le_norm_sub_add_norm_sub _ _ _
    have a4 : exp (M * h) * ‖z - y t‖ ≤ exp (M * h) * (exp (M * t) * (t * ε)) := by gcongr
    have a5 : exp (M * h) * (exp (M * t) * (t * ε)) = exp (M * (t + h)) * (t * ε) := by
      rw [← mul_assoc, ← exp_add]; ring_nf
    have a6 : h * ε ≤ exp (M * (t + h)) * (h * ε) := by
      have : 1 ≤ exp (M * (t + h)) := one_le_exp (by positivity)
      nlinarith [mul_nonneg h0 hε]
    have a7 : exp (M * (t + h)) * ((t + h) * ε) = exp (M * (t + h)) * (t * ε) + exp (M * (t + h)) * (h * ε) := by ring
    linarith

/-! ### methods made of stages -/

/-- A stage `F` of a method that moves along the field `g` for small steps, near the solution `y`. -/
structure Good (y : ℝ → Z) (T r h1 B Λ C : ℝ) (F : ℝ → Z → Z) (g : Z → Z) : Prop where
  bound : ∀ t ∈ Icc 0 T, ∀ z, ‖z - y t‖ ≤ r → ‖g z‖ ≤ B
  lip : ∀ t ∈ Icc 0 T, ∀ z z', ‖z - y t‖ ≤ r → ‖z' - y t‖ ≤ r → ‖g z - g z'‖ ≤ Λ * ‖z - z'‖
  near : ∀ t ∈ Icc 0 T, ∀ h ∈ Icc 0 h1, ∀ z, ‖z - y t‖ ≤ r → ‖F h z - z - h • g z‖ ≤ C * h ^ 2
  stable : ∀ t ∈ Icc 0 T, ∀ h ∈ Icc 0 h1, ∀ z z', ‖z - y t‖ ≤ r → ‖z' - y t‖ ≤ r → ‖F h z - F h z'‖ ≤ (1 + Λ * h) * ‖z - z'‖

/-- A step made of stages. -/
def comp (Fs : List (ℝ → Z → Z)) (h : ℝ) (z : Z) : Z := Fs.foldl (fun z F => F h z) z

variable {y : ℝ → Z} {T r h1 B Λ C : ℝ}

theorem Good.move {F : ℝ → Z → Z} {g : Z → Z} (G : Good y T r h1 B Λ C F g) {t h : ℝ} (ht : t ∈ Icc 0 T) (hh : h ∈ Icc 0 h1) {z : Z}
    (hC : 0 ≤ C) (hz : ‖z - y t‖ ≤ r) : ‖F h z - y t‖ ≤ ‖z - y t‖ + h * (B + C * h1) := by
  have a1 := G.near t ht h hh z hz
  have a2 := G.bound t ht z hz
  have e : F h z - y t = (F h z - z - h • g z) + h • g z + (z - y t) := by abel
  have a3 : ‖h • g z‖ ≤ h * B := by
    rw [norm_smul, norm_of_nonneg hh.1]; exact mul_le_mul_of_nonneg_left a2 hh.1
  have a4 : C * h ^ 2 ≤ h * (C * h1) := by
    have : C * h * h ≤ C * h * h1 := mul_le_mul_of_nonneg_left hh.2 (mul_nonneg hC hh.1)
    nlinarith
  rw [e]
  have := norm_add₃_le (a := F h z - z - h • g z) (b := h • g z) (c := z - y t)
  linarith

theorem comp_stable (l : List ((ℝ → Z → Z) × (Z → Z))) (G : ∀ p ∈ l, Good y T r h1 B Λ C p.1 p.2) (hB : 0 ≤ B) (hC : 0 ≤ C) (_hΛ : 0 ≤ Λ)
    {t h : ℝ} (ht : t ∈ Icc 0 T) (hh : h ∈ Icc 0 h1) :
    ∀ z z', ‖z - y t‖ + l.length * (h * (B + C * h1)) ≤ r → ‖z' - y t‖ + l.length * (h * (B + C * h1)) ≤ r →
      ‖comp (l.map Prod.fst) h z - comp (l.map Prod.fst) h z'‖ ≤ exp (l.length * Λ * h) * ‖z - z'‖ := by
  have hh1 : 0 ≤ h1 := hh.1.trans hh.2
  have hm : 0 ≤ h * (B + C * h1) := mul_nonneg hh.1 (by positivity)
  induction l with
  | nil => intro z z' _ _; simp [comp]
  | cons p l ih =>
    intro z z' hz hz'
    have Gp := G p (by simp)
    have hl : 0 ≤ (l.length : ℝ) * (h * (B + C * h1)) := by positivity
    have hlen : (((p :: l).length : ℕ) : ℝ) = l.length + 1 := by simp
    rw [hlen, add_mul, one_mul] at hz hz'
    have hz1 : ‖z - y t‖ ≤ r := by linarith
    have hz1' : ‖z' - y t‖ ≤ r := by linarith
    have a1 := ih (fun q hq => G q (List.mem_cons_of_mem _ hq)) (p.1 h z) (p.1 h z')
      (by have := Gp.move ht hh hC hz1; linarith) (by have := Gp.move ht hh hC hz1'; linarith)
    have a2 := Gp.stable t ht h hh z z' hz1 hz1'
    have a3 : 1 + Λ * h ≤ exp (Λ * h) := by have := add_one_le_exp (Λ * h); linarith
    calc ‖comp ((p :: l).map Prod.fst) h z - comp ((p :: l).map Prod.fst) h z'‖
        ≤ exp (l.length * Λ * h) * ‖p.1 h z - p.1 h z'‖ := a1
      _ ≤ exp (l.length * Λ * h) * ((1 + Λ * h) * ‖z - z'‖) := by gcongr
      _ ≤ exp (l.length * Λ * h) * (exp (Λ * h) * ‖z - z'‖) := by gcongr
      _ = exp (((p :: l).length : ℕ) * Λ * h) * ‖z - z'‖ := by
        rw [← mul_assoc, ← exp_add, hlen]; ring_nf

/-- the field of a list of stages -/
def field (l : List ((ℝ → Z → Z) × (Z → Z))) (z : Z) : Z := (l.map fun p => p.2 z).sum

theorem comp_near (l : List ((ℝ → Z → Z) × (Z → Z))) (G : ∀ p ∈ l, Good y T r h1 B Λ C p.1 p.2) (hB : 0 ≤ B) (hC : 0 ≤ C) (hΛ : 0 ≤ Λ)
    (hr : 0 ≤ r) {t h α : ℝ} (ht : t ∈ Icc 0 T) (hh : h ∈ Icc 0 h1) (hα : α ≤ r) :
    ∀ z, ‖z - y t‖ + l.length * (h * (B + C * h1)) ≤ α →
      ‖comp (l.map Prod.fst) h z - z - h • field l (y t)‖ ≤ l.length * (C * h ^ 2 + h * (Λ * α)) := by
  have hh1 : 0 ≤ h1 := hh.1.trans hh.2
  have hm : 0 ≤ h * (B + C * h1) := mul_nonneg hh.1 (by positivity)
  induction l with
  | nil => intro z _; simp [comp, field]
  | cons p l ih =>
    intro z hz
    have Gp := G p (by simp)
    have hl : 0 ≤ (l.length : ℝ) * (h * (B + C * h1)) := by positivity
    have hlen : (((p :: l).length : ℕ) : ℝ) = l.length + 1 := by simp
    rw [hlen, add_mul, one_mul] at hz
    have hz1 : ‖z - y t‖ ≤ r := by linarith
    have a1 := ih (fun q hq => G q (List.mem_cons_of_mem _ hq)) (p.1 h z) (by have := Gp.move ht hh hC hz1; linarith)
    have a2 := Gp.near t ht h hh z hz1
    have a3 := Gp.lip t ht z (y t) hz1 (by simpa using hr)
    have a4 : ‖h • (p.2 z - p.2 (y t))‖ ≤ h * (Λ * α) := by
      rw [norm_smul, norm_of_nonneg hh.1]
      refine mul_le_mul_of_nonneg_left (a3.trans (mul_le_mul_of_nonneg_left ?_ hΛ)) hh.1
      linarith
    have e : comp ((p :: l).map Prod.fst) h z - z - h • field (p :: l) (y t) =
        (comp (l.map Prod.fst) h (p.1 h z) - p.1 h z - h • field l (y t)) + (p.1 h z - z - h • p.2 z) +
          h • (p.2 z - p.2 (y t)) := by
      have c1 : comp ((p :: l).map Prod.fst) h z = comp (l.map Prod.fst) h (p.1 h z) := rfl
      have c2 : field (p :: l) (y t) = p.2 (y t) + field l (y t) := by simp [field]
      rw [c1, c2, smul_add, smul_sub]; abel
    rw [e, hlen]
    have := norm_add₃_le (a := comp (l.map Prod.fst) h (p.1 h z) - p.1 h z - h • field l (y t)) (b := p.1 h z - z - h • p.2 z)
      (c := h • (p.2 z - p.2 (y t)))
    linarith

/-- first-order expansion of the solution -/
theorem taylor1 {y w : ℝ → Z} {W t h : ℝ} (hh : 0 ≤ h) (dy : ∀ s ∈ Icc t (t + h), HasDerivWithinAt y (w s) (Icc t (t + h)) s)
    (hw : ∀ s ∈ Icc t (t + h), ‖w s - w t‖ ≤ W) : ‖y (t + h) - y t - h • w t‖ ≤ W * h := by
  have key := Convex.norm_image_sub_le_of_norm_hasDerivWithin_le (f := fun s => y s - (s - t) • w t) (f' := fun s => w s - w t)
    (s := Icc t (t + h)) (C := W) (x := t) (y := t + h) (fun s hs => by
      have h1 : HasDerivWithinAt (fun s => (s - t) • w t) ((1:ℝ) • w t) (Icc t (t + h)) s :=
        ((hasDerivWithinAt_id s _).sub_const t).smul_const (w t)
      rw [one_smul] at h1
      exact (dy s hs).sub h1) hw (convex_Icc _ _) ⟨le_rfl, by linarith⟩ ⟨by linarith, le_rfl⟩
  simp only [sub_self, zero_smul, sub_zero, add_sub_cancel_left, norm_of_nonneg hh] at key
  rw [sub_right_comm]
  exact key

/-- A method whose stages add up to the field of the solution (up to `δ`) is at least of first order. -/
theorem first_order (l : List ((ℝ → Z → Z) × (Z → Z))) (G : ∀ p ∈ l, Good y T r h1 B Λ C p.1 p.2) (hB : 0 ≤ B) (hC : 0 ≤ C) (hΛ : 0 ≤ Λ)
    {w : ℝ → Z} {W δ hm : ℝ} (hW : 0 ≤ W) (hδ : 0 ≤ δ) (hm0 : 0 ≤ hm) (hm1 : hm ≤ h1)
    (dy : ∀ s ∈ Icc 0 T, HasDerivWithinAt y (w s) (Icc 0 T) s) (hw : ∀ t ∈ Icc 0 T, ∀ s ∈ Icc 0 T, t ≤ s → s - t ≤ hm → ‖w s - w t‖ ≤ W * (s - t))
    (hf : ∀ t ∈ Icc 0 T, ‖field l (y t) - w t‖ ≤ δ) (hsmall : l.length * (hm * (B + C * h1)) ≤ r / 2) (hr : 0 ≤ r)
    (hK : exp (l.length * Λ * T) * (T * ((l.length * (C + Λ * (l.length * (B + C * h1))) + W) * hm + δ)) ≤ r / 2)
    (hs : List ℝ) (hhs : ∀ h ∈ hs, 0 ≤ h ∧ h ≤ hm) (hsum : hs.sum ≤ T) :
    ‖iter (comp (l.map Prod.fst)) hs (y 0) - y hs.sum‖ ≤
      exp (l.length * Λ * T) * (T * ((l.length * (C + Λ * (l.length * (B + C * h1))) + W) * hm + δ)) := by
  have hh1 : 0 ≤ h1 := hm0.trans hm1
  have hD : 0 ≤ l.length * (C + Λ * (l.length * (B + C * h1))) + W := by positivity
  have hmono : ∀ h, 0 ≤ h → h ≤ hm → l.length * (h * (B + C * h1)) ≤ r / 2 := fun h h0 h2 => le_trans (by gcongr) hsmall
  have key := global (Φ := comp (l.map Prod.fst)) (y := y) (T := T) (r := r / 2) (M := l.length * Λ) (hm := hm)
    (ε := (l.length * (C + Λ * (l.length * (B + C * h1))) + W) * hm + δ) (by positivity) (by positivity)
    (fun t ht h hh z hz => comp_stable l G hB hC hΛ ht ⟨hh.1, hh.2.trans hm1⟩ z (y t)
      (by have := hmono h hh.1 hh.2; linarith) (by have := hmono h hh.1 hh.2; simp only [sub_self, norm_zero]; linarith))
    (fun t h ht h0 h2 hth => by
      have htT : t ∈ Icc 0 T := ⟨ht, by linarith⟩
      have a1 := comp_near l G hB hC hΛ hr htT ⟨h0, h2.trans hm1⟩ (α := l.length * (h * (B + C * h1)))
        (by have := hmono h h0 h2; linarith) (y t) (by simp)
      have sub : Icc t (t + h) ⊆ Icc 0 T := Icc_subset_Icc ht hth
      have a2 := taylor1 (y := y) (w := w) (W := W * h) h0 (fun s hs => (dy s (sub hs)).mono sub) (fun s hs => by
        refine (hw t htT s (sub hs) hs.1 (by linarith [hs.2])).trans (mul_le_mul_of_nonneg_left ?_ hW)
        linarith [hs.2])
      have a3 : ‖h • (field l (y t) - w t)‖ ≤ h * δ := by
        rw [norm_smul, norm_of_nonneg h0]; exact mul_le_mul_of_nonneg_left (hf t htT) h0
      have e : comp (l.map Prod.fst) h (y t) - y (t + h) = (comp (l.map Prod.fst) h (y t) - y t - h • field l (y t)) -
          (y (t + h) - y t - h • w t) + h • (field l (y t) - w t) := by rw [smul_sub]; abel
      rw [e]
      have a4 := norm_add_le ((comp (l.map Prod.fst) h (y t) - y t - h • field l (y t)) - (y (t + h) - y t - h • w t))
        (h • (field l (y t) - w t))
      have a5 := norm_sub_le (comp (l.map Prod.fst) h (y t) - y t - h • field l (y t)) (y (t + h) - y t - h • w t)
      have a6 : l.length * (C * h ^ 2 + h * (Λ * (l.length * (h * (B + C * h1))))) + W * h * h =
          h * ((l.length * (C + Λ * (l.length * (B + C * h1))) + W) * h) := by ring
      have a7 : h * ((l.length * (C + Λ * (l.length * (B + C * h1))) + W) * h) ≤
          h * ((l.length * (C + Λ * (l.length * (B + C * h1))) + W) * hm) := by gcongr
      rw [mul_add]
      linarith)
    hK hs 0 (y 0) hhs le_rfl (by linarith) (by simp)
  rw [zero_add] at key
  refine key.trans ?_
  have hs0 : 0 ≤ hs.sum := List.sum_nonneg fun x hx => (hhs x hx).1
  gcongr

end SpaceHub.Converge
