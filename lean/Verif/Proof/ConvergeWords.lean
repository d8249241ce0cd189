import Verif.Proof.WordSum
import Verif.Proof.ConvergeTube
import Verif.Spec.Order
import Mathlib.Analysis.Calculus.ContDiff.Operations
import Mathlib.Analysis.Calculus.Deriv.Pow
import Mathlib.Analysis.Calculus.Deriv.Add
import Mathlib.Analysis.Calculus.MeanValue

/-
Integrators composed of the flows of two vector fields, compared with the flow of their sum through the Taylor expansions of both.
-/

set_option autoImplicit false

namespace SpaceHub.Converge
open Set Integrator Spec
open scoped ContDiff

variable {E : Type*} [NormedAddCommGroup E] [NormedSpace ℝ E]

/-- derivatives along the fields of a word of the identity; the last letter is taken first -/
noncomputable def lieW (f : Bool → E → E) : List Bool → E → E
  | [] => id
  | X :: w => fun y => fderiv ℝ (lieW f w) y (f X y)

theorem lieW_smooth {f : Bool → E → E} {U : Set E} (hU : IsOpen U) (hf : ∀ X, ContDiffOn ℝ ∞ (f X) U) : ∀ w, ContDiffOn ℝ ∞ (lieW f w) U
  | [] => contDiffOn_id
  | X :: w => ((lieW_smooth hU hf w).fderiv_of_isOpen hU (by simp)).clm_apply (hf X)

/-- a field that is constant along its own lines -/
def Straight (g : E → E) : Prop := ∀ y (s : ℝ), g (y + s • g y) = g y

/-- one stage: the flow of one of the fields -/
def flow (f : Bool → E → E) (s : Stage) (h : ℝ) (y : E) : E := y + (h * coef s) • f (letter s) y

/-- one step -/
def wstep (f : Bool → E → E) (stages : List Stage) : ℝ → E → E := comp (stages.map (flow f))

theorem wstep_cons (f : Bool → E → E) (s : Stage) (l : List Stage) (h : ℝ) (y : E) : wstep f (s :: l) h y = wstep f l h (flow f s h y) := rfl

variable {f : Bool → E → E} {U S : Set E} {M : ℝ} {p : ℕ}

/-- bounds on all derivatives up to `p` letters -/
structure Bounds (f : Bool → E → E) (U S : Set E) (p : ℕ) (M : ℝ) : Prop where
  hU : IsOpen U
  hf : ∀ X, ContDiffOn ℝ ∞ (f X) U
  sub : S ⊆ U
  hM : 0 ≤ M
  bound : ∀ w, w.length ≤ p → ∀ y ∈ S, ‖lieW f w y‖ ≤ M

theorem Bounds.diff (B : Bounds f U S p M) (w : List Bool) {y : E} (hy : y ∈ S) : HasFDerivAt (lieW f w) (fderiv ℝ (lieW f w) y) y :=
  ((lieW_smooth B.hU B.hf w).differentiableOn (by simp) |>.differentiableAt (B.hU.mem_nhds (B.sub hy))).hasFDerivAt

/-- Taylor expansion along one field -/
theorem taylor_flow (B : Bounds f U S p M) {X : Bool} (hX : Straight (f X)) {y : E} {s0 : ℝ}
    (hS : ∀ s, |s| ≤ s0 → y + s • f X y ∈ S) (n : ℕ) : ∀ w, n + w.length ≤ p → ∀ s, |s| ≤ s0 →
      ‖lieW f w (y + s • f X y) - ∑ k ∈ Finset.range n, (s ^ k / k.factorial) • lieW f (List.replicate k X ++ w) y‖ ≤ M * |s| ^ n := by
  induction n with
  | zero => intro w hw s hs; simpa using B.bound w (by omega) _ (hS s hs)
  | succ n ih =>
    intro w hw s hs
    have hd : ∀ σ ∈ Icc (-|s|) |s|, HasDerivWithinAt
        (fun σ : ℝ => lieW f w (y + σ • f X y) - ∑ k ∈ Finset.range (n + 1), (σ ^ k / k.factorial) • lieW f (List.replicate k X ++ w) y)
        (lieW f (X :: w) (y + σ • f X y) - ∑ k ∈ Finset.range n, (σ ^ k / k.factorial) • lieW f (List.replicate k X ++ X :: w) y) (Icc (-|s|) |s|) σ := by
      intro σ hσ
      have hσ' : |σ| ≤ s0 := (abs_le.2 hσ).trans hs
      refine HasDerivAt.hasDerivWithinAt (HasDerivAt.sub ?_ ?_)
      · have h1 := B.diff w (hS σ hσ')
        have h2 : HasDerivAt (fun σ : ℝ => y + σ • f X y) ((1 : ℝ) • f X y) σ := ((hasDerivAt_id σ).smul_const (f X y)).const_add y
        rw [one_smul] at h2
        have h3 := h1.comp_hasDerivAt σ h2
        refine h3.congr_deriv ?_
        show _ = fderiv ℝ (lieW f w) (y + σ • f X y) (f X (y + σ • f X y))
        rw [hX]
      · have h4 : ∀ k, HasDerivAt (fun σ : ℝ => (σ ^ k / k.factorial) • lieW f (List.replicate k X ++ w) y)
            ((k * σ ^ (k - 1) / k.factorial) • lieW f (List.replicate k X ++ w) y) σ := fun k => ((hasDerivAt_pow k σ).div_const _).smul_const _
        have h5 := HasDerivAt.fun_sum (u := Finset.range (n + 1)) fun k _ => h4 k
        refine h5.congr_deriv ?_
        rw [Finset.sum_range_succ']
        simp only [Nat.cast_zero, zero_mul, zero_div, zero_smul, add_zero, Nat.add_sub_cancel]
        refine Finset.sum_congr rfl fun k _ => ?_
        congr 1
        · rw [Nat.factorial_succ]; push_cast
          rw [mul_div_mul_left _ _ (by positivity)]
        · rw [List.replicate_succ', List.append_assoc]; rfl
    have hb : ∀ σ ∈ Icc (-|s|) |s|, ‖lieW f (X :: w) (y + σ • f X y) - ∑ k ∈ Finset.range n, (σ ^ k / k.factorial) • lieW f (List.replicate k X ++ X :: w) y‖ ≤
        M * |s| ^ n := fun σ hσ =>
      (ih (X :: w) (by simp only [List.length_cons]; omega) σ ((abs_le.2 hσ).trans hs)).trans
        (mul_le_mul_of_nonneg_left (pow_le_pow_left₀ (abs_nonneg _) (abs_le.2 hσ) n) B.hM)
    have key := Convex.norm_image_sub_le_of_norm_hasDerivWithin_le hd hb (convex_Icc _ _) (x := 0) (y := s)
      ⟨neg_nonpos.2 (abs_nonneg s), abs_nonneg s⟩ ⟨neg_abs_le s, le_abs_self s⟩
    have e0 : lieW f w (y + (0 : ℝ) • f X y) - ∑ k ∈ Finset.range (n + 1), ((0 : ℝ) ^ k / k.factorial) • lieW f (List.replicate k X ++ w) y = 0 := by
      rw [Finset.sum_range_succ']
      simp
    simp only [e0, sub_zero] at key
    rw [Real.norm_eq_abs] at key
    rw [pow_succ, ← mul_assoc]
    exact key

theorem sumW_deriv {F : Type*} [NormedAddCommGroup F] [NormedSpace ℝ F] (n : ℕ) : ∀ {G G' : ℝ → List Bool → F} {σ : ℝ},
    (∀ u, HasDerivAt (fun s => G s u) (G' σ u) σ) → HasDerivAt (fun s => sumW n (G s)) (sumW n (G' σ)) σ := by
  induction n with
  | zero => exact fun h => h []
  | succ n ih =>
    intro G G' σ h
    exact (h []).add (ih (G := fun s u => G s (true :: u) + G s (false :: u)) (G' := fun s u => G' s (true :: u) + G' s (false :: u))
      fun u => (h _).add (h _))

theorem sumL_deriv {F : Type*} [NormedAddCommGroup F] [NormedSpace ℝ F] (n : ℕ) {G G' : ℝ → List Bool → F} {σ : ℝ}
    (h : ∀ u, HasDerivAt (fun s => G s u) (G' σ u) σ) : HasDerivAt (fun s => sumL n (G s)) (sumL n (G' σ)) σ := by
  cases n with
  | zero => exact hasDerivAt_const _ _
  | succ n => exact sumW_deriv n h

theorem sumL_congr {F : Type*} [AddCommGroup F] (n : ℕ) {G H : List Bool → F} (h : ∀ u, G u = H u) : sumL n G = sumL n H := by
  rw [funext h]

theorem sumL_add {F : Type*} [AddCommGroup F] (n : ℕ) (G H : List Bool → F) : sumL n (fun u => G u + H u) = sumL n G + sumL n H := by
  cases n with
  | zero => simp [sumL]
  | succ n => exact sumW_add n G H

/-- Taylor expansion along the sum of the fields -/
theorem taylor_sum (B : Bounds f U S p M) {T : ℝ} {y : ℝ → E} (dy : ∀ t ∈ Icc 0 T, HasDerivWithinAt y (f true (y t) + f false (y t)) (Icc 0 T) t)
    (hS : ∀ t ∈ Icc 0 T, y t ∈ S) {t : ℝ} (ht : 0 ≤ t) (n : ℕ) : ∀ w, n + w.length ≤ p → ∀ s, 0 ≤ s → t + s ≤ T →
      ‖lieW f w (y (t + s)) - sumL n fun u => (s ^ u.length / u.length.factorial) • lieW f (u ++ w) (y t)‖ ≤ 2 ^ n * M * s ^ n := by
  induction n with
  | zero => intro w hw s hs hT; simpa [sumL] using B.bound w (by omega) _ (hS (t + s) ⟨by linarith, hT⟩)
  | succ n ih =>
    intro w hw s hs hT
    have hd : ∀ σ ∈ Icc 0 s, HasDerivWithinAt
        (fun σ : ℝ => lieW f w (y (t + σ)) - sumL (n + 1) fun u => (σ ^ u.length / u.length.factorial) • lieW f (u ++ w) (y t))
        ((lieW f (true :: w) (y (t + σ)) - sumL n fun u => (σ ^ u.length / u.length.factorial) • lieW f (u ++ true :: w) (y t)) +
        (lieW f (false :: w) (y (t + σ)) - sumL n fun u => (σ ^ u.length / u.length.factorial) • lieW f (u ++ false :: w) (y t))) (Icc 0 s) σ := by
      intro σ hσ
      have htσ : t + σ ∈ Icc 0 T := ⟨by linarith [hσ.1], by linarith [hσ.2]⟩
      have h0 : HasDerivWithinAt (fun σ : ℝ => t + σ) 1 (Icc 0 s) σ := (hasDerivWithinAt_id σ _).const_add t
      have h2 : HasDerivWithinAt (fun σ => y (t + σ)) ((1 : ℝ) • (f true (y (t + σ)) + f false (y (t + σ)))) (Icc 0 s) σ :=
        (dy (t + σ) htσ).scomp σ h0 (fun τ hτ => ⟨by linarith [hτ.1], by linarith [hτ.2]⟩)
      rw [one_smul] at h2
      have h3 := (B.diff w (hS _ htσ)).comp_hasDerivWithinAt σ h2
      rw [map_add] at h3
      have h4 : ∀ u : List Bool, HasDerivAt (fun σ : ℝ => (σ ^ u.length / u.length.factorial) • lieW f (u ++ w) (y t))
            ((u.length * σ ^ (u.length - 1) / u.length.factorial) • lieW f (u ++ w) (y t)) σ := fun k => ((hasDerivAt_pow _ σ).div_const _).smul_const _
      have h5 := sumL_deriv (n + 1) (G := fun σ u => (σ ^ u.length / u.length.factorial) • lieW f (u ++ w) (y t))
        (G' := fun σ u => (u.length * σ ^ (u.length - 1) / u.length.factorial) • lieW f (u ++ w) (y t)) h4
      refine (h3.sub h5.hasDerivWithinAt).congr_deriv ?_
      rw [sumL_snoc]
      have e : ∀ X : Bool, ∀ u : List Bool, (((u ++ [X]).length : ℝ) * σ ^ ((u ++ [X]).length - 1) / (u ++ [X]).length.factorial) • lieW f (u ++ [X] ++ w) (y t) =
          (σ ^ u.length / u.length.factorial) • lieW f (u ++ X :: w) (y t) := by
        intro X u
        rw [List.length_append, List.length_singleton, Nat.add_sub_cancel, Nat.factorial_succ, List.append_assoc]
        push_cast
        rw [mul_div_mul_left _ _ (by positivity)]
        rfl
      rw [sumL_congr n fun u => by rw [e true u, e false u], sumL_add]
      simp only [List.length_nil, Nat.cast_zero, zero_mul, zero_div, zero_smul, zero_add]
      show _ - _ = (lieW f (true :: w) (y (t + σ)) - _) + (lieW f (false :: w) (y (t + σ)) - _)
      rw [add_sub_add_comm]
      rfl
    have hb : ∀ σ ∈ Icc 0 s, ‖(lieW f (true :: w) (y (t + σ)) - sumL n fun u => (σ ^ u.length / u.length.factorial) • lieW f (u ++ true :: w) (y t)) +
        (lieW f (false :: w) (y (t + σ)) - sumL n fun u => (σ ^ u.length / u.length.factorial) • lieW f (u ++ false :: w) (y t))‖ ≤
        2 ^ (n + 1) * M * s ^ n := by
      intro σ hσ
      have hp : 2 ^ n * M * σ ^ n ≤ 2 ^ n * M * s ^ n := mul_le_mul_of_nonneg_left (pow_le_pow_left₀ hσ.1 hσ.2 n) (mul_nonneg (by positivity) B.hM)
      have h1 := ih (true :: w) (by simp only [List.length_cons]; omega) σ hσ.1 (by linarith [hσ.2])
      have h2 := ih (false :: w) (by simp only [List.length_cons]; omega) σ hσ.1 (by linarith [hσ.2])
      refine (norm_add_le _ _).trans ((add_le_add (h1.trans hp) (h2.trans hp)).trans (le_of_eq ?_))
      ring
    have key := Convex.norm_image_sub_le_of_norm_hasDerivWithin_le hd hb (convex_Icc _ _) (x := 0) (y := s) ⟨le_rfl, hs⟩ ⟨hs, le_rfl⟩
    have e0 : lieW f w (y (t + 0)) - sumL (n + 1) (fun u => ((0 : ℝ) ^ u.length / u.length.factorial) • lieW f (u ++ w) (y t)) = 0 := by
      rw [sumL_snoc, sumL_congr n (H := fun _ => 0)]
      · cases n with
        | zero => simp [sumL]
        | succ n => simp [sumL, sumW_zero]
      · intro u; simp
    simp only [e0, sub_zero] at key
    rw [Real.norm_of_nonneg hs] at key
    refine key.trans (le_of_eq ?_)
    ring

/-! ### the integrator -/

theorem wordCoef_cons (s : Stage) (l : List Stage) (u : List Bool) {n : ℕ} (hn : u.length ≤ n) : (wordCoef (s :: l) u : ℝ) =
    ∑ k ∈ Finset.range (n + 1), if u.take k = List.replicate k (letter s) then (coef s : ℝ) ^ k / k.factorial * wordCoef l (u.drop k) else 0 := by
  rw [wordCoef]
  push_cast
  refine (Finset.sum_subset (Finset.range_mono (by omega)) fun k _ hk => ?_).trans (Finset.sum_congr rfl fun k _ => ?_)
  · rw [Finset.mem_range, not_lt] at hk
    rw [if_neg fun h => ?_]; · simp
    have := congrArg List.length h
    rw [List.length_take, List.length_replicate] at this
    omega
  · split_ifs <;> simp

theorem wordCoef_nil (l : List Stage) : wordCoef l [] = 1 := by
  induction l with
  | nil => rfl
  | cons s l ih => simp [wordCoef, ih]

theorem sumW_cons (s : Stage) (l : List Stage) (n : ℕ) (h : ℝ) (F : List Bool → E) :
    sumW n (fun u => (h ^ u.length * (wordCoef (s :: l) u : ℝ)) • F u) = ∑ k ∈ Finset.range (n + 1),
      sumW (n - k) (fun u => ((h ^ u.length * (wordCoef l u : ℝ)) * ((h * coef s) ^ k / k.factorial)) • F (List.replicate k (letter s) ++ u)) := by
  have e : ∀ u : List Bool, u.length ≤ n → (h ^ u.length * (wordCoef (s :: l) u : ℝ)) • F u = ∑ k ∈ Finset.range (n + 1),
      if u.take k = List.replicate k (letter s) then (h ^ u.length * ((coef s : ℝ) ^ k / k.factorial * wordCoef l (u.drop k))) • F u else 0 := by
    intro u hu
    rw [wordCoef_cons s l u hu, Finset.mul_sum, Finset.sum_smul]
    refine Finset.sum_congr rfl fun k _ => ?_
    split_ifs <;> simp
  rw [sumW_congr n e, sumW_sum]
  refine Finset.sum_congr rfl fun k hk => ?_
  rw [sumW_prefix (letter s) k n, if_pos (Nat.lt_succ_iff.1 (Finset.mem_range.1 hk))]
  refine sumW_congr _ fun u _ => ?_
  congr 1
  rw [List.length_append, List.length_replicate, List.drop_append_of_le_length (by simp)]
  simp only [List.drop_replicate, Nat.sub_self, List.replicate_zero, List.nil_append]
  rw [pow_add, mul_pow]
  ring

/-- `S` contains all points closer to `y` than `ρ` -/
def Room (S : Set E) (ρ : ℝ) (y : E) : Prop := ∀ z, ‖z - y‖ ≤ ρ → z ∈ S

theorem taylor_step (B : Bounds f U S p M) (hst : ∀ X, Straight (f X)) (hp : 1 ≤ p) {c : ℝ} (hc : 1 ≤ c) (N : ℕ) : ∃ C, 0 ≤ C ∧
    ∀ l : List Stage, l.length = N → (∀ s ∈ l, |((coef s : ℚ) : ℝ)| ≤ c) → (∀ u, u.length ≤ p → |(wordCoef l u : ℝ)| ≤ C) ∧
      ∀ h, 0 ≤ h → ∀ y, Room S (N * (h * c * M)) y → ∀ n w, n + 1 + w.length ≤ p →
        ‖lieW f w (wstep f l h y) - sumW n (fun u => (h ^ u.length * (wordCoef l u : ℝ)) • lieW f (u ++ w) y)‖ ≤ C * h ^ (n + 1) := by
  have hc0 : 0 ≤ c := by linarith
  have hM := B.hM
  induction N with
  | zero =>
    refine ⟨1, zero_le_one, fun l hl _ => ?_⟩
    rw [List.length_eq_zero_iff.1 hl]
    refine ⟨fun u _ => ?_, fun h hh y _ n w _ => ?_⟩
    · simp only [wordCoef]; split_ifs <;> simp
    · have e : sumW n (fun u => (h ^ u.length * (wordCoef [] u : ℝ)) • lieW f (u ++ w) y) = lieW f w y := by
        rw [sumW_congr n (H := fun u => if u.length ≤ 0 then lieW f (u ++ w) y else 0), sumW_trunc 0 n (Nat.zero_le _)]
        · simp [sumW]
        · intro u _
          cases u <;> simp [wordCoef]
      rw [e]
      show ‖lieW f w y - lieW f w y‖ ≤ _
      rw [sub_self, norm_zero]; positivity
  | succ N ih =>
    obtain ⟨C, hC, H⟩ := ih
    have hcp : 1 ≤ c ^ p := one_le_pow₀ hc
    refine ⟨C + 4 ^ p * (C * (M * c ^ p)) + (p + 1) * (c ^ p * C), by positivity, fun l hl hco => ?_⟩
    obtain ⟨s, l, rfl⟩ : ∃ s l', l = s :: l' := by
      cases l with
      | nil => simp at hl
      | cons s l => exact ⟨s, l, rfl⟩
    have hl' : l.length = N := by simpa using hl
    obtain ⟨H1, H2⟩ := H l hl' fun s hs => hco s (List.mem_cons_of_mem _ hs)
    have hs := hco s List.mem_cons_self
    refine ⟨fun u hu => ?_, fun h hh y hy n w hn => ?_⟩
    · rw [wordCoef_cons s l u hu]
      refine (Finset.abs_sum_le_sum_abs _ _).trans ?_
      have : ∀ k ∈ Finset.range (p + 1), |if u.take k = List.replicate k (letter s) then (coef s : ℝ) ^ k / k.factorial * wordCoef l (u.drop k) else 0| ≤ c ^ p * C := by
        intro k hk
        split_ifs
        · rw [abs_mul, abs_div, abs_pow]
          refine mul_le_mul ?_ (H1 _ ?_) (abs_nonneg _) (by positivity)
          · have h1 : (1:ℝ) ≤ |(k.factorial : ℝ)| := by rw [Nat.abs_cast]; exact_mod_cast Nat.factorial_pos k
            refine (div_le_self (by positivity) h1).trans ((pow_le_pow_left₀ (abs_nonneg _) hs k).trans (pow_le_pow_right₀ hc ?_))
            have := Finset.mem_range.1 hk; omega
          · rw [List.length_drop]; omega
        · rw [abs_zero]; positivity
      refine (Finset.sum_le_sum this).trans ?_
      rw [Finset.sum_const, Finset.card_range, nsmul_eq_mul]
      push_cast
      have : 0 ≤ 4 ^ p * (C * (M * c ^ p)) := by positivity
      linarith
    · set X := letter s with hX
      have hch : 0 ≤ h * c := mul_nonneg hh hc0
      have hyS : y ∈ S := hy y (by rw [sub_self, norm_zero]; positivity)
      have hfX : ‖f X y‖ ≤ M := by
        have := B.bound [X] (by simpa using hp) y hyS
        simpa [lieW] using this
      have hsc : |h * (coef s : ℝ)| ≤ h * c := by rw [abs_mul, abs_of_nonneg hh]; exact mul_le_mul_of_nonneg_left hs hh
      have mv : ∀ σ : ℝ, |σ| ≤ h * c → ‖y + σ • f X y - y‖ ≤ h * c * M := by
        intro σ hσ
        rw [add_sub_cancel_left, norm_smul]
        exact mul_le_mul hσ hfX (norm_nonneg _) hch
      have hNM : 0 ≤ (N : ℝ) * (h * c * M) := by positivity
      have path : ∀ σ, |σ| ≤ h * c → y + σ • f X y ∈ S := fun σ hσ => hy _ ((mv σ hσ).trans (by push_cast; linarith))
      set y' := flow f s h y with hy'
      have room : Room S (N * (h * c * M)) y' := by
        intro z hz
        refine hy z ?_
        have e : z - y = (z - y') + (y' - y) := by abel
        rw [e]
        refine (norm_add_le _ _).trans ((add_le_add hz (mv _ hsc)).trans (le_of_eq ?_))
        push_cast; ring
      have E1 := H2 h hh y' room n w hn
      have E2 : ∀ u : List Bool, u.length ≤ n → ‖(h ^ u.length * (wordCoef l u : ℝ)) • (lieW f (u ++ w) y' -
          ∑ k ∈ Finset.range (n + 1 - u.length), ((h * coef s) ^ k / k.factorial) • lieW f (List.replicate k X ++ (u ++ w)) y)‖ ≤ C * (M * c ^ p) * h ^ (n + 1) := by
        intro u hu
        have h1 := taylor_flow B (hst X) path (n + 1 - u.length) (u ++ w) (by rw [List.length_append]; omega) (h * coef s) hsc
        rw [norm_smul, norm_mul, norm_pow, Real.norm_of_nonneg hh]
        have h2 : |h * (coef s : ℝ)| ^ (n + 1 - u.length) ≤ h ^ (n + 1 - u.length) * c ^ p := by
          refine (pow_le_pow_left₀ (abs_nonneg _) hsc _).trans ?_
          rw [mul_pow]
          exact mul_le_mul_of_nonneg_left (pow_le_pow_right₀ hc (by omega)) (by positivity)
        have h3 := h1.trans (mul_le_mul_of_nonneg_left h2 hM)
        refine (mul_le_mul (mul_le_mul_of_nonneg_left (H1 u (by omega)) (by positivity)) h3 (norm_nonneg _) (by positivity)).trans (le_of_eq ?_)
        rw [show n + 1 = u.length + (n + 1 - u.length) by omega, pow_add]
        rw [show u.length + (n + 1 - u.length) - u.length = n + 1 - u.length by omega]
        ring
      have E3 := sumW_norm n _ (by positivity) E2
      have e : sumW n (fun u => (h ^ u.length * (wordCoef l u : ℝ)) • (lieW f (u ++ w) y' -
          ∑ k ∈ Finset.range (n + 1 - u.length), ((h * coef s) ^ k / k.factorial) • lieW f (List.replicate k X ++ (u ++ w)) y)) =
          sumW n (fun u => (h ^ u.length * (wordCoef l u : ℝ)) • lieW f (u ++ w) y') -
          sumW n (fun u => (h ^ u.length * (wordCoef (s :: l) u : ℝ)) • lieW f (u ++ w) y) := by
        rw [sumW_cons s l n h (fun u => lieW f (u ++ w) y), ← sumW_exchange, ← sumW_sub]
        refine sumW_congr n fun u _ => ?_
        rw [smul_sub, Finset.smul_sum]
        congr 1
        refine Finset.sum_congr rfl fun k _ => ?_
        rw [smul_smul, List.append_assoc]
      rw [e] at E3
      rw [wstep_cons]
      have e' : lieW f w (wstep f l h y') - sumW n (fun u => (h ^ u.length * (wordCoef (s :: l) u : ℝ)) • lieW f (u ++ w) y) =
        (lieW f w (wstep f l h y') - sumW n (fun u => (h ^ u.length * (wordCoef l u : ℝ)) • lieW f (u ++ w) y')) +
        (sumW n (fun u => (h ^ u.length * (wordCoef l u : ℝ)) • lieW f (u ++ w) y') -
          sumW n (fun u => (h ^ u.length * (wordCoef (s :: l) u : ℝ)) • lieW f (u ++ w) y)) := by abel
      rw [e']
      refine (norm_add_le _ _).trans ((add_le_add E1 E3).trans ?_)
      have h4 : (4:ℝ) ^ n ≤ 4 ^ p := pow_le_pow_right₀ (by norm_num) (by omega)
      have h5 : (4:ℝ) ^ n * (C * (M * c ^ p) * h ^ (n + 1)) ≤ 4 ^ p * (C * (M * c ^ p) * h ^ (n + 1)) := mul_le_mul_of_nonneg_right h4 (by positivity)
      have h6 : 0 ≤ (p + 1) * (c ^ p * C) * h ^ (n + 1) := by positivity
      linarith

end SpaceHub.Converge
