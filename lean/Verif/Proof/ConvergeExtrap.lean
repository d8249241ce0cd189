import Verif.Proof.ConvergeOrder
import Verif.Proof.WordAlgebra
import Verif.Proof.BSTable

/-
Combinations of several integrators, each made of the flows of two vector fields, and extrapolation to zero step size.
-/

set_option autoImplicit false

namespace SpaceHub.Converge
open Set Integrator Spec
open scoped ContDiff

variable {E : Type*} [NormedAddCommGroup E] [NormedSpace ℝ E]
variable {f : Bool → E → E} {U S : Set E} {M : ℝ} {p : ℕ}

/-- several runs with weights -/
structure Mix where
  s : Finset ℕ
  lam : ℕ → ℝ
  l : ℕ → List Stage

/-- the weighted sum of the results -/
def Mix.step (X : Mix) (f : Bool → E → E) (h : ℝ) (z : E) : E := ∑ m ∈ X.s, X.lam m • wstep f (X.l m) h z

/-- bounds on the number of stages, the coefficients and the weights -/
structure Mix.Bounded (X : Mix) (N : ℕ) (c W : ℝ) : Prop where
  len : ∀ m ∈ X.s, (X.l m).length ≤ N
  coef : ∀ m ∈ X.s, ∀ s ∈ X.l m, |((coef s : ℚ) : ℝ)| ≤ c
  weight : ∑ m ∈ X.s, |X.lam m| ≤ W

/-- the order conditions -/
def Mix.Order (X : Mix) (p : ℕ) : Prop := ∀ w : List Bool, w.length ≤ p → ∑ m ∈ X.s, X.lam m * (wordCoef (X.l m) w : ℝ) = 1 / w.length.factorial

theorem Mix.Order.one {X : Mix} (h : X.Order p) : ∑ m ∈ X.s, X.lam m = 1 := by
  have := h [] (by simp)
  simpa [wordCoef_nil] using this

theorem mix_local {P : ℕ} (B : Bounds f U S (P + 1) M) (hst : ∀ X, Straight (f X)) {c : ℝ} (hc : 1 ≤ c) (N : ℕ) {W : ℝ} (hW : 0 ≤ W) {T : ℝ} {y : ℝ → E}
    (dy : ∀ t ∈ Icc 0 T, HasDerivWithinAt y (f true (y t) + f false (y t)) (Icc 0 T) t) (hS : ∀ t ∈ Icc 0 T, y t ∈ S) : ∃ C, 0 ≤ C ∧
    ∀ p, p ≤ P → ∀ X : Mix, X.Bounded N c W → X.Order p → ∀ h t, 0 ≤ h → 0 ≤ t → t + h ≤ T → Room S (N * (h * c * M)) (y t) →
        ‖X.step f h (y t) - y (t + h)‖ ≤ C * h ^ (p + 1) := by
  have hM := B.hM
  choose C hC H using fun N => taylor_step B hst (Nat.le_add_left 1 P) hc N
  have hS0 := Finset.sum_nonneg fun i (_ : i ∈ Finset.range (N + 1)) => hC i
  refine ⟨W * (∑ i ∈ Finset.range (N + 1), C i) + 2 ^ (P + 1) * M, by positivity, fun p hp X hX hO h t hh ht hT room => ?_⟩
  have hc0 : 0 ≤ c := by linarith
  have E1 : ∀ m ∈ X.s, ‖lieW f [] (wstep f (X.l m) h (y t)) - sumW p (fun u => (h ^ u.length * (wordCoef (X.l m) u : ℝ)) • lieW f (u ++ []) (y t))‖ ≤
      (∑ i ∈ Finset.range (N + 1), C i) * h ^ (p + 1) := by
    intro m hm
    have hN := hX.len m hm
    have hNl : ((X.l m).length : ℝ) ≤ N := by exact_mod_cast hN
    have := (H (X.l m).length (X.l m) rfl (hX.coef m hm)).2 h hh (y t) (fun z hz => room z (hz.trans (mul_le_mul_of_nonneg_right hNl (by positivity)))) p []
      (by simpa using hp)
    refine this.trans (mul_le_mul_of_nonneg_right ?_ (by positivity))
    exact Finset.single_le_sum (fun i _ => hC i) (Finset.mem_range.2 (by omega))
  have E2 := taylor_sum B dy hS ht (p + 1) [] (by simpa using hp) h hh hT
  have e : ∑ m ∈ X.s, X.lam m • sumW p (fun u => (h ^ u.length * (wordCoef (X.l m) u : ℝ)) • lieW f (u ++ []) (y t)) =
      sumL (p + 1) (fun u => (h ^ u.length / u.length.factorial) • lieW f (u ++ []) (y t)) := by
    have e1 : ∀ m, X.lam m • sumW p (fun u => (h ^ u.length * (wordCoef (X.l m) u : ℝ)) • lieW f (u ++ []) (y t)) =
        sumW p (fun u => X.lam m • (h ^ u.length * (wordCoef (X.l m) u : ℝ)) • lieW f (u ++ []) (y t)) := fun m =>
      sumW_map (DistribSMul.toAddMonoidHom E (X.lam m)) p _
    simp only [e1]
    rw [← sumW_sum, sumL]
    refine sumW_congr p fun u hu => ?_
    simp only [smul_smul]
    rw [← Finset.sum_smul]
    congr 1
    rw [div_eq_mul_one_div, ← hO u hu, Finset.mul_sum]
    exact Finset.sum_congr rfl fun m _ => by ring
  have e' : X.step f h (y t) - y (t + h) =
      ∑ m ∈ X.s, X.lam m • (lieW f [] (wstep f (X.l m) h (y t)) - sumW p (fun u => (h ^ u.length * (wordCoef (X.l m) u : ℝ)) • lieW f (u ++ []) (y t))) -
      (lieW f [] (y (t + h)) - sumL (p + 1) (fun u => (h ^ u.length / u.length.factorial) • lieW f (u ++ []) (y t))) := by
    simp only [smul_sub, Finset.sum_sub_distrib]
    rw [e]
    simp only [lieW, id, Mix.step]
    abel
  rw [e']
  have a1 : ‖∑ m ∈ X.s, X.lam m • (lieW f [] (wstep f (X.l m) h (y t)) - sumW p (fun u => (h ^ u.length * (wordCoef (X.l m) u : ℝ)) • lieW f (u ++ []) (y t)))‖ ≤
      W * ((∑ i ∈ Finset.range (N + 1), C i) * h ^ (p + 1)) := by
    refine (norm_sum_le_of_le _ fun m hm => ?_).trans ((Finset.sum_mul X.s (fun m => |X.lam m|) _).symm.le.trans
      (mul_le_mul_of_nonneg_right hX.weight (by positivity)))
    rw [norm_smul, Real.norm_eq_abs]
    exact mul_le_mul_of_nonneg_left (E1 m hm) (abs_nonneg _)
  have a2 : (2:ℝ) ^ (p + 1) * M * h ^ (p + 1) ≤ 2 ^ (P + 1) * M * h ^ (p + 1) := by
    have : (2:ℝ) ^ (p + 1) ≤ 2 ^ (P + 1) := pow_le_pow_right₀ (by norm_num) (by omega)
    gcongr
  refine (norm_sub_le _ _).trans ((add_le_add a1 (E2.trans a2)).trans (le_of_eq ?_))
  ring

/-- displacements of nearby points differ little -/
theorem wstep_disp {T r : ℝ} {y : ℝ → E} (B : Bounds f U (Metric.cthickening r (y '' Icc 0 T)) (p + 1) M) {Λ : ℝ} (hΛ0 : 0 ≤ Λ)
    (hΛ : ∀ X, ∀ z ∈ Metric.cthickening r (y '' Icc 0 T), ‖fderiv ℝ (f X) z‖ ≤ Λ) {c t h : ℝ} (hc : 0 ≤ c) (ht : t ∈ Icc 0 T) (hh : 0 ≤ h) (l : List Stage)
    (hl : ∀ s ∈ l, |((coef s : ℚ) : ℝ)| ≤ c) : ∀ z z', ‖z - y t‖ + l.length * (h * (c * M)) ≤ r → ‖z' - y t‖ + l.length * (h * (c * M)) ≤ r →
      ‖(wstep f l h z - z) - (wstep f l h z' - z')‖ ≤ (Real.exp (l.length * (c * Λ) * h) - 1) * ‖z - z'‖ := by
  have hm : 0 ≤ h * (c * M) := mul_nonneg hh (mul_nonneg hc B.hM)
  induction l with
  | nil => intro z z' _ _; simp [wstep, comp]
  | cons s l ih =>
    intro z z' hz hz'
    have G := flow_good (h1 := h) B hΛ (hl s List.mem_cons_self)
    rw [List.length_cons] at hz hz' ⊢
    push_cast at hz hz' ⊢
    rw [add_mul, one_mul] at hz hz'
    have hl0 : 0 ≤ (l.length : ℝ) * (h * (c * M)) := by positivity
    have hz1 : ‖z - y t‖ ≤ r := by linarith
    have hz1' : ‖z' - y t‖ ≤ r := by linarith
    have m1 := G.move ht ⟨hh, le_rfl⟩ le_rfl hz1
    have m1' := G.move ht ⟨hh, le_rfl⟩ le_rfl hz1'
    rw [zero_mul, add_zero] at m1 m1'
    have a1 := ih (fun q hq => hl q (List.mem_cons_of_mem _ hq)) (flow f s h z) (flow f s h z') (by linarith) (by linarith)
    have a2 := G.stable t ht h ⟨hh, le_rfl⟩ z z' hz1 hz1'
    have a3 : ‖(flow f s h z - z) - (flow f s h z' - z')‖ ≤ c * Λ * h * ‖z - z'‖ := by
      have e : (flow f s h z - z) - (flow f s h z' - z') = h • ((coef s : ℝ) • f (letter s) z - (coef s : ℝ) • f (letter s) z') := by
        rw [flow, flow, smul_sub, smul_smul, smul_smul]; abel
      rw [e, norm_smul, Real.norm_of_nonneg hh]
      have := mul_le_mul_of_nonneg_left (G.lip t ht z z' hz1 hz1') hh
      linarith
    have e : (wstep f (s :: l) h z - z) - (wstep f (s :: l) h z' - z') =
        ((wstep f l h (flow f s h z) - flow f s h z) - (wstep f l h (flow f s h z') - flow f s h z')) + ((flow f s h z - z) - (flow f s h z' - z')) := by
      rw [wstep_cons, wstep_cons]; abel
    rw [e]
    have hx : 0 ≤ c * Λ * h := by positivity
    have he1 : 0 ≤ Real.exp (l.length * (c * Λ) * h) - 1 := by
      have := Real.one_le_exp (show 0 ≤ l.length * (c * Λ) * h by positivity)
      linarith
    have he2 : 1 + c * Λ * h ≤ Real.exp (c * Λ * h) := by have := Real.add_one_le_exp (c * Λ * h); linarith
    have he3 : Real.exp ((l.length + 1) * (c * Λ) * h) = Real.exp (l.length * (c * Λ) * h) * Real.exp (c * Λ * h) := by
      rw [← Real.exp_add]; ring_nf
    have a4 := (norm_add_le _ _).trans (add_le_add (a1.trans (mul_le_mul_of_nonneg_left a2 he1)) a3)
    refine a4.trans ?_
    rw [he3]
    have he0 : 0 < Real.exp (l.length * (c * Λ) * h) := Real.exp_pos _
    have := mul_le_mul_of_nonneg_left he2 he0.le
    have h5 := mul_le_mul_of_nonneg_right this (norm_nonneg (z - z'))
    nlinarith [norm_nonneg (z - z')]

theorem mix_stable {T r : ℝ} {y : ℝ → E} (B : Bounds f U (Metric.cthickening r (y '' Icc 0 T)) (p + 1) M) {Λ : ℝ} (hΛ0 : 0 ≤ Λ)
    (hΛ : ∀ X, ∀ z ∈ Metric.cthickening r (y '' Icc 0 T), ‖fderiv ℝ (f X) z‖ ≤ Λ) {c t h : ℝ} (hc : 0 ≤ c) (ht : t ∈ Icc 0 T) (hh : 0 ≤ h) (hh1 : h ≤ 1)
    {X : Mix} {N : ℕ} {W : ℝ} (hX : X.Bounded N c W) (h1 : ∑ m ∈ X.s, X.lam m = 1) {z z' : E} (hz : ‖z - y t‖ + N * (h * (c * M)) ≤ r) (hz' : ‖z' - y t‖ + N * (h * (c * M)) ≤ r) :
      ‖X.step f h z - X.step f h z'‖ ≤ Real.exp (W * (N * (c * Λ) * Real.exp (N * (c * Λ))) * h) * ‖z - z'‖ := by
  have hm : 0 ≤ h * (c * M) := mul_nonneg hh (mul_nonneg hc B.hM)
  have e : X.step f h z - X.step f h z' = (z - z') + ∑ m ∈ X.s, X.lam m • ((wstep f (X.l m) h z - z) - (wstep f (X.l m) h z' - z')) := by
    simp only [smul_sub, Finset.sum_sub_distrib, ← Finset.sum_smul, h1, one_smul, Mix.step]
    abel
  set κ := N * (c * Λ) with hκ
  have hκ0 : 0 ≤ κ := by positivity
  have d : ∀ m ∈ X.s, ‖X.lam m • ((wstep f (X.l m) h z - z) - (wstep f (X.l m) h z' - z'))‖ ≤ |X.lam m| * (κ * Real.exp κ * h * ‖z - z'‖) := by
    intro m hm'
    have hN : ((X.l m).length : ℝ) ≤ N := by exact_mod_cast hX.len m hm'
    rw [norm_smul, Real.norm_eq_abs]
    refine mul_le_mul_of_nonneg_left ?_ (abs_nonneg _)
    have := wstep_disp B hΛ0 hΛ hc ht hh (X.l m) (hX.coef m hm') z z' (by nlinarith) (by nlinarith)
    refine this.trans (mul_le_mul_of_nonneg_right ?_ (norm_nonneg _))
    have e1 : Real.exp ((X.l m).length * (c * Λ) * h) ≤ Real.exp (κ * h) := Real.exp_le_exp.2 (by rw [hκ]; gcongr)
    have hx : 0 ≤ κ * h := by positivity
    have e2 : Real.exp (κ * h) - 1 ≤ κ * h * Real.exp (κ * h) := by
      have h2 := Real.add_one_le_exp (-(κ * h))
      have h3 : Real.exp (-(κ * h)) * Real.exp (κ * h) = 1 := by rw [← Real.exp_add]; simp
      nlinarith [Real.exp_pos (κ * h)]
    have e3 : Real.exp (κ * h) ≤ Real.exp κ := Real.exp_le_exp.2 (by nlinarith)
    have e4 := mul_le_mul_of_nonneg_left e3 hx
    linarith
  rw [e]
  have s := norm_sum_le_of_le _ d
  rw [← Finset.sum_mul] at s
  have hd : 0 ≤ κ * Real.exp κ * h * ‖z - z'‖ := by positivity
  have s2 := mul_le_mul_of_nonneg_right hX.weight hd
  have hexp := Real.add_one_le_exp (W * (κ * Real.exp κ) * h)
  have s3 := mul_le_mul_of_nonneg_right hexp (norm_nonneg (z - z'))
  refine (norm_add_le _ _).trans ?_
  have e5 : W * (κ * Real.exp κ * h * ‖z - z'‖) = W * (κ * Real.exp κ) * h * ‖z - z'‖ := by ring
  linarith

/-! ### many steps, each with its own method -/

omit [NormedSpace ℝ E] in
/-- errors add up -/
theorem accumulate {ι : Type*} {Φ : ι → E → E} {dur err : ι → ℝ} {y : ℝ → E} {T r L : ℝ} (hL : 0 ≤ L) (ok : ι → Prop)
    (hd : ∀ i, ok i → 0 ≤ dur i) (he : ∀ i, ok i → 0 ≤ err i)
    (stab : ∀ t ∈ Icc 0 T, ∀ i, ok i → ∀ z, ‖z - y t‖ ≤ r → ‖Φ i z - Φ i (y t)‖ ≤ Real.exp (L * dur i) * ‖z - y t‖)
    (loc : ∀ t i, 0 ≤ t → ok i → t + dur i ≤ T → ‖Φ i (y t) - y (t + dur i)‖ ≤ err i) (l : List ι) :
    ∀ t z e, (∀ i ∈ l, ok i) → 0 ≤ t → 0 ≤ e → t + (l.map dur).sum ≤ T → Real.exp (L * T) * (e + (l.map err).sum) ≤ r → ‖z - y t‖ ≤ Real.exp (L * t) * e →
      ‖l.foldl (fun z i => Φ i z) z - y (t + (l.map dur).sum)‖ ≤ Real.exp (L * (t + (l.map dur).sum)) * (e + (l.map err).sum) := by
  induction l with
  | nil => intro t z e _ _ _ _ _ hz; simpa using hz
  | cons i l ih =>
    intro t z e hl ht he0 hs small hz
    have oki := hl i List.mem_cons_self
    have hl' : ∀ j ∈ l, ok j := fun j hj => hl j (List.mem_cons_of_mem _ hj)
    have hsum : 0 ≤ (l.map dur).sum := List.sum_nonneg fun x hx => by obtain ⟨j, hj, rfl⟩ := List.mem_map.1 hx; exact hd j (hl' j hj)
    have hesum : 0 ≤ (l.map err).sum := List.sum_nonneg fun x hx => by obtain ⟨j, hj, rfl⟩ := List.mem_map.1 hx; exact he j (hl' j hj)
    have d0 := hd i oki
    have e0 := he i oki
    rw [List.map_cons, List.sum_cons, ← add_assoc] at hs ⊢
    rw [List.map_cons, List.sum_cons, ← add_assoc] at small ⊢
    rw [List.foldl_cons]
    have htT : t ≤ T := by linarith
    refine ih (t + dur i) (Φ i z) (e + err i) hl' (by linarith) (by linarith) hs small ?_
    have hzr : ‖z - y t‖ ≤ r := by
      refine hz.trans (le_trans ?_ small)
      exact mul_le_mul (Real.exp_le_exp.2 (by gcongr)) (by linarith) he0 (Real.exp_pos _).le
    have a1 := stab t ⟨ht, htT⟩ i oki z hzr
    have a2 := loc t i ht oki (by linarith)
    have a3 : ‖Φ i z - y (t + dur i)‖ ≤ ‖Φ i z - Φ i (y t)‖ + ‖Φ i (y t) - y (t + dur i)‖ := norm_sub_le_norm_sub_add_norm_sub _ _ _
    have a4 : Real.exp (L * dur i) * ‖z - y t‖ ≤ Real.exp (L * dur i) * (Real.exp (L * t) * e) := mul_le_mul_of_nonneg_left hz (Real.exp_pos _).le
    have a5 : Real.exp (L * dur i) * (Real.exp (L * t) * e) = Real.exp (L * (t + dur i)) * e := by
      rw [← mul_assoc, ← Real.exp_add]; ring_nf
    have a6 : err i ≤ Real.exp (L * (t + dur i)) * err i := by
      have : 1 ≤ Real.exp (L * (t + dur i)) := Real.one_le_exp (by positivity)
      nlinarith
    linarith [mul_add (Real.exp (L * (t + dur i))) e (err i)]

/-- one step: the method, its order, its length -/
structure MStep where
  X : Mix
  p : ℕ
  h : ℝ

/-- all steps -/
noncomputable def mrun (f : Bool → E → E) (l : List MStep) (z : E) : E := l.foldl (fun z i => i.X.step f i.h z) z

/-- The errors of steps of different methods, orders and lengths add up. -/
theorem mix_global [ProperSpace E] (hU : IsOpen U) (hf : ∀ X, ContDiffOn ℝ ∞ (f X) U) (hst : ∀ X, Straight (f X)) {T : ℝ} (hT : 0 ≤ T) {y : ℝ → E}
    (dy : ∀ t ∈ Icc 0 T, HasDerivWithinAt y (f true (y t) + f false (y t)) (Icc 0 T) t) (hyU : ∀ t ∈ Icc 0 T, y t ∈ U) (P N : ℕ) (c W : ℝ)
    {ε : ℝ} (hε : 0 < ε) :
    ∃ K ρ : ℝ, 0 ≤ K ∧ 0 < ρ ∧ ρ ≤ 1 ∧ (T + 1) * (K * ρ) ≤ ε ∧ ∀ l : List MStep, (∀ i ∈ l, i.X.Bounded N c W ∧ i.X.Order i.p ∧ 1 ≤ i.p ∧ i.p ≤ P ∧ 0 ≤ i.h ∧ i.h ≤ ρ) →
      (l.map MStep.h).sum ≤ T → ‖mrun f l (y 0) - y (l.map MStep.h).sum‖ ≤ K * (l.map fun i => i.h ^ (i.p + 1)).sum ∧
        ∀ (X : Mix) m pre suf h, X.Bounded N c W → m ∈ X.s → X.l m = pre ++ suf → 0 ≤ h → h ≤ ρ → wstep f pre h (mrun f l (y 0)) ∈ U := by
  have cy : ContinuousOn y (Icc 0 T) := fun t ht => (dy t ht).continuousWithinAt
  have hK : IsCompact (y '' Icc 0 T) := isCompact_Icc.image_of_continuousOn cy
  obtain ⟨r, hr, M, Λ, hΛ0, B, hΛ⟩ := exists_words hU hf hK (by rintro _ ⟨t, ht, rfl⟩; exact hyU t ht) (P + 1)
  have hM := B.hM
  have mem : ∀ t ∈ Icc 0 T, ∀ z, ‖z - y t‖ ≤ r → z ∈ Metric.cthickening r (y '' Icc 0 T) := fun t ht z hz =>
    Metric.mem_cthickening_of_dist_le z (y t) r _ (mem_image_of_mem y ht) (by rwa [dist_eq_norm])
  set c' := max c 1 with hc'
  have hc1 : 1 ≤ c' := le_max_right _ _
  have hc0 : 0 ≤ c' := by linarith
  set W' := max W 0 with hW'
  have hW0 : 0 ≤ W' := le_max_right _ _
  have widen : ∀ X : Mix, X.Bounded N c W → X.Bounded N c' W' := fun X h =>
    ⟨h.len, fun m hm s hs => (h.coef m hm s hs).trans (le_max_left _ _), h.weight.trans (le_max_left _ _)⟩
  obtain ⟨C, hC, loc⟩ := mix_local B hst hc1 N hW0 dy (fun t ht => mem t ht _ (by simpa using hr.le))
  set L := W' * (N * (c' * Λ) * Real.exp (N * (c' * Λ))) with hL
  have hL0 : 0 ≤ L := by positivity
  set K := Real.exp (L * T) * C with hKd
  have hK0 : 0 ≤ K := by positivity
  set D := 2 * ((T + 1) * K) + N * (c' * M) + 1 with hD
  have hD1 : 0 < D := by positivity
  have hre : 0 < min (r / 2) ε := lt_min (by positivity) hε
  set ρ := min 1 (min (r / 2) ε / D) with hρ
  have hρ0 : 0 < ρ := lt_min one_pos (by positivity)
  have hρ1 : ρ ≤ 1 := min_le_left _ _
  have hρD : ρ * D ≤ min (r / 2) ε := (le_div_iff₀ hD1).1 (min_le_right _ _)
  have hs1 : (T + 1) * (K * ρ) ≤ min (r / 2) ε := by
    have h3 : ρ * D = 2 * ((T + 1) * (K * ρ)) + (N * (c' * M) + 1) * ρ := by rw [hD]; ring
    have h4 : 0 ≤ (N * (c' * M) + 1) * ρ := by positivity
    have h5 : 0 ≤ (T + 1) * (K * ρ) := by positivity
    linarith
  have room : N * (ρ * (c' * M)) ≤ r / 2 := by
    have h1 : ρ * D = 2 * ((T + 1) * K * ρ) + N * (ρ * (c' * M)) + ρ := by rw [hD]; ring
    have h2 : 0 ≤ (T + 1) * K * ρ := by positivity
    have := min_le_left (r / 2) ε
    linarith
  have room' : ∀ h, 0 ≤ h → h ≤ ρ → N * (h * (c' * M)) ≤ r / 2 := fun h h0 hh => le_trans (by gcongr) room
  refine ⟨K, ρ, hK0, hρ0, hρ1, hs1.trans (min_le_right _ _), fun l hl hsum => ?_⟩
  have herr : C * (l.map fun i => i.h ^ (i.p + 1)).sum ≤ C * (ρ * T) := by
    refine mul_le_mul_of_nonneg_left (le_trans ?_ (mul_le_mul_of_nonneg_left hsum hρ0.le)) hC
    rw [← List.sum_map_mul_left]
    refine List.sum_le_sum fun i hi => ?_
    obtain ⟨_, _, h1, _, h2, h3⟩ := hl i hi
    rw [pow_succ]
    exact mul_le_mul_of_nonneg_right ((pow_le_of_le_one h2 (h3.trans hρ1) (by omega)).trans h3) h2
  have small : Real.exp (L * T) * (0 + (l.map fun i => C * i.h ^ (i.p + 1)).sum) ≤ r / 2 := by
    rw [zero_add, List.sum_map_mul_left]
    have h1 := mul_le_mul_of_nonneg_left herr (Real.exp_pos (L * T)).le
    have h2 : Real.exp (L * T) * (C * (ρ * T)) = T * (K * ρ) := by rw [hKd]; ring
    have h3 : (T + 1) * (K * ρ) = T * (K * ρ) + K * ρ := by ring
    have h4 : 0 ≤ K * ρ := by positivity
    have := min_le_left (r / 2) ε
    linarith
  have main := accumulate (Φ := fun (i : MStep) => i.X.step f i.h) (dur := MStep.h) (err := fun i => C * i.h ^ (i.p + 1)) (y := y) (T := T) (r := r / 2) hL0
    (fun i => i.X.Bounded N c W ∧ i.X.Order i.p ∧ 1 ≤ i.p ∧ i.p ≤ P ∧ 0 ≤ i.h ∧ i.h ≤ ρ) (fun i h => h.2.2.2.2.1) (fun i h => mul_nonneg hC (pow_nonneg h.2.2.2.2.1 _))
    (fun t ht i hi z hz => by
      obtain ⟨hX, hO, _, _, h0, h1⟩ := hi
      have := room' _ h0 h1
      exact mix_stable B hΛ0 hΛ hc0 ht h0 (h1.trans hρ1) (widen _ hX) hO.one (by linarith) (by rw [sub_self, norm_zero]; linarith))
    (fun t i ht hi hTt => by
      obtain ⟨hX, hO, _, hp, h0, h1⟩ := hi
      refine loc i.p hp i.X (widen _ hX) hO i.h t h0 ht hTt fun z hz => mem t ⟨ht, by linarith⟩ z (hz.trans ?_)
      have := room' _ h0 h1
      rw [mul_assoc i.h]
      linarith) l 0 (y 0) 0 hl le_rfl le_rfl (by rwa [zero_add]) small (by simp)
  rw [zero_add, zero_add, List.sum_map_mul_left] at main
  have hs0 : 0 ≤ (l.map MStep.h).sum := List.sum_nonneg fun x hx => by obtain ⟨j, hj, rfl⟩ := List.mem_map.1 hx; exact (hl j hj).2.2.2.2.1
  have he0 : 0 ≤ (l.map fun i => i.h ^ (i.p + 1)).sum := List.sum_nonneg fun x hx => by
    obtain ⟨j, hj, rfl⟩ := List.mem_map.1 hx; exact pow_nonneg (hl j hj).2.2.2.2.1 _
  have fin1 : ‖mrun f l (y 0) - y (l.map MStep.h).sum‖ ≤ K * (l.map fun i => i.h ^ (i.p + 1)).sum := by
    refine main.trans ?_
    rw [show K * (l.map fun i => i.h ^ (i.p + 1)).sum = Real.exp (L * T) * (C * (l.map fun i => i.h ^ (i.p + 1)).sum) by rw [hKd]; ring]
    exact mul_le_mul_of_nonneg_right (Real.exp_le_exp.2 (mul_le_mul_of_nonneg_left hsum hL0)) (by positivity)
  refine ⟨fin1, fun X m pre suf h hX hm e h0 hh => ?_⟩
  have ht : (l.map MStep.h).sum ∈ Icc 0 T := ⟨hs0, hsum⟩
  have hz : ‖mrun f l (y 0) - y (l.map MStep.h).sum‖ ≤ r / 2 := by
    refine fin1.trans (le_trans (le_of_eq ?_) small)
    rw [zero_add, List.sum_map_mul_left, hKd]
    ring
  have hpre : pre.length ≤ N := by have := (hX.len m hm); rw [e, List.length_append] at this; omega
  have wmap : wstep f pre = comp ((pre.map (fun s => (flow f s, fun z => (coef s : ℝ) • f (letter s) z))).map Prod.fst) := by
    rw [List.map_map]; rfl
  have good : ∀ q ∈ pre.map (fun s => (flow f s, fun z => (coef s : ℝ) • f (letter s) z)), Good y T r 1 (c' * M) (c' * Λ) 0 q.1 q.2 := by
    intro q hq
    obtain ⟨s, hs, rfl⟩ := List.mem_map.1 hq
    exact flow_good B hΛ ((widen X hX).coef m hm s (by rw [e]; exact List.mem_append_left _ hs))
  have r1 : ‖mrun f l (y 0) - y (l.map MStep.h).sum‖ + ((pre.map (fun s => (flow f s, fun z => (coef s : ℝ) • f (letter s) z))).length : ℝ) * (h * (c' * M)) ≤ r := by
    rw [List.length_map]
    have h1 : (pre.length : ℝ) * (h * (c' * M)) ≤ N * (h * (c' * M)) := by
      have : (pre.length : ℝ) ≤ N := by exact_mod_cast hpre
      gcongr
    have := room' h h0 hh
    linarith
  have mv := comp_move _ good (by positivity) ht (h := h) ⟨h0, hh.trans hρ1⟩ _ r1
  rw [← wmap] at mv
  exact B.sub (mem _ ht _ (mv.trans r1))

/-! ### the sub-steps of Bulirsch-Stoer -/

/-- the same stages with all coefficients multiplied -/
def scaleS (a : ℚ) : Stage → Stage
  | .drift c => .drift (c * a)
  | .kick c => .kick (c * a)

theorem letter_scale (a : ℚ) (s : Stage) : letter (scaleS a s) = letter s := by cases s <;> rfl
theorem coef_scale (a : ℚ) (s : Stage) : coef (scaleS a s) = coef s * a := by cases s <;> rfl

theorem wordCoef_scale (a : ℚ) (l : List Stage) : ∀ w, wordCoef (l.map (scaleS a)) w = a ^ w.length * wordCoef l w := by
  induction l with
  | nil =>
    intro w
    simp only [List.map_nil, wordCoef]
    split_ifs with h
    · simp [h]
    · simp
  | cons s l ih =>
    intro w
    rw [List.map_cons, wordCoef, wordCoef, Finset.mul_sum]
    refine Finset.sum_congr rfl fun k hk => ?_
    rw [letter_scale, coef_scale, ih]
    split_ifs with h
    · have hk' := Nat.lt_succ_iff.1 (Finset.mem_range.1 hk)
      rw [List.length_drop, mul_pow, show a ^ w.length = a ^ k * a ^ (w.length - k) by rw [← pow_add]; congr 1; omega]
      ring
    · simp

/-- position updates for `false`, velocity updates for `true` in the places of the position updates of the leap-frog -/
def outer (kdk : Bool) (c : ℚ) : Stage := if kdk then .kick c else .drift c
def innerW (kdk : Bool) (c : ℚ) : Stage := if kdk then .drift c else .kick c

/-- `n` leap-frog steps of length 1, neighbouring half steps joined -/
def joined (kdk : Bool) (n : ℕ) : List Stage :=
  [outer kdk (1 / 2)] ++ (List.replicate (n - 1) [innerW kdk 1, outer kdk 1]).flatten ++ [innerW kdk 1, outer kdk (1 / 2)]

/-- the sub-steps as stages -/
def subStages (kdk : Bool) (n : ℕ) : List Stage := (joined kdk n).map (scaleS (1 / n))

theorem op_joined (w : List Bool) (kdk : Bool) (n : ℕ) (hn : 1 ≤ n) : op w (joined kdk n) = op w [outer kdk (1 / 2), innerW kdk 1, outer kdk (1 / 2)] ^ n := by
  obtain ⟨d, rfl⟩ : ∃ d, n = d + 1 := ⟨n - 1, by omega⟩
  rw [joined, Nat.add_sub_cancel]
  have h1 : ∀ c, op w [outer kdk c] = ex w (letter (outer kdk 0)) c := by intro c; cases kdk <;> simp [op, outer, letter, coef]
  have h2 : ∀ c, op w [innerW kdk c] = ex w (letter (innerW kdk 0)) c := by intro c; cases kdk <;> simp [op, innerW, letter, coef]
  have h3 : ∀ a b, op w [innerW kdk a, outer kdk b] = ex w (letter (innerW kdk 0)) a * ex w (letter (outer kdk 0)) b := by
    intro a b; rw [show [innerW kdk a, outer kdk b] = [innerW kdk a] ++ [outer kdk b] from rfl, op_append, h1, h2]
  have h4 : op w [outer kdk (1 / 2), innerW kdk 1, outer kdk (1 / 2)] =
      ex w (letter (outer kdk 0)) (1 / 2) * (ex w (letter (innerW kdk 0)) 1 * ex w (letter (outer kdk 0)) (1 / 2)) := by
    rw [show [outer kdk (1 / 2), innerW kdk 1, outer kdk (1 / 2)] = [outer kdk (1 / 2)] ++ [innerW kdk 1, outer kdk (1 / 2)] from rfl, op_append, h1, h3]
  set O := ex w (letter (outer kdk 0)) with hO
  set I := ex w (letter (innerW kdk 0)) with hI
  have hOO : O 1 = O (1 / 2) * O (1 / 2) := by rw [hO, ← ex_add]; norm_num
  rw [op_append, op_append, h1, h3, h4]
  have key : ∀ d : ℕ, O (1 / 2) * op w (List.replicate d [innerW kdk 1, outer kdk 1]).flatten * (I 1 * O (1 / 2)) = (O (1 / 2) * (I 1 * O (1 / 2))) ^ (d + 1) := by
    intro d
    induction d with
    | zero => simp [op]
    | succ d ih =>
      rw [List.replicate_succ, List.flatten_cons, op_append, h3, pow_succ', ← ih, hOO]
      simp only [mul_assoc]
  exact key d

/-- coefficient of a word in the sub-steps -/
theorem subStages_word (w : List Bool) (kdk : Bool) : ∃ q : Polynomial ℚ, q.natDegree ≤ (w.length - 1) / 2 ∧
    q.eval 0 = 1 / w.length.factorial ∧ ∀ n : ℕ, 1 ≤ n → wordCoef (subStages kdk n) w = q.eval (1 / (n : ℚ) ^ 2) := by
  obtain ⟨q, h1, h2, h3⟩ := pow_words w [outer kdk (1 / 2), innerW kdk 1, outer kdk (1 / 2)]
    (by intro X; cases kdk <;> cases X <;> norm_num [sumLetter, outer, innerW, letter, coef]) (by simp)
  refine ⟨q, h1, h2, fun n hn => ?_⟩
  rw [← h3 n hn, subStages, wordCoef_scale, ← op_joined w kdk n hn, op_fin w _ 0 (Nat.zero_le _), List.drop_zero]

/-- weights of the extrapolation from the runs number `a` to `k` -/
noncomputable def weight (D a k m : ℕ) : ℝ := (Lagrange.basis (Finset.Icc a k) (fun i => 1 / (BS.hSeq D i : ℝ) ^ 2) m).eval 0

theorem zeroStep_weight (D a k : ℕ) (y : ℕ → ℝ) : BS.Spec.zeroStep (BS.hSeq D) y a k = ∑ m ∈ Finset.Icc a k, weight D a k m * y m := by
  rw [BS.Spec.zeroStep, Lagrange.interpolate_apply, Polynomial.eval_finsetSum]
  refine Finset.sum_congr rfl fun m _ => ?_
  rw [Polynomial.eval_mul, Polynomial.eval_C, weight, mul_comm]

/-- the extrapolation -/
noncomputable def extrapMix (D : ℕ) (kdk : Bool) (a k : ℕ) : Mix := ⟨Finset.Icc a k, weight D a k, fun m => subStages kdk (BS.hSeq D m)⟩

theorem zeroStep_poly' {D a k : ℕ} (hk : k ≤ D) (hak : a ≤ k) (p : Polynomial ℝ) (hp : p.natDegree ≤ k - a) :
    BS.Spec.zeroStep (BS.hSeq D) (fun i => p.eval (1 / (BS.hSeq D i : ℝ) ^ 2)) a k = p.eval 0 := by
  unfold BS.Spec.zeroStep
  rw [← Lagrange.eq_interpolate (BS.hSeq_injOn hk)]
  rw [Nat.card_Icc]
  calc p.degree ≤ (p.natDegree : WithBot ℕ) := Polynomial.degree_le_natDegree
    _ < ((k + 1 - a : ℕ) : WithBot ℕ) := by exact_mod_cast (by omega)

/-- The extrapolation from the runs number `a` to `k` has the order `2 (k - a + 1)`. -/
theorem extrap_order {D a k : ℕ} (hk : k ≤ D) (hak : a ≤ k) (kdk : Bool) : (extrapMix D kdk a k).Order (2 * (k - a) + 2) := by
  intro w hw
  obtain ⟨q, h1, h2, h3⟩ := subStages_word w kdk
  have e := zeroStep_poly' hk hak (q.map (algebraMap ℚ ℝ)) ((Polynomial.natDegree_map_le).trans (h1.trans (by omega)))
  rw [zeroStep_weight] at e
  have e0 : (q.map (algebraMap ℚ ℝ)).eval 0 = 1 / w.length.factorial := by
    have := congrArg (algebraMap ℚ ℝ) h2
    rw [← Polynomial.eval_map_apply] at this
    simpa using this
  rw [e0] at e
  rw [← e]
  refine Finset.sum_congr rfl fun m hm => ?_
  have hm' := Finset.mem_Icc.1 hm
  show weight D a k m * _ = weight D a k m * _
  congr 1
  have := h3 (BS.hSeq D m) (BS.hSeq_pos (by omega))
  show (wordCoef (subStages kdk (BS.hSeq D m)) w : ℝ) = _
  rw [this]
  have := Polynomial.eval_map_apply (algebraMap ℚ ℝ) (1 / (BS.hSeq D m : ℚ) ^ 2) (p := q)
  rw [show ((Polynomial.eval (1 / (BS.hSeq D m : ℚ) ^ 2) q : ℚ) : ℝ) = algebraMap ℚ ℝ (Polynomial.eval (1 / (BS.hSeq D m : ℚ) ^ 2) q) from rfl, ← this]
  simp

theorem subStages_length (kdk : Bool) (n : ℕ) (hn : 1 ≤ n) : (subStages kdk n).length = 2 * n + 1 := by
  simp [subStages, joined]; omega

theorem subStages_coef (kdk : Bool) (n : ℕ) (hn : 1 ≤ n) : ∀ s ∈ subStages kdk n, |((coef s : ℚ) : ℝ)| ≤ 1 := by
  intro s hs
  obtain ⟨u, hu, rfl⟩ := List.mem_map.1 hs
  have hu' : |((coef u : ℚ) : ℝ)| ≤ 1 := by
    have : coef u = 1 ∨ coef u = 1 / 2 := by
      simp only [joined, List.mem_append, List.mem_flatten, List.mem_replicate, List.mem_cons, List.not_mem_nil, or_false] at hu
      rcases hu with (rfl | ⟨l, ⟨_, rfl⟩, hu⟩) | rfl | rfl
      · cases kdk <;> simp [outer, coef]
      · simp only [List.mem_cons, List.not_mem_nil, or_false] at hu
        rcases hu with rfl | rfl <;> cases kdk <;> simp [outer, innerW, coef]
      · cases kdk <;> simp [innerW, coef]
      · cases kdk <;> simp [outer, coef]
    rcases this with h | h <;> rw [h] <;> norm_num
  rw [coef_scale, Rat.cast_mul, abs_mul]
  have hn1 : (1:ℝ) ≤ n := by exact_mod_cast hn
  have h2 : |(((1 / n : ℚ)) : ℝ)| ≤ 1 := by
    push_cast
    rw [abs_of_nonneg (by positivity), div_le_one (by linarith)]
    exact hn1
  nlinarith [abs_nonneg ((coef u : ℚ) : ℝ), abs_nonneg (((1 / n : ℚ)) : ℝ)]

/-- one bound for all columns -/
theorem extrap_bounded (D : ℕ) : ∃ N : ℕ, ∃ W : ℝ, ∀ kdk a k, k ≤ D → (extrapMix D kdk a k).Bounded N 1 W := by
  refine ⟨2 * BS.hSeq D D + 1, ∑ a ∈ Finset.range (D + 1), ∑ k ∈ Finset.range (D + 1), ∑ m ∈ Finset.Icc a k, |weight D a k m|, fun kdk a k hk => ⟨fun m hm => ?_, fun m hm => ?_, ?_⟩⟩
  · have hm' := Finset.mem_Icc.1 hm
    show (subStages kdk (BS.hSeq D m)).length ≤ _
    rw [subStages_length kdk _ (BS.hSeq_pos (by omega))]
    rcases Nat.lt_or_ge m D with h | h
    · have := BS.hSeq_lt h le_rfl; omega
    · obtain rfl : m = D := by omega
      omega
  · have hm' := Finset.mem_Icc.1 hm
    exact subStages_coef kdk _ (BS.hSeq_pos (by omega))
  · rcases Nat.lt_or_ge D a with h | h
    · have : (extrapMix D kdk a k).s = ∅ := Finset.Icc_eq_empty (by omega)
      rw [this, Finset.sum_empty]
      exact Finset.sum_nonneg fun a _ => Finset.sum_nonneg fun k _ => Finset.sum_nonneg fun m _ => abs_nonneg _
    · refine le_trans ?_ (Finset.single_le_sum (f := fun a => ∑ k ∈ Finset.range (D + 1), ∑ m ∈ Finset.Icc a k, |weight D a k m|) (fun a _ => Finset.sum_nonneg fun k _ => Finset.sum_nonneg fun m _ => abs_nonneg _)
        (Finset.mem_range.2 (show a < D + 1 by omega)))
      exact Finset.single_le_sum (f := fun k => ∑ m ∈ Finset.Icc a k, |weight D a k m|) (fun k _ => Finset.sum_nonneg fun m _ => abs_nonneg _) (Finset.mem_range.2 (by omega))

/-- the calls of the model -/
theorem subStages_calls (kdk : Bool) (H : ℝ) (n : ℕ) (hn : 1 ≤ n) : (subStages kdk n).map (Stage.op H) = if kdk then substepsKDK H n else substepsDKD H n := by
  have loop : ∀ (x y : Op) (n : ℕ), 1 ≤ n → forLoop 1 n (fun _ l => l ++ [x, y]) [] = (List.replicate (n - 1) [x, y]).flatten := by
    intro x y n hn
    induction n, hn using Nat.le_induction with
    | base => rw [forLoop_self 1 1 le_rfl]; simp
    | succ n hn ih =>
      rw [forLoop_succ 1 n hn, ih, show n + 1 - 1 = (n - 1) + 1 by omega, List.replicate_succ']
      simp
  have n0 : (n : ℝ) ≠ 0 := by positivity
  have e1 : ((1 * (1 / n) : ℚ) : ℝ) * H = H / n := by push_cast; field_simp
  have e2 : ((1 / 2 * (1 / n) : ℚ) : ℝ) * H = 1 / 2 * (H / n) := by push_cast; field_simp
  cases kdk
  · simp only [subStages, joined, outer, innerW, Bool.false_eq_true, if_false, List.map_append, List.map_cons, List.map_nil, List.map_flatten, List.map_replicate,
      scaleS, Stage.op, e1, e2, substepsDKD, loop _ _ n hn]
  · simp only [subStages, joined, outer, innerW, if_true, List.map_append, List.map_cons, List.map_nil, List.map_flatten, List.map_replicate,
      scaleS, Stage.op, e1, e2, substepsKDK, loop _ _ n hn]

end SpaceHub.Converge
