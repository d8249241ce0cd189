import Verif.Proof.RadauTable
import Verif.Proof.RadauLin

/-
What the corrections and predictions of the IAS15 iterator do to a linear image of the variables that follows a field.
-/

set_option autoImplicit false

namespace SpaceHub.Radau
open SpaceHub SpaceHub.Sys SpaceHub.Props Finset SpaceHub.Converge Ctl Fl

variable {S : Type} {E : Type*} [NormedAddCommGroup E] [NormedSpace ℝ E]

/-- the map only looks at the first `n` entries -/
def LocalE (n : ℕ) (A : (ℕ → ℝ) →ₗ[ℝ] E) : Prop := ∀ f g : ℕ → ℝ, (∀ v, v < n → f v = g v) → A f = A g

/-- The image under `A` of the variables of the systems in the frame of `s` moves along the field `F` as long as it is in `W`. -/
structure Shadow (O : RSys S) (ok : S → Prop) (n : ℕ) (A : (ℕ → ℝ) →ₗ[ℝ] E) (F : E → E) (W : Set E) : Prop where
  loc : LocalE n A
  read : ∀ x y v, ok x → O.read x v = .ok y → ok y ∧ O.write y = v
  keep : ∀ x d, ok x → O.deriv x = .ok d → ok d.2
  field : ∀ x d, ok x → A (GR.toArr (O.write x)) ∈ W → O.deriv x = .ok d → A (GR.toArr d.1) = F (A (GR.toArr (O.write x)))

theorem shadow_integral {n : ℕ} {A : (ℕ → ℝ) →ₗ[ℝ] E} (hA : LocalE n A) (r : GR) (H x : ℝ) (y0 y : List ℝ)
    (hy : ∀ v, v < n → y.getD v 0 = y0.getD v 0 + H * ∫ τ in (0 : ℝ)..x, slope (r.dy0 v) (fun j => r.b j v) τ) :
    A (GR.toArr y) = A (GR.toArr y0) + (H * x) • (A r.dy0 + ∑ j ∈ range 7, (x ^ (j + 1) / ((j : ℝ) + 2)) • A (r.b j)) := by
  have e : A (GR.toArr y) = A (GR.toArr y0 + (H * x) • (r.dy0 + ∑ j ∈ range 7, (x ^ (j + 1) / ((j : ℝ) + 2)) • r.b j)) := by
    refine hA _ _ fun v hv => ?_
    show y.getD v 0 = _
    rw [hy v hv, slope_integral]
    simp only [Pi.add_apply, Pi.smul_apply, smul_eq_mul, Finset.sum_apply]
    have : ∑ j ∈ range 7, r.b j v * x ^ (j + 1) / ((j : ℝ) + 2) = ∑ j ∈ range 7, x ^ (j + 1) / ((j : ℝ) + 2) * r.b j v :=
      sum_congr rfl fun j _ => by ring
    rw [this]
    show y0.getD v 0 + _ = y0.getD v 0 + _
    ring
  rw [e, map_add, map_smul, map_add, map_sum]
  simp only [map_smul]

variable {O : RSys S} {ok : S → Prop} {n : ℕ} {A : (ℕ → ℝ) →ₗ[ℝ] E} {F : E → E} {W : Set E} {T : Tab}

/-- a correction as a correction of the images -/
theorem shadow_correct (sh : Shadow O ok n A F W) {H : ℝ} {r r' : GR} {s s' : S} (hs : ok s) (hn : (O.write s).length = n)
    (hz : A (GR.toArr (O.write s)) ∈ W) (e : correct T O H r s = .ok (s', r')) :
    ∃ b g : ℕ → ℕ → E, SweepE W T F H (A (GR.toArr (O.write s))) b g ∧
      ((r.num = n ∧ ∀ j, b 0 j = A (r.b j) ∧ g 0 j = A (r.g j)) ∨ (r.num ≠ n ∧ ∀ j, b 0 j = 0 ∧ g 0 j = 0)) ∧
      (∀ j, b 7 j = A (r'.b j) ∧ g 7 j = A (r'.g j)) ∧ A r'.dy0 = F (A (GR.toArr (O.write s))) ∧ r'.num = n ∧ r'.input = O.write s := by
  obtain ⟨d, R, st, X, D, hd, pth, h0, h7, hR7, hin, hdy, hnum, hbg⟩ := correct_path e
  have hst : ∀ i, i ≤ 7 → ok (st i) := by
    intro i
    induction i with
    | zero => intro _; rw [h0]; exact sh.keep s d hs hd
    | succ i ih =>
      intro hi
      have a := (sh.read _ _ _ (ih (by omega)) (pth.read i (Nat.zero_le _) (by omega))).1
      have b := sh.keep _ _ a (pth.deriv i (Nat.zero_le _) (by omega))
      exact (sh.read _ _ _ b (pth.back i (Nat.zero_le _) (by omega))).1
  have hdy0 : ∀ i, i ≤ 7 → (R i).dy0 = GR.toArr d.1 := fun i hi => (pth.fixed i hi).2.1.trans hdy
  have hFz : A (GR.toArr d.1) = F (A (GR.toArr (O.write s))) := sh.field s d hs hz hd
  have zero : ∀ B : Arr (Arr ℝ), (∀ j v, B j v = 0) → ∀ j, A (B j) = 0 := fun B hB j => by
    rw [show B j = 0 from funext fun v => hB j v, map_zero]
  refine ⟨fun i j => A ((R i).b j), fun i j => A ((R i).g j), ⟨fun i hi hW => ?_, fun i j hi hj => ?_, fun i j hi hj => ?_, fun i j hi hj => ?_⟩, ?_,
    fun j => by dsimp only; rw [hR7]; exact ⟨rfl, rfl⟩, ?_, ?_, ?_⟩
  · -- the row of the stage
    have node : A (GR.toArr (O.write (X i))) = nodeE T.h F H (A (GR.toArr (O.write s))) (fun j => A ((R i).b j)) i := by
      obtain ⟨_, b2⟩ := sh.read _ _ _ (hst i (by omega)) (pth.read i (Nat.zero_le _) (by omega))
      rw [b2]
      obtain ⟨_, c2⟩ := stageState_eq T (R i) H i
      have hi' : (R i).input = O.write s := (pth.fixed i (by omega)).1.trans hin
      rw [hi', hn] at c2
      rw [shadow_integral sh.loc (R i) H (T.h i) (O.write s) _ c2, hdy0 i (by omega), hFz]
      rfl
    have b1 := (sh.read _ _ _ (hst i (by omega)) (pth.read i (Nat.zero_le _) (by omega))).1
    have hD : A (GR.toArr (D i).1) = F (nodeE T.h F H (A (GR.toArr (O.write s))) (fun j => A ((R i).b j)) i) := by
      rw [← node]
      exact sh.field _ _ b1 (by rw [node]; exact hW) (pth.deriv i (Nat.zero_le _) (by omega))
    have e1 : (R (i + 1)).g i = T.rs i 0 • (GR.toArr (D i).1 - (R i).dy0) - ∑ j ∈ range i, T.rs i (j + 1) • (R i).g j := by
      rw [pth.next i (Nat.zero_le _) (by omega)]
      funext v
      rw [(updateB_eq T { R i with dyh := GR.toArr (D i).1 } i v).1]
      simp only [newG, Pi.sub_apply, Pi.smul_apply, smul_eq_mul, Finset.sum_apply]
      rw [mul_comm]; congr 1
      exact sum_congr rfl fun j _ => mul_comm _ _
    show A ((R (i + 1)).g i) = _
    rw [e1, map_sub, map_smul, map_sub, map_sum, hD, hdy0 i (by omega), hFz]
    simp only [map_smul]
  · show A ((R (i + 1)).g j) = A ((R i).g j)
    rw [pth.next i (Nat.zero_le _) (by omega), (updateB_eq T { R i with dyh := GR.toArr (D i).1 } i 0).2.1 j hj]
  · have e1 : (R (i + 1)).b j = (R i).b j + T.g2b i j • ((R (i + 1)).g i - (R i).g i) := by
      rw [pth.next i (Nat.zero_le _) (by omega)]
      funext v
      obtain ⟨u1, _, _, u4, _⟩ := updateB_eq T { R i with dyh := GR.toArr (D i).1 } i v
      rw [u4 j hj]
      simp only [Pi.add_apply, Pi.smul_apply, Pi.sub_apply, smul_eq_mul]
      rw [u1]; ring
    show A ((R (i + 1)).b j) = _
    rw [e1, map_add, map_smul, map_sub]
  · show A ((R (i + 1)).b j) = A ((R i).b j)
    rw [pth.next i (Nat.zero_le _) (by omega), (updateB_eq T { R i with dyh := GR.toArr (D i).1 } i 0).2.2.2.2 j hj]
  · rcases hbg with ⟨hm, a, b⟩ | ⟨hm, a, b⟩
    · exact .inl ⟨by rw [← hn]; exact hm, fun j => by dsimp only; rw [a, b]; exact ⟨rfl, rfl⟩⟩
    · exact .inr ⟨by rw [← hn]; exact hm, fun j => ⟨zero _ a j, zero _ b j⟩⟩
  · rw [← hR7, hdy0 7 le_rfl]; exact hFz
  · rw [← hR7, (pth.fixed 7 le_rfl).2.2.1, hnum, hn]
  · rw [← hR7, (pth.fixed 7 le_rfl).1, hin]

/-- bounds for the images of the tables -/
structure Tame (T : Tab) (A : (ℕ → ℝ) →ₗ[ℝ] E) (r : GR) (k0 k1 k2 : ℝ) : Prop where
  g : ∀ j, j < 7 → ‖A (r.g j)‖ ≤ k0
  old : ∀ j, j < 7 → ‖A (r.old j)‖ ≤ k1
  defect : ∀ j, j < 7 → ‖defectE T (fun j => A (r.b j)) (fun j => A (r.g j)) j‖ ≤ k2

theorem tame_new {k0 k1 k2 : ℝ} (h0 : 0 ≤ k0) (h1 : 0 ≤ k1) (h2 : 0 ≤ k2) : Tame T A GR.new k0 k1 k2 := by
  have z : ∀ j, A (GR.new.g j) = 0 ∧ A (GR.new.old j) = 0 ∧ A (GR.new.b j) = 0 := fun j => ⟨A.map_zero, A.map_zero, A.map_zero⟩
  refine ⟨fun j _ => by rw [(z j).1, norm_zero]; exact h0, fun j _ => by rw [(z j).2.1, norm_zero]; exact h1, fun j _ => ?_⟩
  unfold defectE
  dsimp only
  rw [(z j).2.2, sum_eq_zero fun k _ => by rw [(z k).1, smul_zero], sub_zero, norm_zero]
  exact h2

/-- the growth of a prediction -/
noncomputable def bigQ (Γ : ℝ) : ℝ := 4 ^ 7 * (7 * Γ)

theorem predict_tame {η Γ : ℝ} (N : Near T η Γ) {r : GR} {B k1 q : ℝ} (hB : ∀ j, j < 7 → ‖A (r.b j)‖ ≤ B) (hold : ∀ j, j < 7 → ‖A (r.old j)‖ ≤ k1) (hq0 : 0 ≤ q) (hq : q ≤ 4) :
    Tame T A (r.predict T q) (7 * (Γ * ((bigQ Γ + 1) * B + k1))) (bigQ Γ * B) (7 * (η * ((bigQ Γ + 1) * B + k1))) := by
  have hΓ := N.hΓ
  have hB0 : 0 ≤ B := (norm_nonneg _).trans (hB 0 (by norm_num))
  have hk0 : 0 ≤ k1 := (norm_nonneg _).trans (hold 0 (by norm_num))
  have hQ : 0 ≤ bigQ Γ := by unfold bigQ; positivity
  have he : ∀ i, i < 7 → ‖A (reexpand T r.b q i)‖ ≤ bigQ Γ * B := by
    intro i hi
    have e : reexpand T r.b q i = q ^ (i + 1) • ∑ j ∈ Ico i 7, T.estB j i • r.b j := by
      funext v
      simp only [reexpand, Pi.smul_apply, smul_eq_mul, Finset.sum_apply]
      congr 1
      exact sum_congr rfl fun j _ => mul_comm _ _
    rw [e, map_smul, map_sum, norm_smul, Real.norm_of_nonneg (by positivity)]
    have h1 : q ^ (i + 1) ≤ 4 ^ 7 := (pow_le_pow_left₀ hq0 hq _).trans (pow_le_pow_right₀ (by norm_num) (by omega))
    have h2 : ‖∑ j ∈ Ico i 7, A (T.estB j i • r.b j)‖ ≤ 7 * (Γ * B) := sum_seven (by simp) (by positivity) fun j hj => by
      obtain ⟨j1, j2⟩ := mem_Ico.1 hj
      rw [map_smul, norm_smul, Real.norm_eq_abs]
      exact mul_le_mul (N.est j i j2 j1) (hB j j2) (norm_nonneg _) (by linarith)
    refine (mul_le_mul h1 h2 (norm_nonneg _) (by positivity)).trans (le_of_eq ?_)
    unfold bigQ; ring
  have hb : ∀ i, i < 7 → ‖A ((r.predict T q).b i)‖ ≤ (bigQ Γ + 1) * B + k1 := by
    intro i hi
    have e : (r.predict T q).b i = reexpand T r.b q i + (r.b i - r.old i) := by
      funext v; rw [(predict_eq T r q i v hi).1]; rfl
    rw [e, map_add, map_sub]
    have h1 := norm_add_le (A (reexpand T r.b q i)) (A (r.b i) - A (r.old i))
    have h2 := norm_sub_le (A (r.b i)) (A (r.old i))
    linarith [he i hi, hB i hi, hold i hi]
  have hX : 0 ≤ (bigQ Γ + 1) * B + k1 := by positivity
  have eg : ∀ j, j < 7 → A ((r.predict T q).g j) = ∑ k ∈ Ico j 7, T.b2g k j • A ((r.predict T q).b k) := by
    intro j hj
    have e : (r.predict T q).g j = ∑ k ∈ Ico j 7, T.b2g k j • (r.predict T q).b k := by
      funext v
      rw [(predict_eq T r q j v hj).2.2, transformB2G_eq _ _ _ _ hj]
      simp only [Finset.sum_apply, Pi.smul_apply, smul_eq_mul]
      exact sum_congr rfl fun k _ => mul_comm _ _
    rw [e, map_sum]
    simp only [map_smul]
  refine ⟨fun j hj => ?_, fun j hj => ?_, fun j hj => ?_⟩
  · rw [eg j hj]
    refine sum_seven (by simp) (by positivity) fun k hk => ?_
    obtain ⟨j1, j2⟩ := mem_Ico.1 hk
    rw [norm_smul, Real.norm_eq_abs]
    exact mul_le_mul (N.b2g k j j2 j1) (hb k j2) (norm_nonneg _) (by linarith)
  · rw [show (r.predict T q).old j = reexpand T r.b q j from funext fun v => (predict_eq T r q j v hj).2.1]; exact he j hj
  · set β : ℕ → E := fun j => A ((r.predict T q).b j) with hβ
    have e : defectE T β (fun j => A ((r.predict T q).g j)) j =
        -∑ l ∈ range 7, ((∑ k ∈ Ico j 7, (if k ≤ l then T.b2g l k else 0) * T.g2b k j) - (if l = j then 1 else 0)) • β l := by
      unfold defectE
      have e1 : ∑ k ∈ Ico j 7, T.g2b k j • A ((r.predict T q).g k) = ∑ l ∈ range 7, (∑ k ∈ Ico j 7, (if k ≤ l then T.b2g l k else 0) * T.g2b k j) • β l := by
        simp only [sum_smul]
        rw [sum_comm]
        refine sum_congr rfl fun k hk => ?_
        obtain ⟨k1, k2⟩ := mem_Ico.1 hk
        rw [eg k k2, smul_sum, range_eq_Ico, ← sum_Ico_consecutive _ (Nat.zero_le k) k2.le,
          sum_eq_zero (s := Ico 0 k) (fun l hl => by rw [if_neg (by have := (mem_Ico.1 hl).2; omega), zero_mul, zero_smul]), zero_add]
        refine sum_congr rfl fun l hl => ?_
        rw [if_pos (mem_Ico.1 hl).1, smul_smul, mul_comm]
      have e2 : ∑ l ∈ range 7, (if l = j then (1 : ℝ) else 0) • β l = β j := by
        simp only [ite_smul, one_smul, zero_smul]
        rw [sum_ite_eq' (range 7) j, if_pos (mem_range.2 hj)]
      simp only [sub_smul, sum_sub_distrib]
      rw [e1, e2]; abel
    rw [e, norm_neg]
    refine sum_seven (by simp) (mul_nonneg N.hη hX) fun l hl => ?_
    have hl := mem_range.1 hl
    rw [norm_smul, Real.norm_eq_abs]
    exact mul_le_mul (N.round l j hl hj) (hb l hl) (norm_nonneg _) N.hη

/-! ### corrections and attempts -/

/-- the data of a step -/
structure StepData (T : Tab) (η Γ : ℝ) (F : E → E) (W : Set E) (M r H : ℝ) (z : E) (β : ℕ → E) (B a δ : ℝ) : Prop where
  N : Near T η Γ
  hc : Nodes T.h
  m : Mild F W M
  hr0 : 0 ≤ r
  hr : Metric.closedBall z r ⊆ W
  hH : 0 ≤ H
  h1 : H * (M + 4) ≤ r
  hβ : Coll T.h F H z β
  hB : ∀ j, j < 7 → ‖β j‖ ≤ B
  ha : ∀ k, k < 7 → ‖gammaE T.h β k‖ ≤ a
  ha' : ∀ n, n < 7 → ‖F (nodeE T.h F H z β n) - F z‖ ≤ a
  hδ : 0 ≤ δ
  hP : M * H * bigP Γ ≤ 1 / 2

/-- a correction of the images -/
theorem correct_close {η Γ M r H : ℝ} {s : S} {β : ℕ → E} {B a δ e : ℝ} (D : StepData T η Γ F W M r H (A (GR.toArr (O.write s))) β B a δ)
    (sh : Shadow O ok n A F W) {x x' : S} {R R' : GR} (hx : ok x) (hw : O.write x = O.write s) (hn : (O.write s).length = n)
    (hc : correct T O H R x = .ok (x', R')) (hnum : R.num = n ∨ a ≤ e) (he : ∀ k, k < 7 → ‖A (R.g k) - gammaE T.h β k‖ ≤ e)
    (hδ : ∀ j, j < 7 → ‖defectE T (fun j => A (R.b j)) (fun j => A (R.g j)) j‖ ≤ δ)
    (small : B + δ + 7 * (Γ * (e + bigP Γ * (M * H * (e + δ + η * a) + η * a))) + 7 * (η * a) ≤ 1) :
    (∀ k, k < 7 → ‖A (R'.g k) - gammaE T.h β k‖ ≤ bigP Γ * (M * H * (e + δ + η * a) + η * a)) ∧
    (∀ j, j < 7 → ‖defectE T (fun j => A (R'.b j)) (fun j => A (R'.g j)) j‖ ≤ δ) ∧ A R'.dy0 = F (A (GR.toArr (O.write s))) ∧ R'.num = n := by
  have zW : A (GR.toArr (O.write x)) ∈ W := by rw [hw]; exact D.hr (Metric.mem_closedBall_self D.hr0)
  obtain ⟨b, g, sw, h0, h7, hdy, hnum', _⟩ := shadow_correct sh hx (by rw [hw, hn]) zW hc
  rw [hw] at sw hdy
  have he' : ∀ k, k < 7 → ‖g 0 k - gammaE T.h β k‖ ≤ e := fun k hk => by
    rcases h0 with ⟨_, h0⟩ | ⟨h, h0⟩
    · rw [(h0 k).2]; exact he k hk
    · rw [(h0 k).2, zero_sub, norm_neg]
      rcases hnum with h' | h'
      · exact absurd h' h
      · exact (D.ha k hk).trans h'
  have hδ' : ∀ j, j < 7 → ‖defectE T (b 0) (g 0) j‖ ≤ δ := fun j hj => by
    rcases h0 with ⟨_, h0⟩ | ⟨_, h0⟩
    · have : defectE T (b 0) (g 0) j = defectE T (fun j => A (R.b j)) (fun j => A (R.g j)) j := by
        unfold defectE
        rw [(h0 j).1]
        congr 1
        exact sum_congr rfl fun k _ => by rw [(h0 k).2]
      rw [this]; exact hδ j hj
    · have : defectE T (b 0) (g 0) j = 0 := by
        unfold defectE
        rw [(h0 j).1, sum_eq_zero fun k _ => by rw [(h0 k).2, smul_zero], sub_zero]
      rw [this, norm_zero]; exact D.hδ
  obtain ⟨k1, k2, _⟩ := sweep_close D.N D.hc D.m D.hr0 D.hr D.hH D.h1 D.hβ D.hB D.ha D.ha' (by linarith [D.hP]) sw he' hδ' small
  refine ⟨fun k hk => by rw [← (h7 k).2]; exact k1 k hk, fun j hj => ?_, hdy, hnum'⟩
  have : defectE T (fun j => A (R'.b j)) (fun j => A (R'.g j)) j = defectE T (b 7) (g 7) j := by
    unfold defectE
    rw [(h7 j).1]
    congr 1
    exact sum_congr rfl fun k _ => by rw [(h7 k).2]
  rw [this]; exact k2 j hj

/-- an attempt -/
theorem attempt_close {η Γ M r H : ℝ} {s : S} {β : ℕ → E} {B a δ e k1 : ℝ} (D : StepData T η Γ F W M r H (A (GR.toArr (O.write s))) β B a δ)
    (sh : Shadow O ok n A F W) (hn : (O.write s).length = n) {k : ℕ} {g : ℕ → GR} {y : ℕ → S} (at_ : ∀ i, i ≤ k → correct T O H (g i) (y i) = .ok (y (i + 1), g (i + 1)))
    (hy : ∀ j, j ≤ k + 1 → ok (y j) ∧ O.write (y j) = O.write s) (hae : a ≤ e) (he : ∀ k, k < 7 → ‖A ((g 0).g k) - gammaE T.h β k‖ ≤ e)
    (hδ : ∀ j, j < 7 → ‖defectE T (fun j => A ((g 0).b j)) (fun j => A ((g 0).g j)) j‖ ≤ δ) (hold : ∀ j, j < 7 → ‖A ((g 0).old j)‖ ≤ k1)
    {ρ Dl : ℝ} (hρ : ρ = bigP Γ * (M * H)) (hDl : Dl = bigP Γ * (M * H * (δ + η * a) + η * a))
    (small : B + δ + 7 * (Γ * (e + 2 * Dl + bigP Γ * (M * H * (e + 2 * Dl + δ + η * a) + η * a))) + 7 * (η * a) ≤ 1) :
    ∀ i, 1 ≤ i → i ≤ k + 1 → (∀ k, k < 7 → ‖A ((g i).g k) - gammaE T.h β k‖ ≤ ρ ^ i * e + 2 * Dl) ∧
      (∀ j, j < 7 → ‖defectE T (fun j => A ((g i).b j)) (fun j => A ((g i).g j)) j‖ ≤ δ) ∧ A (g i).dy0 = F (A (GR.toArr (O.write s))) ∧
      (g i).num = n ∧ ∀ j, j < 7 → ‖A ((g i).old j)‖ ≤ k1 := by
  have hM := D.m.hM
  have hΓ := D.N.hΓ
  have hη := D.N.hη
  have hP1 := bigP_pos hΓ
  have hH := D.hH
  have ha0 : 0 ≤ a := (norm_nonneg _).trans (D.ha 0 (by norm_num))
  have he0 : 0 ≤ e := ha0.trans hae
  have hδ0 := D.hδ
  have hk0 : 0 ≤ k1 := (norm_nonneg _).trans (hold 0 (by norm_num))
  have hηa : 0 ≤ η * a := mul_nonneg hη ha0
  have hDl0 : 0 ≤ Dl := by rw [hDl]; positivity
  have hρ0 : 0 ≤ ρ := by rw [hρ]; positivity
  have hρ1 : ρ ≤ 1 / 2 := by have := D.hP; rw [hρ]; linarith
  have oldR : ∀ i, i ≤ k → (∀ j, j < 7 → ‖A ((g i).old j)‖ ≤ k1) → ∀ j, j < 7 → ‖A ((g (i + 1)).old j)‖ ≤ k1 := fun i hi h j hj => by
    rcases correct_old (at_ i hi) with h' | h'
    · rw [h']; exact h j hj
    · rw [show (g (i + 1)).old j = 0 from funext fun v => h' j v, map_zero, norm_zero]; exact hk0
  -- the bounds grow with the difference before the correction
  have sm : ∀ e', 0 ≤ e' → e' ≤ e + 2 * Dl → B + δ + 7 * (Γ * (e' + bigP Γ * (M * H * (e' + δ + η * a) + η * a))) + 7 * (η * a) ≤ 1 := fun e' _ h => by
    have h2 : bigP Γ * (M * H * (e' + δ + η * a) + η * a) ≤ bigP Γ * (M * H * (e + 2 * Dl + δ + η * a) + η * a) := by
      refine mul_le_mul_of_nonneg_left ?_ (by linarith)
      have : M * H * (e' + δ + η * a) ≤ M * H * (e + 2 * Dl + δ + η * a) := mul_le_mul_of_nonneg_left (by linarith) (by positivity)
      linarith
    have h3 : Γ * (e' + bigP Γ * (M * H * (e' + δ + η * a) + η * a)) ≤ Γ * (e + 2 * Dl + bigP Γ * (M * H * (e + 2 * Dl + δ + η * a) + η * a)) :=
      mul_le_mul_of_nonneg_left (by linarith) (by linarith)
    linarith
  have stepE : ∀ e', bigP Γ * (M * H * (e' + δ + η * a) + η * a) = ρ * e' + Dl := fun e' => by rw [hρ, hDl]; ring
  intro i
  induction i with
  | zero => intro h; omega
  | succ i ih =>
    intro _ hi
    obtain ⟨y1, y2⟩ := hy i (by omega)
    rcases Nat.eq_zero_or_pos i with rfl | hpos
    · obtain ⟨c1, c2, c3, c4⟩ := correct_close D sh y1 y2 hn (at_ 0 (Nat.zero_le _)) (.inr hae) he hδ (sm e he0 (by linarith))
      refine ⟨fun k hk => (c1 k hk).trans ?_, c2, c3, c4, oldR 0 (Nat.zero_le _) hold⟩
      rw [stepE, zero_add, pow_one]; linarith
    · obtain ⟨i1, i2, i3, i4, i5⟩ := ih hpos (by omega)
      have p1 : ρ ^ i ≤ 1 := pow_le_one₀ hρ0 (by linarith)
      have p0 : 0 ≤ ρ ^ i := by positivity
      have p2 : ρ ^ i * e ≤ e := by nlinarith
      obtain ⟨c1, c2, c3, c4⟩ := correct_close D sh y1 y2 hn (at_ i (by omega)) (.inl i4) i1 i2 (sm _ (by positivity) (by linarith))
      refine ⟨fun k hk => (c1 k hk).trans ?_, c2, c3, c4, oldR i (by omega) i5⟩
      rw [stepE, pow_succ, mul_add]
      have e1 : ρ * (ρ ^ i * e) = ρ ^ i * ρ * e := by ring
      have e2 : ρ * (2 * Dl) ≤ Dl := by nlinarith
      linarith

end SpaceHub.Radau
