import Verif.Proof.RadauColl
import Verif.Props.GaussRadau

/-
The corrector sweep brings the coefficient tables closer to the solution of the collocation equations.
-/

set_option autoImplicit false

namespace SpaceHub.Radau
open SpaceHub SpaceHub.Sys SpaceHub.Props Finset SpaceHub.Converge

/-- the tables are those of the nodes up to `η`, with entries up to `Γ` -/
structure Near (T : Tab) (η Γ : ℝ) : Prop where
  hη : 0 ≤ η
  hΓ : 1 ≤ Γ
  rs : ∀ n j, n < 7 → j ≤ n → |T.rs n j - coefRS T.h n j| ≤ η ∧ |T.rs n j| ≤ Γ
  g2b : ∀ n j, n < 7 → j ≤ n → |T.g2b n j - coefG2B T.h n j| ≤ η ∧ |T.g2b n j| ≤ Γ
  b2g : ∀ n j, n < 7 → j ≤ n → |T.b2g n j| ≤ Γ
  est : ∀ n j, n < 7 → j ≤ n → |T.estB n j| ≤ Γ
  round : ∀ l j, l < 7 → j < 7 → |(∑ k ∈ Ico j 7, (if k ≤ l then T.b2g l k else 0) * T.g2b k j) - (if l = j then 1 else 0)| ≤ η

variable {E : Type*} [NormedAddCommGroup E] [NormedSpace ℝ E]

omit [NormedSpace ℝ E] in
theorem sum_seven {s : Finset ℕ} (hs : s.card ≤ 7) {f : ℕ → E} {X : ℝ} (h0 : 0 ≤ X) (h : ∀ i ∈ s, ‖f i‖ ≤ X) : ‖∑ i ∈ s, f i‖ ≤ 7 * X := by
  refine (norm_sum_le _ _).trans ((sum_le_sum h).trans ?_)
  rw [sum_const, nsmul_eq_mul]
  exact mul_le_mul_of_nonneg_right (by exact_mod_cast hs) h0

/-- coefficients in the Newton basis -/
noncomputable def gammaE (c : ℕ → ℝ) (b : ℕ → E) (k : ℕ) : E := ∑ j ∈ range 7, coefB2G c j k • b j

theorem gamma_back (c : ℕ → ℝ) (b : ℕ → E) {j : ℕ} (hj : j < 7) : b j = ∑ k ∈ range 7, coefG2B c k j • gammaE c b k := by
  unfold gammaE
  simp only [smul_sum, smul_smul]
  rw [sum_comm]
  have : ∀ l ∈ range 7, ∑ k ∈ range 7, (coefG2B c k j * coefB2G c l k) • b l = if l = j then b l else 0 := fun l hl => by
    rw [← sum_smul, sum_congr rfl fun k _ => mul_comm _ _, b2g_g2b c l j 7 (mem_range.1 hl)]
    split_ifs <;> simp
  rw [sum_congr rfl this, sum_ite_eq' (range 7) j, if_pos (mem_range.2 hj)]

theorem gamma_value (c : ℕ → ℝ) (b : ℕ → E) (τ : ℝ) : ∑ j ∈ range 7, τ ^ (j + 1) • b j = ∑ k ∈ range 7, newton c k τ • gammaE c b k := by
  unfold gammaE
  simp only [smul_sum, smul_smul]
  rw [sum_comm]
  refine sum_congr rfl fun j hj => ?_
  rw [← sum_smul, pow_succ', power_expand c j 7 (mem_range.1 hj) τ, mul_sum]
  congr 1
  refine sum_congr rfl fun k _ => ?_
  unfold newton; ring

theorem newton_ne {c : ℕ → ℝ} (hc : Distinct c) {n : ℕ} (hn : n < 7) : newton c n (c n) ≠ 0 :=
  mul_ne_zero (hc.1 n hn) (prod_ne_zero_iff.2 fun k hk => sub_ne_zero.2 (hc.2 n k hn (mem_range.1 hk)))

theorem gamma_row {c : ℕ → ℝ} (hc : Distinct c) (b : ℕ → E) {n : ℕ} (hn : n < 7) :
    gammaE c b n = coefRS c n 0 • (∑ j ∈ range 7, c n ^ (j + 1) • b j) - ∑ j ∈ range n, coefRS c n (j + 1) • gammaE c b j := by
  rw [gamma_value c b (c n), range_eq_Ico, ← sum_Ico_consecutive _ (Nat.zero_le (n + 1)) (by omega : n + 1 ≤ 7),
    sum_eq_zero (s := Ico (n + 1) 7) (fun j hj => by rw [newton_node c n j (by have := (mem_Ico.1 hj).1; omega), zero_smul]), add_zero,
    ← range_eq_Ico, sum_range_succ, smul_add, smul_smul, smul_sum]
  have e0 : coefRS c n 0 * newton c n (c n) = 1 := inv_mul_cancel₀ (newton_ne hc hn)
  have ej : ∀ j ∈ range n, coefRS c n 0 • newton c j (c n) • gammaE c b j = coefRS c n (j + 1) • gammaE c b j := fun j hj => by
    have hj := mem_range.1 hj
    rw [smul_smul]
    congr 1
    have e1 : newton c n (c n) = newton c j (c n) * ∏ k ∈ Ico j n, (c n - c k) := by
      unfold newton
      rw [mul_assoc, range_eq_Ico, range_eq_Ico, prod_Ico_consecutive _ (Nat.zero_le _) hj.le]
    have h0 := newton_ne hc hn
    rw [e1] at h0
    have h1 := left_ne_zero_of_mul h0
    have h2 := right_ne_zero_of_mul h0
    show (newton c n (c n))⁻¹ * newton c j (c n) = (∏ k ∈ Ico j n, (c n - c k))⁻¹
    rw [e1]
    field_simp
  rw [sum_congr rfl ej, e0, one_smul]
  abel

/-- the difference between the power form and the Newton form -/
noncomputable def defectE (T : Tab) (b g : ℕ → E) (j : ℕ) : E := b j - ∑ k ∈ Ico j 7, T.g2b k j • g k

/-- One correction: `b n`, `g n` are the tables before stage `n`. -/
structure SweepE (W : Set E) (T : Tab) (F : E → E) (H : ℝ) (z : E) (b g : ℕ → ℕ → E) : Prop where
  row : ∀ n, n < 7 → nodeE T.h F H z (b n) n ∈ W → g (n + 1) n =
    T.rs n 0 • (F (nodeE T.h F H z (b n) n) - F z) - ∑ j ∈ range n, T.rs n (j + 1) • g n j
  other : ∀ n j, n < 7 → j ≠ n → g (n + 1) j = g n j
  low : ∀ n j, n < 7 → j ≤ n → b (n + 1) j = b n j + T.g2b n j • (g (n + 1) n - g n n)
  high : ∀ n j, n < 7 → n < j → b (n + 1) j = b n j

variable {T : Tab} {η Γ : ℝ} {F : E → E} {H : ℝ} {z : E} {W : Set E}

theorem diff_le (N : Near T η Γ) {b g β : ℕ → E} {δ X a : ℝ} (hδ : ∀ j, j < 7 → ‖defectE T b g j‖ ≤ δ) (hX : ∀ k, k < 7 → ‖g k - gammaE T.h β k‖ ≤ X)
    (ha : ∀ k, k < 7 → ‖gammaE T.h β k‖ ≤ a) {j : ℕ} (hj : j < 7) : ‖b j - β j‖ ≤ δ + 7 * (Γ * X) + 7 * (η * a) := by
  have hΓ := N.hΓ
  have hη := N.hη
  have hX0 : 0 ≤ X := (norm_nonneg _).trans (hX 0 (by norm_num))
  have ha0 : 0 ≤ a := (norm_nonneg _).trans (ha 0 (by norm_num))
  have e : b j - β j = defectE T b g j + ∑ k ∈ Ico j 7, T.g2b k j • (g k - gammaE T.h β k) + ∑ k ∈ Ico j 7, (T.g2b k j - coefG2B T.h k j) • gammaE T.h β k := by
    have e1 : β j = ∑ k ∈ Ico j 7, coefG2B T.h k j • gammaE T.h β k := by
      conv_lhs => rw [gamma_back T.h β hj]
      rw [range_eq_Ico, ← sum_Ico_consecutive _ (Nat.zero_le j) hj.le,
        sum_eq_zero (s := Ico 0 j) (fun k hk => by rw [coefG2B_zero T.h k j (mem_Ico.1 hk).2, zero_smul]), zero_add]
    unfold defectE
    simp only [smul_sub, sub_smul, sum_sub_distrib]
    rw [← e1]; abel
  have c7 : (Ico j 7).card ≤ 7 := by simp
  rw [e]
  refine (norm_add₃_le).trans (add_le_add (add_le_add (hδ j hj) (sum_seven c7 (by positivity) fun k hk => ?_)) (sum_seven c7 (by positivity) fun k hk => ?_))
  · obtain ⟨h1, h2⟩ := mem_Ico.1 hk
    rw [norm_smul, Real.norm_eq_abs]
    exact mul_le_mul (N.g2b k j h2 h1).2 (hX k h2) (norm_nonneg _) (by linarith)
  · obtain ⟨h1, h2⟩ := mem_Ico.1 hk
    rw [norm_smul, Real.norm_eq_abs]
    exact mul_le_mul (N.g2b k j h2 h1).1 (ha k h2) (norm_nonneg _) hη

/-- the defect does not change -/
theorem SweepE.defect {b g : ℕ → ℕ → E} (S : SweepE W T F H z b g) : ∀ n, n ≤ 7 → ∀ j, j < 7 → defectE T (b n) (g n) j = defectE T (b 0) (g 0) j := by
  intro n
  induction n with
  | zero => intro _ _ _; rfl
  | succ n ih =>
    intro hn j hj
    rw [← ih (by omega) j hj]
    unfold defectE
    rcases Nat.lt_or_ge n j with h | h
    · rw [S.high n j (by omega) h]
      congr 1
      refine sum_congr rfl fun k hk => ?_
      rw [S.other n k (by omega) (by have := (mem_Ico.1 hk).1; omega)]
    · have hmem : n ∈ Ico j 7 := mem_Ico.2 ⟨h, by omega⟩
      rw [S.low n j (by omega) h, ← add_sum_erase _ _ hmem, ← add_sum_erase (Ico j 7) (fun k => T.g2b k j • g n k) hmem]
      have : ∑ k ∈ (Ico j 7).erase n, T.g2b k j • g (n + 1) k = ∑ k ∈ (Ico j 7).erase n, T.g2b k j • g n k :=
        sum_congr rfl fun k hk => by rw [S.other n k (by omega) (ne_of_mem_erase hk)]
      rw [this, smul_sub]; abel

/-- growth of the differences along the stages -/
noncomputable def c1 (Γ : ℝ) : ℝ := 4 * Γ * (8 + 14 * Γ) + 8

/-- the factor of a correction -/
noncomputable def bigP (Γ : ℝ) : ℝ := c1 Γ * (1 + Γ) ^ 7

theorem c1_pos {Γ : ℝ} (h : 1 ≤ Γ) : 1 ≤ c1 Γ := by
  unfold c1
  have : 0 ≤ 4 * Γ * (8 + 14 * Γ) := by positivity
  linarith

theorem row_le {Γ : ℝ} (h : 1 ≤ Γ) {n : ℕ} (hn : n ≤ 7) : c1 Γ * (1 + Γ) ^ n ≤ bigP Γ :=
  mul_le_mul_of_nonneg_left (pow_le_pow_right₀ (by linarith) hn) (by linarith [c1_pos h])

theorem bigP_pos {Γ : ℝ} (h : 1 ≤ Γ) : 1 ≤ bigP Γ := by
  have h1 := row_le h (Nat.zero_le 7)
  rw [pow_zero, mul_one] at h1
  exact (c1_pos h).trans h1

theorem rows_sum (Γ : ℝ) (n : ℕ) : ∑ j ∈ range n, Γ * (c1 Γ * (1 + Γ) ^ j) = c1 Γ * (1 + Γ) ^ n - c1 Γ := by
  induction n with
  | zero => simp
  | succ n ih => rw [sum_range_succ, ih]; ring

variable {M r : ℝ}

/-- **A correction.** -/
theorem sweep_close (N : Near T η Γ) (hc : Nodes T.h) (m : Mild F W M) (hr0 : 0 ≤ r) (hr : Metric.closedBall z r ⊆ W) (hH : 0 ≤ H) (h1 : H * (M + 4) ≤ r)
    {β : ℕ → E} (hβ : Coll T.h F H z β) {B a e δ : ℝ} (hB : ∀ j, j < 7 → ‖β j‖ ≤ B) (ha : ∀ k, k < 7 → ‖gammaE T.h β k‖ ≤ a)
    (ha' : ∀ n, n < 7 → ‖F (nodeE T.h F H z β n) - F z‖ ≤ a) (hP : M * H * bigP Γ ≤ 1)
    {b g : ℕ → ℕ → E} (S : SweepE W T F H z b g) (he : ∀ k, k < 7 → ‖g 0 k - gammaE T.h β k‖ ≤ e) (hδ : ∀ j, j < 7 → ‖defectE T (b 0) (g 0) j‖ ≤ δ)
    (small : B + δ + 7 * (Γ * (e + bigP Γ * (M * H * (e + δ + η * a) + η * a))) + 7 * (η * a) ≤ 1) :
    (∀ k, k < 7 → ‖g 7 k - gammaE T.h β k‖ ≤ bigP Γ * (M * H * (e + δ + η * a) + η * a)) ∧ (∀ j, j < 7 → ‖defectE T (b 7) (g 7) j‖ ≤ δ) ∧
    ∀ n, n < 7 → nodeE T.h F H z (b n) n ∈ Metric.closedBall z r := by
  have hM := m.hM
  have hΓ := N.hΓ
  have hη := N.hη
  have zW : z ∈ W := hr (Metric.mem_closedBall_self hr0)
  have he0 : 0 ≤ e := (norm_nonneg _).trans (he 0 (by norm_num))
  have hδ0 : 0 ≤ δ := (norm_nonneg _).trans (hδ 0 (by norm_num))
  have ha0 : 0 ≤ a := (norm_nonneg _).trans (ha 0 (by norm_num))
  have hB0 : 0 ≤ B := (norm_nonneg _).trans (hB 0 (by norm_num))
  have hc1 := c1_pos hΓ
  have hbP := bigP_pos hΓ
  have hMH : 0 ≤ M * H := mul_nonneg (by linarith) hH
  set Y := M * H * (e + δ + η * a) + η * a with hY
  have hηa : 0 ≤ η * a := mul_nonneg hη ha0
  have hY0 : 0 ≤ Y := by positivity
  -- the tables before a stage
  have diff : ∀ n, n ≤ 7 → (∀ k, k < n → ‖g n k - gammaE T.h β k‖ ≤ c1 Γ * (1 + Γ) ^ k * Y) → (∀ k, n ≤ k → g n k = g 0 k) → ∀ j, j < 7 →
      ‖b n j - β j‖ ≤ δ + 7 * (Γ * (e + bigP Γ * Y)) + 7 * (η * a) := fun n hn p1 p2 j hj => by
    refine diff_le N (g := g n) (fun j hj => by rw [S.defect n hn j hj]; exact hδ j hj) (fun k hk => ?_) ha hj
    rcases Nat.lt_or_ge k n with h | h
    · have := (p1 k h).trans (mul_le_mul_of_nonneg_right (row_le hΓ (by omega : k ≤ 7)) hY0)
      linarith
    · rw [p2 k h]
      have : 0 ≤ bigP Γ * Y := by positivity
      linarith [he k hk]
  have ball : ∀ n, n < 7 → (∀ j, j < 7 → ‖b n j - β j‖ ≤ δ + 7 * (Γ * (e + bigP Γ * Y)) + 7 * (η * a)) → ‖nodeE T.h F H z (b n) n - z‖ ≤ r := fun n hn hd => by
    have b1 : ∀ j, j < 7 → ‖b n j‖ ≤ 1 := fun j hj => by
      have h2 := norm_add_le (b n j - β j) (β j)
      rw [sub_add_cancel] at h2
      linarith [hd j hj, hB j hj]
    refine (node_near hc hH b1 zero_le_one hn).trans (le_trans ?_ h1)
    exact mul_le_mul_of_nonneg_left (by linarith [Mild.valF m zW]) hH
  have ballβ : ∀ n, n < 7 → ‖nodeE T.h F H z β n - z‖ ≤ r := fun n hn => by
    have x1 : 0 ≤ 7 * (Γ * (e + bigP Γ * Y)) := by positivity
    have x2 : 0 ≤ 7 * (η * a) := by positivity
    refine (node_near hc hH (fun j hj => (hB j hj).trans (by linarith : B ≤ 1)) zero_le_one hn).trans (le_trans ?_ h1)
    exact mul_le_mul_of_nonneg_left (by linarith [Mild.valF m zW]) hH
  have main : ∀ n, n ≤ 7 → (∀ k, k < n → ‖g n k - gammaE T.h β k‖ ≤ c1 Γ * (1 + Γ) ^ k * Y) ∧ (∀ k, n ≤ k → g n k = g 0 k) := by
    intro n
    induction n with
    | zero => intro _; exact ⟨fun k hk => by omega, fun k _ => rfl⟩
    | succ n ih =>
      intro hn
      obtain ⟨p1, p2⟩ := ih (by omega)
      refine ⟨fun k hk => ?_, fun k hk => by rw [S.other n k (by omega) (by omega)]; exact p2 k (by omega)⟩
      rcases Nat.lt_succ_iff_lt_or_eq.1 hk with h | rfl
      · rw [S.other n k (by omega) (by omega)]; exact p1 k h
      have hk7 : k < 7 := by omega
      have hd := diff k (by omega) p1 p2
      set Dd := δ + 7 * (Γ * (e + bigP Γ * Y)) + 7 * (η * a) with hDd
      have hDd0 : 0 ≤ Dd := by positivity
      have hf : ‖F (nodeE T.h F H z (b k) k) - F (nodeE T.h F H z β k)‖ ≤ M * (H * (4 * Dd)) :=
        (Mild.lipF m hr (ball k hk7 hd) (ballβ k hk7)).trans (mul_le_mul_of_nonneg_left (node_diff hc hH hd hDd0 hk7) (by linarith))
      have hval := hβ k hk7
      have e1 : g (k + 1) k - gammaE T.h β k = T.rs k 0 • (F (nodeE T.h F H z (b k) k) - F (nodeE T.h F H z β k)) +
          (T.rs k 0 - coefRS T.h k 0) • (F (nodeE T.h F H z β k) - F z) -
          (∑ j ∈ range k, T.rs k (j + 1) • (g k j - gammaE T.h β j) + ∑ j ∈ range k, (T.rs k (j + 1) - coefRS T.h k (j + 1)) • gammaE T.h β j) := by
        rw [S.row k hk7 (hr (mem_closedBall_iff_norm.2 (ball k hk7 hd))), gamma_row hc.distinct β hk7, hval]
        simp only [smul_sub, sub_smul, sum_sub_distrib]
        abel
      have t1 : ‖T.rs k 0 • (F (nodeE T.h F H z (b k) k) - F (nodeE T.h F H z β k))‖ ≤ Γ * (M * (H * (4 * Dd))) := by
        rw [norm_smul, Real.norm_eq_abs]
        exact mul_le_mul (N.rs k 0 hk7 (Nat.zero_le _)).2 hf (norm_nonneg _) (by linarith)
      have t2 : ‖(T.rs k 0 - coefRS T.h k 0) • (F (nodeE T.h F H z β k) - F z)‖ ≤ η * a := by
        rw [norm_smul, Real.norm_eq_abs]
        exact mul_le_mul (N.rs k 0 hk7 (Nat.zero_le _)).1 (ha' k hk7) (norm_nonneg _) hη
      have t3 : ‖∑ j ∈ range k, T.rs k (j + 1) • (g k j - gammaE T.h β j)‖ ≤ (c1 Γ * (1 + Γ) ^ k - c1 Γ) * Y := by
        rw [← rows_sum, sum_mul]
        refine (norm_sum_le _ _).trans (sum_le_sum fun j hj => ?_)
        have hj := mem_range.1 hj
        rw [norm_smul, Real.norm_eq_abs, mul_assoc]
        exact mul_le_mul (N.rs k (j + 1) hk7 hj).2 (p1 j hj) (norm_nonneg _) (by linarith)
      have t4 : ‖∑ j ∈ range k, (T.rs k (j + 1) - coefRS T.h k (j + 1)) • gammaE T.h β j‖ ≤ 7 * (η * a) := by
        refine sum_seven (by simp; omega) hηa fun j hj => ?_
        have hj := mem_range.1 hj
        rw [norm_smul, Real.norm_eq_abs]
        exact mul_le_mul (N.rs k (j + 1) hk7 hj).1 (ha j (by omega)) (norm_nonneg _) hη
      -- the sum
      have y1 : M * H * e ≤ Y := by
        rw [hY]
        have : 0 ≤ M * H * (δ + η * a) := by positivity
        have e : M * H * (e + δ + η * a) = M * H * e + M * H * (δ + η * a) := by ring
        linarith
      have y2 : M * H * δ ≤ Y := by
        rw [hY]
        have : 0 ≤ M * H * (e + η * a) := by positivity
        have e : M * H * (e + δ + η * a) = M * H * δ + M * H * (e + η * a) := by ring
        linarith
      have y3 : η * a ≤ Y := by
        rw [hY]
        have : 0 ≤ M * H * (e + δ + η * a) := by positivity
        linarith
      have y4 : M * H * (η * a) ≤ Y := by
        rw [hY]
        have : 0 ≤ M * H * (e + δ) := by positivity
        have e : M * H * (e + δ + η * a) = M * H * (η * a) + M * H * (e + δ) := by ring
        linarith
      have y5 : M * H * (bigP Γ * Y) ≤ Y := by
        have := mul_le_mul_of_nonneg_right hP hY0
        have e : M * H * (bigP Γ * Y) = M * H * bigP Γ * Y := by ring
        linarith
      have y6 : M * H * (e + bigP Γ * Y) ≤ 2 * Y := by rw [mul_add]; linarith
      have y7 : M * H * Dd ≤ (8 + 14 * Γ) * Y := by
        have e : M * H * Dd = M * H * δ + 7 * Γ * (M * H * (e + bigP Γ * Y)) + 7 * (M * H * (η * a)) := by rw [hDd]; ring
        have := mul_le_mul_of_nonneg_left y6 (by positivity : 0 ≤ 7 * Γ)
        rw [e]; linarith
      have y8 : Γ * (M * (H * (4 * Dd))) ≤ 4 * Γ * ((8 + 14 * Γ) * Y) := by
        have e : Γ * (M * (H * (4 * Dd))) = 4 * Γ * (M * H * Dd) := by ring
        rw [e]; exact mul_le_mul_of_nonneg_left y7 (by positivity)
      rw [e1]
      refine (norm_sub_le _ _).trans ?_
      have s1 := (norm_add_le (T.rs k 0 • (F (nodeE T.h F H z (b k) k) - F (nodeE T.h F H z β k))) ((T.rs k 0 - coefRS T.h k 0) • (F (nodeE T.h F H z β k) - F z))).trans (add_le_add t1 t2)
      have s2 := (norm_add_le (∑ j ∈ range k, T.rs k (j + 1) • (g k j - gammaE T.h β j)) (∑ j ∈ range k, (T.rs k (j + 1) - coefRS T.h k (j + 1)) • gammaE T.h β j)).trans (add_le_add t3 t4)
      have e2 : c1 Γ * Y = 4 * Γ * ((8 + 14 * Γ) * Y) + 8 * Y := by unfold c1; ring
      have e3 : (c1 Γ * (1 + Γ) ^ k - c1 Γ) * Y = c1 Γ * (1 + Γ) ^ k * Y - c1 Γ * Y := by ring
      linarith
  refine ⟨fun k hk => ?_, fun j hj => by rw [S.defect 7 le_rfl j hj]; exact hδ j hj, fun n hn => ?_⟩
  · exact ((main 7 le_rfl).1 k hk).trans (mul_le_mul_of_nonneg_right (row_le hΓ hk.le) hY0)
  · rw [mem_closedBall_iff_norm]
    exact ball n hn (diff n hn.le (main n hn.le).1 (main n hn.le).2)

end SpaceHub.Radau
