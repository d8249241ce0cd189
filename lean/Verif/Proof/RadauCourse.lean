import Verif.Proof.RadauCode

/-
The error of a course of calls of the IAS15 iterator.
-/

set_option autoImplicit false

namespace SpaceHub.Radau
open SpaceHub SpaceHub.Sys SpaceHub.Props Finset SpaceHub.Converge Ctl Fl
open scoped ContDiff

variable {S : Type} {E : Type*} [NormedAddCommGroup E] [NormedSpace ℝ E]

theorem Shadow.mono {O : RSys S} {ok : S → Prop} {n : ℕ} {A : (ℕ → ℝ) →ₗ[ℝ] E} {F : E → E} {W U : Set E} (h : Shadow O ok n A F U) (hWU : W ⊆ U) :
    Shadow O ok n A F W := ⟨h.loc, h.read, h.keep, fun x d h1 h2 h3 => h.field x d h1 (hWU h2) h3⟩

/-- what call number `i` of a course did -/
def StepBy (T : Tab) (O : RSys S) (big : ℝ) (frame same : S → S → Prop) (k : ℕ) (H τ : ℝ) (it : IAS) (s s' : S) (it' : IAS) (h' : ℝ) : Prop :=
  ∃ m h q n g y E se, k ≤ n m + 1 ∧ h m = τ ∧ AcceptedBy T O big frame same H it s s' it' h' m h q n g y E se

/-- discrete Gronwall -/
theorem gronwall {a L ε t τ e e' : ℝ} (ha : 0 ≤ a) (hL : 0 ≤ L) (hε : 0 ≤ ε) (ht : 0 ≤ t) (hτ : 0 ≤ τ) (he : e ≤ a * ε * (t * Real.exp (L * t)))
    (he' : e' ≤ (1 + L * τ) * e + a * (τ * ε)) : e' ≤ a * ε * ((t + τ) * Real.exp (L * (t + τ))) := by
  have h1 : 1 + L * τ ≤ Real.exp (L * τ) := by linarith [Real.add_one_le_exp (L * τ)]
  have h0 : 0 ≤ 1 + L * τ := by positivity
  have h2 : (1 + L * τ) * e ≤ Real.exp (L * τ) * (a * ε * (t * Real.exp (L * t))) :=
    (mul_le_mul_of_nonneg_left he h0).trans (mul_le_mul_of_nonneg_right h1 (by positivity))
  have h3 : Real.exp (L * (t + τ)) = Real.exp (L * τ) * Real.exp (L * t) := by rw [← Real.exp_add]; ring_nf
  have h4 : 1 ≤ Real.exp (L * (t + τ)) := Real.one_le_exp (by positivity)
  have h5 : a * (τ * ε) ≤ a * (τ * ε) * Real.exp (L * (t + τ)) := le_mul_of_one_le_right (by positivity) h4
  have h6 : a * ε * ((t + τ) * Real.exp (L * (t + τ))) = Real.exp (L * τ) * (a * ε * (t * Real.exp (L * t))) + a * (τ * ε) * Real.exp (L * (t + τ)) := by
    rw [h3]; ring
  linarith

theorem small_enough {c r : ℝ} (hc : 0 ≤ c) (hr : 0 < r) : ∃ h0 : ℝ, 0 < h0 ∧ h0 ≤ 1 ∧ ∀ h, h ≤ h0 → c * h ≤ r := by
  refine ⟨min 1 (r / (c + 1)), lt_min one_pos (by positivity), min_le_left _ _, fun h hh => ?_⟩
  have h1 : h ≤ r / (c + 1) := hh.trans (min_le_right _ _)
  have h2 : c * h ≤ c * (r / (c + 1)) := mul_le_mul_of_nonneg_left h1 hc
  refine h2.trans ?_
  rw [mul_div_assoc', div_le_iff₀ (by linarith)]
  nlinarith

/-- the last stage of a correction -/
theorem shadow_last {O : RSys S} {ok : S → Prop} {n : ℕ} {A : (ℕ → ℝ) →ₗ[ℝ] E} {F : E → E} {W : Set E} {T : Tab} (sh : Shadow O ok n A F W) {H : ℝ} {r r' : GR}
    {s s' : S} (hs : ok s) (hn : (O.write s).length = n) (hz : A (GR.toArr (O.write s)) ∈ W) (e : correct T O H r s = .ok (s', r')) :
    (A r'.dg = A (r'.g 6) - A (r.g 6) ∨ A r'.dg = A (r'.g 6)) ∧
    (nodeE T.h F H (A (GR.toArr (O.write s))) (fun j => A (r'.b j) - T.g2b 6 j • A r'.dg) 6 ∈ W →
      A r'.dyh = F (nodeE T.h F H (A (GR.toArr (O.write s))) (fun j => A (r'.b j) - T.g2b 6 j • A r'.dg) 6)) := by
  obtain ⟨d, R, st, X, D, hd, pth, h0, h7, hR7, hin, hdy, hnum, hbg⟩ := correct_path e
  have hst : ∀ i, i ≤ 7 → ok (st i) := by
    intro i
    induction i with
    | zero => intro _; rw [h0]; exact sh.keep s d hs hd
    | succ i ih =>
      intro hi
      have a := (sh.read _ _ _ (ih (by omega)) (pth.read i (Nat.zero_le _) (by omega))).1
      have b := sh.keep _ _ a (pth.deriv i (Nat.zero_le _) (by omega))
      exact (sh.read _ _ _ b (pth.back i (Nat.zero_le _) (by omega))).1
  have hdy0 : ∀ i, i ≤ 7 → (R i).dy0 = GR.toArr d.1 := fun i hi => (pth.fixed i hi).2.1.trans hdy
  have hFz : A (GR.toArr d.1) = F (A (GR.toArr (O.write s))) := sh.field s d hs hz hd
  have n6 := pth.next 6 (Nat.zero_le _) (by omega)
  rw [hR7] at n6
  have hdyh : r'.dyh = GR.toArr (D 6).1 := by rw [n6]; rfl
  have hdg : r'.dg = r'.g 6 - (R 6).g 6 := by
    rw [n6]
    funext v
    show _ = (GR.updateB T { R 6 with dyh := GR.toArr (D 6).1 } 6).g 6 v - (R 6).g 6 v
    rw [(updateB_eq T { R 6 with dyh := GR.toArr (D 6).1 } 6 v).1]
    rw [(updateB_eq T { R 6 with dyh := GR.toArr (D 6).1 } 6 v).2.2.1]
  have hg : ∀ i, i ≤ 6 → (R i).g 6 = (R 0).g 6 := by
    intro i
    induction i with
    | zero => intro _; rfl
    | succ i ih =>
      intro hi
      rw [pth.next i (Nat.zero_le _) (by omega), (updateB_eq T { R i with dyh := GR.toArr (D i).1 } i 0).2.1 6 (by omega)]
      exact ih (by omega)
  rw [hg 6 le_rfl] at hdg
  refine ⟨?_, fun hW => ?_⟩
  · rcases hbg with ⟨_, _, b⟩ | ⟨_, _, b⟩
    · left; rw [hdg, b, map_sub]
    · right; rw [hdg, show (R 0).g 6 = 0 from funext fun v => b 6 v, sub_zero]
  · have hb : ∀ j, j < 7 → A ((R 6).b j) = A (r'.b j) - T.g2b 6 j • A r'.dg := fun j hj => by
      have e1 : r'.b j = (R 6).b j + T.g2b 6 j • r'.dg := by
        rw [n6]
        funext v
        obtain ⟨u1, _, u3, u4, _⟩ := updateB_eq T { R 6 with dyh := GR.toArr (D 6).1 } 6 v
        rw [u4 j (by omega)]
        simp only [Pi.add_apply, Pi.smul_apply, smul_eq_mul]
        rw [u3]; ring
      rw [e1, map_add, map_smul]; abel
    obtain ⟨x1, x2⟩ := sh.read _ _ _ (hst 6 (by omega)) (pth.read 6 (Nat.zero_le _) (by omega))
    have node : A (GR.toArr (O.write (X 6))) = nodeE T.h F H (A (GR.toArr (O.write s))) (fun j => A (r'.b j) - T.g2b 6 j • A r'.dg) 6 := by
      rw [x2]
      obtain ⟨_, c2⟩ := stageState_eq T (R 6) H 6
      have hi' : (R 6).input = O.write s := (pth.fixed 6 (by omega)).1.trans hin
      rw [hi', hn] at c2
      rw [shadow_integral sh.loc (R 6) H (T.h 6) (O.write s) _ c2, hdy0 6 (by omega), hFz]
      unfold nodeE
      congr 3
      exact sum_congr rfl fun j hj => by rw [hb j (mem_range.1 hj)]
    rw [hdyh, ← node]
    exact sh.field _ _ x1 (by rw [node]; exact hW) (pth.deriv 6 (Nat.zero_le _) (by omega))

/-- A correction, with a property of the states in which it evaluates the derivative -/
def Visits (T : Tab) (O : RSys S) (H : ℝ) (r : GR) (s s' : S) (r' : GR) (Q : S → Prop) : Prop :=
  ∃ d R st X D, O.deriv s = .ok d ∧ Path T O H 0 7 R st X D ∧
    R 0 = { ({ r with input := O.write s } : GR).checkSize (O.write s).length with dy0 := GR.toArr d.1 } ∧ st 0 = d.2 ∧ st 7 = s' ∧ R 7 = r' ∧
    ∀ i, i < 7 → Q (X i)

/-- the nodes of a correction are near its start -/
theorem sweep_nodes {O : RSys S} {ok : S → Prop} {n : ℕ} {A : (ℕ → ℝ) →ₗ[ℝ] E} {F : E → E} {W : Set E} {T : Tab} {η Γ : ℝ} (N : Near T η Γ) (hc : Nodes T.h)
    (sh : Shadow O ok n A F W) {H : ℝ} {r r' : GR} {s s' : S} (hs : ok s) (hn : (O.write s).length = n) (hz : A (GR.toArr (O.write s)) ∈ W) (hH : 0 ≤ H)
    (e : correct T O H r s = .ok (s', r')) {a δ : ℝ} (hg : ∀ j, j < 7 → ‖A (r.g j)‖ ≤ a) (hg' : ∀ j, j < 7 → ‖A (r'.g j)‖ ≤ a)
    (hδ : ∀ j, j < 7 → ‖defectE T (fun j => A (r.b j)) (fun j => A (r.g j)) j‖ ≤ δ) :
    Visits T O H r s s' r' fun x => ‖A (GR.toArr (O.write x)) - A (GR.toArr (O.write s))‖ ≤ H * (‖F (A (GR.toArr (O.write s)))‖ + 4 * (δ + 7 * (Γ * (3 * a)))) := by
  have e' := e
  unfold correct at e'
  dsimp only at e'
  obtain ⟨d, hd, e'⟩ := Res.bind_eq_ok.1 e'
  obtain ⟨R, st, X, D, pth, q1, h0, hR7, h7⟩ := sweep_path T O H 7 0 _ _ _ _ e'
  rw [Nat.zero_add] at hR7 h7
  have hΓ := N.hΓ
  have ha0 : 0 ≤ a := (norm_nonneg _).trans (hg 0 (by norm_num))
  have hδ0 : 0 ≤ δ := (norm_nonneg _).trans (hδ 0 (by norm_num))
  have hst : ∀ i, i ≤ 7 → ok (st i) := by
    intro i
    induction i with
    | zero => intro _; rw [h0]; exact sh.keep s d hs hd
    | succ i ih =>
      intro hi
      have a := (sh.read _ _ _ (ih (by omega)) (pth.read i (Nat.zero_le _) (by omega))).1
      have b := sh.keep _ _ a (pth.deriv i (Nat.zero_le _) (by omega))
      exact (sh.read _ _ _ b (pth.back i (Nat.zero_le _) (by omega))).1
  have hin : (R 0).input = O.write s := by
    rw [q1]; unfold GR.checkSize; split_ifs <;> rfl
  have hdy0 : ∀ i, i ≤ 7 → (R i).dy0 = GR.toArr d.1 := fun i hi => by
    rw [(pth.fixed i hi).2.1, q1]
  have hFz : A (GR.toArr d.1) = F (A (GR.toArr (O.write s))) := sh.field s d hs hz hd
  have hbg : ((R 0).b = r.b ∧ (R 0).g = r.g) ∨ ((∀ j, (R 0).b j = 0) ∧ ∀ j, (R 0).g j = 0) := by
    rw [q1]
    unfold GR.checkSize
    by_cases h : r.num = (O.write s).length
    · rw [if_neg (not_not.2 h)]; exact .inl ⟨rfl, rfl⟩
    · rw [if_pos h]; exact .inr ⟨fun _ => rfl, fun _ => rfl⟩
  have gin : ∀ j, j < 7 → ‖A ((R 0).g j)‖ ≤ a := fun j hj => by
    rcases hbg with ⟨_, h⟩ | ⟨_, h⟩
    · rw [h]; exact hg j hj
    · rw [h, map_zero, norm_zero]; exact ha0
  have din : ∀ j, j < 7 → ‖A ((R 0).b j)‖ ≤ δ + 7 * (Γ * a) := fun j hj => by
    rcases hbg with ⟨h1, _⟩ | ⟨h1, _⟩
    · rw [h1]
      have e1 : A (r.b j) = defectE T (fun j => A (r.b j)) (fun j => A (r.g j)) j + ∑ k ∈ Ico j 7, T.g2b k j • A (r.g k) := by
        unfold defectE; abel
      rw [e1]
      refine (norm_add_le _ _).trans (add_le_add (hδ j hj) (sum_seven (by simp) (by positivity) fun k hk => ?_))
      obtain ⟨k1, k2⟩ := mem_Ico.1 hk
      rw [norm_smul, Real.norm_eq_abs]
      exact mul_le_mul (N.g2b k j k2 k1).2 (hg k k2) (norm_nonneg _) (by linarith)
    · rw [h1, map_zero, norm_zero]; positivity
  have gold : ∀ i, i ≤ 7 → ∀ j, i ≤ j → (R i).g j = (R 0).g j := by
    intro i
    induction i with
    | zero => intro _ _ _; rfl
    | succ i ih =>
      intro hi j hj
      rw [pth.next i (Nat.zero_le _) (by omega), (updateB_eq T { R i with dyh := GR.toArr (D i).1 } i 0).2.1 j (by omega)]
      exact ih (by omega) j (by omega)
  have gnew : ∀ k i, i + k = 7 → ∀ j, j < i → (R i).g j = r'.g j := by
    intro k
    induction k with
    | zero => intro i hi j _; rw [show i = 7 by omega, hR7]
    | succ k ih =>
      intro i hi j hj
      rw [← ih (i + 1) (by omega) j (by omega), pth.next i (Nat.zero_le _) (by omega), (updateB_eq T { R i with dyh := GR.toArr (D i).1 } i 0).2.1 j (by omega)]
  have hb : ∀ i, i < 7 → ∀ j, j < 7 → ‖A ((R i).b j)‖ ≤ δ + 7 * (Γ * a) + i * (Γ * (2 * a)) := by
    intro i
    induction i with
    | zero => intro _ j hj; rw [Nat.cast_zero, zero_mul, add_zero]; exact din j hj
    | succ i ih =>
      intro hi j hj
      have h := ih (by omega) j hj
      have p : 0 ≤ Γ * (2 * a) := by positivity
      rw [Nat.cast_succ, add_one_mul]
      rcases Nat.lt_or_ge i j with hij | hij
      · rw [pth.next i (Nat.zero_le _) (by omega), (updateB_eq T { R i with dyh := GR.toArr (D i).1 } i 0).2.2.2.2 j hij]
        show ‖A ((R i).b j)‖ ≤ _
        linarith
      · have e1 : (R (i + 1)).b j = (R i).b j + T.g2b i j • ((R (i + 1)).g i - (R i).g i) := by
          rw [pth.next i (Nat.zero_le _) (by omega)]
          funext v
          obtain ⟨u1, _, _, u4, _⟩ := updateB_eq T { R i with dyh := GR.toArr (D i).1 } i v
          rw [u4 j hij]
          simp only [Pi.add_apply, Pi.smul_apply, Pi.sub_apply, smul_eq_mul]
          rw [u1]; ring
        rw [e1, map_add, map_smul, map_sub, gnew (6 - i) (i + 1) (by omega) i (by omega), gold i (by omega) i le_rfl]
        refine (norm_add_le _ _).trans ?_
        have b1 := norm_sub_le (A (r'.g i)) (A ((R 0).g i))
        have b2 : ‖A (r'.g i) - A ((R 0).g i)‖ ≤ 2 * a := by linarith [hg' i (by omega), gin i (by omega)]
        have b3 : ‖T.g2b i j • (A (r'.g i) - A ((R 0).g i))‖ ≤ Γ * (2 * a) := by
          rw [norm_smul, Real.norm_eq_abs]
          exact mul_le_mul (N.g2b i j (by omega) hij).2 b2 (norm_nonneg _) (by linarith)
        linarith
  refine ⟨d, R, st, X, D, hd, pth, q1, h0, h7, hR7, fun i hi => ?_⟩
  have node : A (GR.toArr (O.write (X i))) = nodeE T.h F H (A (GR.toArr (O.write s))) (fun j => A ((R i).b j)) i := by
    obtain ⟨_, b2⟩ := sh.read _ _ _ (hst i (by omega)) (pth.read i (Nat.zero_le _) (by omega))
    rw [b2]
    obtain ⟨_, c2⟩ := stageState_eq T (R i) H i
    have hi' : (R i).input = O.write s := (pth.fixed i (by omega)).1.trans hin
    rw [hi', hn] at c2
    rw [shadow_integral sh.loc (R i) H (T.h i) (O.write s) _ c2, hdy0 i (by omega), hFz]
    rfl
  beta_reduce
  rw [node]
  refine node_near hc hH (fun j hj => (hb i hi j hj).trans ?_) (by positivity) hi
  have p : 0 ≤ Γ * (2 * a) := by positivity
  have : (i : ℝ) * (Γ * (2 * a)) ≤ 7 * (Γ * (2 * a)) := mul_le_mul_of_nonneg_right (by exact_mod_cast hi.le) p
  linarith [show 7 * (Γ * (3 * a)) = 7 * (Γ * a) + 7 * (Γ * (2 * a)) by ring]

theorem Tame.congr {T : Tab} {A A' : (ℕ → ℝ) →ₗ[ℝ] E} {r : GR} {k0 k1 k2 : ℝ} (h : Tame T A r k0 k1 k2) (e : ∀ w, ‖A' w‖ = ‖A w‖) : Tame T A' r k0 k1 k2 := by
  refine ⟨fun j hj => by rw [e]; exact h.g j hj, fun j hj => by rw [e]; exact h.old j hj, fun j hj => ?_⟩
  have key : ∀ B : (ℕ → ℝ) →ₗ[ℝ] E, defectE T (fun j => B (r.b j)) (fun j => B (r.g j)) j = B (r.b j - ∑ k ∈ Ico j 7, T.g2b k j • r.g k) := fun B => by
    unfold defectE; rw [map_sub, map_sum]; simp only [map_smul]
  have := h.defect j hj
  rw [key A] at this
  rw [key A', e]
  exact this

/-- **The error of a course of calls.**  Between the calls the image of the variables may change its form (`A`), as long as the norm does not change. -/
theorem course_vary [FiniteDimensional ℝ E] {T : Tab} {η Γ : ℝ} (N : Near T η Γ) (hc : Nodes T.h) {w : ℕ → ℝ} (hq : Quad T.h w η) (hη1 : η ≤ 1)
    (hη2 : η * (14 * (2 * bigQ Γ + 1)) ≤ 1) {F : E → E} {U : Set E} (hU : IsOpen U) (hF : ContDiffOn ℝ ∞ F U) {y : ℝ → E} {L : ℝ} (hL : 0 ≤ L)
    (dy : ∀ t ∈ Set.Icc 0 L, HasDerivWithinAt y (F (y t)) (Set.Icc 0 L) t) (hy : ∀ t ∈ Set.Icc 0 L, y t ∈ U) (k : ℕ) (hk : 1 ≤ k) (hk14 : k ≤ 14) :
    ∃ (c : Rate E) (K h0 C : ℝ) (W' : Set E), 0 ≤ K ∧ 0 < h0 ∧ 0 ≤ C ∧ IsCompact W' ∧ W' ⊆ U ∧
      (∀ {O : RSys S} {ok : S → Prop} {nv : ℕ} {A : (ℕ → ℝ) →ₗ[ℝ] E}, Shadow O ok nv A F U →
        ∀ {H h : ℝ} {r r' : GR} {s s' : S}, correct T O H r s = .ok (s', r') → ok s → ok s' → O.write s' = O.write s → (O.write s).length = nv → 0 ≤ H → H ≤ h → h ≤ h0 →
          A (GR.toArr (O.write s)) ∈ W' → Tame T A r (c.k0 * h) (c.k1 * h) (η * (c.k2 * h)) →
          ‖A r'.dg‖ ≤ C * h ∧ ‖A (r'.b 6)‖ ≤ C * h ∧ ‖A r'.dyh - F (A (GR.toArr (O.write s)))‖ ≤ C * h ∧
          Visits T O H r s s' r' fun x => A (GR.toArr (O.write x)) ∈ U) ∧
      ∀ {O : RSys S} {nv : ℕ} {A : ℕ → (ℕ → ℝ) →ₗ[ℝ] E} {big h : ℝ} {frame same : S → S → Prop} {H τ h' : ℕ → ℝ} {it : ℕ → IAS} {s s' : ℕ → S},
      0 ≤ h → h ≤ h0 → it 0 = IAS.new big → A 0 (GR.toArr (O.write (s 0))) = y 0 →
      ∀ n, (∀ i, i < n → 0 ≤ H i ∧ H i ≤ h ∧ (∃ ok, Shadow O ok nv (A i) F U ∧ ∀ x, same (s i) x → ok x) ∧ (O.write (s i)).length = nv ∧
          StepBy T O big frame same k (H i) (τ i) (it i) (s i) (s' i) (it (i + 1)) (h' i) ∧
          A (i + 1) (GR.toArr (O.write (s (i + 1)))) = A i (GR.toArr (O.write (s' i))) ∧ ∀ w, ‖A (i + 1) w‖ = ‖A i w‖) →
        (∑ i ∈ range n, τ i) ≤ L → 0 ≤ (∑ i ∈ range n, τ i) ∧ ‖A n (GR.toArr (O.write (s n))) - y (∑ i ∈ range n, τ i)‖ ≤ K * (h ^ (k + 1) + η * h) ∧
          ‖A n (GR.toArr (O.write (s n))) - y (∑ i ∈ range n, τ i)‖ ≤ K * (∑ i ∈ range n, τ i) * (h ^ (k + 1) + η * h) ∧
          A n (GR.toArr (O.write (s n))) ∈ W' ∧ Tame T (A n) (it n).gr (c.k0 * h) (c.k1 * h) (η * (c.k2 * h)) := by
  have hKc : IsCompact (y '' Set.Icc 0 L) := isCompact_Icc.image_of_continuousOn fun t ht => (dy t ht).continuousWithinAt
  have hKU : y '' Set.Icc 0 L ⊆ U := by rintro _ ⟨t, ht, rfl⟩; exact hy t ht
  obtain ⟨δ, hδ, hδU⟩ := hKc.exists_cthickening_subset_open hU hKU
  obtain ⟨R, hR0, hRδ⟩ : ∃ R : ℝ, 0 < R ∧ R + R = δ := ⟨δ / 2, by linarith, by ring⟩
  set W := Metric.cthickening δ (y '' Set.Icc 0 L) with hW
  set W' := Metric.cthickening R (y '' Set.Icc 0 L) with hW'
  have hWc : IsCompact W := hKc.cthickening
  have hWc' : IsCompact W' := hKc.cthickening
  have ball : ∀ z ∈ W', Metric.closedBall z R ⊆ W := fun z hz u hu => by
    have h1 : u ∈ Metric.cthickening R W' := Metric.mem_cthickening_of_dist_le u z R W' hz (Metric.mem_closedBall.1 hu)
    have h2 := Metric.cthickening_cthickening_subset hR0.le hR0.le (y '' Set.Icc 0 L) h1
    rw [hRδ] at h2
    exact h2
  have near : ∀ t ∈ Set.Icc 0 L, ∀ u, ‖u - y t‖ ≤ R → u ∈ W' := fun t ht u hu =>
    Metric.mem_cthickening_of_dist_le u (y t) R _ ⟨t, ht, rfl⟩ (by rw [dist_eq_norm]; exact hu)
  obtain ⟨M, mild⟩ := exists_mild hU hF hWc hδU
  have hM := mild.hM
  have hη := N.hη
  obtain ⟨c, key1, key⟩ := call_error (S := S) N hc hq hη1 hη2 hU hF mild hδU hWc' hR0 ball k hk hk14
  have hcK := c.hK
  obtain ⟨C, hC⟩ : ∃ C, C = (c.K + M) * ((L + 1) * Real.exp (15 * M * L)) := ⟨_, rfl⟩
  have hC0 : 0 ≤ C := by rw [hC]; positivity
  obtain ⟨h1, hh1, hh1', hsm⟩ := small_enough (c := C * 2) (by positivity) hR0
  have hΓ := N.hΓ
  have hk0 := c.hk0
  have hkb := c.hkb
  obtain ⟨B, hB⟩ : ∃ B, B = c.kb + Γ * (2 * c.k0) := ⟨_, rfl⟩
  have hB0 : 0 ≤ B := by rw [hB]; positivity
  obtain ⟨C', hC'⟩ : ∃ C', C' = 2 * c.k0 + c.kb + M * (M + 4 * B) := ⟨_, rfl⟩
  have hMB : 0 ≤ M * (M + 4 * B) := by positivity
  have hC'0 : 0 ≤ C' := by rw [hC']; positivity
  obtain ⟨h2, hh2, hh2', hsm2⟩ := small_enough (c := (M + 4 * B) + 4 * (c.k2 + 7 * (Γ * (3 * c.k0)))) (by have := c.hk2; positivity) hR0
  have hWW : W' ⊆ W := fun z hz => ball z hz (Metric.mem_closedBall_self hR0.le)
  refine ⟨c, C, min c.h0 (min h1 h2), C', W', hC0, lt_min c.hh0 (lt_min hh1 hh2), hC'0, hWc', hWW.trans hδU, ?_, fun {O nv A big h frame same H τ h' it s s'} hh0 hh hit0 hs0 n hst hsum => ?_⟩
  · intro O ok nv A sh H h r r' s s' e hs hs' hw hnv hH hHh hh hz ht
    have hhc : h ≤ c.h0 := hh.trans (min_le_left _ _)
    have hhle : h ≤ h2 := hh.trans ((min_le_right _ _).trans (min_le_right _ _))
    have hh1 : h ≤ 1 := hhle.trans hh2'
    have hh0 : 0 ≤ h := hH.trans hHh
    have sh' := sh.mono hδU
    have bd := key1 sh' (s := s) (n := 0) (g := fun i => if i = 0 then r else r') (y := fun i => if i = 0 then s else s') (fun i hi => by
      obtain rfl : i = 0 := by omega
      exact e) (fun j hj => by
        rcases Nat.eq_zero_or_pos j with rfl | hj'
        · exact ⟨hs, rfl⟩
        · rw [if_neg (by omega)]; exact ⟨hs', hw⟩) hnv hH hHh hhc hz ht 1 le_rfl le_rfl
    rw [if_neg one_ne_zero] at bd
    obtain ⟨l1, l2⟩ := shadow_last sh' hs hnv (hWW hz) e
    have hdg : ‖A r'.dg‖ ≤ 2 * c.k0 * h := by
      have b1 := (bd 6 (by norm_num)).1
      have b2 := ht.g 6 (by norm_num)
      have b0 : 0 ≤ c.k0 * h := by positivity
      rcases l1 with l | l
      · have := norm_sub_le (A (r'.g 6)) (A (r.g 6))
        rw [l]; linarith
      · rw [l]; linarith
    have hb : ∀ j, j < 7 → ‖A (r'.b j) - T.g2b 6 j • A r'.dg‖ ≤ B * h := fun j hj => by
      have b1 := (bd j hj).2
      have b2 := norm_sub_le (A (r'.b j)) (T.g2b 6 j • A r'.dg)
      rw [norm_smul, Real.norm_eq_abs] at b2
      have b3 := mul_le_mul (N.g2b 6 j (by norm_num) (by omega)).2 hdg (norm_nonneg _) (by linarith)
      have e : B * h = c.kb * h + Γ * (2 * c.k0 * h) := by rw [hB]; ring
      linarith
    have hFz : ‖F (A (GR.toArr (O.write s)))‖ ≤ M := by
      have := mild.val 1 le_rfl (by norm_num) _ (hWW hz)
      rwa [lie_one] at this
    have hB1 : ∀ j, j < 7 → ‖A (r'.b j) - T.g2b 6 j • A r'.dg‖ ≤ B := fun j hj => (hb j hj).trans (mul_le_of_le_one_right hB0 hh1)
    have nn := node_near (z := A (GR.toArr (O.write s))) (F := F) hc hH hB1 hB0 (n := 6) (by norm_num)
    have nn2 : H * (‖F (A (GR.toArr (O.write s)))‖ + 4 * B) ≤ h * (M + 4 * B) := mul_le_mul hHh (by linarith) (by positivity) hh0
    have hk2 := c.hk2
    have e2 : ((M + 4 * B) + 4 * (c.k2 + 7 * (Γ * (3 * c.k0)))) * h = h * (M + 4 * B) + 4 * (c.k2 + 7 * (Γ * (3 * c.k0))) * h := by ring
    have p4 : 0 ≤ 4 * (c.k2 + 7 * (Γ * (3 * c.k0))) * h := by positivity
    have nnR : h * (M + 4 * B) ≤ R := by have := hsm2 h hhle; linarith
    have nn3 := nn.trans (nn2.trans nnR)
    have hin := ball _ hz (mem_closedBall_iff_norm.2 nn3)
    have lip := mild.lip (i := 1) (by norm_num) (ball _ hz) nn3 (z' := A (GR.toArr (O.write s))) (by simpa using hR0.le)
    rw [lie_one, lie_one] at lip
    have e1 : C' * h = 2 * c.k0 * h + c.kb * h + M * (h * (M + 4 * B)) := by rw [hC']; ring
    have p1 : 0 ≤ 2 * c.k0 * h := by positivity
    have p2 : 0 ≤ c.kb * h := by positivity
    have p3 : 0 ≤ M * (h * (M + 4 * B)) := by positivity
    refine ⟨by linarith, by linarith [(bd 6 (by norm_num)).2], ?_, ?_⟩
    swap
    · obtain ⟨d, Rr, st, X, D, v1, v2, v3, v4, v5, v6, v7⟩ := sweep_nodes N hc sh' hs hnv (hWW hz) hH e ht.g (fun j hj => (bd j hj).1) ht.defect
      refine ⟨d, Rr, st, X, D, v1, v2, v3, v4, v5, v6, fun i hi => hδU (ball _ hz (mem_closedBall_iff_norm.2 ((v7 i hi).trans ?_)))⟩
      have w1 : η * (c.k2 * h) ≤ c.k2 := by
        have : c.k2 * h ≤ c.k2 := mul_le_of_le_one_right hk2 hh1
        have : η * (c.k2 * h) ≤ c.k2 * h := mul_le_of_le_one_left (by positivity) hη1
        linarith
      have w2 : c.k0 * h ≤ c.k0 := mul_le_of_le_one_right hk0 hh1
      have w3 : Γ * (3 * (c.k0 * h)) ≤ Γ * (3 * c.k0) := mul_le_mul_of_nonneg_left (by linarith) (by linarith)
      have w4 : H * (‖F (A (GR.toArr (O.write s)))‖ + 4 * (η * (c.k2 * h) + 7 * (Γ * (3 * (c.k0 * h))))) ≤ h * (M + 4 * (c.k2 + 7 * (Γ * (3 * c.k0)))) :=
        mul_le_mul hHh (by linarith) (by positivity) hh0
      have w5 := hsm2 h hhle
      have w6 : 0 ≤ h * (4 * B) := by positivity
      linarith [show h * (M + 4 * (c.k2 + 7 * (Γ * (3 * c.k0)))) + h * (4 * B) = h * (M + 4 * B) + 4 * (c.k2 + 7 * (Γ * (3 * c.k0))) * h by ring]
    rw [l2 hin]
    have := mul_le_mul_of_nonneg_left (nn.trans nn2) (by linarith : 0 ≤ M)
    linarith
  have hhc : h ≤ c.h0 := hh.trans (min_le_left _ _)
  have hhle : h ≤ h1 := hh.trans ((min_le_right _ _).trans (min_le_left _ _))
  have hh1 : h ≤ 1 := hhle.trans hh1'
  have hε0 : 0 ≤ h ^ (k + 1) + η * h := by positivity
  obtain ⟨ε, hε⟩ : ∃ ε, ε = h ^ (k + 1) + η * h := ⟨_, rfl⟩
  rw [← hε] at hε0 ⊢
  have hεR : C * ε ≤ R := by
    have a1 : h ^ (k + 1) ≤ h := pow_le_of_le_one hh0 hh1 (by omega)
    have a2 : η * h ≤ h := mul_le_of_le_one_left hh0 hη1
    have a3 : C * ε ≤ C * (2 * h) := mul_le_mul_of_nonneg_left (by rw [hε]; linarith) hC0
    have := hsm h hhle
    linarith
  have hτ : ∀ i, i < n → 0 ≤ τ i ∧ τ i ≤ h := fun i hi => by
    obtain ⟨b1, b2, _, _, ⟨m, hl, q, nn, g, yy, Er, se, _, e, a⟩, _, _⟩ := hst i hi
    obtain ⟨d1, d2⟩ := lengths a b1 m le_rfl
    rw [← e]
    exact ⟨d1, d2.trans b2⟩
  have sums : ∀ i, i ≤ n → 0 ≤ (∑ j ∈ range i, τ j) ∧ (∑ j ∈ range i, τ j) ≤ L := fun i hi =>
    ⟨sum_nonneg fun j hj => (hτ j (by have := mem_range.1 hj; omega)).1,
      (sum_le_sum_of_subset_of_nonneg (range_mono hi) fun j hj _ => (hτ j (mem_range.1 hj)).1).trans hsum⟩
  have bound : ∀ t, 0 ≤ t → t ≤ L → (c.K + M) * ε * (t * Real.exp (15 * M * t)) ≤ C * ε := fun t h0 h1 => by
    rw [hC]
    have : t * Real.exp (15 * M * t) ≤ (L + 1) * Real.exp (15 * M * L) :=
      mul_le_mul (by linarith) (Real.exp_le_exp.2 (mul_le_mul_of_nonneg_left h1 (by positivity))) (by positivity) (by linarith)
    calc (c.K + M) * ε * (t * Real.exp (15 * M * t)) ≤ (c.K + M) * ε * ((L + 1) * Real.exp (15 * M * L)) :=
          mul_le_mul_of_nonneg_left this (by positivity)
      _ = _ := by ring
  have bound2 : ∀ t, 0 ≤ t → t ≤ L → (c.K + M) * ε * (t * Real.exp (15 * M * t)) ≤ C * t * ε := fun t h0 h1 => by
    rw [hC]
    have : t * Real.exp (15 * M * t) ≤ t * ((L + 1) * Real.exp (15 * M * L)) := by
      refine mul_le_mul_of_nonneg_left ?_ h0
      have e1 : Real.exp (15 * M * t) ≤ Real.exp (15 * M * L) := Real.exp_le_exp.2 (mul_le_mul_of_nonneg_left h1 (by positivity))
      have e2 : 1 * Real.exp (15 * M * L) ≤ (L + 1) * Real.exp (15 * M * L) := mul_le_mul_of_nonneg_right (by linarith) (by positivity)
      linarith
    calc (c.K + M) * ε * (t * Real.exp (15 * M * t)) ≤ (c.K + M) * ε * (t * ((L + 1) * Real.exp (15 * M * L))) :=
          mul_le_mul_of_nonneg_left this (by positivity)
      _ = _ := by ring
  have main : ∀ i, i ≤ n → Tame T (A i) (it i).gr (c.k0 * h) (c.k1 * h) (η * (c.k2 * h)) ∧
      ‖A i (GR.toArr (O.write (s i))) - y (∑ j ∈ range i, τ j)‖ ≤ (c.K + M) * ε * ((∑ j ∈ range i, τ j) * Real.exp (15 * M * (∑ j ∈ range i, τ j))) := by
    intro i
    induction i with
    | zero =>
      intro _
      refine ⟨?_, ?_⟩
      · rw [hit0]
        exact tame_new (mul_nonneg c.hk0 hh0) (mul_nonneg c.hk1 hh0) (mul_nonneg hη (mul_nonneg c.hk2 hh0))
      · rw [sum_range_zero, hs0]; simp
    | succ i ih =>
      intro hi
      obtain ⟨t1, t2⟩ := ih (by omega)
      obtain ⟨b1, b2, ⟨ok, sh, b3⟩, b4, ⟨m, hl, q, nn, g, yy, Er, se, b5, b6, a⟩, b7, b8⟩ := hst i (by omega)
      obtain ⟨u0, u1⟩ := sums i (by omega)
      obtain ⟨v0, v1⟩ := sums (i + 1) hi
      obtain ⟨τ0, τh⟩ := hτ i (by omega)
      rw [sum_range_succ] at v0 v1 ⊢
      obtain ⟨t, ht⟩ : ∃ t, t = ∑ j ∈ range i, τ j := ⟨_, rfl⟩
      rw [← ht] at t2 u0 u1 v0 v1 ⊢
      have tin : t ∈ Set.Icc 0 L := ⟨u0, u1⟩
      have hzR : ‖A i (GR.toArr (O.write (s i))) - y t‖ ≤ R := t2.trans ((bound t u0 u1).trans hεR)
      have hz := near t tin _ hzR
      obtain ⟨w1, w2⟩ := key (sh.mono hδU) a b3 b4 b5 b1 b2 hhc hz t1
      rw [b6] at w2
      refine ⟨w1.congr b8, ?_⟩
      rw [b7]
      have sub : Set.Icc t (t + τ i) ⊆ Set.Icc 0 L := fun r hr => ⟨u0.trans hr.1, hr.2.trans v1⟩
      have inW : ∀ r ∈ Set.Icc t (t + τ i), y r ∈ W := fun r hr => Metric.self_subset_cthickening _ ⟨r, sub hr, rfl⟩
      have g1 := tay_motion mild (N := 15) (by norm_num) τ0 (τh.trans hh1) (fun r hr => (dy r (sub hr)).mono sub) inW
      have hyW' : y t ∈ W' := Metric.self_subset_cthickening _ ⟨t, tin, rfl⟩
      have g2 := tay_lip mild (N := 15) (by norm_num) τ0 (τh.trans hh1) (ball _ hyW') hzR (z' := y t) (by simpa using hR0.le)
      have g3 : M * τ i ^ 16 ≤ M * (τ i * ε) := by
        refine mul_le_mul_of_nonneg_left ?_ (by linarith)
        rw [pow_succ']
        refine mul_le_mul_of_nonneg_left ?_ τ0
        have e1 : τ i ^ 15 ≤ h ^ 15 := pow_le_pow_left₀ τ0 τh 15
        have e2 : h ^ 15 ≤ h ^ (k + 1) := pow_le_pow_of_le_one hh0 hh1 (by omega)
        have : 0 ≤ η * h := by positivity
        rw [hε]; linarith
      refine gronwall (by positivity) (by positivity) hε0 u0 τ0 t2 ?_
      have e : A i (GR.toArr (O.write (s' i))) - y (t + τ i) = (A i (GR.toArr (O.write (s' i))) - tay F 15 (τ i) (A i (GR.toArr (O.write (s i))))) +
          (tay F 15 (τ i) (A i (GR.toArr (O.write (s i)))) - tay F 15 (τ i) (y t)) - (y (t + τ i) - tay F 15 (τ i) (y t)) := by abel
      rw [e]
      have n1 := norm_sub_le ((A i (GR.toArr (O.write (s' i))) - tay F 15 (τ i) (A i (GR.toArr (O.write (s i))))) +
          (tay F 15 (τ i) (A i (GR.toArr (O.write (s i)))) - tay F 15 (τ i) (y t))) (y (t + τ i) - tay F 15 (τ i) (y t))
      have n2 := norm_add_le (A i (GR.toArr (O.write (s' i))) - tay F 15 (τ i) (A i (GR.toArr (O.write (s i)))))
          (tay F 15 (τ i) (A i (GR.toArr (O.write (s i)))) - tay F 15 (τ i) (y t))
      rw [← hε] at w2
      have e15 : ((15 : ℕ) : ℝ) = 15 := by norm_num
      rw [e15] at g2
      have : (c.K + M) * (τ i * ε) = c.K * (τ i * ε) + M * (τ i * ε) := by ring
      norm_num at g1
      linarith
  obtain ⟨m1, m2⟩ := main n le_rfl
  obtain ⟨u0, u1⟩ := sums n le_rfl
  exact ⟨u0, m2.trans (bound _ u0 u1), m2.trans (bound2 _ u0 u1), near _ ⟨u0, u1⟩ _ (m2.trans ((bound _ u0 u1).trans hεR)), m1⟩

/-- With one image. -/
theorem course_tube [FiniteDimensional ℝ E] {T : Tab} {η Γ : ℝ} (N : Near T η Γ) (hc : Nodes T.h) {w : ℕ → ℝ} (hq : Quad T.h w η) (hη1 : η ≤ 1)
    (hη2 : η * (14 * (2 * bigQ Γ + 1)) ≤ 1) {F : E → E} {U : Set E} (hU : IsOpen U) (hF : ContDiffOn ℝ ∞ F U) {y : ℝ → E} {L : ℝ} (hL : 0 ≤ L)
    (dy : ∀ t ∈ Set.Icc 0 L, HasDerivWithinAt y (F (y t)) (Set.Icc 0 L) t) (hy : ∀ t ∈ Set.Icc 0 L, y t ∈ U) (k : ℕ) (hk : 1 ≤ k) (hk14 : k ≤ 14) :
    ∃ (c : Rate E) (K h0 C : ℝ) (W' : Set E), 0 ≤ K ∧ 0 < h0 ∧ 0 ≤ C ∧ IsCompact W' ∧ W' ⊆ U ∧
      (∀ {O : RSys S} {ok : S → Prop} {nv : ℕ} {A : (ℕ → ℝ) →ₗ[ℝ] E}, Shadow O ok nv A F U →
        ∀ {H h : ℝ} {r r' : GR} {s s' : S}, correct T O H r s = .ok (s', r') → ok s → ok s' → O.write s' = O.write s → (O.write s).length = nv → 0 ≤ H → H ≤ h → h ≤ h0 →
          A (GR.toArr (O.write s)) ∈ W' → Tame T A r (c.k0 * h) (c.k1 * h) (η * (c.k2 * h)) →
          ‖A r'.dg‖ ≤ C * h ∧ ‖A (r'.b 6)‖ ≤ C * h ∧ ‖A r'.dyh - F (A (GR.toArr (O.write s)))‖ ≤ C * h ∧
          Visits T O H r s s' r' fun x => A (GR.toArr (O.write x)) ∈ U) ∧
      ∀ {O : RSys S} {ok : S → Prop} {nv : ℕ} {A : (ℕ → ℝ) →ₗ[ℝ] E}, Shadow O ok nv A F U →
      ∀ {big h : ℝ} {frame same : S → S → Prop} {H τ h' : ℕ → ℝ} {it : ℕ → IAS} {s : ℕ → S}, 0 ≤ h → h ≤ h0 → it 0 = IAS.new big → A (GR.toArr (O.write (s 0))) = y 0 →
      ∀ n, (∀ i, i < n → 0 ≤ H i ∧ H i ≤ h ∧ (∀ x, same (s i) x → ok x) ∧ (O.write (s i)).length = nv ∧
          StepBy T O big frame same k (H i) (τ i) (it i) (s i) (s (i + 1)) (it (i + 1)) (h' i)) →
        (∑ i ∈ range n, τ i) ≤ L → 0 ≤ (∑ i ∈ range n, τ i) ∧ ‖A (GR.toArr (O.write (s n))) - y (∑ i ∈ range n, τ i)‖ ≤ K * (h ^ (k + 1) + η * h) ∧
          A (GR.toArr (O.write (s n))) ∈ W' ∧ Tame T A (it n).gr (c.k0 * h) (c.k1 * h) (η * (c.k2 * h)) := by
  obtain ⟨c, K, h0, C, W', a1, a2, a3, a4, a5, a6, key⟩ := course_vary (S := S) N hc hq hη1 hη2 hU hF hL dy hy k hk hk14
  refine ⟨c, K, h0, C, W', a1, a2, a3, a4, a5, a6, fun {O ok nv A} sh {big h frame same H τ h' it s} hh0 hh hit0 hs0 n hst hsum => ?_⟩
  obtain ⟨b1, b2, _, b3⟩ := key (A := fun _ => A) (s := s) (s' := fun i => s (i + 1)) hh0 hh hit0 hs0 n
    (fun i hi => ⟨(hst i hi).1, (hst i hi).2.1, ⟨ok, sh, (hst i hi).2.2.1⟩, (hst i hi).2.2.2.1, (hst i hi).2.2.2.2, rfl, fun _ => rfl⟩) hsum
  exact ⟨b1, b2, b3⟩

/-- The error alone. -/
theorem course_error [FiniteDimensional ℝ E] {T : Tab} {η Γ : ℝ} (N : Near T η Γ) (hc : Nodes T.h) {w : ℕ → ℝ} (hq : Quad T.h w η) (hη1 : η ≤ 1)
    (hη2 : η * (14 * (2 * bigQ Γ + 1)) ≤ 1) {F : E → E} {U : Set E} (hU : IsOpen U) (hF : ContDiffOn ℝ ∞ F U) {y : ℝ → E} {L : ℝ} (hL : 0 ≤ L)
    (dy : ∀ t ∈ Set.Icc 0 L, HasDerivWithinAt y (F (y t)) (Set.Icc 0 L) t) (hy : ∀ t ∈ Set.Icc 0 L, y t ∈ U) (k : ℕ) (hk : 1 ≤ k) (hk14 : k ≤ 14) :
    ∃ K h0 : ℝ, 0 ≤ K ∧ 0 < h0 ∧ ∀ {O : RSys S} {ok : S → Prop} {nv : ℕ} {A : (ℕ → ℝ) →ₗ[ℝ] E}, Shadow O ok nv A F U →
      ∀ {big h : ℝ} {frame same : S → S → Prop} {H τ h' : ℕ → ℝ} {it : ℕ → IAS} {s : ℕ → S}, 0 ≤ h → h ≤ h0 → it 0 = IAS.new big → A (GR.toArr (O.write (s 0))) = y 0 →
      ∀ n, (∀ i, i < n → 0 ≤ H i ∧ H i ≤ h ∧ (∀ x, same (s i) x → ok x) ∧ (O.write (s i)).length = nv ∧
          StepBy T O big frame same k (H i) (τ i) (it i) (s i) (s (i + 1)) (it (i + 1)) (h' i)) →
        (∑ i ∈ range n, τ i) ≤ L → 0 ≤ (∑ i ∈ range n, τ i) ∧ ‖A (GR.toArr (O.write (s n))) - y (∑ i ∈ range n, τ i)‖ ≤ K * (h ^ (k + 1) + η * h) := by
  obtain ⟨_, K, h0, _, _, hK, hh0, _, _, _, _, key⟩ := course_tube (S := S) N hc hq hη1 hη2 hU hF hL dy hy k hk hk14
  refine ⟨K, h0, hK, hh0, fun {O ok nv A} sh {big h frame same H τ h' it s} a1 a2 a3 a4 n a5 a6 => ?_⟩
  obtain ⟨b1, b2, _⟩ := key sh a1 a2 a3 a4 n a5 a6
  exact ⟨b1, b2⟩

end SpaceHub.Radau
