import Verif.Proof.RadauTab
import Verif.Proof.Pairs
import Verif.Proof.SysBase

/-
Closed forms of the functions of the Gauss-Radau integrator.
-/

set_option autoImplicit false

namespace SpaceHub.Radau
open SpaceHub SpaceHub.Sys Finset

theorem down_sum (f : Nat → ℝ) (stage : Nat) (hs : stage < 7) :
    forLoop 0 (6 - stage) (fun k x => x + f (5 - k)) (f 6) = ∑ j ∈ Ico stage 7, f j := by
  interval_cases stage <;> simp [forLoop, List.range', sum_Ico_succ_top, sum_range_succ] <;> ring

theorem transformG2B_eq (T : Tab) (G : Nat → Arr ℝ) (stage i : Nat) (hs : stage < 7) :
    transformG2B T G stage i = ∑ j ∈ Ico stage 7, G j i * T.g2b j stage :=
  down_sum (fun j => G j i * T.g2b j stage) stage hs

theorem transformB2G_eq (T : Tab) (B : Nat → Arr ℝ) (stage i : Nat) (hs : stage < 7) :
    transformB2G T B stage i = ∑ j ∈ Ico stage 7, B j i * T.b2g j stage :=
  down_sum (fun j => B j i * T.b2g j stage) stage hs

theorem sum_low (c : Nat → ℝ) (f : Nat → Nat → ℝ) (stage : Nat) (hs : stage < 7) (h0 : ∀ j, j < stage → f j stage = 0) :
    ∑ j ∈ Ico stage 7, c j * f j stage = ∑ j ∈ range 7, c j * f j stage := by
  rw [range_eq_Ico, ← sum_Ico_consecutive _ (Nat.zero_le stage) hs.le]
  rw [sum_eq_zero (s := Ico 0 stage) (fun j hj => by rw [h0 j (mem_Ico.1 hj).2, mul_zero]), zero_add]

theorem powers_eq (q : ℝ) (i : Nat) (hi : i < 7) : GR.powers q i = q ^ (i + 1) := by
  interval_cases i <;> simp [GR.powers] <;> ring

/-- the re-expanded coefficients of `predict` -/
noncomputable def reexpand (T : Tab) (b : Nat → Arr ℝ) (q : ℝ) (i v : Nat) : ℝ :=
  q ^ (i + 1) * ∑ j ∈ Ico i 7, b j v * T.estB j i

theorem predict_rows (T : Tab) (q : ℝ) (b old : Arr (Arr ℝ)) (m : Nat) (hm : m ≤ 7) :
    let bo := forLoop 0 m (GR.predictRow T q) (b, old)
    (∀ i v, i < m → bo.1 i v = reexpand T b q i v + (b i v - old i v) ∧ bo.2 i v = reexpand T b q i v) ∧
      (∀ i, m ≤ i → bo.1 i = b i ∧ bo.2 i = old i) := by
  refine forLoop_inv (fun m (bo : Arr (Arr ℝ) × Arr (Arr ℝ)) =>
    (∀ i v, i < m → bo.1 i v = reexpand T b q i v + (b i v - old i v) ∧ bo.2 i v = reexpand T b q i v) ∧
      (∀ i, m ≤ i → bo.1 i = b i ∧ bo.2 i = old i)) 0 m (Nat.zero_le _) _ _ ⟨fun i v h => by omega, fun i _ => ⟨rfl, rfl⟩⟩ ?_
  rintro n ⟨B, O⟩ _ hn ⟨h1, h2⟩
  dsimp only at h1 h2
  have he : ∀ v, forLoop 0 (6 - n) (fun k x => x + B (5 - k) v * T.estB (5 - k) n) (B 6 v * T.estB 6 n) * GR.powers q n =
      reexpand T b q n v := by
    intro v
    rw [down_sum (fun j => B j v * T.estB j n) n (by omega), powers_eq q n (by omega), mul_comm]
    unfold reexpand
    congr 1
    refine sum_congr rfl fun j hj => ?_
    rw [(h2 j (mem_Ico.1 hj).1).1]
  unfold GR.predictRow
  dsimp only
  constructor
  · intro i v hi
    by_cases hin : i = n
    · subst hin
      rw [Arr.set_same, Arr.set_same, he, (h2 i le_rfl).1, (h2 i le_rfl).2]
      exact ⟨rfl, rfl⟩
    · rw [Arr.set_other _ _ _ _ hin, Arr.set_other _ _ _ _ hin]
      exact h1 i v (by omega)
  · intro i hi
    rw [Arr.set_other _ _ _ _ (by omega), Arr.set_other _ _ _ _ (by omega)]
    exact h2 i (by omega)

theorem set_rows (f : Nat → Arr ℝ) (g : Arr (Arr ℝ)) (m : Nat) :
    (∀ i, i < m → forLoop 0 m (fun stage (g : Arr (Arr ℝ)) => g.set stage (f stage)) g i = f i) ∧
      ∀ i, m ≤ i → forLoop 0 m (fun stage (g : Arr (Arr ℝ)) => g.set stage (f stage)) g i = g i := by
  refine forLoop_inv (fun m (h : Arr (Arr ℝ)) => (∀ i, i < m → h i = f i) ∧ ∀ i, m ≤ i → h i = g i) 0 m (Nat.zero_le _) _ _
    ⟨fun i h => by omega, fun i _ => rfl⟩ ?_
  rintro n h _ hn ⟨h1, h2⟩
  constructor
  · intro i hi
    by_cases hin : i = n
    · subst hin; rw [Arr.set_same]
    · rw [Arr.set_other _ _ _ _ hin]; exact h1 i (by omega)
  · intro i hi
    rw [Arr.set_other _ _ _ _ (by omega)]; exact h2 i (by omega)

/-- closed form of `predict` -/
theorem predict_eq (T : Tab) (r : GR) (q : ℝ) (i v : Nat) (hi : i < 7) :
    (r.predict T q).b i v = reexpand T r.b q i v + (r.b i v - r.old i v) ∧
    (r.predict T q).old i v = reexpand T r.b q i v ∧
    (r.predict T q).g i v = transformB2G T (r.predict T q).b i v := by
  obtain ⟨h1, _⟩ := predict_rows T q r.b r.old 7 le_rfl
  refine ⟨(h1 i v hi).1, (h1 i v hi).2, ?_⟩
  have := (set_rows (fun stage => transformB2G T (r.predict T q).b stage) r.g 7).1 i hi
  exact congrFun this v

theorem add_rows (f : Nat → Arr ℝ) (b : Arr (Arr ℝ)) (m : Nat) :
    (∀ j v, j < m → forLoop 0 m (fun j (b : Arr (Arr ℝ)) => b.set j (fun i => b j i + f j i)) b j v = b j v + f j v) ∧
      ∀ j, m ≤ j → forLoop 0 m (fun j (b : Arr (Arr ℝ)) => b.set j (fun i => b j i + f j i)) b j = b j := by
  refine forLoop_inv (fun m (h : Arr (Arr ℝ)) => (∀ j v, j < m → h j v = b j v + f j v) ∧ ∀ j, m ≤ j → h j = b j) 0 m
    (Nat.zero_le _) _ _ ⟨fun i v h => by omega, fun i _ => rfl⟩ ?_
  rintro n h _ hn ⟨h1, h2⟩
  constructor
  · intro i v hi
    by_cases hin : i = n
    · subst hin; rw [Arr.set_same, h2 i le_rfl]
    · rw [Arr.set_other _ _ _ _ hin]; exact h1 i v (by omega)
  · intro i hi
    rw [Arr.set_other _ _ _ _ (by omega)]; exact h2 i (by omega)

theorem sub_sum (f : Nat → ℝ) (x : ℝ) (m : Nat) : forLoop 0 m (fun j x => x - f j) x = x - ∑ j ∈ range m, f j := by
  induction m with
  | zero => rw [forLoop_self _ _ le_rfl]; simp
  | succ m ih => rw [forLoop_succ _ _ (Nat.zero_le _), ih, sum_range_succ]; ring

/-- the new `g_[stage]` -/
noncomputable def newG (T : Tab) (r : GR) (stage v : Nat) : ℝ :=
  (r.dyh v - r.dy0 v) * T.rs stage 0 - ∑ j ∈ range stage, r.g j v * T.rs stage (j + 1)

/-- closed form of `update_b_table` -/
theorem updateB_eq (T : Tab) (r : GR) (stage v : Nat) :
    (r.updateB T stage).g stage v = newG T r stage v ∧ (∀ j, j ≠ stage → (r.updateB T stage).g j = r.g j) ∧
    (r.updateB T stage).dg v = newG T r stage v - r.g stage v ∧
    (∀ j, j ≤ stage → (r.updateB T stage).b j v = r.b j v + (newG T r stage v - r.g stage v) * T.g2b stage j) ∧
    (∀ j, stage < j → (r.updateB T stage).b j = r.b j) := by
  have hn : ∀ v, forLoop 0 stage (fun j x => x - r.g j v * T.rs stage (j + 1)) ((r.dyh v - r.dy0 v) * T.rs stage 0) =
      newG T r stage v := fun v => sub_sum (fun j => r.g j v * T.rs stage (j + 1)) _ stage
  unfold GR.updateB
  dsimp only
  refine ⟨by rw [Arr.set_same, hn], fun j hj => Arr.set_other _ _ _ _ hj, by rw [hn], fun j hj => ?_, fun j hj => ?_⟩
  · have := (add_rows (fun j i => (forLoop 0 stage (fun j x => x - r.g j i * T.rs stage (j + 1)) ((r.dyh i - r.dy0 i) * T.rs stage 0) - r.g stage i) * T.g2b stage j) r.b (stage + 1)).1 j v (by omega)
    rw [this, hn]
  · exact (add_rows (fun j i => (forLoop 0 stage (fun j x => x - r.g j i * T.rs stage (j + 1)) ((r.dyh i - r.dy0 i) * T.rs stage 0) - r.g stage i) * T.g2b stage j) r.b (stage + 1)).2 j (by omega)

theorem horner_eq (b : Nat → ℝ) (d0 x : ℝ) :
    GR.horner b d0 x = d0 + ∑ j ∈ range 7, b j * x ^ (j + 1) / (j + 2) := by
  unfold GR.horner
  simp only [sum_range_succ, sum_range_zero]
  norm_num
  ring

theorem slope_integral (d0 : ℝ) (b : Nat → ℝ) (x : ℝ) :
    ∫ τ in (0 : ℝ)..x, slope d0 b τ = x * (d0 + ∑ j ∈ range 7, b j * x ^ (j + 1) / (j + 2)) := by
  unfold slope
  rw [intervalIntegral.integral_add (by simp) (by
    refine ContinuousOn.intervalIntegrable (Continuous.continuousOn ?_)
    fun_prop)]
  rw [intervalIntegral.integral_finsetSum (fun i _ => ContinuousOn.intervalIntegrable (Continuous.continuousOn (by fun_prop)))]
  simp only [intervalIntegral.integral_const_mul, integral_pow, intervalIntegral.integral_const, smul_eq_mul, sub_zero]
  rw [mul_add, mul_sum]
  congr 1
  refine sum_congr rfl fun i _ => ?_
  have : (i : ℝ) + 2 ≠ 0 := by positivity
  have h2 : ((i + 1 : ℕ) : ℝ) + 1 ≠ 0 := by positivity
  push_cast at h2 ⊢
  rw [show (i : ℝ) + 1 + 1 = i + 2 by ring, zero_pow (by omega)]
  field_simp
  ring

theorem getD_map_range (f : Nat → ℝ) (n i : Nat) (hi : i < n) : ((List.range n).map f).getD i 0 = f i := by
  rw [List.getD_eq_getElem?_getD, List.getElem?_map, List.getElem?_range hi]; rfl

/-- a stage state is the start plus the integral of the slope polynomial up to the node -/
theorem stageState_eq (T : Tab) (r : GR) (H : ℝ) (stage : Nat) :
    (r.stageState T H stage).length = r.input.length ∧ ∀ i, i < r.input.length → (r.stageState T H stage).getD i 0 =
      r.input.getD i 0 + H * ∫ τ in (0 : ℝ)..T.h stage, slope (r.dy0 i) (fun j => r.b j i) τ := by
  refine ⟨by simp [GR.stageState], fun i hi => ?_⟩
  unfold GR.stageState
  rw [getD_map_range _ _ _ hi, horner_eq, slope_integral]
  ring

/-- the final state is the start plus the integral of the slope polynomial over the step -/
theorem finalState_eq (r : GR) (H : ℝ) :
    (r.finalState H).length = r.input.length ∧ ∀ i, i < r.input.length → (r.finalState H).getD i 0 =
      r.input.getD i 0 + H * ∫ τ in (0 : ℝ)..1, slope (r.dy0 i) (fun j => r.b j i) τ := by
  refine ⟨by simp [GR.finalState], fun i hi => ?_⟩
  unfold GR.finalState
  rw [getD_map_range _ _ _ hi, slope_integral]
  simp [forLoop, List.range', sum_range_succ]
  norm_num
  ring

/-! ### the tables interpolate -/

/-- `b` and `g` describe the same polynomial -/
def Consistent (c : Nat → ℝ) (r : GR) : Prop := ∀ stage v, stage < 7 → r.b stage v = ∑ j ∈ range 7, r.g j v * coefG2B c j stage

theorem consistent_newton {c : Nat → ℝ} {r : GR} (h : Consistent c r) (v : Nat) (τ : ℝ) :
    ∑ i ∈ range 7, r.b i v * τ ^ (i + 1) = ∑ j ∈ range 7, r.g j v * newton c j τ := by
  have h1 : ∀ i ∈ range 7, r.b i v * τ ^ (i + 1) = ∑ j ∈ range 7, r.g j v * (τ * (coefG2B c j i * τ ^ i)) := by
    intro i hi
    rw [h i v (mem_range.1 hi), sum_mul]
    exact sum_congr rfl fun j _ => by ring
  rw [sum_congr rfl h1, sum_comm]
  refine sum_congr rfl fun j hj => ?_
  unfold newton
  rw [newton_expand c j 7 (mem_range.1 hj) τ, mul_sum, mul_sum]

theorem newton_node (c : Nat → ℝ) (n j : Nat) (h : n < j) : newton c j (c n) = 0 := by
  unfold newton
  rw [prod_eq_zero (mem_range.2 h) (sub_self _), mul_zero]

theorem consistent_new (c : Nat → ℝ) : Consistent c GR.new := fun stage v _ => by simp [GR.new]

theorem consistent_update {c : Nat → ℝ} {r : GR} (h : Consistent c r) (stage : Nat) (hs : stage < 7) :
    Consistent c (r.updateB (exact c) stage) := by
  intro k v hk
  obtain ⟨g1, g2, _, b1, b2⟩ := updateB_eq (exact c) r stage v
  have hsum : ∑ j ∈ range 7, (r.updateB (exact c) stage).g j v * coefG2B c j k =
      ∑ j ∈ range 7, r.g j v * coefG2B c j k + (newG (exact c) r stage v - r.g stage v) * coefG2B c stage k := by
    rw [← add_sum_erase _ _ (mem_range.2 hs), ← add_sum_erase (range 7) (fun j => r.g j v * coefG2B c j k) (mem_range.2 hs), g1]
    have : ∑ j ∈ (range 7).erase stage, (r.updateB (exact c) stage).g j v * coefG2B c j k =
        ∑ j ∈ (range 7).erase stage, r.g j v * coefG2B c j k := sum_congr rfl fun j hj => by rw [g2 j (ne_of_mem_erase hj)]
    rw [this]; ring
  rw [hsum, ← h k v hk]
  rcases Nat.lt_or_ge stage k with hlt | hge
  · rw [b2 k hlt, coefG2B_zero c stage k hlt]; ring
  · rw [b1 k hge]; rfl

theorem consistent_predict (c : Nat → ℝ) (r : GR) (q : ℝ) : Consistent c (r.predict (exact c) q) := by
  intro stage v hs
  have h1 : ∀ j ∈ range 7, (r.predict (exact c) q).g j v * coefG2B c j stage =
      ∑ k ∈ range 7, (r.predict (exact c) q).b k v * (coefB2G c k j * coefG2B c j stage) := by
    intro j hj
    rw [(predict_eq (exact c) r q j v (mem_range.1 hj)).2.2, transformB2G_eq _ _ _ _ (mem_range.1 hj)]
    rw [sum_low (fun k => (r.predict (exact c) q).b k v) (fun k j => (exact c).b2g k j) j (mem_range.1 hj)
      (fun k hk => coefB2G_zero c k j hk), sum_mul]
    exact sum_congr rfl fun k _ => mul_assoc _ _ _
  rw [sum_congr rfl h1, sum_comm]
  have h2 : ∀ k ∈ range 7, ∑ j ∈ range 7, (r.predict (exact c) q).b k v * (coefB2G c k j * coefG2B c j stage) =
      if k = stage then (r.predict (exact c) q).b k v else 0 := by
    intro k hk
    rw [← mul_sum, b2g_g2b c k stage 7 (mem_range.1 hk)]
    split_ifs <;> simp
  rw [sum_congr rfl h2, sum_ite_eq' (range 7) stage, if_pos (mem_range.2 hs)]

/-- after the update of a stage the Newton form takes the derivative at its node -/
theorem update_interpolates {c : Nat → ℝ} (hc : Distinct c) (r : GR) (stage v : Nat) (hs : stage < 7) :
    ∑ j ∈ range (stage + 1), (r.updateB (exact c) stage).g j v * newton c j (c stage) = r.dyh v - r.dy0 v := by
  obtain ⟨g1, g2, _⟩ := updateB_eq (exact c) r stage v
  rw [sum_range_succ, g1]
  have h1 : ∑ j ∈ range stage, (r.updateB (exact c) stage).g j v * newton c j (c stage) =
      ∑ j ∈ range stage, r.g j v * newton c j (c stage) :=
    sum_congr rfl fun j hj => by rw [g2 j (by have := mem_range.1 hj; omega)]
  rw [h1]
  have hprod : ∀ m, m ≤ stage → ∏ k ∈ Ico m stage, (c stage - c k) ≠ 0 := fun m _ =>
    prod_ne_zero_iff.2 fun k hk => sub_ne_zero.2 (hc.2 stage k hs (mem_Ico.1 hk).2)
  have h0 : newton c stage (c stage) ≠ 0 := by
    unfold newton
    rw [range_eq_Ico]
    exact mul_ne_zero (hc.1 stage hs) (hprod 0 (Nat.zero_le _))
  unfold newG
  rw [sub_mul, sum_mul]
  have e0 : (exact c).rs stage 0 * newton c stage (c stage) = 1 := by
    show (c stage * ∏ k ∈ range stage, (c stage - c k))⁻¹ * newton c stage (c stage) = 1
    exact inv_mul_cancel₀ h0
  have ej : ∀ j ∈ range stage, r.g j v * (exact c).rs stage (j + 1) * newton c stage (c stage) = r.g j v * newton c j (c stage) := by
    intro j hj
    have hj := mem_range.1 hj
    have : newton c stage (c stage) = newton c j (c stage) * ∏ k ∈ Ico j stage, (c stage - c k) := by
      unfold newton
      rw [mul_assoc, range_eq_Ico, range_eq_Ico, prod_Ico_consecutive _ (Nat.zero_le _) hj.le]
    rw [this]
    show r.g j v * (∏ k ∈ Ico j stage, (c stage - c k))⁻¹ * _ = _
    have := hprod j hj.le
    field_simp
  rw [sum_congr rfl ej, mul_assoc, e0]
  ring

end SpaceHub.Radau
