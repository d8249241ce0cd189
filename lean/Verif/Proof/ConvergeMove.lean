import Verif.Proof.ConvergeOrder
import Verif.Proof.ConvergeTube

/-
How far the stages of a small step move.
-/

set_option autoImplicit false

namespace SpaceHub.Converge
open Set Integrator Spec
open scoped ContDiff

variable {E : Type*} [NormedAddCommGroup E] [NormedSpace ℝ E]
variable {f : Bool → E → E} {U : Set E}

theorem words_move [ProperSpace E] (hU : IsOpen U) (hf : ∀ X, ContDiffOn ℝ ∞ (f X) U) {K : Set E} (hK : IsCompact K) (hKU : K ⊆ U) (N : ℕ) :
    ∃ C ρ : ℝ, 0 ≤ C ∧ 0 < ρ ∧ ∀ z ∈ K, ∀ l : List Stage, l.length ≤ N → (∀ s ∈ l, |((coef s : ℚ) : ℝ)| ≤ 1) → ∀ h, 0 ≤ h → h ≤ ρ →
      ‖wstep f l h z - z‖ ≤ C * h := by
  obtain ⟨r, hr, M, _, _, B, _⟩ := exists_words hU hf hK hKU 1
  have hM := B.hM
  have hb : ∀ X, ∀ y ∈ Metric.cthickening r K, ‖f X y‖ ≤ M := fun X y hy => by
    simpa [lieW] using B.bound [X] le_rfl y hy
  refine ⟨N * M, r / (N * M + 1), by positivity, by positivity, fun z hz l hl hco h hh hle => ?_⟩
  have hroom : N * M * h ≤ r := by
    rw [le_div_iff₀ (by positivity)] at hle
    nlinarith
  have key : ∀ (l : List Stage) (j : ℕ) (y : E), l.length + j ≤ N → (∀ s ∈ l, |((coef s : ℚ) : ℝ)| ≤ 1) → ‖y - z‖ ≤ j * M * h →
      ‖wstep f l h y - z‖ ≤ (l.length + j : ℕ) * M * h := by
    intro l
    induction l with
    | nil => intro j y _ _ hy; simpa [wstep, comp] using hy
    | cons s l ih =>
      intro j y hj hco hy
      rw [wstep_cons]
      have hjN : (j : ℝ) ≤ N := by exact_mod_cast (by simp at hj; omega)
      have hy' : y ∈ Metric.cthickening r K := Metric.mem_cthickening_of_dist_le y z r _ hz (by
        rw [dist_eq_norm]
        refine hy.trans (le_trans ?_ hroom)
        exact mul_le_mul_of_nonneg_right (mul_le_mul_of_nonneg_right hjN hM) hh)
      have hc := hco s (by simp)
      have := ih (j + 1) (flow f s h y) (by simp at hj ⊢; omega) (fun s hs => hco s (by simp [hs])) (by
        rw [flow, add_sub_right_comm]
        refine (norm_add_le _ _).trans ?_
        have h1 : ‖(h * (coef s : ℝ)) • f (letter s) y‖ ≤ h * M := by
          rw [norm_smul, norm_mul, Real.norm_of_nonneg hh, Real.norm_eq_abs]
          have h2 : h * |(coef s : ℝ)| ≤ h := by nlinarith
          exact mul_le_mul h2 (hb _ _ hy') (norm_nonneg _) hh
        push_cast
        linarith)
      rwa [show l.length + (j + 1) = (s :: l).length + j by simp; omega] at this
  have := key l 0 z (by omega) hco (by simp)
  refine this.trans ?_
  have hl' : ((l.length + 0 : ℕ) : ℝ) ≤ N := by exact_mod_cast hl
  exact mul_le_mul_of_nonneg_right (mul_le_mul_of_nonneg_right hl' hM) hh

/-- a compact set of configurations without collisions -/
def box (n : Nat) (d R : ℝ) : Set (Conf n × Conf n) := {z | ‖z.1‖ ≤ R ∧ ‖z.2‖ ≤ R ∧ ∀ i j, i ≠ j → d ≤ ‖z.1 i - z.1 j‖}

theorem box_compact (n : Nat) (d R : ℝ) : IsCompact (box n d R) := by
  refine Metric.isCompact_of_isClosed_isBounded ?_ ?_
  · have : box n d R = {z | ‖z.1‖ ≤ R} ∩ ({z | ‖z.2‖ ≤ R} ∩ ⋂ i, ⋂ j, {z | i ≠ j → d ≤ ‖z.1 i - z.1 j‖}) := by
      ext z; simp [box]
    rw [this]
    refine IsClosed.inter (isClosed_le (by fun_prop) continuous_const) (IsClosed.inter (isClosed_le (by fun_prop) continuous_const) ?_)
    refine isClosed_iInter fun i => isClosed_iInter fun j => ?_
    by_cases h : i = j
    · simp [h]
    · simp only [ne_eq, h, not_false_eq_true, true_implies]
      exact isClosed_le continuous_const (by fun_prop)
  · refine (Metric.isBounded_closedBall (x := (0 : Conf n × Conf n)) (r := R)).subset fun z hz => ?_
    rw [mem_closedBall_zero_iff]
    exact max_le hz.1 hz.2.1

theorem box_free {n : Nat} {d R : ℝ} (hd : 0 < d) : box n d R ⊆ Prod.fst ⁻¹' free n := by
  intro z hz i j hij e
  have := hz.2.2 i j hij
  rw [e, sub_self, norm_zero] at this
  linarith

end SpaceHub.Converge
