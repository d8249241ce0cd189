import Verif.Proof.RadauGlobal

/-
The tables of the program satisfy the assumptions of `call_error`.
-/

set_option autoImplicit false

namespace SpaceHub.Radau
open SpaceHub SpaceHub.Sys SpaceHub.Props Finset SpaceHub.Converge

/-- weights of the Gauss-Radau rule for the literal nodes -/
def wList : List ℚ :=
  [926790774014896392703644954874 / 10 ^ 31, 1520653103233925644878716329641 / 10 ^ 31, 1882587726945592782860646455079 / 10 ^ 31,
    1957860837262467965412497440413 / 10 ^ 31, 1735073978172506401143379907645 / 10 ^ 31, 1248239506649324816289346190537 / 10 ^ 31,
    572544073721285996711768758189 / 10 ^ 31]

theorem quad_rat : ∀ i : ℕ, i < 14 → |(∑ n ∈ range 7, wList.getD n 0 * nodes n ^ (i + 1)) - 1 / ((i : ℚ) + 2)| ≤ 1 / 10 ^ 26 := by decide +kernel

/-- weights, as real numbers -/
noncomputable def wts (n : ℕ) : ℝ := ((wList.getD n 0 : ℚ) : ℝ)

theorem code_quad : Quad code.h wts (1 / 10 ^ 26) := by
  refine ⟨by positivity, fun i h1 h2 => ?_⟩
  obtain ⟨j, rfl⟩ : ∃ j, i = j + 1 := ⟨i - 1, by omega⟩
  have h := quad_rat j (by omega)
  have h' : ((|(∑ n ∈ range 7, wList.getD n 0 * nodes n ^ (j + 1)) - 1 / ((j : ℚ) + 2)| : ℚ) : ℝ) ≤ ((1 / 10 ^ 26 : ℚ) : ℝ) := Rat.cast_le.2 h
  push_cast at h'
  have e : ((j + 1 : ℕ) : ℝ) + 1 = (j : ℝ) + 2 := by push_cast; ring
  rw [e]
  exact h'

theorem nodes_rat : (∀ n, n < 7 → 0 < nodes n ∧ nodes n ≤ 1) ∧ ∀ n, n < 7 → ∀ k, k < n → nodes n ≠ nodes k := by decide +kernel

theorem code_nodes : Nodes code.h := by
  have h0 : ∀ n, n < 7 → 0 < code.h n ∧ code.h n ≤ 1 := fun n hn => by
    obtain ⟨a, b⟩ := nodes_rat.1 n hn
    exact ⟨Rat.cast_pos.2 a, by have h : ((nodes n : ℚ) : ℝ) ≤ ((1 : ℚ) : ℝ) := Rat.cast_le.2 b; rw [Rat.cast_one] at h; exact h⟩
  refine ⟨h0, fun n hn => (h0 n hn).1.ne', fun n k hn hk e => nodes_rat.2 n hn k hk (Rat.cast_injective (α := ℝ) e)⟩

theorem entries_rat : (∀ n, n < 7 → ∀ j, j ≤ n → |tri rsList n j| ≤ 231) ∧ (∀ n, n < 7 → ∀ j, j ≤ n → |tri g2bList n j| ≤ 231) ∧
    (∀ n, n < 7 → ∀ j, j ≤ n → |tri b2gList n j| ≤ 231) ∧ ∀ n, n < 7 → ∀ j, j ≤ n → |tri estBList n j| ≤ 231 := by decide +kernel

theorem cast_entry {x : ℚ} (h : |x| ≤ 231) : |(x : ℝ)| ≤ 231 := by
  have h' : ((|x| : ℚ) : ℝ) ≤ ((231 : ℚ) : ℝ) := Rat.cast_le.2 h
  push_cast at h'
  exact h'

theorem cast_G2B (n j : ℕ) : ((coefG2B nodes n j : ℚ) : ℝ) = coefG2B code.h n j := by
  induction n generalizing j with
  | zero => cases j <;> simp [coefG2B]
  | succ n ih =>
    cases j with
    | zero => simp only [coefG2B]; push_cast; rw [ih]; rfl
    | succ j => simp only [coefG2B]; push_cast; rw [ih, ih]; rfl

theorem cast_RS (n j : ℕ) : ((coefRS nodes n j : ℚ) : ℝ) = coefRS code.h n j := by
  cases j with
  | zero => simp only [coefRS]; push_cast; rfl
  | succ j => simp only [coefRS]; push_cast; rfl

theorem cast_near {x y a : ℚ} (h : |x - y| ≤ a) (ha : a ≤ 1 / 10 ^ 26) : |(x : ℝ) - (y : ℝ)| ≤ 1 / 10 ^ 26 := by
  have h' : ((|x - y| : ℚ) : ℝ) ≤ ((1 / 10 ^ 26 : ℚ) : ℝ) := Rat.cast_le.2 (h.trans ha)
  push_cast at h'
  exact h'

theorem code_near : Near code (1 / 10 ^ 26) 231 where
  hη := by positivity
  hΓ := by norm_num
  rs := fun n j hn hj => ⟨by rw [← cast_RS]; exact cast_near (table_rs n hn j hj) le_rfl, cast_entry (entries_rat.1 n hn j hj)⟩
  g2b := fun n j hn hj => ⟨by rw [← cast_G2B]; exact cast_near (table_g2b n hn j hj) (by norm_num), cast_entry (entries_rat.2.1 n hn j hj)⟩
  b2g := fun n j hn hj => cast_entry (entries_rat.2.2.1 n hn j hj)
  est := fun n j hn hj => cast_entry (entries_rat.2.2.2 n hn j hj)
  round := fun l j hl hj => by
    have h := cast_near (product_bg l hl j hj) (by norm_num)
    push_cast [apply_ite (Rat.cast : ℚ → ℝ)] at h
    exact h

theorem code_small : (1 / 10 ^ 26 : ℝ) * (14 * (2 * bigQ 231 + 1)) ≤ 1 := by unfold bigQ; norm_num

end SpaceHub.Radau
