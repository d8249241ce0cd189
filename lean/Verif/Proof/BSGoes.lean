import Verif.Props.BSSmall
import Verif.Props.BSTries
import Verif.Props.BSChain
import Verif.Proof.LetterExtrap

/-
Small steps of Bulirsch-Stoer on any system: they are accepted.
-/

set_option autoImplicit false

namespace SpaceHub.BS
open SpaceHub BS.Spec Converge Finset

theorem newOrder_range {D r k : Nat} {W : Nat → ℝ} {b : Prop} (_hD : 3 ≤ D) (h1 : 1 ≤ r) (h2 : r ≤ D - 1) :
    1 ≤ newOrder D W b r k ∧ newOrder D W b r k ≤ D - 1 := by
  have c : ∀ i, 1 ≤ clip D i ∧ clip D i ≤ D - 1 := fun i => by unfold clip; omega
  unfold newOrder
  dsimp only
  by_cases h : k ≤ r
  · rw [if_pos h]; exact c _
  · rw [if_neg h]
    have ha : 1 ≤ (if W (k - 2) < 0.8 * W (k - 1) then clip D (k - 2) else r) ∧ (if W (k - 2) < 0.8 * W (k - 1) then clip D (k - 2) else r) ≤ D - 1 := by
      split_ifs
      · exact c _
      · exact ⟨h1, h2⟩
    generalize (if W (k - 2) < 0.8 * W (k - 1) then clip D (k - 2) else r) = a at ha ⊢
    split_ifs
    · exact c _
    · exact ha

/-- the target order stays where calls touch only their tables -/
theorem tries_range {n : Nat → Nat} {D extra : Nat} {next limiter : Nat → ℝ → ℝ} {errorOf : ℝ → Nat → ℝ → Prop} {h : ℝ} {r m : Nat} {hAcc : ℝ} {k r' : Nat} {h' : ℝ}
    (t : Tries n D extra next limiter errorOf h r m hAcc k r' h') (hD : 3 ≤ D) : 1 ≤ r → r ≤ D - 1 → 1 ≤ r' ∧ r' ≤ D - 1 := by
  induction t with
  | accept d ok aim =>
    intro h1 h2
    obtain ⟨W, _, e⟩ := aim.order
    rw [e]
    exact newOrder_range hD h1 h2
  | giveUp d bad aim t ih =>
    intro h1 h2
    obtain ⟨W, _, e⟩ := aim.order
    exact ih (by rw [e]; exact (newOrder_range hD h1 h2).1) (by rw [e]; exact (newOrder_range hD h1 h2).2)

/-- a bound on the weights of the extrapolation -/
theorem weights_bounded (D : Nat) : ∃ W : ℝ, 0 ≤ W ∧ ∀ b k, k ≤ D → ∑ j ∈ Icc b k, |weight D b k j| ≤ W := by
  obtain ⟨_, W, hB⟩ := extrap_bounded D
  exact ⟨W, (sum_nonneg fun _ _ => abs_nonneg _).trans (hB true 0 0 (Nat.zero_le _)).weight, fun b k hk => (hB true b k hk).weight⟩

/-- On a system that obeys the laws, a step whose runs all end and change every variable by little is accepted at once, and the step proposed next is not shorter. -/
theorem lawful_small {S : Type} {O : IterSys S ℝ} {s : S} {frame same : S → S → Prop} {sync : S → Bool} (L : Lawful O s frame same sync) {p : Params ℝ}
    {a e0 lam : ℝ} (hT : Tame p a e0 lam) (hD : 3 ≤ p.maxDepth) {W B : ℝ} (hW : ∀ b k, k ≤ p.maxDepth → ∑ j ∈ Icc b k, |weight p.maxDepth b k j| ≤ W)
    (hB0 : 0 ≤ B) (hB : 2 * (W * B) ≤ e0 * a) (hlen : 1 ≤ (O.write s).length) {h : ℝ} (h0 : 0 < h)
    (run : ∀ x j, FreshOf O s frame same sync x → j ≤ p.maxDepth → ∃ y, O.integrate h (hSeq p.maxDepth j) x = .ok y ∧
      ∀ i, i < (O.write s).length → |(O.write y).getD i 0 - (O.write s).getD i 0| ≤ B)
    (read : ∀ x v, frame s x → v.length = (O.write s).length → ∃ y, O.read x v = .ok y) {c : State ℝ} (hc : Sys.Unused p.maxDepth c ∨ Sys.Used p.maxDepth c) :
    ∃ s' h' c' k, iterate O p h c s = .ok (s', h', c') ∧ ExtrapolatedAt (hSeq p.maxDepth) p.maxDepth O.write O.integrate same p.err h s s' k ∧ frame s s' ∧
      h ≤ h' ∧ Sys.Used p.maxDepth c' := by
  have G : Goes O p (O.write s) (FreshOf O s frame same sync) h := by
    refine ⟨fun x j hx hj => ?_, fun x k y v hx e hv => ?_, fun k start row T0 T1 hk1 hkD hrow hTT => ?_⟩
    · obtain ⟨y, e, _⟩ := run x j hx hj
      exact ⟨y, e⟩
    · exact read y v (L.trans _ _ _ hx.1 (L.run _ _ _ _ hx.2.1 e).2.1) hv
    have inc : ∀ i, i < (O.write s).length → ∀ j, j ≤ k → |O.inc (row j) i| ≤ B := by
      intro i hi j hj
      obtain ⟨hf, e⟩ := hrow j hj
      rw [fresh_inc L hf e hi]
      obtain ⟨y, e', hy⟩ := run _ j hf (by omega)
      rw [e] at e'
      cases e'
      exact hy i hi
    have zs : ∀ i, i < (O.write s).length → ∀ b, |zeroStep (hSeq p.maxDepth) (fun j => O.inc (row j) i) b k| ≤ W * B := by
      intro i hi b
      rw [zeroStep_weight]
      refine (abs_sum_le_sum_abs _ _).trans ?_
      refine (sum_le_sum fun j hj => ?_).trans (b := ∑ j ∈ Icc b k, |weight p.maxDepth b k j| * B) ?_
      · rw [abs_mul]
        exact mul_le_mul_of_nonneg_left (inc i hi j (mem_Icc.1 hj).2) (abs_nonneg _)
      · rw [← sum_mul]
        exact mul_le_mul_of_nonneg_right (hW b k hkD) hB0
    have close : ∀ i, i < (O.write s).length → |T0 i - T1 i| ≤ e0 * a := by
      intro i hi
      obtain ⟨q0, q1⟩ := hTT i hi
      rw [q0, q1]
      refine (abs_sub _ _).trans ((add_le_add (zs i hi 0) (zs i hi 1)).trans ?_)
      linarith
    obtain ⟨s1, s2⟩ := hT.small (O.write s) T1 T0 e0 hT.pos.le hlen close
    exact ⟨s2.trans hT.one, hT.next k _ hk1 hkD s1 s2⟩
  obtain ⟨s', h', c', e, acc, hf, hrk, o, r, o1, o2, hr1, hh⟩ := attempts_goes O p _ _ (fresh_restores L) hD h0 G 99 c (O.collect true s) (fresh_start L) hc
  obtain ⟨k, R⟩ := acc
  obtain ⟨start, row, T0, T1, hk1, hkD, hrow, hTT, herr, s'', hread, hs'⟩ := R
  have fr : frame s s' := by
    have hk := hrow k le_rfl
    have f1 := L.trans _ _ _ hk.1.1 (L.run _ _ _ _ hk.1.2.1 hk.2).2.1
    have f2 := (L.read _ _ _ f1 hread).1
    rw [hs']
    exact L.trans _ _ _ (L.trans _ _ _ f1 f2) (L.collect_frame _ _)
  refine ⟨s', h', c', k, e, (extrapolatedAt_of_raw L p h k s' ⟨start, row, T0, T1, hk1, hkD, hrow, hTT, herr, s'', hread, hs'⟩).1, fr, ?_, ?_⟩
  · rw [hh]; exact le_mul_of_one_le_right h0.le (hT.up o r o1 o2 hr1)
  · rcases hc with hu | hu
    · exact ⟨hf, by rw [hrk hu.1], by rw [hrk hu.1]; omega⟩
    · obtain ⟨_, _, _, _, t, _⟩ := tries_of_lawful L p hD h c c' s' h' hu.1 hu.2.1 e
      exact ⟨hf, tries_range t hD hu.2.1 hu.2.2⟩

end SpaceHub.BS

namespace SpaceHub.Letters
open SpaceHub Finset

section
variable {ι : Type} {E : Type} [NormedAddCommGroup E] [NormedSpace ℝ E] {f : ι → E → E} {U : Set E}

/-- a list of stages moves the variables by little -/
theorem words_move [Fintype ι] [ProperSpace E] (hU : IsOpen U) (hf : ∀ X, ContDiffOn ℝ (⊤ : ℕ∞) (f X) U) {K : Set E} (hK : IsCompact K) (hKU : K ⊆ U) (N : ℕ) :
    ∃ C ρ : ℝ, 0 ≤ C ∧ 0 < ρ ∧ ∀ z ∈ K, ∀ l : List (ι × ℚ), l.length ≤ N → (∀ s ∈ l, |((s.2 : ℚ) : ℝ)| ≤ 1) → ∀ h, 0 ≤ h → h ≤ ρ →
      ‖wstep f l h z - z‖ ≤ C * h := by
  obtain ⟨r, hr, M, _, _, B, _⟩ := exists_words hU hf hK hKU 1
  have hM := B.hM
  have hb : ∀ X, ∀ y ∈ Metric.cthickening r K, ‖f X y‖ ≤ M := fun X y hy => by
    simpa [lieW] using B.bound [X] le_rfl y hy
  refine ⟨N * M, r / (N * M + 1), by positivity, by positivity, fun z hz l hl hco h hh hle => ?_⟩
  have hroom : N * M * h ≤ r := by
    rw [le_div_iff₀ (by positivity)] at hle
    nlinarith
  have key : ∀ (l : List (ι × ℚ)) (j : ℕ) (y : E), l.length + j ≤ N → (∀ s ∈ l, |((s.2 : ℚ) : ℝ)| ≤ 1) → ‖y - z‖ ≤ j * M * h →
      ‖wstep f l h y - z‖ ≤ (l.length + j : ℕ) * M * h := by
    intro l
    induction l with
    | nil => intro j y _ _ hy; simpa [wstep, Converge.comp] using hy
    | cons s l ih =>
      intro j y hj hco hy
      rw [wstep_cons]
      have hjN : (j : ℝ) ≤ N := by exact_mod_cast (by simp at hj; omega)
      have hy' : y ∈ Metric.cthickening r K := Metric.mem_cthickening_of_dist_le y z r _ hz (by
        rw [dist_eq_norm]
        refine hy.trans (le_trans ?_ hroom)
        exact mul_le_mul_of_nonneg_right (mul_le_mul_of_nonneg_right hjN hM) hh)
      have hc := hco s (by simp)
      have := ih (j + 1) (flow f s h y) (by simp at hj ⊢; omega) (fun s hs => hco s (by simp [hs])) (by
        rw [flow, add_sub_right_comm]
        refine (norm_add_le _ _).trans ?_
        have h1 : ‖(h * (s.2 : ℝ)) • f s.1 y‖ ≤ h * M := by
          rw [norm_smul, norm_mul, Real.norm_of_nonneg hh, Real.norm_eq_abs]
          have h2 : h * |(s.2 : ℝ)| ≤ h := by nlinarith
          exact mul_le_mul h2 (hb _ _ hy') (norm_nonneg _) hh
        push_cast
        linarith)
      rwa [show l.length + (j + 1) = (s :: l).length + j by simp; omega] at this
  have := key l 0 z (by omega) hco (by simp)
  refine this.trans ?_
  have hl' : ((l.length + 0 : ℕ) : ℝ) ≤ N := by exact_mod_cast hl
  exact mul_le_mul_of_nonneg_right (mul_le_mul_of_nonneg_right hl' hM) hh
end

end SpaceHub.Letters
