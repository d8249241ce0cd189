import Verif.Proof.ConvergeExtrap

/-
Rounding errors of steps of different methods.
-/

set_option autoImplicit false

namespace SpaceHub.Converge
open Set Integrator Spec
open scoped ContDiff

section
variable {E : Type*} [NormedAddCommGroup E]

/-- Steps of different methods that are carried out with an error of at most `η` each: their errors add up. -/
theorem accumulate_near {ι : Type*} {Φ : ι → E → E} {dur err : ι → ℝ} {y : ℝ → E} {T r L η e : ℝ} (hL : 0 ≤ L) (hη : 0 ≤ η) (he0 : 0 ≤ e) (ok : ι → Prop)
    (hd : ∀ i, ok i → 0 ≤ dur i) (he : ∀ i, ok i → 0 ≤ err i)
    (stab : ∀ t ∈ Icc 0 T, ∀ i, ok i → ∀ z, ‖z - y t‖ ≤ r → ‖Φ i z - Φ i (y t)‖ ≤ Real.exp (L * dur i) * ‖z - y t‖)
    (loc : ∀ t i, 0 ≤ t → ok i → t + dur i ≤ T → ‖Φ i (y t) - y (t + dur i)‖ ≤ err i) (N : ℕ) (q : ℕ → ι) (z : ℕ → E) (I : ℕ → Prop)
    (hq : ∀ i, i < N → ok (q i)) (hT : ∑ i ∈ Finset.range N, dur (q i) ≤ T)
    (small : Real.exp (L * T) * (e + ∑ i ∈ Finset.range N, err (q i) + N * η) ≤ r)
    (near : ∀ i, i < N → I i → ‖z i - y (∑ j ∈ Finset.range i, dur (q j))‖ ≤ r → I (i + 1) ∧ ‖z (i + 1) - Φ (q i) (z i)‖ ≤ η)
    (i0 : I 0) (hz : ‖z 0 - y 0‖ ≤ e) : ∀ i, i ≤ N → I i ∧ ‖z i - y (∑ j ∈ Finset.range i, dur (q j))‖ ≤
      Real.exp (L * ∑ j ∈ Finset.range i, dur (q j)) * (e + ∑ j ∈ Finset.range i, err (q j) + i * η) := by
  have part : ∀ (f : ι → ℝ), (∀ i, ok i → 0 ≤ f i) → ∀ i, i ≤ N → 0 ≤ ∑ j ∈ Finset.range i, f (q j) ∧ ∑ j ∈ Finset.range i, f (q j) ≤ ∑ j ∈ Finset.range N, f (q j) := by
    intro f hf i hi
    refine ⟨Finset.sum_nonneg fun j hj => hf _ (hq j (by have := Finset.mem_range.1 hj; omega)), ?_⟩
    refine Finset.sum_le_sum_of_subset_of_nonneg (fun j hj => Finset.mem_range.2 (by have := Finset.mem_range.1 hj; omega)) fun j hj _ => hf _ (hq j (Finset.mem_range.1 hj))
  intro i
  induction i with
  | zero => intro _; exact ⟨i0, by simpa using hz⟩
  | succ i ih =>
    intro hi
    obtain ⟨a, b⟩ := ih (by omega)
    obtain ⟨t0, t1⟩ := part dur hd i (by omega)
    obtain ⟨u0, u1⟩ := part err he i (by omega)
    obtain ⟨v0, v1⟩ := part dur hd (i + 1) hi
    have oki := hq i (by omega)
    have d0 := hd _ oki
    have e0 := he _ oki
    rw [Finset.sum_range_succ] at v0 v1
    rw [Finset.sum_range_succ, Finset.sum_range_succ]
    set t := ∑ j ∈ Finset.range i, dur (q j) with ht
    set s := ∑ j ∈ Finset.range i, err (q j) with hs
    have hin : (i : ℝ) ≤ N := by exact_mod_cast (by omega : i ≤ N)
    have hiη : (i : ℝ) * η ≤ N * η := mul_le_mul_of_nonneg_right hin hη
    have hiη0 : 0 ≤ (i : ℝ) * η := by positivity
    have hzr : ‖z i - y t‖ ≤ r := by
      refine b.trans (le_trans ?_ small)
      exact mul_le_mul (Real.exp_le_exp.2 (mul_le_mul_of_nonneg_left (t1.trans hT) hL)) (by linarith) (by linarith) (Real.exp_pos _).le
    obtain ⟨n1, n2⟩ := near i (by omega) a hzr
    refine ⟨n1, ?_⟩
    have a1 := stab t ⟨t0, t1.trans hT⟩ (q i) oki _ hzr
    have a2 := loc t (q i) t0 oki (v1.trans hT)
    have a3 : ‖z (i + 1) - y (t + dur (q i))‖ ≤ ‖z (i + 1) - Φ (q i) (z i)‖ + (‖Φ (q i) (z i) - Φ (q i) (y t)‖ + ‖Φ (q i) (y t) - y (t + dur (q i))‖) :=
      (norm_sub_le_norm_sub_add_norm_sub _ _ _).trans (add_le_add_right (norm_sub_le_norm_sub_add_norm_sub _ _ _) _)
    have a4 : Real.exp (L * dur (q i)) * ‖z i - y t‖ ≤ Real.exp (L * dur (q i)) * (Real.exp (L * t) * (e + s + i * η)) := mul_le_mul_of_nonneg_left b (Real.exp_pos _).le
    have a5 : Real.exp (L * dur (q i)) * (Real.exp (L * t) * (e + s + i * η)) = Real.exp (L * (t + dur (q i))) * (e + s + i * η) := by
      rw [← mul_assoc, ← Real.exp_add]; ring_nf
    have h1 : 1 ≤ Real.exp (L * (t + dur (q i))) := Real.one_le_exp (mul_nonneg hL v0)
    have a6 : err (q i) + η ≤ Real.exp (L * (t + dur (q i))) * (err (q i) + η) := le_mul_of_one_le_left (by linarith) h1
    have a7 : Real.exp (L * (t + dur (q i))) * (e + (s + err (q i)) + ((i + 1 : ℕ) : ℝ) * η) =
        Real.exp (L * (t + dur (q i))) * (e + s + i * η) + Real.exp (L * (t + dur (q i))) * (err (q i) + η) := by push_cast; ring
    linarith
end

variable {E : Type*} [NormedAddCommGroup E] [NormedSpace ℝ E] {f : Bool → E → E} {U : Set E}

/-- Stability and local errors of combinations of integrators near a solution. -/
theorem mix_parts [ProperSpace E] (hU : IsOpen U) (hf : ∀ X, ContDiffOn ℝ ∞ (f X) U) (hst : ∀ X, Straight (f X)) {T : ℝ} {y : ℝ → E}
    (dy : ∀ t ∈ Icc 0 T, HasDerivWithinAt y (f true (y t) + f false (y t)) (Icc 0 T) t) (hyU : ∀ t ∈ Icc 0 T, y t ∈ U) (P N : ℕ) (c W : ℝ) :
    ∃ r C L ρ : ℝ, ∃ K : Set E, 0 < r ∧ 0 ≤ C ∧ 0 ≤ L ∧ 0 < ρ ∧ ρ ≤ 1 ∧ IsCompact K ∧ K ⊆ U ∧
      (∀ X : Mix, ∀ p, X.Bounded N c W → X.Order p → p ≤ P → ∀ t h, 0 ≤ h → h ≤ ρ →
        (t ∈ Icc 0 T → ∀ z, ‖z - y t‖ ≤ r → ‖X.step f h z - X.step f h (y t)‖ ≤ Real.exp (L * h) * ‖z - y t‖) ∧
        (0 ≤ t → t + h ≤ T → ‖X.step f h (y t) - y (t + h)‖ ≤ C * h ^ (p + 1))) ∧
      ∀ l : List Stage, l.length ≤ N → (∀ s ∈ l, |((coef s : ℚ) : ℝ)| ≤ c) →
        ∀ t ∈ Icc 0 T, ∀ h ∈ Icc 0 ρ, ∀ z, ‖z - y t‖ ≤ r → ∀ pre suf, l = pre ++ suf → wstep f pre h z ∈ K := by
  have cy : ContinuousOn y (Icc 0 T) := fun t ht => (dy t ht).continuousWithinAt
  have hK : IsCompact (y '' Icc 0 T) := isCompact_Icc.image_of_continuousOn cy
  obtain ⟨r, hr, M, Λ, hΛ0, B, hΛ⟩ := exists_words hU hf hK (by rintro _ ⟨t, ht, rfl⟩; exact hyU t ht) (P + 1)
  have hM := B.hM
  have mem : ∀ t ∈ Icc 0 T, ∀ z, ‖z - y t‖ ≤ r → z ∈ Metric.cthickening r (y '' Icc 0 T) := fun t ht z hz =>
    Metric.mem_cthickening_of_dist_le z (y t) r _ (mem_image_of_mem y ht) (by rwa [dist_eq_norm])
  set c' := max c 1 with hc'
  have hc1 : 1 ≤ c' := le_max_right _ _
  have hc0 : 0 ≤ c' := by linarith
  set W' := max W 0 with hW'
  have hW0 : 0 ≤ W' := le_max_right _ _
  have widen : ∀ X : Mix, X.Bounded N c W → X.Bounded N c' W' := fun X h =>
    ⟨h.len, fun m hm s hs => (h.coef m hm s hs).trans (le_max_left _ _), h.weight.trans (le_max_left _ _)⟩
  obtain ⟨C, hC, loc⟩ := mix_local B hst hc1 N hW0 dy (fun t ht => mem t ht _ (by simpa using hr.le))
  set L := W' * (N * (c' * Λ) * Real.exp (N * (c' * Λ))) with hL
  have hL0 : 0 ≤ L := by positivity
  set D := N * (c' * M) + 1 with hD
  have hD1 : 0 < D := by positivity
  have room' : ∀ h, 0 ≤ h → h ≤ min 1 (r / 2 / D) → N * (h * (c' * M)) ≤ r / 2 := by
    intro hm hm0 hmρ
    have hmD : hm * D ≤ r / 2 := (le_div_iff₀ hD1).1 (hmρ.trans (min_le_right _ _))
    have h1 : hm * D = N * (hm * (c' * M)) + hm := by rw [hD]; ring
    linarith
  refine ⟨r / 2, C, L, min 1 (r / 2 / D), Metric.cthickening r (y '' Icc 0 T), by positivity, hC, hL0, lt_min one_pos (by positivity), min_le_left _ _,
    hK.cthickening, B.sub, fun X p hX hO hp t h h0 h1 => ⟨fun ht z hz => ?_, fun ht hTt => ?_⟩, fun l hl hco t ht h hh z hz pre suf e => ?_⟩
  · have := room' _ h0 h1
    exact mix_stable B hΛ0 hΛ hc0 ht h0 (h1.trans (min_le_left _ _)) (widen _ hX) hO.one (by linarith) (by rw [sub_self, norm_zero]; linarith)
  · refine loc p hp X (widen _ hX) hO h t h0 ht hTt fun z hz => mem t ⟨ht, by linarith⟩ z (hz.trans ?_)
    have := room' _ h0 h1
    rw [mul_assoc h]
    linarith
  · have hpre : pre.length ≤ N := by rw [e, List.length_append] at hl; omega
    have wmap : wstep f pre = comp ((pre.map (fun s => (flow f s, fun z => (coef s : ℝ) • f (letter s) z))).map Prod.fst) := by
      rw [List.map_map]; rfl
    have good : ∀ q ∈ pre.map (fun s => (flow f s, fun z => (coef s : ℝ) • f (letter s) z)), Good y T r 1 (c' * M) (c' * Λ) 0 q.1 q.2 := by
      intro q hq
      obtain ⟨s, hs, rfl⟩ := List.mem_map.1 hq
      exact flow_good B hΛ ((hco s (by rw [e]; exact List.mem_append_left _ hs)).trans (le_max_left _ _))
    have r1 : ‖z - y t‖ + ((pre.map (fun s => (flow f s, fun z => (coef s : ℝ) • f (letter s) z))).length : ℝ) * (h * (c' * M)) ≤ r := by
      rw [List.length_map]
      have h1 : (pre.length : ℝ) * (h * (c' * M)) ≤ N * (h * (c' * M)) := by
        have : (pre.length : ℝ) ≤ N := by exact_mod_cast hpre
        have hh0 := hh.1
        gcongr
      have := room' h hh.1 hh.2
      linarith
    have mv := comp_move _ good (by positivity) ht (h := h) ⟨hh.1, hh.2.trans (min_le_left _ _)⟩ _ r1
    rw [← wmap] at mv
    exact mem _ ht _ (mv.trans r1)

end SpaceHub.Converge
