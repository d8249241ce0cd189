import Verif.Props.ConvergeIAS15
import Verif.Props.RadauEnd
import Mathlib.Analysis.ODE.ExistUnique

/-
C98: small steps of IAS15 are accepted.
-/

set_option autoImplicit false

namespace SpaceHub.Radau
open SpaceHub SpaceHub.Sys Ctl Fl Finset

variable {S : Type}

theorem ctrl_next_ok {se : ℝ} (h0 : 0 ≤ se) : ctrl.next 7 se = .ok (stepRatio se) := by
  obtain ⟨c1, c2, _, _, c5, c6⟩ := ctrl_values
  unfold PID.next stepRatio
  rw [if_pos (by norm_num)]
  by_cases hz : se = 0
  · rw [if_neg (not_not.2 hz), c5, if_pos hz]
  · rw [if_pos hz, if_neg hz]
    unfold PID.pow
    rw [if_neg (by rw [c2]; exact not_lt.2 (by positivity)), c2, c6, c1]
    norm_num

theorem stepRatio_big {se : ℝ} (h0 : 0 ≤ se) (h1 : se ≤ 1) : 1 / 4 < stepRatio se := by
  unfold stepRatio
  split_ifs with hz
  · have : (1 : ℝ) ≤ (50 : ℝ) ^ (1 / 7 : ℝ) := Real.one_le_rpow (by norm_num) (by norm_num)
    linarith
  · have hs : 0 < se := lt_of_le_of_ne h0 (Ne.symm hz)
    have : (1 : ℝ) ≤ (1 / se) ^ (1 / 7 : ℝ) := Real.one_le_rpow (by rw [one_div]; exact (one_le_inv₀ hs).2 h1) (by norm_num)
    linarith

/-- a call whose first correction has small errors -/
theorem one_pass {T : Tab} {O : RSys S} {big H e se : ℝ} {it : IAS} {x x1 x2 : S} {r : GR} (e1 : correct T O H it.gr x = .ok (x1, r)) (hpc : pcError r = fin e) (he : e < 1)
    (hse : stepError r.num (O.mask H x1) (fun i => fin (r.dyh i)) (fun i => fin (r.b 6 i)) = fin se) (h0 : 0 ≤ se) (h1 : se ≤ 1) (e2 : evaluate O H r x1 = .ok x2)
    (fuel : Nat) : Radau.iterate T O big (fuel + 1) 0 H it x =
      .ok (x2, { gr := r.predict T (min (max (stepRatio se) (1 / 4)) 4), last := big, warm := true }, H * min (max (stepRatio se) (1 / 4)) 4) := by
  unfold Radau.iterate
  rw [if_pos (by norm_num), e1]
  show (do let e ← toRes (pcError r)
           if e < 1 ∨ e ≥ it.last then do
             let se ← toRes (stepError r.num (O.mask H x1) (fun i => fin (r.dyh i)) (fun i => fin (r.b 6 i)))
             let q ← ctrl.next 7 se
             if q > ctrl.limMin 0 then do
               let s ← evaluate O H r x1
               let q := ctrl.limiter0 q
               .ok (s, ({ gr := r.predict T q, last := big, warm := true } : IAS), H * q)
             else
               iterate T O big fuel 1 (H * q) { gr := if it.warm then r.predict T q else r, last := big, warm := it.warm } x1
           else iterate T O big fuel (0 + 1) H { gr := r, last := e, warm := it.warm } x1) = _
  rw [hpc, hse]
  show (if e < 1 ∨ e ≥ it.last then _ else _) = _
  rw [if_pos (Or.inl he)]
  show (do let q ← ctrl.next 7 se
           if q > ctrl.limMin 0 then do
             let s ← evaluate O H r x1
             let q := ctrl.limiter0 q
             .ok (s, ({ gr := r.predict T q, last := big, warm := true } : IAS), H * q)
           else
             iterate T O big fuel 1 (H * q) { gr := if it.warm then r.predict T q else r, last := big, warm := it.warm } x1) = _
  rw [ctrl_next_ok h0]
  show (if stepRatio se > ctrl.limMin 0 then _ else _) = _
  rw [if_pos (by rw [ctrl_values.2.2.1]; exact stepRatio_big h0 h1), e2]
  show Res.ok (x2, ({ gr := r.predict T (ctrl.limiter0 (stepRatio se)), last := big, warm := true } : IAS), H * ctrl.limiter0 (stepRatio se)) = _
  rw [limiter0_eq]

/-- the error of the iteration, from bounds -/
theorem pc_small {r : GR} {C : ℝ} (hC : C * 10 ^ 16 < 1) (hd : ∀ i, i < r.num → |r.dg i| ≤ C) (hn : 0 < r.num) (h1 : r.dyh 0 = 1) :
    ∃ e, pcError r = fin e ∧ e < 1 := by
  obtain ⟨a, b, ha, hb, hle, h1', h2, e⟩ := maxRatio2_fin r.num (1 / 10 ^ 16) r.dyh r.dg
  have hb1 : 1 / 10 ^ 16 ≤ b := by
    have := (hle 0 hn).2
    rw [h1, abs_one, one_mul] at this
    exact this
  have hb0 : 0 < b := lt_of_lt_of_le (by norm_num) hb1
  refine ⟨a / b, by unfold pcError; rw [e, div_fin _ _ hb0.ne'], ?_⟩
  rw [div_lt_one hb0]
  refine lt_of_lt_of_le ?_ hb1
  by_cases h0 : a = 0
  · rw [h0]; norm_num
  · obtain ⟨i, hi, ea⟩ := h1' h0
    rw [ea, lt_div_iff₀ (by norm_num)]
    exact lt_of_le_of_lt (mul_le_mul_of_nonneg_right (hd i hi) (by norm_num)) hC

/-- the error of the step, from bounds -/
theorem se_small {n : Nat} {mask : Nat → Bool} {dyh b6 : Arr ℝ} {B D : ℝ} (hBD : B ≤ D * (5 / 10 ^ 10))
    (h1 : ∀ i, i < n → mask i = false → |b6 i| ≤ B) (h2 : ∀ i, i < n → mask i = false → ∃ j, j < n ∧ mask j = false ∧ D ≤ |dyh j|) :
    ∃ se, stepError n mask (fun i => fin (dyh i)) (fun i => fin (b6 i)) = fin se ∧ 0 ≤ se ∧ se ≤ 1 := by
  have key : ∀ m : Nat, ∃ a b : ℝ, 0 ≤ a ∧ 0 ≤ b ∧ (∀ i, i < m → mask i = false → |dyh i| ≤ b) ∧ (a ≠ 0 → ∃ i, i < m ∧ mask i = false ∧ a = |b6 i|) ∧
      forLoop 0 m (fun i (m : Fl × Fl) =>
        if mask i then m else (stdMax m.1 (abs (fin (b6 i))), stdMax m.2 (abs (fin (dyh i))))) (fin 0, fin 0) = (fin a, fin b) ∧
      (b ≠ 0 → ∃ i, i < m ∧ mask i = false) := by
    intro m
    induction m with
    | zero => exact ⟨0, 0, le_rfl, le_rfl, fun i hi => by omega, fun h => absurd rfl h, by rw [forLoop_self _ _ le_rfl], fun h => absurd rfl h⟩
    | succ m ih =>
      obtain ⟨a, b, ha, hb, k1, k2, e, k3⟩ := ih
      rw [forLoop_succ _ _ (Nat.zero_le _), e]
      cases hm : mask m with
      | true =>
        refine ⟨a, b, ha, hb, fun i hi hi' => ?_, fun h => ?_, by simp, fun h => ?_⟩
        · rcases Nat.lt_succ_iff_lt_or_eq.1 hi with h | rfl
          · exact k1 i h hi'
          · rw [hm] at hi'; cases hi'
        · obtain ⟨i, j1, j2⟩ := k2 h; exact ⟨i, by omega, j2⟩
        · obtain ⟨i, j1, j2⟩ := k3 h; exact ⟨i, by omega, j2⟩
      | false =>
        refine ⟨max a |b6 m|, max b |dyh m|, le_max_of_le_left ha, le_max_of_le_left hb, fun i hi hi' => ?_, fun h => ?_, ?_, fun _ => ⟨m, by omega, hm⟩⟩
        · rcases Nat.lt_succ_iff_lt_or_eq.1 hi with h | rfl
          · exact le_max_of_le_left (k1 i h hi')
          · exact le_max_right _ _
        · rcases le_total a |b6 m| with hl | hl
          · exact ⟨m, by omega, hm, max_eq_right hl⟩
          · rw [max_eq_left hl] at h ⊢
            obtain ⟨i, j1, j2⟩ := k2 h; exact ⟨i, by omega, j2⟩
        · show (stdMax (fin a) (fin |b6 m|), stdMax (fin b) (fin |dyh m|)) = _
          rw [stdMax_fin, stdMax_fin]
  obtain ⟨a, b, ha, hb, k1, k2, e, k3⟩ := key n
  unfold stepError
  dsimp only
  rw [e]
  show ∃ se, (if decide (b = 0) = true then fin 0 else div (fin a) (fin (b * (5 / 10 ^ 10)))) = fin se ∧ _
  by_cases h0 : b = 0
  · exact ⟨0, by rw [if_pos (decide_eq_true h0)], le_rfl, zero_le_one⟩
  · have hb0 : 0 < b := lt_of_le_of_ne hb (Ne.symm h0)
    refine ⟨a / (b * (5 / 10 ^ 10)), by rw [if_neg (by simpa using h0), div_fin _ _ (mul_ne_zero h0 (by norm_num))], by positivity, ?_⟩
    rw [div_le_one (by positivity)]
    by_cases ha0 : a = 0
    · rw [ha0]; positivity
    · obtain ⟨i, j1, j2, j3⟩ := k2 ha0
      obtain ⟨j, l1, l2, l3⟩ := h2 i j1 j2
      rw [j3]
      exact (h1 i j1 j2).trans (hBD.trans (mul_le_mul_of_nonneg_right (l3.trans (k1 j l1 l2)) (by norm_num)))

/-- a correction runs through if the system can always be read back -/
theorem correct_runs {T : Tab} {O : RSys S} {ok : S → Prop} {n : Nat} (hd : ∀ x, ok x → ∃ d, O.deriv x = .ok d ∧ ok d.2)
    (hr : ∀ x y, ok x → y.length = n → ∃ x', O.read x y = .ok x' ∧ ok x') {H : ℝ} {r : GR} {x : S} (hx : ok x) (hn : (O.write x).length = n) :
    ∃ x' r', correct T O H r x = .ok (x', r') ∧ ok x' := by
  have sw : ∀ m stage (r : GR) (x : S), ok x → r.input.length = n → ∃ x' r', sweep T O H m stage r x = .ok (x', r') ∧ ok x' := by
    intro m
    induction m with
    | zero => intro stage r x hx _; exact ⟨x, r, rfl, hx⟩
    | succ m ih =>
      intro stage r x hx hi
      obtain ⟨x1, e1, g1⟩ := hr x (r.stageState T H stage) hx (by rw [(stageState_eq T r H stage).1, hi])
      obtain ⟨d, e2, g2⟩ := hd x1 g1
      obtain ⟨x2, e3, g3⟩ := hr d.2 r.input g2 hi
      obtain ⟨x', r', e4, g4⟩ := ih (stage + 1) (GR.updateB T { r with dyh := GR.toArr d.1 } stage) x2 g3 hi
      refine ⟨x', r', ?_, g4⟩
      unfold sweep
      rw [e1]
      show (do let d ← O.deriv x1
               let r := GR.updateB T { r with dyh := GR.toArr d.1 } stage
               let s ← O.read d.2 r.input
               sweep T O H m (stage + 1) r s) = _
      rw [e2]
      show (do let s ← O.read d.2 r.input
               sweep T O H m (stage + 1) (GR.updateB T { r with dyh := GR.toArr d.1 } stage) s) = _
      rw [e3]
      exact e4
  obtain ⟨d, e1, g1⟩ := hd x hx
  obtain ⟨x', r', e2, g2⟩ := sw 7 0 { ({ r with input := O.write x } : GR).checkSize (O.write x).length with dy0 := GR.toArr d.1 } d.2 g1 (by
    show (({ r with input := O.write x } : GR).checkSize (O.write x).length).input.length = n
    unfold GR.checkSize
    split_ifs <;> exact hn)
  refine ⟨x', r', ?_, g2⟩
  unfold correct
  rw [e1]
  exact e2

/-- the mask of the coordinates of a particle -/
theorem mask_entry (dep : Bool) (n : Nat) (slow : Nat → Bool) (p c : Nat) (hp : p < n) (hc : c < 3) :
    maskOf false dep n slow (1 + (3 * p + c)) = slow p ∧ maskOf false dep n slow (1 + 3 * n + (3 * p + c)) = slow p := by
  have key : ∀ i, i ≠ 0 → i < 1 + 6 * n → (∀ q, q < n → ((posOffset + 3 * q ≤ i ∧ i ≤ posOffset + 3 * q + 2) ∨ (velOffset n + 3 * q ≤ i ∧ i ≤ velOffset n + 3 * q + 2) ↔ q = p)) →
      maskOf false dep n slow i = slow p := by
    intro i hi hi6 h
    rw [Bool.eq_iff_iff]
    unfold maskOf
    simp only [Bool.or_eq_true, Bool.and_eq_true, List.any_eq_true, List.mem_range, decide_eq_true_eq, beq_iff_eq, Bool.not_false, true_and]
    constructor
    · rintro (h0 | ⟨q, hq, hs, ho⟩)
      · exact absurd h0 hi
      · rcases ho with ho | ho
        · rw [← (h q hq).1 ho]; exact hs
        · have : auxOffset n ≤ i := by omega
          unfold auxOffset at this
          omega
    · intro hs
      exact .inr ⟨p, hp, hs, .inl ((h p hp).2 rfl)⟩
  refine ⟨key _ (by omega) (by omega) fun q hq => ?_, key _ (by omega) (by omega) fun q hq => ?_⟩ <;>
  · unfold posOffset velOffset
    constructor <;> intro h <;> omega

end SpaceHub.Radau

namespace SpaceHub.Sys
open SpaceHub V3 Force Core Integrator Spec Props Finset Converge Radau BS Ctl
open scoped ContDiff

/-! ### plain systems -/

theorem simple_reads {n : Nat} {m : Nat → ℝ} (x : Simple) (y : List ℝ) (hx : FrameOf n m x) (hy : y.length = n * 3 * (2 + gravity.velDep.toNat) + 1) :
    ∃ x', (radauSimple gravity).read x y = .ok x' ∧ FrameOf n m x' := by
  have hl : y.length = x.variableNumber gravity := by
    rw [hy, ← hx.1]; rfl
  have hok : ∃ x', x.read gravity y = .ok x' := (C13_simple_write_read gravity x y hl).imp fun _ h => h.1
  obtain ⟨x', e⟩ := hok
  exact ⟨x', e, hx.of (Simple.read_frame gravity x x' y e).1⟩

theorem simple_time_shadow (n : Nat) (m : Nat → ℝ) :
    Shadow (radauSimple gravity) (FrameOf n m) (n * 3 * (2 + gravity.velDep.toNat) + 1) timeL (fun _ => 1) Set.univ where
  loc f g h := h 0 (by omega)
  read x y v hx e := ⟨hx.of (Simple.read_frame gravity x y v e).1, (Simple.read_frame gravity x y v e).2.2⟩
  keep x d hx e := by rw [← Res.ok.inj e]; exact hx
  field x d _ _ e := by
    rw [← Res.ok.inj e]
    exact timeL_flat gravity.velDep (Simple.slopeOf gravity x).flat _ (Simple.derivative_getD gravity x)

/-- an entry of the array is a coordinate -/
theorem entry_cases (n i : Nat) (h0 : i ≠ 0) (h1 : i < 1 + 6 * n) :
    ∃ p c, p < n ∧ c < 3 ∧ (i = 1 + (3 * p + c) ∨ i = 1 + 3 * n + (3 * p + c)) := by
  rcases Nat.lt_or_ge i (1 + 3 * n) with h | h
  · exact ⟨(i - 1) / 3, (i - 1) % 3, by omega, by omega, .inl (by omega)⟩
  · exact ⟨(i - 1 - 3 * n) / 3, (i - 1 - 3 * n) % 3, by omega, by omega, .inr (by omega)⟩

theorem entry_norm (n : Nat) (f : Nat → ℝ) (p : Fin n) (c : Nat) (hc : c < 3) :
    |f (1 + (3 * p + c))| ≤ ‖(readL n f).1 p‖ ∧ |f (1 + 3 * n + (3 * p + c))| ≤ ‖(readL n f).2 p‖ := by
  have key : ∀ a b d : ℝ, |a| ≤ ‖(a, b, d)‖ ∧ |b| ≤ ‖(a, b, d)‖ ∧ |d| ≤ ‖(a, b, d)‖ := fun a b d => by
    simp only [Prod.norm_def, Real.norm_eq_abs]
    exact ⟨le_max_left _ _, (le_max_left _ _).trans (le_max_right _ _), (le_max_right _ _).trans (le_max_right _ _)⟩
  have k1 := key (f (1 + (3 * p + 0))) (f (1 + (3 * p + 1))) (f (1 + (3 * p + 2)))
  have k2 := key (f (1 + 3 * n + (3 * p + 0))) (f (1 + 3 * n + (3 * p + 1))) (f (1 + 3 * n + (3 * p + 2)))
  interval_cases c
  · exact ⟨k1.1, k2.1⟩
  · exact ⟨k1.2.1, k2.2.1⟩
  · exact ⟨k1.2.2, k2.2.2⟩

theorem entry_attained (n : Nat) (f : Nat → ℝ) (p : Fin n) :
    (∃ c, c < 3 ∧ ‖(readL n f).1 p‖ = |f (1 + (3 * p + c))|) ∧ ∃ c, c < 3 ∧ ‖(readL n f).2 p‖ = |f (1 + 3 * n + (3 * p + c))| := by
  have key : ∀ g : Nat → ℝ, ∃ c, c < 3 ∧ ‖(g 0, g 1, g 2)‖ = |g c| := fun g => by
    simp only [Prod.norm_def, Real.norm_eq_abs]
    rcases le_total |g 0| (max |g 1| |g 2|) with h | h
    · rw [max_eq_right h]
      rcases le_total |g 1| |g 2| with h' | h'
      · exact ⟨2, by norm_num, by rw [max_eq_right h']⟩
      · exact ⟨1, by norm_num, by rw [max_eq_left h']⟩
    · exact ⟨0, by norm_num, by rw [max_eq_left h]⟩
  exact ⟨key fun c => f (1 + (3 * p + c)), key fun c => f (1 + 3 * n + (3 * p + c))⟩

/-- every particle is displaced from the origin, or moves, or is accelerated -/
def active (n : Nat) (m : Nat → ℝ) : Set (Conf n × Conf n) := {z | z.1 ∈ free n ∧ ∀ k, 0 < ‖z.1 k‖ + ‖z.2 k‖ + ‖grav n m z.1 k‖}

theorem active_cont (n : Nat) (m : Nat → ℝ) (k : Fin n) :
    ContinuousOn (fun z : Conf n × Conf n => ‖z.1 k‖ + ‖z.2 k‖ + ‖grav n m z.1 k‖) (Prod.fst ⁻¹' free n) := by
  have h := ((newtonF_smooth n m).continuousOn).snd
  have hg : ContinuousOn (fun z : Conf n × Conf n => grav n m z.1 k) (Prod.fst ⁻¹' free n) := (continuous_apply k).comp_continuousOn h
  have h1 : Continuous fun z : Conf n × Conf n => z.1 k := (continuous_apply k).comp continuous_fst
  have h2 : Continuous fun z : Conf n × Conf n => z.2 k := (continuous_apply k).comp continuous_snd
  exact (h1.norm.add h2.norm).continuousOn.add hg.norm

theorem active_open (n : Nat) (m : Nat → ℝ) : IsOpen (active n m) := by
  have : active n m = Prod.fst ⁻¹' free n ∩ ⋂ k, (Prod.fst ⁻¹' free n ∩ (fun z : Conf n × Conf n => ‖z.1 k‖ + ‖z.2 k‖ + ‖grav n m z.1 k‖) ⁻¹' Set.Ioi 0) := by
    ext z
    simp only [active, Set.mem_ofPred_eq, Set.mem_inter_iff, Set.mem_preimage, Set.mem_iInter, Set.mem_Ioi]
    exact ⟨fun h => ⟨h.1, fun k => ⟨h.1, h.2 k⟩⟩, fun h => ⟨h.1, fun k => (h.2 k).2⟩⟩
  rw [this]
  exact ((free_open n).preimage continuous_fst).inter (isOpen_iInter_of_finite fun k =>
    (active_cont n m k).isOpen_inter_preimage ((free_open n).preimage continuous_fst) isOpen_Ioi)

theorem active_bound (n : Nat) (m : Nat → ℝ) {W : Set (Conf n × Conf n)} (hW : IsCompact W) (hWU : W ⊆ active n m) :
    ∃ c : ℝ, 0 < c ∧ ∀ z ∈ W, ∀ k, c ≤ ‖z.1 k‖ + ‖z.2 k‖ + ‖grav n m z.1 k‖ := by
  have one : ∀ k : Fin n, ∃ c : ℝ, 0 < c ∧ ∀ z ∈ W, c ≤ ‖z.1 k‖ + ‖z.2 k‖ + ‖grav n m z.1 k‖ := fun k =>
    hW.exists_forall_le' ((active_cont n m k).mono fun z hz => (hWU hz).1) fun z hz => (hWU hz).2 k
  choose c hc hle using one
  rcases isEmpty_or_nonempty (Fin n) with h | h
  · exact ⟨1, one_pos, fun z _ k => (h.false k).elim⟩
  · obtain ⟨k0, hk0⟩ := Finite.exists_min c
    exact ⟨c k0, hc k0, fun z hz k => (hk0 k).trans (hle k z hz)⟩

theorem fast_norm {p v : V3 ℝ} {H : ℝ} (hH : 0 ≤ H) (hH7 : H ≤ 1 / 10 ^ 7) (h : slowVarying p v (H / 1) = false) : ‖co p‖ ≤ ‖co v‖ := by
  unfold slowVarying at h
  rw [decide_eq_false_iff_not, not_lt, div_one] at h
  have hv : v.x * v.x + v.y * v.y + v.z * v.z ≤ 3 * ‖co v‖ ^ 2 := by
    have k : |v.x| ≤ ‖co v‖ ∧ |v.y| ≤ ‖co v‖ ∧ |v.z| ≤ ‖co v‖ := by
      simp only [co, Prod.norm_def, Real.norm_eq_abs]
      exact ⟨le_max_left _ _, (le_max_left _ _).trans (le_max_right _ _), (le_max_right _ _).trans (le_max_right _ _)⟩
    have s : ∀ a : ℝ, |a| ≤ ‖co v‖ → a * a ≤ ‖co v‖ ^ 2 := fun a ha => by
      have := pow_le_pow_left₀ (abs_nonneg a) ha 2
      rw [sq_abs] at this
      linarith [sq a]
    linarith [s _ k.1, s _ k.2.1, s _ k.2.2]
  have hp : ‖co p‖ ^ 2 ≤ p.x * p.x + p.y * p.y + p.z * p.z := by
    have k : ‖co p‖ = |p.x| ∨ ‖co p‖ = |p.y| ∨ ‖co p‖ = |p.z| := by
      simp only [co, Prod.norm_def, Real.norm_eq_abs]
      rcases le_total |p.x| (max |p.y| |p.z|) with h | h
      · rw [max_eq_right h]
        rcases le_total |p.y| |p.z| with h' | h'
        · rw [max_eq_right h']; exact .inr (.inr rfl)
        · rw [max_eq_left h']; exact .inr (.inl rfl)
      · rw [max_eq_left h]; exact .inl rfl
    have q1 := mul_self_nonneg p.x
    have q2 := mul_self_nonneg p.y
    have q3 := mul_self_nonneg p.z
    rcases k with k | k | k <;> rw [k, sq_abs, sq] <;> linarith
  have hHH : H * H ≤ 1 / 10 ^ 7 * (1 / 10 ^ 7) := mul_le_mul hH7 hH7 hH (by norm_num)
  have h1 : (v.x * v.x + v.y * v.y + v.z * v.z) * (H * H) ≤ 3 * ‖co v‖ ^ 2 * (1 / 10 ^ 7 * (1 / 10 ^ 7)) := mul_le_mul hv hHH (mul_self_nonneg H) (by positivity)
  have h2 : ‖co p‖ ^ 2 ≤ ‖co v‖ ^ 2 := by
    have := mul_le_mul_of_nonneg_right hp (by norm_num : (0 : ℝ) ≤ 1 / 10 ^ 12)
    have h3 := sq_nonneg ‖co v‖
    norm_num at this h1 h ⊢
    linarith
  exact le_of_sq_le_sq h2 (norm_nonneg _)

/-- the first correction, from bounds on what it changes, gives a step -/
theorem small_call {n : Nat} {m : Nat → ℝ} {c δ : ℝ} (hδ : δ * 10 ^ 16 < 1) (hδc : δ ≤ c / 8 * (5 / 10 ^ 10)) (hc : 0 < c)
    {s x1 : Simple} (hs : FrameOf n m s) (hcz : ∀ k : Fin n, c ≤ ‖co (s.P.pos k)‖ + ‖co (s.P.vel k)‖ + ‖grav n m (conf n s.P.pos) k‖)
    {it : IAS} (hf : FlatFor timeL it.gr) {H big : ℝ} (hH : 0 ≤ H) (hH7 : H ≤ 1 / 10 ^ 7) {r : GR}
    (e : correct code (radauSimple gravity) H it.gr s = .ok (x1, r)) (h1 : ‖readL n r.dg‖ ≤ δ) (h2 : ‖readL n (r.b 6)‖ ≤ δ)
    (h3 : ‖readL n r.dyh - newtonF n m (conf n s.P.pos, conf n s.P.vel)‖ ≤ δ) :
    ∃ s' it' h', (∀ fuel, Radau.iterate code (radauSimple gravity) big (fuel + 1) 0 H it s = .ok (s', it', h')) ∧
      StepBy code (radauSimple gravity) big Simple.Frame (SameSimple gravity) 1 H H it s s' it' h' ∧ FrameOf n m s' ∧ s'.time = s.time + H ∧ FlatFor timeL it'.gr ∧
      H / 4 ≤ h' ∧ h' ≤ 4 * H := by
  have hδ0 : 0 ≤ δ := (norm_nonneg _).trans h1
  obtain ⟨f1, f2, f3, f4, f5⟩ := correct_restores (simple_radau gravity s) (simple_radau gravity s).refl rfl e
  have hlen := simple_length hs
  have hdep : gravity.velDep = false := rfl
  have hnum : r.num = 1 + 6 * n := by
    rw [f5, hlen, hdep]; show n * 3 * (2 + 0) + 1 = _; omega
  have flat : FlatFor timeL r := (flat_correct (T := code) (O := radauSimple gravity) (ok := FrameOf n m) (L1 := 0) (L2 := timeL) (p := 0) (κ := 1)
    (fun x d _ e => ⟨rfl, fun _ => by
      rw [← Res.ok.inj e]
      exact timeL_flat gravity.velDep (Simple.slopeOf gravity x).flat _ (Simple.derivative_getD gravity x)⟩)
    (simple_time_shadow n m).read (simple_time_shadow n m).keep (fun _ _ _ => rfl) hs rfl rfl (fun _ _ => ⟨rfl, rfl, rfl⟩) hf e).2.1
  obtain ⟨l1, l2⟩ := shadow_last (simple_time_shadow n m) hs hlen (Set.mem_univ _) e
  have hdg0 : r.dg 0 = 0 := by
    have a := (flat 6 (by norm_num)).2.1
    have b := (hf 6 (by norm_num)).2.1
    rcases l1 with l | l
    · rw [a, b, sub_zero] at l; exact l
    · rw [a] at l; exact l
  have hdyh0 : r.dyh 0 = 1 := l2 (Set.mem_univ _)
  have coord : ∀ (f : Nat → ℝ) (i : Nat), i ≠ 0 → i < 1 + 6 * n → |f i| ≤ ‖readL n f‖ := fun f i h0 hi => by
    obtain ⟨p, c, hp, hc, h | h⟩ := entry_cases n i h0 hi
    · have := (entry_norm n f ⟨p, hp⟩ c hc).1
      rw [h]; exact this.trans ((norm_le_pi_norm _ _).trans (norm_fst_le _))
    · have := (entry_norm n f ⟨p, hp⟩ c hc).2
      rw [h]; exact this.trans ((norm_le_pi_norm _ _).trans (norm_snd_le _))
  obtain ⟨er, hpc, her⟩ := pc_small hδ (fun i hi => by
    rcases Nat.eq_zero_or_pos i with rfl | h
    · rw [hdg0, abs_zero]; exact hδ0
    · exact (coord r.dg i (by omega) (by omega)).trans h1) (by omega) hdyh0
  have hmask : ∀ p c, p < n → c < 3 → (radauSimple gravity).mask H x1 (1 + (3 * p + c)) = slowVarying (s.P.pos p) (s.P.vel p) (H / 1) ∧
      (radauSimple gravity).mask H x1 (1 + 3 * n + (3 * p + c)) = slowVarying (s.P.pos p) (s.P.vel p) (H / 1) := fun p c hp hc => by
    have hx : x1.P.num = n := f3.2.1.trans hs.1
    have hp' := f3.2.2.2 p (by rw [hs.1]; exact hp)
    have := mask_entry gravity.velDep n (fun p => slowVarying (x1.P.pos p) (x1.P.vel p) (H / 1)) p c hp hc
    rw [hp'.1, hp'.2.1] at this
    show maskOf false gravity.velDep x1.P.num (fun p => slowVarying (x1.P.pos p) (x1.P.vel p) (H / 1)) _ = _ ∧ maskOf false gravity.velDep x1.P.num (fun p => slowVarying (x1.P.pos p) (x1.P.vel p) (H / 1)) _ = _
    rw [hx]
    exact this
  have hmask0 : (radauSimple gravity).mask H x1 0 = true := rfl
  obtain ⟨se, hse, hse0, hse1⟩ := se_small (n := r.num) (mask := (radauSimple gravity).mask H x1) (dyh := r.dyh) (b6 := r.b 6) (B := δ) (D := c / 8) hδc
    (fun i hi hm => by
      rcases Nat.eq_zero_or_pos i with rfl | h
      · rw [hmask0] at hm; cases hm
      · exact (coord (r.b 6) i (by omega) (by omega)).trans h2)
    (fun i hi hm => by
      have hi0 : i ≠ 0 := fun h => by rw [h, hmask0] at hm; cases hm
      obtain ⟨p, q, hp, hq, h⟩ := entry_cases n i hi0 (by omega)
      have hslow : slowVarying (s.P.pos p) (s.P.vel p) (H / 1) = false := by
        rcases h with h | h
        · rw [h, (hmask p q hp hq).1] at hm; exact hm
        · rw [h, (hmask p q hp hq).2] at hm; exact hm
      have hfast := fast_norm hH hH7 hslow
      have hcz := hcz ⟨p, hp⟩
      dsimp only at hcz
      obtain ⟨⟨c1, hc1, a1⟩, ⟨c2, hc2, a2⟩⟩ := entry_attained n r.dyh ⟨p, hp⟩
      have d1 : ‖co (s.P.vel p)‖ ≤ ‖(readL n r.dyh).1 ⟨p, hp⟩‖ + δ := by
        have b : ‖(readL n r.dyh).1 ⟨p, hp⟩ - co (s.P.vel p)‖ ≤ δ :=
          (norm_le_pi_norm ((readL n r.dyh - newtonF n m (conf n s.P.pos, conf n s.P.vel)).1) ⟨p, hp⟩).trans ((norm_fst_le _).trans h3)
        have := norm_le_norm_add_norm_sub' (co (s.P.vel p)) ((readL n r.dyh).1 ⟨p, hp⟩)
        rw [norm_sub_rev] at this
        linarith
      have d2 : ‖grav n m (conf n s.P.pos) ⟨p, hp⟩‖ ≤ ‖(readL n r.dyh).2 ⟨p, hp⟩‖ + δ := by
        have b : ‖(readL n r.dyh).2 ⟨p, hp⟩ - grav n m (conf n s.P.pos) ⟨p, hp⟩‖ ≤ δ :=
          (norm_le_pi_norm ((readL n r.dyh - newtonF n m (conf n s.P.pos, conf n s.P.vel)).2) ⟨p, hp⟩).trans ((norm_snd_le _).trans h3)
        have := norm_le_norm_add_norm_sub' (grav n m (conf n s.P.pos) ⟨p, hp⟩) ((readL n r.dyh).2 ⟨p, hp⟩)
        rw [norm_sub_rev] at this
        linarith
      have hδ8 : δ ≤ c / 64 := by linarith
      rcases le_total (c / 8) ‖(readL n r.dyh).1 ⟨p, hp⟩‖ with g | g
      · exact ⟨1 + (3 * p + c1), by omega, by rw [(hmask p c1 hp hc1).1, hslow], by rw [a1] at g; exact g⟩
      · refine ⟨1 + 3 * n + (3 * p + c2), by omega, by rw [(hmask p c2 hp hc2).2, hslow], ?_⟩
        rw [a2] at d2
        dsimp only at d2
        linarith)
  obtain ⟨s', e2, fs'⟩ := simple_reads (n := n) (m := m) x1 (r.finalState H) (hs.of f1) (by rw [(finalState_eq r H).1, f4, hlen])
  obtain ⟨Y, r1, r2, r3⟩ := C47_evaluate (radauSimple gravity) H r x1 s' e2
  obtain ⟨r4, r5⟩ := (simple_radau gravity s).read _ _ _ f1 r1
  rw [f4] at r2 r3
  have acc : AcceptedBy code (radauSimple gravity) big Simple.Frame (SameSimple gravity) H it s s' { gr := r.predict code (min (max (stepRatio se) (1 / 4)) 4), last := big, warm := true }
      (H * min (max (stepRatio se) (1 / 4)) 4) 0 (fun _ => H) (fun _ => 0) (fun _ => 0) (fun _ i => if i = 0 then it.gr else r) (fun _ i => if i = 0 then s else x1) (fun _ _ => er) se := by
    refine ⟨rfl, rfl, fun i hi => by omega, fun i _ => ⟨⟨fun j hj => ?_, fun j hj => absurd hj (Nat.not_lt_zero j), .inl her, by norm_num⟩, fun j hj => ?_⟩, ?_, hse0, ?_, rfl, rfl, by rw [r5, r2],
      (simple_radau gravity s).trans _ _ _ f1 r4, fun v hv => ?_⟩
    · obtain rfl : j = 0 := Nat.le_zero.1 hj
      exact ⟨e, hpc⟩
    · rcases j with _ | j
      · exact ⟨(simple_radau gravity s).same_refl, rfl⟩
      · exact ⟨f3, f2⟩
    · show toRes (stepError ((radauSimple gravity).write s).length ((radauSimple gravity).mask H x1) (fun i => Fl.fin (r.dyh i)) (fun i => Fl.fin (r.b 6 i))) = _
      rw [← f5, hse]; rfl
    · exact lt_of_le_of_lt hse1 (by norm_num)
    · rw [r5, r3 v hv]; rfl
  refine ⟨s', _, _, fun fuel => one_pass e hpc her hse hse0 hse1 e2 fuel, ⟨0, _, _, _, _, _, _, se, le_rfl, rfl, acc⟩, fs', ?_, flat_predict code flat _, ?_, ?_⟩
  · obtain ⟨_, g2⟩ := flat_by (ok := FrameOf n m) (fun x hx => hs.of ⟨hx.2.1, hx.2.2.1⟩) (simple_time_shadow n m).read (simple_time_shadow n m).keep (L := timeL) (κ := 1)
      (fun x d hx e => (simple_time_shadow n m).field x d hx (Set.mem_univ _) e) (by rw [hlen]; exact (simple_time_shadow n m).loc) hf acc
    rw [timeL_flat gravity.velDep s'.flat (GR.toArr ((radauSimple gravity).write s')) (Simple.write_getD gravity s'),
      timeL_flat gravity.velDep s.flat (GR.toArr ((radauSimple gravity).write s)) (Simple.write_getD gravity s), one_mul] at g2
    exact g2
  · have : 1 / 4 ≤ min (max (stepRatio se) (1 / 4)) 4 := le_min (le_max_right _ _) (by norm_num)
    nlinarith
  · have : min (max (stepRatio se) (1 / 4)) 4 ≤ 4 := min_le_right _ _
    nlinarith

/-- the state after a call, if it returns -/
noncomputable def nextCall (big H : ℝ) (a : Simple × IAS) : Simple × IAS × ℝ :=
  match Radau.iterate code (radauSimple gravity) big 1 0 H a.2 a.1 with
  | .ok r => r
  | _ => (a.1, a.2, 0)

noncomputable def calls (big : ℝ) (H : Nat → ℝ) (s : Simple) : Nat → Simple × IAS
  | 0 => (s, IAS.new big)
  | i + 1 => let a := nextCall big (H i) (calls big H s i); (a.1, a.2.1)

theorem nextCall_of {big H h' : ℝ} {s s' : Simple} {it it' : IAS} (e : Radau.iterate code (radauSimple gravity) big 1 0 H it s = .ok (s', it', h')) :
    nextCall big H (s, it) = (s', it', h') := by
  unfold nextCall
  dsimp only
  rw [e]

/-- **C98.** Particles move from `t0` to `t1` under Newton's laws without colliding, and none of them is ever at the origin without velocity and without acceleration.
There are constants such that, for every sequence of steps of at most `h ≤ h0` that add up to at most `t1 - t0`, the calls of a new IAS15 iterator with these steps, from the
exact state at `t0`, all return after one correction, each advances the clock by the full step asked for, and after the last one the particles are off the true ones at the
time of the clock by at most `K (h² + 10⁻²⁶ h)`. -/
theorem C98_runs {n : Nat} {m : Nat → ℝ} {x v : ℝ → Nat → V3 ℝ} {t0 t1 : ℝ} (ht : t0 ≤ t1) (M : NewtonMotion n m x v t0 t1)
    (hact : ∀ t ∈ Set.Icc t0 t1, ∀ k, k < n → ¬ (x t k = 0 ∧ v t k = 0 ∧ ∑ j ∈ (range n).erase k, newton (m j) (x t k) (x t j) = 0)) :
    ∃ K h0 : ℝ, 0 ≤ K ∧ 0 < h0 ∧ ∀ P, InState n m x v t0 P → ∀ (N : Nat) (big h : ℝ) (H : Nat → ℝ), 0 ≤ h → h ≤ h0 → (∀ i, i < N → 0 ≤ H i ∧ H i ≤ h) →
      (∑ i ∈ range N, H i) ≤ t1 - t0 → ∃ (s : Nat → Simple) (it : Nat → IAS) (h' : Nat → ℝ), s 0 = Simple.init t0 P ∧ it 0 = IAS.new big ∧
        (∀ i, i < N → (∀ fuel, Radau.iterate code (radauSimple gravity) big (fuel + 1) 0 (H i) (it i) (s i) = .ok (s (i + 1), it (i + 1), h' i)) ∧
          (s (i + 1)).time = (s i).time + H i ∧ H i / 4 ≤ h' i ∧ h' i ≤ 4 * H i) ∧
        (s N).time = t0 + ∑ i ∈ range N, H i ∧ WithinOf n m x v (s N).time (K * (h ^ 2 + h / 10 ^ 26)) (s N).P := by
  obtain ⟨r, A, L, V, Q, T, hQ, hx⟩ := motion_tube M
  have mem : ∀ t ∈ Set.Icc 0 (t1 - t0), t0 + t ∈ Set.Icc t0 t1 := fun t ht => ⟨by linarith [ht.1], by linarith [ht.2]⟩
  have hfree : ∀ t ∈ Set.Icc 0 (t1 - t0), conf n (x (t0 + t)) ∈ free n := by
    intro t ht i j hij h
    exact M.apart _ (mem t ht) i j i.2 j.2 (fun e => hij (Fin.ext e)) (congrArg ve h)
  have hactive : ∀ t ∈ Set.Icc 0 (t1 - t0), ((conf n (x (t0 + t)), conf n (v (t0 + t))) : Conf n × Conf n) ∈ active n m := by
    intro t ht
    refine ⟨hfree t ht, fun k => ?_⟩
    by_contra hz
    have z0 := norm_nonneg (conf n (x (t0 + t)) k)
    have z1 := norm_nonneg (conf n (v (t0 + t)) k)
    have z2 := norm_nonneg (grav n m (conf n (x (t0 + t))) k)
    dsimp only at hz
    have e0 : conf n (x (t0 + t)) k = 0 := norm_eq_zero.1 (by linarith)
    have e1 : conf n (v (t0 + t)) k = 0 := norm_eq_zero.1 (by linarith)
    have e2 : grav n m (conf n (x (t0 + t))) k = 0 := norm_eq_zero.1 (by linarith)
    refine hact _ (mem t ht) k k.2 ⟨congrArg ve e0, congrArg ve e1, ?_⟩
    rw [grav_conf n m ⟨n, x (t0 + t), v (t0 + t), m⟩ rfl (fun _ _ => rfl) k] at e2
    have e3 := congrArg ve e2
    rw [ve_co, (gravity_acc ⟨n, x (t0 + t), v (t0 + t), m⟩ k k.2).2] at e3
    exact e3
  have hsub : active n m ⊆ Prod.fst ⁻¹' free n := fun z hz => hz.1
  obtain ⟨cst, K, h0, C, W', hK, hh0, hC, hW', hWU, first, key⟩ := course_tube (S := Simple) code_near code_nodes code_quad (by norm_num) code_small
    (active_open n m) ((newtonF_smooth n m).mono hsub) (y := fun t => (conf n (x (t0 + t)), conf n (v (t0 + t)))) (L := t1 - t0) (by linarith)
    (fun t ht => (T.dq t ht).prodMk (T.dv t ht)) hactive 1 le_rfl (by norm_num)
  obtain ⟨c, hc, hcW⟩ := active_bound n m hW' hWU
  obtain ⟨h1, hh1, hh1', hs1⟩ := small_enough (c := C) hC (r := min (1 / 10 ^ 17) (c / 8 * (5 / 10 ^ 10))) (lt_min (by norm_num) (by positivity))
  refine ⟨2 * K, min (min h0 h1) (1 / 10 ^ 7), by positivity, lt_min (lt_min hh0 hh1) (by norm_num), fun P S N big h H hh hhle hst hsum => ?_⟩
  have hhle0 : h ≤ h0 := hhle.trans ((min_le_left _ _).trans (min_le_left _ _))
  have hhle1 : h ≤ h1 := hhle.trans ((min_le_left _ _).trans (min_le_right _ _))
  have hhle7 : h ≤ 1 / 10 ^ 7 := hhle.trans (min_le_right _ _)
  have hδ := hs1 h hhle1
  have hδ1 : C * h * 10 ^ 16 < 1 := by
    have := hδ.trans (min_le_left _ _)
    have e : (1 : ℝ) / 10 ^ 17 * 10 ^ 16 < 1 := by norm_num
    nlinarith
  have hδ2 : C * h ≤ c / 8 * (5 / 10 ^ 10) := by
    have := hδ.trans (min_le_right _ _)
    linarith
  obtain ⟨sq, hsq⟩ : ∃ sq, sq = calls big H (Simple.init t0 P) := ⟨_, rfl⟩
  have hsq0 : sq 0 = (Simple.init t0 P, IAS.new big) := by rw [hsq]; rfl
  have hsqS : ∀ i, sq (i + 1) = ((nextCall big (H i) (sq i)).1, (nextCall big (H i) (sq i)).2.1) := fun i => by rw [hsq]; rfl
  have sums : ∀ i, i ≤ N → (∑ j ∈ range i, H j) ≤ t1 - t0 := fun i hi =>
    (sum_le_sum_of_subset_of_nonneg (range_mono hi) fun j hj _ => (hst j (mem_range.1 hj)).1).trans hsum
  have start : FrameOf n m (sq 0).1 ∧ readL n (GR.toArr ((radauSimple gravity).write (sq 0).1)) = (conf n (x (t0 + 0)), conf n (v (t0 + 0))) := by
    have f : FrameOf n m (sq 0).1 := by rw [hsq0]; exact ⟨S.num, S.mass⟩
    refine ⟨f, ?_⟩
    rw [simple_written f, hsq0, add_zero]
    exact start_conf S
  have main : ∀ i, i ≤ N → FrameOf n m (sq i).1 ∧ FlatFor timeL (sq i).2.gr ∧ (sq i).1.time = t0 + ∑ j ∈ range i, H j ∧ ∀ j, j < i →
      FrameOf n m (sq j).1 ∧ (∀ fuel, Radau.iterate code (radauSimple gravity) big (fuel + 1) 0 (H j) (sq j).2 (sq j).1 = .ok ((sq (j + 1)).1, (sq (j + 1)).2, (nextCall big (H j) (sq j)).2.2)) ∧
      StepBy code (radauSimple gravity) big Simple.Frame (SameSimple gravity) 1 (H j) (H j) (sq j).2 (sq j).1 (sq (j + 1)).1 (sq (j + 1)).2 (nextCall big (H j) (sq j)).2.2 ∧
      (sq (j + 1)).1.time = (sq j).1.time + H j ∧ H j / 4 ≤ (nextCall big (H j) (sq j)).2.2 ∧ (nextCall big (H j) (sq j)).2.2 ≤ 4 * H j := by
    intro i
    induction i with
    | zero =>
      intro _
      exact ⟨start.1, by rw [hsq0]; exact flat_new _, by rw [hsq0, sum_range_zero, add_zero]; rfl, fun j hj => absurd hj (Nat.not_lt_zero j)⟩
    | succ i ih =>
      intro hi
      obtain ⟨f1, f2, f3, f4⟩ := ih (by omega)
      obtain ⟨b1, b2⟩ := hst i (by omega)
      obtain ⟨_, _, inW, tame⟩ := key (simple_shadow n m _) (big := big) (frame := Simple.Frame) (same := SameSimple gravity) (H := H) (τ := H)
        (h' := fun j => (nextCall big (H j) (sq j)).2.2) (it := fun j => (sq j).2) (s := fun j => (sq j).1) hh hhle0 (by rw [hsq0]) start.2 i (fun j hj => by
          obtain ⟨a1, a2⟩ := hst j (by omega)
          obtain ⟨g1, _, g3, _⟩ := f4 j hj
          exact ⟨a1, a2, fun y hy => g1.of ⟨hy.2.1, hy.2.2.1⟩, simple_length g1, g3⟩) (sums i (by omega))
      obtain ⟨x1, r, e, _⟩ := correct_runs (T := code) (O := radauSimple gravity) (ok := FrameOf n m) (n := n * 3 * (2 + gravity.velDep.toNat) + 1)
        (fun y hy => ⟨_, rfl, hy⟩) (fun y l hy hl => simple_reads y l hy hl) (H := H i) (r := (sq i).2.gr) f1 (simple_length f1)
      obtain ⟨q1, q2, q3, _, _⟩ := correct_restores (simple_radau gravity (sq i).1) (simple_radau gravity (sq i).1).refl rfl e
      obtain ⟨d1, d2, d3, _⟩ := first (simple_shadow n m _) e f1 (f1.of q1) q2 (simple_length f1) b1 b2 hhle0 inW tame
      rw [simple_written f1] at d3 inW
      obtain ⟨s', it', h', k1, k2, k3, k4, k5, k6, k7⟩ := small_call (big := big) hδ1 hδ2 hc f1 (fun k => hcW _ inW k) f2 b1 (b2.trans hhle7) e d1 d2 d3
      have hn := nextCall_of (k1 0)
      have e1 : (sq (i + 1)) = (s', it') := by rw [hsqS, hn]
      refine ⟨by rw [e1]; exact k3, by rw [e1]; exact k5, by rw [e1, sum_range_succ, ← add_assoc, ← f3]; exact k4, fun j hj => ?_⟩
      rcases Nat.lt_succ_iff_lt_or_eq.1 hj with h | rfl
      · exact f4 j h
      · rw [e1, hn]
        exact ⟨f1, k1, k2, k4, k6, k7⟩
  obtain ⟨f1, f2, f3, f4⟩ := main N le_rfl
  refine ⟨fun i => (sq i).1, fun i => (sq i).2, fun j => (nextCall big (H j) (sq j)).2.2, congrArg Prod.fst hsq0, congrArg Prod.snd hsq0, fun i hi => ⟨(f4 i hi).2.1, (f4 i hi).2.2.2⟩, f3, ?_⟩
  obtain ⟨_, w, _, _⟩ := key (simple_shadow n m _) (big := big) (frame := Simple.Frame) (same := SameSimple gravity) (H := H) (τ := H)
    (h' := fun j => (nextCall big (H j) (sq j)).2.2) (it := fun j => (sq j).2) (s := fun j => (sq j).1) hh hhle0 (by rw [hsq0]) start.2 N (fun j hj => by
      obtain ⟨a1, a2⟩ := hst j (by omega)
      obtain ⟨g1, _, g3, _⟩ := f4 j hj
      exact ⟨a1, a2, fun y hy => g1.of ⟨hy.2.1, hy.2.2.1⟩, simple_length g1, g3⟩) hsum
  rw [mul_assoc]
  refine within_of f1.1 f1.2 ?_
  rw [← simple_written f1, f3, show h / 10 ^ 26 = 1 / 10 ^ 26 * h by ring]
  exact w

/-- Non-vacuity: two bodies on a circle; they are never at the origin. -/
example (t0 t1 : ℝ) : NewtonMotion 2 (fun _ => 1 / 2) circlePos circleVel t0 t1 ∧
    InState 2 (fun _ => 1 / 2) circlePos circleVel t0 ⟨2, circlePos t0, circleVel t0, fun _ => 1 / 2⟩ ∧
    ∀ t ∈ Set.Icc t0 t1, ∀ k, k < 2 → ¬ (circlePos t k = 0 ∧ circleVel t k = 0 ∧
      ∑ j ∈ (range 2).erase k, Spec.newton ((fun _ => 1 / 2) j) (circlePos t k) (circlePos t j) = 0) := by
  refine ⟨circle_motion t0 t1, ⟨rfl, fun _ _ => rfl, fun _ _ => rfl, fun _ _ => rfl⟩, fun t _ k hk h => ?_⟩
  have h0 := h.1
  have h1 := Real.sin_sq_add_cos_sq t
  have hx := congrArg V3.x h0
  have hy := congrArg V3.y h0
  interval_cases k <;> simp [circlePos] at hx hy <;> rw [hx, hy] at h1 <;> norm_num at h1

/-- the vector of a particle -/
noncomputable def part {n : Nat} (q : Conf n) (k : Nat) : V3 ℝ := if h : k < n then ve (q ⟨k, h⟩) else 0

theorem conf_part {n : Nat} (q : Conf n) : conf n (part q) = q := by
  funext k
  show co (part q k) = _
  unfold part
  rw [dif_pos k.2]
  rfl

theorem part_rate {n : Nat} {q : ℝ → Conf n} {d : Conf n} {t : ℝ} (h : HasDerivAt q d t) (k : Nat) (hk : k < n) : Rate (fun e => part (q e) k) (ve (d ⟨k, hk⟩)) t := by
  have e : (fun e => part (q e) k) = fun e => ve (q e ⟨k, hk⟩) := by funext e; unfold part; rw [dif_pos hk]
  have hk' := (hasDerivAt_pi.1 h) ⟨k, hk⟩
  rw [e]
  exact ⟨hk'.fst, hk'.snd.fst, hk'.snd.snd⟩

/-- Particles in different places move under Newton's laws for some time. -/
theorem motion_exists (P : Particles) (hap : ∀ i j, i < P.num → j < P.num → i ≠ j → P.pos i ≠ P.pos j) (t0 : ℝ) {U : Set (Conf P.num × Conf P.num)} (hU : IsOpen U)
    (hP : (conf P.num P.pos, conf P.num P.vel) ∈ U) :
    ∃ (x v : ℝ → Nat → V3 ℝ) (t1 : ℝ), t0 < t1 ∧ NewtonMotion P.num P.mass x v t0 t1 ∧ InState P.num P.mass x v t0 P ∧
      ∀ t ∈ Set.Icc t0 t1, (conf P.num (x t), conf P.num (v t)) ∈ U := by
  obtain ⟨n, hn⟩ : ∃ n, n = P.num := ⟨_, rfl⟩
  have hfr : conf P.num P.pos ∈ free P.num := fun i j hij h => hap i j i.2 j.2 (fun e => hij (Fin.ext e)) (congrArg ve h)
  have ho : IsOpen (Prod.fst ⁻¹' free P.num : Set (Conf P.num × Conf P.num)) := (free_open _).preimage continuous_fst
  have hc : ContDiffAt ℝ 1 (newtonF P.num P.mass) (conf P.num P.pos, conf P.num P.vel) :=
    (((newtonF_smooth P.num P.mass).contDiffAt (ho.mem_nhds hfr))).of_le (by norm_num)
  obtain ⟨α, h0, ε, hε, hα⟩ := hc.exists_forall_mem_closedBall_exists_eq_forall_mem_Ioo_hasDerivAt₀ t0
  have hcont : ContinuousAt α t0 := (hα t0 ⟨by linarith, by linarith⟩).continuousAt
  have hev : ∀ᶠ t in nhds t0, α t ∈ U ∩ Prod.fst ⁻¹' free P.num :=
    hcont ((hU.inter ho).mem_nhds (by rw [h0]; exact ⟨hP, hfr⟩))
  obtain ⟨δ, hδ, hball⟩ := Metric.eventually_nhds_iff.1 hev
  have hm : 0 < min (ε / 2) (δ / 2) := lt_min (by linarith) (by linarith)
  have hin : ∀ t ∈ Set.Icc t0 (t0 + min (ε / 2) (δ / 2)), HasDerivAt α (newtonF P.num P.mass (α t)) t ∧ α t ∈ U ∧ (α t).1 ∈ free P.num := fun t ht => by
    have a1 := min_le_left (ε / 2) (δ / 2)
    have a2 := min_le_right (ε / 2) (δ / 2)
    refine ⟨hα t ⟨by linarith [ht.1], by linarith [ht.2]⟩, hball (y := t) ?_⟩
    rw [Real.dist_eq, abs_of_nonneg (by linarith [ht.1])]
    linarith [ht.2]
  refine ⟨fun t => part (α t).1, fun t => part (α t).2, t0 + min (ε / 2) (δ / 2), by linarith, ⟨fun t ht k hk => ?_, fun t ht k hk => ?_, fun t ht i j hi hj hij he => ?_⟩,
    ⟨rfl, fun _ _ => rfl, fun k hk => ?_, fun k hk => ?_⟩, fun t ht => ?_⟩
  · have := part_rate ((hin t ht).1.fst) k hk
    unfold part at this ⊢
    rw [dif_pos hk]
    exact this
  · have := part_rate ((hin t ht).1.snd) k hk
    have e : ve ((newtonF P.num P.mass (α t)).2 ⟨k, hk⟩) = ∑ j ∈ (range P.num).erase k, Spec.newton (P.mass j) (part (α t).1 k) (part (α t).1 j) := by
      show ve (grav P.num P.mass (α t).1 ⟨k, hk⟩) = _
      rw [← conf_part (α t).1, grav_conf P.num P.mass ⟨P.num, part (α t).1, part (α t).2, P.mass⟩ rfl (fun _ _ => rfl) ⟨k, hk⟩, ve_co, conf_part]
      exact (gravity_acc ⟨P.num, part (α t).1, part (α t).2, P.mass⟩ k hk).2
    rw [e] at this
    exact this
  · refine (hin t ht).2.2 ⟨i, hi⟩ ⟨j, hj⟩ (fun h => hij (Fin.mk.inj h)) ?_
    have := congrArg co he
    unfold part at this
    rw [dif_pos hi, dif_pos hj] at this
    exact this
  · show P.pos k = part (α t0).1 k
    unfold part
    rw [dif_pos hk, h0]; rfl
  · show P.vel k = part (α t0).2 k
    unfold part
    rw [dif_pos hk, h0]; rfl
  · rw [conf_part, conf_part]; exact (hin t ht).2.1

/-- **C62.** Any number of particles in different places, none of them at the origin without velocity and without acceleration: there is a step length such that the calls of
IAS15 with steps up to this length - any number of them, as long as the steps add up to no more than that length - return, each after one correction and with the full step.
What is missing: larger steps (other forces and systems: `C62_forces_partial` and the following); false for all derivatives (`C62_never_ends`). -/
theorem C62_small_steps_partial (P : Particles) (t0 : ℝ) (hap : ∀ i j, i < P.num → j < P.num → i ≠ j → P.pos i ≠ P.pos j)
    (hact : ∀ k, k < P.num → ¬ (P.pos k = 0 ∧ P.vel k = 0 ∧ ∑ j ∈ (range P.num).erase k, Spec.newton (P.mass j) (P.pos k) (P.pos j) = 0)) :
    ∃ h0 : ℝ, 0 < h0 ∧ ∀ (N : Nat) (big : ℝ) (H : Nat → ℝ), (∀ i, i < N → 0 ≤ H i) → (∑ i ∈ range N, H i) ≤ h0 →
      ∃ (s : Nat → Simple) (it : Nat → IAS) (h' : Nat → ℝ), s 0 = Simple.init t0 P ∧ it 0 = IAS.new big ∧
        ∀ i, i < N → (∀ fuel, Radau.iterate code (radauSimple gravity) big (fuel + 1) 0 (H i) (it i) (s i) = .ok (s (i + 1), it (i + 1), h' i)) ∧
          (s (i + 1)).time = (s i).time + H i ∧ H i / 4 ≤ h' i ∧ h' i ≤ 4 * H i := by
  have hst : (conf P.num P.pos, conf P.num P.vel) ∈ active P.num P.mass := by
    refine ⟨fun i j hij h => hap i j i.2 j.2 (fun e => hij (Fin.ext e)) (congrArg ve h), fun k => ?_⟩
    by_contra hz
    have z0 := norm_nonneg (conf P.num P.pos k)
    have z1 := norm_nonneg (conf P.num P.vel k)
    have z2 := norm_nonneg (grav P.num P.mass (conf P.num P.pos) k)
    dsimp only at hz
    have e0 : conf P.num P.pos k = 0 := norm_eq_zero.1 (by linarith)
    have e1 : conf P.num P.vel k = 0 := norm_eq_zero.1 (by linarith)
    have e2 : grav P.num P.mass (conf P.num P.pos) k = 0 := norm_eq_zero.1 (by linarith)
    refine hact k k.2 ⟨congrArg ve e0, congrArg ve e1, ?_⟩
    rw [grav_conf P.num P.mass P rfl (fun _ _ => rfl) k] at e2
    have e3 := congrArg ve e2
    rw [ve_co, (gravity_acc P k k.2).2] at e3
    exact e3
  obtain ⟨x, v, t1, ht, M, S, hin⟩ := motion_exists P hap t0 (active_open P.num P.mass) hst
  obtain ⟨K, h0, hK, hh0, key⟩ := C98_runs ht.le M fun t ht k hk h => by
    have := (hin t ht).2 ⟨k, hk⟩
    have e1 : conf P.num (x t) ⟨k, hk⟩ = 0 := congrArg co h.1
    have e2 : conf P.num (v t) ⟨k, hk⟩ = 0 := congrArg co h.2.1
    have e3 : grav P.num P.mass (conf P.num (x t)) ⟨k, hk⟩ = 0 := by
      rw [grav_conf P.num P.mass ⟨P.num, x t, v t, P.mass⟩ rfl (fun _ _ => rfl) ⟨k, hk⟩, (gravity_acc ⟨P.num, x t, v t, P.mass⟩ k hk).2]
      exact congrArg co h.2.2
    dsimp only at this
    rw [e1, e2, e3, norm_zero] at this
    norm_num at this
  refine ⟨min h0 (t1 - t0), lt_min hh0 (by linarith), fun N big H hH hsum => ?_⟩
  have hs0 : 0 ≤ ∑ i ∈ range N, H i := sum_nonneg fun i hi => hH i (mem_range.1 hi)
  obtain ⟨s, it, h', a1, a2, a3, _⟩ := key P S N big (∑ i ∈ range N, H i) H hs0 (hsum.trans (min_le_left _ _))
    (fun i hi => ⟨hH i hi, single_le_sum (f := H) (fun j hj => hH j (mem_range.1 hj)) (mem_range.2 hi)⟩) (hsum.trans (min_le_right _ _))
  exact ⟨s, it, h', a1, a2, a3⟩

end SpaceHub.Sys
