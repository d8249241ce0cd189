import Verif.Props.ConvergeIAS15Sys
import Verif.Props.IAS15Runs

/-
Calls of IAS15 that return, on systems whose clock runs with rate 1.
-/

set_option autoImplicit false

namespace SpaceHub.Sys
open SpaceHub V3 Force Core Integrator Spec Props Finset Converge Radau BS Ctl Fl
open scoped ContDiff

variable {S : Type}

theorem maskOf_congr (regu dep : Bool) (n : Nat) {f g : Nat → Bool} (h : ∀ p, p < n → f p = g p) : maskOf regu dep n f = maskOf regu dep n g := by
  funext i
  unfold maskOf
  congr 1
  rw [Bool.eq_iff_iff]
  simp only [List.any_eq_true, List.mem_range]
  exact ⟨fun ⟨p, hp, q⟩ => ⟨p, hp, by rw [← h p hp]; exact q⟩, fun ⟨p, hp, q⟩ => ⟨p, hp, by rw [h p hp]; exact q⟩⟩

/-- the mask of the auxiliary velocities -/
theorem mask_aux (n : Nat) (slow : Nat → Bool) (p c : Nat) (hp : p < n) (hc : c < 3) : maskOf false true n slow (1 + 6 * n + (3 * p + c)) = slow p := by
  rw [Bool.eq_iff_iff]
  unfold maskOf
  simp only [Bool.or_eq_true, Bool.and_eq_true, List.any_eq_true, List.mem_range, decide_eq_true_eq, beq_iff_eq, Bool.not_false, true_and]
  unfold posOffset velOffset auxOffset
  constructor
  · rintro (h0 | ⟨q, hq, hs, ho⟩)
    · omega
    · obtain rfl : q = p := by omega
      exact hs
  · intro hs
    exact .inr ⟨p, hp, hs, by omega⟩

theorem plain_entry (n : Nat) (dep : Bool) (f : Nat → ℝ) (h : dep = true → ∀ j, j < 3 * n → auxL n j f = 0) (i : Nat) (h0 : i ≠ 0) (hi : i < n * 3 * (2 + dep.toNat) + 1) :
    |f i| ≤ ‖readL n f‖ := by
  have coord : ∀ i : Nat, i ≠ 0 → i < 1 + 6 * n → |f i| ≤ ‖readL n f‖ := fun i h0 hi => by
    obtain ⟨p, c, hp, hc, h | h⟩ := entry_cases n i h0 hi
    · have := (entry_norm n f ⟨p, hp⟩ c hc).1
      rw [h]; exact this.trans ((norm_le_pi_norm _ _).trans (norm_fst_le _))
    · have := (entry_norm n f ⟨p, hp⟩ c hc).2
      rw [h]; exact this.trans ((norm_le_pi_norm _ _).trans (norm_snd_le _))
  rcases Nat.lt_or_ge i (1 + 6 * n) with h1 | h1
  · exact coord i h0 h1
  cases dep with
  | false =>
    have hi' : i < n * 3 * 2 + 1 := hi
    omega
  | true =>
    have hi' : i < n * 3 * 3 + 1 := hi
    obtain ⟨j, rfl⟩ : ∃ j, i = 1 + 6 * n + j := ⟨i - (1 + 6 * n), by omega⟩
    have := h rfl j (by omega)
    rw [auxL_apply, sub_eq_zero] at this
    rw [this]
    exact coord _ (by omega) (by omega)

/-- a quantity of constant rate, in a correction -/
theorem flat_first {O : RSys S} {ok : S → Prop} {nv : Nat} {L : (Nat → ℝ) →ₗ[ℝ] ℝ} {κ : ℝ} (sh : Shadow O ok nv L (fun _ => κ) Set.univ) {s x1 : S} (hs : ok s)
    (hlen : (O.write s).length = nv) {H : ℝ} {r r' : GR} (hf : FlatFor L r) (e : correct code O H r s = .ok (x1, r')) :
    FlatFor L r' ∧ L r'.dg = 0 ∧ L r'.dyh = κ := by
  have f1 := (flat_correct (T := code) (O := O) (ok := ok) (L1 := 0) (L2 := L) (p := 0) (κ := κ)
    (fun x d hx e => ⟨rfl, fun _ => sh.field x d hx (Set.mem_univ _) e⟩) sh.read sh.keep (fun _ _ _ => rfl) hs rfl rfl (fun _ _ => ⟨rfl, rfl, rfl⟩) hf e).2.1
  obtain ⟨l1, l2⟩ := shadow_last sh hs hlen (Set.mem_univ _) e
  refine ⟨f1, ?_, l2 (Set.mem_univ _)⟩
  have p := (f1 6 (by norm_num)).2.1
  have q := (hf 6 (by norm_num)).2.1
  rcases l1 with l | l
  · rw [p, q, sub_zero] at l; exact l
  · rw [p] at l; exact l

/-- What a system with a clock of rate 1 and the variables of `n` particles (or links of a chain) satisfies: loading and derivatives never fail, the clock has
rate 1, the auxiliary velocities have the rates of the velocities. -/
structure Runs (O : RSys S) (ok : S → Prop) (n : Nat) (dep : Bool) : Prop where
  reads : ∀ x y, ok x → y.length = n * 3 * (2 + dep.toNat) + 1 → ∃ x', O.read x y = .ok x' ∧ ok x'
  derivs : ∀ x, ok x → ∃ d, O.deriv x = .ok d ∧ ok d.2
  length : ∀ x, ok x → (O.write x).length = n * 3 * (2 + dep.toNat) + 1
  clock : Shadow O ok (n * 3 * (2 + dep.toNat) + 1) timeL (fun _ => 1) Set.univ
  aux : dep = true → ∀ j, j < 3 * n → Shadow O ok (n * 3 * (2 + dep.toNat) + 1) (auxL n j) (fun _ => 0) Set.univ

/-- the coefficients of the clock and of the auxiliary velocities -/
def Calm (n : Nat) (dep : Bool) (r : GR) : Prop := FlatFor timeL r ∧ (dep = true → ∀ j, j < 3 * n → FlatFor (auxL n j) r)

/-- what a call does to the clock and to the coefficients -/
theorem slow_next {O : RSys S} {ok : S → Prop} {n : Nat} {dep : Bool} (R : Runs O ok n dep) {frame same : S → S → Prop} {s s' : S} (hs : ok s) (hsame : ∀ x, same s x → ok x)
    {it it' : IAS} (hf : Calm n dep it.gr) {big H τ h' : ℝ} {k : Nat} (st : StepBy code O big frame same k H τ it s s' it' h') :
    Calm n dep it'.gr ∧ timeL (GR.toArr (O.write s')) = timeL (GR.toArr (O.write s)) + τ := by
  have hlen := R.length s hs
  obtain ⟨mm, hl, q, nn, g, y, E, se', j1, j2, acc⟩ := st
  have fc := flat_by hsame R.clock.read R.clock.keep (L := timeL) (κ := 1)
    (fun x d hx e => R.clock.field x d hx (Set.mem_univ _) e) (by rw [hlen]; exact R.clock.loc) hf.1 acc
  refine ⟨⟨fc.1, fun hd j hj => ?_⟩, by rw [fc.2, one_mul, j2]⟩
  have sa := R.aux hd j hj
  exact (flat_by hsame sa.read sa.keep (L := auxL n j) (κ := 0)
    (fun x d hx e => sa.field x d hx (Set.mem_univ _) e) (by rw [hlen]; exact sa.loc) (hf.2 hd j hj) acc).1

/-- one call with a small step -/
theorem slow_call {O : RSys S} {ok : S → Prop} {n : Nat} {dep : Bool} (R : Runs O ok n dep) {frame same : S → S → Prop} {s : S} (L : RLawful O s frame same) (hs : ok s)
    {it : IAS} (hf : Calm n dep it.gr) {c δ H big : ℝ} (hc : 0 < c) (hδ : δ * 10 ^ 16 < 1) (hδc : δ ≤ c / 8 * (5 / 10 ^ 10)) (hH : 0 ≤ H)
    {F : Conf n × Conf n} {slow : Nat → Bool} (hm : ∀ x, same s x → O.mask H x = maskOf false dep n slow)
    (hfast : ∀ p : Fin n, slow p = false → c ≤ 2 * ‖F.1 p‖ + ‖F.2 p‖)
    (first : ∀ x1 r, correct code O H it.gr s = .ok (x1, r) → ok x1 → O.write x1 = O.write s → ‖readL n r.dg‖ ≤ δ ∧ ‖readL n (r.b 6)‖ ≤ δ ∧ ‖readL n r.dyh - F‖ ≤ δ) :
    ∃ s' it' h', (∀ fuel, Radau.iterate code O big (fuel + 1) 0 H it s = .ok (s', it', h')) ∧ StepBy code O big frame same 1 H H it s s' it' h' ∧ ok s' ∧
      H / 4 ≤ h' ∧ h' ≤ 4 * H := by
  have hlen := R.length s hs
  obtain ⟨x1, r, e, hx1⟩ := correct_runs (T := code) R.derivs R.reads (H := H) (r := it.gr) hs hlen
  obtain ⟨f1, f2, f3, f4, f5⟩ := correct_restores L L.refl rfl e
  obtain ⟨h1, h2, h3⟩ := first x1 r e hx1 f2
  have hδ0 : 0 ≤ δ := (norm_nonneg _).trans h1
  obtain ⟨t1, t2, t3⟩ := flat_first R.clock hs hlen hf.1 e
  have hdg0 : r.dg 0 = 0 := t2
  have hdyh0 : r.dyh 0 = 1 := t3
  have ax : dep = true → ∀ j, j < 3 * n → FlatFor (auxL n j) r ∧ auxL n j r.dg = 0 := fun hd j hj =>
    ⟨(flat_first (R.aux hd j hj) hs hlen (hf.2 hd j hj) e).1, (flat_first (R.aux hd j hj) hs hlen (hf.2 hd j hj) e).2.1⟩
  have hnum : r.num = n * 3 * (2 + dep.toNat) + 1 := by rw [f5, hlen]
  obtain ⟨er, hpc, her⟩ := pc_small hδ (fun i hi => by
    rcases Nat.eq_zero_or_pos i with rfl | h
    · rw [hdg0, abs_zero]; exact hδ0
    · exact (plain_entry n dep r.dg (fun hd j hj => (ax hd j hj).2) i (by omega) (hnum ▸ hi)).trans h1) (by omega) hdyh0
  have hmask := hm x1 f3
  have hmask0 : O.mask H x1 0 = true := by rw [hmask]; rfl
  have sizes : 1 + 6 * n ≤ r.num := by
    rw [hnum]
    have : n * 3 * 2 ≤ n * 3 * (2 + dep.toNat) := Nat.mul_le_mul_left _ (by omega)
    omega
  obtain ⟨se, hse, hse0, hse1⟩ := se_small (n := r.num) (mask := O.mask H x1) (dyh := r.dyh) (b6 := r.b 6) (B := δ) (D := c / 8) hδc
    (fun i hi hm => by
      rcases Nat.eq_zero_or_pos i with rfl | h
      · rw [hmask0] at hm; cases hm
      · exact (plain_entry n dep (r.b 6) (fun hd j hj => ((ax hd j hj).1 6 (by norm_num)).1) i (by omega) (hnum ▸ hi)).trans h2)
    (fun i hi hm => by
      have hi0 : i ≠ 0 := fun h => by rw [h, hmask0] at hm; cases hm
      obtain ⟨p, hp, hslow⟩ : ∃ p, p < n ∧ slow p = false := by
        rw [hmask] at hm
        rcases Nat.lt_or_ge i (1 + 6 * n) with h6 | h6
        · obtain ⟨p, q, hp, hq, h⟩ := entry_cases n i hi0 h6
          refine ⟨p, hp, ?_⟩
          rcases h with h | h
          · rw [h, (mask_entry dep n slow p q hp hq).1] at hm; exact hm
          · rw [h, (mask_entry dep n slow p q hp hq).2] at hm; exact hm
        · rw [hnum] at hi
          cases hd : dep with
          | false =>
            rw [hd] at hi
            have hi' : i < n * 3 * 2 + 1 := hi
            omega
          | true =>
            rw [hd] at hi hm
            have hi' : i < n * 3 * 3 + 1 := hi
            refine ⟨(i - (1 + 6 * n)) / 3, by omega, ?_⟩
            have := mask_aux n slow ((i - (1 + 6 * n)) / 3) ((i - (1 + 6 * n)) % 3) (by omega) (by omega)
            rw [show 1 + 6 * n + (3 * ((i - (1 + 6 * n)) / 3) + (i - (1 + 6 * n)) % 3) = i by omega] at this
            rw [← this]; exact hm
      have hcz := hfast ⟨p, hp⟩ hslow
      obtain ⟨⟨c1, hc1, a1⟩, ⟨c2, hc2, a2⟩⟩ := entry_attained n r.dyh ⟨p, hp⟩
      have d1 : ‖F.1 ⟨p, hp⟩‖ ≤ ‖(readL n r.dyh).1 ⟨p, hp⟩‖ + δ := by
        have b : ‖(readL n r.dyh).1 ⟨p, hp⟩ - F.1 ⟨p, hp⟩‖ ≤ δ :=
          (norm_le_pi_norm ((readL n r.dyh - F).1) ⟨p, hp⟩).trans ((norm_fst_le _).trans h3)
        have := norm_le_norm_add_norm_sub' (F.1 ⟨p, hp⟩) ((readL n r.dyh).1 ⟨p, hp⟩)
        rw [norm_sub_rev] at this
        linarith
      have d2 : ‖F.2 ⟨p, hp⟩‖ ≤ ‖(readL n r.dyh).2 ⟨p, hp⟩‖ + δ := by
        have b : ‖(readL n r.dyh).2 ⟨p, hp⟩ - F.2 ⟨p, hp⟩‖ ≤ δ :=
          (norm_le_pi_norm ((readL n r.dyh - F).2) ⟨p, hp⟩).trans ((norm_snd_le _).trans h3)
        have := norm_le_norm_add_norm_sub' (F.2 ⟨p, hp⟩) ((readL n r.dyh).2 ⟨p, hp⟩)
        rw [norm_sub_rev] at this
        linarith
      have hδ8 : δ ≤ c / 64 := by linarith
      rcases le_total (c / 8) ‖(readL n r.dyh).1 ⟨p, hp⟩‖ with g | g
      · exact ⟨1 + (3 * p + c1), by omega, by rw [hmask, (mask_entry dep n slow p c1 hp hc1).1, hslow], by rw [a1] at g; exact g⟩
      · refine ⟨1 + 3 * n + (3 * p + c2), by omega, by rw [hmask, (mask_entry dep n slow p c2 hp hc2).2, hslow], ?_⟩
        rw [a2] at d2
        dsimp only at d2
        linarith)
  obtain ⟨s', e2, fs'⟩ := R.reads x1 (r.finalState H) hx1 (by rw [(finalState_eq r H).1, f4, hlen])
  obtain ⟨it', h', k1, k2, k3, k4⟩ := small_step (big := big) L hH e hpc her hse hse0 hse1 e2
  exact ⟨s', it', h', k1, k2, fs', k3, k4⟩

/-! ### sequences of calls -/

/-- A call with a small step returns, and is followed by a change of the description of the system. -/
def CallReturns (O : RSys S) (pre : S → S) (post : S → S → Prop) (frame same : S → S → Prop) (big H : ℝ) (it : IAS) (s : S) (q : S × S × IAS × ℝ) : Prop :=
  (∀ fuel, Radau.iterate code O big (fuel + 1) 0 H it (pre s) = .ok (q.1, q.2.2.1, q.2.2.2)) ∧
  StepBy code O big frame same 1 H H it (pre s) q.1 q.2.2.1 q.2.2.2 ∧ post q.1 q.2.1 ∧ H / 4 ≤ q.2.2.2 ∧ q.2.2.2 ≤ 4 * H

theorem slow_runs {n : Nat} {a : Field n} {U : Set (Conf n × Conf n)} (hU : IsOpen U) (hsm : ContDiffOn ℝ ∞ (inNumbers a) U) {x v : ℝ → Nat → V3 ℝ} {t0 t1 : ℝ} (ht : t0 ≤ t1)
    (M : ForcedMotion n a x v t0 t1) (hin : ∀ t ∈ Set.Icc t0 t1, (conf n (x t), conf n (v t)) ∈ U) :
    ∃ (K h0 C : ℝ) (W' : Set (Conf n × Conf n)), 0 ≤ K ∧ 0 < h0 ∧ 0 ≤ C ∧ IsCompact W' ∧ W' ⊆ U ∧
      ∀ {O : RSys S} {nv : Nat} {pre : S → S} {post frame same : S → S → Prop} {A : S → (Nat → ℝ) →ₗ[ℝ] Conf n × Conf n} {ok : S → S → Prop} {Fr : S → Prop} {calm : GR → Prop} {big h : ℝ},
      (∀ s, Fr s → Shadow O (ok s) nv (A s) (forcedF a) Set.univ ∧ ok s (pre s) ∧ (∀ x, same (pre s) x → ok s x) ∧ (O.write (pre s)).length = nv) →
      (∀ s s' w, ‖A s w‖ = ‖A s' w‖) → 0 ≤ h → h ≤ h0 →
      (∀ s it H, Fr s → calm it.gr → 0 ≤ H → H ≤ h → A s (GR.toArr (O.write (pre s))) ∈ W' →
        (∀ x1 r, correct code O H it.gr (pre s) = .ok (x1, r) → ok s x1 → O.write x1 = O.write (pre s) →
          ‖A s r.dg‖ ≤ C * h ∧ ‖A s (r.b 6)‖ ≤ C * h ∧ ‖A s r.dyh - forcedF a (A s (GR.toArr (O.write (pre s))))‖ ≤ C * h) →
        ∃ q, CallReturns O pre post frame same big H it s q) →
      (∀ s it H q, Fr s → calm it.gr → CallReturns O pre post frame same big H it s q → Fr q.2.1 ∧ calm q.2.2.1.gr ∧
          A q.2.1 (GR.toArr (O.write (pre q.2.1))) = A s (GR.toArr (O.write q.1))) →
      ∀ s0, Fr s0 → calm GR.new → A s0 (GR.toArr (O.write (pre s0))) = (conf n (x t0), conf n (v t0)) → ∀ (N : Nat) (H : Nat → ℝ), (∀ i, i < N → 0 ≤ H i ∧ H i ≤ h) →
        (∑ i ∈ range N, H i) ≤ t1 - t0 → ∃ (s u : Nat → S) (it : Nat → IAS) (h' : Nat → ℝ), s 0 = s0 ∧ it 0 = IAS.new big ∧
          (∀ i, i < N → Fr (s i) ∧ calm (it i).gr ∧ CallReturns O pre post frame same big (H i) (it i) (s i) (u i, s (i + 1), it (i + 1), h' i)) ∧ Fr (s N) ∧
          ‖A (s N) (GR.toArr (O.write (pre (s N)))) - (conf n (x (t0 + ∑ i ∈ range N, H i)), conf n (v (t0 + ∑ i ∈ range N, H i)))‖ ≤ K * (h ^ 2 + h / 10 ^ 26) := by
  classical
  have mem : ∀ t ∈ Set.Icc 0 (t1 - t0), t0 + t ∈ Set.Icc t0 t1 := fun t ht => ⟨by linarith [ht.1], by linarith [ht.2]⟩
  have hF : ContDiffOn ℝ ∞ (forcedF a) U := contDiffOn_snd.prodMk hsm
  obtain ⟨cst, K, h0, C, W', hK, hh0, hC, hW', hWU, first, key⟩ := course_vary (S := S) code_near code_nodes code_quad (by norm_num) code_small hU hF
    (y := fun t => (conf n (x (t0 + t)), conf n (v (t0 + t)))) (L := t1 - t0) (by linarith)
    (fun t ht => (forced_curve M ht).1.prodMk (forced_curve M ht).2) (fun t ht => hin _ (mem t ht)) 1 le_rfl (by norm_num)
  refine ⟨K, h0, C, W', hK, hh0, hC, hW', hWU, fun {O nv pre post frame same A ok Fr calm big h} hFr hN hh hle hcall hkeep s0 f0 c0 start N H hst hsum => ?_⟩
  let nx : Nat → S × IAS → S × S × IAS × ℝ := fun i p =>
    if hq : ∃ q, CallReturns O pre post frame same big (H i) p.2 p.1 q then Classical.choose hq else (p.1, p.1, p.2, 0)
  have hnx : ∀ i p, (∃ q, CallReturns O pre post frame same big (H i) p.2 p.1 q) → CallReturns O pre post frame same big (H i) p.2 p.1 (nx i p) := fun i p hq => by
    show CallReturns O pre post frame same big (H i) p.2 p.1 (if hq : _ then Classical.choose hq else _)
    rw [dif_pos hq]
    exact Classical.choose_spec hq
  clear_value nx
  obtain ⟨sq, hsq0, hsqS⟩ : ∃ sq : Nat → S × IAS, sq 0 = (s0, IAS.new big) ∧ ∀ i, sq (i + 1) = ((nx i (sq i)).2.1, (nx i (sq i)).2.2.1) :=
    ⟨fun i => Nat.rec (s0, IAS.new big) (fun i p => ((nx i p).2.1, (nx i p).2.2.1)) i, rfl, fun _ => rfl⟩
  have sums : ∀ i, i ≤ N → (∑ j ∈ range i, H j) ≤ t1 - t0 := fun i hi =>
    (sum_le_sum_of_subset_of_nonneg (range_mono hi) fun j hj _ => (hst j (mem_range.1 hj)).1).trans hsum
  have course : ∀ i, i ≤ N → (∀ j, j < i → Fr (sq j).1 ∧ calm (sq j).2.gr ∧ CallReturns O pre post frame same big (H j) (sq j).2 (sq j).1 (nx j (sq j))) → _ := fun i hi hj =>
    key (O := O) (nv := nv) (A := fun j => A (sq j).1) (big := big) (h := h) (frame := frame) (same := same) (H := H) (τ := H) (h' := fun j => (nx j (sq j)).2.2.2)
      (it := fun j => (sq j).2) (s := fun j => pre (sq j).1) (s' := fun j => (nx j (sq j)).1) hh hle (by rw [hsq0]) (by rw [hsq0, start, add_zero]) i (fun j hj' => by
        obtain ⟨g1, g2, g3⟩ := hj j hj'
        obtain ⟨p1, _, p3, p4⟩ := hFr _ g1
        obtain ⟨b1, b2⟩ := hst j (by omega)
        refine ⟨b1, b2, ⟨_, p1.mono (Set.subset_univ _), p3⟩, p4, ?_, ?_, fun w => hN _ _ w⟩
        · rw [hsqS]; exact g3.2.1
        · have := (hkeep _ _ _ _ g1 g2 g3).2.2
          rw [hsqS]; exact this) (sums i hi)
  have main : ∀ i, i ≤ N → Fr (sq i).1 ∧ calm (sq i).2.gr ∧ ∀ j, j < i → Fr (sq j).1 ∧ calm (sq j).2.gr ∧ CallReturns O pre post frame same big (H j) (sq j).2 (sq j).1 (nx j (sq j)) := by
    intro i
    induction i with
    | zero => intro _; rw [hsq0]; exact ⟨f0, c0, fun j hj => absurd hj (Nat.not_lt_zero j)⟩
    | succ i ih =>
      intro hi
      obtain ⟨g1, g2, g3⟩ := ih (by omega)
      obtain ⟨_, _, _, inW, tame⟩ := course i (by omega) g3
      obtain ⟨p1, p2, p3, p4⟩ := hFr _ g1
      obtain ⟨b1, b2⟩ := hst i (by omega)
      obtain ⟨q, hq⟩ := hcall _ (sq i).2 (H i) g1 g2 b1 b2 inW (fun x1 r e hx1 hw => by
        obtain ⟨d1, d2, d3, _⟩ := first (p1.mono (Set.subset_univ _)) e p2 hx1 hw p4 b1 b2 hle inW tame
        exact ⟨d1, d2, d3⟩)
      have hc := hnx i (sq i) ⟨q, hq⟩
      obtain ⟨k1, k2, _⟩ := hkeep _ _ _ _ g1 g2 hc
      refine ⟨by rw [hsqS]; exact k1, by rw [hsqS]; exact k2, fun j hj => ?_⟩
      rcases Nat.lt_succ_iff_lt_or_eq.1 hj with h | rfl
      · exact g3 j h
      · exact ⟨g1, g2, hc⟩
  obtain ⟨g1, g2, g3⟩ := main N le_rfl
  obtain ⟨_, w, _⟩ := course N le_rfl g3
  refine ⟨fun i => (sq i).1, fun i => (nx i (sq i)).1, fun i => (sq i).2, fun i => (nx i (sq i)).2.2.2, congrArg Prod.fst hsq0, congrArg Prod.snd hsq0, fun i hi => ?_, g1, ?_⟩
  · obtain ⟨e1, e2, e3⟩ := g3 i hi
    refine ⟨e1, e2, ?_⟩
    dsimp only
    rw [hsqS i]
    exact e3
  · rw [show h / 10 ^ 26 = 1 / 10 ^ 26 * h by ring]
    exact w

end SpaceHub.Sys
