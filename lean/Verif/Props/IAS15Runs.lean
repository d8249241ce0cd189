import Verif.Props.ConvergeIAS15Regu
import Verif.Proof.RadauRuns

/-
C103: with small steps the calls of IAS15 on a regularised system return.
-/

set_option autoImplicit false

namespace SpaceHub.Sys
open SpaceHub V3 Force Core Integrator Spec Props Finset Converge Radau BS Ctl Fl
open scoped ContDiff

variable {S : Type}

/-- the clock of a regularised system takes part in the error of the step -/
theorem mask_clock (dep : Bool) (n : Nat) (slow : Nat → Bool) : maskOf true dep n slow 0 = false := by
  rw [Bool.eq_false_iff]
  intro h
  unfold maskOf at h
  simp only [Bool.or_eq_true, Bool.and_eq_true, List.any_eq_true, List.mem_range, decide_eq_true_eq, Bool.not_true, Bool.false_and, Bool.false_eq_true, false_or] at h
  obtain ⟨p, _, _, (h | h) | h⟩ := h
  · have := h.1; unfold posOffset at this; omega
  · have := h.1; unfold velOffset at this; omega
  · have := h.1.2; unfold auxOffset at this; omega

/-- a call with small coefficients -/
theorem clock_call {T : Tab} {O : RSys S} {big H B c : ℝ} {frame same : S → S → Prop} {s x1 s' : S} (L : RLawful O s frame same) {it : IAS} {r : GR} {nv : Nat} (hH : 0 ≤ H)
    (hlen : (O.write s).length = nv) (hnv : 0 < nv) (e : correct T O H it.gr s = .ok (x1, r)) (b1 : ∀ i, i < nv → |r.dg i| ≤ B) (b2 : ∀ i, i < nv → |r.b 6 i| ≤ B)
    (b3 : c ≤ |r.dyh 0|) (hm : O.mask H x1 0 = false) (hc : 0 < c) (hB : B * 10 ^ 16 < c) (hB' : B ≤ c * (5 / 10 ^ 10)) (e2 : O.read x1 (r.finalState H) = .ok s') :
    ∃ it' h', (∀ fuel, Radau.iterate T O big (fuel + 1) 0 H it s = .ok (s', it', h')) ∧ StepBy T O big frame same 1 H H it s s' it' h' ∧ H / 4 ≤ h' ∧ h' ≤ 4 * H := by
  obtain ⟨_, _, _, _, f5⟩ := correct_restores L L.refl rfl e
  have hnum : r.num = nv := f5.trans hlen
  obtain ⟨er, hpc, her⟩ := pc_small' hc hB (fun i hi => b1 i (hnum ▸ hi)) (by omega) b3
  obtain ⟨se, hse, hse0, hse1⟩ := se_small (n := r.num) (mask := O.mask H x1) (dyh := r.dyh) (b6 := r.b 6) hB' (fun i hi _ => b2 i (hnum ▸ hi))
    (fun i hi _ => ⟨0, by omega, hm, b3⟩)
  exact small_step L hH e hpc her hse hse0 hse1 e2

/-- the auxiliary velocities are treated as the velocities -/
noncomputable def auxL (n j : Nat) : (Nat → ℝ) →ₗ[ℝ] ℝ := (LinearMap.proj (1 + 6 * n + j) : (Nat → ℝ) →ₗ[ℝ] ℝ) - (LinearMap.proj (1 + 3 * n + j) : (Nat → ℝ) →ₗ[ℝ] ℝ)

theorem auxL_apply (n j : Nat) (f : Nat → ℝ) : auxL n j f = f (1 + 6 * n + j) - f (1 + 3 * n + j) := rfl

theorem auxL_flat (f : Flat) (j : Nat) (hj : j < 3 * f.n) (A : Nat → ℝ) (hA : ∀ v, A v = f.val true v) (h : ∀ k, k < f.n → f.a k = f.v k) : auxL f.n j A = 0 := by
  have e1 := auxEntry f (j / 3) (j % 3) (by omega) (by omega)
  have e2 := velEntry true f (j / 3) (j % 3) (by omega) (by omega)
  rw [show 3 * (j / 3) + j % 3 = j by omega] at e1 e2
  rw [auxL_apply, hA, hA, e1, e2, h _ (by omega), sub_self]

theorem full_entry (n : Nat) (dep : Bool) (f : Nat → ℝ) (h : dep = true → ∀ j, j < 3 * n → auxL n j f = 0) (i : Nat) (hi : i < n * 3 * (2 + dep.toNat) + 3) :
    |f i| ≤ ‖fullL n dep f‖ := by
  have n1 : |f 0| ≤ ‖fullL n dep f‖ := norm_fst_le (fullL n dep f)
  have n2 : ‖readL n f‖ ≤ ‖fullL n dep f‖ := (norm_fst_le (fullL n dep f).2).trans (norm_snd_le (fullL n dep f))
  have n3 : |f (omegaOffset n dep)| ≤ ‖fullL n dep f‖ := (norm_fst_le (fullL n dep f).2.2).trans ((norm_snd_le (fullL n dep f).2).trans (norm_snd_le (fullL n dep f)))
  have n4 : |f (bindEOffset n dep)| ≤ ‖fullL n dep f‖ := (norm_snd_le (fullL n dep f).2.2).trans ((norm_snd_le (fullL n dep f).2).trans (norm_snd_le (fullL n dep f)))
  have coord : ∀ i : Nat, i ≠ 0 → i < 1 + 6 * n → |f i| ≤ ‖readL n f‖ := fun i h0 hi => by
    obtain ⟨p, c, hp, hc, h | h⟩ := entry_cases n i h0 hi
    · have := (entry_norm n f ⟨p, hp⟩ c hc).1
      rw [h]; exact this.trans ((norm_le_pi_norm _ _).trans (norm_fst_le _))
    · have := (entry_norm n f ⟨p, hp⟩ c hc).2
      rw [h]; exact this.trans ((norm_le_pi_norm _ _).trans (norm_snd_le _))
  rcases Nat.eq_zero_or_pos i with rfl | h0
  · exact n1
  rcases Nat.lt_or_ge i (1 + 6 * n) with h1 | h1
  · exact (coord i (by omega) h1).trans n2
  by_cases h2 : i = omegaOffset n dep
  · rw [h2]; exact n3
  by_cases h3 : i = bindEOffset n dep
  · rw [h3]; exact n4
  cases dep with
  | false =>
    exfalso
    have e1 : omegaOffset n false = n * 3 * 2 + 1 := rfl
    have e2 : bindEOffset n false = n * 3 * 2 + 2 := rfl
    have hi' : i < n * 3 * 2 + 3 := hi
    omega
  | true =>
    have e1 : omegaOffset n true = n * 3 * 3 + 1 := rfl
    have e2 : bindEOffset n true = n * 3 * 3 + 2 := rfl
    have hi' : i < n * 3 * 3 + 3 := hi
    obtain ⟨j, rfl⟩ : ∃ j, i = 1 + 6 * n + j := ⟨i - (1 + 6 * n), by omega⟩
    have := h rfl j (by omega)
    rw [auxL_apply, sub_eq_zero] at this
    rw [this]
    exact (coord _ (by omega) (by omega)).trans n2

section
variable {ex : List (ForceClass Particles)} {n : Nat} {m : Nat → ℝ} {a : Field n} (A : Acts (withGravity ex) n m a)
include A

/-- the derivative exists where the divisors do not vanish -/
theorem regu_has {type : ReguType} (hn : 2 ≤ n) (hm : ∀ k, k < n → 0 < m k) {U : Set (Conf n × Conf n)} {x : ReguSys} (hx : FrameR n m x)
    (hz : fullOf n x ∈ fullU m type U) : ∃ d, (radauRegu 1 type (withGravity ex)).deriv x = .ok d := by
  obtain ⟨p1, p2⟩ := regu_divisors (type := type) hx
  obtain ⟨own, more, pl, _, _⟩ := pull_of A x.P
  obtain ⟨d', s1, e1, _, _⟩ := regu_derivative2 1 type (withGravity ex) x own more pl _ _ (by rw [p1]; exact hz.1) (by rw [p2]; exact (gapQ_pos type hn hm hz.2.1).ne') rfl rfl
  exact ⟨_, e1⟩

/-- the auxiliary velocities change as the velocities do -/
theorem regu_aux {type : ReguType} (hd : (withGravity ex).velDep = true) {j : Nat} (hj : j < 3 * n) {x : ReguSys} {d : List ℝ × ReguSys} (hx : FrameR n m x)
    (e : (radauRegu 1 type (withGravity ex)).deriv x = .ok d) : auxL n j (GR.toArr d.1) = 0 := by
  obtain ⟨h0, h1⟩ := regu_nonzero e
  obtain ⟨own, more, pl, _, _⟩ := pull_of A x.P
  obtain ⟨d', s1, e1, _, e3⟩ := regu_derivative2 1 type (withGravity ex) x own more pl _ _ h0 h1 rfl rfl
  have e' : x.derivative 1 type (withGravity ex) = .ok d := e
  rw [e1] at e'
  rw [← Res.ok.inj e']
  dsimp only
  rw [e3]
  have key : ∀ r : ReguSys, r.P.num = n → (∀ k, r.aux k = r.P.vel k) → auxL n j (GR.toArr (r.write (withGravity ex))) = 0 := fun r hr ha => by
    subst hr
    exact auxL_flat r.flat j hj _ (fun v => by rw [← hd]; exact ReguSys.write_getD _ r v) fun k _ => ha k
  exact key _ hx.1 fun _ => rfl

theorem regu_aux_shadow {type : ReguType} (hd : (withGravity ex).velDep = true) {j : Nat} (hj : j < 3 * n) :
    Shadow (radauRegu 1 type (withGravity ex)) (FrameR n m) (n * 3 * (2 + (withGravity ex).velDep.toNat) + 3) (auxL n j) (fun _ => 0) Set.univ where
  loc f g h := by
    have e : (withGravity ex).velDep.toNat = 1 := by rw [hd]; rfl
    rw [e] at h
    rw [auxL_apply, auxL_apply, h _ (by omega), h _ (by omega)]
  read := (regu_shadow A type).read
  keep := (regu_shadow A type).keep
  field x d hx _ e := regu_aux A hd hj hx e

theorem total_shadow (type : ReguType) (hn : 2 ≤ n) (hm : ∀ k, k < n → 0 < m k) (U : Set (Conf n × Conf n)) :
    Shadow (total (radauRegu 1 type (withGravity ex))) (FrameR n m) (n * 3 * (2 + (withGravity ex).velDep.toNat) + 3) (fullL n (withGravity ex).velDep)
      (fullF m type a (ex ≠ [])) (fullU m type U) where
  loc := fullL_local n _
  read := (regu_shadow A type).read
  keep x d hx e := by
    obtain ⟨d', e1, h⟩ := total_runs (radauRegu 1 type (withGravity ex)) x
    rw [e] at e1
    rw [Res.ok.inj e1]
    rcases h with h | h
    · exact (regu_shadow A type).keep x d' hx h
    · rw [h]; exact hx
  field x d hx hz e := by
    have hz' : fullOf n x ∈ fullU m type U := by rw [← regu_written (type := type) (I := withGravity ex) hx]; exact hz
    obtain ⟨d', e1⟩ := regu_has A hn hm hx hz'
    have := total_ok e1
    rw [e] at this
    rw [Res.ok.inj this]
    exact (regu_shadow A type).field x d' hx (Set.mem_univ _) e1

end

theorem regu_reads {type : ReguType} {I : Interactions} {n : Nat} {m : Nat → ℝ} (x : ReguSys) (y : List ℝ) (hx : FrameR n m x)
    (hy : y.length = n * 3 * (2 + I.velDep.toNat) + 3) : ∃ x', (radauRegu 1 type I).read x y = .ok x' ∧ FrameR n m x' := by
  have hl : y.length = x.variableNumber I := by rw [hy, ← hx.1]; rfl
  obtain ⟨x', e, _⟩ := C13_regu_write_read I x y hl
  exact ⟨x', e, hx.of (ReguSys.read_frame I x x' y e).1⟩

/-- the rate of the clock is bounded away from zero on a compact set -/
theorem rate_bound {n : Nat} {m : Nat → ℝ} {type : ReguType} {U : Set (Conf n × Conf n)} {W : Set (Full n)} (hW : IsCompact W) (hWU : W ⊆ fullU m type U) :
    ∃ c : ℝ, 0 < c ∧ ∀ z ∈ W, c ≤ |1 / gapP n m type z| := by
  have hc : ContinuousOn (fun z : Full n => |1 / gapP n m type z|) W := by
    refine ContinuousOn.abs (continuousOn_const.div (gapP_smooth (d := 1) m type).continuous.continuousOn fun z hz => (hWU hz).1)
  exact hW.exists_forall_le' hc fun z hz => abs_pos.2 (one_div_ne_zero (hWU hz).1)

section
variable {ex : List (ForceClass Particles)} {n : Nat} {m : Nat → ℝ} {a : Field n} (A : Acts (withGravity ex) n m a)
include A

/-- one call on a regularised system with a small step -/
theorem regu_call {type : ReguType} (hn : 2 ≤ n) (hm : ∀ k, k < n → 0 < m k) {U : Set (Conf n × Conf n)} {c C h H big : ℝ} (hc : 0 < c) (hC1 : C * h * 10 ^ 16 < c / 2)
    (hC2 : C * h ≤ c / 2 * (5 / 10 ^ 10)) (hH : 0 ≤ H) {s : ReguSys} (hs : FrameR n m s) (hz : fullOf n s ∈ fullU m type U) (hcz : c ≤ |1 / gapP n m type (fullOf n s)|)
    {it : IAS} (hf : (withGravity ex).velDep = true → ∀ j, j < 3 * n → FlatFor (auxL n j) it.gr)
    (first : ∀ s' r', correct code (total (radauRegu 1 type (withGravity ex))) H it.gr s = .ok (s', r') → FrameR n m s' →
      (radauRegu 1 type (withGravity ex)).write s' = (radauRegu 1 type (withGravity ex)).write s →
      ‖fullL n (withGravity ex).velDep r'.dg‖ ≤ C * h ∧ ‖fullL n (withGravity ex).velDep (r'.b 6)‖ ≤ C * h ∧
      ‖fullL n (withGravity ex).velDep r'.dyh - fullF m type a (ex ≠ []) (fullOf n s)‖ ≤ C * h ∧
      Visits code (total (radauRegu 1 type (withGravity ex))) H it.gr s s' r'
        fun x => fullL n (withGravity ex).velDep (GR.toArr ((radauRegu 1 type (withGravity ex)).write x)) ∈ fullU m type U) :
    ∃ s' it' h', (∀ fuel, Radau.iterate code (radauRegu 1 type (withGravity ex)) big (fuel + 1) 0 H it s = .ok (s', it', h')) ∧
      StepBy code (radauRegu 1 type (withGravity ex)) big ReguSys.Frame (SameRegu (withGravity ex)) 1 H H it s s' it' h' ∧ FrameR n m s' ∧
      ((withGravity ex).velDep = true → ∀ j, j < 3 * n → FlatFor (auxL n j) it'.gr) ∧ H / 4 ≤ h' ∧ h' ≤ 4 * H := by
  have sh := regu_shadow A type
  have sht := total_shadow A type hn hm U
  have hlen : ((radauRegu 1 type (withGravity ex)).write s).length = _ := regu_length hs
  obtain ⟨x1, r, e, hx1⟩ := correct_runs (T := code) (O := total (radauRegu 1 type (withGravity ex))) (ok := FrameR n m)
    (n := n * 3 * (2 + (withGravity ex).velDep.toNat) + 3)
    (fun y hy => by
      obtain ⟨d, e, _⟩ := total_runs (radauRegu 1 type (withGravity ex)) y
      exact ⟨d, e, sht.keep y d hy e⟩)
    (fun y l hy hl => regu_reads (type := type) y l hy hl) (H := H) (r := it.gr) hs hlen
  have hw : (radauRegu 1 type (withGravity ex)).write x1 = (radauRegu 1 type (withGravity ex)).write s := by
    have L : RLawful (total (radauRegu 1 type (withGravity ex))) s ReguSys.Frame (SameRegu (withGravity ex)) := by
      have L0 := regu_radau 1 type (withGravity ex) s
      refine ⟨L0.refl, L0.trans, fun x d e => ?_, L0.read, L0.same_refl, L0.restore⟩
      obtain ⟨d', e1, h⟩ := total_runs (radauRegu 1 type (withGravity ex)) x
      rw [e] at e1
      rw [Res.ok.inj e1]
      rcases h with h | h
      · exact L0.deriv x d' h
      · rw [h]; exact ⟨rfl, rfl⟩
    exact (correct_restores L L.refl rfl e).2.1
  obtain ⟨d1, d2, d3, d4⟩ := first x1 r e hx1 hw
  have hnode : ∀ x, FrameR n m x → fullL n (withGravity ex).velDep (GR.toArr ((radauRegu 1 type (withGravity ex)).write x)) ∈ fullU m type U →
      ∃ d, (radauRegu 1 type (withGravity ex)).deriv x = .ok d := fun x hx hz => regu_has A hn hm hx (by rw [← regu_written (type := type) (I := withGravity ex) hx]; exact hz)
  have e' : correct code (radauRegu 1 type (withGravity ex)) H it.gr s = .ok (x1, r) := by
    refine correct_of_total (regu_has A hn hm hs hz) ?_
    obtain ⟨d, R, st, X, D, q1, q2, q3, q4, q5, q6, q7⟩ := d4
    have fr : ∀ i, i ≤ 7 → FrameR n m (st i) ∧ (i < 7 → FrameR n m (X i)) := by
      intro i
      induction i with
      | zero =>
        intro _
        have f0 : FrameR n m (st 0) := by rw [q4]; exact sht.keep s d hs q1
        exact ⟨f0, fun _ => (sht.read _ _ _ f0 (q2.read 0 le_rfl (by omega))).1⟩
      | succ i ih =>
        intro hi
        obtain ⟨g1, g2⟩ := ih (by omega)
        have f0 : FrameR n m (st (i + 1)) :=
          (sht.read _ _ _ (sht.keep _ _ (g2 (by omega)) (q2.deriv i (Nat.zero_le _) (by omega))) (q2.back i (Nat.zero_le _) (by omega))).1
        exact ⟨f0, fun h => (sht.read _ _ _ f0 (q2.read (i + 1) (Nat.zero_le _) (by omega))).1⟩
    exact ⟨d, R, st, X, D, q1, q2, q3, q4, q5, q6, fun i hi => hnode _ ((fr i hi.le).2 hi) (q7 i hi)⟩
  -- the auxiliary entries
  have fl : (withGravity ex).velDep = true → ∀ j, j < 3 * n → FlatFor (auxL n j) r ∧ auxL n j r.dg = 0 := fun hd j hj => by
    have sa := regu_aux_shadow (type := type) A hd hj
    have f1 := (flat_correct (T := code) (O := radauRegu 1 type (withGravity ex)) (ok := FrameR n m) (L1 := 0) (L2 := auxL n j) (p := 0) (κ := 0)
      (fun x d hx e => ⟨rfl, fun _ => regu_aux A hd hj hx e⟩) sa.read sa.keep (fun _ _ _ => rfl) hs rfl rfl (fun _ _ => ⟨rfl, rfl, rfl⟩) (hf hd j hj) e').2.1
    refine ⟨f1, ?_⟩
    obtain ⟨l1, _⟩ := shadow_last sa hs hlen (Set.mem_univ _) e'
    have p := (f1 6 (by norm_num)).2.1
    have q := (hf hd j hj 6 (by norm_num)).2.1
    rcases l1 with l | l
    · rw [p, q, sub_zero] at l; exact l
    · rw [p] at l; exact l
  have b1 : ∀ i, i < n * 3 * (2 + (withGravity ex).velDep.toNat) + 3 → |r.dg i| ≤ C * h := fun i hi =>
    (full_entry n _ r.dg (fun hd j hj => (fl hd j hj).2) i hi).trans d1
  have b2 : ∀ i, i < n * 3 * (2 + (withGravity ex).velDep.toNat) + 3 → |r.b 6 i| ≤ C * h := fun i hi =>
    (full_entry n _ (r.b 6) (fun hd j hj => ((fl hd j hj).1 6 (by norm_num)).1) i hi).trans d2
  have b3 : c / 2 ≤ |r.dyh 0| := by
    have h1 : |r.dyh 0 - 1 / gapP n m type (fullOf n s)| ≤ C * h := (norm_fst_le _).trans d3
    have h2 := abs_sub_abs_le_abs_sub (1 / gapP n m type (fullOf n s)) (r.dyh 0)
    rw [abs_sub_comm] at h2
    have h3 : C * h ≤ c / 2 := hC2.trans (by nlinarith)
    linarith
  obtain ⟨s', e2, fs'⟩ := regu_reads (type := type) (I := withGravity ex) x1 (r.finalState H) hx1 (by
    rw [(finalState_eq r H).1, (correct_restores (regu_radau 1 type (withGravity ex) s) (regu_radau 1 type (withGravity ex) s).refl rfl e').2.2.2.1, hlen])
  obtain ⟨it', h', k1, k2, k3, k4⟩ := clock_call (big := big) (regu_radau 1 type (withGravity ex) s) hH hlen (by omega) e' b1 b2 b3 (mask_clock _ _ _) (by linarith)
    hC1 hC2 e2
  refine ⟨s', it', h', k1, k2, fs', fun hd j hj => ?_, k3, k4⟩
  obtain ⟨mm, hl, q, nn, g, y, E, se, _, _, acc⟩ := k2
  have sa := regu_aux_shadow (type := type) A hd hj
  exact (flat_by (ok := FrameR n m) (fun x hx => hs.of ⟨hx.2.1, hx.2.2.1⟩) sa.read sa.keep (L := auxL n j) (κ := 0)
    (fun x d hx e => sa.field x d hx (Set.mem_univ _) e) (by rw [hlen]; exact sa.loc) (hf hd j hj) acc).1

theorem regu_go {x v : ℝ → Nat → V3 ℝ} {t0 t1 t2 : ℝ} (h02 : t0 ≤ t2) (h21 : t2 < t1) (hS : SmoothAlong a x v t0 t1)
    (apart : ∀ t ∈ Set.Icc t0 t1, ∀ i j, i < n → j < n → i ≠ j → x t i ≠ x t j) (hn : 2 ≤ n) (hm : ∀ k, k < n → 0 < m k) (type : ReguType)
    (L : Led m type a (ex ≠ []) x v t0 t1) :
    ∃ K κ h0 : ℝ, 0 ≤ K ∧ 0 < κ ∧ 0 < h0 ∧ ∀ P, InState n m x v t0 P → ∀ (big h : ℝ) (H : Nat → ℝ), 0 ≤ h → h ≤ h0 → (∀ i, 0 ≤ H i ∧ H i ≤ h) →
      ∃ (s : Nat → ReguSys) (it : Nat → IAS) (h' : Nat → ℝ), s 0 = ReguSys.init 1 type t0 P ∧ it 0 = IAS.new big ∧ ∀ N, (∀ i, i < N → (s i).time ≤ t2) →
        (∀ i, i < N → (∀ fuel, Radau.iterate code (radauRegu 1 type (withGravity ex)) big (fuel + 1) 0 (H i) (it i) ((s i).preIter (withGravity ex)) =
          .ok (s (i + 1), it (i + 1), h' i)) ∧ H i / 4 ≤ h' i ∧ h' i ≤ 4 * H i) ∧
        (s N).time ≤ t1 ∧ t0 + κ * ∑ i ∈ range N, H i ≤ (s N).time ∧ WithinOf n m x v (s N).time (K * (h ^ 2 + h / 10 ^ 26)) (s N).P := by
  obtain ⟨K, κ, h0, C, cst, U, W', hK, hκ, hh0, hC, hWc, hWU, first, key⟩ := full_tube (S := ReguSys) h02 h21 hS apart hn hm type (ex ≠ []) L 1 le_rfl (by norm_num)
  obtain ⟨c, hc, hcW⟩ := rate_bound hWc hWU
  obtain ⟨h1, hh1, _, hs1⟩ := small_enough (c := C) hC (r := c / 2 / 10 ^ 17) (by positivity)
  refine ⟨2 * K, κ, min h0 h1, by positivity, hκ, lt_min hh0 hh1, fun P S big h H hh hhle hst => ?_⟩
  have hle0 : h ≤ h0 := hhle.trans (min_le_left _ _)
  have hδ := hs1 h (hhle.trans (min_le_right _ _))
  have hC1 : C * h * 10 ^ 16 < c / 2 := by
    have e : c / 2 / 10 ^ 17 * 10 ^ 16 = c / 20 := by ring
    have := mul_le_mul_of_nonneg_right hδ (show (0 : ℝ) ≤ 10 ^ 16 by norm_num)
    rw [e] at this
    linarith
  have hC2 : C * h ≤ c / 2 * (5 / 10 ^ 10) := hδ.trans (by
    rw [div_eq_mul_one_div]
    exact mul_le_mul_of_nonneg_left (by norm_num) (by positivity))
  obtain ⟨sq, hsq⟩ : ∃ sq, sq = callsOf (radauRegu 1 type (withGravity ex)) (fun s => s.preIter (withGravity ex)) big H (ReguSys.init 1 type t0 P) := ⟨_, rfl⟩
  obtain ⟨nx, hnx⟩ : ∃ nx, nx = fun j => nextOf (radauRegu 1 type (withGravity ex)) (fun s => s.preIter (withGravity ex)) big (H j) (sq j) := ⟨_, rfl⟩
  have hsq0 : sq 0 = (ReguSys.init 1 type t0 P, IAS.new big) := by rw [hsq]; rfl
  have hsqS : ∀ i, sq (i + 1) = ((nx i).1, (nx i).2.1) := fun i => by rw [hnx, hsq]; rfl
  have ep : ∀ s : ReguSys, fullOf n (s.preIter (withGravity ex)) = fullOf n s ∧ (s.preIter (withGravity ex)).P = s.P := fun s => by
    unfold ReguSys.preIter; split_ifs <;> exact ⟨rfl, rfl⟩
  have fp : ∀ s : ReguSys, FrameR n m s → FrameR n m (s.preIter (withGravity ex)) := fun s h => by unfold FrameR; rw [(ep s).2]; exact h
  have wr : ∀ s : ReguSys, FrameR n m s →
      fullL n (withGravity ex).velDep (GR.toArr ((radauRegu 1 type (withGravity ex)).write (s.preIter (withGravity ex)))) = fullOf n s :=
    fun s hs => by rw [regu_written (fp _ hs), (ep _).1]
  have f0 : FrameR n m (sq 0).1 := by rw [hsq0]; exact ⟨S.num, S.mass⟩
  have start : fullL n (withGravity ex).velDep (GR.toArr ((radauRegu 1 type (withGravity ex)).write ((sq 0).1.preIter (withGravity ex)))) =
      fullAt n m type (ex ≠ []) x v t0 t0 := by
    rw [wr _ f0, hsq0]
    have e0 := start_conf S
    have e1 : conf n P.pos = conf n (x t0) := congrArg Prod.fst e0
    have e2 : conf n P.vel = conf n (v t0) := congrArg Prod.snd e0
    have p1 : -potentialDirect 1 P = potC n m (conf n (x t0)) := by rw [potentialDirect_eq, potC_conf S.num S.mass, e1, neg_neg]
    refine Prod.ext rfl (Prod.ext e0 (Prod.ext ?_ ?_))
    · show -potentialDirect 1 P = potC n m (conf n (x (if type = .ttl then t0 else t0)))
      rw [p1, ite_self]
    · show -totalEnergy 1 P = _
      rw [totalEnergy, neg_add, p1, kinC_conf S.num S.mass, e2]
      rw [(fullAt_bind n m type (ex ≠ []) x v t0 t0).1]; rfl
  -- the course up to call `N`
  have course : ∀ N, (∀ j, j ≤ N → FrameR n m (sq j).1) →
      (∀ j, j < N → StepBy code (radauRegu 1 type (withGravity ex)) big ReguSys.Frame (SameRegu (withGravity ex)) 1 (H j) (H j) (sq j).2
        ((sq j).1.preIter (withGravity ex)) (sq (j + 1)).1 (sq (j + 1)).2 (nx j).2.2) → (∀ j, j < N → (sq j).1.time ≤ t2) → _ := fun N fr st ts =>
    key (O := radauRegu 1 type (withGravity ex)) (nv := n * 3 * (2 + (withGravity ex).velDep.toNat) + 3)
      (A := fun _ => fullL n (withGravity ex).velDep) (big := big) (frame := ReguSys.Frame) (h := h)
      (same := SameRegu (withGravity ex)) (H := H) (h' := fun j => (nx j).2.2) (τ := H) (it := fun j => (sq j).2)
      (s := fun i => (sq i).1.preIter (withGravity ex)) (s' := fun i => (sq (i + 1)).1)
      hh hle0 (by rw [hsq0]) start N (fun i hi => by
        obtain ⟨a1, a2⟩ := hst i
        have f1 := fr i hi.le
        refine ⟨a1, a2, ⟨_, regu_shadow A type, fun y hy => (fp _ f1).of ⟨hy.2.1, hy.2.2.1⟩⟩, regu_length (fp _ f1), st i hi, ?_, fun _ => rfl⟩
        rw [wr _ (fr (i + 1) hi), regu_written (fr (i + 1) hi)]) (fun i hi => by rw [wr _ (fr i hi.le)]; exact ts i hi)
  have main : ∀ N, (∀ j, j < N → (sq j).1.time ≤ t2) → (∀ j, j ≤ N → FrameR n m (sq j).1) ∧
      ((withGravity ex).velDep = true → ∀ j, j < 3 * n → FlatFor (auxL n j) (sq N).2.gr) ∧ ∀ j, j < N →
      (∀ fuel, Radau.iterate code (radauRegu 1 type (withGravity ex)) big (fuel + 1) 0 (H j) (sq j).2 ((sq j).1.preIter (withGravity ex)) =
        .ok ((sq (j + 1)).1, (sq (j + 1)).2, (nx j).2.2)) ∧
      StepBy code (radauRegu 1 type (withGravity ex)) big ReguSys.Frame (SameRegu (withGravity ex)) 1 (H j) (H j) (sq j).2
        ((sq j).1.preIter (withGravity ex)) (sq (j + 1)).1 (sq (j + 1)).2 (nx j).2.2 ∧ H j / 4 ≤ (nx j).2.2 ∧ (nx j).2.2 ≤ 4 * H j := by
    intro N
    induction N with
    | zero =>
      intro _
      refine ⟨fun j hj => ?_, fun _ j _ => by rw [hsq0]; exact flat_new _, fun j hj => absurd hj (Nat.not_lt_zero j)⟩
      obtain rfl : j = 0 := Nat.le_zero.1 hj
      exact f0
    | succ N ih =>
      intro ts
      obtain ⟨g1, g2, g3⟩ := ih fun j hj => ts j (by omega)
      obtain ⟨b1, b2⟩ := hst N
      obtain ⟨_, _, _, _, inW, tame⟩ := course N g1 (fun j hj => (g3 j hj).2.1) fun j hj => ts j (by omega)
      have fN := g1 N le_rfl
      have inW' : fullOf n ((sq N).1.preIter (withGravity ex)) ∈ W' := by
        rw [(ep _).1, ← wr _ fN]; exact inW
      obtain ⟨s', it', h', k1, k2, k3, k4, k5, k6⟩ := regu_call (big := big) A (type := type) hn hm hc hC1 hC2 b1 (fp _ fN) (hWU inW') (hcW _ inW') g2
        (fun s' r' e hs' hw => by
          obtain ⟨q1, q2, q3, q4⟩ := first (total_shadow A type hn hm U) e (fp _ fN) hs' hw (regu_length (type := type) (fp _ fN)) b1 b2 hle0 inW tame
          have ew : fullL n (withGravity ex).velDep (GR.toArr ((total (radauRegu 1 type (withGravity ex))).write ((sq N).1.preIter (withGravity ex)))) =
            fullOf n ((sq N).1.preIter (withGravity ex)) := regu_written (type := type) (fp _ fN)
          rw [ew] at q3
          exact ⟨q1, q2, q3, q4⟩)
      have hx : nx N = (s', it', h') := by rw [hnx]; exact nextOf_of (k1 0)
      have e1 : sq (N + 1) = (s', it') := by rw [hsqS, hx]
      refine ⟨fun j hj => ?_, by rw [e1]; exact k4, fun j hj => ?_⟩
      · rcases Nat.lt_or_ge j (N + 1) with h | h
        · exact g1 j (by omega)
        · obtain rfl : j = N + 1 := by omega
          rw [e1]; exact k3
      · rcases Nat.lt_succ_iff_lt_or_eq.1 hj with h | rfl
        · exact g3 j h
        · rw [e1, hx]
          exact ⟨k1, k2, k5, k6⟩
  refine ⟨fun i => (sq i).1, fun i => (sq i).2, fun j => (nx j).2.2, congrArg Prod.fst hsq0, congrArg Prod.snd hsq0, fun N ts => ?_⟩
  obtain ⟨g1, g2, g3⟩ := main N ts
  obtain ⟨u0, u1, _, w, _⟩ := course N g1 (fun j hj => (g3 j hj).2.1) ts
  have fN := g1 N le_rfl
  rw [wr _ fN] at u0 u1 w
  refine ⟨fun i hi => ⟨(g3 i hi).1, (g3 i hi).2.2⟩, u0, u1, ?_⟩
  rw [mul_assoc]
  exact within_of fN.1 fN.2 w

/-- **C103, regularised systems: the calls return.** Under the hypotheses of `C103_regularised` and with steps of at most `h ≤ h0`, every call of a new IAS15
iterator that begins when the clock has not passed `t2` returns after one correction, recommends a step between a quarter of and four times the step asked for,
and leaves the clock before `t1`; the clock runs at a rate of at least `κ`, and the particles are off the true ones by at most `K (h² + 10⁻²⁶ h)`. -/
theorem C103_regularised_runs {x v : ℝ → Nat → V3 ℝ} {t0 t1 t2 : ℝ} (h02 : t0 ≤ t2) (h21 : t2 < t1) (M : ForcedMotion n a x v t0 t1) (hS : SmoothAlong a x v t0 t1)
    (apart : ∀ t ∈ Set.Icc t0 t1, ∀ i j, i < n → j < n → i ≠ j → x t i ≠ x t j) (hn : 2 ≤ n) (hm : ∀ k, k < n → 0 < m k) (type : ReguType)
    (hty : type = .logH → ex = []) :
    ∃ K κ h0 : ℝ, 0 ≤ K ∧ 0 < κ ∧ 0 < h0 ∧ ∀ P, InState n m x v t0 P → ∀ (big h : ℝ) (H : Nat → ℝ), 0 ≤ h → h ≤ h0 → (∀ i, 0 ≤ H i ∧ H i ≤ h) →
      ∃ (s : Nat → ReguSys) (it : Nat → IAS) (h' : Nat → ℝ), s 0 = ReguSys.init 1 type t0 P ∧ it 0 = IAS.new big ∧ ∀ N, (∀ i, i < N → (s i).time ≤ t2) →
        (∀ i, i < N → (∀ fuel, Radau.iterate code (radauRegu 1 type (withGravity ex)) big (fuel + 1) 0 (H i) (it i) ((s i).preIter (withGravity ex)) =
          .ok (s (i + 1), it (i + 1), h' i)) ∧ H i / 4 ≤ h' i ∧ h' i ≤ 4 * H i) ∧
        (s N).time ≤ t1 ∧ t0 + κ * ∑ i ∈ range N, H i ≤ (s N).time ∧ WithinOf n m x v (s N).time (K * (h ^ 2 + h / 10 ^ 26)) (s N).P :=
  regu_go A h02 h21 hS apart hn hm type (led_of A M apart hn hm hty)

theorem regu_reach {x v : ℝ → Nat → V3 ℝ} {t0 t1 t2 : ℝ} (h02 : t0 ≤ t2) (h21 : t2 < t1) (hS : SmoothAlong a x v t0 t1)
    (apart : ∀ t ∈ Set.Icc t0 t1, ∀ i j, i < n → j < n → i ≠ j → x t i ≠ x t j) (hn : 2 ≤ n) (hm : ∀ k, k < n → 0 < m k) (type : ReguType)
    (L : Led m type a (ex ≠ []) x v t0 t1) :
    ∃ K h0 : ℝ, 0 ≤ K ∧ 0 < h0 ∧ ∀ P, InState n m x v t0 P → ∀ (big h : ℝ), 0 < h → h ≤ h0 →
      ∃ (N : Nat) (s : Nat → ReguSys) (it : Nat → IAS) (h' : Nat → ℝ), s 0 = ReguSys.init 1 type t0 P ∧ it 0 = IAS.new big ∧
        (∀ i, i < N → (s i).time ≤ t2 ∧ ∀ fuel, Radau.iterate code (radauRegu 1 type (withGravity ex)) big (fuel + 1) 0 h (it i) ((s i).preIter (withGravity ex)) =
          .ok (s (i + 1), it (i + 1), h' i)) ∧ t2 < (s N).time ∧ (s N).time ≤ t1 ∧
        ∀ i, i ≤ N → WithinOf n m x v (s i).time (K * (h ^ 2 + h / 10 ^ 26)) (s i).P := by
  obtain ⟨K, κ, h0, hK, hκ, hh0, key⟩ := regu_go A h02 h21 hS apart hn hm type L
  refine ⟨K, h0, hK, hh0, fun P S big h hh hle => ?_⟩
  obtain ⟨s, it, h', s0, i0, run⟩ := key P S big h (fun _ => h) hh.le hle fun _ => ⟨hh.le, le_rfl⟩
  have pass : ∃ N, t2 < (s N).time := by
    by_contra hno
    simp only [not_exists, not_lt] at hno
    obtain ⟨N, hN⟩ := exists_nat_gt ((t2 - t0) / (κ * h))
    obtain ⟨_, _, u, _⟩ := run N fun i _ => hno i
    rw [sum_const, card_range, nsmul_eq_mul] at u
    rw [div_lt_iff₀ (by positivity)] at hN
    have := hno N
    nlinarith
  classical
  have hlt : ∀ i, i < Nat.find pass → (s i).time ≤ t2 := fun i hi => not_lt.1 (Nat.find_min pass hi)
  refine ⟨Nat.find pass, s, it, h', s0, i0, fun i hi => ⟨hlt i hi, ((run _ hlt).1 i hi).1⟩, Nat.find_spec pass, (run _ hlt).2.1, fun i hi => ?_⟩
  exact (run i fun j hj => hlt j (by omega)).2.2.2

/-- **C103, regularised systems: simulations come through.** With constant steps `h ≤ h0` of the transformed time the clock passes `t2` after finitely many
macro steps, all calls return, and the particles are off the true ones by at most `K (h² + 10⁻²⁶ h)` after each of them. -/
theorem C103_regularised_reaches {x v : ℝ → Nat → V3 ℝ} {t0 t1 t2 : ℝ} (h02 : t0 ≤ t2) (h21 : t2 < t1) (M : ForcedMotion n a x v t0 t1) (hS : SmoothAlong a x v t0 t1)
    (apart : ∀ t ∈ Set.Icc t0 t1, ∀ i j, i < n → j < n → i ≠ j → x t i ≠ x t j) (hn : 2 ≤ n) (hm : ∀ k, k < n → 0 < m k) (type : ReguType)
    (hty : type = .logH → ex = []) :
    ∃ K h0 : ℝ, 0 ≤ K ∧ 0 < h0 ∧ ∀ P, InState n m x v t0 P → ∀ (big h : ℝ), 0 < h → h ≤ h0 →
      ∃ (N : Nat) (s : Nat → ReguSys) (it : Nat → IAS) (h' : Nat → ℝ), s 0 = ReguSys.init 1 type t0 P ∧ it 0 = IAS.new big ∧
        (∀ i, i < N → (s i).time ≤ t2 ∧ ∀ fuel, Radau.iterate code (radauRegu 1 type (withGravity ex)) big (fuel + 1) 0 h (it i) ((s i).preIter (withGravity ex)) =
          .ok (s (i + 1), it (i + 1), h' i)) ∧ t2 < (s N).time ∧ (s N).time ≤ t1 ∧
        ∀ i, i ≤ N → WithinOf n m x v (s i).time (K * (h ^ 2 + h / 10 ^ 26)) (s i).P :=
  regu_reach A h02 h21 hS apart hn hm type (led_of A M apart hn hm hty)

end

/-- two bodies on a circle, all three time transformations: simulations of any length `L` come through -/
example (t0 L : ℝ) (hL : 0 ≤ L) (type : ReguType) : ∃ K h0 : ℝ, 0 < h0 ∧ ∀ h, 0 < h → h ≤ h0 → ∃ (N : Nat) (s : Nat → ReguSys) (it : Nat → IAS) (h' : Nat → ℝ),
    s 0 = ReguSys.init 1 type t0 ⟨2, circlePos t0, circleVel t0, fun _ => 1 / 2⟩ ∧ it 0 = IAS.new 1000 ∧
    (∀ i, i < N → ∀ fuel, Radau.iterate code (radauRegu 1 type gravity) 1000 (fuel + 1) 0 h (it i) ((s i).preIter gravity) = .ok (s (i + 1), it (i + 1), h' i)) ∧
    t0 + L < (s N).time ∧ WithinOf 2 (fun _ => 1 / 2) circlePos circleVel (s N).time (K * (h ^ 2 + h / 10 ^ 26)) (s N).P := by
  obtain ⟨A, _, hS⟩ := C100_library 1 1 2 (fun _ => 1 / 2) []
  have M := circle_motion t0 (t0 + L + 1)
  have S : InState 2 (fun _ => 1 / 2) circlePos circleVel t0 ⟨2, circlePos t0, circleVel t0, fun _ => 1 / 2⟩ := ⟨rfl, fun _ _ => rfl, fun _ _ => rfl, fun _ _ => rfl⟩
  have F : ForcedMotion 2 (withExtras 1 1 2 (fun _ => 1 / 2) []) circlePos circleVel t0 (t0 + L + 1) := by
    refine ⟨M.pos, fun t ht k => ?_⟩
    have := M.vel t ht k k.2
    rw [sum_fin (fun j => newton (1 / 2) (circlePos t k) (circlePos t j)) k] at this
    simpa [withExtras] using this
  obtain ⟨K, h0, _, hh0, key⟩ := C103_regularised_reaches (ex := []) A (t2 := t0 + L) (by linarith) (by linarith) F (hS _ _ _ _ M.apart (by simp)) M.apart le_rfl
    (fun _ _ => by norm_num) type (fun _ => rfl)
  refine ⟨K, h0, hh0, fun h hh hle => ?_⟩
  obtain ⟨N, s, it, h', a1, a2, a3, a4, _, a5⟩ := key _ S 1000 h hh hle
  exact ⟨N, s, it, h', a1, a2, fun i hi => (a3 i hi).2, a4, a5 N le_rfl⟩

end SpaceHub.Sys
