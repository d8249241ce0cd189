import Verif.Props.IAS15Runs

/-
C103: with small steps the calls of IAS15 on an AR-chain system return.
-/

set_option autoImplicit false

namespace SpaceHub.Sys
open SpaceHub V3 Force Core Integrator Spec Props Finset Converge Radau BS Ctl Fl
open scoped ContDiff

theorem member_zero {n : Nat} (hn : 0 < n) (c : Conf n) : member ⟨0, hn⟩ c = c ⟨n - 1, by omega⟩ := by
  show ∑ j : Fin n, (if (j : Nat) + 1 = n ∨ j < ⟨0, hn⟩ then c j else 0) = _
  rw [sum_eq_single (⟨n - 1, by omega⟩ : Fin n)]
  · rw [if_pos (.inl (by show n - 1 + 1 = n; omega))]
  · intro j _ hj
    refine if_neg ?_
    rintro (h | h)
    · exact hj (Fin.ext (by show (j : Nat) = n - 1; omega))
    · exact absurd (show (j : Nat) < 0 from h) (Nat.not_lt_zero _)
  · exact fun h => absurd (mem_univ _) h

theorem member_succ {n : Nat} (c : Conf n) (i : Nat) (hi : i + 1 < n) : member ⟨i + 1, hi⟩ c = member ⟨i, by omega⟩ c + c ⟨i, by omega⟩ := by
  show ∑ j : Fin n, (if (j : Nat) + 1 = n ∨ j < ⟨i + 1, hi⟩ then c j else 0) =
    ∑ j : Fin n, (if (j : Nat) + 1 = n ∨ j < ⟨i, by omega⟩ then c j else 0) + _
  rw [← sum_ite_eq_of_mem' univ (⟨i, by omega⟩ : Fin n) (fun j => c j) (mem_univ _), ← sum_add_distrib]
  refine sum_congr rfl fun j _ => ?_
  by_cases h1 : j = (⟨i, by omega⟩ : Fin n)
  · subst h1
    rw [if_pos (.inr (Nat.lt_succ_self i)), if_neg, if_pos rfl, zero_add]
    rintro (h | h)
    · exact absurd (show i + 1 = n from h) (by omega)
    · exact lt_irrefl _ h
  · have h2 : (j : Nat) ≠ i := fun h => h1 (Fin.ext h)
    rw [if_neg h1, add_zero]
    refine if_congr (or_congr Iff.rfl ⟨fun h => ?_, fun h => ?_⟩) rfl rfl
    · show (j : Nat) < i
      have : (j : Nat) < i + 1 := h
      omega
    · show (j : Nat) < i + 1
      have : (j : Nat) < i := h
      omega

/-- chain coordinates are at most twice as large as Cartesian ones -/
theorem unchain_le {n : Nat} (σ : Fin n ≃ Fin n) (c : Conf n) : ‖c‖ ≤ 2 * ‖unchain σ c‖ := by
  have mem : ∀ i : Fin n, ‖member i c‖ ≤ ‖unchain σ c‖ := fun i => by
    have := norm_le_pi_norm (unchain σ c) (σ i)
    unfold unchain at this ⊢
    rw [LinearMap.pi_apply, Equiv.symm_apply_apply] at this
    exact this
  refine (pi_norm_le_iff_of_nonneg (by positivity)).2 fun i => ?_
  by_cases hi : (i : Nat) + 1 < n
  · have e := member_succ c i hi
    have e2 : c i = member ⟨i + 1, hi⟩ c - member i c := by rw [e]; abel
    rw [e2]
    have h1 := mem ⟨i + 1, hi⟩
    have h2 := mem i
    have := norm_sub_le (member ⟨i + 1, hi⟩ c) (member i c)
    linarith
  · have hn : 0 < n := by have := i.2; omega
    have e := member_zero hn c
    rw [show (⟨n - 1, by omega⟩ : Fin n) = i from Fin.ext (by show n - 1 = (i : Nat); have := i.2; omega)] at e
    rw [← e]
    have h1 := mem ⟨0, hn⟩
    have := norm_nonneg (unchain σ c)
    linarith

theorem ar_entry {n : Nat} (σ : Fin n ≃ Fin n) (dep : Bool) (f : Nat → ℝ) (h : dep = true → ∀ j, j < 3 * n → auxL n j f = 0) (i : Nat)
    (hi : i < n * 3 * (2 + dep.toNat) + 3) : |f i| ≤ 2 * ‖arL σ dep f‖ := by
  refine (full_entry n dep f h i hi).trans ?_
  have p1 : ‖timeL f‖ ≤ ‖arL σ dep f‖ := norm_fst_le (arL σ dep f)
  have p2 : ‖chainL σ f‖ ≤ ‖arL σ dep f‖ := (norm_fst_le (arL σ dep f).2).trans (norm_snd_le (arL σ dep f))
  have p3 : ‖(arL σ dep f).2.2‖ ≤ ‖arL σ dep f‖ := (norm_snd_le (arL σ dep f).2).trans (norm_snd_le (arL σ dep f))
  have p0 := norm_nonneg (arL σ dep f)
  have q1 := (unchain_le σ (readL n f).1).trans (mul_le_mul_of_nonneg_left (norm_fst_le (chainL σ f)) (by norm_num))
  have q2 := (unchain_le σ (readL n f).2).trans (mul_le_mul_of_nonneg_left (norm_snd_le (chainL σ f)) (by norm_num))
  show max ‖timeL f‖ (max (max ‖(readL n f).1‖ ‖(readL n f).2‖) ‖(arL σ dep f).2.2‖) ≤ _
  refine max_le (by linarith) (max_le (max_le (by linarith) (by linarith)) (by linarith))

theorem ar_reads {type : ReguType} {IC : ChainInteractions} {b : Bool} {n : Nat} {m : Nat → ℝ} {σ : Fin n ≃ Fin n} (x : ARSys) (y : List ℝ) (hx : AROf b m σ x)
    (hy : y.length = n * 3 * (2 + IC.velDep.toNat) + 3) : ∃ x', (radauAR 1 type IC).read x y = .ok x' ∧ AROf IC.velDep m σ x' := by
  have hl : y.length = x.variableNumber IC := by rw [hy, ← hx.num]; rfl
  obtain ⟨x', e, _⟩ := C13_archain_write_read IC x hx.good.cons.num hx.good.cons.index y hl
  exact ⟨x', e, (ar_read hx e).1⟩

section
variable {IC : ChainInteractions} {ex : List (ForceClass Particles)} (AI : AgreesI IC (withGravity ex)) {n : Nat} {m : Nat → ℝ} {a : Field n} (A : Acts (withGravity ex) n m a)
include AI A

theorem ar_has {type : ReguType} (hn : 2 ≤ n) (hm : ∀ k, k < n → 0 < m k) {U : Set (Conf n × Conf n)} {b : Bool} {σ : Fin n ≃ Fin n} {x : ARSys} (hx : AROf b m σ x)
    (hz : fullOf n x.abs ∈ fullU m type U) : ∃ d, (radauAR 1 type IC).deriv x = .ok d := by
  obtain ⟨p1, p2⟩ := regu_divisors (type := type) hx.frame
  obtain ⟨own, more, pl, _, _⟩ := pull_of A x.P
  obtain ⟨d', s1, c, e1, _, _, _⟩ := ar_derivative2 1 type IC (withGravity ex) AI b x hx.good own more pl _ _ (by rw [p1]; exact hz.1)
    (by rw [p2]; exact (gapQ_pos type hn hm hz.2.1).ne') rfl rfl
  exact ⟨_, e1⟩

theorem ar_aux {type : ReguType} (hd : IC.velDep = true) {j : Nat} (hj : j < 3 * n) {b : Bool} {σ : Fin n ≃ Fin n} {x : ARSys} {d : List ℝ × ARSys} (hx : AROf b m σ x)
    (e : (radauAR 1 type IC).deriv x = .ok d) : auxL n j (GR.toArr d.1) = 0 := by
  obtain ⟨h0, h1⟩ := ar_nonzero hx.good e
  obtain ⟨own, more, pl, _, _⟩ := pull_of A x.P
  obtain ⟨d', s1, c, e1, _, _, e3⟩ := ar_derivative2 1 type IC (withGravity ex) AI b x hx.good own more pl _ _ h0 h1 rfl rfl
  have e' : x.derivative 1 type IC = .ok d := e
  rw [e1] at e'
  rw [← Res.ok.inj e']
  dsimp only
  rw [e3]
  have key : ∀ r : ARSys, r.P.num = n → (∀ k, r.caux k = r.cvel k) → auxL n j (GR.toArr (r.write IC)) = 0 := fun r hr ha => by
    subst hr
    exact auxL_flat r.flat j hj _ (fun v => by rw [← hd]; exact ARSys.write_getD _ r v) fun k _ => ha k
  exact key _ hx.num fun _ => rfl

theorem ar_aux_shadow {type : ReguType} (σ : Fin n ≃ Fin n) (hd : IC.velDep = true) {j : Nat} (hj : j < 3 * n) :
    Shadow (radauAR 1 type IC) (AROf IC.velDep m σ) (n * 3 * (2 + (withGravity ex).velDep.toNat) + 3) (auxL n j) (fun _ => 0) Set.univ where
  loc f g h := by
    have e : (withGravity ex).velDep.toNat = 1 := by rw [← AI.velDep_eq, hd]; rfl
    rw [e] at h
    rw [auxL_apply, auxL_apply, h _ (by omega), h _ (by omega)]
  read := (ar_shadow AI A type σ).read
  keep := (ar_shadow AI A type σ).keep
  field x d hx _ e := ar_aux AI A hd hj hx e

theorem ar_total (type : ReguType) (hn : 2 ≤ n) (hm : ∀ k, k < n → 0 < m k) (U : Set (Conf n × Conf n)) (σ : Fin n ≃ Fin n) :
    Shadow (total (radauAR 1 type IC)) (AROf IC.velDep m σ) (n * 3 * (2 + (withGravity ex).velDep.toNat) + 3) (arL σ IC.velDep)
      (fullF m type a (ex ≠ [])) (fullU m type U) where
  loc := (ar_shadow AI A type σ).loc
  read := (ar_shadow AI A type σ).read
  keep x d hx e := by
    obtain ⟨d', e1, h⟩ := total_runs (radauAR 1 type IC) x
    rw [e] at e1
    rw [Res.ok.inj e1]
    rcases h with h | h
    · exact (ar_shadow AI A type σ).keep x d' hx h
    · rw [h]; exact hx
  field x d hx hz e := by
    have hz' : fullOf n x.abs ∈ fullU m type U := by rw [← ar_written (type := type) (IC := IC) hx]; exact hz
    obtain ⟨d', e1⟩ := ar_has AI A hn hm hx hz'
    have := total_ok e1
    rw [e] at this
    rw [Res.ok.inj this]
    exact (ar_shadow AI A type σ).field x d' hx (Set.mem_univ _) e1

/-- one call on an AR-chain system with a small step -/
theorem ar_call {type : ReguType} (hn : 2 ≤ n) (hm : ∀ k, k < n → 0 < m k) {U : Set (Conf n × Conf n)} {σ : Fin n ≃ Fin n} {c C h H big : ℝ} (hc : 0 < c)
    (hC1 : 2 * (C * h) * 10 ^ 16 < c / 2)
    (hC2 : 2 * (C * h) ≤ c / 2 * (5 / 10 ^ 10)) (hH : 0 ≤ H) {s : ARSys} (hs : AROf IC.velDep m σ s) (hz : fullOf n s.abs ∈ fullU m type U)
    (hcz : c ≤ |1 / gapP n m type (fullOf n s.abs)|)
    {it : IAS} (hf : IC.velDep = true → ∀ j, j < 3 * n → FlatFor (auxL n j) it.gr)
    (first : ∀ s' r', correct code (total (radauAR 1 type IC)) H it.gr s = .ok (s', r') → AROf IC.velDep m σ s' →
      (radauAR 1 type IC).write s' = (radauAR 1 type IC).write s →
      ‖arL σ IC.velDep r'.dg‖ ≤ C * h ∧ ‖arL σ IC.velDep (r'.b 6)‖ ≤ C * h ∧
      ‖arL σ IC.velDep r'.dyh - fullF m type a (ex ≠ []) (fullOf n s.abs)‖ ≤ C * h ∧
      Visits code (total (radauAR 1 type IC)) H it.gr s s' r'
        fun x => arL σ IC.velDep (GR.toArr ((radauAR 1 type IC).write x)) ∈ fullU m type U) :
    ∃ s' it' h', (∀ fuel, Radau.iterate code (radauAR 1 type IC) big (fuel + 1) 0 H it s = .ok (s', it', h')) ∧
      StepBy code (radauAR 1 type IC) big ARSys.Frame (SameAR IC) 1 H H it s s' it' h' ∧ AROf IC.velDep m σ s' ∧
      (IC.velDep = true → ∀ j, j < 3 * n → FlatFor (auxL n j) it'.gr) ∧ H / 4 ≤ h' ∧ h' ≤ 4 * H := by
  have sh := ar_shadow AI A type σ
  have sht := ar_total AI A type hn hm U σ
  have L0 := ar_radau 1 type IC s hs.good.cons
  have hlen : ((radauAR 1 type IC).write s).length = _ := ar_length AI hs
  have rd : ∀ (y : ARSys) (l : List ℝ), AROf IC.velDep m σ y → l.length = n * 3 * (2 + (withGravity ex).velDep.toNat) + 3 →
      ∃ x', (radauAR 1 type IC).read y l = .ok x' ∧ AROf IC.velDep m σ x' := fun y l hy hl => ar_reads y l hy (by rw [hl, AI.velDep_eq])
  obtain ⟨x1, r, e, hx1⟩ := correct_runs (T := code) (O := total (radauAR 1 type IC)) (ok := AROf IC.velDep m σ)
    (n := n * 3 * (2 + (withGravity ex).velDep.toNat) + 3)
    (fun y hy => by
      obtain ⟨d, e, _⟩ := total_runs (radauAR 1 type IC) y
      exact ⟨d, e, sht.keep y d hy e⟩)
    rd (H := H) (r := it.gr) hs hlen
  have hw : (radauAR 1 type IC).write x1 = (radauAR 1 type IC).write s := by
    have L : RLawful (total (radauAR 1 type IC)) s ARSys.Frame (SameAR IC) := by
      refine ⟨L0.refl, L0.trans, fun x d e => ?_, L0.read, L0.same_refl, L0.restore⟩
      obtain ⟨d', e1, h⟩ := total_runs (radauAR 1 type IC) x
      rw [e] at e1
      rw [Res.ok.inj e1]
      rcases h with h | h
      · exact L0.deriv x d' h
      · rw [h]; exact ⟨rfl, rfl, rfl⟩
    exact (correct_restores L L.refl rfl e).2.1
  obtain ⟨d1, d2, d3, d4⟩ := first x1 r e hx1 hw
  have hnode : ∀ x, AROf IC.velDep m σ x → arL σ IC.velDep (GR.toArr ((radauAR 1 type IC).write x)) ∈ fullU m type U →
      ∃ d, (radauAR 1 type IC).deriv x = .ok d := fun x hx hz => ar_has AI A hn hm hx (by rw [← ar_written (type := type) (IC := IC) hx]; exact hz)
  have e' : correct code (radauAR 1 type IC) H it.gr s = .ok (x1, r) := by
    refine correct_of_total (ar_has AI A hn hm hs hz) ?_
    obtain ⟨d, R, st, X, D, q1, q2, q3, q4, q5, q6, q7⟩ := d4
    have fr : ∀ i, i ≤ 7 → AROf IC.velDep m σ (st i) ∧ (i < 7 → AROf IC.velDep m σ (X i)) := by
      intro i
      induction i with
      | zero =>
        intro _
        have f0 : AROf IC.velDep m σ (st 0) := by rw [q4]; exact sht.keep s d hs q1
        exact ⟨f0, fun _ => (sht.read _ _ _ f0 (q2.read 0 le_rfl (by omega))).1⟩
      | succ i ih =>
        intro hi
        obtain ⟨g1, g2⟩ := ih (by omega)
        have f0 : AROf IC.velDep m σ (st (i + 1)) :=
          (sht.read _ _ _ (sht.keep _ _ (g2 (by omega)) (q2.deriv i (Nat.zero_le _) (by omega))) (q2.back i (Nat.zero_le _) (by omega))).1
        exact ⟨f0, fun h => (sht.read _ _ _ f0 (q2.read (i + 1) (Nat.zero_le _) (by omega))).1⟩
    exact ⟨d, R, st, X, D, q1, q2, q3, q4, q5, q6, fun i hi => hnode _ ((fr i hi.le).2 hi) (q7 i hi)⟩
  -- the auxiliary entries
  have fl : IC.velDep = true → ∀ j, j < 3 * n → FlatFor (auxL n j) r ∧ auxL n j r.dg = 0 := fun hd j hj => by
    have sa := ar_aux_shadow (type := type) AI A σ hd hj
    have f1 := (flat_correct (T := code) (O := radauAR 1 type IC) (ok := AROf IC.velDep m σ) (L1 := 0) (L2 := auxL n j) (p := 0) (κ := 0)
      (fun x d hx e => ⟨rfl, fun _ => ar_aux AI A hd hj hx e⟩) sa.read sa.keep (fun _ _ _ => rfl) hs rfl rfl (fun _ _ => ⟨rfl, rfl, rfl⟩) (hf hd j hj) e').2.1
    refine ⟨f1, ?_⟩
    obtain ⟨l1, _⟩ := shadow_last sa hs hlen (Set.mem_univ _) e'
    have p := (f1 6 (by norm_num)).2.1
    have q := (hf hd j hj 6 (by norm_num)).2.1
    rcases l1 with l | l
    · rw [p, q, sub_zero] at l; exact l
    · rw [p] at l; exact l
  have nveq : n * 3 * (2 + (withGravity ex).velDep.toNat) + 3 = n * 3 * (2 + IC.velDep.toNat) + 3 := by rw [AI.velDep_eq]
  have b1 : ∀ i, i < n * 3 * (2 + (withGravity ex).velDep.toNat) + 3 → |r.dg i| ≤ 2 * (C * h) := fun i hi =>
    (ar_entry σ _ r.dg (fun hd j hj => (fl hd j hj).2) i (nveq ▸ hi)).trans (by linarith)
  have b2 : ∀ i, i < n * 3 * (2 + (withGravity ex).velDep.toNat) + 3 → |r.b 6 i| ≤ 2 * (C * h) := fun i hi =>
    (ar_entry σ _ (r.b 6) (fun hd j hj => ((fl hd j hj).1 6 (by norm_num)).1) i (nveq ▸ hi)).trans (by linarith)
  have b3 : c / 2 ≤ |r.dyh 0| := by
    have h1 : |r.dyh 0 - 1 / gapP n m type (fullOf n s.abs)| ≤ C * h := (norm_fst_le _).trans d3
    have h2 := abs_sub_abs_le_abs_sub (1 / gapP n m type (fullOf n s.abs)) (r.dyh 0)
    rw [abs_sub_comm] at h2
    have h0 : 0 ≤ C * h := (norm_nonneg _).trans d1
    have h3 : C * h ≤ c / 2 := by nlinarith
    linarith
  obtain ⟨s', e2, fs'⟩ := rd x1 (r.finalState H) hx1 (by
    rw [(finalState_eq r H).1, (correct_restores L0 L0.refl rfl e').2.2.2.1, hlen])
  obtain ⟨it', h', k1, k2, k3, k4⟩ := clock_call (big := big) L0 hH hlen (by omega) e' b1 b2 b3 (mask_clock _ _ _) (by linarith)
    hC1 hC2 e2
  refine ⟨s', it', h', k1, k2, fs', fun hd j hj => ?_, k3, k4⟩
  obtain ⟨mm, hl, q, nn, g, y, E, se, _, _, acc⟩ := k2
  have sa := ar_aux_shadow (type := type) AI A σ hd hj
  exact (flat_by (ok := AROf IC.velDep m σ) (fun x hx => hs.of ⟨hx.2.1, hx.2.2.1, hx.2.2.2.1⟩ (same_good_ar hs.good hx)) sa.read sa.keep (L := auxL n j) (κ := 0)
    (fun x d hx e => sa.field x d hx (Set.mem_univ _) e) (by rw [hlen]; exact sa.loc) (hf hd j hj) acc).1

end

/-- one macro step of an AR-chain system: the state after it and what the call returned -/
noncomputable def arNext (O : RSys ARSys) (pre : ARSys → ARSys) (pick : Particles → Arr Nat) (big H : ℝ) (a : ARSys × IAS) : ARSys × (ARSys × IAS × ℝ) :=
  let r := nextOf O pre big H a
  match r.1.postIter (pick r.1.P) with
  | .ok s' => (s', r)
  | _ => (r.1, r)

noncomputable def arCalls (O : RSys ARSys) (pre : ARSys → ARSys) (pick : Nat → Particles → Arr Nat) (big : ℝ) (H : Nat → ℝ) (s : ARSys) : Nat → ARSys × IAS
  | 0 => (s, IAS.new big)
  | i + 1 => let a := arNext O pre (pick i) big (H i) (arCalls O pre pick big H s i); (a.1, a.2.2.1)

theorem arNext_of {O : RSys ARSys} {pre : ARSys → ARSys} {pick : Particles → Arr Nat} {big H h' : ℝ} {s u s' : ARSys} {it it' : IAS}
    (e : Radau.iterate code O big 1 0 H it (pre s) = .ok (u, it', h')) (e2 : u.postIter (pick u.P) = .ok s') :
    arNext O pre pick big H (s, it) = (s', u, it', h') := by
  unfold arNext
  rw [nextOf_of e]
  dsimp only
  rw [e2]

section
variable {IC : ChainInteractions} {ex : List (ForceClass Particles)} (AI : AgreesI IC (withGravity ex)) {n : Nat} {m : Nat → ℝ} {a : Field n} (A : Acts (withGravity ex) n m a)
include AI A

theorem ar_go {x v : ℝ → Nat → V3 ℝ} {t0 t1 t2 : ℝ} (h02 : t0 ≤ t2) (h21 : t2 < t1) (hS : SmoothAlong a x v t0 t1)
    (apart : ∀ t ∈ Set.Icc t0 t1, ∀ i j, i < n → j < n → i ≠ j → x t i ≠ x t j) (hn : 2 ≤ n) (hm : ∀ k, k < n → 0 < m k) (type : ReguType)
    (L : Led m type a (ex ≠ []) x v t0 t1) :
    ∃ K κ h0 : ℝ, 0 ≤ K ∧ 0 < κ ∧ 0 < h0 ∧ ∀ P, InState n m x v t0 P → ∀ idx, IndexOf P idx →
      ∀ pick : Nat → Particles → Arr Nat, (∀ i Q, 2 ≤ Q.num → IndexOf Q (pick i Q)) → ∀ (big h : ℝ) (H : Nat → ℝ), 0 ≤ h → h ≤ h0 → (∀ i, 0 ≤ H i ∧ H i ≤ h) →
      ∃ (s u : Nat → ARSys) (it : Nat → IAS) (h' : Nat → ℝ), ARSys.init 1 type t0 P idx = .ok (s 0) ∧ it 0 = IAS.new big ∧ ∀ N, (∀ i, i < N → (s i).time ≤ t2) →
        (∀ i, i < N → (∀ fuel, Radau.iterate code (radauAR 1 type IC) big (fuel + 1) 0 (H i) (it i) ((s i).preIter IC) = .ok (u i, it (i + 1), h' i)) ∧
          (u i).postIter (pick i (u i).P) = .ok (s (i + 1)) ∧ H i / 4 ≤ h' i ∧ h' i ≤ 4 * H i) ∧
        (s N).time ≤ t1 ∧ t0 + κ * ∑ i ∈ range N, H i ≤ (s N).time ∧ WithinOf n m x v (s N).time (K * (h ^ 2 + h / 10 ^ 26)) (s N).P := by
  classical
  obtain ⟨K, κ, h0, C, cst, U, W', hK, hκ, hh0, hC, hWc, hWU, first, key⟩ := full_tube (S := ARSys) h02 h21 hS apart hn hm type (ex ≠ []) L 1 le_rfl (by norm_num)
  obtain ⟨c, hc, hcW⟩ := rate_bound hWc hWU
  obtain ⟨h1, hh1, _, hs1⟩ := small_enough (c := C) hC (r := c / 2 / 10 ^ 17 / 2) (by positivity)
  refine ⟨2 * K, κ, min h0 h1, by positivity, hκ, lt_min hh0 hh1, fun P S idx hidx pick hpick big h H hh hhle hst => ?_⟩
  have hle0 : h ≤ h0 := hhle.trans (min_le_left _ _)
  have hδ : 2 * (C * h) ≤ c / 2 / 10 ^ 17 := by
    have := hs1 h (hhle.trans (min_le_right _ _))
    linarith
  have hC1 : 2 * (C * h) * 10 ^ 16 < c / 2 := by
    have e : c / 2 / 10 ^ 17 * 10 ^ 16 = c / 20 := by ring
    have := mul_le_mul_of_nonneg_right hδ (show (0 : ℝ) ≤ 10 ^ 16 by norm_num)
    rw [e] at this
    linarith
  have hC2 : 2 * (C * h) ≤ c / 2 * (5 / 10 ^ 10) := hδ.trans (by
    rw [div_eq_mul_one_div]
    exact mul_le_mul_of_nonneg_left (by norm_num) (by positivity))
  obtain ⟨s0, e0, g0, a0, _⟩ := ARSys.init_sim 1 type t0 P idx hidx.two_le hidx.isIndex
  obtain ⟨sq, hsq⟩ : ∃ sq, sq = arCalls (radauAR 1 type IC) (fun s => s.preIter IC) pick big H s0 := ⟨_, rfl⟩
  obtain ⟨nx, hnx⟩ : ∃ nx, nx = fun j => arNext (radauAR 1 type IC) (fun s => s.preIter IC) (pick j) big (H j) (sq j) := ⟨_, rfl⟩
  have hsq0 : sq 0 = (s0, IAS.new big) := by rw [hsq]; rfl
  have hsqS : ∀ i, sq (i + 1) = ((nx i).1, (nx i).2.2.1) := fun i => by rw [hnx, hsq]; rfl
  have ep : ∀ s : ARSys, fullOf n (s.preIter IC).abs = fullOf n s.abs := fun s => by unfold ARSys.preIter; split_ifs <;> rfl
  obtain ⟨σ, hσ⟩ : ∃ σ : Nat → Fin n ≃ Fin n, ∀ i, IsIndex n (sq i).1.index → ∀ j : Fin n, (σ i j : Nat) = (sq i).1.index j :=
    ⟨fun i => if h : IsIndex n (sq i).1.index then permOf h else Equiv.refl _, fun i h j => by dsimp only; rw [dif_pos h]; rfl⟩
  have P0 : s0.P = P := congrArg ReguSys.P a0
  have f0 : AROf false m (σ 0) (sq 0).1 := by
    have hn' : s0.P.num = n := by rw [P0]; exact S.num
    have i0 : IsIndex n s0.index := by
      have := g0.cons.index
      rwa [hn'] at this
    refine ⟨?_, ?_, hσ 0 ?_, ?_⟩
    · rw [hsq0]; exact hn'
    · rw [hsq0]; dsimp only; rw [P0]; exact S.mass
    · rw [hsq0]; exact i0
    · rw [hsq0]; exact g0.weaken
  have pre : ∀ i, AROf false m (σ i) (sq i).1 → AROf IC.velDep m (σ i) ((sq i).1.preIter IC) := fun i f1 => by
    obtain ⟨gp, _⟩ := ARSys.preIter_sim AI f1.good
    rw [← AI.velDep_eq] at gp
    refine f1.of ?_ gp
    unfold ARSys.preIter; split_ifs <;> exact ⟨rfl, rfl, rfl⟩
  have wr : ∀ i, AROf false m (σ i) (sq i).1 → arL (σ i) IC.velDep (GR.toArr ((radauAR 1 type IC).write ((sq i).1.preIter IC))) = fullOf n (sq i).1.abs := fun i hi => by
    rw [ar_written (pre i hi), ep]
  have start : arL (σ 0) IC.velDep (GR.toArr ((radauAR 1 type IC).write ((sq 0).1.preIter IC))) = fullAt n m type (ex ≠ []) x v t0 t0 := by
    rw [wr 0 f0, hsq0]
    dsimp only
    rw [a0]
    have e0 := start_conf S
    have e1 : conf n P.pos = conf n (x t0) := congrArg Prod.fst e0
    have e2 : conf n P.vel = conf n (v t0) := congrArg Prod.snd e0
    have p1 : -potentialDirect 1 P = potC n m (conf n (x t0)) := by rw [potentialDirect_eq, potC_conf S.num S.mass, e1, neg_neg]
    refine Prod.ext rfl (Prod.ext e0 (Prod.ext ?_ ?_))
    · show -potentialDirect 1 P = potC n m (conf n (x (if type = .ttl then t0 else t0)))
      rw [p1, ite_self]
    · show -totalEnergy 1 P = _
      rw [totalEnergy, neg_add, p1, kinC_conf S.num S.mass, e2]
      rw [(fullAt_bind n m type (ex ≠ []) x v t0 t0).1]; rfl
  -- the course up to macro step `N`
  have course : ∀ N, (∀ j, j ≤ N → AROf false m (σ j) (sq j).1) →
      (∀ j, j < N → AROf IC.velDep m (σ j) (nx j).2.1 ∧ (sq (j + 1)).1.abs = (nx j).2.1.abs ∧
        StepBy code (radauAR 1 type IC) big ARSys.Frame (SameAR IC) 1 (H j) (H j) (sq j).2 ((sq j).1.preIter IC) (nx j).2.1 (sq (j + 1)).2 (nx j).2.2.2) →
      (∀ j, j < N → (sq j).1.time ≤ t2) → _ := fun N fr st ts =>
    key (O := radauAR 1 type IC) (nv := n * 3 * (2 + (withGravity ex).velDep.toNat) + 3)
      (A := fun i => arL (σ i) IC.velDep) (big := big) (frame := ARSys.Frame) (h := h)
      (same := SameAR IC) (H := H) (h' := fun j => (nx j).2.2.2) (τ := H) (it := fun j => (sq j).2)
      (s := fun i => (sq i).1.preIter IC) (s' := fun i => (nx i).2.1)
      hh hle0 (by rw [hsq0]) start N (fun i hi => by
        obtain ⟨a1, a2⟩ := hst i
        have m1 := pre i (fr i hi.le)
        obtain ⟨m2, m4, stp⟩ := st i hi
        refine ⟨a1, a2, ⟨_, ar_shadow AI A type (σ i), fun y hy => m1.of ⟨hy.2.1, hy.2.2.1, hy.2.2.2.1⟩ (same_good_ar m1.good hy)⟩, ar_length AI m1, stp, ?_,
          arL_norm _ _ _⟩
        rw [wr (i + 1) (fr (i + 1) hi), ar_written m2, m4]) (fun i hi => by rw [wr i (fr i hi.le)]; exact ts i hi)
  have main : ∀ N, (∀ j, j < N → (sq j).1.time ≤ t2) → (∀ j, j ≤ N → AROf false m (σ j) (sq j).1) ∧
      (IC.velDep = true → ∀ j, j < 3 * n → FlatFor (auxL n j) (sq N).2.gr) ∧ ∀ j, j < N →
      (AROf IC.velDep m (σ j) (nx j).2.1 ∧ (sq (j + 1)).1.abs = (nx j).2.1.abs ∧
        StepBy code (radauAR 1 type IC) big ARSys.Frame (SameAR IC) 1 (H j) (H j) (sq j).2 ((sq j).1.preIter IC) (nx j).2.1 (sq (j + 1)).2 (nx j).2.2.2) ∧
      (∀ fuel, Radau.iterate code (radauAR 1 type IC) big (fuel + 1) 0 (H j) (sq j).2 ((sq j).1.preIter IC) =
        .ok ((nx j).2.1, (sq (j + 1)).2, (nx j).2.2.2)) ∧ (nx j).2.1.postIter (pick j (nx j).2.1.P) = .ok (sq (j + 1)).1 ∧
        H j / 4 ≤ (nx j).2.2.2 ∧ (nx j).2.2.2 ≤ 4 * H j := by
    intro N
    induction N with
    | zero =>
      intro _
      refine ⟨fun j hj => ?_, fun _ j _ => by rw [hsq0]; exact flat_new _, fun j hj => absurd hj (Nat.not_lt_zero j)⟩
      obtain rfl : j = 0 := Nat.le_zero.1 hj
      exact f0
    | succ N ih =>
      intro ts
      obtain ⟨g1, g2, g3⟩ := ih fun j hj => ts j (by omega)
      obtain ⟨b1, b2⟩ := hst N
      obtain ⟨_, _, _, _, inW, tame⟩ := course N g1 (fun j hj => (g3 j hj).1) fun j hj => ts j (by omega)
      have pN := pre N (g1 N le_rfl)
      have inW' : fullOf n ((sq N).1.preIter IC).abs ∈ W' := by
        rw [ep, ← wr _ (g1 N le_rfl)]; exact inW
      obtain ⟨u, it', h', k1, k2, k3, k4, k5, k6⟩ := ar_call (big := big) AI A (type := type) hn hm hc hC1 hC2 b1 pN (hWU inW') (hcW _ inW') g2
        (fun s' r' e hs' hw => by
          obtain ⟨q1, q2, q3, q4⟩ := first (ar_total AI A type hn hm U (σ N)) e pN hs' hw (ar_length (type := type) AI pN) b1 b2 hle0 inW tame
          have ew : arL (σ N) IC.velDep (GR.toArr ((total (radauAR 1 type IC)).write ((sq N).1.preIter IC))) =
            fullOf n ((sq N).1.preIter IC).abs := ar_written (type := type) pN
          rw [ew] at q3
          exact ⟨q1, q2, q3, q4⟩)
      have hu2 : 2 ≤ u.P.num := by rw [k3.num]; exact hn
      obtain ⟨s', p1, p2, p3, _⟩ := ARSys.postIter_sim k3.good.weaken _ (hpick N u.P hu2).isIndex
      have hx : nx N = (s', u, it', h') := by rw [hnx]; exact arNext_of (k1 0) p1
      have e1 : sq (N + 1) = (s', it') := by rw [hsqS, hx]
      refine ⟨fun j hj => ?_, by rw [e1]; exact k4, fun j hj => ?_⟩
      · rcases Nat.lt_or_ge j (N + 1) with h | h
        · exact g1 j (by omega)
        · obtain rfl : j = N + 1 := by omega
          have hP : s'.P = u.P := congrArg ReguSys.P p3
          have hn' : s'.P.num = n := by rw [hP]; exact k3.num
          have i1 : IsIndex n s'.index := by
            have := p2.cons.index
            rwa [hn'] at this
          refine ⟨?_, ?_, hσ _ ?_, ?_⟩
          · rw [e1]; exact hn'
          · rw [e1]; dsimp only; rw [hP]; exact k3.mass
          · rw [e1]; exact i1
          · rw [e1]; exact p2
      · rcases Nat.lt_succ_iff_lt_or_eq.1 hj with h | rfl
        · exact g3 j h
        · rw [e1, hx]
          exact ⟨⟨k3, p3, k2⟩, k1, p1, k5, k6⟩
  refine ⟨fun i => (sq i).1, fun i => (nx i).2.1, fun i => (sq i).2, fun j => (nx j).2.2.2, by dsimp only; rw [e0, hsq0], congrArg Prod.snd hsq0, fun N ts => ?_⟩
  obtain ⟨g1, g2, g3⟩ := main N ts
  obtain ⟨u0, u1, _, w, _⟩ := course N g1 (fun j hj => (g3 j hj).1) ts
  have fN := g1 N le_rfl
  rw [wr _ fN] at u0 u1 w
  refine ⟨fun i hi => (g3 i hi).2, u0, u1, ?_⟩
  rw [mul_assoc]
  exact within_of fN.num fN.mass w

/-- **C103, AR-chain systems: the calls return.** Under the hypotheses of `C103_archain` and with steps of at most `h ≤ h0`, whatever chain index (`pick`) the
chain construction chooses after each macro step: every call of a new IAS15 iterator that begins when the clock has not passed `t2` returns after one correction,
the chain update after it succeeds, the step recommended is between a quarter of and four times the step asked for, and the clock does not pass `t1`; the clock
runs at a rate of at least `κ`, and the particles are off the true ones by at most `K (h² + 10⁻²⁶ h)`. -/
theorem C103_archain_runs {x v : ℝ → Nat → V3 ℝ} {t0 t1 t2 : ℝ} (h02 : t0 ≤ t2) (h21 : t2 < t1) (M : ForcedMotion n a x v t0 t1) (hS : SmoothAlong a x v t0 t1)
    (apart : ∀ t ∈ Set.Icc t0 t1, ∀ i j, i < n → j < n → i ≠ j → x t i ≠ x t j) (hn : 2 ≤ n) (hm : ∀ k, k < n → 0 < m k) (type : ReguType)
    (hty : type = .logH → ex = []) :
    ∃ K κ h0 : ℝ, 0 ≤ K ∧ 0 < κ ∧ 0 < h0 ∧ ∀ P, InState n m x v t0 P → ∀ idx, IndexOf P idx →
      ∀ pick : Nat → Particles → Arr Nat, (∀ i Q, 2 ≤ Q.num → IndexOf Q (pick i Q)) → ∀ (big h : ℝ) (H : Nat → ℝ), 0 ≤ h → h ≤ h0 → (∀ i, 0 ≤ H i ∧ H i ≤ h) →
      ∃ (s u : Nat → ARSys) (it : Nat → IAS) (h' : Nat → ℝ), ARSys.init 1 type t0 P idx = .ok (s 0) ∧ it 0 = IAS.new big ∧ ∀ N, (∀ i, i < N → (s i).time ≤ t2) →
        (∀ i, i < N → (∀ fuel, Radau.iterate code (radauAR 1 type IC) big (fuel + 1) 0 (H i) (it i) ((s i).preIter IC) = .ok (u i, it (i + 1), h' i)) ∧
          (u i).postIter (pick i (u i).P) = .ok (s (i + 1)) ∧ H i / 4 ≤ h' i ∧ h' i ≤ 4 * H i) ∧
        (s N).time ≤ t1 ∧ t0 + κ * ∑ i ∈ range N, H i ≤ (s N).time ∧ WithinOf n m x v (s N).time (K * (h ^ 2 + h / 10 ^ 26)) (s N).P :=
  ar_go AI A h02 h21 hS apart hn hm type (led_of A M apart hn hm hty)

theorem ar_reach {x v : ℝ → Nat → V3 ℝ} {t0 t1 t2 : ℝ} (h02 : t0 ≤ t2) (h21 : t2 < t1) (hS : SmoothAlong a x v t0 t1)
    (apart : ∀ t ∈ Set.Icc t0 t1, ∀ i j, i < n → j < n → i ≠ j → x t i ≠ x t j) (hn : 2 ≤ n) (hm : ∀ k, k < n → 0 < m k) (type : ReguType)
    (L : Led m type a (ex ≠ []) x v t0 t1) :
    ∃ K h0 : ℝ, 0 ≤ K ∧ 0 < h0 ∧ ∀ P, InState n m x v t0 P → ∀ idx, IndexOf P idx →
      ∀ pick : Nat → Particles → Arr Nat, (∀ i Q, 2 ≤ Q.num → IndexOf Q (pick i Q)) → ∀ (big h : ℝ), 0 < h → h ≤ h0 →
      ∃ (N : Nat) (s u : Nat → ARSys) (it : Nat → IAS) (h' : Nat → ℝ), ARSys.init 1 type t0 P idx = .ok (s 0) ∧ it 0 = IAS.new big ∧
        (∀ i, i < N → (s i).time ≤ t2 ∧
          (∀ fuel, Radau.iterate code (radauAR 1 type IC) big (fuel + 1) 0 h (it i) ((s i).preIter IC) = .ok (u i, it (i + 1), h' i)) ∧
          (u i).postIter (pick i (u i).P) = .ok (s (i + 1))) ∧ t2 < (s N).time ∧ (s N).time ≤ t1 ∧
        ∀ i, i ≤ N → WithinOf n m x v (s i).time (K * (h ^ 2 + h / 10 ^ 26)) (s i).P := by
  obtain ⟨K, κ, h0, hK, hκ, hh0, key⟩ := ar_go AI A h02 h21 hS apart hn hm type L
  refine ⟨K, h0, hK, hh0, fun P S idx hidx pick hpick big h hh hle => ?_⟩
  obtain ⟨s, u, it, h', s0, i0, run⟩ := key P S idx hidx pick hpick big h (fun _ => h) hh.le hle fun _ => ⟨hh.le, le_rfl⟩
  have pass : ∃ N, t2 < (s N).time := by
    by_contra hno
    simp only [not_exists, not_lt] at hno
    obtain ⟨N, hN⟩ := exists_nat_gt ((t2 - t0) / (κ * h))
    obtain ⟨_, _, u, _⟩ := run N fun i _ => hno i
    rw [sum_const, card_range, nsmul_eq_mul] at u
    rw [div_lt_iff₀ (by positivity)] at hN
    have := hno N
    nlinarith
  classical
  have hlt : ∀ i, i < Nat.find pass → (s i).time ≤ t2 := fun i hi => not_lt.1 (Nat.find_min pass hi)
  refine ⟨Nat.find pass, s, u, it, h', s0, i0, fun i hi => ⟨hlt i hi, ((run _ hlt).1 i hi).1, ((run _ hlt).1 i hi).2.1⟩, Nat.find_spec pass, (run _ hlt).2.1,
    fun i hi => ?_⟩
  exact (run i fun j hj => hlt j (by omega)).2.2.2

/-- **C103, AR-chain systems: simulations come through.** With constant steps `h ≤ h0` of the transformed time the clock passes `t2` after finitely many
macro steps, all calls return, and the particles are off the true ones by at most `K (h² + 10⁻²⁶ h)` after each of them. -/
theorem C103_archain_reaches {x v : ℝ → Nat → V3 ℝ} {t0 t1 t2 : ℝ} (h02 : t0 ≤ t2) (h21 : t2 < t1) (M : ForcedMotion n a x v t0 t1) (hS : SmoothAlong a x v t0 t1)
    (apart : ∀ t ∈ Set.Icc t0 t1, ∀ i j, i < n → j < n → i ≠ j → x t i ≠ x t j) (hn : 2 ≤ n) (hm : ∀ k, k < n → 0 < m k) (type : ReguType)
    (hty : type = .logH → ex = []) :
    ∃ K h0 : ℝ, 0 ≤ K ∧ 0 < h0 ∧ ∀ P, InState n m x v t0 P → ∀ idx, IndexOf P idx →
      ∀ pick : Nat → Particles → Arr Nat, (∀ i Q, 2 ≤ Q.num → IndexOf Q (pick i Q)) → ∀ (big h : ℝ), 0 < h → h ≤ h0 →
      ∃ (N : Nat) (s u : Nat → ARSys) (it : Nat → IAS) (h' : Nat → ℝ), ARSys.init 1 type t0 P idx = .ok (s 0) ∧ it 0 = IAS.new big ∧
        (∀ i, i < N → (s i).time ≤ t2 ∧
          (∀ fuel, Radau.iterate code (radauAR 1 type IC) big (fuel + 1) 0 h (it i) ((s i).preIter IC) = .ok (u i, it (i + 1), h' i)) ∧
          (u i).postIter (pick i (u i).P) = .ok (s (i + 1))) ∧ t2 < (s N).time ∧ (s N).time ≤ t1 ∧
        ∀ i, i ≤ N → WithinOf n m x v (s i).time (K * (h ^ 2 + h / 10 ^ 26)) (s i).P :=
  ar_reach AI A h02 h21 hS apart hn hm type (led_of A M apart hn hm hty)

end

/-- two bodies on a circle as an AR-chain system, all three time transformations: simulations of any length `L` come through -/
example (t0 L : ℝ) (hL : 0 ≤ L) (type : ReguType) (idx : Arr Nat) (hidx : IndexOf ⟨2, circlePos t0, circleVel t0, fun _ => 1 / 2⟩ idx) :
    ∃ K h0 : ℝ, 0 < h0 ∧ ∀ h, 0 < h → h ≤ h0 → ∃ (N : Nat) (s : Nat → ARSys),
    ARSys.init 1 type t0 ⟨2, circlePos t0, circleVel t0, fun _ => 1 / 2⟩ idx = .ok (s 0) ∧
    t0 + L < (s N).time ∧ WithinOf 2 (fun _ => 1 / 2) circlePos circleVel (s N).time (K * (h ^ 2 + h / 10 ^ 26)) (s N).P := by
  obtain ⟨A, AI, hS⟩ := C100_library 1 1 2 (fun _ => 1 / 2) []
  have M := circle_motion t0 (t0 + L + 1)
  have S : InState 2 (fun _ => 1 / 2) circlePos circleVel t0 ⟨2, circlePos t0, circleVel t0, fun _ => 1 / 2⟩ := ⟨rfl, fun _ _ => rfl, fun _ _ => rfl, fun _ _ => rfl⟩
  have F : ForcedMotion 2 (withExtras 1 1 2 (fun _ => 1 / 2) []) circlePos circleVel t0 (t0 + L + 1) := by
    refine ⟨M.pos, fun t ht k => ?_⟩
    have := M.vel t ht k k.2
    rw [sum_fin (fun j => newton (1 / 2) (circlePos t k) (circlePos t j)) k] at this
    simpa [withExtras] using this
  obtain ⟨K, h0, _, hh0, key⟩ := C103_archain_reaches (ex := []) AI A (t2 := t0 + L) (by linarith) (by linarith) F (hS _ _ _ _ M.apart (by simp)) M.apart le_rfl
    (fun _ _ => by norm_num) type (fun _ => rfl)
  classical
  obtain ⟨pick, hpick⟩ : ∃ pick : Nat → Particles → Arr Nat, ∀ i Q, 2 ≤ Q.num → IndexOf Q (pick i Q) :=
    ⟨fun _ Q => if h : 2 ≤ Q.num then (IndexOf.exists Q h).choose else fun _ => 0, fun _ Q h => by dsimp only; rw [dif_pos h]; exact (IndexOf.exists Q h).choose_spec⟩
  refine ⟨K, h0, hh0, fun h hh hle => ?_⟩
  obtain ⟨N, s, u, it, h', a1, a2, a3, a4, _, a5⟩ := key _ S idx hidx pick hpick 1000 h hh hle
  exact ⟨N, s, a1, a4, a5 N le_rfl⟩

end SpaceHub.Sys
