import Verif.Proof.BSTries
import Verif.Props.BSSmall

/-
C102: order and step size control of the Bulirsch-Stoer iterator.
-/

set_option autoImplicit false

namespace SpaceHub.BS
open SpaceHub SpaceHub.Sys V3 Force Core Integrator Spec

theorem Tries.mono {n : Nat → Nat} {D x : Nat} {next lim : Nat → ℝ → ℝ} {P Q : ℝ → Nat → ℝ → Prop} (H : ∀ h k E, 1 ≤ k → P h k E → Q h k E)
    {h hAcc h' : ℝ} {r m k r' : Nat} (t : Tries n D x next lim P h r m hAcc k r' h') : Tries n D x next lim Q h r m hAcc k r' h' := by
  induction t with
  | accept d ok aim => exact .accept ⟨d.pos, d.low, d.high, fun j h1 h2 => H _ _ _ h1 (d.errors j h1 h2), d.before⟩ ok aim
  | giveUp d bad aim _ ih => exact .giveUp ⟨d.pos, d.low, d.high, fun j h1 h2 => H _ _ _ h1 (d.errors j h1 h2), d.before⟩ bad aim ih

section
variable {S : Type} {O : IterSys S ℝ} {s : S} {frame same : S → S → Prop} {sync : S → Bool}

theorem columnError_of_raw (L : Lawful O s frame same sync) (p : Params ℝ) (h : ℝ) (k : Nat) (E : ℝ) (hk : 1 ≤ k)
    (H : RawError O p (O.write s) (FreshOf O s frame same sync) h k E) :
    ColumnError (hSeq p.maxDepth) O.write O.integrate same p.err s h k E := by
  obtain ⟨hkD, start, row, T0, T1, hrow, hT, hE⟩ := H
  refine ⟨start, row, T0, T1, fun m hm => ⟨(hrow m hm).1.2.2.2.1, (hrow m hm).2⟩, fun i hi => ?_, hE⟩
  have hinc : ∀ m, m ≤ k → O.inc (row m) i = (O.write (row m)).getD i 0 - (O.write s).getD i 0 := fun m hm =>
    fresh_inc L (hrow m hm).1 (hrow m hm).2 hi
  obtain ⟨t0, t1⟩ := hT i hi
  rw [t0, t1]
  rw [zeroStep_congr (fun m _ hm => hinc m hm), zeroStep_add_const (by omega) hkD,
    zeroStep_congr (a := 1) (fun m _ hm => hinc m hm), zeroStep_add_const hk hkD]
  exact ⟨rfl, rfl⟩

theorem extrapolatedAt_of_raw (L : Lawful O s frame same sync) (p : Params ℝ) (h : ℝ) (k : Nat) (s' : S)
    (H : RawResult O p (O.write s) (FreshOf O s frame same sync) h k s') :
    ExtrapolatedAt (hSeq p.maxDepth) p.maxDepth O.write O.integrate same p.err h s s' k ∧ sync s' = false := by
  obtain ⟨start, row, T0, T1, hk1, hkD, hrow, hT, herr, s'', hread, hs'⟩ := H
  have hk := hrow k le_rfl
  obtain ⟨f4, s4, w4⟩ := L.read _ _ _ (L.trans _ _ _ hk.1.1 (L.run _ _ _ _ hk.1.2.1 hk.2).2.1) hread
  refine ⟨⟨start, row, T0, T1, hk1, hkD, fun m hm => ⟨(hrow m hm).1.2.2.2.1, (hrow m hm).2⟩, fun i hi => ?_, herr⟩, ?_⟩
  · have hinc : ∀ m, m ≤ k → O.inc (row m) i = (O.write (row m)).getD i 0 - (O.write s).getD i 0 := fun m hm =>
      fresh_inc L (hrow m hm).1 (hrow m hm).2 hi
    have hw : (O.write s').getD i 0 = (O.write s).getD i 0 + T0 i := by
      rw [hs', L.collect_write, w4, List.getD_eq_getElem _ _ (by rw [List.length_mapIdx]; exact hi), List.getElem_mapIdx,
        List.getD_eq_getElem _ _ hi]
    obtain ⟨t0, t1⟩ := hT i hi
    rw [zeroStep_congr (fun m _ hm => hinc m hm), zeroStep_add_const (by omega) hkD] at t0
    rw [zeroStep_congr (a := 1) (fun m _ hm => hinc m hm), zeroStep_add_const hk1 hkD] at t1
    refine ⟨?_, ?_, t1⟩
    · rw [hw, t0]; ring
    · rw [hw]; ring
  · rw [hs', L.collect_sync]

theorem tries_of_lawful (L : Lawful O s frame same sync) (p : Params ℝ) (hD : 3 ≤ p.maxDepth) (h : ℝ) (c c' : State ℝ) (s' : S) (h' : ℝ)
    (hf : c.first = false) (hr : 1 ≤ c.rank) (e : iterate O p h c s = .ok (s', h', c')) :
    ∃ m hAcc k, m < 100 ∧
      Tries (hSeq p.maxDepth) p.maxDepth (p.kdk.toNat * 2) p.next p.limiter (ColumnError (hSeq p.maxDepth) O.write O.integrate same p.err s)
        h c.rank m hAcc k c'.rank h' ∧
      ExtrapolatedAt (hSeq p.maxDepth) p.maxDepth O.write O.integrate same p.err hAcc s s' k ∧
      c'.first = false ∧ c'.iterNum = c.iterNum + m + 1 ∧ c'.rejNum = c.rejNum + m := by
  obtain ⟨m, hAcc, k, a1, a2, a3, a4, a5, a6⟩ :=
    attempts_tries O p (O.write s) _ (fresh_restores L) hD 100 h c (O.collect true s) (fresh_start L) hf hr s' h' c' e
  exact ⟨m, hAcc, k, a1, Tries.mono (columnError_of_raw L p) a2, (extrapolatedAt_of_raw L p _ _ _ a3).1, a4, a5, a6⟩

theorem first_of_lawful (L : Lawful O s frame same sync) (p : Params ℝ) (h : ℝ) (c c' : State ℝ) (s' : S) (h' : ℝ)
    (hf : c.first = true) (e : iterate O p h c s = .ok (s', h', c')) :
    ∃ m, m < 100 ∧ ExtrapolatedStep (hSeq p.maxDepth) p.maxDepth O.write O.integrate same p.err h s s' ∧
      c'.iterNum = c.iterNum + m + 1 ∧ c'.rejNum = c.rejNum := by
  obtain ⟨m, a1, ⟨k, start, row, T0, T1, a2⟩, a3, a4⟩ :=
    attempts_first_same O p (O.write s) _ (fresh_restores L) 100 h c (O.collect true s) (fresh_start L) hf s' h' c' e
  exact ⟨m, a1, ⟨k, (extrapolatedAt_of_raw L p h k s' ⟨start, row, T0, T1, a2⟩).1⟩, a3, a4⟩
end

/-- Plain system, every call but the first: `m` trial steps are given up, each where its error rules out convergence, and the next one uses the
order and the step `Aim` prescribes, limited by the controller; the first trial step with an error of at most 1 in one of the columns `r - 1`, `r`, `r + 1` is
accepted.  No trial ends undecided, and `m` is what is added to the count of rejections, `m + 1` to the count of trials. -/
theorem C102_simple (I : Interactions) (kdk : Bool) (p : Params ℝ) (hD : 3 ≤ p.maxDepth) (h : ℝ) (c c' : State ℝ) (s s' : Simple) (h' : ℝ)
    (hf : c.first = false) (hr : 1 ≤ c.rank) (e : iterate (simpleSys I kdk) p h c s = .ok (s', h', c')) :
    ∃ m hAcc k, m < 100 ∧
      Tries (hSeq p.maxDepth) p.maxDepth (p.kdk.toNat * 2) p.next p.limiter
        (ColumnError (hSeq p.maxDepth) (Simple.write I) (fun h n => (simpleOps I).run (if kdk then substepsKDK h n else substepsDKD h n)) (SameSimple I) p.err s)
        h c.rank m hAcc k c'.rank h' ∧
      ExtrapolatedAt (hSeq p.maxDepth) p.maxDepth (Simple.write I) (fun h n => (simpleOps I).run (if kdk then substepsKDK h n else substepsDKD h n))
        (SameSimple I) p.err hAcc s s' k ∧
      c'.first = false ∧ c'.iterNum = c.iterNum + m + 1 ∧ c'.rejNum = c.rejNum + m :=
  tries_of_lawful (simple_lawful I kdk s) p hD h c c' s' h' hf hr e

/-- Regularised system. -/
theorem C102_regularized (G : ℝ) (type : ReguType) (I : Interactions) (kdk : Bool) (p : Params ℝ) (hD : 3 ≤ p.maxDepth) (h : ℝ) (c c' : State ℝ)
    (s s' : ReguSys) (h' : ℝ) (hf : c.first = false) (hr : 1 ≤ c.rank) (e : iterate (reguSys G type I kdk) p h c s = .ok (s', h', c')) :
    ∃ m hAcc k, m < 100 ∧
      Tries (hSeq p.maxDepth) p.maxDepth (p.kdk.toNat * 2) p.next p.limiter
        (ColumnError (hSeq p.maxDepth) (ReguSys.write I) (fun h n => (reguOps G type I).run (if kdk then substepsKDK h n else substepsDKD h n)) (SameRegu I) p.err s)
        h c.rank m hAcc k c'.rank h' ∧
      ExtrapolatedAt (hSeq p.maxDepth) p.maxDepth (ReguSys.write I) (fun h n => (reguOps G type I).run (if kdk then substepsKDK h n else substepsDKD h n))
        (SameRegu I) p.err hAcc s s' k ∧
      c'.first = false ∧ c'.iterNum = c.iterNum + m + 1 ∧ c'.rejNum = c.rejNum + m :=
  tries_of_lawful (regu_lawful G type I kdk s) p hD h c c' s' h' hf hr e

/-- Chain system, from a state in which Cartesian and chain coordinates belong together. -/
theorem C102_chain (I : ChainInteractions) (kdk : Bool) (p : Params ℝ) (hD : 3 ≤ p.maxDepth) (h : ℝ) (c c' : State ℝ) (s s' : ChainSys) (h' : ℝ)
    (hc : ChainConsistent I.velDep s.P.num s.index s.cpos s.cvel s.caux s.P.pos s.P.vel s.aux)
    (hf : c.first = false) (hr : 1 ≤ c.rank) (e : iterate (chainSys I kdk) p h c s = .ok (s', h', c')) :
    ∃ m hAcc k, m < 100 ∧
      Tries (hSeq p.maxDepth) p.maxDepth (p.kdk.toNat * 2) p.next p.limiter
        (ColumnError (hSeq p.maxDepth) (ChainSys.write I) (fun h n => (chainOps I).run (if kdk then substepsKDK h n else substepsDKD h n)) (SameChain I) p.err s)
        h c.rank m hAcc k c'.rank h' ∧
      ExtrapolatedAt (hSeq p.maxDepth) p.maxDepth (ChainSys.write I) (fun h n => (chainOps I).run (if kdk then substepsKDK h n else substepsDKD h n))
        (SameChain I) p.err hAcc s s' k ∧
      c'.first = false ∧ c'.iterNum = c.iterNum + m + 1 ∧ c'.rejNum = c.rejNum + m :=
  tries_of_lawful (chain_lawful I kdk s hc) p hD h c c' s' h' hf hr e

/-- AR-chain system, from a state in which Cartesian and chain coordinates belong together. -/
theorem C102_archain (G : ℝ) (type : ReguType) (I : ChainInteractions) (kdk : Bool) (p : Params ℝ) (hD : 3 ≤ p.maxDepth) (h : ℝ) (c c' : State ℝ)
    (s s' : ARSys) (h' : ℝ) (hc : ChainConsistent I.velDep s.P.num s.index s.cpos s.cvel s.caux s.P.pos s.P.vel s.aux)
    (hf : c.first = false) (hr : 1 ≤ c.rank) (e : iterate (archainSys G type I kdk) p h c s = .ok (s', h', c')) :
    ∃ m hAcc k, m < 100 ∧
      Tries (hSeq p.maxDepth) p.maxDepth (p.kdk.toNat * 2) p.next p.limiter
        (ColumnError (hSeq p.maxDepth) (ARSys.write I) (fun h n => (arOps G type I).run (if kdk then substepsKDK h n else substepsDKD h n)) (SameAR I) p.err s)
        h c.rank m hAcc k c'.rank h' ∧
      ExtrapolatedAt (hSeq p.maxDepth) p.maxDepth (ARSys.write I) (fun h n => (arOps G type I).run (if kdk then substepsKDK h n else substepsDKD h n))
        (SameAR I) p.err hAcc s s' k ∧
      c'.first = false ∧ c'.iterNum = c.iterNum + m + 1 ∧ c'.rejNum = c.rejNum + m :=
  tries_of_lawful (ar_lawful G type I kdk s hc) p hD h c c' s' h' hf hr e

/-- The first call of an iterator never changes the step it was given: a trial that does not converge is repeated with the same step.  None is counted
as rejected. -/
theorem C102_first_call (I : Interactions) (kdk : Bool) (p : Params ℝ) (h : ℝ) (c c' : State ℝ) (s s' : Simple) (h' : ℝ)
    (hf : c.first = true) (e : iterate (simpleSys I kdk) p h c s = .ok (s', h', c')) :
    ∃ m, m < 100 ∧
      ExtrapolatedStep (hSeq p.maxDepth) p.maxDepth (Simple.write I) (fun h n => (simpleOps I).run (if kdk then substepsKDK h n else substepsDKD h n))
        (SameSimple I) p.err h s s' ∧
      c'.iterNum = c.iterNum + m + 1 ∧ c'.rejNum = c.rejNum :=
  first_of_lawful (simple_lawful I kdk s) p h c c' s' h' hf e

/-- `reject_rate()` is a fraction: between 0 and 1, below 1 once a call has returned.  `s i` is any system at all, at the `i`-th call. -/
theorem C102_reject_rate (I : Interactions) (kdk : Bool) (p : Params ℝ) (hD : 3 ≤ p.maxDepth) (N : Nat) (s s' : Nat → Simple) (c : Nat → State ℝ)
    (h h' : Nat → ℝ) (h0 : c 0 = State.init p.maxDepth) (hN : 1 ≤ N)
    (hc : ∀ i, i < N → iterate (simpleSys I kdk) p (h i) (c i) (s i) = .ok (s' i, h' i, c (i + 1)))
    (hfirst : (c 1).rank ≠ p.maxDepth) :
    ∃ m : Nat → Nat, (∀ i, m i < 100) ∧ (c N).rejNum = ∑ i ∈ Finset.Ico 1 N, m i ∧ (c N).iterNum = N + ∑ i ∈ Finset.range N, m i ∧
      0 ≤ (rejectRate (c N) : ℝ) ∧ (rejectRate (c N) : ℝ) < 1 := by
  obtain ⟨r1, r2⟩ := C28_simple_system I kdk
  obtain ⟨m0, a1, _, a2, a3⟩ := C102_first_call I kdk p (h 0) (c 0) (c 1) (s 0) (s' 0) (h' 0) (by rw [h0]; rfl) (hc 0 (by omega))
  have key : ∀ j, j + 1 ≤ N → ∃ m : Nat → Nat, (∀ i, m i < 100) ∧ (c (j + 1)).rejNum = ∑ i ∈ Finset.Ico 1 (j + 1), m i ∧
      (c (j + 1)).iterNum = j + 1 + ∑ i ∈ Finset.range (j + 1), m i ∧ Later p.maxDepth (c (j + 1)) := by
    intro j
    induction j with
    | zero =>
      intro _
      have hfc := (C28_first_call (simpleSys I kdk) p (by omega) r1 r2 (h 0) (s 0)).2 (s' 0) (h' 0) (c 1) (by rw [← h0]; exact hc 0 (by omega))
      refine ⟨fun _ => m0, fun _ => a1, ?_, ?_, hfc.1, hfc.2.1, ?_⟩
      · rw [a3, h0]; rfl
      · rw [a2, h0, Finset.sum_range_one]; show 0 + m0 + 1 = _; omega
      · have := hfc.2.2; show (c 1).rank ≤ _; omega
    | succ j ih =>
      intro hj
      obtain ⟨m, b1, b2, b3, b4⟩ := ih (by omega)
      have he := hc (j + 1) (by omega)
      obtain ⟨mj, _, _, d1, _, _, d2, d3, d4⟩ := C102_simple I kdk p hD _ _ _ _ _ _ b4.1 b4.2.1 he
      have hl := (attempts_later _ p _ hD r1 r2 100 _ _ _ b4).2 _ he
      obtain ⟨M, hM⟩ : ∃ M : Nat → Nat, M = fun i => if i = j + 1 then mj else m i := ⟨_, rfl⟩
      have hMj : M (j + 1) = mj := by rw [hM]; exact if_pos rfl
      have hm : ∀ i ∈ Finset.range (j + 1), M i = m i := fun i hi => by
        rw [Finset.mem_range] at hi; rw [hM]; exact if_neg (by omega)
      refine ⟨M, fun i => ?_, ?_, ?_, hl.1⟩
      · by_cases hi : i = j + 1
        · rw [hi, hMj]; exact d1
        · rw [hM]; show (if i = j + 1 then mj else m i) < 100
          rw [if_neg hi]; exact b1 i
      · rw [d4, b2, Finset.sum_Ico_succ_top (show 1 ≤ j + 1 by omega) M, hMj]
        congr 1
        exact Finset.sum_congr rfl fun i hi => (hm i (by rw [Finset.mem_Ico] at hi; rw [Finset.mem_range]; omega)).symm
      · have : ∑ i ∈ Finset.range (j + 1 + 1), M i = ∑ i ∈ Finset.range (j + 1), m i + mj := by
          rw [Finset.sum_range_succ M, hMj, Finset.sum_congr rfl hm]
        rw [d3, b3, this]; omega
  obtain ⟨m, b1, b2, b3, b4⟩ := key (N - 1) (by omega)
  rw [Nat.sub_add_cancel hN] at b2 b3
  have hlt : (c N).rejNum < (c N).iterNum := by
    have : ∑ i ∈ Finset.Ico 1 N, m i ≤ ∑ i ∈ Finset.range N, m i :=
      Finset.sum_le_sum_of_subset (fun i hi => by rw [Finset.mem_Ico] at hi; rw [Finset.mem_range]; exact hi.2)
    omega
  have hv : (rejectRate (c N) : ℝ) = (((c N).rejNum : ℕ) : ℝ) / (((c N).iterNum : ℕ) : ℝ) := by
    show ((((c N).rejNum : ℕ) : ℚ) : ℝ) / ((((c N).iterNum : ℕ) : ℚ) : ℝ) = _
    push_cast; rfl
  have hpos : (0 : ℝ) < (((c N).iterNum : ℕ) : ℝ) := by exact_mod_cast (by omega)
  refine ⟨m, b1, b2, b3, ?_, ?_⟩
  · rw [hv]; positivity
  · rw [hv, div_lt_one hpos]; exact_mod_cast hlt

/-- Non-vacuity: two masses on circles, the `RMS` estimator with the default tolerances and the iterator's own settings, the default depth 7; an iterator that was used before,
with target order 6.  Every call with a short step returns, and has made at least one trial more than it has given up. -/
example (t0 : ℝ) : ∃ ρ : ℝ, 0 < ρ ∧ ∃ p : Params ℝ, p.maxDepth = 7 ∧ ∀ h, 0 < h → h ≤ ρ →
    ∃ s' h' c', iterate (simpleSys gravity false) p h { State.init 7 with first := false } (Simple.init t0 ⟨2, circlePos t0, circleVel t0, fun _ => 1 / 2⟩) =
      .ok (s', h', c') ∧ c'.iterNum = c'.rejNum + 1 := by
  have g1 : (Ctl.configured [.guards (72 / 100) (95 / 100)]).s1 = 72 / 100 := rfl
  have g2 : (Ctl.configured [.guards (72 / 100) (95 / 100)]).s2 = 95 / 100 := rfl
  obtain ⟨p, hp, _, H⟩ := library_exists 7 false .rms (atol := 1 / 10 ^ 13) (rtol := 1 / 10 ^ 13) (by positivity) (by positivity) [.guards (72 / 100) (95 / 100)]
    (by rw [g2]; norm_num)
  obtain ⟨ρ, hρ, key⟩ := C96_small_step 2 (fun _ => 1 / 2) (d := 1) (R := 1) one_pos zero_le_one (D := 7) (by norm_num) (by norm_num) .rms (atol := 1 / 10 ^ 13)
    (rtol := 1 / 10 ^ 13) (by positivity) (by positivity) [.guards (72 / 100) (95 / 100)] (by rw [g1]; norm_num) (by rw [g2]; norm_num)
  refine ⟨ρ, hρ, p, hp, fun h h0 hle => ?_⟩
  obtain ⟨s', h', c', e, _⟩ := key p false hp H (Simple.init t0 ⟨2, circlePos t0, circleVel t0, fun _ => 1 / 2⟩) { State.init 7 with first := false } h (circle_region t0)
    (.inr ⟨rfl, by show 1 ≤ 6; norm_num, by show 6 ≤ 6; norm_num⟩) h0 hle
  obtain ⟨m, _, _, _, _, _, _, b1, b2⟩ := C102_simple gravity false p (by omega) h _ c' _ s' h' rfl (by show 1 ≤ 6; norm_num) e
  refine ⟨s', h', c', e, ?_⟩
  have b1 : c'.iterNum = 0 + m + 1 := b1
  have b2 : c'.rejNum = 0 + m := b2
  omega

/-- Parameters for a step that is given up.  With the system of `C28_leaves_its_tables` and a controller that halves, a first call with
step 1/1000 and a second one with step 1/200, of which the first trial is given up and the second (1/400) accepted. -/
def halving : Params ℚ where
  maxDepth := 7
  kdk := false
  err := fun _ y1 y0 => |y1 0 - y0 0| / 10⁻¹ ^ 3
  next := fun _ _ => 1
  limiter := fun _ _ => 1 / 2

/-- A trial step is given up. -/
theorem C102_gives_up :
    ∃ c, calls toySys halving [(1 / 1000, (0, 0)), (1 / 200, (0, 0))] (State.init 7) = .ok c ∧ c.rejNum = 1 ∧ c.iterNum = 3 := by
  have h : (match calls toySys halving [(1 / 1000, (0, 0)), (1 / 200, (0, 0))] (State.init 7) with
      | .ok c => c.rejNum == 1 && c.iterNum == 3
      | _ => false) = true := by decide +kernel
  cases e : calls toySys halving [(1 / 1000, (0, 0)), (1 / 200, (0, 0))] (State.init 7) with
  | ok c => rw [e] at h; exact ⟨c, rfl, by simpa using h⟩
  | ub => rw [e] at h; cases h
  | abort => rw [e] at h; cases h
  | nan => rw [e] at h; cases h
  | diverge => rw [e] at h; cases h

end SpaceHub.BS
