import Verif.Proof.Evolve
import Verif.Props.BSConserve

/-
Extrapolated steps of the chain systems are extrapolated steps of the plain ones.
-/

set_option autoImplicit false

namespace SpaceHub.BS
open SpaceHub SpaceHub.Sys V3 Force Core Integrator Spec

theorem comp_sub' (a b : V3 ℝ) (c : Nat) : comp (a - b) c = comp a c - comp b c := by
  unfold comp; split_ifs <;> rfl

/-- the components of `x'` are extrapolated from those of the `x m` -/
def ExtraV (D k n : Nat) (x' : Arr (V3 ℝ)) (x : Nat → Arr (V3 ℝ)) : Prop :=
  ∀ i c, i < n → c < 3 → comp (x' i) c = zeroStep (hSeq D) (fun m => comp (x m i) c) 0 k

theorem extraV_belongs {D k n : Nat} {idx : Arr Nat} (hi : IsIndex n idx) {c' x' : Arr (V3 ℝ)} {c x : Nat → Arr (V3 ℝ)}
    (hb' : BelongsTo n idx c' x') (hb : ∀ m, m ≤ k → BelongsTo n idx (c m) (x m)) (h : ExtraV D k n c' c) : ExtraV D k n x' x := by
  intro i d hin hd
  obtain ⟨j, hj, rfl⟩ := hi.surj hin
  clear hin
  induction j with
  | zero =>
    have e := h (n - 1) d (by omega) hd
    rw [hb'.base] at e
    rw [e]
    exact zeroStep_congr fun m _ hm => by rw [(hb m hm).base]
  | succ j ih =>
    have e := h j d (by omega) hd
    rw [hb'.link j hj, comp_sub', ih (by omega)] at e
    have e2 : zeroStep (hSeq D) (fun m => comp (c m j) d) 0 k = zeroStep (hSeq D) (fun m => comp (x m (idx (j + 1))) d - comp (x m (idx j)) d) 0 k :=
      zeroStep_congr fun m _ hm => by rw [(hb m hm).link j hj, comp_sub']
    have e3 : zeroStep (hSeq D) (fun m => comp (x m (idx (j + 1))) d - comp (x m (idx j)) d) 0 k =
        zeroStep (hSeq D) (fun m => comp (x m (idx (j + 1))) d) 0 k - zeroStep (hSeq D) (fun m => comp (x m (idx j)) d) 0 k :=
      (zeroLin (hSeq D) 0 k).map_sub _ _
    rw [e2, e3] at e
    linarith

/-- all variables of `f'` are extrapolated from those of the `f m` -/
structure ExtraF (D k : Nat) (dep : Bool) (f' : Flat) (f : Nat → Flat) : Prop where
  time : f'.time = zeroStep (hSeq D) (fun m => (f m).time) 0 k
  x : ExtraV D k f'.n f'.x fun m => (f m).x
  v : ExtraV D k f'.n f'.v fun m => (f m).v
  a : dep = true → ExtraV D k f'.n f'.a fun m => (f m).a

theorem auxEntry (f : Flat) (i c : Nat) (hi : i < f.n) (hc : c < 3) :
    f.val true (1 + 6 * f.n + (3 * i + c)) = comp (f.a i) c := by
  unfold Flat.val
  rw [if_neg (by omega), if_neg (by omega), if_neg (by omega), if_pos ⟨rfl, by omega⟩,
    show (1 + 6 * f.n + (3 * i + c) - (1 + 6 * f.n)) / 3 = i by omega,
    show (1 + 6 * f.n + (3 * i + c) - (1 + 6 * f.n)) % 3 = c by omega]

theorem omEntry (dep : Bool) (f : Flat) : f.val dep (omegaOffset f.n dep) = f.om := by
  unfold Flat.val omegaOffset bindEOffset
  cases dep <;> simp <;> split_ifs <;> first | rfl | omega

theorem beEntry' (dep : Bool) (f : Flat) : f.val dep (bindEOffset f.n dep) = f.be := by
  unfold Flat.val omegaOffset bindEOffset
  cases dep <;> simp <;> split_ifs <;> first | rfl | omega

theorem extraF_of {D k : Nat} {dep : Bool} {f' : Flat} {f : Nat → Flat} (hn : ∀ m, m ≤ k → (f m).n = f'.n)
    (h : ∀ i, i < f'.n * 3 * (2 + dep.toNat) + 1 → f'.val dep i = zeroStep (hSeq D) (fun m => (f m).val dep i) 0 k) : ExtraF D k dep f' f := by
  have hle : f'.n * 3 * 2 ≤ f'.n * 3 * (2 + dep.toNat) := Nat.mul_le_mul_left _ (by omega)
  refine ⟨h 0 (by omega), fun i c hi hc => ?_, fun i c hi hc => ?_, fun hd i c hi hc => ?_⟩
  · have h1 := h (1 + (3 * i + c)) (by omega)
    rw [posEntry dep f' i c hi hc] at h1
    rw [h1]
    exact zeroStep_congr fun m _ hm => posEntry dep (f m) i c (by rw [hn m hm]; exact hi) hc
  · have h1 := h (1 + 3 * f'.n + (3 * i + c)) (by omega)
    rw [velEntry dep f' i c hi hc] at h1
    rw [h1]
    refine zeroStep_congr fun m _ hm => ?_
    rw [← hn m hm]
    exact velEntry dep (f m) i c (by rw [hn m hm]; exact hi) hc
  · subst hd
    have h1 := h (1 + 6 * f'.n + (3 * i + c)) (by simp; omega)
    rw [auxEntry f' i c hi hc] at h1
    rw [h1]
    refine zeroStep_congr fun m _ hm => ?_
    rw [← hn m hm]
    exact auxEntry (f m) i c (by rw [hn m hm]; exact hi) hc

theorem ExtraF.val {D k : Nat} {dep : Bool} {f' : Flat} {f : Nat → Flat} (H : ExtraF D k dep f' f) (hn : ∀ m, m ≤ k → (f m).n = f'.n)
    (hom : f'.om = zeroStep (hSeq D) (fun m => (f m).om) 0 k) (hbe : f'.be = zeroStep (hSeq D) (fun m => (f m).be) 0 k) (i : Nat) :
    f'.val dep i = zeroStep (hSeq D) (fun m => (f m).val dep i) 0 k := by
  have cg : ∀ y : Nat → ℝ, (∀ m, m ≤ k → (f m).val dep i = y m) → zeroStep (hSeq D) (fun m => (f m).val dep i) 0 k = zeroStep (hSeq D) y 0 k :=
    fun y hy => zeroStep_congr fun m _ hm => hy m hm
  by_cases h0 : i = 0
  · subst h0; exact H.time
  by_cases h1 : i < 1 + 3 * f'.n
  · rw [cg (fun m => comp ((f m).x ((i - 1) / 3)) ((i - 1) % 3)) (fun m hm => by
      unfold Flat.val; rw [if_neg h0, hn m hm, if_pos h1])]
    rw [← H.x _ _ (by omega) (by omega)]
    unfold Flat.val; rw [if_neg h0, if_pos h1]
  by_cases h2 : i < 1 + 6 * f'.n
  · rw [cg (fun m => comp ((f m).v ((i - (1 + 3 * f'.n)) / 3)) ((i - (1 + 3 * f'.n)) % 3)) (fun m hm => by
      unfold Flat.val; rw [if_neg h0, hn m hm, if_neg h1, if_pos h2])]
    rw [← H.v _ _ (by omega) (by omega)]
    unfold Flat.val; rw [if_neg h0, if_neg h1, if_pos h2]
  by_cases h3 : dep = true ∧ i < 1 + 9 * f'.n
  · rw [cg (fun m => comp ((f m).a ((i - (1 + 6 * f'.n)) / 3)) ((i - (1 + 6 * f'.n)) % 3)) (fun m hm => by
      unfold Flat.val; rw [if_neg h0, hn m hm, if_neg h1, if_neg h2, if_pos h3])]
    rw [← H.a h3.1 _ _ (by omega) (by omega)]
    unfold Flat.val; rw [if_neg h0, if_neg h1, if_neg h2, if_pos h3]
  by_cases h4 : i = omegaOffset f'.n dep
  · rw [cg (fun m => (f m).om) (fun m hm => by
      unfold Flat.val; rw [if_neg h0, hn m hm, if_neg h1, if_neg h2, if_neg h3, if_pos h4]), ← hom]
    unfold Flat.val; rw [if_neg h0, if_neg h1, if_neg h2, if_neg h3, if_pos h4]
  by_cases h5 : i = bindEOffset f'.n dep
  · rw [cg (fun m => (f m).be) (fun m hm => by
      unfold Flat.val; rw [if_neg h0, hn m hm, if_neg h1, if_neg h2, if_neg h3, if_neg h4, if_pos h5]), ← hbe]
    unfold Flat.val; rw [if_neg h0, if_neg h1, if_neg h2, if_neg h3, if_neg h4, if_pos h5]
  rw [cg (fun _ => 0) (fun m hm => by
    unfold Flat.val; rw [if_neg h0, hn m hm, if_neg h1, if_neg h2, if_neg h3, if_neg h4, if_neg h5])]
  rw [show zeroStep (hSeq D) (fun _ => (0 : ℝ)) 0 k = 0 from (zeroLin (hSeq D) 0 k).map_zero]
  unfold Flat.val; rw [if_neg h0, if_neg h1, if_neg h2, if_neg h3, if_neg h4, if_neg h5]

/-! ### the state after a call is consistent -/

/-- The state after a call was read into the system after some run. -/
theorem iterate_read {S : Type} {O : IterSys S ℝ} {s : S} {frame same : S → S → Prop} {sync : S → Bool}
    (L : Lawful O s frame same sync) (p : Params ℝ) (h : ℝ) (c c' : State ℝ) (s' : S) (h' : ℝ)
    (e : iterate O p h c s = .ok (s', h', c')) :
    ∃ x y v, frame s x ∧ O.read x v = .ok y ∧ s' = O.collect false y := by
  obtain ⟨hAcc, order, ratio, _, ⟨k, start, row, T0, T1, hk1, hkD, hrow, hT, herr, s'', hread, hs'⟩, _⟩ :=
    attempts_accept O p (O.write s) _ (fresh_restores L) 100 h c (O.collect true s) (fresh_start L) s' h' c' e
  have hk := hrow k le_rfl
  exact ⟨row k, s'', _, L.trans _ _ _ hk.1.1 (L.run _ _ _ _ hk.1.2.1 hk.2).2.1, hread, hs'⟩

/-- When the error estimate is never above 1 and no run or load fails, a fresh iterator returns. -/
theorem lawful_returns {S : Type} {O : IterSys S ℝ} {s : S} {frame same : S → S → Prop} {sync : S → Bool} (L : Lawful O s frame same sync)
    (p : Params ℝ) (hD : 1 ≤ p.maxDepth) (hp : ∀ a b c, p.err a b c ≤ 1) (h : ℝ)
    (run : ∀ x j, FreshOf O s frame same sync x → j ≤ 1 → ∃ y, O.integrate h (hSeq p.maxDepth j) x = .ok y)
    (read : ∀ x v, frame s x → v.length = (O.write s).length → ∃ y, O.read x v = .ok y) :
    ∃ s' h' c', iterate O p h (State.init p.maxDepth) s = .ok (s', h', c') := by
  set s0 := O.clear (O.collect true s) with hs0
  have F0 : FreshOf O s frame same sync s0 := fresh_start L
  obtain ⟨s1, e1⟩ := run s0 0 F0 (by norm_num)
  have f1 : frame s s1 := L.trans _ _ _ F0.1 (L.run _ _ _ _ F0.2.1 e1).2.1
  obtain ⟨s2, e2⟩ := read s1 (O.write s) f1 rfl
  have F2 := (fresh_restores L).again _ _ _ _ _ F0 e1 e2
  obtain ⟨s3, e3⟩ := run (O.clear s2) 1 F2 le_rfl
  have f3 : frame s s3 := L.trans _ _ _ F2.1 (L.run _ _ _ _ F2.2.1 e3).2.1
  have hread : ∀ d : Arr ℝ, ∃ s4, O.read s3 (arrayAdvance (O.write s) d) = .ok s4 := fun d =>
    read s3 _ f3 (by unfold arrayAdvance; rw [List.length_mapIdx])
  have hle : ∀ a b c, (Arith.le (p.err a b c) (Arith.ofRat 1 : ℝ)) = true := fun a b c => by
    show decide (p.err a b c ≤ ((1 : ℚ) : ℝ)) = true
    simpa using hp a b c
  have hset : ∀ c : State ℝ, c.first = true → ∃ r, setNextIteration p c 1 = .ok r := fun c hc => by
    unfold setNextIteration
    rw [if_neg (by rw [hc]; simp)]
    unfold chk
    rw [if_pos hD]
    exact ⟨_, rfl⟩
  unfold iterate
  rw [show (100 : Nat) = 99 + 1 from rfl, attempts]
  dsimp only
  rw [show O.integrate h (hSeq p.maxDepth 0) (O.clear (O.collect true s)) = .ok s1 from e1, Res.ok_bind]
  generalize hc1 : ({ (State.init p.maxDepth : State ℝ) with iterNum := _, rows := _ } : State ℝ) = c1
  have hfirst : c1.first = true := by rw [← hc1]; rfl
  generalize c1.rank = m
  rw [columns, e2, Res.ok_bind]
  have hck : chk p.maxDepth 1 = .ok () := by unfold chk; rw [if_pos hD]
  dsimp only
  rw [hck, Res.ok_bind, e3, Res.ok_bind]
  generalize hce : evalColumn p _ h _ 1 = ce
  have hcf : ce.1.first = true := by rw [← hce]; exact hfirst
  have hce2 : Arith.le ce.2 (Arith.ofRat 1 : ℝ) = true := by rw [← hce]; exact hle _ _ _
  rw [if_pos (by unfold inWindow; rw [hcf]; simp), if_pos hce2]
  obtain ⟨s4, e4⟩ := hread (ce.1.rows 0)
  obtain ⟨r, e5⟩ := hset { ce.1 with reject := false } hcf
  rw [e4, Res.ok_bind, e5]
  exact ⟨_, _, _, rfl⟩

theorem chain_good {IC : ChainInteractions} {kdk : Bool} {p : Params ℝ} {h h' : ℝ} {c c' : State ℝ} {s s' : ChainSys}
    (g : ChainSys.Good IC.velDep s) (e : iterate (chainSys IC kdk) p h c s = .ok (s', h', c')) : ChainSys.Good IC.velDep s' := by
  obtain ⟨x, y, v, ⟨f1, f2, f3⟩, hr, rfl⟩ := iterate_read (chain_lawful IC kdk s g.cons) p h c c' s' h' e
  have hr : x.read IC v = .ok y := hr
  have hl : v.length = x.variableNumber IC := by
    by_contra hne
    rw [C13_chain_abort IC x v hne] at hr; cases hr
  have hn : x.P.num ≠ 0 := by rw [f1]; exact g.cons.num
  have hi : IsIndex x.P.num x.index := by rw [f1, f3]; exact g.cons.index
  obtain ⟨y', e1, _, hc⟩ := C13_chain_write_read IC x hn hi v hl
  rw [hr] at e1; cases e1
  obtain ⟨⟨q1, q2, q3⟩, _⟩ := ChainSys.read_frame IC x y v hn hi hr
  rw [← q1, ← q3] at hc
  exact ⟨by show 2 ≤ y.P.num; rw [q1, f1]; exact g.two, hc⟩

theorem ar_good {G : ℝ} {type : ReguType} {IC : ChainInteractions} {kdk : Bool} {p : Params ℝ} {h h' : ℝ} {c c' : State ℝ} {s s' : ARSys}
    (g : ARSys.Good IC.velDep s) (e : iterate (archainSys G type IC kdk) p h c s = .ok (s', h', c')) : ARSys.Good IC.velDep s' := by
  obtain ⟨x, y, v, ⟨f1, f2, f3⟩, hr, rfl⟩ := iterate_read (ar_lawful G type IC kdk s g.cons) p h c c' s' h' e
  have hr : x.read IC v = .ok y := hr
  have hl : v.length = x.variableNumber IC := by
    by_contra hne
    rw [C13_archain_abort IC x v hne] at hr; cases hr
  have hn : x.P.num ≠ 0 := by rw [f1]; exact g.cons.num
  have hi : IsIndex x.P.num x.index := by rw [f1, f3]; exact g.cons.index
  obtain ⟨y', e1, _, hc⟩ := C13_archain_write_read IC x hn hi v hl
  rw [hr] at e1; cases e1
  obtain ⟨⟨q1, q2, q3⟩, _⟩ := ARSys.read_frame IC x y v hn hi hr
  rw [← q1, ← q3] at hc
  exact ⟨by show 2 ≤ y.P.num; rw [q1, f1]; exact g.two, hc⟩

/-! ### an extrapolated step of a chain system -/

theorem same_good {IC : ChainInteractions} {s r : ChainSys} (g : ChainSys.Good IC.velDep s) (H : SameChain IC s r) : ChainSys.Good IC.velDep r := by
  obtain ⟨_, h1, _, h2, h3, h4⟩ := H
  refine ⟨by rw [h1]; exact g.two, ?_⟩
  rw [h1, h2]
  exact ⟨g.cons.num, g.cons.index, belongs_congr g.cons.num g.cons.index (fun k hk => ((h4 k hk).1).symm) (fun k hk => ((h3 k hk).1).symm) g.cons.pos,
    belongs_congr g.cons.num g.cons.index (fun k hk => ((h4 k hk).2.1).symm) (fun k hk => ((h3 k hk).2.1).symm) g.cons.vel,
    fun hd => belongs_congr g.cons.num g.cons.index (fun k hk => ((h4 k hk).2.2 hd).symm) (fun k hk => ((h3 k hk).2.2 hd).symm) (g.cons.aux hd)⟩

theorem same_good_ar {IC : ChainInteractions} {s r : ARSys} (g : ARSys.Good IC.velDep s) (H : SameAR IC s r) : ARSys.Good IC.velDep r := by
  obtain ⟨_, h1, _, h2, _, _, h3, h4⟩ := H
  refine ⟨by rw [h1]; exact g.two, ?_⟩
  rw [h1, h2]
  exact ⟨g.cons.num, g.cons.index, belongs_congr g.cons.num g.cons.index (fun k hk => ((h4 k hk).1).symm) (fun k hk => ((h3 k hk).1).symm) g.cons.pos,
    belongs_congr g.cons.num g.cons.index (fun k hk => ((h4 k hk).2.1).symm) (fun k hk => ((h3 k hk).2.1).symm) g.cons.vel,
    fun hd => belongs_congr g.cons.num g.cons.index (fun k hk => ((h4 k hk).2.2 hd).symm) (fun k hk => ((h3 k hk).2.2 hd).symm) (g.cons.aux hd)⟩

section
variable {IC : ChainInteractions} {I : Interactions} (A : AgreesI IC I)
include A

theorem chain_extrap {kdk : Bool} {D : Nat} {err : List ℝ → (Nat → ℝ) → (Nat → ℝ) → ℝ} {h : ℝ} {s s' : ChainSys} {k : Nat}
    (g : ChainSys.Good IC.velDep s) (g' : ChainSys.Good IC.velDep s') (hn' : s'.P.num = s.P.num) (hi' : s'.index = s.index)
    (X : ExtrapolatedAt (hSeq D) D (ChainSys.write IC)
      (fun h n => (chainOps IC).run (if kdk then substepsKDK h n else substepsDKD h n)) (SameChain IC) err h s s' k) :
    ExtrapolatedAt (hSeq D) D (Simple.write I)
      (fun h n => (simpleOps I).run (if kdk then substepsKDK h n else substepsDKD h n)) (SameSimple I) (fun _ _ _ => 0) h s.abs s'.abs k := by
  obtain ⟨start, row, T0, T1, hk1, hkD, hrow, hT, _⟩ := X
  have dv := A.velDep_eq
  have each : ∀ m, m ≤ k → ChainSys.Good IC.velDep (row m) ∧ (row m).P.num = s.P.num ∧ (row m).index = s.index ∧
      (simpleOps I).run (if kdk then substepsKDK h (hSeq D m) else substepsDKD h (hSeq D m)) (start m).abs = .ok (row m).abs := by
    intro m hm
    obtain ⟨hs, hr⟩ := hrow m hm
    have gs := same_good g hs
    obtain ⟨r, t, e1, e2, g2, e3⟩ := chainOps_run A dv _ (start m) gs
    dsimp only at hr
    rw [e1] at hr; cases hr
    obtain ⟨q1, _, q3⟩ := ChainSys.run_frame IC _ _ _ e1
    exact ⟨g2, q1.trans hs.2.1, q3.trans hs.2.2.2.1, by rw [e2, e3]⟩
  have hlen : (s.write IC).length = s'.P.num * 3 * (2 + IC.velDep.toNat) + 1 := by
    rw [C13_chain_size, hn']; rfl
  have F := extraF_of (D := D) (k := k) (dep := IC.velDep) (f' := s'.flat) (f := fun m => (row m).flat)
    (fun m hm => (each m hm).2.1.trans hn'.symm) (fun i hi => by
      have := (hT i (by rw [hlen]; exact hi)).1
      simp only [ChainSys.write_getD] at this
      exact this)
  have idx' : IsIndex s'.P.num s'.index := g'.cons.index
  have bel : ∀ m, m ≤ k → ChainConsistent IC.velDep s'.P.num s'.index (row m).cpos (row m).cvel (row m).caux (row m).P.pos (row m).P.vel (row m).aux := by
    intro m hm
    obtain ⟨q0, q1, q2, _⟩ := each m hm
    have := q0.cons
    rw [q1, q2, ← hn', ← hi'] at this
    exact this
  have F' : ExtraF D k I.velDep s'.abs.flat (fun m => (row m).abs.flat) :=
    ⟨F.time, extraV_belongs idx' g'.cons.pos (fun m hm => (bel m hm).pos) F.x, extraV_belongs idx' g'.cons.vel (fun m hm => (bel m hm).vel) F.v,
      fun hd => extraV_belongs idx' (g'.cons.aux (dv.trans hd)) (fun m hm => (bel m hm).aux (dv.trans hd)) (F.a (dv.trans hd))⟩
  have z : (0 : ℝ) = zeroStep (hSeq D) (fun _ => (0 : ℝ)) 0 k := ((zeroLin (hSeq D) 0 k).map_zero).symm
  refine ⟨fun m => (start m).abs, fun m => (row m).abs, fun i => (s'.abs.write I).getD i 0 - (s.abs.write I).getD i 0,
    fun i => zeroStep (hSeq D) (fun m => ((row m).abs.write I).getD i 0) 1 k - (s.abs.write I).getD i 0, hk1, hkD, fun m hm => ⟨?_, (each m hm).2.2.2⟩,
    fun i _ => ⟨?_, rfl, rfl⟩, zero_le_one⟩
  · obtain ⟨⟨a1, a2, a3, a4, a5, a6⟩, _⟩ := hrow m hm
    exact ⟨a1, a2, a3, fun j hj => ⟨(a5 j hj).1, (a5 j hj).2.1, fun hd => (a5 j hj).2.2 (dv.trans hd)⟩⟩
  · simp only [Simple.write_getD]
    exact F'.val (fun m hm => (each m hm).2.1.trans hn'.symm) z z i

theorem ar_extrap {G : ℝ} {type : ReguType} {kdk : Bool} {D : Nat} {err : List ℝ → (Nat → ℝ) → (Nat → ℝ) → ℝ} {h : ℝ} {s s' : ARSys} {k : Nat}
    (g : ARSys.Good IC.velDep s) (g' : ARSys.Good IC.velDep s') (hn' : s'.P.num = s.P.num) (hi' : s'.index = s.index)
    (X : ExtrapolatedAt (hSeq D) D (ARSys.write IC)
      (fun h n => (arOps G type IC).run (if kdk then substepsKDK h n else substepsDKD h n)) (SameAR IC) err h s s' k) :
    ExtrapolatedAt (hSeq D) D (ReguSys.write I)
      (fun h n => (reguOps G type I).run (if kdk then substepsKDK h n else substepsDKD h n)) (SameRegu I) (fun _ _ _ => 0) h s.abs s'.abs k := by
  obtain ⟨start, row, T0, T1, hk1, hkD, hrow, hT, _⟩ := X
  have dv := A.velDep_eq
  have each : ∀ m, m ≤ k → ARSys.Good IC.velDep (row m) ∧ (row m).P.num = s.P.num ∧ (row m).index = s.index ∧
      (reguOps G type I).run (if kdk then substepsKDK h (hSeq D m) else substepsDKD h (hSeq D m)) (start m).abs = .ok (row m).abs := by
    intro m hm
    obtain ⟨hs, hr⟩ := hrow m hm
    have gs := same_good_ar g hs
    dsimp only at hr
    rcases arOps_run A G type dv _ (start m) gs with ⟨r, e1, e2, g2⟩ | ⟨e1, _⟩
    · rw [hr] at e1; cases e1
      obtain ⟨q1, _, q3⟩ := ARSys.run_frame G type IC _ _ _ hr
      exact ⟨g2, q1.trans hs.2.1, q3.trans hs.2.2.2.1, e2⟩
    · rw [hr] at e1; cases e1
  have hlen : (s.write IC).length = s'.P.num * 3 * (2 + IC.velDep.toNat) + 3 := by
    rw [C13_archain_size, hn']; rfl
  have nums : ∀ m, m ≤ k → (row m).flat.n = s'.flat.n := fun m hm => (each m hm).2.1.trans hn'.symm
  have val : ∀ i, i < s'.P.num * 3 * (2 + IC.velDep.toNat) + 3 →
      s'.flat.val IC.velDep i = zeroStep (hSeq D) (fun m => (row m).flat.val IC.velDep i) 0 k := by
    intro i hi
    have := (hT i (by rw [hlen]; exact hi)).1
    simp only [ARSys.write_getD] at this
    exact this
  have F := extraF_of (D := D) (k := k) (dep := IC.velDep) (f' := s'.flat) (f := fun m => (row m).flat) nums (fun i hi => val i (by
    have : i < s'.P.num * 3 * (2 + IC.velDep.toNat) + 1 := hi
    omega))
  have hom : s'.flat.om = zeroStep (hSeq D) (fun m => (row m).flat.om) 0 k := by
    have := val (omegaOffset s'.P.num IC.velDep) (by unfold omegaOffset; omega)
    rw [show s'.flat.val IC.velDep (omegaOffset s'.P.num IC.velDep) = s'.flat.om from omEntry IC.velDep s'.flat] at this
    rw [this]
    refine zeroStep_congr fun m _ hm => ?_
    rw [show s'.P.num = (row m).flat.n from (nums m hm).symm]
    exact omEntry _ _
  have hbe : s'.flat.be = zeroStep (hSeq D) (fun m => (row m).flat.be) 0 k := by
    have := val (bindEOffset s'.P.num IC.velDep) (by unfold bindEOffset; omega)
    rw [show s'.flat.val IC.velDep (bindEOffset s'.P.num IC.velDep) = s'.flat.be from beEntry' IC.velDep s'.flat] at this
    rw [this]
    refine zeroStep_congr fun m _ hm => ?_
    rw [show s'.P.num = (row m).flat.n from (nums m hm).symm]
    exact beEntry' _ _
  have idx' : IsIndex s'.P.num s'.index := g'.cons.index
  have bel : ∀ m, m ≤ k → ChainConsistent IC.velDep s'.P.num s'.index (row m).cpos (row m).cvel (row m).caux (row m).P.pos (row m).P.vel (row m).aux := by
    intro m hm
    obtain ⟨q0, q1, q2, _⟩ := each m hm
    have := q0.cons
    rw [q1, q2, ← hn', ← hi'] at this
    exact this
  have F' : ExtraF D k I.velDep s'.abs.flat (fun m => (row m).abs.flat) :=
    ⟨F.time, extraV_belongs idx' g'.cons.pos (fun m hm => (bel m hm).pos) F.x, extraV_belongs idx' g'.cons.vel (fun m hm => (bel m hm).vel) F.v,
      fun hd => extraV_belongs idx' (g'.cons.aux (dv.trans hd)) (fun m hm => (bel m hm).aux (dv.trans hd)) (F.a (dv.trans hd))⟩
  refine ⟨fun m => (start m).abs, fun m => (row m).abs, fun i => (s'.abs.write I).getD i 0 - (s.abs.write I).getD i 0,
    fun i => zeroStep (hSeq D) (fun m => ((row m).abs.write I).getD i 0) 1 k - (s.abs.write I).getD i 0, hk1, hkD, fun m hm => ⟨?_, (each m hm).2.2.2⟩,
    fun i _ => ⟨?_, rfl, rfl⟩, zero_le_one⟩
  · obtain ⟨⟨a1, a2, a3, a4, a5, a6, a7, a8⟩, _⟩ := hrow m hm
    exact ⟨a1, a2, a3, a5, a6, fun j hj => ⟨(a7 j hj).1, (a7 j hj).2.1, fun hd => (a7 j hj).2.2 (dv.trans hd)⟩⟩
  · simp only [ReguSys.write_getD]
    exact F'.val nums hom hbe i

end

end SpaceHub.BS
