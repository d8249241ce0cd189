import Verif.Proof.LetterExtrap
import Verif.Proof.KdkDrag
import Verif.Props.Forced
import Verif.Props.BSChain
import Mathlib.Analysis.Complex.ExponentialBounds

/-
C101: the order of Bulirsch-Stoer with additional forces.
-/

set_option autoImplicit false

namespace SpaceHub.Sys
open SpaceHub V3 Force Core Integrator Spec Props Finset Converge BS BS.Spec
open scoped ContDiff

/-- the runs of a Bulirsch-Stoer step on a plain system with any forces -/
abbrev ForcedAt (I : Interactions) (kdk : Bool) (D : Nat) (err : List ℝ → (Nat → ℝ) → (Nat → ℝ) → ℝ) : ℝ → Simple → Simple → Nat → Prop :=
  ExtrapolatedAt (hSeq D) D (Simple.write I) (fun h n => (simpleOps I).run (if kdk then substepsKDK h n else substepsDKD h n)) (SameSimple I) err

theorem preIter_same (I : Interactions) (s : Simple) : (s.preIter I).P = s.P ∧ (s.preIter I).time = s.time := by
  unfold Simple.preIter; split_ifs <;> exact ⟨rfl, rfl⟩

/-- what an extrapolated step says about the variables -/
theorem forced_vars {I : Interactions} {kdk : Bool} {D : Nat} {err : List ℝ → (Nat → ℝ) → (Nat → ℝ) → ℝ} {h : ℝ} {s s' : Simple} {k : Nat}
    (X : ForcedAt I kdk D err h s s' k) (hn' : s'.P.num = s.P.num) :
    s'.time = s.time + h ∧ 1 ≤ k ∧ k ≤ D ∧ ∃ start row : Nat → Simple,
      (∀ m, m ≤ k → SameSimple I s (start m) ∧ (simpleOps I).run ((subStages kdk (hSeq D m)).map (Stage.op h)) (start m) = .ok (row m)) ∧
      ExtraF D k I.velDep s'.flat (fun m => (row m).flat) := by
  obtain ⟨start, row, T0, T1, hk1, hkD, hrow, hT, _⟩ := X
  have hlen : (s.write I).length = s.variableNumber I := C13_simple_size I s
  have hnum : ∀ m, m ≤ k → (row m).P.num = s'.P.num := fun m hm' => by
    have f := Simple.run_frame I _ _ _ (hrow m hm').2
    exact (f.1.trans (hrow m hm').1.2.1).trans hn'.symm
  have E : ExtraF D k I.velDep s'.flat (fun m => (row m).flat) := by
    refine extraF_of hnum fun i hi => ?_
    have hi' : i < s.variableNumber I := by
      change i < s'.P.num * 3 * (2 + I.velDep.toNat) + 1 at hi
      unfold Simple.variableNumber
      rw [hn'] at hi
      exact hi
    have := (hT i (by rw [hlen]; exact hi')).1
    simp only [Simple.write_getD] at this
    exact this
  have htime : ∀ m, m ≤ k → (row m).time = s.time + h := by
    intro m hm'
    obtain ⟨hs, hr⟩ := hrow m hm'
    obtain ⟨a1, a2⟩ := driftTime_substeps h (hSeq D m) (hSeq_pos (by omega))
    obtain ⟨t, ht, htt⟩ := C17_simple_time I (if kdk then substepsKDK h (hSeq D m) else substepsDKD h (hSeq D m)) (start m)
    dsimp only at hr
    rw [ht] at hr
    rw [← Res.ok.inj hr, htt, hs.1]
    cases kdk
    · exact congrArg _ a1
    · exact congrArg _ a2
  refine ⟨?_, hk1, hkD, start, row, fun m hm => ⟨(hrow m hm).1, ?_⟩, E⟩
  · have h1 : s'.time = zeroStep (hSeq D) (fun m => (row m).time) 0 k := E.time
    rw [h1, zeroStep_congr (y' := fun _ => s.time + h) (fun m _ hm' => htime m hm')]
    exact zeroLin_const (Nat.zero_le _) hkD _
  · rw [subStages_calls kdk h _ (hSeq_pos (by omega))]
    exact (hrow m hm).2

/-- one step with velocity-dependent forces as an abstract step -/
theorem forced_extrap3 {I : Interactions} {n : Nat} {m : Nat → ℝ} {a : Field n} (A : Acts I n m a) (hd : I.velDep = true) {kdk : Bool} {D : Nat}
    {err : List ℝ → (Nat → ℝ) → (Nat → ℝ) → ℝ} {h : ℝ} {s s' : Simple} {k : Nat} (X : ForcedAt I kdk D err h s s' k) (hn : s.P.num = n)
    (hm : ∀ i, i < n → s.P.mass i = m i) (hn' : s'.P.num = s.P.num) : extOf n s' = (Letters.moveMix D kdk k).step (moveF a) h (extOf n s) := by
  obtain ⟨_, _, _, start, row, hrow, E⟩ := forced_vars X hn'
  have hns : s'.P.num = n := hn'.trans hn
  have hf : s'.flat.n = n := hns
  have ex := conf_extrap (D := D) (k := k) (n := n) s'.P.pos (fun m => (row m).P.pos) (hf ▸ E.x)
  have ev := conf_extrap (D := D) (k := k) (n := n) s'.P.vel (fun m => (row m).P.vel) (hf ▸ E.v)
  have ea := conf_extrap (D := D) (k := k) (n := n) s'.aux (fun m => (row m).aux) (hf ▸ E.a hd)
  have er : ∀ j ∈ Icc 0 k, Letters.wstep (moveF a) ((subStages kdk (hSeq D j)).flatMap split) h (extOf n s) = extOf n (row j) := by
    intro j hj
    have hj' := (mem_Icc.1 hj).2
    obtain ⟨⟨_, b1, b2, b3⟩, hr⟩ := hrow j hj'
    obtain ⟨r, e, _, _, a3⟩ := stages_link3 A hd h (subStages kdk (hSeq D j)) (start j) (b1.trans hn) (fun i hi => by rw [b2]; exact hm i hi)
    rw [e] at hr
    rw [← Res.ok.inj hr, a3]
    have c1 : conf n (start j).P.pos = conf n s.P.pos := funext fun i => congrArg co (b3 i (by rw [hn]; exact i.2)).1
    have c2 : conf n (start j).P.vel = conf n s.P.vel := funext fun i => congrArg co (b3 i (by rw [hn]; exact i.2)).2.1
    have c3 : conf n (start j).aux = conf n s.aux := funext fun i => congrArg co ((b3 i (by rw [hn]; exact i.2)).2.2 hd)
    rw [extOf, extOf, c1, c2, c3]
  show _ = ∑ j ∈ Icc 0 k, weight D 0 k j • Letters.wstep (moveF a) ((subStages kdk (hSeq D j)).flatMap split) h (extOf n s)
  rw [sum_congr rfl fun j hj => by rw [er j hj]]
  refine Prod.ext ?_ (Prod.ext ?_ ?_)
  · rw [Prod.fst_sum]; exact ex
  · rw [Prod.snd_sum, Prod.fst_sum]; exact ev
  · rw [Prod.snd_sum, Prod.snd_sum]; exact ea

/-- one step with forces that do not depend on the velocities as an abstract step -/
theorem forced_extrap2 {I : Interactions} {n : Nat} {m : Nat → ℝ} {a : Field n} (A : Acts I n m a) (hd : I.velDep = false) {kdk : Bool} {D : Nat}
    {err : List ℝ → (Nat → ℝ) → (Nat → ℝ) → ℝ} {h : ℝ} {s s' : Simple} {k : Nat} (X : ForcedAt I kdk D err h s s' k) (hn : s.P.num = n)
    (hm : ∀ i, i < n → s.P.mass i = m i) (hn' : s'.P.num = s.P.num) :
    (conf n s'.P.pos, conf n s'.P.vel) = (extrapMix D kdk 0 k).step (restF a) h (conf n s.P.pos, conf n s.P.vel) := by
  obtain ⟨_, _, _, start, row, hrow, E⟩ := forced_vars X hn'
  have hns : s'.P.num = n := hn'.trans hn
  have hf : s'.flat.n = n := hns
  have ex := conf_extrap (D := D) (k := k) (n := n) s'.P.pos (fun m => (row m).P.pos) (hf ▸ E.x)
  have ev := conf_extrap (D := D) (k := k) (n := n) s'.P.vel (fun m => (row m).P.vel) (hf ▸ E.v)
  have er : ∀ j ∈ Icc 0 k, wstep (restF a) (subStages kdk (hSeq D j)) h (conf n s.P.pos, conf n s.P.vel) = (conf n (row j).P.pos, conf n (row j).P.vel) := by
    intro j hj
    have hj' := (mem_Icc.1 hj).2
    obtain ⟨⟨_, b1, b2, b3⟩, hr⟩ := hrow j hj'
    obtain ⟨r, e, _, _, a3⟩ := stages_link2 A hd h (subStages kdk (hSeq D j)) (start j) (b1.trans hn) (fun i hi => by rw [b2]; exact hm i hi)
    rw [e] at hr
    rw [← Res.ok.inj hr, a3]
    have c1 : conf n (start j).P.pos = conf n s.P.pos := funext fun i => congrArg co (b3 i (by rw [hn]; exact i.2)).1
    have c2 : conf n (start j).P.vel = conf n s.P.vel := funext fun i => congrArg co (b3 i (by rw [hn]; exact i.2)).2.1
    rw [c1, c2]
  show _ = ∑ j ∈ Icc 0 k, weight D 0 k j • wstep (restF a) (subStages kdk (hSeq D j)) h (conf n s.P.pos, conf n s.P.vel)
  rw [sum_congr rfl fun j hj => by rw [er j hj]]
  refine Prod.ext ?_ ?_
  · rw [Prod.fst_sum]; exact ex
  · rw [Prod.snd_sum]; exact ev

/-- C101 for any sequence of extrapolated steps -/
theorem forced_core {I : Interactions} {n : Nat} {m : Nat → ℝ} {a : Field n} (A : Acts I n m a) {x v : ℝ → Nat → V3 ℝ} {t0 t1 : ℝ} (ht : t0 ≤ t1)
    (M : ForcedMotion n a x v t0 t1) (hS : SmoothAlong a x v t0 t1) (D : Nat) :
    ∃ K ρ : ℝ, 0 ≤ K ∧ 0 < ρ ∧ ∀ P, InState n m x v t0 P → ∀ (kdk : Bool), (I.velDep = true → kdk = false) →
      ∀ (err : List ℝ → (Nat → ℝ) → (Nat → ℝ) → ℝ) (N : Nat) (s : Nat → Simple) (k : Nat → Nat), s 0 = Simple.init t0 P →
      (∀ i, i < N → ForcedAt I kdk D err ((s (i + 1)).time - (s i).time) ((s i).preIter I) (s (i + 1)) (k i) ∧ (s (i + 1)).P.num = (s i).P.num ∧
        (s (i + 1)).P.mass = (s i).P.mass) →
      (∀ i, i < N → (s i).time ≤ (s (i + 1)).time ∧ (s (i + 1)).time - (s i).time ≤ ρ) → (s N).time ≤ t1 →
      WithinOf n m x v (s N).time (K * ∑ i ∈ range N, ((s (i + 1)).time - (s i).time) ^ (2 * k i + 3)) (s N).P := by
  obtain ⟨U, hU, hsm, hin⟩ := hS
  have mem : ∀ t ∈ Set.Icc 0 (t1 - t0), t0 + t ∈ Set.Icc t0 t1 := fun t ht => ⟨by linarith [ht.1], by linarith [ht.2]⟩
  have frame : ∀ (N : Nat) (s : Nat → Simple) (P : Particles), InState n m x v t0 P → s 0 = Simple.init t0 P →
      (∀ i, i < N → (s (i + 1)).P.num = (s i).P.num ∧ (s (i + 1)).P.mass = (s i).P.mass) → ∀ i, i ≤ N → (s i).P.num = n ∧ ∀ j, j < n → (s i).P.mass j = m j := by
    intro N s P S hs0 hk i
    induction i with
    | zero => intro _; rw [hs0]; exact ⟨S.num, S.mass⟩
    | succ i ih =>
      intro hi
      obtain ⟨a, b⟩ := hk i (by omega)
      obtain ⟨c1, c2⟩ := ih (by omega)
      exact ⟨a.trans c1, fun j hj => by rw [b]; exact c2 j hj⟩
  cases hd : I.velDep with
  | true =>
    have cx : Continuous (fun z : Ext n => (z.1, z.2.1)) := by fun_prop
    have cw : Continuous (fun z : Ext n => (z.1, z.2.2)) := by fun_prop
    obtain ⟨NN, W, hB⟩ := Letters.move_bounded D
    obtain ⟨K, ρ, hK, hρ, _, _, key⟩ := Letters.mix_global (f := moveF a) (U := (fun z : Ext n => (z.1, z.2.1)) ⁻¹' U ∩ (fun z : Ext n => (z.1, z.2.2)) ⁻¹' U)
      ((hU.preimage cx).inter (hU.preimage cw)) (by
        intro X
        cases X with
        | drift => exact (contDiff_snd.fst.prodMk contDiff_const).contDiffOn
        | real =>
          refine contDiffOn_const.prodMk (ContDiffOn.prodMk ?_ contDiffOn_const)
          exact hsm.comp (f := fun z : Ext n => (z.1, z.2.2)) (contDiff_fst.prodMk contDiff_snd.snd).contDiffOn fun z hz => hz.2
        | pseudo =>
          refine contDiffOn_const.prodMk (ContDiffOn.prodMk contDiffOn_const ?_)
          exact hsm.comp (f := fun z : Ext n => (z.1, z.2.1)) (contDiff_fst.prodMk contDiff_snd.fst).contDiffOn fun z hz => hz.1)
      (move_straight a) (T := t1 - t0) (by linarith) (y := fun t => (conf n (x (t0 + t)), conf n (v (t0 + t)), conf n (v (t0 + t))))
      (fun t ht => by
        obtain ⟨d1, d2⟩ := forced_curve M ht
        refine (d1.prodMk (d2.prodMk d2)).congr_deriv ?_
        rw [show (univ : Finset Move) = {.drift, .real, .pseudo} from rfl, sum_insert (by decide), sum_insert (by decide), sum_singleton]
        simp [moveF]) (fun t ht => ⟨hin _ (mem t ht), hin _ (mem t ht)⟩) (2 * D + 2) NN 1 W equalize_norm (fun t _ => rfl) one_pos
    refine ⟨2 * K, ρ, by positivity, hρ, fun P S kdk hkdk err N s k hs0 hk hst hend => ?_⟩
    obtain rfl := hkdk rfl
    have fr := frame N s P S hs0 (fun i hi => (hk i hi).2)
    obtain ⟨step, hstep⟩ : ∃ step : Nat → Letters.MStep Move, ∀ j, step j = ⟨Letters.moveMix D false (k j), 2 * k j + 2, (s (j + 1)).time - (s j).time⟩ := ⟨_, fun _ => rfl⟩
    have link : ∀ i, i ≤ N → extOf n (s i) =
        Letters.mrun (moveF a) equalize ((List.range i).map step) (conf n (x (t0 + 0)), conf n (v (t0 + 0)), conf n (v (t0 + 0))) ∧
        (s i).time = t0 + (((List.range i).map step).map Letters.MStep.h).sum := by
      intro i
      induction i with
      | zero =>
        intro _
        refine ⟨?_, ?_⟩
        · rw [hs0, add_zero]
          have := Prod.ext_iff.1 (start_conf S)
          exact Prod.ext this.1 (Prod.ext this.2 this.2)
        · rw [hs0]; simp [Simple.init]
      | succ i ih =>
        intro hi
        obtain ⟨a1, b⟩ := ih (by omega)
        obtain ⟨f1, f2⟩ := fr i (by omega)
        obtain ⟨X, e1, _⟩ := hk i (by omega)
        have pP := (preIter_same I (s i)).1
        have e3 := forced_extrap3 A hd X (by rw [pP]; exact f1) (by rw [pP]; exact f2) (by rw [pP]; exact e1)
        have e4 : extOf n ((s i).preIter I) = equalize (extOf n (s i)) := by unfold Simple.preIter; rw [if_pos hd]; rfl
        rw [List.range_succ, List.map_append, List.map_cons, List.map_nil]
        refine ⟨?_, ?_⟩
        · have e5 : ∀ l q z, Letters.mrun (moveF a) equalize (l ++ [q]) z = q.X.step (moveF a) q.h (equalize (Letters.mrun (moveF a) equalize l z)) := fun l q z => by
            rw [Letters.mrun, List.foldl_append]; rfl
          rw [e5, ← a1, e3, e4, hstep]
        · rw [List.map_append, List.sum_append, hstep]
          simp only [List.map_cons, List.map_nil, List.sum_singleton]
          linarith
    obtain ⟨a1, b⟩ := link N le_rfl
    obtain ⟨f1, f2⟩ := fr N le_rfl
    have g := (key ((List.range N).map step) (fun q hq => by
      obtain ⟨j, hj, rfl⟩ := List.mem_map.1 hq
      have hj' := List.mem_range.1 hj
      obtain ⟨⟨_, _, _, _, hk1, hkD, _⟩, _⟩ := hk j hj'
      obtain ⟨q1, q2⟩ := hst j hj'
      rw [hstep]
      exact ⟨hB false (k j) hkD, Letters.move_order hkD, by simp, by simp only; omega, by simp only; linarith, q2⟩)
      (by linarith)).1
    rw [mul_assoc, b]
    refine within_of f1 f2 ?_
    rw [← a1, List.map_map] at g
    have g0 : ‖extOf n (s N) - (conf n (x (t0 + (((List.range N).map step).map Letters.MStep.h).sum)), conf n (v (t0 + (((List.range N).map step).map Letters.MStep.h).sum)),
        conf n (v (t0 + (((List.range N).map step).map Letters.MStep.h).sum)))‖ ≤ K * ∑ i ∈ range N, ((s (i + 1)).time - (s i).time) ^ (2 * k i + 3) := by
      rw [List.map_map]
      refine g.trans (le_of_eq ?_)
      rw [List.map_map, ← List.sum_toFinset _ List.nodup_range, List.toFinset_range]
      congr 1
      refine sum_congr rfl fun i _ => ?_
      simp only [Function.comp, hstep]
    obtain ⟨T, hT⟩ : ∃ T, T = (((List.range N).map step).map Letters.MStep.h).sum := ⟨_, rfl⟩
    rw [← hT] at g0 ⊢
    have g1 := (norm_fst_le (extOf n (s N) - (conf n (x (t0 + T)), conf n (v (t0 + T)), conf n (v (t0 + T))))).trans g0
    have g2 := ((norm_fst_le _).trans (norm_snd_le (extOf n (s N) - (conf n (x (t0 + T)), conf n (v (t0 + T)), conf n (v (t0 + T)))))).trans g0
    exact norm_prod_le_iff.2 ⟨g1, g2⟩
  | false =>
    obtain ⟨NN, W, hB⟩ := extrap_bounded D
    obtain ⟨K, ρ, hK, hρ, _, _, key⟩ := mix_global (f := restF a) hU (by
        intro X
        cases X
        · exact contDiffOn_const.prodMk hsm
        · exact (contDiff_snd.prodMk contDiff_const).contDiffOn)
      (rest_straight A hd) (T := t1 - t0) (by linarith) (y := fun t => (conf n (x (t0 + t)), conf n (v (t0 + t))))
      (fun t ht => by
        obtain ⟨d1, d2⟩ := forced_curve M ht
        refine (d1.prodMk d2).congr_deriv ?_
        simp [restF]) (fun t ht => hin _ (mem t ht)) (2 * D + 2) NN 1 W one_pos
    refine ⟨2 * K, ρ, by positivity, hρ, fun P S kdk _ err N s k hs0 hk hst hend => ?_⟩
    have fr := frame N s P S hs0 (fun i hi => (hk i hi).2)
    have hp : ∀ s : Simple, s.preIter I = s := fun s => by unfold Simple.preIter; rw [if_neg (by rw [hd]; simp)]
    have link : ∀ i, i ≤ N → (conf n (s i).P.pos, conf n (s i).P.vel) =
        mrun (restF a) ((List.range i).map fun j => bsStep D kdk ((s (j + 1)).time - (s j).time) (k j)) (conf n (x (t0 + 0)), conf n (v (t0 + 0))) ∧
        (s i).time = t0 + (((List.range i).map fun j => bsStep D kdk ((s (j + 1)).time - (s j).time) (k j)).map MStep.h).sum := by
      intro i
      induction i with
      | zero =>
        intro _
        refine ⟨?_, ?_⟩
        · rw [hs0, add_zero]; exact start_conf S
        · rw [hs0]; simp [Simple.init]
      | succ i ih =>
        intro hi
        obtain ⟨a1, b⟩ := ih (by omega)
        obtain ⟨f1, f2⟩ := fr i (by omega)
        obtain ⟨X, e1, _⟩ := hk i (by omega)
        rw [hp] at X
        have e3 := forced_extrap2 A hd X f1 f2 e1
        rw [List.range_succ, List.map_append, List.map_cons, List.map_nil]
        refine ⟨?_, ?_⟩
        · have e4 : ∀ l q z, mrun (restF a) (l ++ [q]) z = q.X.step (restF a) q.h (mrun (restF a) l z) := fun l q z => by
            rw [mrun, List.foldl_append]; rfl
          rw [e4, ← a1, e3]
          rfl
        · rw [List.map_append, List.sum_append]
          simp only [List.map_cons, List.map_nil, List.sum_singleton, bsStep]
          simp only [bsStep] at b
          linarith
    obtain ⟨a1, b⟩ := link N le_rfl
    obtain ⟨f1, f2⟩ := fr N le_rfl
    have g := (key ((List.range N).map fun j => bsStep D kdk ((s (j + 1)).time - (s j).time) (k j)) (fun q hq => by
      obtain ⟨j, hj, rfl⟩ := List.mem_map.1 hq
      have hj' := List.mem_range.1 hj
      obtain ⟨⟨_, _, _, _, hk1, hkD, _⟩, _⟩ := hk j hj'
      obtain ⟨q1, q2⟩ := hst j hj'
      exact ⟨hB kdk 0 (k j) hkD, extrap_order hkD (Nat.zero_le _) kdk, by simp [bsStep], by simp [bsStep]; omega, by simp [bsStep]; linarith, q2⟩)
      (by linarith)).1
    rw [mul_assoc, b]
    refine within_of f1 f2 ?_
    rw [a1]
    refine g.trans (le_of_eq ?_)
    rw [List.map_map, ← List.sum_toFinset _ List.nodup_range, List.toFinset_range]
    rfl

/-- **C101.** `n` particles of masses `m` move from `t0` to `t1` with the accelerations that the forces `I` give them, gravity and any additional forces; the
accelerations are smooth along the motion.  A plain system is integrated by Bulirsch-Stoer, macro step after macro step, from the exact state at `t0`; if a
force depends on the velocities, the sub-steps are those of `LeapFrogDKD`, as in all methods that the library names.  Every macro step has extrapolated from
the runs number 0 to some `k ≥ 1`.  As long as the steps are at most `ρ`, the particles are off the true ones by at most a constant times the sum of the
`2 k + 3`-th powers of the steps. -/
theorem C101_order {I : Interactions} {n : Nat} {m : Nat → ℝ} {a : Field n} (A : Acts I n m a) {x v : ℝ → Nat → V3 ℝ} {t0 t1 : ℝ} (ht : t0 ≤ t1)
    (M : ForcedMotion n a x v t0 t1) (hS : SmoothAlong a x v t0 t1) (D : Nat) :
    ∃ K ρ : ℝ, 0 ≤ K ∧ 0 < ρ ∧ ∀ P, InState n m x v t0 P → ∀ (kdk : Bool) (p : Params ℝ), (I.velDep = true → kdk = false) → p.maxDepth = D →
      ∀ (N : Nat) (s : Nat → Simple) (c : Nat → State ℝ) (h h' : Nat → ℝ), s 0 = Simple.init t0 P →
      (∀ i, i < N → iterate (simpleSys I kdk) p (h i) (c i) ((s i).preIter I) = .ok (s (i + 1), h' i, c (i + 1))) →
      (∀ i, i < N → (s i).time ≤ (s (i + 1)).time ∧ (s (i + 1)).time - (s i).time ≤ ρ) → (s N).time ≤ t1 →
      ∃ k : Nat → Nat, (∀ i, i < N → ForcedAt I kdk D p.err ((s (i + 1)).time - (s i).time) ((s i).preIter I) (s (i + 1)) (k i)) ∧
        WithinOf n m x v (s N).time (K * ∑ i ∈ range N, ((s (i + 1)).time - (s i).time) ^ (2 * k i + 3)) (s N).P := by
  obtain ⟨K, ρ, hK, hρ, H⟩ := forced_core A ht M hS D
  refine ⟨K, ρ, hK, hρ, fun P S kdk p hkdk hD N s c h h' hs0 hit hst hend => ?_⟩
  subst hD
  have each : ∀ i, ∃ k, i < N → ForcedAt I kdk p.maxDepth p.err ((s (i + 1)).time - (s i).time) ((s i).preIter I) (s (i + 1)) k ∧
      (s (i + 1)).P.num = (s i).P.num ∧ (s (i + 1)).P.mass = (s i).P.mass := by
    intro i
    rcases Nat.lt_or_ge i N with hi | hi
    · obtain ⟨hAcc, _, ⟨k, X⟩, ⟨hn, hm⟩, _⟩ := C29_simple I kdk p (h i) (c i) (c (i + 1)) _ (s (i + 1)) (h' i) (hit i hi)
      obtain ⟨pP, pt⟩ := preIter_same I (s i)
      have tm := (forced_vars X hn).1
      rw [pt] at tm
      rw [pP] at hn hm
      refine ⟨k, fun _ => ⟨?_, hn, hm⟩⟩
      rw [show (s (i + 1)).time - (s i).time = hAcc by linarith]
      exact X
    · exact ⟨0, fun h => absurd h (by omega)⟩
  choose k hk using each
  exact ⟨k, fun i hi => (hk i hi).1, H P S kdk hkdk p.err N s k hs0 hk hst hend⟩

/-- **C101, chain systems** with forces that agree. -/
theorem C101_chain {IC : ChainInteractions} {I : Interactions} (AI : AgreesI IC I) {n : Nat} {m : Nat → ℝ} {a : Field n} (A : Acts I n m a)
    {x v : ℝ → Nat → V3 ℝ} {t0 t1 : ℝ} (ht : t0 ≤ t1) (M : ForcedMotion n a x v t0 t1) (hS : SmoothAlong a x v t0 t1) (D : Nat) :
    ∃ K ρ : ℝ, 0 ≤ K ∧ 0 < ρ ∧ ∀ P, InState n m x v t0 P → ∀ (kdk : Bool) (p : Params ℝ), (I.velDep = true → kdk = false) → p.maxDepth = D →
      ∀ idx, IndexOf P idx → ∀ (N : Nat) (s : Nat → ChainSys) (c : Nat → State ℝ) (h h' : Nat → ℝ), ChainSys.init t0 P idx = .ok (s 0) →
      (∀ i, i < N → ChainMacro IC kdk p (h i) (c i) (s i) (s (i + 1)) (h' i) (c (i + 1))) →
      (∀ i, i < N → (s i).time ≤ (s (i + 1)).time ∧ (s (i + 1)).time - (s i).time ≤ ρ) → (s N).time ≤ t1 →
      ∃ k : Nat → Nat, (∀ i, i < N → 1 ≤ k i ∧ k i ≤ D ∧ Retried p (h i) ((s (i + 1)).time - (s i).time)) ∧
        WithinOf n m x v (s N).time (K * ∑ i ∈ range N, ((s (i + 1)).time - (s i).time) ^ (2 * k i + 3)) (s N).P := by
  obtain ⟨K, ρ, hK, hρ, H⟩ := forced_core A ht M hS D
  refine ⟨K, ρ, hK, hρ, fun P S kdk p hkdk hD idx hidx N s c h h' h0 hc hst hend => ?_⟩
  subst hD
  obtain ⟨t, t00, same, stp, _⟩ := C97_chain AI kdk p t0 P idx hidx N s c h h' h0 hc
  have each : ∀ i, ∃ k, i < N → ForcedAt I kdk p.maxDepth (fun _ _ _ => 0) ((t (i + 1)).time - (t i).time) ((t i).preIter I) (t (i + 1)) k ∧
      (t (i + 1)).P.num = (t i).P.num ∧ (t (i + 1)).P.mass = (t i).P.mass ∧ Retried p (h i) ((t (i + 1)).time - (t i).time) := by
    intro i
    rcases Nat.lt_or_ge i N with hi | hi
    · obtain ⟨b, R, ⟨k, X⟩, hn, hm⟩ := stp i hi
      obtain ⟨pP, pt⟩ := preIter_same I (t i)
      have tm := (forced_vars X hn).1
      rw [pt] at tm
      rw [pP] at hn hm
      have tb : (t (i + 1)).time - (t i).time = b := by linarith
      refine ⟨k, fun _ => ?_⟩
      rw [tb]
      exact ⟨X, hn, hm, R⟩
    · exact ⟨0, fun h => absurd h (by omega)⟩
  choose k hk using each
  have tt : ∀ i, i ≤ N → (t i).time = (s i).time := fun i hi => (same i hi).2.1.symm
  have dt : ∀ i, i < N → (t (i + 1)).time - (t i).time = (s (i + 1)).time - (s i).time := fun i hi => by rw [tt _ (by omega), tt _ (by omega)]
  refine ⟨k, fun i hi => ?_, ?_⟩
  · obtain ⟨⟨_, _, _, _, h1, h2, _⟩, _, _, R⟩ := hk i hi
    rw [dt i hi] at R
    exact ⟨h1, h2, R⟩
  · have := H P S kdk hkdk (fun _ _ _ => 0) N t k t00 (fun i hi => ⟨(hk i hi).1, (hk i hi).2.1, (hk i hi).2.2.1⟩)
      (fun i hi => by rw [tt _ (by omega), tt _ (by omega)]; exact hst i hi) (by rw [tt N le_rfl]; exact hend)
    rw [tt N le_rfl, ← (same N le_rfl).1] at this
    rw [show ∑ i ∈ range N, ((s (i + 1)).time - (s i).time) ^ (2 * k i + 3) = ∑ i ∈ range N, ((t (i + 1)).time - (t i).time) ^ (2 * k i + 3) from
      sum_congr rfl fun i hi => by rw [dt i (mem_range.1 hi)]]
    exact this

/-- **C101 with the forces of the library**: gravity with any list of post-Newtonian corrections (orders 1 and 2.5), tides and drag, `LeapFrogDKD`. -/
theorem C101_library (G c : ℝ) {n : Nat} {m : Nat → ℝ} {fs : List Extra} {x v : ℝ → Nat → V3 ℝ} {t0 t1 : ℝ} (ht : t0 ≤ t1)
    (M : ForcedMotion n (withExtras G c n m fs) x v t0 t1) (apart : ∀ t ∈ Set.Icc t0 t1, ∀ i j, i < n → j < n → i ≠ j → x t i ≠ x t j)
    (away : ∀ e ∈ fs, e.Away n v t0 t1) (D : Nat) :
    ∃ K ρ : ℝ, 0 < ρ ∧ ∀ P, InState n m x v t0 P → ∀ (p : Params ℝ), p.maxDepth = D →
      ∀ (N : Nat) (s : Nat → Simple) (st : Nat → State ℝ) (h h' : Nat → ℝ), s 0 = Simple.init t0 P →
      (∀ i, i < N → iterate (simpleSys ⟨Lib.newton, fs.map (libOf G c)⟩ false) p (h i) (st i) ((s i).preIter ⟨Lib.newton, fs.map (libOf G c)⟩) =
        .ok (s (i + 1), h' i, st (i + 1))) →
      (∀ i, i < N → (s i).time ≤ (s (i + 1)).time ∧ (s (i + 1)).time - (s i).time ≤ ρ) → (s N).time ≤ t1 →
      ∃ k : Nat → Nat, (∀ i, i < N → 1 ≤ k i ∧ k i ≤ D) ∧
        WithinOf n m x v (s N).time (K * ∑ i ∈ range N, ((s (i + 1)).time - (s i).time) ^ (2 * k i + 3)) (s N).P := by
  obtain ⟨K, ρ, _, hρ, H⟩ := C101_order (lib_acts G c n m fs) ht M (smooth_along G c n m fs apart away) D
  refine ⟨K, ρ, hρ, fun P S p hD N s st h h' hs0 hit hst hend => ?_⟩
  obtain ⟨k, hk, W⟩ := H P S false p (fun _ => rfl) hD N s st h h' hs0 hit hst hend
  refine ⟨k, fun i hi => ?_, W⟩
  obtain ⟨_, _, _, _, h1, h2, _⟩ := hk i hi
  exact ⟨h1, h2⟩

/-! ### velocity updates first and last -/

/-- a body of mass 1 in a gas that slows it down like `v' = -v` while it is slower than 2 -/
noncomputable def inGas : Interactions := ⟨Lib.newton, [libOf 1 1 (.drag (fun _ => 1) (fun _ => 2))]⟩

/-- its velocity in numbers -/
def along (V : ℝ) : Conf 1 := fun _ => (V, 0, 0)

/-- what the velocity updates of a list of stages do -/
noncomputable def vw (h : ℝ) : List Stage → ℝ × ℝ → ℝ × ℝ
  | [], q => q
  | .drift _ :: l, q => vw h l q
  | .kick c :: l, q => vw h l (kickVW (c * h) q)

/-- the sum of the velocity updates -/
def kicks : List Stage → ℚ
  | [] => 0
  | .drift _ :: l => kicks l
  | .kick c :: l => c + kicks l

theorem gas_field (x : Conf 1) {V : ℝ} (hV : |V| < 2) : fieldOf (withExtras 1 1 1 (fun _ => 1) [.drag (fun _ => 1) (fun _ => 2)]) x (along V) = along (-V) := by
  funext k
  have e : (univ : Finset (Fin 1)).erase k = ∅ := by fin_cases k; decide
  have hl : len (⟨V, 0, 0⟩ : V3 ℝ) = |V| := by
    rw [len, show dot (⟨V, 0, 0⟩ : V3 ℝ) ⟨V, 0, 0⟩ = V * V by simp [dot], Real.sqrt_mul_self_eq_abs]
  simp only [fieldOf, inNumbers, along, withExtras, e, sum_empty, List.map_cons, List.map_nil, List.sum_cons, List.sum_nil, add_zero, zero_add, Extra.field, hl,
    if_pos hV, triple]
  simp

theorem kickVW_bound {c B : ℝ} (hc : 0 ≤ c) {q : ℝ × ℝ} (h1 : |q.1| ≤ B) (h2 : |q.2| ≤ B) :
    |q.1 - c / 2 * q.2| ≤ Real.exp (2 * c) * B ∧ |(kickVW c q).2| ≤ Real.exp (2 * c) * B ∧ |(kickVW c q).1| ≤ Real.exp (2 * c) * B := by
  have hB : 0 ≤ B := (abs_nonneg _).trans h1
  have he3 : 1 + 2 * c + (2 * c) ^ 2 / 2 + (2 * c) ^ 3 / 6 ≤ Real.exp (2 * c) := by
    have := Real.sum_le_exp_of_nonneg (x := 2 * c) (by linarith) 4
    simp only [sum_range_succ, range_zero, sum_empty, Nat.factorial] at this
    push_cast at this
    linarith
  have c2 : 0 ≤ c ^ 2 := by positivity
  have c3 : 0 ≤ c ^ 3 := by positivity
  have g : ∀ f : ℝ, f ≤ 1 + 2 * c + (2 * c) ^ 2 / 2 + (2 * c) ^ 3 / 6 → f * B ≤ Real.exp (2 * c) * B := fun f hf => mul_le_mul_of_nonneg_right (hf.trans he3) hB
  have two : ∀ α β : ℝ, 0 ≤ α → 0 ≤ β → |α * q.1 - β * q.2| ≤ (α + β) * B := fun α β ha hb => by
    refine (abs_sub _ _).trans ?_
    rw [abs_mul, abs_mul, abs_of_nonneg ha, abs_of_nonneg hb]
    nlinarith
  refine ⟨?_, ?_, ?_⟩
  · have := two 1 (c / 2) (by norm_num) (by linarith)
    rw [one_mul] at this
    exact this.trans (g _ (by nlinarith))
  · have := two c (1 + c ^ 2 / 2) hc (by linarith)
    have e : (kickVW c q).2 = -(c * q.1 - (1 + c ^ 2 / 2) * q.2) := by simp only [kickVW]; ring
    rw [e, abs_neg]
    exact this.trans (g _ (by nlinarith))
  · have := two (1 + c ^ 2 / 2) (c + c ^ 3 / 4) (by linarith) (by linarith)
    exact this.trans (g _ (by nlinarith))

theorem gas_run {h : ℝ} (hh : 0 ≤ h) (l : List Stage) : (∀ s ∈ l, 0 ≤ coef s) → ∀ (x : Conf 1) (q : ℝ × ℝ) (B : ℝ), |q.1| ≤ B → |q.2| ≤ B →
    Real.exp (2 * (kicks l * h)) * B < 2 →
    ∃ x', Letters.wstep (moveF (withExtras 1 1 1 (fun _ => 1) [.drag (fun _ => 1) (fun _ => 2)])) (l.flatMap split) h (x, along q.1, along q.2) =
      (x', along (vw h l q).1, along (vw h l q).2) := by
  induction l with
  | nil => exact fun _ x q B _ _ _ => ⟨x, rfl⟩
  | cons s l ih =>
    intro hl x q B h1 h2 hB
    cases s with
    | drift c =>
      rw [List.flatMap_cons, split, List.singleton_append, Letters.wstep_cons]
      obtain ⟨x', e⟩ := ih (fun s hs => hl s (List.mem_cons_of_mem _ hs)) (x + (h * (c : ℝ)) • along q.1) q B h1 h2 hB
      refine ⟨x', ?_⟩
      rw [vw, ← e]
      congr 1
      simp only [Letters.flow, moveF]
      ext1
      · rfl
      · simp
    | kick c =>
      have hc : 0 ≤ (c : ℝ) := by exact_mod_cast hl (.kick c) List.mem_cons_self
      have hch : 0 ≤ (c : ℝ) * h := mul_nonneg hc hh
      have hB0 : 0 ≤ B := (abs_nonneg _).trans h1
      have hk : 0 ≤ ((kicks l : ℚ) : ℝ) * h := by
        refine mul_nonneg ?_ hh
        have : ∀ l : List Stage, (∀ s ∈ l, 0 ≤ coef s) → 0 ≤ kicks l := by
          intro l
          induction l with
          | nil => intro _; exact le_rfl
          | cons s l ih =>
            intro hl
            have := ih fun s hs => hl s (List.mem_cons_of_mem _ hs)
            cases s with
            | drift c => exact this
            | kick c =>
              have h0 : 0 ≤ c := hl (.kick c) List.mem_cons_self
              show 0 ≤ c + kicks l
              linarith
        exact_mod_cast this l fun s hs => hl s (List.mem_cons_of_mem _ hs)
      have e0 : Real.exp (2 * (((kicks (Stage.kick c :: l) : ℚ) : ℝ) * h)) = Real.exp (2 * ((kicks l : ℝ) * h)) * Real.exp (2 * (c * h)) := by
        rw [← Real.exp_add]
        congr 1
        simp only [kicks]
        push_cast
        ring
      rw [e0, mul_assoc] at hB
      have big : Real.exp (2 * (c * h)) * B < 2 := lt_of_le_of_lt (le_mul_of_one_le_left (by positivity) (Real.one_le_exp (by linarith))) hB
      obtain ⟨b1, b2, b3⟩ := kickVW_bound (c := c * h) hch h1 h2
      have B1 : |q.2| < 2 := lt_of_le_of_lt (h2.trans (le_mul_of_one_le_left hB0 (Real.one_le_exp (by linarith)))) big
      obtain ⟨x', e⟩ := ih (fun s hs => hl s (List.mem_cons_of_mem _ hs)) x (kickVW (c * h) q) _ b3 b2 hB
      refine ⟨x', ?_⟩
      rw [vw, ← e, List.flatMap_cons, split]
      simp only [List.cons_append, List.nil_append, Letters.wstep_cons]
      congr 1
      have f1 : Letters.flow (moveF (withExtras 1 1 1 (fun _ => 1) [.drag (fun _ => 1) (fun _ => 2)])) (Move.real, c / 2) h (x, along q.1, along q.2) =
          (x, along (q.1 - c * h / 2 * q.2), along q.2) := by
        simp only [Letters.flow, moveF]
        rw [gas_field x B1]
        ext1
        · simp
        · ext1
          · funext k
            simp only [along, Pi.add_apply, Pi.smul_apply, Prod.smul_mk, Prod.mk_add_mk, smul_eq_mul]
            push_cast
            ring_nf
          · simp
      have f2 : Letters.flow (moveF (withExtras 1 1 1 (fun _ => 1) [.drag (fun _ => 1) (fun _ => 2)])) (Move.pseudo, c) h
          (x, along (q.1 - c * h / 2 * q.2), along q.2) = (x, along (q.1 - c * h / 2 * q.2), along (kickVW (c * h) q).2) := by
        simp only [Letters.flow, moveF]
        rw [gas_field x (lt_of_le_of_lt b1 big)]
        ext1
        · simp
        · ext1
          · simp
          · funext k
            simp only [along, kickVW, Pi.add_apply, Pi.smul_apply, Prod.smul_mk, Prod.mk_add_mk, smul_eq_mul]
            ring_nf
      have f3 : Letters.flow (moveF (withExtras 1 1 1 (fun _ => 1) [.drag (fun _ => 1) (fun _ => 2)])) (Move.real, c / 2) h
          (x, along (q.1 - c * h / 2 * q.2), along (kickVW (c * h) q).2) = (x, along (kickVW (c * h) q).1, along (kickVW (c * h) q).2) := by
        simp only [Letters.flow, moveF]
        rw [gas_field x (lt_of_le_of_lt b2 big)]
        ext1
        · simp
        · ext1
          · funext k
            simp only [along, kickVW, Pi.add_apply, Pi.smul_apply, Prod.smul_mk, Prod.mk_add_mk, smul_eq_mul]
            push_cast
            ring_nf
          · simp
      rw [f1, f2, f3]

theorem vw_append (h : ℝ) (l l' : List Stage) : ∀ q, vw h (l ++ l') q = vw h l' (vw h l q) := by
  induction l with
  | nil => exact fun _ => rfl
  | cons s l ih => intro q; cases s <;> exact ih _

theorem kicks_append (l l' : List Stage) : kicks (l ++ l') = kicks l + kicks l' := by
  induction l with
  | nil => simp [kicks]
  | cons s l ih => cases s <;> simp only [List.cons_append, kicks, ih, add_assoc]

theorem sub_kicks (n : Nat) (hn : 1 ≤ n) (h : ℝ) : (vw h (subStages true n) (1, 1)).1 = runV n h ∧ kicks (subStages true n) = 1 ∧
    ∀ s ∈ subStages true n, 0 ≤ coef s := by
  have n0 : (n : ℝ) ≠ 0 := by positivity
  have n1 : (n : ℚ) ≠ 0 := by positivity
  have e1 : ((1 / 2 * (1 / n) : ℚ) : ℝ) * h = h / n / 2 := by push_cast; field_simp
  have e2 : ((1 * (1 / n) : ℚ) : ℝ) * h = h / n := by push_cast; field_simp
  have e : subStages true n = [Stage.kick (1 / 2 * (1 / n))] ++ (List.replicate (n - 1) [Stage.drift (1 * (1 / n)), Stage.kick (1 * (1 / n))]).flatten ++
      [Stage.drift (1 * (1 / n)), Stage.kick (1 / 2 * (1 / n))] := by
    simp [subStages, joined, outer, innerW, scaleS, List.map_flatten]
  refine ⟨?_, ?_, ?_⟩
  · have mid : ∀ (j : Nat) (q : ℝ × ℝ), vw h (List.replicate j [Stage.drift (1 * (1 / n : ℚ)), Stage.kick (1 * (1 / n))]).flatten q = (kickVW (h / n))^[j] q := by
      intro j
      induction j with
      | zero => exact fun _ => rfl
      | succ j ih =>
        intro q
        rw [List.replicate_succ, List.flatten_cons, vw_append, ih, Function.iterate_succ_apply]
        simp only [vw]
        rw [e2]
    rw [e, vw_append, vw_append, mid]
    simp only [vw]
    rw [e1]
    rfl
  · have mid : ∀ j : Nat, kicks (List.replicate j [Stage.drift (1 * (1 / n : ℚ)), Stage.kick (1 * (1 / n))]).flatten = j * (1 / n) := by
      intro j
      induction j with
      | zero => simp [kicks]
      | succ j ih =>
        rw [List.replicate_succ, List.flatten_cons, kicks_append, ih]
        simp only [kicks]
        push_cast
        ring
    rw [e, kicks_append, kicks_append, mid]
    simp only [kicks]
    rw [Nat.cast_sub hn]
    field_simp
    ring
  · intro s hs
    have : (0 : ℚ) ≤ 1 / n := by positivity
    rw [e] at hs
    simp only [List.mem_append, List.mem_flatten, List.mem_replicate, List.mem_cons, List.not_mem_nil, or_false] at hs
    rcases hs with (rfl | ⟨l, ⟨_, rfl⟩, hu⟩) | rfl | rfl
    · show (0 : ℚ) ≤ 1 / 2 * (1 / n); positivity
    · simp only [List.mem_cons, List.not_mem_nil, or_false] at hu
      rcases hu with rfl | rfl
      · show (0 : ℚ) ≤ 1 * (1 / n); positivity
      · show (0 : ℚ) ≤ 1 * (1 / n); positivity
    · show (0 : ℚ) ≤ 1 * (1 / n); positivity
    · show (0 : ℚ) ≤ 1 / 2 * (1 / n); positivity

/-- the body at the start -/
def bodyInGas : Particles := ⟨1, fun _ => ⟨-1, 0, 0⟩, fun _ => ⟨1, 0, 0⟩, fun _ => 1⟩

/-- **C101 is false of `LeapFrogKDK` with velocity-dependent forces.** A body is slowed down by the drag of the library, its true velocity is `exp (-t)`.
However many runs a macro step of Bulirsch-Stoer with `LeapFrogKDK` extrapolates from, its velocity is off by at least a constant times the third power of
the step. -/
theorem C101_kdk_third_power (D : Nat) : ∃ e h0 : ℝ, 0 < e ∧ 0 < h0 ∧ ∀ (p : Params ℝ), p.maxDepth = D → ∀ h c s' h' c',
    iterate (simpleSys inGas true) p h c ((Simple.init 0 bodyInGas).preIter inGas) = .ok (s', h', c') → 0 ≤ s'.time → s'.time ≤ h0 →
    e * s'.time ^ 3 ≤ |(s'.P.vel 0).x - Real.exp (-s'.time)| := by
  obtain ⟨e, h0, he, hh0, H⟩ := runV_extrap D
  refine ⟨e, min h0 (1 / 4), he, lt_min hh0 (by norm_num), fun p hD h c s' h' c' it t0 th => ?_⟩
  subst hD
  obtain ⟨hAcc, _, ⟨k, X⟩, ⟨hn, hm⟩, _⟩ := C29_simple inGas true p h c c' _ s' h' it
  obtain ⟨tm, hk1, hkD, _⟩ := forced_vars X hn
  have hA : hAcc = s'.time := by
    rw [tm, (preIter_same inGas _).2]
    show hAcc = 0 + hAcc
    rw [zero_add]
  rw [hA] at X
  have hd : inGas.velDep = true := by
    show (List.any _ _) = true
    rw [List.any_eq_true]
    exact ⟨_, List.mem_singleton.2 rfl, lib_velDep 1 1 _⟩
  have E := forced_extrap3 (lib_acts 1 1 1 (fun _ => 1) [.drag (fun _ => 1) (fun _ => 2)]) hd X rfl (fun _ _ => rfl) hn
  have e0 : extOf 1 ((Simple.init 0 bodyInGas).preIter inGas) = (conf 1 bodyInGas.pos, along 1, along 1) := by
    unfold Simple.preIter; rw [if_pos hd]; rfl
  rw [e0] at E
  have small : Real.exp (2 * (1 * s'.time)) * 1 < 2 := by
    have h1 : 2 * (1 * s'.time) ≤ 1 / 2 := by linarith [th.trans (min_le_right _ _)]
    have h2 := Real.exp_le_exp.2 h1
    have h3 : Real.exp (1 / 2) < 2 := by
      have := Real.exp_one_lt_d9
      have h4 : Real.exp (1 / 2) * Real.exp (1 / 2) = Real.exp 1 := by rw [← Real.exp_add]; norm_num
      nlinarith [Real.exp_pos (1 / 2 : ℝ)]
    linarith
  have each : ∀ j ∈ Icc 0 k, (Letters.wstep (moveF (withExtras 1 1 1 (fun _ => 1) [.drag (fun _ => 1) (fun _ => 2)]))
      ((subStages true (hSeq p.maxDepth j)).flatMap split) s'.time (conf 1 bodyInGas.pos, along 1, along 1)).2.1 = along (runV (hSeq p.maxDepth j) s'.time) := by
    intro j hj
    have hj' := (mem_Icc.1 hj).2
    obtain ⟨a1, a2, a3⟩ := sub_kicks (hSeq p.maxDepth j) (hSeq_pos (by omega)) s'.time
    obtain ⟨x', e1⟩ := gas_run t0 (subStages true (hSeq p.maxDepth j)) a3 (conf 1 bodyInGas.pos) (1, 1) 1 (by simp) (by simp) (by rw [a2]; simpa using small)
    rw [show (conf 1 bodyInGas.pos, along 1, along 1) = (conf 1 bodyInGas.pos, along ((1, 1) : ℝ × ℝ).1, along ((1, 1) : ℝ × ℝ).2) from rfl, e1, a1]
  have vel : (s'.P.vel 0).x = ∑ j ∈ Icc 0 k, weight p.maxDepth 0 k j * runV (hSeq p.maxDepth j) s'.time := by
    have h1 : conf 1 s'.P.vel = ∑ j ∈ Icc 0 k, weight p.maxDepth 0 k j • along (runV (hSeq p.maxDepth j) s'.time) := by
      have := congrArg (fun z : Ext 1 => z.2.1) E
      simp only [extOf, Letters.Mix.step, Letters.moveMix, Prod.snd_sum, Prod.fst_sum, Prod.smul_snd, Prod.smul_fst] at this
      rw [this]
      exact sum_congr rfl fun j hj => by rw [each j hj]
    have h2 := congrArg (fun f : Conf 1 => (f 0).1) h1
    simpa [conf, co, along, Finset.sum_apply, Prod.fst_sum] using h2
  rw [vel]
  exact H k hk1 hkD s'.time t0 (th.trans (min_le_left _ _))

/-! ### the hypotheses are met -/

/-- The body in the gas: a macro step of a fresh iterator, with `LeapFrogDKD` and with `LeapFrogKDK`. -/
example : ∃ K e ρ : ℝ, 0 < e ∧ 0 < ρ ∧ ∀ h, 0 < h → h ≤ ρ →
    (∃ s' h' c', iterate (simpleSys inGas false) (easy false) h (State.init 7) ((Simple.init 0 bodyInGas).preIter inGas) = .ok (s', h', c') ∧
      s'.time = h ∧ |(s'.P.vel 0).x - Real.exp (-h)| ≤ K * h ^ 5) ∧
    ∃ s' h' c', iterate (simpleSys inGas true) (easy true) h (State.init 7) ((Simple.init 0 bodyInGas).preIter inGas) = .ok (s', h', c') ∧
      s'.time = h ∧ e * h ^ 3 ≤ |(s'.P.vel 0).x - Real.exp (-h)| := by
  obtain ⟨M, Aw⟩ := slowed 1
  obtain ⟨K, ρ, hρ, H⟩ := C101_library 1 1 (n := 1) (m := fun _ => 1) (zero_le_one) M (fun t _ i j hi hj hij => absurd (by omega) hij)
    (fun e he => by rw [List.mem_singleton.1 he]; exact Aw) 7
  obtain ⟨e, h0, he, hh0, H'⟩ := C101_kdk_third_power 7
  refine ⟨|K|, e, min (min ρ h0) 1, he, lt_min (lt_min hρ hh0) one_pos, fun h hh hle => ?_⟩
  have time : ∀ kdk s' h' c', iterate (simpleSys inGas kdk) (easy kdk) h (State.init 7) ((Simple.init 0 bodyInGas).preIter inGas) = .ok (s', h', c') → s'.time = h := by
    intro kdk s' h' c' it
    obtain ⟨hAcc, R, ⟨k, X⟩, ⟨hn, _⟩, _⟩ := C29_simple inGas kdk _ _ _ _ _ s' h' it
    have := (forced_vars X hn).1
    rw [retried_one (fun _ _ => rfl) R, (preIter_same inGas _).2] at this
    rw [this]
    exact zero_add h
  refine ⟨?_, ?_⟩
  · obtain ⟨s', h', c', it⟩ := C29_returns inGas false (easy false) (by norm_num [easy]) (fun _ _ _ => zero_le_one) h ((Simple.init 0 bodyInGas).preIter inGas)
    have ht := time false s' h' c' it
    refine ⟨s', h', c', it, ht, ?_⟩
    obtain ⟨k, hk, W⟩ := H bodyInGas ⟨rfl, fun _ _ => rfl, fun _ _ => by simp [bodyInGas], fun _ _ => by simp [bodyInGas]⟩ (easy false) rfl 1
      (fun i => if i = 0 then Simple.init 0 bodyInGas else s') (fun i => if i = 0 then State.init 7 else c') (fun _ => h) (fun _ => h') rfl
      (fun i hi => by
        obtain rfl : i = 0 := by omega
        simp only [if_true, if_neg (show ¬ (0 + 1 = 0) by omega)]
        exact it)
      (fun i hi => by
        obtain rfl : i = 0 := by omega
        simp only [if_true, if_neg (show ¬ (0 + 1 = 0) by omega), ht]
        rw [show (Simple.init 0 bodyInGas).time = 0 from rfl]
        exact ⟨hh.le, by linarith [hle.trans ((min_le_left _ _).trans (min_le_left _ _))]⟩)
      (by simp only [if_neg (show ¬ (1 = 0) by omega), ht]; exact hle.trans (min_le_right _ _))
    have W0 := W.vel 0 one_pos
    simp only [if_neg (show ¬ (1 = 0) by omega), range_one, sum_singleton, if_true, ht,
      show (Simple.init 0 bodyInGas).time = 0 from rfl, sub_zero] at W0
    have h1 : |(s'.P.vel 0).x - Real.exp (-h)| ≤ len (s'.P.vel 0 - ⟨Real.exp (-h), 0, 0⟩) := by
      rw [len]
      refine Real.abs_le_sqrt ?_
      simp only [dot, V3.sub_x, V3.sub_y, V3.sub_z]
      nlinarith [sq_nonneg ((s'.P.vel 0).y - 0), sq_nonneg ((s'.P.vel 0).z - 0)]
    refine h1.trans (W0.trans ?_)
    have h2 : h ^ (2 * k 0 + 3) ≤ h ^ 5 := pow_le_pow_of_le_one hh.le (hle.trans (min_le_right _ _)) (by have := (hk 0 one_pos).1; omega)
    exact mul_le_mul (le_abs_self K) h2 (by positivity) (abs_nonneg _)
  · obtain ⟨s', h', c', it⟩ := C29_returns inGas true (easy true) (by norm_num [easy]) (fun _ _ _ => zero_le_one) h ((Simple.init 0 bodyInGas).preIter inGas)
    have ht := time true s' h' c' it
    have := H' (easy true) rfl h _ s' h' c' it (by rw [ht]; exact hh.le) (by rw [ht]; exact hle.trans ((min_le_left _ _).trans (min_le_right _ _)))
    rw [ht] at this
    exact ⟨s', h', c', it, ht, this⟩

end SpaceHub.Sys
