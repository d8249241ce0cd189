import Verif.Proof.ConvergeExtrap
import Verif.Props.BSConserve
import Verif.Props.ConvergeOrder

/-
C95: the order of Bulirsch-Stoer.
-/

set_option autoImplicit false

namespace SpaceHub.Sys
open SpaceHub V3 Force Core Integrator Spec Props Finset Converge BS BS.Spec
open scoped ContDiff

/-- extrapolated components make an extrapolated configuration -/
theorem conf_extrap {D k n : Nat} (x' : Arr (V3 ℝ)) (x : Nat → Arr (V3 ℝ))
    (hx : ∀ i c, i < n → c < 3 → SpaceHub.Sys.comp (x' i) c = zeroStep (hSeq D) (fun m => SpaceHub.Sys.comp (x m i) c) 0 k) :
    conf n x' = ∑ m ∈ Icc 0 k, weight D 0 k m • conf n (x m) := by
  funext i
  rw [Finset.sum_apply]
  have h : ∀ c, c < 3 → SpaceHub.Sys.comp (x' i) c = ∑ m ∈ Icc 0 k, weight D 0 k m * SpaceHub.Sys.comp (x m i) c := fun c hc => by
    rw [hx i c i.2 hc, zeroStep_weight]
  have e0 := h 0 (by norm_num)
  have e1 := h 1 (by norm_num)
  have e2 := h 2 (by norm_num)
  simp only [SpaceHub.Sys.comp] at e0 e1 e2
  refine Prod.ext ?_ (Prod.ext ?_ ?_)
  · rw [Prod.fst_sum]; simpa [conf, co] using e0
  · rw [Prod.snd_sum, Prod.fst_sum]; simpa [conf, co] using e1
  · rw [Prod.snd_sum, Prod.snd_sum]; simpa [conf, co] using e2

/-- the runs of a Bulirsch-Stoer step, on a plain system with gravity -/
abbrev SimpleAt (kdk : Bool) (p : Params ℝ) : ℝ → Simple → Simple → Nat → Prop :=
  ExtrapolatedAt (hSeq p.maxDepth) p.maxDepth (Simple.write gravity)
    (fun h n => (simpleOps gravity).run (if kdk then substepsKDK h n else substepsDKD h n)) (SameSimple gravity) p.err

/-- one step of the model is one step of the abstract extrapolation -/
theorem simple_extrap {n : Nat} {m : Nat → ℝ} {kdk : Bool} {p : Params ℝ} {h : ℝ} {s s' : Simple} {k : Nat} (X : SimpleAt kdk p h s s' k)
    (hn : s.P.num = n) (hm : ∀ i, i < n → s.P.mass i = m i) (hn' : s'.P.num = s.P.num) :
    s'.time = s.time + h ∧ (conf n s'.P.pos, conf n s'.P.vel) = (extrapMix p.maxDepth kdk 0 k).step (plainF n m) h (conf n s.P.pos, conf n s.P.vel) := by
  obtain ⟨start, row, T0, T1, hk1, hkD, hrow, hT, _⟩ := X
  have hlen : (s.write gravity).length = s.variableNumber gravity := C13_simple_size gravity s
  have hnum : ∀ m, m ≤ k → (row m).P.num = s.P.num := fun m hm' => by
    have f := Simple.run_frame gravity _ _ _ (hrow m hm').2
    exact f.1.trans (hrow m hm').1.2.1
  have hval : ∀ i, i < s.variableNumber gravity →
      s'.flat.val gravity.velDep i = zeroStep (hSeq p.maxDepth) (fun m => (row m).flat.val gravity.velDep i) 0 k := by
    intro i hi
    have := (hT i (by rw [hlen]; exact hi)).1
    simp only [Simple.write_getD] at this
    exact this
  have htime : ∀ m, m ≤ k → (row m).time = s.time + h := by
    intro m hm'
    obtain ⟨hs, hr⟩ := hrow m hm'
    obtain ⟨a1, a2⟩ := driftTime_substeps h (hSeq p.maxDepth m) (hSeq_pos (by omega))
    obtain ⟨t, ht, htt⟩ := C17_simple_time gravity (if kdk then substepsKDK h (hSeq p.maxDepth m) else substepsDKD h (hSeq p.maxDepth m)) (start m)
    dsimp only at hr
    rw [ht] at hr
    rw [← Res.ok.inj hr, htt, hs.1]
    cases kdk
    · exact congrArg _ a1
    · exact congrArg _ a2
  refine ⟨?_, ?_⟩
  · have h0 := hval 0 (by unfold Simple.variableNumber; omega)
    have h1 : s'.time = zeroStep (hSeq p.maxDepth) (fun m => (row m).time) 0 k := h0
    rw [h1, zeroStep_congr (y' := fun _ => s.time + h) (fun m _ hm' => htime m hm')]
    exact zeroLin_const (Nat.zero_le _) hkD _
  have ex := conf_extrap (D := p.maxDepth) (k := k) (n := n) s'.P.pos (fun m => (row m).P.pos) (fun i c hi hc => by
      rw [← hn] at hi
      have h1 := hval (1 + (3 * i + c)) (by have := entries_le gravity s.P.num; unfold Simple.variableNumber; omega)
      rw [posEntry gravity.velDep s'.flat i c (by show i < s'.P.num; omega) hc] at h1
      rw [show SpaceHub.Sys.comp (s'.P.pos i) c = SpaceHub.Sys.comp (s'.flat.x i) c from rfl, h1]
      refine zeroStep_congr fun m _ hm' => ?_
      exact posEntry gravity.velDep (row m).flat i c (by show i < (row m).P.num; rw [hnum m hm']; exact hi) hc)
  have ev := conf_extrap (D := p.maxDepth) (k := k) (n := n) s'.P.vel (fun m => (row m).P.vel) (fun i c hi hc => by
      rw [← hn] at hi
      have h1 := hval (1 + 3 * s.P.num + (3 * i + c)) (by have := entries_le gravity s.P.num; unfold Simple.variableNumber; omega)
      have e1 := velEntry gravity.velDep s'.flat i c (by show i < s'.P.num; omega) hc
      rw [show s'.flat.n = s.P.num from hn'] at e1
      rw [e1] at h1
      rw [show SpaceHub.Sys.comp (s'.P.vel i) c = SpaceHub.Sys.comp (s'.flat.v i) c from rfl, h1]
      refine zeroStep_congr fun m _ hm' => ?_
      have e2 := velEntry gravity.velDep (row m).flat i c (by show i < (row m).P.num; rw [hnum m hm']; exact hi) hc
      rw [show (row m).flat.n = s.P.num from hnum m hm'] at e2
      exact e2)
  have er : ∀ j ∈ Icc 0 k, wstep (plainF n m) (subStages kdk (hSeq p.maxDepth j)) h (conf n s.P.pos, conf n s.P.vel) = (conf n (row j).P.pos, conf n (row j).P.vel) := by
    intro j hj
    have hj' := (mem_Icc.1 hj).2
    obtain ⟨⟨_, b1, b2, b3⟩, hr⟩ := hrow j hj'
    obtain ⟨r, e, _, _, a3⟩ := stages_link (m := m) h (subStages kdk (hSeq p.maxDepth j)) (start j) (b1.trans hn) (fun i hi => by rw [b2]; exact hm i hi)
    rw [subStages_calls kdk h _ (hSeq_pos (by omega))] at e
    dsimp only at hr
    rw [e] at hr
    rw [← Res.ok.inj hr, a3, plain_step]
    have c1 : conf n (start j).P.pos = conf n s.P.pos := funext fun i => congrArg co (b3 i (by rw [hn]; exact i.2)).1
    have c2 : conf n (start j).P.vel = conf n s.P.vel := funext fun i => congrArg co (b3 i (by rw [hn]; exact i.2)).2.1
    rw [c1, c2]
  show _ = ∑ j ∈ Icc 0 k, weight p.maxDepth 0 k j • wstep (plainF n m) (subStages kdk (hSeq p.maxDepth j)) h (conf n s.P.pos, conf n s.P.vel)
  rw [sum_congr rfl fun j hj => by rw [er j hj]]
  refine Prod.ext ?_ ?_
  · rw [Prod.fst_sum]; exact ex
  · rw [Prod.snd_sum]; exact ev

/-- the step as an abstract step -/
noncomputable def bsStep (D : Nat) (kdk : Bool) (h : ℝ) (k : Nat) : MStep := ⟨extrapMix D kdk 0 k, 2 * k + 2, h⟩

/-- C95 for any sequence of extrapolated steps -/
theorem order_core {n : Nat} {m : Nat → ℝ} {x v : ℝ → Nat → V3 ℝ} {t0 t1 : ℝ} (ht : t0 ≤ t1) (M : NewtonMotion n m x v t0 t1) (D : Nat) :
    ∃ K ρ : ℝ, 0 ≤ K ∧ 0 < ρ ∧ ∀ P, InState n m x v t0 P → ∀ (kdk : Bool) (p : Params ℝ), p.maxDepth = D →
      ∀ (N : Nat) (s : Nat → Simple) (k : Nat → Nat), s 0 = Simple.init t0 P →
      (∀ i, i < N → SimpleAt kdk p ((s (i + 1)).time - (s i).time) (s i) (s (i + 1)) (k i) ∧ (s (i + 1)).P.num = (s i).P.num ∧ (s (i + 1)).P.mass = (s i).P.mass) →
      (∀ i, i < N → (s i).time ≤ (s (i + 1)).time ∧ (s (i + 1)).time - (s i).time ≤ ρ) → (s N).time ≤ t1 →
      WithinOf n m x v (s N).time (K * ∑ i ∈ range N, ((s (i + 1)).time - (s i).time) ^ (2 * k i + 3)) (s N).P := by
  obtain ⟨r, A, L, V, Q, H, hQ, hx⟩ := motion_tube M
  have mem : ∀ t ∈ Set.Icc 0 (t1 - t0), t0 + t ∈ Set.Icc t0 t1 := fun t ht => ⟨by linarith [ht.1], by linarith [ht.2]⟩
  have hfree : ∀ t ∈ Set.Icc 0 (t1 - t0), conf n (x (t0 + t)) ∈ free n := by
    intro t ht i j hij h
    exact M.apart _ (mem t ht) i j i.2 j.2 (fun e => hij (Fin.ext e)) (congrArg ve h)
  obtain ⟨NN, W, hB⟩ := extrap_bounded D
  obtain ⟨K, ρ, hK, hρ, _, _, key⟩ := mix_global ((free_open n).preimage continuous_fst) (plain_smooth n m) (plain_straight n m)
    (T := t1 - t0) (by linarith) (y := fun t => (conf n (x (t0 + t)), conf n (v (t0 + t)))) (fun t ht => by
      have := (H.dq t ht).prodMk (H.dv t ht)
      refine this.congr_deriv ?_
      simp [plainF]) hfree (2 * D + 2) NN 1 W one_pos
  refine ⟨2 * K, ρ, by positivity, hρ, fun P S kdk p hD N s k hs0 hk hst hend => ?_⟩
  have frame : ∀ i, i ≤ N → (s i).P.num = n ∧ ∀ j, j < n → (s i).P.mass j = m j := by
    intro i
    induction i with
    | zero => intro _; rw [hs0]; exact ⟨S.num, S.mass⟩
    | succ i ih =>
      intro hi
      obtain ⟨_, a, b⟩ := hk i (by omega)
      obtain ⟨c1, c2⟩ := ih (by omega)
      exact ⟨a.trans c1, fun j hj => by rw [b]; exact c2 j hj⟩
  have link : ∀ i, i ≤ N → (conf n (s i).P.pos, conf n (s i).P.vel) =
      mrun (plainF n m) ((List.range i).map fun j => bsStep D kdk ((s (j + 1)).time - (s j).time) (k j)) (conf n (x (t0 + 0)), conf n (v (t0 + 0))) ∧
      (s i).time = t0 + (((List.range i).map fun j => bsStep D kdk ((s (j + 1)).time - (s j).time) (k j)).map MStep.h).sum := by
    intro i
    induction i with
    | zero =>
      intro _
      refine ⟨?_, ?_⟩
      · rw [hs0, add_zero]; exact start_conf S
      · rw [hs0]; simp [Simple.init]
    | succ i ih =>
      intro hi
      obtain ⟨a, b⟩ := ih (by omega)
      obtain ⟨f1, f2⟩ := frame i (by omega)
      obtain ⟨X, e1, _⟩ := hk i (by omega)
      obtain ⟨_, e3⟩ := simple_extrap (m := m) X f1 f2 e1
      rw [List.range_succ, List.map_append, List.map_cons, List.map_nil]
      refine ⟨?_, ?_⟩
      · have e4 : ∀ l q z, mrun (plainF n m) (l ++ [q]) z = q.X.step (plainF n m) q.h (mrun (plainF n m) l z) := fun l q z => by
          rw [mrun, List.foldl_append]; rfl
        rw [e4, ← a, e3, hD]
        rfl
      · rw [List.map_append, List.sum_append]
        simp only [List.map_cons, List.map_nil, List.sum_singleton, bsStep]
        simp only [bsStep] at b
        linarith
  obtain ⟨a, b⟩ := link N le_rfl
  obtain ⟨f1, f2⟩ := frame N le_rfl
  have g := (key ((List.range N).map fun j => bsStep D kdk ((s (j + 1)).time - (s j).time) (k j)) (fun q hq => by
    obtain ⟨j, hj, rfl⟩ := List.mem_map.1 hq
    have hj' := List.mem_range.1 hj
    obtain ⟨X, _⟩ := hk j hj'
    obtain ⟨_, _, _, _, hk1, hkD, _⟩ := X
    rw [hD] at hkD
    obtain ⟨q1, q2⟩ := hst j hj'
    exact ⟨hB kdk 0 (k j) hkD, extrap_order hkD (Nat.zero_le _) kdk, by simp [bsStep], by simp [bsStep]; omega, by simp [bsStep]; linarith, q2⟩)
    (by linarith)).1
  rw [mul_assoc, b]
  refine within_of f1 f2 ?_
  rw [a]
  refine g.trans (le_of_eq ?_)
  rw [List.map_map, ← List.sum_toFinset _ List.nodup_range, List.toFinset_range]
  rfl

/-- **C95.** Particles move from `t0` to `t1` under Newton's laws without colliding.  A plain system is integrated by Bulirsch-Stoer, call after call, from the
exact state at `t0`.  Every call that returns has extrapolated from runs number 0 to some `k ≥ 1`.  As long as the accepted steps are at most `ρ`, the
particles are off the true ones by at most a constant times the sum of the `2 k + 3`-th powers of the steps. -/
theorem C95_order {n : Nat} {m : Nat → ℝ} {x v : ℝ → Nat → V3 ℝ} {t0 t1 : ℝ} (ht : t0 ≤ t1) (M : NewtonMotion n m x v t0 t1) (D : Nat) :
    ∃ K ρ : ℝ, 0 ≤ K ∧ 0 < ρ ∧ ∀ P, InState n m x v t0 P → ∀ (kdk : Bool) (p : Params ℝ), p.maxDepth = D →
      ∀ (N : Nat) (s : Nat → Simple) (c : Nat → State ℝ) (h h' : Nat → ℝ), s 0 = Simple.init t0 P →
      (∀ i, i < N → iterate (simpleSys gravity kdk) p (h i) (c i) (s i) = .ok (s (i + 1), h' i, c (i + 1))) →
      (∀ i, i < N → (s i).time ≤ (s (i + 1)).time ∧ (s (i + 1)).time - (s i).time ≤ ρ) → (s N).time ≤ t1 →
      ∃ k : Nat → Nat, (∀ i, i < N → SimpleAt kdk p ((s (i + 1)).time - (s i).time) (s i) (s (i + 1)) (k i)) ∧
        WithinOf n m x v (s N).time (K * ∑ i ∈ range N, ((s (i + 1)).time - (s i).time) ^ (2 * k i + 3)) (s N).P := by
  obtain ⟨K, ρ, hK, hρ, H⟩ := order_core ht M D
  refine ⟨K, ρ, hK, hρ, fun P S kdk p hD N s c h h' hs0 hit hst hend => ?_⟩
  have each : ∀ i, ∃ k, i < N → SimpleAt kdk p ((s (i + 1)).time - (s i).time) (s i) (s (i + 1)) k ∧ (s (i + 1)).P.num = (s i).P.num ∧ (s (i + 1)).P.mass = (s i).P.mass := by
    intro i
    rcases Nat.lt_or_ge i N with hi | hi
    · obtain ⟨hAcc, _, ⟨k, X⟩, ⟨hn, hm⟩, _⟩ := C29_simple gravity kdk p (h i) (c i) (c (i + 1)) (s i) (s (i + 1)) (h' i) (hit i hi)
      refine ⟨k, fun _ => ⟨?_, hn, hm⟩⟩
      have := (simple_extrap (m := (s i).P.mass) X rfl (fun _ _ => rfl) hn).1
      rw [show (s (i + 1)).time - (s i).time = hAcc by linarith]
      exact X
    · exact ⟨0, fun h => absurd h (by omega)⟩
  choose k hk using each
  exact ⟨k, fun i hi => (hk i hi).1, H P S kdk p hD N s k hs0 hk hst hend⟩

theorem within_mono {n : Nat} {m : Nat → ℝ} {x v : ℝ → Nat → V3 ℝ} {t a b : ℝ} {P : Particles} (W : WithinOf n m x v t a P) (h : a ≤ b) : WithinOf n m x v t b P :=
  ⟨W.num, W.mass, fun k hk => (W.pos k hk).trans h, fun k hk => (W.vel k hk).trans h⟩

/-- With accepted steps of at most `hm` the error is of order `hm ^ 4`, whatever the tolerance. -/
theorem C95_fourth {n : Nat} {m : Nat → ℝ} {x v : ℝ → Nat → V3 ℝ} {t0 t1 : ℝ} (ht : t0 ≤ t1) (M : NewtonMotion n m x v t0 t1) (D : Nat) :
    ∃ K ρ : ℝ, 0 ≤ K ∧ 0 < ρ ∧ ∀ P, InState n m x v t0 P → ∀ (kdk : Bool) (p : Params ℝ), p.maxDepth = D →
      ∀ (N : Nat) (s : Nat → Simple) (c : Nat → State ℝ) (h h' : Nat → ℝ) (hm : ℝ), s 0 = Simple.init t0 P → hm ≤ ρ →
      (∀ i, i < N → iterate (simpleSys gravity kdk) p (h i) (c i) (s i) = .ok (s (i + 1), h' i, c (i + 1))) →
      (∀ i, i < N → (s i).time ≤ (s (i + 1)).time ∧ (s (i + 1)).time - (s i).time ≤ hm) → (s N).time ≤ t1 →
      WithinOf n m x v (s N).time (K * hm ^ 4) (s N).P := by
  obtain ⟨K, ρ, hK, hρ, H⟩ := C95_order ht M D
  refine ⟨K * (t1 - t0), min ρ 1, by nlinarith, lt_min hρ one_pos, fun P S kdk p hD N s c h h' hm hs0 hmρ hit hst hend => ?_⟩
  obtain ⟨k, hk, W⟩ := H P S kdk p hD N s c h h' hs0 hit (fun i hi => ⟨(hst i hi).1, (hst i hi).2.trans (hmρ.trans (min_le_left _ _))⟩) hend
  refine within_mono W ?_
  have hm1 : hm ≤ 1 := hmρ.trans (min_le_right _ _)
  have hsum : ∑ i ∈ range N, ((s (i + 1)).time - (s i).time) = (s N).time - t0 := by
    rw [Finset.sum_range_sub (fun i => (s i).time), hs0]; rfl
  have each : ∀ i ∈ range N, ((s (i + 1)).time - (s i).time) ^ (2 * k i + 3) ≤ ((s (i + 1)).time - (s i).time) * hm ^ 4 := by
    intro i hi
    have hi' := mem_range.1 hi
    obtain ⟨a, b⟩ := hst i hi'
    obtain ⟨_, _, _, _, hk1, _⟩ := hk i hi'
    set d := (s (i + 1)).time - (s i).time with hd
    have d0 : 0 ≤ d := by rw [hd]; linarith
    have : d ^ (2 * k i + 3) ≤ d ^ 5 := pow_le_pow_of_le_one d0 (by linarith) (by omega)
    have h4 : d ^ 4 ≤ hm ^ 4 := pow_le_pow_left₀ d0 b 4
    calc d ^ (2 * k i + 3) ≤ d ^ 5 := this
      _ = d * d ^ 4 := by ring
      _ ≤ d * hm ^ 4 := mul_le_mul_of_nonneg_left h4 d0
  have h4 : (0 : ℝ) ≤ hm ^ 4 := by positivity
  calc K * ∑ i ∈ range N, ((s (i + 1)).time - (s i).time) ^ (2 * k i + 3) ≤ K * (((s N).time - t0) * hm ^ 4) := by
        refine mul_le_mul_of_nonneg_left ?_ hK
        rw [← hsum, Finset.sum_mul]
        exact Finset.sum_le_sum each
    _ ≤ K * ((t1 - t0) * hm ^ 4) := mul_le_mul_of_nonneg_left (mul_le_mul_of_nonneg_right (by linarith) h4) hK
    _ = K * (t1 - t0) * hm ^ 4 := by ring

theorem retried_one {p : Params ℝ} (hp : ∀ o r, p.limiter o r = 1) {h h' : ℝ} (R : Retried p h h') : h' = h := by
  induction R with
  | refl => rfl
  | again o r _ ih => rw [ih, hp, mul_one]

/-- Non-vacuity: the circular motion of two masses; a call of a fresh iterator with a small step. -/
example (t0 : ℝ) : ∃ K ρ : ℝ, 0 < ρ ∧ ∀ h, 0 < h → h ≤ ρ → ∃ s' h' c',
    iterate (simpleSys gravity true) ⟨7, false, fun _ _ _ => 0, fun _ _ => 1, fun _ _ => 1⟩ h (State.init 7)
      (Simple.init t0 ⟨2, circlePos t0, circleVel t0, fun _ => 1 / 2⟩) = .ok (s', h', c') ∧
    s'.time = t0 + h ∧ WithinOf 2 (fun _ => 1 / 2) circlePos circleVel (t0 + h) (K * h ^ 4) s'.P := by
  obtain ⟨K, ρ, _, hρ, H⟩ := C95_fourth (by linarith : t0 ≤ t0 + 1) (circle_motion t0 (t0 + 1)) 7
  refine ⟨K, min ρ 1, lt_min hρ one_pos, fun h hh hle => ?_⟩
  set s := Simple.init t0 ⟨2, circlePos t0, circleVel t0, fun _ => 1 / 2⟩ with hs
  obtain ⟨s', h', c', e⟩ := C29_returns gravity true ⟨7, false, fun _ _ _ => 0, fun _ _ => 1, fun _ _ => 1⟩
    (by norm_num) (fun _ _ _ => zero_le_one) h s
  have ht : s'.time = t0 + h := by
    obtain ⟨hAcc, R, ⟨k, X⟩, ⟨hn, _⟩, _⟩ := C29_simple gravity true _ _ _ _ s s' h' e
    have := (simple_extrap (m := s.P.mass) X rfl (fun _ _ => rfl) hn).1
    rw [retried_one (fun _ _ => rfl) R] at this
    exact this
  refine ⟨s', h', c', e, ht, ?_⟩
  have := H ⟨2, circlePos t0, circleVel t0, fun _ => 1 / 2⟩ ⟨rfl, fun _ _ => rfl, fun _ _ => rfl, fun _ _ => rfl⟩ true _ rfl 1
    (fun i => if i = 0 then s else s') (fun i => if i = 0 then State.init 7 else c') (fun _ => h) (fun _ => h') h rfl (hle.trans (min_le_left _ _))
    (fun i hi => by
      obtain rfl : i = 0 := by omega
      simpa using e)
    (fun i hi => by
      obtain rfl : i = 0 := by omega
      simp only [if_true, if_neg (show ¬ (0 + 1 = 0) by omega), ht]
      rw [show s.time = t0 from rfl]
      exact ⟨by linarith, by linarith⟩)
    (by simp only [if_neg (show ¬ (1 = 0) by omega), ht]; linarith [hle.trans (min_le_right ρ 1)])
  simpa only [if_neg (show ¬ (1 = 0) by omega), ht] using this

end SpaceHub.Sys
