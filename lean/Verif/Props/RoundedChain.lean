import Verif.Proof.RoundedChainRun

/-
C116: rounding errors of chain systems.
-/

set_option autoImplicit false

namespace SpaceHub.Rounded
open SpaceHub V3 Force Core Integrator Spec Sys Props Converge

variable {n : Nat}

/-! ### exact arithmetic -/

theorem indexOfR_exact (P : Particles) (idx : Arr Nat) : IndexOfR .exact P idx ↔ IndexOf P idx := Iff.rfl

theorem init_exactC (t0 : ℝ) (P : Particles) (idx : Arr Nat) (hn : 1 ≤ P.num) : ChainSys.init t0 P idx = .ok (initC .exact t0 P idx) := by
  unfold ChainSys.init Chain.toChain
  rw [if_neg (by omega), if_neg (by omega)]
  rfl

theorem toCart_exact (n : Nat) (hn : 1 ≤ n) (c x : Arr (V3 ℝ)) (σ : Arr Nat) : Chain.toCartesian n c x σ = .ok (toCartR .exact n c x σ) := by
  unfold Chain.toCartesian
  rw [if_neg (by omega)]
  rfl

theorem toChain_exact (n : Nat) (hn : 1 ≤ n) (c x : Arr (V3 ℝ)) (σ : Arr Nat) : Chain.toChain n c x σ = .ok (toChainR .exact n c x σ) := by
  unfold Chain.toChain
  rw [if_neg (by omega)]
  rfl

theorem chainAdvance_exact (n : Nat) (hn : 1 ≤ n) (σ : Arr Nat) (x c ci : Arr (V3 ℝ)) (h : ℝ) :
    ChainSys.chainAdvance n σ x c ci h = .ok (toCartR .exact n (advance .exact n c ci h) x σ, advance .exact n c ci h) := by
  unfold ChainSys.chainAdvance
  show (Chain.toCartesian n (advance .exact n c ci h) x σ >>= _) = _
  rw [toCart_exact n hn]
  rfl

theorem driftC_exact (h : ℝ) (s : ChainSys) (hn : 1 ≤ s.P.num) (hs : s.sync = false) : s.drift h = .ok (driftC .exact h s) := by
  obtain ⟨P, t, cp, cv, ix, a, ca, i, b⟩ := s
  obtain rfl : b = false := hs
  show (ChainSys.chainAdvance P.num ix P.pos cp cv h >>= _) = _
  rw [chainAdvance_exact _ hn]
  rfl

theorem accC_exact (s : ChainSys) (hn : 2 ≤ s.P.num) : chainGravity.acc s.P s.view = .ok (accChain .exact s) := by
  have h : setZero s.P.num (fun _ => (0 : V3 ℝ)) = fun _ => 0 := by funext k; simp [setZero]
  unfold ChainInteractions.acc
  rw [h]
  show (newtonChain s.P s.view fun _ => 0) >>= (ChainInteractions.invoke s.P s.view (fun _ => true) []) = _
  unfold newtonChain chainLoopsFar
  rw [if_neg (by omega)]
  rfl

theorem kickC_exact (h : ℝ) (s : ChainSys) (hn : 2 ≤ s.P.num) (hs : s.sync = false) : s.kick chainGravity h = .ok (kickC .exact h s) := by
  have ha := accC_exact s hn
  obtain ⟨P, t, cp, cv, ix, a, ca, i, b⟩ := s
  obtain rfl : b = false := hs
  change 2 ≤ P.num at hn
  unfold ChainSys.kick
  rw [if_neg (by simp [chainGravity, ChainInteractions.velDep])]
  rw [ha]
  show (Chain.toChain P.num _ _ ix >>= _) = _
  rw [toChain_exact _ (by omega)]
  show (ChainSys.chainAdvance P.num ix P.vel cv _ h >>= _) = _
  rw [chainAdvance_exact _ (by omega)]
  rfl

theorem stageC_sync (A : Arith) (h : ℝ) (c : Stage) (s : ChainSys) : (stageC A h c s).sync = s.sync ∧ (stageC A h c s).P.num = s.P.num := by cases c <;> exact ⟨rfl, rfl⟩

theorem stepC_exact (stages : List Stage) (h : ℝ) : ∀ s : ChainSys, 2 ≤ s.P.num → s.sync = false →
    (chainOps chainGravity).run (stages.map (Stage.op h)) s = .ok (stepC .exact stages h s) ∧ (stepC .exact stages h s).sync = false := by
  induction stages with
  | nil => exact fun s _ hs => ⟨rfl, hs⟩
  | cons c l ih =>
    intro s hn hs
    obtain ⟨k1, k2⟩ := stageC_sync .exact h c s
    obtain ⟨a, b⟩ := ih (stageC .exact h c s) (by rw [k2]; exact hn) (k1.trans hs)
    refine ⟨?_, b⟩
    have e : (chainOps chainGravity).apply (Stage.op h c) s = .ok (stageC .exact h c s) := by
      cases c with
      | drift c => exact driftC_exact _ s (by omega) hs
      | kick c => exact kickC_exact _ s hn hs
    show (chainOps chainGravity).apply (Stage.op h c) s >>= (chainOps chainGravity).run (l.map (Stage.op h)) = _
    rw [e]
    exact a

theorem update_exact (n : Nat) (hn : 1 ≤ n) (c x : Arr (V3 ℝ)) (σ τ : Arr Nat) :
    (Chain.updateChain n c x σ τ >>= fun l => store n l c) = .ok (updateChainR .exact n c x σ τ) := by
  unfold Chain.updateChain
  rw [if_neg (by omega)]
  show store n _ c = _
  unfold store
  rw [if_pos (by simp; omega)]
  refine congrArg Res.ok (funext fun i => ?_)
  unfold updateChainR
  by_cases h1 : i + 1 < n
  · rw [if_pos (by omega), if_pos h1]
    have hl : i < n - 1 := by omega
    rw [List.getD_eq_getElem?_getD, List.getElem?_append_left (by simp; omega)]
    simp [hl]
    rfl
  · rw [if_neg h1]
    by_cases h2 : i < n
    · rw [if_pos h2, if_pos h2]
      obtain rfl : i = n - 1 := by omega
      rw [List.getD_eq_getElem?_getD, List.getElem?_append_right (by simp)]
      simp
    · rw [if_neg h2, if_neg h2]

theorem postIterC_exact (τ : Arr Nat) (s : ChainSys) (hn : 1 ≤ s.P.num) : s.postIter τ = .ok (postIterC .exact τ s) := by
  unfold ChainSys.postIter postIterC
  by_cases h : ∃ k, k < s.P.num ∧ τ k ≠ s.index k
  · rw [if_pos h, if_pos h]
    have u1 := update_exact s.P.num hn s.cpos s.P.pos s.index τ
    have u2 := update_exact s.P.num hn s.cvel s.P.vel s.index τ
    obtain ⟨l1, e1⟩ : ∃ l, Chain.updateChain s.P.num s.cpos s.P.pos s.index τ = .ok l := ⟨_, by unfold Chain.updateChain; rw [if_neg (by omega)]⟩
    obtain ⟨l2, e2⟩ : ∃ l, Chain.updateChain s.P.num s.cvel s.P.vel s.index τ = .ok l := ⟨_, by unfold Chain.updateChain; rw [if_neg (by omega)]⟩
    rw [e1] at u1
    rw [e2] at u2
    change store s.P.num l1 s.cpos = _ at u1
    change store s.P.num l2 s.cvel = _ at u2
    show (Chain.updateChain s.P.num s.cpos s.P.pos s.index τ >>= _) = _
    rw [e1]
    show (store s.P.num l1 s.cpos >>= _) = _
    rw [u1]
    show (Chain.toCartesian s.P.num (updateChainR .exact s.P.num s.cpos s.P.pos s.index τ) s.P.pos τ >>= _) = _
    rw [toCart_exact _ hn]
    show (Chain.updateChain s.P.num s.cvel s.P.vel s.index τ >>= _) = _
    rw [e2]
    show (store s.P.num l2 s.cvel >>= _) = _
    rw [u2]
    show (Chain.toCartesian s.P.num (updateChainR .exact s.P.num s.cvel s.P.vel s.index τ) s.P.vel τ >>= _) = _
    rw [toCart_exact _ hn]
    rfl
  · rw [if_neg h, if_neg h]

/-- **C116, without rounding** the computation is that of the systems in exact arithmetic (C02–C06, C93): the same indices, the same constructor, and every run
of the one is a run of the other. -/
theorem C116_exact : (∀ P idx, IndexOfR .exact P idx ↔ IndexOf P idx) ∧
    (∀ (t0 : ℝ) (P : Particles) (idx : Arr Nat), 1 ≤ P.num → ChainSys.init t0 P idx = .ok (initC .exact t0 P idx)) ∧
    ∀ (stages : List Stage) (hs : List ℝ) (s : ChainSys), 2 ≤ s.P.num → s.sync = false → ∀ r,
      (Steps (ChainStep chainGravity) (hs.map fun h => stages.map (Stage.op h)) s r ↔ ∃ s', r = .ok s' ∧ Runs (StepsTo .exact stages) hs s s') := by
  refine ⟨indexOfR_exact, init_exactC, fun stages hs => ?_⟩
  have one : ∀ (h : ℝ) (s : ChainSys), 2 ≤ s.P.num → s.sync = false → ∀ r, (ChainStep chainGravity (stages.map (Stage.op h)) s r ↔ ∃ s', r = .ok s' ∧ StepsTo .exact stages h s s') := by
    intro h s hn hs r
    have hp : s.preIter chainGravity = s := by unfold ChainSys.preIter; rw [if_neg (by simp [chainGravity, ChainInteractions.velDep])]
    obtain ⟨a, b⟩ := stepC_exact stages h s hn hs
    have k := (stepC_keeps .exact h stages s).1
    constructor
    · rintro (⟨s1, idx, e, hi, er⟩ | ⟨e, _⟩)
      · rw [hp, a] at e
        obtain rfl := Res.ok.inj e
        exact ⟨_, er.trans (postIterC_exact idx _ (by omega)), idx, hi, rfl⟩
      · rw [hp] at e
        exact absurd a (e _)
    · rintro ⟨s', rfl, idx, hi, rfl⟩
      exact .inl ⟨_, idx, by rw [hp]; exact a, hi, (postIterC_exact idx _ (by omega)).symm⟩
  have keep : ∀ (h : ℝ) (s s' : ChainSys), StepsTo .exact stages h s s' → 2 ≤ s.P.num → s.sync = false → 2 ≤ s'.P.num ∧ s'.sync = false := by
    rintro h s _ ⟨idx, _, rfl⟩ hn hs
    have b := (stepC_exact stages h s hn hs).2
    have k := (stepC_keeps .exact h stages s).1
    unfold postIterC
    split_ifs
    · exact ⟨by show 2 ≤ (stepC .exact stages h s).P.num; omega, b⟩
    · exact ⟨by omega, b⟩
  induction hs with
  | nil =>
    intro s _ _ r
    constructor
    · rintro ⟨⟩
      exact ⟨s, rfl, .nil s⟩
    · rintro ⟨s', rfl, R⟩
      cases R
      exact .nil s
  | cons h l ih =>
    intro s hn hs r
    constructor
    · intro R
      rw [List.map_cons] at R
      cases R with
      | cons _ _ _ s1 _ e t =>
        obtain ⟨s', e', st⟩ := (one h s hn hs _).1 e
        obtain rfl := Res.ok.inj e'
        obtain ⟨k1, k2⟩ := keep h s _ st hn hs
        obtain ⟨s2, er, R2⟩ := (ih _ k1 k2 r).1 t
        exact ⟨s2, er, .cons st R2⟩
      | fail _ _ _ _ e hr =>
        obtain ⟨s', e', _⟩ := (one h s hn hs _).1 e
        exact absurd e' (hr _)
    · rintro ⟨s', rfl, R⟩
      cases R with
      | cons st R2 =>
        obtain ⟨k1, k2⟩ := keep h s _ st hn hs
        exact .cons _ _ _ _ _ ((one h s hn hs _).2 ⟨_, rfl, st⟩) ((ih _ k1 k2 _).2 ⟨s', rfl, R2⟩)

/-- An index is found and a run exists, whatever the arithmetic. -/
theorem C116_exists (A : Arith) : (∀ P : Particles, 2 ≤ P.num → ∃ idx, IndexOfR A P idx) ∧
    ∀ (stages : List Stage) (hs : List ℝ) (s : ChainSys), 2 ≤ s.P.num → ∃ s', Runs (StepsTo A stages) hs s s' := by
  have idx : ∀ P : Particles, 2 ≤ P.num → ∃ idx, IndexOfR A P idx := fun P hn => by
    obtain ⟨res, h⟩ := Chain.C01_outcome_exists P.num (dist2R A P.pos) (Chain.enoughFuel (Chain.createDistances P.num (dist2R A P.pos)).length)
    obtain ⟨l, rfl, _⟩ := Chain.C01_index_is_permutation P.num hn _ _ (le_refl _) _ h
    exact ⟨_, _, l, h, rfl⟩
  refine ⟨idx, fun stages hs => ?_⟩
  induction hs with
  | nil => exact fun s _ => ⟨s, .nil s⟩
  | cons h l ih =>
    intro s hn
    have k := (stepC_keeps A h stages s).1
    obtain ⟨τ, hτ⟩ := idx (stepC A stages h s).P (by omega)
    have k' : 2 ≤ (postIterC A τ (stepC A stages h s)).P.num := by
      unfold postIterC
      split_ifs
      · show 2 ≤ (stepC A stages h s).P.num; omega
      · omega
    obtain ⟨s', R⟩ := ih _ k'
    exact ⟨s', .cons ⟨τ, hτ, rfl⟩ R⟩

theorem tie_close {A : Arith} {u κ R : ℝ} {x c : Arr (V3 ℝ)} {σ : Arr Nat}
    (hc : ∀ i, i < n → |(partialR A n c i).x - (partialR .exact n c i).x| ≤ κ * u ∧ |(partialR A n c i).y - (partialR .exact n c i).y| ≤ κ * u ∧
      |(partialR A n c i).z - (partialR .exact n c i).z| ≤ κ * u) (hR : κ ≤ R) (hu : 0 ≤ u) (h : Tie A n (R * u) x c σ) : Close n (R * u) x c σ := by
  rcases h with h | h
  · intro i hi
    have l : κ * u ≤ R * u := mul_le_mul_of_nonneg_right hR hu
    rw [h i hi]
    exact ⟨(hc i hi).1.trans l, (hc i hi).2.1.trans l, (hc i hi).2.2.trans l⟩
  · exact h

theorem bdd_chain (hn : 1 ≤ n) {x c : Arr (V3 ℝ)} {σ : Arr Nat} (hσ : IsIndex n σ) {R : ℝ} (hx : ∀ i, i < n → x (σ i) = partialR .exact n c i) (hb : ‖conf n x‖ ≤ R) :
    Bdd n (2 * R) c := by
  have b := fun i (hi : i < n) => coord_le x (σ i) (hσ.lt i hi) hb
  intro i hi
  by_cases h : i + 1 < n
  · have e : c i = x (σ (i + 1)) - x (σ i) := by rw [hx _ h, hx _ hi, partialR, addV_exact]; abel
    obtain ⟨a1, a2, a3⟩ := b (i + 1) h
    obtain ⟨b1, b2, b3⟩ := b i hi
    rw [e]
    simp only [V3.sub_x, V3.sub_y, V3.sub_z]
    exact ⟨(abs_sub _ _).trans (by linarith), (abs_sub _ _).trans (by linarith), (abs_sub _ _).trans (by linarith)⟩
  · obtain rfl : i = n - 1 := by omega
    have e : c (n - 1) = x (σ 0) := by rw [hx 0 (by omega)]; rfl
    have R0 : 0 ≤ R := (norm_nonneg _).trans hb
    rw [e]
    obtain ⟨a1, a2, a3⟩ := b 0 (by omega)
    exact ⟨by linarith, by linarith, by linarith⟩

theorem close_norm (hn : 2 ≤ n) {s : ChainSys} (hs : s.P.num = n) (hi : IsIndex n s.index) {δ : ℝ} (hδ : 0 ≤ δ) (hp : Close n δ s.P.pos s.cpos s.index)
    (hv : Close n δ s.P.vel s.cvel s.index) : ‖(conf n s.P.pos, conf n s.P.vel) - point n (plainOf s)‖ ≤ δ := by
  refine norm_prod_le_iff.2 ⟨le_coord _ _ hδ fun k hk => ?_, le_coord _ _ hδ fun k hk => ?_⟩
  · obtain ⟨i, h, rfl⟩ := hi.surj hk
    rw [plain_pos (by omega) hs hi i h]
    exact hp i h
  · obtain ⟨i, h, rfl⟩ := hi.surj hk
    rw [plain_vel (by omega) hs hi i h]
    exact hv i h

/-- **C116.** Particles move from `t0` to `t1` under Newton's laws without colliding.  A chain system is made of a state that is within `e` of theirs and
integrated with an integrator of the order `p` (up to a deviation `δ` of its coefficients) and steps of at most `hm`, in an arithmetic whose operations have
the relative error `u`; the chain is rebuilt after every step, in whatever way the distances as computed and the ties between them allow.  Then at every time up
to `t1` every position and velocity is off by at most `K (hm ^ p + δ + e + N u)`, `N` the number of steps so far, and the clock is off by at most `K N u`;
provided that `hm`, `δ`, `e`, `u` and `N u` are small enough. -/
theorem C116_rounded {n : Nat} {m : Nat → ℝ} {x v : ℝ → Nat → V3 ℝ} {t0 t1 : ℝ} (ht : t0 ≤ t1) (M : NewtonMotion n m x v t0 t1) (hn : 2 ≤ n) (p : Nat) (hp : 1 ≤ p)
    (stages : List Stage) :
    ∃ K ρ : ℝ, 0 ≤ K ∧ 0 < ρ ∧ ∀ A u, Accurate A u → 0 ≤ u → u ≤ ρ → ∀ e P, 0 ≤ e → e ≤ ρ → WithinOf n m x v t0 e P →
      ∀ hm δ, 0 ≤ hm → hm ≤ ρ → 0 ≤ δ → δ ≤ ρ →
      (∀ w : List Bool, 1 ≤ w.length → w.length ≤ p → |(deviation stages w : ℝ)| * hm ^ (w.length - 1) ≤ δ) →
      ∀ hs : List ℝ, (∀ h ∈ hs, 0 ≤ h ∧ h ≤ hm) → t0 + hs.sum ≤ t1 → hs.length * u ≤ ρ →
      ∀ idx, IndexOfR A P idx → ∀ s, Runs (StepsTo A stages) hs (initC A t0 P idx) s →
        |s.time - (t0 + sumDrift stages * hs.sum)| ≤ K * (hs.length * u) ∧ WithinOf n m x v (t0 + hs.sum) (K * (hm ^ p + δ + e + hs.length * u)) s.P := by
  obtain ⟨_, _, _, _, _, H, _, _⟩ := motion_tube M
  have mem : ∀ t ∈ Set.Icc 0 (t1 - t0), t0 + t ∈ Set.Icc t0 t1 := fun t ht => ⟨by linarith [ht.1], by linarith [ht.2]⟩
  have hfree : ∀ t ∈ Set.Icc 0 (t1 - t0), conf n (x (t0 + t)) ∈ free n := by
    intro t ht i j hij h
    exact M.apart _ (mem t ht) i j i.2 j.2 (fun e => hij (Fin.ext e)) (congrArg ve h)
  have hc : ∃ c : ℝ, ∀ s ∈ stages, |((coef s : ℚ) : ℝ)| ≤ c := by
    obtain ⟨c, hc⟩ := (List.finite_toSet stages |>.image fun s => |((coef s : ℚ) : ℝ)|).bddAbove
    exact ⟨c, fun s hs => hc ⟨s, hs, rfl⟩⟩
  obtain ⟨c, hc⟩ := hc
  set y : ℝ → Conf n × Conf n := fun t => (conf n (x (t0 + t)), conf n (v (t0 + t))) with hy
  set T := t1 - t0 with hT
  have hT0 : 0 ≤ T := by linarith
  obtain ⟨r, C, L, ρ1, W, hr, hC, hL, hρ1, hρ11, cW, hWU, key⟩ := order_parts ((free_open n).preimage continuous_fst) (plain_smooth n m) (plain_straight n m)
    (T := T) (y := y) (fun t ht => by
      have := (H.dq t ht).prodMk (H.dv t ht)
      refine this.congr_deriv ?_
      simp [plainF, hy]) hfree p stages.length c
  obtain ⟨stab, inW, loc⟩ := key stages le_rfl hc
  set σ : ℝ := (sumDrift stages : ℝ) with hσ
  obtain ⟨R, hR⟩ := cW.isBounded.exists_norm_le
  obtain ⟨κ1, v1, hκ1, hv1, close1⟩ := chain_close n (by omega) (‖y 0‖ + r)
  obtain ⟨κ2, v2, hκ2, hv2, close2⟩ := partial_close n (2 * R)
  set κ := max κ1 κ2 with hκ
  have hκ0 : 0 ≤ κ := hκ1.trans (le_max_left _ _)
  obtain ⟨D, u0, hD, hu0, rnd⟩ := chain_steps (B := |t0| + |σ| * T + 1) hn hκ0 cW hWU inW
  set X := Real.exp (L * T) with hX
  have hX0 : 0 < X := Real.exp_pos _
  have hX1 : 1 ≤ X := Real.one_le_exp (by positivity)
  set Q := X * (1 + κ + 2 * (T * C) + D) with hQ
  have hQ0 : 0 ≤ Q := by positivity
  set K := 2 * (X * (1 + κ + T * C + D)) + D + 2 * κ + 1 with hK
  have hK0 : 0 ≤ K := by positivity
  set ρ2 := min ρ1 (min u0 (min v1 v2)) with hρ2
  refine ⟨K, min ρ2 (min (r / (Q + 1)) (1 / (D + 1))), hK0, lt_min (lt_min hρ1 (lt_min hu0 (lt_min hv1 hv2))) (lt_min (by positivity) (by positivity)),
    fun A u hA hu huρ e P he heρ S hm δ hm0 hmρ hδ0 hδρ hdev hs hhs hsum hN idx hidx s' Rn => ?_⟩
  have q0 : min ρ2 (min (r / (Q + 1)) (1 / (D + 1))) ≤ ρ2 := min_le_left _ _
  have q1 := q0.trans (min_le_left ρ1 _)
  have q2 := (q0.trans (min_le_right ρ1 _)).trans (min_le_left _ _)
  have q5 := ((q0.trans (min_le_right ρ1 _)).trans (min_le_right _ _)).trans (min_le_left _ _)
  have q6 := ((q0.trans (min_le_right ρ1 _)).trans (min_le_right _ _)).trans (min_le_right _ _)
  have q3 : min ρ2 (min (r / (Q + 1)) (1 / (D + 1))) ≤ r / (Q + 1) := (min_le_right _ _).trans (min_le_left _ _)
  have q4 : min ρ2 (min (r / (Q + 1)) (1 / (D + 1))) ≤ 1 / (D + 1) := (min_le_right _ _).trans (min_le_right _ _)
  have hm1 : hm ≤ 1 := hmρ.trans (q1.trans hρ11)
  have hmp : hm ^ p ≤ hm := pow_le_of_le_one hm0 hm1 (by omega)
  have hmp0 : 0 ≤ hm ^ p := by positivity
  have hNu : 0 ≤ hs.length * u := by positivity
  have hnum : P.num = n := S.num
  have hσi : idx ∈ indices n := by rw [← hnum]; exact hidx.mem
  have hii := indices_isIndex hσi
  -- no step
  rcases Nat.eq_zero_or_pos hs.length with h0 | hpos
  · obtain rfl := List.length_eq_zero_iff.1 h0
    cases Rn
    refine ⟨by simp [initC], ?_⟩
    have le : e ≤ K * (hm ^ p + δ + e + ([] : List ℝ).length * u) := by
      have : 1 ≤ K := by rw [hK]; linarith [show 0 ≤ 2 * (X * (1 + κ + T * C + D)) + D + 2 * κ by positivity]
      have h1 : e ≤ hm ^ p + δ + e + ([] : List ℝ).length * u := by linarith
      calc e ≤ 1 * (hm ^ p + δ + e + ([] : List ℝ).length * u) := by rw [one_mul]; exact h1
        _ ≤ _ := mul_le_mul_of_nonneg_right this (by positivity)
    rw [List.sum_nil, add_zero]
    exact ⟨S.num, S.mass, fun k hk => (S.pos k hk).trans le, fun k hk => (S.vel k hk).trans le⟩
  -- at least one step
  have uN : u ≤ hs.length * u := by
    have : (1 : ℝ) ≤ hs.length := by exact_mod_cast hpos
    calc u = 1 * u := (one_mul u).symm
      _ ≤ hs.length * u := mul_le_mul_of_nonneg_right this hu
  have clk : hs.length * (D * u) ≤ 1 := by
    have h1 := hN.trans q4
    rw [le_div_iff₀ (by positivity)] at h1
    linarith [show hs.length * (D * u) = hs.length * u * (D + 1) - hs.length * u by ring]
  have small : X * (e + κ * u + T * (C * (hm ^ p + δ)) + hs.length * (D * u)) ≤ r := by
    have a1 : e ≤ r / (Q + 1) := heρ.trans q3
    have a2 : hm ^ p ≤ r / (Q + 1) := hmp.trans (hmρ.trans q3)
    have a3 : δ ≤ r / (Q + 1) := hδρ.trans q3
    have a4 : hs.length * u ≤ r / (Q + 1) := hN.trans q3
    have a6 : u ≤ r / (Q + 1) := huρ.trans q3
    have a5 : Q * (r / (Q + 1)) ≤ r := by
      rw [mul_div_assoc', div_le_iff₀ (by positivity)]
      linarith [show r * (Q + 1) = Q * r + r by ring]
    calc X * (e + κ * u + T * (C * (hm ^ p + δ)) + hs.length * (D * u)) = X * (e + κ * u + T * C * (hm ^ p + δ) + D * (hs.length * u)) := by ring
      _ ≤ X * (r / (Q + 1) + κ * (r / (Q + 1)) + T * C * (r / (Q + 1) + r / (Q + 1)) + D * (r / (Q + 1))) := by gcongr
      _ = Q * (r / (Q + 1)) := by rw [hQ]; ring
      _ ≤ r := a5
  -- the start
  have st : ‖(conf n P.pos, conf n P.vel) - y 0‖ ≤ e := by
    show ‖(conf n P.pos - conf n (x (t0 + 0)), conf n P.vel - conf n (v (t0 + 0)))‖ ≤ e
    rw [add_zero]
    have f : ∀ a b : Nat → V3 ℝ, (∀ k, k < n → len (a k - b k) ≤ e) → ‖conf n a - conf n b‖ ≤ e := fun a b hab =>
      le_coord a b he fun k hk => ⟨((norm_le_len (a k - b k)).1).trans (hab k hk), ((norm_le_len (a k - b k)).2.1).trans (hab k hk),
        ((norm_le_len (a k - b k)).2.2).trans (hab k hk)⟩
    exact norm_prod_le_iff.2 ⟨f _ _ S.pos, f _ _ S.vel⟩
  have er : e ≤ r := heρ.trans (q3.trans ((div_le_iff₀ (by positivity)).2 (by linarith [show r * (Q + 1) = r * Q + r by ring, mul_nonneg hr.le hQ0])))
  have st0 : ‖(conf n P.pos, conf n P.vel)‖ ≤ ‖y 0‖ + r := by
    have := norm_add_le (y 0) ((conf n P.pos, conf n P.vel) - y 0)
    rw [add_sub_cancel] at this
    linarith
  have c1 : ∀ z : Arr (V3 ℝ), ‖conf n z‖ ≤ ‖y 0‖ + r → Close n (κ * u) z (toChainR A n z (fun _ => 0) idx) idx := fun z hz i hi => by
    obtain ⟨a1, a2, a3⟩ := close1 A u hA hu (huρ.trans q5) idx hii z (fun k hk => coord_le z k hk hz) i hi
    have l : κ1 * u ≤ κ * u := mul_le_mul_of_nonneg_right (le_max_left _ _) hu
    exact ⟨a1.trans l, a2.trans l, a3.trans l⟩
  have tied0 : Tied A n (κ * u) (initC A t0 P idx) := by
    refine ⟨hnum, hii, .inr ?_, .inr ?_⟩
    · show Close n (κ * u) P.pos (toChainR A P.num P.pos (fun _ => 0) idx) idx
      rw [hnum]
      exact c1 _ ((norm_fst_le _).trans st0)
    · show Close n (κ * u) P.vel (toChainR A P.num P.vel (fun _ => 0) idx) idx
      rw [hnum]
      exact c1 _ ((norm_snd_le _).trans st0)
  have start : ‖point n (plainOf (initC A t0 P idx)) - y 0‖ ≤ e + κ * u := by
    have a1 : ‖(conf n P.pos, conf n P.vel) - point n (plainOf (initC A t0 P idx))‖ ≤ κ * u := by
      obtain ⟨_, _, t1, t2⟩ := tied0
      refine close_norm hn (s := initC A t0 P idx) hnum hii (by positivity) ?_ ?_
      · show Close n (κ * u) P.pos (toChainR A P.num P.pos (fun _ => 0) idx) idx
        rw [hnum]
        exact c1 _ ((norm_fst_le _).trans st0)
      · show Close n (κ * u) P.vel (toChainR A P.num P.vel (fun _ => 0) idx) idx
        rw [hnum]
        exact c1 _ ((norm_snd_le _).trans st0)
    rw [norm_sub_rev] at a1
    have := norm_sub_le_norm_sub_add_norm_sub (point n (plainOf (initC A t0 P idx))) (conf n P.pos, conf n P.vel) (y 0)
    linarith
  -- what is stored stands for what the chain stands for
  have tied_close : ∀ s : ChainSys, Tied A n (κ * u) s → ‖point n (plainOf s)‖ ≤ R → Close n (κ * u) s.P.pos s.cpos s.index ∧ Close n (κ * u) s.P.vel s.cvel s.index := by
    intro s ts hb
    exact ⟨tie_close (close2 A u hA hu (huρ.trans q6) s.cpos (bdd_chain (by omega) ts.index (fun i hi => plain_pos (by omega) ts.num ts.index i hi)
        ((norm_fst_le (point n (plainOf s))).trans hb))) (le_max_right _ _) hu ts.pos,
      tie_close (close2 A u hA hu (huρ.trans q6) s.cvel (bdd_chain (by omega) ts.index (fun i hi => plain_vel (by omega) ts.num ts.index i hi)
        ((norm_snd_le (point n (plainOf s))).trans hb))) (le_max_right _ _) hu ts.vel⟩
  have near_R : ∀ t ∈ Set.Icc 0 T, ∀ s : ChainSys, ‖point n (plainOf s) - y t‖ ≤ r → ‖point n (plainOf s)‖ ≤ R := fun t ht s h =>
    hR _ (inW t ht 0 ⟨le_rfl, hρ1.le⟩ _ h [] stages rfl)
  have g := global_related (Φ := wstep (plainF n m) stages) (Ψ := StepsTo A stages) (ζ := fun s => point n (plainOf s))
    (I := fun t k s => Tied A n (κ * u) s ∧ s.index ∈ indices n ∧ (∀ k, k < n → s.P.mass k = m k) ∧ |s.time - (t0 + σ * t)| ≤ k * (D * u)) (y := y) (T := T) (r := r) (M := L)
    (hm := hm) (ε := C * (hm ^ p + δ)) (ε1 := C * (hm ^ p + δ)) (κ := 0) (η := D * u) (e := e + κ * u) (N := hs.length) hL (by positivity) (by rw [add_zero])
    (by positivity) (by positivity)
    (fun t ht h hh => stab t ht h ⟨hh.1, hh.2.trans (hmρ.trans q1)⟩) (loc hm δ hm0 (hmρ.trans q1) hδ0 hdev)
    (fun t h k s s1 hst ht0 h0 hh htT hk ⟨i1, i2, i4, i3⟩ hz => by
      obtain ⟨τ, hτ, rfl⟩ := hst
      have hkN : (k : ℝ) ≤ hs.length := by exact_mod_cast (by omega : k ≤ hs.length)
      have ht' : t ∈ Set.Icc 0 T := ⟨ht0, by linarith⟩
      have bd : |s.time| ≤ |t0| + |σ| * T + 1 := by
        have b1 : |s.time| ≤ |s.time - (t0 + σ * t)| + (|t0| + |σ * t|) := by
          have := abs_add_le (s.time - (t0 + σ * t)) (t0 + σ * t)
          rw [sub_add_cancel] at this
          exact this.trans (add_le_add_right (abs_add_le _ _) _)
        have b2 : |σ * t| ≤ |σ| * T := by
          rw [abs_mul, abs_of_nonneg ht0]
          exact mul_le_mul_of_nonneg_left ht'.2 (abs_nonneg _)
        have b3 : k * (D * u) ≤ hs.length * (D * u) := mul_le_mul_of_nonneg_right hkN (by positivity)
        linarith
      obtain ⟨k1, k2, k3⟩ := stepC_keeps A h stages s
      have hτi : τ ∈ indices n := by
        have := hτ.mem
        rwa [k1, i1.num] at this
      obtain ⟨w1, w2⟩ := tied_close s i1 (near_R t ht' s hz)
      obtain ⟨j1, j2⟩ := rnd s.index i2 τ hτi A u hA hu (huρ.trans q2) (h, s) ⟨rfl, ⟨h0, hh.trans (hmρ.trans q1)⟩, i1.num, i4, bd, t, ht', hz⟩ w1 w2
      have tied1 := (i1.step (by omega) h stages).post (by omega) (indices_isIndex hτi)
      have pi : (postIterC A τ (stepC A stages h s)).index ∈ indices n ∧ (postIterC A τ (stepC A stages h s)).P.mass = (stepC A stages h s).P.mass := by
        unfold postIterC
        split_ifs
        · exact ⟨hτi, rfl⟩
        · exact ⟨by rw [k3]; exact i2, rfl⟩
      refine ⟨⟨tied1, pi.1, fun k hk => by rw [pi.2, k2]; exact i4 k hk, ?_⟩, by rw [mul_zero, zero_add]; exact j1⟩
      have b4 := abs_add_le ((postIterC A τ (stepC A stages h s)).time - (s.time + σ * h)) (s.time - (t0 + σ * t))
      rw [show (postIterC A τ (stepC A stages h s)).time - (s.time + σ * h) + (s.time - (t0 + σ * t)) =
        (postIterC A τ (stepC A stages h s)).time - (t0 + σ * (t + h)) by ring] at b4
      have b5 : |(postIterC A τ (stepC A stages h s)).time - (s.time + σ * h)| ≤ D * u := j2
      push_cast
      linarith)
    small Rn 0 0 hhs le_rfl (by linarith) (by omega) ⟨tied0, hσi, S.mass, by simp [initC]⟩ (by simpa using start)
  rw [zero_add, zero_add] at g
  obtain ⟨⟨g1, g0, g2, g3⟩, g4⟩ := g
  have hs0 : 0 ≤ hs.sum := List.sum_nonneg fun h hh => (hhs h hh).1
  have hsT : hs.sum ≤ T := by linarith
  have e1 : Real.exp (L * hs.sum) ≤ X := Real.exp_le_exp.2 (mul_le_mul_of_nonneg_left hsT hL)
  have p1 : hs.sum * (C * (hm ^ p + δ)) ≤ T * (C * (hm ^ p + δ)) := mul_le_mul_of_nonneg_right hsT (by positivity)
  constructor
  · refine (show _ ≤ _ from g3).trans ?_
    rw [show hs.length * (D * u) = D * (hs.length * u) by ring]
    exact mul_le_mul_of_nonneg_right (by rw [hK]; linarith [show 0 ≤ 2 * (X * (1 + κ + T * C + D)) + 2 * κ by positivity]) hNu
  · have small' : ‖point n (plainOf s') - y hs.sum‖ ≤ r := g4.trans (le_trans (by gcongr) small)
    obtain ⟨w1, w2⟩ := tied_close s' g1 (near_R _ ⟨hs0, hsT⟩ s' small')
    have w3 := close_norm hn g1.num g1.index (by positivity) w1 w2
    have w4 := (norm_sub_le_norm_sub_add_norm_sub (conf n s'.P.pos, conf n s'.P.vel) (point n (plainOf s')) (y hs.sum)).trans (add_le_add w3 g4)
    have W := within_of (x := x) (v := v) (t := t0 + hs.sum) g1.num g2 w4
    have le : 2 * (κ * u + Real.exp (L * hs.sum) * (e + κ * u + hs.sum * (C * (hm ^ p + δ)) + hs.length * (D * u))) ≤ K * (hm ^ p + δ + e + hs.length * u) := by
      have p0 : κ * u ≤ κ * (hs.length * u) := mul_le_mul_of_nonneg_left uN hκ0
      have e2 : e + κ * u + hs.sum * (C * (hm ^ p + δ)) + hs.length * (D * u) ≤ (1 + κ + T * C + D) * (hm ^ p + δ + e + hs.length * u) := by
        have p2 : 0 ≤ 1 * (hm ^ p + δ + hs.length * u) := by positivity
        have p3 : 0 ≤ T * C * (e + hs.length * u) := by positivity
        have p4 : 0 ≤ D * (hm ^ p + δ + e) := by positivity
        have p5 : 0 ≤ κ * (hm ^ p + δ + e) := by positivity
        linarith [show (1 + κ + T * C + D) * (hm ^ p + δ + e + hs.length * u) = e + κ * (hs.length * u) + T * (C * (hm ^ p + δ)) + hs.length * (D * u) +
          1 * (hm ^ p + δ + hs.length * u) + T * C * (e + hs.length * u) + D * (hm ^ p + δ + e) + κ * (hm ^ p + δ + e) by ring]
      have e3 : Real.exp (L * hs.sum) * (e + κ * u + hs.sum * (C * (hm ^ p + δ)) + hs.length * (D * u)) ≤ X * ((1 + κ + T * C + D) * (hm ^ p + δ + e + hs.length * u)) :=
        mul_le_mul e1 e2 (by positivity) hX0.le
      have e4 : 0 ≤ (D + 1) * (hm ^ p + δ + e + hs.length * u) + 2 * κ * (hm ^ p + δ + e) := by positivity
      rw [hK]
      linarith [show (2 * (X * (1 + κ + T * C + D)) + D + 2 * κ + 1) * (hm ^ p + δ + e + hs.length * u) = 2 * (X * ((1 + κ + T * C + D) * (hm ^ p + δ + e + hs.length * u))) +
        2 * (κ * (hs.length * u)) + ((D + 1) * (hm ^ p + δ + e + hs.length * u) + 2 * κ * (hm ^ p + δ + e)) by ring]
    exact ⟨W.num, W.mass, fun k hk => (W.pos k hk).trans le, fun k hk => (W.vel k hk).trans le⟩

/-- **C116, the integrators of the library** on chain systems in rounded arithmetic with `b` bits: off by at most `K (hm ^ q + 1e-12 + N / 2 ^ b)`, `q` the order of the
integrator (for `Symplectic10th` it is 4, see C54), if `1e-12` and `N / 2 ^ b` are small for the motion. -/
theorem C116_integrators {n : Nat} {m : Nat → ℝ} {x v : ℝ → Nat → V3 ℝ} {t0 t1 : ℝ} (ht : t0 ≤ t1) (M : NewtonMotion n m x v t0 t1) (hn : 2 ≤ n) :
    ∃ K ρ : ℝ, 0 ≤ K ∧ 0 < ρ ∧ ((1e-12 : ℝ) ≤ ρ → ∀ q ∈ nominal, ∀ (b : Nat) (rnd : ℝ → ℝ), 1 ≤ b → Nearest b rnd → (1 : ℝ) / 2 ^ b ≤ ρ → ∀ P, InState n m x v t0 P →
      ∀ hm, 0 ≤ hm → hm ≤ ρ → ∀ hs : List ℝ, (∀ h ∈ hs, 0 ≤ h ∧ h ≤ hm) → t0 + hs.sum ≤ t1 → hs.length * (1 / 2 ^ b : ℝ) ≤ ρ →
        ∀ idx, IndexOfR (ieee rnd) P idx → ∀ s, Runs (StepsTo (ieee rnd) q.1) hs (initC (ieee rnd) t0 P idx) s →
          WithinOf n m x v (t0 + hs.sum) (K * (hm ^ q.2 + 1e-12 + hs.length * (1 / 2 ^ b))) s.P) := by
  have ex : ∀ q : List Stage × Nat, ∃ K ρ : ℝ, 0 ≤ K ∧ 0 < ρ ∧ (q ∈ nominal → (1e-12 : ℝ) ≤ ρ → ∀ (b : Nat) (rnd : ℝ → ℝ), 1 ≤ b → Nearest b rnd → (1 : ℝ) / 2 ^ b ≤ ρ →
      ∀ P, InState n m x v t0 P →
      ∀ hm, 0 ≤ hm → hm ≤ ρ → ∀ hs : List ℝ, (∀ h ∈ hs, 0 ≤ h ∧ h ≤ hm) → t0 + hs.sum ≤ t1 → hs.length * (1 / 2 ^ b : ℝ) ≤ ρ →
        ∀ idx, IndexOfR (ieee rnd) P idx → ∀ s, Runs (StepsTo (ieee rnd) q.1) hs (initC (ieee rnd) t0 P idx) s →
          WithinOf n m x v (t0 + hs.sum) (K * (hm ^ q.2 + 1e-12 + hs.length * (1 / 2 ^ b))) s.P) := by
    intro q
    by_cases hq : q ∈ nominal
    · have q1 : 1 ≤ q.2 := by
        simp only [nominal, List.mem_cons, List.not_mem_nil, or_false] at hq
        rcases hq with rfl | rfl | rfl | rfl | rfl | rfl <;> norm_num
      obtain ⟨K, ρ, hK, hρ, H⟩ := C116_rounded ht M hn q.2 q1 q.1
      refine ⟨K, min ρ 1, hK, lt_min hρ one_pos, fun _ h12 b rnd hb N hbρ P S hm hm0 hmρ hs hhs hsum hN idx hidx s Rn => ?_⟩
      have l := min_le_left ρ 1
      have hm1 : hm ≤ 1 := hmρ.trans (min_le_right _ _)
      have W0 : WithinOf n m x v t0 0 P := ⟨S.num, S.mass, fun k hk => by rw [S.pos k hk]; simp [len, dot], fun k hk => by rw [S.vel k hk]; simp [len, dot]⟩
      have R := (H (ieee rnd) _ (C113_nearest hb N) (by positivity) (hbρ.trans l) 0 P le_rfl hρ.le W0 hm 1e-12 hm0 (hmρ.trans l) (by norm_num) (h12.trans l)
        (fun w _ hw => by
          have h1 := (C93_conditions.1 q hq).2.2 w hw
          have h2 : |(deviation q.1 w : ℝ)| ≤ 1e-12 := by
            have : ((|deviation q.1 w| : ℚ) : ℝ) ≤ ((1e-12 : ℚ) : ℝ) := by exact_mod_cast h1
            rw [Rat.cast_abs] at this
            exact this.trans (by norm_num)
          have h3 : hm ^ (w.length - 1) ≤ 1 := pow_le_one₀ hm0 hm1
          calc |(deviation q.1 w : ℝ)| * hm ^ (w.length - 1) ≤ 1e-12 * 1 := mul_le_mul h2 h3 (by positivity) (by norm_num)
            _ = 1e-12 := mul_one _) hs hhs hsum (hN.trans l) idx hidx s Rn).2
      rwa [add_zero] at R
    · exact ⟨0, 1, le_rfl, one_pos, fun h => absurd h hq⟩
  choose K ρ hK hρ H using ex
  have hl : ∀ l : List (List Stage × Nat), ∃ K' ρ' : ℝ, 0 ≤ K' ∧ 0 < ρ' ∧ ∀ q ∈ l, K q ≤ K' ∧ ρ' ≤ ρ q := by
    intro l
    induction l with
    | nil => exact ⟨0, 1, le_rfl, one_pos, by simp⟩
    | cons q l ih =>
      obtain ⟨K', ρ', h1, h2, h3⟩ := ih
      refine ⟨max K' (K q), min ρ' (ρ q), h1.trans (le_max_left _ _), lt_min h2 (hρ q), fun q' hq' => ?_⟩
      rcases List.mem_cons.1 hq' with rfl | hq'
      · exact ⟨le_max_right _ _, min_le_right _ _⟩
      · exact ⟨(h3 q' hq').1.trans (le_max_left _ _), (min_le_left _ _).trans (h3 q' hq').2⟩
  obtain ⟨K', ρ', h1, h2, h3⟩ := hl nominal
  refine ⟨K', ρ', h1, h2, fun h12 q hq b rnd hb N hbρ P S hm hm0 hmρ hs hhs hsum hN idx hidx s Rn => ?_⟩
  obtain ⟨w1, w2⟩ := h3 q hq
  have W := H q hq (h12.trans w2) b rnd hb N (hbρ.trans w2) P S hm hm0 (hmρ.trans w2) hs hhs hsum (hN.trans w2) idx hidx s Rn
  have le : K q * (hm ^ q.2 + 1e-12 + hs.length * (1 / 2 ^ b)) ≤ K' * (hm ^ q.2 + 1e-12 + hs.length * (1 / 2 ^ b)) := mul_le_mul_of_nonneg_right w1 (by positivity)
  exact ⟨W.num, W.mass, fun k hk => (W.pos k hk).trans le, fun k hk => (W.vel k hk).trans le⟩

/-- Non-vacuity: two bodies on a circle, rounding to 53 bits; an index and a run of a thousand steps exist, and the hypotheses hold of them for any `ρ ≥ 1e-3`. -/
example (t0 : ℝ) (rnd : ℝ → ℝ) (N : Nearest 53 rnd) (ρ : ℝ) (hρ : 1e-3 ≤ ρ) : NewtonMotion 2 (fun _ => 1 / 2) circlePos circleVel t0 (t0 + 1) ∧
    WithinOf 2 (fun _ => 1 / 2) circlePos circleVel t0 0 ⟨2, circlePos t0, circleVel t0, fun _ => 1 / 2⟩ ∧
    Accurate (ieee rnd) (1 / 2 ^ 53) ∧ (1 : ℝ) / 2 ^ 53 ≤ ρ ∧
    (∀ h ∈ List.replicate 1000 (1e-3 : ℝ), 0 ≤ h ∧ h ≤ 1e-3) ∧ t0 + (List.replicate 1000 (1e-3 : ℝ)).sum ≤ t0 + 1 ∧
    (List.replicate 1000 (1e-3 : ℝ)).length * (1 / 2 ^ 53 : ℝ) ≤ ρ ∧
    (∀ w : List Bool, 1 ≤ w.length → w.length ≤ 4 → |(deviation symplectic4th w : ℝ)| * 1e-3 ^ (w.length - 1) ≤ 1e-14 * 1e-3 ^ 2) ∧
    ∃ idx s, IndexOfR (ieee rnd) ⟨2, circlePos t0, circleVel t0, fun _ => 1 / 2⟩ idx ∧
      Runs (StepsTo (ieee rnd) symplectic4th) (List.replicate 1000 (1e-3 : ℝ)) (initC (ieee rnd) t0 ⟨2, circlePos t0, circleVel t0, fun _ => 1 / 2⟩ idx) s := by
  obtain ⟨idx, h1⟩ := (C116_exists (ieee rnd)).1 ⟨2, circlePos t0, circleVel t0, fun _ => 1 / 2⟩ le_rfl
  obtain ⟨s, h2⟩ := (C116_exists (ieee rnd)).2 symplectic4th (List.replicate 1000 (1e-3 : ℝ)) (initC (ieee rnd) t0 ⟨2, circlePos t0, circleVel t0, fun _ => 1 / 2⟩ idx) le_rfl
  refine ⟨circle_motion t0 _, ⟨rfl, fun _ _ => rfl, fun _ _ => by simp [len, dot], fun _ _ => by simp [len, dot]⟩, C113_nearest (by norm_num) N,
    le_trans (by norm_num) hρ, fun h hh => ?_, ?_, ?_, fourth_dev (by norm_num) (by norm_num), idx, s, h1, h2⟩
  · rw [(List.mem_replicate.1 hh).2]; norm_num
  · rw [List.sum_replicate]; norm_num
  · rw [List.length_replicate]; exact le_trans (by norm_num) hρ

end SpaceHub.Rounded
