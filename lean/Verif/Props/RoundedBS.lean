import Verif.Proof.RoundedBSRun

/-
C119: rounding errors of Bulirsch-Stoer.
-/

set_option autoImplicit false

namespace SpaceHub.Rounded
open SpaceHub V3 Force Core Integrator Sys Spec BS BS.Spec Props Converge Finset

/-! ### exact arithmetic -/

theorem substeps_exact (kdk : Bool) (h : ℝ) (N : Nat) : substeps .exact kdk h N = if kdk then substepsKDK h N else substepsDKD h N := by
  have e : Arith.exact.div h (Arith.exact.lit N) = h / N := by show h / ((N : ℚ) : ℝ) = _; push_cast; rfl
  have e2 : Arith.exact.mul (Arith.exact.lit (1 / 2)) (h / N) = 1 / 2 * (h / N) := by
    show (((1 / 2 : ℚ)) : ℝ) * _ = _
    push_cast
    norm_num
  cases kdk
  · unfold substeps substepsDKD; simp only [e, e2, Bool.false_eq_true, if_false]
  · unfold substeps substepsKDK; simp only [e, e2, if_true]

theorem system_exact (kdk : Bool) : system .exact kdk = simpleSys gravity kdk := by
  have e : (fun (h : ℝ) (n : Nat) (s : Simple) => Res.ok (callAll .exact (substeps .exact kdk h n) s)) =
      fun h n s => (simpleOps gravity).run (if kdk then substepsKDK h n else substepsDKD h n) s := by
    funext h n s
    rw [← substeps_exact, callAll_exact]
  unfold system
  rw [e]
  rfl

/-- **C119, without rounding** the computation is that of the iterator in exact arithmetic (C27 to C29, C95 and all others about it). -/
theorem C119_exact (kdk : Bool) (p : Params ℝ) (h : ℝ) (c : State ℝ) (s : Simple) :
    bsIterate .exact kdk p h c s = iterate (simpleSys gravity kdk) p h c s := by
  have e : Arith.exact.scalar = instArithReal := by
    unfold Arith.scalar instArithReal
    congr
  unfold bsIterate
  rw [system_exact, e]

/-! ### the property -/

set_option maxHeartbeats 1000000 in
/-- **C119.** Particles move from `t0` to `t1` under Newton's laws without colliding.  A plain system is integrated by Bulirsch-Stoer, call after call, from a
state within `e` of theirs, in an arithmetic whose operations have the relative error `u`.  Every call that returns has accepted a step `a i`, extrapolated
from runs number 0 to some `k i ≥ 1`.  As long as the steps, `e`, `u` and `N u` are at most `ρ`, the clock shows the sum of the steps up to `K N u` and
the particles are off the true ones by at most a constant times the sum of the `2 k + 3`-th powers of the steps, plus `e`, plus `N u`. -/
theorem C119_rounded {n : Nat} {m : Nat → ℝ} {x v : ℝ → Nat → V3 ℝ} {t0 t1 : ℝ} (ht : t0 ≤ t1) (M : NewtonMotion n m x v t0 t1) (kdk : Bool) (D : Nat) :
    ∃ K ρ : ℝ, 0 ≤ K ∧ 0 < ρ ∧ ∀ A u, Accurate A u → 0 ≤ u → u ≤ ρ → ∀ e P, 0 ≤ e → e ≤ ρ → WithinOf n m x v t0 e P →
      ∀ p : Params ℝ, p.maxDepth = D → ∀ (N : Nat) (s : Nat → Simple) (c : Nat → State ℝ) (h h' : Nat → ℝ), s 0 = Simple.init t0 P →
      (∀ i, i < N → bsIterate A kdk p (h i) (c i) (s i) = .ok (s (i + 1), h' i, c (i + 1))) →
      ∃ (a : Nat → ℝ) (k : Nat → Nat), (∀ i, i < N → @RetriedAny ℝ A.scalar p (h i) (a i) ∧ 1 ≤ k i ∧ k i ≤ D) ∧
        ((∀ i, i < N → 0 ≤ a i ∧ a i ≤ ρ) → t0 + ∑ i ∈ range N, a i ≤ t1 → N * u ≤ ρ →
          |(s N).time - (t0 + ∑ i ∈ range N, a i)| ≤ K * (N * u) ∧
          WithinOf n m x v (t0 + ∑ i ∈ range N, a i) (K * (∑ i ∈ range N, a i ^ (2 * k i + 3) + e + N * u)) (s N).P) := by
  obtain ⟨_, _, _, _, _, H, _, _⟩ := motion_tube M
  have mem : ∀ t ∈ Set.Icc 0 (t1 - t0), t0 + t ∈ Set.Icc t0 t1 := fun t ht => ⟨by linarith [ht.1], by linarith [ht.2]⟩
  have hfree : ∀ t ∈ Set.Icc 0 (t1 - t0), conf n (x (t0 + t)) ∈ free n := by
    intro t ht i j hij h
    exact M.apart _ (mem t ht) i j i.2 j.2 (fun e => hij (Fin.ext e)) (congrArg ve h)
  obtain ⟨NN, W, hB⟩ := extrap_bounded D
  set y : ℝ → Conf n × Conf n := fun t => (conf n (x (t0 + t)), conf n (v (t0 + t))) with hy
  set T := t1 - t0 with hT
  have hT0 : 0 ≤ T := by linarith
  obtain ⟨r, C, L, ρ1, Kc, hr, hC, hL, hρ1, hρ11, cK, hKU, key, inW⟩ := mix_parts ((free_open n).preimage continuous_fst) (plain_smooth n m) (plain_straight n m)
    (T := T) (y := y) (fun t ht => by
      have := (H.dq t ht).prodMk (H.dv t ht)
      refine this.congr_deriv ?_
      simp [plainF, hy]) hfree (2 * D + 2) NN 1 W
  obtain ⟨E, u0, hE, hu0, rnd⟩ := near_bs (kdk := kdk) (D := D) (B := |t0| + T + 1) cK hKU (fun j hj => inW (subStages kdk (hSeq D j))
    ((hB kdk 0 D le_rfl).len j (mem_Icc.2 ⟨Nat.zero_le _, hj⟩)) ((hB kdk 0 D le_rfl).coef j (mem_Icc.2 ⟨Nat.zero_le _, hj⟩)))
  set X := Real.exp (L * T) with hX
  have hX0 : 0 < X := Real.exp_pos _
  set Q := X * (1 + C * T + E) with hQ
  have hQ0 : 0 ≤ Q := by positivity
  refine ⟨2 * (X * (1 + C + E)) + E, min (min ρ1 u0) (min (r / (Q + 1)) (1 / (E + 1))), by positivity,
    lt_min (lt_min hρ1 hu0) (lt_min (by positivity) (by positivity)), fun A u hA hu huρ e P he heρ S p hD N s c h h' hs0 hit => ?_⟩
  have q1 : min (min ρ1 u0) (min (r / (Q + 1)) (1 / (E + 1))) ≤ ρ1 := (min_le_left _ _).trans (min_le_left _ _)
  have q2 : min (min ρ1 u0) (min (r / (Q + 1)) (1 / (E + 1))) ≤ u0 := (min_le_left _ _).trans (min_le_right _ _)
  have q3 : min (min ρ1 u0) (min (r / (Q + 1)) (1 / (E + 1))) ≤ r / (Q + 1) := (min_le_right _ _).trans (min_le_left _ _)
  have q4 : min (min ρ1 u0) (min (r / (Q + 1)) (1 / (E + 1))) ≤ 1 / (E + 1) := (min_le_right _ _).trans (min_le_right _ _)
  subst hD
  have each : ∀ i, ∃ (a : ℝ) (k : Nat) (start : Nat → Simple), i < N → @RetriedAny ℝ A.scalar p (h i) a ∧ 1 ≤ k ∧ k ≤ p.maxDepth ∧
      (∀ j, FreshFor (s i) (start j)) ∧ (s (i + 1)).P.num = (s i).P.num ∧ (s (i + 1)).P.mass = (s i).P.mass ∧
      ∀ j, j < 6 * (s i).P.num + 1 → ((s (i + 1)).write gravity).getD j 0 = fresh A kdk p.maxDepth k a (s i) start j := by
    intro i
    rcases Nat.lt_or_ge i N with hi | hi
    · obtain ⟨a, k, start, g⟩ := accepted_write (hit i hi)
      exact ⟨a, k, start, fun _ => g⟩
    · exact ⟨0, 0, fun _ => s 0, fun h => absurd h (by omega)⟩
  choose a k start hacc using each
  refine ⟨a, k, fun i hi => ⟨(hacc i hi).1, (hacc i hi).2.1, (hacc i hi).2.2.1⟩, fun ha hsum hN => ?_⟩
  set ρ := min (min ρ1 u0) (min (r / (Q + 1)) (1 / (E + 1))) with hρ
  have hρ0 : 0 < ρ := lt_min (lt_min hρ1 hu0) (lt_min (by positivity) (by positivity))
  have hNu : 0 ≤ N * u := by positivity
  have hsumT : ∑ i ∈ range N, a i ≤ T := by linarith
  have pow_nonneg' : ∀ i ∈ range N, 0 ≤ a i ^ (2 * k i + 3) := fun i hi => pow_nonneg (ha i (mem_range.1 hi)).1 _
  have hpow0 : 0 ≤ ∑ i ∈ range N, a i ^ (2 * k i + 3) := sum_nonneg pow_nonneg'
  have hpow : ∑ i ∈ range N, a i ^ (2 * k i + 3) ≤ T * ρ := by
    calc ∑ i ∈ range N, a i ^ (2 * k i + 3) ≤ ∑ i ∈ range N, a i * ρ := sum_le_sum fun i hi => by
          obtain ⟨a0, a1⟩ := ha i (mem_range.1 hi)
          have h1 : a i ≤ 1 := a1.trans (q1.trans hρ11)
          calc a i ^ (2 * k i + 3) = a i * a i ^ (2 * k i + 2) := by ring
            _ ≤ a i * a i := mul_le_mul_of_nonneg_left (pow_le_of_le_one a0 h1 (by omega)) a0
            _ ≤ a i * ρ := mul_le_mul_of_nonneg_left a1 a0
      _ = (∑ i ∈ range N, a i) * ρ := (sum_mul _ _ _).symm
      _ ≤ T * ρ := mul_le_mul_of_nonneg_right hsumT hρ0.le
  have clk : N * (E * u) ≤ 1 := by
    have h1 := hN.trans q4
    rw [le_div_iff₀ (by positivity)] at h1
    linarith [show N * (E * u) = N * u * (E + 1) - N * u by ring]
  have errs : ∀ j : Nat, ∑ i ∈ range j, C * a i ^ (2 * k i + 3) = C * ∑ i ∈ range j, a i ^ (2 * k i + 3) := fun j => (mul_sum _ _ _).symm
  have small : X * (e + ∑ i ∈ range N, C * a i ^ (2 * k i + 3) + N * (E * u)) ≤ r := by
    rw [errs]
    have a1 : e ≤ r / (Q + 1) := heρ.trans q3
    have a3 : ρ ≤ r / (Q + 1) := q3
    have a4 : N * u ≤ r / (Q + 1) := hN.trans q3
    have a5 : Q * (r / (Q + 1)) ≤ r := by
      rw [mul_div_assoc', div_le_iff₀ (by positivity)]
      linarith [show r * (Q + 1) = Q * r + r by ring]
    calc X * (e + C * ∑ i ∈ range N, a i ^ (2 * k i + 3) + N * (E * u)) = X * (e + C * ∑ i ∈ range N, a i ^ (2 * k i + 3) + E * (N * u)) := by ring
      _ ≤ X * (r / (Q + 1) + C * (T * (r / (Q + 1))) + E * (r / (Q + 1))) := by
        have := hpow.trans (mul_le_mul_of_nonneg_left a3 hT0)
        gcongr
      _ = Q * (r / (Q + 1)) := by rw [hQ]; ring
      _ ≤ r := a5
  have part : ∀ i, i ≤ N → 0 ≤ ∑ j ∈ range i, a j ∧ ∑ j ∈ range i, a j ≤ T := fun i hi =>
    ⟨sum_nonneg fun j hj => (ha j (by have := mem_range.1 hj; omega)).1, le_trans (sum_le_sum_of_subset_of_nonneg (fun j hj => mem_range.2 (by have := mem_range.1 hj; omega))
      fun j hj _ => (ha j (mem_range.1 hj)).1) hsumT⟩
  have g := accumulate_near (ι := ℕ × ℝ) (Φ := fun q => (extrapMix p.maxDepth kdk 0 q.1).step (plainF n m) q.2) (dur := fun q => q.2)
    (err := fun q => C * q.2 ^ (2 * q.1 + 3)) (y := y) (T := T) (r := r) (L := L) (η := E * u) (e := e) hL (by positivity) he
    (fun q => q.1 ≤ p.maxDepth ∧ 0 ≤ q.2 ∧ q.2 ≤ ρ1) (fun q h => h.2.1) (fun q h => mul_nonneg hC (pow_nonneg h.2.1 _))
    (fun t ht q hq z hz => (key _ (2 * q.1 + 2) (hB kdk 0 q.1 hq.1) (extrap_order hq.1 (Nat.zero_le _) kdk) (by have := hq.1; omega) t q.2 hq.2.1 hq.2.2).1 ht z hz)
    (fun t q ht hq hqT => (key _ (2 * q.1 + 2) (hB kdk 0 q.1 hq.1) (extrap_order hq.1 (Nat.zero_le _) kdk) (by have := hq.1; omega) t q.2 hq.2.1 hq.2.2).2 ht hqT)
    N (fun i => (k i, a i)) (fun i => point n (s i))
    (fun i => (s i).P.num = n ∧ (∀ j, j < n → (s i).P.mass j = m j) ∧ |(s i).time - (t0 + ∑ j ∈ range i, a j)| ≤ i * (E * u))
    (fun i hi => ⟨(hacc i hi).2.2.1, (ha i hi).1, (ha i hi).2.trans q1⟩) hsumT small
    (fun i hi ⟨i1, i2, i3⟩ hz => by
      obtain ⟨_, hk1, hkD, hf, hn, hm, hw⟩ := hacc i hi
      obtain ⟨p0, p1⟩ := part i (by omega)
      have hiN : (i : ℝ) ≤ N := by exact_mod_cast (by omega : i ≤ N)
      have bd : |(s i).time| ≤ |t0| + T + 1 := by
        have b1 : |(s i).time| ≤ |(s i).time - (t0 + ∑ j ∈ range i, a j)| + (|t0| + |∑ j ∈ range i, a j|) := by
          have := abs_add_le ((s i).time - (t0 + ∑ j ∈ range i, a j)) (t0 + ∑ j ∈ range i, a j)
          rw [sub_add_cancel] at this
          exact this.trans (add_le_add_right (abs_add_le _ _) _)
        have b2 : |∑ j ∈ range i, a j| ≤ T := by rw [abs_of_nonneg p0]; exact p1
        have b3 : i * (E * u) ≤ N * (E * u) := mul_le_mul_of_nonneg_right hiN (by positivity)
        linarith
      obtain ⟨j1, j2⟩ := rnd A u hA hu (huρ.trans q2) (k i) (a i) (s i) (s (i + 1)) (start i) hk1 hkD
        ⟨⟨(ha i hi).1, (ha i hi).2.trans q1⟩, i1, i2, bd, _, ⟨p0, p1⟩, hz⟩ hf hn hw
      refine ⟨⟨hn.trans i1, fun j hj => by rw [hm]; exact i2 j hj, ?_⟩, j1⟩
      have b4 := abs_add_le ((s (i + 1)).time - ((s i).time + a i)) ((s i).time - (t0 + ∑ j ∈ range i, a j))
      rw [show (s (i + 1)).time - ((s i).time + a i) + ((s i).time - (t0 + ∑ j ∈ range i, a j)) = (s (i + 1)).time - (t0 + (∑ j ∈ range i, a j + a i)) by ring] at b4
      rw [sum_range_succ]
      push_cast
      linarith)
    ⟨by rw [hs0]; exact S.num, by rw [hs0]; exact S.mass, by rw [hs0]; simp [Simple.init]⟩ (by
      rw [hs0]
      show ‖(conf n P.pos - conf n (x (t0 + 0)), conf n P.vel - conf n (v (t0 + 0)))‖ ≤ e
      rw [add_zero]
      have f : ∀ a b : Nat → V3 ℝ, (∀ k, k < n → len (a k - b k) ≤ e) → ‖conf n a - conf n b‖ ≤ e := fun a b hab =>
        le_coord a b he fun k hk => ⟨((norm_le_len (a k - b k)).1).trans (hab k hk), ((norm_le_len (a k - b k)).2.1).trans (hab k hk),
          ((norm_le_len (a k - b k)).2.2).trans (hab k hk)⟩
      exact norm_prod_le_iff.2 ⟨f _ _ S.pos, f _ _ S.vel⟩) N le_rfl
  obtain ⟨⟨g1, g2, g3⟩, g4⟩ := g
  constructor
  · refine (show _ ≤ _ from g3).trans ?_
    rw [show N * (E * u) = E * (N * u) by ring]
    exact mul_le_mul_of_nonneg_right (by linarith [show 0 ≤ 2 * (X * (1 + C + E)) by positivity]) hNu
  · refine within_mono (within_of (x := x) (v := v) (t := t0 + ∑ i ∈ range N, a i) g1 g2 g4) ?_
    dsimp only
    rw [errs]
    set Sa := ∑ i ∈ range N, a i ^ (2 * k i + 3) with hSa
    have e1 : Real.exp (L * ∑ i ∈ range N, a i) ≤ X := Real.exp_le_exp.2 (mul_le_mul_of_nonneg_left hsumT hL)
    have e2 : e + C * Sa + N * (E * u) ≤ (1 + C + E) * (Sa + e + N * u) := by
      have p2 : 0 ≤ Sa + N * u := by positivity
      have p3 : 0 ≤ C * (e + N * u) := by positivity
      have p4 : 0 ≤ E * (Sa + e) := by positivity
      linarith [show (1 + C + E) * (Sa + e + N * u) = e + C * Sa + N * (E * u) + (Sa + N * u) + C * (e + N * u) + E * (Sa + e) by ring]
    have e3 : Real.exp (L * ∑ i ∈ range N, a i) * (e + C * Sa + N * (E * u)) ≤ X * ((1 + C + E) * (Sa + e + N * u)) :=
      mul_le_mul e1 e2 (by positivity) hX0.le
    have e4 : 0 ≤ E * (Sa + e + N * u) := by positivity
    linarith [show (2 * (X * (1 + C + E)) + E) * (Sa + e + N * u) = 2 * (X * ((1 + C + E) * (Sa + e + N * u))) + E * (Sa + e + N * u) by ring]

/-- With accepted steps of at most `hm` the error is at most `K (hm ^ 4 + e + N u)`, whatever the tolerance. -/
theorem C119_fourth {n : Nat} {m : Nat → ℝ} {x v : ℝ → Nat → V3 ℝ} {t0 t1 : ℝ} (ht : t0 ≤ t1) (M : NewtonMotion n m x v t0 t1) (kdk : Bool) (D : Nat) :
    ∃ K ρ : ℝ, 0 ≤ K ∧ 0 < ρ ∧ ∀ A u, Accurate A u → 0 ≤ u → u ≤ ρ → ∀ e P, 0 ≤ e → e ≤ ρ → WithinOf n m x v t0 e P →
      ∀ p : Params ℝ, p.maxDepth = D → ∀ (N : Nat) (s : Nat → Simple) (c : Nat → State ℝ) (h h' : Nat → ℝ) (hm : ℝ), s 0 = Simple.init t0 P → hm ≤ ρ →
      (∀ i, i < N → bsIterate A kdk p (h i) (c i) (s i) = .ok (s (i + 1), h' i, c (i + 1))) →
      ∃ a : Nat → ℝ, (∀ i, i < N → @RetriedAny ℝ A.scalar p (h i) (a i)) ∧
        ((∀ i, i < N → 0 ≤ a i ∧ a i ≤ hm) → t0 + ∑ i ∈ range N, a i ≤ t1 → N * u ≤ ρ →
          |(s N).time - (t0 + ∑ i ∈ range N, a i)| ≤ K * (N * u) ∧
          WithinOf n m x v (t0 + ∑ i ∈ range N, a i) (K * (hm ^ 4 + e + N * u)) (s N).P) := by
  obtain ⟨K, ρ, hK, hρ, H⟩ := C119_rounded ht M kdk D
  have hT : 0 ≤ t1 - t0 := by linarith
  refine ⟨K * (1 + (t1 - t0)), min ρ 1, by positivity, lt_min hρ one_pos, fun A u hA hu huρ e P he heρ S p hD N s c h h' hm hs0 hmρ hit => ?_⟩
  have l := min_le_left ρ 1
  obtain ⟨a, k, h1, h2⟩ := H A u hA hu (huρ.trans l) e P he (heρ.trans l) S p hD N s c h h' hs0 hit
  refine ⟨a, fun i hi => (h1 i hi).1, fun ha hsum hN => ?_⟩
  obtain ⟨g1, g2⟩ := h2 (fun i hi => ⟨(ha i hi).1, (ha i hi).2.trans (hmρ.trans l)⟩) hsum (hN.trans l)
  have hm1 : hm ≤ 1 := hmρ.trans (min_le_right _ _)
  have h4 : (0 : ℝ) ≤ hm ^ 4 := by positivity
  have hNu : 0 ≤ N * u := by positivity
  have le : ∑ i ∈ range N, a i ^ (2 * k i + 3) ≤ (t1 - t0) * hm ^ 4 := by
    calc ∑ i ∈ range N, a i ^ (2 * k i + 3) ≤ ∑ i ∈ range N, a i * hm ^ 4 := sum_le_sum fun i hi => by
          obtain ⟨a0, a1⟩ := ha i (mem_range.1 hi)
          have : a i ^ (2 * k i + 3) ≤ a i ^ 5 := pow_le_pow_of_le_one a0 (by linarith) (by have := (h1 i (mem_range.1 hi)).2.1; omega)
          calc a i ^ (2 * k i + 3) ≤ a i ^ 5 := this
            _ = a i * a i ^ 4 := by ring
            _ ≤ a i * hm ^ 4 := mul_le_mul_of_nonneg_left (pow_le_pow_left₀ a0 a1 4) a0
      _ = (∑ i ∈ range N, a i) * hm ^ 4 := (sum_mul _ _ _).symm
      _ ≤ (t1 - t0) * hm ^ 4 := mul_le_mul_of_nonneg_right (by linarith) h4
  have w : K * (1 + (t1 - t0)) = K + K * (t1 - t0) := by ring
  have w2 : 0 ≤ K * (t1 - t0) := by positivity
  refine ⟨g1.trans (mul_le_mul_of_nonneg_right (by linarith) hNu), within_mono g2 ?_⟩
  rw [mul_assoc]
  refine mul_le_mul_of_nonneg_left ?_ hK
  have w3 : 0 ≤ (t1 - t0) * (e + N * u) := by positivity
  linarith [show (1 + (t1 - t0)) * (hm ^ 4 + e + N * u) = hm ^ 4 + e + N * u + (t1 - t0) * hm ^ 4 + (t1 - t0) * (e + N * u) by ring]

/-- When the error estimate is 0, a fresh iterator returns, whatever the arithmetic. -/
theorem C119_returns (A : Arith) {u : ℝ} (hA : Accurate A u) (hu : u ≤ 1) (kdk : Bool) (p : Params ℝ) (hD : 1 ≤ p.maxDepth) (hp : ∀ a b c, p.err a b c = 0) (h : ℝ)
    (s : Simple) : ∃ s' h' c', bsIterate A kdk p h (@State.init ℝ A.scalar p.maxDepth) s = .ok (s', h', c') := by
  have hone : 0 ≤ A.lit 1 := by
    have := hA.lit 1
    simp only [Rat.cast_one, abs_one, mul_one] at this
    have := (abs_le.1 this).1
    linarith
  have hv : ∀ {x y : Simple}, Simple.Frame x y → (x.write gravity).length = y.variableNumber gravity := by
    intro x y f; rw [C13_simple_size]; unfold Simple.variableNumber; rw [f.1]
  have rd : ∀ (x : Simple) (y : List ℝ), y.length = x.variableNumber gravity → ∃ x', x.read gravity y = .ok x' := fun x y hy => by
    obtain ⟨x', a, _⟩ := C13_simple_write_read gravity x y hy
    exact ⟨x', a⟩
  let _ := A.scalar
  obtain ⟨O, hO⟩ : ∃ O, O = system A kdk := ⟨_, rfl⟩
  obtain ⟨s0, hs0⟩ : ∃ s0, s0 = O.clear (O.collect true s) := ⟨_, rfl⟩
  have e0 : Simple.Frame s s0 := by rw [hs0, hO]; exact ⟨rfl, rfl⟩
  obtain ⟨s1, e1⟩ : ∃ s1, O.integrate h (hSeq p.maxDepth 0) s0 = .ok s1 := by rw [hO]; exact ⟨_, rfl⟩
  have f1 : Simple.Frame s s1 := by
    rw [hO] at e1
    rw [← show callAll A (substeps A kdk h (hSeq p.maxDepth 0)) s0 = s1 from Res.ok.inj e1]
    exact e0.trans (callAll_frame A _ s0).1
  obtain ⟨s2, e2⟩ : ∃ s2, O.read s1 (s.write gravity) = .ok s2 := by rw [hO]; exact rd s1 _ (hv f1)
  have f2 : Simple.Frame s s2 := f1.trans (by rw [hO] at e2; exact (Simple.read_frame gravity _ _ _ e2).1)
  obtain ⟨s3, e3⟩ : ∃ s3, O.integrate h (hSeq p.maxDepth 1) (O.clear s2) = .ok s3 := by rw [hO]; exact ⟨_, rfl⟩
  have f3 : Simple.Frame s s3 := by
    have fc : Simple.Frame s2 (O.clear s2) := by rw [hO]; exact ⟨rfl, rfl⟩
    rw [hO] at e3
    rw [← show callAll A (substeps A kdk h (hSeq p.maxDepth 1)) ((system A kdk).clear s2) = s3 from Res.ok.inj e3]
    rw [hO] at fc
    exact (f2.trans fc).trans (callAll_frame A _ _).1
  have hread : ∀ d : Arr ℝ, ∃ s4, O.read s3 (@arrayAdvance ℝ A.scalar (s.write gravity) d) = .ok s4 := fun d => by
    rw [hO]
    exact rd s3 _ (by unfold arrayAdvance; rw [List.length_mapIdx]; exact hv f3)
  have hle : ∀ a b c, (@BS.Arith.le ℝ A.scalar (p.err a b c) (@BS.Arith.ofRat ℝ A.scalar 1)) = true := fun a b c => by
    show decide (p.err a b c ≤ A.lit 1) = true
    rw [hp]
    exact decide_eq_true hone
  have hset : ∀ c : State ℝ, c.first = true → ∃ r, @setNextIteration ℝ A.scalar p c 1 = .ok r := fun c hc => by
    unfold setNextIteration
    rw [if_neg (by rw [hc]; simp)]
    unfold chk
    rw [if_pos hD]
    exact ⟨_, rfl⟩
  have hw : O.write s = s.write gravity := by rw [hO]; rfl
  unfold bsIterate
  rw [← hO]
  unfold iterate
  rw [show (100 : Nat) = 99 + 1 from rfl, attempts]
  dsimp only
  rw [← hs0, e1, Res.ok_bind]
  generalize hc1 : ({ (@State.init ℝ A.scalar p.maxDepth : State ℝ) with iterNum := _, rows := _ } : State ℝ) = c1
  have hfirst : c1.first = true := by rw [← hc1]; rfl
  generalize c1.rank = mm
  rw [columns, hw, e2, Res.ok_bind]
  have hck : chk p.maxDepth 1 = .ok () := by unfold chk; rw [if_pos hD]
  dsimp only
  rw [hck, Res.ok_bind, e3, Res.ok_bind]
  generalize hce : @evalColumn ℝ A.scalar p _ h _ 1 = ce
  have hcf : ce.1.first = true := by rw [← hce]; exact hfirst
  have hce2 : @BS.Arith.le ℝ A.scalar ce.2 (@BS.Arith.ofRat ℝ A.scalar 1) = true := by rw [← hce]; exact hle _ _ _
  rw [if_pos (by unfold inWindow; rw [hcf]; simp), if_pos hce2]
  obtain ⟨s4, e4⟩ := hread (ce.1.rows 0)
  obtain ⟨r, e5⟩ := hset { ce.1 with reject := false } hcf
  rw [e4, Res.ok_bind, e5]
  exact ⟨_, _, _, rfl⟩

theorem retried_zero {A : Arith} {u : ℝ} (hA : Accurate A u) {p : Params ℝ} (hp : ∀ o r, p.limiter o r = 0) {h a : ℝ} (R : @RetriedAny ℝ A.scalar p h a) :
    a = h ∨ a = 0 := by
  induction R with
  | refl h => exact .inl rfl
  | again o r _ ih =>
    rename_i h _ _
    have z : A.mul h (p.limiter o r) = 0 := by
      have := hA.mul h (p.limiter o r)
      rw [hp, mul_zero, abs_zero, mul_zero, sub_zero] at this
      rw [hp]
      exact abs_nonpos_iff.1 this
    rcases ih with e | e
    · exact .inr (e.trans z)
    · exact .inr e

/-- Non-vacuity: the circular motion of two masses; a call of a fresh iterator with a small step, in any arithmetic, for example that of `double`. -/
example (t0 : ℝ) : ∃ K ρ : ℝ, 0 < ρ ∧ ∀ A u, Accurate A u → 0 ≤ u → u ≤ ρ → ∀ h, 0 < h → h ≤ ρ → ∃ s' h' c',
    bsIterate A true ⟨7, false, fun _ _ _ => 0, fun _ _ => 1, fun _ _ => 0⟩ h (@State.init ℝ A.scalar 7)
      (Simple.init t0 ⟨2, circlePos t0, circleVel t0, fun _ => 1 / 2⟩) = .ok (s', h', c') ∧
    ∃ a, (a = h ∨ a = 0) ∧ |s'.time - (t0 + a)| ≤ K * u ∧ WithinOf 2 (fun _ => 1 / 2) circlePos circleVel (t0 + a) (K * (h ^ 4 + 0 + u)) s'.P := by
  obtain ⟨K, ρ, _, hρ, H⟩ := C119_fourth (by linarith : t0 ≤ t0 + 1) (circle_motion t0 (t0 + 1)) true 7
  refine ⟨K, min ρ 1, lt_min hρ one_pos, fun A u hA hu huρ h hh hle => ?_⟩
  have l := min_le_left ρ 1
  obtain ⟨s, hs⟩ : ∃ s, s = Simple.init t0 ⟨2, circlePos t0, circleVel t0, fun _ => 1 / 2⟩ := ⟨_, rfl⟩
  obtain ⟨s', h', c', e⟩ := C119_returns A hA (huρ.trans (min_le_right _ _)) true ⟨7, false, fun _ _ _ => 0, fun _ _ => 1, fun _ _ => 0⟩ (by norm_num) (fun _ _ _ => rfl) h s
  obtain ⟨a, R, g⟩ := H A u hA hu (huρ.trans l) 0 ⟨2, circlePos t0, circleVel t0, fun _ => 1 / 2⟩ le_rfl hρ.le
    ⟨rfl, fun _ _ => rfl, fun _ _ => by simp [len, dot], fun _ _ => by simp [len, dot]⟩ ⟨7, false, fun _ _ _ => 0, fun _ _ => 1, fun _ _ => 0⟩ rfl 1
    (fun i => if i = 0 then s else s') (fun i => if i = 0 then @State.init ℝ A.scalar 7 else c') (fun _ => h) (fun _ => h') h (by rw [if_pos rfl, hs]) (hle.trans l)
    (fun i hi => by
      obtain rfl : i = 0 := by omega
      simpa using e)
  have ra := retried_zero hA (fun _ _ => rfl) (R 0 (by norm_num))
  have a0 : 0 ≤ a 0 ∧ a 0 ≤ h := by
    rcases ra with q | q
    · rw [q]; exact ⟨hh.le, le_rfl⟩
    · rw [q]; exact ⟨le_rfl, hh.le⟩
  have g' := g (fun i hi => by
      obtain rfl : i = 0 := by omega
      exact a0) (by rw [sum_range_one]; linarith [hle.trans (min_le_right ρ 1)]) (by push_cast; linarith)
  rw [sum_range_one, if_neg one_ne_zero, Nat.cast_one, one_mul] at g'
  exact ⟨s', h', c', by rw [← hs]; exact e, a 0, ra, g'.1, g'.2⟩

end SpaceHub.Rounded
