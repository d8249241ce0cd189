import Verif.Proof.RoundedGlobal
import Verif.Proof.Clock

/-
C113: rounding errors of a simulation.
-/

set_option autoImplicit false

namespace SpaceHub.Rounded
open SpaceHub V3 Force Core Integrator Spec Sys Props Converge

/-! ### exact arithmetic -/

theorem acc_exact (P : Particles) : acc .exact P = gravity.acc P := by
  have h : setZero P.num (fun _ => (0 : V3 ℝ)) = fun _ => 0 := by funext k; simp [setZero]
  show _ = newtonDirect P (setZero P.num (fun _ => 0))
  rw [h]
  rfl

theorem drift_exact (h : ℝ) (s : Simple) (hs : s.sync = false) : drift .exact h s = s.drift h := by
  obtain ⟨P, t, a, i, b⟩ := s
  obtain rfl : b = false := hs
  rfl

theorem kick_exact (h : ℝ) (s : Simple) (hs : s.sync = false) : kick .exact h s = s.kick gravity h := by
  obtain ⟨P, t, a, i, b⟩ := s
  obtain rfl : b = false := hs
  unfold kick
  rw [acc_exact]
  rfl

theorem stage_sync (A : Arith) (h : ℝ) (c : Stage) (s : Simple) : (stage A h c s).sync = s.sync := by cases c <;> rfl

theorem step_exact (stages : List Stage) (h : ℝ) : ∀ s : Simple, s.sync = false →
    (simpleOps gravity).run (stages.map (Stage.op h)) s = .ok (step .exact stages h s) ∧ (step .exact stages h s).sync = false := by
  induction stages with
  | nil => exact fun s hs => ⟨rfl, hs⟩
  | cons c l ih =>
    intro s hs
    obtain ⟨a, b⟩ := ih (stage .exact h c s) ((stage_sync _ _ _ _).trans hs)
    refine ⟨?_, b⟩
    have e : (simpleOps gravity).apply (Stage.op h c) s = .ok (stage .exact h c s) := by
      cases c with
      | drift c => exact congrArg Res.ok (drift_exact _ s hs).symm
      | kick c => exact congrArg Res.ok (kick_exact _ s hs).symm
    show (simpleOps gravity).apply (Stage.op h c) s >>= (simpleOps gravity).run (l.map (Stage.op h)) = _
    rw [e]
    exact a

/-- **C113, without rounding** the computation is that of the systems in exact arithmetic (C17, C92, C93 and all others about plain systems). -/
theorem C113_exact (stages : List Stage) (hs : List ℝ) : ∀ s : Simple, s.sync = false →
    steps (simpleStep gravity) (hs.map fun h => stages.map (Stage.op h)) s = .ok (run .exact stages hs s) := by
  induction hs with
  | nil => exact fun s _ => rfl
  | cons h l ih =>
    intro s hs
    obtain ⟨a, b⟩ := step_exact stages h s hs
    show simpleStep gravity (stages.map (Stage.op h)) s >>= steps (simpleStep gravity) (l.map fun h => stages.map (Stage.op h)) = _
    have e : simpleStep gravity (stages.map (Stage.op h)) s = .ok (step .exact stages h s) := a
    rw [e]
    exact ih _ b

/-! ### one step -/

theorem step_keeps (A : Arith) (h : ℝ) (stages : List Stage) : ∀ s : Simple,
    (step A stages h s).P.num = s.P.num ∧ (step A stages h s).P.mass = s.P.mass ∧ (step .exact stages h s).time = s.time + sumDrift stages * h := by
  induction stages with
  | nil => intro s; exact ⟨rfl, rfl, by simp [step, sumDrift]⟩
  | cons c l ih =>
    intro s
    obtain ⟨a, b, _⟩ := ih (stage A h c s)
    obtain ⟨_, _, d⟩ := ih (stage .exact h c s)
    have e : ∀ A, step A (c :: l) h s = step A l h (stage A h c s) := fun _ => rfl
    rw [e, e, a, b, d]
    cases c with
    | drift c => refine ⟨rfl, rfl, ?_⟩
                 show s.time + (c : ℝ) * h + (sumDrift l : ℝ) * h = s.time + ((c + sumDrift l : ℚ) : ℝ) * h
                 push_cast
                 ring
    | kick c => exact ⟨rfl, rfl, rfl⟩

/-- positions and velocities as one point -/
def point (n : Nat) (s : Simple) : Conf n × Conf n := (conf n s.P.pos, conf n s.P.vel)

theorem stage_point {n : Nat} {m : Nat → ℝ} (h : ℝ) (c : Stage) (s : Simple) (hn : s.P.num = n) (hm : ∀ k, k < n → s.P.mass k = m k) :
    point n (stage .exact h c s) = stageF (grav n m) c h (point n s) := by
  cases c with
  | drift c =>
    show (conf n (Sys.advance s.P.num s.P.pos s.P.vel (c * h)), conf n s.P.vel) = _
    rw [hn, conf_advance, stageF, stageG]
    ext1
    · simp only [point, Prod.fst_add, Prod.smul_fst, smul_smul, mul_comm]
    · simp [point]
  | kick c =>
    show (conf n s.P.pos, conf n (Sys.advance s.P.num s.P.vel (acc .exact s.P) (c * h))) = _
    have hg : conf n (acc .exact s.P) = grav n m (conf n s.P.pos) := by rw [acc_exact]; exact funext fun k => (grav_conf n m s.P hn hm k).symm
    rw [hn, conf_advance, hg, stageF, stageG]
    ext1
    · simp [point]
    · simp only [point, Prod.snd_add, Prod.smul_snd, smul_smul, mul_comm]

theorem step_point {n : Nat} {m : Nat → ℝ} (h : ℝ) (stages : List Stage) : ∀ s : Simple, s.P.num = n → (∀ k, k < n → s.P.mass k = m k) →
    point n (step .exact stages h s) = wstep (plainF n m) stages h (point n s) := by
  rw [plain_step]
  induction stages with
  | nil => exact fun s _ _ => rfl
  | cons c l ih =>
    intro s hn hm
    have e : step .exact (c :: l) h s = step .exact l h (stage .exact h c s) := rfl
    obtain ⟨a, b, _⟩ := step_keeps .exact h [c] s
    change (stage .exact h c s).P.num = _ at a
    change (stage .exact h c s).P.mass = _ at b
    rw [e, ih _ (a.trans hn) (fun k hk => by rw [b]; exact hm k hk), stage_point h c s hn hm]
    rfl

/-- The set of steps from states near a motion. -/
def nearby (n : Nat) (m : Nat → ℝ) (y : ℝ → Conf n × Conf n) (T r ρ B : ℝ) : Set (ℝ × Simple) :=
  {z | (0 ≤ z.1 ∧ z.1 ≤ ρ) ∧ z.2.P.num = n ∧ (∀ k, k < n → z.2.P.mass k = m k) ∧ |z.2.time| ≤ B ∧ ∃ t ∈ Set.Icc 0 T, ‖point n z.2 - y t‖ ≤ r}

theorem coord_le {n : Nat} (x : Nat → V3 ℝ) (k : Nat) (hk : k < n) {R : ℝ} (h : ‖conf n x‖ ≤ R) : |(x k).x| ≤ R ∧ |(x k).y| ≤ R ∧ |(x k).z| ≤ R := by
  have h0 : ‖co (x k)‖ ≤ R := (norm_le_pi_norm (conf n x) ⟨k, hk⟩).trans h
  exact ⟨(norm_fst_le (co (x k))).trans h0, ((norm_fst_le (co (x k)).2).trans (norm_snd_le (co (x k)))).trans h0,
    ((norm_snd_le (co (x k)).2).trans (norm_snd_le (co (x k)))).trans h0⟩

theorem le_coord {n : Nat} (x y : Nat → V3 ℝ) {R : ℝ} (hR : 0 ≤ R)
    (h : ∀ k, k < n → |(x k).x - (y k).x| ≤ R ∧ |(x k).y - (y k).y| ≤ R ∧ |(x k).z - (y k).z| ≤ R) : ‖conf n x - conf n y‖ ≤ R := by
  rw [pi_norm_le_iff_of_nonneg hR]
  intro k
  obtain ⟨a, b, c⟩ := h k k.2
  exact norm_prod_le_iff.2 ⟨a, norm_prod_le_iff.2 ⟨b, c⟩⟩

/-- The particles are apart at every stage of a step from a state near the motion. -/
theorem nearby_apart {n : Nat} {m : Nat → ℝ} {y : ℝ → Conf n × Conf n} {T r ρ B : ℝ} {stages : List Stage} {W : Set (Conf n × Conf n)} (hW : IsCompact W)
    (hWU : W ⊆ Prod.fst ⁻¹' free n)
    (inW : ∀ t ∈ Set.Icc 0 T, ∀ h ∈ Set.Icc 0 ρ, ∀ z, ‖z - y t‖ ≤ r → ∀ pre suf, stages = pre ++ suf → wstep (plainF n m) pre h z ∈ W) (pre suf : List Stage)
    (e : stages = pre ++ suf) : Apart n (nearby n m y T r ρ B) (fun z => (step .exact pre z.1 z.2).P) := by
  intro i j hij hj
  have hi : i < n := by omega
  have cont : Continuous (fun z : Conf n × Conf n => sq (ve (z.1 ⟨j, hj⟩) - ve (z.1 ⟨i, hi⟩))) := by
    unfold sq ve
    simp only [V3.sub_x, V3.sub_y, V3.sub_z]
    fun_prop
  obtain ⟨c, hc, key⟩ := hW.exists_forall_le' (f := fun z : Conf n × Conf n => sq (ve (z.1 ⟨j, hj⟩) - ve (z.1 ⟨i, hi⟩))) cont.continuousOn (a := 0) fun z hz => by
    have := dot_pos (sub_ne_zero.2 (hWU hz ⟨j, hj⟩ ⟨i, hi⟩ (fun h => by have := congrArg Fin.val h; simp at this; omega)))
    exact this
  refine ⟨c, hc, ?_⟩
  rintro z ⟨h1, h2, h3, h4, t, ht, h5⟩
  have := key _ (inW t ht z.1 h1 _ h5 pre suf e)
  rw [← step_point z.1 pre z.2 h2 h3] at this
  exact this

/-- What rounding does to one step from a state near the motion. -/
theorem near_step {n : Nat} {m : Nat → ℝ} {y : ℝ → Conf n × Conf n} {T r ρ B : ℝ} {stages : List Stage} {W : Set (Conf n × Conf n)} (hW : IsCompact W)
    (hWU : W ⊆ Prod.fst ⁻¹' free n)
    (inW : ∀ t ∈ Set.Icc 0 T, ∀ h ∈ Set.Icc 0 ρ, ∀ z, ‖z - y t‖ ≤ r → ∀ pre suf, stages = pre ++ suf → wstep (plainF n m) pre h z ∈ W) :
    ∃ C u0 : ℝ, 0 ≤ C ∧ 0 < u0 ∧ ∀ A u, Accurate A u → 0 ≤ u → u ≤ u0 → ∀ z ∈ nearby n m y T r ρ B,
      ‖point n (step A stages z.1 z.2) - wstep (plainF n m) stages z.1 (point n z.2)‖ ≤ C * u ∧
      |(step A stages z.1 z.2).time - (z.2.time + sumDrift stages * z.1)| ≤ C * u := by
  set S := nearby n m y T r ρ B with hS
  obtain ⟨R, hR⟩ := hW.isBounded.exists_norm_le
  have start : NearS n (fun _ _ => True) S (fun _ z => z.2) (fun z => z.2) := by
    have bd : ∀ z ∈ S, ‖point n z.2‖ ≤ R := by
      rintro z ⟨h1, h2, h3, h4, t, ht, h5⟩
      exact hR _ (inW t ht z.1 h1 _ h5 [] stages rfl)
    refine ⟨⟨fun _ z hz => hz.2.1, fun z hz => hz.2.1, fun k hk => .fixed (fun z : ℝ × Simple => z.2.P.mass k) (B := |m k|) fun z hz => by rw [hz.2.2.1 k hk], fun k hk => ?_, fun k hk => ?_⟩,
      .fixed (fun z : ℝ × Simple => z.2.time) (B := B) fun z hz => hz.2.2.2.1⟩
    · have key : ∀ z ∈ S, |(z.2.P.pos k).x| ≤ R ∧ |(z.2.P.pos k).y| ≤ R ∧ |(z.2.P.pos k).z| ≤ R := fun z hz =>
        coord_le _ k hk ((norm_fst_le (point n z.2)).trans (bd z hz))
      exact ⟨.fixed (fun z : ℝ × Simple => (z.2.P.pos k).x) fun z hz => (key z hz).1, .fixed (fun z : ℝ × Simple => (z.2.P.pos k).y) fun z hz => (key z hz).2.1,
        .fixed (fun z : ℝ × Simple => (z.2.P.pos k).z) fun z hz => (key z hz).2.2⟩
    · have key : ∀ z ∈ S, |(z.2.P.vel k).x| ≤ R ∧ |(z.2.P.vel k).y| ≤ R ∧ |(z.2.P.vel k).z| ≤ R := fun z hz =>
        coord_le _ k hk ((norm_snd_le (point n z.2)).trans (bd z hz))
      exact ⟨.fixed (fun z : ℝ × Simple => (z.2.P.vel k).x) fun z hz => (key z hz).1, .fixed (fun z : ℝ × Simple => (z.2.P.vel k).y) fun z hz => (key z hz).2.1,
        .fixed (fun z : ℝ × Simple => (z.2.P.vel k).z) fun z hz => (key z hz).2.2⟩
  have apart : ∀ pre suf, stages = pre ++ suf → Apart n S (fun z => (step .exact pre z.1 z.2).P) := fun pre suf e => nearby_apart hW hWU inW pre suf e
  have hd : Near (fun _ _ => True) S (fun _ z => z.1) (fun z => z.1) := .fixed (fun z : ℝ × Simple => z.1) (B := ρ) fun z hz => by rw [abs_of_nonneg hz.1.1]; exact hz.1.2
  have fin := NearS.step hd stages (fun _ z => z.2) (fun z => z.2) start apart
  obtain ⟨C1, u1, hC1, p1, k1⟩ := fin.P.pos.uniform n
  obtain ⟨C2, u2, hC2, p2, k2⟩ := fin.P.vel.uniform n
  obtain ⟨_, C3, u3, _, hC3, p3, _, _, k3⟩ := fin.time
  refine ⟨C1 + (C2 + C3), min u1 (min u2 u3), by positivity, lt_min p1 (lt_min p2 p3), fun A u hA hu hle z hz => ?_⟩
  have l1 := hle.trans (min_le_left _ _)
  have l2 := (hle.trans (min_le_right _ _)).trans (min_le_left _ _)
  have l3 := (hle.trans (min_le_right _ _)).trans (min_le_right _ _)
  have w1 : C1 * u ≤ (C1 + (C2 + C3)) * u := mul_le_mul_of_nonneg_right (by linarith) hu
  have w2 : C2 * u ≤ (C1 + (C2 + C3)) * u := mul_le_mul_of_nonneg_right (by linarith) hu
  have w3 : C3 * u ≤ (C1 + (C2 + C3)) * u := mul_le_mul_of_nonneg_right (by linarith) hu
  constructor
  · rw [← step_point z.1 stages z.2 hz.2.1 hz.2.2.1]
    exact norm_prod_le_iff.2 ⟨(le_coord _ _ (by positivity) (k1 A u hA hu l1 z hz trivial)).trans w1, (le_coord _ _ (by positivity) (k2 A u hA hu l2 z hz trivial)).trans w2⟩
  · rw [← (step_keeps A z.1 stages z.2).2.2]
    exact (k3 A u hA hu l3 z hz trivial).trans w3

theorem norm_le_len (d : V3 ℝ) : |d.x| ≤ len d ∧ |d.y| ≤ len d ∧ |d.z| ≤ len d := by
  unfold len dot
  refine ⟨Real.abs_le_sqrt ?_, Real.abs_le_sqrt ?_, Real.abs_le_sqrt ?_⟩ <;> nlinarith [sq_nonneg d.x, sq_nonneg d.y, sq_nonneg d.z]

/-! ### the property -/

/-- **C113.** Particles move from `t0` to `t1` under Newton's laws without colliding.  A plain system is integrated from a state that is within `e` of
theirs, with an integrator of the order `p` (up to a deviation `δ` of its coefficients) and steps of at most `hm`, in an arithmetic whose operations have
the relative error `u`.  Then at every time up to `t1` every position and velocity is off by at most `K (hm ^ p + δ + e + N u)`, `N` the number of steps so
far, and the clock is off by at most `K N u`; provided that `hm`, `δ`, `e`, `u` and `N u` are small enough. -/
theorem C113_rounded {n : Nat} {m : Nat → ℝ} {x v : ℝ → Nat → V3 ℝ} {t0 t1 : ℝ} (ht : t0 ≤ t1) (M : NewtonMotion n m x v t0 t1) (p : Nat) (hp : 1 ≤ p)
    (stages : List Stage) :
    ∃ K ρ : ℝ, 0 ≤ K ∧ 0 < ρ ∧ ∀ A u, Accurate A u → 0 ≤ u → u ≤ ρ → ∀ e P, 0 ≤ e → e ≤ ρ → WithinOf n m x v t0 e P →
      ∀ hm δ, 0 ≤ hm → hm ≤ ρ → 0 ≤ δ → δ ≤ ρ →
      (∀ w : List Bool, 1 ≤ w.length → w.length ≤ p → |(deviation stages w : ℝ)| * hm ^ (w.length - 1) ≤ δ) →
      ∀ hs : List ℝ, (∀ h ∈ hs, 0 ≤ h ∧ h ≤ hm) → t0 + hs.sum ≤ t1 → hs.length * u ≤ ρ →
        |(run A stages hs (Simple.init t0 P)).time - (t0 + sumDrift stages * hs.sum)| ≤ K * (hs.length * u) ∧
        WithinOf n m x v (t0 + hs.sum) (K * (hm ^ p + δ + e + hs.length * u)) (run A stages hs (Simple.init t0 P)).P := by
  obtain ⟨_, _, _, _, _, H, _, _⟩ := motion_tube M
  have mem : ∀ t ∈ Set.Icc 0 (t1 - t0), t0 + t ∈ Set.Icc t0 t1 := fun t ht => ⟨by linarith [ht.1], by linarith [ht.2]⟩
  have hfree : ∀ t ∈ Set.Icc 0 (t1 - t0), conf n (x (t0 + t)) ∈ free n := by
    intro t ht i j hij h
    exact M.apart _ (mem t ht) i j i.2 j.2 (fun e => hij (Fin.ext e)) (congrArg ve h)
  have hc : ∃ c : ℝ, ∀ s ∈ stages, |((coef s : ℚ) : ℝ)| ≤ c := by
    obtain ⟨c, hc⟩ := (List.finite_toSet stages |>.image fun s => |((coef s : ℚ) : ℝ)|).bddAbove
    exact ⟨c, fun s hs => hc ⟨s, hs, rfl⟩⟩
  obtain ⟨c, hc⟩ := hc
  set y : ℝ → Conf n × Conf n := fun t => (conf n (x (t0 + t)), conf n (v (t0 + t))) with hy
  set T := t1 - t0 with hT
  have hT0 : 0 ≤ T := by linarith
  obtain ⟨r, C, L, ρ1, W, hr, hC, hL, hρ1, hρ11, cW, hWU, key⟩ := order_parts ((free_open n).preimage continuous_fst) (plain_smooth n m) (plain_straight n m)
    (T := T) (y := y) (fun t ht => by
      have := (H.dq t ht).prodMk (H.dv t ht)
      refine this.congr_deriv ?_
      simp [plainF, hy]) hfree p stages.length c
  obtain ⟨stab, inW, loc⟩ := key stages le_rfl hc
  set σ : ℝ := (sumDrift stages : ℝ) with hσ
  obtain ⟨D, u0, hD, hu0, rnd⟩ := near_step (B := |t0| + |σ| * T + 1) cW hWU inW
  set X := Real.exp (L * T) with hX
  have hX0 : 0 < X := Real.exp_pos _
  set Q := X * (1 + 2 * (T * C) + D) with hQ
  have hQ0 : 0 ≤ Q := by positivity
  refine ⟨2 * (X * (1 + T * C + D)) + D, min (min ρ1 u0) (min (r / (Q + 1)) (1 / (D + 1))), by positivity,
    lt_min (lt_min hρ1 hu0) (lt_min (by positivity) (by positivity)), fun A u hA hu huρ e P he heρ S hm δ hm0 hmρ hδ0 hδρ hdev hs hhs hsum hN => ?_⟩
  have q1 : min (min ρ1 u0) (min (r / (Q + 1)) (1 / (D + 1))) ≤ ρ1 := (min_le_left _ _).trans (min_le_left _ _)
  have q2 : min (min ρ1 u0) (min (r / (Q + 1)) (1 / (D + 1))) ≤ u0 := (min_le_left _ _).trans (min_le_right _ _)
  have q3 : min (min ρ1 u0) (min (r / (Q + 1)) (1 / (D + 1))) ≤ r / (Q + 1) := (min_le_right _ _).trans (min_le_left _ _)
  have q4 : min (min ρ1 u0) (min (r / (Q + 1)) (1 / (D + 1))) ≤ 1 / (D + 1) := (min_le_right _ _).trans (min_le_right _ _)
  have hm1 : hm ≤ 1 := hmρ.trans (q1.trans hρ11)
  have hmp : hm ^ p ≤ hm := pow_le_of_le_one hm0 hm1 (by omega)
  have hmp0 : 0 ≤ hm ^ p := by positivity
  have hNu : 0 ≤ hs.length * u := by positivity
  have clk : hs.length * (D * u) ≤ 1 := by
    have h1 := hN.trans q4
    rw [le_div_iff₀ (by positivity)] at h1
    linarith [show hs.length * (D * u) = hs.length * u * (D + 1) - hs.length * u by ring]
  have small : X * (e + T * (C * (hm ^ p + δ)) + hs.length * (D * u)) ≤ r := by
    have a1 : e ≤ r / (Q + 1) := heρ.trans q3
    have a2 : hm ^ p ≤ r / (Q + 1) := hmp.trans (hmρ.trans q3)
    have a3 : δ ≤ r / (Q + 1) := hδρ.trans q3
    have a4 : hs.length * u ≤ r / (Q + 1) := hN.trans q3
    have a5 : Q * (r / (Q + 1)) ≤ r := by
      rw [mul_div_assoc', div_le_iff₀ (by positivity)]
      linarith [show r * (Q + 1) = Q * r + r by ring]
    calc X * (e + T * (C * (hm ^ p + δ)) + hs.length * (D * u)) = X * (e + T * C * (hm ^ p + δ) + D * (hs.length * u)) := by ring
      _ ≤ X * (r / (Q + 1) + T * C * (r / (Q + 1) + r / (Q + 1)) + D * (r / (Q + 1))) := by gcongr
      _ = Q * (r / (Q + 1)) := by rw [hQ]; ring
      _ ≤ r := a5
  have g := global_perturbed (Φ := wstep (plainF n m) stages) (Ψ := fun h s => step A stages h s) (ζ := point n)
    (I := fun t k s => s.P.num = n ∧ (∀ k, k < n → s.P.mass k = m k) ∧ |s.time - (t0 + σ * t)| ≤ k * (D * u)) (y := y) (T := T) (r := r) (M := L) (hm := hm)
    (ε := C * (hm ^ p + δ)) (ε1 := C * (hm ^ p + δ)) (κ := 0) (η := D * u) (e := e) (N := hs.length) hL (by positivity) (by rw [add_zero])
    (by positivity) he
    (fun t ht h hh => stab t ht h ⟨hh.1, hh.2.trans (hmρ.trans q1)⟩) (loc hm δ hm0 (hmρ.trans q1) hδ0 hdev)
    (fun t h k s ht0 h0 hh htT hk ⟨i1, i2, i3⟩ hz => by
      have hkN : (k : ℝ) ≤ hs.length := by exact_mod_cast (by omega : k ≤ hs.length)
      have ht' : t ∈ Set.Icc 0 T := ⟨ht0, by linarith⟩
      have bd : |s.time| ≤ |t0| + |σ| * T + 1 := by
        have b1 : |s.time| ≤ |s.time - (t0 + σ * t)| + (|t0| + |σ * t|) := by
          have := abs_add_le (s.time - (t0 + σ * t)) (t0 + σ * t)
          rw [sub_add_cancel] at this
          exact this.trans (add_le_add_right (abs_add_le _ _) _)
        have b2 : |σ * t| ≤ |σ| * T := by
          rw [abs_mul, abs_of_nonneg ht0]
          exact mul_le_mul_of_nonneg_left ht'.2 (abs_nonneg _)
        have b3 : k * (D * u) ≤ hs.length * (D * u) := mul_le_mul_of_nonneg_right hkN (by positivity)
        linarith
      obtain ⟨j1, j2⟩ := rnd A u hA hu (huρ.trans q2) (h, s) ⟨⟨h0, hh.trans (hmρ.trans q1)⟩, i1, i2, bd, t, ht', hz⟩
      obtain ⟨k1, k2, _⟩ := step_keeps A h stages s
      refine ⟨⟨k1.trans i1, fun k hk => by rw [k2]; exact i2 k hk, ?_⟩, by rw [mul_zero, zero_add]; exact j1⟩
      have b4 := abs_add_le ((step A stages h s).time - (s.time + σ * h)) (s.time - (t0 + σ * t))
      rw [show (step A stages h s).time - (s.time + σ * h) + (s.time - (t0 + σ * t)) = (step A stages h s).time - (t0 + σ * (t + h)) by ring] at b4
      have b5 : |(step A stages h s).time - (s.time + σ * h)| ≤ D * u := j2
      push_cast
      linarith)
    small hs 0 0 (Simple.init t0 P) hhs le_rfl (by linarith) (by omega) ⟨S.num, S.mass, by simp [Simple.init]⟩ (by
      have h1 : ‖point n (Simple.init t0 P) - y 0‖ ≤ e := by
        show ‖(conf n P.pos - conf n (x (t0 + 0)), conf n P.vel - conf n (v (t0 + 0)))‖ ≤ e
        rw [add_zero]
        have f : ∀ a b : Nat → V3 ℝ, (∀ k, k < n → len (a k - b k) ≤ e) → ‖conf n a - conf n b‖ ≤ e := fun a b hab =>
          le_coord a b he fun k hk => ⟨((norm_le_len (a k - b k)).1).trans (hab k hk), ((norm_le_len (a k - b k)).2.1).trans (hab k hk),
            ((norm_le_len (a k - b k)).2.2).trans (hab k hk)⟩
        exact norm_prod_le_iff.2 ⟨f _ _ S.pos, f _ _ S.vel⟩
      simpa using h1)
  rw [zero_add, zero_add] at g
  obtain ⟨⟨g1, g2, g3⟩, g4⟩ := g
  have hs0 : 0 ≤ hs.sum := List.sum_nonneg fun h hh => (hhs h hh).1
  have hsT : hs.sum ≤ T := by linarith
  constructor
  · refine (show _ ≤ _ from g3).trans ?_
    rw [show hs.length * (D * u) = D * (hs.length * u) by ring]
    exact mul_le_mul_of_nonneg_right (by linarith [show 0 ≤ 2 * (X * (1 + T * C + D)) by positivity]) hNu
  · have W := within_of (x := x) (v := v) (t := t0 + hs.sum) g1 g2 g4
    have le : 2 * (Real.exp (L * hs.sum) * (e + hs.sum * (C * (hm ^ p + δ)) + hs.length * (D * u))) ≤
        (2 * (X * (1 + T * C + D)) + D) * (hm ^ p + δ + e + hs.length * u) := by
      have e1 : Real.exp (L * hs.sum) ≤ X := Real.exp_le_exp.2 (mul_le_mul_of_nonneg_left hsT hL)
      have e2 : e + hs.sum * (C * (hm ^ p + δ)) + hs.length * (D * u) ≤ (1 + T * C + D) * (hm ^ p + δ + e + hs.length * u) := by
        have p1 : hs.sum * (C * (hm ^ p + δ)) ≤ T * (C * (hm ^ p + δ)) := mul_le_mul_of_nonneg_right hsT (by positivity)
        have p2 : 0 ≤ 1 * (hm ^ p + δ + hs.length * u) := by positivity
        have p3 : 0 ≤ T * C * (e + hs.length * u) := by positivity
        have p4 : 0 ≤ D * (hm ^ p + δ + e) := by positivity
        linarith [show (1 + T * C + D) * (hm ^ p + δ + e + hs.length * u) = e + T * (C * (hm ^ p + δ)) + hs.length * (D * u) + 1 * (hm ^ p + δ + hs.length * u) +
          T * C * (e + hs.length * u) + D * (hm ^ p + δ + e) by ring]
      have e3 : Real.exp (L * hs.sum) * (e + hs.sum * (C * (hm ^ p + δ)) + hs.length * (D * u)) ≤ X * ((1 + T * C + D) * (hm ^ p + δ + e + hs.length * u)) :=
        mul_le_mul e1 e2 (by positivity) hX0.le
      have e4 : 0 ≤ D * (hm ^ p + δ + e + hs.length * u) := by positivity
      linarith [show (2 * (X * (1 + T * C + D)) + D) * (hm ^ p + δ + e + hs.length * u) = 2 * (X * ((1 + T * C + D) * (hm ^ p + δ + e + hs.length * u))) +
        D * (hm ^ p + δ + e + hs.length * u) by ring]
    exact ⟨W.num, W.mass, fun k hk => (W.pos k hk).trans le, fun k hk => (W.vel k hk).trans le⟩

/-- Rounding every result to a nearest number with `p` bits is an arithmetic with the relative error `1 / 2 ^ p`. -/
theorem C113_nearest {p : Nat} (hp : 1 ≤ p) {rnd : ℝ → ℝ} (N : Nearest p rnd) : Accurate (ieee rnd) (1 / 2 ^ p) :=
  ⟨fun _ _ => Clock.relU N hp _, fun _ _ => Clock.relU N hp _, fun _ _ => Clock.relU N hp _, fun _ _ _ => Clock.relU N hp _,
    fun a _ => by have := Clock.relU N hp (Real.sqrt a); rwa [abs_of_nonneg (Real.sqrt_nonneg a)] at this, fun _ => Clock.relU N hp _⟩

/-- **C113, the integrators of the library** in rounded arithmetic with `b` bits: off by at most `K (hm ^ q + 1e-12 + N / 2 ^ b)`, `q` the order of the
integrator (for `Symplectic10th` it is 4, see C54), if `1e-12` and `N / 2 ^ b` are small for the motion. -/
theorem C113_integrators {n : Nat} {m : Nat → ℝ} {x v : ℝ → Nat → V3 ℝ} {t0 t1 : ℝ} (ht : t0 ≤ t1) (M : NewtonMotion n m x v t0 t1) :
    ∃ K ρ : ℝ, 0 ≤ K ∧ 0 < ρ ∧ ((1e-12 : ℝ) ≤ ρ → ∀ q ∈ nominal, ∀ (b : Nat) (rnd : ℝ → ℝ), 1 ≤ b → Nearest b rnd → (1 : ℝ) / 2 ^ b ≤ ρ → ∀ P, InState n m x v t0 P →
      ∀ hm, 0 ≤ hm → hm ≤ ρ → ∀ hs : List ℝ, (∀ h ∈ hs, 0 ≤ h ∧ h ≤ hm) → t0 + hs.sum ≤ t1 → hs.length * (1 / 2 ^ b : ℝ) ≤ ρ →
        WithinOf n m x v (t0 + hs.sum) (K * (hm ^ q.2 + 1e-12 + hs.length * (1 / 2 ^ b))) (run (ieee rnd) q.1 hs (Simple.init t0 P)).P) := by
  have ex : ∀ q : List Stage × Nat, ∃ K ρ : ℝ, 0 ≤ K ∧ 0 < ρ ∧ (q ∈ nominal → (1e-12 : ℝ) ≤ ρ → ∀ (b : Nat) (rnd : ℝ → ℝ), 1 ≤ b → Nearest b rnd → (1 : ℝ) / 2 ^ b ≤ ρ →
      ∀ P, InState n m x v t0 P →
      ∀ hm, 0 ≤ hm → hm ≤ ρ → ∀ hs : List ℝ, (∀ h ∈ hs, 0 ≤ h ∧ h ≤ hm) → t0 + hs.sum ≤ t1 → hs.length * (1 / 2 ^ b : ℝ) ≤ ρ →
        WithinOf n m x v (t0 + hs.sum) (K * (hm ^ q.2 + 1e-12 + hs.length * (1 / 2 ^ b))) (run (ieee rnd) q.1 hs (Simple.init t0 P)).P) := by
    intro q
    by_cases hq : q ∈ nominal
    · have q1 : 1 ≤ q.2 := by
        simp only [nominal, List.mem_cons, List.not_mem_nil, or_false] at hq
        rcases hq with rfl | rfl | rfl | rfl | rfl | rfl <;> norm_num
      obtain ⟨K, ρ, hK, hρ, H⟩ := C113_rounded ht M q.2 q1 q.1
      refine ⟨K, min ρ 1, hK, lt_min hρ one_pos, fun _ h12 b rnd hb N hbρ P S hm hm0 hmρ hs hhs hsum hN => ?_⟩
      have l := min_le_left ρ 1
      have hm1 : hm ≤ 1 := hmρ.trans (min_le_right _ _)
      have W0 : WithinOf n m x v t0 0 P := ⟨S.num, S.mass, fun k hk => by rw [S.pos k hk]; simp [len, dot], fun k hk => by rw [S.vel k hk]; simp [len, dot]⟩
      have R := (H (ieee rnd) _ (C113_nearest hb N) (by positivity) (hbρ.trans l) 0 P le_rfl hρ.le W0 hm 1e-12 hm0 (hmρ.trans l) (by norm_num) (h12.trans l)
        (fun w _ hw => by
          have h1 := (C93_conditions.1 q hq).2.2 w hw
          have h2 : |(deviation q.1 w : ℝ)| ≤ 1e-12 := by
            have : ((|deviation q.1 w| : ℚ) : ℝ) ≤ ((1e-12 : ℚ) : ℝ) := by exact_mod_cast h1
            rw [Rat.cast_abs] at this
            exact this.trans (by norm_num)
          have h3 : hm ^ (w.length - 1) ≤ 1 := pow_le_one₀ hm0 hm1
          calc |(deviation q.1 w : ℝ)| * hm ^ (w.length - 1) ≤ 1e-12 * 1 := mul_le_mul h2 h3 (by positivity) (by norm_num)
            _ = 1e-12 := mul_one _) hs hhs hsum (hN.trans l)).2
      rwa [add_zero] at R
    · exact ⟨0, 1, le_rfl, one_pos, fun h => absurd h hq⟩
  choose K ρ hK hρ H using ex
  have hl : ∀ l : List (List Stage × Nat), ∃ K' ρ' : ℝ, 0 ≤ K' ∧ 0 < ρ' ∧ ∀ q ∈ l, K q ≤ K' ∧ ρ' ≤ ρ q := by
    intro l
    induction l with
    | nil => exact ⟨0, 1, le_rfl, one_pos, by simp⟩
    | cons q l ih =>
      obtain ⟨K', ρ', h1, h2, h3⟩ := ih
      refine ⟨max K' (K q), min ρ' (ρ q), h1.trans (le_max_left _ _), lt_min h2 (hρ q), fun q' hq' => ?_⟩
      rcases List.mem_cons.1 hq' with rfl | hq'
      · exact ⟨le_max_right _ _, min_le_right _ _⟩
      · exact ⟨(h3 q' hq').1.trans (le_max_left _ _), (min_le_left _ _).trans (h3 q' hq').2⟩
  obtain ⟨K', ρ', h1, h2, h3⟩ := hl nominal
  refine ⟨K', ρ', h1, h2, fun h12 q hq b rnd hb N hbρ P S hm hm0 hmρ hs hhs hsum hN => ?_⟩
  obtain ⟨w1, w2⟩ := h3 q hq
  have W := H q hq (h12.trans w2) b rnd hb N (hbρ.trans w2) P S hm hm0 (hmρ.trans w2) hs hhs hsum (hN.trans w2)
  have le : K q * (hm ^ q.2 + 1e-12 + hs.length * (1 / 2 ^ b)) ≤ K' * (hm ^ q.2 + 1e-12 + hs.length * (1 / 2 ^ b)) := mul_le_mul_of_nonneg_right w1 (by positivity)
  exact ⟨W.num, W.mass, fun k hk => (W.pos k hk).trans le, fun k hk => (W.vel k hk).trans le⟩

/-- **C113, the leap-frogs** with a constant step `h` in rounded arithmetic with `b` bits: off by at most `K (h² + 1 / (2 ^ b h))`, so that shorter steps help only
as long as `h³` exceeds the relative error of an operation. -/
theorem C113_leapfrogs {n : Nat} {m : Nat → ℝ} {x v : ℝ → Nat → V3 ℝ} {t0 t1 : ℝ} (ht : t0 ≤ t1) (M : NewtonMotion n m x v t0 t1) (stages : List Stage)
    (hst : stages = symplectic2nd ∨ stages = leapFrogKDK) :
    ∃ K ρ : ℝ, 0 ≤ K ∧ 0 < ρ ∧ ∀ (b : Nat) (rnd : ℝ → ℝ), 1 ≤ b → Nearest b rnd → ∀ P, InState n m x v t0 P → ∀ h, 0 < h → h ≤ ρ → (1 : ℝ) / 2 ^ b ≤ ρ * h →
      ∀ N : Nat, t0 + N * h ≤ t1 →
        WithinOf n m x v (t0 + N * h) (K * (h ^ 2 + 1 / 2 ^ b / h)) (run (ieee rnd) stages (List.replicate N h) (Simple.init t0 P)).P := by
  obtain ⟨K, ρ, hK, hρ, H⟩ := C113_rounded ht M 2 (by norm_num) stages
  have hT : 0 < t1 - t0 + 1 := by linarith
  have hq : 0 < ρ / (t1 - t0 + 1) := by positivity
  refine ⟨K * (t1 - t0 + 1), min 1 (min ρ (ρ / (t1 - t0 + 1))), by positivity, lt_min one_pos (lt_min hρ hq), fun b rnd hb N P S h h0 hρh hbh k hk => ?_⟩
  have h1 : h ≤ 1 := hρh.trans (min_le_left _ _)
  have h2 : h ≤ ρ := hρh.trans ((min_le_right _ _).trans (min_le_left _ _))
  have h3 : min 1 (min ρ (ρ / (t1 - t0 + 1))) ≤ ρ / (t1 - t0 + 1) := (min_le_right _ _).trans (min_le_right _ _)
  have h4 : min 1 (min ρ (ρ / (t1 - t0 + 1))) ≤ ρ := (min_le_right _ _).trans (min_le_left _ _)
  have W0 : WithinOf n m x v t0 0 P := ⟨S.num, S.mass, fun k hk => by rw [S.pos k hk]; simp [len, dot], fun k hk => by rw [S.vel k hk]; simp [len, dot]⟩
  set u : ℝ := 1 / 2 ^ b with hu
  have u0 : 0 ≤ u := by positivity
  have ku : k * u ≤ (t1 - t0) * (u / h) := by
    rw [show (t1 - t0) * (u / h) = (t1 - t0) * u / h by ring, le_div_iff₀ h0]
    have := mul_le_mul_of_nonneg_right (show k * h ≤ t1 - t0 by linarith) u0
    linarith
  have uh : u / h ≤ ρ / (t1 - t0 + 1) := by
    rw [div_le_iff₀ h0]
    exact hbh.trans (mul_le_mul_of_nonneg_right h3 h0.le)
  have kρ : k * u ≤ ρ := by
    refine ku.trans ?_
    rw [le_div_iff₀ hT] at uh
    have : 0 ≤ u / h := by positivity
    linarith [show u / h * (t1 - t0 + 1) = (t1 - t0) * (u / h) + u / h by ring]
  have uρ : u ≤ ρ := hbh.trans ((mul_le_mul h4 h1 h0.le hρ.le).trans (by rw [mul_one]))
  have R := (H (ieee rnd) u (C113_nearest hb N) u0 uρ 0 P le_rfl hρ.le W0 h 0 h0.le h2 le_rfl hρ.le (fun w _ hw => by
      rw [C93_conditions.2.1 stages (by rcases hst with rfl | rfl <;> simp) w hw]
      simp) (List.replicate k h) (fun h' hh' => by rw [(List.mem_replicate.1 hh').2]; exact ⟨h0.le, le_rfl⟩)
      (by rw [List.sum_replicate, nsmul_eq_mul]; exact hk) (by rw [List.length_replicate]; exact kρ)).2
  rw [List.sum_replicate, nsmul_eq_mul, List.length_replicate, add_zero, add_zero] at R
  have le : K * (h ^ 2 + k * u) ≤ K * (t1 - t0 + 1) * (h ^ 2 + u / h) := by
    rw [mul_assoc]
    refine mul_le_mul_of_nonneg_left ?_ hK
    have p1 : 0 ≤ (t1 - t0) * h ^ 2 := mul_nonneg (by linarith) (by positivity)
    have p2 : 0 ≤ u / h := by positivity
    linarith [show (t1 - t0 + 1) * (h ^ 2 + u / h) = h ^ 2 + (t1 - t0) * h ^ 2 + (t1 - t0) * (u / h) + u / h by ring]
  exact ⟨R.num, R.mass, fun k hk => (R.pos k hk).trans le, fun k hk => (R.vel k hk).trans le⟩

/-- Non-vacuity: rounding to nearest exists, with 53 bits the relative error is about `1.1e-16`; the hypotheses on the motion and the start hold of a circular
motion, and those on the steps of a thousand steps of the fourth-order integrator, for any `ρ ≥ 1e-3`. -/
example (t0 : ℝ) (rnd : ℝ → ℝ) (N : Nearest 53 rnd) (ρ : ℝ) (hρ : 1e-3 ≤ ρ) : NewtonMotion 2 (fun _ => 1 / 2) circlePos circleVel t0 (t0 + 1) ∧
    WithinOf 2 (fun _ => 1 / 2) circlePos circleVel t0 0 ⟨2, circlePos t0, circleVel t0, fun _ => 1 / 2⟩ ∧
    Accurate (ieee rnd) (1 / 2 ^ 53) ∧ (1 : ℝ) / 2 ^ 53 ≤ ρ ∧
    (∀ h ∈ List.replicate 1000 (1e-3 : ℝ), 0 ≤ h ∧ h ≤ 1e-3) ∧ t0 + (List.replicate 1000 (1e-3 : ℝ)).sum ≤ t0 + 1 ∧
    (List.replicate 1000 (1e-3 : ℝ)).length * (1 / 2 ^ 53 : ℝ) ≤ ρ ∧
    ∀ w : List Bool, 1 ≤ w.length → w.length ≤ 4 → |(deviation symplectic4th w : ℝ)| * 1e-3 ^ (w.length - 1) ≤ 1e-14 * 1e-3 ^ 2 := by
  refine ⟨circle_motion t0 _, ⟨rfl, fun _ _ => rfl, fun _ _ => by simp [len, dot], fun _ _ => by simp [len, dot]⟩, C113_nearest (by norm_num) N,
    le_trans (by norm_num) hρ, fun h hh => ?_, ?_, ?_, fourth_dev (by norm_num) (by norm_num)⟩
  · rw [(List.mem_replicate.1 hh).2]; norm_num
  · rw [List.sum_replicate]; norm_num
  · rw [List.length_replicate]; exact le_trans (by norm_num) hρ

end SpaceHub.Rounded
