import Verif.Proof.RoundedRegu

/-
Steps of a regularised system near a motion, in rounded arithmetic.
-/

set_option autoImplicit false

namespace SpaceHub.Rounded
open SpaceHub V3 Force Core Integrator Spec Sys Props Converge
open scoped ContDiff

variable {n : Nat} {m : Nat → ℝ}

/-- time, positions, velocities, and the constant of the time transformation -/
abbrev Quad (n : Nat) := ℝ × Conf n × Conf n × ℝ

/-- the two fields of the transformed motion -/
noncomputable def quadF (n : Nat) (m : Nat → ℝ) : Bool → Quad n → Quad n
  | true, z => (fB n m z.2.2.2 z.2.2.1, fB n m z.2.2.2 z.2.2.1 • z.2.2.1, 0, 0)
  | false, z => (0, 0, gU n m z.2.1 • grav n m z.2.1, 0)

/-- where nothing is divided by zero -/
def safeQ (n : Nat) (m : Nat → ℝ) : Set (Quad n) := {z | z.2.2.2 + kinC n m z.2.2.1 ≠ 0 ∧ z.2.1 ∈ free n}

theorem quad_straight (n : Nat) (m : Nat → ℝ) (X : Bool) : Straight (quadF n m X) := by
  intro y s
  cases X <;> simp [quadF]

theorem safeQ_open (n : Nat) (m : Nat → ℝ) : IsOpen (safeQ n m) := by
  have h1 : IsOpen {z : Quad n | z.2.2.2 + kinC n m z.2.2.1 ≠ 0} :=
    isOpen_ne_fun ((continuous_snd.comp (continuous_snd.comp continuous_snd)).add
      ((kinC_smooth (d := 1) n m).continuous.comp (continuous_fst.comp (continuous_snd.comp continuous_snd)))) continuous_const
  exact h1.inter ((free_open n).preimage (continuous_fst.comp continuous_snd))

theorem quad_smooth (hn : 2 ≤ n) (hm : ∀ k, k < n → 0 < m k) (X : Bool) : ContDiffOn ℝ ∞ (quadF n m X) (safeQ n m) := by
  have p1 : ContDiff ℝ ∞ (fun z : Quad n => z.2.1) := contDiff_fst.comp contDiff_snd
  have p2 : ContDiff ℝ ∞ (fun z : Quad n => z.2.2.1) := contDiff_fst.comp (contDiff_snd.comp contDiff_snd)
  have p3 : ContDiff ℝ ∞ (fun z : Quad n => z.2.2.2) := contDiff_snd.comp (contDiff_snd.comp contDiff_snd)
  cases X
  · have hg : ContDiffOn ℝ ∞ (gU n m) (free n) := fun y hy =>
      (contDiffWithinAt_const (c := (1 : ℝ))).div ((potC_smooth n m) y hy) (potC_pos hn hm hy).ne'
    have h : ContDiffOn ℝ ∞ (fun z : Quad n => gU n m z.2.1 • grav n m z.2.1) (safeQ n m) :=
      (hg.comp p1.contDiffOn fun _ h => h.2).smul ((grav_smooth n m).comp p1.contDiffOn fun _ h => h.2)
    exact contDiffOn_const.prodMk (contDiffOn_const.prodMk (h.prodMk contDiffOn_const))
  · have hf : ContDiffOn ℝ ∞ (fun z : Quad n => fB n m z.2.2.2 z.2.2.1) (safeQ n m) := fun z hz =>
      ((contDiffAt_const (c := (1 : ℝ))).div (p3.contDiffAt.add ((kinC_smooth n m).comp p2).contDiffAt) hz.1).contDiffWithinAt
    exact hf.prodMk ((hf.smul p2.contDiffOn).prodMk (contDiffOn_const.prodMk contDiffOn_const))

/-- what takes the place of the binding energy -/
noncomputable def bindOf (type : ReguType) (s : ReguSys) : ℝ := match type with
  | .logH => s.R.bindE
  | .ttl => s.R.omega - kineticR .exact s.P
  | .none => 0

/-- a state as a point -/
noncomputable def pointR (n : Nat) (type : ReguType) (s : ReguSys) : Quad n := (s.time, conf n s.P.pos, conf n s.P.vel, bindOf type s)

theorem kin_exact (P : Particles) : kineticR .exact P = kinetic P := by
  show ((1 / 2 : ℚ) : ℝ) * contract P.num P.mass P.vel P.vel = 1 / 2 * contract P.num P.mass P.vel P.vel
  push_cast
  rfl

theorem kin_conf {P : Particles} (hn : P.num = n) (hm : ∀ k, k < n → P.mass k = m k) : kineticR .exact P = kinC n m (conf n P.vel) := by
  rw [kin_exact, kinC_conf hn hm]

theorem pot_conf {P : Particles} (hn : P.num = n) (hm : ∀ k, k < n → P.mass k = m k) : potentialR .exact 1 P = -potC n m (conf n P.pos) := by
  show potentialDirect 1 P = _
  rw [potentialDirect_eq, potC_conf hn hm]

theorem posScale_point {type : ReguType} (hty : type ≠ .none) {s : ReguSys} (hn : s.P.num = n) (hm : ∀ k, k < n → s.P.mass k = m k) :
    posScale type s = (pointR n type s).2.2.2 + kinC n m (pointR n type s).2.2.1 := by
  have h := kin_conf hn hm
  cases type with
  | logH => show s.R.bindE + _ = s.R.bindE + _; rw [h]; rfl
  | ttl => show s.R.omega = s.R.omega - _ + _; rw [h]; simp [pointR]
  | none => exact absurd rfl hty

theorem stageR_keeps (A : Arith) (G : ℝ) (type : ReguType) (h : ℝ) (c : Stage) (s : ReguSys) :
    (stageR A G type h c s).P.num = s.P.num ∧ (stageR A G type h c s).P.mass = s.P.mass := by
  cases c <;> exact ⟨rfl, rfl⟩

theorem stepR_keeps (A : Arith) (G : ℝ) (type : ReguType) (h : ℝ) (stages : List Stage) : ∀ s : ReguSys,
    (stepR A G type stages h s).P.num = s.P.num ∧ (stepR A G type stages h s).P.mass = s.P.mass := by
  induction stages with
  | nil => exact fun s => ⟨rfl, rfl⟩
  | cons c l ih =>
    intro s
    obtain ⟨a, b⟩ := ih (stageR A G type h c s)
    obtain ⟨a', b'⟩ := stageR_keeps A G type h c s
    exact ⟨a.trans a', b.trans b'⟩

theorem stageR_point {type : ReguType} (hty : type ≠ .none) (h : ℝ) (c : Stage) (s : ReguSys) (hn : s.P.num = n) (hm : ∀ k, k < n → s.P.mass k = m k) :
    pointR n type (stageR .exact 1 type h c s) = flow (quadF n m) c h (pointR n type s) := by
  cases c with
  | drift c =>
    have ht : (posTimeR .exact type (c * h) s).2 = h * c * fB n m (pointR n type s).2.2.2 (pointR n type s).2.2.1 := by
      have e : (posTimeR .exact type (c * h) s).2 = c * h / posScale type s := by
        cases type with
        | logH => rfl
        | ttl => rfl
        | none => exact absurd rfl hty
      rw [e, posScale_point hty hn hm, fB]
      ring
    have hb : bindOf type (stageR .exact 1 type h (.drift c) s) = bindOf type s := by
      cases type <;> rfl
    show (s.time + (posTimeR .exact type (c * h) s).2, conf n (Sys.advance s.P.num s.P.pos s.P.vel (posTimeR .exact type (c * h) s).2), conf n s.P.vel, _) = _
    rw [hb, ht, hn, conf_advance, flow]
    simp [pointR, quadF, coef, letter, smul_smul]
  | kick c =>
    have ht : (velTimeR .exact 1 type (c * h) s).2 = h * c * gU n m (conf n s.P.pos) := by
      have e : (velTimeR .exact 1 type (c * h) s).2 = c * h / -potentialR .exact 1 s.P := by
        cases type with
        | logH => rfl
        | ttl => rfl
        | none => exact absurd rfl hty
      rw [e, pot_conf hn hm, neg_neg, gU]
      ring
    have hg : conf n (acc .exact s.P) = grav n m (conf n s.P.pos) := by rw [acc_exact]; exact funext fun k => (grav_conf n m s.P hn hm k).symm
    have hb : bindOf type (stageR .exact 1 type h (.kick c) s) = bindOf type s := by
      cases type with
      | logH => rfl
      | none => rfl
      | ttl =>
        set t := (velTimeR .exact 1 .ttl (c * h) s).2 with hte
        set a := acc .exact s.P with ha
        have hk := kinetic_change s.P a t
        have e1 : (stageR .exact 1 .ttl h (.kick c) s).R.omega = s.R.omega + contract s.P.num s.P.mass s.P.vel a * (((1 / 2 : ℚ) : ℝ) * t) +
            contract s.P.num s.P.mass (Sys.advance s.P.num s.P.vel a t) a * (((1 / 2 : ℚ) : ℝ) * t) := rfl
        have e2 : kineticR .exact (stageR .exact 1 .ttl h (.kick c) s).P = kinetic { s.P with vel := Sys.advance s.P.num s.P.vel a t } := kin_exact _
        show _ - kineticR .exact (stageR .exact 1 .ttl h (.kick c) s).P = _ - kineticR .exact s.P
        rw [e1, e2, kin_exact, contract_eq, contract_eq]
        simp only [power] at hk
        push_cast
        linarith
    show (s.time, conf n s.P.pos, conf n (Sys.advance s.P.num s.P.vel (acc .exact s.P) (velTimeR .exact 1 type (c * h) s).2), _) = _
    rw [hb, ht, hn, conf_advance, hg, flow]
    simp [pointR, quadF, coef, letter, smul_smul]

theorem stepR_point {type : ReguType} (hty : type ≠ .none) (h : ℝ) (stages : List Stage) : ∀ s : ReguSys, s.P.num = n → (∀ k, k < n → s.P.mass k = m k) →
    pointR n type (stepR .exact 1 type stages h s) = wstep (quadF n m) stages h (pointR n type s) := by
  induction stages with
  | nil => exact fun s _ _ => rfl
  | cons c l ih =>
    intro s hn hm
    obtain ⟨a, b⟩ := stageR_keeps .exact 1 type h c s
    have e : stepR .exact 1 type (c :: l) h s = stepR .exact 1 type l h (stageR .exact 1 type h c s) := rfl
    rw [e, ih _ (a.trans hn) (fun k hk => by rw [b]; exact hm k hk), stageR_point hty h c s hn hm]
    rfl

/-! ### states near a motion -/

/-- The set of steps from states near a motion. -/
def nearbyR (n : Nat) (m : Nat → ℝ) (type : ReguType) (y : ℝ → Quad n) (T r ρ : ℝ) : Set (ℝ × ReguSys) :=
  {z | (0 ≤ z.1 ∧ z.1 ≤ ρ) ∧ z.2.P.num = n ∧ (∀ k, k < n → z.2.P.mass k = m k) ∧ ∃ t ∈ Set.Icc 0 T, ‖pointR n type z.2 - y t‖ ≤ r}

section
variable {type : ReguType} {y : ℝ → Quad n} {T r ρ : ℝ} {stages : List Stage} {W : Set (Quad n)}

theorem nearbyR_safe (hn : 2 ≤ n) (hm : ∀ k, k < n → 0 < m k) (hty : type ≠ .none) (hW : IsCompact W) (hWU : W ⊆ safeQ n m)
    (inW : ∀ t ∈ Set.Icc 0 T, ∀ h ∈ Set.Icc 0 ρ, ∀ z, ‖z - y t‖ ≤ r → ∀ pre suf, stages = pre ++ suf → wstep (quadF n m) pre h z ∈ W) (pre suf : List Stage)
    (e : stages = pre ++ suf) : Apart n (nearbyR n m type y T r ρ) (fun z => (stepR .exact 1 type pre z.1 z.2).P) ∧
      (∃ c : ℝ, 0 < c ∧ ∀ z ∈ nearbyR n m type y T r ρ, c ≤ |posScale type (stepR .exact 1 type pre z.1 z.2)|) ∧
      ∃ c : ℝ, 0 < c ∧ ∀ z ∈ nearbyR n m type y T r ρ, c ≤ |potentialR .exact 1 (stepR .exact 1 type pre z.1 z.2).P| := by
  have at_ : ∀ z ∈ nearbyR n m type y T r ρ, pointR n type (stepR .exact 1 type pre z.1 z.2) ∈ W ∧ (stepR .exact 1 type pre z.1 z.2).P.num = n ∧
      ∀ k, k < n → (stepR .exact 1 type pre z.1 z.2).P.mass k = m k := by
    rintro z ⟨h1, h2, h3, t, ht, h5⟩
    obtain ⟨a, b⟩ := stepR_keeps .exact 1 type z.1 pre z.2
    refine ⟨?_, a.trans h2, fun k hk => by rw [b]; exact h3 k hk⟩
    rw [stepR_point hty z.1 pre z.2 h2 h3]
    exact inW t ht z.1 h1 _ h5 pre suf e
  refine ⟨fun i j hij hj => ?_, ?_, ?_⟩
  · have hi : i < n := by omega
    have cont : Continuous (fun z : Quad n => sq (ve (z.2.1 ⟨j, hj⟩) - ve (z.2.1 ⟨i, hi⟩))) := by
      unfold sq ve
      simp only [V3.sub_x, V3.sub_y, V3.sub_z]
      fun_prop
    obtain ⟨c, hc, key⟩ := hW.exists_forall_le' (f := fun z : Quad n => sq (ve (z.2.1 ⟨j, hj⟩) - ve (z.2.1 ⟨i, hi⟩))) cont.continuousOn (a := 0) fun z hz => by
      have := dot_pos (sub_ne_zero.2 ((hWU hz).2 ⟨j, hj⟩ ⟨i, hi⟩ (fun h => by have := congrArg Fin.val h; simp at this; omega)))
      exact this
    exact ⟨c, hc, fun z hz => key _ (at_ z hz).1⟩
  · have cont : Continuous (fun z : Quad n => |z.2.2.2 + kinC n m z.2.2.1|) :=
      ((continuous_snd.comp (continuous_snd.comp continuous_snd)).add
        ((kinC_smooth (d := 1) n m).continuous.comp (continuous_fst.comp (continuous_snd.comp continuous_snd)))).abs
    obtain ⟨c, hc, key⟩ := hW.exists_forall_le' (f := fun z : Quad n => |z.2.2.2 + kinC n m z.2.2.1|) cont.continuousOn (a := 0) fun z hz => abs_pos.2 (hWU hz).1
    refine ⟨c, hc, fun z hz => ?_⟩
    obtain ⟨a, b, d⟩ := at_ z hz
    rw [posScale_point hty b d]
    exact key _ a
  · have cont : ContinuousOn (fun z : Quad n => potC n m z.2.1) W :=
      (potC_smooth (d := 1) n m).continuousOn.comp (continuous_fst.comp continuous_snd).continuousOn fun z hz => (hWU hz).2
    obtain ⟨c, hc, key⟩ := hW.exists_forall_le' (f := fun z : Quad n => potC n m z.2.1) cont (a := 0) fun z hz => potC_pos hn hm (hWU hz).2
    refine ⟨c, hc, fun z hz => ?_⟩
    obtain ⟨a, b, d⟩ := at_ z hz
    rw [pot_conf b d, abs_neg]
    exact (key _ a).trans (le_abs_self _)

/-- What rounding does to one step from a state near the motion. -/
theorem near_stepR (hn : 2 ≤ n) (hm : ∀ k, k < n → 0 < m k) (hty : type ≠ .none) (hW : IsCompact W) (hWU : W ⊆ safeQ n m)
    (inW : ∀ t ∈ Set.Icc 0 T, ∀ h ∈ Set.Icc 0 ρ, ∀ z, ‖z - y t‖ ≤ r → ∀ pre suf, stages = pre ++ suf → wstep (quadF n m) pre h z ∈ W) :
    ∃ C u0 : ℝ, 0 ≤ C ∧ 0 < u0 ∧ ∀ A u, Accurate A u → 0 ≤ u → u ≤ u0 → ∀ z ∈ nearbyR n m type y T r ρ,
      ‖pointR n type (stepR A 1 type stages z.1 z.2) - wstep (quadF n m) stages z.1 (pointR n type z.2)‖ ≤ C * u := by
  set S := nearbyR n m type y T r ρ with hS
  obtain ⟨R0, hR0⟩ := hW.isBounded.exists_norm_le
  obtain ⟨R1, hR1⟩ := hW.exists_bound_of_continuousOn (f := fun z : Quad n => z.2.2.2 + kinC n m z.2.2.1)
    (((continuous_snd.comp (continuous_snd.comp continuous_snd)).add
        ((kinC_smooth (d := 1) n m).continuous.comp (continuous_fst.comp (continuous_snd.comp continuous_snd)))).continuousOn)
  have bd : ∀ z ∈ S, pointR n type z.2 ∈ W := by
    rintro z ⟨h1, h2, h3, t, ht, h5⟩
    exact inW t ht z.1 h1 _ h5 [] stages rfl
  have start : NearR n type (fun _ _ => True) S (fun _ z => z.2) (fun z => z.2) := by
    have b0 : ∀ z ∈ S, ‖pointR n type z.2‖ ≤ R0 := fun z hz => hR0 _ (bd z hz)
    have n1 : ∀ z ∈ S, ‖(pointR n type z.2).2‖ ≤ R0 := fun z hz => (norm_snd_le _).trans (b0 z hz)
    have n2 : ∀ z ∈ S, ‖(pointR n type z.2).2.2‖ ≤ R0 := fun z hz => (norm_snd_le _).trans (n1 z hz)
    refine ⟨⟨fun _ z hz => hz.2.1, fun z hz => hz.2.1, fun k hk => .fixed (fun z : ℝ × ReguSys => z.2.P.mass k) (B := |m k|) fun z hz => by rw [hz.2.2.1 k hk], fun k hk => ?_, fun k hk => ?_⟩,
      .fixed (fun z : ℝ × ReguSys => z.2.time) (B := R0) fun z hz => (norm_fst_le (pointR n type z.2)).trans (b0 z hz),
      fun ht => .fixed (fun z : ℝ × ReguSys => z.2.R.omega) (B := R1) fun z hz => ?_, fun ht => .fixed (fun z : ℝ × ReguSys => z.2.R.bindE) (B := R0) fun z hz => ?_⟩
    · have key : ∀ z ∈ S, |(z.2.P.pos k).x| ≤ R0 ∧ |(z.2.P.pos k).y| ≤ R0 ∧ |(z.2.P.pos k).z| ≤ R0 := fun z hz =>
        coord_le _ k hk ((norm_fst_le (pointR n type z.2).2).trans (n1 z hz))
      exact ⟨.fixed (fun z : ℝ × ReguSys => (z.2.P.pos k).x) fun z hz => (key z hz).1, .fixed (fun z : ℝ × ReguSys => (z.2.P.pos k).y) fun z hz => (key z hz).2.1,
        .fixed (fun z : ℝ × ReguSys => (z.2.P.pos k).z) fun z hz => (key z hz).2.2⟩
    · have key : ∀ z ∈ S, |(z.2.P.vel k).x| ≤ R0 ∧ |(z.2.P.vel k).y| ≤ R0 ∧ |(z.2.P.vel k).z| ≤ R0 := fun z hz =>
        coord_le _ k hk ((norm_fst_le (pointR n type z.2).2.2).trans (n2 z hz))
      exact ⟨.fixed (fun z : ℝ × ReguSys => (z.2.P.vel k).x) fun z hz => (key z hz).1, .fixed (fun z : ℝ × ReguSys => (z.2.P.vel k).y) fun z hz => (key z hz).2.1,
        .fixed (fun z : ℝ × ReguSys => (z.2.P.vel k).z) fun z hz => (key z hz).2.2⟩
    · have h1 := hR1 _ (bd z hz)
      rw [← posScale_point (m := m) hty hz.2.1 hz.2.2.1] at h1
      have h3 : posScale type z.2 = z.2.R.omega := by rw [ht]; rfl
      rw [h3] at h1
      exact h1
    · have h1 : ‖(pointR n type z.2).2.2.2‖ ≤ R0 := (norm_snd_le _).trans (n2 z hz)
      have h3 : (pointR n type z.2).2.2.2 = z.2.R.bindE := by rw [ht]; rfl
      rw [h3] at h1
      exact h1
  have hd : Near (fun _ _ => True) S (fun _ z => z.1) (fun z => z.1) := .fixed (fun z : ℝ × ReguSys => z.1) (B := ρ) fun z hz => by rw [abs_of_nonneg hz.1.1]; exact hz.1.2
  have fin := NearR.step 1 hty hd stages (fun _ z => z.2) (fun z => z.2) start (nearbyR_safe hn hm hty hW hWU inW)
  have fb : Near (fun _ _ => True) S (fun A z => bindOf type (stepR A 1 type stages z.1 z.2)) (fun z => bindOf type (stepR .exact 1 type stages z.1 z.2)) := by
    by_cases h1 : type = .logH
    · exact (fin.bindE h1).congr (fun A z _ => by rw [h1]; rfl) fun z _ => by rw [h1]; rfl
    · have h2 : type = .ttl := by cases type <;> first | rfl | contradiction
      exact ((fin.omega h2).plus fin.P.kinetic'.neg).congr (fun A z _ => by rw [h2]; rfl) fun z _ => by rw [h2]; rfl
  obtain ⟨C1, u1, hC1, p1, k1⟩ := fin.P.pos.uniform n
  obtain ⟨C2, u2, hC2, p2, k2⟩ := fin.P.vel.uniform n
  obtain ⟨_, C3, u3, _, hC3, p3, _, _, k3⟩ := fin.time
  obtain ⟨_, C4, u4, _, hC4, p4, _, _, k4⟩ := fb
  refine ⟨C1 + C2 + (C3 + C4), min (min u1 u2) (min u3 u4), by positivity, lt_min (lt_min p1 p2) (lt_min p3 p4), fun A u hA hu hle z hz => ?_⟩
  have l1 := (hle.trans (min_le_left _ _)).trans (min_le_left _ _)
  have l2 := (hle.trans (min_le_left _ _)).trans (min_le_right _ _)
  have l3 := (hle.trans (min_le_right _ _)).trans (min_le_left _ _)
  have l4 := (hle.trans (min_le_right _ _)).trans (min_le_right _ _)
  have w1 : C1 * u ≤ (C1 + C2 + (C3 + C4)) * u := mul_le_mul_of_nonneg_right (by linarith) hu
  have w2 : C2 * u ≤ (C1 + C2 + (C3 + C4)) * u := mul_le_mul_of_nonneg_right (by linarith) hu
  have w3 : C3 * u ≤ (C1 + C2 + (C3 + C4)) * u := mul_le_mul_of_nonneg_right (by linarith) hu
  have w4 : C4 * u ≤ (C1 + C2 + (C3 + C4)) * u := mul_le_mul_of_nonneg_right (by linarith) hu
  rw [← stepR_point hty z.1 stages z.2 hz.2.1 hz.2.2.1]
  exact norm_prod_le_iff.2 ⟨(k3 A u hA hu l3 z hz trivial).trans w3, norm_prod_le_iff.2 ⟨(le_coord _ _ (by positivity) (k1 A u hA hu l1 z hz trivial)).trans w1,
    norm_prod_le_iff.2 ⟨(le_coord _ _ (by positivity) (k2 A u hA hu l2 z hz trivial)).trans w2, (k4 A u hA hu l4 z hz trivial).trans w4⟩⟩⟩

end

end SpaceHub.Rounded
