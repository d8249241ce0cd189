import Verif.Proof.RadauSlow

/-
C103: with small steps the calls of IAS15 on plain systems and on chain systems with any forces return.
-/

set_option autoImplicit false

namespace SpaceHub.Sys
open SpaceHub V3 Force Core Integrator Spec Props Finset Converge Radau BS Ctl Fl
open scoped ContDiff

/-- every particle is displaced from the origin, or moves, or is accelerated; no two are in one place if `b` is set -/
def busy {n : Nat} (a : Field n) (U : Set (Conf n × Conf n)) (b : Prop) : Set (Conf n × Conf n) :=
  {z | z ∈ U ∧ (b → z.1 ∈ free n) ∧ ∀ k, 0 < ‖z.1 k‖ + ‖z.2 k‖ + ‖inNumbers a z k‖}

theorem busy_cont {n : Nat} {a : Field n} {U : Set (Conf n × Conf n)} (hsm : ContDiffOn ℝ ∞ (inNumbers a) U) (k : Fin n) :
    ContinuousOn (fun z : Conf n × Conf n => ‖z.1 k‖ + ‖z.2 k‖ + ‖inNumbers a z k‖) U := by
  have hg : ContinuousOn (fun z : Conf n × Conf n => inNumbers a z k) U := (continuous_apply k).comp_continuousOn hsm.continuousOn
  have h1 : Continuous fun z : Conf n × Conf n => z.1 k := (continuous_apply k).comp continuous_fst
  have h2 : Continuous fun z : Conf n × Conf n => z.2 k := (continuous_apply k).comp continuous_snd
  exact (h1.norm.add h2.norm).continuousOn.add hg.norm

theorem busy_open {n : Nat} {a : Field n} {U : Set (Conf n × Conf n)} (hU : IsOpen U) (hsm : ContDiffOn ℝ ∞ (inNumbers a) U) (b : Prop) : IsOpen (busy a U b) := by
  have : busy a U b = (U ∩ {z | b → z.1 ∈ free n}) ∩ ⋂ k, (U ∩ (fun z : Conf n × Conf n => ‖z.1 k‖ + ‖z.2 k‖ + ‖inNumbers a z k‖) ⁻¹' Set.Ioi 0) := by
    ext z
    simp only [busy, Set.mem_ofPred_eq, Set.mem_inter_iff, Set.mem_preimage, Set.mem_iInter, Set.mem_Ioi]
    exact ⟨fun h => ⟨⟨h.1, h.2.1⟩, fun k => ⟨h.1, h.2.2 k⟩⟩, fun h => ⟨h.1.1, h.1.2, fun k => (h.2 k).2⟩⟩
  rw [this]
  refine (hU.inter ?_).inter (isOpen_iInter_of_finite fun k => (busy_cont hsm k).isOpen_inter_preimage hU isOpen_Ioi)
  by_cases hb : b
  · have : {z : Conf n × Conf n | b → z.1 ∈ free n} = Prod.fst ⁻¹' free n := by ext z; exact ⟨fun h => h hb, fun h _ => h⟩
    rw [this]; exact (free_open n).preimage continuous_fst
  · have : {z : Conf n × Conf n | b → z.1 ∈ free n} = Set.univ := by ext z; exact ⟨fun _ => Set.mem_univ _, fun _ h => absurd h hb⟩
    rw [this]; exact isOpen_univ

/-- a positive lower bound of finitely many positive functions -/
theorem least {ι : Type} [Finite ι] {p : ι → ℝ → Prop} (h : ∀ k, ∃ c : ℝ, 0 < c ∧ p k c) (anti : ∀ k c d, d ≤ c → p k c → p k d) : ∃ c : ℝ, 0 < c ∧ ∀ k, p k c := by
  choose c hc hle using h
  rcases isEmpty_or_nonempty ι with h | h
  · exact ⟨1, one_pos, fun k => (h.false k).elim⟩
  · obtain ⟨k0, hk0⟩ := Finite.exists_min c
    exact ⟨c k0, hc k0, fun k => anti k _ _ (hk0 k) (hle k)⟩

theorem busy_bound {n : Nat} {a : Field n} {U : Set (Conf n × Conf n)} (hsm : ContDiffOn ℝ ∞ (inNumbers a) U) {b : Prop} {W : Set (Conf n × Conf n)} (hW : IsCompact W)
    (hWU : W ⊆ busy a U b) : ∃ c : ℝ, 0 < c ∧ ∀ z ∈ W, (∀ k, c ≤ ‖z.1 k‖ + ‖z.2 k‖ + ‖inNumbers a z k‖) ∧ (b → ∀ i j, i ≠ j → c ≤ ‖z.1 i - z.1 j‖) := by
  obtain ⟨c1, h1, k1⟩ := least (p := fun (k : Fin n) (c : ℝ) => ∀ z ∈ W, c ≤ ‖z.1 k‖ + ‖z.2 k‖ + ‖inNumbers a z k‖)
    (fun k => hW.exists_forall_le' ((busy_cont hsm k).mono fun z hz => (hWU hz).1) fun z hz => (hWU hz).2.2 k) (fun k c d hd h z hz => hd.trans (h z hz))
  obtain ⟨c2, h2, k2⟩ := least (p := fun (k : Fin n × Fin n) (c : ℝ) => ∀ z ∈ W, b → k.1 ≠ k.2 → c ≤ ‖z.1 k.1 - z.1 k.2‖)
    (fun k => by
      by_cases hb : b ∧ k.1 ≠ k.2
      · have hcont : Continuous fun z : Conf n × Conf n => ‖z.1 k.1 - z.1 k.2‖ :=
          (((continuous_apply k.1).comp continuous_fst).sub ((continuous_apply k.2).comp continuous_fst)).norm
        obtain ⟨c, hc, h⟩ := hW.exists_forall_le' hcont.continuousOn (a := 0) fun z hz => norm_pos_iff.2 (sub_ne_zero.2 ((hWU hz).2.1 hb.1 k.1 k.2 hb.2))
        exact ⟨c, hc, fun z hz _ _ => h z hz⟩
      · exact ⟨1, one_pos, fun z _ p q => absurd ⟨p, q⟩ hb⟩) (fun k c d hd h z hz p q => hd.trans (h z hz p q))
  exact ⟨min c1 c2, lt_min h1 h2, fun z hz => ⟨fun k => (min_le_left _ _).trans (k1 k z hz), fun p i j q => (min_le_right _ _).trans (k2 (i, j) z hz p q)⟩⟩

/-! ### plain systems -/

theorem plain_runs {I : Interactions} {n : Nat} {m : Nat → ℝ} : Runs (radauSimple I) (FrameOf n m) n I.velDep where
  reads x y hx hy := by
    have hl : y.length = x.variableNumber I := by rw [hy, ← hx.1]; rfl
    obtain ⟨x', e, _⟩ := C13_simple_write_read I x y hl
    exact ⟨x', e, hx.of (Simple.read_frame I x x' y e).1⟩
  derivs x hx := ⟨_, rfl, hx⟩
  length x hx := plain_length hx
  clock := {
    loc := fun f g h => h 0 (by omega)
    read := fun x y v hx e => ⟨hx.of (Simple.read_frame I x y v e).1, (Simple.read_frame I x y v e).2.2⟩
    keep := fun x d hx e => by rw [← Res.ok.inj e]; exact hx
    field := fun x d _ _ e => by
      rw [← Res.ok.inj e]
      exact timeL_flat I.velDep (Simple.slopeOf I x).flat _ (Simple.derivative_getD I x) }
  aux hd j hj := {
    loc := fun f g h => by
      have e : I.velDep.toNat = 1 := by rw [hd]; rfl
      rw [e] at h
      rw [auxL_apply, auxL_apply, h _ (by omega), h _ (by omega)]
    read := fun x y v hx e => ⟨hx.of (Simple.read_frame I x y v e).1, (Simple.read_frame I x y v e).2.2⟩
    keep := fun x d hx e => by rw [← Res.ok.inj e]; exact hx
    field := fun x d hx _ e => by
      rw [← Res.ok.inj e]
      have hn : (Simple.slopeOf I x).flat.n = n := hx.1
      have := auxL_flat (Simple.slopeOf I x).flat j (by rw [hn]; exact hj) (GR.toArr (x.derivative I)) (fun v => by rw [← hd]; exact Simple.derivative_getD I x v) (fun k _ => rfl)
      rw [hn] at this
      exact this }

theorem calm_new (n : Nat) (dep : Bool) : Calm n dep GR.new := ⟨flat_new _, fun _ _ _ => flat_new _⟩

/-- the set of states in which the particles are active, along the motion -/
theorem busy_along {n : Nat} {a : Field n} {U : Set (Conf n × Conf n)} {x v : ℝ → Nat → V3 ℝ} {t0 t1 : ℝ} (hin : ∀ t ∈ Set.Icc t0 t1, (conf n (x t), conf n (v t)) ∈ U) {b : Prop}
    (apart : b → ∀ t ∈ Set.Icc t0 t1, ∀ i j, i < n → j < n → i ≠ j → x t i ≠ x t j)
    (hact : ∀ t ∈ Set.Icc t0 t1, ∀ k : Fin n, ¬ (x t k = 0 ∧ v t k = 0 ∧ a (fun j => x t j) (fun j => v t j) k = 0)) :
    ∀ t ∈ Set.Icc t0 t1, (conf n (x t), conf n (v t)) ∈ busy a U b := by
  intro t ht
  refine ⟨hin t ht, fun hb i j hij h => apart hb t ht i j i.2 j.2 (fun e => hij (Fin.ext e)) (congrArg ve h), fun k => ?_⟩
  by_contra hz
  have z0 := norm_nonneg (conf n (x t) k)
  have z1 := norm_nonneg (conf n (v t) k)
  have z2 := norm_nonneg (inNumbers a (conf n (x t), conf n (v t)) k)
  dsimp only at hz
  have e0 : conf n (x t) k = 0 := norm_eq_zero.1 (by linarith)
  have e1 : conf n (v t) k = 0 := norm_eq_zero.1 (by linarith)
  have e2 : inNumbers a (conf n (x t), conf n (v t)) k = 0 := norm_eq_zero.1 (by linarith)
  exact hact t ht k ⟨congrArg ve e0, congrArg ve e1, congrArg ve e2⟩

/-- small enough for the errors of the first correction -/
theorem tiny {C c : ℝ} (hC : 0 ≤ C) (hc : 0 < c) : ∃ h1 : ℝ, 0 < h1 ∧ ∀ h, h ≤ h1 → C * h * 10 ^ 16 < 1 ∧ C * h ≤ c / 8 * (5 / 10 ^ 10) := by
  obtain ⟨h1, hh1, _, hs1⟩ := small_enough (c := C) hC (r := min (1 / 10 ^ 17) (c / 8 * (5 / 10 ^ 10))) (lt_min (by norm_num) (by positivity))
  refine ⟨h1, hh1, fun h hle => ⟨?_, ?_⟩⟩
  · have := (hs1 h hle).trans (min_le_left _ _)
    have e : (1 : ℝ) / 10 ^ 17 * 10 ^ 16 < 1 := by norm_num
    nlinarith
  · have := (hs1 h hle).trans (min_le_right _ _)
    linarith

/-- **C103, additional forces: the calls return.** `n` particles of masses `m` move from `t0` to `t1` with the accelerations that the forces `I` give them, gravity and
any additional forces; the accelerations are smooth along the motion, and no particle is ever at the origin without velocity and without acceleration.  There are
constants such that, for every sequence of steps of at most `h ≤ h0` that add up to at most `t1 - t0`, the calls of a new IAS15 iterator with these steps on a plain
system, from the exact state at `t0`, all return after one correction, each advances the clock by the full step asked for and recommends a step between a quarter of
and four times the one asked for, and after the last one the particles are off the true ones by at most `K (h² + 10⁻²⁶ h)`. -/
theorem C103_forced_runs {I : Interactions} {n : Nat} {m : Nat → ℝ} {a : Field n} (A : Acts I n m a) {x v : ℝ → Nat → V3 ℝ} {t0 t1 : ℝ} (ht : t0 ≤ t1)
    (M : ForcedMotion n a x v t0 t1) (hS : SmoothAlong a x v t0 t1)
    (hact : ∀ t ∈ Set.Icc t0 t1, ∀ k : Fin n, ¬ (x t k = 0 ∧ v t k = 0 ∧ a (fun j => x t j) (fun j => v t j) k = 0)) :
    ∃ K h0 : ℝ, 0 ≤ K ∧ 0 < h0 ∧ ∀ P, InState n m x v t0 P → ∀ (N : Nat) (big h : ℝ) (H : Nat → ℝ), 0 ≤ h → h ≤ h0 → (∀ i, i < N → 0 ≤ H i ∧ H i ≤ h) →
      (∑ i ∈ range N, H i) ≤ t1 - t0 → ∃ (s : Nat → Simple) (it : Nat → IAS) (h' : Nat → ℝ), s 0 = Simple.init t0 P ∧ it 0 = IAS.new big ∧
        (∀ i, i < N → (∀ fuel, Radau.iterate code (radauSimple I) big (fuel + 1) 0 (H i) (it i) ((s i).preIter I) = .ok (s (i + 1), it (i + 1), h' i)) ∧
          (s (i + 1)).time = (s i).time + H i ∧ H i / 4 ≤ h' i ∧ h' i ≤ 4 * H i) ∧
        (s N).time = t0 + ∑ i ∈ range N, H i ∧ WithinOf n m x v (s N).time (K * (h ^ 2 + h / 10 ^ 26)) (s N).P := by
  obtain ⟨U, hU, hsm, hin⟩ := hS
  have hbusy := busy_along (b := False) hin (fun h => h.elim) hact
  obtain ⟨K, h0, C, W', hK, hh0, hC, hW', hWU, key⟩ := slow_runs (S := Simple) (busy_open hU hsm False) (hsm.mono fun z hz => hz.1) ht M hbusy
  obtain ⟨c, hc, hcW⟩ := busy_bound hsm hW' hWU
  obtain ⟨h1, hh1, htiny⟩ := tiny hC hc
  refine ⟨2 * K, min (min h0 h1) (1 / 10 ^ 7), by positivity, lt_min (lt_min hh0 hh1) (by norm_num), fun P S N big h H hh hhle hst hsum => ?_⟩
  obtain ⟨hδ1, hδ2⟩ := htiny h (hhle.trans ((min_le_left _ _).trans (min_le_right _ _)))
  have ep : ∀ s : Simple, (s.preIter I).P = s.P := fun s => by unfold Simple.preIter; split_ifs <;> rfl
  have et : ∀ s : Simple, (s.preIter I).time = s.time := fun s => by unfold Simple.preIter; split_ifs <;> rfl
  have fp : ∀ s : Simple, FrameOf n m s → FrameOf n m (s.preIter I) := fun s h => by unfold FrameOf; rw [ep]; exact h
  have tl : ∀ s : Simple, timeL (GR.toArr ((radauSimple I).write s)) = s.time := fun s => timeL_flat I.velDep s.flat _ (Simple.write_getD I s)
  have wr : ∀ s : Simple, FrameOf n m s → readL n (GR.toArr ((radauSimple I).write (s.preIter I))) = (conf n s.P.pos, conf n s.P.vel) := fun s hs => by
    rw [plain_written (fp _ hs), ep]
  have sm : ∀ s : Simple, FrameOf n m s → ∀ y, SameSimple I s y → FrameOf n m y := fun s hs y hy => hs.of ⟨hy.2.1, hy.2.2.1⟩
  have keep : ∀ (s : Simple) (it : IAS) (H : ℝ) (q : Simple × Simple × IAS × ℝ), FrameOf n m s → Calm n I.velDep it.gr →
      CallReturns (radauSimple I) (fun s => s.preIter I) (fun u s' => s' = u) Simple.Frame (SameSimple I) big H it s q →
      FrameOf n m q.2.1 ∧ Calm n I.velDep q.2.2.1.gr ∧ q.2.1.time = s.time + H := fun s it H q hs hcalm hq => by
    obtain ⟨_, st, rfl', _⟩ := hq
    obtain ⟨n1, n2⟩ := slow_next plain_runs (fp _ hs) (sm _ (fp _ hs)) hcalm st
    rw [tl, tl, et] at n2
    obtain ⟨_, _, _, _, _, _, _, _, _, _, acc⟩ := st
    rw [rfl']
    exact ⟨(fp _ hs).of acc.2.2.2.2.2.2.2.2.2.2.1, n1, n2⟩
  have f0 : FrameOf n m (Simple.init t0 P) := ⟨S.num, S.mass⟩
  obtain ⟨s, u, it, h', s0, i0, run, fN, w⟩ := key (O := radauSimple I) (nv := n * 3 * (2 + I.velDep.toNat) + 1) (pre := fun s => s.preIter I) (post := fun u s' => s' = u)
    (frame := Simple.Frame) (same := SameSimple I) (A := fun _ => readL n) (ok := fun _ => FrameOf n m) (Fr := FrameOf n m) (calm := Calm n I.velDep) (big := big) (h := h)
    (fun s hs => ⟨plain_shadow A, fp _ hs, sm _ (fp _ hs), plain_length (fp _ hs)⟩) (fun _ _ _ => rfl) hh (hhle.trans ((min_le_left _ _).trans (min_le_left _ _)))
    (fun s it H hs hcalm hH hHh inW first => by
      rw [wr s hs] at inW
      have hcz := (hcW _ inW).1
      obtain ⟨s', it', h', k1, k2, _, k4, k5⟩ := slow_call (big := big) plain_runs (simple_radau I (s.preIter I)) (fp _ hs) hcalm hc hδ1 hδ2 hH
        (F := forcedF a (readL n (GR.toArr ((radauSimple I).write (s.preIter I))))) (slow := fun p => slowVarying (s.P.pos p) (s.P.vel p) (H / 1))
        (fun y hy => by
          have hy1 : y.P.num = n := hy.2.1.trans (fp _ hs).1
          show maskOf false I.velDep y.P.num _ = _
          rw [hy1]
          refine maskOf_congr _ _ _ fun p hp => ?_
          have hp' := hy.2.2.2 p (by rw [(fp _ hs).1]; exact hp)
          rw [hp'.1, hp'.2.1, ep])
        (fun p hp => by
          have hfast := fast_norm hH (hHh.trans (hhle.trans (min_le_right _ _))) hp
          rw [wr s hs]
          have := hcz p
          have e1 : ‖(forcedF a (conf n s.P.pos, conf n s.P.vel)).1 p‖ = ‖co (s.P.vel p)‖ := rfl
          have e2 : ‖(conf n s.P.pos, conf n s.P.vel).1 p‖ = ‖co (s.P.pos p)‖ := rfl
          have e3 : ‖(conf n s.P.pos, conf n s.P.vel).2 p‖ = ‖co (s.P.vel p)‖ := rfl
          have e4 : (forcedF a (conf n s.P.pos, conf n s.P.vel)).2 p = inNumbers a (conf n s.P.pos, conf n s.P.vel) p := rfl
          rw [e2, e3] at this
          rw [e1, e4]
          linarith)
        (fun x1 r e hx1 hw => first x1 r e hx1 hw)
      exact ⟨(s', s', it', h'), k1, k2, rfl, k4, k5⟩)
    (fun s it H q hs hcalm hq => by
      obtain ⟨g1, g2, _⟩ := keep s it H q hs hcalm hq
      refine ⟨g1, g2, ?_⟩
      have : q.2.1 = q.1 := hq.2.2.1
      rw [wr _ g1, plain_written (this ▸ g1), this])
    (Simple.init t0 P) f0 (calm_new _ _) (by rw [wr _ f0]; exact start_conf S) N H hst hsum
  have step : ∀ i, i < N → u i = s (i + 1) ∧ (s (i + 1)).time = (s i).time + H i := fun i hi => by
    obtain ⟨g1, g2, g3⟩ := run i hi
    exact ⟨(g3.2.2.1).symm, (keep _ _ _ _ g1 g2 g3).2.2⟩
  have times : ∀ i, i ≤ N → (s i).time = t0 + ∑ j ∈ range i, H j := by
    intro i
    induction i with
    | zero => intro _; rw [s0, sum_range_zero, add_zero]; rfl
    | succ i ih => intro hi; rw [(step i (by omega)).2, ih (by omega), sum_range_succ, add_assoc]
  refine ⟨s, it, h', s0, i0, fun i hi => ⟨fun fuel => ?_, (step i hi).2, (run i hi).2.2.2.2.2⟩, times N le_rfl, ?_⟩
  · rw [← (step i hi).1]
    exact (run i hi).2.2.1 fuel
  · rw [mul_assoc]
    refine within_of fN.1 fN.2 ?_
    rw [wr _ fN, ← times N le_rfl] at w
    exact w

/-! ### chain systems -/

/-- from Cartesian to chain coordinates -/
noncomputable def rechain {n : Nat} (σ : Fin n ≃ Fin n) (y : Conf n) : Conf n :=
  fun i => if h : (i : Nat) + 1 < n then y (σ ⟨i + 1, h⟩) - y (σ i) else y (σ ⟨0, by have := i.2; omega⟩)

theorem rechain_sub {n : Nat} (σ : Fin n ≃ Fin n) (y z : Conf n) : rechain σ (y - z) = rechain σ y - rechain σ z := by
  funext i
  show rechain σ (y - z) i = rechain σ y i - rechain σ z i
  unfold rechain
  by_cases h : (i : Nat) + 1 < n
  · rw [dif_pos h, dif_pos h, dif_pos h]
    show y _ - z _ - (y _ - z _) = _
    abel
  · rw [dif_neg h, dif_neg h, dif_neg h]; rfl

theorem rechain_norm {n : Nat} (σ : Fin n ≃ Fin n) (y : Conf n) : ‖rechain σ y‖ ≤ 2 * ‖y‖ := by
  refine (pi_norm_le_iff_of_nonneg (by positivity)).2 fun i => ?_
  unfold rechain
  have hb : ∀ k, ‖y k‖ ≤ ‖y‖ := norm_le_pi_norm y
  by_cases h : (i : Nat) + 1 < n
  · rw [dif_pos h]
    have := norm_sub_le (y (σ ⟨i + 1, h⟩)) (y (σ i))
    linarith [hb (σ ⟨i + 1, h⟩), hb (σ i)]
  · rw [dif_neg h]
    linarith [hb (σ ⟨0, by have := i.2; omega⟩), norm_nonneg y]

theorem member_step {n : Nat} (c : Conf n) (i : Nat) (hi : i + 1 < n) : member ⟨i + 1, hi⟩ c = member ⟨i, by omega⟩ c + c ⟨i, by omega⟩ := by
  show ∑ j : Fin n, (if (j : Nat) + 1 = n ∨ j < ⟨i + 1, hi⟩ then c j else 0) =
    ∑ j : Fin n, (if (j : Nat) + 1 = n ∨ j < ⟨i, by omega⟩ then c j else 0) + _
  rw [← sum_ite_eq_of_mem' univ (⟨i, by omega⟩ : Fin n) (fun j => c j) (mem_univ _), ← sum_add_distrib]
  refine sum_congr rfl fun j _ => ?_
  by_cases h1 : j = (⟨i, by omega⟩ : Fin n)
  · subst h1
    rw [if_pos (.inr (Nat.lt_succ_self i)), if_neg, if_pos rfl, zero_add]
    rintro (h | h)
    · exact absurd (show i + 1 = n from h) (by omega)
    · exact lt_irrefl _ h
  · have h2 : (j : Nat) ≠ i := fun h => h1 (Fin.ext h)
    rw [if_neg h1, add_zero]
    refine if_congr (or_congr Iff.rfl ⟨fun h => ?_, fun h => ?_⟩) rfl rfl
    · show (j : Nat) < i
      have : (j : Nat) < i + 1 := h
      omega
    · show (j : Nat) < i + 1
      have : (j : Nat) < i := h
      omega

theorem member_first {n : Nat} (c : Conf n) (h : 0 < n) : member ⟨0, h⟩ c = c ⟨n - 1, by omega⟩ := by
  show ∑ j : Fin n, (if (j : Nat) + 1 = n ∨ j < ⟨0, h⟩ then c j else 0) = _
  rw [sum_eq_single (⟨n - 1, by omega⟩ : Fin n)]
  · rw [if_pos (.inl (by show n - 1 + 1 = n; omega))]
  · intro j _ hj
    refine if_neg ?_
    rintro (h | h)
    · exact hj (Fin.ext (by show (j : Nat) = n - 1; omega))
    · exact absurd (show (j : Nat) < 0 from h) (Nat.not_lt_zero _)
  · exact fun h => absurd (mem_univ _) h

theorem rechain_unchain {n : Nat} (σ : Fin n ≃ Fin n) (c : Conf n) : rechain σ (unchain σ c) = c := by
  funext i
  have hu : ∀ k, unchain σ c (σ k) = member k c := fun k => by
    show member (σ.symm (σ k)) c = _
    rw [Equiv.symm_apply_apply]
  unfold rechain
  by_cases h : (i : Nat) + 1 < n
  · rw [dif_pos h, hu, hu, member_step c i h, add_sub_cancel_left]
  · rw [dif_neg h, hu, member_first]
    congr 1
    exact Fin.ext (by show n - 1 = (i : Nat); have := i.2; omega)

/-- the entries of the array, from positions and velocities -/
theorem read_chain {n : Nat} (σ : Fin n ≃ Fin n) (f : Nat → ℝ) : readL n f = (rechain σ (chainL σ f).1, rechain σ (chainL σ f).2) := by
  show _ = (rechain σ (unchain σ (readL n f).1), rechain σ (unchain σ (readL n f).2))
  rw [rechain_unchain, rechain_unchain]

theorem read_bound {n : Nat} (σ : Fin n ≃ Fin n) (f : Nat → ℝ) (F : Conf n × Conf n) {δ : ℝ} (h : ‖chainL σ f - F‖ ≤ δ) :
    ‖readL n f - (rechain σ F.1, rechain σ F.2)‖ ≤ 2 * δ := by
  rw [read_chain σ f]
  show max ‖rechain σ (chainL σ f).1 - rechain σ F.1‖ ‖rechain σ (chainL σ f).2 - rechain σ F.2‖ ≤ _
  rw [← rechain_sub, ← rechain_sub]
  have h1 := (norm_fst_le (chainL σ f - F)).trans h
  have h2 := (norm_snd_le (chainL σ f - F)).trans h
  refine max_le ((rechain_norm _ _).trans ?_) ((rechain_norm _ _).trans ?_)
  · show 2 * ‖(chainL σ f - F).1‖ ≤ _
    linarith
  · show 2 * ‖(chainL σ f - F).2‖ ≤ _
    linarith

theorem read_bound0 {n : Nat} (σ : Fin n ≃ Fin n) (f : Nat → ℝ) {δ : ℝ} (h : ‖chainL σ f‖ ≤ δ) : ‖readL n f‖ ≤ 2 * δ := by
  have := read_bound σ f 0 (δ := δ) (by rw [sub_zero]; exact h)
  have z : rechain σ (0 : Conf n) = 0 := by
    have := rechain_sub σ (0 : Conf n) 0
    rwa [sub_self, sub_self] at this
  have e : ((rechain σ (0 : Conf n × Conf n).1, rechain σ (0 : Conf n × Conf n).2) : Conf n × Conf n) = 0 := Prod.ext z z
  rwa [e, sub_zero] at this

theorem chain_runs {IC : ChainInteractions} {I : Interactions} (AI : AgreesI IC I) {n : Nat} {m : Nat → ℝ} (σ : Fin n ≃ Fin n) :
    Runs (radauChain IC) (ChainOf IC.velDep m σ) n I.velDep where
  reads x y hx hy := by
    have hl : y.length = x.variableNumber IC := by unfold ChainSys.variableNumber; rw [hy, hx.num, AI.velDep_eq]
    obtain ⟨x', e, _⟩ := C13_chain_write_read IC x hx.good.cons.num hx.good.cons.index y hl
    exact ⟨x', e, (chain_read hx e).1⟩
  derivs x hx := by
    obtain ⟨c, e1, hc⟩ := toChain_ok (n := x.P.num) (by have := hx.good.two; omega) x.index (I.acc x.P) (fun _ => 0)
    have h : x.derivative IC = .ok (({ x with time := 1, cpos := x.cvel, cvel := c, caux := c } : ChainSys).write IC) := by
      unfold ChainSys.derivative
      rw [AI.acc_eq hx.good.two hx.good.consistent, Res.ok_bind, e1, Res.ok_bind]
      rfl
    exact ⟨_, by show (do let d ← x.derivative IC; .ok (d, x) : Res _) = _; rw [h, Res.ok_bind], hx⟩
  length x hx := chain_length AI hx
  clock := {
    loc := fun f g h => h 0 (by omega)
    read := fun x y v hx e => chain_read hx e
    keep := fun x d hx e => by rw [(chain_deriv AI hx.good e).1]; exact hx
    field := fun x d hx _ e => by
      obtain ⟨_, c, _, e1⟩ := chain_deriv AI hx.good e
      rw [e1]
      exact timeL_flat IC.velDep ({ x with time := 1, cpos := x.cvel, cvel := c, caux := c } : ChainSys).flat _ (ChainSys.write_getD IC _) }
  aux hd j hj := {
    loc := fun f g h => by
      have e : I.velDep.toNat = 1 := by rw [hd]; rfl
      rw [e] at h
      rw [auxL_apply, auxL_apply, h _ (by omega), h _ (by omega)]
    read := fun x y v hx e => chain_read hx e
    keep := fun x d hx e => by rw [(chain_deriv AI hx.good e).1]; exact hx
    field := fun x d hx _ e => by
      obtain ⟨_, c, _, e1⟩ := chain_deriv AI hx.good e
      rw [e1]
      have hn : ({ x with time := 1, cpos := x.cvel, cvel := c, caux := c } : ChainSys).flat.n = n := hx.num
      have := auxL_flat ({ x with time := 1, cpos := x.cvel, cvel := c, caux := c } : ChainSys).flat j (by rw [hn]; exact hj)
        (GR.toArr (({ x with time := 1, cpos := x.cvel, cvel := c, caux := c } : ChainSys).write IC))
        (fun v => by rw [← hd, ← AI.velDep_eq]; exact ChainSys.write_getD IC _ v) (fun k _ => rfl)
      rw [hn] at this
      exact this }

open Classical in
/-- the chain of a system, as a permutation -/
noncomputable def chainPerm (n : Nat) (s : ChainSys) : Fin n ≃ Fin n := if h : IsIndex n s.index then permOf h else Equiv.refl _

theorem chainPerm_val {n : Nat} {s : ChainSys} (h : IsIndex n s.index) (i : Fin n) : (chainPerm n s i : Nat) = s.index i := by
  unfold chainPerm
  rw [dif_pos h]; rfl

/-- the links of a chain that are not masked have a rate -/
theorem link_fast {n : Nat} {a : Field n} {m : Nat → ℝ} {b : Bool} {σ : Fin n ≃ Fin n} {s : ChainSys} (hs : ChainOf b m σ s) {c H : ℝ} (hH : 0 ≤ H) (hH7 : H ≤ 1 / 10 ^ 7)
    (h1 : ∀ k : Fin n, c ≤ ‖co (s.P.pos k)‖ + ‖co (s.P.vel k)‖ + ‖inNumbers a (conf n s.P.pos, conf n s.P.vel) k‖)
    (h2 : ∀ i j : Fin n, i ≠ j → c ≤ ‖co (s.P.pos i) - co (s.P.pos j)‖) (p : Fin n) (hp : slowVarying (s.cpos p) (s.cvel p) (H / 1) = false) :
    c ≤ 2 * ‖rechain σ (conf n s.P.vel) p‖ + ‖rechain σ (inNumbers a (conf n s.P.pos, conf n s.P.vel)) p‖ := by
  have hfast := fast_norm hH hH7 hp
  have g := hs.good.cons
  rw [hs.num] at g
  have ex : rechain σ (conf n s.P.pos) = conf n s.cpos := by rw [← unchain_conf hs.index g.pos, rechain_unchain]
  have ev : rechain σ (conf n s.P.vel) = conf n s.cvel := by rw [← unchain_conf hs.index g.vel, rechain_unchain]
  have e1 : ‖co (s.cpos p)‖ = ‖rechain σ (conf n s.P.pos) p‖ := by rw [ex]; rfl
  have e2 : ‖co (s.cvel p)‖ = ‖rechain σ (conf n s.P.vel) p‖ := by rw [ev]; rfl
  rw [e1, e2] at hfast
  have n0 := norm_nonneg (rechain σ (conf n s.P.vel) p)
  have n1 := norm_nonneg (rechain σ (inNumbers a (conf n s.P.pos, conf n s.P.vel)) p)
  by_cases h : (p : Nat) + 1 < n
  · have e : rechain σ (conf n s.P.pos) p = co (s.P.pos (σ ⟨p + 1, h⟩)) - co (s.P.pos (σ p)) := by unfold rechain; rw [dif_pos h]; rfl
    rw [e] at hfast
    have := h2 (σ ⟨p + 1, h⟩) (σ p) (fun he => by
      have := congrArg Fin.val (σ.injective he)
      simp at this)
    linarith
  · have e : ∀ y : Conf n, rechain σ y p = y (σ ⟨0, by have := p.2; omega⟩) := fun y => by unfold rechain; rw [dif_neg h]
    rw [e, e] at hfast
    rw [e, e]
    have := h1 (σ ⟨0, by have := p.2; omega⟩)
    have q1 : ‖conf n s.P.pos (σ ⟨0, by have := p.2; omega⟩)‖ = ‖co (s.P.pos (σ ⟨0, by have := p.2; omega⟩))‖ := rfl
    have q2 : ‖conf n s.P.vel (σ ⟨0, by have := p.2; omega⟩)‖ = ‖co (s.P.vel (σ ⟨0, by have := p.2; omega⟩))‖ := rfl
    rw [q1, q2] at hfast
    rw [q2]
    linarith

/-- **C103, chain systems: the calls return.** As `C103_forced_runs` for a simulation of a chain system: each macro step is `pre_iter_process`, a call of the
iterator, and `post_iter_process`, which may change the chain.  The particles do not collide. -/
theorem C103_chain_runs {IC : ChainInteractions} {I : Interactions} (AI : AgreesI IC I) {n : Nat} {m : Nat → ℝ} {a : Field n} (A : Acts I n m a)
    {x v : ℝ → Nat → V3 ℝ} {t0 t1 : ℝ} (ht : t0 ≤ t1) (M : ForcedMotion n a x v t0 t1) (hS : SmoothAlong a x v t0 t1)
    (apart : ∀ t ∈ Set.Icc t0 t1, ∀ i j, i < n → j < n → i ≠ j → x t i ≠ x t j)
    (hact : ∀ t ∈ Set.Icc t0 t1, ∀ k : Fin n, ¬ (x t k = 0 ∧ v t k = 0 ∧ a (fun j => x t j) (fun j => v t j) k = 0)) :
    ∃ K h0 : ℝ, 0 ≤ K ∧ 0 < h0 ∧ ∀ P, InState n m x v t0 P → ∀ idx, IndexOf P idx → ∀ (N : Nat) (big h : ℝ) (H : Nat → ℝ), 0 ≤ h → h ≤ h0 →
      (∀ i, i < N → 0 ≤ H i ∧ H i ≤ h) → (∑ i ∈ range N, H i) ≤ t1 - t0 → ∃ (s u : Nat → ChainSys) (it : Nat → IAS) (h' : Nat → ℝ),
        ChainSys.init t0 P idx = .ok (s 0) ∧ it 0 = IAS.new big ∧
        (∀ i, i < N → (∀ fuel, Radau.ChainMacro code IC big (fuel + 1) (H i) (it i) (s i) (u i) (s (i + 1)) (it (i + 1)) (h' i)) ∧
          (s (i + 1)).time = (s i).time + H i ∧ H i / 4 ≤ h' i ∧ h' i ≤ 4 * H i) ∧
        (s N).time = t0 + ∑ i ∈ range N, H i ∧ WithinOf n m x v (s N).time (K * (h ^ 2 + h / 10 ^ 26)) (s N).P := by
  obtain ⟨U, hU, hsm, hin⟩ := hS
  have hbusy := busy_along (b := True) hin (fun _ => apart) hact
  obtain ⟨K, h0, C, W', hK, hh0, hC, hW', hWU, key⟩ := slow_runs (S := ChainSys) (busy_open hU hsm True) (hsm.mono fun z hz => hz.1) ht M hbusy
  obtain ⟨c, hc, hcW⟩ := busy_bound hsm hW' hWU
  obtain ⟨h1, hh1, htiny⟩ := tiny (C := 2 * C) (by positivity) hc
  refine ⟨2 * K, min (min h0 h1) (1 / 10 ^ 7), by positivity, lt_min (lt_min hh0 hh1) (by norm_num), fun P S idx hidx N big h H hh hhle hst hsum => ?_⟩
  obtain ⟨hδ1, hδ2⟩ := htiny h (hhle.trans ((min_le_left _ _).trans (min_le_right _ _)))
  rw [show 2 * C * h = 2 * (C * h) by ring] at hδ1 hδ2
  have ep : ∀ s : ChainSys, (s.preIter IC).P = s.P := fun s => by unfold ChainSys.preIter; split_ifs <;> rfl
  have et : ∀ s : ChainSys, (s.preIter IC).time = s.time := fun s => by unfold ChainSys.preIter; split_ifs <;> rfl
  have tl : ∀ s : ChainSys, timeL (GR.toArr ((radauChain IC).write s)) = s.time := fun s => timeL_flat IC.velDep s.flat _ (ChainSys.write_getD IC s)
  -- systems between macro steps
  let Fr : ChainSys → Prop := fun s => ChainOf false m (chainPerm n s) s
  have fp : ∀ s, Fr s → ChainOf IC.velDep m (chainPerm n s) (s.preIter IC) := fun s hs => by
    have f : ChainSys.Frame s (s.preIter IC) := by unfold ChainSys.preIter; split_ifs <;> exact ⟨rfl, rfl, rfl⟩
    obtain ⟨gp, _⟩ := ChainSys.preIter_sim AI hs.good
    rw [← AI.velDep_eq] at gp
    exact hs.of f gp
  have wr : ∀ s, Fr s → chainL (chainPerm n s) (GR.toArr ((radauChain IC).write (s.preIter IC))) = (conf n s.P.pos, conf n s.P.vel) := fun s hs => by
    rw [chain_written (fp _ hs), ep]
  have sm : ∀ s, Fr s → ∀ y, SameChain IC (s.preIter IC) y → ChainOf IC.velDep m (chainPerm n s) y := fun s hs y hy =>
    (fp _ hs).of ⟨hy.2.1, hy.2.2.1, hy.2.2.2.1⟩ (same_good (fp _ hs).good hy)
  have mk : ∀ s : ChainSys, s.P.num = n → (∀ k, k < n → s.P.mass k = m k) → ChainSys.Good false s → Fr s := fun s hn hm g =>
    ⟨hn, hm, chainPerm_val (by have := g.cons.index; rwa [hn] at this), g⟩
  have keep : ∀ (s : ChainSys) (it : IAS) (H : ℝ) (q : ChainSys × ChainSys × IAS × ℝ), Fr s → Calm n I.velDep it.gr →
      CallReturns (radauChain IC) (fun s => s.preIter IC) (fun u s' => ∃ idx, IndexOf u.P idx ∧ u.postIter idx = .ok s') ChainSys.Frame (SameChain IC) big H it s q →
      Fr q.2.1 ∧ Calm n I.velDep q.2.2.1.gr ∧ q.2.1.time = s.time + H ∧
        chainL (chainPerm n q.2.1) (GR.toArr ((radauChain IC).write (q.2.1.preIter IC))) = chainL (chainPerm n s) (GR.toArr ((radauChain IC).write q.1)) := by
    intro s it H q hs hcalm hq
    obtain ⟨run, st, post, _⟩ := hq
    obtain ⟨m1, m2, m3, m4⟩ := chain_macro AI hs (s' := q.2.1) ⟨run 0, post⟩
    obtain ⟨n1, n2⟩ := slow_next (chain_runs AI _) m1 (sm _ hs) hcalm st
    rw [tl, tl, et] at n2
    have tm : q.2.1.time = q.1.time := congrArg Simple.time m4
    have hP : q.2.1.P = q.1.P := congrArg Simple.P m4
    have fr : Fr q.2.1 := mk _ (by rw [hP]; exact m2.num) (by rw [hP]; exact m2.mass) m3
    exact ⟨fr, n1, by rw [tm, n2], by rw [wr _ fr, chain_written m2, hP]⟩
  obtain ⟨i0, e0, g0, a0, _⟩ := ChainSys.init_sim t0 P idx hidx.two_le hidx.isIndex
  have P0 : i0.P = P := congrArg Simple.P a0
  have T0 : i0.time = t0 := congrArg Simple.time a0
  have f0 : Fr i0 := mk _ (by rw [P0]; exact S.num) (by rw [P0]; exact S.mass) g0.weaken
  obtain ⟨s, u, it, h', s0, it0, run, fN, w⟩ := key (O := radauChain IC) (nv := n * 3 * (2 + I.velDep.toNat) + 1) (pre := fun s => s.preIter IC)
    (post := fun u s' => ∃ idx, IndexOf u.P idx ∧ u.postIter idx = .ok s')
    (frame := ChainSys.Frame) (same := SameChain IC) (A := fun s => chainL (chainPerm n s)) (ok := fun s => ChainOf IC.velDep m (chainPerm n s)) (Fr := Fr)
    (calm := Calm n I.velDep) (big := big) (h := h)
    (fun s hs => ⟨chain_shadow AI A _, fp _ hs, sm _ hs, chain_length AI (fp _ hs)⟩) (fun _ _ _ => chainL_norm _ _ _) hh
    (hhle.trans ((min_le_left _ _).trans (min_le_left _ _)))
    (fun s it H hs hcalm hH hHh inW first => by
      have hz := wr s hs
      rw [hz] at inW
      have hH7 : H ≤ 1 / 10 ^ 7 := hHh.trans (hhle.trans (min_le_right _ _))
      have hp := fp _ hs
      obtain ⟨u, it', h', k1, k2, ku, k4, k5⟩ := slow_call (big := big) (chain_runs AI (chainPerm n s)) (chain_radau IC _ hp.good.cons) hp hcalm hc hδ1 hδ2 hH
        (F := (rechain (chainPerm n s) (forcedF a (conf n s.P.pos, conf n s.P.vel)).1, rechain (chainPerm n s) (forcedF a (conf n s.P.pos, conf n s.P.vel)).2))
        (slow := fun p => slowVarying ((s.preIter IC).cpos p) ((s.preIter IC).cvel p) (H / 1))
        (fun y hy => by
          have hy1 : y.P.num = n := hy.2.1.trans hp.num
          show maskOf false IC.velDep y.P.num _ = _
          rw [hy1, AI.velDep_eq]
          refine maskOf_congr _ _ _ fun p hp' => ?_
          have h4 := hy.2.2.2.2.2 p (by rw [hp.num]; exact hp')
          rw [h4.1, h4.2.1])
        (fun p hslow => by
          have := link_fast (a := a) hp hH hH7 (c := c) (by rw [ep]; exact (hcW _ inW).1) (by rw [ep]; exact (hcW _ inW).2 trivial) p hslow
          rw [ep] at this
          exact this)
        (fun x1 r e hx1 hw => by
          obtain ⟨d1, d2, d3⟩ := first x1 r e hx1 hw
          rw [hz] at d3
          exact ⟨read_bound0 _ _ d1, read_bound0 _ _ d2, read_bound _ _ _ d3⟩)
      obtain ⟨idx', hi'⟩ := IndexOf.exists u.P ku.good.two
      obtain ⟨s', e2, _⟩ := ChainSys.postIter_sim ku.good.weaken idx' hi'.isIndex
      exact ⟨(u, s', it', h'), k1, k2, ⟨idx', hi', e2⟩, k4, k5⟩)
    (fun s it H q hs hcalm hq => by
      obtain ⟨g1, g2, _, g4⟩ := keep s it H q hs hcalm hq
      exact ⟨g1, g2, g4⟩)
    i0 f0 (calm_new _ _) (by rw [wr _ f0, P0]; exact start_conf S) N H hst hsum
  have step : ∀ i, i < N → (s (i + 1)).time = (s i).time + H i := fun i hi => by
    obtain ⟨g1, g2, g3⟩ := run i hi
    exact (keep _ _ _ _ g1 g2 g3).2.2.1
  have times : ∀ i, i ≤ N → (s i).time = t0 + ∑ j ∈ range i, H j := by
    intro i
    induction i with
    | zero => intro _; rw [s0, sum_range_zero, add_zero, T0]
    | succ i ih => intro hi; rw [step i (by omega), ih (by omega), sum_range_succ, add_assoc]
  refine ⟨s, u, it, h', by rw [s0]; exact e0, it0, fun i hi => ⟨fun fuel => ⟨(run i hi).2.2.1 fuel, (run i hi).2.2.2.2.1⟩, step i hi, (run i hi).2.2.2.2.2⟩, times N le_rfl, ?_⟩
  rw [mul_assoc]
  refine within_of fN.num fN.mass ?_
  rw [wr _ fN, ← times N le_rfl] at w
  exact w

/-- two bodies on a circle around each other with the first post-Newtonian correction, on a plain system and on a chain system: calls return, for simulations of any length -/
example (t0 L : ℝ) (hL : 0 ≤ L) : ∃ K h0 : ℝ, 0 < h0 ∧ ∀ (N : Nat) (h : ℝ), 0 < h → h ≤ h0 → N * h ≤ L →
    (∃ (s : Nat → Simple) (it : Nat → IAS) (h' : Nat → ℝ), s 0 = Simple.init t0 ⟨2, circlePos t0, circleVel t0, fun _ => 1⟩ ∧ it 0 = IAS.new 1000 ∧
      (∀ i, i < N → Radau.iterate code (radauSimple ⟨Lib.newton, [libOf 1 (Real.sqrt (29 / 2)) .pn1]⟩) 1000 1 0 h (it i)
        ((s i).preIter ⟨Lib.newton, [libOf 1 (Real.sqrt (29 / 2)) .pn1]⟩) = .ok (s (i + 1), it (i + 1), h' i)) ∧
      WithinOf 2 (fun _ => 1) circlePos circleVel (t0 + N * h) (K * (h ^ 2 + h / 10 ^ 26)) (s N).P) ∧
    ∃ (idx : Arr Nat) (s u : Nat → ChainSys) (it : Nat → IAS) (h' : Nat → ℝ), ChainSys.init t0 ⟨2, circlePos t0, circleVel t0, fun _ => 1⟩ idx = .ok (s 0) ∧ it 0 = IAS.new 1000 ∧
      (∀ i, i < N → Radau.ChainMacro code ⟨Lib.newtonC, [libChainOf 1 (Real.sqrt (29 / 2)) .pn1]⟩ 1000 1 h (it i) (s i) (u i) (s (i + 1)) (it (i + 1)) (h' i)) ∧
      WithinOf 2 (fun _ => 1) circlePos circleVel (t0 + N * h) (K * (h ^ 2 + h / 10 ^ 26)) (s N).P := by
  obtain ⟨A, AI, hS⟩ := C100_library 1 (Real.sqrt (29 / 2)) 2 (fun _ => 1) [.pn1]
  have M := circle_pn1 t0 (t0 + L)
  have ap := (circle_motion t0 (t0 + L)).apart
  have S : InState 2 (fun _ => 1) circlePos circleVel t0 ⟨2, circlePos t0, circleVel t0, fun _ => 1⟩ := ⟨rfl, fun _ _ => rfl, fun _ _ => rfl, fun _ _ => rfl⟩
  have hact : ∀ t ∈ Set.Icc t0 (t0 + L), ∀ k : Fin 2, ¬ (circlePos t k = 0 ∧ circleVel t k = 0 ∧
      withExtras 1 (Real.sqrt (29 / 2)) 2 (fun _ => 1) [.pn1] (fun j => circlePos t j) (fun j => circleVel t j) k = 0) := fun t _ k h => by
    have h1 := Real.sin_sq_add_cos_sq t
    have hx := congrArg V3.x h.1
    have hy := congrArg V3.y h.1
    fin_cases k <;> simp [circlePos] at hx hy <;> rw [hx, hy] at h1 <;> norm_num at h1
  have sm := hS circlePos circleVel t0 (t0 + L) ap (by simp [Extra.Away])
  obtain ⟨K, h0, hK, hh0, key⟩ := C103_forced_runs A (by linarith) M sm hact
  obtain ⟨K', h0', hK', hh0', key'⟩ := C103_chain_runs AI A (by linarith) M sm ap hact
  refine ⟨max K K', min h0 h0', lt_min hh0 hh0', fun N h hh hle hN => ⟨?_, ?_⟩⟩
  · obtain ⟨s, it, h', a1, a2, a3, a4, a5⟩ := key _ S N 1000 h (fun _ => h) hh.le (hle.trans (min_le_left _ _)) (fun _ _ => ⟨hh.le, le_rfl⟩) (by
      rw [sum_const, card_range, nsmul_eq_mul]; linarith)
    rw [sum_const, card_range, nsmul_eq_mul] at a4
    rw [a4] at a5
    exact ⟨s, it, h', a1, a2, fun i hi => (a3 i hi).1 0, within_mono a5 (mul_le_mul_of_nonneg_right (le_max_left _ _) (by positivity))⟩
  · obtain ⟨idx, hi⟩ := IndexOf.exists ⟨2, circlePos t0, circleVel t0, fun _ => 1⟩ le_rfl
    obtain ⟨s, u, it, h', a1, a2, a3, a4, a5⟩ := key' _ S idx hi N 1000 h (fun _ => h) hh.le (hle.trans (min_le_right _ _)) (fun _ _ => ⟨hh.le, le_rfl⟩) (by
      rw [sum_const, card_range, nsmul_eq_mul]; linarith)
    rw [sum_const, card_range, nsmul_eq_mul] at a4
    rw [a4] at a5
    exact ⟨idx, s, u, it, h', a1, a2, fun i hi => (a3 i hi).1 0, within_mono a5 (mul_le_mul_of_nonneg_right (le_max_right _ _) (by positivity))⟩

end SpaceHub.Sys
