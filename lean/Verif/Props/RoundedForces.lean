import Verif.Proof.RoundedForces
import Verif.Proof.LetterParts
import Verif.Props.RoundedRun
import Verif.Props.Forced

/-
C121: rounding errors of a simulation with additional forces.
-/

set_option autoImplicit false

namespace SpaceHub.Rounded
open SpaceHub V3 Force Core Integrator Spec Sys Props Converge

/-! ### exact arithmetic -/

/-- the force of the specification -/
def Term.extra : Term → Extra
  | .pn1 => .pn1
  | .pn2p5 => .pn2p5

/-- the model in exact arithmetic -/
def Term.pn : Term → PN
  | .pn1 => .pn1
  | .pn2p5 => .pn2p5

/-- gravity and the additional forces, in exact arithmetic -/
noncomputable abbrev withTerms (G c : ℝ) (fs : List Term) : Interactions := ⟨Lib.newton, (fs.map Term.extra).map (libOf G c)⟩

theorem addV_ex (a b : V3 ℝ) : addV .exact a b = a + b := rfl
theorem subV_ex (a b : V3 ℝ) : subV .exact a b = a - b := rfl
theorem divV_ex (a : V3 ℝ) (r : ℝ) : divV .exact a r = a / r := rfl
theorem negV_ex (a : V3 ℝ) : negV a = -a := rfl
theorem dotR_ex (a b : V3 ℝ) : dotR .exact a b = dot a b := rfl
theorem norm2_ex (a : V3 ℝ) : dot a a = norm2 a := rfl
theorem mulV_ex (a : V3 ℝ) (r : ℝ) : mulV .exact a r = r • a := by
  obtain ⟨x, y, z⟩ := a
  ext1 <;> simp [mulV, Arith.exact, mul_comm]

theorem term_exact (G c : ℝ) (t : Term) (v : Arr (V3 ℝ)) (m : Arr ℝ) (dr dv : V3 ℝ) (i j : Nat) (acc : Arr (V3 ℝ)) :
    termForce .exact G c t v m dr dv i j acc = pnForce G c v m t.pn dr dv i j acc := by
  cases t with
  | pn1 =>
    simp only [termForce, Term.pn, pnForce, pn1R, pn1Force, addAt, subAt, addV_ex, subV_ex, divV_ex, negV_ex, dotR_ex, norm2_ex, mulV_ex, invC2, invC]
    simp only [Arith.exact]
    push_cast
    rfl
  | pn2p5 =>
    simp only [termForce, Term.pn, pnForce, pn2p5R, pn2p5Force, addAt, subAt, addV_ex, subV_ex, divV_ex, negV_ex, dotR_ex, norm2_ex, mulV_ex, invC5, invC2, invC]
    simp only [Arith.exact]
    push_cast
    rfl

theorem termAcc_exact (G c : ℝ) (t : Term) (P : Particles) (a : Arr (V3 ℝ)) : termAcc .exact G c t P a = pnDirect G c t.pn P a := by
  unfold termAcc pnDirect directLoops
  simp only [term_exact]
  rfl

theorem velDep_fs (G c : ℝ) {fs : List Term} (hf : fs ≠ []) : (withTerms G c fs).velDep = true ∧ (withTerms G c fs).velIndep = false := by
  constructor
  · obtain ⟨t, l, rfl⟩ := List.exists_cons_of_ne_nil hf
    cases t <;> rfl
  · refine List.any_eq_false.2 fun f h => ?_
    obtain ⟨e, he, rfl⟩ := List.mem_map.1 h
    obtain ⟨t, _, rfl⟩ := List.mem_map.1 he
    cases t <;> simp [Term.extra, libOf, Lib.pn]

theorem velDepX_exact (G c : ℝ) {fs : List Term} (hf : fs ≠ []) (P : Particles) : velDepX .exact G c fs P = (withTerms G c fs).velDepAcc P := by
  have h : setZero P.num (fun _ => (0 : V3 ℝ)) = fun _ => 0 := by funext k; simp [setZero]
  have key : ∀ (l : List Term) (a : Arr (V3 ℝ)), l.foldl (fun a t => termAcc .exact G c t P a) a = invokeVelDep P ((l.map Term.extra).map (libOf G c)) a := by
    intro l
    induction l with
    | nil => exact fun _ => rfl
    | cons t l ih =>
      intro a
      rw [List.foldl_cons, ih, termAcc_exact]
      cases t <;> rfl
  show _ = evalExtraVelDepAcc Particles.num _ P _
  unfold evalExtraVelDepAcc
  rw [if_pos (show extVelDep (withTerms G c fs).extra = true from (velDep_fs G c hf).1), h]
  exact key fs _

theorem indep_exact (G c : ℝ) {fs : List Term} (hf : fs ≠ []) (P : Particles) : Simple.totVelIndepAcc (withTerms G c fs) P = acc .exact P := by
  have h : setZero P.num (fun _ => (0 : V3 ℝ)) = fun _ => 0 := by funext k; simp [setZero]
  unfold Simple.totVelIndepAcc
  rw [(velDep_fs G c hf).2]
  show newtonDirect P (setZero P.num (fun _ => 0)) = _
  rw [h]
  rfl

theorem real_exact (G c : ℝ) {fs : List Term} (hf : fs ≠ []) (a : Arr (V3 ℝ)) (h : ℝ) (s : Simple) (hs : s.sync = false) :
    kickRealX .exact G c fs a h s = s.kickReal (withTerms G c fs) a h := by
  obtain ⟨P, t, w, i, b⟩ := s
  obtain rfl : b = false := hs
  unfold kickRealX
  rw [velDepX_exact G c hf]
  rfl

theorem pseudo_exact (G c : ℝ) {fs : List Term} (hf : fs ≠ []) (a : Arr (V3 ℝ)) (h : ℝ) (s : Simple) (hs : s.sync = false) :
    kickPseuX .exact G c fs a h s = s.kickPseu (withTerms G c fs) a h := by
  obtain ⟨P, t, w, i, b⟩ := s
  obtain rfl : b = false := hs
  unfold kickPseuX
  rw [velDepX_exact G c hf]
  rfl

theorem kickX_exact (G c : ℝ) {fs : List Term} (hf : fs ≠ []) (h : ℝ) (s : Simple) (hs : s.sync = false) :
    kickX .exact G c fs h s = s.kick (withTerms G c fs) h := by
  unfold kickX Simple.kick
  rw [if_pos (velDep_fs G c hf).1, indep_exact G c hf]
  have e : Arith.exact.mul (Arith.exact.lit (1 / 2)) h = 1 / 2 * h := by
    show ((1 / 2 : ℚ) : ℝ) * h = _
    push_cast
    rfl
  simp only [e]
  rw [← real_exact G c hf _ _ s hs, ← pseudo_exact G c hf _ _ _ (show (kickRealX .exact G c fs _ _ s).sync = false from hs), ← real_exact G c hf]
  exact hs

theorem stageX_sync (A : Arith) (G c : ℝ) (fs : List Term) (h : ℝ) (q : Stage) (s : Simple) : (stageX A G c fs h q s).sync = s.sync := by cases q <;> rfl

theorem stagesX_exact (G c : ℝ) {fs : List Term} (hf : fs ≠ []) (stages : List Stage) (h : ℝ) : ∀ s : Simple, s.sync = false →
    (simpleOps (withTerms G c fs)).run (stages.map (Stage.op h)) s = .ok (stagesX .exact G c fs stages h s) ∧ (stagesX .exact G c fs stages h s).sync = false := by
  induction stages with
  | nil => exact fun s hs => ⟨rfl, hs⟩
  | cons q l ih =>
    intro s hs
    obtain ⟨a, b⟩ := ih (stageX .exact G c fs h q s) ((stageX_sync _ _ _ _ _ _ _).trans hs)
    refine ⟨?_, b⟩
    have e : (simpleOps (withTerms G c fs)).apply (Stage.op h q) s = .ok (stageX .exact G c fs h q s) := by
      cases q with
      | drift q => exact congrArg Res.ok (drift_exact _ s hs).symm
      | kick q => exact congrArg Res.ok (kickX_exact G c hf _ s hs).symm
    show (simpleOps (withTerms G c fs)).apply (Stage.op h q) s >>= (simpleOps (withTerms G c fs)).run (l.map (Stage.op h)) = _
    rw [e]
    exact a

/-- **C121, without rounding** the computation is that of the systems in exact arithmetic (C100). -/
theorem C121_exact (G c : ℝ) {fs : List Term} (hf : fs ≠ []) (stages : List Stage) (hs : List ℝ) : ∀ s : Simple, s.sync = false →
    steps (simpleStep (withTerms G c fs)) (hs.map fun h => stages.map (Stage.op h)) s = .ok (runX .exact G c fs stages hs s) := by
  induction hs with
  | nil => exact fun s _ => rfl
  | cons h l ih =>
    intro s hs
    have hp : s.preIter (withTerms G c fs) = { s with aux := s.P.vel } := by unfold Simple.preIter; rw [if_pos (velDep_fs G c hf).1]
    obtain ⟨a, b⟩ := stagesX_exact G c hf stages h { s with aux := s.P.vel } hs
    show simpleStep (withTerms G c fs) (stages.map (Stage.op h)) s >>= steps (simpleStep (withTerms G c fs)) (l.map fun h => stages.map (Stage.op h)) = _
    have e : simpleStep (withTerms G c fs) (stages.map (Stage.op h)) s = .ok (stepX .exact G c fs stages h s) := by unfold simpleStep; rw [hp]; exact a
    rw [e]
    exact ih _ b

/-! ### one step -/

theorem stagesX_keeps (A : Arith) (G c : ℝ) (fs : List Term) (h : ℝ) (stages : List Stage) : ∀ s : Simple,
    (stagesX A G c fs stages h s).P.num = s.P.num ∧ (stagesX A G c fs stages h s).P.mass = s.P.mass ∧
      (stagesX .exact G c fs stages h s).time = s.time + sumDrift stages * h := by
  induction stages with
  | nil => intro s; exact ⟨rfl, rfl, by simp [stagesX, sumDrift]⟩
  | cons q l ih =>
    intro s
    obtain ⟨a, b, _⟩ := ih (stageX A G c fs h q s)
    obtain ⟨_, _, d⟩ := ih (stageX .exact G c fs h q s)
    have e : ∀ A, stagesX A G c fs (q :: l) h s = stagesX A G c fs l h (stageX A G c fs h q s) := fun _ => rfl
    rw [e, e, a, b, d]
    cases q with
    | drift q => refine ⟨rfl, rfl, ?_⟩
                 show s.time + (q : ℝ) * h + (sumDrift l : ℝ) * h = s.time + ((q + sumDrift l : ℚ) : ℝ) * h
                 push_cast
                 ring
    | kick q => exact ⟨rfl, rfl, rfl⟩

/-- the accelerations of the specification -/
noncomputable abbrev field (G c : ℝ) (n : Nat) (m : Nat → ℝ) (fs : List Term) : Field n := withExtras G c n m (fs.map Term.extra)

theorem stagesX_point (G c : ℝ) {fs : List Term} (hf : fs ≠ []) {n : Nat} {m : Nat → ℝ} (h : ℝ) (stages : List Stage) (s : Simple) (hn : s.P.num = n)
    (hm : ∀ k, k < n → s.P.mass k = m k) (hs : s.sync = false) :
    extOf n (stagesX .exact G c fs stages h s) = Letters.wstep (moveF (field G c n m fs)) (stages.flatMap split) h (extOf n s) := by
  obtain ⟨s', e, _, _, a⟩ := stages_link3 (lib_acts G c n m (fs.map Term.extra)) (velDep_fs G c hf).1 h stages s hn hm
  rw [(stagesX_exact G c hf stages h s hs).1] at e
  cases e
  exact a

/-- The set of steps from states near a motion. -/
def nearX (n : Nat) (m : Nat → ℝ) (y : ℝ → Ext n) (T r ρ B : ℝ) : Set (ℝ × Simple) :=
  {z | (0 ≤ z.1 ∧ z.1 ≤ ρ) ∧ z.2.P.num = n ∧ (∀ k, k < n → z.2.P.mass k = m k) ∧ |z.2.time| ≤ B ∧ z.2.sync = false ∧ ∃ t ∈ Set.Icc 0 T, ‖equalize (extOf n z.2) - y t‖ ≤ r}

/-- What rounding does to one step from a state near the motion. -/
theorem near_stepX {G c : ℝ} (hc : c ≠ 0) {fs : List Term} (hf : fs ≠ []) {n : Nat} {m : Nat → ℝ} {y : ℝ → Ext n} {T r ρ B : ℝ} {stages : List Stage}
    {W : Set (Ext n)} (hW : IsCompact W) (hWU : W ⊆ Prod.fst ⁻¹' free n)
    (inW : ∀ t ∈ Set.Icc 0 T, ∀ h ∈ Set.Icc 0 ρ, ∀ z, ‖z - y t‖ ≤ r → ∀ pre suf, stages.flatMap split = pre ++ suf →
      Letters.wstep (moveF (field G c n m fs)) pre h z ∈ W) :
    ∃ C u0 : ℝ, 0 ≤ C ∧ 0 < u0 ∧ ∀ A u, Accurate A u → 0 ≤ u → u ≤ u0 → ∀ z ∈ nearX n m y T r ρ B,
      ‖extOf n (stepX A G c fs stages z.1 z.2) - Letters.wstep (moveF (field G c n m fs)) (stages.flatMap split) z.1 (equalize (extOf n z.2))‖ ≤ C * u ∧
      |(stepX A G c fs stages z.1 z.2).time - (z.2.time + sumDrift stages * z.1)| ≤ C * u := by
  obtain ⟨S, hS⟩ : ∃ S, S = nearX n m y T r ρ B := ⟨_, rfl⟩
  have mem : ∀ z ∈ S, (0 ≤ z.1 ∧ z.1 ≤ ρ) ∧ z.2.P.num = n ∧ (∀ k, k < n → z.2.P.mass k = m k) ∧ |z.2.time| ≤ B ∧ z.2.sync = false ∧
      ∃ t ∈ Set.Icc 0 T, ‖equalize (extOf n z.2) - y t‖ ≤ r := fun z hz => by rw [hS] at hz; exact hz
  obtain ⟨R, hR⟩ := hW.isBounded.exists_norm_le
  have bd : ∀ z ∈ S, ‖equalize (extOf n z.2)‖ ≤ R := by
    intro z hz
    obtain ⟨h1, h2, h3, h4, _, t, ht, h5⟩ := mem z hz
    exact hR _ (inW t ht z.1 h1 _ h5 [] _ rfl)
  have kp : ∀ z ∈ S, ∀ k, k < n → |(z.2.P.pos k).x| ≤ R ∧ |(z.2.P.pos k).y| ≤ R ∧ |(z.2.P.pos k).z| ≤ R := fun z hz k hk =>
    coord_le _ k hk ((norm_fst_le (equalize (extOf n z.2))).trans (bd z hz))
  have kv : ∀ z ∈ S, ∀ k, k < n → |(z.2.P.vel k).x| ≤ R ∧ |(z.2.P.vel k).y| ≤ R ∧ |(z.2.P.vel k).z| ≤ R := fun z hz k hk =>
    coord_le _ k hk ((norm_fst_le (equalize (extOf n z.2)).2).trans ((norm_snd_le _).trans (bd z hz)))
  have np : NearA n (fun _ _ => True) S (fun _ z => z.2.P.pos) (fun z => z.2.P.pos) := fun k hk =>
    ⟨.fixed (fun z : ℝ × Simple => (z.2.P.pos k).x) fun z hz => (kp z hz k hk).1, .fixed (fun z : ℝ × Simple => (z.2.P.pos k).y) fun z hz => (kp z hz k hk).2.1,
      .fixed (fun z : ℝ × Simple => (z.2.P.pos k).z) fun z hz => (kp z hz k hk).2.2⟩
  have nv : NearA n (fun _ _ => True) S (fun _ z => z.2.P.vel) (fun z => z.2.P.vel) := fun k hk =>
    ⟨.fixed (fun z : ℝ × Simple => (z.2.P.vel k).x) fun z hz => (kv z hz k hk).1, .fixed (fun z : ℝ × Simple => (z.2.P.vel k).y) fun z hz => (kv z hz k hk).2.1,
      .fixed (fun z : ℝ × Simple => (z.2.P.vel k).z) fun z hz => (kv z hz k hk).2.2⟩
  have start : NearX n (fun _ _ => True) S (fun _ z => { z.2 with aux := z.2.P.vel }) (fun z => { z.2 with aux := z.2.P.vel }) :=
    ⟨⟨⟨fun _ z hz => (mem z hz).2.1, fun z hz => (mem z hz).2.1,
      fun k hk => .fixed (fun z : ℝ × Simple => z.2.P.mass k) (B := |m k|) fun z hz => by rw [(mem z hz).2.2.1 k hk], np, nv⟩,
      .fixed (fun z : ℝ × Simple => z.2.time) (B := B) fun z hz => (mem z hz).2.2.2.1⟩, nv⟩
  have apart : ∀ pre suf, stages = pre ++ suf → Apart n S (fun z => (stagesX .exact G c fs pre z.1 { z.2 with aux := z.2.P.vel }).P) := by
    intro pre suf e i j hij hj
    have hi : i < n := by omega
    have cont : Continuous (fun z : Ext n => sq (ve (z.1 ⟨j, hj⟩) - ve (z.1 ⟨i, hi⟩))) := by
      unfold sq ve
      simp only [V3.sub_x, V3.sub_y, V3.sub_z]
      fun_prop
    obtain ⟨b, hb, key⟩ := hW.exists_forall_le' (f := fun z : Ext n => sq (ve (z.1 ⟨j, hj⟩) - ve (z.1 ⟨i, hi⟩))) cont.continuousOn (a := 0) fun z hz => by
      have := dot_pos (sub_ne_zero.2 (hWU hz ⟨j, hj⟩ ⟨i, hi⟩ (fun h => by have := congrArg Fin.val h; simp at this; omega)))
      exact this
    refine ⟨b, hb, fun z hz => ?_⟩
    obtain ⟨h1, h2, h3, h4, h6, t, ht, h5⟩ := mem z hz
    have := key _ (inW t ht z.1 h1 _ h5 (pre.flatMap split) (suf.flatMap split) (by rw [e, List.flatMap_append]))
    rw [show equalize (extOf n z.2) = extOf n { z.2 with aux := z.2.P.vel } from rfl,
      ← stagesX_point G c hf z.1 pre { z.2 with aux := z.2.P.vel } h2 h3 h6] at this
    exact this
  have hd : Near (fun _ _ => True) S (fun _ z => z.1) (fun z => z.1) := .fixed (fun z : ℝ × Simple => z.1) (B := ρ) fun z hz => by
    rw [abs_of_nonneg (mem z hz).1.1]; exact (mem z hz).1.2
  have fin := NearX.stages G hc fs hd stages (fun _ z => { z.2 with aux := z.2.P.vel }) (fun z => { z.2 with aux := z.2.P.vel }) start apart
  obtain ⟨C1, u1, hC1, p1, k1⟩ := fin.sys.P.pos.uniform n
  obtain ⟨C2, u2, hC2, p2, k2⟩ := fin.sys.P.vel.uniform n
  obtain ⟨C4, u4, hC4, p4, k4⟩ := fin.aux.uniform n
  obtain ⟨_, C3, u3, _, hC3, p3, _, _, k3⟩ := fin.sys.time
  refine ⟨C1 + (C2 + (C3 + C4)), min (min u1 u4) (min u2 u3), by positivity, lt_min (lt_min p1 p4) (lt_min p2 p3), fun A u hA hu hle z hz => ?_⟩
  have hz' : z ∈ S := by rw [hS]; exact hz
  obtain ⟨h1, h2, h3, h4, h6, _⟩ := mem z hz'
  have l1 := hle.trans ((min_le_left _ _).trans (min_le_left _ _))
  have l4 := hle.trans ((min_le_left _ _).trans (min_le_right _ _))
  have l2 := (hle.trans (min_le_right _ _)).trans (min_le_left _ _)
  have l3 := (hle.trans (min_le_right _ _)).trans (min_le_right _ _)
  have w1 : C1 * u ≤ (C1 + (C2 + (C3 + C4))) * u := mul_le_mul_of_nonneg_right (by linarith) hu
  have w2 : C2 * u ≤ (C1 + (C2 + (C3 + C4))) * u := mul_le_mul_of_nonneg_right (by linarith) hu
  have w3 : C3 * u ≤ (C1 + (C2 + (C3 + C4))) * u := mul_le_mul_of_nonneg_right (by linarith) hu
  have w4 : C4 * u ≤ (C1 + (C2 + (C3 + C4))) * u := mul_le_mul_of_nonneg_right (by linarith) hu
  constructor
  · rw [show equalize (extOf n z.2) = extOf n { z.2 with aux := z.2.P.vel } from rfl,
      ← stagesX_point G c hf z.1 stages { z.2 with aux := z.2.P.vel } h2 h3 h6]
    exact norm_prod_le_iff.2 ⟨(le_coord _ _ (by positivity) (k1 A u hA hu l1 z hz' trivial)).trans w1,
      norm_prod_le_iff.2 ⟨(le_coord _ _ (by positivity) (k2 A u hA hu l2 z hz' trivial)).trans w2, (le_coord _ _ (by positivity) (k4 A u hA hu l4 z hz' trivial)).trans w4⟩⟩
  · rw [← (stagesX_keeps A G c fs z.1 stages { z.2 with aux := z.2.P.vel }).2.2]
    exact (k3 A u hA hu l3 z hz' trivial).trans w3

/-! ### the property -/

theorem stepX_sync (A : Arith) (G c : ℝ) (fs : List Term) (stages : List Stage) (h : ℝ) (s : Simple) : (stepX A G c fs stages h s).sync = s.sync := by
  have key : ∀ (l : List Stage) (s : Simple), (stagesX A G c fs l h s).sync = s.sync := by
    intro l
    induction l with
    | nil => exact fun _ => rfl
    | cons q l ih => exact fun s => (ih (stageX A G c fs h q s)).trans (stageX_sync A G c fs h q s)
  exact key stages _

theorem two_of {n : Nat} (z : Ext n) (a b : Conf n) (e : ℝ) (h : ‖z - (a, b, b)‖ ≤ e) : ‖(z.1, z.2.1) - (a, b)‖ ≤ e :=
  norm_prod_le_iff.2 ⟨(norm_fst_le (z - (a, b, b))).trans h, ((norm_fst_le (z - (a, b, b)).2).trans (norm_snd_le (z - (a, b, b)))).trans h⟩

/-- **C121.** Particles move from `t0` to `t1` under gravity and post-Newtonian corrections of the orders 1 and 2.5, without colliding.  A plain system is
integrated from a state that is within `e` of theirs, with an integrator of the order `p` (up to a deviation `δ` of its coefficients) and steps of at most
`hm`, in an arithmetic whose operations have the relative error `u`.  Then at every time up to `t1` every position and velocity is off by at most
`K (hm ^ p + δ + e + N u)`, `N` the number of steps so far, and the clock is off by at most `K N u`; provided that `hm`, `δ`, `e`, `u` and `N u` are small
enough. -/
theorem C121_rounded {G c : ℝ} (hc : c ≠ 0) {fs : List Term} (hf : fs ≠ []) {n : Nat} {m : Nat → ℝ} {x v : ℝ → Nat → V3 ℝ} {t0 t1 : ℝ} (ht : t0 ≤ t1)
    (M : ForcedMotion n (withExtras G c n m (fs.map Term.extra)) x v t0 t1)
    (apart : ∀ t ∈ Set.Icc t0 t1, ∀ i j, i < n → j < n → i ≠ j → x t i ≠ x t j) (p : Nat) (hp : 1 ≤ p) (stages : List Stage) :
    ∃ K ρ : ℝ, 0 ≤ K ∧ 0 < ρ ∧ ∀ A u, Accurate A u → 0 ≤ u → u ≤ ρ → ∀ e P, 0 ≤ e → e ≤ ρ → WithinOf n m x v t0 e P →
      ∀ hm δ, 0 ≤ hm → hm ≤ ρ → 0 ≤ δ → δ ≤ ρ →
      (∀ w : List Move, 1 ≤ w.length → w.length ≤ p → |(Letters.deviation (stages.flatMap split) w : ℝ)| * hm ^ (w.length - 1) ≤ δ) →
      ∀ hs : List ℝ, (∀ h ∈ hs, 0 ≤ h ∧ h ≤ hm) → t0 + hs.sum ≤ t1 → hs.length * u ≤ ρ →
        |(runX A G c fs stages hs (Simple.init t0 P)).time - (t0 + sumDrift stages * hs.sum)| ≤ K * (hs.length * u) ∧
        WithinOf n m x v (t0 + hs.sum) (K * (hm ^ p + δ + e + hs.length * u)) (runX A G c fs stages hs (Simple.init t0 P)).P := by
  obtain ⟨U, hU, hsm, hin⟩ := smooth_along G c n m (fs.map Term.extra) (x := x) (v := v) (t0 := t0) (t1 := t1) apart (by
    intro e he
    obtain ⟨t, _, rfl⟩ := List.mem_map.1 he
    cases t <;> simp [Term.extra, Extra.Away])
  have mem : ∀ t ∈ Set.Icc 0 (t1 - t0), t0 + t ∈ Set.Icc t0 t1 := fun t ht => ⟨by linarith [ht.1], by linarith [ht.2]⟩
  have hfree : ∀ t ∈ Set.Icc 0 (t1 - t0), conf n (x (t0 + t)) ∈ free n := by
    intro t ht i j hij h
    exact apart _ (mem t ht) i j i.2 j.2 (fun e => hij (Fin.ext e)) (congrArg ve h)
  obtain ⟨c', hco⟩ : ∃ c' : ℝ, ∀ s ∈ stages.flatMap split, |((s.2 : ℚ) : ℝ)| ≤ c' := by
    obtain ⟨c', hc⟩ := (List.finite_toSet (stages.flatMap split) |>.image fun s => |((s.2 : ℚ) : ℝ)|).bddAbove
    exact ⟨c', fun s hs => hc ⟨s, hs, rfl⟩⟩
  obtain ⟨y, hy⟩ : ∃ y : ℝ → Ext n, y = fun t => (conf n (x (t0 + t)), conf n (v (t0 + t)), conf n (v (t0 + t))) := ⟨_, rfl⟩
  have ey : ∀ t, equalize (y t) = y t := fun t => by rw [hy]; rfl
  have eq_dist : ∀ (z : Ext n) (t : ℝ), ‖equalize z - y t‖ ≤ ‖z - y t‖ := fun z t => by
    have := equalize_norm z (y t)
    rwa [ey] at this
  obtain ⟨T, hT⟩ : ∃ T, T = t1 - t0 := ⟨_, rfl⟩
  rw [← hT] at mem hfree
  have hT0 : 0 ≤ T := by linarith
  have cx : Continuous (fun z : Ext n => (z.1, z.2.1)) := by fun_prop
  have cw : Continuous (fun z : Ext n => (z.1, z.2.2)) := by fun_prop
  obtain ⟨r, C, L, ρ1, W, hr, hC, hL, hρ1, hρ11, cW, hWU, key⟩ := Letters.order_parts (f := moveF (field G c n m fs))
    (U := ((fun z : Ext n => (z.1, z.2.1)) ⁻¹' U ∩ (fun z : Ext n => (z.1, z.2.2)) ⁻¹' U) ∩ Prod.fst ⁻¹' free n)
    (((hU.preimage cx).inter (hU.preimage cw)).inter ((free_open n).preimage continuous_fst)) (by
      intro X
      cases X with
      | drift => exact (contDiff_snd.fst.prodMk contDiff_const).contDiffOn
      | real =>
        refine contDiffOn_const.prodMk (ContDiffOn.prodMk ?_ contDiffOn_const)
        exact hsm.comp (f := fun z : Ext n => (z.1, z.2.2)) (contDiff_fst.prodMk contDiff_snd.snd).contDiffOn fun z hz => hz.1.2
      | pseudo =>
        refine contDiffOn_const.prodMk (ContDiffOn.prodMk contDiffOn_const ?_)
        exact hsm.comp (f := fun z : Ext n => (z.1, z.2.1)) (contDiff_fst.prodMk contDiff_snd.fst).contDiffOn fun z hz => hz.1.1)
    (move_straight _) (T := T) (y := y) (fun t ht => by
      obtain ⟨d1, d2⟩ := forced_curve M (by rw [← hT]; exact ht)
      rw [← hT] at d1 d2
      rw [hy]
      refine (d1.prodMk (d2.prodMk d2)).congr_deriv ?_
      rw [show (Finset.univ : Finset Move) = {.drift, .real, .pseudo} from rfl, Finset.sum_insert (by decide), Finset.sum_insert (by decide), Finset.sum_singleton]
      simp [moveF]) (fun t ht => by rw [hy]; exact ⟨⟨hin _ (mem t ht), hin _ (mem t ht)⟩, hfree t ht⟩) p (stages.flatMap split).length c'
  obtain ⟨stab, inW, loc⟩ := key (stages.flatMap split) le_rfl hco
  set σ : ℝ := (sumDrift stages : ℝ) with hσ
  obtain ⟨D, u0, hD, hu0, rnd⟩ := near_stepX (G := G) (B := |t0| + |σ| * T + 1) hc hf cW (fun z hz => (hWU hz).2) inW
  obtain ⟨X, hX⟩ : ∃ X, X = Real.exp (L * T) := ⟨_, rfl⟩
  have hX0 : 0 < X := by rw [hX]; exact Real.exp_pos _
  set Q := X * (1 + 2 * (T * C) + D) with hQ
  have hQ0 : 0 ≤ Q := by positivity
  refine ⟨2 * (X * (1 + T * C + D)) + D, min (min ρ1 u0) (min (r / (Q + 1)) (1 / (D + 1))), by positivity,
    lt_min (lt_min hρ1 hu0) (lt_min (by positivity) (by positivity)), fun A u hA hu huρ e P he heρ S hm δ hm0 hmρ hδ0 hδρ hdev hs hhs hsum hN => ?_⟩
  have q1 : min (min ρ1 u0) (min (r / (Q + 1)) (1 / (D + 1))) ≤ ρ1 := (min_le_left _ _).trans (min_le_left _ _)
  have q2 : min (min ρ1 u0) (min (r / (Q + 1)) (1 / (D + 1))) ≤ u0 := (min_le_left _ _).trans (min_le_right _ _)
  have q3 : min (min ρ1 u0) (min (r / (Q + 1)) (1 / (D + 1))) ≤ r / (Q + 1) := (min_le_right _ _).trans (min_le_left _ _)
  have q4 : min (min ρ1 u0) (min (r / (Q + 1)) (1 / (D + 1))) ≤ 1 / (D + 1) := (min_le_right _ _).trans (min_le_right _ _)
  have hm1 : hm ≤ 1 := hmρ.trans (q1.trans hρ11)
  have hmp : hm ^ p ≤ hm := pow_le_of_le_one hm0 hm1 (by omega)
  have hmp0 : 0 ≤ hm ^ p := by positivity
  have hNu : 0 ≤ hs.length * u := by positivity
  have clk : hs.length * (D * u) ≤ 1 := by
    have h1 := hN.trans q4
    rw [le_div_iff₀ (by positivity)] at h1
    linarith [show hs.length * (D * u) = hs.length * u * (D + 1) - hs.length * u by ring]
  have small : X * (e + T * (C * (hm ^ p + δ)) + hs.length * (D * u)) ≤ r := by
    have a1 : e ≤ r / (Q + 1) := heρ.trans q3
    have a2 : hm ^ p ≤ r / (Q + 1) := hmp.trans (hmρ.trans q3)
    have a3 : δ ≤ r / (Q + 1) := hδρ.trans q3
    have a4 : hs.length * u ≤ r / (Q + 1) := hN.trans q3
    have a5 : Q * (r / (Q + 1)) ≤ r := by
      rw [mul_div_assoc', div_le_iff₀ (by positivity)]
      linarith [show r * (Q + 1) = Q * r + r by ring]
    calc X * (e + T * (C * (hm ^ p + δ)) + hs.length * (D * u)) = X * (e + T * C * (hm ^ p + δ) + D * (hs.length * u)) := by ring
      _ ≤ X * (r / (Q + 1) + T * C * (r / (Q + 1) + r / (Q + 1)) + D * (r / (Q + 1))) := by gcongr
      _ = Q * (r / (Q + 1)) := by rw [hQ]; ring
      _ ≤ r := a5
  have g := global_perturbed (Φ := fun h z => Letters.wstep (moveF (field G c n m fs)) (stages.flatMap split) h (equalize z)) (Ψ := fun h s => stepX A G c fs stages h s) (ζ := extOf n)
    (I := fun t k s => s.P.num = n ∧ (∀ k, k < n → s.P.mass k = m k) ∧ s.sync = false ∧ |s.time - (t0 + σ * t)| ≤ k * (D * u)) (y := y) (T := T) (r := r) (M := L) (hm := hm)
    (ε := C * (hm ^ p + δ)) (ε1 := C * (hm ^ p + δ)) (κ := 0) (η := D * u) (e := e) (N := hs.length) hL (by positivity) (by rw [add_zero])
    (by positivity) he
    (fun t ht h hh z hz => by
      have h1 : ‖equalize z - y t‖ ≤ ‖z - y t‖ := eq_dist z t
      show ‖Letters.wstep _ _ h (equalize z) - Letters.wstep _ _ h (equalize (y t))‖ ≤ _
      rw [ey]
      exact (stab t ht h ⟨hh.1, hh.2.trans (hmρ.trans q1)⟩ (equalize z) (h1.trans hz)).trans (mul_le_mul_of_nonneg_left h1 (Real.exp_pos _).le))
    (fun t h ht h0 hh hT => by
      have := loc hm δ hm0 (hmρ.trans q1) hδ0 hdev t h ht h0 hh hT
      show ‖Letters.wstep _ _ h (equalize (y t)) - _‖ ≤ _
      rwa [ey])
    (fun t h k s ht0 h0 hh htT hk ⟨i1, i2, i4, i3⟩ hz => by
      have hkN : (k : ℝ) ≤ hs.length := by exact_mod_cast (by omega : k ≤ hs.length)
      have ht' : t ∈ Set.Icc 0 T := ⟨ht0, by linarith⟩
      have bd : |s.time| ≤ |t0| + |σ| * T + 1 := by
        have b1 : |s.time| ≤ |s.time - (t0 + σ * t)| + (|t0| + |σ * t|) := by
          have := abs_add_le (s.time - (t0 + σ * t)) (t0 + σ * t)
          rw [sub_add_cancel] at this
          exact this.trans (add_le_add_right (abs_add_le _ _) _)
        have b2 : |σ * t| ≤ |σ| * T := by
          rw [abs_mul, abs_of_nonneg ht0]
          exact mul_le_mul_of_nonneg_left ht'.2 (abs_nonneg _)
        have b3 : k * (D * u) ≤ hs.length * (D * u) := mul_le_mul_of_nonneg_right hkN (by positivity)
        linarith
      obtain ⟨j1, j2⟩ := rnd A u hA hu (huρ.trans q2) (h, s) ⟨⟨h0, hh.trans (hmρ.trans q1)⟩, i1, i2, bd, i4, t, ht', (eq_dist _ t).trans hz⟩
      obtain ⟨k1, k2, _⟩ := stagesX_keeps A G c fs h stages { s with aux := s.P.vel }
      refine ⟨⟨k1.trans i1, fun k hk => (congrFun k2 k).trans (i2 k hk), (stepX_sync A G c fs stages h s).trans i4, ?_⟩, by rw [mul_zero, zero_add]; exact j1⟩
      have b4 := abs_add_le ((stepX A G c fs stages h s).time - (s.time + σ * h)) (s.time - (t0 + σ * t))
      rw [show (stepX A G c fs stages h s).time - (s.time + σ * h) + (s.time - (t0 + σ * t)) = (stepX A G c fs stages h s).time - (t0 + σ * (t + h)) by ring] at b4
      have b5 : |(stepX A G c fs stages h s).time - (s.time + σ * h)| ≤ D * u := j2
      push_cast
      linarith)
    (by rw [← hX]; exact small) hs 0 0 (Simple.init t0 P) hhs le_rfl (by linarith) (by omega) ⟨S.num, S.mass, rfl, by simp [Simple.init]⟩ (by
      have h1 : ‖extOf n (Simple.init t0 P) - y 0‖ ≤ e := by
        rw [hy]
        show ‖(conf n P.pos - conf n (x (t0 + 0)), conf n P.vel - conf n (v (t0 + 0)), conf n P.vel - conf n (v (t0 + 0)))‖ ≤ e
        rw [add_zero]
        have f : ∀ a b : Nat → V3 ℝ, (∀ k, k < n → len (a k - b k) ≤ e) → ‖conf n a - conf n b‖ ≤ e := fun a b hab =>
          le_coord a b he fun k hk => ⟨((norm_le_len (a k - b k)).1).trans (hab k hk), ((norm_le_len (a k - b k)).2.1).trans (hab k hk),
            ((norm_le_len (a k - b k)).2.2).trans (hab k hk)⟩
        exact norm_prod_le_iff.2 ⟨f _ _ S.pos, norm_prod_le_iff.2 ⟨f _ _ S.vel, f _ _ S.vel⟩⟩
      simpa using h1)
  rw [zero_add, zero_add] at g
  obtain ⟨⟨g1, g2, _, g3⟩, g4⟩ := g
  rw [hy] at g4
  replace g4 := two_of _ _ _ _ g4
  have hs0 : 0 ≤ hs.sum := List.sum_nonneg fun h hh => (hhs h hh).1
  have hsT : hs.sum ≤ T := by linarith
  constructor
  · refine (show _ ≤ _ from g3).trans ?_
    rw [show hs.length * (D * u) = D * (hs.length * u) by ring]
    exact mul_le_mul_of_nonneg_right (by linarith [show 0 ≤ 2 * (X * (1 + T * C + D)) by positivity]) hNu
  · have W := within_of (x := x) (v := v) (t := t0 + hs.sum) g1 g2 g4
    have le : 2 * (Real.exp (L * hs.sum) * (e + hs.sum * (C * (hm ^ p + δ)) + hs.length * (D * u))) ≤
        (2 * (X * (1 + T * C + D)) + D) * (hm ^ p + δ + e + hs.length * u) := by
      have e1 : Real.exp (L * hs.sum) ≤ X := by rw [hX]; exact Real.exp_le_exp.2 (mul_le_mul_of_nonneg_left hsT hL)
      have e2 : e + hs.sum * (C * (hm ^ p + δ)) + hs.length * (D * u) ≤ (1 + T * C + D) * (hm ^ p + δ + e + hs.length * u) := by
        have p1 : hs.sum * (C * (hm ^ p + δ)) ≤ T * (C * (hm ^ p + δ)) := mul_le_mul_of_nonneg_right hsT (by positivity)
        have p2 : 0 ≤ 1 * (hm ^ p + δ + hs.length * u) := by positivity
        have p3 : 0 ≤ T * C * (e + hs.length * u) := by positivity
        have p4 : 0 ≤ D * (hm ^ p + δ + e) := by positivity
        linarith [show (1 + T * C + D) * (hm ^ p + δ + e + hs.length * u) = e + T * (C * (hm ^ p + δ)) + hs.length * (D * u) + 1 * (hm ^ p + δ + hs.length * u) +
          T * C * (e + hs.length * u) + D * (hm ^ p + δ + e) by ring]
      have e3 : Real.exp (L * hs.sum) * (e + hs.sum * (C * (hm ^ p + δ)) + hs.length * (D * u)) ≤ X * ((1 + T * C + D) * (hm ^ p + δ + e + hs.length * u)) :=
        mul_le_mul e1 e2 (by positivity) hX0.le
      have e4 : 0 ≤ D * (hm ^ p + δ + e + hs.length * u) := by positivity
      linarith [show (2 * (X * (1 + T * C + D)) + D) * (hm ^ p + δ + e + hs.length * u) = 2 * (X * ((1 + T * C + D) * (hm ^ p + δ + e + hs.length * u))) +
        D * (hm ^ p + δ + e + hs.length * u) by ring]
    exact ⟨W.num, W.mass, fun k hk => (W.pos k hk).trans le, fun k hk => (W.vel k hk).trans le⟩

/-- **C121, the integrators of the library** in rounded arithmetic with `b` bits: off by at most `K (hm ^ q + 1e-12 + N / 2 ^ b)`, `q` the order of the
integrator (for `Symplectic10th` it is 4, see C54), if `1e-12` and `N / 2 ^ b` are small for the motion. -/
theorem C121_integrators {G c : ℝ} (hc : c ≠ 0) {fs : List Term} (hf : fs ≠ []) {n : Nat} {m : Nat → ℝ} {x v : ℝ → Nat → V3 ℝ} {t0 t1 : ℝ} (ht : t0 ≤ t1)
    (M : ForcedMotion n (withExtras G c n m (fs.map Term.extra)) x v t0 t1)
    (apart : ∀ t ∈ Set.Icc t0 t1, ∀ i j, i < n → j < n → i ≠ j → x t i ≠ x t j) (q : List Stage × Nat) (hq : q ∈ nominal) :
    ∃ K ρ : ℝ, 0 ≤ K ∧ 0 < ρ ∧ ((1e-12 : ℝ) ≤ ρ → ∀ (b : Nat) (rnd : ℝ → ℝ), 1 ≤ b → Nearest b rnd → (1 : ℝ) / 2 ^ b ≤ ρ → ∀ P, InState n m x v t0 P →
      ∀ hm, 0 ≤ hm → hm ≤ ρ → ∀ hs : List ℝ, (∀ h ∈ hs, 0 ≤ h ∧ h ≤ hm) → t0 + hs.sum ≤ t1 → hs.length * (1 / 2 ^ b : ℝ) ≤ ρ →
        WithinOf n m x v (t0 + hs.sum) (K * (hm ^ q.2 + 1e-12 + hs.length * (1 / 2 ^ b))) (runX (ieee rnd) G c fs q.1 hs (Simple.init t0 P)).P) := by
  have q1 : 1 ≤ q.2 := by
    simp only [nominal, List.mem_cons, List.not_mem_nil, or_false] at hq
    rcases hq with rfl | rfl | rfl | rfl | rfl | rfl <;> norm_num
  obtain ⟨K, ρ, hK, hρ, H⟩ := C121_rounded hc hf ht M apart q.2 q1 q.1
  refine ⟨K, min ρ 1, hK, lt_min hρ one_pos, fun h12 b rnd hb N hbρ P S hm hm0 hmρ hs hhs hsum hN => ?_⟩
  have l := min_le_left ρ 1
  have hm1 : hm ≤ 1 := hmρ.trans (min_le_right _ _)
  have W0 : WithinOf n m x v t0 0 P := ⟨S.num, S.mass, fun k hk => by rw [S.pos k hk]; simp [len, dot], fun k hk => by rw [S.vel k hk]; simp [len, dot]⟩
  have R := (H (ieee rnd) _ (C113_nearest hb N) (by positivity) (hbρ.trans l) 0 P le_rfl hρ.le W0 hm 1e-12 hm0 (hmρ.trans l) (by norm_num) (h12.trans l)
    (fun w _ hw => by
      have h1 := C100_conditions.1 q hq w hw
      have h2 : |(Letters.deviation (q.1.flatMap split) w : ℝ)| ≤ 1e-12 := by
        have : ((|Letters.deviation (q.1.flatMap split) w| : ℚ) : ℝ) ≤ ((1e-12 : ℚ) : ℝ) := by exact_mod_cast h1
        rw [Rat.cast_abs] at this
        exact this.trans (by norm_num)
      have h3 : hm ^ (w.length - 1) ≤ 1 := pow_le_one₀ hm0 hm1
      calc |(Letters.deviation (q.1.flatMap split) w : ℝ)| * hm ^ (w.length - 1) ≤ 1e-12 * 1 := mul_le_mul h2 h3 (by positivity) (by norm_num)
        _ = 1e-12 := mul_one _) hs hhs hsum (hN.trans l)).2
  rwa [add_zero] at R

/-- **C121, the leap-frogs** with a constant step `h` in rounded arithmetic with `b` bits: off by at most `K (h² + 1 / (2 ^ b h))`. -/
theorem C121_leapfrogs {G c : ℝ} (hc : c ≠ 0) {fs : List Term} (hf : fs ≠ []) {n : Nat} {m : Nat → ℝ} {x v : ℝ → Nat → V3 ℝ} {t0 t1 : ℝ} (ht : t0 ≤ t1)
    (M : ForcedMotion n (withExtras G c n m (fs.map Term.extra)) x v t0 t1)
    (apart : ∀ t ∈ Set.Icc t0 t1, ∀ i j, i < n → j < n → i ≠ j → x t i ≠ x t j) (stages : List Stage) (hst : stages = symplectic2nd ∨ stages = leapFrogKDK) :
    ∃ K ρ : ℝ, 0 ≤ K ∧ 0 < ρ ∧ ∀ (b : Nat) (rnd : ℝ → ℝ), 1 ≤ b → Nearest b rnd → ∀ P, InState n m x v t0 P → ∀ h, 0 < h → h ≤ ρ → (1 : ℝ) / 2 ^ b ≤ ρ * h →
      ∀ N : Nat, t0 + N * h ≤ t1 →
        WithinOf n m x v (t0 + N * h) (K * (h ^ 2 + 1 / 2 ^ b / h)) (runX (ieee rnd) G c fs stages (List.replicate N h) (Simple.init t0 P)).P := by
  obtain ⟨K, ρ, hK, hρ, H⟩ := C121_rounded hc hf ht M apart 2 (by norm_num) stages
  have hT : 0 < t1 - t0 + 1 := by linarith
  have hq : 0 < ρ / (t1 - t0 + 1) := by positivity
  refine ⟨K * (t1 - t0 + 1), min 1 (min ρ (ρ / (t1 - t0 + 1))), by positivity, lt_min one_pos (lt_min hρ hq), fun b rnd hb N P S h h0 hρh hbh k hk => ?_⟩
  have h1 : h ≤ 1 := hρh.trans (min_le_left _ _)
  have h2 : h ≤ ρ := hρh.trans ((min_le_right _ _).trans (min_le_left _ _))
  have h3 : min 1 (min ρ (ρ / (t1 - t0 + 1))) ≤ ρ / (t1 - t0 + 1) := (min_le_right _ _).trans (min_le_right _ _)
  have h4 : min 1 (min ρ (ρ / (t1 - t0 + 1))) ≤ ρ := (min_le_right _ _).trans (min_le_left _ _)
  have W0 : WithinOf n m x v t0 0 P := ⟨S.num, S.mass, fun k hk => by rw [S.pos k hk]; simp [len, dot], fun k hk => by rw [S.vel k hk]; simp [len, dot]⟩
  set u : ℝ := 1 / 2 ^ b with hu
  have u0 : 0 ≤ u := by positivity
  have ku : k * u ≤ (t1 - t0) * (u / h) := by
    rw [show (t1 - t0) * (u / h) = (t1 - t0) * u / h by ring, le_div_iff₀ h0]
    have := mul_le_mul_of_nonneg_right (show k * h ≤ t1 - t0 by linarith) u0
    linarith
  have uh : u / h ≤ ρ / (t1 - t0 + 1) := by
    rw [div_le_iff₀ h0]
    exact hbh.trans (mul_le_mul_of_nonneg_right h3 h0.le)
  have kρ : k * u ≤ ρ := by
    refine ku.trans ?_
    rw [le_div_iff₀ hT] at uh
    have : 0 ≤ u / h := by positivity
    linarith [show u / h * (t1 - t0 + 1) = (t1 - t0) * (u / h) + u / h by ring]
  have uρ : u ≤ ρ := hbh.trans ((mul_le_mul h4 h1 h0.le hρ.le).trans (by rw [mul_one]))
  have R := (H (ieee rnd) u (C113_nearest hb N) u0 uρ 0 P le_rfl hρ.le W0 h 0 h0.le h2 le_rfl hρ.le (fun w _ hw => by
      rw [C100_conditions.2.1 stages (by rcases hst with rfl | rfl <;> simp) w hw]
      simp) (List.replicate k h) (fun h' hh' => by rw [(List.mem_replicate.1 hh').2]; exact ⟨h0.le, le_rfl⟩)
      (by rw [List.sum_replicate, nsmul_eq_mul]; exact hk) (by rw [List.length_replicate]; exact kρ)).2
  rw [List.sum_replicate, nsmul_eq_mul, List.length_replicate, add_zero, add_zero] at R
  have le : K * (h ^ 2 + k * u) ≤ K * (t1 - t0 + 1) * (h ^ 2 + u / h) := by
    rw [mul_assoc]
    refine mul_le_mul_of_nonneg_left ?_ hK
    have p1 : 0 ≤ (t1 - t0) * h ^ 2 := mul_nonneg (by linarith) (by positivity)
    have p2 : 0 ≤ u / h := by positivity
    linarith [show (t1 - t0 + 1) * (h ^ 2 + u / h) = h ^ 2 + (t1 - t0) * h ^ 2 + (t1 - t0) * (u / h) + u / h by ring]
  exact ⟨R.num, R.mass, fun k hk => (R.pos k hk).trans le, fun k hk => (R.vel k hk).trans le⟩

/-- Non-vacuity: two bodies on the circle of `circle_pn1` meet the hypotheses. -/
example (t0 t1 : ℝ) (ht : t0 ≤ t1) : ∃ K ρ : ℝ, 0 ≤ K ∧ 0 < ρ ∧ ∀ (b : Nat) (rnd : ℝ → ℝ), 1 ≤ b → Nearest b rnd → ∀ P, InState 2 (fun _ => 1) circlePos circleVel t0 P →
    ∀ h, 0 < h → h ≤ ρ → (1 : ℝ) / 2 ^ b ≤ ρ * h → ∀ N : Nat, t0 + N * h ≤ t1 →
      WithinOf 2 (fun _ => 1) circlePos circleVel (t0 + N * h) (K * (h ^ 2 + 1 / 2 ^ b / h))
        (runX (ieee rnd) 1 (Real.sqrt (29 / 2)) [.pn1] leapFrogKDK (List.replicate N h) (Simple.init t0 P)).P :=
  C121_leapfrogs (Real.sqrt_ne_zero'.2 (by norm_num)) (by simp) ht (circle_pn1 t0 t1) (circle_motion t0 t1).apart leapFrogKDK (.inr rfl)

end SpaceHub.Rounded
