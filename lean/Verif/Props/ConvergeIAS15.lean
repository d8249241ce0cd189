import Verif.Proof.RadauCourse
import Verif.Props.RadauConserve
import Verif.Props.ConvergeOrder

/-
C98: the order of IAS15.
-/

set_option autoImplicit false

namespace SpaceHub.Sys
open SpaceHub V3 Force Core Integrator Spec Props Finset Converge Radau BS
open scoped ContDiff

/-- positions and velocities in the array of variables -/
noncomputable def readL (n : Nat) : (Nat → ℝ) →ₗ[ℝ] Conf n × Conf n where
  toFun := fun f => (fun k => (f (1 + (3 * k + 0)), f (1 + (3 * k + 1)), f (1 + (3 * k + 2))),
    fun k => (f (1 + 3 * n + (3 * k + 0)), f (1 + 3 * n + (3 * k + 1)), f (1 + 3 * n + (3 * k + 2))))
  map_add' _ _ := rfl
  map_smul' _ _ := rfl

theorem readL_flat (dep : Bool) (f : Flat) (A : Nat → ℝ) (hA : ∀ v, A v = f.val dep v) : readL f.n A = (conf f.n f.x, conf f.n f.v) := by
  refine Prod.ext (funext fun k => ?_) (funext fun k => ?_)
  · show (A _, A _, A _) = _
    rw [hA, hA, hA, posEntry dep f k 0 k.2 (by norm_num), posEntry dep f k 1 k.2 (by norm_num), posEntry dep f k 2 k.2 (by norm_num)]
    rfl
  · show (A _, A _, A _) = _
    rw [hA, hA, hA, velEntry dep f k 0 k.2 (by norm_num), velEntry dep f k 1 k.2 (by norm_num), velEntry dep f k 2 k.2 (by norm_num)]
    rfl

theorem readL_local (n N : Nat) (hN : 1 + 6 * n ≤ N) : LocalE N (readL n) := by
  intro f g h
  refine Prod.ext (funext fun k => ?_) (funext fun k => ?_)
  · show (f _, f _, f _) = (g _, g _, g _)
    have := k.2
    rw [h _ (by omega), h _ (by omega), h _ (by omega)]
  · show (f _, f _, f _) = (g _, g _, g _)
    have := k.2
    rw [h _ (by omega), h _ (by omega), h _ (by omega)]

/-- the field of the motion -/
noncomputable def newtonF (n : Nat) (m : Nat → ℝ) (z : Conf n × Conf n) : Conf n × Conf n := (z.2, grav n m z.1)

theorem newtonF_smooth (n : Nat) (m : Nat → ℝ) : ContDiffOn ℝ ∞ (newtonF n m) (Prod.fst ⁻¹' free n) :=
  contDiffOn_snd.prodMk ((grav_smooth n m).comp contDiffOn_fst fun _ h => h)

/-- `n` particles with masses `m` -/
def FrameOf (n : Nat) (m : Nat → ℝ) (s : Simple) : Prop := s.P.num = n ∧ ∀ k, k < n → s.P.mass k = m k

theorem FrameOf.of {n : Nat} {m : Nat → ℝ} {s s' : Simple} (h : FrameOf n m s) (f : Simple.Frame s s') : FrameOf n m s' :=
  ⟨f.1.trans h.1, fun k hk => by rw [f.2]; exact h.2 k hk⟩

theorem simple_written {n : Nat} {m : Nat → ℝ} {s : Simple} (h : FrameOf n m s) :
    readL n (GR.toArr ((radauSimple gravity).write s)) = (conf n s.P.pos, conf n s.P.vel) := by
  obtain ⟨rfl, _⟩ := h
  exact readL_flat gravity.velDep s.flat _ (Simple.write_getD gravity s)

theorem simple_shadow (n : Nat) (m : Nat → ℝ) (W : Set (Conf n × Conf n)) :
    Shadow (radauSimple gravity) (FrameOf n m) (n * 3 * (2 + gravity.velDep.toNat) + 1) (readL n) (newtonF n m) W where
  loc := readL_local n _ (length_bound n gravity)
  read x y v hx e := ⟨hx.of (Simple.read_frame gravity x y v e).1, (Simple.read_frame gravity x y v e).2.2⟩
  keep x d hx e := by rw [← Res.ok.inj e]; exact hx
  field x d hx _ e := by
    rw [simple_written hx, ← Res.ok.inj e]
    have h := readL_flat gravity.velDep (Simple.slopeOf gravity x).flat (GR.toArr (x.derivative gravity)) (Simple.derivative_getD gravity x)
    have hn : (Simple.slopeOf gravity x).flat.n = n := hx.1
    rw [hn] at h
    show readL n (GR.toArr (x.derivative gravity)) = _
    rw [h]
    refine Prod.ext rfl (funext fun k => ?_)
    exact (grav_conf n m x.P hx.1 hx.2 k).symm

theorem simple_length {n : Nat} {m : Nat → ℝ} {s : Simple} (h : FrameOf n m s) :
    ((radauSimple gravity).write s).length = n * 3 * (2 + gravity.velDep.toNat) + 1 := by
  have : ((radauSimple gravity).write s).length = s.variableNumber gravity := C13_simple_size gravity s
  rw [this, ← h.1]; rfl

/-- What a call did: it made at least `k` corrections in the attempt that it accepted (see `C33_simple`). -/
def CorrectedTimes (k : Nat) (big H : ℝ) (it : IAS) (s s' : Simple) (it' : IAS) (h' : ℝ) : Prop :=
  ∃ m h q n g y E se, k ≤ n m + 1 ∧ AcceptedBy code (radauSimple gravity) big Simple.Frame (SameSimple gravity) H it s s' it' h' m h q n g y E se

theorem corrected_clock {k : Nat} {big H h' : ℝ} {it it' : IAS} {s s' : Simple} (hf : FlatFor timeL it.gr) (c : CorrectedTimes k big H it s s' it' h') :
    FlatFor timeL it'.gr ∧ StepBy code (radauSimple gravity) big Simple.Frame (SameSimple gravity) k H (s'.time - s.time) it s s' it' h' := by
  obtain ⟨m, h, q, n, g, y, E, se, hk, a⟩ := c
  have hlen : 0 < ((radauSimple gravity).write s).length := by
    show _ < (s.write gravity).length
    rw [C13_simple_size]; unfold Simple.variableNumber; omega
  obtain ⟨f1, f2⟩ := flat_by (ok := Simple.Frame s) (fun x hx => ⟨hx.2.1, hx.2.2.1⟩)
    (fun x y v hx e => ⟨hx.trans (Simple.read_frame gravity x y v e).1, (Simple.read_frame gravity x y v e).2.2⟩)
    (fun x d hx e => by rw [← Res.ok.inj e]; exact hx) (L := timeL) (κ := 1) (fun x d _ e => by
      rw [← Res.ok.inj e]
      exact timeL_flat gravity.velDep (Simple.slopeOf gravity x).flat _ (Simple.derivative_getD gravity x))
    (fun f g h => h 0 hlen) hf a
  have t1 := timeL_flat gravity.velDep s'.flat (GR.toArr ((radauSimple gravity).write s')) (Simple.write_getD gravity s')
  have t2 := timeL_flat gravity.velDep s.flat (GR.toArr ((radauSimple gravity).write s)) (Simple.write_getD gravity s)
  rw [t1, t2, one_mul] at f2
  refine ⟨f1, m, h, q, n, g, y, E, se, hk, ?_, a⟩
  show h m = s'.flat.time - s.flat.time
  linarith

/-- **C98.** Particles move from `t0` to `t1` under Newton's laws without colliding.  A plain system is integrated by IAS15 (with the tables of the program), call
after call, from the exact state at `t0`.  For every `k` from 1 to 14 there are constants such that, if the steps asked for are at most `h ≤ h0` and every call makes
at least `k` corrections in the attempt it accepts, then as long as the clock has not passed `t1` the particles are off the true ones by at most
`K (h ^ (k + 1) + 10⁻²⁶ h)`; the second term comes from the digits of the tables. -/
theorem C98_order {n : Nat} {m : Nat → ℝ} {x v : ℝ → Nat → V3 ℝ} {t0 t1 : ℝ} (ht : t0 ≤ t1) (M : NewtonMotion n m x v t0 t1) (k : Nat) (hk : 1 ≤ k) (hk14 : k ≤ 14) :
    ∃ K h0 : ℝ, 0 ≤ K ∧ 0 < h0 ∧ ∀ P, InState n m x v t0 P →
      ∀ (N : Nat) (s : Nat → Simple) (it : Nat → IAS) (big h : ℝ) (fuel : Nat → Nat) (H h' : Nat → ℝ), s 0 = Simple.init t0 P → it 0 = IAS.new big → 0 ≤ h → h ≤ h0 →
      (∀ i, i < N → 0 ≤ H i ∧ H i ≤ h ∧ Radau.iterate code (radauSimple gravity) big (fuel i) 0 (H i) (it i) (s i) = .ok (s (i + 1), it (i + 1), h' i) ∧
        CorrectedTimes k big (H i) (it i) (s i) (s (i + 1)) (it (i + 1)) (h' i)) →
      (s N).time ≤ t1 → t0 ≤ (s N).time ∧ WithinOf n m x v (s N).time (K * (h ^ (k + 1) + h / 10 ^ 26)) (s N).P := by
  obtain ⟨r, A, L, V, Q, T, hQ, hx⟩ := motion_tube M
  have mem : ∀ t ∈ Set.Icc 0 (t1 - t0), t0 + t ∈ Set.Icc t0 t1 := fun t ht => ⟨by linarith [ht.1], by linarith [ht.2]⟩
  have hfree : ∀ t ∈ Set.Icc 0 (t1 - t0), conf n (x (t0 + t)) ∈ free n := by
    intro t ht i j hij h
    exact M.apart _ (mem t ht) i j i.2 j.2 (fun e => hij (Fin.ext e)) (congrArg ve h)
  obtain ⟨K, h0, hK, hh0, key⟩ := course_error (S := Simple) code_near code_nodes code_quad (by norm_num) code_small
    ((free_open n).preimage continuous_fst) (newtonF_smooth n m) (y := fun t => (conf n (x (t0 + t)), conf n (v (t0 + t)))) (L := t1 - t0) (by linarith)
    (fun t ht => (T.dq t ht).prodMk (T.dv t ht)) hfree k hk hk14
  refine ⟨2 * K, h0, by positivity, hh0, fun P S N s it big h fuel H h' hs0 hit0 hh hhle hst hend => ?_⟩
  have frame : ∀ i, i ≤ N → FrameOf n m (s i) ∧ FlatFor timeL (it i).gr := by
    intro i
    induction i with
    | zero => intro _; rw [hs0, hit0]; exact ⟨⟨S.num, S.mass⟩, flat_new _⟩
    | succ i ih =>
      intro hi
      obtain ⟨f1, f2⟩ := ih (by omega)
      obtain ⟨_, _, _, c⟩ := hst i (by omega)
      obtain ⟨g1, _⟩ := corrected_clock f2 c
      obtain ⟨_, _, _, _, _, _, _, _, _, a⟩ := c
      exact ⟨f1.of a.2.2.2.2.2.2.2.2.2.2.1, g1⟩
  have hsum : ∑ i ∈ range N, ((s (i + 1)).time - (s i).time) = (s N).time - t0 := by
    rw [Finset.sum_range_sub (fun i => (s i).time), hs0]; rfl
  have start : readL n (GR.toArr ((radauSimple gravity).write (s 0))) = (conf n (x (t0 + 0)), conf n (v (t0 + 0))) := by
    rw [simple_written (frame 0 (Nat.zero_le _)).1, hs0, add_zero]
    exact start_conf S
  obtain ⟨u, w⟩ := key (simple_shadow n m _) (big := big) (frame := Simple.Frame) (same := SameSimple gravity) (H := H) (τ := fun i => (s (i + 1)).time - (s i).time)
    (h' := h') (it := it) (s := s) hh hhle hit0 start N (fun i hi => by
      obtain ⟨a1, a2, _, c⟩ := hst i hi
      obtain ⟨f1, f2⟩ := frame i (by omega)
      exact ⟨a1, a2, fun y hy => f1.of ⟨hy.2.1, hy.2.2.1⟩, simple_length f1, (corrected_clock f2 c).2⟩) (by rw [hsum]; linarith)
  rw [hsum] at u w
  obtain ⟨fN, _⟩ := frame N le_rfl
  refine ⟨by linarith, ?_⟩
  rw [mul_assoc]
  refine within_of fN.1 fN.2 ?_
  rw [← simple_written fN, show (s N).time = t0 + ((s N).time - t0) by ring, show h / 10 ^ 26 = 1 / 10 ^ 26 * h by ring]
  exact w

/-- Whatever the calls do, the error is of second order. -/
theorem C98_second {n : Nat} {m : Nat → ℝ} {x v : ℝ → Nat → V3 ℝ} {t0 t1 : ℝ} (ht : t0 ≤ t1) (M : NewtonMotion n m x v t0 t1) :
    ∃ K h0 : ℝ, 0 ≤ K ∧ 0 < h0 ∧ ∀ P, InState n m x v t0 P →
      ∀ (N : Nat) (s : Nat → Simple) (it : Nat → IAS) (big h : ℝ) (fuel : Nat → Nat) (H h' : Nat → ℝ), s 0 = Simple.init t0 P → it 0 = IAS.new big → 0 ≤ h → h ≤ h0 →
      (∀ i, i < N → 0 ≤ H i ∧ H i ≤ h ∧ Radau.iterate code (radauSimple gravity) big (fuel i) 0 (H i) (it i) (s i) = .ok (s (i + 1), it (i + 1), h' i)) →
      (s N).time ≤ t1 → t0 ≤ (s N).time ∧ WithinOf n m x v (s N).time (K * (h ^ 2 + h / 10 ^ 26)) (s N).P := by
  obtain ⟨K, h0, hK, hh0, key⟩ := C98_order ht M 1 le_rfl (by norm_num)
  refine ⟨K, h0, hK, hh0, fun P S N s it big h fuel H h' hs0 hit0 hh hhle hst hend => ?_⟩
  refine key P S N s it big h fuel H h' hs0 hit0 hh hhle (fun i hi => ?_) hend
  obtain ⟨a1, a2, a3⟩ := hst i hi
  refine ⟨a1, a2, a3, ?_⟩
  have hl : (it i).last = big := by
    rcases Nat.eq_zero_or_pos i with rfl | h0
    · rw [hit0]; rfl
    · obtain ⟨j, rfl⟩ : ∃ j, i = j + 1 := ⟨i - 1, by omega⟩
      exact iterate_last _ _ big _ _ _ _ _ _ _ _ (hst j (by omega)).2.2
  obtain ⟨mm, hl, q, nn, g, y, E, se, a⟩ := accepted (simple_radau gravity (s i)) big (fuel i) (H i) (it i) (it (i + 1)) (s (i + 1)) (h' i) hl a3
  exact ⟨mm, hl, q, nn, g, y, E, se, by omega, a⟩

end SpaceHub.Sys
