import Verif.Props.ConvergeBS
import Verif.Props.ConvergeReguOrder

/-
C95, regularised systems.
-/

set_option autoImplicit false

namespace SpaceHub.Sys
open SpaceHub V3 Force Core Integrator Spec Props Finset Converge BS BS.Spec
open scoped ContDiff

/-- the runs of a Bulirsch-Stoer step, on a regularised system with gravity -/
abbrev ReguAt (kdk : Bool) (p : Params ℝ) : ℝ → ReguSys → ReguSys → Nat → Prop :=
  ExtrapolatedAt (hSeq p.maxDepth) p.maxDepth (ReguSys.write gravity)
    (fun h n => (reguOps 1 .logH gravity).run (if kdk then substepsKDK h n else substepsDKD h n)) (SameRegu gravity) p.err

theorem beEntry (f : Flat) : f.val false (2 + 6 * f.n) = f.be := by
  unfold Flat.val omegaOffset bindEOffset
  simp only [Bool.false_eq_true, false_and, if_false, Bool.toNat_false]
  split_ifs <;> first | rfl | omega

/-- a run of sub-steps of the model is a run of the abstract integrator -/
theorem regu_run {n : Nat} {m : Nat → ℝ} {B t0 h : ℝ} {kdk : Bool} {s r : ReguSys} {z : TS (Conf n)} {N : Nat} (hN : 0 < N) (R : Rel n m B t0 s z)
    (same : SameRegu gravity s r) (safe : ∀ pre suf, subStages kdk N = pre ++ suf → wstep (reguF n m B) pre h (trip z) ∈ safeU n m B)
    (hU : ∀ x ∈ free n, potC n m x ≠ 0) :
    ∃ r', (reguOps 1 .logH gravity).run (if kdk then substepsKDK h N else substepsDKD h N) r = .ok r' ∧
      Rel n m B t0 r' (tstep (grav n m) (fB n m B) (gU n m) (subStages kdk N) h z) := by
  have hn := R.num
  obtain ⟨b0, b1, b2, b3, b4, b5⟩ := same
  have Rs : Rel n m B t0 r z := ⟨b1.trans hn, fun i hi => by rw [b2]; exact R.mass i hi, b4.trans R.bind, b0.trans R.time,
    (funext fun i => congrArg co (b5 i (by rw [hn]; exact i.2)).1 : conf n r.P.pos = conf n s.P.pos).trans R.pos,
    (funext fun i => congrArg co (b5 i (by rw [hn]; exact i.2)).2.1 : conf n r.P.vel = conf n s.P.vel).trans R.vel⟩
  obtain ⟨r', e, R'⟩ := rel_stages (h := h) (subStages kdk N) r z Rs (fun pre suf ep => by
    have g := safe pre suf ep
    rw [regu_wstep] at g
    exact ⟨g.1, hU _ g.2⟩)
  rw [subStages_calls kdk h _ hN] at e
  exact ⟨r', e, R'⟩

/-- one step of the model is one step of the abstract extrapolation -/
theorem regu_extrap {n : Nat} {m : Nat → ℝ} {B t0 : ℝ} {kdk : Bool} {p : Params ℝ} {h : ℝ} {s s' : ReguSys} {z : TS (Conf n)} {k : Nat}
    (X : ReguAt kdk p h s s' k) (R : Rel n m B t0 s z) (hn' : s'.P.num = s.P.num) (hm' : s'.P.mass = s.P.mass)
    (safe : ∀ j, j ≤ k → ∀ pre suf, subStages kdk (hSeq p.maxDepth j) = pre ++ suf → wstep (reguF n m B) pre h (trip z) ∈ safeU n m B)
    (hU : ∀ x ∈ free n, potC n m x ≠ 0) :
    ∃ z', Rel n m B t0 s' z' ∧ trip z' = (extrapMix p.maxDepth kdk 0 k).step (reguF n m B) h (trip z) := by
  obtain ⟨start, row, T0, T1, hk1, hkD, hrow, hT, _⟩ := X
  have hlen : (s.write gravity).length = s.variableNumber gravity := C13_regu_size gravity s
  have hn := R.num
  have hval : ∀ i, i < s.variableNumber gravity →
      s'.flat.val gravity.velDep i = zeroStep (hSeq p.maxDepth) (fun m => (row m).flat.val gravity.velDep i) 0 k := by
    intro i hi
    have := (hT i (by rw [hlen]; exact hi)).1
    simp only [ReguSys.write_getD] at this
    exact this
  have er : ∀ j, j ≤ k → Rel n m B t0 (row j) (tstep (grav n m) (fB n m B) (gU n m) (subStages kdk (hSeq p.maxDepth j)) h z) := by
    intro j hj
    obtain ⟨hs, hr⟩ := hrow j hj
    obtain ⟨r', e, R'⟩ := regu_run (hSeq_pos (by omega)) R hs (safe j hj) hU
    dsimp only at hr
    rw [e] at hr
    rw [← Res.ok.inj hr]
    exact R'
  have hnum : ∀ m, m ≤ k → (row m).P.num = s.P.num := fun m hm' => (er m hm').num.trans hn.symm
  have ex := conf_extrap (D := p.maxDepth) (k := k) (n := n) s'.P.pos (fun m => (row m).P.pos) (fun i c hi hc => by
      rw [← hn] at hi
      have h1 := hval (1 + (3 * i + c)) (by have := entries_le gravity s.P.num; unfold ReguSys.variableNumber; omega)
      rw [posEntry gravity.velDep s'.flat i c (by show i < s'.P.num; omega) hc] at h1
      rw [show SpaceHub.Sys.comp (s'.P.pos i) c = SpaceHub.Sys.comp (s'.flat.x i) c from rfl, h1]
      refine zeroStep_congr fun m _ hm' => ?_
      exact posEntry gravity.velDep (row m).flat i c (by show i < (row m).P.num; rw [hnum m hm']; exact hi) hc)
  have ev := conf_extrap (D := p.maxDepth) (k := k) (n := n) s'.P.vel (fun m => (row m).P.vel) (fun i c hi hc => by
      rw [← hn] at hi
      have h1 := hval (1 + 3 * s.P.num + (3 * i + c)) (by have := entries_le gravity s.P.num; unfold ReguSys.variableNumber; omega)
      have e1 := velEntry gravity.velDep s'.flat i c (by show i < s'.P.num; omega) hc
      rw [show s'.flat.n = s.P.num from hn'] at e1
      rw [e1] at h1
      rw [show SpaceHub.Sys.comp (s'.P.vel i) c = SpaceHub.Sys.comp (s'.flat.v i) c from rfl, h1]
      refine zeroStep_congr fun m _ hm' => ?_
      have e2 := velEntry gravity.velDep (row m).flat i c (by show i < (row m).P.num; rw [hnum m hm']; exact hi) hc
      rw [show (row m).flat.n = s.P.num from hnum m hm'] at e2
      exact e2)
  have et : s'.time = ∑ j ∈ Icc 0 k, weight p.maxDepth 0 k j * (row j).time := by
    have h0 := hval 0 (by unfold ReguSys.variableNumber; omega)
    rw [← zeroStep_weight]; exact h0
  have eb : s'.R.bindE = B := by
    have h0 := hval (2 + 6 * s.P.num) (by
      show _ < s.P.num * 3 * (2 + gravity.velDep.toNat) + 3
      rw [show gravity.velDep = false from rfl]; simp; omega)
    have e1 := beEntry s'.flat
    rw [show s'.flat.n = s.P.num from hn'] at e1
    rw [show gravity.velDep = false from rfl] at h0
    rw [e1, zeroStep_congr (y' := fun _ => B) (fun j _ hj => by
      have e2 := beEntry (row j).flat
      rw [show (row j).flat.n = s.P.num from hnum j hj] at e2
      rw [e2]; exact (er j hj).bind)] at h0
    exact h0.trans (zeroLin_const (Nat.zero_le _) hkD _)
  have one : ∑ j ∈ Icc 0 k, weight p.maxDepth 0 k j = 1 := (extrap_order hkD (Nat.zero_le k) kdk).one
  refine ⟨⟨s'.time - t0, conf n s'.P.pos, conf n s'.P.vel⟩, ⟨hn'.trans hn, fun i hi => by rw [hm']; exact R.mass i hi, eb, by simp, rfl, rfl⟩, ?_⟩
  show _ = ∑ j ∈ Icc 0 k, weight p.maxDepth 0 k j • wstep (reguF n m B) (subStages kdk (hSeq p.maxDepth j)) h (trip z)
  rw [sum_congr rfl fun j hj => by rw [regu_wstep]]
  refine Prod.ext ?_ (Prod.ext ?_ ?_)
  · rw [Prod.fst_sum]
    show s'.time - t0 = _
    rw [et]
    have : ∀ j ∈ Icc 0 k, weight p.maxDepth 0 k j * (row j).time = weight p.maxDepth 0 k j * t0 +
        weight p.maxDepth 0 k j * (tstep (grav n m) (fB n m B) (gU n m) (subStages kdk (hSeq p.maxDepth j)) h z).t := fun j hj => by
      rw [(er j (mem_Icc.1 hj).2).time]; ring
    rw [sum_congr rfl this, sum_add_distrib, ← sum_mul, one]
    simp [trip]
  · rw [Prod.snd_sum, Prod.fst_sum]
    show conf n s'.P.pos = _
    rw [ex]
    refine sum_congr rfl fun j hj => ?_
    rw [(er j (mem_Icc.1 hj).2).pos]; rfl
  · rw [Prod.snd_sum, Prod.snd_sum]
    show conf n s'.P.vel = _
    rw [ev]
    refine sum_congr rfl fun j hj => ?_
    rw [(er j (mem_Icc.1 hj).2).vel]; rfl

/-- C95 for any sequence of extrapolated steps of a regularised system -/
theorem logH_core {n : Nat} {m : Nat → ℝ} {x v : ℝ → Nat → V3 ℝ} {t0 t1 t2 : ℝ} (h02 : t0 ≤ t2) (h21 : t2 < t1) (M : NewtonMotion n m x v t0 t1)
    (hn : 2 ≤ n) (hmass : ∀ k, k < n → 0 < m k) (D : Nat) :
    ∃ K κ ρ : ℝ, 0 ≤ K ∧ 0 < κ ∧ 0 < ρ ∧ ∀ P, InState n m x v t0 P → ∀ (kdk : Bool) (p : Params ℝ), p.maxDepth = D →
      ∀ (N : Nat) (s : Nat → ReguSys) (a : Nat → ℝ) (k : Nat → Nat), s 0 = ReguSys.init 1 .logH t0 P →
      (∀ i, i < N → ReguAt kdk p (a i) (s i) (s (i + 1)) (k i) ∧ (s (i + 1)).P.num = (s i).P.num ∧ (s (i + 1)).P.mass = (s i).P.mass) →
        ((∀ i, i < N → 0 ≤ a i ∧ a i ≤ ρ) → (∀ i, i ≤ N → (s i).time ≤ t2) →
          t0 + κ * ∑ i ∈ range N, a i ≤ (s N).time ∧ WithinOf n m x v (s N).time (K * ∑ i ∈ range N, a i ^ (2 * k i + 3)) (s N).P ∧
          ∀ b, 0 ≤ b → b ≤ ρ → ∀ j, j ≤ D → ∀ r, SameRegu gravity (s N) r →
            ∃ r', (reguOps 1 .logH gravity).run (if kdk then substepsKDK b (hSeq D j) else substepsDKD b (hSeq D j)) r = .ok r') := by
  have ht : t0 ≤ t1 := by linarith
  set B := potC n m (conf n (x t0)) - kinC n m (conf n (v t0)) with hB
  obtain ⟨r, A, L, V, _, H, _⟩ := motion_tube M
  have hA := H.hA
  have hV := H.hV
  obtain ⟨τ1, κ, F, θ, hτ1, hκ, hF, θ0, θ1, θin, θlip, hsafe, dy⟩ := motion_regu ht M hn hmass B hB
  set y : ℝ → ℝ × Conf n × Conf n := fun τ => (θ τ, conf n (x (t0 + θ τ)), conf n (v (t0 + θ τ))) with hy
  obtain ⟨NN, W, hBd⟩ := extrap_bounded D
  obtain ⟨K, ρ, hK, hρ, hρ1, hsm, key⟩ := mix_global (safe_open n m B) (regu_smooth B hn hmass) (regu_straight n m B) hτ1 dy hsafe (2 * D + 2) NN 1 W
    (ε := min ((t1 - t2) / 2) (κ / 2)) (lt_min (by linarith) (by linarith))
  refine ⟨2 * (K * (1 + V + A)), κ / 2, min ρ ((t1 - t2) / (2 * F)), by positivity, by positivity,
    lt_min hρ (div_pos (by linarith) (by linarith)), fun P S kdk p hD N s a k hs0 hk ha htm => ?_⟩
  have hητ : τ1 * (K * ρ) ≤ (t1 - t2) / 2 := by
    have := hsm.trans (min_le_left _ _)
    have : 0 ≤ K * ρ := by positivity
    linarith [show (τ1 + 1) * (K * ρ) = τ1 * (K * ρ) + K * ρ by ring]
  have hηκ : K * ρ ≤ κ / 2 := by
    have := hsm.trans (min_le_right _ _)
    have : 0 ≤ τ1 * (K * ρ) := by positivity
    linarith [show (τ1 + 1) * (K * ρ) = τ1 * (K * ρ) + K * ρ by ring]
  have hρF : min ρ ((t1 - t2) / (2 * F)) * F ≤ (t1 - t2) / 2 := by
    have := (le_div_iff₀ (by positivity)).1 (min_le_right ρ ((t1 - t2) / (2 * F)))
    linarith
  set l : Nat → List MStep := fun i => (List.range i).map fun j => bsStep D kdk (a j) (k j) with hl
  have lh : ∀ i, ((l i).map MStep.h).sum = ∑ j ∈ range i, a j := fun i => by
    rw [hl, List.map_map, ← List.sum_toFinset _ List.nodup_range, List.toFinset_range]; rfl
  have le : ∀ i, ((l i).map fun q => q.h ^ (q.p + 1)).sum = ∑ j ∈ range i, a j ^ (2 * k j + 3) := fun i => by
    rw [hl, List.map_map, ← List.sum_toFinset _ List.nodup_range, List.toFinset_range]; rfl
  have lok : ∀ i, i ≤ N → ∀ q ∈ l i, q.X.Bounded NN 1 W ∧ q.X.Order q.p ∧ 1 ≤ q.p ∧ q.p ≤ 2 * D + 2 ∧ 0 ≤ q.h ∧ q.h ≤ ρ := by
    intro i hi q hq
    obtain ⟨j, hj, rfl⟩ := List.mem_map.1 hq
    have hj' := List.mem_range.1 hj
    obtain ⟨X, _⟩ := hk j (by omega)
    obtain ⟨_, _, _, _, hk1, hkD, _⟩ := X
    rw [hD] at hkD
    obtain ⟨q1, q2⟩ := ha j (by omega)
    exact ⟨hBd kdk 0 (k j) hkD, extrap_order hkD (Nat.zero_le _) kdk, by simp [bsStep], by simp [bsStep]; omega, q1, q2.trans (min_le_left _ _)⟩
  have s0 : ∀ i, i ≤ N → 0 ≤ ∑ j ∈ range i, a j := fun i hi => sum_nonneg fun j hj => (ha j (by have := mem_range.1 hj; omega)).1
  have small : ∀ i, i ≤ N → ∑ j ∈ range i, a j ^ (2 * k j + 3) ≤ ρ * ∑ j ∈ range i, a j := by
    intro i hi
    rw [mul_sum]
    refine sum_le_sum fun j hj => ?_
    obtain ⟨q1, q2⟩ := ha j (by have := mem_range.1 hj; omega)
    have q3 := q2.trans (min_le_left _ _)
    calc a j ^ (2 * k j + 3) ≤ a j ^ 2 := pow_le_pow_of_le_one q1 (by linarith) (by omega)
      _ = a j * a j := sq _
      _ ≤ ρ * a j := mul_le_mul_of_nonneg_right q3 q1
  have close : ∀ i, i ≤ N → ∑ j ∈ range i, a j ≤ τ1 → ∀ z : TS (Conf n), trip z = mrun (reguF n m B) (l i) (y 0) →
      ‖trip z - y (∑ j ∈ range i, a j)‖ ≤ K * ∑ j ∈ range i, a j ^ (2 * k j + 3) := by
    intro i hi hle z hz
    have := (key (l i) (lok i hi) (by rw [lh]; exact hle)).1
    rw [lh, le] at this
    rw [hz]; exact this
  have main : ∀ i, i ≤ N → ∑ j ∈ range i, a j ≤ τ1 ∧ ∃ z, Rel n m B t0 (s i) z ∧ trip z = mrun (reguF n m B) (l i) (y 0) := by
    intro i
    induction i with
    | zero =>
      intro _
      have e0 := start_conf S
      have e1 : conf n P.pos = conf n (x t0) := congrArg Prod.fst e0
      have e2 : conf n P.vel = conf n (v t0) := congrArg Prod.snd e0
      refine ⟨by simpa using hτ1, ⟨0, conf n (x t0), conf n (v t0)⟩, ?_, ?_⟩
      · rw [hs0]
        refine ⟨S.num, S.mass, ?_, by simp [ReguSys.init], e1, e2⟩
        show -totalEnergy 1 P = B
        rw [totalEnergy, potentialDirect_eq, potC_conf S.num S.mass, kinC_conf S.num S.mass, e1, e2, hB]
        ring
      · show trip _ = y 0
        simp only [hy, trip, θ0, add_zero]
    | succ i ih =>
      intro hi
      obtain ⟨hle, z, R, hz⟩ := ih (by omega)
      obtain ⟨q1, q2⟩ := ha i (by omega)
      have h00 := s0 i (by omega)
      have g1 : |z.t - θ (∑ j ∈ range i, a j)| ≤ K * ∑ j ∈ range i, a j ^ (2 * k j + 3) := (norm_fst_le _).trans (close i (by omega) hle z hz)
      have g2 : K * ∑ j ∈ range i, a j ^ (2 * k j + 3) ≤ (t1 - t2) / 2 := by
        have u1 := mul_le_mul_of_nonneg_left (small i (by omega)) hK
        have u2 := mul_le_mul_of_nonneg_left hle (by positivity : 0 ≤ K * ρ)
        linarith [show K * (ρ * ∑ j ∈ range i, a j) = K * ρ * ∑ j ∈ range i, a j by ring, show K * ρ * τ1 = τ1 * (K * ρ) by ring]
      have hs2 := htm i (by omega)
      rw [R.time] at hs2
      obtain ⟨_, b⟩ := θlip _ ⟨h00, hle⟩ τ1 ⟨hτ1, le_rfl⟩ hle
      rw [θ1] at b
      have hab := abs_le.1 g1
      have hlow : (t1 - t2) / 2 ≤ F * (τ1 - ∑ j ∈ range i, a j) := by linarith
      have u3 : F * a i ≤ F * (τ1 - ∑ j ∈ range i, a j) := by
        have := mul_le_mul_of_nonneg_right q2 hF.le
        linarith [mul_comm F (a i)]
      have u4 := le_of_mul_le_mul_left u3 hF
      obtain ⟨X, e1, e2⟩ := hk i (by omega)
      have hkD : k i ≤ D := by obtain ⟨_, _, _, _, _, hkD, _⟩ := X; rw [hD] at hkD; exact hkD
      obtain ⟨z', R', hz'⟩ := regu_extrap X R e1 e2 (fun j hj pre suf ep => by
        rw [hz]
        rw [hD] at ep
        exact (key (l i) (lok i (by omega)) (by rw [lh]; exact hle)).2 (extrapMix D kdk 0 (k i)) j pre suf (a i) (hBd kdk 0 (k i) hkD)
          (mem_Icc.2 ⟨Nat.zero_le _, hj⟩) ep q1 (q2.trans (min_le_left _ _))) (fun x hx => (potC_pos hn hmass hx).ne')
      refine ⟨by rw [sum_range_succ]; linarith, z', R', ?_⟩
      have e4 : ∀ l q z, mrun (reguF n m B) (l ++ [q]) z = q.X.step (reguF n m B) q.h (mrun (reguF n m B) l z) := fun l q z => by
        rw [mrun, List.foldl_append]; rfl
      rw [hz', hl]
      simp only [List.range_succ, List.map_append, List.map_cons, List.map_nil]
      rw [e4, hz, hD]
      rfl
  obtain ⟨hle, z, R, hz⟩ := main N le_rfl
  have h2 := htm N le_rfl
  have h00 := s0 N le_rfl
  set σ := ∑ j ∈ range N, a j with hσ
  set E := ∑ j ∈ range N, a j ^ (2 * k j + 3) with hE
  have hE0 : 0 ≤ E := sum_nonneg fun j hj => pow_nonneg (ha j (by have := mem_range.1 hj; omega)).1 _
  have g := close N le_rfl hle z hz
  have g1 : |z.t - θ σ| ≤ K * E := (norm_fst_le _).trans g
  have g2 := (norm_snd_le _).trans g
  have gx : ‖z.x - conf n (x (t0 + θ σ))‖ ≤ K * E := (norm_fst_le _).trans g2
  have gv : ‖z.v - conf n (v (t0 + θ σ))‖ ≤ K * E := (norm_snd_le _).trans g2
  obtain ⟨b, _⟩ := θlip 0 ⟨le_rfl, hτ1⟩ σ ⟨h00, hle⟩ h00
  rw [θ0, sub_zero, sub_zero] at b
  have hab := abs_le.1 g1
  have hrate : κ / 2 * σ ≤ z.t := by
    have u1 := mul_le_mul_of_nonneg_left (small N le_rfl) hK
    have u2 := mul_le_mul_of_nonneg_right hηκ h00
    linarith [show K * (ρ * σ) = K * ρ * σ by ring]
  have hzt : 0 ≤ z.t := le_trans (by positivity) hrate
  have runs : ∀ b, 0 ≤ b → b ≤ min ρ ((t1 - t2) / (2 * F)) → ∀ j, j ≤ D → ∀ r, SameRegu gravity (s N) r →
      ∃ r', (reguOps 1 .logH gravity).run (if kdk then substepsKDK b (hSeq D j) else substepsDKD b (hSeq D j)) r = .ok r' := by
    intro b hb0 hb j hj r hr
    obtain ⟨r', e, _⟩ := regu_run (h := b) (kdk := kdk) (hSeq_pos hj) R hr (fun pre suf ep => by
      rw [hz]
      exact (key (l N) (lok N le_rfl) (by rw [lh]; exact hle)).2 (extrapMix D kdk 0 D) j pre suf b (hBd kdk 0 D le_rfl)
        (mem_Icc.2 ⟨Nat.zero_le _, hj⟩) ep hb0 (hb.trans (min_le_left _ _))) (fun x hx => (potC_pos hn hmass hx).ne')
    exact ⟨r', e⟩
  refine ⟨by rw [R.time]; linarith, ?_, runs⟩
  have hz1 : z.t ∈ Set.Icc 0 (t1 - t0) := ⟨hzt, by rw [R.time] at h2; linarith⟩
  have hθ := θin σ ⟨h00, hle⟩
  have lx := Convex.norm_image_sub_le_of_norm_hasDerivWithin_le (C := V) H.dq (fun t ht => H.vel t ht) (convex_Icc 0 (t1 - t0)) hz1 hθ
  have lv := Convex.norm_image_sub_le_of_norm_hasDerivWithin_le (C := A) H.dv (fun t ht => H.acc t ht _ (by simpa using H.hr.le))
    (convex_Icc 0 (t1 - t0)) hz1 hθ
  rw [Real.norm_eq_abs, abs_sub_comm] at lx lv
  have lx' := lx.trans (mul_le_mul_of_nonneg_left g1 hV)
  have lv' := lv.trans (mul_le_mul_of_nonneg_left g1 hA)
  have nx : ‖z.x - conf n (x (t0 + z.t))‖ ≤ K * E * (1 + V + A) := by
    have := norm_add_le (z.x - conf n (x (t0 + θ σ))) (conf n (x (t0 + θ σ)) - conf n (x (t0 + z.t)))
    rw [sub_add_sub_cancel] at this
    have p1 : 0 ≤ A * (K * E) := by positivity
    linarith [show K * E * (1 + V + A) = K * E + V * (K * E) + A * (K * E) by ring]
  have nv : ‖z.v - conf n (v (t0 + z.t))‖ ≤ K * E * (1 + V + A) := by
    have := norm_add_le (z.v - conf n (v (t0 + θ σ))) (conf n (v (t0 + θ σ)) - conf n (v (t0 + z.t)))
    rw [sub_add_sub_cancel] at this
    have p1 : 0 ≤ V * (K * E) := by positivity
    linarith [show K * E * (1 + V + A) = K * E + V * (K * E) + A * (K * E) by ring]
  rw [show 2 * (K * (1 + V + A)) * E = 2 * (K * E * (1 + V + A)) by ring]
  refine within_of R.num R.mass ?_
  rw [R.pos, R.vel, R.time, Prod.mk_sub_mk, Prod.norm_def]
  exact max_le nx nv

/-- **C95, logarithmic Hamiltonian.** The same for a regularised system, up to any time `t2` before the end `t1` of the motion.  The accepted steps `a i` are steps
of the transformed time; the physical time is one of the extrapolated variables.  No run of a next call with a step of at most `ρ` divides by zero. -/
theorem C95_logH {n : Nat} {m : Nat → ℝ} {x v : ℝ → Nat → V3 ℝ} {t0 t1 t2 : ℝ} (h02 : t0 ≤ t2) (h21 : t2 < t1) (M : NewtonMotion n m x v t0 t1)
    (hn : 2 ≤ n) (hmass : ∀ k, k < n → 0 < m k) (D : Nat) :
    ∃ K κ ρ : ℝ, 0 ≤ K ∧ 0 < κ ∧ 0 < ρ ∧ ∀ P, InState n m x v t0 P → ∀ (kdk : Bool) (p : Params ℝ), p.maxDepth = D →
      ∀ (N : Nat) (s : Nat → ReguSys) (c : Nat → State ℝ) (h h' : Nat → ℝ), s 0 = ReguSys.init 1 .logH t0 P →
      (∀ i, i < N → iterate (reguSys 1 .logH gravity kdk) p (h i) (c i) (s i) = .ok (s (i + 1), h' i, c (i + 1))) →
      ∃ (a : Nat → ℝ) (k : Nat → Nat), (∀ i, i < N → Retried p (h i) (a i) ∧ ReguAt kdk p (a i) (s i) (s (i + 1)) (k i)) ∧
        ((∀ i, i < N → 0 ≤ a i ∧ a i ≤ ρ) → (∀ i, i ≤ N → (s i).time ≤ t2) →
          t0 + κ * ∑ i ∈ range N, a i ≤ (s N).time ∧ WithinOf n m x v (s N).time (K * ∑ i ∈ range N, a i ^ (2 * k i + 3)) (s N).P ∧
          ∀ b, 0 ≤ b → b ≤ ρ → ∀ j, j ≤ D → ∀ r, SameRegu gravity (s N) r →
            ∃ r', (reguOps 1 .logH gravity).run (if kdk then substepsKDK b (hSeq D j) else substepsDKD b (hSeq D j)) r = .ok r') := by
  obtain ⟨K, κ, ρ, hK, hκ, hρ, H⟩ := logH_core h02 h21 M hn hmass D
  refine ⟨K, κ, ρ, hK, hκ, hρ, fun P S kdk p hD N s c h h' hs0 hit => ?_⟩
  have each : ∀ i, ∃ a k, i < N → Retried p (h i) a ∧ ReguAt kdk p a (s i) (s (i + 1)) k ∧ (s (i + 1)).P.num = (s i).P.num ∧ (s (i + 1)).P.mass = (s i).P.mass := by
    intro i
    rcases Nat.lt_or_ge i N with hi | hi
    · obtain ⟨a, R, ⟨k, X⟩, ⟨hn, hm⟩, _⟩ := C29_regularized 1 .logH gravity kdk p (h i) (c i) (c (i + 1)) (s i) (s (i + 1)) (h' i) (hit i hi)
      exact ⟨a, k, fun _ => ⟨R, X, hn, hm⟩⟩
    · exact ⟨0, 0, fun h => absurd h (by omega)⟩
  choose a k hk using each
  exact ⟨a, k, fun i hi => ⟨(hk i hi).1, (hk i hi).2.1⟩, H P S kdk p hD N s a k hs0 fun i hi => (hk i hi).2⟩

end SpaceHub.Sys
