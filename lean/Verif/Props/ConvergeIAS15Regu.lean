import Verif.Proof.RadauRegu

/-
C103: the order of IAS15 on regularised systems and on AR-chain systems.
-/

set_option autoImplicit false

namespace SpaceHub.Sys
open SpaceHub V3 Force Core Integrator Spec Props Finset Converge Radau BS
open scoped ContDiff

/-- gravity and additional forces -/
noncomputable def withGravity (ex : List (ForceClass Particles)) : Interactions := ⟨Lib.newton, ex⟩

theorem pull_of {ex : List (ForceClass Particles)} {n : Nat} {m : Nat → ℝ} {a : Field n} (A : Acts (withGravity ex) n m a) (P : Particles) :
    ∃ own more, Pull (withGravity ex) P own more ∧ (∀ k, k < P.num → own k = gravity.acc P k) ∧ ∀ k, k < P.num → own k + more k = (withGravity ex).acc P k := by
  classical
  obtain ⟨own, h1⟩ := A.adds Lib.newton (List.mem_cons_self ..) P
  have h2 : ∀ f : ForceClass Particles, ∃ g, f ∈ ex → Adds f P g := fun f => by
    by_cases hf : f ∈ ex
    · obtain ⟨g, hg⟩ := A.adds f (List.mem_cons_of_mem _ hf) P
      exact ⟨g, fun _ => hg⟩
    · exact ⟨fun _ => 0, fun h => absurd h hf⟩
  choose c hc using h2
  have pl : Pull (withGravity ex) P own (fun k => (ex.map fun f => c f k).sum) := ⟨h1, c, fun f hf => hc f hf, fun k => rfl⟩
  refine ⟨own, _, pl, fun k hk => ?_, fun k hk => ((pl.eval k hk).2.1).symm⟩
  rw [← (pl.eval k hk).1, (gravity_acc P k hk).2, ← (gravity_acc P k hk).1]
  rfl

/-! ### the variables -/

/-- all variables from the array -/
noncomputable def fullL (n : Nat) (dep : Bool) : (Nat → ℝ) →ₗ[ℝ] Full n :=
  timeL.prod ((readL n).prod ((LinearMap.proj (omegaOffset n dep)).prod (LinearMap.proj (bindEOffset n dep))))

theorem fullL_apply (n : Nat) (dep : Bool) (f : Nat → ℝ) : fullL n dep f = (timeL f, readL n f, f (omegaOffset n dep), f (bindEOffset n dep)) := rfl

theorem fullL_flat (dep : Bool) {n : Nat} (f : Flat) (hn : f.n = n) (A : Nat → ℝ) (hA : ∀ v, A v = f.val dep v) :
    fullL n dep A = (f.time, (conf n f.x, conf n f.v), f.om, f.be) := by
  subst hn
  rw [fullL_apply, timeL_flat dep f A hA, readL_flat dep f A hA, hA, hA, omEntry, beEntry']

theorem fullL_local (n : Nat) (dep : Bool) : LocalE (n * 3 * (2 + dep.toNat) + 3) (fullL n dep) := by
  intro f g h
  rw [fullL_apply, fullL_apply, readL_local n _ (by cases dep <;> simp <;> omega) f g h, show timeL f = timeL g from h 0 (by omega),
    h (omegaOffset n dep) (by unfold omegaOffset; omega), h (bindEOffset n dep) (by unfold bindEOffset; omega)]

/-- `n` particles with masses `m` -/
def FrameR (n : Nat) (m : Nat → ℝ) (s : ReguSys) : Prop := s.P.num = n ∧ ∀ k, k < n → s.P.mass k = m k

theorem FrameR.of {n : Nat} {m : Nat → ℝ} {s s' : ReguSys} (h : FrameR n m s) (f : ReguSys.Frame s s') : FrameR n m s' :=
  ⟨f.1.trans h.1, fun k hk => by rw [f.2]; exact h.2 k hk⟩

/-- the variables of a system -/
noncomputable def fullOf (n : Nat) (s : ReguSys) : Full n := (s.time, (conf n s.P.pos, conf n s.P.vel), s.R.omega, s.R.bindE)

theorem regu_written {type : ReguType} {I : Interactions} {n : Nat} {m : Nat → ℝ} {s : ReguSys} (h : FrameR n m s) :
    fullL n I.velDep (GR.toArr ((radauRegu 1 type I).write s)) = fullOf n s :=
  fullL_flat I.velDep s.flat h.1 _ (ReguSys.write_getD I s)

theorem regu_divisors {type : ReguType} {n : Nat} {m : Nat → ℝ} {s : ReguSys} (h : FrameR n m s) :
    posDivisor type s = gapP n m type (fullOf n s) ∧ velDivisor 1 type s = gapQ n m type (conf n s.P.pos) := by
  have e1 := kinC_conf h.1 h.2
  have e2 := potC_conf h.1 h.2
  cases type
  · refine ⟨?_, ?_⟩
    · show s.R.bindE + kinetic s.P = _
      rw [e1]; rfl
    · show -potential 1 s.P.num s.P.mass s.P.pos = _
      rw [e2, neg_neg]; rfl
  · refine ⟨rfl, ?_⟩
    show -potential 1 s.P.num s.P.mass s.P.pos = _
    rw [e2, neg_neg]; rfl
  · exact ⟨rfl, rfl⟩

theorem regu_nonzero {G : ℝ} {type : ReguType} {I : Interactions} {s : ReguSys} {d : List ℝ × ReguSys} (e : s.derivative G type I = .ok d) :
    posDivisor type s ≠ 0 ∧ velDivisor G type s ≠ 0 := by
  unfold ReguSys.derivative at e
  obtain ⟨p, e1, e⟩ := Res.bind_eq_ok.1 e
  obtain ⟨q, e2, e⟩ := Res.bind_eq_ok.1 e
  refine ⟨fun h => ?_, fun h => ?_⟩
  · rw [posPhyTime_eq, if_pos h] at e1; cases e1
  · have := velPhyTime_eq G type { s with R := p.1 } 1
    rw [if_pos (show velDivisor G type { s with R := p.1 } = 0 from h)] at this
    have e3 : p.1.velPhyTime type (potentialDirect G s.P) 1 = .ok q := e2
    rw [show p.1.velPhyTime type (potentialDirect G s.P) 1 = .nan from this] at e3
    cases e3

theorem power_conf {n : Nat} {m : Nat → ℝ} {P : Particles} (hn : P.num = n) (hm : ∀ k, k < n → P.mass k = m k) (a : Arr (V3 ℝ)) :
    power P P.vel a = powC n m (conf n P.vel) (conf n a) := by
  unfold power powC
  rw [hn]
  refine sum_congr rfl fun k hk => ?_
  have hk' := mem_range.1 hk
  rw [ext_conf n _ hk', ext_conf n _ hk', hm k hk']

section
variable {ex : List (ForceClass Particles)} {n : Nat} {m : Nat → ℝ} {a : Field n} (A : Acts (withGravity ex) n m a)
include A

/-- the derivative of a regularised system is the field -/
theorem regu_field {type : ReguType} {x : ReguSys} {d : List ℝ × ReguSys} (hx : FrameR n m x) (e : (radauRegu 1 type (withGravity ex)).deriv x = .ok d) :
    d.2.P = x.P ∧ fullL n (withGravity ex).velDep (GR.toArr d.1) = fullF m type a (ex ≠ []) (fullOf n x) := by
  obtain ⟨h0, h1⟩ := regu_nonzero e
  obtain ⟨p1, p2⟩ := regu_divisors (type := type) hx
  obtain ⟨own, more, pl, o1, o2⟩ := pull_of A x.P
  obtain ⟨d', s1, e1, e2, e3⟩ := regu_derivative2 1 type (withGravity ex) x own more pl _ _ h0 h1 rfl rfl
  have e' : x.derivative 1 type (withGravity ex) = .ok d := e
  rw [e1] at e'
  rw [← Res.ok.inj e']
  refine ⟨e2, ?_⟩
  dsimp only
  rw [e3]
  have key : ∀ r : ReguSys, r.P.num = n → fullL n (withGravity ex).velDep (GR.toArr (r.write (withGravity ex))) = fullOf n r := fun r h =>
    fullL_flat _ r.flat h _ (ReguSys.write_getD _ r)
  rw [key]
  swap
  · exact hx.1
  have q1 : conf n own = grav n m (conf n x.P.pos) := funext fun k => by
    rw [grav_conf n m x.P hx.1 hx.2 k]
    exact congrArg co (o1 k (by rw [hx.1]; exact k.2))
  have q2 : conf n (fun k => own k + more k) = fieldOf a (conf n x.P.pos) (conf n x.P.vel) := by
    rw [← field_conf A x.P hx.1 hx.2]
    exact funext fun k => congrArg co (o2 k (by rw [hx.1]; exact k.2))
  have q3 : ∀ (c : ℝ) (y : Arr (V3 ℝ)), conf n (fun k => c • y k) = c • conf n y := fun c y => by
    funext k
    show co (c • y k) = c • co (y k)
    simp only [co, smul_x, smul_y, smul_z, Prod.smul_mk, smul_eq_mul, mul_comm]
  have w1 : power x.P x.P.vel own = powC n m (conf n x.P.vel) (grav n m (conf n x.P.pos)) := by rw [power_conf hx.1 hx.2, q1]
  have w2 : power x.P x.P.vel (fun k => own k + more k) = powC n m (conf n x.P.vel) (fieldOf a (conf n x.P.pos) (conf n x.P.vel)) := by
    rw [power_conf hx.1 hx.2, q2]
  unfold fullF
  simp only [fullOf]
  rw [p1, p2, q3, q3, q2, w1, w2]
  refine Prod.ext rfl (Prod.ext rfl (Prod.ext rfl ?_))
  by_cases hh : type = .logH ∧ ex ≠ []
  · exact (if_pos hh).trans (if_pos hh).symm
  · exact (if_neg hh).trans (if_neg hh).symm

theorem regu_shadow (type : ReguType) :
    Shadow (radauRegu 1 type (withGravity ex)) (FrameR n m) (n * 3 * (2 + (withGravity ex).velDep.toNat) + 3) (fullL n (withGravity ex).velDep)
      (fullF m type a (ex ≠ [])) Set.univ where
  loc := fullL_local n _
  read x y v hx e := ⟨hx.of (ReguSys.read_frame _ x y v e).1, (ReguSys.read_frame _ x y v e).2.2⟩
  keep x d hx e := by
    have := (regu_field A hx e).1
    exact ⟨by rw [this]; exact hx.1, by rw [this]; exact hx.2⟩
  field x d hx _ e := by
    rw [regu_written hx]
    exact (regu_field A hx e).2

omit A in
theorem regu_length {type : ReguType} {I : Interactions} {n : Nat} {m : Nat → ℝ} {s : ReguSys} (h : FrameR n m s) :
    ((radauRegu 1 type I).write s).length = n * 3 * (2 + I.velDep.toNat) + 3 := by
  have : ((radauRegu 1 type I).write s).length = s.variableNumber I := C13_regu_size I s
  rw [this, ← h.1]; rfl

/-- without additional forces the energy is conserved -/
theorem energy_of {x v : ℝ → Nat → V3 ℝ} {t0 t1 : ℝ} (M : ForcedMotion n a x v t0 t1)
    (apart : ∀ t ∈ Set.Icc t0 t1, ∀ i j, i < n → j < n → i ≠ j → x t i ≠ x t j) (h : ex = []) :
    ∀ t ∈ Set.Icc t0 t1, kinC n m (conf n (v t)) - potC n m (conf n (x t)) = kinC n m (conf n (v t0)) - potC n m (conf n (x t0)) := by
  subst h
  have N : NewtonMotion n m x v t0 t1 := by
    refine ⟨M.pos, fun t ht k hk => ?_, apart⟩
    have h1 := M.vel t ht ⟨k, hk⟩
    have h2 := A.acc ⟨n, x t, v t, m⟩ rfl (fun _ _ => rfl) ⟨k, hk⟩
    have h3 := (gravity_acc ⟨n, x t, v t, m⟩ k hk).2
    rw [← h2] at h1
    have h4 : (withGravity []).acc ⟨n, x t, v t, m⟩ k = gravity.acc ⟨n, x t, v t, m⟩ k := rfl
    rw [show ((⟨k, hk⟩ : Fin n) : Nat) = k from rfl, h4, h3] at h1
    exact h1
  exact fun t ht => motion_energy N ht

/-- without additional forces or without the logarithmic Hamiltonian it is the true motion -/
theorem led_of {x v : ℝ → Nat → V3 ℝ} {t0 t1 : ℝ} (M : ForcedMotion n a x v t0 t1)
    (apart : ∀ t ∈ Set.Icc t0 t1, ∀ i j, i < n → j < n → i ≠ j → x t i ≠ x t j) (hn : 2 ≤ n) (hm : ∀ k, k < n → 0 < m k) {type : ReguType}
    (hty : type = .logH → ex = []) : Led m type a (ex ≠ []) x v t0 t1 := by
  refine ⟨a, M, fun t ht => ?_⟩
  have hfree : conf n (x t) ∈ free n := fun i j hij h => apart t ht i j i.2 j.2 (fun e => hij (Fin.ext e)) (congrArg ve h)
  have key : gapP n m type (fullAt n m type (ex ≠ []) x v t0 t) = gapQ n m type (conf n (x t)) := by
    cases type
    · have h := hty rfl
      have := energy_of A M apart h t ht
      show (fullAt n m .logH (ex ≠ []) x v t0 t).2.2.2 + kinC n m (conf n (v t)) = potC n m (conf n (x t))
      rw [(fullAt_bind n m .logH (ex ≠ []) x v t0 t).2.2 fun c => c.2 h]
      linarith
    · rfl
    · rfl
  have pos := gapQ_pos type hn hm hfree
  exact ⟨by rw [key]; exact pos, by rw [key, div_self pos.ne', one_smul]⟩

omit A in
/-- the length of the accepted attempt, from the step returned -/
theorem returned_le {S : Type} {O : RSys S} {frame same : S → S → Prop} {k : Nat} {big H τ h' : ℝ} {it it' : IAS} {s s' : S} (hH : 0 ≤ H)
    (c : StepBy code O big frame same k H τ it s s' it' h') : h' ≤ 4 * τ := by
  obtain ⟨m, h, q, n, g, y, E, se, _, hτ, acc⟩ := c
  have h0 := (lengths acc hH m le_rfl).1
  obtain ⟨_, _, _, _, _, _, _, e, _⟩ := acc
  rw [e, ← hτ, mul_comm 4]
  exact mul_le_mul_of_nonneg_left (min_le_right _ _) h0

theorem regu_order {x v : ℝ → Nat → V3 ℝ} {t0 t1 t2 : ℝ} (h02 : t0 ≤ t2) (h21 : t2 < t1) (hS : SmoothAlong a x v t0 t1)
    (apart : ∀ t ∈ Set.Icc t0 t1, ∀ i j, i < n → j < n → i ≠ j → x t i ≠ x t j) (hn : 2 ≤ n) (hm : ∀ k, k < n → 0 < m k) (type : ReguType)
    (L : Led m type a (ex ≠ []) x v t0 t1) (k : Nat) (hk : 1 ≤ k) (hk14 : k ≤ 14) :
    ∃ K κ h0 : ℝ, 0 ≤ K ∧ 0 < κ ∧ 0 < h0 ∧ ∀ P, InState n m x v t0 P →
      ∀ (N : Nat) (s : Nat → ReguSys) (it : Nat → IAS) (big h : ℝ) (fuel : Nat → Nat) (H h' : Nat → ℝ), s 0 = ReguSys.init 1 type t0 P → it 0 = IAS.new big →
      0 ≤ h → h ≤ h0 →
      (∀ i, i < N → 0 ≤ H i ∧ H i ≤ h ∧
        Radau.iterate code (radauRegu 1 type (withGravity ex)) big (fuel i) 0 (H i) (it i) ((s i).preIter (withGravity ex)) = .ok (s (i + 1), it (i + 1), h' i) ∧
        CorrectedOn (radauRegu 1 type (withGravity ex)) ReguSys.Frame (SameRegu (withGravity ex)) k big (H i) (it i) ((s i).preIter (withGravity ex))
          (s (i + 1)) (it (i + 1)) (h' i)) →
      (∀ i, i < N → (s i).time ≤ t2) →
      (s N).time ≤ t1 ∧ t0 + κ * ∑ i ∈ range N, h' i ≤ (s N).time ∧ WithinOf n m x v (s N).time (K * (h ^ (k + 1) + h / 10 ^ 26)) (s N).P := by
  obtain ⟨K, κ, h0, hK, hκ, hh0, key⟩ := full_course (S := ReguSys) h02 h21 hS apart hn hm type (ex ≠ []) L k hk hk14
  refine ⟨2 * K, κ / 4, h0, by positivity, by positivity, hh0, fun P S N s it big h fuel H h' hs0 hit0 hh hhle hst hend => ?_⟩
  have ep : ∀ s : ReguSys, fullOf n (s.preIter (withGravity ex)) = fullOf n s ∧ (s.preIter (withGravity ex)).P = s.P := fun s => by
    unfold ReguSys.preIter; split_ifs <;> exact ⟨rfl, rfl⟩
  have fp : ∀ s : ReguSys, FrameR n m s → FrameR n m (s.preIter (withGravity ex)) := fun s h => by unfold FrameR; rw [(ep s).2]; exact h
  have frame : ∀ i, i ≤ N → FrameR n m (s i) := by
    intro i
    induction i with
    | zero => intro _; rw [hs0]; exact ⟨S.num, S.mass⟩
    | succ i ih =>
      intro hi
      obtain ⟨_, _, _, _, _, _, _, _, _, _, _, _, a⟩ := hst i (by omega)
      exact (fp _ (ih (by omega))).of a.2.2.2.2.2.2.2.2.2.2.1
  have start : fullL n (withGravity ex).velDep (GR.toArr ((radauRegu 1 type (withGravity ex)).write ((s 0).preIter (withGravity ex)))) =
      fullAt n m type (ex ≠ []) x v t0 t0 := by
    rw [regu_written (fp _ (frame 0 (Nat.zero_le _))), (ep _).1, hs0]
    have e0 := start_conf S
    have e1 : conf n P.pos = conf n (x t0) := congrArg Prod.fst e0
    have e2 : conf n P.vel = conf n (v t0) := congrArg Prod.snd e0
    have p1 : -potentialDirect 1 P = potC n m (conf n (x t0)) := by rw [potentialDirect_eq, potC_conf S.num S.mass, e1, neg_neg]
    refine Prod.ext rfl (Prod.ext e0 (Prod.ext ?_ ?_))
    · show -potentialDirect 1 P = potC n m (conf n (x (if type = .ttl then t0 else t0)))
      rw [p1, ite_self]
    · show -totalEnergy 1 P = _
      rw [totalEnergy, neg_add, p1, kinC_conf S.num S.mass, e2]
      rw [(fullAt_bind n m type (ex ≠ []) x v t0 t0).1]; rfl
  have each : ∀ i, ∃ τ, i < N → StepBy code (radauRegu 1 type (withGravity ex)) big ReguSys.Frame (SameRegu (withGravity ex)) k (H i) τ (it i)
      ((s i).preIter (withGravity ex)) (s (i + 1)) (it (i + 1)) (h' i) := fun i => by
    by_cases hi : i < N
    · obtain ⟨_, _, _, mm, hl, q, nn, g, y, E, se, hkn, acc⟩ := hst i hi
      exact ⟨_, fun _ => ⟨mm, hl, q, nn, g, y, E, se, hkn, rfl, acc⟩⟩
    · exact ⟨0, fun h => absurd h hi⟩
  choose τ hτ using each
  have wr : ∀ i, i ≤ N → fullL n (withGravity ex).velDep (GR.toArr ((radauRegu 1 type (withGravity ex)).write ((s i).preIter (withGravity ex)))) = fullOf n (s i) :=
    fun i hi => by rw [regu_written (fp _ (frame i hi)), (ep _).1]
  obtain ⟨u0, u, _, w⟩ := key (O := radauRegu 1 type (withGravity ex)) (nv := n * 3 * (2 + (withGravity ex).velDep.toNat) + 3)
    (A := fun _ => fullL n (withGravity ex).velDep) (big := big) (frame := ReguSys.Frame)
    (same := SameRegu (withGravity ex)) (H := H) (h' := h') (τ := τ) (it := it) (s := fun i => (s i).preIter (withGravity ex)) (s' := fun i => s (i + 1))
    hh hhle hit0 start N (fun i hi => by
      obtain ⟨a1, a2, _, _⟩ := hst i hi
      have f1 := frame i (by omega)
      refine ⟨a1, a2, ⟨_, regu_shadow A type, fun y hy => (fp _ f1).of ⟨hy.2.1, hy.2.2.1⟩⟩, regu_length (fp _ f1), hτ i hi, ?_, fun _ => rfl⟩
      rw [wr (i + 1) (by omega), regu_written (frame (i + 1) (by omega))]) (fun i hi => by rw [wr i hi.le]; exact hend i hi)
  rw [wr N le_rfl] at u0 u w
  have fN := frame N le_rfl
  refine ⟨u0, le_trans ?_ u, ?_⟩
  · have : ∑ i ∈ range N, h' i ≤ ∑ i ∈ range N, 4 * τ i := sum_le_sum fun i hi => returned_le (hst i (mem_range.1 hi)).1 (hτ i (mem_range.1 hi))
    rw [← mul_sum] at this
    have := mul_le_mul_of_nonneg_left this (by positivity : 0 ≤ κ / 4)
    have e : κ / 4 * (4 * ∑ i ∈ range N, τ i) = κ * ∑ i ∈ range N, τ i := by ring
    linarith
  · rw [mul_assoc]
    exact within_of fN.1 fN.2 w

/-- **C103, regularised systems.** As `C103_forced`, for a regularised system, with the logarithmic Hamiltonian (without additional forces; with such forces
the code is wrong, see C61), the time-transformed leap-frog or without time transformation.  The steps are steps of the transformed time; as long as the clock
of the simulation has not passed any given time `t2` before the end of the motion when a call begins, the clock does not pass the end `t1` either, it runs at a
rate of at least `κ` (`h' i` are the step lengths that the calls recommend), and the particles are off the true ones by at most `K (h ^ (k + 1) + 10⁻²⁶ h)`. -/
theorem C103_regularised {x v : ℝ → Nat → V3 ℝ} {t0 t1 t2 : ℝ} (h02 : t0 ≤ t2) (h21 : t2 < t1) (M : ForcedMotion n a x v t0 t1) (hS : SmoothAlong a x v t0 t1)
    (apart : ∀ t ∈ Set.Icc t0 t1, ∀ i j, i < n → j < n → i ≠ j → x t i ≠ x t j) (hn : 2 ≤ n) (hm : ∀ k, k < n → 0 < m k) (type : ReguType)
    (hty : type = .logH → ex = []) (k : Nat) (hk : 1 ≤ k) (hk14 : k ≤ 14) :
    ∃ K κ h0 : ℝ, 0 ≤ K ∧ 0 < κ ∧ 0 < h0 ∧ ∀ P, InState n m x v t0 P →
      ∀ (N : Nat) (s : Nat → ReguSys) (it : Nat → IAS) (big h : ℝ) (fuel : Nat → Nat) (H h' : Nat → ℝ), s 0 = ReguSys.init 1 type t0 P → it 0 = IAS.new big →
      0 ≤ h → h ≤ h0 →
      (∀ i, i < N → 0 ≤ H i ∧ H i ≤ h ∧
        Radau.iterate code (radauRegu 1 type (withGravity ex)) big (fuel i) 0 (H i) (it i) ((s i).preIter (withGravity ex)) = .ok (s (i + 1), it (i + 1), h' i) ∧
        CorrectedOn (radauRegu 1 type (withGravity ex)) ReguSys.Frame (SameRegu (withGravity ex)) k big (H i) (it i) ((s i).preIter (withGravity ex))
          (s (i + 1)) (it (i + 1)) (h' i)) →
      (∀ i, i < N → (s i).time ≤ t2) →
      (s N).time ≤ t1 ∧ t0 + κ * ∑ i ∈ range N, h' i ≤ (s N).time ∧ WithinOf n m x v (s N).time (K * (h ^ (k + 1) + h / 10 ^ 26)) (s N).P :=
  regu_order A h02 h21 hS apart hn hm type (led_of A M apart hn hm hty) k hk hk14

theorem regu_second {x v : ℝ → Nat → V3 ℝ} {t0 t1 t2 : ℝ} (h02 : t0 ≤ t2) (h21 : t2 < t1)
    (hS : SmoothAlong a x v t0 t1) (apart : ∀ t ∈ Set.Icc t0 t1, ∀ i j, i < n → j < n → i ≠ j → x t i ≠ x t j) (hn : 2 ≤ n) (hm : ∀ k, k < n → 0 < m k)
    (type : ReguType) (L : Led m type a (ex ≠ []) x v t0 t1) :
    ∃ K κ h0 : ℝ, 0 ≤ K ∧ 0 < κ ∧ 0 < h0 ∧ ∀ P, InState n m x v t0 P →
      ∀ (N : Nat) (s : Nat → ReguSys) (it : Nat → IAS) (big h : ℝ) (fuel : Nat → Nat) (H h' : Nat → ℝ), s 0 = ReguSys.init 1 type t0 P → it 0 = IAS.new big →
      0 ≤ h → h ≤ h0 →
      (∀ i, i < N → 0 ≤ H i ∧ H i ≤ h ∧
        Radau.iterate code (radauRegu 1 type (withGravity ex)) big (fuel i) 0 (H i) (it i) ((s i).preIter (withGravity ex)) = .ok (s (i + 1), it (i + 1), h' i)) →
      (∀ i, i < N → (s i).time ≤ t2) →
      (s N).time ≤ t1 ∧ t0 + κ * ∑ i ∈ range N, h' i ≤ (s N).time ∧ WithinOf n m x v (s N).time (K * (h ^ 2 + h / 10 ^ 26)) (s N).P := by
  obtain ⟨K, κ, h0, hK, hκ, hh0, key⟩ := regu_order A h02 h21 hS apart hn hm type L 1 le_rfl (by norm_num)
  refine ⟨K, κ, h0, hK, hκ, hh0, fun P S N s it big h fuel H h' hs0 hit0 hh hhle hst hend => ?_⟩
  refine key P S N s it big h fuel H h' hs0 hit0 hh hhle (fun i hi => ?_) hend
  obtain ⟨a1, a2, a3⟩ := hst i hi
  refine ⟨a1, a2, a3, ?_⟩
  have hl : (it i).last = big := by
    rcases Nat.eq_zero_or_pos i with rfl | h0
    · rw [hit0]; rfl
    · obtain ⟨j, rfl⟩ : ∃ j, i = j + 1 := ⟨i - 1, by omega⟩
      exact iterate_last _ _ big _ _ _ _ _ _ _ _ (hst j (by omega)).2.2
  obtain ⟨mm, hl, q, nn, g, y, E, se, a⟩ := accepted (regu_radau 1 type (withGravity ex) ((s i).preIter (withGravity ex))) big (fuel i) (H i) (it i) (it (i + 1))
    (s (i + 1)) (h' i) hl a3
  exact ⟨mm, hl, q, nn, g, y, E, se, by omega, a⟩

/-- **C103, regularised systems, second order.** Whatever the calls do, the error is of second order. -/
theorem C103_regularised_second {x v : ℝ → Nat → V3 ℝ} {t0 t1 t2 : ℝ} (h02 : t0 ≤ t2) (h21 : t2 < t1) (M : ForcedMotion n a x v t0 t1)
    (hS : SmoothAlong a x v t0 t1) (apart : ∀ t ∈ Set.Icc t0 t1, ∀ i j, i < n → j < n → i ≠ j → x t i ≠ x t j) (hn : 2 ≤ n) (hm : ∀ k, k < n → 0 < m k)
    (type : ReguType) (hty : type = .logH → ex = []) :
    ∃ K κ h0 : ℝ, 0 ≤ K ∧ 0 < κ ∧ 0 < h0 ∧ ∀ P, InState n m x v t0 P →
      ∀ (N : Nat) (s : Nat → ReguSys) (it : Nat → IAS) (big h : ℝ) (fuel : Nat → Nat) (H h' : Nat → ℝ), s 0 = ReguSys.init 1 type t0 P → it 0 = IAS.new big →
      0 ≤ h → h ≤ h0 →
      (∀ i, i < N → 0 ≤ H i ∧ H i ≤ h ∧
        Radau.iterate code (radauRegu 1 type (withGravity ex)) big (fuel i) 0 (H i) (it i) ((s i).preIter (withGravity ex)) = .ok (s (i + 1), it (i + 1), h' i)) →
      (∀ i, i < N → (s i).time ≤ t2) →
      (s N).time ≤ t1 ∧ t0 + κ * ∑ i ∈ range N, h' i ≤ (s N).time ∧ WithinOf n m x v (s N).time (K * (h ^ 2 + h / 10 ^ 26)) (s N).P :=
  regu_second A h02 h21 hS apart hn hm type (led_of A M apart hn hm hty)

end

/-! ### AR-chain systems -/

/-- all variables, with the chain resolved -/
noncomputable def arL {n : Nat} (σ : Fin n ≃ Fin n) (dep : Bool) : (Nat → ℝ) →ₗ[ℝ] Full n :=
  timeL.prod ((chainL σ).prod ((LinearMap.proj (omegaOffset n dep)).prod (LinearMap.proj (bindEOffset n dep))))

theorem arL_apply {n : Nat} (σ : Fin n ≃ Fin n) (dep : Bool) (f : Nat → ℝ) : arL σ dep f = (timeL f, chainL σ f, f (omegaOffset n dep), f (bindEOffset n dep)) := rfl

theorem arL_norm {n : Nat} (σ τ : Fin n ≃ Fin n) (dep : Bool) (w : Nat → ℝ) : ‖arL σ dep w‖ = ‖arL τ dep w‖ := by
  show max ‖timeL w‖ (max ‖chainL σ w‖ _) = max ‖timeL w‖ (max ‖chainL τ w‖ _)
  rw [chainL_norm σ τ]
  rfl

theorem arL_flat {n : Nat} {σ : Fin n ≃ Fin n} {idx : Arr Nat} (hσ : ∀ i : Fin n, (σ i : Nat) = idx i) (dep : Bool) (f : Flat) (hn : f.n = n) (A : Nat → ℝ)
    (hA : ∀ v, A v = f.val dep v) {x v : Arr (V3 ℝ)} (hx : BelongsTo n idx f.x x) (hv : BelongsTo n idx f.v v) :
    arL σ dep A = (f.time, (conf n x, conf n v), f.om, f.be) := by
  rw [arL_apply, timeL_flat dep f A hA, chainL_flat hσ dep f hn A hA hx hv, hA, hA, ← hn, omEntry, beEntry']

theorem arL_local {n : Nat} (σ : Fin n ≃ Fin n) (dep : Bool) : LocalE (n * 3 * (2 + dep.toNat) + 3) (arL σ dep) := by
  intro f g h
  have h1 : chainL σ f = chainL σ g := by
    show (unchain σ (readL n f).1, unchain σ (readL n f).2) = (unchain σ (readL n g).1, unchain σ (readL n g).2)
    rw [readL_local n _ (by cases dep <;> simp <;> omega) f g h]
  rw [arL_apply, arL_apply, h1, show timeL f = timeL g from h 0 (by omega),
    h (omegaOffset n dep) (by unfold omegaOffset; omega), h (bindEOffset n dep) (by unfold bindEOffset; omega)]

/-- `n` particles with masses `m` in the chain `σ`, described by their chain coordinates -/
structure AROf (dep : Bool) {n : Nat} (m : Nat → ℝ) (σ : Fin n ≃ Fin n) (s : ARSys) : Prop where
  num : s.P.num = n
  mass : ∀ k, k < n → s.P.mass k = m k
  index : ∀ i : Fin n, (σ i : Nat) = s.index i
  good : ARSys.Good dep s

theorem AROf.frame {b : Bool} {n : Nat} {m : Nat → ℝ} {σ : Fin n ≃ Fin n} {s : ARSys} (h : AROf b m σ s) : FrameR n m s.abs := ⟨h.num, h.mass⟩

theorem ar_written {type : ReguType} {IC : ChainInteractions} {b : Bool} {n : Nat} {m : Nat → ℝ} {σ : Fin n ≃ Fin n} {s : ARSys} (h : AROf b m σ s) :
    arL σ IC.velDep (GR.toArr ((radauAR 1 type IC).write s)) = fullOf n s.abs := by
  obtain ⟨h1, _, h3, h4⟩ := h
  have := h4.cons
  rw [h1] at this
  exact arL_flat h3 IC.velDep s.flat h1 _ (ARSys.write_getD IC s) this.pos this.vel

theorem AROf.of {b c : Bool} {n : Nat} {m : Nat → ℝ} {σ : Fin n ≃ Fin n} {s s' : ARSys} (h : AROf b m σ s) (f : ARSys.Frame s s') (g : ARSys.Good c s') :
    AROf c m σ s' :=
  ⟨f.1.trans h.num, fun k hk => by rw [f.2.1]; exact h.mass k hk, fun i => by rw [f.2.2]; exact h.index i, g⟩

theorem ar_read {IC : ChainInteractions} {b : Bool} {n : Nat} {m : Nat → ℝ} {σ : Fin n ≃ Fin n} {x y : ARSys} {v : List ℝ} (h : AROf b m σ x)
    (e : x.read IC v = .ok y) : AROf IC.velDep m σ y ∧ y.write IC = v := by
  have hl : v.length = x.variableNumber IC := by
    by_contra hne
    rw [C13_archain_abort IC x v hne] at e; cases e
  have g := h.good
  obtain ⟨y', e1, _, hc⟩ := C13_archain_write_read IC x g.cons.num g.cons.index v hl
  rw [e] at e1; cases e1
  obtain ⟨f, _, w⟩ := ARSys.read_frame IC x y v g.cons.num g.cons.index e
  rw [← f.1, ← f.2.2] at hc
  exact ⟨h.of f ⟨by rw [f.1]; exact g.two, hc⟩, w⟩

theorem ar_nonzero {G : ℝ} {type : ReguType} {IC : ChainInteractions} {b : Bool} {s : ARSys} {d : List ℝ × ARSys} (g : ARSys.Good b s)
    (e : s.derivative G type IC = .ok d) : posDivisor type s.abs ≠ 0 ∧ velDivisor G type s.abs ≠ 0 := by
  unfold ARSys.derivative at e
  obtain ⟨p, e1, e⟩ := Res.bind_eq_ok.1 e
  obtain ⟨pot, e0, e⟩ := Res.bind_eq_ok.1 e
  obtain ⟨q, e2, e⟩ := Res.bind_eq_ok.1 e
  refine ⟨fun h => ?_, fun h => ?_⟩
  · have := posPhyTime_eq type s.abs 1
    rw [if_pos h] at this
    rw [show s.R.posPhyTime type (kinetic s.P) 1 = .nan from this] at e1; cases e1
  · have e0' : potentialChain G s.P s.view = .ok pot := e0
    rw [potentialChain_eq G s.P s.view g.two g.cons.index g.cons.pos] at e0'
    have := velPhyTime_eq G type { s.abs with R := p.1 } 1
    rw [if_pos (show velDivisor G type { s.abs with R := p.1 } = 0 from h)] at this
    rw [← Res.ok.inj e0', ← potentialDirect_eq] at e2
    rw [show p.1.velPhyTime type (potentialDirect G s.P) 1 = .nan from this] at e2
    cases e2

section
variable {IC : ChainInteractions} {ex : List (ForceClass Particles)} (AI : AgreesI IC (withGravity ex)) {n : Nat} {m : Nat → ℝ} {a : Field n} (A : Acts (withGravity ex) n m a)
include AI A

/-- the derivative of an AR-chain system is the field -/
theorem ar_field {type : ReguType} {b : Bool} {σ : Fin n ≃ Fin n} {x : ARSys} {d : List ℝ × ARSys} (hx : AROf b m σ x) (e : (radauAR 1 type IC).deriv x = .ok d) :
    AROf b m σ d.2 ∧ arL σ IC.velDep (GR.toArr d.1) = fullF m type a (ex ≠ []) (fullOf n x.abs) := by
  have hf := hx.frame
  have g := hx.good
  obtain ⟨h0, h1⟩ := ar_nonzero g e
  obtain ⟨p1, p2⟩ := regu_divisors (type := type) hf
  obtain ⟨own, more, pl, o1, o2⟩ := pull_of A x.P
  obtain ⟨d', s1, c, e1, e2, hc, e3⟩ := ar_derivative2 1 type IC (withGravity ex) AI b x g own more pl _ _ h0 h1 rfl rfl
  have e' : x.derivative 1 type IC = .ok d := e
  have fr : AROf b m σ d.2 := by
    obtain ⟨a, _, e⟩ := Res.bind_eq_ok.1 e
    obtain ⟨b, _, e⟩ := Res.bind_eq_ok.1 e
    obtain ⟨c, _, e⟩ := Res.bind_eq_ok.1 e
    obtain ⟨newt, _, e⟩ := Res.bind_eq_ok.1 e
    by_cases hv : (IC.velIndep || IC.velDep) = true
    · rw [if_pos hv] at e
      obtain ⟨ext, _, e⟩ := Res.bind_eq_ok.1 e
      obtain ⟨cacc, _, e⟩ := Res.bind_eq_ok.1 e
      rw [← Res.ok.inj e]; exact ⟨hx.num, hx.mass, hx.index, ⟨g.two, g.cons⟩⟩
    · rw [if_neg hv] at e
      obtain ⟨ext, _, e⟩ := Res.bind_eq_ok.1 e
      obtain ⟨cacc, _, e⟩ := Res.bind_eq_ok.1 e
      rw [← Res.ok.inj e]; exact ⟨hx.num, hx.mass, hx.index, ⟨g.two, g.cons⟩⟩
  rw [e1] at e'
  have e4 := Res.ok.inj e'
  refine ⟨fr, ?_⟩
  rw [← e4]
  dsimp only
  have bs : ∀ (r : ℝ) (y z : Arr (V3 ℝ)), BelongsTo x.P.num x.index y z → BelongsTo x.P.num x.index (fun k => r • y k) (fun k => r • z k) := fun r y z h => by
    refine ⟨fun i hi => ?_, ?_⟩
    · show r • y i = r • z _ - r • z _
      rw [h.link i hi]
      apply V3.ext <;> simp only [smul_x, smul_y, smul_z, sub_x, sub_y, sub_z] <;> ring
    · show r • y _ = r • z _
      rw [h.base]
  have b1 := bs (1 / posDivisor type x.abs) _ _ g.cons.vel
  have b2 := bs (1 / velDivisor 1 type x.abs) _ _ hc
  rw [hx.num] at b1 b2
  rw [e3]
  have key : ∀ (r : ARSys), r.P.num = n → ∀ (y z : Arr (V3 ℝ)), BelongsTo n x.index r.cpos y → BelongsTo n x.index r.cvel z →
      arL σ IC.velDep (GR.toArr (r.write IC)) = (r.time, (conf n y, conf n z), r.R.omega, r.R.bindE) := fun r h1 y z hy hz =>
    arL_flat hx.index IC.velDep r.flat h1 _ (ARSys.write_getD IC r) hy hz
  refine Eq.trans (key _ ?_ (fun k => (1 / posDivisor type x.abs) • x.P.vel k) (fun k => (1 / velDivisor 1 type x.abs) • (own k + more k)) ?_ ?_) ?_
  · exact hx.num
  · exact b1
  · exact b2
  have q1 : conf n own = grav n m (conf n x.P.pos) := funext fun k => by
    rw [grav_conf n m x.P hx.num hx.mass k]
    exact congrArg co (o1 k (by rw [hx.num]; exact k.2))
  have q2 : conf n (fun k => own k + more k) = fieldOf a (conf n x.P.pos) (conf n x.P.vel) := by
    rw [← field_conf A x.P hx.num hx.mass]
    exact funext fun k => congrArg co (o2 k (by rw [hx.num]; exact k.2))
  have q3 : ∀ (c : ℝ) (y : Arr (V3 ℝ)), conf n (fun k => c • y k) = c • conf n y := fun c y => by
    funext k
    show co (c • y k) = c • co (y k)
    simp only [co, smul_x, smul_y, smul_z, Prod.smul_mk, smul_eq_mul, mul_comm]
  have w1 : power x.P x.P.vel own = powC n m (conf n x.P.vel) (grav n m (conf n x.P.pos)) := by rw [power_conf hx.num hx.mass, q1]
  have w2 : power x.P x.P.vel (fun k => own k + more k) = powC n m (conf n x.P.vel) (fieldOf a (conf n x.P.pos) (conf n x.P.vel)) := by
    rw [power_conf hx.num hx.mass, q2]
  have e5 : x.abs.P = x.P := rfl
  have e6 : ∀ c : ℝ, conf n (fun k => c • (own k + more k)) = c • conf n (fun k => own k + more k) := fun c => q3 c _
  unfold fullF
  simp only [fullOf, e5] at *
  rw [p1, p2, q3, e6, q2, w1, w2]
  refine Prod.ext rfl (Prod.ext rfl (Prod.ext rfl ?_))
  by_cases hh : type = .logH ∧ ex ≠ []
  · exact (if_pos hh).trans (if_pos hh).symm
  · exact (if_neg hh).trans (if_neg hh).symm

theorem ar_shadow (type : ReguType) (σ : Fin n ≃ Fin n) :
    Shadow (radauAR 1 type IC) (AROf IC.velDep m σ) (n * 3 * (2 + (withGravity ex).velDep.toNat) + 3) (arL σ IC.velDep)
      (fullF m type a (ex ≠ [])) Set.univ where
  loc := by rw [← AI.velDep_eq]; exact arL_local σ _
  read x y v hx e := ar_read hx e
  keep x d hx e := (ar_field AI A hx e).1
  field x d hx _ e := by
    rw [ar_written hx]
    exact (ar_field AI A hx e).2

omit A in
theorem ar_length {type : ReguType} {b : Bool} {σ : Fin n ≃ Fin n} {s : ARSys} (h : AROf b m σ s) :
    ((radauAR 1 type IC).write s).length = n * 3 * (2 + (withGravity ex).velDep.toNat) + 3 := by
  have : ((radauAR 1 type IC).write s).length = s.variableNumber IC := C13_archain_size IC s
  rw [this, ← h.num, ← AI.velDep_eq]; rfl

/-- a macro step of an AR-chain system with IAS15 -/
theorem ar_macro {type : ReguType} {σ : Fin n ≃ Fin n} {big H h' : ℝ} {fuel : Nat} {it it' : IAS} {s u s' : ARSys} (hs : AROf false m σ s)
    (e : Radau.ARMacro code 1 type IC big fuel H it s u s' it' h') :
    AROf IC.velDep m σ (s.preIter IC) ∧ AROf IC.velDep m σ u ∧ ARSys.Good false s' ∧ s'.abs = u.abs := by
  obtain ⟨e1, idx, hi, e2⟩ := e
  have fp : ARSys.Frame s (s.preIter IC) := by unfold ARSys.preIter; split_ifs <;> exact ⟨rfl, rfl, rfl⟩
  obtain ⟨gp, _⟩ := ARSys.preIter_sim AI hs.good
  rw [← AI.velDep_eq] at gp
  have hp := hs.of fp gp
  have hu : AROf IC.velDep m σ u := iterate_keep (ok := AROf IC.velDep m σ) (fun x y v hx e => (ar_read hx e).1)
    (fun x d hx e => (ar_field AI A hx e).1) big fuel 0 H it _ u it' h' hp e1
  obtain ⟨s'', e3, g3, a3, _⟩ := ARSys.postIter_sim hu.good.weaken idx hi.isIndex
  rw [e2] at e3; cases e3
  exact ⟨hp, hu, g3, a3⟩

theorem ar_order {x v : ℝ → Nat → V3 ℝ} {t0 t1 t2 : ℝ} (h02 : t0 ≤ t2) (h21 : t2 < t1) (hS : SmoothAlong a x v t0 t1)
    (apart : ∀ t ∈ Set.Icc t0 t1, ∀ i j, i < n → j < n → i ≠ j → x t i ≠ x t j) (hn : 2 ≤ n) (hm : ∀ k, k < n → 0 < m k) (type : ReguType)
    (L : Led m type a (ex ≠ []) x v t0 t1) (k : Nat) (hk : 1 ≤ k) (hk14 : k ≤ 14) :
    ∃ K κ h0 : ℝ, 0 ≤ K ∧ 0 < κ ∧ 0 < h0 ∧ ∀ P, InState n m x v t0 P → ∀ idx, IndexOf P idx →
      ∀ (N : Nat) (s u : Nat → ARSys) (it : Nat → IAS) (big h : ℝ) (fuel : Nat → Nat) (H h' : Nat → ℝ), ARSys.init 1 type t0 P idx = .ok (s 0) →
      it 0 = IAS.new big → 0 ≤ h → h ≤ h0 →
      (∀ i, i < N → 0 ≤ H i ∧ H i ≤ h ∧ Radau.ARMacro code 1 type IC big (fuel i) (H i) (it i) (s i) (u i) (s (i + 1)) (it (i + 1)) (h' i) ∧
        CorrectedOn (radauAR 1 type IC) ARSys.Frame (SameAR IC) k big (H i) (it i) ((s i).preIter IC) (u i) (it (i + 1)) (h' i)) →
      (∀ i, i < N → (s i).time ≤ t2) →
      (s N).time ≤ t1 ∧ t0 + κ * ∑ i ∈ range N, h' i ≤ (s N).time ∧ WithinOf n m x v (s N).time (K * (h ^ (k + 1) + h / 10 ^ 26)) (s N).P := by
  classical
  obtain ⟨K, κ, h0, hK, hκ, hh0, key⟩ := full_course (S := ARSys) h02 h21 hS apart hn hm type (ex ≠ []) L k hk hk14
  refine ⟨2 * K, κ / 4, h0, by positivity, by positivity, hh0, fun P S idx hidx N s u it big h fuel H h' hs0 hit0 hh hhle hst hend => ?_⟩
  have ep : ∀ s : ARSys, fullOf n (s.preIter IC).abs = fullOf n s.abs := fun s => by unfold ARSys.preIter; split_ifs <;> rfl
  obtain ⟨σ, hσ⟩ : ∃ σ : Nat → Fin n ≃ Fin n, ∀ i, IsIndex n (s i).index → ∀ j : Fin n, (σ i j : Nat) = (s i).index j :=
    ⟨fun i => if h : IsIndex n (s i).index then permOf h else Equiv.refl _, fun i h j => by dsimp only; rw [dif_pos h]; rfl⟩
  obtain ⟨s0, e0, g0, a0, _⟩ := ARSys.init_sim 1 type t0 P idx hidx.two_le hidx.isIndex
  rw [hs0] at e0; cases e0
  have P0 : (s 0).P = P := congrArg ReguSys.P a0
  have frame : ∀ i, i ≤ N → AROf false m (σ i) (s i) := by
    intro i
    induction i with
    | zero =>
      intro _
      have hn : (s 0).P.num = n := by rw [P0]; exact S.num
      refine ⟨hn, by rw [P0]; exact S.mass, hσ 0 ?_, g0.weaken⟩
      have := g0.cons.index
      rwa [hn] at this
    | succ i ih =>
      intro hi
      have f1 := ih (by omega)
      obtain ⟨_, _, c0, c⟩ := hst i (by omega)
      obtain ⟨m1, m2, m3, m4⟩ := ar_macro AI A f1 c0
      have hP : (s (i + 1)).P = (u i).P := congrArg ReguSys.P m4
      have hn : (s (i + 1)).P.num = n := by rw [hP]; exact m2.num
      refine ⟨hn, by rw [hP]; exact m2.mass, hσ _ ?_, m3⟩
      have := m3.cons.index
      rwa [hn] at this
  have pre : ∀ i, i ≤ N → AROf IC.velDep m (σ i) ((s i).preIter IC) := fun i hi => by
    have f1 := frame i hi
    obtain ⟨gp, _⟩ := ARSys.preIter_sim AI f1.good
    rw [← AI.velDep_eq] at gp
    refine f1.of ?_ gp
    unfold ARSys.preIter; split_ifs <;> exact ⟨rfl, rfl, rfl⟩
  have wr : ∀ i, i ≤ N → arL (σ i) IC.velDep (GR.toArr ((radauAR 1 type IC).write ((s i).preIter IC))) = fullOf n (s i).abs := fun i hi => by
    rw [ar_written (pre i hi), ep]
  have start : arL (σ 0) IC.velDep (GR.toArr ((radauAR 1 type IC).write ((s 0).preIter IC))) = fullAt n m type (ex ≠ []) x v t0 t0 := by
    rw [wr 0 (Nat.zero_le _), a0]
    have e0 := start_conf S
    have e1 : conf n P.pos = conf n (x t0) := congrArg Prod.fst e0
    have e2 : conf n P.vel = conf n (v t0) := congrArg Prod.snd e0
    have p1 : -potentialDirect 1 P = potC n m (conf n (x t0)) := by rw [potentialDirect_eq, potC_conf S.num S.mass, e1, neg_neg]
    refine Prod.ext rfl (Prod.ext e0 (Prod.ext ?_ ?_))
    · show -potentialDirect 1 P = potC n m (conf n (x (if type = .ttl then t0 else t0)))
      rw [p1, ite_self]
    · show -totalEnergy 1 P = _
      rw [totalEnergy, neg_add, p1, kinC_conf S.num S.mass, e2]
      rw [(fullAt_bind n m type (ex ≠ []) x v t0 t0).1]; rfl
  have each : ∀ i, ∃ τ, i < N → StepBy code (radauAR 1 type IC) big ARSys.Frame (SameAR IC) k (H i) τ (it i)
      ((s i).preIter IC) (u i) (it (i + 1)) (h' i) := fun i => by
    by_cases hi : i < N
    · obtain ⟨_, _, _, mm, hl, q, nn, g, y, E, se, hkn, acc⟩ := hst i hi
      exact ⟨_, fun _ => ⟨mm, hl, q, nn, g, y, E, se, hkn, rfl, acc⟩⟩
    · exact ⟨0, fun h => absurd h hi⟩
  choose τ hτ using each
  obtain ⟨u0, w0, _, w⟩ := key (O := radauAR 1 type IC) (nv := n * 3 * (2 + (withGravity ex).velDep.toNat) + 3)
    (A := fun i => arL (σ i) IC.velDep) (big := big) (frame := ARSys.Frame)
    (same := SameAR IC) (H := H) (h' := h') (τ := τ) (it := it) (s := fun i => (s i).preIter IC) (s' := u)
    hh hhle hit0 start N (fun i hi => by
      obtain ⟨a1, a2, c0, _⟩ := hst i hi
      have f1 := frame i (by omega)
      obtain ⟨m1, m2, _, m4⟩ := ar_macro AI A f1 c0
      refine ⟨a1, a2, ⟨_, ar_shadow AI A type (σ i), fun y hy => m1.of ⟨hy.2.1, hy.2.2.1, hy.2.2.2.1⟩ (same_good_ar m1.good hy)⟩, ar_length AI m1, hτ i hi, ?_,
        arL_norm _ _ _⟩
      rw [wr (i + 1) (by omega), ar_written m2, m4]) (fun i hi => by rw [wr i hi.le]; exact hend i hi)
  rw [wr N le_rfl] at u0 w0 w
  have fN := frame N le_rfl
  refine ⟨u0, le_trans ?_ w0, ?_⟩
  · have : ∑ i ∈ range N, h' i ≤ ∑ i ∈ range N, 4 * τ i := sum_le_sum fun i hi => returned_le (hst i (mem_range.1 hi)).1 (hτ i (mem_range.1 hi))
    rw [← mul_sum] at this
    have := mul_le_mul_of_nonneg_left this (by positivity : 0 ≤ κ / 4)
    have e : κ / 4 * (4 * ∑ i ∈ range N, τ i) = κ * ∑ i ∈ range N, τ i := by ring
    linarith
  · rw [mul_assoc]
    exact within_of fN.num fN.mass w

/-- **C103, AR-chain systems.** As `C103_regularised` for a simulation of an AR-chain system: each macro step is `pre_iter_process`, a call of the iterator,
and `post_iter_process`, which may change the chain. -/
theorem C103_archain {x v : ℝ → Nat → V3 ℝ} {t0 t1 t2 : ℝ} (h02 : t0 ≤ t2) (h21 : t2 < t1) (M : ForcedMotion n a x v t0 t1) (hS : SmoothAlong a x v t0 t1)
    (apart : ∀ t ∈ Set.Icc t0 t1, ∀ i j, i < n → j < n → i ≠ j → x t i ≠ x t j) (hn : 2 ≤ n) (hm : ∀ k, k < n → 0 < m k) (type : ReguType)
    (hty : type = .logH → ex = []) (k : Nat) (hk : 1 ≤ k) (hk14 : k ≤ 14) :
    ∃ K κ h0 : ℝ, 0 ≤ K ∧ 0 < κ ∧ 0 < h0 ∧ ∀ P, InState n m x v t0 P → ∀ idx, IndexOf P idx →
      ∀ (N : Nat) (s u : Nat → ARSys) (it : Nat → IAS) (big h : ℝ) (fuel : Nat → Nat) (H h' : Nat → ℝ), ARSys.init 1 type t0 P idx = .ok (s 0) →
      it 0 = IAS.new big → 0 ≤ h → h ≤ h0 →
      (∀ i, i < N → 0 ≤ H i ∧ H i ≤ h ∧ Radau.ARMacro code 1 type IC big (fuel i) (H i) (it i) (s i) (u i) (s (i + 1)) (it (i + 1)) (h' i) ∧
        CorrectedOn (radauAR 1 type IC) ARSys.Frame (SameAR IC) k big (H i) (it i) ((s i).preIter IC) (u i) (it (i + 1)) (h' i)) →
      (∀ i, i < N → (s i).time ≤ t2) →
      (s N).time ≤ t1 ∧ t0 + κ * ∑ i ∈ range N, h' i ≤ (s N).time ∧ WithinOf n m x v (s N).time (K * (h ^ (k + 1) + h / 10 ^ 26)) (s N).P :=
  ar_order AI A h02 h21 hS apart hn hm type (led_of A M apart hn hm hty) k hk hk14

theorem ar_second {x v : ℝ → Nat → V3 ℝ} {t0 t1 t2 : ℝ} (h02 : t0 ≤ t2) (h21 : t2 < t1)
    (hS : SmoothAlong a x v t0 t1) (apart : ∀ t ∈ Set.Icc t0 t1, ∀ i j, i < n → j < n → i ≠ j → x t i ≠ x t j) (hn : 2 ≤ n) (hm : ∀ k, k < n → 0 < m k)
    (type : ReguType) (L : Led m type a (ex ≠ []) x v t0 t1) :
    ∃ K κ h0 : ℝ, 0 ≤ K ∧ 0 < κ ∧ 0 < h0 ∧ ∀ P, InState n m x v t0 P → ∀ idx, IndexOf P idx →
      ∀ (N : Nat) (s u : Nat → ARSys) (it : Nat → IAS) (big h : ℝ) (fuel : Nat → Nat) (H h' : Nat → ℝ), ARSys.init 1 type t0 P idx = .ok (s 0) →
      it 0 = IAS.new big → 0 ≤ h → h ≤ h0 →
      (∀ i, i < N → 0 ≤ H i ∧ H i ≤ h ∧ Radau.ARMacro code 1 type IC big (fuel i) (H i) (it i) (s i) (u i) (s (i + 1)) (it (i + 1)) (h' i)) →
      (∀ i, i < N → (s i).time ≤ t2) →
      (s N).time ≤ t1 ∧ t0 + κ * ∑ i ∈ range N, h' i ≤ (s N).time ∧ WithinOf n m x v (s N).time (K * (h ^ 2 + h / 10 ^ 26)) (s N).P := by
  obtain ⟨K, κ, h0, hK, hκ, hh0, key⟩ := ar_order AI A h02 h21 hS apart hn hm type L 1 le_rfl (by norm_num)
  refine ⟨K, κ, h0, hK, hκ, hh0, fun P S idx hidx N s u it big h fuel H h' hs0 hit0 hh hhle hst hend => ?_⟩
  obtain ⟨s0, e0, g0, a0, _⟩ := ARSys.init_sim 1 type t0 P idx hidx.two_le hidx.isIndex
  rw [hs0] at e0; cases e0
  have P0 : (s 0).P = P := congrArg ReguSys.P a0
  have good : ∀ i, i ≤ N → ARSys.Good false (s i) ∧ (s i).P.num = n ∧ ∀ k, k < n → (s i).P.mass k = m k := by
    intro i
    induction i with
    | zero => exact fun _ => ⟨g0.weaken, by rw [P0]; exact S.num, by rw [P0]; exact S.mass⟩
    | succ i ih =>
      intro hi
      obtain ⟨g, gn, gm⟩ := ih (by omega)
      have gi := g.cons.index
      rw [gn] at gi
      obtain ⟨_, m2, m3, m4⟩ := ar_macro AI A (σ := permOf gi) ⟨gn, gm, fun _ => rfl, g⟩ (hst i (by omega)).2.2
      have hP : (s (i + 1)).P = (u i).P := congrArg ReguSys.P m4
      exact ⟨m3, by rw [hP]; exact m2.num, by rw [hP]; exact m2.mass⟩
  refine key P S idx hidx N s u it big h fuel H h' hs0 hit0 hh hhle (fun i hi => ?_) hend
  obtain ⟨a1, a2, a3⟩ := hst i hi
  refine ⟨a1, a2, a3, ?_⟩
  have hl : (it i).last = big := by
    rcases Nat.eq_zero_or_pos i with rfl | h0
    · rw [hit0]; rfl
    · obtain ⟨j, rfl⟩ : ∃ j, i = j + 1 := ⟨i - 1, by omega⟩
      exact iterate_last _ _ big _ _ _ _ _ _ _ _ (hst j (by omega)).2.2.1
  obtain ⟨gp, _⟩ := ARSys.preIter_sim AI (good i (by omega)).1
  rw [← AI.velDep_eq] at gp
  obtain ⟨mm, hl, q, nn, g, y, E, se, a⟩ := accepted (ar_radau 1 type IC _ gp.cons) big (fuel i) (H i) (it i) (it (i + 1)) (u i) (h' i) hl a3.1
  exact ⟨mm, hl, q, nn, g, y, E, se, by omega, a⟩

/-- **C103, AR-chain systems, second order.** Whatever the calls do, the error is of second order. -/
theorem C103_archain_second {x v : ℝ → Nat → V3 ℝ} {t0 t1 t2 : ℝ} (h02 : t0 ≤ t2) (h21 : t2 < t1) (M : ForcedMotion n a x v t0 t1)
    (hS : SmoothAlong a x v t0 t1) (apart : ∀ t ∈ Set.Icc t0 t1, ∀ i j, i < n → j < n → i ≠ j → x t i ≠ x t j) (hn : 2 ≤ n) (hm : ∀ k, k < n → 0 < m k)
    (type : ReguType) (hty : type = .logH → ex = []) :
    ∃ K κ h0 : ℝ, 0 ≤ K ∧ 0 < κ ∧ 0 < h0 ∧ ∀ P, InState n m x v t0 P → ∀ idx, IndexOf P idx →
      ∀ (N : Nat) (s u : Nat → ARSys) (it : Nat → IAS) (big h : ℝ) (fuel : Nat → Nat) (H h' : Nat → ℝ), ARSys.init 1 type t0 P idx = .ok (s 0) →
      it 0 = IAS.new big → 0 ≤ h → h ≤ h0 →
      (∀ i, i < N → 0 ≤ H i ∧ H i ≤ h ∧ Radau.ARMacro code 1 type IC big (fuel i) (H i) (it i) (s i) (u i) (s (i + 1)) (it (i + 1)) (h' i)) →
      (∀ i, i < N → (s i).time ≤ t2) →
      (s N).time ≤ t1 ∧ t0 + κ * ∑ i ∈ range N, h' i ≤ (s N).time ∧ WithinOf n m x v (s N).time (K * (h ^ 2 + h / 10 ^ 26)) (s N).P :=
  ar_second AI A h02 h21 hS apart hn hm type (led_of A M apart hn hm hty)

end

/-- **C103, the forces of the library on regularised systems**: gravity alone with either time transformation, and gravity with post-Newtonian corrections,
tides and drag with the time-transformed leap-frog or without transformation. -/
theorem C103_regularised_library (G c : ℝ) {n : Nat} {m : Nat → ℝ} {fs : List Extra} {x v : ℝ → Nat → V3 ℝ} {t0 t1 t2 : ℝ} (h02 : t0 ≤ t2) (h21 : t2 < t1)
    (M : ForcedMotion n (withExtras G c n m fs) x v t0 t1) (apart : ∀ t ∈ Set.Icc t0 t1, ∀ i j, i < n → j < n → i ≠ j → x t i ≠ x t j)
    (away : ∀ e ∈ fs, e.Away n v t0 t1) (hn : 2 ≤ n) (hm : ∀ k, k < n → 0 < m k) (type : ReguType) (hty : type = .logH → fs = []) :
    ∃ K κ h0 : ℝ, 0 ≤ K ∧ 0 < κ ∧ 0 < h0 ∧ ∀ P, InState n m x v t0 P →
      ∀ (N : Nat) (s : Nat → ReguSys) (it : Nat → IAS) (big h : ℝ) (fuel : Nat → Nat) (H h' : Nat → ℝ), s 0 = ReguSys.init 1 type t0 P → it 0 = IAS.new big →
      0 ≤ h → h ≤ h0 →
      (∀ i, i < N → 0 ≤ H i ∧ H i ≤ h ∧
        Radau.iterate code (radauRegu 1 type ⟨Lib.newton, fs.map (libOf G c)⟩) big (fuel i) 0 (H i) (it i)
          ((s i).preIter ⟨Lib.newton, fs.map (libOf G c)⟩) = .ok (s (i + 1), it (i + 1), h' i)) →
      (∀ i, i < N → (s i).time ≤ t2) →
      (s N).time ≤ t1 ∧ t0 + κ * ∑ i ∈ range N, h' i ≤ (s N).time ∧ WithinOf n m x v (s N).time (K * (h ^ 2 + h / 10 ^ 26)) (s N).P := by
  obtain ⟨A, _, hS⟩ := C100_library G c n m fs
  have A' : Acts (withGravity (fs.map (libOf G c))) n m (withExtras G c n m fs) := A
  exact C103_regularised_second A' h02 h21 M (hS x v t0 t1 apart away) apart hn hm type fun h => by rw [hty h]; rfl

/-- **C103, the forces of the library on AR-chain systems.** -/
theorem C103_archain_library (G c : ℝ) {n : Nat} {m : Nat → ℝ} {fs : List Extra} {x v : ℝ → Nat → V3 ℝ} {t0 t1 t2 : ℝ} (h02 : t0 ≤ t2) (h21 : t2 < t1)
    (M : ForcedMotion n (withExtras G c n m fs) x v t0 t1) (apart : ∀ t ∈ Set.Icc t0 t1, ∀ i j, i < n → j < n → i ≠ j → x t i ≠ x t j)
    (away : ∀ e ∈ fs, e.Away n v t0 t1) (hn : 2 ≤ n) (hm : ∀ k, k < n → 0 < m k) (type : ReguType) (hty : type = .logH → fs = []) :
    ∃ K κ h0 : ℝ, 0 ≤ K ∧ 0 < κ ∧ 0 < h0 ∧ ∀ P, InState n m x v t0 P → ∀ idx, IndexOf P idx →
      ∀ (N : Nat) (s u : Nat → ARSys) (it : Nat → IAS) (big h : ℝ) (fuel : Nat → Nat) (H h' : Nat → ℝ), ARSys.init 1 type t0 P idx = .ok (s 0) →
      it 0 = IAS.new big → 0 ≤ h → h ≤ h0 →
      (∀ i, i < N → 0 ≤ H i ∧ H i ≤ h ∧ Radau.ARMacro code 1 type ⟨Lib.newtonC, fs.map (libChainOf G c)⟩ big (fuel i) (H i) (it i) (s i) (u i) (s (i + 1))
        (it (i + 1)) (h' i)) →
      (∀ i, i < N → (s i).time ≤ t2) →
      (s N).time ≤ t1 ∧ t0 + κ * ∑ i ∈ range N, h' i ≤ (s N).time ∧ WithinOf n m x v (s N).time (K * (h ^ 2 + h / 10 ^ 26)) (s N).P := by
  obtain ⟨A, AI, hS⟩ := C100_library G c n m fs
  have A' : Acts (withGravity (fs.map (libOf G c))) n m (withExtras G c n m fs) := A
  have AI' : AgreesI ⟨Lib.newtonC, fs.map (libChainOf G c)⟩ (withGravity (fs.map (libOf G c))) := AI
  exact C103_archain_second AI' A' h02 h21 M (hS x v t0 t1 apart away) apart hn hm type fun h => by rw [hty h]; rfl

/-! ### examples -/

/-- two bodies on a circle around each other, with the first post-Newtonian correction: the hypotheses on the motion hold -/
example (t0 t1 : ℝ) : ForcedMotion 2 (withExtras 1 (Real.sqrt (29 / 2)) 2 (fun _ => 1) [.pn1]) circlePos circleVel t0 t1 ∧
    (∀ t ∈ Set.Icc t0 t1, ∀ i j, i < 2 → j < 2 → i ≠ j → circlePos t i ≠ circlePos t j) ∧ (∀ e ∈ [Extra.pn1], e.Away 2 circleVel t0 t1) ∧
    (∀ k, k < 2 → (0 : ℝ) < 1) ∧ (ReguType.ttl = .logH → [Extra.pn1] = []) :=
  ⟨circle_pn1 t0 t1, (circle_motion t0 t1).apart, by simp [Extra.Away], fun _ _ => one_pos, fun h => by cases h⟩

end SpaceHub.Sys
