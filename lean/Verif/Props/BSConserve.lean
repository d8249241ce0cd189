import Verif.Props.BulirschStoer
import Verif.Props.Conserve

/-
C58: what an extrapolated step conserves.
-/

set_option autoImplicit false

namespace SpaceHub.BS
open SpaceHub SpaceHub.Sys V3 Force Core Integrator Spec SpaceHub.Spec Finset

/-- extrapolation as a linear map -/
noncomputable def zeroLin (n : Nat → Nat) (a b : Nat) : (Nat → ℝ) →ₗ[ℝ] ℝ where
  toFun y := zeroStep n y a b
  map_add' x y := by unfold zeroStep; rw [map_add, Polynomial.eval_add]
  map_smul' c x := by unfold zeroStep; rw [map_smul, Polynomial.eval_smul]; rfl

theorem zeroLin_const {D a k : Nat} (hak : a ≤ k) (hk : k ≤ D) (c : ℝ) : zeroLin (hSeq D) a k (fun _ => c) = c := by
  have h := zeroStep_add_const hak hk (fun _ => 0) (-c)
  have h0 : zeroStep (hSeq D) (fun _ => (0 : ℝ)) a k = 0 := (zeroLin (hSeq D) a k).map_zero
  rw [h0] at h
  have e : (fun _ : Nat => c) = fun _ => (0 : ℝ) - -c := by funext; ring
  show zeroStep (hSeq D) (fun _ => c) a k = c
  rw [e, h]; ring

theorem comp_sum (n : Nat) (f : Nat → V3 ℝ) (c : Nat) : comp (∑ k ∈ range n, f k) c = ∑ k ∈ range n, comp (f k) c := by
  induction n with
  | zero => simp only [range_zero, sum_empty]; unfold comp; split_ifs <;> rfl
  | succ n ih => rw [sum_range_succ, sum_range_succ, comp_add, ih]

theorem comp_ext {u v : V3 ℝ} (h : ∀ c, c < 3 → comp u c = comp v c) : u = v := by
  rw [comp3 u, comp3 v, h 0 (by norm_num), h 1 (by norm_num), h 2 (by norm_num)]

/-- If every component of the vectors of `x'` is extrapolated from those of the `x m`, so is their weighted sum. -/
theorem wsum_extrap {D k n : Nat} (w : Arr ℝ) (x' : Arr (V3 ℝ)) (x : Nat → Arr (V3 ℝ))
    (hx : ∀ i c, i < n → c < 3 → comp (x' i) c = zeroStep (hSeq D) (fun m => comp (x m i) c) 0 k) (c : Nat) (hc : c < 3) :
    comp (∑ i ∈ range n, w i • x' i) c = zeroStep (hSeq D) (fun m => comp (∑ i ∈ range n, w i • x m i) c) 0 k := by
  rw [comp_sum]
  have e : (fun m => comp (∑ i ∈ range n, w i • x m i) c) = ∑ i ∈ range n, w i • (fun m => comp (x m i) c) := by
    funext m
    rw [comp_sum, Finset.sum_apply]
    refine sum_congr rfl fun i _ => ?_
    rw [comp_smul]; simp only [Pi.smul_apply, smul_eq_mul]; ring
  rw [e]
  show _ = zeroLin (hSeq D) 0 k _
  rw [map_sum]
  refine sum_congr rfl fun i hi => ?_
  rw [comp_smul, map_smul, hx i c (mem_range.1 hi) hc, smul_eq_mul, mul_comm]
  rfl

theorem posEntry (dep : Bool) (f : Flat) (i c : Nat) (hi : i < f.n) (hc : c < 3) :
    f.val dep (1 + (3 * i + c)) = comp (f.x i) c := by
  unfold Flat.val
  rw [if_neg (by omega), if_pos (by omega), show (1 + (3 * i + c) - 1) / 3 = i by omega,
    show (1 + (3 * i + c) - 1) % 3 = c by omega]

theorem velEntry (dep : Bool) (f : Flat) (i c : Nat) (hi : i < f.n) (hc : c < 3) :
    f.val dep (1 + 3 * f.n + (3 * i + c)) = comp (f.v i) c := by
  unfold Flat.val
  rw [if_neg (by omega), if_neg (by omega), if_pos (by omega),
    show (1 + 3 * f.n + (3 * i + c) - (1 + 3 * f.n)) / 3 = i by omega,
    show (1 + 3 * f.n + (3 * i + c) - (1 + 3 * f.n)) % 3 = c by omega]

theorem entries_le (I : Interactions) (n : Nat) : n * 3 * 2 ≤ n * 3 * (2 + I.velDep.toNat) :=
  Nat.mul_le_mul_left _ (by omega)

/-- The conserved quantities of an extrapolated step, from those of the runs. -/
theorem extrap_cons15 {D k : Nat} (hk : k ≤ D) (P P' : Particles) (t t' : ℝ) (row : Nat → Particles) (time : Nat → ℝ)
    (hn : P'.num = P.num) (hm : P'.mass = P.mass)
    (hrow : ∀ m, m ≤ k → Cons15 P t (row m) (time m))
    (hx : ∀ i c, i < P.num → c < 3 → comp (P'.pos i) c = zeroStep (hSeq D) (fun m => comp ((row m).pos i) c) 0 k)
    (hv : ∀ i c, i < P.num → c < 3 → comp (P'.vel i) c = zeroStep (hSeq D) (fun m => comp ((row m).vel i) c) 0 k)
    (ht : t' = zeroStep (hSeq D) time 0 k) :
    momentum P' = momentum P ∧ massMoment P' = massMoment P + (t' - t) • momentum P := by
  constructor
  · refine comp_ext fun c hc => ?_
    unfold momentum
    rw [hn, hm, wsum_extrap (D := D) (k := k) P.mass P'.vel (fun m => (row m).vel) hv c hc]
    rw [zeroStep_congr (y' := fun _ => comp (∑ i ∈ range P.num, P.mass i • P.vel i) c) (fun m _ hm' => ?_)]
    · exact zeroLin_const (Nat.zero_le _) hk _
    · have := (hrow m hm').mom
      unfold momentum at this
      rw [(hrow m hm').num, (hrow m hm').mass] at this
      rw [this]
  · refine comp_ext fun c hc => ?_
    have h1 : comp (massMoment P') c = zeroStep (hSeq D) (fun m => comp (∑ i ∈ range P.num, P.mass i • (row m).pos i) c) 0 k := by
      unfold massMoment
      rw [hn, hm]
      exact wsum_extrap (D := D) (k := k) P.mass P'.pos (fun m => (row m).pos) hx c hc
    rw [h1, zeroStep_congr (y' := fun m => comp (massMoment P) c + comp (momentum P) c * (time m - t)) (fun m _ hm' => ?_)]
    · rw [comp_add, comp_smul, ht]
      have e : (fun m => comp (massMoment P) c + comp (momentum P) c * (time m - t)) =
          (fun _ => comp (massMoment P) c - comp (momentum P) c * t) + comp (momentum P) c • time := by
        funext m; simp only [Pi.add_apply, Pi.smul_apply, smul_eq_mul]; ring
      rw [e]
      show zeroLin (hSeq D) 0 k _ = _
      rw [map_add, map_smul, zeroLin_const (Nat.zero_le _) hk, smul_eq_mul]
      show _ + _ * zeroStep (hSeq D) time 0 k = _
      ring
    · have := (hrow m hm').com
      unfold massMoment at this
      rw [(hrow m hm').num, (hrow m hm').mass] at this
      rw [this, comp_add, comp_smul]
      rfl

theorem moments_congr {P Q : Particles} (hn : Q.num = P.num) (hm : Q.mass = P.mass)
    (h : ∀ k, k < P.num → Q.pos k = P.pos k ∧ Q.vel k = P.vel k) :
    momentum Q = momentum P ∧ massMoment Q = massMoment P := by
  unfold momentum massMoment
  rw [hn, hm]
  exact ⟨sum_congr rfl fun k hk => by rw [(h k (mem_range.1 hk)).2], sum_congr rfl fun k hk => by rw [(h k (mem_range.1 hk)).1]⟩

theorem Cons15.of_same {P Q R : Particles} {t t' : ℝ} (hn : Q.num = P.num) (hm : Q.mass = P.mass)
    (h : ∀ k, k < P.num → Q.pos k = P.pos k ∧ Q.vel k = P.vel k) (c : Cons15 Q t R t') : Cons15 P t R t' := by
  obtain ⟨h1, h2⟩ := moments_congr hn hm h
  exact ⟨c.num.trans hn, c.mass.trans hm, c.mom.trans h1, by rw [c.com, h1, h2]⟩

/-- an extrapolated step of a plain system -/
theorem simple_moments {I : Interactions} {kdk : Bool} {D : Nat} {err : List ℝ → (Nat → ℝ) → (Nat → ℝ) → ℝ} {hAcc : ℝ} {s s' : Simple}
    (hI : AllForces I (NoNetForce s.P.num s.P.mass))
    (X : ExtrapolatedStep (hSeq D) D (Simple.write I)
      (fun h n => (simpleOps I).run (if kdk then substepsKDK h n else substepsDKD h n)) (SameSimple I) err hAcc s s')
    (hn : s'.P.num = s.P.num) (hm : s'.P.mass = s.P.mass) :
    s'.time = s.time + hAcc ∧ momentum s'.P = momentum s.P ∧ massMoment s'.P = massMoment s.P + hAcc • momentum s.P := by
  obtain ⟨k, start, row, T0, T1, hk1, hkD, hrow, hT, _⟩ := X
  have hlen : (s.write I).length = s.variableNumber I := C13_simple_size I s
  have hnum : ∀ m, m ≤ k → (row m).P.num = s.P.num := fun m hm' => by
    have f := Simple.run_frame I _ _ _ (hrow m hm').2
    exact f.1.trans (hrow m hm').1.2.1
  have hval : ∀ i, i < s.variableNumber I →
      s'.flat.val I.velDep i = zeroStep (hSeq D) (fun m => (row m).flat.val I.velDep i) 0 k := by
    intro i hi
    have := (hT i (by rw [hlen]; exact hi)).1
    simp only [Simple.write_getD] at this
    exact this
  have hcons : ∀ m, m ≤ k → Cons15 s.P s.time (row m).P (row m).time := by
    intro m hm'
    obtain ⟨hs, hr⟩ := hrow m hm'
    have h1 : Cons15 (start m).P (start m).time (row m).P (row m).time := by
      refine simple_run_inv (I := I) (Q := fun t => Cons15 (start m).P (start m).time t.P t.time) ?_ ?_ _ _ _ (Cons15.refl _ _) hr
      · intro t h ht
        obtain ⟨i, hi⟩ := t.drift_fields h
        rw [hi]; exact ht.drift h
      · intro t h ht
        obtain ⟨h1, h2, h3, h4, _⟩ := t.kick_frame I h
        rw [h4]
        have hI' : AllForces I (NoNetForce t.P.num t.P.mass) := by rw [ht.num, ht.mass, hs.2.1, hs.2.2.1]; exact hI
        exact ht.kick h1 h2 h3 (Simple.kick_lin (neutral_mass hI' t.P.pos) t rfl rfl rfl h)
    rw [hs.1] at h1
    exact Cons15.of_same hs.2.1 hs.2.2.1 (fun k hk => ⟨(hs.2.2.2 k hk).1, (hs.2.2.2 k hk).2.1⟩) h1
  have htime : ∀ m, m ≤ k → (row m).time = s.time + hAcc := by
    intro m hm'
    obtain ⟨hs, hr⟩ := hrow m hm'
    obtain ⟨a1, a2⟩ := driftTime_substeps hAcc (hSeq D m) (hSeq_pos (by omega))
    obtain ⟨t, ht, htt⟩ := C17_simple_time I (if kdk then substepsKDK hAcc (hSeq D m) else substepsDKD hAcc (hSeq D m)) (start m)
    dsimp only at hr
    rw [ht] at hr
    rw [← Res.ok.inj hr, htt, hs.1]
    cases kdk
    · exact congrArg _ a1
    · exact congrArg _ a2
  have ht : s'.time = s.time + hAcc := by
    have h0 := hval 0 (by unfold Simple.variableNumber; omega)
    have h1 : s'.time = zeroStep (hSeq D) (fun m => (row m).time) 0 k := h0
    rw [h1, zeroStep_congr (y' := fun _ => s.time + hAcc) (fun m _ hm' => htime m hm')]
    exact zeroLin_const (Nat.zero_le _) hkD _
  have hmain := extrap_cons15 hkD s.P s'.P s.time s'.time (fun m => (row m).P) (fun m => (row m).time) hn hm hcons
    (fun i c hi hc => by
      have h1 := hval (1 + (3 * i + c)) (by have := entries_le I s.P.num; unfold Simple.variableNumber; omega)
      rw [posEntry I.velDep s'.flat i c (by show i < s'.P.num; omega) hc] at h1
      rw [show comp (s'.P.pos i) c = comp (s'.flat.x i) c from rfl, h1]
      refine zeroStep_congr fun m _ hm' => ?_
      exact posEntry I.velDep (row m).flat i c (by show i < (row m).P.num; rw [hnum m hm']; exact hi) hc)
    (fun i c hi hc => by
      have h1 := hval (1 + 3 * s.P.num + (3 * i + c)) (by have := entries_le I s.P.num; unfold Simple.variableNumber; omega)
      have e1 := velEntry I.velDep s'.flat i c (by show i < s'.P.num; omega) hc
      rw [show s'.flat.n = s.P.num from hn] at e1
      rw [e1] at h1
      rw [show comp (s'.P.vel i) c = comp (s'.flat.v i) c from rfl, h1]
      refine zeroStep_congr fun m _ hm' => ?_
      have e2 := velEntry I.velDep (row m).flat i c (by show i < (row m).P.num; rw [hnum m hm']; exact hi) hc
      rw [show (row m).flat.n = s.P.num from hnum m hm'] at e2
      exact e2)
    (by
      have h0 := hval 0 (by unfold Simple.variableNumber; omega)
      exact h0)
  refine ⟨ht, hmain.1, ?_⟩
  rw [hmain.2, ht]
  congr 2; ring

/-- A returned call on a plain system: the clock has advanced by exactly the accepted step; forces without net momentum
leave the total momentum exactly as it was, and the centre of mass moves uniformly. -/
theorem C58_simple (I : Interactions) (kdk : Bool) (p : Params ℝ) (h : ℝ) (c c' : State ℝ) (s s' : Simple) (h' : ℝ)
    (hI : AllForces I (NoNetForce s.P.num s.P.mass)) (e : iterate (simpleSys I kdk) p h c s = .ok (s', h', c')) :
    ∃ hAcc, Retried p h hAcc ∧ s'.time = s.time + hAcc ∧ momentum s'.P = momentum s.P ∧
      massMoment s'.P = massMoment s.P + hAcc • momentum s.P := by
  obtain ⟨hAcc, hret, X, ⟨hn, hm⟩, _⟩ := C29_simple I kdk p h c c' s s' h' e
  exact ⟨hAcc, hret, simple_moments hI X hn hm⟩

/-- an extrapolated step of a regularised system -/
theorem regu_moments {G : ℝ} {type : ReguType} {I : Interactions} {kdk : Bool} {D : Nat} {err : List ℝ → (Nat → ℝ) → (Nat → ℝ) → ℝ} {hAcc : ℝ}
    {s s' : ReguSys} (hI : AllForces I (NoNetForce s.P.num s.P.mass))
    (X : ExtrapolatedStep (hSeq D) D (ReguSys.write I)
      (fun h n => (reguOps G type I).run (if kdk then substepsKDK h n else substepsDKD h n)) (SameRegu I) err hAcc s s')
    (hn : s'.P.num = s.P.num) (hm : s'.P.mass = s.P.mass) :
    momentum s'.P = momentum s.P ∧ massMoment s'.P = massMoment s.P + (s'.time - s.time) • momentum s.P := by
  obtain ⟨k, start, row, T0, T1, hk1, hkD, hrow, hT, _⟩ := X
  have hlen : (s.write I).length = s.variableNumber I := C13_regu_size I s
  have hnum : ∀ m, m ≤ k → (row m).P.num = s.P.num := fun m hm' => by
    have f := ReguSys.run_frame G type I _ _ _ (hrow m hm').2
    exact f.1.trans (hrow m hm').1.2.1
  have hval : ∀ i, i < s.variableNumber I →
      s'.flat.val I.velDep i = zeroStep (hSeq D) (fun m => (row m).flat.val I.velDep i) 0 k := by
    intro i hi
    have := (hT i (by rw [hlen]; exact hi)).1
    simp only [ReguSys.write_getD] at this
    exact this
  have hcons : ∀ m, m ≤ k → Cons15 s.P s.time (row m).P (row m).time := by
    intro m hm'
    obtain ⟨hs, hr⟩ := hrow m hm'
    have h1 : Cons15 (start m).P (start m).time (row m).P (row m).time := by
      refine regu_run_inv (G := G) (type := type) (I := I) (Q := fun t => Cons15 (start m).P (start m).time t.P t.time)
        ?_ ?_ _ _ _ (Cons15.refl _ _) hr
      · intro t t' h ht e
        obtain ⟨rt, i, _, hi⟩ := ReguSys.drift_fields type t t' h e
        rw [hi]; exact ht.drift rt.2
      · intro t t' h ht e
        have hI' : AllForces I (NoNetForce t.P.num t.P.mass) := by rw [ht.num, ht.mass, hs.2.1, hs.2.2.1]; exact hI
        obtain ⟨h0, h1, h2, h3, h4⟩ := ReguSys.kick_lin G type (neutral_mass hI' t.P.pos) t t' rfl rfl rfl h e
        rw [h4]
        exact ht.kick h1 h2 h3 h0
    rw [hs.1] at h1
    exact Cons15.of_same hs.2.1 hs.2.2.1 (fun k hk => ⟨(hs.2.2.2.2.2 k hk).1, (hs.2.2.2.2.2 k hk).2.1⟩) h1
  exact extrap_cons15 hkD s.P s'.P s.time s'.time (fun m => (row m).P) (fun m => (row m).time) hn hm hcons
    (fun i c hi hc => by
      have h1 := hval (1 + (3 * i + c)) (by have := entries_le I s.P.num; unfold ReguSys.variableNumber; omega)
      rw [posEntry I.velDep s'.flat i c (by show i < s'.P.num; omega) hc] at h1
      rw [show comp (s'.P.pos i) c = comp (s'.flat.x i) c from rfl, h1]
      refine zeroStep_congr fun m _ hm' => ?_
      exact posEntry I.velDep (row m).flat i c (by show i < (row m).P.num; rw [hnum m hm']; exact hi) hc)
    (fun i c hi hc => by
      have h1 := hval (1 + 3 * s.P.num + (3 * i + c)) (by have := entries_le I s.P.num; unfold ReguSys.variableNumber; omega)
      have e1 := velEntry I.velDep s'.flat i c (by show i < s'.P.num; omega) hc
      rw [show s'.flat.n = s.P.num from hn] at e1
      rw [e1] at h1
      rw [show comp (s'.P.vel i) c = comp (s'.flat.v i) c from rfl, h1]
      refine zeroStep_congr fun m _ hm' => ?_
      have e2 := velEntry I.velDep (row m).flat i c (by show i < (row m).P.num; rw [hnum m hm']; exact hi) hc
      rw [show (row m).flat.n = s.P.num from hnum m hm'] at e2
      exact e2)
    (by
      have h0 := hval 0 (by unfold ReguSys.variableNumber; omega)
      exact h0)

/-- A returned call on a regularised system: the momentum is conserved, and the centre of mass moves uniformly in the
physical time that the system shows. -/
theorem C58_regularized (G : ℝ) (type : ReguType) (I : Interactions) (kdk : Bool) (p : Params ℝ) (h : ℝ) (c c' : State ℝ)
    (s s' : ReguSys) (h' : ℝ) (hI : AllForces I (NoNetForce s.P.num s.P.mass))
    (e : iterate (reguSys G type I kdk) p h c s = .ok (s', h', c')) :
    momentum s'.P = momentum s.P ∧ massMoment s'.P = massMoment s.P + (s'.time - s.time) • momentum s.P := by
  obtain ⟨_, _, X, ⟨hn, hm⟩, _⟩ := C29_regularized G type I kdk p h c c' s s' h' e
  exact regu_moments hI X hn hm

/-- Concretely: two bodies attracting each other, tolerance never exceeded, one call of a fresh iterator. -/
example (h : ℝ) (s : Simple) : ∃ s' h' c', iterate (simpleSys ⟨Lib.newton, []⟩ false)
      ⟨7, false, fun _ _ _ => 0, fun _ _ => 1, fun _ _ => 1⟩ h (State.init 7) s = .ok (s', h', c') ∧
    momentum s'.P = momentum s.P := by
  obtain ⟨s', h', c', e⟩ := C29_returns ⟨Lib.newton, []⟩ false ⟨7, false, fun _ _ _ => 0, fun _ _ => 1, fun _ _ => 1⟩
    (by norm_num) (fun _ _ _ => zero_le_one) h s
  obtain ⟨_, _, _, hmom, _⟩ := C58_simple _ _ _ _ _ _ _ _ _ ⟨by intro P acc hn hm; rw [← hn, ← hm]; exact (Props.C07_newton_third_law P acc).1, by simp⟩ e
  exact ⟨s', h', c', e, hmom⟩

end SpaceHub.BS
