import Verif.Proof.RadauLin

/-
C63: what IAS15 conserves.
-/

set_option autoImplicit false

namespace SpaceHub.Radau
open SpaceHub SpaceHub.Sys SpaceHub.Props SpaceHub.BS SpaceHub.Spec V3 Force Core Finset Ctl Fl

/-- component `c` of the total momentum, from the scalar array -/
def velL (n : Nat) (m : Arr ℝ) (c : Nat) : (Nat → ℝ) →ₗ[ℝ] ℝ := ∑ k ∈ range n, m k • LinearMap.proj (1 + 3 * n + (3 * k + c))
/-- component `c` of the mass moment, from the scalar array -/
def posL (n : Nat) (m : Arr ℝ) (c : Nat) : (Nat → ℝ) →ₗ[ℝ] ℝ := ∑ k ∈ range n, m k • LinearMap.proj (1 + (3 * k + c))
/-- the time, from the scalar array -/
def timeL : (Nat → ℝ) →ₗ[ℝ] ℝ := LinearMap.proj 0

theorem velL_apply (n : Nat) (m : Arr ℝ) (c : Nat) (f : Nat → ℝ) : velL n m c f = ∑ k ∈ range n, m k * f (1 + 3 * n + (3 * k + c)) := by
  unfold velL; simp [LinearMap.sum_apply]
theorem posL_apply (n : Nat) (m : Arr ℝ) (c : Nat) (f : Nat → ℝ) : posL n m c f = ∑ k ∈ range n, m k * f (1 + (3 * k + c)) := by
  unfold posL; simp [LinearMap.sum_apply]

theorem velL_local (n : Nat) (m : Arr ℝ) (c N : Nat) (hc : c < 3) (hN : 1 + 6 * n ≤ N) : LocalTo N (velL n m c) := by
  intro f g h
  rw [velL_apply, velL_apply]
  exact sum_congr rfl fun k hk => by rw [h _ (by have := mem_range.1 hk; omega)]

theorem posL_local (n : Nat) (m : Arr ℝ) (c N : Nat) (hc : c < 3) (hN : 1 + 6 * n ≤ N) (p : ℝ) : LocalTo N (posL n m c - p • timeL) := by
  intro f g h
  rw [LinearMap.sub_apply, LinearMap.sub_apply, posL_apply, posL_apply, LinearMap.smul_apply, LinearMap.smul_apply,
    show timeL f = timeL g from h 0 (by omega)]
  congr 1
  exact sum_congr rfl fun k hk => by rw [h _ (by have := mem_range.1 hk; omega)]

theorem velL_flat (dep : Bool) (m : Arr ℝ) (c : Nat) (hc : c < 3) (f : Flat) (A : Nat → ℝ) (hA : ∀ v, A v = f.val dep v) :
    velL f.n m c A = comp (∑ k ∈ range f.n, m k • f.v k) c := by
  rw [velL_apply, comp_sum]
  refine sum_congr rfl fun k hk => ?_
  rw [hA, velEntry dep f k c (mem_range.1 hk) hc, comp_smul, mul_comm]

theorem posL_flat (dep : Bool) (m : Arr ℝ) (c : Nat) (hc : c < 3) (f : Flat) (A : Nat → ℝ) (hA : ∀ v, A v = f.val dep v) :
    posL f.n m c A = comp (∑ k ∈ range f.n, m k • f.x k) c := by
  rw [posL_apply, comp_sum]
  refine sum_congr rfl fun k hk => ?_
  rw [hA, posEntry dep f k c (mem_range.1 hk) hc, comp_smul, mul_comm]

theorem timeL_flat (dep : Bool) (f : Flat) (A : Nat → ℝ) (hA : ∀ v, A v = f.val dep v) : timeL A = f.time := by
  show A 0 = f.time
  rw [hA]; unfold Flat.val; rw [if_pos rfl]

theorem coords_congr (n : Nat) (a b : Arr (V3 ℝ)) (h : ∀ k, k < n → a k = b k) : coords n a = coords n b := by
  unfold coords
  exact List.flatMap_congr fun k hk => by rw [h k (List.mem_range.1 hk)]

/-- the derivative of a plain system as the array written by another one -/
def Simple.slopeOf (I : Interactions) (s : Simple) : Simple :=
  { s with time := 1, P := { s.P with pos := s.P.vel, vel := I.acc s.P }, aux := I.acc s.P }

theorem Simple.derivative_getD (I : Interactions) (s : Simple) (v : Nat) :
    (s.derivative I).getD v 0 = (Simple.slopeOf I s).flat.val I.velDep v := by
  rw [← Simple.write_getD]; rfl

theorem simple_rates (I : Interactions) (s : Simple) (hI : AllForces I (NoNetForce s.P.num s.P.mass)) (c : Nat) (hc : c < 3) (p : ℝ) :
    Rates (radauSimple I) (Simple.Frame s) (velL s.P.num s.P.mass c) (posL s.P.num s.P.mass c - p • timeL) p 0 ∧
    Rates (radauSimple I) (Simple.Frame s) (velL s.P.num s.P.mass c) timeL p 1 := by
  have base : ∀ x d, Simple.Frame s x → (radauSimple I).deriv x = .ok d →
      velL s.P.num s.P.mass c (GR.toArr d.1) = 0 ∧ timeL (GR.toArr d.1) = 1 ∧
      posL s.P.num s.P.mass c (GR.toArr d.1) = velL s.P.num s.P.mass c (GR.toArr ((radauSimple I).write x)) := by
    rintro x d ⟨hn, hm⟩ e
    have e : (x.derivative I, x) = d := Res.ok.inj e
    have hA : ∀ v, GR.toArr d.1 v = (Simple.slopeOf I x).flat.val I.velDep v := fun v => by
      rw [← e]; exact Simple.derivative_getD I x v
    have hW : ∀ v, GR.toArr ((radauSimple I).write x) v = x.flat.val I.velDep v := fun v => Simple.write_getD I x v
    rw [← hn, ← hm]
    refine ⟨?_, timeL_flat I.velDep (Simple.slopeOf I x).flat _ hA, ?_⟩
    · have h1 := velL_flat I.velDep x.P.mass c hc (Simple.slopeOf I x).flat _ hA
      rw [show x.P.num = (Simple.slopeOf I x).flat.n from rfl, h1]
      have h2 := (neutral_mass (n := x.P.num) (m := x.P.mass) (I := I) (by rw [hn, hm]; exact hI) x.P.pos).acc_zero (P := x.P) rfl rfl rfl
      have : comp (Lin x.P.num (massMap x.P.mass) (I.acc x.P)) c = 0 := by rw [h2]; unfold comp; split_ifs <;> rfl
      exact this
    · have h1 := posL_flat I.velDep x.P.mass c hc (Simple.slopeOf I x).flat _ hA
      rw [show x.P.num = (Simple.slopeOf I x).flat.n from rfl, h1]
      exact (velL_flat I.velDep x.P.mass c hc x.flat _ hW).symm
  refine ⟨fun x d hx e => ?_, fun x d hx e => ?_⟩
  · obtain ⟨b1, b2, b3⟩ := base x d hx e
    refine ⟨b1, fun h => ?_⟩
    rw [LinearMap.sub_apply, LinearMap.smul_apply, b2, b3, h, smul_eq_mul, mul_one, sub_self]
  · obtain ⟨b1, b2, _⟩ := base x d hx e
    exact ⟨b1, fun _ => b2⟩

theorem extraAcc_zero {n : Nat} {m : Arr ℝ} {x : Arr (V3 ℝ)} {φ : Nat → V3 ℝ →ₗ[ℝ] V3 ℝ} {I : Interactions}
    (N : NeutralI n m x φ I) {P : Particles} (hn : P.num = n) (hm : P.mass = m) (hx : P.pos = x) : Lin n φ (I.extraAcc P) = 0 := by
  unfold Interactions.extraAcc evalExtraAcc
  simp only
  split_ifs
  all_goals first
    | (rw [NeutralI.indep_eq hn hm hx N.extra, NeutralI.dep_eq hn hm hx N.extra, setZero_zero, Lin_zero])
    | (rw [NeutralI.indep_eq hn hm hx N.extra, NeutralI.dep_eq hn hm hx N.extra, Lin_zero])
    | (rw [NeutralI.dep_eq hn hm hx N.extra, setZero_zero, Lin_zero])
    | (rw [NeutralI.dep_eq hn hm hx N.extra, Lin_zero])
    | (rw [NeutralI.indep_eq hn hm hx N.extra, setZero_zero, Lin_zero])
    | (rw [NeutralI.indep_eq hn hm hx N.extra, Lin_zero])
    | (rw [setZero_zero, Lin_zero])
    | (rw [Lin_zero])

theorem Lin_smul_arr (n : Nat) (φ : Nat → V3 ℝ →ₗ[ℝ] V3 ℝ) (a : Arr (V3 ℝ)) (h : ℝ) : Lin n φ (fun k => h • a k) = h • Lin n φ a := by
  unfold Lin
  rw [smul_sum]
  exact sum_congr rfl fun k _ => map_smul _ _ _

/-- the derivative of a regularised system: the velocities and the accelerations, scaled by the rates of time for drifts and kicks -/
theorem ReguSys.derivative_getD (G : ℝ) (type : ReguType) (I : Interactions) (s : ReguSys) (d : List ℝ × ReguSys)
    (e : s.derivative G type I = .ok d) : ∃ (tp tv om be : ℝ) (a : Arr (V3 ℝ)),
      (a = arrayAdd s.P.num (I.extraAcc s.P) (I.newtonianAcc s.P) ∨ a = I.newtonianAcc s.P) ∧
      ∀ v, d.1.getD v 0 = Flat.val I.velDep ⟨s.P.num, tp, fun k => tp • s.P.vel k, fun k => tv • a k, fun k => tv • a k, om, be, s.inc⟩ v := by
  unfold ReguSys.derivative at e
  obtain ⟨rp, _, e⟩ := Res.bind_eq_ok.1 e
  obtain ⟨rv, _, e⟩ := Res.bind_eq_ok.1 e
  dsimp only at e
  have e := Res.ok.inj e
  refine ⟨rp.2, rv.2, ReguSys.domegaDt type s.P.num s.P.mass s.P.vel (I.newtonianAcc s.P) * rv.2,
    ReguSys.dbindEDt type (I.velIndep || I.velDep) s.P.num s.P.mass s.P.vel
      (if (I.velIndep || I.velDep) = true then arrayAdd s.P.num (I.extraAcc s.P) (I.newtonianAcc s.P) else fun _ => 0) * rv.2,
    if (I.velIndep || I.velDep) = true then arrayAdd s.P.num (I.extraAcc s.P) (I.newtonianAcc s.P) else I.newtonianAcc s.P, ?_, ?_⟩
  · split_ifs
    · exact .inl rfl
    · exact .inr rfl
  · intro v
    rw [← e]
    dsimp only
    rw [← getD_layout]
    congr 1
    cases hd : I.velDep
    · cases hi : I.velIndep <;> simp [addScaledCoordsTo_eq]
    · simp [addScaledCoordsTo_eq]

theorem regu_rates (G : ℝ) (type : ReguType) (I : Interactions) (s : ReguSys) (hI : AllForces I (NoNetForce s.P.num s.P.mass)) (c : Nat)
    (hc : c < 3) (p : ℝ) :
    Rates (radauRegu G type I) (ReguSys.Frame s) (velL s.P.num s.P.mass c) (posL s.P.num s.P.mass c - p • timeL) p 0 := by
  rintro x d ⟨hn, hm⟩ e
  obtain ⟨tp, tv, om, be, a, ha, hA⟩ := ReguSys.derivative_getD G type I x d e
  have hW : ∀ v, GR.toArr ((radauRegu G type I).write x) v = x.flat.val I.velDep v := fun v => ReguSys.write_getD I x v
  have N := neutral_mass (n := x.P.num) (m := x.P.mass) (I := I) (by rw [hn, hm]; exact hI) x.P.pos
  have hz : Lin x.P.num (massMap x.P.mass) a = 0 := by
    rcases ha with rfl | rfl
    · rw [Lin_arrayAdd, extraAcc_zero N rfl rfl rfl, N.newtonianAcc_zero rfl rfl rfl, add_zero]
    · exact N.newtonianAcc_zero rfl rfl rfl
  rw [← hn, ← hm]
  constructor
  · have h1 := velL_flat I.velDep x.P.mass c hc _ (GR.toArr d.1) hA
    try dsimp only at h1
    rw [h1]
    have : comp (Lin x.P.num (massMap x.P.mass) (fun k => tv • a k)) c = 0 := by
      rw [Lin_smul_arr, hz, smul_zero]; unfold comp; split_ifs <;> rfl
    exact this
  · intro h
    have h1 := posL_flat I.velDep x.P.mass c hc _ (GR.toArr d.1) hA
    try dsimp only at h1
    have h2 := timeL_flat I.velDep _ (GR.toArr d.1) hA
    try dsimp only at h2
    rw [LinearMap.sub_apply, LinearMap.smul_apply, h1, h2, ← h, smul_eq_mul]
    have h3 := velL_flat I.velDep x.P.mass c hc x.flat _ hW
    rw [show x.P.num = x.flat.n from rfl, h3]
    have : comp (Lin x.P.num (massMap x.P.mass) (fun k => tp • x.P.vel k)) c = comp (∑ k ∈ range x.P.num, x.P.mass k • x.P.vel k) c * tp := by
      rw [Lin_smul_arr, comp_smul]; rfl
    exact sub_eq_zero.2 this

end SpaceHub.Radau

namespace SpaceHub.Props
open SpaceHub SpaceHub.Sys SpaceHub.BS SpaceHub.Radau SpaceHub.Spec V3 Force Core Finset Ctl Fl

/-- The life of a system integrated by one IAS15 object, from the moment both are created: calls of `pre_iter_process` and calls of
`iterate` that return, with any step sizes. -/
inductive Course {S : Type} (T : Tab) (O : RSys S) (big : ℝ) (pre : S → S) (s0 : S) : S → IAS → Prop
  | start : Course T O big pre s0 s0 (IAS.new big)
  | pre (s : S) (it : IAS) : Course T O big pre s0 s it → Course T O big pre s0 (pre s) it
  | step (s s' : S) (it it' : IAS) (fuel : Nat) (H h' : ℝ) : Course T O big pre s0 s it →
      Radau.iterate T O big fuel 0 H it s = .ok (s', it', h') → Course T O big pre s0 s' it'

theorem course_last {S : Type} {T : Tab} {O : RSys S} {big : ℝ} {pre : S → S} {s0 s : S} {it : IAS} (h : Course T O big pre s0 s it) :
    it.last = big := by
  induction h with
  | start => rfl
  | pre s it _ ih => exact ih
  | step s s' it it' fuel H h' _ e _ => exact iterate_last T O big fuel _ _ _ _ _ _ _ e

/-- what is carried along a course of a plain system -/
structure SimpleKept (I : Interactions) (s0 s : Simple) (it : IAS) : Prop where
  frame : Simple.Frame s0 s
  mom : momentum s.P = momentum s0.P
  com : massMoment s.P = massMoment s0.P + (s.time - s0.time) • momentum s0.P
  flat : ∀ c, c < 3 → FlatFor (velL s0.P.num s0.P.mass c) it.gr ∧
    FlatFor (posL s0.P.num s0.P.mass c - comp (momentum s0.P) c • timeL) it.gr ∧ FlatFor timeL it.gr

theorem length_bound (n : Nat) (I : Interactions) : 1 + 6 * n ≤ n * 3 * (2 + I.velDep.toNat) + 1 := by
  have := entries_le I n; omega

/-- the moments from the functionals -/
theorem moments_of_functionals (P0 P : Particles) (t0 t : ℝ) (dep : Bool) (f : Flat) (A : Nat → ℝ) (hA : ∀ v, A v = f.val dep v)
    (hn : P.num = P0.num) (hm : P.mass = P0.mass) (hf : f.n = P.num ∧ f.time = t ∧ f.x = P.pos ∧ f.v = P.vel)
    (h1 : ∀ c, c < 3 → velL P0.num P0.mass c A = comp (momentum P0) c)
    (h2 : ∀ c, c < 3 → (posL P0.num P0.mass c - comp (momentum P0) c • timeL) A = comp (massMoment P0) c - comp (momentum P0) c * t0) :
    momentum P = momentum P0 ∧ massMoment P = massMoment P0 + (t - t0) • momentum P0 := by
  obtain ⟨f1, f2, f3, f4⟩ := hf
  constructor
  · refine comp_ext fun c hc => ?_
    rw [← h1 c hc, ← hn, ← f1, velL_flat dep P0.mass c hc f A hA, f1, f4]
    unfold momentum; rw [hm]
  · refine comp_ext fun c hc => ?_
    have h := h2 c hc
    rw [LinearMap.sub_apply, LinearMap.smul_apply, ← hn, ← f1, posL_flat dep P0.mass c hc f A hA, timeL_flat dep f A hA, f1, f2, f3,
      smul_eq_mul] at h
    rw [comp_add, comp_smul]
    have : comp (massMoment P) c = comp (∑ k ∈ range P.num, P0.mass k • P.pos k) c := by unfold massMoment; rw [hm]
    rw [this]; linarith

theorem functionals_of_moments (P0 P : Particles) (t0 t : ℝ) (dep : Bool) (f : Flat) (A : Nat → ℝ) (hA : ∀ v, A v = f.val dep v)
    (hn : P.num = P0.num) (hm : P.mass = P0.mass) (hf : f.n = P.num ∧ f.time = t ∧ f.x = P.pos ∧ f.v = P.vel)
    (h1 : momentum P = momentum P0) (h2 : massMoment P = massMoment P0 + (t - t0) • momentum P0) (c : Nat) (hc : c < 3) :
    velL P0.num P0.mass c A = comp (momentum P0) c ∧
    (posL P0.num P0.mass c - comp (momentum P0) c • timeL) A = comp (massMoment P0) c - comp (momentum P0) c * t0 := by
  obtain ⟨f1, f2, f3, f4⟩ := hf
  constructor
  · rw [← h1, ← hn, ← f1, velL_flat dep P0.mass c hc f A hA, f1, f4]
    unfold momentum; rw [hm]
  · rw [LinearMap.sub_apply, LinearMap.smul_apply, ← hn, ← f1, posL_flat dep P0.mass c hc f A hA, timeL_flat dep f A hA, f1, f2, f3,
      smul_eq_mul]
    have : comp (∑ k ∈ range P.num, P0.mass k • P.pos k) c = comp (massMoment P) c := by unfold massMoment; rw [hm]
    rw [this, h2, comp_add, comp_smul]; ring

theorem simple_course {T : Tab} {I : Interactions} {big : ℝ} {s0 s : Simple} {it : IAS}
    (hI : AllForces I (NoNetForce s0.P.num s0.P.mass)) (h : Course T (radauSimple I) big (fun s => s.preIter I) s0 s it) :
    SimpleKept I s0 s it := by
  induction h with
  | start => exact ⟨⟨rfl, rfl⟩, rfl, by rw [sub_self, zero_smul, add_zero], fun c _ => ⟨flat_new _, flat_new _, flat_new _⟩⟩
  | pre s it _ ih =>
    have e : (s.preIter I).P = s.P ∧ (s.preIter I).time = s.time := by unfold Simple.preIter; split_ifs <;> exact ⟨rfl, rfl⟩
    exact ⟨by unfold Simple.Frame; rw [e.1]; exact ih.frame, by rw [e.1]; exact ih.mom, by rw [e.1, e.2]; exact ih.com, ih.flat⟩
  | step s s' it it' fuel H h' hcourse e ih =>
    have hacc := accepted (simple_radau I s) big fuel H it it' s' h' (course_last hcourse) e
    have hI' : AllForces I (NoNetForce s.P.num s.P.mass) := by rw [ih.frame.1, ih.frame.2]; exact hI
    have hlen : 1 + 6 * s.P.num ≤ ((radauSimple I).write s).length := by
      show _ ≤ (s.write I).length
      rw [C13_simple_size]; exact length_bound _ _
    have hframe : Simple.Frame s0 s' := ih.frame.trans (by
      obtain ⟨_, _, _, _, _, _, _, _, _, _, _, _, _, _, _, _, _, _, f, _⟩ := hacc; exact f)
    have hA : ∀ v, GR.toArr ((radauSimple I).write s) v = s.flat.val I.velDep v := fun v => Simple.write_getD I s v
    have hA' : ∀ v, GR.toArr ((radauSimple I).write s') v = s'.flat.val I.velDep v := fun v => Simple.write_getD I s' v
    have fn := functionals_of_moments s0.P s.P s0.time s.time I.velDep s.flat _ hA ih.frame.1 ih.frame.2 ⟨rfl, rfl, rfl, rfl⟩ ih.mom ih.com
    have key : ∀ c, c < 3 →
        (FlatFor (velL s0.P.num s0.P.mass c) it'.gr ∧ FlatFor (posL s0.P.num s0.P.mass c - comp (momentum s0.P) c • timeL) it'.gr ∧ FlatFor timeL it'.gr) ∧
        velL s0.P.num s0.P.mass c (GR.toArr ((radauSimple I).write s')) = comp (momentum s0.P) c ∧
        (posL s0.P.num s0.P.mass c - comp (momentum s0.P) c • timeL) (GR.toArr ((radauSimple I).write s')) =
          comp (massMoment s0.P) c - comp (momentum s0.P) c * s0.time := by
      intro c hc
      obtain ⟨f1, f2, f3⟩ := ih.flat c hc
      obtain ⟨r1, r2⟩ := simple_rates I s hI' c hc (comp (momentum s0.P) c)
      have l1 := velL_local s.P.num s.P.mass c _ hc hlen
      have l2 := posL_local s.P.num s.P.mass c _ hc hlen (comp (momentum s0.P) c)
      rw [ih.frame.1, ih.frame.2] at r1 r2 l1 l2
      obtain ⟨a1, a2, a3, m, q, _, a4⟩ := flat_step (simple_radau I s) (fun x hx => ⟨hx.2.1, hx.2.2.1⟩) r1 l1 l2 (fn c hc).1 f1 f2 hacc
      obtain ⟨_, b2, _⟩ := flat_step (simple_radau I s) (fun x hx => ⟨hx.2.1, hx.2.2.1⟩) r2 l1 (fun f g h => h 0 (by omega)) (fn c hc).1 f1 f3 hacc
      exact ⟨⟨a1, a2, b2⟩, a3, by rw [a4, zero_mul, add_zero, (fn c hc).2]⟩
    have hm := moments_of_functionals s0.P s'.P s0.time s'.time I.velDep s'.flat _ hA' hframe.1 hframe.2 ⟨rfl, rfl, rfl, rfl⟩
      (fun c hc => (key c hc).2.1) (fun c hc => (key c hc).2.2)
    exact ⟨hframe, hm.1, hm.2, fun c hc => (key c hc).1⟩

/-- C63, plain system with forces that add no net momentum: after any number of IAS15 steps the total momentum is exactly what it was,
and the centre of mass has moved uniformly. -/
theorem C63_simple (T : Tab) (I : Interactions) (big : ℝ) (s0 s : Simple) (it : IAS)
    (hI : AllForces I (NoNetForce s0.P.num s0.P.mass)) (h : Course T (radauSimple I) big (fun s => s.preIter I) s0 s it) :
    momentum s.P = momentum s0.P ∧ massMoment s.P = massMoment s0.P + (s.time - s0.time) • momentum s0.P :=
  ⟨(simple_course hI h).mom, (simple_course hI h).com⟩

/-- what is carried along a course of a plain system, whatever the forces -/
theorem simple_clock {T : Tab} {I : Interactions} {big : ℝ} {s0 s : Simple} {it : IAS}
    (h : Course T (radauSimple I) big (fun s => s.preIter I) s0 s it) : FlatFor timeL it.gr := by
  induction h with
  | start => exact flat_new _
  | pre s it _ ih => exact ih
  | step s s' it it' fuel H h' hcourse e ih =>
    have hacc := accepted (simple_radau I s) big fuel H it it' s' h' (course_last hcourse) e
    have r : Rates (radauSimple I) (Simple.Frame s) 0 timeL 0 1 := fun x d _ e =>
      ⟨rfl, fun _ => by
        rw [← Res.ok.inj e]
        exact timeL_flat I.velDep (Simple.slopeOf I x).flat _ (Simple.derivative_getD I x)⟩
    have hlen : 0 < ((radauSimple I).write s).length := by
      show _ < (s.write I).length
      rw [C13_simple_size]; unfold Simple.variableNumber; omega
    exact (flat_step (simple_radau I s) (fun x hx => ⟨hx.2.1, hx.2.2.1⟩) r (fun _ _ _ => rfl) (fun f g h => h 0 hlen) rfl
      (fun _ _ => ⟨rfl, rfl, rfl⟩) ih hacc).2.1

/-- C63, plain system, any forces: each step advances the clock by exactly the step asked for times the ratios of the rejected
attempts. -/
theorem C63_clock (T : Tab) (I : Interactions) (big : ℝ) (s0 s s' : Simple) (it it' : IAS) (fuel : Nat) (H h' : ℝ)
    (h : Course T (radauSimple I) big (fun s => s.preIter I) s0 s it)
    (e : Radau.iterate T (radauSimple I) big fuel 0 H it s = .ok (s', it', h')) :
    ∃ (m : Nat) (q : Nat → ℝ), (∀ i, i < m → 0 < q i ∧ q i ≤ 1 / 4) ∧ s'.time = s.time + H * ∏ i ∈ range m, q i := by
  have hacc := accepted (simple_radau I s) big fuel H it it' s' h' (course_last h) e
  have r : Rates (radauSimple I) (Simple.Frame s) 0 timeL 0 1 := fun x d _ e =>
    ⟨rfl, fun _ => by
      rw [← Res.ok.inj e]
      exact timeL_flat I.velDep (Simple.slopeOf I x).flat _ (Simple.derivative_getD I x)⟩
  have hlen : 0 < ((radauSimple I).write s).length := by
    show _ < (s.write I).length
    rw [C13_simple_size]; unfold Simple.variableNumber; omega
  obtain ⟨_, _, _, m, q, h1, h2⟩ := flat_step (simple_radau I s) (fun x hx => ⟨hx.2.1, hx.2.2.1⟩) r (fun _ _ _ => rfl)
    (fun f g h => h 0 hlen) rfl (fun _ _ => ⟨rfl, rfl, rfl⟩) (simple_clock h) hacc
  refine ⟨m, q, h1, ?_⟩
  have t1 := timeL_flat I.velDep s'.flat (GR.toArr ((radauSimple I).write s')) (Simple.write_getD I s')
  have t2 := timeL_flat I.velDep s.flat (GR.toArr ((radauSimple I).write s)) (Simple.write_getD I s)
  rw [t1, t2, one_mul] at h2
  exact h2

/-- what is carried along a course of a regularised system -/
structure ReguKept (s0 s : ReguSys) (it : IAS) : Prop where
  frame : ReguSys.Frame s0 s
  mom : momentum s.P = momentum s0.P
  com : massMoment s.P = massMoment s0.P + (s.time - s0.time) • momentum s0.P
  flat : ∀ c, c < 3 → FlatFor (velL s0.P.num s0.P.mass c) it.gr ∧
    FlatFor (posL s0.P.num s0.P.mass c - comp (momentum s0.P) c • timeL) it.gr

theorem regu_course {T : Tab} {G : ℝ} {type : ReguType} {I : Interactions} {big : ℝ} {s0 s : ReguSys} {it : IAS}
    (hI : AllForces I (NoNetForce s0.P.num s0.P.mass)) (h : Course T (radauRegu G type I) big (fun s => s.preIter I) s0 s it) :
    ReguKept s0 s it := by
  induction h with
  | start => exact ⟨⟨rfl, rfl⟩, rfl, by rw [sub_self, zero_smul, add_zero], fun c _ => ⟨flat_new _, flat_new _⟩⟩
  | pre s it _ ih =>
    have e : (s.preIter I).P = s.P ∧ (s.preIter I).time = s.time := by unfold ReguSys.preIter; split_ifs <;> exact ⟨rfl, rfl⟩
    exact ⟨by unfold ReguSys.Frame; rw [e.1]; exact ih.frame, by rw [e.1]; exact ih.mom, by rw [e.1, e.2]; exact ih.com, ih.flat⟩
  | step s s' it it' fuel H h' hcourse e ih =>
    have hacc := accepted (regu_radau G type I s) big fuel H it it' s' h' (course_last hcourse) e
    have hI' : AllForces I (NoNetForce s.P.num s.P.mass) := by rw [ih.frame.1, ih.frame.2]; exact hI
    have hlen : 1 + 6 * s.P.num ≤ ((radauRegu G type I).write s).length := by
      show _ ≤ (s.write I).length
      rw [C13_regu_size]
      have := length_bound s.P.num I
      unfold ReguSys.variableNumber
      omega
    have hframe : ReguSys.Frame s0 s' := ih.frame.trans (by
      obtain ⟨_, _, _, _, _, _, _, _, _, _, _, _, _, _, _, _, _, _, f, _⟩ := hacc; exact f)
    have hA : ∀ v, GR.toArr ((radauRegu G type I).write s) v = s.flat.val I.velDep v := fun v => ReguSys.write_getD I s v
    have hA' : ∀ v, GR.toArr ((radauRegu G type I).write s') v = s'.flat.val I.velDep v := fun v => ReguSys.write_getD I s' v
    have fn := functionals_of_moments s0.P s.P s0.time s.time I.velDep s.flat _ hA ih.frame.1 ih.frame.2 ⟨rfl, rfl, rfl, rfl⟩ ih.mom ih.com
    have key : ∀ c, c < 3 →
        (FlatFor (velL s0.P.num s0.P.mass c) it'.gr ∧ FlatFor (posL s0.P.num s0.P.mass c - comp (momentum s0.P) c • timeL) it'.gr) ∧
        velL s0.P.num s0.P.mass c (GR.toArr ((radauRegu G type I).write s')) = comp (momentum s0.P) c ∧
        (posL s0.P.num s0.P.mass c - comp (momentum s0.P) c • timeL) (GR.toArr ((radauRegu G type I).write s')) =
          comp (massMoment s0.P) c - comp (momentum s0.P) c * s0.time := by
      intro c hc
      obtain ⟨f1, f2⟩ := ih.flat c hc
      have r1 := regu_rates G type I s hI' c hc (comp (momentum s0.P) c)
      have l1 := velL_local s.P.num s.P.mass c _ hc hlen
      have l2 := posL_local s.P.num s.P.mass c _ hc hlen (comp (momentum s0.P) c)
      rw [ih.frame.1, ih.frame.2] at r1 l1 l2
      obtain ⟨a1, a2, a3, m, q, _, a4⟩ := flat_step (regu_radau G type I s) (fun x hx => ⟨hx.2.1, hx.2.2.1⟩) r1 l1 l2 (fn c hc).1 f1 f2 hacc
      exact ⟨⟨a1, a2⟩, a3, by rw [a4, zero_mul, add_zero, (fn c hc).2]⟩
    have hm := moments_of_functionals s0.P s'.P s0.time s'.time I.velDep s'.flat _ hA' hframe.1 hframe.2 ⟨rfl, rfl, rfl, rfl⟩
      (fun c hc => (key c hc).2.1) (fun c hc => (key c hc).2.2)
    exact ⟨hframe, hm.1, hm.2, fun c hc => (key c hc).1⟩

/-- C63, regularised system, the same: whatever the time transformation, the mass centre moves uniformly in the physical time shown by
the clock. -/
theorem C63_regularized (T : Tab) (G : ℝ) (type : ReguType) (I : Interactions) (big : ℝ) (s0 s : ReguSys) (it : IAS)
    (hI : AllForces I (NoNetForce s0.P.num s0.P.mass)) (h : Course T (radauRegu G type I) big (fun s => s.preIter I) s0 s it) :
    momentum s.P = momentum s0.P ∧ massMoment s.P = massMoment s0.P + (s.time - s0.time) • momentum s0.P :=
  ⟨(regu_course hI h).mom, (regu_course hI h).com⟩

end SpaceHub.Props
