import Verif.Spec.TwoBody
import Verif.Props.Regu

/-
C88: regularised leapfrogs follow two-body orbits exactly.
-/

set_option autoImplicit false

namespace SpaceHub.Sys
open SpaceHub V3 Force Core Integrator Spec Props Finset Spec.TwoBody

/-- One drift-kick-drift in relative coordinates: `g0`, `g1` are the divisors of the position updates, `2 h / r1^2` the effect of the velocity update. -/
theorem dkd_algebra (x0 v0 x1 v1 x2 : V3 ℝ) (B h g0 g1 c : ℝ) (hg0 : g0 = dot v0 v0 / 2 + B) (hg1 : g1 = dot v1 v1 / 2 + B) (h0 : g0 ≠ 0) (h1 : g1 ≠ 0)
    (hx1 : x1 = x0 + (h / g0) • v0) (hc : c * dot x1 x1 = 2 * h) (hv1 : v1 = v0 - c • x1) (hx2 : x2 = x1 + (h / g1) • v1) :
    g1 ^ 2 * dot x2 x2 = g0 ^ 2 * dot x0 x0 ∧ cross x2 v1 = cross x0 v0 ∧
      (g1 - 2 * B) • x2 - (dot x2 v1) • v1 = (g0 - 2 * B) • x0 - (dot x0 v0) • v0 := by
  have hx0 : x0 = x1 - (h / g0) • v0 := by rw [hx1]; ext <;> simp
  have hgd : g1 - g0 = c * h - c * dot x1 v0 := by
    rw [hg1, hg0, hv1]
    simp only [dot, sub_x, sub_y, sub_z, smul_x, smul_y, smul_z] at hc ⊢
    linear_combination (1 / 2 * c) * hc
  have hvv0 : dot v0 v0 = 2 * (g0 - B) := by rw [hg0]; ring
  have hvv1 : dot v1 v1 = 2 * (g1 - B) := by rw [hg1]; ring
  have hs1 : dot x1 v1 = dot x1 v0 - 2 * h := by
    rw [hv1]
    simp only [dot, sub_x, sub_y, sub_z, smul_x, smul_y, smul_z] at hc ⊢
    linear_combination -hc
  have e0 : g0 ^ 2 * dot x0 x0 = g0 ^ 2 * dot x1 x1 - 2 * h * g0 * dot x1 v0 + h ^ 2 * dot v0 v0 := by
    rw [hx0]
    simp only [dot, sub_x, sub_y, sub_z, smul_x, smul_y, smul_z]
    field_simp
    ring
  have e2 : g1 ^ 2 * dot x2 x2 = g1 ^ 2 * dot x1 x1 + 2 * h * g1 * dot x1 v1 + h ^ 2 * dot v1 v1 := by
    rw [hx2]
    simp only [dot, add_x, add_y, add_z, smul_x, smul_y, smul_z]
    field_simp
    ring
  refine ⟨?_, ?_, ?_⟩
  · rw [e0, e2, hvv0, hvv1, hs1]
    have hk : dot x1 x1 * (g1 - g0) = 2 * h * h - 2 * h * dot x1 v0 := by rw [hgd]; linear_combination (h - dot x1 v0) * hc
    linear_combination (g1 + g0) * hk
  · rw [hx2, hx0, hv1]
    ext <;> simp [cross] <;> ring
  · have d2 : dot x2 v1 = dot x1 v1 + h / g1 * dot v1 v1 := by
      rw [hx2]; simp only [dot, add_x, add_y, add_z, smul_x, smul_y, smul_z]; ring
    have d0 : dot x0 v0 = dot x1 v0 - h / g0 * dot v0 v0 := by
      rw [hx0]; simp only [dot, sub_x, sub_y, sub_z, smul_x, smul_y, smul_z]; ring
    have a2 : dot x2 v1 - h / g1 * (g1 - 2 * B) = dot x1 v0 - h := by
      rw [d2, hvv1, hs1]; field_simp; ring
    have a0 : dot x0 v0 + h / g0 * (g0 - 2 * B) = dot x1 v0 - h := by
      rw [d0, hvv0]; field_simp; ring
    have l2 : (g1 - 2 * B) • x2 - (dot x2 v1) • v1 = (g1 - 2 * B) • x1 - (dot x1 v0 - h) • v1 := by
      rw [← a2, hx2]; ext <;> simp <;> ring
    have l0 : (g0 - 2 * B) • x0 - (dot x0 v0) • v0 = (g0 - 2 * B) • x1 - (dot x1 v0 - h) • v0 := by
      rw [← a0, hx0]; ext <;> simp <;> ring
    rw [l2, l0, hv1]
    ext <;> simp
    · linear_combination x1.x * hgd
    · linear_combination x1.y * hgd
    · linear_combination x1.z * hgd

/-- Reduced mass. -/
noncomputable def redMass (P : Particles) : ℝ := P.mass 0 * P.mass 1 / massSum P

/-- Total momentum. -/
def mom (P : Particles) : V3 ℝ := P.mass 0 • P.vel 0 + P.mass 1 • P.vel 1

theorem kinetic_two {P : Particles} (hn : P.num = 2) (h0 : 0 < P.mass 0) (h1 : 0 < P.mass 1) :
    kinetic P = redMass P * (dot (relVel P) (relVel P) / 2) + dot (mom P) (mom P) / (2 * massSum P) := by
  rw [kinetic_eq, hn, sum_range_succ, sum_range_succ, sum_range_zero, redMass, massSum, mom, relVel]
  have : P.mass 0 + P.mass 1 ≠ 0 := by linarith
  simp only [dot, sub_x, sub_y, sub_z, add_x, add_y, add_z, smul_x, smul_y, smul_z]
  field_simp
  ring

theorem potential_two {P : Particles} (hn : P.num = 2) :
    - Spec.potential 1 P.num P.mass P.pos = P.mass 0 * P.mass 1 / len (relPos P) := by
  have hl : len (P.pos 0 - P.pos 1) = len (relPos P) := by
    unfold len relPos; congr 1; simp [dot]; ring
  rw [hn, Spec.potential]
  have : (((range 2) ×ˢ (range 2)).filter (fun p : Nat × Nat => p.1 < p.2)) = {(0, 1)} := by decide
  rw [this, sum_singleton, hl]
  simp

theorem newton_two {P : Particles} (hn : P.num = 2) :
    (Interactions.mk Lib.newton []).newtonianAcc P 0 = (P.mass 1 / len (relPos P) ^ 3) • relPos P ∧
    (Interactions.mk Lib.newton []).newtonianAcc P 1 = -((P.mass 0 / len (relPos P) ^ 3) • relPos P) := by
  have h := C06_newton_direct P (setZero P.num fun _ => 0)
  have hl : len (P.pos 0 - P.pos 1) = len (P.pos 1 - P.pos 0) := by
    unfold len; congr 1; simp [dot]; ring
  have e0 : (range P.num).erase 0 = {1} := by rw [hn]; decide
  have e1 : (range P.num).erase 1 = {0} := by rw [hn]; decide
  constructor
  · show newtonDirect P (setZero P.num fun _ => 0) 0 = _
    rw [h.1 0 (by rw [hn]; norm_num), e0, sum_singleton]
    simp [setZero, newton, relPos]
  · show newtonDirect P (setZero P.num fun _ => 0) 1 = _
    rw [h.1 1 (by rw [hn]; norm_num), e1, sum_singleton]
    show setZero P.num (fun _ => 0) 1 + newton (P.mass 0) (P.pos 1) (P.pos 0) = _
    unfold newton relPos
    rw [hl]
    ext <;> simp [setZero] <;> ring

/-- The relative position after the position update that would complete the pending step `p`. -/
noncomputable def completed (s : ReguSys) (p : ℝ) : V3 ℝ :=
  relPos s.P + ((p / 2) / (s.R.bindE + kinetic s.P)) • relVel s.P

/-- What a leapfrog keeps at the completed position. -/
structure Keeps (s0 : Particles) (B : ℝ) (s : ReguSys) (p : ℝ) : Prop where
  num : s.P.num = 2
  m0 : s.P.mass 0 = s0.mass 0
  m1 : s.P.mass 1 = s0.mass 1
  mom : mom s.P = mom s0
  bind : s.R.bindE = B
  ints : s.R.bindE + kinetic s.P ≠ 0 →
    let g := (s.R.bindE + kinetic s.P) / redMass s0
    let g0 := (B + kinetic s0) / redMass s0
    let b := (B + dot (Sys.mom s0) (Sys.mom s0) / (2 * massSum s0)) / redMass s0
    let y := completed s p
    g ^ 2 * dot y y = g0 ^ 2 * dot (relPos s0) (relPos s0) ∧ cross y (relVel s.P) = cross (relPos s0) (relVel s0) ∧
      (g - 2 * b) • y - (dot y (relVel s.P)) • relVel s.P = (g0 - 2 * b) • relPos s0 - (dot (relPos s0) (relVel s0)) • relVel s0

theorem redMass_pos {P : Particles} (h0 : 0 < P.mass 0) (h1 : 0 < P.mass 1) : 0 < redMass P := by
  unfold redMass massSum; positivity

theorem drift_rel {s t : ReguSys} {h : ℝ} (hn : s.P.num = 2) (e : s.drift .logH h = .ok t) :
    s.R.bindE + kinetic s.P ≠ 0 ∧ relPos t.P = relPos s.P + (h / (s.R.bindE + kinetic s.P)) • relVel s.P ∧ t.P.vel = s.P.vel ∧ t.P.mass = s.P.mass ∧
      t.P.num = 2 ∧ t.R.bindE = s.R.bindE ∧ t.R.scale = s.R.bindE + kinetic s.P := by
  by_cases h0 : posDivisor .logH s = 0
  · rw [(C48_position_update .logH s h).1 h0] at e; cases e
  · obtain ⟨t', e', _, hp, r1, r2, r3, _, r4, _, r5⟩ := (C48_position_update .logH s h).2 h0
    rw [e] at e'; cases e'
    refine ⟨h0, ?_, r1, r2, r3.trans hn, r5, r4⟩
    unfold relPos relVel
    rw [hp 0 (by rw [hn]; norm_num), hp 1 (by rw [hn]; norm_num)]
    show _ = _ + (h / posDivisor .logH s) • _
    ext <;> simp <;> ring

theorem kick_rel {s t : ReguSys} {h : ℝ} (hn : s.P.num = 2) (h0 : 0 < s.P.mass 0) (h1 : 0 < s.P.mass 1)
    (e : s.kick 1 .logH ⟨Lib.newton, []⟩ h = .ok t) :
    ∃ c, c * dot (relPos s.P) (relPos s.P) = h / redMass s.P ∧ relVel t.P = relVel s.P - c • relPos s.P ∧ mom t.P = mom s.P ∧
      t.P.pos = s.P.pos ∧ t.P.mass = s.P.mass ∧ t.P.num = 2 ∧ t.R.bindE = s.R.bindE := by
  by_cases hz : velDivisor 1 .logH s = 0
  · rw [(C48_velocity_update 1 .logH Lib.newton s h).1 hz] at e; cases e
  · obtain ⟨t', e', hv, r1, r2, r3, _, _, _, r5, _⟩ := (C48_velocity_update 1 .logH Lib.newton s h).2 hz
    rw [e] at e'; cases e'
    have hD : velDivisor 1 .logH s = s.P.mass 0 * s.P.mass 1 / len (relPos s.P) := potential_two hn
    have hl : len (relPos s.P) ≠ 0 := by
      intro hl; rw [hD, hl, div_zero] at hz; exact hz rfl
    have hll : dot (relPos s.P) (relPos s.P) = len (relPos s.P) ^ 2 := by
      unfold len
      rw [Real.sq_sqrt]
      unfold dot; nlinarith [sq_nonneg (relPos s.P).x, sq_nonneg (relPos s.P).y, sq_nonneg (relPos s.P).z]
    obtain ⟨a0, a1⟩ := newton_two hn
    have hM : massSum s.P ≠ 0 := by unfold massSum; linarith
    refine ⟨h / velDivisor 1 .logH s * (massSum s.P / len (relPos s.P) ^ 3), ?_, ?_, ?_, r1, r2, r3.trans hn, r5⟩
    · rw [hll, hD, redMass]
      have := h0.ne'
      have := h1.ne'
      field_simp
    · have e1 : relVel t.P = t.P.vel 1 - t.P.vel 0 := rfl
      rw [e1, hv 0 (by rw [hn]; norm_num), hv 1 (by rw [hn]; norm_num), a0, a1, relVel, massSum]
      ext <;> simp <;> ring
    · unfold mom
      rw [hv 0 (by rw [hn]; norm_num), hv 1 (by rw [hn]; norm_num), a0, a1, r2]
      ext <;> simp <;> ring

theorem divisor_two {P : Particles} {B : ℝ} (hn : P.num = 2) (h0 : 0 < P.mass 0) (h1 : 0 < P.mass 1) :
    (B + kinetic P) / redMass P = dot (relVel P) (relVel P) / 2 + (B + dot (mom P) (mom P) / (2 * massSum P)) / redMass P := by
  have := (redMass_pos h0 h1).ne'
  rw [kinetic_two hn h0 h1]
  field_simp
  ring

theorem Keeps.step {s0 : Particles} {B : ℝ} {s t u : ReguSys} {p k : ℝ} (h0 : 0 < s0.mass 0) (h1 : 0 < s0.mass 1) (K : Keeps s0 B s p)
    (e1 : s.drift .logH ((p + k) / 2) = .ok t) (e2 : t.kick 1 .logH ⟨Lib.newton, []⟩ k = .ok u) : Keeps s0 B u k := by
  obtain ⟨hd, dx, dv, dm, dn, db, -⟩ := drift_rel K.num e1
  have tm0 : t.P.mass 0 = s0.mass 0 := by rw [dm, K.m0]
  have tm1 : t.P.mass 1 = s0.mass 1 := by rw [dm, K.m1]
  obtain ⟨c, hc, kv, km, kx, kmass, kn, kb⟩ := kick_rel dn (by rw [tm0]; exact h0) (by rw [tm1]; exact h1) e2
  have um0 : u.P.mass 0 = s0.mass 0 := by rw [kmass, tm0]
  have um1 : u.P.mass 1 = s0.mass 1 := by rw [kmass, tm1]
  have tmom : Sys.mom t.P = Sys.mom s.P := by unfold Sys.mom; rw [dv, dm]
  have umom : Sys.mom u.P = Sys.mom s0 := by rw [km, tmom, K.mom]
  have red : ∀ Q : Particles, Q.mass 0 = s0.mass 0 → Q.mass 1 = s0.mass 1 → redMass Q = redMass s0 ∧ massSum Q = massSum s0 := by
    intro Q a b; unfold redMass massSum; rw [a, b]; exact ⟨rfl, rfl⟩
  refine ⟨kn, um0, um1, umom, by rw [kb, db, K.bind], fun hu => ?_⟩
  have I := K.ints hd
  simp only at I ⊢
  have hrp := redMass_pos h0 h1
  have gs : (s.R.bindE + kinetic s.P) / redMass s0 = dot (relVel s.P) (relVel s.P) / 2 +
      (B + dot (Sys.mom s0) (Sys.mom s0) / (2 * massSum s0)) / redMass s0 := by
    have := divisor_two (B := B) K.num (by rw [K.m0]; exact h0) (by rw [K.m1]; exact h1)
    rw [K.mom, (red _ K.m0 K.m1).1, (red _ K.m0 K.m1).2] at this
    rw [K.bind]; exact this
  have gu : (u.R.bindE + kinetic u.P) / redMass s0 = dot (relVel u.P) (relVel u.P) / 2 +
      (B + dot (Sys.mom s0) (Sys.mom s0) / (2 * massSum s0)) / redMass s0 := by
    have := divisor_two (B := B) kn (by rw [um0]; exact h0) (by rw [um1]; exact h1)
    rw [umom, (red _ um0 um1).1, (red _ um0 um1).2] at this
    rw [kb, db, K.bind]; exact this
  have tv : relVel t.P = relVel s.P := by unfold relVel; rw [dv]
  have ux : relPos u.P = relPos t.P := by unfold relPos; rw [kx]
  have step : ∀ D : ℝ, (k / 2 / redMass s0) / (D / redMass s0) = k / 2 / D := fun D => by
    rw [div_div_div_cancel_right₀ hrp.ne']
  have A := dkd_algebra (completed s p) (relVel s.P) (relPos t.P) (relVel u.P) (completed u k)
    ((B + dot (Sys.mom s0) (Sys.mom s0) / (2 * massSum s0)) / redMass s0) (k / 2 / redMass s0) _ _ c gs gu
    (div_ne_zero hd hrp.ne') (div_ne_zero hu hrp.ne')
    (by rw [step, dx, completed, add_assoc, ← add_smul]; congr 2; ring)
    (by rw [hc, (red _ tm0 tm1).1]; ring) (by rw [kv, tv]) (by rw [step, completed, ux])
  exact ⟨A.1.trans I.1, A.2.1.trans I.2.1, A.2.2.trans I.2.2⟩

theorem Keeps.run {s0 : Particles} {B : ℝ} (h0 : 0 < s0.mass 0) (h1 : 0 < s0.mass 1) : ∀ (ks : List ℝ) (s s' : ReguSys) (p : ℝ), Keeps s0 B s p →
    (reguOps 1 .logH ⟨Lib.newton, []⟩).run (mergedFrom Op.drift Op.kick p ks) s = .ok s' → 
    Keeps s0 B s' 0 ∧ s'.R.bindE + kinetic s'.P ≠ 0 ∧ s'.stepScale = s'.R.bindE + kinetic s'.P := by
  intro ks
  induction ks with
  | nil =>
    intro s s' p K e
    simp only [mergedFrom, Ops.run, Ops.apply, reguOps, Res.bind_eq_ok] at e
    obtain ⟨t, e, e'⟩ := e
    cases e'
    obtain ⟨hd, dx, dv, dm, dn, db, ds⟩ := drift_rel K.num e
    have tv : relVel s'.P = relVel s.P := by unfold relVel; rw [dv]
    have hk : kinetic s'.P = kinetic s.P := kinetic_of dv dm (dn.trans K.num.symm)
    refine ⟨⟨dn, by rw [dm, K.m0], by rw [dm, K.m1], by unfold Sys.mom; rw [dv, dm]; exact K.mom, by rw [db, K.bind], fun _ => ?_⟩, by rw [db, hk]; exact hd, by rw [db, hk]; exact ds⟩
    have I := K.ints hd
    have hy : completed s' 0 = completed s p := by
      unfold completed
      rw [dx]
      simp
    simp only at I ⊢
    rw [hy, db, hk, tv]
    exact I
  | cons k ks ih =>
    intro s s' p K e
    simp only [mergedFrom, Ops.run, Ops.apply, reguOps, Res.bind_eq_ok] at e
    obtain ⟨t, e1, u, e2, e3⟩ := e
    exact ih u s' k (K.step h0 h1 e1 e2) e3

theorem Keeps.steps {s0 : Particles} {B : ℝ} (h0 : 0 < s0.mass 0) (h1 : 0 < s0.mass 1) : ∀ (kss : List (List ℝ)) (s s' : ReguSys), Keeps s0 B s 0 →
    s.R.bindE + kinetic s.P ≠ 0 → s.stepScale = s.R.bindE + kinetic s.P →
    steps (reguStep 1 .logH ⟨Lib.newton, []⟩) (kss.map (mergedFrom Op.drift Op.kick 0)) s = .ok s' →
    Keeps s0 B s' 0 ∧ s'.R.bindE + kinetic s'.P ≠ 0 ∧ s'.stepScale = s'.R.bindE + kinetic s'.P := by
  intro kss
  induction kss with
  | nil => intro s s' K hd hs e; cases e; exact ⟨K, hd, hs⟩
  | cons ks kss ih =>
    intro s s' K hd hs e
    simp only [List.map_cons, Integrator.steps, Res.bind_eq_ok] at e
    obtain ⟨t, e1, e2⟩ := e
    have hp : s.preIter ⟨Lib.newton, []⟩ = s := rfl
    rw [reguStep, hp] at e1
    obtain ⟨a, b, c⟩ := K.run h0 h1 ks s t 0 e1
    exact ih t s' a b c e2

theorem len_sq' (a : V3 ℝ) : len a ^ 2 = dot a a := by
  unfold len
  rw [Real.sq_sqrt]
  unfold dot; nlinarith [sq_nonneg a.x, sq_nonneg a.y, sq_nonneg a.z]

theorem len_pos' {a : V3 ℝ} (h : a ≠ 0) : 0 < len a := by
  unfold len
  rw [Real.sqrt_pos]
  rcases (show 0 ≤ dot a a by rw [← len_sq']; positivity).lt_or_eq with h' | h'
  · exact h'
  · exfalso
    apply h
    unfold dot at h'
    have hx := sq_nonneg a.x
    have hy := sq_nonneg a.y
    have hz := sq_nonneg a.z
    ext
    · exact pow_eq_zero_iff (two_ne_zero) |>.mp (by simp; nlinarith : a.x ^ 2 = 0)
    · exact pow_eq_zero_iff (two_ne_zero) |>.mp (by simp; nlinarith : a.y ^ 2 = 0)
    · exact pow_eq_zero_iff (two_ne_zero) |>.mp (by simp; nlinarith : a.z ^ 2 = 0)

/-- With `g = M / r` the Laplace vector and the energy in terms of `g`. -/
theorem laplace_eq {P : Particles} {g b : ℝ} (hg : g = massSum P / len (relPos P)) (hb : g = dot (relVel P) (relVel P) / 2 + b) :
    energy P = -b ∧ laplace P = (g - 2 * b) • relPos P - (dot (relPos P) (relVel P)) • relVel P := by
  constructor
  · unfold energy; rw [← hg, len_sq']; linarith
  · unfold laplace angular
    rw [← hg]
    have hv : dot (relVel P) (relVel P) = 2 * (g - b) := by linarith
    have : (g - 2 * b) • relPos P = (dot (relVel P) (relVel P) - g) • relPos P := by rw [hv]; congr 1; ring
    rw [this]
    ext <;> simp [cross, dot] <;> ring

/-- **C88, LogH.** Two particles under gravity, regularised by LogH: after any number of leapfrog steps that start and end with position updates, of any
sizes and merged into calls of any lengths, the particles are on the orbit they started on.  For unbound pairs this needs that the step scale reported
at the end is positive (see `C88_unbound_needs_small_steps`). -/
theorem C88_logH (time : ℝ) (P : Particles) (hn : P.num = 2) (h0 : 0 < P.mass 0) (h1 : 0 < P.mass 1) (hx : relPos P ≠ 0) (kss : List (List ℝ))
    (s : ReguSys) (e : steps (reguStep 1 .logH ⟨Lib.newton, []⟩) (kss.map (mergedFrom Op.drift Op.kick 0)) (ReguSys.init 1 .logH time P) = .ok s)
    (hb : energy P ≤ 0 ∨ 0 < s.stepScale) : SameOrbit P s.P := by
  have hr := len_pos' hx
  have hrp := redMass_pos h0 h1
  have hM : 0 < massSum P := by unfold massSum; linarith
  have hD0 : -(totalEnergy 1 P) + kinetic P = P.mass 0 * P.mass 1 / len (relPos P) := by
    rw [← potential_two hn, ← potentialDirect_eq]; unfold totalEnergy; ring
  have hsc : (ReguSys.init 1 .logH time P).stepScale = -(totalEnergy 1 P) + kinetic P := by
    rw [hD0, ← potential_two hn, ← potentialDirect_eq]; rfl
  obtain ⟨K, hd, hs⟩ := Keeps.steps (s0 := P) (B := -(totalEnergy 1 P)) h0 h1 kss (ReguSys.init 1 .logH time P) s
    ⟨hn, rfl, rfl, rfl, rfl, fun _ => by
      have : completed (ReguSys.init 1 .logH time P) 0 = relPos P := by
        unfold completed; simp [ReguSys.init]
      rw [this]
      exact ⟨rfl, rfl, rfl⟩⟩ (by
      show -(totalEnergy 1 P) + kinetic P ≠ 0
      rw [hD0]; positivity) hsc e
  have I := K.ints hd
  have hy : completed s 0 = relPos s.P := by unfold completed; simp
  simp only [hy] at I
  have red : redMass s.P = redMass P ∧ massSum s.P = massSum P := by unfold redMass massSum; rw [K.m0, K.m1]; exact ⟨rfl, rfl⟩
  have g0 := divisor_two (B := -(totalEnergy 1 P)) hn h0 h1
  have g1 := divisor_two (B := -(totalEnergy 1 P)) K.num (by rw [K.m0]; exact h0) (by rw [K.m1]; exact h1)
  rw [K.mom, red.1, red.2] at g1
  rw [K.bind] at hd hs I
  have hg0 : (-(totalEnergy 1 P) + kinetic P) / redMass P = massSum P / len (relPos P) := by
    rw [hD0, redMass]
    have := h0.ne'
    have := h1.ne'
    field_simp
  generalize hbdef : (-(totalEnergy 1 P) + dot (mom P) (mom P) / (2 * massSum P)) / redMass P = b at *
  obtain ⟨en0, la0⟩ := laplace_eq hg0 g0
  have gpos : 0 < (-(totalEnergy 1 P) + kinetic s.P) / redMass P := by
    rcases hb with hb | hb
    · have : 0 ≤ (-(totalEnergy 1 P) + kinetic s.P) / redMass P := by
        rw [g1, ← len_sq']
        have : 0 ≤ len (relVel s.P) ^ 2 := sq_nonneg _
        linarith
      exact lt_of_le_of_ne this (Ne.symm (div_ne_zero hd hrp.ne'))
    · rw [hs] at hb; exact div_pos hb hrp
  have hx' : relPos s.P ≠ 0 := by
    intro hz
    have := I.1
    rw [hz, hg0] at this
    have h3 : (massSum P / len (relPos P)) ^ 2 * dot (relPos P) (relPos P) = massSum P ^ 2 := by rw [← len_sq']; field_simp
    rw [h3] at this
    simp [dot] at this
    exact hM.ne' (pow_eq_zero_iff two_ne_zero |>.mp this.symm)
  have hr' := len_pos' hx'
  have hgs : (-(totalEnergy 1 P) + kinetic s.P) / redMass P = massSum s.P / len (relPos s.P) := by
    rw [eq_div_iff hr'.ne', red.2]
    have h3 : ((-(totalEnergy 1 P) + kinetic s.P) / redMass P * len (relPos s.P)) ^ 2 = massSum P ^ 2 := by
      rw [mul_pow, len_sq', I.1, hg0, ← len_sq']; field_simp
    exact (pow_left_inj₀ (mul_pos gpos hr').le hM.le two_ne_zero).mp h3
  obtain ⟨en1, la1⟩ := laplace_eq hgs g1
  refine ⟨K.m0, K.m1, hx', by rw [en1, en0], I.2.1, ?_⟩
  rw [la1, la0]
  exact I.2.2

/-- **C88, TTL.** The same for the time-transformed leapfrog. -/
theorem C88_ttl (time : ℝ) (P : Particles) (hn : P.num = 2) (h0 : 0 < P.mass 0) (h1 : 0 < P.mass 1) (hx : relPos P ≠ 0) (kss : List (List ℝ))
    (s : ReguSys) (e : steps (reguStep 1 .ttl ⟨Lib.newton, []⟩) (kss.map (mergedFrom Op.drift Op.kick 0)) (ReguSys.init 1 .ttl time P) = .ok s)
    (hb : energy P ≤ 0 ∨ 0 < s.stepScale) : SameOrbit P s.P := by
  rcases C48_ttl_equals_logH 1 Lib.newton time P (kss.map (mergedFrom Op.drift Op.kick 0)) with ⟨_, h⟩ | ⟨s1, t, e1, e2, hP, _, hS⟩
  · rw [e] at h; cases h
  · rw [e] at e2; cases e2
    rw [← hP]
    exact C88_logH time P hn h0 h1 hx kss s1 e1 (by rw [hS]; exact hb)

/-- **C88, AR chain.** The same for the algorithmic-regularisation chain, with either transformation. -/
theorem C88_archain (type : ReguType) (ht : type ≠ .none) (time : ℝ) (P : Particles) (hn : P.num = 2) (h0 : 0 < P.mass 0) (h1 : 0 < P.mass 1)
    (hx : relPos P ≠ 0) (idx : Arr Nat) (hidx : IndexOf P idx) (kss : List (List ℝ)) (s0 s : ARSys) (hi : ARSys.init 1 type time P idx = .ok s0)
    (hr : Steps (ARStep 1 type ⟨Lib.newtonC, []⟩) (kss.map (mergedFrom Op.drift Op.kick 0)) s0 (.ok s))
    (hb : energy P ≤ 0 ∨ 0 < s.R.scale) : SameOrbit P s.P := by
  have A : AgreesI ⟨Lib.newtonC, []⟩ ⟨Lib.newton, []⟩ := ⟨agrees_newton, .nil⟩
  obtain ⟨s0', e0, _, hall⟩ := C53_archain_evolves_like_regularized A 1 type time P idx hidx (kss.map (mergedFrom Op.drift Op.kick 0))
  rw [hi] at e0; cases e0
  rcases hall _ hr with ⟨s', t, e, et, k1, _, _, k4⟩ | ⟨hx, _⟩
  · cases e
    rw [k1]
    rw [k4] at hb
    cases type
    · exact C88_logH time P hn h0 h1 hx kss t et hb
    · exact C88_ttl time P hn h0 h1 hx kss t et hb
    · exact absurd rfl ht
  · cases hx

/-- The integrators this covers: the second- and fourth-order symplectic ones and the sub-steps of Bulirsch-Stoer with the drift-kick-drift leapfrog. -/
theorem C88_covers (h : ℝ) (n : Nat) (hn : 1 ≤ n) :
    symplectic2nd.map (Stage.op h) = mergedFrom Op.drift Op.kick 0 [h] ∧
    symplectic4th.map (Stage.op h) = mergedFrom Op.drift Op.kick 0 [1.35120719195966 * h, -1.70241438391932 * h, 1.35120719195966 * h] ∧
    substepsDKD h n = mergedFrom Op.drift Op.kick 0 (List.replicate n (h / n)) := by
  refine ⟨?_, ?_, ?_⟩
  · simp [symplectic2nd, Stage.op, mergedFrom]; ring
  · simp [symplectic4th, Stage.op, mergedFrom]
    refine ⟨?_, ?_, ?_, ?_, ?_, ?_, ?_⟩ <;> first | (norm_num; done) | ring
  · obtain ⟨m, rfl⟩ := Nat.exists_eq_add_of_le hn
    rw [Nat.add_comm 1 m]
    unfold substepsDKD
    simp only
    generalize h / ((m + 1 : ℕ) : ℝ) = d
    have e1 : ∀ m : Nat, forLoop 1 (m + 1) (fun _ l => l ++ [Op.kick d, Op.drift d]) [] = (List.replicate m [Op.kick d, Op.drift d]).flatten := by
      intro m
      induction m with
      | zero => rw [forLoop_self _ _ (by norm_num)]; rfl
      | succ m ih => rw [forLoop_succ _ _ (by omega), ih, List.replicate_succ', List.flatten_append]; simp
    have e2 : ∀ m : Nat, Op.kick d :: mergedFrom Op.drift Op.kick d (List.replicate m d) =
        (List.replicate m [Op.kick d, Op.drift d]).flatten ++ [Op.kick d, Op.drift (1 / 2 * d)] := by
      intro m
      induction m with
      | zero => simp [mergedFrom]; ring
      | succ m ih =>
        rw [List.replicate_succ, mergedFrom, ih, List.replicate_succ, List.flatten_cons]
        simp
    rw [e1, List.replicate_succ, mergedFrom, e2]
    simp
    ring

/-! ### Limits of the claim and a concrete case -/

/-- Two particles on the x axis, the first at rest in the origin. -/
def onAxis (m x v : ℝ) : Particles :=
  { num := 2, pos := fun k => if k = 0 then ⟨0, 0, 0⟩ else ⟨x, 0, 0⟩, vel := fun k => if k = 0 then ⟨0, 0, 0⟩ else ⟨v, 0, 0⟩, mass := fun _ => m }

theorem len_axis (a : ℝ) (h : 0 ≤ a) : len (⟨a, 0, 0⟩ : V3 ℝ) = a := by
  unfold len dot; simp [h]

/-- State on the axis, in numbers: masses `m`, positions `x0 < x1`, velocities `v0`, `v1`. -/
def AtAxis (s : ReguSys) (m B x0 x1 v0 v1 : ℝ) : Prop :=
  s.P.num = 2 ∧ s.P.mass 0 = m ∧ s.P.mass 1 = m ∧ s.R.bindE = B ∧ s.P.pos 0 = ⟨x0, 0, 0⟩ ∧ s.P.pos 1 = ⟨x1, 0, 0⟩ ∧
    s.P.vel 0 = ⟨v0, 0, 0⟩ ∧ s.P.vel 1 = ⟨v1, 0, 0⟩

theorem AtAxis.kin {s : ReguSys} {m B x0 x1 v0 v1 : ℝ} (a : AtAxis s m B x0 x1 v0 v1) : kinetic s.P = m * (v0 ^ 2 + v1 ^ 2) / 2 := by
  obtain ⟨n, m0, m1, -, -, -, u0, u1⟩ := a
  rw [kinetic_eq, n, sum_range_succ, sum_range_succ, sum_range_zero, m0, m1, u0, u1]
  simp [dot]; ring

theorem AtAxis.drift {s : ReguSys} {m B x0 x1 v0 v1 : ℝ} (a : AtAxis s m B x0 x1 v0 v1) (h D : ℝ) (hD : D = B + m * (v0 ^ 2 + v1 ^ 2) / 2) (hz : D ≠ 0) :
    ∃ t, s.drift .logH h = .ok t ∧ AtAxis t m B (x0 + v0 * (h / D)) (x1 + v1 * (h / D)) v0 v1 := by
  have hd : posDivisor .logH s = D := by
    show s.R.bindE + kinetic s.P = D
    rw [a.kin, a.2.2.2.1, hD]
  obtain ⟨t, e, _, hp, r1, r2, r3, _, _, _, r5⟩ := (C48_position_update .logH s h).2 (by rw [hd]; exact hz)
  obtain ⟨n, m0, m1, b, p0, p1, u0, u1⟩ := a
  refine ⟨t, e, r3.trans n, by rw [r2, m0], by rw [r2, m1], by rw [r5, b], ?_, ?_, by rw [r1, u0], by rw [r1, u1]⟩
  · rw [hp 0 (by rw [n]; norm_num), hd, p0, u0]; ext <;> simp
  · rw [hp 1 (by rw [n]; norm_num), hd, p1, u1]; ext <;> simp

theorem AtAxis.kick {s : ReguSys} {m B x0 x1 v0 v1 : ℝ} (a : AtAxis s m B x0 x1 v0 v1) (h : ℝ) (hm : 0 < m) (hx : x0 < x1) :
    ∃ t, s.kick 1 .logH ⟨Lib.newton, []⟩ h = .ok t ∧ AtAxis t m B x0 x1 (v0 + h / (m * (x1 - x0))) (v1 - h / (m * (x1 - x0))) := by
  obtain ⟨n, m0, m1, b, p0, p1, u0, u1⟩ := a
  have hr : relPos s.P = ⟨x1 - x0, 0, 0⟩ := by unfold relPos; rw [p0, p1]; ext <;> simp
  have hl : len (relPos s.P) = x1 - x0 := by rw [hr, len_axis _ (by linarith)]
  have hq : 0 < x1 - x0 := by linarith
  have hd : velDivisor 1 .logH s = m * m / (x1 - x0) := by
    show - Spec.potential 1 s.P.num s.P.mass s.P.pos = _
    rw [potential_two n, hl, m0, m1]
  obtain ⟨t, e, hv, r1, r2, r3, _, _, _, r5, _⟩ := (C48_velocity_update 1 .logH Lib.newton s h).2 (by rw [hd]; positivity)
  obtain ⟨a0, a1⟩ := newton_two n
  refine ⟨t, e, r3.trans n, by rw [r2, m0], by rw [r2, m1], by rw [r5, b], by rw [r1, p0], by rw [r1, p1], ?_, ?_⟩
  · rw [hv 0 (by rw [n]; norm_num), a0, hd, hl, hr, u0, m1]; ext <;> simp; field_simp
  · rw [hv 1 (by rw [n]; norm_num), a1, hd, hl, hr, u1, m0]; ext <;> simp; field_simp; ring

theorem onAxis_init (m x v : ℝ) (hx : 0 < x) (time : ℝ) :
    AtAxis (ReguSys.init 1 .logH time (onAxis m x v)) m (m * m / x - m * v ^ 2 / 2) 0 x 0 v := by
  refine ⟨rfl, rfl, rfl, ?_, rfl, rfl, rfl, rfl⟩
  show -(totalEnergy 1 (onAxis m x v)) = _
  have hp := potential_two (P := onAxis m x v) rfl
  have hr : relPos (onAxis m x v) = ⟨x, 0, 0⟩ := by unfold relPos onAxis; ext <;> simp
  rw [hr, len_axis _ hx.le] at hp
  have hk : kinetic (onAxis m x v) = m * v ^ 2 / 2 := by
    rw [kinetic_eq]
    show ∑ k ∈ range 2, _ = _
    rw [sum_range_succ, sum_range_succ, sum_range_zero]
    simp [onAxis, dot]; ring
  unfold totalEnergy
  rw [potentialDirect_eq, hk]
  have : Spec.potential 1 (onAxis m x v).num (onAxis m x v).mass (onAxis m x v).pos = -(m * m / x) := by
    rw [← neg_eq_iff_eq_neg, hp]; rfl
  rw [this]; ring

theorem AtAxis.energy {s : ReguSys} {m B x0 x1 v0 v1 : ℝ} (a : AtAxis s m B x0 x1 v0 v1) (r : ℝ) (hr : 0 ≤ r) (h : (x1 - x0) ^ 2 = r ^ 2) :
    energy s.P = (v1 - v0) ^ 2 / 2 - 2 * m / r := by
  obtain ⟨n, m0, m1, b, p0, p1, u0, u1⟩ := a
  have h1 : len (relPos s.P) = r := by
    unfold relPos len dot; rw [p0, p1]; simp
    rw [← pow_two, h, Real.sqrt_sq hr]
  have h2 : len (relVel s.P) ^ 2 = (v1 - v0) ^ 2 := by
    rw [len_sq']; unfold relVel dot; rw [u0, u1]; simp; ring
  unfold TwoBody.energy massSum
  rw [h1, h2, m0, m1]; ring

/-- For an unbound pair a single large step can leave the orbit: energy 1 before, 0 after, and the particles have passed through each other.  The step
scale at the end is negative, which is what `C88_logH` excludes. -/
theorem C88_unbound_needs_small_steps : ∃ s, reguStep 1 .logH ⟨Lib.newton, []⟩ (symplectic2nd.map (Stage.op (1 / 4)))
    (ReguSys.init 1 .logH 0 (onAxis (1 / 4) (1 / 7) 3)) = .ok s ∧ energy (onAxis (1 / 4) (1 / 7) 3) = 1 ∧ energy s.P = 0 := by
  have a0 := onAxis_init (1 / 4) (1 / 7) 3 (by norm_num) 0
  obtain ⟨s1, e1, a1⟩ := a0.drift (1 / 8) (7 / 16) (by norm_num) (by norm_num)
  obtain ⟨s2, e2, a2⟩ := a1.kick (1 / 4) (by norm_num) (by norm_num)
  obtain ⟨s3, e3, a3⟩ := a2.drift (1 / 8) (-1 / 16) (by norm_num) (by norm_num)
  refine ⟨s3, ?_, ?_, ?_⟩
  · rw [(C88_covers (1 / 4) 1 le_rfl).1]
    have hp : (ReguSys.init 1 .logH 0 (onAxis (1 / 4) (1 / 7) 3)).preIter ⟨Lib.newton, []⟩ = ReguSys.init 1 .logH 0 (onAxis (1 / 4) (1 / 7) 3) := rfl
    rw [reguStep, hp]
    simp only [mergedFrom, Ops.run, Ops.apply, reguOps]
    rw [show ((0 : ℝ) + 1 / 4) / 2 = 1 / 8 by norm_num, show ((1 : ℝ) / 4) / 2 = 1 / 8 by norm_num, e1, Res.ok_bind, e2, Res.ok_bind, e3, Res.ok_bind]
  · have := a0.energy (1 / 7) (by norm_num) (by norm_num)
    rw [show (onAxis (1 / 4) (1 / 7) 3) = (ReguSys.init 1 .logH 0 (onAxis (1 / 4) (1 / 7) 3)).P from rfl, this]; norm_num
  · rw [a3.energy 1 (by norm_num) (by norm_num)]; norm_num

/-- The leapfrog that starts with a velocity update does not stay on the orbit, even of a bound pair. -/
theorem C88_kick_first_not_exact : ∃ s, reguStep 1 .logH ⟨Lib.newton, []⟩ (substepsKDK 2 1)
    (ReguSys.init 1 .logH 0 (onAxis 2 1 2)) = .ok s ∧ energy (onAxis 2 1 2) = -2 ∧ energy s.P = -172 / 81 := by
  have a0 := onAxis_init 2 1 2 (by norm_num) 0
  obtain ⟨s1, e1, a1⟩ := a0.kick 1 (by norm_num) (by norm_num)
  obtain ⟨s2, e2, a2⟩ := a1.drift 2 (5 / 2) (by norm_num) (by norm_num)
  obtain ⟨s3, e3, a3⟩ := a2.kick 1 (by norm_num) (by norm_num)
  refine ⟨s3, ?_, ?_, ?_⟩
  · have hp : (ReguSys.init 1 .logH 0 (onAxis 2 1 2)).preIter ⟨Lib.newton, []⟩ = ReguSys.init 1 .logH 0 (onAxis 2 1 2) := rfl
    rw [reguStep, hp, substepsKDK]
    rw [forLoop_self _ _ (by norm_num)]
    simp only [List.append_nil, List.cons_append, List.nil_append, Ops.run, Ops.apply, reguOps]
    rw [show (1 : ℝ) / 2 * (2 / (1 : ℕ)) = 1 by norm_num, show (2 : ℝ) / (1 : ℕ) = 2 by norm_num, e1, Res.ok_bind, e2, Res.ok_bind, e3, Res.ok_bind]
  · have := a0.energy 1 (by norm_num) (by norm_num)
    rw [show (onAxis 2 1 2) = (ReguSys.init 1 .logH 0 (onAxis 2 1 2)).P from rfl, this]; norm_num
  · rw [a3.energy (9 / 5) (by norm_num) (by norm_num)]; norm_num

/-- Concretely: the second-order integrator with step 2 from the same bound pair returns, and the pair is on its orbit. -/
example : ∃ s, steps (reguStep 1 .logH ⟨Lib.newton, []⟩) [symplectic2nd.map (Stage.op 2)] (ReguSys.init 1 .logH 0 (onAxis 2 1 2)) = .ok s ∧
    SameOrbit (onAxis 2 1 2) s.P := by
  have a0 := onAxis_init 2 1 2 (by norm_num) 0
  obtain ⟨s1, e1, a1⟩ := a0.drift 1 4 (by norm_num) (by norm_num)
  obtain ⟨s2, e2, a2⟩ := a1.kick 2 (by norm_num) (by norm_num)
  obtain ⟨s3, e3, a3⟩ := a2.drift 1 (20 / 9) (by norm_num) (by norm_num)
  have e : steps (reguStep 1 .logH ⟨Lib.newton, []⟩) [symplectic2nd.map (Stage.op 2)] (ReguSys.init 1 .logH 0 (onAxis 2 1 2)) = .ok s3 := by
    rw [(C88_covers 2 1 le_rfl).1]
    have hp : (ReguSys.init 1 .logH 0 (onAxis 2 1 2)).preIter ⟨Lib.newton, []⟩ = ReguSys.init 1 .logH 0 (onAxis 2 1 2) := rfl
    simp only [Integrator.steps, reguStep, hp, mergedFrom, Ops.run, Ops.apply, reguOps]
    rw [show ((0 : ℝ) + 2) / 2 = 1 by norm_num, show (2 : ℝ) / 2 = 1 by norm_num, e1, Res.ok_bind, e2, Res.ok_bind, e3, Res.ok_bind, Res.ok_bind]
  refine ⟨s3, e, C88_logH 0 (onAxis 2 1 2) rfl (by norm_num [onAxis]) (by norm_num [onAxis]) ?_ [[2]] s3 ?_ (Or.inl ?_)⟩
  · intro h
    have := congrArg V3.x h
    simp [relPos, onAxis] at this
  · rw [← e, (C88_covers 2 1 le_rfl).1]; rfl
  · have := a0.energy 1 (by norm_num) (by norm_num)
    rw [show (onAxis 2 1 2) = (ReguSys.init 1 .logH 0 (onAxis 2 1 2)).P from rfl, this]; norm_num

end SpaceHub.Sys
