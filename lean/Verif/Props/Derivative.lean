import Verif.Props.RadauConserve
import Verif.Props.Regu
import Verif.Props.Core

/-
C61: the derivative handed to the Gauss-Radau integrator.
-/

set_option autoImplicit false

namespace SpaceHub.Props
open SpaceHub SpaceHub.Sys SpaceHub.BS SpaceHub.Radau V3 Force Core Finset

/-- The forces of `I` add: `own` is the acceleration by the internal force, `more` the sum of those by the extra forces. -/
structure Pull (I : Interactions) (P : Particles) (own more : Nat → V3 ℝ) : Prop where
  own : Adds I.internal P own
  more : ∃ c : ForceClass Particles → Nat → V3 ℝ, (∀ f ∈ I.extra, Adds f P (c f)) ∧ ∀ k, more k = (I.extra.map fun f => c f k).sum

theorem Pull.eval {I : Interactions} {P : Particles} {own more : Nat → V3 ℝ} (h : Pull I P own more) (k : Nat) (hk : k < P.num) :
    I.newtonianAcc P k = own k ∧ I.acc P k = own k + more k ∧ (I.extra ≠ [] → I.extraAcc P k = more k) ∧ (I.extra = [] → more k = 0) := by
  classical
  obtain ⟨c, h1, h2⟩ := h.more
  have key : ∀ (c' : ForceClass Particles → Nat → V3 ℝ), (∀ f ∈ I.extra, Adds f P (c' f)) → ∀ f ∈ I.extra, c' f = c f := by
    intro c' h' f hf
    funext k
    have e1 := h' f hf (fun _ => 0) k
    have e2 := h1 f hf (fun _ => 0) k
    rw [e1] at e2
    simpa using e2
  -- one assignment of contributions for all forces
  set c' : ForceClass Particles → Nat → V3 ℝ := fun f k => f.addAccTo P (fun _ => 0) k with hc'
  have hin : Adds I.internal P (c' I.internal) := by
    intro a k
    rw [h.own a k, hc']
    show _ = a k + I.internal.addAccTo P (fun _ => 0) k
    rw [h.own, zero_add]
  have hex : ∀ f ∈ I.extra, Adds f P (c' f) := by
    intro f hf a k
    show _ = a k + f.addAccTo P (fun _ => 0) k
    rw [h1 f hf a k, h1 f hf, zero_add]
  have e1 : c' I.internal k = own k := by
    show I.internal.addAccTo P (fun _ => 0) k = _
    rw [h.own, zero_add]
  have e2 : (I.extra.map fun f => c' f k).sum = more k := by
    rw [h2]
    congr 1
    exact List.map_congr_left fun f hf => by rw [key c' hex f hf]
  obtain ⟨s1, s2, _, _, s5, _⟩ := C11_force_splitting (fun p : Particles => p.num) I.internal I.extra P c' hin hex (fun _ => 0) k hk
  refine ⟨s1.trans e1, ?_, fun hne => (s5 hne).trans e2, fun he => by rw [h2, he]; rfl⟩
  have := s2
  rw [e1, e2] at this
  exact this

theorem flags_extra (I : Interactions) : (I.velIndep || I.velDep) = true ↔ I.extra ≠ [] := by
  show (extVelIndep I.extra || extVelDep I.extra) = true ↔ _
  cases hx : I.extra with
  | nil => simp [extVelDep, extVelIndep]
  | cons f l => cases hf : f.velDep <;> simp [extVelDep, extVelIndep, hf]

/-- C61, plain system: the derivative array is what writing the rates of the variables gives: 1 for the time, the velocities, and the
total accelerations. -/
theorem C61_simple (I : Interactions) (s : Simple) (own more : Nat → V3 ℝ) (h : Pull I s.P own more) :
    s.derivative I = ({ s with time := 1, P := { s.P with pos := s.P.vel, vel := fun k => own k + more k }, aux := fun k => own k + more k } : Simple).write I := by
  have e : coords s.P.num (I.acc s.P) = coords s.P.num (fun k => own k + more k) :=
    coords_congr _ _ _ fun k hk => (h.eval k hk).2.1
  rw [Simple.write_eq]
  unfold Simple.derivative
  simp only [addCoordsTo_eq, e]
  cases I.velDep <;> simp

/-- what the derivative of a regularised system is when both divisors are `D` -/
theorem regu_derivative (G : ℝ) (type : ReguType) (I : Interactions) (s : ReguSys) (own more : Nat → V3 ℝ) (h : Pull I s.P own more)
    (D : ℝ) (h0 : D ≠ 0) (hp : posDivisor type s = D) (hv : velDivisor G type s = D) :
    ∃ d s1, s.derivative G type I = .ok (d, s1) ∧ s1.P = s.P ∧
      d = ({ s with time := 1 / D, P := { s.P with pos := fun k => (1 / D) • s.P.vel k, vel := fun k => (1 / D) • (own k + more k) }, aux := fun k => (1 / D) • (own k + more k), R := { s.R with omega := if type = .ttl then 1 / D * power s.P s.P.vel own else 0, bindE := if type = .logH ∧ I.extra ≠ [] then -(1 / D * power s.P s.P.vel (fun k => own k + more k)) else 0 } } : ReguSys).write I := by
  have hp' : posDivisor type s ≠ 0 := by rw [hp]; exact h0
  have e1 := posPhyTime_eq type s 1
  rw [if_neg hp', hp] at e1
  have e2 : ∀ r : Regu, r.velPhyTime type (potentialDirect G s.P) 1 = .ok ({ r with scale := if type = .none then r.scale else D }, 1 / D) := by
    intro r
    have := velPhyTime_eq G type { s with R := r } 1
    rw [show velDivisor G type { s with R := r } = D from hv, if_neg h0] at this
    exact this
  unfold ReguSys.derivative
  rw [e1, Res.ok_bind]
  dsimp only
  rw [e2, Res.ok_bind]
  dsimp only
  refine ⟨_, _, rfl, rfl, ?_⟩
  rw [ReguSys.write_eq]
  have hn : coords s.P.num (fun k => (1 / D) • I.newtonianAcc s.P k) = coords s.P.num (fun k => (1 / D) • own k) :=
    coords_congr _ _ _ fun k hk => by rw [(h.eval k hk).1]
  have hw : contract s.P.num s.P.mass s.P.vel (I.newtonianAcc s.P) = power s.P s.P.vel own := by
    rw [contract_eq]; unfold power
    exact sum_congr rfl fun k hk => by rw [(h.eval k (mem_range.1 hk)).1]
  by_cases hx : I.extra = []
  · have hf : (I.velIndep || I.velDep) = false := by
      rw [Bool.eq_false_iff]; exact fun hc => (flags_extra I).1 hc hx
    have hd : I.velDep = false := by cases hI : I.velDep <;> simp [hI] at hf ⊢
    have ht : coords s.P.num (fun k => (1 / D) • (own k + more k)) = coords s.P.num (fun k => (1 / D) • own k) :=
      coords_congr _ _ _ fun k hk => by rw [(h.eval k hk).2.2.2 hx, add_zero]
    rw [hf, hd, if_neg (show ¬ (type = .logH ∧ I.extra ≠ []) from fun hc => hc.2 hx)]
    simp only [Bool.false_eq_true, if_false, addScaledCoordsTo_eq, hn, ht, ReguSys.dbindEDt, ReguSys.domegaDt, false_and, zero_mul, hw]
    by_cases htt : type = .ttl
    · simp only [htt, if_true]; simp [mul_comm]
    · simp only [htt, if_false]; simp
  · have hf : (I.velIndep || I.velDep) = true := (flags_extra I).2 hx
    have hsum : ∀ k, k < s.P.num → arrayAdd s.P.num (I.extraAcc s.P) (I.newtonianAcc s.P) k = own k + more k := by
      intro k hk
      have : arrayAdd s.P.num (I.extraAcc s.P) (I.newtonianAcc s.P) k = I.extraAcc s.P k + I.newtonianAcc s.P k := by
        rw [arrayAdd_apply, if_pos hk]
      rw [this, (h.eval k hk).1, (h.eval k hk).2.2.1 hx, add_comm]
    have ht : coords s.P.num (fun k => (1 / D) • arrayAdd s.P.num (I.extraAcc s.P) (I.newtonianAcc s.P) k) =
        coords s.P.num (fun k => (1 / D) • (own k + more k)) := coords_congr _ _ _ fun k hk => by rw [hsum k hk]
    have hb : contract s.P.num s.P.mass s.P.vel (arrayAdd s.P.num (I.extraAcc s.P) (I.newtonianAcc s.P)) =
        power s.P s.P.vel (fun k => own k + more k) := by
      rw [contract_eq]; unfold power
      exact sum_congr rfl fun k hk => by rw [hsum k (mem_range.1 hk)]
    rw [hf]
    simp only [if_true, addScaledCoordsTo_eq, ht, ReguSys.dbindEDt, ReguSys.domegaDt, true_and, hw, hb, hx, ne_eq, not_false_eq_true, and_true]
    have hB : (if type = .logH then -power s.P s.P.vel (fun k => own k + more k) else 0) * (1 / D) =
        if type = .logH then -(1 / D * power s.P s.P.vel (fun k => own k + more k)) else 0 := by split_ifs <;> ring
    have hO : (if type = .ttl then power s.P s.P.vel own else 0) * (1 / D) = if type = .ttl then 1 / D * power s.P s.P.vel own else 0 := by
      split_ifs <;> ring
    rw [hB, hO]
    cases I.velDep <;> simp

/-- C61, regularised system whose binding energy (LogH) or `omega` (TTL) agrees with the particles, so that both divisors are the
same number `D`, with no extra forces or not LogH: the derivative array is what writing the true rates, per unit of fictitious time,
gives: `1 / D` for the time, and `1 / D` times the velocity, the acceleration, the power of the internal force for `omega` (TTL), and
0 for the binding energy.  Missing: LogH with extra forces, where it is false (`C61_wrong_energy_rate`). -/
theorem C61_regularized_partial (G : ℝ) (type : ReguType) (I : Interactions) (s : ReguSys) (own more : Nat → V3 ℝ)
    (h : Pull I s.P own more) (D : ℝ) (h0 : D ≠ 0) (hp : posDivisor type s = D) (hv : velDivisor G type s = D)
    (hx : I.extra = [] ∨ type ≠ .logH) :
    ∃ d s1, s.derivative G type I = .ok (d, s1) ∧ s1.P = s.P ∧
      d = ({ s with time := 1 / D, P := { s.P with pos := fun k => (1 / D) • s.P.vel k, vel := fun k => (1 / D) • (own k + more k) }, aux := fun k => (1 / D) • (own k + more k), R := { s.R with omega := if type = .ttl then 1 / D * power s.P s.P.vel own else 0, bindE := 0 } } : ReguSys).write I := by
  obtain ⟨d, s1, e, e1, e2⟩ := regu_derivative G type I s own more h D h0 hp hv
  refine ⟨d, s1, e, e1, ?_⟩
  have hB : ¬ (type = .logH ∧ I.extra ≠ []) := by
    rintro ⟨a, b⟩
    rcases hx with hx | hx
    · exact b hx
    · exact hx a
  rw [e2, if_neg hB]

/-- C61 fails for LogH with extra forces: the rate of the binding energy should be minus the power of the extra forces (per unit of
fictitious time, `-(power more) / D`); the array holds minus the power of all forces, so it is wrong by `-(power own) / D`, the rate at
which the kinetic energy grows by the internal force, whenever that is not 0. -/
theorem C61_wrong_energy_rate (G : ℝ) (I : Interactions) (s : ReguSys) (own more : Nat → V3 ℝ) (h : Pull I s.P own more) (D : ℝ)
    (h0 : D ≠ 0) (hp : posDivisor .logH s = D) (hv : velDivisor G .logH s = D) (hx : I.extra ≠ [])
    (hpow : power s.P s.P.vel own ≠ 0) :
    ∃ d s1, s.derivative G .logH I = .ok (d, s1) ∧
      d.getD (bindEOffset s.P.num I.velDep) 0 = -(power s.P s.P.vel more) / D - power s.P s.P.vel own / D ∧
      d.getD (bindEOffset s.P.num I.velDep) 0 ≠ -(power s.P s.P.vel more) / D := by
  obtain ⟨d, s1, e, _, e2⟩ := regu_derivative G .logH I s own more h D h0 hp hv
  have hsum : power s.P s.P.vel (fun k => own k + more k) = power s.P s.P.vel own + power s.P s.P.vel more := by
    unfold power
    rw [← sum_add_distrib]
    refine sum_congr rfl fun k _ => ?_
    simp only [dot, add_x, add_y, add_z]; ring
  have key : d.getD (bindEOffset s.P.num I.velDep) 0 = -(power s.P s.P.vel more) / D - power s.P s.P.vel own / D := by
    rw [e2, ReguSys.write_getD]
    unfold Flat.val ReguSys.flat
    dsimp only
    have hb := bindEOffset s.P.num I.velDep
    rw [if_neg (by unfold bindEOffset; omega), if_neg (by unfold bindEOffset; cases I.velDep <;> simp <;> omega),
      if_neg (by unfold bindEOffset; cases I.velDep <;> simp <;> omega), if_neg (by unfold bindEOffset; cases I.velDep <;> (simp; try omega)),
      if_neg (by unfold bindEOffset omegaOffset; omega), if_pos rfl, if_pos ⟨rfl, hx⟩, hsum]
    field_simp
    ring
  refine ⟨d, s1, e, key, ?_⟩
  rw [key]
  intro hc
  have : power s.P s.P.vel own / D = 0 := by linarith
  rcases div_eq_zero_iff.1 this with h1 | h1
  · exact hpow h1
  · exact h0 h1

/-- two bodies of mass 1 at distance 1, moving apart -/
noncomputable def apart : ReguSys where
  P := { num := 2, pos := fun i => if i = 0 then ⟨0, 0, 0⟩ else ⟨1, 0, 0⟩, vel := fun i => if i = 0 then ⟨0, 0, 0⟩ else ⟨1, 0, 0⟩, mass := fun _ => 1 }
  time := 0
  aux := fun _ => 0
  R := { omega := 1, bindE := 1 / 2, scale := 1 }
  inc := fun _ => 0
  sync := false

/-- gravity and an extra force that does nothing -/
noncomputable def idleI : Interactions := ⟨⟨false, newtonDirect⟩, [⟨false, fun _ a => a⟩]⟩

/-- The hypotheses of `C61_wrong_energy_rate` are met, even by an extra force that is 0: the rate should be 0. -/
example : Pull idleI apart.P (fun k => if k < 2 then ∑ j ∈ (range 2).erase k, Spec.newton (apart.P.mass j) (apart.P.pos k) (apart.P.pos j) else 0) (fun _ => 0) ∧
    posDivisor .logH apart = 1 ∧ velDivisor 1 .logH apart = 1 ∧ idleI.extra ≠ [] ∧
    power apart.P apart.P.vel (fun k => if k < 2 then ∑ j ∈ (range 2).erase k, Spec.newton (apart.P.mass j) (apart.P.pos k) (apart.P.pos j) else 0) ≠ 0 := by
  have r2 : (range 2).erase 0 = {1} := by decide
  have r3 : (range 2).erase 1 = {0} := by decide
  refine ⟨⟨(C11_forces_add 1 1 apart.P).1, fun _ _ => 0, ?_, fun k => by simp [idleI]⟩, ?_, ?_, by simp [idleI], ?_⟩
  · intro f hf acc k
    simp only [idleI, List.mem_singleton] at hf
    rw [hf]; simp
  · unfold posDivisor
    rw [kinetic_eq]
    norm_num [apart, sum_range_succ, dot]
  · have hf : ((range 2 ×ˢ range 2).filter fun p => p.1 < p.2) = {(0, 1)} := by decide
    unfold velDivisor Spec.potential
    rw [show apart.P.num = 2 from rfl, hf]
    norm_num [apart, Spec.len, dot]
  · unfold power
    rw [show apart.P.num = 2 from rfl, sum_range_succ, sum_range_succ, sum_range_zero]
    dsimp only
    rw [if_pos (show 0 < 2 by norm_num), if_pos (show 1 < 2 by norm_num), r2, r3, sum_singleton, sum_singleton]
    norm_num [apart, Spec.newton, Spec.len, dot]

end SpaceHub.Props
