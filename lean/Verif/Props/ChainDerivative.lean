import Verif.Props.Derivative
import Verif.Proof.ARSim
import Verif.Props.Increment
import Verif.Props.Systems

/-
C61 for the chain systems.
-/

set_option autoImplicit false

namespace SpaceHub.Props
open SpaceHub SpaceHub.Sys SpaceHub.BS SpaceHub.Radau V3 Force Core Finset

theorem _root_.SpaceHub.BelongsTo.congr' {n : Nat} (hn : 2 ≤ n) {idx : Arr Nat} (hi : IsIndex n idx) {c x y : Arr (V3 ℝ)} (h : BelongsTo n idx c x)
    (e : ∀ k, k < n → x k = y k) : BelongsTo n idx c y :=
  ⟨fun i hlt => by rw [h.link i hlt, e _ (hi.lt _ hlt), e _ (hi.lt _ (by omega))], by rw [h.base, e _ (hi.lt _ (by omega))]⟩

theorem extraAcc_eq {IC : ChainInteractions} {I : Interactions} (A : AgreesI IC I) {P : Particles} {C : ChainView} (hn : 2 ≤ P.num)
    (hc : Consistent P C) : IC.extraAcc P C = .ok (I.extraAcc P) := by
  unfold ChainInteractions.extraAcc Interactions.extraAcc evalExtraAcc
  dsimp only
  rw [A.velDep_eq, A.velIndep_eq]
  rw [show extVelDep I.extra = I.velDep from rfl, show extVelIndep I.extra = I.velIndep from rfl]
  cases I.velDep <;> cases I.velIndep <;>
    simp [A.invoke_dep hn hc, A.invoke_indep hn hc]

/-- C61, chain system: the derivative array is what writing the rates of the chain coordinates gives: 1 for the time, the
chain velocities, and the chain coordinates of the total accelerations. -/
theorem C61_chain (IC : ChainInteractions) (I : Interactions) (A : AgreesI IC I) (b : Bool) (s : ChainSys) (g : ChainSys.Good b s)
    (own more : Nat → V3 ℝ) (h : Pull I s.P own more) :
    ∃ c, BelongsTo s.P.num s.index c (fun k => own k + more k) ∧
      s.derivative IC = .ok (({ s with time := 1, cpos := s.cvel, cvel := c, caux := c } : ChainSys).write IC) := by
  obtain ⟨c, e, hc⟩ := toChain_ok (n := s.P.num) (by have := g.two; omega) s.index (I.acc s.P) (fun _ => 0)
  refine ⟨c, hc.congr' g.two g.cons.index fun k hk => (h.eval k hk).2.1, ?_⟩
  unfold ChainSys.derivative
  rw [A.acc_eq g.two g.consistent, Res.ok_bind, e, Res.ok_bind]
  rfl

/-- the derivative of the regularised chain system when both divisors are `D` -/
theorem ar_derivative (G : ℝ) (type : ReguType) (IC : ChainInteractions) (I : Interactions) (A : AgreesI IC I) (b : Bool) (s : ARSys)
    (g : ARSys.Good b s) (own more : Nat → V3 ℝ) (h : Pull I s.P own more)
    (D : ℝ) (h0 : D ≠ 0) (hp : posDivisor type s.abs = D) (hv : velDivisor G type s.abs = D) :
    ∃ d s1 c, s.derivative G type IC = .ok (d, s1) ∧ s1.P = s.P ∧ BelongsTo s.P.num s.index c (fun k => own k + more k) ∧
      d = ({ s with time := 1 / D, cpos := fun k => (1 / D) • s.cvel k, cvel := fun k => (1 / D) • c k, caux := fun k => (1 / D) • c k, R := { s.R with omega := if type = .ttl then 1 / D * power s.P s.P.vel own else 0, bindE := if type = .logH ∧ I.extra ≠ [] then -(1 / D * power s.P s.P.vel (fun k => own k + more k)) else 0 } } : ARSys).write IC := by
  have hp' : posDivisor type s.abs ≠ 0 := by rw [hp]; exact h0
  have e1 := posPhyTime_eq type s.abs 1
  rw [if_neg hp', hp] at e1
  replace e1 : s.R.posPhyTime type (kinetic s.P) 1 = _ := e1
  have e2 : ∀ r : Regu, r.velPhyTime type (potentialDirect G s.P) 1 = .ok ({ r with scale := if type = .none then r.scale else D }, 1 / D) := by
    intro r
    have := velPhyTime_eq G type { s.abs with R := r } 1
    rw [show velDivisor G type { s.abs with R := r } = D from hv, if_neg h0] at this
    exact this
  unfold ARSys.derivative
  rw [e1, Res.ok_bind]
  dsimp only
  rw [potentialChain_eq G s.P s.view g.two g.cons.index g.cons.pos, Res.ok_bind, ← potentialDirect_eq]
  rw [e2, Res.ok_bind]
  dsimp only
  have n1 : ∀ R' : Regu, IC.newtonianAcc s.P ({ s with R := R' } : ARSys).view = .ok (I.newtonianAcc s.P) := fun R' =>
    A.newtonianAcc_eq g.two g.consistent
  have n2 : ∀ R' : Regu, IC.extraAcc s.P ({ s with R := R' } : ARSys).view = .ok (I.extraAcc s.P) := fun R' =>
    extraAcc_eq A g.two g.consistent
  rw [n1, Res.ok_bind, n2, A.velDep_eq, A.velIndep_eq]
  have hw : contract s.P.num s.P.mass s.P.vel (I.newtonianAcc s.P) = power s.P s.P.vel own := by
    rw [contract_eq]; unfold power
    exact sum_congr rfl fun k hk => by rw [(h.eval k (mem_range.1 hk)).1]
  have hO : (if type = .ttl then power s.P s.P.vel own else 0) * (1 / D) = if type = .ttl then 1 / D * power s.P s.P.vel own else 0 := by
    split_ifs <;> ring
  have hn0 : s.P.num ≠ 0 := by have := g.two; omega
  by_cases hx : I.extra = []
  · have hf : (I.velIndep || I.velDep) = false := by
      rw [Bool.eq_false_iff]; exact fun hc => (flags_extra I).1 hc hx
    have hd : I.velDep = false := by cases hI : I.velDep <;> simp [hI] at hf ⊢
    have hi : I.velIndep = false := by cases hI : I.velIndep <;> simp [hI] at hf ⊢
    obtain ⟨c, e, hc⟩ := toChain_ok (n := s.P.num) hn0 s.index (I.newtonianAcc s.P) (fun _ => 0)
    rw [hi, hd]
    simp only [Bool.or_self, Bool.false_eq_true, if_false, Res.ok_bind, e]
    refine ⟨_, _, c, rfl, rfl, hc.congr' g.two g.cons.index fun k hk => ?_, ?_⟩
    · rw [(h.eval k hk).1, (h.eval k hk).2.2.2 hx, add_zero]
    · rw [if_neg (show ¬ (type = .logH ∧ I.extra ≠ []) from fun hc => hc.2 hx)]
      unfold ARSys.write
      rw [A.velDep_eq, hd]
      simp only [Bool.false_eq_true, if_false, addScaledCoordsTo_eq, addCoordsTo_eq, ReguSys.dbindEDt, ReguSys.domegaDt, false_and, zero_mul, hw, hO]
  · have hf : (I.velIndep || I.velDep) = true := (flags_extra I).2 hx
    have hsum : ∀ k, k < s.P.num → arrayAdd s.P.num (I.extraAcc s.P) (I.newtonianAcc s.P) k = own k + more k := by
      intro k hk
      rw [arrayAdd_apply, if_pos hk, (h.eval k hk).1, (h.eval k hk).2.2.1 hx, add_comm]
    have hb : contract s.P.num s.P.mass s.P.vel (arrayAdd s.P.num (I.extraAcc s.P) (I.newtonianAcc s.P)) =
        power s.P s.P.vel (fun k => own k + more k) := by
      rw [contract_eq]; unfold power
      exact sum_congr rfl fun k hk => by rw [hsum k (mem_range.1 hk)]
    have hB : (if type = .logH then -power s.P s.P.vel (fun k => own k + more k) else 0) * (1 / D) =
        if type = .logH then -(1 / D * power s.P s.P.vel (fun k => own k + more k)) else 0 := by split_ifs <;> ring
    obtain ⟨c, e, hc⟩ := toChain_ok (n := s.P.num) hn0 s.index (arrayAdd s.P.num (I.extraAcc s.P) (I.newtonianAcc s.P)) (fun _ => 0)
    rw [hf]
    simp only [if_true, Res.ok_bind, e]
    refine ⟨_, _, c, rfl, rfl, hc.congr' g.two g.cons.index hsum, ?_⟩
    unfold ARSys.write
    rw [A.velDep_eq]
    simp only [addScaledCoordsTo_eq, addCoordsTo_eq, ReguSys.dbindEDt, ReguSys.domegaDt, true_and, hw, hb, hx, ne_eq, not_false_eq_true, and_true, hB, hO]

/-- C61, regularised chain system, as `C61_regularized_partial`: the derivative array is what writing the true rates of the chain
coordinates gives. -/
theorem C61_archain_partial (G : ℝ) (type : ReguType) (IC : ChainInteractions) (I : Interactions) (A : AgreesI IC I) (b : Bool) (s : ARSys)
    (g : ARSys.Good b s) (own more : Nat → V3 ℝ) (h : Pull I s.P own more)
    (D : ℝ) (h0 : D ≠ 0) (hp : posDivisor type s.abs = D) (hv : velDivisor G type s.abs = D) (hx : I.extra = [] ∨ type ≠ .logH) :
    ∃ d s1 c, s.derivative G type IC = .ok (d, s1) ∧ s1.P = s.P ∧ BelongsTo s.P.num s.index c (fun k => own k + more k) ∧
      d = ({ s with time := 1 / D, cpos := fun k => (1 / D) • s.cvel k, cvel := fun k => (1 / D) • c k, caux := fun k => (1 / D) • c k, R := { s.R with omega := if type = .ttl then 1 / D * power s.P s.P.vel own else 0, bindE := 0 } } : ARSys).write IC := by
  obtain ⟨d, s1, c, e, e1, hc, e2⟩ := ar_derivative G type IC I A b s g own more h D h0 hp hv
  refine ⟨d, s1, c, e, e1, hc, ?_⟩
  have hB : ¬ (type = .logH ∧ I.extra ≠ []) := by
    rintro ⟨a, b⟩
    rcases hx with hx | hx
    · exact b hx
    · exact hx a
  rw [e2, if_neg hB]

/-- C61 fails for the regularised chain system in the same way: LogH with extra forces. -/
theorem C61_archain_wrong_energy_rate (G : ℝ) (IC : ChainInteractions) (I : Interactions) (A : AgreesI IC I) (b : Bool) (s : ARSys)
    (g : ARSys.Good b s) (own more : Nat → V3 ℝ) (h : Pull I s.P own more)
    (D : ℝ) (h0 : D ≠ 0) (hp : posDivisor .logH s.abs = D) (hv : velDivisor G .logH s.abs = D) (hx : I.extra ≠ [])
    (hpow : power s.P s.P.vel own ≠ 0) :
    ∃ d s1, s.derivative G .logH IC = .ok (d, s1) ∧
      d.getD (bindEOffset s.P.num I.velDep) 0 = -(power s.P s.P.vel more) / D - power s.P s.P.vel own / D ∧
      d.getD (bindEOffset s.P.num I.velDep) 0 ≠ -(power s.P s.P.vel more) / D := by
  obtain ⟨d, s1, c, e, _, _, e2⟩ := ar_derivative G .logH IC I A b s g own more h D h0 hp hv
  have hsum : power s.P s.P.vel (fun k => own k + more k) = power s.P s.P.vel own + power s.P s.P.vel more := by
    unfold power
    rw [← sum_add_distrib]
    refine sum_congr rfl fun k _ => ?_
    simp only [dot, add_x, add_y, add_z]; ring
  have key : d.getD (bindEOffset s.P.num I.velDep) 0 = -(power s.P s.P.vel more) / D - power s.P s.P.vel own / D := by
    rw [e2, ARSys.write_getD, A.velDep_eq]
    unfold Flat.val ARSys.flat
    dsimp only
    rw [if_neg (by unfold bindEOffset; omega), if_neg (by unfold bindEOffset; cases I.velDep <;> simp <;> omega),
      if_neg (by unfold bindEOffset; cases I.velDep <;> simp <;> omega), if_neg (by unfold bindEOffset; cases I.velDep <;> (simp; try omega)),
      if_neg (by unfold bindEOffset omegaOffset; omega), if_pos rfl, if_pos ⟨rfl, hx⟩, hsum]
    field_simp
    ring
  refine ⟨d, s1, e, key, ?_⟩
  rw [key]
  intro hc
  have : power s.P s.P.vel own / D = 0 := by linarith
  rcases div_eq_zero_iff.1 this with h1 | h1
  · exact hpow h1
  · exact h0 h1

/-- gravity and an extra force that does nothing, for chain systems -/
noncomputable def idleC : ChainInteractions := ⟨Lib.newtonC, [⟨false, fun _ _ a => .ok a⟩]⟩

/-- The hypotheses are met by a system as its constructor leaves it: two bodies moving apart. -/
example : ∃ idx s0, IndexOf apart.P idx ∧ ARSys.init 1 .logH 0 apart.P idx = .ok s0 ∧ AgreesI idleC idleI ∧
    ARSys.Good idleC.velDep s0 ∧ s0.P = apart.P ∧ posDivisor .logH s0.abs = 1 ∧ velDivisor 1 .logH s0.abs = 1 := by
  obtain ⟨idx, hi⟩ := IndexOf.exists apart.P (by simp [apart])
  obtain ⟨s0, e0, g, a, _⟩ := ARSys.init_sim 1 .logH 0 apart.P idx hi.two_le hi.isIndex
  have hP : s0.P = apart.P := congrArg ReguSys.P a
  refine ⟨idx, s0, hi, e0, ⟨agrees_newton, .cons ⟨rfl, fun _ _ _ _ _ => rfl⟩ .nil⟩, ⟨g.two, g.weaken.cons⟩, hP, ?_, ?_⟩
  all_goals rw [a]
  all_goals have hf : ((range 2 ×ˢ range 2).filter fun p => p.1 < p.2) = {(0, 1)} := by decide
  · unfold posDivisor ReguSys.init
    simp only [Regu.init, totalEnergy, kinetic_eq, potentialDirect_eq, Spec.potential]
    rw [show apart.P.num = 2 from rfl, hf]
    norm_num [apart, Spec.len, dot, sum_range_succ]
  · unfold velDivisor ReguSys.init Spec.potential
    dsimp only
    rw [show apart.P.num = 2 from rfl, hf]
    norm_num [apart, Spec.len, dot]

end SpaceHub.Props
