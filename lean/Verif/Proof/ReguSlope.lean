import Verif.Props.ChainDerivative

/-
The derivatives of the regularised systems, with the two divisors of the time kept apart.
-/

set_option autoImplicit false

namespace SpaceHub.Props
open SpaceHub SpaceHub.Sys SpaceHub.BS SpaceHub.Radau SpaceHub.Spec V3 Force Core Finset

theorem regu_derivative2 (G : ℝ) (type : ReguType) (I : Interactions) (s : ReguSys) (own more : Nat → V3 ℝ) (h : Pull I s.P own more)
    (p q : ℝ) (h0 : p ≠ 0) (h1 : q ≠ 0) (hp : posDivisor type s = p) (hv : velDivisor G type s = q) :
    ∃ d s1, s.derivative G type I = .ok (d, s1) ∧ s1.P = s.P ∧
      d = ({ s with time := 1 / p, P := { s.P with pos := fun k => (1 / p) • s.P.vel k, vel := fun k => (1 / q) • (own k + more k) }, aux := fun k => (1 / q) • (own k + more k), R := { s.R with omega := if type = .ttl then 1 / q * power s.P s.P.vel own else 0, bindE := if type = .logH ∧ I.extra ≠ [] then -(1 / q * power s.P s.P.vel (fun k => own k + more k)) else 0 } } : ReguSys).write I := by
  have hp' : posDivisor type s ≠ 0 := by rw [hp]; exact h0
  have e1 := posPhyTime_eq type s 1
  rw [if_neg hp', hp] at e1
  have e2 : ∀ r : Regu, r.velPhyTime type (potentialDirect G s.P) 1 = .ok ({ r with scale := if type = .none then r.scale else q }, 1 / q) := by
    intro r
    have := velPhyTime_eq G type { s with R := r } 1
    rw [show velDivisor G type { s with R := r } = q from hv, if_neg h1] at this
    exact this
  unfold ReguSys.derivative
  rw [e1, Res.ok_bind]
  dsimp only
  rw [e2, Res.ok_bind]
  dsimp only
  refine ⟨_, _, rfl, rfl, ?_⟩
  rw [ReguSys.write_eq]
  have hn : coords s.P.num (fun k => (1 / q) • I.newtonianAcc s.P k) = coords s.P.num (fun k => (1 / q) • own k) :=
    coords_congr _ _ _ fun k hk => by rw [(h.eval k hk).1]
  have hw : contract s.P.num s.P.mass s.P.vel (I.newtonianAcc s.P) = power s.P s.P.vel own := by
    rw [contract_eq]; unfold power
    exact sum_congr rfl fun k hk => by rw [(h.eval k (mem_range.1 hk)).1]
  by_cases hx : I.extra = []
  · have hf : (I.velIndep || I.velDep) = false := by
      rw [Bool.eq_false_iff]; exact fun hc => (flags_extra I).1 hc hx
    have hd : I.velDep = false := by cases hI : I.velDep <;> simp [hI] at hf ⊢
    have ht : coords s.P.num (fun k => (1 / q) • (own k + more k)) = coords s.P.num (fun k => (1 / q) • own k) :=
      coords_congr _ _ _ fun k hk => by rw [(h.eval k hk).2.2.2 hx, add_zero]
    rw [hf, hd, if_neg (show ¬ (type = .logH ∧ I.extra ≠ []) from fun hc => hc.2 hx)]
    simp only [Bool.false_eq_true, if_false, addScaledCoordsTo_eq, hn, ht, ReguSys.dbindEDt, ReguSys.domegaDt, false_and, zero_mul, hw]
    by_cases htt : type = .ttl
    · simp only [htt, if_true]; simp [mul_comm]
    · simp only [htt, if_false]; simp
  · have hf : (I.velIndep || I.velDep) = true := (flags_extra I).2 hx
    have hsum : ∀ k, k < s.P.num → arrayAdd s.P.num (I.extraAcc s.P) (I.newtonianAcc s.P) k = own k + more k := by
      intro k hk
      have : arrayAdd s.P.num (I.extraAcc s.P) (I.newtonianAcc s.P) k = I.extraAcc s.P k + I.newtonianAcc s.P k := by
        rw [arrayAdd_apply, if_pos hk]
      rw [this, (h.eval k hk).1, (h.eval k hk).2.2.1 hx, add_comm]
    have ht : coords s.P.num (fun k => (1 / q) • arrayAdd s.P.num (I.extraAcc s.P) (I.newtonianAcc s.P) k) =
        coords s.P.num (fun k => (1 / q) • (own k + more k)) := coords_congr _ _ _ fun k hk => by rw [hsum k hk]
    have hb : contract s.P.num s.P.mass s.P.vel (arrayAdd s.P.num (I.extraAcc s.P) (I.newtonianAcc s.P)) =
        power s.P s.P.vel (fun k => own k + more k) := by
      rw [contract_eq]; unfold power
      exact sum_congr rfl fun k hk => by rw [hsum k (mem_range.1 hk)]
    rw [hf]
    simp only [if_true, addScaledCoordsTo_eq, ht, ReguSys.dbindEDt, ReguSys.domegaDt, true_and, hw, hb, hx, ne_eq, not_false_eq_true, and_true]
    have hB : (if type = .logH then -power s.P s.P.vel (fun k => own k + more k) else 0) * (1 / q) =
        if type = .logH then -(1 / q * power s.P s.P.vel (fun k => own k + more k)) else 0 := by split_ifs <;> ring
    have hO : (if type = .ttl then power s.P s.P.vel own else 0) * (1 / q) = if type = .ttl then 1 / q * power s.P s.P.vel own else 0 := by
      split_ifs <;> ring
    rw [hB, hO]
    cases I.velDep <;> simp

theorem ar_derivative2 (G : ℝ) (type : ReguType) (IC : ChainInteractions) (I : Interactions) (A : AgreesI IC I) (b : Bool) (s : ARSys)
    (g : ARSys.Good b s) (own more : Nat → V3 ℝ) (h : Pull I s.P own more)
    (p q : ℝ) (h0 : p ≠ 0) (h1 : q ≠ 0) (hp : posDivisor type s.abs = p) (hv : velDivisor G type s.abs = q) :
    ∃ d s1 c, s.derivative G type IC = .ok (d, s1) ∧ s1.P = s.P ∧ BelongsTo s.P.num s.index c (fun k => own k + more k) ∧
      d = ({ s with time := 1 / p, cpos := fun k => (1 / p) • s.cvel k, cvel := fun k => (1 / q) • c k, caux := fun k => (1 / q) • c k, R := { s.R with omega := if type = .ttl then 1 / q * power s.P s.P.vel own else 0, bindE := if type = .logH ∧ I.extra ≠ [] then -(1 / q * power s.P s.P.vel (fun k => own k + more k)) else 0 } } : ARSys).write IC := by
  have hp' : posDivisor type s.abs ≠ 0 := by rw [hp]; exact h0
  have e1 := posPhyTime_eq type s.abs 1
  rw [if_neg hp', hp] at e1
  replace e1 : s.R.posPhyTime type (kinetic s.P) 1 = _ := e1
  have e2 : ∀ r : Regu, r.velPhyTime type (potentialDirect G s.P) 1 = .ok ({ r with scale := if type = .none then r.scale else q }, 1 / q) := by
    intro r
    have := velPhyTime_eq G type { s.abs with R := r } 1
    rw [show velDivisor G type { s.abs with R := r } = q from hv, if_neg h1] at this
    exact this
  unfold ARSys.derivative
  rw [e1, Res.ok_bind]
  dsimp only
  rw [potentialChain_eq G s.P s.view g.two g.cons.index g.cons.pos, Res.ok_bind, ← potentialDirect_eq]
  rw [e2, Res.ok_bind]
  dsimp only
  have n1 : ∀ R' : Regu, IC.newtonianAcc s.P ({ s with R := R' } : ARSys).view = .ok (I.newtonianAcc s.P) := fun R' =>
    A.newtonianAcc_eq g.two g.consistent
  have n2 : ∀ R' : Regu, IC.extraAcc s.P ({ s with R := R' } : ARSys).view = .ok (I.extraAcc s.P) := fun R' =>
    extraAcc_eq A g.two g.consistent
  rw [n1, Res.ok_bind, n2, A.velDep_eq, A.velIndep_eq]
  have hw : contract s.P.num s.P.mass s.P.vel (I.newtonianAcc s.P) = power s.P s.P.vel own := by
    rw [contract_eq]; unfold power
    exact sum_congr rfl fun k hk => by rw [(h.eval k (mem_range.1 hk)).1]
  have hO : (if type = .ttl then power s.P s.P.vel own else 0) * (1 / q) = if type = .ttl then 1 / q * power s.P s.P.vel own else 0 := by
    split_ifs <;> ring
  have hn0 : s.P.num ≠ 0 := by have := g.two; omega
  by_cases hx : I.extra = []
  · have hf : (I.velIndep || I.velDep) = false := by
      rw [Bool.eq_false_iff]; exact fun hc => (flags_extra I).1 hc hx
    have hd : I.velDep = false := by cases hI : I.velDep <;> simp [hI] at hf ⊢
    have hi : I.velIndep = false := by cases hI : I.velIndep <;> simp [hI] at hf ⊢
    obtain ⟨c, e, hc⟩ := toChain_ok (n := s.P.num) hn0 s.index (I.newtonianAcc s.P) (fun _ => 0)
    rw [hi, hd]
    simp only [Bool.or_self, Bool.false_eq_true, if_false, Res.ok_bind, e]
    refine ⟨_, _, c, rfl, rfl, hc.congr' g.two g.cons.index fun k hk => ?_, ?_⟩
    · rw [(h.eval k hk).1, (h.eval k hk).2.2.2 hx, add_zero]
    · rw [if_neg (show ¬ (type = .logH ∧ I.extra ≠ []) from fun hc => hc.2 hx)]
      unfold ARSys.write
      rw [A.velDep_eq, hd]
      simp only [Bool.false_eq_true, if_false, addScaledCoordsTo_eq, addCoordsTo_eq, ReguSys.dbindEDt, ReguSys.domegaDt, false_and, zero_mul, hw, hO]
  · have hf : (I.velIndep || I.velDep) = true := (flags_extra I).2 hx
    have hsum : ∀ k, k < s.P.num → arrayAdd s.P.num (I.extraAcc s.P) (I.newtonianAcc s.P) k = own k + more k := by
      intro k hk
      rw [arrayAdd_apply, if_pos hk, (h.eval k hk).1, (h.eval k hk).2.2.1 hx, add_comm]
    have hb : contract s.P.num s.P.mass s.P.vel (arrayAdd s.P.num (I.extraAcc s.P) (I.newtonianAcc s.P)) =
        power s.P s.P.vel (fun k => own k + more k) := by
      rw [contract_eq]; unfold power
      exact sum_congr rfl fun k hk => by rw [hsum k (mem_range.1 hk)]
    have hB : (if type = .logH then -power s.P s.P.vel (fun k => own k + more k) else 0) * (1 / q) =
        if type = .logH then -(1 / q * power s.P s.P.vel (fun k => own k + more k)) else 0 := by split_ifs <;> ring
    obtain ⟨c, e, hc⟩ := toChain_ok (n := s.P.num) hn0 s.index (arrayAdd s.P.num (I.extraAcc s.P) (I.newtonianAcc s.P)) (fun _ => 0)
    rw [hf]
    simp only [if_true, Res.ok_bind, e]
    refine ⟨_, _, c, rfl, rfl, hc.congr' g.two g.cons.index hsum, ?_⟩
    unfold ARSys.write
    rw [A.velDep_eq]
    simp only [addScaledCoordsTo_eq, addCoordsTo_eq, ReguSys.dbindEDt, ReguSys.domegaDt, true_and, hw, hb, hx, ne_eq, not_false_eq_true, and_true, hB, hO]

end SpaceHub.Props
