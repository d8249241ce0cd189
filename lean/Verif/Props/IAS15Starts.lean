import Verif.Props.IAS15RunsForced
import Verif.Props.LogHForces
import Verif.Props.RadauChainConserve

/-
C62: from every state in which the forces are smooth, the calls of IAS15 with sufficiently short steps return - plain, chain, regularised and AR-chain systems.
-/

set_option autoImplicit false

namespace SpaceHub.Sys
open SpaceHub V3 Force Core Integrator Spec Props Finset Converge Radau BS Ctl Fl
open scoped ContDiff

/-- Every particle is away from the origin, or moves, or is accelerated. -/
theorem busy_at {n : Nat} {a : Field n} {P : Particles} {U : Set (Conf n × Conf n)} (hin : (conf n P.pos, conf n P.vel) ∈ U) {b : Prop}
    (apart : b → ∀ i j, i < n → j < n → i ≠ j → P.pos i ≠ P.pos j)
    (hact : ∀ k : Fin n, ¬ (P.pos k = 0 ∧ P.vel k = 0 ∧ a (fun j => P.pos j) (fun j => P.vel j) k = 0)) : (conf n P.pos, conf n P.vel) ∈ busy a U b :=
  busy_along (x := fun _ => P.pos) (v := fun _ => P.vel) (t0 := 0) (t1 := 0) (fun _ _ => hin) (fun h _ _ => apart h) (fun _ _ => hact) 0 ⟨le_rfl, le_rfl⟩

/-- and the motion that begins there -/
theorem busy_motion {n : Nat} {m : Nat → ℝ} {a : Field n} {P : Particles} (hP : P.num = n) (hPm : ∀ k, k < n → P.mass k = m k) (hsn : SmoothNear a P) {b : Prop}
    (apart : b → ∀ i j, i < n → j < n → i ≠ j → P.pos i ≠ P.pos j)
    (hact : ∀ k : Fin n, ¬ (P.pos k = 0 ∧ P.vel k = 0 ∧ a (fun j => P.pos j) (fun j => P.vel j) k = 0)) (t0 : ℝ) :
    ∃ (x v : ℝ → Nat → V3 ℝ) (t1 : ℝ), t0 < t1 ∧ ForcedMotion n a x v t0 t1 ∧ InState n m x v t0 P ∧ SmoothAlong a x v t0 t1 ∧
      (b → ∀ t ∈ Set.Icc t0 t1, ∀ i j, i < n → j < n → i ≠ j → x t i ≠ x t j) ∧
      ∀ t ∈ Set.Icc t0 t1, ∀ k : Fin n, ¬ (x t k = 0 ∧ v t k = 0 ∧ a (fun j => x t j) (fun j => v t j) k = 0) := by
  obtain ⟨U, hU, hsm, hin⟩ := hsn
  have h0 := busy_at (a := a) (hin 0 ⟨le_rfl, le_rfl⟩) apart hact
  obtain ⟨x, v, t1, h01, M, S, hx⟩ := forced_exists (m := m) hP hPm (busy_open hU hsm b) (hsm.mono fun z hz => hz.1) h0 t0
  refine ⟨x, v, t1, h01, M, S, ⟨U, hU, hsm, fun t ht => (hx t ht).1⟩, fun hb t ht i j hi hj hij he => (hx t ht).2.1 hb ⟨i, hi⟩ ⟨j, hj⟩ (fun h => hij (Fin.mk.inj h)) (congrArg co he),
    fun t ht k hk => ?_⟩
  have := (hx t ht).2.2 k
  have e1 : conf n (x t) k = 0 := congrArg co hk.1
  have e2 : conf n (v t) k = 0 := congrArg co hk.2.1
  have e3 : inNumbers a (conf n (x t), conf n (v t)) k = 0 := congrArg co hk.2.2
  dsimp only at this
  rw [e1, e2, e3, norm_zero] at this
  norm_num at this

/-- **C62, any forces.** Particles with the accelerations `a` that the forces `I` give them - gravity and any additional forces, which may depend on the velocities -
smooth near the present state `P`; no particle at the origin without velocity and without acceleration: there is a step length such that the calls of IAS15 on a plain
system with steps up to this length - any number of them, as long as the steps add up to no more than that length - return, each after one correction and with the
full step.  What is missing: larger steps; false for all derivatives (`C62_never_ends`). -/
theorem C62_forces_partial {I : Interactions} {n : Nat} {m : Nat → ℝ} {a : Field n} (A : Acts I n m a) {P : Particles} (hP : P.num = n) (hPm : ∀ k, k < n → P.mass k = m k)
    (hsn : SmoothNear a P) (hact : ∀ k : Fin n, ¬ (P.pos k = 0 ∧ P.vel k = 0 ∧ a (fun j => P.pos j) (fun j => P.vel j) k = 0)) (t0 : ℝ) :
    ∃ h0 : ℝ, 0 < h0 ∧ ∀ (N : Nat) (big : ℝ) (H : Nat → ℝ), (∀ i, i < N → 0 ≤ H i) → (∑ i ∈ range N, H i) ≤ h0 →
      ∃ (s : Nat → Simple) (it : Nat → IAS) (h' : Nat → ℝ), s 0 = Simple.init t0 P ∧ it 0 = IAS.new big ∧
        ∀ i, i < N → (∀ fuel, Radau.iterate code (radauSimple I) big (fuel + 1) 0 (H i) (it i) ((s i).preIter I) = .ok (s (i + 1), it (i + 1), h' i)) ∧
          (s (i + 1)).time = (s i).time + H i ∧ H i / 4 ≤ h' i ∧ h' i ≤ 4 * H i := by
  obtain ⟨x, v, t1, h01, M, S, hS, _, hb⟩ := busy_motion hP hPm hsn (b := False) (fun h => h.elim) hact t0
  obtain ⟨K, h0, hK, hh0, key⟩ := C103_forced_runs A h01.le M hS hb
  refine ⟨min h0 (t1 - t0), lt_min hh0 (by linarith), fun N big H hH hsum => ?_⟩
  have hs0 : 0 ≤ ∑ i ∈ range N, H i := sum_nonneg fun i hi => hH i (mem_range.1 hi)
  obtain ⟨s, it, h', a1, a2, a3, _⟩ := key P S N big (∑ i ∈ range N, H i) H hs0 (hsum.trans (min_le_left _ _))
    (fun i hi => ⟨hH i hi, single_le_sum (f := H) (fun j hj => hH j (mem_range.1 hj)) (mem_range.2 hi)⟩) (hsum.trans (min_le_right _ _))
  exact ⟨s, it, h', a1, a2, a3⟩

/-- **C62, chain systems.** The same for a chain system, on which each call is followed by a choice of a new chain; the particles are in different places. -/
theorem C62_chain_forces_partial {IC : ChainInteractions} {I : Interactions} (AI : AgreesI IC I) {n : Nat} {m : Nat → ℝ} {a : Field n} (A : Acts I n m a) {P : Particles}
    (hP : P.num = n) (hPm : ∀ k, k < n → P.mass k = m k) (hsn : SmoothNear a P) (apart : ∀ i j, i < n → j < n → i ≠ j → P.pos i ≠ P.pos j)
    (hact : ∀ k : Fin n, ¬ (P.pos k = 0 ∧ P.vel k = 0 ∧ a (fun j => P.pos j) (fun j => P.vel j) k = 0)) (t0 : ℝ) :
    ∃ h0 : ℝ, 0 < h0 ∧ ∀ idx, IndexOf P idx → ∀ (N : Nat) (big : ℝ) (H : Nat → ℝ), (∀ i, i < N → 0 ≤ H i) → (∑ i ∈ range N, H i) ≤ h0 →
      ∃ (s u : Nat → ChainSys) (it : Nat → IAS) (h' : Nat → ℝ), ChainSys.init t0 P idx = .ok (s 0) ∧ it 0 = IAS.new big ∧
        ∀ i, i < N → (∀ fuel, Radau.ChainMacro code IC big (fuel + 1) (H i) (it i) (s i) (u i) (s (i + 1)) (it (i + 1)) (h' i)) ∧
          (s (i + 1)).time = (s i).time + H i ∧ H i / 4 ≤ h' i ∧ h' i ≤ 4 * H i := by
  obtain ⟨x, v, t1, h01, M, S, hS, ha, hb⟩ := busy_motion hP hPm hsn (b := True) (fun _ => apart) hact t0
  obtain ⟨K, h0, hK, hh0, key⟩ := C103_chain_runs AI A h01.le M hS (ha trivial) hb
  refine ⟨min h0 (t1 - t0), lt_min hh0 (by linarith), fun idx hidx N big H hH hsum => ?_⟩
  have hs0 : 0 ≤ ∑ i ∈ range N, H i := sum_nonneg fun i hi => hH i (mem_range.1 hi)
  obtain ⟨s, u, it, h', a1, a2, a3, _⟩ := key P S idx hidx N big (∑ i ∈ range N, H i) H hs0 (hsum.trans (min_le_left _ _))
    (fun i hi => ⟨hH i hi, single_le_sum (f := H) (fun j hj => hH j (mem_range.1 hj)) (mem_range.2 hi)⟩) (hsum.trans (min_le_right _ _))
  exact ⟨s, u, it, h', a1, a2, a3⟩

section
variable {ex : List (ForceClass Particles)} {n : Nat} {m : Nat → ℝ} {a : Field n} (A : Acts (withGravity ex) n m a)
include A

/-- A motion that the derivatives describe begins in every state, for all time transformations (for the logarithmic Hamiltonian with additional forces a wrong one, C110). -/
theorem led_exists (type : ReguType) {P : Particles} (hP : P.num = n) (hPm : ∀ k, k < n → P.mass k = m k) (hsn : SmoothNear a P)
    (apart : ∀ i j, i < n → j < n → i ≠ j → P.pos i ≠ P.pos j) (hn : 2 ≤ n) (hm : ∀ k, k < n → 0 < m k) (t0 : ℝ) :
    ∃ (x v : ℝ → Nat → V3 ℝ) (t1 : ℝ), t0 < t1 ∧ Led m type a (ex ≠ []) x v t0 t1 ∧ InState n m x v t0 P ∧ SmoothAlong a x v t0 t1 ∧
      ∀ t ∈ Set.Icc t0 t1, ∀ i j, i < n → j < n → i ≠ j → x t i ≠ x t j := by
  obtain ⟨U, hU, hsm, hin⟩ := hsn
  have hin0 : (conf n P.pos, conf n P.vel) ∈ U := hin 0 ⟨le_rfl, le_rfl⟩
  have hfr : conf n P.pos ∈ free n := fun i j hij h => apart i j i.2 j.2 (fun e => hij (Fin.ext e)) (congrArg ve h)
  have hV : IsOpen (U ∩ Prod.fst ⁻¹' free n) := hU.inter ((free_open _).preimage continuous_fst)
  have hap : ∀ {x v : ℝ → Nat → V3 ℝ} {t : ℝ}, (conf n (x t), conf n (v t)) ∈ U ∩ Prod.fst ⁻¹' free n → ∀ i j, i < n → j < n → i ≠ j → x t i ≠ x t j :=
    fun h i j hi hj hij he => h.2 ⟨i, hi⟩ ⟨j, hj⟩ (fun h => hij (Fin.mk.inj h)) (congrArg co he)
  by_cases hty : type = .logH → ex = []
  · obtain ⟨x, v, t1, h01, M, S, hx⟩ := forced_exists (m := m) hP hPm hV (hsm.mono Set.inter_subset_left) ⟨hin0, hfr⟩ t0
    exact ⟨x, v, t1, h01, led_of A M (fun t ht => hap (hx t ht)) hn hm hty, S, ⟨U, hU, hsm, fun t ht => (hx t ht).1⟩, fun t ht => hap (hx t ht)⟩
  · obtain ⟨rfl, hex⟩ : type = .logH ∧ ex ≠ [] := by
      by_contra h
      exact hty fun h1 => by by_contra h2; exact h ⟨h1, h2⟩
    obtain ⟨x, v, t1, h01, M, S, hx⟩ := forced_exists (m := m) hP hPm hV (misled_smooth (m := m) hsm hn hm fun j => P.pos j) ⟨hin0, hfr⟩ t0
    have ey : (fun j : Fin n => x t0 j) = fun j : Fin n => P.pos j := funext fun j => (S.pos j j.2).symm
    rw [← ey] at M
    exact ⟨x, v, t1, h01, led_misled hex h01.le M (fun t ht => hap (hx t ht)) hn hm, S, ⟨U, hU, hsm, fun t ht => (hx t ht).1⟩, fun t ht => hap (hx t ht)⟩

/-- **C62, regularised systems.** Two or more particles of positive masses in different places, gravity and any additional forces, smooth near the present state, all
time transformations: there are a time after the present one and a step length such that every call of IAS15 with a step up to this length that begins before that time
returns after one correction and recommends a step between a quarter of and four times the step asked for, and the clock advances. -/
theorem C62_regularised_partial (type : ReguType) {P : Particles} (hP : P.num = n) (hPm : ∀ k, k < n → P.mass k = m k) (hsn : SmoothNear a P)
    (apart : ∀ i j, i < n → j < n → i ≠ j → P.pos i ≠ P.pos j) (hn : 2 ≤ n) (hm : ∀ k, k < n → 0 < m k) (t0 : ℝ) :
    ∃ t2 κ h0 : ℝ, t0 < t2 ∧ 0 < κ ∧ 0 < h0 ∧ ∀ (big : ℝ) (H : Nat → ℝ), (∀ i, 0 ≤ H i ∧ H i ≤ h0) →
      ∃ (s : Nat → ReguSys) (it : Nat → IAS) (h' : Nat → ℝ), s 0 = ReguSys.init 1 type t0 P ∧ it 0 = IAS.new big ∧ ∀ N, (∀ i, i < N → (s i).time ≤ t2) →
        (∀ i, i < N → (∀ fuel, Radau.iterate code (radauRegu 1 type (withGravity ex)) big (fuel + 1) 0 (H i) (it i) ((s i).preIter (withGravity ex)) =
          .ok (s (i + 1), it (i + 1), h' i)) ∧ H i / 4 ≤ h' i ∧ h' i ≤ 4 * H i) ∧ t0 + κ * ∑ i ∈ range N, H i ≤ (s N).time := by
  obtain ⟨x, v, t1, h01, L, S, hS, hap⟩ := led_exists A type hP hPm hsn apart hn hm t0
  obtain ⟨K, κ, h0, hK, hκ, hh0, key⟩ := regu_go A (t2 := (t0 + t1) / 2) (by linarith) (by linarith) hS hap hn hm type L
  refine ⟨(t0 + t1) / 2, κ, h0, by linarith, hκ, hh0, fun big H hH => ?_⟩
  obtain ⟨s, it, h', a1, a2, a3⟩ := key P S big h0 H hh0.le le_rfl hH
  exact ⟨s, it, h', a1, a2, fun N hN => ⟨(a3 N hN).1, (a3 N hN).2.2.1⟩⟩

/-- **C62, AR-chain systems.** The same, for every choice of the chains after the calls. -/
theorem C62_archain_partial {IC : ChainInteractions} (AI : AgreesI IC (withGravity ex)) (type : ReguType) {P : Particles} (hP : P.num = n)
    (hPm : ∀ k, k < n → P.mass k = m k) (hsn : SmoothNear a P)
    (apart : ∀ i j, i < n → j < n → i ≠ j → P.pos i ≠ P.pos j) (hn : 2 ≤ n) (hm : ∀ k, k < n → 0 < m k) (t0 : ℝ) :
    ∃ t2 κ h0 : ℝ, t0 < t2 ∧ 0 < κ ∧ 0 < h0 ∧ ∀ idx, IndexOf P idx → ∀ pick : Nat → Particles → Arr Nat, (∀ i Q, 2 ≤ Q.num → IndexOf Q (pick i Q)) →
      ∀ (big : ℝ) (H : Nat → ℝ), (∀ i, 0 ≤ H i ∧ H i ≤ h0) →
      ∃ (s u : Nat → ARSys) (it : Nat → IAS) (h' : Nat → ℝ), ARSys.init 1 type t0 P idx = .ok (s 0) ∧ it 0 = IAS.new big ∧ ∀ N, (∀ i, i < N → (s i).time ≤ t2) →
        (∀ i, i < N → (∀ fuel, Radau.iterate code (radauAR 1 type IC) big (fuel + 1) 0 (H i) (it i) ((s i).preIter IC) = .ok (u i, it (i + 1), h' i)) ∧
          (u i).postIter (pick i (u i).P) = .ok (s (i + 1)) ∧ H i / 4 ≤ h' i ∧ h' i ≤ 4 * H i) ∧ t0 + κ * ∑ i ∈ range N, H i ≤ (s N).time := by
  obtain ⟨x, v, t1, h01, L, S, hS, hap⟩ := led_exists A type hP hPm hsn apart hn hm t0
  obtain ⟨K, κ, h0, hK, hκ, hh0, key⟩ := ar_go AI A (t2 := (t0 + t1) / 2) (by linarith) (by linarith) hS hap hn hm type L
  refine ⟨(t0 + t1) / 2, κ, h0, by linarith, hκ, hh0, fun idx hidx pick hpick big H hH => ?_⟩
  obtain ⟨s, u, it, h', a1, a2, a3⟩ := key P S idx hidx pick hpick big h0 H hh0.le le_rfl hH
  exact ⟨s, u, it, h', a1, a2, fun N hN => ⟨(a3 N hN).1, (a3 N hN).2.2.1⟩⟩

end

/-- two bodies that move apart, with post-Newtonian corrections and tides: a case of all four theorems, for any strengths of the forces -/
example (G c t0 : ℝ) (rad apsi lag : Nat → ℝ) : ∃ h0 : ℝ, 0 < h0 ∧ ∀ (N : Nat) (big : ℝ) (H : Nat → ℝ), (∀ i, i < N → 0 ≤ H i) → (∑ i ∈ range N, H i) ≤ h0 →
      ∃ (s : Nat → Simple) (it : Nat → IAS) (h' : Nat → ℝ), s 0 = Simple.init t0 parting ∧ it 0 = IAS.new big ∧
        ∀ i, i < N → (∀ fuel, Radau.iterate code (radauSimple ⟨Lib.newton, [Extra.pn1, .tides rad apsi lag].map (libOf G c)⟩) big (fuel + 1) 0 (H i) (it i)
          ((s i).preIter ⟨Lib.newton, [Extra.pn1, .tides rad apsi lag].map (libOf G c)⟩) = .ok (s (i + 1), it (i + 1), h' i)) ∧
          (s (i + 1)).time = (s i).time + H i ∧ H i / 4 ≤ h' i ∧ h' i ≤ 4 * H i := by
  obtain ⟨A, _, hS⟩ := C100_library G c 2 (fun _ => 1) [Extra.pn1, .tides rad apsi lag]
  refine C62_forces_partial A (P := parting) rfl (fun _ _ => rfl) (hS _ _ _ _ (fun t _ i j hi hj hij h => ?_) (by simp [Extra.Away])) (fun k hk => ?_) t0
  · have := congrArg V3.x h
    interval_cases i <;> interval_cases j <;> simp_all [parting]
  · have := congrArg V3.x hk.2.1
    by_cases h : (k : Nat) = 0 <;> simp [parting, h] at this

example (G c t0 : ℝ) (rad apsi lag : Nat → ℝ) (type : ReguType) : ∃ t2 κ h0 : ℝ, t0 < t2 ∧ 0 < κ ∧ 0 < h0 ∧ ∀ (big : ℝ) (H : Nat → ℝ), (∀ i, 0 ≤ H i ∧ H i ≤ h0) →
      ∃ (s : Nat → ReguSys) (it : Nat → IAS) (h' : Nat → ℝ), s 0 = ReguSys.init 1 type t0 parting ∧ it 0 = IAS.new big ∧ ∀ N, (∀ i, i < N → (s i).time ≤ t2) →
        (∀ i, i < N → (∀ fuel, Radau.iterate code (radauRegu 1 type (withGravity ([Extra.pn1, .tides rad apsi lag].map (libOf G c)))) big (fuel + 1) 0 (H i) (it i)
          ((s i).preIter (withGravity ([Extra.pn1, .tides rad apsi lag].map (libOf G c)))) =
          .ok (s (i + 1), it (i + 1), h' i)) ∧ H i / 4 ≤ h' i ∧ h' i ≤ 4 * H i) ∧ t0 + κ * ∑ i ∈ range N, H i ≤ (s N).time := by
  obtain ⟨A, _, hS⟩ := C100_library G c 2 (fun _ => 1) [Extra.pn1, .tides rad apsi lag]
  have hap : ∀ i j, i < 2 → j < 2 → i ≠ j → parting.pos i ≠ parting.pos j := fun i j hi hj hij h => by
    have := congrArg V3.x h
    interval_cases i <;> interval_cases j <;> simp_all [parting]
  exact C62_regularised_partial (ex := [Extra.pn1, .tides rad apsi lag].map (libOf G c)) A type (P := parting) rfl (fun _ _ => rfl)
    (hS _ _ _ _ (fun _ _ => hap) (by simp [Extra.Away])) hap le_rfl (fun _ _ => one_pos) t0

/-- two particles are always in the same order -/
theorem two_chain {P : Particles} (hP : P.num = 2) {idx : Arr Nat} (h : IndexOf P idx) : idx = Chain.ofList [0, 1] := by
  obtain ⟨fuel, l, ⟨s, ⟨hs, _⟩, e⟩, rfl⟩ := h
  rw [hP] at hs e
  have hd : Chain.createDistances 2 (dist2 P.pos) = [⟨dist2 P.pos 0 1, 0, 1, true⟩] := rfl
  rw [hd, List.perm_singleton] at hs
  subst hs
  cases fuel with
  | zero => exact absurd e (by simp [Chain.createIndex, Chain.scan])
  | succ fuel =>
    have : Chain.createIndex (fuel + 1) 2 [⟨dist2 P.pos 0 1, 0, 1, true⟩] = .ok [0, 1] := by simp [Chain.createIndex, Chain.scan]
    rw [this] at e
    cases e
    rfl

/-- C63 on chain systems: two bodies that move apart, attracting each other, with the tables of the code. A call of a length that is short enough meets the
hypotheses of `C63_chain`; with two bodies the order of the chain stays the same. -/
example (t0 : ℝ) : ∃ h0 : ℝ, 0 < h0 ∧ ∀ H, 0 ≤ H → H ≤ h0 → ∀ big, ∃ idx s0 u s1 it' h', IndexOf parting idx ∧ ChainSys.init t0 parting idx = .ok s0 ∧
    Radau.ChainMacro code chainGravity big 1 H (IAS.new big) s0 u s1 it' h' ∧ (∀ k, k < 2 → s1.index k = s0.index k) ∧
    momentum s1.P = momentum parting ∧ massMoment s1.P = massMoment parting + H • momentum parting := by
  obtain ⟨A, _, hS⟩ := C100_library 1 1 2 (fun _ => 1) []
  have hap : ∀ i j, i < 2 → j < 2 → i ≠ j → parting.pos i ≠ parting.pos j := fun i j hi hj hij h => by
    have := congrArg V3.x h
    interval_cases i <;> interval_cases j <;> simp_all [parting]
  obtain ⟨h0, hh0, key⟩ := C62_chain_forces_partial (I := gravity) agrees_gravity A (P := parting) rfl (fun _ _ => rfl) (hS _ _ _ _ (fun _ _ => hap) (by simp)) hap
    (fun k hk => by
      have := congrArg V3.x hk.2.1
      by_cases h : (k : Nat) = 0 <;> simp [parting, h] at this) t0
  refine ⟨h0, hh0, fun H h1 h2 big => ?_⟩
  obtain ⟨idx, hi⟩ := IndexOf.exists parting le_rfl
  obtain ⟨s, u, it, h', e0, e1, e2⟩ := key idx hi 1 big (fun _ => H) (fun _ _ => h1) (by simpa using h2)
  obtain ⟨e2, e3, _⟩ := e2 0 one_pos
  have hN : AllForces gravity (NoNetForce parting.num parting.mass) :=
    ⟨by intro P acc hn hm; rw [← hn, ← hm]; exact (Props.C07_newton_third_law P acc).1, by simp⟩
  obtain ⟨s0', e0', g0, a0, i0⟩ := ChainSys.init_sim t0 parting idx hi.two_le hi.isIndex
  rw [e0] at e0'; cases e0'
  have P0 : (s 0).P = parting := congrArg Simple.P a0
  have T0 : (s 0).time = t0 := congrArg Simple.time a0
  obtain ⟨_, b2, _⟩ := chain_macro_any agrees_gravity (σ := permOf hi.isIndex) (m := parting.mass)
    ⟨⟨by rw [P0], fun k _ => by rw [P0], fun j => by rw [i0]; rfl, g0.weaken⟩, by rw [P0]⟩ (by rw [e1]; rfl) (e2 0)
  have same : ∀ k, k < 2 → (s 1).index k = (s 0).index k := by
    obtain ⟨_, idx', hi', e4⟩ := e2 0
    obtain ⟨s', e5, _, _, e6⟩ := ChainSys.postIter_sim b2.1.good.weaken idx' hi'.isIndex
    rw [e4] at e5; cases e5
    intro k hk
    rw [e6 k (by rw [b2.1.num]; exact hk), i0, two_chain rfl hi, two_chain b2.1.num hi']
  have C := C63_chain agrees_gravity code big t0 parting idx hi hN 1 s u it (fun _ => 1) (fun _ => H) h' e0 e1 (fun i hi => by
    obtain rfl : i = 0 := by omega
    exact ⟨e2 0, same⟩)
  refine ⟨idx, s 0, u 0, s 1, it 1, h' 0, hi, e0, by rw [← e1]; exact e2 0, same, C.1, ?_⟩
  rw [C.2, e3, T0]
  congr 2; ring

end SpaceHub.Sys
