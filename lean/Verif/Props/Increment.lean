import Verif.Proof.Increment
import Verif.Props.Systems
import Verif.Props.Time

/-
C19: collected increments.
-/

set_option autoImplicit false

namespace SpaceHub.Sys
open SpaceHub V3 Force Core Integrator Props

/-- Plain system: switch the collection on, clear, make any calls.  The entry `i` of the increment array is then the
change of the entry `i` of the written scalar array; nothing beyond the array is touched. -/
theorem C19_simple (I : Interactions) (ops : List Op) (s s' : Simple)
    (e : (simpleOps I).run ops ((s.collect true).clearInc I) = .ok s') :
    (∀ i, i < s.variableNumber I → s'.inc i = (s'.write I).getD i 0 - (s.write I).getD i 0) ∧
    (∀ i, s.variableNumber I ≤ i → s'.inc i = s.inc i) ∧ s'.variableNumber I = s.variableNumber I := by
  obtain ⟨_, hn, hk⟩ := run_follows (simpleOps I) I.velDep Simple.sync Simple.flat (by
    intro op s s' hs e
    cases op with
    | drift h => cases e; exact s.drift_follows I.velDep h hs
    | kick h => cases e; exact s.kick_follows I h hs) ops _ s' rfl e
  have hw : ((s.collect true).clearInc I).write I = s.write I := rfl
  refine ⟨?_, ?_, by unfold Simple.variableNumber; rw [show s'.P.num = s.P.num from hn]⟩
  · intro i hi
    have := hk i
    rw [← Simple.write_getD, ← Simple.write_getD, hw] at this
    have h0 : ((s.collect true).clearInc I).flat.inc i = 0 := if_pos hi
    rw [h0] at this
    simpa [Simple.flat] using this
  · intro i hi
    have := hk i
    rw [← Simple.write_getD, ← Simple.write_getD, hw] at this
    have h0 : ((s.collect true).clearInc I).flat.inc i = s.inc i := if_neg (by show ¬ i < _; exact not_lt.2 hi)
    have hn' : s'.P.num = s.P.num := hn
    rw [h0, List.getD_eq_default _ _ (by rw [C13_simple_size]; unfold Simple.variableNumber at hi ⊢; rw [hn']; exact hi),
      List.getD_eq_default _ _ (by rw [C13_simple_size]; exact hi)] at this
    have h2 : s'.flat.inc i = s'.inc i := rfl
    rw [h2] at this
    linarith

/-- Regularised system, for a run that does not divide by zero. -/
theorem C19_regularized (G : ℝ) (type : ReguType) (I : Interactions) (ops : List Op) (s s' : ReguSys)
    (e : (reguOps G type I).run ops ((s.collect true).clearInc I) = .ok s') :
    (∀ i, i < s.variableNumber I → s'.inc i = (s'.write I).getD i 0 - (s.write I).getD i 0) ∧
    (∀ i, s.variableNumber I ≤ i → s'.inc i = s.inc i) := by
  obtain ⟨_, hn, hk⟩ := run_follows (reguOps G type I) I.velDep ReguSys.sync ReguSys.flat (by
    intro op s s' hs e
    cases op with
    | drift h => exact s.drift_follows type I.velDep h s' hs e
    | kick h => exact s.kick_follows G type I h s' hs e) ops _ s' rfl e
  have hw : ((s.collect true).clearInc I).write I = s.write I := rfl
  constructor
  · intro i hi
    have := hk i
    rw [← ReguSys.write_getD, ← ReguSys.write_getD, hw] at this
    have h0 : ((s.collect true).clearInc I).flat.inc i = 0 := if_pos hi
    rw [h0] at this
    simpa [ReguSys.flat] using this
  · intro i hi
    have := hk i
    rw [← ReguSys.write_getD, ← ReguSys.write_getD, hw] at this
    have h0 : ((s.collect true).clearInc I).flat.inc i = s.inc i := if_neg (by show ¬ i < _; exact not_lt.2 hi)
    have hn' : s'.P.num = s.P.num := hn
    rw [h0, List.getD_eq_default _ _ (by rw [C13_regu_size]; unfold ReguSys.variableNumber at hi ⊢; rw [hn']; exact hi),
      List.getD_eq_default _ _ (by rw [C13_regu_size]; exact hi)] at this
    have h2 : s'.flat.inc i = s'.inc i := rfl
    rw [h2] at this
    linarith

/-- Chain system: the increments are those of the chain coordinates it writes. -/
theorem C19_chain (I : ChainInteractions) (ops : List Op) (s s' : ChainSys)
    (e : (chainOps I).run ops ((s.collect true).clearInc I) = .ok s') :
    (∀ i, i < s.variableNumber I → s'.inc i = (s'.write I).getD i 0 - (s.write I).getD i 0) ∧
    (∀ i, s.variableNumber I ≤ i → s'.inc i = s.inc i) := by
  obtain ⟨_, hn, hk⟩ := run_follows (chainOps I) I.velDep ChainSys.sync ChainSys.flat (by
    intro op s s' hs e
    cases op with
    | drift h => exact s.drift_follows I.velDep h s' hs e
    | kick h => exact s.kick_follows I h s' hs e) ops _ s' rfl e
  have hw : ((s.collect true).clearInc I).write I = s.write I := rfl
  constructor
  · intro i hi
    have := hk i
    rw [← ChainSys.write_getD, ← ChainSys.write_getD, hw] at this
    have h0 : ((s.collect true).clearInc I).flat.inc i = 0 := if_pos hi
    rw [h0] at this
    simpa [ChainSys.flat] using this
  · intro i hi
    have := hk i
    rw [← ChainSys.write_getD, ← ChainSys.write_getD, hw] at this
    have h0 : ((s.collect true).clearInc I).flat.inc i = s.inc i := if_neg (by show ¬ i < _; exact not_lt.2 hi)
    have hn' : s'.P.num = s.P.num := hn
    rw [h0, List.getD_eq_default _ _ (by rw [C13_chain_size]; unfold ChainSys.variableNumber at hi ⊢; rw [hn']; exact hi),
      List.getD_eq_default _ _ (by rw [C13_chain_size]; exact hi)] at this
    have h2 : s'.flat.inc i = s'.inc i := rfl
    rw [h2] at this
    linarith

/-- AR-chain system. -/
theorem C19_archain (G : ℝ) (type : ReguType) (I : ChainInteractions) (ops : List Op) (s s' : ARSys)
    (e : (arOps G type I).run ops ((s.collect true).clearInc I) = .ok s') :
    (∀ i, i < s.variableNumber I → s'.inc i = (s'.write I).getD i 0 - (s.write I).getD i 0) ∧
    (∀ i, s.variableNumber I ≤ i → s'.inc i = s.inc i) := by
  obtain ⟨_, hn, hk⟩ := run_follows (arOps G type I) I.velDep ARSys.sync ARSys.flat (by
    intro op s s' hs e
    cases op with
    | drift h => exact s.drift_follows type I.velDep h s' hs e
    | kick h => exact s.kick_follows G type I h s' hs e) ops _ s' rfl e
  have hw : ((s.collect true).clearInc I).write I = s.write I := rfl
  constructor
  · intro i hi
    have := hk i
    rw [← ARSys.write_getD, ← ARSys.write_getD, hw] at this
    have h0 : ((s.collect true).clearInc I).flat.inc i = 0 := if_pos hi
    rw [h0] at this
    simpa [ARSys.flat] using this
  · intro i hi
    have := hk i
    rw [← ARSys.write_getD, ← ARSys.write_getD, hw] at this
    have h0 : ((s.collect true).clearInc I).flat.inc i = s.inc i := if_neg (by show ¬ i < _; exact not_lt.2 hi)
    have hn' : s'.P.num = s.P.num := hn
    rw [h0, List.getD_eq_default _ _ (by rw [C13_archain_size]; unfold ARSys.variableNumber at hi ⊢; rw [hn']; exact hi),
      List.getD_eq_default _ _ (by rw [C13_archain_size]; exact hi)] at this
    have h2 : s'.flat.inc i = s'.inc i := rfl
    rw [h2] at this
    linarith

/-- Adding the collected increments to the initial array and reading the result gives the final state: what the
extrapolating iterators rely on.  (Plain system; `s0` is any state of as many particles.) -/
theorem C19_increments_rebuild_state (I : Interactions) (ops : List Op) (s s' s0 : Simple)
    (e : (simpleOps I).run ops ((s.collect true).clearInc I) = .ok s') (y : List ℝ) (hl : y.length = s.variableNumber I)
    (hy : ∀ i, i < s.variableNumber I → y.getD i 0 = (s.write I).getD i 0 + s'.inc i) : s0.read I y = s0.read I (s'.write I) := by
  congr 1
  have hw := C13_simple_size I s'
  rw [(C19_simple I ops s s' e).2.2] at hw
  refine List.ext_getElem (hl.trans hw.symm) fun i h1 h2 => ?_
  rw [← List.getD_eq_getElem _ (0 : ℝ) h1, ← List.getD_eq_getElem _ (0 : ℝ) h2]
  rw [hl] at h1
  rw [hy i h1, (C19_simple I ops s s' e).1 i h1]; ring

/-- Concretely: three bodies in a chain drift by `h` with collection switched on. -/
example (h : ℝ) : ∃ idx s0 s', IndexOf exP idx ∧ ChainSys.init 0 exP idx = .ok s0 ∧
    (chainOps ⟨Lib.newtonC, []⟩).run [Op.drift h] ((s0.collect true).clearInc ⟨Lib.newtonC, []⟩) = .ok s' ∧
    s'.inc 0 = h := by
  obtain ⟨idx, hi⟩ := IndexOf.exists exP (by simp [exP])
  obtain ⟨s0, e0, g, a, _⟩ := ChainSys.init_sim 0 exP idx hi.two_le hi.isIndex
  obtain ⟨x, hx, _⟩ := toCartesian_ok (n := s0.P.num) (idx := s0.index) (by have := g.two; omega) g.cons.index
    (advance s0.P.num s0.cpos s0.cvel h) s0.P.pos
  obtain ⟨s1, e1⟩ : ∃ s1, (chainOps ⟨Lib.newtonC, []⟩).run [Op.drift h] ((s0.collect true).clearInc ⟨Lib.newtonC, []⟩) = .ok s1 := by
    show ∃ s1, (ChainSys.drift h ((s0.collect true).clearInc ⟨Lib.newtonC, []⟩) >>= fun s => .ok s) = _
    unfold ChainSys.drift ChainSys.chainAdvance
    dsimp only [ChainSys.collect, ChainSys.clearInc]
    rw [hx]
    exact ⟨_, rfl⟩
  refine ⟨idx, s0, s1, hi, e0, e1, ?_⟩
  have := (C19_chain ⟨Lib.newtonC, []⟩ _ s0 s1 e1).1 0 (by unfold ChainSys.variableNumber; omega)
  rw [this, ChainSys.write_getD, ChainSys.write_getD]
  have ht := C17_chain_time _ _ _ _ e1
  show s1.time - s0.time = h
  rw [ht]
  simp [driftTime, ChainSys.collect, ChainSys.clearInc]

end SpaceHub.Sys
