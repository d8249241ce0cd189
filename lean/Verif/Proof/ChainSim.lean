import Verif.Props.Load
import Verif.Props.Chain

/-
The chain systems simulate the plain ones.
-/

set_option autoImplicit false

namespace SpaceHub.Chain
open SpaceHub

theorem scan_mono {R : Type} (num : Nat) (f d : Nat) (s : Scan R) (k : Nat) (r : Scan R) (h : scan num f s k = .ok r) :
    scan num (f + d) s k = .ok r := by
  induction f generalizing s k with
  | zero => simp [scan] at h
  | succ f ih =>
    rw [show f + 1 + d = (f + d) + 1 by omega]
    unfold scan at h ⊢
    cases hk : s.dist[k]? with
    | none => rw [hk] at h; exact h
    | some n =>
      rw [hk] at h
      dsimp only at h ⊢
      split_ifs at h ⊢ with h1
      · rcases hta : tryAdd s k n with ⟨s', b⟩
        rw [hta] at h
        cases b
        · exact ih _ _ h
        · dsimp only at h ⊢
          split_ifs at h ⊢ with h2
          · exact h
          · exact ih _ _ h
      · exact ih _ _ h

theorem createIndex_mono {R : Type} (f d num : Nat) (dist : List (Node R)) (l : List Nat)
    (h : createIndex f num dist = .ok l) : createIndex (f + d) num dist = .ok l := by
  unfold createIndex at h ⊢
  cases dist with
  | nil => simp at h
  | cons n rest =>
    dsimp only at h ⊢
    revert h
    generalize hs : scan num f _ 1 = r
    intro h
    cases r with
    | ok r => rw [scan_mono num f d _ _ _ hs]; exact h
    | _ => simp at h

/-- Whatever index is returned is a permutation. -/
theorem calcChainIndex_perm {R : Type} [LinearOrder R] {fuel num : Nat} {r2 : Nat → Nat → R} {l : List Nat}
    (h : CalcChainIndex fuel num r2 (.ok l)) : l.Perm (List.range num) := by
  rcases Nat.lt_or_ge num 2 with hn | hn
  · exact absurd (C01_ub_below_two num hn r2 fuel _ h) (by simp)
  · obtain ⟨s, hs, e⟩ := h
    have e' := createIndex_mono fuel (enoughFuel (createDistances num r2).length) num s l e.symm
    obtain ⟨l', h1, h2⟩ := C01_index_is_permutation num hn r2 _ (by omega) (.ok l) ⟨s, hs, e'.symm⟩
    cases h1; exact h2
end SpaceHub.Chain

namespace SpaceHub.Sys
open SpaceHub V3 Force Core

/-- The index that `calc_chain_index` returns is a permutation. -/
theorem IndexOf.isIndex {P : Particles} {idx : Arr Nat} (h : IndexOf P idx) : IsIndex P.num idx := by
  obtain ⟨fuel, l, h, rfl⟩ := h
  exact Chain.isIndex_ofList (Chain.calcChainIndex_perm h)

theorem IndexOf.exists (P : Particles) (hn : 2 ≤ P.num) : ∃ idx, IndexOf P idx := by
  obtain ⟨res, h⟩ := Chain.C01_outcome_exists P.num (dist2 P.pos)
    (Chain.enoughFuel (Chain.createDistances P.num (dist2 P.pos)).length)
  obtain ⟨l, rfl, _⟩ := Chain.C01_index_is_permutation P.num hn _ _ (le_refl _) _ h
  exact ⟨_, _, l, h, rfl⟩

theorem IndexOf.two_le {P : Particles} {idx : Arr Nat} (h : IndexOf P idx) : 2 ≤ P.num := by
  obtain ⟨fuel, l, h, rfl⟩ := h
  by_contra hn
  exact absurd (Chain.C01_ub_below_two P.num (by omega) _ fuel _ h) (by simp)

/-! ### coordinates -/

theorem belongs_advance {n : Nat} {idx : Arr Nat} (hn : n ≠ 0) (hi : IsIndex n idx) {c x ci xi : Arr (V3 ℝ)} (t : ℝ)
    (h : BelongsTo n idx c x) (h' : BelongsTo n idx ci xi) :
    BelongsTo n idx (advance n c ci t) (advance n x xi t) := by
  constructor
  · intro i hin
    have a := hi.lt i (by omega)
    have b := hi.lt (i + 1) hin
    simp only [advance_apply, show i < n by omega, a, b, if_true, h.link i hin, h'.link i hin, smul_sub]
    abel
  · have a := hi.lt 0 (by omega)
    simp only [advance_apply, show n - 1 < n by omega, a, if_true, h.base, h'.base]

theorem chainAdvance_eq {n : Nat} {idx : Arr Nat} (hn : n ≠ 0) (hi : IsIndex n idx) {c x ci xi : Arr (V3 ℝ)} (t : ℝ)
    (h : BelongsTo n idx c x) (h' : BelongsTo n idx ci xi) :
    ChainSys.chainAdvance n idx x c ci t = .ok (advance n x xi t, advance n c ci t) := by
  unfold ChainSys.chainAdvance
  simp only [toCartesian_belongs hn hi _ _ x (belongs_advance hn hi t h h'), Res.ok_bind]
  congr 2
  funext k
  rw [advance_apply]
  by_cases hk : k < n <;> simp [hk]

/-- Whatever the increments, the Cartesian coordinates computed by `chain_advance` belong to the new chain. -/
theorem chainAdvance_belongs {n : Nat} {idx : Arr Nat} (hn : n ≠ 0) (hi : IsIndex n idx) (c x ci : Arr (V3 ℝ)) (t : ℝ) :
    ∃ x', ChainSys.chainAdvance n idx x c ci t = .ok (x', advance n c ci t) ∧ BelongsTo n idx (advance n c ci t) x' := by
  obtain ⟨x', h, hb⟩ := toCartesian_ok hn hi (advance n c ci t) x
  refine ⟨x', ?_, hb⟩
  unfold ChainSys.chainAdvance
  simp only [h, Res.ok_bind]

theorem toChain_ok {n : Nat} (hn : n ≠ 0) (idx : Arr Nat) (x c0 : Arr (V3 ℝ)) :
    ∃ c, Chain.toChain n x c0 idx = .ok c ∧ BelongsTo n idx c x := Chain.C02_chain_belongs n hn idx x c0

/-! ### forces -/

/-- A force class used by a chain system computes the same accelerations as the one used by a plain system, when the
chain coordinates describe the Cartesian ones. -/
structure AgreesF (fc : ChainForce) (f : ForceClass Particles) : Prop where
  velDep : fc.velDep = f.velDep
  acc : ∀ P C a, 2 ≤ P.num → Consistent P C → fc.addAccTo P C a = .ok (f.addAccTo P a)

/-- All force classes of two sets of interactions agree pairwise. -/
structure AgreesI (IC : ChainInteractions) (I : Interactions) : Prop where
  internal : AgreesF IC.internal I.internal
  extra : List.Forall₂ AgreesF IC.extra I.extra

namespace AgreesI
variable {IC : ChainInteractions} {I : Interactions} (A : AgreesI IC I)
include A

theorem any_eq (p : Bool → Bool) : IC.extra.any (fun f => p f.velDep) = I.extra.any (fun f => p f.velDep) := by
  have := A.extra
  revert this
  generalize IC.extra = l, I.extra = l'
  intro h
  induction h with
  | nil => rfl
  | cons h _ ih => simp [h.velDep, ih]

theorem velDep_eq : IC.velDep = I.velDep := A.any_eq id
theorem velIndep_eq : IC.velIndep = I.velIndep := A.any_eq not

variable {P : Particles} {C : ChainView} (hn : 2 ≤ P.num) (hc : Consistent P C)
include hn hc

theorem invoke_all (a : Arr (V3 ℝ)) :
    ChainInteractions.invoke P C (fun _ => true) IC.extra a = .ok (I.extra.foldl (fun acc f => f.addAccTo P acc) a) := by
  have := A.extra
  revert this
  generalize IC.extra = l, I.extra = l'
  intro h
  induction h generalizing a with
  | nil => rfl
  | cons h _ ih => simp [ChainInteractions.invoke, h.acc P C a hn hc, ih]

theorem invoke_dep (a : Arr (V3 ℝ)) :
    ChainInteractions.invoke P C (fun f => f.velDep) IC.extra a = .ok (invokeVelDep P I.extra a) := by
  have := A.extra
  revert this
  generalize IC.extra = l, I.extra = l'
  intro h
  induction h generalizing a with
  | nil => rfl
  | cons h _ ih =>
    rw [ChainInteractions.invoke, invokeVelDep, h.velDep, h.acc P C a hn hc]
    split_ifs <;> simp [ih]

theorem invoke_indep (a : Arr (V3 ℝ)) :
    ChainInteractions.invoke P C (fun f => !f.velDep) IC.extra a = .ok (invokeVelIndep P I.extra a) := by
  have := A.extra
  revert this
  generalize IC.extra = l, I.extra = l'
  intro h
  induction h generalizing a with
  | nil => rfl
  | cons h _ ih =>
    rw [ChainInteractions.invoke, invokeVelIndep, h.velDep, h.acc P C a hn hc]
    split_ifs <;> simp [ih]

theorem acc_eq : IC.acc P C = .ok (I.acc P) := by
  unfold ChainInteractions.acc Interactions.acc evalAcc
  rw [A.internal.acc P C _ hn hc, Res.ok_bind, A.invoke_all hn hc]

theorem velDepAcc_eq : IC.velDepAcc P C = .ok (I.velDepAcc P) := by
  unfold ChainInteractions.velDepAcc Interactions.velDepAcc evalExtraVelDepAcc
  rw [A.velDep_eq, A.invoke_dep hn hc]
  show (if I.velDep = true then _ else _) = Res.ok (if I.velDep = true then _ else _)
  split_ifs <;> rfl

theorem velIndepAcc_eq : IC.velIndepAcc P C = .ok (I.velIndepAcc P) := by
  unfold ChainInteractions.velIndepAcc Interactions.velIndepAcc evalExtraVelIndepAcc
  rw [A.velIndep_eq, A.invoke_indep hn hc]
  show (if I.velIndep = true then _ else _) = Res.ok (if I.velIndep = true then _ else _)
  split_ifs <;> rfl

theorem newtonianAcc_eq : IC.newtonianAcc P C = .ok (I.newtonianAcc P) := by
  unfold ChainInteractions.newtonianAcc Interactions.newtonianAcc evalNewtonianAcc
  rw [A.internal.acc P C _ hn hc]
end AgreesI

/-! ### ChainSystem -/

namespace ChainSys

/-- the state of a plain system that a chain system represents (without increment collection) -/
def abs (s : ChainSys) : Simple := { P := s.P, time := s.time, aux := s.aux, inc := fun _ => 0, sync := false }

/-- at least two particles, and all chain coordinates describe the Cartesian ones -/
structure Good (velDep : Bool) (s : ChainSys) : Prop where
  two : 2 ≤ s.P.num
  cons : ChainConsistent velDep s.P.num s.index s.cpos s.cvel s.caux s.P.pos s.P.vel s.aux

variable {b : Bool} {s : ChainSys}

theorem Good.consistent (g : Good b s) : Consistent s.P s.view := ⟨g.cons.index, g.cons.pos, g.cons.vel⟩
theorem Good.weaken (g : Good b s) : Good false s := ⟨g.two, ⟨g.cons.num, g.cons.index, g.cons.pos, g.cons.vel, fun h => by simp at h⟩⟩

theorem syncTime_fields (s : ChainSys) (h : ℝ) : ∃ i, s.syncTime h = { s with inc := i } := by
  unfold syncTime; split_ifs
  · exact ⟨_, rfl⟩
  · exact ⟨s.inc, rfl⟩
theorem syncPos_fields (s : ChainSys) (v : Arr (V3 ℝ)) (h : ℝ) : ∃ i, s.syncPos v h = { s with inc := i } := by
  unfold syncPos; split_ifs
  · exact ⟨_, rfl⟩
  · exact ⟨s.inc, rfl⟩
theorem syncVel_fields (s : ChainSys) (v : Arr (V3 ℝ)) (h : ℝ) : ∃ i, s.syncVel v h = { s with inc := i } := by
  unfold syncVel; split_ifs
  · exact ⟨_, rfl⟩
  · exact ⟨s.inc, rfl⟩
theorem syncAux_fields (s : ChainSys) (v : Arr (V3 ℝ)) (h : ℝ) : ∃ i, s.syncAux v h = { s with inc := i } := by
  unfold syncAux; split_ifs
  · exact ⟨_, rfl⟩
  · exact ⟨s.inc, rfl⟩

/-- what a step of a chain system does: it succeeds, stays consistent along the same chain, and does to the represented
state what the plain step does -/
def Sim (b : Bool) (s : ChainSys) (r : Res ChainSys) (t : Simple) : Prop :=
  ∃ s', r = .ok s' ∧ Good b s' ∧ s'.index = s.index ∧ s'.abs = t

theorem drift_sim (g : Good b s) (h : ℝ) : Sim b s (s.drift h) (s.abs.drift h) := by
  unfold drift
  simp only [chainAdvance_eq g.cons.num g.cons.index h g.cons.pos g.cons.vel, Res.ok_bind]
  obtain ⟨i, hi⟩ := syncTime_fields
    { s with time := s.time + h, P := { s.P with pos := advance s.P.num s.P.pos s.P.vel h },
             cpos := advance s.P.num s.cpos s.cvel h } h
  obtain ⟨j, hj⟩ := syncPos_fields
    { s with time := s.time + h, P := { s.P with pos := advance s.P.num s.P.pos s.P.vel h },
             cpos := advance s.P.num s.cpos s.cvel h, inc := i } s.cvel h
  rw [hi, hj]
  refine ⟨_, rfl, ⟨g.two, ⟨g.cons.num, g.cons.index, ?_, g.cons.vel, g.cons.aux⟩⟩, rfl, ?_⟩
  · exact belongs_advance g.cons.num g.cons.index h g.cons.pos g.cons.vel
  · rfl

section kick
variable {IC : ChainInteractions} {I : Interactions} (A : AgreesI IC I)
include A

theorem totVelIndepAcc_eq (g : Good b s) : s.totVelIndepAcc IC = .ok (Simple.totVelIndepAcc I s.P) := by
  unfold totVelIndepAcc Simple.totVelIndepAcc
  rw [A.newtonianAcc_eq g.two g.consistent, A.velIndep_eq, A.velIndepAcc_eq g.two g.consistent]
  simp only [Res.ok_bind]
  split_ifs <;> rfl

theorem kickReal_sim (g : Good true s) (a : Arr (V3 ℝ)) (h : ℝ) :
    Sim true s (s.kickReal IC a h) (s.abs.kickReal I a h) := by
  have hc : Consistent { s.P with vel := s.aux } { s.view with chainVel := s.caux } :=
    ⟨g.cons.index, g.cons.pos, g.cons.aux rfl⟩
  unfold kickReal
  rw [A.velDepAcc_eq (P := { s.P with vel := s.aux }) g.two hc]
  obtain ⟨c, hc1, hb⟩ := toChain_ok g.cons.num s.index
    (arrayAdd s.P.num a (I.velDepAcc { s.P with vel := s.aux })) (fun _ => 0)
  simp only [Res.ok_bind, hc1, chainAdvance_eq g.cons.num g.cons.index h g.cons.vel hb]
  generalize hx : arrayAdd s.P.num a (I.velDepAcc { s.P with vel := s.aux }) = x at *
  obtain ⟨i, hi⟩ := syncVel_fields
    { s with P := { s.P with vel := advance s.P.num s.P.vel x h }, cvel := advance s.P.num s.cvel c h } c h
  rw [hi]
  refine ⟨_, rfl, ⟨g.two, ⟨g.cons.num, g.cons.index, g.cons.pos, ?_, g.cons.aux⟩⟩, rfl, by rw [← hx]; rfl⟩
  exact belongs_advance g.cons.num g.cons.index h g.cons.vel hb

theorem kickPseu_sim (g : Good true s) (a : Arr (V3 ℝ)) (h : ℝ) :
    Sim true s (s.kickPseu IC a h) (s.abs.kickPseu I a h) := by
  unfold kickPseu
  rw [A.velDepAcc_eq g.two g.consistent]
  obtain ⟨c, hc1, hb⟩ := toChain_ok g.cons.num s.index (arrayAdd s.P.num a (I.velDepAcc s.P)) (fun _ => 0)
  simp only [Res.ok_bind, hc1, chainAdvance_eq g.cons.num g.cons.index h (g.cons.aux rfl) hb]
  obtain ⟨i, hi⟩ := syncAux_fields
    { s with aux := advance s.P.num s.aux (arrayAdd s.P.num a (I.velDepAcc s.P)) h, caux := advance s.P.num s.caux c h } c h
  rw [hi]
  refine ⟨_, rfl, ⟨g.two, ⟨g.cons.num, g.cons.index, g.cons.pos, g.cons.vel, fun _ => ?_⟩⟩, rfl, rfl⟩
  exact belongs_advance g.cons.num g.cons.index h (g.cons.aux rfl) hb

theorem kick_sim (hb : b = I.velDep) (g : Good b s) (h : ℝ) :
    Sim b s (s.kick IC h) (s.abs.kick I h) := by
  unfold kick Simple.kick
  rw [A.velDep_eq]
  cases hd : I.velDep
  · simp only [Bool.false_eq_true, if_false]
    rw [A.acc_eq g.two g.consistent]
    obtain ⟨c, hc1, hb⟩ := toChain_ok g.cons.num s.index (I.acc s.P) (fun _ => 0)
    simp only [Res.ok_bind, hc1, chainAdvance_eq g.cons.num g.cons.index h g.cons.vel hb]
    obtain ⟨i, hi⟩ := syncVel_fields
      { s with P := { s.P with vel := advance s.P.num s.P.vel (I.acc s.P) h }, cvel := advance s.P.num s.cvel c h } c h
    rw [hi]
    refine ⟨_, rfl, ⟨g.two, ⟨g.cons.num, g.cons.index, g.cons.pos, ?_, g.cons.aux⟩⟩, rfl, rfl⟩
    exact belongs_advance g.cons.num g.cons.index h g.cons.vel hb
  · subst hb
    rw [hd] at g ⊢
    simp only [if_true]
    rw [totVelIndepAcc_eq A g]
    obtain ⟨s1, e1, g1, i1, a1⟩ := kickReal_sim A g (Simple.totVelIndepAcc I s.P) (1 / 2 * h)
    obtain ⟨s2, e2, g2, i2, a2⟩ := kickPseu_sim A g1 (Simple.totVelIndepAcc I s.P) h
    obtain ⟨s3, e3, g3, i3, a3⟩ := kickReal_sim A g2 (Simple.totVelIndepAcc I s.P) (1 / 2 * h)
    simp only [Res.ok_bind, e1, e2]
    refine ⟨s3, e3, g3, by rw [i3, i2, i1], ?_⟩
    rw [a3, a2, a1]; rfl

theorem preIter_sim (g : Good false s) : Good I.velDep (s.preIter IC) ∧ (s.preIter IC).abs = s.abs.preIter I := by
  unfold preIter Simple.preIter
  rw [A.velDep_eq]
  cases I.velDep
  · exact ⟨g, rfl⟩
  · exact ⟨⟨g.two, ⟨g.cons.num, g.cons.index, g.cons.pos, g.cons.vel, fun _ => g.cons.vel⟩⟩, rfl⟩
end kick

theorem postIter_sim (g : Good false s) (newIdx : Arr Nat) (hi : IsIndex s.P.num newIdx) :
    ∃ s', s.postIter newIdx = .ok s' ∧ Good false s' ∧ s'.abs = s.abs ∧ ∀ k, k < s.P.num → s'.index k = newIdx k := by
  unfold postIter
  split_ifs with h
  · obtain ⟨l, hl, hlen, hb⟩ := Chain.C04_update_chain s.P.num g.cons.num s.index newIdx g.cons.index hi s.cpos s.P.pos g.cons.pos
    obtain ⟨l', hl', hlen', hb'⟩ := Chain.C04_update_chain s.P.num g.cons.num s.index newIdx g.cons.index hi s.cvel s.P.vel g.cons.vel
    have bp := belongs_congr (chain' := fun k => if k < s.P.num then l.getD k 0 else s.cpos k) g.cons.num hi
      (fun k hk => by simp [hk]) (fun _ _ => rfl) (hb 0)
    have bv := belongs_congr (chain' := fun k => if k < s.P.num then l'.getD k 0 else s.cvel k) g.cons.num hi
      (fun k hk => by simp [hk]) (fun _ _ => rfl) (hb' 0)
    simp only [hl, hl', store_ok _ hlen, store_ok _ hlen', Res.ok_bind, toCartesian_belongs g.cons.num hi _ _ _ bp,
      toCartesian_belongs g.cons.num hi _ _ _ bv]
    refine ⟨_, rfl, ⟨g.two, ⟨g.cons.num, hi, ?_, ?_, fun h => by simp at h⟩⟩, ?_, fun _ _ => rfl⟩
    · simpa using bp
    · simpa using bv
    · simp [abs]
  · refine ⟨s, rfl, g, rfl, fun k hk => ?_⟩
    by_contra hne
    exact h ⟨k, hk, fun e => hne e.symm⟩

theorem init_sim (time : ℝ) (P : Particles) (idx : Arr Nat) (hn : 2 ≤ P.num) (hi : IsIndex P.num idx) :
    ∃ s, init time P idx = .ok s ∧ Good true s ∧ s.abs = Simple.init time P ∧ s.index = idx := by
  have h0 : P.num ≠ 0 := by omega
  obtain ⟨c, hc, hb⟩ := toChain_ok h0 idx P.pos (fun _ => 0)
  obtain ⟨d, hd, hb'⟩ := toChain_ok h0 idx P.vel (fun _ => 0)
  unfold init
  simp only [hc, hd, Res.ok_bind]
  exact ⟨_, rfl, ⟨hn, ⟨h0, hi, hb, hb', fun _ => hb'⟩⟩, rfl, rfl⟩
end ChainSys

end SpaceHub.Sys
