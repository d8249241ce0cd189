import Verif.Proof.Force
import Mathlib.Tactic.FieldSimp
import Mathlib.Tactic.NormNum
import Mathlib.Tactic.LinearCombination
import Mathlib.Analysis.SpecialFunctions.Log.Deriv

/-
Forces: C06 (chain = direct), C07 (third law), C10 (post-Newtonian labelling), C12 (momentum of dissipative
forces), C51 (drag directions), and the acceleration part of C49.
-/

set_option autoImplicit false

namespace SpaceHub.Props
open SpaceHub V3 Spec Force Finset

/-! ### C06 -/

/-- The Newtonian acceleration of a plain system: every particle gets, on top of what the array held, the
inverse-square attraction of all others; nothing else is written. -/
theorem C06_newton_direct (P : Particles) (acc : Arr (V3 ℝ)) :
    Accumulates P.num (fun k j => newton (P.mass j) (P.pos k) (P.pos j)) acc (newtonDirect P acc) :=
  directLoops_spec (newton_symmetric P) acc

/-- The Newtonian acceleration of a chain system of at least two particles is the same, whatever permutation the
index is, as long as the chain positions belong to the Cartesian ones. -/
theorem C06_newton_chain (P : Particles) (C : ChainView) (hn : 2 ≤ P.num) (hi : IsIndex P.num C.index)
    (hp : BelongsTo P.num C.index C.chainPos P.pos) (acc : Arr (V3 ℝ)) :
    ∃ acc', newtonChain P C acc = .ok acc' ∧
      Accumulates P.num (fun k j => newton (P.mass j) (P.pos k) (P.pos j)) acc acc' ∧
      acc' = newtonDirect P acc := by
  have hc : Consistent { P with vel := fun _ => 0 } { C with chainVel := fun _ => 0 } :=
    ⟨hi, hp, ⟨fun _ _ => by simp, rfl⟩⟩
  obtain ⟨acc', h1, h2⟩ := chainLoopsFar_spec (newton_symmetric { P with vel := fun _ => 0 }) hc hn acc
  refine ⟨acc', h1, h2, ?_⟩
  have h3 := C06_newton_direct P acc
  funext k
  rcases Nat.lt_or_ge k P.num with hk | hk
  · rw [h2.1 k hk, h3.1 k hk]
  · rw [h2.2 k hk, h3.2 k hk]

/-- With fewer than two particles the chain branch runs out of bounds. -/
theorem C06_newton_chain_single (P : Particles) (C : ChainView) (hn : P.num < 2) (acc : Arr (V3 ℝ)) :
    newtonChain P C acc = .ub := by simp [newtonChain, chainLoopsFar, hn]

/-- three particles along the chain 2-0-1 -/
noncomputable def exP : Particles :=
  { num := 3, pos := fun i => if i = 0 then ⟨0, 0, 0⟩ else if i = 1 then ⟨1, 0, 0⟩ else ⟨0, 2, 0⟩,
    vel := fun i => if i = 0 then ⟨1, 0, 0⟩ else ⟨0, 0, 0⟩, mass := fun i => i + 1 }
noncomputable def exC : ChainView :=
  { index := fun i => if i = 0 then 2 else if i = 1 then 0 else 1,
    chainPos := fun i => if i = 0 then ⟨0, -2, 0⟩ else if i = 1 then ⟨1, 0, 0⟩ else ⟨0, 2, 0⟩,
    chainVel := fun i => if i = 0 then ⟨1, 0, 0⟩ else if i = 1 then ⟨-1, 0, 0⟩ else ⟨0, 0, 0⟩ }

theorem exC_consistent : Consistent exP exC := by
  refine ⟨⟨?_, ?_⟩, ⟨?_, ?_⟩, ⟨?_, ?_⟩⟩
  · intro i hi
    have : i = 0 ∨ i = 1 ∨ i = 2 := by simp [exP] at hi; omega
    rcases this with rfl | rfl | rfl <;> simp [exC, exP]
  · intro i j hi hj
    have h1 : i = 0 ∨ i = 1 ∨ i = 2 := by simp [exP] at hi; omega
    have h2 : j = 0 ∨ j = 1 ∨ j = 2 := by simp [exP] at hj; omega
    rcases h1 with rfl | rfl | rfl <;> rcases h2 with rfl | rfl | rfl <;> simp [exC]
  · intro i hi
    have : i = 0 ∨ i = 1 := by simp [exP] at hi; omega
    rcases this with rfl | rfl <;> simp [exC, exP] <;> ext <;> simp
  · simp [exC, exP]
  · intro i hi
    have : i = 0 ∨ i = 1 := by simp [exP] at hi; omega
    rcases this with rfl | rfl <;> simp [exC, exP] <;> ext <;> simp
  · simp [exC, exP]

/-- The hypotheses of `C06_newton_chain` are met by a three-particle chain, and the result is not trivial. -/
example : ∃ acc', newtonChain exP exC (fun _ => 0) = .ok acc' ∧ acc' 1 ≠ 0 := by
  obtain ⟨acc', h, ha, _⟩ := C06_newton_chain exP exC (by simp [exP]) exC_consistent.index exC_consistent.pos (fun _ => 0)
  refine ⟨acc', h, ?_⟩
  rw [ha.1 1 (by simp [exP])]
  have e : (range exP.num).erase 1 = {0, 2} := by simp [exP]; decide
  rw [e, sum_pair (by decide)]
  intro h0
  have hx := congrArg V3.x h0
  have hpos : (0 : ℝ) < len (⟨0, 2, 0⟩ - ⟨1, 0, 0⟩ : V3 ℝ) := by
    unfold len; apply Real.sqrt_pos.2; simp [dot]; norm_num
  have hlen : len (⟨0, 0, 0⟩ - ⟨1, 0, 0⟩ : V3 ℝ) = 1 := by unfold len; simp [dot]
  simp [newton, exP, hlen] at hx
  have : 0 < 3 / len (⟨0, 2, 0⟩ - ⟨1, 0, 0⟩ : V3 ℝ) ^ 3 := by positivity
  norm_num at hx
  linarith

/-! ### C07 -/

/-- Internal pair sums cancel when the terms are antisymmetric. -/
theorem sum_antisymm (n : Nat) (g : Nat → Nat → V3 ℝ) (h : ∀ i j, i < n → j < n → i ≠ j → g i j + g j i = 0) :
    ∑ i ∈ range n, ∑ j ∈ (range n).erase i, g i j = 0 := by
  rw [← sum_pairs_symm]
  refine sum_eq_zero fun i hi => sum_eq_zero fun j hj => ?_
  simp at hi hj
  exact h i j hi hj.2 (by omega)

theorem cross_sum (a : V3 ℝ) (s : Finset Nat) (f : Nat → V3 ℝ) : cross a (∑ j ∈ s, f j) = ∑ j ∈ s, cross a (f j) := by
  classical
  induction s using Finset.induction with
  | empty => ext <;> simp [cross]
  | insert b s hb ih =>
    rw [sum_insert hb, sum_insert hb, ← ih]
    ext <;> simp [cross] <;> ring

theorem cross_add_right (a b c : V3 ℝ) : cross a (b + c) = cross a b + cross a c := by ext <;> simp [cross] <;> ring

theorem momentum_of_accumulates {n : Nat} {F : Nat → Nat → V3 ℝ} {acc acc' : Arr (V3 ℝ)} (m : Arr ℝ)
    (h : Accumulates n F acc acc')
    (ha : ∀ i j, i < n → j < n → i ≠ j → m i • F i j + m j • F j i = 0) :
    ∑ k ∈ range n, m k • acc' k = ∑ k ∈ range n, m k • acc k := by
  have : ∑ k ∈ range n, m k • acc' k =
      ∑ k ∈ range n, m k • acc k + ∑ k ∈ range n, ∑ j ∈ (range n).erase k, m k • F k j := by
    rw [← sum_add_distrib]
    refine sum_congr rfl fun k hk => ?_
    rw [h.1 k (mem_range.1 hk), smul_add, smul_sum]
  rw [this, sum_antisymm n (fun k j => m k • F k j) ha, add_zero]

theorem torque_of_accumulates {n : Nat} {F : Nat → Nat → V3 ℝ} {acc acc' : Arr (V3 ℝ)} (m : Arr ℝ) (x : Arr (V3 ℝ))
    (h : Accumulates n F acc acc')
    (ha : ∀ i j, i < n → j < n → i ≠ j → m i • cross (x i) (F i j) + m j • cross (x j) (F j i) = 0) :
    ∑ k ∈ range n, m k • cross (x k) (acc' k) = ∑ k ∈ range n, m k • cross (x k) (acc k) := by
  have : ∑ k ∈ range n, m k • cross (x k) (acc' k) =
      ∑ k ∈ range n, m k • cross (x k) (acc k) +
        ∑ k ∈ range n, ∑ j ∈ (range n).erase k, m k • cross (x k) (F k j) := by
    rw [← sum_add_distrib]
    refine sum_congr rfl fun k hk => ?_
    rw [h.1 k (mem_range.1 hk), cross_add_right, smul_add, cross_sum, smul_sum]
  rw [this, sum_antisymm n (fun k j => m k • cross (x k) (F k j)) ha, add_zero]

/-- Newtonian accelerations carry no net momentum and no net torque (plain evaluation): the mass-weighted sums over
the array are what they were before the call; in particular zero when the array started from zero. -/
theorem C07_newton_third_law (P : Particles) (acc : Arr (V3 ℝ)) :
    ∑ k ∈ range P.num, P.mass k • newtonDirect P acc k = ∑ k ∈ range P.num, P.mass k • acc k ∧
    ∑ k ∈ range P.num, P.mass k • cross (P.pos k) (newtonDirect P acc k) =
      ∑ k ∈ range P.num, P.mass k • cross (P.pos k) (acc k) := by
  have h := C06_newton_direct P acc
  refine ⟨momentum_of_accumulates P.mass h fun i j _ _ _ => ?_, torque_of_accumulates P.mass P.pos h fun i j _ _ _ => ?_⟩
  · unfold newton
    rw [len_sub_comm (P.pos i)]
    v3 <;> ring
  · unfold newton
    rw [len_sub_comm (P.pos i)]
    ext <;> simp [cross] <;> ring

/-- The same for the evaluation along the chain. -/
theorem C07_newton_third_law_chain (P : Particles) (C : ChainView) (hi : IsIndex P.num C.index)
    (hp : BelongsTo P.num C.index C.chainPos P.pos) (acc acc' : Arr (V3 ℝ)) (h : newtonChain P C acc = .ok acc') :
    ∑ k ∈ range P.num, P.mass k • acc' k = ∑ k ∈ range P.num, P.mass k • acc k ∧
    ∑ k ∈ range P.num, P.mass k • cross (P.pos k) (acc' k) =
      ∑ k ∈ range P.num, P.mass k • cross (P.pos k) (acc k) := by
  have hn : 2 ≤ P.num := by
    by_contra hlt
    rw [C06_newton_chain_single P C (by omega)] at h
    cases h
  obtain ⟨a, h1, _, h3⟩ := C06_newton_chain P C hn hi hp acc
  rw [h] at h1
  cases h1
  rw [h3]
  exact C07_newton_third_law P acc

/-- A reachable case: the three-particle chain starting from a zero array has zero net force. -/
example : ∃ acc', newtonChain exP exC (fun _ => 0) = .ok acc' ∧ ∑ k ∈ range exP.num, exP.mass k • acc' k = 0 := by
  obtain ⟨acc', h, _⟩ := C06_newton_chain exP exC (by simp [exP]) exC_consistent.index exC_consistent.pos (fun _ => 0)
  refine ⟨acc', h, ?_⟩
  have := (C07_newton_third_law_chain exP exC exC_consistent.index exC_consistent.pos _ _ h).1
  simpa using this

/-! ### C10 -/

/-- First post-Newtonian order: both branches give every particle the literature acceleration, hence agree. -/
theorem C10_pn1 (G c : ℝ) (P : Particles) (acc : Arr (V3 ℝ)) :
    Accumulates P.num (fun k j => (TwoBody.mk (P.mass k) (P.mass j) (P.pos k) (P.pos j) (P.vel k) (P.vel j)).pn1 G c)
      acc (pnDirect G c .pn1 P acc) ∧
    ∀ C : ChainView, 2 ≤ P.num → IsIndex P.num C.index → BelongsTo P.num C.index C.chainPos P.pos →
      BelongsTo P.num C.index C.chainVel P.vel → pnChain G c .pn1 P C acc = .ok (pnDirect G c .pn1 P acc) := by
  have hd := directLoops_spec (pn1_symmetric G c P) acc
  refine ⟨hd, fun C hn hi hp hv => ?_⟩
  obtain ⟨acc', h1, h2⟩ := chainLoopsNear_spec (pn1_symmetric G c P) ⟨hi, hp, hv⟩ hn acc
  show chainLoopsNear (pn1Force G c P.vel P.mass) P C acc = _
  rw [h1]; congr 1; funext k
  rcases Nat.lt_or_ge k P.num with hk | hk
  · rw [h2.1 k hk]; exact (hd.1 k hk).symm
  · rw [h2.2 k hk]; exact (hd.2 k hk).symm

/-- Order 2.5 (radiation reaction): both branches give the literature acceleration, hence agree. -/
theorem C10_pn2p5 (G c : ℝ) (P : Particles) (acc : Arr (V3 ℝ)) :
    Accumulates P.num (fun k j => (TwoBody.mk (P.mass k) (P.mass j) (P.pos k) (P.pos j) (P.vel k) (P.vel j)).pn2p5 G c)
      acc (pnDirect G c .pn2p5 P acc) ∧
    ∀ C : ChainView, 2 ≤ P.num → IsIndex P.num C.index → BelongsTo P.num C.index C.chainPos P.pos →
      BelongsTo P.num C.index C.chainVel P.vel → pnChain G c .pn2p5 P C acc = .ok (pnDirect G c .pn2p5 P acc) := by
  have hd := directLoops_spec (pn2p5_symmetric G c P) acc
  refine ⟨hd, fun C hn hi hp hv => ?_⟩
  obtain ⟨acc', h1, h2⟩ := chainLoopsNear_spec (pn2p5_symmetric G c P) ⟨hi, hp, hv⟩ hn acc
  show chainLoopsNear (pn2p5Force G c P.mass) P C acc = _
  rw [h1]; congr 1; funext k
  rcases Nat.lt_or_ge k P.num with hk | hk
  · rw [h2.1 k hk]; exact (hd.1 k hk).symm
  · rw [h2.2 k hk]; exact (hd.2 k hk).symm

/-- Second order, one pair: the body listed first gets the literature acceleration; the body listed second gets it plus
a spurious term, because `Bj` contains `5 v1^2 (n.v2)` where exchanging the labels of `Bi` gives `5 v1^2 (n.v1)`. -/
theorem C10_pn2_pair_partial (G c : ℝ) (P : Particles) (h2 : P.num = 2) (acc : Arr (V3 ℝ)) :
    let b01 := TwoBody.mk (P.mass 0) (P.mass 1) (P.pos 0) (P.pos 1) (P.vel 0) (P.vel 1)
    let b10 := TwoBody.mk (P.mass 1) (P.mass 0) (P.pos 1) (P.pos 0) (P.vel 1) (P.vel 0)
    pnDirect G c .pn2 P acc 0 = acc 0 + b01.pn2 G c ∧
    pnDirect G c .pn2 P acc 1 = acc 1 + b10.pn2 G c +
      (G * P.mass 0 / (b01.r ^ 2 * c ^ 4) * (5 * dot (P.vel 0) (P.vel 0) * (b01.nv2 - b01.nv1))) •
        (P.vel 1 - P.vel 0) := by
  have e : pnDirect G c .pn2 P acc =
      pn2Force G c P.vel P.mass (P.pos 1 - P.pos 0) (P.vel 1 - P.vel 0) 0 1 acc := by
    simp only [pnDirect, directLoops, h2, pnForce]
    rfl
  constructor
  · rw [e, pn2_apply G c P 0 1 (by decide)]; simp [two]
  · rw [e, pn2_apply G c P 0 1 (by decide)]; simp [two, norm2_eq_dot, add_assoc]

/-- Second order: the claim of C10 is false.  There are two bodies (whatever non-zero G and c) whose accelerations
depend on which one is listed first: the plain system and a chain system with the other order disagree. -/
theorem C10_pn2_depends_on_labels (G c : ℝ) (hG : G ≠ 0) (hc : c ≠ 0) :
    ∃ (P : Particles) (C : ChainView), P.num = 2 ∧ IsIndex 2 C.index ∧ BelongsTo 2 C.index C.chainPos P.pos ∧
      BelongsTo 2 C.index C.chainVel P.vel ∧
      ∃ acc', pnChain G c .pn2 P C (fun _ => 0) = .ok acc' ∧ acc' 1 ≠ pnDirect G c .pn2 P (fun _ => 0) 1 := by
  let P : Particles :=
    { num := 2, pos := fun i => if i = 0 then ⟨0, 0, 0⟩ else ⟨1, 0, 0⟩,
      vel := fun i => if i = 0 then ⟨1, 0, 0⟩ else ⟨0, 0, 0⟩, mass := fun _ => 1 }
  let C : ChainView :=
    { index := fun i => if i = 0 then 1 else 0,
      chainPos := fun i => if i = 0 then ⟨-1, 0, 0⟩ else ⟨1, 0, 0⟩,
      chainVel := fun i => if i = 0 then ⟨1, 0, 0⟩ else ⟨0, 0, 0⟩ }
  refine ⟨P, C, rfl, ⟨?_, ?_⟩, ⟨?_, ?_⟩, ⟨?_, ?_⟩, ?_⟩
  · intro i hi
    have : i = 0 ∨ i = 1 := by omega
    rcases this with rfl | rfl <;> simp [C]
  · intro i j hi hj
    have h1 : i = 0 ∨ i = 1 := by omega
    have h2 : j = 0 ∨ j = 1 := by omega
    rcases h1 with rfl | rfl <;> rcases h2 with rfl | rfl <;> simp [C]
  · intro i hi
    have : i = 0 := by omega
    subst this; simp [C, P]; ext <;> simp
  · simp [C, P]
  · intro i hi
    have : i = 0 := by omega
    subst this; simp [C, P]; ext <;> simp
  · simp [C, P]
  · refine ⟨pn2Force G c P.vel P.mass (P.pos 0 - P.pos 1) (P.vel 0 - P.vel 1) 1 0 (fun _ => 0), ?_, ?_⟩
    · have e1 : C.chainPos 0 = P.pos 0 - P.pos 1 := by simp [C, P]; ext <;> simp
      have e2 : C.chainVel 0 = P.vel 0 - P.vel 1 := by simp [C, P]; ext <;> simp
      rw [← e1, ← e2]
      rfl
    · rw [(C10_pn2_pair_partial G c P rfl _).2, pn2_apply G c P 1 0 (by decide)]
      have hr : (two P 0 1).r = 1 := by simp [TwoBody.r, two, P, len, dot]
      have hn : (two P 0 1).nv1 = -1 := by
        simp [TwoBody.nv1, TwoBody.n, hr, dot]; simp [two, P]
      have hn2 : (two P 0 1).nv2 = 0 := by
        simp [TwoBody.nv2, TwoBody.n, hr, dot]; simp [two, P]
      show _ ≠ _ + (G * P.mass 0 / ((two P 0 1).r ^ 2 * c ^ 4) *
        (5 * dot (P.vel 0) (P.vel 0) * ((two P 0 1).nv2 - (two P 0 1).nv1))) • (P.vel 1 - P.vel 0)
      rw [hr, hn, hn2]
      simp only [if_true, show ¬ ((1 : Nat) = 0) by decide, if_false, add_zero, zero_add]
      intro h
      have hx := congrArg V3.x h
      have e : (TwoBody.mk (P.mass 1) (P.mass 0) (P.pos 1) (P.pos 0) (P.vel 1) (P.vel 0)).pn2 G c = (two P 1 0).pn2 G c := rfl
      rw [e] at hx
      simp [P, dot] at hx
      rcases hx with h | h
      · exact hG h
      · exact hc h

/-! ### C12 -/

/-- Tidal forces: net momentum unchanged for non-zero masses, plain and chain evaluation; both evaluations give the
equilibrium-tide formula. -/
theorem C12_tidal (G : ℝ) (T : TideData) (P : Particles) (hm : ∀ i, i < P.num → P.mass i ≠ 0) (acc : Arr (V3 ℝ)) :
    Accumulates P.num (fun i j => tidal G (T.k i) (T.k j) (T.tau i) (T.tau j) (T.rad i) (T.rad j)
        (TwoBody.mk (P.mass i) (P.mass j) (P.pos i) (P.pos j) (P.vel i) (P.vel j))) acc (tidalDirect G T P acc) ∧
    ∑ k ∈ range P.num, P.mass k • tidalDirect G T P acc k = ∑ k ∈ range P.num, P.mass k • acc k ∧
    ∀ C : ChainView, 2 ≤ P.num → IsIndex P.num C.index → BelongsTo P.num C.index C.chainPos P.pos →
      BelongsTo P.num C.index C.chainVel P.vel → tidalChain G T P C acc = .ok (tidalDirect G T P acc) := by
  have hd := directLoops_spec (tidal_symmetric G T P) acc
  refine ⟨hd, momentum_of_accumulates P.mass hd fun i j hi hj _ => ?_, fun C hn hi hp hv => ?_⟩
  · have hr := r_swap P i j
    have h1 := hm i hi
    have h2 := hm j hj
    have hdot : dot (P.vel i - P.vel j) (P.pos i - P.pos j) = dot (P.vel j - P.vel i) (P.pos j - P.pos i) := by
      simp [dot]; ring
    simp only [tidalF, tidal]
    rw [hr]
    generalize hR : (two P i j).r = r
    simp only [two]
    rw [hdot]
    generalize dot (P.vel j - P.vel i) (P.pos j - P.pos i) = d
    have hx : P.pos i - P.pos j = -(P.pos j - P.pos i) := by abel
    rw [hx, smul_neg, smul_neg, smul_smul, smul_smul]
    rw [mul_div_cancel₀ _ h1, mul_div_cancel₀ _ h2]
    rw [← sub_eq_add_neg, sub_eq_zero]
    congr 2
    ring
  · obtain ⟨acc', h1, h2⟩ := chainLoopsFar_spec (tidal_symmetric G T P) ⟨hi, hp, hv⟩ hn acc
    show chainLoopsFar _ P C acc = _
    rw [h1]; congr 1; funext k
    rcases Nat.lt_or_ge k P.num with hk | hk
    · rw [h2.1 k hk]; exact (hd.1 k hk).symm
    · rw [h2.2 k hk]; exact (hd.2 k hk).symm

/-- changing two entries by opposite momenta keeps the total momentum -/
theorem momentum_subAt_addAt (n : Nat) (m : Arr ℝ) (acc : Arr (V3 ℝ)) (i j : Nat) (hi : i < n) (hj : j < n) (hij : i ≠ j)
    (a b : V3 ℝ) (h : m i • a = m j • b) :
    ∑ k ∈ range n, m k • addAt (subAt acc i a) j b k = ∑ k ∈ range n, m k • acc k := by
  have e : ∀ k, addAt (subAt acc i a) j b k = acc k + ((if k = i then -a else 0) + (if k = j then b else 0)) := by
    intro k
    unfold subAt addAt Arr.set
    by_cases h1 : k = i
    · subst h1; simp [hij, sub_eq_add_neg]
    · by_cases h2 : k = j
      · subst h2; simp [h1]
      · simp [h1, h2]
  simp only [e, smul_add, sum_add_distrib, smul_ite, smul_zero, sum_ite_eq', mem_range, hi, hj, if_true, smul_neg, h]
  simp

theorem drag_momentum (num : Nat) (m : Arr ℝ) (hm : ∀ i, i < num → m i ≠ 0) (w : Nat → V3 ℝ) (f g : Nat → ℝ)
    (acc : Arr (V3 ℝ)) :
    ∑ k ∈ range num, m k • forLoop 1 num (fun i acc =>
      addAt (subAt acc i ((f i • w i) / g i / m i)) 0 ((f i • w i) / g i / m 0)) acc k =
    ∑ k ∈ range num, m k • acc k := by
  rcases Nat.lt_or_ge num 1 with h | h
  · rw [forLoop_self _ _ h.le]
  · refine forLoop_inv (P := fun _ a => ∑ k ∈ range num, m k • a k = ∑ k ∈ range num, m k • acc k) 1 num h _ acc rfl ?_
    intro i t h1 h2 ht
    rw [momentum_subAt_addAt num m t i 0 h2 (by omega) (by omega), ht]
    have a1 := hm i h2
    have a2 := hm 0 (by omega)
    v3 <;> field_simp

/-- Disk-capture drag: what a star loses, particle 0 gains. -/
theorem C12_disk_capture (rad : Arr ℝ) (P : Particles) (hm : ∀ i, i < P.num → P.mass i ≠ 0) (acc : Arr (V3 ℝ)) :
    ∑ k ∈ range P.num, P.mass k • captureAcc rad P acc k = ∑ k ∈ range P.num, P.mass k • acc k :=
  drag_momentum P.num P.mass hm _ _ _ acc

/-- Alpha-disk drag: what a star loses, particle 0 gains. -/
theorem C12_alpha_disk (G : ℝ) (D : DiskParams) (rad : Arr ℝ) (P : Particles) (hm : ∀ i, i < P.num → P.mass i ≠ 0)
    (acc : Arr (V3 ℝ)) :
    ∑ k ∈ range P.num, P.mass k • alphaAcc G D rad P acc k = ∑ k ∈ range P.num, P.mass k • acc k :=
  drag_momentum P.num P.mass hm _ _ _ acc

/-- The masses of the example system are non-zero. -/
example : ∀ i, i < exP.num → exP.mass i ≠ 0 := by
  intro i _; simp only [exP]; positivity

/-! ### C49, accelerations -/

/-- Shifting all particles by the same vector, or boosting all velocities, leaves the Newtonian accelerations unchanged. -/
theorem C49_newton_galilei (P : Particles) (d w : V3 ℝ) (acc : Arr (V3 ℝ)) :
    newtonDirect { P with pos := fun i => P.pos i + d, vel := fun i => P.vel i + w } acc = newtonDirect P acc := by
  have h1 := C06_newton_direct { P with pos := fun i => P.pos i + d, vel := fun i => P.vel i + w } acc
  have h2 := C06_newton_direct P acc
  funext k
  rcases Nat.lt_or_ge k P.num with hk | hk
  · rw [h1.1 k hk, h2.1 k hk]
    simp [newton]
  · rw [h1.2 k hk, h2.2 k hk]

/-! ### C51: drag never pushes forward -/

theorem dot_smul_right (c : ℝ) (a b : V3 ℝ) : dot a (c • b) = c * dot a b := by simp [dot]; ring
theorem dot_self_nonneg (a : V3 ℝ) : 0 ≤ dot a a := by
  unfold dot; nlinarith [mul_self_nonneg a.x, mul_self_nonneg a.y, mul_self_nonneg a.z]

/-- Static gas drag: each particle's acceleration change is a non-positive multiple of its own velocity
(for non-negative coefficients, sound speeds and masses), so it never increases the particle's speed to first order,
and no other entry is touched. -/
theorem C51_static_drag (c cs : Arr ℝ) (P : Particles) (acc : Arr (V3 ℝ))
    (hc : ∀ i, i < P.num → 0 ≤ c i) (hcs : ∀ i, i < P.num → 0 ≤ cs i) (hm : ∀ i, i < P.num → 0 ≤ P.mass i) :
    (∀ k, k < P.num → ∃ s ≥ 0, staticDragAcc c cs P acc k = acc k - s • P.vel k ∧
      (len (P.vel k) < cs k → s = c k * P.mass k) ∧
      (cs k ≤ len (P.vel k) → s = 3 * Real.sqrt (Real.pi / 2) * c k * cs k ^ 3 * P.mass k / len (P.vel k) ^ 3) ∧
      dot (P.vel k) (staticDragAcc c cs P acc k - acc k) ≤ 0) ∧
    ∀ k, P.num ≤ k → staticDragAcc c cs P acc k = acc k := by
  classical
  let s : Nat → ℝ := fun i => if norm (P.vel i) < cs i then c i * P.mass i
    else 3 * Real.sqrt (Real.pi / 2) * c i * cs i * cs i * cs i * P.mass i /
      (norm (P.vel i) * norm (P.vel i) * norm (P.vel i))
  have hs : ∀ i, i < P.num → 0 ≤ s i := by
    intro i hi
    have := hc i hi; have := hcs i hi; have := hm i hi
    have hn : 0 ≤ norm (P.vel i) := Real.sqrt_nonneg _
    simp only [s]
    split
    · positivity
    · positivity
  have key : ∀ k, staticDragAcc c cs P acc k = acc k + if k < P.num then -(s k • P.vel k) else 0 := by
    intro k
    unfold staticDragAcc
    rw [forLoop_add 0 P.num _ (fun i k => if k = i then -(s i • P.vel i) else 0)]
    · congr 1
      rw [Nat.Ico_zero_eq_range, sum_ite_eq]
      simp [mem_range]
    · intro i _ _ a k
      by_cases h : norm (P.vel i) < cs i <;>
        by_cases hk : k = i <;> simp [h, hk, s, subAt, Arr.set, sub_eq_add_neg]
  refine ⟨fun k hk => ⟨s k, hs k hk, ?_, ?_, ?_, ?_⟩, fun k hk => ?_⟩
  · rw [key k, if_pos hk, sub_eq_add_neg]
  · intro h; simp only [s]; rw [if_pos]; exact h
  · intro h; rw [len_eq_norm] at h ⊢; simp only [s]; rw [if_neg (not_lt.2 h)]; ring
  · rw [key k, if_pos hk]
    have : acc k + -(s k • P.vel k) - acc k = (-(s k)) • P.vel k := by rw [neg_smul]; abel
    rw [this, dot_smul_right]
    nlinarith [hs k hk, dot_self_nonneg (P.vel k)]
  · rw [key k, if_neg (by omega), add_zero]

/-- The gas of both disk models rotates on circular Kepler orbits: perpendicular to the axis and to the cylindrical
radius, with squared speed `M / R`. -/
theorem C51_disk_gas_is_keplerian (r : V3 ℝ) (M : ℝ) (hM : 0 ≤ M) (hR : 0 < r.x * r.x + r.y * r.y) :
    (diskV r M).z = 0 ∧ dot (diskV r M) ⟨r.x, r.y, 0⟩ = 0 ∧
    dot (diskV r M) (diskV r M) = M / Real.sqrt (r.x * r.x + r.y * r.y) ∧
    0 ≤ (cross r (diskV r M)).z := by
  have hs := Real.sqrt_pos.2 hR
  have hsq := Real.mul_self_sqrt hR.le
  have hq : Real.sqrt (M / Real.sqrt (r.x * r.x + r.y * r.y)) * Real.sqrt (M / Real.sqrt (r.x * r.x + r.y * r.y)) =
      M / Real.sqrt (r.x * r.x + r.y * r.y) := Real.mul_self_sqrt (by positivity)
  have hq0 : 0 ≤ Real.sqrt (M / Real.sqrt (r.x * r.x + r.y * r.y)) := Real.sqrt_nonneg _
  refine ⟨rfl, ?_, ?_, ?_⟩
  · simp [diskV, dot]; field_simp; ring
  · simp only [diskV, dot]
    generalize Real.sqrt (M / Real.sqrt (r.x * r.x + r.y * r.y)) = v at *
    generalize Real.sqrt (r.x * r.x + r.y * r.y) = R at *
    rw [← hq]
    field_simp
    nlinarith
  · simp only [diskV, cross]
    generalize Real.sqrt (M / Real.sqrt (r.x * r.x + r.y * r.y)) = v at *
    generalize Real.sqrt (r.x * r.x + r.y * r.y) = R at *
    have : r.x * (v * r.x / R) - r.y * (-v * r.y / R) = v * (r.x * r.x + r.y * r.y) / R := by ring
    rw [this]; positivity

/-- a star's entry in the disk loops is changed by its own iteration only -/
theorem disk_entry (num : Nat) (a b : Nat → V3 ℝ) (acc : Arr (V3 ℝ)) (k : Nat) (h1 : 1 ≤ k) :
    forLoop 1 num (fun i acc => addAt (subAt acc i (a i)) 0 (b i)) acc k =
      acc k - if k < num then a k else 0 := by
  rw [forLoop_add 1 num _ (fun i k => (if k = i then -(a i) else 0) + (if k = 0 then b i else 0))]
  · have hk0 : k ≠ 0 := by omega
    simp only [hk0, if_false, add_zero, sum_ite_eq, mem_Ico, h1, true_and]
    by_cases h : k < num <;> simp [h, sub_eq_add_neg]
  · intro i hi _ t k
    unfold subAt addAt Arr.set
    have hi0 : i ≠ 0 := by omega
    by_cases e1 : k = i
    · subst e1; simp [hi0, sub_eq_add_neg]
    · by_cases e2 : k = 0
      · subst e2; simp [Ne.symm hi0]
      · simp [e1, e2]

/-- Disk-capture drag: a star (not particle 0) is decelerated against its velocity relative to the disk gas, by the
ram pressure `pi R^2 rho v_rel^2` over its mass; nothing beyond the particles is touched. -/
theorem C51_disk_capture (rad : Arr ℝ) (P : Particles) (acc : Arr (V3 ℝ)) (k : Nat) (h1 : 1 ≤ k) :
    captureAcc rad P acc k = acc k - if k < P.num then
      (let w := (P.vel k - P.vel 0) - diskV (P.pos k - P.pos 0) (P.mass 0)
       let rho := captureRho (P.pos k - P.pos 0) (P.mass 0)
       (Real.pi * rad k ^ 2 * rho * len w / P.mass k) • w) else 0 := by
  unfold captureAcc
  rw [disk_entry P.num _ _ acc k h1]
  congr 1
  refine if_congr Iff.rfl ?_ rfl
  simp only
  generalize (P.vel k - P.vel 0) - diskV (P.pos k - P.pos 0) (P.mass 0) = w
  have hl : dot w w = len w * len w := by rw [len]; exact (Real.mul_self_sqrt (dot_self_nonneg w)).symm
  have hl' : Real.sqrt (dot w w) = len w := rfl
  rw [hl', hl]
  rcases eq_or_ne (len w) 0 with h0 | h0
  · rw [h0]; v3 <;> simp
  · v3 <;> field_simp

/-- The gas density is not negative for a non-negative central mass, so the drag really decelerates. -/
theorem C51_disk_capture_opposes (rad : Arr ℝ) (P : Particles) (acc : Arr (V3 ℝ)) (k : Nat) (h1 : 1 ≤ k) (hk : k < P.num)
    (hm0 : 0 ≤ P.mass 0) (hmk : 0 < P.mass k) :
    dot ((P.vel k - P.vel 0) - diskV (P.pos k - P.pos 0) (P.mass 0)) (captureAcc rad P acc k - acc k) ≤ 0 := by
  rw [C51_disk_capture rad P acc k h1, if_pos hk]
  simp only
  generalize (P.vel k - P.vel 0) - diskV (P.pos k - P.pos 0) (P.mass 0) = w
  have hrho : 0 ≤ captureRho (P.pos k - P.pos 0) (P.mass 0) := by
    unfold captureRho; simp only
    have := Real.pi_pos
    have hs : 0 ≤ Real.sqrt ((P.pos k - P.pos 0).x * (P.pos k - P.pos 0).x +
      (P.pos k - P.pos 0).y * (P.pos k - P.pos 0).y) := Real.sqrt_nonneg _
    positivity
  generalize captureRho (P.pos k - P.pos 0) (P.mass 0) = rho at *
  have hl : 0 ≤ len w := Real.sqrt_nonneg _
  have : acc k - (Real.pi * rad k ^ 2 * rho * len w / P.mass k) • w - acc k =
      (-(Real.pi * rad k ^ 2 * rho * len w / P.mass k)) • w := by rw [neg_smul]; abel
  rw [this, dot_smul_right]
  have h3 : 0 ≤ Real.pi * rad k ^ 2 * rho * len w / P.mass k := by have := Real.pi_pos; positivity
  nlinarith [dot_self_nonneg w]

/-- Alpha-disk drag: a star (not particle 0) is decelerated against its velocity relative to the disk gas, by the drag
strength `f` over its mass; nothing beyond the particles is touched. -/
theorem C51_alpha_disk (G : ℝ) (D : DiskParams) (rad : Arr ℝ) (P : Particles) (acc : Arr (V3 ℝ)) (k : Nat) (h1 : 1 ≤ k) :
    alphaAcc G D rad P acc k = acc k - if k < P.num then
      (let r := P.pos k - P.pos 0
       let w := (P.vel k - P.vel 0) - diskV r (P.mass 0)
       let Omega := (localOmegaH D r (P.mass 0)).1
       let H := (localOmegaH D r (P.mass 0)).2
       let rho := alphaRho D r (P.mass 0) H
       let I := frictionI D.force (len w / (Omega * H))
       let friction := 4 * Real.pi * I * G ^ 2 * P.mass k ^ 2 / (Omega * H) ^ 2 * rho
       let aero := 4 * Real.pi * rad k ^ 2 * rho * len w ^ 2
       ((if D.force = 1 then friction else if D.force = -1 then aero else friction + aero) / len w / P.mass k) • w)
      else 0 := by
  unfold alphaAcc
  rw [disk_entry P.num _ _ acc k h1]
  congr 1
  refine if_congr Iff.rfl ?_ rfl
  simp only
  generalize (P.vel k - P.vel 0) - diskV (P.pos k - P.pos 0) (P.mass 0) = w
  have hl : dot w w = len w * len w := by rw [len]; exact (Real.mul_self_sqrt (dot_self_nonneg w)).symm
  have hl' : Real.sqrt (dot w w) = len w := rfl
  rw [hl', hl]
  generalize frictionI D.force _ = I
  have hf : dragF G D.force I (P.mass k)
      ((localOmegaH D (P.pos k - P.pos 0) (P.mass 0)).1 * (localOmegaH D (P.pos k - P.pos 0) (P.mass 0)).2)
      (alphaRho D (P.pos k - P.pos 0) (P.mass 0) (localOmegaH D (P.pos k - P.pos 0) (P.mass 0)).2) (rad k) (len w * len w) =
      if D.force = 1 then 4 * Real.pi * I * G ^ 2 * P.mass k ^ 2 /
          ((localOmegaH D (P.pos k - P.pos 0) (P.mass 0)).1 * (localOmegaH D (P.pos k - P.pos 0) (P.mass 0)).2) ^ 2 *
          alphaRho D (P.pos k - P.pos 0) (P.mass 0) (localOmegaH D (P.pos k - P.pos 0) (P.mass 0)).2
        else if D.force = -1 then 4 * Real.pi * rad k ^ 2 *
          alphaRho D (P.pos k - P.pos 0) (P.mass 0) (localOmegaH D (P.pos k - P.pos 0) (P.mass 0)).2 * len w ^ 2
        else 4 * Real.pi * I * G ^ 2 * P.mass k ^ 2 /
          ((localOmegaH D (P.pos k - P.pos 0) (P.mass 0)).1 * (localOmegaH D (P.pos k - P.pos 0) (P.mass 0)).2) ^ 2 *
          alphaRho D (P.pos k - P.pos 0) (P.mass 0) (localOmegaH D (P.pos k - P.pos 0) (P.mass 0)).2 +
          4 * Real.pi * rad k ^ 2 *
          alphaRho D (P.pos k - P.pos 0) (P.mass 0) (localOmegaH D (P.pos k - P.pos 0) (P.mass 0)).2 * len w ^ 2 := by
    unfold dragF
    split
    · ring
    · split <;> ring
  rw [hf]
  generalize (if D.force = 1 then (_ : ℝ) else _) = f
  v3 <;> ring

/-- The dynamical-friction factor of the alpha disk is not negative outside the transonic window in which the source
interpolates (and except exactly at Mach 0.1, which falls into the interpolation too). -/
theorem C51_friction_factor_nonneg (force : Int) (Mach : ℝ) (h0 : 0 ≤ Mach) (h1 : Mach ≠ 1 / 10)
    (h2 : Mach < 1 - 1 / Real.exp 2 ∨ 1 + 1 / Real.exp 2 < Mach) : 0 ≤ frictionI force Mach := by
  have he : diskEps = 1 / Real.exp 2 := by unfold diskEps; norm_num
  have hpos : 0 < 1 / Real.exp 2 := by positivity
  unfold frictionI
  rw [he]
  split
  · split
    · rename_i h3
      have hM : 1 < Mach := by linarith
      apply div_nonneg _ (by positivity)
      have hx : Real.exp (-6) ≤ 1 - 1 / (Mach * Mach) := by
        have e1 : 2 ≤ Real.exp 2 := by have := Real.add_one_le_exp (2 : ℝ); linarith
        have e6 : Real.exp (-6) = (1 / Real.exp 2) ^ 3 := by
          rw [one_div, ← Real.exp_neg, ← Real.exp_nat_mul]; norm_num
        rw [e6]
        have hε : 1 / Real.exp 2 ≤ 1 / 2 := one_div_le_one_div_of_le (by norm_num) e1
        generalize 1 / Real.exp 2 = ε at *
        have hmm : 1 / (Mach * Mach) ≤ 1 / ((1 + ε) * (1 + ε)) := by
          apply one_div_le_one_div_of_le (by positivity)
          nlinarith
        have h4 : 1 / ((1 + ε) * (1 + ε)) ≤ 1 - ε ^ 3 := by
          rw [div_le_iff₀ (by positivity)]
          have q3 : ε ^ 3 ≤ ε / 4 := by
            have q2 : ε ^ 2 ≤ 1 / 4 := by nlinarith
            nlinarith [mul_nonneg hpos.le (sub_nonneg.2 q2)]
          have q0 : 0 ≤ 1 - ε ^ 3 - (1 - ε / 4) := by linarith
          nlinarith [mul_nonneg q0 (by positivity : (0:ℝ) ≤ (1 + ε) * (1 + ε))]
        linarith
      have hl : -6 ≤ Real.log (1 - 1 / (Mach * Mach)) := by
        have := Real.log_le_log (Real.exp_pos _) hx
        rwa [Real.log_exp] at this
      linarith
    · split
      · rename_i h3
        apply div_nonneg _ (by positivity)
        have hlt : |Mach| < 1 := by rw [abs_of_nonneg h0]; linarith [h3.2]
        have hs := Real.hasSum_log_sub_log_of_abs_lt_one hlt
        have := sum_le_hasSum {0} (fun i _ => by positivity) hs
        rw [Real.log_div (by linarith) (by linarith [abs_lt.1 hlt |>.2])]
        simp at this
        linarith
      · split
        · positivity
        · exfalso
          rename_i a b c
          rcases h2 with h | h
          · exact b ⟨lt_of_le_of_ne (not_lt.1 c) (Ne.symm h1), h⟩
          · exact a h
  · exact le_refl _

/-- Where the friction factor is not negative the alpha-disk drag really decelerates. -/
theorem C51_alpha_disk_opposes (G : ℝ) (D : DiskParams) (rad : Arr ℝ) (P : Particles) (acc : Arr (V3 ℝ)) (k : Nat)
    (h1 : 1 ≤ k) (hk : k < P.num) (hm0 : 0 ≤ P.mass 0) (hmk : 0 < P.mass k) (hQ : 0 < D.Q)
    (hI : 0 ≤ frictionI D.force
      (len ((P.vel k - P.vel 0) - diskV (P.pos k - P.pos 0) (P.mass 0)) /
        ((localOmegaH D (P.pos k - P.pos 0) (P.mass 0)).1 * (localOmegaH D (P.pos k - P.pos 0) (P.mass 0)).2))) :
    dot ((P.vel k - P.vel 0) - diskV (P.pos k - P.pos 0) (P.mass 0)) (alphaAcc G D rad P acc k - acc k) ≤ 0 := by
  rw [C51_alpha_disk G D rad P acc k h1, if_pos hk]
  simp only
  generalize (P.vel k - P.vel 0) - diskV (P.pos k - P.pos 0) (P.mass 0) = w at *
  have hrho : ∀ H, 0 ≤ alphaRho D (P.pos k - P.pos 0) (P.mass 0) H := by
    intro H
    unfold alphaRho; simp only
    have := Real.pi_pos
    have hs : 0 ≤ Real.sqrt ((P.pos k - P.pos 0).x * (P.pos k - P.pos 0).x +
      (P.pos k - P.pos 0).y * (P.pos k - P.pos 0).y) := Real.sqrt_nonneg _
    positivity
  have hr := hrho (localOmegaH D (P.pos k - P.pos 0) (P.mass 0)).2
  generalize alphaRho D (P.pos k - P.pos 0) (P.mass 0) (localOmegaH D (P.pos k - P.pos 0) (P.mass 0)).2 = rho at *
  generalize frictionI D.force _ = I at *
  generalize (localOmegaH D (P.pos k - P.pos 0) (P.mass 0)).1 = Om at *
  generalize (localOmegaH D (P.pos k - P.pos 0) (P.mass 0)).2 = H at *
  have hl : 0 ≤ len w := Real.sqrt_nonneg _
  have hpi := Real.pi_pos
  have hf : 0 ≤ (if D.force = 1 then 4 * Real.pi * I * G ^ 2 * P.mass k ^ 2 / (Om * H) ^ 2 * rho
      else if D.force = -1 then 4 * Real.pi * rad k ^ 2 * rho * len w ^ 2
      else 4 * Real.pi * I * G ^ 2 * P.mass k ^ 2 / (Om * H) ^ 2 * rho + 4 * Real.pi * rad k ^ 2 * rho * len w ^ 2) := by
    split
    · positivity
    · split <;> positivity
  generalize (if D.force = 1 then (_ : ℝ) else _) = f at *
  have : acc k - (f / len w / P.mass k) • w - acc k = (-(f / len w / P.mass k)) • w := by rw [neg_smul]; abel
  rw [this, dot_smul_right]
  have h3 : 0 ≤ f / len w / P.mass k := by positivity
  nlinarith [dot_self_nonneg w]

/-- Gas drag of the example system with unit coefficients satisfies the hypotheses of `C51_static_drag`. -/
example : (∀ i, i < exP.num → (0 : ℝ) ≤ (fun _ => 1 : Arr ℝ) i) ∧ ∀ i, i < exP.num → 0 ≤ exP.mass i := by
  constructor
  · intro i _; norm_num
  · intro i _; simp only [exP]; positivity

end SpaceHub.Props
