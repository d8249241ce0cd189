import Verif.Proof.Core
import Verif.Props.Force
import Mathlib.Tactic.FieldSimp
import Mathlib.Algebra.BigOperators.Group.Finset.Piecewise

/-
Whole-system quantities: C08 (potential energy), C09 (centre of mass), C11 (splitting of the forces),
C49 (inner energy), C52 (angular momentum of a subsystem, cluster size).
-/

set_option autoImplicit false

namespace SpaceHub.Props
open SpaceHub V3 Spec Force Core Finset

/-! ### C08 -/

/-- Potential energy of a plain system and of a chain system (any permutation as index) are both the sum over all
unordered pairs of -G m_i m_j / r_ij. -/
theorem C08_potential_energy (G : ℝ) (P : Particles) :
    potentialDirect G P = potential G P.num P.mass P.pos ∧
    ∀ C : ChainView, 2 ≤ P.num → IsIndex P.num C.index → BelongsTo P.num C.index C.chainPos P.pos →
      potentialChain G P C = .ok (potential G P.num P.mass P.pos) :=
  ⟨potentialDirect_eq G P, fun C hn hi hp => potentialChain_eq G P C hn hi hp⟩

/-- The three-particle chain of the example meets the hypotheses. -/
example (G : ℝ) : potentialChain G exP exC = .ok (potentialDirect G exP) := by
  rw [(C08_potential_energy G exP).1]
  exact (C08_potential_energy G exP).2 exC (by simp [exP]) exC_consistent.index exC_consistent.pos

/-- The specified sum on two particles is the textbook value. -/
example (G : ℝ) (m : Arr ℝ) (x : Arr (V3 ℝ)) : potential G 2 m x = -(G * m 0 * m 1 / len (x 0 - x 1)) := by
  have : ((range 2) ×ˢ (range 2)).filter (fun p => p.1 < p.2) = {(0, 1)} := by decide
  rw [potential, this, sum_singleton]

/-! ### C09 -/

/-- `move_to_com` on an array: for a non-zero total mass the weighted mean becomes exactly zero, differences between
particles are unchanged, nothing beyond the array is written, and doing it again changes nothing. -/
theorem C09_move_to_com (n : Nat) (mass : Arr ℝ) (var : Arr (V3 ℝ)) (hM : ∑ i ∈ range n, mass i ≠ 0) :
    let var' := moveToCom n mass var
    ∑ i ∈ range n, mass i • var' i = 0 ∧
    (∀ i j, i < n → j < n → var' i - var' j = var i - var j) ∧
    (∀ k, n ≤ k → var' k = var k) ∧
    moveToCom n mass var' = var' := by
  intro var'
  have h0 : ∑ i ∈ range n, mass i • var' i = 0 := by
    have : ∑ i ∈ range n, mass i • var' i = ∑ i ∈ range n, (mass i • var i - mass i • calcCom n mass var) := by
      refine sum_congr rfl fun i hi => ?_
      simp only [var']; rw [moveToCom_apply, if_pos (mem_range.1 hi), smul_sub]
    rw [this, sum_sub_distrib, ← sum_smul, calcCom, arrayDot_eq, arraySum_eq, div_eq_smul, smul_smul, mul_inv_cancel₀ hM,
      one_smul, sub_self]
  refine ⟨h0, ?_, ?_, ?_⟩
  · intro i j hi hj
    simp only [var']; rw [moveToCom_apply, moveToCom_apply, if_pos hi, if_pos hj]; abel
  · intro k hk
    simp only [var']; rw [moveToCom_apply, if_neg (by omega)]
  · funext k
    have hc : calcCom n mass var' = 0 := by
      rw [calcCom, arrayDot_eq, h0, div_eq_smul, smul_zero]
    rw [moveToCom_apply, hc]
    split <;> simp

/-- `move_to_COM_frame` on a container of particles: for a non-zero total mass both mean position and mean velocity become
zero, masses and radii stay, relative positions and velocities stay, and doing it again changes nothing. -/
theorem C09_move_to_COM_frame (c : List Body) (hM : (c.map (fun p => p.mass)).sum ≠ 0) :
    let c' := moveToComFrame c
    (c'.map (fun p => p.mass • p.pos)).sum = 0 ∧ (c'.map (fun p => p.mass • p.vel)).sum = 0 ∧
    (∃ dp dv : V3 ℝ, c' = c.map (fun p => { p with pos := p.pos + dp, vel := p.vel + dv })) ∧
    moveToComFrame c' = c' := by
  intro c'
  have hshape : c' = c.map (fun p => { p with pos := p.pos + (⟨0, 0, 0⟩ - comP c), vel := p.vel + (⟨0, 0, 0⟩ - comV c) }) := rfl
  have hm : (c'.map (fun p => p.mass)).sum = (c.map (fun p => p.mass)).sum := by
    rw [hshape, List.map_map]; rfl
  have hz : (⟨0, 0, 0⟩ : V3 ℝ) = 0 := rfl
  have hp : (c'.map (fun p => p.mass • p.pos)).sum = 0 := by
    rw [hshape, List.map_map]
    show (c.map (fun p => p.mass • (p.pos + _))).sum = 0
    rw [sum_map_shift c (fun p => p.pos), comP_eq, hz, zero_sub, div_eq_smul, smul_neg, smul_smul, mul_inv_cancel₀ hM,
      one_smul, add_neg_cancel]
  have hv : (c'.map (fun p => p.mass • p.vel)).sum = 0 := by
    rw [hshape, List.map_map]
    show (c.map (fun p => p.mass • (p.vel + _))).sum = 0
    rw [sum_map_shift c (fun p => p.vel), comV_eq, hz, zero_sub, div_eq_smul, smul_neg, smul_smul, mul_inv_cancel₀ hM,
      one_smul, add_neg_cancel]
  refine ⟨hp, hv, ⟨_, _, hshape⟩, ?_⟩
  have e1 : comP c' = 0 := by rw [comP_eq, hp, div_eq_smul, smul_zero]
  have e2 : comV c' = 0 := by rw [comV_eq, hv, div_eq_smul, smul_zero]
  unfold moveToComFrame moveParticles
  simp only [e1, e2, hz, sub_zero, add_zero]
  exact List.map_id _

/-- Moving a container to a given centre: afterwards its centre of mass is there and moves with the given velocity. -/
theorem C09_move_particles (c : List Body) (hM : (c.map (fun p => p.mass)).sum ≠ 0) (cp cv : V3 ℝ) :
    comP (moveParticles cp cv c) = cp ∧ comV (moveParticles cp cv c) = cv ∧
    (moveParticles cp cv c).map (fun p => p.mass) = c.map (fun p => p.mass) := by
  have hm : ((moveParticles cp cv c).map (fun p => p.mass)) = (c.map (fun p => p.mass)) := by
    unfold moveParticles; rw [List.map_map]; rfl
  refine ⟨?_, ?_, hm⟩
  · rw [comP_eq, hm]
    unfold moveParticles; rw [List.map_map]
    show (c.map (fun p => p.mass • (p.pos + _))).sum / _ = cp
    rw [sum_map_shift c (fun p => p.pos), comP_eq]
    ext <;> simp <;> field_simp <;> ring
  · rw [comV_eq, hm]
    unfold moveParticles; rw [List.map_map]
    show (c.map (fun p => p.mass • (p.vel + _))).sum / _ = cv
    rw [sum_map_shift c (fun p => p.vel), comV_eq]
    ext <;> simp <;> field_simp <;> ring

/-- Non-vacuous: the masses 1, 2, 3 of the example have a non-zero sum. -/
example : ∑ i ∈ range exP.num, exP.mass i ≠ 0 := by
  have : exP.num = 3 := rfl
  rw [this]; simp [sum_range_succ, exP]; norm_num

/-! ### C11 -/

/-- A force adds: its effect on the array does not depend on what the array holds. -/
def Adds {S : Type} (f : ForceClass S) (p : S) (g : Nat → V3 ℝ) : Prop := ∀ acc k, f.addAccTo p acc k = acc k + g k

/-- The total acceleration is the internal one plus every extra force exactly once; each group evaluates exactly the
forces of its kind, each once; together they are the total; all of it independent of what the arrays held before. -/
theorem C11_force_splitting {S : Type} (num : S → Nat) (internal : ForceClass S) (extra : List (ForceClass S)) (p : S)
    (contrib : ForceClass S → Nat → V3 ℝ) (hint : Adds internal p (contrib internal))
    (hext : ∀ f ∈ extra, Adds f p (contrib f)) (acc : Arr (V3 ℝ)) (k : Nat) (hk : k < num p) :
    evalNewtonianAcc num internal p acc k = contrib internal k ∧
    evalAcc num internal extra p acc k = contrib internal k + (extra.map (fun f => contrib f k)).sum ∧
    (extVelDep extra = true →
      evalExtraVelDepAcc num extra p acc k = ((extra.filter (fun f => f.velDep)).map (fun f => contrib f k)).sum) ∧
    (extVelIndep extra = true →
      evalExtraVelIndepAcc num extra p acc k = ((extra.filter (fun f => !f.velDep)).map (fun f => contrib f k)).sum) ∧
    (extra ≠ [] → evalExtraAcc num extra p acc k = (extra.map (fun f => contrib f k)).sum) ∧
    (extra.map (fun f => contrib f k)).sum =
      ((extra.filter (fun f => f.velDep)).map (fun f => contrib f k)).sum +
      ((extra.filter (fun f => !f.velDep)).map (fun f => contrib f k)).sum := by
  have hz : setZero (num p) acc k = 0 := by simp [setZero, hk]
  have hfold : ∀ (l : List (ForceClass S)), (∀ f ∈ l, Adds f p (contrib f)) → ∀ a : Arr (V3 ℝ),
      l.foldl (fun acc f => f.addAccTo p acc) a k = a k + (l.map (fun f => contrib f k)).sum := by
    intro l hl
    induction l with
    | nil => intro a; simp
    | cons f l ih =>
      intro a
      simp only [List.foldl_cons, List.map_cons, List.sum_cons]
      rw [ih (fun f hf => hl f (by simp [hf])), hl f (by simp)]
      abel
  have hdep : ∀ (l : List (ForceClass S)), (∀ f ∈ l, Adds f p (contrib f)) → ∀ a : Arr (V3 ℝ),
      invokeVelDep p l a k = a k + ((l.filter (fun f => f.velDep)).map (fun f => contrib f k)).sum := by
    intro l hl
    induction l with
    | nil => intro a; simp [invokeVelDep]
    | cons f l ih =>
      intro a
      rw [invokeVelDep, ih (fun f hf => hl f (by simp [hf]))]
      by_cases hf : f.velDep
      · simp only [hf, if_true, List.filter_cons_of_pos, List.map_cons, List.sum_cons]
        rw [hl f (by simp)]; abel
      · simp [hf]
  have hind : ∀ (l : List (ForceClass S)), (∀ f ∈ l, Adds f p (contrib f)) → ∀ a : Arr (V3 ℝ),
      invokeVelIndep p l a k = a k + ((l.filter (fun f => !f.velDep)).map (fun f => contrib f k)).sum := by
    intro l hl
    induction l with
    | nil => intro a; simp [invokeVelIndep]
    | cons f l ih =>
      intro a
      rw [invokeVelIndep, ih (fun f hf => hl f (by simp [hf]))]
      by_cases hf : f.velDep
      · simp [hf]
      · simp only [hf, Bool.not_false, if_true, List.filter_cons_of_pos, List.map_cons, List.sum_cons]
        rw [hl f (by simp)]; abel
  have hsplit : ∀ (l : List (ForceClass S)), (l.map (fun f => contrib f k)).sum =
      ((l.filter (fun f => f.velDep)).map (fun f => contrib f k)).sum +
      ((l.filter (fun f => !f.velDep)).map (fun f => contrib f k)).sum := by
    intro l
    induction l with
    | nil => simp
    | cons f l ih =>
      by_cases hf : f.velDep
      · simp [hf, ih, add_assoc]
      · simp [hf, ih]; abel
  have nodep : extVelDep extra = false → ((extra.filter (fun f => f.velDep)).map (fun f => contrib f k)).sum = 0 := by
    intro h
    have : extra.filter (fun f => f.velDep) = [] := by
      rw [List.filter_eq_nil_iff]; intro f hf hv
      have : extVelDep extra = true := List.any_eq_true.2 ⟨f, hf, hv⟩
      rw [this] at h; cases h
    rw [this]; simp
  have noind : extVelIndep extra = false → ((extra.filter (fun f => !f.velDep)).map (fun f => contrib f k)).sum = 0 := by
    intro h
    have : extra.filter (fun f => !f.velDep) = [] := by
      rw [List.filter_eq_nil_iff]; intro f hf hv
      have : extVelIndep extra = true := List.any_eq_true.2 ⟨f, hf, hv⟩
      rw [this] at h; cases h
    rw [this]; simp
  refine ⟨?_, ?_, ?_, ?_, ?_, hsplit extra⟩
  · simp only [evalNewtonianAcc]; rw [hint, hz, zero_add]
  · simp only [evalAcc]; rw [hfold extra hext, hint, hz, zero_add]
  · intro h; rw [evalExtraVelDepAcc, if_pos h, hdep extra hext, hz, zero_add]
  · intro h; rw [evalExtraVelIndepAcc, if_pos h, hind extra hext, hz, zero_add]
  · intro hne
    have hany : (extVelDep extra || extVelIndep extra) = true := by
      cases extra with
      | nil => exact absurd rfl hne
      | cons f l => cases hf : f.velDep <;> simp [extVelDep, extVelIndep, hf]
    rw [hsplit extra]
    simp only [evalExtraAcc, hany, if_true]
    by_cases h1 : extVelDep extra = true <;> by_cases h2 : extVelIndep extra = true
    · rw [if_pos h1, if_pos h2, hind extra hext, hdep extra hext, hz, zero_add]
    · rw [if_pos h1, if_neg h2, hdep extra hext, hz, zero_add, noind (by simpa using h2), add_zero]
    · rw [if_neg h1, if_pos h2, hind extra hext, hz, nodep (by simpa using h1)]
    · simp at h1 h2; simp [h1, h2] at hany

/-- The flags say exactly whether a group is empty, and evaluating an empty group leaves its array untouched. -/
theorem C11_flags {S : Type} (num : S → Nat) (extra : List (ForceClass S)) (p : S) (acc : Arr (V3 ℝ)) :
    (extVelDep extra = true ↔ ∃ f ∈ extra, f.velDep = true) ∧
    (extVelIndep extra = true ↔ ∃ f ∈ extra, f.velDep = false) ∧
    (extVelDep extra = false → evalExtraVelDepAcc num extra p acc = acc) ∧
    (extVelIndep extra = false → evalExtraVelIndepAcc num extra p acc = acc) ∧
    (extra = [] → evalExtraAcc num extra p acc = acc) := by
  refine ⟨by simp [extVelDep], by simp [extVelIndep], ?_, ?_, ?_⟩
  · intro h; simp [evalExtraVelDepAcc, h]
  · intro h; simp [evalExtraVelIndepAcc, h]
  · rintro rfl; simp [evalExtraAcc, extVelDep, extVelIndep]

/-- The forces of the library add (plain systems): the hypothesis of `C11_force_splitting` is met. -/
theorem C11_forces_add (G c : ℝ) (P : Particles) :
    Adds ⟨false, newtonDirect⟩ P (fun k => if k < P.num then
        ∑ j ∈ (range P.num).erase k, newton (P.mass j) (P.pos k) (P.pos j) else 0) ∧
    Adds ⟨true, pnDirect G c .pn1⟩ P (fun k => if k < P.num then
        ∑ j ∈ (range P.num).erase k, (two P k j).pn1 G c else 0) ∧
    Adds ⟨true, pnDirect G c .pn2p5⟩ P (fun k => if k < P.num then
        ∑ j ∈ (range P.num).erase k, (two P k j).pn2p5 G c else 0) := by
  refine ⟨fun acc k => ?_, fun acc k => ?_, fun acc k => ?_⟩
  · have h := C06_newton_direct P acc
    rcases Nat.lt_or_ge k P.num with hk | hk
    · dsimp only; rw [if_pos hk]; exact h.1 k hk
    · dsimp only; rw [if_neg (by omega), add_zero]; exact h.2 k hk
  · have h := (C10_pn1 G c P acc).1
    rcases Nat.lt_or_ge k P.num with hk | hk
    · dsimp only; rw [if_pos hk]; exact h.1 k hk
    · dsimp only; rw [if_neg (by omega), add_zero]; exact h.2 k hk
  · have h := (C10_pn2p5 G c P acc).1
    rcases Nat.lt_or_ge k P.num with hk | hk
    · dsimp only; rw [if_pos hk]; exact h.1 k hk
    · dsimp only; rw [if_neg (by omega), add_zero]; exact h.2 k hk

/-- A system with Newtonian gravity, PN1 and PN2.5: both groups are as expected. -/
example (G c : ℝ) : extVelDep [(⟨true, pnDirect G c .pn1⟩ : ForceClass Particles), ⟨true, pnDirect G c .pn2p5⟩] = true ∧
    extVelIndep [(⟨true, pnDirect G c .pn1⟩ : ForceClass Particles), ⟨true, pnDirect G c .pn2p5⟩] = false := ⟨rfl, rfl⟩

/-! ### C49, inner energy -/

/-- Inner energy does not change when all particles are displaced by `d` and boosted by `w`; kinetic energy and the
kinetic energy of the centre of mass themselves do change in general. -/
theorem C49_inner_energy_galilei (G : ℝ) (c : List Body) (hM : (c.map (fun p => p.mass)).sum ≠ 0) (d w : V3 ℝ) :
    eInner G (c.map (fun p => { p with pos := p.pos + d, vel := p.vel + w })) = eInner G c := by
  have hp : eP G (c.map (fun p => { p with pos := p.pos + d, vel := p.vel + w })) = eP G c := by
    rw [eP_eq, eP_eq]
    exact pairEnergy_map G c _ (fun _ => rfl) (fun p q => by simp)
  have hm : ((c.map (fun p => { p with pos := p.pos + d, vel := p.vel + w })).map (fun p => p.mass)).sum =
      (c.map (fun p => p.mass)).sum := by rw [List.map_map]; rfl
  have hk : ((c.map (fun p => { p with pos := p.pos + d, vel := p.vel + w })).map (fun p => p.mass * dot p.vel p.vel)).sum =
      (c.map (fun p => p.mass * dot p.vel p.vel)).sum + 2 * dot (c.map (fun p => p.mass • p.vel)).sum w +
        (c.map (fun p => p.mass)).sum * dot w w := by
    rw [List.map_map]; exact sum_map_kin_shift c w
  have hv : ((c.map (fun p => { p with pos := p.pos + d, vel := p.vel + w })).map (fun p => p.mass • p.vel)).sum =
      (c.map (fun p => p.mass • p.vel)).sum + (c.map (fun p => p.mass)).sum • w := by
    rw [List.map_map]; exact sum_map_shift c (fun p => p.vel) w
  unfold eInner eTot
  rw [hp, eK_eq, eK_eq, hk, eKCom, eKCom, mTot_eq, mTot_eq, hm, comV_eq, comV_eq, hv, hm]
  generalize (c.map (fun p => p.mass • p.vel)).sum = S
  generalize (c.map (fun p => p.mass)).sum = M at hM
  generalize (c.map (fun p => p.mass * dot p.vel p.vel)).sum = K
  simp [dot]
  field_simp
  ring

/-- Koenig: the inner energy is the potential energy plus the kinetic energy in the centre-of-mass frame. -/
theorem C49_inner_energy_is_com_frame_energy (G : ℝ) (c : List Body) (hM : (c.map (fun p => p.mass)).sum ≠ 0) :
    eInner G c = eTot G (moveToComFrame c) := by
  obtain ⟨hp, hv, ⟨dp, dv, hs⟩, _⟩ := C09_move_to_COM_frame c hM
  have h1 := C49_inner_energy_galilei G c hM dp dv
  rw [← h1, ← hs]
  have : comV (moveToComFrame c) = 0 := by rw [comV_eq, hv, div_eq_smul, smul_zero]
  rw [eInner, eKCom, this]
  simp [dot]

/-- Non-vacuous: two unit masses. -/
example : (([⟨1, ⟨0, 0, 0⟩, ⟨1, 0, 0⟩, 0⟩, ⟨1, ⟨2, 0, 0⟩, ⟨0, 0, 0⟩, 0⟩] : List Body).map (fun p => p.mass)).sum ≠ 0 := by
  norm_num

/-! ### C52: angular momentum of a subsystem, size of a cluster -/

/-- The isolated angular momentum of a group is its angular momentum minus that of its centre of mass, hence does not
depend on the origin nor on a common velocity. -/
theorem C52_isolated_angular_momentum (P : Particles) (idex : List Nat) (hM : (idex.map P.mass).sum ≠ 0) :
    isolatedAngularMomentum P idex = angularMomentumOf P idex -
      (idex.map P.mass).sum • cross ((idex.map (fun i => P.mass i • P.pos i)).sum / (idex.map P.mass).sum)
        ((idex.map (fun i => P.mass i • P.vel i)).sum / (idex.map P.mass).sum) := by
  have expand : ∀ (l : List Nat) (a b : V3 ℝ),
      (l.map (fun i => P.mass i • cross (P.pos i - a) (P.vel i - b))).sum =
        (l.map (fun i => P.mass i • cross (P.pos i) (P.vel i))).sum
          - cross a (l.map (fun i => P.mass i • P.vel i)).sum - cross (l.map (fun i => P.mass i • P.pos i)).sum b
          + (l.map P.mass).sum • cross a b := by
    intro l a b
    induction l with
    | nil => ext <;> simp [cross]
    | cons i l ih =>
      simp only [List.map_cons, List.sum_cons, ih]
      ext <;> simp [cross] <;> ring
  unfold isolatedAngularMomentum angularMomentumOf
  simp only [foldl_add, zero_add]
  rw [expand]
  generalize (idex.map (fun i => P.mass i • P.vel i)).sum = V
  generalize (idex.map (fun i => P.mass i • P.pos i)).sum = X
  generalize (idex.map P.mass).sum = M at hM
  ext <;> simp [cross] <;> field_simp <;> ring

/-- The total angular momentum is the angular momentum of all particles. -/
theorem C52_total_angular_momentum (P : Particles) :
    angularMomentum P = angularMomentumOf P (List.range P.num) := by
  rw [angularMomentum_eq]
  unfold angularMomentumOf
  rw [foldl_add, zero_add, Finset.sum_range]
  rw [← List.sum_ofFn]
  congr 1
  rw [List.ofFn_eq_map]
  rw [← List.map_coe_finRange_eq_range, List.map_map]
  rfl

/-- The size of a cluster of at least two particles is the largest distance between two of its members. -/
theorem C52_cluster_size (c : List Body) (h2 : 2 ≤ c.length) :
    (∀ i j : Nat, i < j → ∀ p q : Body, c[i]? = some p → c[j]? = some q → len (p.pos - q.pos) ≤ clusterSize c) ∧
    ∃ i j : Nat, i < j ∧ ∃ p q : Body, c[i]? = some p ∧ c[j]? = some q ∧ clusterSize c = len (p.pos - q.pos) := by
  classical
  -- one pass over `rest` computes the maximum of the start value and the distances to `p`
  have inner : ∀ (p : Body) (rest : List Body) (R : ℝ), R ≤ sizeInner p rest R ∧
      (∀ q ∈ rest, len (p.pos - q.pos) ≤ sizeInner p rest R) ∧
      (sizeInner p rest R = R ∨ ∃ q ∈ rest, sizeInner p rest R = len (p.pos - q.pos)) := by
    intro p rest
    induction rest with
    | nil => intro R; simp [sizeInner]
    | cons q rest ih =>
      intro R
      have step : sizeInner p (q :: rest) R =
          sizeInner p rest (if norm (p.pos - q.pos) > R then norm (p.pos - q.pos) else R) := rfl
      rw [step]
      obtain ⟨h1, h3, h4⟩ := ih (if norm (p.pos - q.pos) > R then norm (p.pos - q.pos) else R)
      by_cases hgt : norm (p.pos - q.pos) > R
      · rw [if_pos hgt] at h1 h3 h4 ⊢
        refine ⟨hgt.le.trans h1, ?_, ?_⟩
        · intro x hx
          rcases List.mem_cons.1 hx with rfl | hx
          · exact h1
          · exact h3 x hx
        · rcases h4 with h4 | ⟨x, hx, h4⟩
          · exact Or.inr ⟨q, by simp, h4⟩
          · exact Or.inr ⟨x, by simp [hx], h4⟩
      · rw [if_neg hgt] at h1 h3 h4 ⊢
        refine ⟨h1, ?_, ?_⟩
        · intro x hx
          rcases List.mem_cons.1 hx with rfl | hx
          · exact (not_lt.1 hgt).trans h1
          · exact h3 x hx
        · rcases h4 with h4 | ⟨x, hx, h4⟩
          · exact Or.inl h4
          · exact Or.inr ⟨x, by simp [hx], h4⟩
  have outer : ∀ (c : List Body) (R : ℝ), R ≤ sizeFrom c R ∧
      (∀ i j : Nat, i < j → ∀ p q : Body, c[i]? = some p → c[j]? = some q → len (p.pos - q.pos) ≤ sizeFrom c R) ∧
      (sizeFrom c R = R ∨ ∃ i j : Nat, i < j ∧ ∃ p q : Body, c[i]? = some p ∧ c[j]? = some q ∧ sizeFrom c R = len (p.pos - q.pos)) := by
    intro c
    induction c with
    | nil => intro R; simp [sizeFrom]
    | cons a c ih =>
      intro R
      rw [sizeFrom]
      obtain ⟨h1, h3, h4⟩ := ih (sizeInner a c R)
      obtain ⟨g1, g3, g4⟩ := inner a c R
      refine ⟨g1.trans h1, ?_, ?_⟩
      · intro i j hij p q hi hj
        cases i with
        | zero =>
          cases j with
          | zero => omega
          | succ j =>
            simp at hi hj
            subst hi
            exact (g3 q (List.mem_of_getElem? hj)).trans h1
        | succ i =>
          cases j with
          | zero => omega
          | succ j =>
            simp at hi hj
            exact h3 i j (by omega) p q hi hj
      · rcases h4 with h4 | ⟨i, j, hij, p, q, hi, hj, h4⟩
        · rcases g4 with g4 | ⟨q, hq, g4⟩
          · left; rw [h4, g4]
          · right
            obtain ⟨j, hj⟩ := List.mem_iff_getElem?.1 hq
            exact ⟨0, j + 1, by omega, a, q, by simp, by simpa using hj, by rw [h4, g4]⟩
        · right
          exact ⟨i + 1, j + 1, by omega, p, q, by simpa using hi, by simpa using hj, h4⟩
  have hcs : clusterSize c = sizeFrom c 0 := by
    unfold clusterSize
    match c, h2 with
    | p :: q :: rest, _ => rfl
  rw [hcs]
  obtain ⟨h1, h3, h4⟩ := outer c 0
  refine ⟨h3, ?_⟩
  rcases h4 with h4 | h4
  · match c, h2 with
    | p :: q :: rest, _ =>
      refine ⟨0, 1, by omega, p, q, rfl, rfl, ?_⟩
      have := h3 0 1 (by omega) p q rfl rfl
      have h0 : 0 ≤ len (p.pos - q.pos) := Real.sqrt_nonneg _
      rw [h4] at this ⊢
      linarith
  · exact h4

end SpaceHub.Props
