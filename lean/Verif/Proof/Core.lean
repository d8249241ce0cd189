import Verif.Model.Core
import Verif.Proof.Force
import Mathlib.Algebra.BigOperators.Group.List.Basic
import Mathlib.Tactic.LinearCombination

set_option autoImplicit false

namespace SpaceHub.Core
open SpaceHub V3 Spec Force Finset

theorem foldl_add {α M : Type _} [AddCommMonoid M] (f : α → M) (c : List α) (a : M) :
    c.foldl (fun s p => s + f p) a = a + (c.map f).sum := by
  induction c generalizing a with
  | nil => simp
  | cons p c ih => simp only [List.foldl_cons, ih, List.map_cons, List.sum_cons]; abel

theorem arrayDot_eq (n : Nat) (var : Arr (V3 ℝ)) (mass : Arr ℝ) :
    arrayDot n var mass = ∑ i ∈ range n, mass i • var i := by
  unfold arrayDot
  rw [forLoop_add_scalar 0 n _ (fun i => mass i • var i) (fun _ _ _ _ => rfl), zero_add, Nat.Ico_zero_eq_range]

theorem arraySum_eq (n : Nat) (a : Arr ℝ) : arraySum n a = ∑ i ∈ range n, a i := by
  unfold arraySum
  rw [forLoop_add_scalar 0 n _ (fun i => a i) (fun _ _ _ _ => rfl), zero_add, Nat.Ico_zero_eq_range]

theorem moveToCom_apply (n : Nat) (mass : Arr ℝ) (var : Arr (V3 ℝ)) (k : Nat) :
    moveToCom n mass var k = if k < n then var k - calcCom n mass var else var k := by
  unfold moveToCom
  rw [forLoop_add 0 n _ (fun i k => if k = i then -calcCom n mass var else 0)]
  · rw [Nat.Ico_zero_eq_range, sum_ite_eq]
    by_cases h : k < n <;> simp [h, sub_eq_add_neg]
  · intro i _ _ a k
    by_cases h : k = i
    · subst h; simp [sub_eq_add_neg]
    · simp [Arr.set_other _ _ _ _ h, h]

theorem contract_eq (n : Nat) (coef : Arr ℝ) (a b : Arr (V3 ℝ)) :
    contract n coef a b = ∑ i ∈ range n, coef i * dot (a i) (b i) := by
  unfold contract
  rw [forLoop_add_scalar 0 n _ (fun i => coef i * dot (a i) (b i)) (fun _ _ _ _ => by ring), zero_add,
    Nat.Ico_zero_eq_range]

theorem kinetic_eq (P : Particles) : kinetic P = ∑ i ∈ range P.num, 1 / 2 * P.mass i * dot (P.vel i) (P.vel i) := by
  unfold kinetic
  rw [contract_eq, mul_sum]
  exact sum_congr rfl fun i _ => by ring

theorem angularMomentum_eq (P : Particles) :
    angularMomentum P = ∑ i ∈ range P.num, P.mass i • cross (P.pos i) (P.vel i) := by
  unfold angularMomentum
  rw [forLoop_add_scalar 0 P.num _ (fun i => P.mass i • cross (P.pos i) (P.vel i)) (fun _ _ _ _ => rfl), zero_add,
    Nat.Ico_zero_eq_range]

/-- the specification sum over unordered pairs as a double loop -/
theorem potential_eq (G : ℝ) (n : Nat) (m : Arr ℝ) (x : Arr (V3 ℝ)) :
    potential G n m x = ∑ i ∈ Ico 0 n, ∑ j ∈ Ico (i + 1) n, -(G * m i * m j / len (x i - x j)) := by
  unfold potential
  rw [sum_filter, sum_product, Nat.Ico_zero_eq_range]
  refine sum_congr rfl fun i _ => ?_
  rw [← sum_filter]
  refine sum_congr ?_ fun _ _ => rfl
  ext j; simp; omega

theorem potentialDirect_eq (G : ℝ) (P : Particles) : potentialDirect G P = potential G P.num P.mass P.pos := by
  rw [potential_eq]
  unfold potentialDirect
  rw [forLoop_add_scalar 0 P.num _ (fun i => ∑ j ∈ Ico (i + 1) P.num, -(P.mass i * P.mass j / norm (P.pos i - P.pos j)))]
  · rw [zero_add, sum_mul]
    refine sum_congr rfl fun i _ => ?_
    rw [sum_mul]
    refine sum_congr rfl fun j _ => ?_
    rw [len_eq_norm]; ring
  · intro i _ _ a
    rw [forLoop_add_scalar (i + 1) P.num _ (fun j => -(P.mass i * P.mass j / norm (P.pos i - P.pos j)))]
    intros; ring

/-- pair sums do not depend on the index -/
theorem sum_pairs_perm {M : Type _} [AddCommGroup M] [Module ℝ M] {n : Nat} {idx : Arr Nat} (h : IsIndex n idx)
    (g : Nat → Nat → M) (hs : ∀ i j, g i j = g j i) :
    (∑ i ∈ Ico 0 n, ∑ j ∈ Ico (i + 1) n, g (idx i) (idx j)) = ∑ i ∈ Ico 0 n, ∑ j ∈ Ico (i + 1) n, g i j := by
  have h1 := sum_pairs_symm n (fun i j => g (idx i) (idx j))
  have h2 := sum_pairs_symm n g
  have h3 : ∑ i ∈ range n, ∑ j ∈ (range n).erase i, g (idx i) (idx j) = ∑ i ∈ range n, ∑ j ∈ (range n).erase i, g i j := by
    rw [← h.sum_eq (fun i => ∑ j ∈ (range n).erase i, g i j)]
    refine sum_congr rfl fun i hi => ?_
    exact h.sum_erase_eq (fun j => g (idx i) j) (mem_range.1 hi)
  rw [h3, ← h2] at h1
  have d : ∀ f : Nat → Nat → M, (∀ i j, f i j = f j i) →
      ∑ i ∈ Ico 0 n, ∑ j ∈ Ico (i + 1) n, (f i j + f j i) = (2 : ℝ) • ∑ i ∈ Ico 0 n, ∑ j ∈ Ico (i + 1) n, f i j := by
    intro f hf
    rw [two_smul, ← sum_add_distrib]
    refine sum_congr rfl fun i _ => ?_
    rw [← sum_add_distrib]
    exact sum_congr rfl fun j _ => by rw [hf j i]
  rw [d _ (fun i j => hs _ _), d _ hs] at h1
  have := congrArg (fun z => (1 / 2 : ℝ) • z) h1
  simpa [smul_smul] using this

theorem potentialChain_eq (G : ℝ) (P : Particles) (C : ChainView) (hn : 2 ≤ P.num) (hi : IsIndex P.num C.index)
    (hp : BelongsTo P.num C.index C.chainPos P.pos) :
    potentialChain G P C = .ok (potential G P.num P.mass P.pos) := by
  unfold potentialChain
  rw [if_neg (by omega)]
  let g : Nat → Nat → ℝ := fun i j => -(P.mass i * P.mass j / norm (P.pos i - P.pos j))
  let c : Nat → Nat → ℝ := fun i j => g (C.index i) (C.index j)
  have e1 : ∀ e0 : ℝ, forLoop 0 (P.num - 1) (fun i e =>
      e - P.mass (C.index i) * P.mass (C.index (i + 1)) / norm (C.chainPos i)) e0 =
      e0 + ∑ i ∈ Ico 0 (P.num - 1), c i (i + 1) := by
    intro e0
    refine forLoop_add_scalar _ _ _ (fun i => c i (i + 1)) ?_ _
    intro i _ h a
    rw [hp.link i (by omega), norm_sub_comm]
    simp only [c, g]; ring
  have e2 : ∀ e0 : ℝ, forLoop 0 (P.num - 2) (fun i e =>
      e - P.mass (C.index i) * P.mass (C.index (i + 2)) / norm (C.chainPos i + C.chainPos (i + 1))) e0 =
      e0 + ∑ i ∈ Ico 0 (P.num - 2), c i (i + 2) := by
    intro e0
    refine forLoop_add_scalar _ _ _ (fun i => c i (i + 2)) ?_ _
    intro i _ h a
    have e : C.chainPos i + C.chainPos (i + 1) = P.pos (C.index (i + 2)) - P.pos (C.index i) := by
      rw [hp.link i (by omega), hp.link (i + 1) (by omega)]; abel
    rw [e, norm_sub_comm]
    simp only [c, g]; ring
  have e3 : ∀ e0 : ℝ, forLoop 0 P.num (fun i e =>
      forLoop (i + 3) P.num (fun j e =>
        e - P.mass (C.index i) * P.mass (C.index j) / norm (P.pos (C.index j) - P.pos (C.index i))) e) e0 =
      e0 + ∑ i ∈ Ico 0 P.num, ∑ j ∈ Ico (i + 3) P.num, c i j := by
    intro e0
    refine forLoop_add_scalar _ _ _ (fun i => ∑ j ∈ Ico (i + 3) P.num, c i j) ?_ _
    intro i _ _ a
    refine forLoop_add_scalar _ _ _ (fun j => c i j) ?_ _
    intro j _ _ a
    rw [norm_sub_comm]
    simp only [c, g]; ring
  simp only [e1, e2, e3]
  congr 1
  have ht := sum_chain_pairs P.num c
  have hs : ∑ i ∈ Ico 0 P.num, ∑ j ∈ Ico (i + 1) P.num, c i j = ∑ i ∈ Ico 0 P.num, ∑ j ∈ Ico (i + 1) P.num, g i j :=
    sum_pairs_perm hi g (fun i j => by simp only [g]; rw [norm_sub_comm]; ring)
  have hd : potentialDirect G P = (∑ i ∈ Ico 0 P.num, ∑ j ∈ Ico (i + 1) P.num, g i j) * G := by
    rw [potentialDirect_eq, potential_eq, sum_mul]
    refine sum_congr rfl fun i _ => ?_
    rw [sum_mul]
    refine sum_congr rfl fun j _ => ?_
    simp only [g]; rw [len_eq_norm]; ring
  rw [← potentialDirect_eq, hd, ← hs, ht]
  ring

theorem potentialChain_small (G : ℝ) (P : Particles) (C : ChainView) (hn : P.num < 2) : potentialChain G P C = .ub := by
  simp [potentialChain, hn]

/-! ### containers -/

theorem comFold (c : List Body) (g : Body → V3 ℝ) (s : ℝ × V3 ℝ) :
    c.foldl (fun (s : ℝ × V3 ℝ) p => (s.1 + p.mass, s.2 + p.mass • g p)) s =
      (s.1 + (c.map (fun p => p.mass)).sum, s.2 + (c.map (fun p => p.mass • g p)).sum) := by
  induction c generalizing s with
  | nil => simp
  | cons p c ih =>
    simp only [List.foldl_cons, ih, List.map_cons, List.sum_cons]
    ext <;> simp <;> ring

theorem mTot_eq (c : List Body) : mTot c = (c.map (fun p => p.mass)).sum := by
  unfold mTot; rw [foldl_add]; simp
theorem comP_eq (c : List Body) : comP c = (c.map (fun p => p.mass • p.pos)).sum / (c.map (fun p => p.mass)).sum := by
  unfold comP; rw [comFold]; simp
theorem comV_eq (c : List Body) : comV c = (c.map (fun p => p.mass • p.vel)).sum / (c.map (fun p => p.mass)).sum := by
  unfold comV; rw [comFold]; simp

theorem div_eq_smul (a : V3 ℝ) (c : ℝ) : a / c = c⁻¹ • a := by ext <;> simp [div_eq_mul_inv]

theorem sum_map_shift (c : List Body) (g : Body → V3 ℝ) (d : V3 ℝ) :
    (c.map (fun p => p.mass • (g p + d))).sum =
      (c.map (fun p => p.mass • g p)).sum + (c.map (fun p => p.mass)).sum • d := by
  induction c with
  | nil => simp
  | cons p c ih => rw [List.map_cons, List.sum_cons, ih, List.map_cons, List.sum_cons, List.map_cons, List.sum_cons,
      smul_add, add_smul]; abel

theorem eK_eq (c : List Body) : eK c = 1 / 2 * (c.map (fun p => p.mass * dot p.vel p.vel)).sum := by
  unfold eK; rw [foldl_add]; simp

theorem sum_map_kin_shift (c : List Body) (d : V3 ℝ) :
    (c.map (fun p => p.mass * dot (p.vel + d) (p.vel + d))).sum =
      (c.map (fun p => p.mass * dot p.vel p.vel)).sum + 2 * dot (c.map (fun p => p.mass • p.vel)).sum d +
        (c.map (fun p => p.mass)).sum * dot d d := by
  induction c with
  | nil => simp [dot]
  | cons p c ih =>
    simp only [List.map_cons, List.sum_cons, ih]
    simp [dot]; ring

/-- the energy of all pairs of a container: every particle with each one after it -/
noncomputable def pairEnergy (G : ℝ) : List Body → ℝ
  | [] => 0
  | p :: rest => (rest.map (fun q => -(G * p.mass * q.mass / norm (p.pos - q.pos)))).sum + pairEnergy G rest

theorem eP_eq (G : ℝ) (c : List Body) : eP G c = pairEnergy G c := by
  have inner : ∀ p (rest : List Body) e, ePInner G p rest e =
      e + (rest.map (fun q => -(G * p.mass * q.mass / norm (p.pos - q.pos)))).sum := by
    intro p rest e
    unfold ePInner
    rw [← foldl_add]
    simp only [sub_eq_add_neg]
  have outer : ∀ c e, ePFrom G c e = e + pairEnergy G c := by
    intro c
    induction c with
    | nil => intro e; simp [ePFrom, pairEnergy]
    | cons p c ih => intro e; rw [ePFrom, ih, inner, pairEnergy]; ring
  rw [eP, outer, zero_add]

theorem pairEnergy_map (G : ℝ) (c : List Body) (f : Body → Body) (hm : ∀ p, (f p).mass = p.mass)
    (hp : ∀ p q, (f p).pos - (f q).pos = p.pos - q.pos) : pairEnergy G (c.map f) = pairEnergy G c := by
  induction c with
  | nil => rfl
  | cons p c ih =>
    simp only [List.map_cons, pairEnergy, ih, List.map_map]
    congr 2
    apply List.map_congr_left
    intro q _
    simp [Function.comp, hm, hp]

end SpaceHub.Core
