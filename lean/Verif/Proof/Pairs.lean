import Verif.Model.Force
import Verif.Spec.Force
import Verif.Proof.Basic
import Mathlib.Algebra.BigOperators.Intervals
import Mathlib.Data.Finset.Prod
import Mathlib.Tactic.Ring
import Mathlib.Tactic.Abel
import Mathlib.Tactic.FieldSimp
import Mathlib.Tactic.Linarith

set_option autoImplicit false

namespace SpaceHub
open Finset

/-- A loop whose body adds `g i k` to every entry `k` adds the sum. -/
theorem forLoop_add {M : Type _} [AddCommMonoid M] (lo hi : Nat) (b : Nat → Arr M → Arr M) (g : Nat → Nat → M)
    (hb : ∀ i, lo ≤ i → i < hi → ∀ a k, b i a k = a k + g i k) (a : Arr M) (k : Nat) :
    forLoop lo hi b a k = a k + ∑ i ∈ Ico lo hi, g i k := by
  rcases Nat.lt_or_ge hi lo with h | h
  · rw [forLoop_self _ _ h.le, Ico_eq_empty_of_le h.le]; simp
  · refine forLoop_inv (P := fun i a' => a' k = a k + ∑ i ∈ Ico lo i, g i k) lo hi h b a (by simp) ?_
    intro i t h1 h2 ht
    rw [hb i h1 h2, ht, sum_Ico_succ_top h1]
    abel

theorem forLoop_add_scalar {M : Type _} [AddCommMonoid M] (lo hi : Nat) (b : Nat → M → M) (g : Nat → M)
    (hb : ∀ i, lo ≤ i → i < hi → ∀ a, b i a = a + g i) (a : M) :
    forLoop lo hi b a = a + ∑ i ∈ Ico lo hi, g i := by
  rcases Nat.lt_or_ge hi lo with h | h
  · rw [forLoop_self _ _ h.le, Ico_eq_empty_of_le h.le]; simp
  · refine forLoop_inv (P := fun i a' => a' = a + ∑ i ∈ Ico lo i, g i) lo hi h b a (by simp) ?_
    intro i t h1 h2 ht
    rw [hb i h1 h2, ht, sum_Ico_succ_top h1]
    abel

/-- All pairs of chain positions, by distance one, two and more. -/
theorem sum_chain_pairs {M : Type _} [AddCommMonoid M] (n : Nat) (c : Nat → Nat → M) :
    (∑ i ∈ Ico 0 n, ∑ j ∈ Ico (i + 1) n, c i j) =
      (∑ i ∈ Ico 0 n, ∑ j ∈ Ico (i + 3) n, c i j) + (∑ i ∈ Ico 0 (n - 2), c i (i + 2)) +
        ∑ i ∈ Ico 0 (n - 1), c i (i + 1) := by
  have h2 : ∑ i ∈ Ico 0 (n - 2), c i (i + 2) = ∑ i ∈ Ico 0 n, if i + 2 < n then c i (i + 2) else 0 := by
    rw [← sum_filter]; congr 1; ext i; simp; omega
  have h1 : ∑ i ∈ Ico 0 (n - 1), c i (i + 1) = ∑ i ∈ Ico 0 n, if i + 1 < n then c i (i + 1) else 0 := by
    rw [← sum_filter]; congr 1; ext i; simp; omega
  rw [h1, h2, ← sum_add_distrib, ← sum_add_distrib]
  refine sum_congr rfl fun i _ => ?_
  by_cases a : i + 1 < n
  · rw [sum_eq_sum_Ico_succ_bot a]
    by_cases b : i + 2 < n
    · rw [sum_eq_sum_Ico_succ_bot b]
      simp [a, b]; abel
    · rw [Ico_eq_empty_of_le (by omega : n ≤ i + 1 + 1), Ico_eq_empty_of_le (by omega : n ≤ i + 3)]
      simp [a, b]
  · rw [Ico_eq_empty_of_le (by omega : n ≤ i + 1), Ico_eq_empty_of_le (by omega : n ≤ i + 3)]
    have : ¬ i + 2 < n := by omega
    simp [a, this]

/-- Ordered pairs folded into unordered ones. -/
theorem sum_pairs_symm {M : Type _} [AddCommMonoid M] (n : Nat) (g : Nat → Nat → M) :
    (∑ i ∈ Ico 0 n, ∑ j ∈ Ico (i + 1) n, (g i j + g j i)) = ∑ i ∈ range n, ∑ j ∈ (range n).erase i, g i j := by
  simp only [sum_add_distrib]
  have hA : ∑ i ∈ Ico 0 n, ∑ j ∈ Ico (i + 1) n, g i j = ∑ i ∈ range n, ∑ j ∈ range n, if i < j then g i j else 0 := by
    rw [Nat.Ico_zero_eq_range]
    refine sum_congr rfl fun i _ => ?_
    rw [← sum_filter]; congr 1; ext j; simp; omega
  have hB : ∑ i ∈ Ico 0 n, ∑ j ∈ Ico (i + 1) n, g j i = ∑ i ∈ range n, ∑ j ∈ range n, if j < i then g i j else 0 := by
    rw [sum_comm]
    rw [Nat.Ico_zero_eq_range]
    refine sum_congr rfl fun i _ => ?_
    rw [← sum_filter]; congr 1; ext j; simp; omega
  rw [hA, hB, ← sum_add_distrib]
  refine sum_congr rfl fun i _ => ?_
  rw [← sum_add_distrib]
  have : (range n).erase i = (range n).filter (fun j => i ≠ j) := by
    ext j; simp [and_comm, eq_comm]
  rw [this, sum_filter]
  refine sum_congr rfl fun j _ => ?_
  rcases Nat.lt_trichotomy i j with h | h | h
  · simp [h, Nat.not_lt.2 h.le, h.ne]
  · subst h; simp
  · simp [h, Nat.not_lt.2 h.le, h.ne']

/-- Sums over all particles may be taken in index order. -/
theorem IsIndex.sum_eq {M : Type _} [AddCommMonoid M] {n : Nat} {idx : Arr Nat} (h : IsIndex n idx) (f : Nat → M) :
    ∑ i ∈ range n, f (idx i) = ∑ i ∈ range n, f i := by
  refine sum_bij (fun i _ => idx i) ?_ ?_ ?_ ?_
  · intro a ha; simp at *; exact h.lt a ha
  · intro a ha b hb e; simp at *; exact h.inj a b ha hb e
  · intro k hk; obtain ⟨i, hi, e⟩ := h.surj (mem_range.1 hk); exact ⟨i, mem_range.2 hi, e⟩
  · intros; rfl

theorem IsIndex.sum_erase_eq {M : Type _} [AddCommMonoid M] {n : Nat} {idx : Arr Nat} (h : IsIndex n idx)
    (f : Nat → M) {p : Nat} (hp : p < n) :
    ∑ i ∈ (range n).erase p, f (idx i) = ∑ i ∈ (range n).erase (idx p), f i := by
  refine sum_bij (fun i _ => idx i) ?_ ?_ ?_ ?_
  · intro a ha; simp at *; exact ⟨fun e => ha.1 (h.inj _ _ ha.2 hp e), h.lt a ha.2⟩
  · intro a ha b hb e; simp at *; exact h.inj a b ha.2 hb.2 e
  · intro k hk
    simp at hk
    obtain ⟨i, hi, e⟩ := h.surj hk.2
    refine ⟨i, ?_, e⟩
    simp; exact ⟨fun e' => hk.1 (by rw [← e, e']), hi⟩
  · intros; rfl

theorem isIndex_id (n : Nat) : IsIndex n (fun i => i) := ⟨fun _ h => h, fun _ _ _ _ e => e⟩

/-- If visiting the pair of chain positions `(i,j)` adds `F (idx i) (idx j)` to entry `idx i` and
`F (idx j) (idx i)` to entry `idx j`, then all pairs together add the sum over all other particles. -/
theorem sum_pairs_index {M : Type _} [AddCommMonoid M] {n : Nat} {idx : Arr Nat} (h : IsIndex n idx)
    (F : Nat → Nat → M) (k : Nat) :
    (∑ i ∈ Ico 0 n, ∑ j ∈ Ico (i + 1) n,
      ((if k = idx i then F (idx i) (idx j) else 0) + (if k = idx j then F (idx j) (idx i) else 0))) =
      if k < n then ∑ j ∈ (range n).erase k, F k j else 0 := by
  rw [sum_pairs_symm n (fun i j => if k = idx i then F (idx i) (idx j) else 0)]
  by_cases hk : k < n
  · obtain ⟨p, hp, rfl⟩ := h.surj hk
    rw [if_pos hk, sum_eq_single p]
    · simp only [if_true]
      exact h.sum_erase_eq (fun j => F (idx p) j) hp
    · intro b hb hne
      refine sum_eq_zero fun j _ => ?_
      rw [if_neg]
      intro e; exact hne (h.inj b p (mem_range.1 hb) hp e.symm)
    · intro hn; exact absurd (mem_range.2 hp) hn
  · rw [if_neg hk]
    refine sum_eq_zero fun i hi => sum_eq_zero fun j _ => ?_
    rw [if_neg]
    intro e; exact hk (e ▸ h.lt i (mem_range.1 hi))

namespace Force
open Spec

/-- A pair force that, when called for the pair `(i,j)` of a system, adds `F i j` to `acc[i]` and `F j i` to
`acc[j]`. -/
def Symmetric (force : PairForce) (P : Particles) (F : Nat → Nat → V3 ℝ) : Prop :=
  ∀ i j, i < P.num → j < P.num → i ≠ j → ∀ acc k,
    force (P.pos j - P.pos i) (P.vel j - P.vel i) i j acc k =
      acc k + ((if k = i then F i j else 0) + (if k = j then F j i else 0))

theorem directLoops_spec {force : PairForce} {P : Particles} {F : Nat → Nat → V3 ℝ} (h : Symmetric force P F)
    (acc : Arr (V3 ℝ)) : Accumulates P.num F acc (directLoops force P acc) := by
  have key : ∀ k, directLoops force P acc k =
      acc k + if k < P.num then ∑ j ∈ (range P.num).erase k, F k j else 0 := by
    intro k
    have hp := sum_pairs_index (isIndex_id P.num) F k
    rw [← hp]
    unfold directLoops
    rw [forLoop_add 0 P.num _ (fun i k => ∑ j ∈ Ico (i + 1) P.num,
      ((if k = i then F i j else 0) + (if k = j then F j i else 0)))]
    intro i _ hi a k
    rw [forLoop_add (i + 1) P.num _ (fun j k => (if k = i then F i j else 0) + (if k = j then F j i else 0))]
    intro j h1 h2 a k
    exact h i j hi h2 (by omega) a k
  constructor
  · intro k hk; rw [key k, if_pos hk]
  · intro k hk; rw [key k, if_neg (by omega)]; simp

/-- The chain view of a system is consistent with its Cartesian coordinates. -/
structure Consistent (P : Particles) (C : ChainView) : Prop where
  index : IsIndex P.num C.index
  pos : BelongsTo P.num C.index C.chainPos P.pos
  vel : BelongsTo P.num C.index C.chainVel P.vel

section chain
variable {force : PairForce} {P : Particles} {C : ChainView} {F : Nat → Nat → V3 ℝ}

/-- contribution of the chain pair `(i,j)` to entry `k` -/
private def cc (C : ChainView) (F : Nat → Nat → V3 ℝ) (k i j : Nat) : V3 ℝ :=
  (if k = C.index i then F (C.index i) (C.index j) else 0) + (if k = C.index j then F (C.index j) (C.index i) else 0)

private theorem farLoop_add (h : Symmetric force P F) (hc : Consistent P C) (acc : Arr (V3 ℝ)) (k : Nat) :
    farLoop force P C acc k = acc k + ∑ i ∈ Ico 0 P.num, ∑ j ∈ Ico (i + 3) P.num, cc C F k i j := by
  unfold farLoop
  rw [forLoop_add 0 P.num _ (fun i k => ∑ j ∈ Ico (i + 3) P.num, cc C F k i j)]
  intro i _ hi a k
  rw [forLoop_add (i + 3) P.num _ (fun j k => cc C F k i j)]
  intro j h1 h2 a k
  refine h _ _ (hc.index.lt i hi) (hc.index.lt j h2) ?_ a k
  intro e
  have := hc.index.inj i j hi h2 e
  omega

private theorem skipLoop_add (h : Symmetric force P F) (hc : Consistent P C) (acc : Arr (V3 ℝ)) (k : Nat) :
    skipLoop force P C acc k = acc k + ∑ i ∈ Ico 0 (P.num - 2), cc C F k i (i + 2) := by
  unfold skipLoop
  rw [forLoop_add 0 (P.num - 2) _ (fun i k => cc C F k i (i + 2))]
  intro i _ hi a k
  have e1 : C.chainPos i + C.chainPos (i + 1) = P.pos (C.index (i + 2)) - P.pos (C.index i) := by
    rw [hc.pos.link i (by omega), hc.pos.link (i + 1) (by omega)]; abel
  have e2 : C.chainVel i + C.chainVel (i + 1) = P.vel (C.index (i + 2)) - P.vel (C.index i) := by
    rw [hc.vel.link i (by omega), hc.vel.link (i + 1) (by omega)]; abel
  simp only [e1, e2]
  refine h _ _ (hc.index.lt i (by omega)) (hc.index.lt (i + 2) (by omega)) ?_ a k
  intro e
  have := hc.index.inj i (i + 2) (by omega) (by omega) e
  omega

private theorem adjLoop_add (h : Symmetric force P F) (hc : Consistent P C) (acc : Arr (V3 ℝ)) (k : Nat) :
    adjLoop force P C acc k = acc k + ∑ i ∈ Ico 0 (P.num - 1), cc C F k i (i + 1) := by
  unfold adjLoop
  rw [forLoop_add 0 (P.num - 1) _ (fun i k => cc C F k i (i + 1))]
  intro i _ hi a k
  simp only [hc.pos.link i (by omega), hc.vel.link i (by omega)]
  refine h _ _ (hc.index.lt i (by omega)) (hc.index.lt (i + 1) (by omega)) ?_ a k
  intro e
  have := hc.index.inj i (i + 1) (by omega) (by omega) e
  omega

private theorem total (hc : Consistent P C) (acc acc' : Arr (V3 ℝ))
    (h : ∀ k, acc' k = acc k + ((∑ i ∈ Ico 0 P.num, ∑ j ∈ Ico (i + 3) P.num, cc C F k i j) +
      (∑ i ∈ Ico 0 (P.num - 2), cc C F k i (i + 2)) + ∑ i ∈ Ico 0 (P.num - 1), cc C F k i (i + 1))) :
    Accumulates P.num F acc acc' := by
  have key : ∀ k, acc' k = acc k + if k < P.num then ∑ j ∈ (range P.num).erase k, F k j else 0 := by
    intro k
    rw [h k, ← sum_chain_pairs P.num (cc C F k), ← sum_pairs_index hc.index F k]
    rfl
  constructor
  · intro k hk; rw [key k, if_pos hk]
  · intro k hk; rw [key k, if_neg (by omega)]; simp

theorem chainLoopsFar_spec (h : Symmetric force P F) (hc : Consistent P C) (hn : 2 ≤ P.num) (acc : Arr (V3 ℝ)) :
    ∃ acc', chainLoopsFar force P C acc = .ok acc' ∧ Accumulates P.num F acc acc' := by
  refine ⟨_, by rw [chainLoopsFar, if_neg (by omega)], total hc acc _ fun k => ?_⟩
  rw [adjLoop_add h hc, skipLoop_add h hc, farLoop_add h hc]
  abel

theorem chainLoopsNear_spec (h : Symmetric force P F) (hc : Consistent P C) (hn : 2 ≤ P.num) (acc : Arr (V3 ℝ)) :
    ∃ acc', chainLoopsNear force P C acc = .ok acc' ∧ Accumulates P.num F acc acc' := by
  refine ⟨_, by rw [chainLoopsNear, if_neg (by omega)], total hc acc _ fun k => ?_⟩
  rw [farLoop_add h hc, skipLoop_add h hc, adjLoop_add h hc]
  abel
end chain

/-- `acc[i] += a; acc[j] -= b` entry by entry. -/
theorem addAt_subAt (acc : Arr (V3 ℝ)) (i j : Nat) (hij : i ≠ j) (a b : V3 ℝ) (k : Nat) :
    subAt (addAt acc i a) j b k = acc k + ((if k = i then a else 0) + (if k = j then -b else 0)) := by
  unfold subAt addAt Arr.set
  by_cases h1 : k = i
  · subst h1; simp [hij]
  · by_cases h2 : k = j
    · subst h2; simp [h1, sub_eq_add_neg]
    · simp [h1, h2]

theorem len_eq_norm (a : V3 ℝ) : len a = norm a := rfl
theorem norm_neg (a : V3 ℝ) : norm (-a) = norm a := by simp [norm]
theorem norm_sub_comm (a b : V3 ℝ) : norm (a - b) = norm (b - a) := by rw [← norm_neg (a - b)]; congr 1; abel
theorem norm2_eq_dot (a : V3 ℝ) : V3.norm2 a = V3.dot a a := rfl

end Force
end SpaceHub
