import Verif.Spec.Lazy
import Verif.Proof.Basic
import Mathlib.Data.Rat.Defs
import Mathlib.Order.Basic
import Mathlib.Algebra.Order.Ring.Int
import Mathlib.Tactic.Ring
import Mathlib.Tactic.NormNum
import Mathlib.Tactic.LinearCombination

/-
C94: lazily evaluated arrays.
-/

set_option autoImplicit false

namespace SpaceHub.Lazy
open SpaceHub Spec

variable {K : Type _}

theorem set_same (M : Mem K) (a i : Nat) (v : K) : M.set a i v a i = v := by simp [Mem.set]

theorem set_ne (M : Mem K) (a i : Nat) (v : K) (b j : Nat) (h : b ≠ a ∨ j ≠ i) : M.set a i v b j = M b j := by
  rw [Mem.set, if_neg]
  rintro ⟨h1, h2⟩
  rcases h with h | h <;> contradiction

theorem eval_congr {M M' : Mem K} (e : Ex K) (i : Nat) (h : ∀ p ∈ reads e i, M' p.1 p.2 = M p.1 p.2) : e.eval M' i = e.eval M i := by
  induction e with
  | arr a => exact h (a, i) (by simp [reads])
  | slice a b s n => exact h (a, sliceIndex b s n i) (by simp [reads])
  | ref a k => exact h (a, k) (by simp [reads])
  | num c => rfl
  | un f e ih => rw [Ex.eval, Ex.eval, ih h]
  | bin f e1 e2 ih1 ih2 =>
    rw [Ex.eval, Ex.eval, ih1 fun p hp => h p (by simp [reads, hp]), ih2 fun p hp => h p (by simp [reads, hp])]

/-- the loop of all assignments: elements are stored one after the other -/
theorem loop_assigned (len v : Nat) (val : Mem K → Nat → K) (M : Mem K)
    (h : ∀ i, i < len → ∀ M' : Mem K, (∀ a, a ≠ v → ∀ j, M' a j = M a j) → (∀ j, i ≤ j → M' v j = M v j) → val M' i = val M i) :
    Assigned len v (val M) M (forLoop 0 len (fun i M => M.set v i (val M i)) M) := by
  have key := forLoop_inv (fun k M' => (∀ i, i < k → M' v i = val M i) ∧ (∀ i, k ≤ i → M' v i = M v i) ∧ ∀ a, a ≠ v → ∀ i, M' a i = M a i) 0 len
    (Nat.zero_le _) (fun i M => M.set v i (val M i)) M ⟨fun i hi => absurd hi (Nat.not_lt_zero _), fun _ _ => rfl, fun _ _ _ => rfl⟩
    (fun i t _ hi ⟨h1, h2, h3⟩ => by
      refine ⟨fun j hj => ?_, fun j hj => ?_, fun a ha j => ?_⟩
      · rcases Nat.lt_succ_iff_lt_or_eq.1 hj with hj | rfl
        · rw [set_ne _ _ _ _ _ _ (.inr (by omega))]; exact h1 j hj
        · rw [set_same]; exact h j hi t h3 h2
      · rw [set_ne _ _ _ _ _ _ (.inr (by omega))]; exact h2 j (by omega)
      · rw [set_ne _ _ _ _ _ _ (.inl ha)]; exact h3 a ha j)
  exact ⟨key.1, key.2.1, key.2.2⟩

/-- **C94.** `v = expression` stores the expression computed from the old elements, for every length and every expression that never reads an element of `v`
after it was overwritten: for its element `i` it reads of `v` only elements from `i` on.  (For `v += expression` etc. see `C94_update`.) -/
theorem C94_assignment (len v : Nat) (e : Ex K) (M : Mem K) (h : ∀ i, i < len → ∀ j, (v, j) ∈ reads e i → i ≤ j) :
    Assigned len v (e.eval M) M (assign len v e M) :=
  loop_assigned len v (fun M i => e.eval M i) M fun i hi M' h1 h2 => eval_congr e i fun ⟨a, j⟩ hp => by
    by_cases ha : a = v
    · subst ha; exact h2 j (h i hi j hp)
    · exact h1 a ha j

/-- **C94, compound assignment** (`+=`, `-=`, `*=`, `/=` of three-vectors). -/
theorem C94_update (op : K → K → K) (v : Nat) (e : Ex K) (M : Mem K) (h : ∀ i, i < 3 → ∀ j, (v, j) ∈ reads e i → i ≤ j) :
    Assigned 3 v (fun i => op (M v i) (e.eval M i)) M (update op v e M) :=
  loop_assigned 3 v (fun M i => op (M v i) (e.eval M i)) M fun i hi M' h1 h2 => by
    show op (M' v i) _ = op (M v i) _
    rw [h2 i le_rfl]
    exact congrArg _ (eval_congr e i fun ⟨a, j⟩ hp => by
      by_cases ha : a = v
      · subst ha; exact h2 j (h i hi j hp)
      · exact h1 a ha j)

/-- Expressions in which `v` occurs at most as a whole, e.g. `v * v + 2 * w`. -/
def Elementwise (v : Nat) : Ex K → Prop
  | .arr _ => True
  | .slice a _ _ _ => a ≠ v
  | .ref a _ => a ≠ v
  | .num _ => True
  | .un _ e => Elementwise v e
  | .bin _ e1 e2 => Elementwise v e1 ∧ Elementwise v e2

theorem elementwise_reads (v : Nat) (e : Ex K) (h : Elementwise v e) (i j : Nat) (hj : (v, j) ∈ reads e i) : j = i := by
  induction e with
  | arr a => simp only [reads, List.mem_singleton, Prod.mk.injEq] at hj; exact hj.2
  | slice a b s n => simp only [reads, List.mem_singleton, Prod.mk.injEq] at hj; exact absurd hj.1.symm h
  | ref a k => simp only [reads, List.mem_singleton, Prod.mk.injEq] at hj; exact absurd hj.1.symm h
  | num c => simp [reads] at hj
  | un f e ih => exact ih h hj
  | bin f e1 e2 ih1 ih2 =>
    rcases List.mem_append.1 hj with hj | hj
    · exact ih1 h.1 hj
    · exact ih2 h.2 hj

/-- **C94, elementwise expressions** are safe, also if the array assigned to occurs in them. -/
theorem C94_elementwise (len v : Nat) (e : Ex K) (M : Mem K) (h : Elementwise v e) : Assigned len v (e.eval M) M (assign len v e M) :=
  C94_assignment len v e M fun i _ j hj => (elementwise_reads v e h i j hj).ge

/-- The arrays of the examples: array 0 is (2, 4, 6), all others 0. -/
def sample : Mem ℚ := fun a i => if a = 0 then 2 * (i + 1) else 0

/-- Not vacuous: `v = -v + w` with `w = 1`. -/
example : Elementwise 0 (Ex.bin (· + ·) (.un (fun x : ℚ => -x) (.arr 0)) (.num 1)) ∧
    (assign 3 0 (Ex.bin (· + ·) (.un (fun x : ℚ => -x) (.arr 0)) (.num 1)) sample) 0 2 = -5 :=
  ⟨⟨trivial, trivial⟩, by rw [(C94_elementwise 3 0 (Ex.bin (· + ·) (.un (fun x : ℚ => -x) (.arr 0)) (.num 1)) sample ⟨trivial, trivial⟩).elements 2 (by norm_num)]; simp [Ex.eval, sample]; norm_num⟩

/-- **C94 is false of the code** for `v = v / v.x`: the expression refers to `v.x`, which is overwritten first.  (2, 4, 6) becomes (1, 4, 6), not
(1, 2, 3). -/
theorem C94_own_element :
    (assign 3 0 (Ex.bin (· / ·) (.arr 0) (.ref 0 0)) sample) 0 0 = 1 ∧ (assign 3 0 (Ex.bin (· / ·) (.arr 0) (.ref 0 0)) sample) 0 1 = 4 ∧
    (assign 3 0 (Ex.bin (· / ·) (.arr 0) (.ref 0 0)) sample) 0 2 = 6 ∧ (Ex.bin (· / ·) (.arr 0) (.ref 0 0)).eval sample 1 = 2 := by
  refine ⟨?_, ?_, ?_, ?_⟩ <;> norm_num [assign, forLoop, List.range', Mem.set, Ex.eval, sample]

/-- **C94 is false of the code** for an array reversed in place, `a = a[slice(-1, -3, -1)]`: (2, 4, 6) becomes (6, 4, 6), not (6, 4, 2). -/
theorem C94_reversed_in_place :
    (assign 3 0 (.slice 0 (-1) (-1) 3) sample) 0 0 = 6 ∧ (assign 3 0 (.slice 0 (-1) (-1) 3) sample) 0 1 = 4 ∧
    (assign 3 0 (.slice 0 (-1) (-1) 3) sample) 0 2 = 6 ∧ (Ex.slice 0 (-1) (-1) 3).eval sample 2 = 2 := by
  refine ⟨?_, ?_, ?_, ?_⟩ <;> norm_num [assign, forLoop, List.range', Mem.set, Ex.eval, sample, show sliceIndex (-1) (-1) 3 0 = 2 by decide,
    show sliceIndex (-1) (-1) 3 1 = 1 by decide, show sliceIndex (-1) (-1) 3 2 = 0 by decide]

/-! ### slices -/

/-- **C94, slices.** Element `i` of `a[slice(begin, end, stride)]` is the element `begin + i * stride` of `a`, counted round and round, as long as it is not
more than once before the beginning. -/
theorem C94_slice_index (begin stride : Int) (size i : Nat) (h0 : 0 ≤ begin + size + i * stride) (h1 : begin + size + i * stride < 2 ^ 64) :
    (sliceIndex begin stride size i : Int) = (begin + i * stride) % size := by
  unfold sliceIndex
  rw [Int.emod_eq_of_lt h0 h1]
  rcases Nat.eq_zero_or_pos size with rfl | hs
  · simp only [Nat.cast_zero, Int.emod_zero, add_zero] at *
    exact Int.toNat_of_nonneg h0
  · rw [Int.toNat_of_nonneg (Int.emod_nonneg _ (by omega)), show begin + size + i * stride = begin + i * stride + size by ring, Int.add_emod_right]

/-- **C94 is false of the code** for slices that run backwards over the beginning: the sum wraps around 2^64, which is not a multiple of the size. Of three
elements, `slice(-3, -1, -1)` has two elements, which should be the elements 0 and 2; they are 0 and 0. -/
theorem C94_slice_backwards : sliceLen (-3) (-1) (-1) 3 = 2 ∧ sliceIndex (-3) (-1) 3 0 = 0 ∧ sliceIndex (-3) (-1) 3 1 = 0 ∧ ((-3 : Int) + 1 * (-1)) % 3 = 2 := by
  decide

/-- **C94, slices with stride 1 or -1** end with the element `end`. -/
theorem C94_slice_ends (begin end_ stride : Int) (size : Nat) (hs : stride = 1 ∨ stride = -1) (hb : -size ≤ begin) (hb' : begin ≤ size) (he : -size ≤ end_)
    (he' : end_ ≤ size) : 1 ≤ sliceLen begin end_ stride size ∧ sliceLen begin end_ stride size ≤ size + 1 ∧
      ∃ k : Int, begin + (sliceLen begin end_ stride size - 1 : Nat) * stride = end_ + k * size := by
  have key : ∀ b e : Int, 0 ≤ b → b ≤ size → 0 ≤ e → e ≤ size → (∃ k : Int, b = begin + k * size) → (∃ k : Int, e = end_ + k * size) →
      ∀ L : Nat, L = (if stride > 0 ∧ e > b then 1 + (e - b).toNat
        else if stride > 0 ∧ e < b then 1 + (e - b + size).toNat
        else if stride < 0 ∧ e > b then 1 + (size + b - e).toNat
        else if stride < 0 ∧ e < b then 1 + (b - e).toNat
        else 1) → 1 ≤ L ∧ L ≤ size + 1 ∧ ∃ k : Int, begin + (L - 1 : Nat) * stride = end_ + k * size := by
    rintro b e b0 b1 e0 e1 ⟨kb, hkb⟩ ⟨ke, hke⟩ L hL
    rcases hs with rfl | rfl
    · rcases lt_trichotomy e b with h | h | h
      · rw [if_neg (by omega), if_pos (by omega)] at hL
        refine ⟨by omega, by omega, ke - kb + 1, ?_⟩
        have : ((L - 1 : Nat) : Int) = e - b + size := by omega
        rw [this]; linear_combination hke - hkb
      · rw [if_neg (by omega), if_neg (by omega), if_neg (by omega), if_neg (by omega)] at hL
        subst hL
        refine ⟨le_rfl, by omega, ke - kb, ?_⟩
        push_cast
        linear_combination hke - hkb - h
      · rw [if_pos (by omega)] at hL
        refine ⟨by omega, by omega, ke - kb, ?_⟩
        have : ((L - 1 : Nat) : Int) = e - b := by omega
        rw [this]; linear_combination hke - hkb
    · rcases lt_trichotomy e b with h | h | h
      · rw [if_neg (by omega), if_neg (by omega), if_neg (by omega), if_pos (by omega)] at hL
        refine ⟨by omega, by omega, ke - kb, ?_⟩
        have : ((L - 1 : Nat) : Int) = b - e := by omega
        rw [this]; linear_combination hke - hkb
      · rw [if_neg (by omega), if_neg (by omega), if_neg (by omega), if_neg (by omega)] at hL
        subst hL
        refine ⟨le_rfl, by omega, ke - kb, ?_⟩
        push_cast
        linear_combination hke - hkb - h
      · rw [if_neg (by omega), if_neg (by omega), if_pos (by omega)] at hL
        refine ⟨by omega, by omega, ke - kb - 1, ?_⟩
        have : ((L - 1 : Nat) : Int) = size + b - e := by omega
        rw [this]; linear_combination hke - hkb
  refine key _ _ ?_ ?_ ?_ ?_ ?_ ?_ _ rfl
  · split_ifs <;> omega
  · split_ifs <;> omega
  · split_ifs <;> omega
  · split_ifs <;> omega
  · split_ifs
    · exact ⟨0, by ring⟩
    · exact ⟨1, by ring⟩
  · split_ifs
    · exact ⟨0, by ring⟩
    · exact ⟨1, by ring⟩

/-- **C94, assignment of a number to a slice** changes exactly the elements of the slice. -/
theorem C94_fill (v : Nat) (begin end_ stride : Int) (size : Nat) (c : K) (M : Mem K) :
    (∀ i, i < sliceLen begin end_ stride size → fillSlice v begin end_ stride size c M v (sliceIndex begin stride size i) = c) ∧
    (∀ j, (∀ i, i < sliceLen begin end_ stride size → sliceIndex begin stride size i ≠ j) → fillSlice v begin end_ stride size c M v j = M v j) ∧
    ∀ a, a ≠ v → ∀ j, fillSlice v begin end_ stride size c M a j = M a j := by
  refine forLoop_inv (fun k M' => (∀ i, i < k → M' v (sliceIndex begin stride size i) = c) ∧
    (∀ j, (∀ i, i < k → sliceIndex begin stride size i ≠ j) → M' v j = M v j) ∧ ∀ a, a ≠ v → ∀ j, M' a j = M a j) 0 _ (Nat.zero_le _) _ M
    ⟨fun i hi => absurd hi (Nat.not_lt_zero _), fun _ _ => rfl, fun _ _ _ => rfl⟩ fun i t _ _ ⟨h1, h2, h3⟩ => ⟨fun j hj => ?_, fun j hj => ?_, fun a ha j => ?_⟩
  · by_cases h : sliceIndex begin stride size j = sliceIndex begin stride size i
    · rw [h, set_same]
    · rw [set_ne _ _ _ _ _ _ (.inr h)]
      exact h1 j (by rcases Nat.lt_succ_iff_lt_or_eq.1 hj with hj | rfl; exacts [hj, absurd rfl h])
  · rw [set_ne _ _ _ _ _ _ (.inr (hj i (Nat.lt_succ_self i)).symm)]
    exact h2 j fun i' hi' => hj i' (Nat.lt_succ_of_lt hi')
  · rw [set_ne _ _ _ _ _ _ (.inl ha)]; exact h3 a ha j

/-- **C94 is false of the code** for strides other than 1 and -1: the number of elements ignores the stride, so that `slice(0, 2, 2)` of three elements has
the elements 0, 2 and 1, and assigning to it overwrites the element 1 between them. -/
theorem C94_stride_ignored : sliceLen 0 2 2 3 = 3 ∧ sliceIndex 0 2 3 2 = 1 ∧ ∀ (c : K) (M : Mem K), fillSlice 0 0 2 2 3 c M 0 1 = c := by
  refine ⟨by decide, by decide, fun c M => ?_⟩
  have h := (C94_fill 0 0 2 2 3 c M).1 2 (by decide)
  rwa [show sliceIndex 0 2 3 2 = 1 by decide] at h

/-- **C94 is false of the code** for `slice(0, size)`, one past the end: it has a single element. -/
theorem C94_whole_is_one (size : Nat) : sliceLen 0 size 1 size = 1 := by
  unfold sliceLen
  rcases Nat.eq_zero_or_pos size with rfl | h
  · simp
  · simp only [gt_iff_lt, lt_self_iff_false, ite_false, add_zero, Nat.cast_pos.2 h, ite_true]
    simp

/-! ### smallest and largest element -/

/-- **C94, largest and smallest element** (`better` is `>` or `<` of a linear order). -/
theorem C94_extreme [LinearOrder K] (len v : Nat) (M : Mem K) (hl : 0 < len) :
    ((∃ i, i < len ∧ extreme (fun a b => decide (a > b)) len v M = M v i) ∧ ∀ i, i < len → M v i ≤ extreme (fun a b => decide (a > b)) len v M) ∧
    (∃ i, i < len ∧ extreme (fun a b => decide (a < b)) len v M = M v i) ∧ ∀ i, i < len → extreme (fun a b => decide (a < b)) len v M ≤ M v i := by
  constructor
  · exact forLoop_inv (fun k m => (∃ i, i < k ∧ m = M v i) ∧ ∀ i, i < k → M v i ≤ m) 1 len hl _ (M v 0)
      ⟨⟨0, by omega, rfl⟩, fun i hi => by rw [show i = 0 by omega]⟩ fun i m _ _ ⟨⟨k, hk, e⟩, hall⟩ => by
        by_cases h : M v i > m
        · simp only [h, decide_true, ite_true]
          refine ⟨⟨i, by omega, rfl⟩, fun j hj => ?_⟩
          rcases Nat.lt_succ_iff_lt_or_eq.1 hj with hj | rfl
          · exact (hall j hj).trans h.le
          · exact le_rfl
        · simp only [h, decide_false, Bool.false_eq_true, ite_false]
          refine ⟨⟨k, by omega, e⟩, fun j hj => ?_⟩
          rcases Nat.lt_succ_iff_lt_or_eq.1 hj with hj | rfl
          · exact hall j hj
          · exact not_lt.1 h
  · exact forLoop_inv (fun k m => (∃ i, i < k ∧ m = M v i) ∧ ∀ i, i < k → m ≤ M v i) 1 len hl _ (M v 0)
      ⟨⟨0, by omega, rfl⟩, fun i hi => by rw [show i = 0 by omega]⟩ fun i m _ _ ⟨⟨k, hk, e⟩, hall⟩ => by
        by_cases h : M v i < m
        · simp only [h, decide_true, ite_true]
          refine ⟨⟨i, by omega, rfl⟩, fun j hj => ?_⟩
          rcases Nat.lt_succ_iff_lt_or_eq.1 hj with hj | rfl
          · exact h.le.trans (hall j hj)
          · exact le_rfl
        · simp only [h, decide_false, Bool.false_eq_true, ite_false]
          refine ⟨⟨k, by omega, e⟩, fun j hj => ?_⟩
          rcases Nat.lt_succ_iff_lt_or_eq.1 hj with hj | rfl
          · exact hall j hj
          · exact not_lt.1 h

end SpaceHub.Lazy
