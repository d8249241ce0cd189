import Verif.Proof.ChainGreedy
import Verif.Proof.ChainCoord
import Mathlib.Data.Rat.Defs
import Mathlib.Algebra.Order.Ring.Rat
import Mathlib.Tactic.NormNum

/-
Properties C01 - C05: the chain of src/particle-system/chain.hpp.
-/

set_option autoImplicit false

namespace SpaceHub.Chain
open SpaceHub

/-- **C01** For `num ≥ 2` particles, whatever the distances and whatever sorted order `std::sort` picks, building
the chain index returns (given at least `(L+1)²` loop iterations, `L` the number of pairs, i.e. it terminates)
and the index lists every particle `0..num-1` exactly once. -/
theorem C01_index_is_permutation {R : Type} [LinearOrder R] (num : Nat) (hnum : 2 ≤ num) (r2 : Nat → Nat → R)
    (fuel : Nat) (hf : enoughFuel (createDistances num r2).length ≤ fuel) (res : Res (List Nat))
    (hres : CalcChainIndex fuel num r2 res) :
    ∃ l, res = .ok l ∧ l.Perm (List.range num) := by
  obtain ⟨s, hs, rfl⟩ := hres
  have hd := distOk_of_sort hs
  have hlen : s.length = (createDistances num r2).length := hs.1.length_eq
  match s, hs, hd, hlen with
  | [], _, hd, _ =>
    obtain ⟨m, hm, _⟩ := hd.all 0 1 (by omega) (by omega)
    cases hm
  | n :: rest, hs, hd, hlen =>
    obtain ⟨s', he, hp, _⟩ := createIndex_ok hd
      (fun m hm => (pair_of_sorted hs (List.mem_cons_of_mem _ hm)).2.2.2) (fun _ => True) trivial
      (fun _ _ _ _ _ _ _ _ _ _ _ _ => trivial) (fun _ _ _ => trivial) fuel (by rw [hlen]; exact hf)
    exact ⟨_, he, hp⟩

/-- **C01** (error branch) With no or one particle there is no pair, and the call has undefined behaviour. -/
theorem C01_ub_below_two {R : Type} [LinearOrder R] (num : Nat) (hnum : num < 2) (r2 : Nat → Nat → R)
    (fuel : Nat) (res : Res (List Nat)) (hres : CalcChainIndex fuel num r2 res) : res = .ub := by
  obtain ⟨s, hs, rfl⟩ := hres
  have hd := distOk_of_sort hs
  match s, hd with
  | [], _ => rfl
  | n :: rest, hd =>
    have := hd.lt n List.mem_cons_self
    omega

/-- **C01** (existence) some outcome always exists: the pair list can be sorted. -/
theorem C01_outcome_exists {R : Type} [LinearOrder R] (num : Nat) (r2 : Nat → Nat → R) (fuel : Nat) :
    ∃ res, CalcChainIndex fuel num r2 res := by
  refine ⟨_, (createDistances num r2).mergeSort (fun a b => decide (a.r ≤ b.r)), ⟨List.mergeSort_perm _ _, ?_⟩, rfl⟩
  have := List.pairwise_mergeSort (le := fun a b : Node R => decide (a.r ≤ b.r))
    (by intro a b c h1 h2; simp only [decide_eq_true_eq] at *; exact le_trans h1 h2)
    (by intro a b; simp only [Bool.or_eq_true, decide_eq_true_eq]; exact le_total _ _)
    (createDistances num r2)
  exact this.imp (fun h => by simpa using h)

/-- Witness: four particles on a line at 0, 1, 4 and 6 (squared distances). -/
def lineR2 : Nat → Nat → Nat
  | 0, 1 => 1 | 2, 3 => 4 | 1, 2 => 9 | 0, 2 => 16 | 1, 3 => 25 | 0, 3 => 36 | _, _ => 0

/-- The sorted pair list of the witness. -/
def lineSorted : List (Node Nat) :=
  [⟨1, 0, 1, true⟩, ⟨4, 2, 3, true⟩, ⟨9, 1, 2, true⟩, ⟨16, 0, 2, true⟩, ⟨25, 1, 3, true⟩, ⟨36, 0, 3, true⟩]

theorem lineSorted_isSort : IsSortOf (createDistances 4 lineR2) lineSorted := by
  constructor
  · decide
  · decide

/-- Non-vacuity of C01: the witness meets the hypotheses and gives the index 3,0,1,2. -/
example : CalcChainIndex 49 4 lineR2 (.ok [3, 0, 1, 2]) ∧ enoughFuel (createDistances 4 lineR2).length ≤ 49 :=
  ⟨⟨lineSorted, lineSorted_isSort, by decide⟩, by decide⟩

/-- **C02** Cartesian → chain → Cartesian is the identity on the `n` particles (and writes nothing else), for every
permutation index. `c0`, `x0` are the previous contents of the output arrays. -/
theorem C02_cartesian_roundtrip {V : Type} [AddCommGroup V] (n : Nat) (hn : n ≠ 0) (idx : Arr Nat)
    (hi : IsIndex n idx) (cart c0 x0 : Arr V) :
    ∃ c x, toChain n cart c0 idx = .ok c ∧ toCartesian n c x0 idx = .ok x ∧
      (∀ k, k < n → x k = cart k) ∧ (∀ k, n ≤ k → x k = x0 k) := by
  obtain ⟨c, hc, hlink, hbase, _⟩ := toChain_spec hn cart c0 idx
  obtain ⟨x, hx, h0, hs, hout⟩ := toCartesian_spec hn c x0 idx hi
  refine ⟨c, x, hc, hx, ?_, hout⟩
  have key : ∀ i, i < n → x (idx i) = cart (idx i) := by
    intro i
    induction i with
    | zero => intro _; rw [h0, hbase]
    | succ i ih => intro h; rw [hs i h, ih (by omega), hlink i h]; abel
  intro k hk
  obtain ⟨i, hi', rfl⟩ := hi.surj hk
  exact key i hi'

/-- **C03** chain → Cartesian → chain is the identity on the `n` chain entries (and writes nothing else). -/
theorem C03_chain_roundtrip {V : Type} [AddCommGroup V] (n : Nat) (hn : n ≠ 0) (idx : Arr Nat)
    (hi : IsIndex n idx) (chain c0 x0 : Arr V) :
    ∃ x c, toCartesian n chain x0 idx = .ok x ∧ toChain n x c0 idx = .ok c ∧
      (∀ k, k < n → c k = chain k) ∧ (∀ k, n ≤ k → c k = c0 k) := by
  obtain ⟨x, hx, h0, hs, _⟩ := toCartesian_spec hn chain x0 idx hi
  obtain ⟨c, hc, hlink, hbase, hout⟩ := toChain_spec hn x c0 idx
  refine ⟨x, c, hx, hc, ?_, hout⟩
  intro k hk
  by_cases hk' : k + 1 < n
  · rw [hlink k hk', hs k hk']; abel
  · have : k = n - 1 := by omega
    subst this; rw [hbase, h0]

/-- What the two conversions compute, stated with the independent specification `BelongsTo`. -/
theorem C02_chain_belongs {V : Type} [AddCommGroup V] (n : Nat) (hn : n ≠ 0) (idx : Arr Nat) (cart c0 : Arr V) :
    ∃ c, toChain n cart c0 idx = .ok c ∧ BelongsTo n idx c cart := by
  obtain ⟨c, hc, hlink, hbase, _⟩ := toChain_spec hn cart c0 idx
  exact ⟨c, hc, hlink, hbase⟩

theorem C03_cartesian_belongs {V : Type} [AddCommGroup V] (n : Nat) (hn : n ≠ 0) (idx : Arr Nat)
    (hi : IsIndex n idx) (chain x0 : Arr V) :
    ∃ x, toCartesian n chain x0 idx = .ok x ∧ BelongsTo n idx chain x := by
  obtain ⟨x, hx, h0, hs, _⟩ := toCartesian_spec hn chain x0 idx hi
  refine ⟨x, hx, fun i h => ?_, h0.symm⟩
  rw [hs i h]; abel

/-- Non-vacuity of C02/C03: the reversal of three particles is an index, and the round trip moves real data. -/
example : IsIndex 3 (fun i => 2 - i) ∧
    toChain 3 (fun i => (i : Int) * i) (fun _ => 0) (fun i => 2 - i) ≠ .ub :=
  ⟨⟨by intro i h; omega, by intro i j h1 h2 h; omega⟩, by simp [toChain]⟩

/-- **C04** Re-indexing: if `chain` belongs to `cart` along the old index, `update_chain` returns exactly `n` entries,
and they are the chain coordinates of `cart` along the new index. -/
theorem C04_update_chain {V : Type} [AddCommGroup V] (n : Nat) (hn : n ≠ 0) (idx newIdx : Arr Nat)
    (hi : IsIndex n idx) (hi' : IsIndex n newIdx) (chain cart : Arr V) (hc : BelongsTo n idx chain cart) :
    ∃ l, updateChain n chain cart idx newIdx = .ok l ∧ l.length = n ∧
      ∀ d, BelongsTo n newIdx (fun i => l.getD i d) cart := by
  unfold updateChain
  rw [if_neg hn]
  refine ⟨_, rfl, by simp; omega, fun d => ⟨?_, ?_⟩⟩
  · intro i h
    have h1 := hi'.lt i (by omega)
    have h2 := hi'.lt (i + 1) h
    obtain ⟨p1, p2⟩ := findPos_spec hi h1
    obtain ⟨q1, q2⟩ := findPos_spec hi h2
    rw [List.getD_append _ _ _ _ (by simp; omega), List.getD_eq_getElem _ _ (by simp; omega)]
    simp only [List.getElem_map, List.getElem_range]
    rw [getNewNode_telescope (fun p => cart (idx p)) hc.link p1 q1, p2, q2]
    intro he
    rw [he, q2] at p2
    have := hi'.inj _ _ (by omega) (by omega) p2
    omega
  · rw [List.getD_append_right _ _ _ _ (by simp)]
    simp

/-- **C04** (equal to rebuilding) the re-indexed chain equals the chain built from the Cartesian coordinates. -/
theorem C04_update_eq_rebuild {V : Type} [AddCommGroup V] (n : Nat) (hn : n ≠ 0) (idx newIdx : Arr Nat)
    (hi : IsIndex n idx) (hi' : IsIndex n newIdx) (chain cart c0 : Arr V) (hc : BelongsTo n idx chain cart) :
    ∃ l c, updateChain n chain cart idx newIdx = .ok l ∧ toChain n cart c0 newIdx = .ok c ∧
      ∀ k d, k < n → l.getD k d = c k := by
  obtain ⟨l, hl, _, hb⟩ := C04_update_chain n hn idx newIdx hi hi' chain cart hc
  obtain ⟨c, hc, hlink, hbase, _⟩ := toChain_spec hn cart c0 newIdx
  refine ⟨l, c, hl, hc, fun k d hk => ?_⟩
  by_cases hk' : k + 1 < n
  · rw [hlink k hk']; exact (hb d).link k hk'
  · have : k = n - 1 := by omega
    subst this; rw [hbase]; exact (hb d).base

/-- Non-vacuity of C04: identity and reversal on three particles. -/
example : IsIndex 3 (fun i => i) ∧ IsIndex 3 (fun i => 2 - i) ∧
    ∃ chain : Arr Int, BelongsTo 3 (fun i => i) chain (fun i => (i : Int) * i + 1) :=
  ⟨⟨fun _ h => h, fun _ _ _ _ h => h⟩, ⟨by intro i h; omega, by intro i j h1 h2 h; omega⟩,
   (fun i => if i = 2 then 1 else ((i : Int) + 1) * (i + 1) - i * i),
   ⟨by intro i h; have : i = 0 ∨ i = 1 := by omega
       rcases this with rfl | rfl <;> simp, by simp⟩⟩

/-- **C05** (full claim, refuted) It is *not* the case that the chain index is always a greedy nearest-neighbour chain:
for particles at 0, 1, 4, 6 on a line the code returns 3,0,1,2 - it links the two particles farthest apart. -/
theorem C05_not_greedy :
    ¬ ∀ (num fuel : Nat) (r2 : Nat → Nat → Nat) (l : List Nat), 2 ≤ num →
      CalcChainIndex fuel num r2 (.ok l) → Greedy num r2 (fun _ _ => True) l := by
  intro h
  have h1 := h 4 49 lineR2 [3, 0, 1, 2] (by decide) ⟨lineSorted, lineSorted_isSort, by decide⟩
  rcases greedy_inv h1 with ⟨i, j, he, _⟩ | ⟨a, v, l, b, he, hl, hb, hv, hmin⟩ | ⟨a, v, l, b, he, hl, hb, hv, hmin⟩
  · simp at he
  · simp only [List.cons.injEq] at he
    obtain ⟨rfl, rfl, rfl⟩ := he
    simp at hb
    subst hb
    have := hmin 2 3 (Or.inr rfl) (by decide) (by decide) trivial
    simp [lineR2] at this
  · obtain ⟨rfl, he'⟩ := snoc_inj (L := [3, 0, 1]) he
    rw [he'] at hl
    rcases greedy_inv hl with ⟨i, j, he, _⟩ | ⟨a, v, l, b, he, hl, hb, hv, hmin⟩ | ⟨a, v, l, b, he, hl, hb, hv, hmin⟩
    · simp at he
    · simp only [List.cons.injEq] at he
      obtain ⟨rfl, rfl, rfl⟩ := he
      simp at hb
      subst hb
      have := hmin 1 2 (Or.inr rfl) (by decide) (by decide) trivial
      simp [lineR2] at this
    · obtain ⟨rfl, he'⟩ := snoc_inj (L := [3, 0]) he
      rw [he'] at hl
      rcases greedy_inv hl with ⟨i, j, he, hij⟩ | ⟨a, v, l, b, he, hl, -⟩ | ⟨a, v, l, b, he, hl, -⟩
      · simp only [List.cons.injEq] at he; omega
      · have h2 := greedy_two_le hl
        have := congrArg List.length he
        simp only [List.length_cons, List.length_nil] at this h2; omega
      · have h2 := greedy_two_le hl
        have := congrArg List.length he
        simp only [List.length_cons, List.length_append, List.length_nil] at this h2; omega

/-- **C05** (partial 1) The closest pair are always neighbours in the chain, and every link is a shortest usable one
when the second-shortest pair of the sorted list is left out of consideration. -/
theorem C05_greedy_partial {R : Type} [LinearOrder R] (num : Nat) (r2 : Nat → Nat → R)
    (n m : Node R) (rest : List (Node R)) (hs : IsSortOf (createDistances num r2) (n :: m :: rest))
    (fuel : Nat) (hf : enoughFuel (n :: m :: rest).length ≤ fuel) :
    ∃ l, createIndex fuel num (n :: m :: rest) = .ok l ∧ [n.i, n.j] <:+: l ∧
      (∀ a b, a < b → b < num → r2 n.i n.j ≤ r2 a b) ∧
      Greedy num r2 (fun e w => ¬ ((m.i = e ∧ m.j = w) ∨ (m.j = e ∧ m.i = w))) l := by
  obtain ⟨l, hl, hg, hin⟩ := createIndex_greedy
    (ok := fun e w => ¬ ((m.i = e ∧ m.j = w) ∨ (m.j = e ∧ m.i = w))) hs
    (by intro m' hm'; simp at hm'; subst hm'; exact Or.inr fun e w h => h) fuel hf
  refine ⟨l, hl, hin, ?_, hg⟩
  intro a b hab hb
  have hn := pair_of_sorted hs List.mem_cons_self
  obtain ⟨m', hm, h1, h2⟩ := (distOk_of_sort hs).all a b hab hb
  have hm' := pair_of_sorted hs hm
  obtain ⟨p, hp⟩ := List.mem_iff_getElem?.1 hm
  have := sorted_le hs.2 (Nat.zero_le p) (List.getElem?_cons_zero) hp
  rw [← hn.2.2.1, ← h1, ← h2, ← hm'.2.2.1]; exact this

/-- **C05** (partial 2) When the two shortest pairs have a particle in common, the chain is fully greedy. -/
theorem C05_greedy_of_share_partial {R : Type} [LinearOrder R] (num : Nat) (r2 : Nat → Nat → R)
    (n m : Node R) (rest : List (Node R)) (hs : IsSortOf (createDistances num r2) (n :: m :: rest))
    (hshare : m.i = n.i ∨ m.i = n.j ∨ m.j = n.i ∨ m.j = n.j)
    (fuel : Nat) (hf : enoughFuel (n :: m :: rest).length ≤ fuel) :
    ∃ l, createIndex fuel num (n :: m :: rest) = .ok l ∧ Greedy num r2 (fun _ _ => True) l := by
  obtain ⟨l, hl, hg, _⟩ := createIndex_greedy (ok := fun _ _ => True) hs
    (by intro m' hm'; simp at hm'; subst hm'; exact Or.inl hshare) fuel hf
  exact ⟨l, hl, hg⟩

/-- **C05** (partial 3) With two or three particles the chain is always fully greedy. -/
theorem C05_greedy_le_three_partial {R : Type} [LinearOrder R] (num : Nat) (h2 : 2 ≤ num) (h3 : num ≤ 3)
    (r2 : Nat → Nat → R) (fuel : Nat) (hf : enoughFuel (createDistances num r2).length ≤ fuel)
    (res : Res (List Nat)) (hres : CalcChainIndex fuel num r2 res) :
    ∃ l, res = .ok l ∧ Greedy num r2 (fun _ _ => True) l := by
  obtain ⟨s, hs, rfl⟩ := hres
  have hlen : s.length = (createDistances num r2).length := hs.1.length_eq
  match s, hs, hlen with
  | [], hs, _ =>
    obtain ⟨m, hm, _⟩ := (distOk_of_sort hs).all 0 1 (by omega) (by omega)
    cases hm
  | n :: rest, hs, hlen =>
    obtain ⟨l, hl, hg, _⟩ := createIndex_greedy (ok := fun _ _ => True) hs
      (by
        intro m hm
        left
        have h1 := pair_of_sorted hs List.mem_cons_self
        have h2 := pair_of_sorted hs (List.mem_cons_of_mem _ (List.mem_of_getElem? hm))
        unfold Share
        omega) fuel (by rw [hlen]; exact hf)
    exact ⟨l, hl, hg⟩

/-- Non-vacuity of the partial theorems: the witness itself, and a line 0, 1, 3, 6 where the two shortest pairs share
particle 1. -/
example : IsSortOf (createDistances 4 lineR2) lineSorted ∧ enoughFuel lineSorted.length ≤ 49 :=
  ⟨lineSorted_isSort, by decide⟩

example : IsSortOf (createDistances 3 (fun i j => (j * j - i * i) * (j * j - i * i)))
    [⟨1, 0, 1, true⟩, ⟨9, 1, 2, true⟩, ⟨16, 0, 2, true⟩] := ⟨by decide, by decide⟩

end SpaceHub.Chain
