import Verif.Model.Chain
import Verif.Proof.Basic
import Mathlib.Algebra.Group.Basic
import Mathlib.Tactic.Abel
import Mathlib.Data.List.GetD

set_option autoImplicit false

namespace SpaceHub.Chain
open SpaceHub

variable {V : Type} [AddCommGroup V]

/-- Closed form of `toChain`. -/
theorem toChain_spec {n : Nat} (hn : n ≠ 0) (cart chain : Arr V) (idx : Arr Nat) :
    ∃ c, toChain n cart chain idx = .ok c ∧
      (∀ i, i + 1 < n → c i = cart (idx (i + 1)) - cart (idx i)) ∧ c (n - 1) = cart (idx 0) ∧
      ∀ k, n ≤ k → c k = chain k := by
  unfold toChain
  rw [if_neg hn]
  refine ⟨_, rfl, ?_⟩
  have := forLoop_inv (σ := Arr V) (fun m c =>
      (∀ i, i < m → c i = cart (idx (i + 1)) - cart (idx i)) ∧ (c (n - 1) = cart (idx 0)) ∧
      ∀ k, n ≤ k → c k = chain k) 0 (n - 1) (by omega)
      (fun i c => c.set i (cart (idx (i + 1)) - cart (idx i))) (chain.set (n - 1) (cart (idx 0)))
      ⟨fun i hi => by omega, by simp, fun k hk => Arr.set_other _ _ _ _ (by omega)⟩
      (by
        rintro i t _ hi ⟨h1, h2, h3⟩
        refine ⟨fun p hp => ?_, ?_, fun k hk => ?_⟩
        · by_cases hpi : p = i
          · subst hpi; simp
          · rw [Arr.set_other _ _ _ _ hpi]; exact h1 p (by omega)
        · rw [Arr.set_other _ _ _ _ (by omega)]; exact h2
        · rw [Arr.set_other _ _ _ _ (by omega)]; exact h3 k hk)
  exact ⟨fun i hi => this.1 i (by omega), this.2⟩

/-- Characterisation of `toCartesian`. -/
theorem toCartesian_spec {n : Nat} (hn : n ≠ 0) (chain cart : Arr V) (idx : Arr Nat) (hi : IsIndex n idx) :
    ∃ c, toCartesian n chain cart idx = .ok c ∧ c (idx 0) = chain (n - 1) ∧
      (∀ i, i + 1 < n → c (idx (i + 1)) = c (idx i) + chain i) ∧ ∀ k, n ≤ k → c k = cart k := by
  unfold toCartesian
  rw [if_neg hn]
  refine ⟨_, rfl, ?_⟩
  have := forLoop_inv (σ := Arr V) (fun m c =>
      c (idx 0) = chain (n - 1) ∧
      (∀ i, i + 1 < m → c (idx (i + 1)) = c (idx i) + chain i) ∧ ∀ k, n ≤ k → c k = cart k) 1 n (by omega)
      (fun i c => c.set (idx i) (c (idx (i - 1)) + chain (i - 1))) (cart.set (idx 0) (chain (n - 1)))
      ⟨by simp, fun i hi => by omega, fun k hk => Arr.set_other _ _ _ _ (by have := hi.lt 0 (by omega); omega)⟩
      (by
        rintro i t h0 hin ⟨h1, h2, h3⟩
        have hne : ∀ p, p < i → idx p ≠ idx i := fun p hp he => by
          have := hi.inj p i (by omega) hin he; omega
        refine ⟨?_, fun p hp => ?_, fun k hk => ?_⟩
        · rw [Arr.set_other _ _ _ _ (hne 0 (by omega))]; exact h1
        · by_cases hpi : p + 1 = i
          · subst hpi
            rw [Arr.set_same, Arr.set_other _ _ _ _ (hne p (by omega))]; simp
          · rw [Arr.set_other _ _ _ _ (hne (p + 1) (by omega)), Arr.set_other _ _ _ _ (hne p (by omega))]
            exact h2 p (by omega)
        · rw [Arr.set_other _ _ _ _ (by have := hi.lt i hin; omega)]; exact h3 k hk)
  exact this

theorem findPos_spec {n : Nat} {idx : Arr Nat} (hi : IsIndex n idx) {v : Nat} (hv : v < n) :
    findPos n idx v < n ∧ idx (findPos n idx v) = v := by
  unfold findPos
  cases h : (List.range n).find? (fun p => decide (idx p = v)) with
  | none =>
    exfalso
    obtain ⟨p, hp, he⟩ := hi.surj hv
    have := List.find?_eq_none.1 h p (List.mem_range.2 hp)
    simp [he] at this
  | some p =>
    have h1 := List.find?_some h
    have h2 := List.mem_of_find?_eq_some h
    simp only [Option.getD_some]
    exact ⟨List.mem_range.1 h2, by simpa using h1⟩

/-- `get_new_node` telescopes. -/
theorem getNewNode_telescope {n : Nat} {chain : Arr V} (x : Arr V)
    (hc : ∀ i, i + 1 < n → chain i = x (i + 1) - x i) {a b : Nat} (ha : a < n) (hb : b < n) (hab : a ≠ b) :
    getNewNode chain a b = x b - x a := by
  unfold getNewNode
  by_cases h : a > b
  · rw [if_pos h]
    have := forLoop_inv (σ := V) (fun m d => d = x b - x m) (b + 1) a (by omega) (fun j d => d - chain j) (-(chain b))
      (by rw [hc b (by omega)]; abel)
      (by
        rintro i t h1 h2 rfl
        rw [hc i (by omega)]; abel)
    exact this
  · rw [if_neg h]
    have := forLoop_inv (σ := V) (fun m d => d = x m - x a) (a + 1) b (by omega) (fun j d => d + chain j) (chain a)
      (by rw [hc a (by omega)])
      (by
        rintro i t h1 h2 rfl
        rw [hc i (by omega)]; abel)
    exact this

/-- A list that is a permutation of `0..n-1`, as an array, is an index. -/
theorem isIndex_ofList {n : Nat} {l : List Nat} (h : l.Perm (List.range n)) : IsIndex n (ofList l) := by
  have hlen : l.length = n := by simpa using h.length_eq
  have hnd : l.Nodup := h.nodup_iff.2 List.nodup_range
  constructor
  · intro i hi
    unfold ofList
    rw [List.getD_eq_getElem _ _ (by omega)]
    exact List.mem_range.1 (h.mem_iff.1 (List.getElem_mem _))
  · intro i j hi hj he
    unfold ofList at he
    rw [List.getD_eq_getElem _ _ (by omega), List.getD_eq_getElem _ _ (by omega)] at he
    exact (List.Nodup.getElem_inj_iff hnd).1 he

end SpaceHub.Chain
