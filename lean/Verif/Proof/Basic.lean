import Verif.Spec.Chain
import Mathlib.Data.List.Range
import Mathlib.Data.Finset.Range
import Mathlib.Data.Finset.Card
import Mathlib.Data.Finset.Image

set_option autoImplicit false

namespace SpaceHub

variable {σ α : Type _}

theorem forLoop_self (lo hi : Nat) (h : hi ≤ lo) (b : Nat → σ → σ) (s : σ) : forLoop lo hi b s = s := by
  unfold forLoop
  rw [Nat.sub_eq_zero_of_le h]; rfl

theorem forLoop_succ (lo hi : Nat) (h : lo ≤ hi) (b : Nat → σ → σ) (s : σ) :
    forLoop lo (hi + 1) b s = b hi (forLoop lo hi b s) := by
  unfold forLoop
  have : hi + 1 - lo = (hi - lo) + 1 := by omega
  rw [this, List.range'_concat, List.foldl_append]
  simp only [List.foldl_cons, List.foldl_nil]
  congr 1
  omega

/-- Loop invariant rule. -/
theorem forLoop_inv (P : Nat → σ → Prop) (lo hi : Nat) (h : lo ≤ hi) (b : Nat → σ → σ) (s : σ)
    (h0 : P lo s) (hs : ∀ i t, lo ≤ i → i < hi → P i t → P (i + 1) (b i t)) : P hi (forLoop lo hi b s) := by
  induction hi with
  | zero =>
    have : lo = 0 := by omega
    subst this
    rw [forLoop_self _ _ (le_refl _)]; exact h0
  | succ n ih =>
    rcases Nat.lt_or_ge n lo with hlt | hge
    · have : lo = n + 1 := by omega
      subst this; rw [forLoop_self _ _ (le_refl _)]; exact h0
    · rw [forLoop_succ _ _ hge]
      exact hs n _ hge (by omega) (ih hge (fun i t h1 h2 => hs i t h1 (by omega)))

@[simp] theorem Arr.set_same (a : Arr α) (i : Nat) (v : α) : a.set i v i = v := by simp [Arr.set]
theorem Arr.set_other (a : Arr α) (i k : Nat) (v : α) (h : k ≠ i) : a.set i v k = a k := by simp [Arr.set, h]

theorem IsIndex.surj {n : Nat} {idx : Arr Nat} (h : IsIndex n idx) {k : Nat} (hk : k < n) :
    ∃ i, i < n ∧ idx i = k := by
  have hinj : Set.InjOn idx (Finset.range n : Set Nat) := by
    intro a ha b hb hab
    simp only [Finset.coe_range, Set.mem_Iio] at ha hb
    exact h.inj a b ha hb hab
  have hsub : (Finset.range n).image idx ⊆ Finset.range n := by
    intro x hx
    obtain ⟨a, ha, rfl⟩ := Finset.mem_image.1 hx
    exact Finset.mem_range.2 (h.lt a (Finset.mem_range.1 ha))
  have heq : (Finset.range n).image idx = Finset.range n :=
    Finset.eq_of_subset_of_card_le hsub (by rw [Finset.card_image_of_injOn hinj])
  have : k ∈ (Finset.range n).image idx := by rw [heq]; exact Finset.mem_range.2 hk
  obtain ⟨a, ha, e⟩ := Finset.mem_image.1 this
  exact ⟨a, Finset.mem_range.1 ha, e⟩

end SpaceHub
