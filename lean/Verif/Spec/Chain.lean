import Verif.Model.Basic

/-
Specification vocabulary for chains, independent of the model of chain.hpp.
-/

set_option autoImplicit false

namespace SpaceHub

/-- `idx` restricted to `0..n-1` is a permutation of `0..n-1`. -/
structure IsIndex (n : Nat) (idx : Arr Nat) : Prop where
  lt : ∀ i, i < n → idx i < n
  inj : ∀ i j, i < n → j < n → idx i = idx j → i = j

/-- `chain` holds the chain coordinates of the Cartesian coordinates `cart` along `idx`: entry `i` is the vector
from the `i`-th to the `(i+1)`-th particle of the chain, and the last entry is the first particle's coordinate. -/
structure BelongsTo {V : Type} [Sub V] (n : Nat) (idx : Arr Nat) (chain cart : Arr V) : Prop where
  link : ∀ i, i + 1 < n → chain i = cart (idx (i + 1)) - cart (idx i)
  base : chain (n - 1) = cart (idx 0)

/-- Chains that a greedy nearest-neighbour construction on `num` particles may produce, when only the pairs
`(e, v)` with `ok e v` may be used for extending.  `r2` gives the squared distance of two particles, the smaller
label first (distances are symmetric). -/
inductive Greedy {R : Type} [LE R] (num : Nat) (r2 : Nat → Nat → R) (ok : Nat → Nat → Prop) : List Nat → Prop
  /-- start from a closest pair -/
  | start (i j : Nat) (hij : i < j) (hj : j < num)
      (h : ∀ a b, a < b → b < num → r2 i j ≤ r2 a b) : Greedy num r2 ok [i, j]
  /-- prepend `v`: no unused particle `w` is closer to either end than `v` is to the first -/
  | front (a v : Nat) (l : List Nat) (b : Nat) (hl : Greedy num r2 ok (a :: l)) (hb : (a :: l).getLast? = some b)
      (hv : v ∉ a :: l) (hvn : v < num)
      (h : ∀ e w, (e = a ∨ e = b) → w < num → w ∉ a :: l → ok e w →
        r2 (min a v) (max a v) ≤ r2 (min e w) (max e w)) : Greedy num r2 ok (v :: a :: l)
  /-- append `v`: no unused particle `w` is closer to either end than `v` is to the last -/
  | back (a v : Nat) (l : List Nat) (b : Nat) (hl : Greedy num r2 ok (a :: l)) (hb : (a :: l).getLast? = some b)
      (hv : v ∉ a :: l) (hvn : v < num)
      (h : ∀ e w, (e = a ∨ e = b) → w < num → w ∉ a :: l → ok e w →
        r2 (min b v) (max b v) ≤ r2 (min e w) (max e w)) : Greedy num r2 ok (a :: l ++ [v])

end SpaceHub
