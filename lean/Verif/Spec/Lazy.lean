import Verif.Model.Lazy

/-
What an assignment of an expression should do: all elements of the result are computed from the values before the assignment.
-/

set_option autoImplicit false

namespace SpaceHub.Lazy.Spec
open SpaceHub SpaceHub.Lazy

/-- the elements of arrays that an expression reads for its element `i` -/
def reads {K : Type _} : Ex K → Nat → List (Nat × Nat)
  | .arr a, i => [(a, i)]
  | .slice a b s n, i => [(a, sliceIndex b s n i)]
  | .ref a k, _ => [(a, k)]
  | .num _, _ => []
  | .un _ e, i => reads e i
  | .bin _ e1 e2, i => reads e1 i ++ reads e2 i

/-- All arrays after `v = expression` if all elements are computed before the first is stored. -/
structure Assigned {K : Type _} (len v : Nat) (value : Nat → K) (M M' : Mem K) : Prop where
  elements : ∀ i, i < len → M' v i = value i
  rest : ∀ i, len ≤ i → M' v i = M v i
  others : ∀ a, a ≠ v → ∀ i, M' a i = M a i

end SpaceHub.Lazy.Spec
