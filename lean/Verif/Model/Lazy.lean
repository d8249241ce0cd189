import Verif.Model.Basic
import Mathlib.Data.Int.Basic

/-
Model of the lazily evaluated arrays: lazy-evaluation/lazy_expr.h, slice.h, lazy_array.h (arrays small enough for the single-threaded version) and
vector/lazy-vec3.h.

An expression keeps references to its operands and computes its elements when it is assigned, one after the other.  Simplifications: numbers of a type `K`;
references to temporaries that no longer exist (an expression stored with `auto`) are not modelled; the multi-threaded version for longer arrays does not
compile (`multi_threads_loop` is not declared in its scope).
-/

set_option autoImplicit false

namespace SpaceHub.Lazy

/-- All arrays of the program: `M a i` is element `i` of the array with the name `a`. -/
abbrev Mem (K : Type _) := Nat → Nat → K

/-- `M a i = v`. -/
def Mem.set {K : Type _} (M : Mem K) (a i : Nat) (v : K) : Mem K := fun b j => if b = a ∧ j = i then v else M b j

/-- Index of element `i` of a slice of an array of `size` elements, slice.h:61 `(Begin + SrcSize + i * Stride) % SrcSize`: `SrcSize` and `i` are
`size_t`, so that the sum is computed modulo 2^64. -/
def sliceIndex (begin stride : Int) (size i : Nat) : Nat := ((begin + size + i * stride) % 2 ^ 64 % size).toNat

/-- Number of elements of a slice, slice.h:22-37 `constexpr_slice_len` (for sizes below 2^31, as the conversion to `int` requires). -/
def sliceLen (begin end_ stride : Int) (size : Nat) : Nat :=
  let b := if begin > 0 then begin else size + begin
  let e := if end_ > 0 then end_ else size + end_
  if stride > 0 ∧ e > b then 1 + (e - b).toNat
  else if stride > 0 ∧ e < b then 1 + (e - b + size).toNat
  else if stride < 0 ∧ e > b then 1 + (size + b - e).toNat
  else if stride < 0 ∧ e < b then 1 + (b - e).toNat
  else 1

/-- An expression.
* `arr a`: an array (lazy_array.h:122 `eval(i)` is `data_[i]`, lazy-vec3.h:48);
* `slice a begin stride size`: `a[slice(begin, end, stride)]` of an array of `size` elements (slice.h:61);
* `ref a k`: a number stored in an element of an array, e.g. `v.x` (lazy_expr.h:21-24: a number is kept by reference and read at every evaluation);
* `num c`: any other number;
* `un f e`, `bin f e1 e2`: lazy_expr.h:26-56. -/
inductive Ex (K : Type _) where
  | arr (a : Nat)
  | slice (a : Nat) (begin stride : Int) (size : Nat)
  | ref (a k : Nat)
  | num (c : K)
  | un (f : K → K) (e : Ex K)
  | bin (f : K → K → K) (e1 e2 : Ex K)

/-- Element `i` of an expression now: lazy_expr.h:16-24 (`eval_at`), 35-38, 51-55, slice.h:61. -/
def Ex.eval {K : Type _} (M : Mem K) : Ex K → Nat → K
  | .arr a, i => M a i
  | .slice a b s n, i => M a (sliceIndex b s n i)
  | .ref a k, _ => M a k
  | .num c, _ => c
  | .un f e, i => f (e.eval M i)
  | .bin f e1 e2, i => f (e1.eval M i) (e2.eval M i)

/-- `v = expression` for `len` elements: lazy_array.h:140-147 and lazy-vec3.h:57-64 (`len = 3`). -/
def assign {K : Type _} (len v : Nat) (e : Ex K) (M : Mem K) : Mem K := forLoop 0 len (fun i M => M.set v i (e.eval M i)) M

/-- `v += expression` and the like: lazy-vec3.h:66-100, `op` the operation. -/
def update {K : Type _} (op : K → K → K) (v : Nat) (e : Ex K) (M : Mem K) : Mem K := forLoop 0 3 (fun i M => M.set v i (op (M v i) (e.eval M i))) M

/-- Assignment of a number to a slice: slice.h:54-59. -/
def fillSlice {K : Type _} (v : Nat) (begin end_ stride : Int) (size : Nat) (c : K) (M : Mem K) : Mem K :=
  forLoop 0 (sliceLen begin end_ stride size) (fun i M => M.set v (sliceIndex begin stride size i) c) M

/-- Smallest and largest element: lazy_array.h:149-163 (`better` is `<` or `>`). -/
def extreme {K : Type _} (better : K → K → Bool) (len v : Nat) (M : Mem K) : K :=
  forLoop 1 len (fun i m => if better (M v i) m then M v i else m) (M v 0)

end SpaceHub.Lazy
