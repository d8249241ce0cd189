/-
Shared vocabulary of the model: outcomes, counted loops, arrays.
-/

set_option autoImplicit false

namespace SpaceHub

/-- Outcome of a call.
* `ok a`   : the call returns and produces `a`;
* `abort`  : `spacehub_abort` (src/dev-tools.hpp:56-74: print a message and `exit(0)`);
* `ub`     : undefined behaviour in the C++ source (out-of-bounds access, `x % 0`, loop bound that
             wraps around `size_t`, ...);
* `nan`    : a regularised time step was divided by zero, after which the source computes with inf/NaN;
* `diverge`: the call was observed for the given amount of fuel without returning. -/
inductive Res (α : Type _) where
  | ok (a : α)
  | abort
  | ub
  | nan
  | diverge
  deriving DecidableEq, Repr

namespace Res
/-- Sequencing of calls: a call that does not return normally ends the sequence. -/
def bind {α β : Type _} (x : Res α) (f : α → Res β) : Res β :=
  match x with
  | ok a => f a
  | abort => abort
  | ub => ub
  | nan => nan
  | diverge => diverge

instance : Monad Res where
  pure := ok
  bind := bind
end Res

/-- The C++ loop `for (size_t i = lo; i < hi; ++i) s = body(i, s);`. -/
def forLoop {σ : Type _} (lo hi : Nat) (body : Nat → σ → σ) (s : σ) : σ :=
  (List.range' lo (hi - lo)).foldl (fun s i => body i s) s

/-- A C++ array/`std::vector` in memory: a total map from indices to values; its length is passed
separately.  What lies at or beyond the length is foreign memory: theorems about writes state that it is
left unchanged. -/
abbrev Arr (α : Type _) := Nat → α

/-- `a[i] = v`. -/
def Arr.set {α : Type _} (a : Arr α) (i : Nat) (v : α) : Arr α := fun k => if k = i then v else a k

end SpaceHub
