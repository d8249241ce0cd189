import Verif.Model.SmallVector

/-
What a program that uses `SmallVector`s means: each name stands for a list.  A call that breaks the rules of the interface (an element that does not exist, a name that is
taken or free) has no meaning.
-/

set_option autoImplicit false

namespace SpaceHub.SV.Spec

variable {T : Type}

/-- the lists by name; no list where there is no vector -/
abbrev Lists (T : Type) := Nat → Option (List T)

/-- another list under a name -/
def put (σ : Lists T) (k : Nat) (L : Option (List T)) : Lists T := fun j => if j = k then L else σ j

/-- a call on an existing vector, which may be refused -/
def on (σ : Lists T) (k : Nat) (f : List T → Option (List T)) : Option (Lists T) :=
  match σ k with
  | some L => (f L).map fun L' => put σ k (some L')
  | none => none

/-- a constructor, under a new name -/
def new (σ : Lists T) (k : Nat) (L : List T) : Option (Lists T) :=
  match σ k with
  | some _ => none
  | none => some (put σ k (some L))

/-- a call on two existing vectors -/
def on2 (σ : Lists T) (k l : Nat) (f : List T → List T → List T × List T) : Option (Lists T) :=
  match σ k, σ l with
  | some L, some K => some (if k = l then σ else put (put σ l (some (f L K).2)) k (some (f L K).1))
  | _, _ => none

/-- the calls on lists -/
def step (σ : Lists T) : Op T → Option (Lists T)
  | .create k _ => new σ k []
  | .createFill k _ n x => new σ k (List.replicate n x)
  | .createList k _ xs => new σ k xs
  | .createCopy k _ l =>
    match σ l with
    | some K => new σ k K
    | none => none
  | .createMove k _ l =>
    match σ k, σ l with
    | none, some K => some (put (put σ l (some [])) k (some K))
    | _, _ => none
  | .destroy k =>
    match σ k with
    | some _ => some (put σ k none)
    | none => none
  | .push k x => on σ k fun L => some (L ++ [x])
  | .pop k => on σ k fun L => if L = [] then none else some L.dropLast
  | .popVal k => on σ k fun L => if L = [] then none else some L.dropLast
  | .clear k => on σ k fun _ => some []
  | .resize k n x => on σ k fun L => some (L.take n ++ List.replicate (n - L.length) x)
  | .reserve k _ => on σ k fun L => some L
  | .appendList k xs => on σ k fun L => some (L ++ xs)
  | .appendFill k n x => on σ k fun L => some (L ++ List.replicate n x)
  | .assignFill k n x => on σ k fun _ => some (List.replicate n x)
  | .assignList k xs => on σ k fun _ => some xs
  | .erase k i => on σ k fun L => if i < L.length then some (L.eraseIdx i) else none
  | .eraseRange k i j => on σ k fun L => if i ≤ j ∧ j ≤ L.length then some (L.take i ++ L.drop j) else none
  | .insert k i x => on σ k fun L => if i ≤ L.length then some (L.take i ++ [x] ++ L.drop i) else none
  | .insertFill k i n x => on σ k fun L => if i ≤ L.length then some (L.take i ++ List.replicate n x ++ L.drop i) else none
  | .insertList k i xs => on σ k fun L => if i ≤ L.length then some (L.take i ++ xs ++ L.drop i) else none
  | .swap k l => on2 σ k l fun L K => (K, L)
  | .copy k l => on2 σ k l fun _ K => (K, K)
  | .move k l => on2 σ k l fun _ K => (K, [])

/-- a program on lists -/
def run (σ : Lists T) : List (Op T) → Option (Lists T)
  | [] => some σ
  | o :: os =>
    match step σ o with
    | some σ' => run σ' os
    | none => none

end SpaceHub.SV.Spec
