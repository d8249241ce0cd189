import Verif.Model.Basic

/-
Model of `llvm::SmallVector` (src/small-vector.hpp), the container behind `hub::Types::ScalarArray` and `VectorArray` (src/type-class.hpp:35-38, 55, 92-94), at the
level of memory: blocks of cells, construction, destruction, moves, `malloc`, `realloc` and `free`.

Simplifications: pointers are pairs (block, index); `BeginX` always points to the start of a block, `EndX` and `CapacityX` are given by their distance from it; sizes do
not overflow; `malloc` never fails (it would abort); constructors of the element type do not throw.  Iterators that point into the vector are given as indices.
Ranges handed to `append`, `assign` and `insert` are lists of values that do not lie in the vector.  `erase` of an empty range moves elements onto themselves, which the
model lets keep their values.  Only `operator<`, `set_size` and the `raw_ostream`-like extras are left out.
-/

set_option autoImplicit false

namespace SpaceHub.SV

/-- A place for an element: unconstructed storage, an element, or an element that was moved from (its value is unspecified; the model treats reading it as undefined). -/
inductive Cell (T : Type) where
  | raw
  | val (x : T)
  | husk
  deriving DecidableEq

/-- A block of storage: the inline buffer of a vector (small-vector.hpp:478-480, 1212-1225), or what `malloc` returned. -/
structure Block (T : Type) where
  len : Nat
  cells : Nat → Cell T

/-- The memory: the blocks in use, and the number of the next new block. -/
structure Mem (T : Type) where
  next : Nat
  blocks : Nat → Option (Block T)

variable {T : Type}

/-- the memory with another block at `b` -/
def Mem.set (m : Mem T) (b : Nat) (B : Option (Block T)) : Mem T := { m with blocks := fun c => if c = b then B else m.blocks c }

/-- The cell a pointer refers to; undefined outside a block in use. -/
def Mem.get (m : Mem T) (b i : Nat) : Res (Cell T) :=
  match m.blocks b with
  | some B => if i < B.len then .ok (B.cells i) else .ub
  | none => .ub

/-- Writing a cell. -/
def Mem.put (m : Mem T) (b i : Nat) (c : Cell T) : Res (Mem T) :=
  match m.blocks b with
  | some B => if i < B.len then .ok (m.set b (some ⟨B.len, fun j => if j = i then c else B.cells j⟩)) else .ub
  | none => .ub

/-- Reading an element. -/
def Mem.read (m : Mem T) (b i : Nat) : Res T := do
  match ← m.get b i with
  | .val x => .ok x
  | _ => .ub

/-- `malloc`: a new block of unconstructed cells. -/
def Mem.malloc (m : Mem T) (n : Nat) : Mem T × Nat :=
  (⟨m.next + 1, fun c => if c = m.next then some ⟨n, fun _ => .raw⟩ else m.blocks c⟩, m.next)

/-- is a cell unconstructed -/
def Cell.isRaw : Cell T → Bool
  | .raw => true
  | _ => false

/-- A `const T &` argument: an object outside of all vectors, or an element in memory. -/
inductive Ref (T : Type) where
  | ext (x : T)
  | at (b i : Nat)

/-- The value of a reference when it is read. -/
def Ref.get (r : Ref T) (m : Mem T) : Res T :=
  match r with
  | .ext x => .ok x
  | .at b i => m.read b i

/-- A vector object, small-vector.hpp:448-453 and 478-480: its inline buffer, the block of its elements, and the distances of `EndX` and `CapacityX` from `BeginX`. -/
structure Vec where
  inl : Nat
  beg : Nat
  size : Nat
  cap : Nat
  deriving DecidableEq

/-- `isSmall`, small-vector.hpp:495. -/
def Vec.isSmall (v : Vec) : Bool := v.beg == v.inl

/-- `resetToSmall`, small-vector.hpp:498. -/
def Vec.resetToSmall (v : Vec) : Vec := { v with beg := v.inl, size := 0, cap := 0 }

/-- `NextPowerOf2`, small-vector.hpp:346-354, without overflow. -/
def nextPowerOf2 (a : Nat) : Nat :=
  let a := a ||| (a >>> 1)
  let a := a ||| (a >>> 2)
  let a := a ||| (a >>> 4)
  let a := a ||| (a >>> 8)
  let a := a ||| (a >>> 16)
  let a := a ||| (a >>> 32)
  a + 1

section
/- `isPodLike<T>`, small-vector.hpp:367-381: trivially copyable element types take the second set of primitives (660-708). -/
variable (pod : Bool)

/-- Placement `new`, or `memcpy` for trivially copyable elements; constructing over a living element would lose it. -/
def construct (m : Mem T) (b i : Nat) (x : T) : Res (Mem T) := do
  let c ← m.get b i
  if pod || c.isRaw then m.put b i (.val x) else .ub

/-- Assignment to an element. -/
def assignAt (m : Mem T) (b i : Nat) (x : T) : Res (Mem T) := do
  let c ← m.get b i
  if pod || !c.isRaw then m.put b i (.val x) else .ub

/-- Destruction of an element, which trivially copyable ones do not need. -/
def destroyAt (m : Mem T) (b i : Nat) : Res (Mem T) :=
  if pod then .ok m
  else do
    let c ← m.get b i
    if c.isRaw then .ub else m.put b i .raw

/-- Moving out of an element, which for trivially copyable ones is copying. -/
def moveOut (m : Mem T) (b i : Nat) : Res (T × Mem T) := do
  let x ← m.read b i
  if pod then .ok (x, m)
  else do
    let m ← m.put b i .husk
    .ok (x, m)

/-- `free`; the elements must have been destroyed. -/
def free (m : Mem T) (b : Nat) : Res (Mem T) :=
  match m.blocks b with
  | some B => if pod || (List.range B.len).all (fun i => (B.cells i).isRaw) then .ok (m.set b none) else .ub
  | none => .ub

/-- `realloc` of a block of trivially copyable elements: a new block with the contents of the old one, which is released. -/
def realloc (m : Mem T) (b n : Nat) : Res (Mem T × Nat) :=
  match m.blocks b with
  | some B =>
    let m := m.set b none
    .ok (⟨m.next + 1, fun c => if c = m.next then some ⟨n, fun i => if i < B.len then B.cells i else .raw⟩ else m.blocks c⟩, m.next)
  | none => .ub

/-- `destroy_range`, small-vector.hpp:587-592 and 665: `n` elements from `s` on, the last one first. -/
def destroyRange (m : Mem T) (b s : Nat) : Nat → Res (Mem T)
  | 0 => .ok m
  | n + 1 => do
    let m ← destroyAt pod m b (s + n)
    destroyRange m b s n

/-- `uninitialized_move`, small-vector.hpp:596-599 and 669-673; also `std::uninitialized_copy` from move iterators. -/
def uninitMove (m : Mem T) (b s b' d : Nat) : Nat → Res (Mem T)
  | 0 => .ok m
  | n + 1 => do
    let r ← moveOut pod m b s
    let m ← construct pod r.2 b' d r.1
    uninitMove m b (s + 1) b' (d + 1) n

/-- `uninitialized_copy`, small-vector.hpp:603-606 and 676-692, from another vector. -/
def uninitCopy (m : Mem T) (b s b' d : Nat) : Nat → Res (Mem T)
  | 0 => .ok m
  | n + 1 => do
    let x ← m.read b s
    let m ← construct pod m b' d x
    uninitCopy m b (s + 1) b' (d + 1) n

/-- the same from a range of values -/
def uninitList (m : Mem T) (b d : Nat) : List T → Res (Mem T)
  | [] => .ok m
  | x :: xs => do
    let m ← construct pod m b d x
    uninitList m b (d + 1) xs

/-- `std::uninitialized_fill`, `std::uninitialized_fill_n`. -/
def uninitFill (m : Mem T) (b d : Nat) (r : Ref T) : Nat → Res (Mem T)
  | 0 => .ok m
  | n + 1 => do
    let x ← r.get m
    let m ← construct pod m b d x
    uninitFill m b (d + 1) r n

/-- `std::fill_n`. -/
def fill (m : Mem T) (b d : Nat) (r : Ref T) : Nat → Res (Mem T)
  | 0 => .ok m
  | n + 1 => do
    let x ← r.get m
    let m ← assignAt pod m b d x
    fill m b (d + 1) r n

/-- `std::move` of a range to a range of elements. -/
def moveRange (m : Mem T) (b s b' d : Nat) : Nat → Res (Mem T)
  | 0 => .ok m
  | n + 1 => do
    let r ← moveOut pod m b s
    let m ← assignAt pod r.2 b' d r.1
    moveRange m b (s + 1) b' (d + 1) n

/-- `std::move_backward`: `n` elements from `s` to `d`, the last one first. -/
def moveBackward (m : Mem T) (b s d : Nat) : Nat → Res (Mem T)
  | 0 => .ok m
  | n + 1 => do
    let r ← moveOut pod m b (s + n)
    let m ← assignAt pod r.2 b (d + n) r.1
    moveBackward m b s d n

/-- `std::copy` of a range of another vector to a range of elements. -/
def copyRange (m : Mem T) (b s b' d : Nat) : Nat → Res (Mem T)
  | 0 => .ok m
  | n + 1 => do
    let x ← m.read b s
    let m ← assignAt pod m b' d x
    copyRange m b (s + 1) b' (d + 1) n

/-- `std::copy` of a range of values. -/
def copyList (m : Mem T) (b d : Nat) : List T → Res (Mem T)
  | [] => .ok m
  | x :: xs => do
    let m ← assignAt pod m b d x
    copyList m b (d + 1) xs

/-- `grow`, small-vector.hpp:633-657; for trivially copyable elements `grow_pod`, 698 and 1330-1350. -/
def grow (m : Mem T) (v : Vec) (minSize : Nat) : Res (Mem T × Vec) :=
  if pod then
    let newCap := if 2 * v.cap + 1 < minSize then minSize else 2 * v.cap + 1
    if v.isSmall then do
      let a := m.malloc newCap
      let m ← uninitCopy pod a.1 v.beg 0 a.2 0 v.size
      .ok (m, { v with beg := a.2, cap := newCap })
    else do
      let a ← realloc m v.beg newCap
      .ok (a.1, { v with beg := a.2, cap := newCap })
  else do
    let newCap := if nextPowerOf2 (v.cap + 2) < minSize then minSize else nextPowerOf2 (v.cap + 2)
    let a := m.malloc newCap
    let m ← uninitMove pod a.1 v.beg 0 a.2 0 v.size
    let m ← destroyRange pod m v.beg 0 v.size
    let m ← (if v.isSmall then .ok m else free pod m v.beg)
    .ok (m, { v with beg := a.2, cap := newCap })

/-- `push_back`, small-vector.hpp:614-624, 701-705, and `emplace_back`, 1030-1034. -/
def pushBack (m : Mem T) (v : Vec) (r : Ref T) : Res (Mem T × Vec) := do
  let g ← (if v.cap ≤ v.size then grow pod m v 0 else .ok (m, v))
  let x ← r.get g.1
  let m ← construct pod g.1 g.2.beg g.2.size x
  .ok (m, { g.2 with size := g.2.size + 1 })

/-- `pop_back`, small-vector.hpp:626-629 and 707. -/
def popBack (m : Mem T) (v : Vec) : Res (Mem T × Vec) :=
  if v.size = 0 then .ub
  else do
    let v := { v with size := v.size - 1 }
    let m ← destroyAt pod m v.beg v.size
    .ok (m, v)

/-- `pop_back_val`, small-vector.hpp:767-771. -/
def popBackVal (m : Mem T) (v : Vec) : Res (T × Mem T × Vec) :=
  if v.size = 0 then .ub
  else do
    let r ← moveOut pod m v.beg (v.size - 1)
    let q ← popBack pod r.2 v
    .ok (r.1, q.1, q.2)

/-- The destructor, small-vector.hpp:728-734; with it the object and its inline buffer go. -/
def destructor (m : Mem T) (v : Vec) : Res (Mem T) := do
  let m ← destroyRange pod m v.beg 0 v.size
  let m ← (if v.isSmall then .ok m else free pod m v.beg)
  free pod m v.inl

/-- `clear`, small-vector.hpp:736-739. -/
def clear (m : Mem T) (v : Vec) : Res (Mem T × Vec) := do
  let m ← destroyRange pod m v.beg 0 v.size
  .ok (m, { v with size := 0 })

/-- `resize(N, NV)`, small-vector.hpp:752-761, and `resize(N)`, 741-750, with the value `T()`. -/
def resize (m : Mem T) (v : Vec) (n : Nat) (r : Ref T) : Res (Mem T × Vec) :=
  if n < v.size then do
    let m ← destroyRange pod m v.beg n (v.size - n)
    .ok (m, { v with size := n })
  else if v.size < n then do
    let g ← (if v.cap < n then grow pod m v n else .ok (m, v))
    let m ← uninitFill pod g.1 g.2.beg g.2.size r (n - g.2.size)
    .ok (m, { g.2 with size := n })
  else .ok (m, v)

/-- `reserve`, small-vector.hpp:763-765. -/
def reserve (m : Mem T) (v : Vec) (n : Nat) : Res (Mem T × Vec) := if v.cap < n then grow pod m v n else .ok (m, v)

/-- `append` of a range, small-vector.hpp:776-786, 799. -/
def appendList (m : Mem T) (v : Vec) (xs : List T) : Res (Mem T × Vec) := do
  let g ← (if v.cap - v.size < xs.length then grow pod m v (v.size + xs.length) else .ok (m, v))
  let m ← uninitList pod g.1 g.2.beg g.2.size xs
  .ok (m, { g.2 with size := g.2.size + xs.length })

/-- `append` of copies, small-vector.hpp:790-797. -/
def appendFill (m : Mem T) (v : Vec) (n : Nat) (r : Ref T) : Res (Mem T × Vec) := do
  let g ← (if v.cap - v.size < n then grow pod m v (v.size + n) else .ok (m, v))
  let m ← uninitFill pod g.1 g.2.beg g.2.size r n
  .ok (m, { g.2 with size := g.2.size + n })

/-- `assign` of copies, small-vector.hpp:804-809. -/
def assignFill (m : Mem T) (v : Vec) (n : Nat) (r : Ref T) : Res (Mem T × Vec) := do
  let c ← clear pod m v
  let g ← (if c.2.cap < n then grow pod c.1 c.2 n else .ok c)
  let m ← uninitFill pod g.1 g.2.beg 0 r n
  .ok (m, { g.2 with size := n })

/-- `assign` of a range, small-vector.hpp:811-822. -/
def assignList (m : Mem T) (v : Vec) (xs : List T) : Res (Mem T × Vec) := do
  let c ← clear pod m v
  appendList pod c.1 c.2 xs

/-- `erase` of one element, small-vector.hpp:824-837. -/
def eraseAt (m : Mem T) (v : Vec) (i : Nat) : Res (Mem T × Vec) :=
  if i < v.size then do
    let m ← moveRange pod m v.beg (i + 1) v.beg i (v.size - (i + 1))
    popBack pod m v
  else .ub

/-- `erase` of a range, small-vector.hpp:839-855. -/
def eraseRange (m : Mem T) (v : Vec) (i j : Nat) : Res (Mem T × Vec) :=
  if i ≤ j ∧ j ≤ v.size then do
    let m ← moveRange pod m v.beg j v.beg i (v.size - j)
    let k := i + (v.size - j)
    let m ← destroyRange pod m v.beg k (v.size - k)
    .ok (m, { v with size := k })
  else .ub

/-- `insert` of one element, small-vector.hpp:886-912; 857-884 is the same with a move.  A reference to an element behind the place follows it. -/
def insertAt (m : Mem T) (v : Vec) (i : Nat) (r : Ref T) : Res (Mem T × Vec) :=
  if i = v.size then pushBack pod m v r
  else if v.size < i then .ub
  else do
    let g ← (if v.cap ≤ v.size then grow pod m v 0 else .ok (m, v))
    let v := g.2
    let b ← moveOut pod g.1 v.beg (v.size - 1)
    let m ← construct pod b.2 v.beg v.size b.1
    let m ← moveBackward pod m v.beg i (i + 1) (v.size - 1 - i)
    let v := { v with size := v.size + 1 }
    let r := match r with
      | .at b j => if b = v.beg ∧ i ≤ j ∧ j < v.size then Ref.at b (j + 1) else .at b j
      | .ext x => .ext x
    let x ← r.get m
    let m ← assignAt pod m v.beg i x
    .ok (m, v)

/-- `insert` of copies, small-vector.hpp:914-961. -/
def insertFill (m : Mem T) (v : Vec) (i n : Nat) (r : Ref T) : Res (Mem T × Vec) :=
  if i = v.size then appendFill pod m v n r
  else if v.size < i then .ub
  else do
    let g ← reserve pod m v (v.size + n)
    let v := g.2
    if n ≤ v.size - i then do
      let m ← uninitMove pod g.1 v.beg (v.size - n) v.beg v.size n
      let m ← moveBackward pod m v.beg i (i + n) (v.size - n - i)
      let m ← fill pod m v.beg i r n
      .ok (m, { v with size := v.size + n })
    else do
      let k := v.size - i
      let m ← uninitMove pod g.1 v.beg i v.beg (v.size + n - k) k
      let m ← fill pod m v.beg i r k
      let m ← uninitFill pod m v.beg v.size r (n - k)
      .ok (m, { v with size := v.size + n })

/-- `insert` of a range, small-vector.hpp:966-1026. -/
def insertList (m : Mem T) (v : Vec) (i : Nat) (xs : List T) : Res (Mem T × Vec) :=
  if i = v.size then appendList pod m v xs
  else if v.size < i then .ub
  else do
    let n := xs.length
    let g ← reserve pod m v (v.size + n)
    let v := g.2
    if n ≤ v.size - i then do
      let m ← uninitMove pod g.1 v.beg (v.size - n) v.beg v.size n
      let m ← moveBackward pod m v.beg i (i + n) (v.size - n - i)
      let m ← copyList pod m v.beg i xs
      .ok (m, { v with size := v.size + n })
    else do
      let k := v.size - i
      let m ← uninitMove pod g.1 v.beg i v.beg (v.size + n - k) k
      let m ← copyList pod m v.beg i (xs.take k)
      let m ← uninitList pod m v.beg v.size (xs.drop k)
      .ok (m, { v with size := v.size + n })

/-- the loop of `swap`, small-vector.hpp:1082: `std::swap` of the elements from `i` on -/
def swapRange (m : Mem T) (b b' i : Nat) : Nat → Res (Mem T)
  | 0 => .ok m
  | n + 1 => do
    let x ← moveOut pod m b i
    let y ← moveOut pod x.2 b' i
    let m ← assignAt pod y.2 b i y.1
    let m ← assignAt pod m b' i x.1
    swapRange m b b' (i + 1) n

/-- `swap` of two different vectors, small-vector.hpp:1066-1098. -/
def swap (m : Mem T) (v w : Vec) : Res (Mem T × Vec × Vec) :=
  if !v.isSmall && !w.isSmall then
    .ok (m, { v with beg := w.beg, size := w.size, cap := w.cap }, { w with beg := v.beg, size := v.size, cap := v.cap })
  else do
    let g ← (if v.cap < w.size then grow pod m v w.size else .ok (m, v))
    let v := g.2
    let g ← (if w.cap < v.size then grow pod g.1 w v.size else .ok (g.1, w))
    let w := g.2
    let k := if w.size < v.size then w.size else v.size
    let m ← swapRange pod g.1 v.beg w.beg 0 k
    if w.size < v.size then do
      let d := v.size - w.size
      let m ← uninitCopy pod m v.beg k w.beg w.size d
      let m ← destroyRange pod m v.beg k (v.size - k)
      .ok (m, { v with size := k }, { w with size := w.size + d })
    else if v.size < w.size then do
      let d := w.size - v.size
      let m ← uninitCopy pod m w.beg k v.beg v.size d
      let m ← destroyRange pod m w.beg k (w.size - k)
      .ok (m, { v with size := v.size + d }, { w with size := k })
    else .ok (m, v, w)

/-- Assignment of another vector `w`, small-vector.hpp:1101-1145. -/
def copyAssign (m : Mem T) (v w : Vec) : Res (Mem T × Vec) :=
  if w.size ≤ v.size then do
    let m ← (if w.size ≠ 0 then copyRange pod m w.beg 0 v.beg 0 w.size else .ok m)
    let m ← destroyRange pod m v.beg w.size (v.size - w.size)
    .ok (m, { v with size := w.size })
  else do
    let s ← (if v.cap < w.size then do
        let m ← destroyRange pod m v.beg 0 v.size
        let g ← grow pod m { v with size := 0 } w.size
        .ok (g.1, g.2, 0)
      else do
        let m ← (if v.size ≠ 0 then copyRange pod m w.beg 0 v.beg 0 v.size else .ok m)
        .ok (m, v, v.size))
    let v := s.2.1
    let m ← uninitCopy pod s.1 w.beg s.2.2 v.beg s.2.2 (w.size - s.2.2)
    .ok (m, { v with size := w.size })

/-- Assignment of another vector `w` that is moved from, small-vector.hpp:1148-1205; the second vector is what is left of `w`. -/
def moveAssign (m : Mem T) (v w : Vec) : Res (Mem T × Vec × Vec) :=
  if !w.isSmall then do
    let m ← destroyRange pod m v.beg 0 v.size
    let m ← (if v.isSmall then .ok m else free pod m v.beg)
    .ok (m, { v with beg := w.beg, size := w.size, cap := w.cap }, w.resetToSmall)
  else if w.size ≤ v.size then do
    let m ← (if w.size ≠ 0 then moveRange pod m w.beg 0 v.beg 0 w.size else .ok m)
    let m ← destroyRange pod m v.beg w.size (v.size - w.size)
    let c ← clear pod m w
    .ok (c.1, { v with size := w.size }, c.2)
  else do
    let s ← (if v.cap < w.size then do
        let m ← destroyRange pod m v.beg 0 v.size
        let g ← grow pod m { v with size := 0 } w.size
        .ok (g.1, g.2, 0)
      else do
        let m ← (if v.size ≠ 0 then moveRange pod m w.beg 0 v.beg 0 v.size else .ok m)
        .ok (m, v, v.size))
    let v := s.2.1
    let m ← uninitMove pod s.1 w.beg s.2.2 v.beg s.2.2 (w.size - s.2.2)
    let c ← clear pod m w
    .ok (c.1, { v with size := w.size }, c.2)

/-- A new vector with `N` inline elements, small-vector.hpp:448-456, 1234; the inline buffer has at least one cell (480). -/
def create (m : Mem T) (N : Nat) : Mem T × Vec :=
  let a := m.malloc (if N = 0 then 1 else N)
  (a.1, ⟨a.2, a.2, 0, N⟩)

/-- Copy constructor, small-vector.hpp:1252-1254. -/
def createCopy (m : Mem T) (N : Nat) (w : Vec) : Res (Mem T × Vec) :=
  let c := create m N
  if w.size ≠ 0 then copyAssign pod c.1 c.2 w else .ok c

/-- Move constructors, small-vector.hpp:1261-1267. -/
def createMove (m : Mem T) (N : Nat) (w : Vec) : Res (Mem T × Vec × Vec) :=
  let c := create m N
  if w.size ≠ 0 then moveAssign pod c.1 c.2 w else .ok (c.1, c.2, w)

/-- `operator==`, small-vector.hpp:1040-1043: the elements in order, up to the first difference. -/
def equalFrom [DecidableEq T] (m : Mem T) (v w : Vec) (i : Nat) : Nat → Res Bool
  | 0 => .ok true
  | n + 1 => do
    let x ← m.read v.beg i
    let y ← m.read w.beg i
    if x = y then equalFrom m v w (i + 1) n else .ok false

def equal [DecidableEq T] (m : Mem T) (v w : Vec) : Res Bool := if v.size ≠ w.size then .ok false else equalFrom m v w 0 v.size

end

/-! ### any number of vectors -/

/-- The memory and the vectors that live in it. -/
structure World (T : Type) where
  mem : Mem T
  vec : Nat → Option Vec

/-- nothing there yet -/
def World.empty : World T := ⟨⟨0, fun _ => none⟩, fun _ => none⟩

/-- The calls a program can make, on vectors named by numbers; all values come from outside of the vectors. -/
inductive Op (T : Type) where
  | create (k N : Nat)
  | createFill (k N n : Nat) (x : T)
  | createList (k N : Nat) (xs : List T)
  | createCopy (k N l : Nat)
  | createMove (k N l : Nat)
  | destroy (k : Nat)
  | push (k : Nat) (x : T)
  | pop (k : Nat)
  | popVal (k : Nat)
  | clear (k : Nat)
  | resize (k n : Nat) (x : T)
  | reserve (k n : Nat)
  | appendList (k : Nat) (xs : List T)
  | appendFill (k n : Nat) (x : T)
  | assignFill (k n : Nat) (x : T)
  | assignList (k : Nat) (xs : List T)
  | erase (k i : Nat)
  | eraseRange (k i j : Nat)
  | insert (k i : Nat) (x : T)
  | insertFill (k i n : Nat) (x : T)
  | insertList (k i : Nat) (xs : List T)
  | swap (k l : Nat)
  | copy (k l : Nat)
  | move (k l : Nat)

/-- the vector of a name; there must be one -/
def World.find (w : World T) (k : Nat) : Res Vec :=
  match w.vec k with
  | some v => .ok v
  | none => .ub

/-- the world with another vector under a name -/
def World.put (w : World T) (m : Mem T) (k : Nat) (v : Option Vec) : World T := ⟨m, fun j => if j = k then v else w.vec j⟩

/-- a call on one vector -/
def World.on (w : World T) (k : Nat) (f : Mem T → Vec → Res (Mem T × Vec)) : Res (World T) := do
  let v ← w.find k
  let r ← f w.mem v
  .ok (w.put r.1 k (some r.2))

/-- a constructor -/
def World.new (w : World T) (k : Nat) (f : Mem T → Res (Mem T × Vec)) : Res (World T) :=
  match w.vec k with
  | some _ => .ub
  | none => do
    let r ← f w.mem
    .ok (w.put r.1 k (some r.2))

/-- What a call does.  Assignments and `swap` test for the same object first (small-vector.hpp:1067, 1103, 1150). -/
def step (pod : Bool) (w : World T) : Op T → Res (World T)
  | .create k N => w.new k fun m => .ok (create m N)
  | .createFill k N n x => w.new k fun m => let c := create m N; assignFill pod c.1 c.2 n (.ext x)
  | .createList k N xs => w.new k fun m => let c := create m N; assignList pod c.1 c.2 xs
  | .createCopy k N l => w.new k fun m => do
      let u ← w.find l
      createCopy pod m N u
  | .createMove k N l =>
    match w.vec k with
    | some _ => .ub
    | none => do
      let u ← w.find l
      let r ← createMove pod w.mem N u
      .ok ((w.put r.1 l (some r.2.2)).put r.1 k (some r.2.1))
  | .destroy k => do
      let v ← w.find k
      let m ← destructor pod w.mem v
      .ok (w.put m k none)
  | .push k x => w.on k fun m v => pushBack pod m v (.ext x)
  | .pop k => w.on k (popBack pod)
  | .popVal k => w.on k fun m v => do
      let r ← popBackVal pod m v
      .ok r.2
  | .clear k => w.on k (clear pod)
  | .resize k n x => w.on k fun m v => resize pod m v n (.ext x)
  | .reserve k n => w.on k fun m v => reserve pod m v n
  | .appendList k xs => w.on k fun m v => appendList pod m v xs
  | .appendFill k n x => w.on k fun m v => appendFill pod m v n (.ext x)
  | .assignFill k n x => w.on k fun m v => assignFill pod m v n (.ext x)
  | .assignList k xs => w.on k fun m v => assignList pod m v xs
  | .erase k i => w.on k fun m v => eraseAt pod m v i
  | .eraseRange k i j => w.on k fun m v => eraseRange pod m v i j
  | .insert k i x => w.on k fun m v => insertAt pod m v i (.ext x)
  | .insertFill k i n x => w.on k fun m v => insertFill pod m v i n (.ext x)
  | .insertList k i xs => w.on k fun m v => insertList pod m v i xs
  | .swap k l => do
      let v ← w.find k
      let u ← w.find l
      if k = l then .ok w
      else do
        let r ← swap pod w.mem v u
        .ok ((w.put r.1 k (some r.2.1)).put r.1 l (some r.2.2))
  | .copy k l => do
      let v ← w.find k
      let u ← w.find l
      if k = l then .ok w
      else do
        let r ← copyAssign pod w.mem v u
        .ok (w.put r.1 k (some r.2))
  | .move k l => do
      let v ← w.find k
      let u ← w.find l
      if k = l then .ok w
      else do
        let r ← moveAssign pod w.mem v u
        .ok ((w.put r.1 l (some r.2.2)).put r.1 k (some r.2.1))

/-- A program: one call after the other. -/
def run (pod : Bool) (w : World T) : List (Op T) → Res (World T)
  | [] => .ok w
  | o :: os => do
    let w ← step pod w o
    run pod w os

end SpaceHub.SV
