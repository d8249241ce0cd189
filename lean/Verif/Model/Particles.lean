import Verif.Model.Vec3
import Verif.Model.Callbacks

/-
Model of the particle containers src/particles/point-particles.hpp, finite-size.hpp, tide-particles.hpp,
drag-particles.hpp and of the text they print (src/IO.hpp:43-47, 105-109; vector3.hpp:211-221).

`Container<T>`/`SSO_vec_vector<T>` (std::vector or llvm::SmallVector) are lists; `x[i]` outside the list is
undefined behaviour.  Capacities are not modelled.  Arrays are private, but the accessors hand out references:
a program that resizes one array by such a reference is outside the model (assigning elements is not: the
theorems about printing hold for every rectangular state).
Text is a list of characters; how a number is turned into text is a parameter (`Fmt`).
-/

set_option autoImplicit false

namespace SpaceHub.Ptc

/-- `v.resize(n)` of std::vector / llvm::SmallVector: drop the tail or append value-initialised elements. -/
def vresize {α : Type} (d : α) (n : Nat) (l : List α) : List α := l.take n ++ List.replicate (n - l.length) d

/-- `v[i]`. -/
def vget {α : Type} (l : List α) (i : Nat) : Res α :=
  match l[i]? with
  | some a => .ok a
  | none => .ub

/-- How `std::ostream` formats numbers (depends on the format flags of the stream). -/
structure Fmt (K : Type) where
  num : K → List Char
  idx : Nat → List Char

/-- One argument of `hub::print`, IO.hpp:43-47. -/
inductive Item (K : Type)
  | num (x : K)
  | idx (n : Nat)
  | chr (c : Char)
  | vec (v : V3 K)

/-- `os << v` for a vector, vector3.hpp:211-215: `print_csv(output, v.x, v.y, v.z)` (IO.hpp:105-109). -/
def printVec {K : Type} (f : Fmt K) (v : V3 K) : List Char :=
  f.num v.x ++ (',' :: f.num v.y) ++ (',' :: f.num v.z)

/-- `os << arg` for one argument. -/
def printItem {K : Type} (f : Fmt K) : Item K → List Char
  | .num x => f.num x
  | .idx n => f.idx n
  | .chr c => [c]
  | .vec v => printVec f v

/-- `hub::print`, IO.hpp:43-47: `(os << ... << args)`. -/
def print {K : Type} (f : Fmt K) (items : List (Item K)) : List Char :=
  items.foldl (fun os x => os ++ printItem f x) []

/-- `hub::print_csv`, IO.hpp:105-109: the first argument, then for each other one `',' << arg`. -/
def printCsv {K : Type} (f : Fmt K) : List (Item K) → List Char
  | [] => []
  | x :: xs => xs.foldl (fun os y => os ++ (',' :: printItem f y)) (printItem f x)

/-- `for (size_t i = 0; i < n; ++i) out.emplace_back(body(i))`, where `body` may access an array out of bounds. -/
def collect {α : Type} (body : Nat → Res α) : Nat → Res (List α)
  | 0 => .ok []
  | n + 1 => do
    let l ← collect body n
    let a ← body n
    .ok (l ++ [a])

/-- The public interface the four container classes share.  `lengths` lists the lengths of the private arrays. -/
structure Api (K P C : Type) where
  empty : C
  ofList : K → List P → C
  emplaceBack : C → P → C
  resize : C → Nat → C
  reserve : C → Nat → C
  clear : C → C
  number : C → Nat
  lengths : C → List Nat
  time : C → K
  ids : C → List Nat
  toAoS : C → Res (List P)
  columnNames : String
  print : Fmt K → C → Res (List Char)

variable {K : Type}

/-! ### Point particles -/

/-- `PointParticle`, point-particles.hpp:41-94. -/
structure Point (K : Type) where
  mass : K
  pos : V3 K
  vel : V3 K

/-- `PointParticles`, point-particles.hpp:104-174 (private members). -/
structure Points (K : Type) where
  pos : List (V3 K)
  vel : List (V3 K)
  mass : List K
  idn : List Nat
  time : K
  activeNum : Nat

namespace Points
variable [Zero K]

/-- default constructor, point-particles.hpp:104-174 (member initialisers). -/
def empty : Points K := ⟨[], [], [], [], 0, 0⟩

/-- `emplace_back`, point-particles.hpp:238-245; the id is `number()` before the increment. -/
def emplaceBack (c : Points K) (p : Point K) : Points K where
  pos := c.pos ++ [p.pos]
  vel := c.vel ++ [p.vel]
  mass := c.mass ++ [p.mass]
  idn := c.idn ++ [c.activeNum]
  time := c.time
  activeNum := c.activeNum + 1

/-- constructor from a container, point-particles.hpp:206-219: appends to every array with a running `id`. -/
def ofList (t : K) (ps : List (Point K)) : Points K :=
  let r := ps.foldl (fun (s : Points K × Nat) p =>
    ({ s.1 with pos := s.1.pos ++ [p.pos], vel := s.1.vel ++ [p.vel], mass := s.1.mass ++ [p.mass], idn := s.1.idn ++ [s.2] }, s.2 + 1)) (empty, 0)
  { r.1 with time := t, activeNum := ps.length }

/-- `resize`, point-particles.hpp:221-225 (`resize_all`, dev-tools.hpp:45-48). -/
def resize (c : Points K) (n : Nat) : Points K where
  pos := vresize 0 n c.pos
  vel := vresize 0 n c.vel
  mass := vresize 0 n c.mass
  idn := vresize 0 n c.idn
  time := c.time
  activeNum := n

omit [Zero K] in
/-- `reserve`, point-particles.hpp:227-230: capacities only. -/
def reserve (c : Points K) (_ : Nat) : Points K := c

omit [Zero K] in
/-- `clear`, point-particles.hpp:232-236 (`clear_all`, dev-tools.hpp:55-58); the time is kept. -/
def clear (c : Points K) : Points K where
  pos := []
  vel := []
  mass := []
  idn := []
  time := c.time
  activeNum := 0

omit [Zero K] in
/-- `to_AoS`, point-particles.hpp:262-271. -/
def toAoS (c : Points K) : Res (List (Point K)) :=
  collect (fun i => do
    let mass ← vget c.mass i
    let pos ← vget c.pos i
    let vel ← vget c.vel i
    .ok { mass := mass, pos := pos, vel := vel }) c.activeNum

/-- `column_names`, point-particles.hpp:257-260. -/
def columnNames : String := "time,id,mass,px,py,pz,vx,vy,vz"

omit [Zero K] in
/-- one turn of the loop of `operator<<`, point-particles.hpp:273-280. -/
def row (f : Fmt K) (c : Points K) (i : Nat) : Res (List Char) := do
  let id ← vget c.idn i
  let mass ← vget c.mass i
  let pos ← vget c.pos i
  let vel ← vget c.vel i
  .ok (Ptc.print f [.num c.time, .chr ',', .idx id, .chr ',', .num mass, .chr ',', .vec pos, .chr ',', .vec vel, .chr '\n'])

omit [Zero K] in
/-- `operator<<`, point-particles.hpp:273-280. -/
def print (f : Fmt K) (c : Points K) : Res (List Char) := do
  let rows ← collect (row f c) c.activeNum
  .ok rows.flatten

/-- The public interface of `PointParticles`. -/
def api : Api K (Point K) (Points K) where
  empty := empty
  ofList := ofList
  emplaceBack := emplaceBack
  resize := resize
  reserve := reserve
  clear := clear
  number c := c.activeNum
  lengths c := [c.pos.length, c.vel.length, c.mass.length, c.idn.length]
  time c := c.time
  ids c := c.idn
  toAoS := toAoS
  columnNames := columnNames
  print := print

end Points

/-! ### Size particles -/

/-- `SizeParticle`, finite-size.hpp:32-91. -/
structure Size (K : Type) where
  mass : K
  pos : V3 K
  vel : V3 K
  radius : K

/-- `SizeParticles`, finite-size.hpp:101-179 (private members). -/
structure Sizes (K : Type) where
  pos : List (V3 K)
  vel : List (V3 K)
  mass : List K
  radius : List K
  idn : List Nat
  time : K
  activeNum : Nat

namespace Sizes
variable [Zero K]

/-- default constructor, finite-size.hpp:101-179 (member initialisers). -/
def empty : Sizes K := ⟨[], [], [], [], [], 0, 0⟩

/-- `emplace_back`, finite-size.hpp:230-238; the id is `number()` before the increment. -/
def emplaceBack (c : Sizes K) (p : Size K) : Sizes K where
  pos := c.pos ++ [p.pos]
  vel := c.vel ++ [p.vel]
  mass := c.mass ++ [p.mass]
  radius := c.radius ++ [p.radius]
  idn := c.idn ++ [c.activeNum]
  time := c.time
  activeNum := c.activeNum + 1

/-- constructor from a container, finite-size.hpp:186-201: appends to every array with a running `id`. -/
def ofList (t : K) (ps : List (Size K)) : Sizes K :=
  let r := ps.foldl (fun (s : Sizes K × Nat) p =>
    ({ s.1 with pos := s.1.pos ++ [p.pos], vel := s.1.vel ++ [p.vel], mass := s.1.mass ++ [p.mass], radius := s.1.radius ++ [p.radius], idn := s.1.idn ++ [s.2] }, s.2 + 1)) (empty, 0)
  { r.1 with time := t, activeNum := ps.length }

/-- `resize`, finite-size.hpp:224-228 (`resize_all`, dev-tools.hpp:45-48). -/
def resize (c : Sizes K) (n : Nat) : Sizes K where
  pos := vresize 0 n c.pos
  vel := vresize 0 n c.vel
  mass := vresize 0 n c.mass
  radius := vresize 0 n c.radius
  idn := vresize 0 n c.idn
  time := c.time
  activeNum := n

omit [Zero K] in
/-- `reserve`, finite-size.hpp:213-216: capacities only. -/
def reserve (c : Sizes K) (_ : Nat) : Sizes K := c

omit [Zero K] in
/-- `clear`, finite-size.hpp:218-222 (`clear_all`, dev-tools.hpp:55-58); the time is kept. -/
def clear (c : Sizes K) : Sizes K where
  pos := []
  vel := []
  mass := []
  radius := []
  idn := []
  time := c.time
  activeNum := 0

omit [Zero K] in
/-- `to_AoS`, finite-size.hpp:245-254. -/
def toAoS (c : Sizes K) : Res (List (Size K)) :=
  collect (fun i => do
    let mass ← vget c.mass i
    let radius ← vget c.radius i
    let pos ← vget c.pos i
    let vel ← vget c.vel i
    .ok { mass := mass, radius := radius, pos := pos, vel := vel }) c.activeNum

/-- `column_names`, finite-size.hpp:240-243. -/
def columnNames : String := "time,id,mass,radius,px,py,pz,vx,vy,vz"

omit [Zero K] in
/-- one turn of the loop of `operator<<`, finite-size.hpp:256-264. -/
def row (f : Fmt K) (c : Sizes K) (i : Nat) : Res (List Char) := do
  let id ← vget c.idn i
  let mass ← vget c.mass i
  let radius ← vget c.radius i
  let pos ← vget c.pos i
  let vel ← vget c.vel i
  .ok (Ptc.print f [.num c.time, .chr ',', .idx id, .chr ',', .num mass, .chr ',', .num radius, .chr ',', .vec pos, .chr ',', .vec vel, .chr '\n'])

omit [Zero K] in
/-- `operator<<`, finite-size.hpp:256-264. -/
def print (f : Fmt K) (c : Sizes K) : Res (List Char) := do
  let rows ← collect (row f c) c.activeNum
  .ok rows.flatten

/-- The public interface of `SizeParticles`. -/
def api : Api K (Size K) (Sizes K) where
  empty := empty
  ofList := ofList
  emplaceBack := emplaceBack
  resize := resize
  reserve := reserve
  clear := clear
  number c := c.activeNum
  lengths c := [c.pos.length, c.vel.length, c.mass.length, c.radius.length, c.idn.length]
  time c := c.time
  ids c := c.idn
  toAoS := toAoS
  columnNames := columnNames
  print := print

end Sizes

/-! ### Tide particles -/

/-- `TideParticle`, tide-particles.hpp:40-92. -/
structure Tide (K : Type) where
  mass : K
  pos : V3 K
  vel : V3 K
  radius : K
  kAM : K
  tauLag : K

/-- `TideParticles`, tide-particles.hpp:102-184 (private members). -/
structure Tides (K : Type) where
  pos : List (V3 K)
  vel : List (V3 K)
  mass : List K
  radius : List K
  kAM : List K
  tauLag : List K
  idn : List Nat
  time : K
  activeNum : Nat

namespace Tides
variable [Zero K]

/-- default constructor, tide-particles.hpp:102-184 (member initialisers). -/
def empty : Tides K := ⟨[], [], [], [], [], [], [], 0, 0⟩

/-- `emplace_back`, tide-particles.hpp:265-275; the id is `number()` before the increment. -/
def emplaceBack (c : Tides K) (p : Tide K) : Tides K where
  pos := c.pos ++ [p.pos]
  vel := c.vel ++ [p.vel]
  mass := c.mass ++ [p.mass]
  radius := c.radius ++ [p.radius]
  kAM := c.kAM ++ [p.kAM]
  tauLag := c.tauLag ++ [p.tauLag]
  idn := c.idn ++ [c.activeNum]
  time := c.time
  activeNum := c.activeNum + 1

/-- constructor from a container, tide-particles.hpp:229-246: appends to every array with a running `id`. -/
def ofList (t : K) (ps : List (Tide K)) : Tides K :=
  let r := ps.foldl (fun (s : Tides K × Nat) p =>
    ({ s.1 with pos := s.1.pos ++ [p.pos], vel := s.1.vel ++ [p.vel], mass := s.1.mass ++ [p.mass], radius := s.1.radius ++ [p.radius], kAM := s.1.kAM ++ [p.kAM], tauLag := s.1.tauLag ++ [p.tauLag], idn := s.1.idn ++ [s.2] }, s.2 + 1)) (empty, 0)
  { r.1 with time := t, activeNum := ps.length }

/-- `resize`, tide-particles.hpp:248-252 (`resize_all`, dev-tools.hpp:45-48). -/
def resize (c : Tides K) (n : Nat) : Tides K where
  pos := vresize 0 n c.pos
  vel := vresize 0 n c.vel
  mass := vresize 0 n c.mass
  radius := vresize 0 n c.radius
  kAM := vresize 0 n c.kAM
  tauLag := vresize 0 n c.tauLag
  idn := vresize 0 n c.idn
  time := c.time
  activeNum := n

omit [Zero K] in
/-- `reserve`, tide-particles.hpp:254-257: capacities only. -/
def reserve (c : Tides K) (_ : Nat) : Tides K := c

omit [Zero K] in
/-- `clear`, tide-particles.hpp:259-263 (`clear_all`, dev-tools.hpp:55-58); the time is kept. -/
def clear (c : Tides K) : Tides K where
  pos := []
  vel := []
  mass := []
  radius := []
  kAM := []
  tauLag := []
  idn := []
  time := c.time
  activeNum := 0

omit [Zero K] in
/-- `to_AoS`, tide-particles.hpp:292-301. -/
def toAoS (c : Tides K) : Res (List (Tide K)) :=
  collect (fun i => do
    let mass ← vget c.mass i
    let radius ← vget c.radius i
    let kAM ← vget c.kAM i
    let tauLag ← vget c.tauLag i
    let pos ← vget c.pos i
    let vel ← vget c.vel i
    .ok { mass := mass, radius := radius, kAM := kAM, tauLag := tauLag, pos := pos, vel := vel }) c.activeNum

/-- `column_names`, tide-particles.hpp:287-290. -/
def columnNames : String := "time,id,mass,radius,k_AM,tau_lag,px,py,pz,vx,vy,vz"

omit [Zero K] in
/-- one turn of the loop of `operator<<`, tide-particles.hpp:303-311. -/
def row (f : Fmt K) (c : Tides K) (i : Nat) : Res (List Char) := do
  let id ← vget c.idn i
  let mass ← vget c.mass i
  let radius ← vget c.radius i
  let kAM ← vget c.kAM i
  let tauLag ← vget c.tauLag i
  let pos ← vget c.pos i
  let vel ← vget c.vel i
  .ok (Ptc.print f [.num c.time, .chr ',', .idx id, .chr ',', .num mass, .chr ',', .num radius, .chr ',', .num kAM, .chr ',', .num tauLag, .chr ',', .vec pos, .chr ',', .vec vel, .chr '\n'])

omit [Zero K] in
/-- `operator<<`, tide-particles.hpp:303-311. -/
def print (f : Fmt K) (c : Tides K) : Res (List Char) := do
  let rows ← collect (row f c) c.activeNum
  .ok rows.flatten

/-- The public interface of `TideParticles`. -/
def api : Api K (Tide K) (Tides K) where
  empty := empty
  ofList := ofList
  emplaceBack := emplaceBack
  resize := resize
  reserve := reserve
  clear := clear
  number c := c.activeNum
  lengths c := [c.pos.length, c.vel.length, c.mass.length, c.radius.length, c.kAM.length, c.tauLag.length, c.idn.length]
  time c := c.time
  ids c := c.idn
  toAoS := toAoS
  columnNames := columnNames
  print := print

end Tides

/-! ### Drag particles -/

/-- `DragParticle`, drag-particles.hpp:40-85. -/
structure Drag (K : Type) where
  mass : K
  pos : V3 K
  vel : V3 K
  subSonic : K
  localCs : K

/-- `DragParticles`, drag-particles.hpp:95-173 (private members). -/
structure Drags (K : Type) where
  pos : List (V3 K)
  vel : List (V3 K)
  mass : List K
  subSonic : List K
  localCs : List K
  idn : List Nat
  time : K
  activeNum : Nat

namespace Drags
variable [Zero K]

/-- default constructor, drag-particles.hpp:95-173 (member initialisers). -/
def empty : Drags K := ⟨[], [], [], [], [], [], 0, 0⟩

/-- `emplace_back`, drag-particles.hpp:240-249; the id is `number()` before the increment. -/
def emplaceBack (c : Drags K) (p : Drag K) : Drags K where
  pos := c.pos ++ [p.pos]
  vel := c.vel ++ [p.vel]
  mass := c.mass ++ [p.mass]
  subSonic := c.subSonic ++ [p.subSonic]
  localCs := c.localCs ++ [p.localCs]
  idn := c.idn ++ [c.activeNum]
  time := c.time
  activeNum := c.activeNum + 1

/-- constructor from a container, drag-particles.hpp:205-221: appends to every array with a running `id`. -/
def ofList (t : K) (ps : List (Drag K)) : Drags K :=
  let r := ps.foldl (fun (s : Drags K × Nat) p =>
    ({ s.1 with pos := s.1.pos ++ [p.pos], vel := s.1.vel ++ [p.vel], mass := s.1.mass ++ [p.mass], subSonic := s.1.subSonic ++ [p.subSonic], localCs := s.1.localCs ++ [p.localCs], idn := s.1.idn ++ [s.2] }, s.2 + 1)) (empty, 0)
  { r.1 with time := t, activeNum := ps.length }

/-- `resize`, drag-particles.hpp:223-227 (`resize_all`, dev-tools.hpp:45-48). -/
def resize (c : Drags K) (n : Nat) : Drags K where
  pos := vresize 0 n c.pos
  vel := vresize 0 n c.vel
  mass := vresize 0 n c.mass
  subSonic := vresize 0 n c.subSonic
  localCs := vresize 0 n c.localCs
  idn := vresize 0 n c.idn
  time := c.time
  activeNum := n

omit [Zero K] in
/-- `reserve`, drag-particles.hpp:229-232: capacities only. -/
def reserve (c : Drags K) (_ : Nat) : Drags K := c

omit [Zero K] in
/-- `clear`, drag-particles.hpp:234-238 (`clear_all`, dev-tools.hpp:55-58); the time is kept. -/
def clear (c : Drags K) : Drags K where
  pos := []
  vel := []
  mass := []
  subSonic := []
  localCs := []
  idn := []
  time := c.time
  activeNum := 0

omit [Zero K] in
/-- `to_AoS`, drag-particles.hpp:266-275. -/
def toAoS (c : Drags K) : Res (List (Drag K)) :=
  collect (fun i => do
    let mass ← vget c.mass i
    let subSonic ← vget c.subSonic i
    let localCs ← vget c.localCs i
    let pos ← vget c.pos i
    let vel ← vget c.vel i
    .ok { mass := mass, subSonic := subSonic, localCs := localCs, pos := pos, vel := vel }) c.activeNum

/-- `column_names`, drag-particles.hpp:261-264. -/
def columnNames : String := "time,id,mass,px,py,pz,vx,vy,vz,sub_sonic_c,local_cs"

omit [Zero K] in
/-- one turn of the loop of `operator<<`, drag-particles.hpp:277-285. -/
def row (f : Fmt K) (c : Drags K) (i : Nat) : Res (List Char) := do
  let id ← vget c.idn i
  let mass ← vget c.mass i
  let pos ← vget c.pos i
  let vel ← vget c.vel i
  let subSonic ← vget c.subSonic i
  let localCs ← vget c.localCs i
  .ok (Ptc.print f [.num c.time, .chr ',', .idx id, .chr ',', .num mass, .chr ',', .vec pos, .chr ',', .vec vel, .chr ',', .num subSonic, .chr ',', .num localCs, .chr '\n'])

omit [Zero K] in
/-- `operator<<`, drag-particles.hpp:277-285. -/
def print (f : Fmt K) (c : Drags K) : Res (List Char) := do
  let rows ← collect (row f c) c.activeNum
  .ok rows.flatten

/-- The public interface of `DragParticles`. -/
def api : Api K (Drag K) (Drags K) where
  empty := empty
  ofList := ofList
  emplaceBack := emplaceBack
  resize := resize
  reserve := reserve
  clear := clear
  number c := c.activeNum
  lengths c := [c.pos.length, c.vel.length, c.mass.length, c.subSonic.length, c.localCs.length, c.idn.length]
  time c := c.time
  ids c := c.idn
  toAoS := toAoS
  columnNames := columnNames
  print := print

end Drags

/-! ### writing and reading one particle -/

/-- An input stream: the text not yet read and its fail bit. -/
structure IStream where
  text : List Char
  fail : Bool

/-- How `std::istream` reads a number: the number at the beginning of a text and the text after it, or nothing. -/
structure Scan (K : Type) where
  num : List Char → Option (K × List Char)

/-- white space skipped by formatted input -/
def isSpace (c : Char) : Bool := c = ' ' || c = '\t' || c = '\n' || c = '\x0b' || c = '\x0c' || c = '\r'

/-- `is >> x` of the standard library for a floating point number: nothing happens if the fail bit is set; at the end
of the text `x` is kept and the fail bit set; if there is no number `x` becomes 0 and the fail bit is set. -/
def extract [Zero K] (sc : Scan K) (s : IStream) (x : K) : K × IStream :=
  if s.fail then (x, s)
  else
    match s.text.dropWhile isSpace with
    | [] => (x, ⟨[], true⟩)
    | c :: cs =>
      match sc.num (c :: cs) with
      | some (y, rest) => (y, ⟨rest, false⟩)
      | none => (0, ⟨c :: cs, true⟩)

/-- `is >> v` for a vector, vector3.hpp:217-221. -/
def extractVec [Zero K] (sc : Scan K) (s : IStream) (v : V3 K) : V3 K × IStream :=
  let (x, s) := extract sc s v.x
  let (y, s) := extract sc s v.y
  let (z, s) := extract sc s v.z
  (⟨x, y, z⟩, s)

/-- `operator<<` of one particle, point-particles.hpp:190-194. -/
def Point.write (f : Fmt K) (p : Point K) : List Char := printCsv f [.num p.mass, .vec p.pos, .vec p.vel]

/-- `operator>>` of one particle, point-particles.hpp:196-200 (`hub::input`, IO.hpp:58-62). -/
def Point.read [Zero K] (sc : Scan K) (s : IStream) (p : Point K) : Point K × IStream :=
  let (mass, s) := extract sc s p.mass
  let (pos, s) := extractVec sc s p.pos
  let (vel, s) := extractVec sc s p.vel
  ({ mass := mass, pos := pos, vel := vel }, s)

/-- `operator<<` of one particle, finite-size.hpp:76-79. -/
def Size.write (f : Fmt K) (p : Size K) : List Char := printCsv f [.num p.mass, .num p.radius, .vec p.pos, .vec p.vel]

/-- `operator>>` of one particle, finite-size.hpp:81-84 (`hub::input`, IO.hpp:58-62). -/
def Size.read [Zero K] (sc : Scan K) (s : IStream) (p : Size K) : Size K × IStream :=
  let (mass, s) := extract sc s p.mass
  let (radius, s) := extract sc s p.radius
  let (pos, s) := extractVec sc s p.pos
  let (vel, s) := extractVec sc s p.vel
  ({ mass := mass, radius := radius, pos := pos, vel := vel }, s)

/-- `operator<<` of one particle, tide-particles.hpp:212-217. -/
def Tide.write (f : Fmt K) (p : Tide K) : List Char := printCsv f [.num p.mass, .num p.radius, .vec p.pos, .vec p.vel, .num p.kAM, .num p.tauLag]

/-- `operator>>` of one particle, tide-particles.hpp:219-224 (`hub::input`, IO.hpp:58-62). -/
def Tide.read [Zero K] (sc : Scan K) (s : IStream) (p : Tide K) : Tide K × IStream :=
  let (mass, s) := extract sc s p.mass
  let (radius, s) := extract sc s p.radius
  let (pos, s) := extractVec sc s p.pos
  let (vel, s) := extractVec sc s p.vel
  let (kAM, s) := extract sc s p.kAM
  let (tauLag, s) := extract sc s p.tauLag
  ({ mass := mass, radius := radius, pos := pos, vel := vel, kAM := kAM, tauLag := tauLag }, s)

/-- `operator<<` of one particle, drag-particles.hpp:190-194. -/
def Drag.write (f : Fmt K) (p : Drag K) : List Char := printCsv f [.num p.mass, .vec p.pos, .vec p.vel, .num p.subSonic, .num p.localCs]

/-- `operator>>` of one particle, drag-particles.hpp:196-200 (`hub::input`, IO.hpp:58-62). -/
def Drag.read [Zero K] (sc : Scan K) (s : IStream) (p : Drag K) : Drag K × IStream :=
  let (mass, s) := extract sc s p.mass
  let (pos, s) := extractVec sc s p.pos
  let (vel, s) := extractVec sc s p.vel
  let (subSonic, s) := extract sc s p.subSonic
  let (localCs, s) := extract sc s p.localCs
  ({ mass := mass, pos := pos, vel := vel, subSonic := subSonic, localCs := localCs }, s)

/-! ### the file of a `DefaultWriter` -/

/-- The text of a file written by a `DefaultWriter` (callbacks.hpp:441-452: each entry is ended by a newline). -/
def fileText {K P C : Type} (A : Api K P C) (f : Fmt K) : List (Callbacks.Entry C) → Res (List Char)
  | [] => .ok []
  | .header :: es => do
    let rest ← fileText A f es
    .ok (A.columnNames.toList ++ '\n' :: rest)
  | .row c :: es => do
    let r ← A.print f c
    let rest ← fileText A f es
    .ok (r ++ '\n' :: rest)
  | .raw t :: es => do
    let rest ← fileText A f es
    .ok (t.toList ++ rest)

end SpaceHub.Ptc
