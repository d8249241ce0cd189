import Verif.Model.Particles

/-
What a user expects of a particle container and of the text it prints, without reference to how the container
stores particles: a history of public calls acts on a plain list of particles.
-/

set_option autoImplicit false

namespace SpaceHub.Spec.Ptc
open SpaceHub.Ptc

/-- A public call that changes the particles. -/
inductive Call (P : Type)
  | emplaceBack (p : P)
  | resize (n : Nat)
  | reserve (n : Nat)
  | clear

/-- How the container was made: by default, or from a time and a list of particles. -/
inductive Start (K P : Type)
  | default
  | ofList (t : K) (ps : List P)

/-- The container after its construction and a history of calls. -/
def run {K P C : Type} (A : Api K P C) (s : Start K P) (h : List (Call P)) : C :=
  h.foldl (fun c op => match op with
    | .emplaceBack p => A.emplaceBack c p
    | .resize n => A.resize c n
    | .reserve n => A.reserve c n
    | .clear => A.clear c)
    (match s with
    | .default => A.empty
    | .ofList t ps => A.ofList t ps)

/-- The same history on a plain list; `blank` is the value-initialised particle. -/
def expected {K P : Type} (blank : P) (s : Start K P) (h : List (Call P)) : List P :=
  h.foldl (fun l op => match op with
    | .emplaceBack p => l ++ [p]
    | .resize n => if n ≤ l.length then l.take n else l ++ List.replicate (n - l.length) blank
    | .reserve _ => l
    | .clear => [])
    (match s with
    | .default => []
    | .ofList _ ps => ps)

/-- All arrays of the container have as many elements as it has particles. -/
def Rectangular {K P C : Type} (A : Api K P C) (c : C) : Prop := ∀ l ∈ A.lengths c, l = A.number c

/-- No `resize` of the history asks for more particles than there are; `n` is the number of particles before it. -/
def NoGrow {P : Type} : Nat → List (Call P) → Prop
  | _, [] => True
  | n, .emplaceBack _ :: h => NoGrow (n + 1) h
  | n, .resize m :: h => m ≤ n ∧ NoGrow m h
  | n, .reserve _ :: h => NoGrow n h
  | _, .clear :: h => NoGrow 0 h

/-- number of particles the container starts with -/
def Start.size {K P : Type} : Start K P → Nat
  | .default => 0
  | .ofList _ ps => ps.length

/-- the time the container starts with -/
def Start.time {K P : Type} [Zero K] : Start K P → K
  | .default => 0
  | .ofList t _ => t

/-- A text cut at every occurrence of a separator. -/
def cut (sep : Char) : List Char → List (List Char)
  | [] => [[]]
  | c :: cs =>
    if c = sep then [] :: cut sep cs
    else match cut sep cs with
      | h :: t => (c :: h) :: t
      | [] => [[c]]

/-- The column names of a header line. -/
def columns (header : String) : List String := (cut ',' header.toList).map String.ofList

/-- Numbers are printed without commas and without newlines (true of the default `C` locale). -/
def Plain {K : Type} (f : Fmt K) : Prop :=
  (∀ x, ',' ∉ f.num x ∧ '\n' ∉ f.num x) ∧ (∀ n, ',' ∉ f.idx n ∧ '\n' ∉ f.idx n)

/-- What belongs in a column that every kind of particle has. -/
def common {K : Type} (f : Fmt K) (t : K) (id : Nat) (mass : K) (pos vel : V3 K) (name : String) : Option (List Char) :=
  if name = "time" then some (f.num t)
  else if name = "id" then some (f.idx id)
  else if name = "mass" then some (f.num mass)
  else if name = "px" then some (f.num pos.x)
  else if name = "py" then some (f.num pos.y)
  else if name = "pz" then some (f.num pos.z)
  else if name = "vx" then some (f.num vel.x)
  else if name = "vy" then some (f.num vel.y)
  else if name = "vz" then some (f.num vel.z)
  else none

/-- What belongs in the column of that name, for the time, id and particle of a row. -/
def pointCol {K : Type} (f : Fmt K) (t : K) (id : Nat) (p : Point K) (name : String) : Option (List Char) :=
  common f t id p.mass p.pos p.vel name

def sizeCol {K : Type} (f : Fmt K) (t : K) (id : Nat) (p : Size K) (name : String) : Option (List Char) :=
  if name = "radius" then some (f.num p.radius) else common f t id p.mass p.pos p.vel name

def tideCol {K : Type} (f : Fmt K) (t : K) (id : Nat) (p : Tide K) (name : String) : Option (List Char) :=
  if name = "radius" then some (f.num p.radius)
  else if name = "k_AM" then some (f.num p.kAM)
  else if name = "tau_lag" then some (f.num p.tauLag)
  else common f t id p.mass p.pos p.vel name

def dragCol {K : Type} (f : Fmt K) (t : K) (id : Nat) (p : Drag K) (name : String) : Option (List Char) :=
  if name = "sub_sonic_c" then some (f.num p.subSonic)
  else if name = "local_cs" then some (f.num p.localCs)
  else common f t id p.mass p.pos p.vel name

/-- The text printed for a container is one line per particle, each ended by a newline, and cutting a line at the commas
gives, for each column of the header in turn, what belongs in that column for this particle. -/
def RowsMatchHeader {K P C : Type} (A : Api K P C) (col : Fmt K → K → Nat → P → String → Option (List Char)) : Prop :=
  ∀ (f : Fmt K), Plain f → ∀ c : C, Rectangular A c →
    ∃ (text : List Char) (ps : List P) (lines : List (List Char)),
      A.print f c = .ok text ∧ A.toAoS c = .ok ps ∧ ps.length = A.number c ∧ (A.ids c).length = A.number c ∧
      lines.length = A.number c ∧ cut '\n' text = lines ++ [[]] ∧
      ∀ i (h : i < lines.length) (hp : i < ps.length) (hi : i < (A.ids c).length),
        (cut ',' lines[i]).map some = (columns A.columnNames).map (col f (A.time c) (A.ids c)[i] ps[i])

/-- The file a fresh writer makes of a sequence of snapshots: the header line, then for each snapshot its rows and an
empty line. -/
def FileIsHeaderThenRows {K P C : Type} (A : Api K P C) : Prop :=
  ∀ (f : Fmt K), Plain f → ∀ cs : List C, cs ≠ [] → (∀ c ∈ cs, Rectangular A c) →
    ∃ (text : List Char) (blocks : List (List (List Char))),
      fileText A f (cs.foldl (fun (w : List (Callbacks.Entry C) × Bool) c => Callbacks.defaultWrite w.1 w.2 c)
        ([], false)).1 = .ok text ∧
      blocks.length = cs.length ∧
      (∀ i (h : i < cs.length) (hb : i < blocks.length), blocks[i].length = A.number cs[i] ∧
        ∃ t, A.print f cs[i] = .ok t ∧ cut '\n' t = blocks[i] ++ [[]]) ∧
      cut '\n' text = A.columnNames.toList :: (blocks.map (· ++ [[]])).flatten ++ [[]]

/-- A text of numbers separated by white space. -/
def spaced {K : Type} (f : Fmt K) (xs : List K) : List Char := (xs.map (fun x => f.num x ++ [' '])).flatten

/-- Reading a number that was printed gives that number, whatever separator follows, and no number starts with a comma.
(True of doubles printed with at least 17 significant digits, e.g. `std::scientific << std::setprecision(16)`.) -/
def RoundTrip {K : Type} (f : Fmt K) (sc : Scan K) : Prop :=
  (∀ x, ∃ c cs, f.num x = c :: cs ∧ isSpace c = false) ∧
  (∀ x rest, (rest = [] ∨ ∃ c cs, rest = c :: cs ∧ (c = ',' ∨ isSpace c = true)) →
    sc.num (f.num x ++ rest) = some (x, rest)) ∧
  (∀ cs, sc.num (',' :: cs) = none)

end SpaceHub.Spec.Ptc
