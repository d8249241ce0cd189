import Verif.Proof.ParticlesLawful

/-
C39, C40: particle containers and the text they print; C67: one particle written to and read from a stream.
-/

set_option autoImplicit false

namespace SpaceHub.Props
open SpaceHub.Ptc SpaceHub.Spec.Ptc
variable {K : Type} [Zero K]

/-! ### C39 -/

/-- The container behaves like a plain list of particles under every history of calls: the arrays all have `number()`
elements, and `to_AoS` (which never reads outside an array) gives the particles of the list. -/
def ActsAsList {P C : Type} (A : Api K P C) (blank : P) : Prop :=
  ∀ (s : Start K P) (h : List (Call P)),
    Rectangular A (run A s h) ∧ A.number (run A s h) = (expected blank s h).length ∧
    A.toAoS (run A s h) = .ok (expected blank s h) ∧ A.time (run A s h) = s.time

theorem actsAsList {P C : Type} {A : Api K P C} {blank : P} {col} {rep} (L : Lawful A blank col rep) :
    ActsAsList A blank := by
  intro s h
  obtain ⟨ids, hr⟩ := L.run_rep s h
  exact ⟨L.lengths _ _ _ _ hr, L.number _ _ _ _ hr, L.toAoS _ _ _ _ hr, L.time _ _ _ _ hr⟩

/-- **C39** (arrays).  All four particle types, every history. -/
theorem C39_acts_as_list :
    ActsAsList (Points.api (K := K)) ⟨0, 0, 0⟩ ∧ ActsAsList (Sizes.api (K := K)) ⟨0, 0, 0, 0⟩ ∧
    ActsAsList (Tides.api (K := K)) ⟨0, 0, 0, 0, 0, 0⟩ ∧ ActsAsList (Drags.api (K := K)) ⟨0, 0, 0, 0, 0⟩ :=
  ⟨actsAsList Points.lawful, actsAsList Sizes.lawful, actsAsList Tides.lawful, actsAsList Drags.lawful⟩

/-- Histories in which no `resize` adds particles number the particles 0, 1, 2, …. -/
def NumbersParticles {P C : Type} (A : Api K P C) : Prop :=
  ∀ (s : Start K P) (h : List (Call P)), NoGrow s.size h →
    A.ids (run A s h) = List.range (A.number (run A s h)) ∧ (A.ids (run A s h)).Nodup

theorem start_rep {P C : Type} {A : Api K P C} {blank : P} {col} {rep} (L : Lawful A blank col rep) (s : Start K P) :
    ∃ ps : List P, ps.length = s.size ∧ rep (run A s []) ps (List.range ps.length) s.time := by
  cases s with
  | default => exact ⟨[], rfl, L.empty⟩
  | ofList t ps => exact ⟨ps, rfl, L.ofList t ps⟩

theorem noGrow_rep {P C : Type} {A : Api K P C} {blank : P} {col} {rep} (L : Lawful A blank col rep) (s : Start K P)
    (h : List (Call P)) (hg : NoGrow s.size h) :
    ∃ ps' : List P, rep (run A s h) ps' (List.range ps'.length) s.time := by
  obtain ⟨ps, hp, hr⟩ := start_rep L s
  rw [← hp] at hg
  exact L.run_ids h (run A s []) ps s.time hr hg

theorem numbersParticles {P C : Type} {A : Api K P C} {blank : P} {col} {rep} (L : Lawful A blank col rep) :
    NumbersParticles A := by
  intro s h hg
  obtain ⟨ps, hr⟩ := noGrow_rep L s h hg
  rw [L.ids _ _ _ _ hr, L.number _ _ _ _ hr]
  exact ⟨rfl, List.nodup_range⟩

/-- **C39** (ids).  As long as no `resize` grows the container, the ids are 0, …, number()-1: all different. -/
theorem C39_ids_partial :
    NumbersParticles (Points.api (K := K)) ∧ NumbersParticles (Sizes.api (K := K)) ∧
    NumbersParticles (Tides.api (K := K)) ∧ NumbersParticles (Drags.api (K := K)) :=
  ⟨numbersParticles Points.lawful, numbersParticles Sizes.lawful, numbersParticles Tides.lawful,
    numbersParticles Drags.lawful⟩

/-- After a `resize` to at least two particles that adds some, two particles have the id 0. -/
def GrowingDuplicates {P C : Type} (A : Api K P C) : Prop :=
  ∀ (s : Start K P) (h : List (Call P)) (n : Nat), NoGrow s.size h → A.number (run A s h) < n → 2 ≤ n →
    ∃ i j, i < j ∧ j < n ∧ (A.ids (run A s (h ++ [.resize n])))[i]? = some 0 ∧
      (A.ids (run A s (h ++ [.resize n])))[j]? = some 0

theorem growingDuplicates {P C : Type} {A : Api K P C} {blank : P} {col} {rep} (L : Lawful A blank col rep) :
    GrowingDuplicates A := by
  intro s h n hg hn h2
  obtain ⟨ps, hr⟩ := noGrow_rep L s h hg
  have hnum := L.number _ _ _ _ hr
  rw [hnum] at hn
  have hr' := L.resize _ _ _ _ n hr
  have : run A s (h ++ [.resize n]) = A.resize (run A s h) n := by simp [run]
  rw [this, L.ids _ _ _ _ hr']
  refine ⟨0, n - 1, by omega, by omega, ?_, ?_⟩
  · rcases Nat.eq_zero_or_pos ps.length with h0 | h0
    · rw [vresize, h0, List.getElem?_append_right (by simp)]
      simp only [List.range_zero, List.take_nil, List.length_nil, Nat.sub_zero, List.getElem?_replicate]
      rw [if_pos (by omega)]
    · rw [vresize, List.getElem?_append_left (by simp; omega), List.getElem?_take, if_pos (by omega)]
      simp [h0]
  · rw [vresize, List.getElem?_append_right (by simp; omega)]
    simp only [List.length_take, List.length_range, List.getElem?_replicate]
    rw [if_pos (by omega)]

/-- **C39 is false of the code** for ids: every growing `resize` (to at least two particles) gives the new particles the
id 0, so that ids no longer identify particles. -/
theorem C39_resize_duplicates_ids :
    GrowingDuplicates (Points.api (K := K)) ∧ GrowingDuplicates (Sizes.api (K := K)) ∧
    GrowingDuplicates (Tides.api (K := K)) ∧ GrowingDuplicates (Drags.api (K := K)) :=
  ⟨growingDuplicates Points.lawful, growingDuplicates Sizes.lawful, growingDuplicates Tides.lawful,
    growingDuplicates Drags.lawful⟩

/-- A concrete history: two particles, one dropped, one added. -/
example : NoGrow (Start.ofList (0 : ℤ) [(⟨1, 0, 0⟩ : Point ℤ), ⟨2, 0, 0⟩]).size
      [.resize 1, .reserve 10, .emplaceBack (⟨3, 0, 0⟩ : Point ℤ)] ∧
    (run Points.api (Start.ofList (0 : ℤ) [(⟨1, 0, 0⟩ : Point ℤ), ⟨2, 0, 0⟩])
      [.resize 1, .reserve 10, .emplaceBack (⟨3, 0, 0⟩ : Point ℤ)]).mass = [1, 3] ∧
    (run Points.api (Start.ofList (0 : ℤ) [(⟨1, 0, 0⟩ : Point ℤ), ⟨2, 0, 0⟩]) [.resize 3]).idn = [0, 1, 0] := by
  refine ⟨by simp [NoGrow, Start.size], by rfl, by rfl⟩

/-! ### C40 -/

/-- **C40**.  For all four particle types, whatever the particles: the columns of every printed row are those of the
header, in the order of the header. -/
theorem C40_rows_match_header :
    RowsMatchHeader (Points.api (K := K)) pointCol ∧ RowsMatchHeader (Sizes.api (K := K)) sizeCol ∧
    RowsMatchHeader (Tides.api (K := K)) tideCol ∧ RowsMatchHeader (Drags.api (K := K)) dragCol :=
  ⟨Points.lawful.rows, Sizes.lawful.rows, Tides.lawful.rows, Drags.lawful.rows⟩

/-- The header names each column once, and each name is known: no row shows a quantity under two names. -/
theorem C40_header_names :
    columns (Points.api (K := K)).columnNames = ["time", "id", "mass", "px", "py", "pz", "vx", "vy", "vz"] ∧
    columns (Sizes.api (K := K)).columnNames = ["time", "id", "mass", "radius", "px", "py", "pz", "vx", "vy", "vz"] ∧
    columns (Tides.api (K := K)).columnNames =
      ["time", "id", "mass", "radius", "k_AM", "tau_lag", "px", "py", "pz", "vx", "vy", "vz"] ∧
    columns (Drags.api (K := K)).columnNames =
      ["time", "id", "mass", "px", "py", "pz", "vx", "vy", "vz", "sub_sonic_c", "local_cs"] := by
  refine ⟨?_, ?_, ?_, ?_⟩ <;>
    simp [columns, Points.api, Sizes.api, Tides.api, Drags.api, Points.columnNames, Sizes.columnNames,
      Tides.columnNames, Drags.columnNames, cut]

omit [Zero K] in
theorem cut_append' {a b : List Char} {la lb : List (List Char)} (ha : cut '\n' a = la ++ [[]]) (hb : cut '\n' b = lb) :
    cut '\n' (a ++ b) = la ++ lb := by
  induction a generalizing la with
  | nil =>
    cases la with
    | nil => simpa using hb
    | cons x xs => simp [cut] at ha
  | cons c cs ih =>
    rw [List.cons_append, cut]
    rw [cut] at ha
    split_ifs at ha ⊢ with h
    · cases la with
      | nil =>
        simp only [List.nil_append, List.cons.injEq, true_and] at ha
        exact absurd ha (cut_ne_nil _)
      | cons x xs =>
        simp only [List.cons_append, List.cons.injEq] at ha
        rw [ih ha.2, ← ha.1]
        simp
    · cases hc : cut '\n' cs with
      | nil => exact absurd hc (cut_ne_nil _)
      | cons x xs =>
        rw [hc] at ha
        dsimp only at ha
        cases la with
        | nil => simp at ha
        | cons y ys =>
          simp only [List.cons_append, List.cons.injEq] at ha
          rw [ih (la := x :: ys) (by rw [hc]; simp [ha.2])]
          simp [ha.1]

theorem defaultWrite_all {C : Type} (cs : List C) (hne : cs ≠ []) :
    (cs.foldl (fun (w : List (Callbacks.Entry C) × Bool) c => Callbacks.defaultWrite w.1 w.2 c) ([], false)).1 =
      .header :: cs.map .row := by
  have key : ∀ (cs : List C) (es : List (Callbacks.Entry C)),
      (cs.foldl (fun (w : List (Callbacks.Entry C) × Bool) c => Callbacks.defaultWrite w.1 w.2 c) (es, true)).1 =
        es ++ cs.map .row := by
    intro cs
    induction cs with
    | nil => intro es; simp
    | cons c cs ih =>
      intro es
      rw [List.foldl_cons]
      have : Callbacks.defaultWrite es true c = (es ++ [.row c], true) := rfl
      simp only [this]
      rw [ih]
      simp
  cases cs with
  | nil => exact absurd rfl hne
  | cons c cs =>
    rw [List.foldl_cons]
    have : Callbacks.defaultWrite ([] : List (Callbacks.Entry C)) false c = ([.header, .row c], true) := rfl
    simp only [this]
    rw [key]
    simp

omit [Zero K] in
theorem fileIsHeaderThenRows {P C : Type} {A : Api K P C} {col} (hA : RowsMatchHeader A col)
    (hn : '\n' ∉ A.columnNames.toList) : FileIsHeaderThenRows A := by
  intro f hf cs hne hrect
  rw [defaultWrite_all cs hne]
  have hrows : ∀ cs : List C, (∀ c ∈ cs, Rectangular A c) → ∃ (text : List Char) (blocks : List (List (List Char))),
      fileText A f (cs.map .row) = .ok text ∧ blocks.length = cs.length ∧
      (∀ i (h : i < cs.length) (hb : i < blocks.length), blocks[i].length = A.number cs[i] ∧
        ∃ t, A.print f cs[i] = .ok t ∧ cut '\n' t = blocks[i] ++ [[]]) ∧
      cut '\n' text = (blocks.map (· ++ [[]])).flatten ++ [[]] := by
    intro cs
    induction cs with
    | nil => intro _; exact ⟨[], [], rfl, rfl, by simp, rfl⟩
    | cons c cs ih =>
      intro hr
      obtain ⟨text, blocks, h1, h2, h3, h4⟩ := ih (fun x hx => hr x (by simp [hx]))
      obtain ⟨t, ps, lines, g1, _, _, _, g2, g3, _⟩ := hA f hf c (hr c (by simp))
      refine ⟨t ++ '\n' :: text, lines :: blocks, ?_, by simp [h2], ?_, ?_⟩
      · simp only [List.map_cons, fileText, g1, h1]
        rfl
      · intro i h hb
        cases i with
        | zero => exact ⟨g2, t, g1, g3⟩
        | succ i => exact h3 i (by simpa using h) (by simpa using hb)
      · rw [cut_append' g3 (lb := [] :: cut '\n' text) (by simp [cut]), h4]
        simp
  obtain ⟨text, blocks, h1, h2, h3, h4⟩ := hrows cs hrect
  refine ⟨A.columnNames.toList ++ '\n' :: text, blocks, ?_, h2, h3, ?_⟩
  · simp only [fileText, h1]
    rfl
  · rw [cut_append hn, h4]
    simp

/-- **C40** (file).  The file a fresh `DefaultWriter` makes of any sequence of snapshots is the header line followed by
the rows of each snapshot in turn, each snapshot ended by an empty line. -/
theorem C40_file :
    FileIsHeaderThenRows (Points.api (K := K)) ∧ FileIsHeaderThenRows (Sizes.api (K := K)) ∧
    FileIsHeaderThenRows (Tides.api (K := K)) ∧ FileIsHeaderThenRows (Drags.api (K := K)) :=
  ⟨fileIsHeaderThenRows Points.lawful.rows (by simp [Points.api, Points.columnNames]),
   fileIsHeaderThenRows Sizes.lawful.rows (by simp [Sizes.api, Sizes.columnNames]),
   fileIsHeaderThenRows Tides.lawful.rows (by simp [Tides.api, Tides.columnNames]),
   fileIsHeaderThenRows Drags.lawful.rows (by simp [Drags.api, Drags.columnNames])⟩

/-- A concrete row. -/
example : ∃ t, Points.print ⟨fun x : Nat => (toString x).toList, fun n => (toString n).toList⟩
      ⟨[⟨1, 2, 3⟩], [⟨4, 5, 6⟩], [7], [0], 9, 1⟩ = .ok t ∧ String.ofList t = "9,0,7,1,2,3,4,5,6\n" := by
  refine ⟨_, rfl, by rfl⟩

/-! ### C67 -/

omit [Zero K] in
theorem dropWhile_num {f : Fmt K} {sc : Scan K} (h : RoundTrip f sc) (x : K) (rest : List Char) :
    (f.num x ++ rest).dropWhile isSpace = f.num x ++ rest := by
  obtain ⟨c, cs, hc, hs⟩ := h.1 x
  rw [hc, List.cons_append, List.dropWhile_cons_of_neg (by simp [hs])]

theorem extract_num {f : Fmt K} {sc : Scan K} (h : RoundTrip f sc) (x y : K) (rest : List Char)
    (hr : rest = [] ∨ ∃ c cs, rest = c :: cs ∧ (c = ',' ∨ isSpace c = true)) :
    extract sc ⟨f.num x ++ rest, false⟩ y = (x, ⟨rest, false⟩) := by
  have h1 := h.2.1 x rest hr
  have h2 := dropWhile_num h x rest
  obtain ⟨c, cs, hc, hs⟩ := h.1 x
  simp only [extract]
  rw [if_neg (by simp), h2]
  rw [hc, List.cons_append] at h1 ⊢
  simp only [h1]

theorem extract_space {sc : Scan K} (y : K) (rest : List Char) :
    extract sc ⟨' ' :: rest, false⟩ y = extract sc ⟨rest, false⟩ y := by
  simp [extract, isSpace]

theorem extract_comma {f : Fmt K} {sc : Scan K} (h : RoundTrip f sc) (y : K) (rest : List Char) :
    extract sc ⟨',' :: rest, false⟩ y = (0, ⟨',' :: rest, true⟩) := by
  simp [extract, isSpace, h.2.2]

theorem extract_fail {sc : Scan K} (y : K) (rest : List Char) :
    extract sc ⟨rest, true⟩ y = (y, ⟨rest, true⟩) := by
  simp [extract]

/-- **C67 is false of the code**: whatever the particle, reading back with `operator>>` what `operator<<` wrote fails
after the mass: the stream is left in the failed state, the first field after the mass is 0 and all the others keep
their old values. -/
theorem C67_written_particle_not_readable (f : Fmt K) (sc : Scan K) (h : RoundTrip f sc) :
    (∀ p old : Point K, (Point.read sc ⟨p.write f, false⟩ old).2.fail = true ∧
      (Point.read sc ⟨p.write f, false⟩ old).1 = ⟨p.mass, ⟨0, old.pos.y, old.pos.z⟩, old.vel⟩) ∧
    (∀ p old : Size K, (Size.read sc ⟨p.write f, false⟩ old).2.fail = true ∧
      (Size.read sc ⟨p.write f, false⟩ old).1 = ⟨p.mass, old.pos, old.vel, 0⟩) ∧
    (∀ p old : Tide K, (Tide.read sc ⟨p.write f, false⟩ old).2.fail = true ∧
      (Tide.read sc ⟨p.write f, false⟩ old).1 = ⟨p.mass, old.pos, old.vel, 0, old.kAM, old.tauLag⟩) ∧
    (∀ p old : Drag K, (Drag.read sc ⟨p.write f, false⟩ old).2.fail = true ∧
      (Drag.read sc ⟨p.write f, false⟩ old).1 =
        ⟨p.mass, ⟨0, old.pos.y, old.pos.z⟩, old.vel, old.subSonic, old.localCs⟩) := by
  refine ⟨?_, ?_, ?_, ?_⟩ <;> intro p old
  · simp only [Point.write, Point.read, printCsv, printItem, List.foldl_cons, List.foldl_nil, List.append_assoc,
      List.cons_append]
    rw [extract_num h _ _ _ (Or.inr ⟨_, _, rfl, Or.inl rfl⟩)]
    simp only [extractVec, extract_comma h, extract_fail, and_self]
  · simp only [Size.write, Size.read, printCsv, printItem, List.foldl_cons, List.foldl_nil, List.append_assoc,
      List.cons_append]
    rw [extract_num h _ _ _ (Or.inr ⟨_, _, rfl, Or.inl rfl⟩)]
    simp only [extractVec, extract_comma h, extract_fail, and_self]
  · simp only [Tide.write, Tide.read, printCsv, printItem, List.foldl_cons, List.foldl_nil, List.append_assoc,
      List.cons_append]
    rw [extract_num h _ _ _ (Or.inr ⟨_, _, rfl, Or.inl rfl⟩)]
    simp only [extractVec, extract_comma h, extract_fail, and_self]
  · simp only [Drag.write, Drag.read, printCsv, printItem, List.foldl_cons, List.foldl_nil, List.append_assoc,
      List.cons_append]
    rw [extract_num h _ _ _ (Or.inr ⟨_, _, rfl, Or.inl rfl⟩)]
    simp only [extractVec, extract_comma h, extract_fail, and_self]

/-- **C67**, what holds: `operator>>` reads the fields in the order in which `operator<<` writes them, so that a text of
the same numbers separated by white space instead of commas is read as the particle. -/
theorem C67_spaced_particle_readable_partial (f : Fmt K) (sc : Scan K) (h : RoundTrip f sc) :
    (∀ p old : Point K, Point.read sc
      ⟨spaced f [p.mass, p.pos.x, p.pos.y, p.pos.z, p.vel.x, p.vel.y, p.vel.z], false⟩ old = (p, ⟨[' '], false⟩)) ∧
    (∀ p old : Size K, Size.read sc
      ⟨spaced f [p.mass, p.radius, p.pos.x, p.pos.y, p.pos.z, p.vel.x, p.vel.y, p.vel.z], false⟩ old =
        (p, ⟨[' '], false⟩)) ∧
    (∀ p old : Tide K, Tide.read sc
      ⟨spaced f [p.mass, p.radius, p.pos.x, p.pos.y, p.pos.z, p.vel.x, p.vel.y, p.vel.z, p.kAM, p.tauLag], false⟩ old =
        (p, ⟨[' '], false⟩)) ∧
    (∀ p old : Drag K, Drag.read sc
      ⟨spaced f [p.mass, p.pos.x, p.pos.y, p.pos.z, p.vel.x, p.vel.y, p.vel.z, p.subSonic, p.localCs], false⟩ old =
        (p, ⟨[' '], false⟩)) := by
  have e1 : ∀ (x y : K) (rest : List Char),
      extract sc ⟨f.num x ++ ' ' :: rest, false⟩ y = (x, ⟨' ' :: rest, false⟩) := fun x y rest =>
    extract_num h x y (' ' :: rest) (Or.inr ⟨' ', rest, rfl, Or.inr (by decide)⟩)
  refine ⟨?_, ?_, ?_, ?_⟩ <;> intro p old
  · simp [spaced, Point.read, extractVec, e1, extract_space]
  · simp [spaced, Size.read, extractVec, e1, extract_space]
  · simp [spaced, Tide.read, extractVec, e1, extract_space]
  · simp [spaced, Drag.read, extractVec, e1, extract_space]

omit [Zero K] in
/-- The comma-separated text written for each kind of particle has the numbers in that same order. -/
theorem C67_written_order (f : Fmt K) (hf : Plain f) :
    (∀ p : Point K, cut ',' (p.write f) =
      [p.mass, p.pos.x, p.pos.y, p.pos.z, p.vel.x, p.vel.y, p.vel.z].map f.num) ∧
    (∀ p : Size K, cut ',' (p.write f) =
      [p.mass, p.radius, p.pos.x, p.pos.y, p.pos.z, p.vel.x, p.vel.y, p.vel.z].map f.num) ∧
    (∀ p : Tide K, cut ',' (p.write f) =
      [p.mass, p.radius, p.pos.x, p.pos.y, p.pos.z, p.vel.x, p.vel.y, p.vel.z, p.kAM, p.tauLag].map f.num) ∧
    (∀ p : Drag K, cut ',' (p.write f) =
      [p.mass, p.pos.x, p.pos.y, p.pos.z, p.vel.x, p.vel.y, p.vel.z, p.subSonic, p.localCs].map f.num) := by
  refine ⟨?_, ?_, ?_, ?_⟩ <;> intro p
  · simp [Point.write, printCsv, printItem, printVec, cut_append (hf.1 _).1, cut_not_mem (hf.1 _).1]
  · simp [Size.write, printCsv, printItem, printVec, cut_append (hf.1 _).1, cut_not_mem (hf.1 _).1]
  · simp [Tide.write, printCsv, printItem, printVec, cut_append (hf.1 _).1, cut_not_mem (hf.1 _).1]
  · simp [Drag.write, printCsv, printItem, printVec, cut_append (hf.1 _).1, cut_not_mem (hf.1 _).1]

/-- Formatting of booleans as 0 and 1 satisfies the assumptions. -/
example : RoundTrip (⟨fun b : Bool => if b then ['1'] else ['0'], fun _ => []⟩ : Fmt Bool)
    ⟨fun t => match t with
      | '0' :: r => some (false, r)
      | '1' :: r => some (true, r)
      | _ => none⟩ := by
  refine ⟨fun x => ?_, fun x rest _ => ?_, fun _ => rfl⟩
  · cases x
    · exact ⟨'0', [], rfl, by decide⟩
    · exact ⟨'1', [], rfl, by decide⟩
  · cases x <;> rfl

end SpaceHub.Props
