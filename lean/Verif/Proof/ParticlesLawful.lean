import Verif.Proof.Particles
import Mathlib.Data.List.OfFn

/-! The four container classes keep their arrays in step (used by Props/Particles.lean). -/

set_option autoImplicit false

namespace SpaceHub.Ptc
open SpaceHub.Spec.Ptc
variable {K : Type} [Zero K]

/-- The arrays of a `Points` hold these particles, ids and time. -/
def Points.rep (c : Points K) (ps : List (Point K)) (ids : List Nat) (t : K) : Prop :=
  c.pos = ps.map (·.pos) ∧ c.vel = ps.map (·.vel) ∧ c.mass = ps.map (·.mass) ∧ c.idn = ids ∧ ids.length = ps.length ∧ c.time = t ∧ c.activeNum = ps.length

/-- The value-initialised particle. -/
def Point.blank : Point K := ⟨0, 0, 0⟩

omit [Zero K] in
theorem Points.ofList_aux (ps : List (Point K)) : ∀ (c : Points K) (k : Nat),
    let r := ps.foldl (fun (s : Points K × Nat) p =>
      ({ s.1 with pos := s.1.pos ++ [p.pos], vel := s.1.vel ++ [p.vel], mass := s.1.mass ++ [p.mass], idn := s.1.idn ++ [s.2] }, s.2 + 1)) (c, k)
    r.1.pos = c.pos ++ ps.map (·.pos) ∧ r.1.vel = c.vel ++ ps.map (·.vel) ∧ r.1.mass = c.mass ++ ps.map (·.mass) ∧ r.1.idn = c.idn ++ List.range' k ps.length := by
  induction ps with
  | nil => intro c k; simp
  | cons p ps ih =>
    intro c k
    have := ih { c with pos := c.pos ++ [p.pos], vel := c.vel ++ [p.vel], mass := c.mass ++ [p.mass], idn := c.idn ++ [k] } (k + 1)
    simp only [List.foldl_cons, List.map_cons, List.length_cons, List.range'_succ] at this ⊢
    simpa [List.append_assoc] using this

theorem Points.lawful : Lawful (Points.api (K := K)) Point.blank pointCol Points.rep where
  empty := by simp [Points.api, Points.empty, Points.rep]
  ofList t ps := by
    have := Points.ofList_aux ps Points.empty 0
    simp only [Points.api, Points.ofList, Points.rep]
    simp only [Points.empty, List.nil_append, ← List.range_eq_range'] at this ⊢
    obtain ⟨h0, h1, h2, hi⟩ := this
    refine ⟨h0, h1, h2, hi, by simp, trivial, trivial⟩
  emplace c ps ids t p := by
    rintro ⟨h0, h1, h2, hi, hl, ht, hn⟩
    simp [Points.api, Points.emplaceBack, Points.rep, h0, h1, h2, hi, hl, ht, hn]
  resize c ps ids t n := by
    rintro ⟨h0, h1, h2, hi, hl, ht, hn⟩
    simp only [Points.api, Points.resize, Points.rep, h0, h1, h2, hi, ht, vresize_length, and_self, and_true, ← vresize_map]
    simp [Point.blank]
  reserve c ps ids t n h := h
  clear c ps ids t := by
    rintro ⟨h0, h1, h2, hi, hl, ht, hn⟩
    simp [Points.api, Points.clear, Points.rep, ht]
  number c ps ids t := by
    rintro ⟨h0, h1, h2, hi, hl, ht, hn⟩
    exact hn
  lengths c ps ids t := by
    rintro ⟨h0, h1, h2, hi, hl, ht, hn⟩
    intro l hl'
    simp only [Points.api, h0, h1, h2, hi, hl, hn, List.length_map] at hl' ⊢
    simpa using hl'
  nonempty c := by simp [Points.api]
  idsLen c ps ids t h := h.2.2.2.2.1
  ids c ps ids t h := h.2.2.2.1
  time c ps ids t h := h.2.2.2.2.2.1
  toAoS c ps ids t := by
    rintro ⟨h0, h1, h2, hi, hl, ht, hn⟩
    show Points.toAoS c = _
    rw [Points.toAoS, hn]
    apply collect_ok
    intro i hi'
    simp only [h0, h1, h2]
    simp [vget_ok, hi', bind, Res.bind]
  all c hc := by
    simp only [Rectangular, Points.api, List.mem_cons, List.not_mem_nil, or_false, forall_eq_or_imp, forall_eq] at hc
    obtain ⟨h0, h1, h2, hi⟩ := hc
    refine ⟨List.ofFn (n := c.activeNum) (fun i => ⟨c.mass[i], c.pos[i], c.vel[i]⟩), c.idn, c.time, ?_⟩
    refine ⟨?_, ?_, ?_, rfl, by simp [hi], rfl, by simp⟩
    all_goals
      apply List.ext_getElem
      · simp [h0, h1, h2]
      · intro i h1 h2
        simp
  print f c ps ids t := by
    rintro ⟨h0, h1, h2, hi, hl, ht, hn⟩
    refine ⟨List.ofFn (n := ps.length) (fun i =>
      let p := ps[i]
      [f.num t, f.idx ids[i], f.num p.mass, f.num p.pos.x, f.num p.pos.y, f.num p.pos.z, f.num p.vel.x, f.num p.vel.y, f.num p.vel.z]), by simp, ?_, ?_⟩
    · show Points.print f c = _
      rw [Points.print, hn]
      have hc : collect (Points.row f c) ps.length = .ok (List.ofFn (n := ps.length) (fun i =>
          let p := ps[i]
          (fun r : List (List Char) => r.head?.getD [] ++ (r.tail.map (fun x => ',' :: x)).flatten ++ ['\n'])
          [f.num t, f.idx ids[i], f.num p.mass, f.num p.pos.x, f.num p.pos.y, f.num p.pos.z, f.num p.vel.x, f.num p.vel.y, f.num p.vel.z])) := by
        apply collect_ok' _ _ _ (by simp)
        intro i hi'
        have hi'' : i < ps.length := by simpa using hi'
        simp only [Points.row, h0, h1, h2, hi]
        rw [vget_ok (by omega)]
        simp [vget_ok, hi'', bind, Res.bind, Ptc.print, printItem, printVec, ht]
      rw [hc]
      simp [bind, Res.bind, List.map_ofFn, Function.comp_def]
    · intro i h hp hi'
      simp only [List.getElem_ofFn]
      have hcol : columns (Points.api (K := K)).columnNames = ["time", "id", "mass", "px", "py", "pz", "vx", "vy", "vz"] := by simp [columns, Points.api, Points.columnNames, cut]
      rw [hcol]
      refine ⟨by simp, by simp [pointCol, common], ?_⟩
      intro hf x hx
      simp only [List.mem_cons, List.not_mem_nil, or_false] at hx
      rcases hx with rfl | rfl | rfl | rfl | rfl | rfl | rfl | rfl | rfl
      · exact hf.1 _
      · exact hf.2 _
      all_goals exact hf.1 _

/-- The arrays of a `Sizes` hold these particles, ids and time. -/
def Sizes.rep (c : Sizes K) (ps : List (Size K)) (ids : List Nat) (t : K) : Prop :=
  c.pos = ps.map (·.pos) ∧ c.vel = ps.map (·.vel) ∧ c.mass = ps.map (·.mass) ∧ c.radius = ps.map (·.radius) ∧ c.idn = ids ∧ ids.length = ps.length ∧ c.time = t ∧ c.activeNum = ps.length

/-- The value-initialised particle. -/
def Size.blank : Size K := ⟨0, 0, 0, 0⟩

omit [Zero K] in
theorem Sizes.ofList_aux (ps : List (Size K)) : ∀ (c : Sizes K) (k : Nat),
    let r := ps.foldl (fun (s : Sizes K × Nat) p =>
      ({ s.1 with pos := s.1.pos ++ [p.pos], vel := s.1.vel ++ [p.vel], mass := s.1.mass ++ [p.mass], radius := s.1.radius ++ [p.radius], idn := s.1.idn ++ [s.2] }, s.2 + 1)) (c, k)
    r.1.pos = c.pos ++ ps.map (·.pos) ∧ r.1.vel = c.vel ++ ps.map (·.vel) ∧ r.1.mass = c.mass ++ ps.map (·.mass) ∧ r.1.radius = c.radius ++ ps.map (·.radius) ∧ r.1.idn = c.idn ++ List.range' k ps.length := by
  induction ps with
  | nil => intro c k; simp
  | cons p ps ih =>
    intro c k
    have := ih { c with pos := c.pos ++ [p.pos], vel := c.vel ++ [p.vel], mass := c.mass ++ [p.mass], radius := c.radius ++ [p.radius], idn := c.idn ++ [k] } (k + 1)
    simp only [List.foldl_cons, List.map_cons, List.length_cons, List.range'_succ] at this ⊢
    simpa [List.append_assoc] using this

theorem Sizes.lawful : Lawful (Sizes.api (K := K)) Size.blank sizeCol Sizes.rep where
  empty := by simp [Sizes.api, Sizes.empty, Sizes.rep]
  ofList t ps := by
    have := Sizes.ofList_aux ps Sizes.empty 0
    simp only [Sizes.api, Sizes.ofList, Sizes.rep]
    simp only [Sizes.empty, List.nil_append, ← List.range_eq_range'] at this ⊢
    obtain ⟨h0, h1, h2, h3, hi⟩ := this
    refine ⟨h0, h1, h2, h3, hi, by simp, trivial, trivial⟩
  emplace c ps ids t p := by
    rintro ⟨h0, h1, h2, h3, hi, hl, ht, hn⟩
    simp [Sizes.api, Sizes.emplaceBack, Sizes.rep, h0, h1, h2, h3, hi, hl, ht, hn]
  resize c ps ids t n := by
    rintro ⟨h0, h1, h2, h3, hi, hl, ht, hn⟩
    simp only [Sizes.api, Sizes.resize, Sizes.rep, h0, h1, h2, h3, hi, ht, vresize_length, and_self, and_true, ← vresize_map]
    simp [Size.blank]
  reserve c ps ids t n h := h
  clear c ps ids t := by
    rintro ⟨h0, h1, h2, h3, hi, hl, ht, hn⟩
    simp [Sizes.api, Sizes.clear, Sizes.rep, ht]
  number c ps ids t := by
    rintro ⟨h0, h1, h2, h3, hi, hl, ht, hn⟩
    exact hn
  lengths c ps ids t := by
    rintro ⟨h0, h1, h2, h3, hi, hl, ht, hn⟩
    intro l hl'
    simp only [Sizes.api, h0, h1, h2, h3, hi, hl, hn, List.length_map] at hl' ⊢
    simpa using hl'
  nonempty c := by simp [Sizes.api]
  idsLen c ps ids t h := h.2.2.2.2.2.1
  ids c ps ids t h := h.2.2.2.2.1
  time c ps ids t h := h.2.2.2.2.2.2.1
  toAoS c ps ids t := by
    rintro ⟨h0, h1, h2, h3, hi, hl, ht, hn⟩
    show Sizes.toAoS c = _
    rw [Sizes.toAoS, hn]
    apply collect_ok
    intro i hi'
    simp only [h0, h1, h2, h3]
    simp [vget_ok, hi', bind, Res.bind]
  all c hc := by
    simp only [Rectangular, Sizes.api, List.mem_cons, List.not_mem_nil, or_false, forall_eq_or_imp, forall_eq] at hc
    obtain ⟨h0, h1, h2, h3, hi⟩ := hc
    refine ⟨List.ofFn (n := c.activeNum) (fun i => ⟨c.mass[i], c.pos[i], c.vel[i], c.radius[i]⟩), c.idn, c.time, ?_⟩
    refine ⟨?_, ?_, ?_, ?_, rfl, by simp [hi], rfl, by simp⟩
    all_goals
      apply List.ext_getElem
      · simp [h0, h1, h2, h3]
      · intro i h1 h2
        simp
  print f c ps ids t := by
    rintro ⟨h0, h1, h2, h3, hi, hl, ht, hn⟩
    refine ⟨List.ofFn (n := ps.length) (fun i =>
      let p := ps[i]
      [f.num t, f.idx ids[i], f.num p.mass, f.num p.radius, f.num p.pos.x, f.num p.pos.y, f.num p.pos.z, f.num p.vel.x, f.num p.vel.y, f.num p.vel.z]), by simp, ?_, ?_⟩
    · show Sizes.print f c = _
      rw [Sizes.print, hn]
      have hc : collect (Sizes.row f c) ps.length = .ok (List.ofFn (n := ps.length) (fun i =>
          let p := ps[i]
          (fun r : List (List Char) => r.head?.getD [] ++ (r.tail.map (fun x => ',' :: x)).flatten ++ ['\n'])
          [f.num t, f.idx ids[i], f.num p.mass, f.num p.radius, f.num p.pos.x, f.num p.pos.y, f.num p.pos.z, f.num p.vel.x, f.num p.vel.y, f.num p.vel.z])) := by
        apply collect_ok' _ _ _ (by simp)
        intro i hi'
        have hi'' : i < ps.length := by simpa using hi'
        simp only [Sizes.row, h0, h1, h2, h3, hi]
        rw [vget_ok (by omega)]
        simp [vget_ok, hi'', bind, Res.bind, Ptc.print, printItem, printVec, ht]
      rw [hc]
      simp [bind, Res.bind, List.map_ofFn, Function.comp_def]
    · intro i h hp hi'
      simp only [List.getElem_ofFn]
      have hcol : columns (Sizes.api (K := K)).columnNames = ["time", "id", "mass", "radius", "px", "py", "pz", "vx", "vy", "vz"] := by simp [columns, Sizes.api, Sizes.columnNames, cut]
      rw [hcol]
      refine ⟨by simp, by simp [sizeCol, common], ?_⟩
      intro hf x hx
      simp only [List.mem_cons, List.not_mem_nil, or_false] at hx
      rcases hx with rfl | rfl | rfl | rfl | rfl | rfl | rfl | rfl | rfl | rfl
      · exact hf.1 _
      · exact hf.2 _
      all_goals exact hf.1 _

/-- The arrays of a `Tides` hold these particles, ids and time. -/
def Tides.rep (c : Tides K) (ps : List (Tide K)) (ids : List Nat) (t : K) : Prop :=
  c.pos = ps.map (·.pos) ∧ c.vel = ps.map (·.vel) ∧ c.mass = ps.map (·.mass) ∧ c.radius = ps.map (·.radius) ∧ c.kAM = ps.map (·.kAM) ∧ c.tauLag = ps.map (·.tauLag) ∧ c.idn = ids ∧ ids.length = ps.length ∧ c.time = t ∧ c.activeNum = ps.length

/-- The value-initialised particle. -/
def Tide.blank : Tide K := ⟨0, 0, 0, 0, 0, 0⟩

omit [Zero K] in
theorem Tides.ofList_aux (ps : List (Tide K)) : ∀ (c : Tides K) (k : Nat),
    let r := ps.foldl (fun (s : Tides K × Nat) p =>
      ({ s.1 with pos := s.1.pos ++ [p.pos], vel := s.1.vel ++ [p.vel], mass := s.1.mass ++ [p.mass], radius := s.1.radius ++ [p.radius], kAM := s.1.kAM ++ [p.kAM], tauLag := s.1.tauLag ++ [p.tauLag], idn := s.1.idn ++ [s.2] }, s.2 + 1)) (c, k)
    r.1.pos = c.pos ++ ps.map (·.pos) ∧ r.1.vel = c.vel ++ ps.map (·.vel) ∧ r.1.mass = c.mass ++ ps.map (·.mass) ∧ r.1.radius = c.radius ++ ps.map (·.radius) ∧ r.1.kAM = c.kAM ++ ps.map (·.kAM) ∧ r.1.tauLag = c.tauLag ++ ps.map (·.tauLag) ∧ r.1.idn = c.idn ++ List.range' k ps.length := by
  induction ps with
  | nil => intro c k; simp
  | cons p ps ih =>
    intro c k
    have := ih { c with pos := c.pos ++ [p.pos], vel := c.vel ++ [p.vel], mass := c.mass ++ [p.mass], radius := c.radius ++ [p.radius], kAM := c.kAM ++ [p.kAM], tauLag := c.tauLag ++ [p.tauLag], idn := c.idn ++ [k] } (k + 1)
    simp only [List.foldl_cons, List.map_cons, List.length_cons, List.range'_succ] at this ⊢
    simpa [List.append_assoc] using this

theorem Tides.lawful : Lawful (Tides.api (K := K)) Tide.blank tideCol Tides.rep where
  empty := by simp [Tides.api, Tides.empty, Tides.rep]
  ofList t ps := by
    have := Tides.ofList_aux ps Tides.empty 0
    simp only [Tides.api, Tides.ofList, Tides.rep]
    simp only [Tides.empty, List.nil_append, ← List.range_eq_range'] at this ⊢
    obtain ⟨h0, h1, h2, h3, h4, h5, hi⟩ := this
    refine ⟨h0, h1, h2, h3, h4, h5, hi, by simp, trivial, trivial⟩
  emplace c ps ids t p := by
    rintro ⟨h0, h1, h2, h3, h4, h5, hi, hl, ht, hn⟩
    simp [Tides.api, Tides.emplaceBack, Tides.rep, h0, h1, h2, h3, h4, h5, hi, hl, ht, hn]
  resize c ps ids t n := by
    rintro ⟨h0, h1, h2, h3, h4, h5, hi, hl, ht, hn⟩
    simp only [Tides.api, Tides.resize, Tides.rep, h0, h1, h2, h3, h4, h5, hi, ht, vresize_length, and_self, and_true, ← vresize_map]
    simp [Tide.blank]
  reserve c ps ids t n h := h
  clear c ps ids t := by
    rintro ⟨h0, h1, h2, h3, h4, h5, hi, hl, ht, hn⟩
    simp [Tides.api, Tides.clear, Tides.rep, ht]
  number c ps ids t := by
    rintro ⟨h0, h1, h2, h3, h4, h5, hi, hl, ht, hn⟩
    exact hn
  lengths c ps ids t := by
    rintro ⟨h0, h1, h2, h3, h4, h5, hi, hl, ht, hn⟩
    intro l hl'
    simp only [Tides.api, h0, h1, h2, h3, h4, h5, hi, hl, hn, List.length_map] at hl' ⊢
    simpa using hl'
  nonempty c := by simp [Tides.api]
  idsLen c ps ids t h := h.2.2.2.2.2.2.2.1
  ids c ps ids t h := h.2.2.2.2.2.2.1
  time c ps ids t h := h.2.2.2.2.2.2.2.2.1
  toAoS c ps ids t := by
    rintro ⟨h0, h1, h2, h3, h4, h5, hi, hl, ht, hn⟩
    show Tides.toAoS c = _
    rw [Tides.toAoS, hn]
    apply collect_ok
    intro i hi'
    simp only [h0, h1, h2, h3, h4, h5]
    simp [vget_ok, hi', bind, Res.bind]
  all c hc := by
    simp only [Rectangular, Tides.api, List.mem_cons, List.not_mem_nil, or_false, forall_eq_or_imp, forall_eq] at hc
    obtain ⟨h0, h1, h2, h3, h4, h5, hi⟩ := hc
    refine ⟨List.ofFn (n := c.activeNum) (fun i => ⟨c.mass[i], c.pos[i], c.vel[i], c.radius[i], c.kAM[i], c.tauLag[i]⟩), c.idn, c.time, ?_⟩
    refine ⟨?_, ?_, ?_, ?_, ?_, ?_, rfl, by simp [hi], rfl, by simp⟩
    all_goals
      apply List.ext_getElem
      · simp [h0, h1, h2, h3, h4, h5]
      · intro i h1 h2
        simp
  print f c ps ids t := by
    rintro ⟨h0, h1, h2, h3, h4, h5, hi, hl, ht, hn⟩
    refine ⟨List.ofFn (n := ps.length) (fun i =>
      let p := ps[i]
      [f.num t, f.idx ids[i], f.num p.mass, f.num p.radius, f.num p.kAM, f.num p.tauLag, f.num p.pos.x, f.num p.pos.y, f.num p.pos.z, f.num p.vel.x, f.num p.vel.y, f.num p.vel.z]), by simp, ?_, ?_⟩
    · show Tides.print f c = _
      rw [Tides.print, hn]
      have hc : collect (Tides.row f c) ps.length = .ok (List.ofFn (n := ps.length) (fun i =>
          let p := ps[i]
          (fun r : List (List Char) => r.head?.getD [] ++ (r.tail.map (fun x => ',' :: x)).flatten ++ ['\n'])
          [f.num t, f.idx ids[i], f.num p.mass, f.num p.radius, f.num p.kAM, f.num p.tauLag, f.num p.pos.x, f.num p.pos.y, f.num p.pos.z, f.num p.vel.x, f.num p.vel.y, f.num p.vel.z])) := by
        apply collect_ok' _ _ _ (by simp)
        intro i hi'
        have hi'' : i < ps.length := by simpa using hi'
        simp only [Tides.row, h0, h1, h2, h3, h4, h5, hi]
        rw [vget_ok (by omega)]
        simp [vget_ok, hi'', bind, Res.bind, Ptc.print, printItem, printVec, ht]
      rw [hc]
      simp [bind, Res.bind, List.map_ofFn, Function.comp_def]
    · intro i h hp hi'
      simp only [List.getElem_ofFn]
      have hcol : columns (Tides.api (K := K)).columnNames = ["time", "id", "mass", "radius", "k_AM", "tau_lag", "px", "py", "pz", "vx", "vy", "vz"] := by simp [columns, Tides.api, Tides.columnNames, cut]
      rw [hcol]
      refine ⟨by simp, by simp [tideCol, common], ?_⟩
      intro hf x hx
      simp only [List.mem_cons, List.not_mem_nil, or_false] at hx
      rcases hx with rfl | rfl | rfl | rfl | rfl | rfl | rfl | rfl | rfl | rfl | rfl | rfl
      · exact hf.1 _
      · exact hf.2 _
      all_goals exact hf.1 _

/-- The arrays of a `Drags` hold these particles, ids and time. -/
def Drags.rep (c : Drags K) (ps : List (Drag K)) (ids : List Nat) (t : K) : Prop :=
  c.pos = ps.map (·.pos) ∧ c.vel = ps.map (·.vel) ∧ c.mass = ps.map (·.mass) ∧ c.subSonic = ps.map (·.subSonic) ∧ c.localCs = ps.map (·.localCs) ∧ c.idn = ids ∧ ids.length = ps.length ∧ c.time = t ∧ c.activeNum = ps.length

/-- The value-initialised particle. -/
def Drag.blank : Drag K := ⟨0, 0, 0, 0, 0⟩

omit [Zero K] in
theorem Drags.ofList_aux (ps : List (Drag K)) : ∀ (c : Drags K) (k : Nat),
    let r := ps.foldl (fun (s : Drags K × Nat) p =>
      ({ s.1 with pos := s.1.pos ++ [p.pos], vel := s.1.vel ++ [p.vel], mass := s.1.mass ++ [p.mass], subSonic := s.1.subSonic ++ [p.subSonic], localCs := s.1.localCs ++ [p.localCs], idn := s.1.idn ++ [s.2] }, s.2 + 1)) (c, k)
    r.1.pos = c.pos ++ ps.map (·.pos) ∧ r.1.vel = c.vel ++ ps.map (·.vel) ∧ r.1.mass = c.mass ++ ps.map (·.mass) ∧ r.1.subSonic = c.subSonic ++ ps.map (·.subSonic) ∧ r.1.localCs = c.localCs ++ ps.map (·.localCs) ∧ r.1.idn = c.idn ++ List.range' k ps.length := by
  induction ps with
  | nil => intro c k; simp
  | cons p ps ih =>
    intro c k
    have := ih { c with pos := c.pos ++ [p.pos], vel := c.vel ++ [p.vel], mass := c.mass ++ [p.mass], subSonic := c.subSonic ++ [p.subSonic], localCs := c.localCs ++ [p.localCs], idn := c.idn ++ [k] } (k + 1)
    simp only [List.foldl_cons, List.map_cons, List.length_cons, List.range'_succ] at this ⊢
    simpa [List.append_assoc] using this

theorem Drags.lawful : Lawful (Drags.api (K := K)) Drag.blank dragCol Drags.rep where
  empty := by simp [Drags.api, Drags.empty, Drags.rep]
  ofList t ps := by
    have := Drags.ofList_aux ps Drags.empty 0
    simp only [Drags.api, Drags.ofList, Drags.rep]
    simp only [Drags.empty, List.nil_append, ← List.range_eq_range'] at this ⊢
    obtain ⟨h0, h1, h2, h3, h4, hi⟩ := this
    refine ⟨h0, h1, h2, h3, h4, hi, by simp, trivial, trivial⟩
  emplace c ps ids t p := by
    rintro ⟨h0, h1, h2, h3, h4, hi, hl, ht, hn⟩
    simp [Drags.api, Drags.emplaceBack, Drags.rep, h0, h1, h2, h3, h4, hi, hl, ht, hn]
  resize c ps ids t n := by
    rintro ⟨h0, h1, h2, h3, h4, hi, hl, ht, hn⟩
    simp only [Drags.api, Drags.resize, Drags.rep, h0, h1, h2, h3, h4, hi, ht, vresize_length, and_self, and_true, ← vresize_map]
    simp [Drag.blank]
  reserve c ps ids t n h := h
  clear c ps ids t := by
    rintro ⟨h0, h1, h2, h3, h4, hi, hl, ht, hn⟩
    simp [Drags.api, Drags.clear, Drags.rep, ht]
  number c ps ids t := by
    rintro ⟨h0, h1, h2, h3, h4, hi, hl, ht, hn⟩
    exact hn
  lengths c ps ids t := by
    rintro ⟨h0, h1, h2, h3, h4, hi, hl, ht, hn⟩
    intro l hl'
    simp only [Drags.api, h0, h1, h2, h3, h4, hi, hl, hn, List.length_map] at hl' ⊢
    simpa using hl'
  nonempty c := by simp [Drags.api]
  idsLen c ps ids t h := h.2.2.2.2.2.2.1
  ids c ps ids t h := h.2.2.2.2.2.1
  time c ps ids t h := h.2.2.2.2.2.2.2.1
  toAoS c ps ids t := by
    rintro ⟨h0, h1, h2, h3, h4, hi, hl, ht, hn⟩
    show Drags.toAoS c = _
    rw [Drags.toAoS, hn]
    apply collect_ok
    intro i hi'
    simp only [h0, h1, h2, h3, h4]
    simp [vget_ok, hi', bind, Res.bind]
  all c hc := by
    simp only [Rectangular, Drags.api, List.mem_cons, List.not_mem_nil, or_false, forall_eq_or_imp, forall_eq] at hc
    obtain ⟨h0, h1, h2, h3, h4, hi⟩ := hc
    refine ⟨List.ofFn (n := c.activeNum) (fun i => ⟨c.mass[i], c.pos[i], c.vel[i], c.subSonic[i], c.localCs[i]⟩), c.idn, c.time, ?_⟩
    refine ⟨?_, ?_, ?_, ?_, ?_, rfl, by simp [hi], rfl, by simp⟩
    all_goals
      apply List.ext_getElem
      · simp [h0, h1, h2, h3, h4]
      · intro i h1 h2
        simp
  print f c ps ids t := by
    rintro ⟨h0, h1, h2, h3, h4, hi, hl, ht, hn⟩
    refine ⟨List.ofFn (n := ps.length) (fun i =>
      let p := ps[i]
      [f.num t, f.idx ids[i], f.num p.mass, f.num p.pos.x, f.num p.pos.y, f.num p.pos.z, f.num p.vel.x, f.num p.vel.y, f.num p.vel.z, f.num p.subSonic, f.num p.localCs]), by simp, ?_, ?_⟩
    · show Drags.print f c = _
      rw [Drags.print, hn]
      have hc : collect (Drags.row f c) ps.length = .ok (List.ofFn (n := ps.length) (fun i =>
          let p := ps[i]
          (fun r : List (List Char) => r.head?.getD [] ++ (r.tail.map (fun x => ',' :: x)).flatten ++ ['\n'])
          [f.num t, f.idx ids[i], f.num p.mass, f.num p.pos.x, f.num p.pos.y, f.num p.pos.z, f.num p.vel.x, f.num p.vel.y, f.num p.vel.z, f.num p.subSonic, f.num p.localCs])) := by
        apply collect_ok' _ _ _ (by simp)
        intro i hi'
        have hi'' : i < ps.length := by simpa using hi'
        simp only [Drags.row, h0, h1, h2, h3, h4, hi]
        rw [vget_ok (by omega)]
        simp [vget_ok, hi'', bind, Res.bind, Ptc.print, printItem, printVec, ht]
      rw [hc]
      simp [bind, Res.bind, List.map_ofFn, Function.comp_def]
    · intro i h hp hi'
      simp only [List.getElem_ofFn]
      have hcol : columns (Drags.api (K := K)).columnNames = ["time", "id", "mass", "px", "py", "pz", "vx", "vy", "vz", "sub_sonic_c", "local_cs"] := by simp [columns, Drags.api, Drags.columnNames, cut]
      rw [hcol]
      refine ⟨by simp, by simp [dragCol, common], ?_⟩
      intro hf x hx
      simp only [List.mem_cons, List.not_mem_nil, or_false] at hx
      rcases hx with rfl | rfl | rfl | rfl | rfl | rfl | rfl | rfl | rfl | rfl | rfl
      · exact hf.1 _
      · exact hf.2 _
      all_goals exact hf.1 _

end SpaceHub.Ptc
