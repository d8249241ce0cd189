import Verif.Spec.Particles
import Verif.Proof.SysBase
import Mathlib.Data.List.Basic
import Mathlib.Data.List.Nodup
import Mathlib.Tactic.Common

set_option autoImplicit false

namespace SpaceHub.Ptc
open SpaceHub.Spec.Ptc

theorem vget_ok {α : Type} {l : List α} {i : Nat} (h : i < l.length) : vget l i = .ok l[i] := by
  simp [vget, h]

theorem vresize_length {α : Type} (d : α) (n : Nat) (l : List α) : (vresize d n l).length = n := by
  simp [vresize]; omega

theorem vresize_map {α β : Type} (g : α → β) (d : α) (n : Nat) (l : List α) :
    vresize (g d) n (l.map g) = (vresize d n l).map g := by
  simp [vresize]

theorem collect_ok {α : Type} (body : Nat → Res α) (l : List α)
    (h : ∀ i (hi : i < l.length), body i = .ok l[i]) : collect body l.length = .ok l := by
  have key : ∀ n, n ≤ l.length → collect body n = .ok (l.take n) := by
    intro n
    induction n with
    | zero => intro _; simp [collect]
    | succ n ih =>
      intro hn
      have hn' : n < l.length := hn
      show Res.bind (collect body n) _ = _
      rw [ih (by omega)]
      show Res.bind (body n) _ = _
      rw [h n hn']
      show Res.ok _ = _
      rw [List.take_succ_eq_append_getElem hn']
  have := key l.length le_rfl
  simpa using this

theorem collect_ok' {α : Type} (body : Nat → Res α) (n : Nat) (l : List α) (hn : l.length = n)
    (h : ∀ i (hi : i < l.length), body i = .ok l[i]) : collect body n = .ok l := by
  subst hn; exact collect_ok body l h

/-- Arrays of a container that represent a list of particles. -/
structure Lawful {K P C : Type} [Zero K] (A : Api K P C) (blank : P)
    (col : Fmt K → K → Nat → P → String → Option (List Char)) (rep : C → List P → List Nat → K → Prop) : Prop where
  empty : rep A.empty [] [] 0
  ofList : ∀ t ps, rep (A.ofList t ps) ps (List.range ps.length) t
  emplace : ∀ c ps ids t p, rep c ps ids t → rep (A.emplaceBack c p) (ps ++ [p]) (ids ++ [ps.length]) t
  resize : ∀ c ps ids t n, rep c ps ids t → rep (A.resize c n) (vresize blank n ps) (vresize 0 n ids) t
  reserve : ∀ c ps ids t n, rep c ps ids t → rep (A.reserve c n) ps ids t
  clear : ∀ c ps ids t, rep c ps ids t → rep (A.clear c) [] [] t
  number : ∀ c ps ids t, rep c ps ids t → A.number c = ps.length
  lengths : ∀ c ps ids t, rep c ps ids t → Rectangular A c
  nonempty : ∀ c, A.lengths c ≠ []
  idsLen : ∀ c ps ids t, rep c ps ids t → ids.length = ps.length
  ids : ∀ c ps ids t, rep c ps ids t → A.ids c = ids
  time : ∀ c ps ids t, rep c ps ids t → A.time c = t
  toAoS : ∀ c ps ids t, rep c ps ids t → A.toAoS c = .ok ps
  all : ∀ c, Rectangular A c → ∃ ps ids t, rep c ps ids t
  print : ∀ f c ps ids t, rep c ps ids t → ∃ rows : List (List (List Char)),
    rows.length = ps.length ∧
    A.print f c = .ok (rows.map (fun r => r.head?.getD [] ++ (r.tail.map (fun x => ',' :: x)).flatten ++ ['\n'])).flatten ∧
    ∀ i (h : i < rows.length) (hp : i < ps.length) (hi : i < ids.length),
      rows[i] ≠ [] ∧ rows[i].map some = (columns A.columnNames).map (col f t ids[i] ps[i]) ∧
      (Plain f → ∀ x ∈ rows[i], ',' ∉ x ∧ '\n' ∉ x)

theorem cut_not_mem {sep : Char} {a : List Char} (h : sep ∉ a) : cut sep a = [a] := by
  induction a with
  | nil => rfl
  | cons c cs ih =>
    simp only [List.mem_cons, not_or] at h
    rw [cut, if_neg (Ne.symm h.1), ih h.2]

theorem cut_ne_nil {sep : Char} (a : List Char) : cut sep a ≠ [] := by
  cases a with
  | nil => simp [cut]
  | cons c cs =>
    rw [cut]
    split_ifs with h
    · simp
    · split <;> simp

theorem cut_append {sep : Char} {a b : List Char} (h : sep ∉ a) : cut sep (a ++ sep :: b) = a :: cut sep b := by
  induction a with
  | nil => simp [cut]
  | cons c cs ih =>
    simp only [List.mem_cons, not_or] at h
    rw [List.cons_append, cut, if_neg (Ne.symm h.1), ih h.2]

theorem cut_fields {sep : Char} (x : List Char) (xs : List (List Char)) (h : ∀ y ∈ x :: xs, sep ∉ y) :
    cut sep (x ++ (xs.map (fun y => sep :: y)).flatten) = x :: xs := by
  induction xs generalizing x with
  | nil => simpa using cut_not_mem (h x (by simp))
  | cons y ys ih =>
    simp only [List.map_cons, List.flatten_cons, List.cons_append]
    rw [cut_append (h x (by simp)), ih y (fun z hz => h z (by simp [List.mem_cons] at hz ⊢; tauto))]

theorem cut_lines (lines : List (List Char)) (h : ∀ l ∈ lines, '\n' ∉ l) :
    cut '\n' (lines.map (fun l => l ++ ['\n'])).flatten = lines ++ [[]] := by
  induction lines with
  | nil => rfl
  | cons l ls ih =>
    simp only [List.map_cons, List.flatten_cons, List.append_assoc, List.singleton_append]
    rw [cut_append (h l (by simp)), ih (fun z hz => h z (by simp [hz]))]
    rfl

section
variable {K P C : Type} [Zero K] {A : Api K P C} {blank : P}
  {col : Fmt K → K → Nat → P → String → Option (List Char)} {rep : C → List P → List Nat → K → Prop}

theorem Lawful.run_rep (L : Lawful A blank col rep) (s : Start K P) (h : List (Call P)) :
    ∃ ids, rep (run A s h) (expected blank s h) ids s.time := by
  induction h using List.reverseRecOn with
  | nil =>
    cases s with
    | default => exact ⟨[], L.empty⟩
    | ofList t ps => exact ⟨_, L.ofList t ps⟩
  | append_singleton h op ih =>
    obtain ⟨ids, hr⟩ := ih
    simp only [run, expected, List.foldl_append, List.foldl_cons, List.foldl_nil] at *
    cases op with
    | emplaceBack p => exact ⟨_, L.emplace _ _ _ _ p hr⟩
    | resize n =>
      refine ⟨vresize 0 n ids, ?_⟩
      have := L.resize _ _ _ _ n hr
      dsimp only
      split_ifs with hn
      · rwa [vresize, Nat.sub_eq_zero_of_le hn, List.replicate_zero, List.append_nil] at this
      · rwa [vresize, List.take_of_length_le (by omega)] at this
    | reserve n => exact ⟨_, L.reserve _ _ _ _ n hr⟩
    | clear => exact ⟨_, L.clear _ _ _ _ hr⟩

theorem Lawful.run_ids (L : Lawful A blank col rep) (h : List (Call P)) :
    ∀ (c : C) (ps : List P) (t : K), rep c ps (List.range ps.length) t → NoGrow ps.length h →
      ∃ ps' : List P, rep (h.foldl (fun c op => match op with
        | .emplaceBack p => A.emplaceBack c p
        | .resize n => A.resize c n
        | .reserve n => A.reserve c n
        | .clear => A.clear c) c) ps' (List.range ps'.length) t := by
  induction h with
  | nil => intro c ps t hr _; exact ⟨ps, hr⟩
  | cons op h ih =>
    intro c ps t hr hg
    rw [List.foldl_cons]
    cases op with
    | emplaceBack p =>
      refine ih _ (ps ++ [p]) t ?_ (by simpa [NoGrow] using hg)
      have := L.emplace _ _ _ _ p hr
      simpa [List.range_succ] using this
    | resize n =>
      obtain ⟨hn, hg⟩ := hg
      refine ih _ (ps.take n) t ?_ (by simpa [Nat.min_eq_left hn] using hg)
      have := L.resize _ _ _ _ n hr
      simp only [vresize, Nat.sub_eq_zero_of_le hn, List.length_range, List.replicate_zero, List.append_nil,
        List.take_range] at this
      simpa using this
    | reserve n => exact ih _ ps t (L.reserve _ _ _ _ n hr) hg
    | clear => exact ih _ [] t (by simpa using L.clear _ _ _ _ hr) hg

theorem Lawful.rows (L : Lawful A blank col rep) : RowsMatchHeader A col := by
  intro f hf c hc
  obtain ⟨ps, ids, t, hr⟩ := L.all c hc
  obtain ⟨rows, hlen, hpr, hrow⟩ := L.print f c ps ids t hr
  have hn := L.number _ _ _ _ hr
  have hil := L.idsLen _ _ _ _ hr
  have hids := L.ids _ _ _ _ hr
  have ht := L.time _ _ _ _ hr
  subst ht
  subst hids
  have hline : ∀ i (h : i < rows.length), rows[i] = rows[i].head?.getD [] :: rows[i].tail := by
    intro i h
    have := (hrow i h (by omega) (by omega)).1
    cases hri : rows[i] with
    | nil => exact absurd hri this
    | cons a b => rfl
  refine ⟨_, ps, rows.map (fun r => r.head?.getD [] ++ (r.tail.map (fun x => ',' :: x)).flatten), hpr,
    L.toAoS _ _ _ _ hr, hn.symm, by omega, by simp; omega, ?_, ?_⟩
  · rw [← cut_lines]
    · congr 1
      rw [List.map_map]
      rfl
    · intro l hl
      rw [List.mem_map] at hl
      obtain ⟨r, hr', rfl⟩ := hl
      obtain ⟨i, hi, rfl⟩ := List.mem_iff_getElem.1 hr'
      have hp := (hrow i hi (by omega) (by omega)).2.2 hf
      have hne := (hrow i hi (by omega) (by omega)).1
      intro hmem
      rw [List.mem_append] at hmem
      rcases hmem with hm | hm
      · cases hri : rows[i] with
        | nil => exact hne hri
        | cons a b =>
          rw [hri] at hm hp
          exact (hp a (by simp)).2 (by simpa using hm)
      · rw [List.mem_flatten] at hm
        obtain ⟨l, hl, hm⟩ := hm
        rw [List.mem_map] at hl
        obtain ⟨x, hx, rfl⟩ := hl
        have := (hp x (List.mem_of_mem_tail hx)).2
        simp only [List.mem_cons] at hm
        rcases hm with hm | hm
        · exact absurd hm (by decide)
        · exact this hm
  · intro i h hp hi
    rw [List.getElem_map]
    have hri : i < rows.length := by simpa using h
    have := (hrow i hri hp hi)
    rw [cut_fields, ← this.2.1]
    · rw [← hline i hri]
    · intro y hy
      rw [← hline i hri] at hy
      exact (this.2.2 hf y hy).1
end

end SpaceHub.Ptc
