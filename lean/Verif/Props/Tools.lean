import Verif.Spec.Tools
import Verif.Proof.SysBase
import Mathlib.Tactic.Linarith

/-
C41: configuration files; C68: command line; C69: timer.
-/

set_option autoImplicit false

namespace SpaceHub.Props
open SpaceHub.Tools SpaceHub.Spec.Tools
open SpaceHub.Ptc (isSpace)

/-! ### C41 -/

theorem getline_append {l rest : List Char} (h : '\n' ∉ l) : getline (l ++ '\n' :: rest) = some (l, rest) := by
  have h1 : (l ++ '\n' :: rest).takeWhile (· ≠ '\n') = l := by
    rw [List.takeWhile_append_of_pos (by intro c hc; simp only [ne_eq, decide_eq_true_eq]; rintro rfl; exact h hc)]
    simp
  have h2 : (l ++ '\n' :: rest).dropWhile (· ≠ '\n') = '\n' :: rest := by
    rw [List.dropWhile_append_of_pos (by intro c hc; simp only [ne_eq, decide_eq_true_eq]; rintro rfl; exact h hc)]
    simp
  unfold getline
  split
  · rename_i h0; simp at h0
  · rw [h1, h2]; rfl

theorem getline_last {l : List Char} (h : '\n' ∉ l) (hl : l ≠ []) : getline l = some (l, []) := by
  have hp : ∀ c ∈ l, decide (c ≠ '\n') = true := by
    intro c hc; simp only [ne_eq, decide_eq_true_eq]; rintro rfl; exact h hc
  unfold getline
  split
  · exact absurd rfl hl
  · rw [List.takeWhile_eq_self_iff.2 hp, List.dropWhile_eq_nil_iff.2 hp]; rfl

theorem readLines_step (d k : Char) (text line rest : List Char) (m : Map) (h : getline text = some (line, rest)) :
    readLines d k text m = readLines d k rest (addLine d k m line) := by
  rw [readLines]
  split
  · rename_i h'; rw [h] at h'; cases h'
  · rename_i l' r' h'
    rw [h] at h'
    cases h'
    rfl

theorem readLines_nil (d k : Char) (m : Map) : readLines d k [] m = m := by
  rw [readLines]
  split
  · rfl
  · rename_i h; simp [getline] at h

theorem readLines_lines (d k : Char) (ls : List (List Char)) (rest : List Char) (h : ∀ l ∈ ls, '\n' ∉ l) :
    ∀ m, readLines d k ((ls.map (· ++ ['\n'])).flatten ++ rest) m = readLines d k rest (ls.foldl (addLine d k) m) := by
  induction ls with
  | nil => intro m; simp
  | cons l ls ih =>
    intro m
    simp only [List.map_cons, List.flatten_cons, List.append_assoc, List.cons_append, List.nil_append]
    rw [readLines_step d k _ l _ m (getline_append (h l (by simp)))]
    rw [ih (fun x hx => h x (by simp [hx]))]
    rfl

theorem readLines_isLines (d k : Char) (text : List Char) (ls : List (List Char)) (h : IsLines text ls) (m : Map) :
    readLines d k text m = ls.foldl (addLine d k) m := by
  obtain ⟨h1, rfl | ⟨ls', l, rfl, hl, rfl⟩⟩ := h
  · have := readLines_lines d k ls [] h1 m
    rw [List.append_nil] at this
    rw [this, readLines_nil]
  · rw [readLines_lines d k ls' l (fun x hx => h1 x (by simp [hx])),
      readLines_step d k _ l [] _ (getline_last (h1 l (by simp)) hl), readLines_nil, List.foldl_append]
    rfl

/-- Every text consists of lines (so that the theorems below speak about every file). -/
theorem C41_every_text_has_lines (text : List Char) : ∃ ls, IsLines text ls := by
  induction text with
  | nil => exact ⟨[], by simp [IsLines]⟩
  | cons c cs ih =>
    obtain ⟨ls, h1, h2⟩ := ih
    by_cases hc : c = '\n'
    · subst hc
      refine ⟨[] :: ls, by simpa using h1, ?_⟩
      rcases h2 with h2 | ⟨a, l, h3, h4, h5⟩
      · left; simp [h2]
      · right; exact ⟨[] :: a, l, by simp [h3], h4, by simp [h5]⟩
    · cases ls with
      | nil =>
        rcases h2 with h2 | ⟨a, l, h3, h4, h5⟩
        · refine ⟨[[c]], by simpa using Ne.symm hc, Or.inr ⟨[], [c], by simp, by simp, by simpa using h2⟩⟩
        · simp at h3
      | cons l0 ls =>
        refine ⟨(c :: l0) :: ls, ?_, ?_⟩
        · intro l hl
          rw [List.mem_cons] at hl
          rcases hl with rfl | hl
          · simp only [List.mem_cons, not_or]
            exact ⟨Ne.symm hc, h1 l0 (by simp)⟩
          · exact h1 l (by simp [hl])
        · rcases h2 with h2 | ⟨a, l, h3, h4, h5⟩
          · left; simp [h2]
          · cases a with
            | nil =>
              simp only [List.nil_append, List.cons.injEq] at h3
              obtain ⟨rfl, rfl⟩ := h3
              exact Or.inr ⟨[], c :: l0, by simp, by simp, by simp [h5]⟩
            | cons b a =>
              simp only [List.cons_append, List.cons.injEq] at h3
              obtain ⟨rfl, rfl⟩ := h3
              exact Or.inr ⟨(c :: l0) :: a, l, by simp, h4, by simp [h5]⟩

theorem addLine_ignored {d k : Char} {m : Map} {line : List Char} (h : Ignored k line) : addLine d k m line = m := by
  unfold addLine
  simp only
  rw [if_pos]
  rcases h with h | ⟨r, h⟩
  · right; exact h
  · left
    show (squeeze line).head? = _
    rw [h]; rfl

theorem not_ignored {k : Char} {line : List Char} (h : ¬ Ignored k line) :
    ¬ ((squeeze line).head? = some k ∨ squeeze line = []) := by
  rintro (h' | h')
  · cases hs : squeeze line with
    | nil => rw [hs] at h'; cases h'
    | cons c cs =>
      rw [hs] at h'
      simp only [List.head?_cons, Option.some.injEq] at h'
      exact h (Or.inr ⟨cs, by rw [hs, h']⟩)
  · exact h (Or.inl h')

theorem findIdx_key {d : Char} {key val : List Char} (h : d ∉ key) :
    (key ++ d :: val).findIdx? (· = d) = some key.length := by
  induction key with
  | nil => simp [List.findIdx?_cons]
  | cons c cs ih =>
    simp only [List.mem_cons, not_or] at h
    rw [List.cons_append, List.findIdx?_cons, if_neg (by simpa using Ne.symm h.1), ih h.2]
    simp

theorem addLine_assigns {d k : Char} {m : Map} {line key val : List Char} (h : Assigns d k line key val) :
    addLine d k m line = fun x => if x = key then some val else m x := by
  obtain ⟨h1, h2, h3⟩ := h
  have h1' := not_ignored h1
  unfold addLine
  simp only
  change (if (squeeze line).head? = some k ∨ squeeze line = [] then m else _) = _
  rw [if_neg h1']
  change (fun x => if x = (match (squeeze line).findIdx? (· = d) with
      | some k => (squeeze line).take k
      | none => squeeze line) then some (match (squeeze line).findIdx? (· = d) with
      | some k => (squeeze line).drop (k + 1)
      | none => squeeze line) else m x) = _
  rw [h2, findIdx_key h3]
  simp

theorem addLine_bare {d k : Char} {m : Map} {line : List Char} (h : Bare d k line) :
    addLine d k m line = fun x => if x = squeeze line then some (squeeze line) else m x := by
  obtain ⟨h1, h3⟩ := h
  have h1' := not_ignored h1
  have h4 : (squeeze line).findIdx? (· = d) = none := by
    rw [List.findIdx?_eq_none_iff]
    intro c hc
    simp only [decide_eq_false_iff_not]
    rintro rfl
    exact h3 hc
  unfold addLine
  simp only
  change (if (squeeze line).head? = some k ∨ squeeze line = [] then m else _) = _
  rw [if_neg h1']
  change (fun x => if x = (match (squeeze line).findIdx? (· = d) with
      | some k => (squeeze line).take k
      | none => squeeze line) then some (match (squeeze line).findIdx? (· = d) with
      | some k => (squeeze line).drop (k + 1)
      | none => squeeze line) else m x) = _
  rw [h4]

/-- every line is ignored, an assignment or a line without divider -/
theorem line_cases (d k : Char) (line : List Char) :
    Ignored k line ∨ (∃ key val, Assigns d k line key val) ∨ Bare d k line := by
  by_cases h : Ignored k line
  · exact Or.inl h
  · by_cases hd : d ∈ squeeze line
    · obtain ⟨key, val, h1, h2⟩ := List.eq_append_cons_of_mem hd
      exact Or.inr (Or.inl ⟨key, val, h, h1, h2⟩)
    · exact Or.inr (Or.inr ⟨h, hd⟩)

theorem assigns_unique {d k : Char} {line key val key' val' : List Char} (h : Assigns d k line key val)
    (h' : Assigns d k line key' val') : key = key' ∧ val = val' := by
  have e := h.2.1.symm.trans h'.2.1
  have i1 := findIdx_key (val := val) h.2.2
  have i2 := findIdx_key (val := val') h'.2.2
  rw [e, i2] at i1
  have hl : key'.length = key.length := by simpa using i1
  obtain ⟨a, b⟩ := List.append_inj e hl.symm
  exact ⟨a, by simpa using b⟩

theorem addLine_eq_some {d k : Char} {m : Map} {line key val : List Char} :
    addLine d k m line key = some val ↔
      Sets d k line key val ∨ ((¬ ∃ v, Sets d k line key v) ∧ m key = some val) := by
  rcases line_cases d k line with h | ⟨key', val', h⟩ | h
  · rw [addLine_ignored h]
    have hn : ∀ v, ¬ Sets d k line key v := by
      rintro v (h' | h')
      · exact h'.1 h
      · exact h'.1.1 h
    constructor
    · intro hm; exact Or.inr ⟨by rintro ⟨v, hv⟩; exact hn v hv, hm⟩
    · rintro (hv | hv)
      · exact absurd hv (hn _)
      · exact hv.2
  · rw [addLine_assigns h]
    have hs : ∀ v, Sets d k line key v ↔ key = key' ∧ v = val' := by
      intro v
      constructor
      · rintro (h' | h')
        · exact assigns_unique h' h
        · exact absurd (by rw [h.2.1]; simp) h'.1.2
      · rintro ⟨rfl, rfl⟩; exact Or.inl h
    simp only [hs]
    by_cases hk : key = key'
    · simp [hk, eq_comm]
    · simp [hk]
  · rw [addLine_bare h]
    have hs : ∀ v, Sets d k line key v ↔ key = squeeze line ∧ v = squeeze line := by
      intro v
      constructor
      · rintro (h' | h')
        · exact absurd (by rw [h'.2.1]; simp) h.2
        · exact h'.2
      · intro hh; exact Or.inr ⟨h, hh⟩
    simp only [hs]
    by_cases hk : key = squeeze line
    · simp [hk, eq_comm]
    · simp [hk]

theorem foldl_addLine {d k : Char} (ls : List (List Char)) (key val : List Char) :
    ls.foldl (addLine d k) (fun _ => none) key = some val ↔ LastSets d k ls key val := by
  induction ls using List.reverseRecOn with
  | nil => simp [LastSets]
  | append_singleton ls l ih =>
    rw [List.foldl_append, List.foldl_cons, List.foldl_nil, addLine_eq_some, ih]
    constructor
    · rintro (h | ⟨h, b, l', a, rfl, h1, h2⟩)
      · exact ⟨ls, l, [], by simp, h, by simp⟩
      · refine ⟨b, l', a ++ [l], by simp, h1, ?_⟩
        intro x hx
        rw [List.mem_append, List.mem_singleton] at hx
        rcases hx with hx | rfl
        · exact h2 x hx
        · exact h
    · rintro ⟨b, l', a, he, h1, h2⟩
      rcases List.eq_nil_or_concat a with rfl | ⟨a', x, rfl⟩
      · obtain ⟨rfl, hl⟩ := List.append_inj' he (by simp)
        simp only [List.cons.injEq, and_true] at hl
        subst hl
        exact Or.inl h1
      · have he' : ls ++ [l] = (b ++ l' :: a') ++ [x] := by rw [he]; simp
        obtain ⟨rfl, hl⟩ := List.append_inj' he' (by simp)
        simp only [List.cons.injEq, and_true] at hl
        subst hl
        exact Or.inr ⟨h2 l (by simp), b, l', a', rfl, h1, fun y hy => h2 y (by simp [hy])⟩

/-- **C41** (defined keys).  For every file, the value of a key is that of the last line that sets it; reading it as a
`T` reads that text. -/
theorem C41_last_definition_wins {T : Type} (r : Readable T) (d k : Char) (text : List Char) (ls : List (List Char))
    (hl : IsLines text ls) (key : List Char) (c : Char) (cs : List Char) (h : LastSets d k ls key (c :: cs)) :
    ∃ m, construct d k (some text) = .ok m ∧ get r m key = .ok (r.parse (c :: cs)) := by
  refine ⟨_, rfl, ?_⟩
  rw [readLines_isLines d k text ls hl]
  unfold Tools.get
  rw [(foldl_addLine ls key (c :: cs)).2 h]

/-- **C41** (undefined keys).  Asking for a key that no line sets aborts. -/
theorem C41_undefined_key_aborts {T : Type} (r : Readable T) (d k : Char) (text : List Char) (ls : List (List Char))
    (hl : IsLines text ls) (key : List Char) (h : ∀ l ∈ ls, ¬ ∃ v, Sets d k l key v) :
    ∃ m, construct d k (some text) = .ok m ∧ get r m key = .abort := by
  refine ⟨_, rfl, ?_⟩
  rw [readLines_isLines d k text ls hl]
  unfold Tools.get
  cases hm : ls.foldl (addLine d k) (fun _ => none) key with
  | none => rfl
  | some v =>
    obtain ⟨b, l, a, rfl, h1, _⟩ := (foldl_addLine ls key v).1 hm
    exact absurd ⟨v, h1⟩ (h l (by simp))

/-- A file that cannot be opened aborts. -/
theorem C41_missing_file_aborts (d k : Char) : construct d k none = .abort := rfl

/-- **C41** (ignored lines).  Blank lines and comment lines may be added or removed anywhere. -/
theorem C41_ignored_lines (d k : Char) (text text' : List Char) (a b : List (List Char)) (line : List Char)
    (h : Ignored k line) (h1 : IsLines text (a ++ line :: b)) (h2 : IsLines text' (a ++ b)) :
    construct d k (some text) = construct d k (some text') := by
  unfold construct
  simp only
  rw [readLines_isLines d k text _ h1, readLines_isLines d k text' _ h2, List.foldl_append, List.foldl_append,
    List.foldl_cons, addLine_ignored h]

/-- **C41** (white space).  Two files whose lines differ only by white space define the same. -/
theorem C41_whitespace (d k : Char) (text text' : List Char) (ls ls' : List (List Char)) (h1 : IsLines text ls)
    (h2 : IsLines text' ls') (h : ls.map squeeze = ls'.map squeeze) :
    construct d k (some text) = construct d k (some text') := by
  unfold construct
  simp only
  rw [readLines_isLines d k text _ h1, readLines_isLines d k text' _ h2]
  have hs : ∀ m (l : List Char), addLine d k m l = addLine d k m (squeeze l) := by
    intro m l
    have : squeeze (squeeze l) = squeeze l := by simp [squeeze, List.filter_filter]
    unfold addLine
    simp only
    change _ = (if (squeeze (squeeze l)).head? = some k ∨ squeeze (squeeze l) = [] then m else fun x =>
      if x = (match (squeeze (squeeze l)).findIdx? (· = d) with
      | some k => (squeeze (squeeze l)).take k
      | none => squeeze (squeeze l)) then some (match (squeeze (squeeze l)).findIdx? (· = d) with
      | some k => (squeeze (squeeze l)).drop (k + 1)
      | none => squeeze (squeeze l)) else m x)
    rw [this]
    rfl
  have hf : ∀ (l : List (List Char)) m, l.foldl (addLine d k) m = (l.map squeeze).foldl (addLine d k) m := by
    intro l
    induction l with
    | nil => intro m; rfl
    | cons x xs ih => intro m; rw [List.map_cons, List.foldl_cons, List.foldl_cons, ← hs, ih]
  rw [hf ls, hf ls', h]

/-- A key with an empty value (`key =`) read as a number is read from an uninitialised variable. -/
theorem C41_empty_value_uninitialised {T : Type} (r : Readable T) (hr : r.init = none) (d k : Char) (text : List Char)
    (ls : List (List Char)) (hl : IsLines text ls) (key : List Char) (h : LastSets d k ls key []) :
    ∃ m, construct d k (some text) = .ok m ∧ get r m key = .ub := by
  refine ⟨_, rfl, ?_⟩
  rw [readLines_isLines d k text ls hl]
  unfold Tools.get
  rw [(foldl_addLine ls key []).2 h]
  simp [hr]

/-- A line without divider is not reported: it defines itself as a key. -/
theorem C41_line_without_divider_defines_itself {T : Type} (r : Readable T) (d k : Char) (line : List Char)
    (hn : '\n' ∉ line) (h : Bare d k line) :
    ∃ m, construct d k (some (line ++ ['\n'])) = .ok m ∧ get r m (squeeze line) = .ok (r.parse (squeeze line)) := by
  have hne : squeeze line ≠ [] := fun h' => h.1 (Or.inl h')
  cases hs : squeeze line with
  | nil => exact absurd hs hne
  | cons c cs =>
    refine C41_last_definition_wins r d k _ [line] ⟨by simpa using hn, Or.inl (by simp)⟩ (c :: cs) c cs ?_
    exact ⟨[], line, [], rfl, Or.inr ⟨h, hs.symm, hs.symm⟩, by simp⟩

/-- A concrete file. -/
example : LastSets '=' '#' ["# c".toList, "a = 1".toList, "".toList, "a=2 ".toList, "b=3".toList] "a".toList "2".toList ∧
    IsLines "# c\na = 1\n\na=2 \nb=3".toList
      ["# c".toList, "a = 1".toList, "".toList, "a=2 ".toList, "b=3".toList] := by
  refine ⟨⟨["# c".toList, "a = 1".toList, "".toList], "a=2 ".toList, ["b=3".toList], by simp, Or.inl ⟨?_, by decide, by decide⟩, ?_⟩, ?_, ?_⟩
  · rintro (h | ⟨r, h⟩)
    · exact absurd h (by decide)
    · have : (squeeze "a=2 ".toList).head? = some '#' := by rw [h]; rfl
      exact absurd this (by decide)
  · intro l hl
    rw [List.mem_singleton] at hl
    subst hl
    have e : squeeze "b=3".toList = ['b', '=', '3'] := by decide
    rintro ⟨v, h | h⟩
    · rw [Assigns, e] at h
      have := congrArg List.head? h.2.1
      simp at this
    · have := h.2.1
      rw [e] at this
      simp at this
  · simp
  · exact Or.inr ⟨["# c".toList, "a = 1".toList, "".toList, "a=2 ".toList], "b=3".toList, by simp, by simp, by simp⟩

/-! ### C68 -/

/-- A command line argument without white space that is not empty. -/
def IsWord (a : List Char) : Prop := a ≠ [] ∧ ∀ c ∈ a, isSpace c = false

theorem nextWord_word {a : List Char} (h : IsWord a) (rest old : List Char) :
    nextWord (a ++ ' ' :: rest) old = (a, ' ' :: rest) := by
  obtain ⟨hne, hs⟩ := h
  cases a with
  | nil => exact absurd rfl hne
  | cons c cs =>
    have hd : (c :: cs ++ ' ' :: rest).dropWhile isSpace = c :: cs ++ ' ' :: rest := by
      rw [List.cons_append, List.dropWhile_cons_of_neg (by simp [hs c (by simp)])]
    have hp : ∀ x ∈ c :: cs, (!isSpace x) = true := fun x hx => by simp [hs x hx]
    unfold nextWord
    rw [hd, List.cons_append]
    simp only
    rw [← List.cons_append, List.takeWhile_append_of_pos hp, List.dropWhile_append_of_pos hp]
    simp [isSpace]

theorem nextWord_space (rest old : List Char) : nextWord (' ' :: rest) old = nextWord rest old := by
  unfold nextWord
  rw [List.dropWhile_cons_of_pos (by decide)]

theorem joined (argv : List (List Char)) (ss : List Char) :
    argv.foldl (fun ss a => ss ++ a ++ [' ']) ss = ss ++ (argv.map (· ++ [' '])).flatten := by
  induction argv generalizing ss with
  | nil => simp
  | cons a as ih => rw [List.foldl_cons, ih]; simp

theorem extractWords_space (n : Nat) (text : List Char) : extractWords n (' ' :: text) = extractWords n text := by
  cases n with
  | zero => rfl
  | succ n => simp only [extractWords, nextWord_space]

theorem extractWords_words (argv : List (List Char)) (h : ∀ a ∈ argv, IsWord a) :
    extractWords argv.length (argv.map (· ++ [' '])).flatten = argv := by
  induction argv with
  | nil => rfl
  | cons a as ih =>
    simp only [List.map_cons, List.flatten_cons, List.append_assoc, List.cons_append, List.nil_append, List.length_cons,
      extractWords]
    rw [nextWord_word (h a (by simp))]
    simp only
    rw [extractWords_space, ih (fun x hx => h x (by simp [hx]))]

/-- **C68**, what holds: arguments that are not empty and contain no white space are given to the variables in order, and
any other number of arguments aborts. -/
theorem C68_arguments_in_order_partial (n : Nat) (argv : List (List Char)) :
    (argv.length = n → (∀ a ∈ argv, IsWord a) → readCommandLine n argv = .ok argv) ∧
    (argv.length ≠ n → readCommandLine n argv = .abort) := by
  constructor
  · rintro rfl h
    unfold readCommandLine
    rw [if_neg (by simp), joined, List.nil_append, extractWords_words argv h]
  · intro h
    unfold readCommandLine
    rw [if_pos (by omega)]

/-- **C68 is false of the code** for arguments that contain white space: `prog "u v" w` with two variables gives `u` to the
first, `v` to the second, and drops `w`. -/
theorem C68_quoted_argument_split (u v w : List Char) (hu : IsWord u) (hv : IsWord v) :
    readCommandLine 2 [u ++ ' ' :: v, w] = .ok [u, v] := by
  unfold readCommandLine
  rw [if_neg (by simp), joined]
  simp only [List.nil_append, List.map_cons, List.map_nil, List.flatten_cons, List.flatten_nil, List.append_assoc,
    List.cons_append, List.append_nil, extractWords]
  rw [nextWord_word hu]
  simp only [nextWord_space]
  rw [nextWord_word hv]

/-- … and for empty arguments: `prog "" w` gives `w` to the first variable and nothing to the second. -/
theorem C68_empty_argument_skipped (w : List Char) (hw : IsWord w) :
    readCommandLine 2 [[], w] = .ok [w, []] := by
  unfold readCommandLine
  rw [if_neg (by simp), joined]
  simp only [List.nil_append, List.map_cons, List.map_nil, List.flatten_cons, List.flatten_nil,
    List.cons_append, List.append_nil, extractWords, nextWord_space]
  rw [nextWord_word hw]
  have : nextWord [' '] [] = ([], []) := by decide
  simp [this]

example : IsWord "3.5".toList ∧ readCommandLine 2 ["3.5".toList, "x".toList] = .ok ["3.5".toList, "x".toList] := by
  refine ⟨⟨by decide, by decide⟩, (C68_arguments_in_order_partial 2 _).1 rfl ?_⟩
  intro a ha
  simp only [List.mem_cons, List.not_mem_nil, or_false] at ha
  rcases ha with rfl | rfl <;> exact ⟨by decide, by decide⟩

/-! ### C69 -/

/-- What the events do to the timer of the code. -/
noncomputable def timerStep (s : Timer) : TimerEvent → Timer
  | .start t => s.begin t
  | .pause t => s.pause t
  | .reset _ => s.reset

theorem timer_inv (es : List TimerEvent) : ∀ (s : Timer) (w : Watch),
    s.active = w.on → (s.active = true → s.duration + (w.last - s.start) = w.total) →
    (s.active = false → s.duration = w.total) → Alternating w.on es →
    ∀ now, (es.foldl timerStep s).get now = ((es.foldl Watch.step w).pass now).total := by
  induction es with
  | nil =>
    intro s w h1 h2 h3 _ now
    change s.get now = (w.pass now).total
    unfold Timer.get Watch.pass
    simp only [← h1]
    by_cases h : s.active = true
    · rw [if_pos h, if_pos h, ← h2 h]; ring
    · rw [if_neg h, if_neg h]; exact h3 (by simpa using h)
  | cons e es ih =>
    intro s w h1 h2 h3 ha now
    rw [List.foldl_cons, List.foldl_cons]
    cases e with
    | start t =>
      obtain ⟨hon, ha⟩ := ha
      refine ih _ _ rfl ?_ (by intro h; cases h) ha now
      intro _
      simp only [timerStep, Timer.begin, Watch.step, Watch.pass, hon]
      rw [h3 (by rw [h1, hon])]
      simp
    | pause t =>
      refine ih _ _ rfl (by intro h; cases h) ?_ ha now
      intro _
      simp only [timerStep, Timer.pause, Timer.get, Watch.step, Watch.pass, ← h1]
      by_cases h : s.active = true
      · rw [if_pos h, if_pos h, ← h2 h]; ring
      · rw [if_neg h, if_neg h]; exact h3 (by simpa using h)
    | reset t =>
      exact ih _ _ rfl (by intro h; cases h) (by intro _; rfl) ha now

/-- **C69**, what holds: for every history in which `start` is never called on a running timer, `get_time` is the time (in
seconds) the timer has been running since the last reset. -/
theorem C69_measures_running_time_partial (es : List TimerEvent) (h : Alternating false es) (now : ℝ) :
    (es.foldl timerStep Timer.new).get now = ((es.foldl Watch.step ⟨false, 0, 0⟩).pass now).total :=
  timer_inv es Timer.new ⟨false, 0, 0⟩ rfl (by intro h; cases h) (fun _ => rfl) h now

/-- **C69 is false of the code** when `start` is called on a running timer: the time between the two calls is lost. -/
theorem C69_restart_loses_time (t0 t1 now : ℝ) :
    (([.start t0, .start t1] : List TimerEvent).foldl Watch.step ⟨false, 0, 0⟩ |>.pass now).total = now - t0 ∧
    (([.start t0, .start t1] : List TimerEvent).foldl timerStep Timer.new).get now = now - t1 := by
  constructor
  · simp [Watch.step, Watch.pass]
  · simp [timerStep, Timer.begin, Timer.get, Timer.new]

example : Alternating false [.start 1, .pause 3, .start 10, .pause 11, .reset 12, .start 13] ∧
    (([.start 1, .pause 3, .start 10] : List TimerEvent).foldl timerStep Timer.new).get 11 = 3 := by
  refine ⟨by simp [Alternating], ?_⟩
  simp [timerStep, Timer.begin, Timer.pause, Timer.get, Timer.new]
  norm_num

end SpaceHub.Props
