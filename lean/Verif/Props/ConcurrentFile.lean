import Mathlib.Algebra.BigOperators.Fin
import Mathlib.Tactic.FinCases
import Mathlib.Algebra.BigOperators.Group.Finset.Basic
import Verif.Model.ConcurrentFile
import Verif.Proof.ThreadPool

/-!
C38: operations on a shared concurrent file are atomic.  Model: `Verif/Model/ConcurrentFile.lean`.
-/

set_option autoImplicit false

namespace SpaceHub.Conc
open SharedFile
variable {F : Type} {m : Nat}

/-- The effect of a list of actions done one after another. -/
def perform (op : List (F → F)) (f : F) : F := op.foldl (fun f a => a f) f

/-- The effect of whole calls done one after another. -/
def performAll (calls : List (Fin m × List (F → F))) (f : F) : F := calls.foldl (fun f c => perform c.2 f) f

def cInside : Caller F → Bool
  | .inside _ => true
  | _ => false

/-- Only the holder of the mutex is inside; the file is the effect of the completed calls and of a first part of the
current one. -/
structure FileInv (f : F) (s : SharedFile F m) : Prop where
  lockOk : ∀ j, cInside (s.callers j) = true ↔ s.lock = some j
  free : s.lock = none → s.file = performAll s.history f
  held : ∀ j rest, s.callers j = .inside rest →
    ∃ before first, s.history = before ++ [(j, first ++ rest)] ∧ s.file = perform first (performAll before f)

theorem fileInv_step {f : F} {b : Bool} {s s' : SharedFile F m} (h : FileInv f s) (st : Step b s s') : FileInv f s' := by
  obtain ⟨lockOk, free, held⟩ := h
  have upd : ∀ (j k : Fin m) (c : Caller F), Function.update s.callers j c k = if k = j then c else s.callers k := by
    intro j k c; by_cases hk : k = j
    · subst hk; simp
    · simp [hk]
  cases st with
  | call _ j op hj =>
    refine ⟨fun k => ?_, free, fun k rest hk => ?_⟩
    · have := lockOk k
      simp only [SharedFile.set, upd]
      by_cases hkj : k = j
      · subst hkj; rw [hj] at this; rw [if_pos rfl]; exact this
      · rw [if_neg hkj]; exact this
    · simp only [SharedFile.set, upd] at hk
      by_cases hkj : k = j
      · subst hkj; rw [if_pos rfl] at hk; cases hk
      · rw [if_neg hkj] at hk; exact held k rest hk
  | lock _ j op hj hl =>
    refine ⟨fun k => ?_, fun hx => (by cases hx), fun k rest hk => ?_⟩
    · have := lockOk k
      simp only [SharedFile.set, upd]
      by_cases hkj : k = j
      · subst hkj; simp [cInside]
      · rw [if_neg hkj, this, hl]; simp [Ne.symm hkj]
    · simp only [SharedFile.set, upd] at hk
      by_cases hkj : k = j
      · subst hkj; rw [if_pos rfl] at hk; cases hk
        exact ⟨s.history, [], rfl, free hl⟩
      · rw [if_neg hkj] at hk
        have := (lockOk k).mp (by rw [hk]; rfl)
        rw [hl] at this; cases this
  | act _ j a rest hj =>
    have hlk := (lockOk j).mp (by rw [hj]; rfl)
    refine ⟨fun k => ?_, fun hx => ?_, fun k rest' hk => ?_⟩
    · have := lockOk k
      simp only [SharedFile.set, upd]
      by_cases hkj : k = j
      · subst hkj; rw [if_pos rfl, hlk]; simp [cInside]
      · rw [if_neg hkj]; exact this
    · simp only [SharedFile.set] at hx; rw [hlk] at hx; cases hx
    · simp only [SharedFile.set, upd] at hk
      by_cases hkj : k = j
      · subst hkj; rw [if_pos rfl] at hk; cases hk
        obtain ⟨before, first, h1, h2⟩ := held k _ hj
        refine ⟨before, first ++ [a], by simpa [SharedFile.set] using h1, ?_⟩
        simp only [h2, perform, List.foldl_append, List.foldl_cons, List.foldl_nil]
      · rw [if_neg hkj] at hk
        have := (lockOk k).mp (by rw [hk]; rfl)
        rw [hlk] at this; exact absurd (Option.some.inj this).symm hkj
  | unlock _ j hj =>
    have hlk := (lockOk j).mp (by rw [hj]; rfl)
    refine ⟨fun k => ?_, fun _ => ?_, fun k rest hk => ?_⟩
    · have := lockOk k
      simp only [SharedFile.set, upd]
      by_cases hkj : k = j
      · subst hkj; simp [cInside]
      · rw [if_neg hkj, this, hlk]; simp [Ne.symm hkj]
    · obtain ⟨before, first, h1, h2⟩ := held j _ hj
      simp only [SharedFile.set, h1, h2, performAll, List.foldl_append, List.foldl_cons, List.foldl_nil, List.append_nil]
    · simp only [SharedFile.set, upd] at hk
      by_cases hkj : k = j
      · subst hkj; rw [if_pos rfl] at hk; cases hk
      · rw [if_neg hkj] at hk
        have := (lockOk k).mp (by rw [hk]; rfl)
        rw [hlk] at this; exact absurd (Option.some.inj this).symm hkj

theorem fileInv_run {f : F} {new : Bool} {k : Nat} {s s' : SharedFile F m} (h : FileInv f s) (r : Run new k s s') :
    FileInv f s' := by
  induction r with
  | refl => exact h
  | step _ _ st ih => exact fileInv_step (ih h) st

theorem fileInv_reachable {f : F} {s : SharedFile F m} (h : SharedFile.Reachable f s) : FileInv f s := by
  obtain ⟨k, r⟩ := h
  refine fileInv_run ⟨fun j => ?_, fun _ => rfl, fun j rest hj => ?_⟩ r
  · simp [SharedFile.init, cInside]
  · cases hj

/-- **C38.**  Under every schedule of any number of threads, at every moment the file is what results from performing the
calls one after another, each whole, in the order in which they took the mutex - except that of the call of the thread
that holds the mutex only a first part has been done. -/
theorem C38_atomic (f : F) (s : SharedFile F m) (h : SharedFile.Reachable f s) :
    s.file = performAll s.history f ∨
      ∃ j before first rest, s.callers j = .inside rest ∧ s.history = before ++ [(j, first ++ rest)] ∧
        s.file = perform first (performAll before f) := by
  have hinv := fileInv_reachable h
  cases hl : s.lock with
  | none => exact Or.inl (hinv.free hl)
  | some j =>
    right
    have := (hinv.lockOk j).mpr hl
    cases hj : s.callers j with
    | inside rest =>
      obtain ⟨before, first, h1, h2⟩ := hinv.held j rest hj
      exact ⟨j, before, first, rest, hj, h1, h2⟩
    | _ => rw [hj] at this; cases this

theorem perform_write (pieces : List String) (f : String) :
    perform (writePieces pieces) f = f ++ pieces.foldl (· ++ ·) "" := by
  have gen : ∀ (l : List String) (a b : String), l.foldl (· ++ ·) (a ++ b) = a ++ l.foldl (· ++ ·) b := by
    intro l; induction l with
    | nil => intros; rfl
    | cons x xs ih => intro a b; simp only [List.foldl_cons, String.append_assoc, ih]
  unfold perform writePieces
  rw [List.foldl_map]
  have := gen pieces f ""
  rwa [String.append_empty] at this

/-- The text of a write. -/
def textOf (pieces : List String) : String := pieces.foldl (· ++ ·) ""

/-- **C38 for text.**  If all calls are writes, then whenever nobody is inside a call the file is the concatenation of
the whole texts, in the order in which the calls took the mutex: no text is interleaved with another. -/
theorem C38_whole_texts (f : String) (s : SharedFile String m) (h : SharedFile.Reachable f s)
    (calls : List (Fin m × List String)) (hc : s.history = calls.map fun c => (c.1, writePieces c.2))
    (hfree : ∀ j rest, s.callers j ≠ .inside rest) :
    s.file = calls.foldl (fun t c => t ++ textOf c.2) f := by
  rcases C38_atomic f s h with h1 | ⟨j, _, _, rest, h1, -⟩
  · rw [h1, hc, performAll, List.foldl_map]
    congr 1
    funext t c
    exact perform_write c.2 t
  · exact absurd h1 (hfree j rest)

/-- The text of a tuple: its components separated by blanks. -/
theorem C38_tuple_text (parts : List String) : textOf (tuplePieces parts) = " ".intercalate parts := by
  cases parts with
  | nil => rfl
  | cons a rest =>
    have key : ∀ (l : List String) (acc : String),
        (l.flatMap fun b => [" ", b]).foldl (· ++ ·) acc = " ".intercalate (acc :: l) := by
      intro l; induction l with
      | nil => intro acc; simp
      | cons x xs ih =>
        intro acc
        simp only [List.flatMap_cons, List.foldl_append, List.foldl_cons, List.foldl_nil]
        rw [ih, String.intercalate_cons_append, String.intercalate_cons_cons]
    simp only [textOf, tuplePieces, List.foldl_cons, String.empty_append]
    exact key rest a

/-- **C38, no call waits for ever.**  If no new calls are made, under every schedule the calls in progress end after
boundedly many steps: when no step is possible all threads have returned. -/
theorem C38_calls_return (f : F) (s : SharedFile F m) (h : SharedFile.Reachable f s) :
    (∃ bound, ∀ k s', SharedFile.Run false k s s' → k ≤ bound) ∧
    ∀ k s', SharedFile.Run false k s s' → (∀ s'', ¬ SharedFile.Step false s' s'') → ∀ j, s'.callers j = .idle := by
  let wt : Caller F → Nat := fun c => match c with
    | .idle => 0 | .acquire op => op.length + 2 | .inside op => op.length + 1
  let W : SharedFile F m → Nat := fun s => ∑ j, wt (s.callers j)
  refine ⟨⟨W s, fun k s' r => ?_⟩, fun k s' r hst j => ?_⟩
  · have key : ∀ k (s s' : SharedFile F m), SharedFile.Run false k s s' → k + W s' ≤ W s := by
      intro k s s' r
      induction r with
      | refl => omega
      | step _ hb st ih =>
        rename_i s1 s2 _ _
        refine le_trans ?_ ih
        cases st with
        | call _ j op hj => exact absurd (hb rfl) (by simp)
        | lock _ j op hj hl =>
          have := sum_update wt s1.callers j (.inside op)
          rw [hj] at this; simp only [W, SharedFile.set, wt] at this ⊢; omega
        | act _ j a rest hj =>
          have := sum_update wt s1.callers j (.inside rest)
          rw [hj] at this; simp only [W, SharedFile.set, wt, List.length_cons] at this ⊢; omega
        | unlock _ j hj =>
          have := sum_update wt s1.callers j .idle
          rw [hj] at this; simp only [W, SharedFile.set, wt, List.length_nil] at this ⊢; omega
    have := key k s s' r
    omega
  · have hinv := fileInv_run (fileInv_reachable h) r
    have noin : ∀ j rest, s'.callers j ≠ .inside rest := by
      intro j rest hj
      cases rest with
      | nil => exact hst _ (.unlock s' j hj)
      | cons a rest => exact hst _ (.act s' j a rest hj)
    have hl : s'.lock = none := by
      cases hl : s'.lock with
      | none => rfl
      | some i =>
        have := (hinv.lockOk i).mpr hl
        cases hi : s'.callers i with
        | inside rest => exact absurd hi (noin i rest)
        | _ => rw [hi] at this; cases this
    cases hj : s'.callers j with
    | idle => rfl
    | acquire op => exact absurd (.lock s' j op hj hl) (hst _)
    | inside rest => exact absurd hj (noin j rest)

/-- A line written with several `<<` is several calls, and not atomic: two threads that each write a word and then a
newline can produce both words on one line. -/
theorem C38_chained_writes_interleave :
    ∃ s : SharedFile String 2, SharedFile.Reachable "" s ∧ s.file = "ab\n\n" ∧
      s.history.map (·.1) = [0, 1, 0, 1] ∧
      s.history.map (fun c => perform c.2 "") = ["a", "b", "\n", "\n"] ∧ ∀ j, s.callers j = .idle := by
  have r0 : SharedFile.Run true 0 (SharedFile.init 2 "") _ := .refl _
  have w : ∀ {k} {s s' : SharedFile String 2} (j : Fin 2) (p : String), SharedFile.Run true k s s' →
      s'.callers j = .idle → s'.lock = none →
      SharedFile.Run true (k + 4) s
        ({ ((((s'.set j (.acquire (writePieces [p]))).set j (.inside (writePieces [p]))).set j (.inside [])).set j .idle) with
            lock := none, file := s'.file ++ p, history := s'.history ++ [(j, writePieces [p])] }) := by
    intro k s s' j p r hj hl
    have r1 := r.step (b := true) (fun _ => rfl) (.call _ j (writePieces [p]) hj)
    have r2 := r1.step (b := false) (fun _ => rfl) (.lock _ j (writePieces [p]) (by simp [SharedFile.set]) hl)
    have r3 := r2.step (b := false) (fun _ => rfl) (.act _ j _ [] (by simp [SharedFile.set, writePieces]; rfl))
    exact r3.step (b := false) (fun _ => rfl) (.unlock _ j (by simp [SharedFile.set]))
  have r1 := w 0 "a" r0 rfl rfl
  have r2 := w 1 "b" r1 rfl rfl
  have r3 := w 0 "\n" r2 rfl rfl
  have r4 := w 1 "\n" r3 rfl rfl
  refine ⟨_, ⟨_, r4⟩, by decide, by decide, by decide, fun j => ?_⟩
  fin_cases j <;> rfl

end SpaceHub.Conc
