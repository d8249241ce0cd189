import Mathlib.Algebra.BigOperators.Fin
import Mathlib.Algebra.Order.BigOperators.Group.Finset
import Verif.Model.Ipip
import Verif.Props.Opip

/-!
C66: an input pipe (`Ipip`) hands out each record of its file exactly once, in order, then reports the end; its calls and
its destructor return.  Model: `Verif/Model/Ipip.lean`.
-/

set_option autoImplicit false

namespace SpaceHub.Conc

/-- The records handed out, in the order in which they were taken. -/
def delivered {T : Type} {m : Nat} (results : List (Fin m × Option T)) : List T := results.filterMap (·.2)

namespace Ipip
variable {T : Type} {m : Nat}

def lHolds : Loader → Bool
  | .test | .sleep | .testStop | .load _ | .setEoq => true
  | _ => false

def cHolds : Consumer → Bool
  | .test | .sleep | .take => true
  | _ => false

def oHolds : IOwner → Bool
  | .setStop => true
  | _ => false

def Stopped : IOwner → Bool
  | .notifyIo | .notifyLoad | .join | .done => true
  | _ => false

/-- The loader has found that there is more to read and has not read since. -/
def Fresh : Loader → Bool
  | .acquire | .test | .sleep | .waiting | .testStop | .load 0 => true
  | _ => false

/-- The loader has left its loop. -/
def Past : Loader → Bool
  | .lastLock | .setEoq | .lastNotify | .done => true
  | _ => false

/-- The loader has set `eoq_`. -/
def SaidEnd : Loader → Bool
  | .lastNotify | .done => true
  | _ => false

/-- The loader will notify the consumers. -/
def WillNotify : Loader → Bool
  | .load _ | .notifyIo | .lastNotify => true
  | _ => false

/-- What is still to come from the file: the records, and one junk record if the file does not end with its last
record. -/
def pending (junk : T) (rest : List T) (tail eof : Bool) : List T :=
  if eof then [] else rest ++ (if tail || rest.isEmpty then [junk] else [])

def LOk (queue : List T) (stop : Bool) (owner : IOwner) : Loader → Prop
  | .sleep => queue ≠ [] ∧ stop = false
  | .waiting => (queue ≠ [] ∧ stop = false) ∨ owner = .notifyIo ∨ owner = .notifyLoad
  | _ => True

def COk (queue : List T) (eoq : Bool) (loader : Loader) : Consumer → Prop
  | .sleep => queue = [] ∧ eoq = false
  | .waiting => (queue = [] ∧ eoq = false) ∨ WillNotify loader = true
  | .take => eoq = true ∨ queue ≠ []
  | _ => True

structure Inv (junk : T) (expected : List T) (s : Ipip T m) : Prop where
  lockL : lHolds s.loader = true ↔ s.lock = some .writer
  lockC : ∀ j, cHolds (s.consumers j) = true ↔ s.lock = some (.producer j)
  lockO : oHolds s.owner = true ↔ s.lock = some .owner
  stopO : s.stop = Stopped s.owner
  eoqO : s.eoq = true → Stopped s.owner = true ∨ SaidEnd s.loader = true
  eoqL : SaidEnd s.loader = true → s.eoq = true
  fresh : Fresh s.loader = true → s.eof = false
  past : Past s.loader = true → s.eof = true ∨ s.stop = true
  quiet : s.owner ≠ .alive → ∀ j, s.consumers j = .idle
  born : s.owner ≠ .constructing
  lOk : LOk s.queue s.stop s.owner s.loader
  cOk : ∀ j, COk s.queue s.eoq s.loader (s.consumers j)
  cons : delivered s.results ++ s.queue ++ pending junk s.rest s.tail s.eof = expected
  ends : (∃ j, (j, none) ∈ s.results) → delivered s.results = expected
  joined : s.owner = .done → s.loader = .done

theorem upd (cs : Fin m → Consumer) (j k : Fin m) (c : Consumer) :
    Function.update cs j c k = if k = j then c else cs k := by
  by_cases hk : k = j
  · subst hk; simp
  · simp [hk]

/-- The object right after its constructor, the loader not having started yet: the state after the step `construct` from
the initial one. -/
def constructed (m : Nat) (records : List T) (tail : Bool) : Ipip T m :=
  { init m records tail false false with owner := .alive }

/-- Reachable under any schedule in which the constructor ends before the loader makes its first step. -/
def ReachableLate (junk : T) (records : List T) (tail : Bool) (s : Ipip T m) : Prop :=
  ∃ k, Run junk (fun _ => True) k (constructed m records tail) s

/-- What a user gets from the file: its records - and one record of junk more if the file is empty or anything (such as a
newline) follows its last record. -/
def expected (junk : T) (records : List T) (tail : Bool) : List T :=
  records ++ (if tail || records.isEmpty then [junk] else [])

theorem inv_constructed (junk : T) (records : List T) (tail : Bool) :
    Inv junk (expected junk records tail) (constructed m records tail) := by
  constructor <;>
    simp [constructed, init, lHolds, cHolds, oHolds, Stopped, SaidEnd, Fresh, Past, LOk, COk, delivered, pending, expected]

@[simp] theorem delivered_append (a b : List (Fin m × Option T)) : delivered (a ++ b) = delivered a ++ delivered b := by
  simp [delivered]

theorem readOne_spec (junk : T) (s : Ipip T m) (he : s.eof = false) :
    (readOne junk s).queue ++ pending junk (readOne junk s).rest (readOne junk s).tail (readOne junk s).eof
      = s.queue ++ pending junk s.rest s.tail s.eof ∧
    (readOne junk s).queue ≠ [] ∧
    (readOne junk s).consumers = s.consumers ∧ (readOne junk s).owner = s.owner ∧ (readOne junk s).lock = s.lock ∧
    (readOne junk s).stop = s.stop ∧ (readOne junk s).eoq = s.eoq ∧ (readOne junk s).results = s.results := by
  unfold readOne
  cases hr : s.rest with
  | nil => simp [pending, he]
  | cons x xs =>
    refine ⟨?_, by simp, rfl, rfl, rfl, rfl, rfl, rfl⟩
    dsimp only
    rw [he]
    unfold pending
    cases xs with
    | nil => cases s.tail <;> simp
    | cons y ys => cases s.tail <;> simp

theorem consumer_woken (c : Consumer) : cHolds c.woken = cHolds c ∧ c.woken ≠ .waiting ∧ (c = .idle → c.woken = .idle) := by
  cases c <;> simp [Consumer.woken, cHolds]

theorem cOk_woken {queue : List T} {eoq : Bool} {l l' : Loader} {c : Consumer} (h : COk queue eoq l c) :
    COk queue eoq l' c.woken := by
  cases c <;> simp_all [Consumer.woken, COk]

/-- A consumer's knowledge survives a change of the loader that keeps its obligation to notify. -/
theorem cOk_loader {queue : List T} {eoq : Bool} {l l' : Loader} {c : Consumer} (h : COk queue eoq l c)
    (hl : WillNotify l = true → WillNotify l' = true) : COk queue eoq l' c := by
  cases c <;> simp_all [COk]
  rcases h with h | h
  · exact Or.inl h
  · exact Or.inr (hl h)

theorem loader_woken (l : Loader) : lHolds l.woken = lHolds l ∧ l.woken ≠ .waiting ∧ SaidEnd l.woken = SaidEnd l ∧
    Fresh l.woken = Fresh l ∧ Past l.woken = Past l ∧ WillNotify l.woken = WillNotify l ∧ (l = .done → l.woken = .done) := by
  cases l <;> simp [Loader.woken, lHolds, SaidEnd, Fresh, Past, WillNotify]

theorem inv_step {junk : T} {exp : List T} {b : Opip.Kind} {s s' : Ipip T m} (h : Inv junk exp s) (st : Step junk b s s') :
    Inv junk exp s' := by
  obtain ⟨lockL, lockC, lockO, stopO, eoqO, eoqL, fresh, past, quiet, born, lOk, cOk, cons, ends, joined⟩ := h
  cases st with
  | construct _ ho => exact absurd ho born
  | lTestEof _ hl =>
    rw [hl] at lockL eoqO
    have e1 : lHolds (if s.eof then .lastLock else .acquire : Loader) = false := by split <;> rfl
    have e2 : SaidEnd (if s.eof then .lastLock else .acquire : Loader) = false := by split <;> rfl
    refine ⟨?_, lockC, lockO, stopO, ?_, ?_, ?_, ?_, quiet, born, ?_, fun j => ?_, cons, ends, ?_⟩
    · dsimp only; rw [e1]; exact lockL
    · dsimp only; rw [e2]; exact eoqO
    · dsimp only; rw [e2]; intro hx; cases hx
    · dsimp only; cases he : s.eof <;> simp [Fresh]
    · dsimp only; cases he : s.eof <;> simp [Past]
    · dsimp only; split <;> trivial
    · exact cOk_loader (cOk j) (by rw [hl]; simp [WillNotify])
    · intro hx; rw [joined hx] at hl; cases hl
  | lLock _ hl hlk =>
    rw [hl] at eoqO fresh
    refine ⟨by simp [lHolds], fun j => ?_, ?_, stopO, eoqO, fun hx => (by cases hx), fresh, fun hx => (by cases hx), quiet, born,
      trivial, fun j => cOk_loader (cOk j) (by rw [hl]; simp [WillNotify]), cons, ends, fun hx => (by rw [joined hx] at hl; cases hl)⟩
    · rw [lockC j, hlk]; simp
    · rw [lockO, hlk]; simp
  | lTest _ hl =>
    rw [hl] at eoqO fresh lockL
    have e1 : lHolds (if s.stop || s.queue.isEmpty then .testStop else .sleep : Loader) = true := by split <;> rfl
    have e2 : SaidEnd (if s.stop || s.queue.isEmpty then .testStop else .sleep : Loader) = false := by split <;> rfl
    have e3 : Fresh (if s.stop || s.queue.isEmpty then .testStop else .sleep : Loader) = true := by split <;> rfl
    have e4 : Past (if s.stop || s.queue.isEmpty then .testStop else .sleep : Loader) = false := by split <;> rfl
    refine ⟨?_, lockC, lockO, stopO, ?_, ?_, ?_, ?_, quiet, born, ?_, fun j => ?_, cons, ends, ?_⟩
    · dsimp only; rw [e1]; exact lockL
    · dsimp only; rw [e2]; exact eoqO
    · dsimp only; rw [e2]; intro hx; cases hx
    · dsimp only; rw [e3]; exact fresh
    · dsimp only; rw [e4]; intro hx; cases hx
    · dsimp only; split
      · trivial
      · rename_i hx
        simp only [Bool.or_eq_true, List.isEmpty_iff, not_or] at hx
        exact ⟨hx.2, by simpa using hx.1⟩
    · exact cOk_loader (cOk j) (by rw [hl]; simp [WillNotify])
    · intro hx; rw [joined hx] at hl; cases hl
  | lSleep _ hl =>
    have hlk := lockL.mp (by rw [hl]; rfl)
    rw [hl] at eoqO fresh lOk
    refine ⟨by simp [lHolds], fun j => ?_, ?_, stopO, eoqO, fun hx => (by cases hx), fresh, fun hx => (by cases hx), quiet, born,
      Or.inl lOk, fun j => cOk_loader (cOk j) (by rw [hl]; simp [WillNotify]), cons, ends, fun hx => (by rw [joined hx] at hl; cases hl)⟩
    · rw [lockC j, hlk]; simp
    · rw [lockO, hlk]; simp
  | lSpurious _ hl =>
    rw [hl] at eoqO fresh lockL
    exact ⟨lockL, lockC, lockO, stopO, eoqO, fun hx => (by cases hx), fresh, fun hx => (by cases hx), quiet, born,
      trivial, fun j => cOk_loader (cOk j) (by rw [hl]; simp [WillNotify]), cons, ends, fun hx => (by rw [joined hx] at hl; cases hl)⟩
  | lBreak _ hl hs =>
    have hlk := lockL.mp (by rw [hl]; rfl)
    rw [hl] at eoqO
    refine ⟨by simp [lHolds], fun j => ?_, ?_, stopO, eoqO, fun hx => (by cases hx), fun hx => (by cases hx), fun _ => Or.inr hs, quiet, born,
      trivial, fun j => cOk_loader (cOk j) (by rw [hl]; simp [WillNotify]), cons, ends, fun hx => (by rw [joined hx] at hl; cases hl)⟩
    · rw [lockC j, hlk]; simp
    · rw [lockO, hlk]; simp
  | lGoOn _ hl hs =>
    rw [hl] at eoqO fresh lockL
    exact ⟨lockL, lockC, lockO, stopO, eoqO, fun hx => (by cases hx), fresh, fun hx => (by cases hx), quiet, born,
      trivial, fun j => cOk_loader (cOk j) (by rw [hl]; simp [WillNotify]), cons, ends, fun hx => (by rw [joined hx] at hl; cases hl)⟩
  | lRead _ i hl hi he =>
    obtain ⟨r1, r2, r3, r4, r5, r6, r7, r8⟩ := readOne_spec junk s he
    have hlk := lockL.mp (by rw [hl]; rfl)
    rw [hl] at eoqO lockL
    refine ⟨?_, ?_, ?_, ?_, ?_, fun hx => (by cases hx), fun hx => (by cases hx), fun hx => (by cases hx), ?_, ?_, trivial, fun j => ?_, ?_, ?_, ?_⟩
    · dsimp only; rw [r5]; exact lockL
    · dsimp only; rw [r5, r3]; exact lockC
    · dsimp only; rw [r5, r4]; exact lockO
    · dsimp only; rw [r6, r4]; exact stopO
    · dsimp only; rw [r7, r4]; exact eoqO
    · dsimp only; rw [r4, r3]; exact quiet
    · dsimp only; rw [r4]; exact born
    · have hf : cHolds (s.consumers j) = false := by
        by_contra hx
        have := (lockC j).mp (by simpa using hx)
        rw [hlk] at this; cases this
      dsimp only; rw [r3]
      cases hc : s.consumers j <;> rw [hc] at hf <;> simp_all [COk, cHolds, WillNotify]
    · dsimp only; rw [r8, List.append_assoc, r1, ← List.append_assoc]; exact cons
    · dsimp only; rw [r8]; exact ends
    · dsimp only; rw [r4]; intro hx; rw [joined hx] at hl; cases hl
  | lLoaded _ i hl hi =>
    have hlk := lockL.mp (by rw [hl]; rfl)
    rw [hl] at eoqO
    refine ⟨by simp [lHolds], fun j => ?_, ?_, stopO, eoqO, fun hx => (by cases hx), fun hx => (by cases hx), fun hx => (by cases hx), quiet, born,
      trivial, fun j => cOk_loader (cOk j) (by simp [WillNotify]), cons, ends, fun hx => (by rw [joined hx] at hl; cases hl)⟩
    · rw [lockC j, hlk]; simp
    · rw [lockO, hlk]; simp
  | lNotify _ hl =>
    rw [hl] at eoqO lockL
    refine ⟨lockL, fun j => ?_, lockO, stopO, eoqO, fun hx => (by cases hx), fun hx => (by cases hx), fun hx => (by cases hx),
      fun hx j => (consumer_woken _).2.2 (quiet hx j), born, trivial, fun j => cOk_woken (cOk j), cons, ends,
      fun hx => (by rw [joined hx] at hl; cases hl)⟩
    dsimp only; rw [(consumer_woken _).1]; exact lockC j
  | lLastLock _ hl hlk =>
    rw [hl] at eoqO past
    refine ⟨by simp [lHolds], fun j => ?_, ?_, stopO, eoqO, fun hx => (by cases hx), fun hx => (by cases hx), past, quiet, born,
      trivial, fun j => cOk_loader (cOk j) (by rw [hl]; simp [WillNotify]), cons, ends, fun hx => (by rw [joined hx] at hl; cases hl)⟩
    · rw [lockC j, hlk]; simp
    · rw [lockO, hlk]; simp
  | lSetEoq _ hl =>
    have hlk := lockL.mp (by rw [hl]; rfl)
    rw [hl] at past
    refine ⟨by simp [lHolds], fun j => ?_, ?_, stopO, fun _ => Or.inr rfl, fun _ => rfl, fun hx => (by cases hx), past, quiet, born,
      trivial, fun j => ?_, cons, ends, fun hx => (by rw [joined hx] at hl; cases hl)⟩
    · rw [lockC j, hlk]; simp
    · rw [lockO, hlk]; simp
    · have hf : cHolds (s.consumers j) = false := by
        by_contra hx
        have := (lockC j).mp (by simpa using hx)
        rw [hlk] at this; cases this
      have := cOk j
      cases hc : s.consumers j <;> rw [hc] at hf this <;> simp_all [COk, cHolds, WillNotify]
  | lLastNotify _ hl =>
    rw [hl] at lockL past eoqL
    refine ⟨lockL, fun j => ?_, lockO, stopO, fun _ => Or.inr rfl, fun _ => eoqL rfl, fun hx => (by cases hx), past,
      fun hx j => (consumer_woken _).2.2 (quiet hx j), born, trivial, fun j => cOk_woken (cOk j), cons, ends, fun _ => rfl⟩
    dsimp only; rw [(consumer_woken _).1]; exact lockC j
  | cCall _ j hj ho =>
    refine ⟨lockL, fun k => ?_, lockO, stopO, eoqO, eoqL, fresh, past, fun hx => absurd ho hx, born, lOk, fun k => ?_, cons, ends, joined⟩
    · have := lockC k
      simp only [setC, upd]
      by_cases hk : k = j
      · subst hk; rw [if_pos rfl]; rw [hj] at this; exact this
      · rw [if_neg hk]; exact this
    · simp only [setC, upd]
      by_cases hk : k = j
      · rw [if_pos hk]; trivial
      · rw [if_neg hk]; exact cOk k
  | cLock _ j hj hlk =>
    rw [hlk] at lockL lockO
    have ho : s.owner = .alive := by by_contra hx; exact absurd hj (by rw [quiet hx j]; simp)
    refine ⟨?_, fun k => ?_, ?_, stopO, eoqO, eoqL, fresh, past, fun hx => absurd ho hx, born, lOk, fun k => ?_, cons, ends, joined⟩
    · simp only [setC]; rw [lockL]; simp
    · have := lockC k
      simp only [setC, upd]
      by_cases hk : k = j
      · subst hk; simp [cHolds]
      · rw [if_neg hk, this, hlk]; simp [Ne.symm hk]
    · simp only [setC]; rw [lockO]; simp
    · simp only [setC, upd]
      by_cases hk : k = j
      · rw [if_pos hk]; trivial
      · rw [if_neg hk]; exact cOk k
  | cTest _ j hj =>
    have hlk := (lockC j).mp (by rw [hj]; rfl)
    have ho : s.owner = .alive := by by_contra hx; exact absurd hj (by rw [quiet hx j]; simp)
    refine ⟨lockL, fun k => ?_, lockO, stopO, eoqO, eoqL, fresh, past, fun hx => absurd ho hx, born, lOk, fun k => ?_, cons, ends, joined⟩
    · have := lockC k
      simp only [setC, upd]
      by_cases hk : k = j
      · subst hk; rw [if_pos rfl, hlk]; split <;> simp [cHolds]
      · rw [if_neg hk]; exact this
    · simp only [setC, upd]
      by_cases hk : k = j
      · rw [if_pos hk]
        split
        · rename_i hx; simpa [COk] using hx
        · rename_i hx
          simp only [Bool.or_eq_true, Bool.not_eq_true', List.isEmpty_eq_false_iff, not_or, not_not] at hx
          exact ⟨hx.2, by simpa using hx.1⟩
      · rw [if_neg hk]; exact cOk k
  | cSleep _ j hj =>
    have hlk := (lockC j).mp (by rw [hj]; rfl)
    have ho : s.owner = .alive := by by_contra hx; exact absurd hj (by rw [quiet hx j]; simp)
    rw [hlk] at lockL lockO
    refine ⟨?_, fun k => ?_, ?_, stopO, eoqO, eoqL, fresh, past, fun hx => absurd ho hx, born, lOk, fun k => ?_, cons, ends, joined⟩
    · simp only [setC]; rw [lockL]; simp
    · have := lockC k
      simp only [setC, upd]
      by_cases hk : k = j
      · subst hk; simp [cHolds]
      · rw [if_neg hk, this, hlk]; simp [Ne.symm hk]
    · simp only [setC]; rw [lockO]; simp
    · simp only [setC, upd]
      by_cases hk : k = j
      · rw [if_pos hk]; have := cOk j; rw [hj] at this; exact Or.inl this
      · rw [if_neg hk]; exact cOk k
  | cSpurious _ j hj =>
    have ho : s.owner = .alive := by by_contra hx; exact absurd hj (by rw [quiet hx j]; simp)
    refine ⟨lockL, fun k => ?_, lockO, stopO, eoqO, eoqL, fresh, past, fun hx => absurd ho hx, born, lOk, fun k => ?_, cons, ends, joined⟩
    · have := lockC k
      simp only [setC, upd]
      by_cases hk : k = j
      · subst hk; rw [if_pos rfl]; rw [hj] at this; exact this
      · rw [if_neg hk]; exact this
    · simp only [setC, upd]
      by_cases hk : k = j
      · rw [if_pos hk]; trivial
      · rw [if_neg hk]; exact cOk k
  | cFalse _ j hj heoq hq =>
    have hlk := (lockC j).mp (by rw [hj]; rfl)
    have ho : s.owner = .alive := by by_contra hx; exact absurd hj (by rw [quiet hx j]; simp)
    have hs : s.stop = false := by rw [stopO, ho]; rfl
    have he : s.eof = true := by
      rcases eoqO heoq with hx | hx
      · rw [← stopO, hs] at hx; cases hx
      · have hp : Past s.loader = true := by cases hl : s.loader <;> rw [hl] at hx <;> simp_all [Past, SaidEnd]
        rcases past hp with hy | hy
        · exact hy
        · rw [hs] at hy; cases hy
    rw [hlk] at lockL lockO
    have hd : delivered s.results = exp := by
      rw [hq, he] at cons; simpa [pending] using cons
    refine ⟨?_, fun k => ?_, ?_, stopO, eoqO, eoqL, fresh, past, fun hx => absurd ho hx, born, lOk, fun k => ?_, ?_, fun _ => ?_, joined⟩
    · simp only [setC]; rw [lockL]; simp
    · have := lockC k
      simp only [setC, upd]
      by_cases hk : k = j
      · subst hk; simp [cHolds]
      · rw [if_neg hk, this, hlk]; simp [Ne.symm hk]
    · simp only [setC]; rw [lockO]; simp
    · simp only [setC, upd]
      by_cases hk : k = j
      · rw [if_pos hk]; trivial
      · rw [if_neg hk]; exact cOk k
    · simp only [setC, delivered_append]; rw [← cons]; simp [delivered]
    · simp only [delivered_append]; rw [hd]; simp [delivered]
  | cTake _ j d q hj hq =>
    have hlk := (lockC j).mp (by rw [hj]; rfl)
    have ho : s.owner = .alive := by by_contra hx; exact absurd hj (by rw [quiet hx j]; simp)
    have hs : s.stop = false := by rw [stopO, ho]; rfl
    rw [hlk] at lockL lockO
    have hlf : lHolds s.loader = false := by
      by_contra hx
      have := lockL.mp (by simpa using hx)
      cases this
    obtain ⟨w1, w2, w3, w4, w5, w6, w7⟩ := loader_woken s.loader
    refine ⟨?_, fun k => ?_, ?_, stopO, ?_, ?_, ?_, ?_, fun hx => absurd ho hx, born, ?_, fun k => ?_, ?_, ?_, ?_⟩
    · dsimp only; split <;> simp [hlf, w1]
    · have := lockC k
      simp only [setC, upd]
      by_cases hk : k = j
      · subst hk; simp [cHolds]
      · rw [if_neg hk, this, hlk]; simp [Ne.symm hk]
    · simp only [setC]; rw [lockO]; simp
    · simp only [setC]; split
      · rw [w3]; exact eoqO
      · exact eoqO
    · simp only [setC]; split
      · rw [w3]; exact eoqL
      · exact eoqL
    · simp only [setC]; split
      · rw [w4]; exact fresh
      · exact fresh
    · simp only [setC]; split
      · rw [w5]; exact past
      · exact past
    · simp only [setC]; split
      · cases hl : s.loader <;> rw [hl] at hlf <;> simp_all [LOk, Loader.woken, lHolds]
      · rename_i hne
        cases hl : s.loader <;> rw [hl] at hlf <;> simp_all [LOk, lHolds]
    · simp only [setC, upd]
      by_cases hk : k = j
      · rw [if_pos hk]; trivial
      · rw [if_neg hk]
        have hck : cHolds (s.consumers k) = false := by
          by_contra hx
          have := (lockC k).mp (by simpa using hx)
          rw [hlk] at this
          simp only [Option.some.injEq, Holder.producer.injEq] at this
          exact hk this.symm
        have h1 := cOk k
        have h2 : WillNotify (if q.isEmpty then s.loader.woken else s.loader) = WillNotify s.loader := by
          split
          · exact w6
          · rfl
        cases hc : s.consumers k with
        | waiting =>
          rw [hc] at h1
          rcases h1 with hx | hx
          · rw [hq] at hx; exact absurd hx.1 (by simp)
          · exact Or.inr (h2.trans hx)
        | test => rw [hc] at hck; cases hck
        | sleep => rw [hc] at hck; cases hck
        | take => rw [hc] at hck; cases hck
        | idle => trivial
        | acquire => trivial
    · simp only [setC, delivered_append]; rw [← cons, hq]; simp [delivered]
    · dsimp only
      rintro ⟨k, hk⟩
      simp only [List.mem_append, List.mem_singleton, Prod.mk.injEq, reduceCtorEq, and_false, or_false] at hk
      have := ends ⟨k, hk⟩
      rw [this, hq] at cons
      have := congrArg List.length cons
      simp at this
    · intro hx; simp only [setC] at hx; rw [ho] at hx; cases hx
  | dCall _ ho hp =>
    refine ⟨lockL, lockC, ?_, ?_, ?_, eoqL, fresh, past, fun _ => hp, by simp, ?_, cOk, cons, ends, fun hx => (by cases hx)⟩
    · rw [ho] at lockO; exact lockO
    · rw [ho] at stopO; exact stopO
    · rw [ho] at eoqO; exact eoqO
    · rw [ho] at lOk
      cases hl : s.loader <;> rw [hl] at lOk <;> simp_all [LOk]
  | dLock _ ho hlk =>
    have hp := quiet (by rw [ho]; simp)
    rw [hlk] at lockL
    refine ⟨?_, fun j => ?_, by simp [oHolds], ?_, ?_, eoqL, fresh, past, fun _ => hp, by simp, ?_, cOk, cons, ends, fun hx => (by cases hx)⟩
    · dsimp only; rw [lockL]; simp
    · dsimp only; rw [lockC j, hlk]; simp
    · rw [ho] at stopO; exact stopO
    · rw [ho] at eoqO; exact eoqO
    · rw [ho] at lOk
      cases hl : s.loader <;> rw [hl] at lOk <;> simp_all [LOk]
  | dStop _ ho =>
    have hp := quiet (by rw [ho]; simp)
    have hlk := lockO.mp (by rw [ho]; rfl)
    rw [hlk] at lockL
    have hlf : lHolds s.loader = false := by
      by_contra hx
      have := lockL.mp (by simpa using hx)
      cases this
    refine ⟨?_, fun j => ?_, by simp [oHolds], rfl, fun _ => Or.inl rfl, fun _ => rfl, fresh, fun _ => Or.inr rfl, fun _ => hp, by simp, ?_,
      fun j => ?_, cons, ends, fun hx => (by cases hx)⟩
    · simp [hlf]
    · dsimp only; rw [lockC j, hlk]; simp
    · cases hl : s.loader <;> rw [hl] at hlf <;> simp_all [LOk, lHolds]
    · dsimp only; rw [hp j]; trivial
  | dNotifyIo _ ho =>
    have hp := quiet (by rw [ho]; simp)
    have hp' : ∀ j, (s.consumers j).woken = .idle := fun j => (consumer_woken _).2.2 (hp j)
    refine ⟨lockL, fun j => ?_, ?_, ?_, ?_, eoqL, fresh, past, fun _ => hp', by simp, ?_, fun j => ?_, cons, ends, fun hx => (by cases hx)⟩
    · dsimp only; rw [(consumer_woken _).1]; exact lockC j
    · rw [ho] at lockO; exact lockO
    · rw [ho] at stopO; exact stopO
    · rw [ho] at eoqO; exact eoqO
    · cases hl : s.loader <;> rw [hl] at lOk <;> simp_all [LOk]
    · dsimp only; rw [hp' j]; trivial
  | dNotifyLoad _ ho =>
    have hp := quiet (by rw [ho]; simp)
    obtain ⟨w1, w2, w3, w4, w5, w6, w7⟩ := loader_woken s.loader
    refine ⟨?_, lockC, ?_, ?_, ?_, ?_, ?_, ?_, fun _ => hp, by simp, ?_, fun j => ?_, cons, ends, fun hx => (by cases hx)⟩
    · dsimp only; rw [w1]; exact lockL
    · rw [ho] at lockO; exact lockO
    · rw [ho] at stopO; exact stopO
    · dsimp only; rw [w3]; rw [ho] at eoqO; exact eoqO
    · dsimp only; rw [w3]; exact eoqL
    · dsimp only; rw [w4]; exact fresh
    · dsimp only; rw [w5]; exact past
    · cases hl : s.loader <;> rw [hl] at lOk <;> simp_all [LOk, Loader.woken]
    · dsimp only; rw [hp j]; trivial
  | dJoin _ ho hl =>
    have hp := quiet (by rw [ho]; simp)
    refine ⟨lockL, lockC, ?_, ?_, ?_, eoqL, fresh, past, fun _ => hp, by simp, ?_, cOk, cons, ends, fun _ => hl⟩
    · rw [ho] at lockO; exact lockO
    · rw [ho] at stopO; exact stopO
    · rw [ho] at eoqO; exact eoqO
    · dsimp only; rw [hl]; trivial

theorem inv_run {junk : T} {exp : List T} {kinds : Opip.Kind → Prop} {k : Nat} {s s' : Ipip T m} (h : Inv junk exp s)
    (r : Run junk kinds k s s') : Inv junk exp s' := by
  induction r with
  | refl => exact h
  | step _ _ st ih => exact inv_step (ih h) st

theorem inv_reachable {junk : T} {records : List T} {tail : Bool} {s : Ipip T m} (h : ReachableLate junk records tail s) :
    Inv junk (expected junk records tail) s := by
  obtain ⟨k, r⟩ := h
  exact inv_run (inv_constructed junk records tail) r

def cWeight : Consumer → Nat
  | .idle => 0 | .waiting => 0 | .sleep => 1 | .take => 4 | .test => 5 | .acquire => 6

def lWeight (m : Nat) : Loader → Nat
  | .done => 0 | .lastNotify => 6 * m + 1 | .setEoq => 6 * m + 2 | .lastLock => 6 * m + 3 | .load 0 => 6 * m + 3
  | .testStop => 6 * m + 4 | .waiting => 6 * m + 4 | .sleep => 6 * m + 5 | .test => 6 * m + 6 | .acquire => 6 * m + 7
  | .testEof => 6 * m + 8 | .notifyIo => 12 * m + 9 | .load (_ + 1) => 12 * m + 10

def oWeight (m : Nat) : IOwner → Nat
  | .done => 0 | .alive => 0 | .constructing => 1 | .join => 1 | .notifyLoad => 5 | .notifyIo => 6 * m + 6
  | .setStop => 6 * m + 7 | .acquire => 6 * m + 8

/-- Reads the loader can still make. -/
def reads : Bool → Nat → Nat
  | true, _ => 0
  | false, k => k + 1

def weight (s : Ipip T m) : Nat :=
  lWeight m s.loader + (∑ j, cWeight (s.consumers j)) + (6 * m + 8) * reads s.eof s.rest.length + oWeight m s.owner

theorem woken_weight (cs : Fin m → Consumer) : ∑ j, cWeight (cs j).woken ≤ (∑ j, cWeight (cs j)) + 6 * m := by
  calc ∑ j, cWeight (cs j).woken ≤ ∑ j, (cWeight (cs j) + 6) :=
        Finset.sum_le_sum fun i _ => by cases cs i <;> simp [Consumer.woken, cWeight]
    _ = (∑ j, cWeight (cs j)) + 6 * m := by rw [Finset.sum_add_distrib]; simp [Nat.mul_comm]

theorem reads_readOne (junk : T) (s : Ipip T m) (he : s.eof = false) :
    reads (readOne junk s).eof (readOne junk s).rest.length + 1 ≤ reads s.eof s.rest.length := by
  unfold readOne
  cases hr : s.rest with
  | nil => simp [he, reads]
  | cons x xs =>
    dsimp only; rw [he]
    cases (xs.isEmpty && !s.tail) <;> simp [reads]

theorem weight_lt {junk : T} {exp : List T} {s s' : Ipip T m} (h : Inv junk exp s) (st : Step junk .internal s s') :
    weight s' < weight s := by
  have hwl : lWeight m s.loader.woken ≤ lWeight m s.loader + 3 := by
    cases s.loader <;> simp [Loader.woken, lWeight]
  cases st with
  | construct _ ho => exact absurd ho h.born
  | lTestEof _ hl =>
    have : lWeight m (if s.eof then .lastLock else .acquire) ≤ 6 * m + 7 := by split <;> simp [lWeight]
    have h3 : lWeight m .testEof = 6 * m + 8 := rfl
    simp only [weight, hl] at *; omega
  | lLock _ hl hlk => simp only [weight, hl, lWeight]; omega
  | lTest _ hl =>
    have : lWeight m (if s.stop || s.queue.isEmpty then .testStop else .sleep) ≤ 6 * m + 5 := by split <;> simp [lWeight]
    have h3 : lWeight m .test = 6 * m + 6 := rfl
    simp only [weight, hl] at *; omega
  | lSleep _ hl => simp only [weight, hl, lWeight]; omega
  | lBreak _ hl hs => simp only [weight, hl, lWeight]; omega
  | lGoOn _ hl hs => simp only [weight, hl, lWeight]; omega
  | lRead _ i hl hi he =>
    obtain ⟨r1, r2, r3, r4, r5, r6, r7, r8⟩ := readOne_spec junk s he
    have hr := reads_readOne junk s he
    have hmul := Nat.mul_le_mul_left (6 * m + 8) hr
    have hli : 6 * m + 3 ≤ lWeight m (.load i) := by cases i <;> simp [lWeight]; omega
    have hli' : lWeight m (.load (i + 1)) = 12 * m + 10 := rfl
    simp only [weight, r3, r4, hl, hli']
    rw [Nat.mul_add, Nat.mul_one] at hmul
    omega
  | lLoaded _ i hl hi =>
    cases i with
    | zero =>
      have := h.fresh (by rw [hl]; rfl)
      exact absurd ⟨by omega, this⟩ hi
    | succ i => simp only [weight, hl, lWeight]; omega
  | lNotify _ hl =>
    have := woken_weight s.consumers
    simp only [weight, hl, lWeight]; omega
  | lLastLock _ hl hlk => simp only [weight, hl, lWeight]; omega
  | lSetEoq _ hl => simp only [weight, hl, lWeight]; omega
  | lLastNotify _ hl =>
    have := woken_weight s.consumers
    simp only [weight, hl, lWeight]; omega
  | cLock _ j hj hlk =>
    have := sum_update cWeight s.consumers j .test
    rw [hj] at this; simp only [weight, setC, cWeight] at this ⊢; omega
  | cTest _ j hj =>
    have := sum_update cWeight s.consumers j (if s.eoq || !s.queue.isEmpty then .take else .sleep)
    have h2 : cWeight (if s.eoq || !s.queue.isEmpty then .take else .sleep) ≤ 4 := by split <;> simp [cWeight]
    have h3 : cWeight .test = 5 := rfl
    rw [hj] at this; simp only [weight, setC] at this ⊢; omega
  | cSleep _ j hj =>
    have := sum_update cWeight s.consumers j .waiting
    rw [hj] at this; simp only [weight, setC, cWeight] at this ⊢; omega
  | cFalse _ j hj heoq hq =>
    have := sum_update cWeight s.consumers j .idle
    rw [hj] at this; simp only [weight, setC, cWeight] at this ⊢; omega
  | cTake _ j d q hj hq =>
    have := sum_update cWeight s.consumers j .idle
    have h2 : lWeight m (if q.isEmpty then s.loader.woken else s.loader) ≤ lWeight m s.loader + 3 := by split <;> omega
    rw [hj] at this; simp only [weight, setC, cWeight] at this ⊢; omega
  | dLock _ ho hlk => simp only [weight, ho, oWeight]; omega
  | dStop _ ho => simp only [weight, ho, oWeight]; omega
  | dNotifyIo _ ho =>
    have := woken_weight s.consumers
    simp only [weight, ho, oWeight]; omega
  | dNotifyLoad _ ho => simp only [weight, ho, oWeight]; omega
  | dJoin _ ho hl => simp only [weight, ho, oWeight]; omega

theorem run_le_weight {junk : T} {exp : List T} {k : Nat} {s s' : Ipip T m} (h : Inv junk exp s)
    (r : Run junk Opip.Internal k s s') : k + weight s' ≤ weight s := by
  induction r with
  | refl => omega
  | step r hb st ih =>
    rename_i b
    cases b with
    | internal => have := weight_lt (inv_run h r) st; have := ih h; omega
    | _ => exact hb.elim

end Ipip

open Ipip
variable {T : Type} {m : Nat}

/-- **C66, order.**  Under every schedule (the constructor ending before the loader's first step), at every moment the
records handed out to all threads together, in the order of the calls, are a first part of the records of the file -
followed by one record of junk if the file is empty or anything follows its last record. -/
theorem C66_in_order_partial (junk : T) (records : List T) (tail : Bool) (s : Ipip T m)
    (h : ReachableLate junk records tail s) :
    delivered s.results <+: records ++ (if tail || records.isEmpty then [junk] else []) := by
  have := (Ipip.inv_reachable h).cons
  refine ⟨s.queue ++ pending junk s.rest s.tail s.eof, ?_⟩
  rw [← List.append_assoc]; exact this

/-- **C66, a file that ends with its last record.**  The records handed out are a first part of those of the file. -/
theorem C66_records_partial (junk : T) (records : List T) (hne : records ≠ []) (s : Ipip T m)
    (h : ReachableLate junk records false s) : delivered s.results <+: records := by
  have := C66_in_order_partial junk records false s h
  simpa [hne] using this

/-- **C66, the end is reported only at the end.**  Once a call has returned false, everything has been handed out. -/
theorem C66_false_at_the_end_partial (junk : T) (records : List T) (tail : Bool) (s : Ipip T m)
    (h : ReachableLate junk records tail s) (hf : ∃ j, (j, none) ∈ s.results) :
    delivered s.results = records ++ (if tail || records.isEmpty then [junk] else []) :=
  (Ipip.inv_reachable h).ends hf

/-- **C66, progress.**  From every moment on, if the user calls nothing more, under every schedule the object comes to
rest after boundedly many steps; then every `operator>>` has returned, and the destructor, if it was called, too. -/
theorem C66_settles_partial (junk : T) (records : List T) (tail : Bool) (s : Ipip T m)
    (h : ReachableLate junk records tail s) :
    (∃ bound, ∀ k s', Ipip.Run junk Opip.Internal k s s' → k ≤ bound) ∧
    ∀ k s', Ipip.Run junk Opip.Internal k s s' → (∀ s'', ¬ Ipip.Step junk .internal s' s'') →
      (∀ j, s'.consumers j = .idle) ∧ (s'.owner = .alive ∨ s'.owner = .done) := by
  have hinv0 := Ipip.inv_reachable h
  refine ⟨⟨weight s, fun k s' r => ?_⟩, fun k s' r hst => ?_⟩
  · have := Ipip.run_le_weight hinv0 r; omega
  · have hinv := Ipip.inv_run hinv0 r
    have hlo : s'.loader = .waiting ∨ s'.loader = .done ∨
        ((s'.loader = .acquire ∨ s'.loader = .lastLock) ∧ s'.lock ≠ none) := by
      cases hl : s'.loader with
      | testEof => exact absurd (.lTestEof s' hl) (hst _)
      | acquire => exact Or.inr (Or.inr ⟨Or.inl rfl, fun hk => hst _ (.lLock s' hl hk)⟩)
      | test => exact absurd (.lTest s' hl) (hst _)
      | sleep => exact absurd (.lSleep s' hl) (hst _)
      | waiting => exact Or.inl rfl
      | testStop =>
        cases hs : s'.stop with
        | true => exact absurd (.lBreak s' hl hs) (hst _)
        | false => exact absurd (.lGoOn s' hl hs) (hst _)
      | load i =>
        by_cases hi : i < 100 ∧ s'.eof = false
        · exact absurd (.lRead s' i hl hi.1 hi.2) (hst _)
        · exact absurd (.lLoaded s' i hl hi) (hst _)
      | notifyIo => exact absurd (.lNotify s' hl) (hst _)
      | lastLock => exact Or.inr (Or.inr ⟨Or.inr rfl, fun hk => hst _ (.lLastLock s' hl hk)⟩)
      | setEoq => exact absurd (.lSetEoq s' hl) (hst _)
      | lastNotify => exact absurd (.lLastNotify s' hl) (hst _)
      | done => exact Or.inr (Or.inl rfl)
    have hco : ∀ j, s'.consumers j = .idle ∨ s'.consumers j = .waiting ∨ (s'.consumers j = .acquire ∧ s'.lock ≠ none) := by
      intro j
      cases hj : s'.consumers j with
      | idle => exact Or.inl rfl
      | acquire => exact Or.inr (Or.inr ⟨rfl, fun hk => hst _ (.cLock s' j hj hk)⟩)
      | test => exact absurd (.cTest s' j hj) (hst _)
      | sleep => exact absurd (.cSleep s' j hj) (hst _)
      | waiting => exact Or.inr (Or.inl rfl)
      | take =>
        have := hinv.cOk j; rw [hj] at this
        cases hq : s'.queue with
        | nil => exact absurd (.cFalse s' j hj (this.resolve_right fun hx => hx hq) hq) (hst _)
        | cons d q => exact absurd (.cTake s' j d q hj hq) (hst _)
    have how : s'.owner ≠ .setStop := fun ho => hst _ (.dStop s' ho)
    have hl : s'.lock = none := by
      cases hl : s'.lock with
      | none => rfl
      | some x =>
        exfalso
        cases x with
        | writer =>
          have := hinv.lockL.mpr hl
          rcases hlo with h1 | h1 | ⟨h1 | h1, -⟩ <;> rw [h1] at this <;> cases this
        | producer j =>
          have := (hinv.lockC j).mpr hl
          rcases hco j with h1 | h1 | ⟨h1, -⟩ <;> rw [h1] at this <;> cases this
        | owner =>
          have := hinv.lockO.mpr hl
          cases ho : s'.owner with
          | setStop => exact how ho
          | _ => rw [ho] at this; cases this
    have hlo' : s'.loader = .waiting ∨ s'.loader = .done := by
      rcases hlo with h1 | h1 | h1
      · exact Or.inl h1
      · exact Or.inr h1
      · exact absurd hl h1.2
    have hown : s'.owner = .alive ∨ s'.owner = .done := by
      cases ho : s'.owner with
      | constructing => exact absurd ho hinv.born
      | alive => exact Or.inl rfl
      | acquire => exact absurd (.dLock s' ho hl) (hst _)
      | setStop => exact absurd ho how
      | notifyIo => exact absurd (.dNotifyIo s' ho) (hst _)
      | notifyLoad => exact absurd (.dNotifyLoad s' ho) (hst _)
      | join =>
        exfalso
        rcases hlo' with h1 | h1
        · have := hinv.lOk; rw [h1, ho] at this
          have hs : s'.stop = true := by rw [hinv.stopO, ho]; rfl
          rcases this with hx | hx | hx
          · rw [hs] at hx; exact absurd hx.2 (by simp)
          · cases hx
          · cases hx
        · exact hst _ (.dJoin s' ho h1)
      | done => exact Or.inr rfl
    refine ⟨fun j => ?_, hown⟩
    rcases hco j with h1 | h1 | h1
    · exact h1
    · exfalso
      have ho : s'.owner = .alive := by
        by_contra hx; have := hinv.quiet hx j; rw [h1] at this; cases this
      have hc := hinv.cOk j
      rw [h1] at hc
      rcases hlo' with h2 | h2
      · have hlk := hinv.lOk
        rw [h2, ho] at hlk; rw [h2] at hc
        rcases hc with hc | hc
        · rcases hlk with hx | hx | hx
          · exact hx.1 hc.1
          · cases hx
          · cases hx
        · cases hc
      · rw [h2] at hc
        rcases hc with hc | hc
        · have := hinv.eoqL (by rw [h2]; rfl)
          rw [this] at hc; exact absurd hc.2 (by simp)
        · cases hc
    · exact absurd hl h1.2

/-- A text file whose last line ends with a newline: after its only record the user is handed a record of junk (an
uninitialised variable) as if it were in the file. -/
theorem C66_final_newline_gives_junk (junk x : T) :
    ∃ s : Ipip T 1, ReachableLate junk [x] true s ∧ s.results = [(0, some x), (0, some junk), (0, none)] := by
  have r0 : Ipip.Run junk (fun _ => True) 0 (constructed 1 [x] true) _ := .refl _
  have r1 := r0.step trivial (.lTestEof _ rfl)
  have r2 := r1.step trivial (.lLock _ rfl rfl)
  have r3 := r2.step trivial (.lTest _ rfl)
  have r4 := r3.step trivial (.lGoOn _ rfl rfl)
  have r5 := r4.step trivial (.lRead _ 0 rfl (by decide) rfl)
  have r6 := r5.step trivial (.lRead _ 1 rfl (by decide) rfl)
  have r7 := r6.step trivial (.lLoaded _ 2 rfl (by simp [readOne, constructed, Ipip.init]))
  have r8 := r7.step trivial (.lNotify _ rfl)
  have r9 := r8.step trivial (.lTestEof _ rfl)
  have r10 := r9.step trivial (.lLastLock _ rfl rfl)
  have r11 := r10.step trivial (.lSetEoq _ rfl)
  have r12 := r11.step trivial (.cCall _ 0 rfl rfl)
  have r13 := r12.step trivial (.cLock _ 0 rfl rfl)
  have r14 := r13.step trivial (.cTest _ 0 rfl)
  have r15 := r14.step trivial (.cTake _ 0 x [junk] rfl rfl)
  have r16 := r15.step trivial (.cCall _ 0 rfl rfl)
  have r17 := r16.step trivial (.cLock _ 0 rfl rfl)
  have r18 := r17.step trivial (.cTest _ 0 rfl)
  have r19 := r18.step trivial (.cTake _ 0 junk [] rfl rfl)
  have r20 := r19.step trivial (.cCall _ 0 rfl rfl)
  have r21 := r20.step trivial (.cLock _ 0 rfl rfl)
  have r22 := r21.step trivial (.cTest _ 0 rfl)
  have r23 := r22.step trivial (.cFalse _ 0 rfl rfl rfl)
  exact ⟨_, ⟨_, r23⟩, rfl⟩

/-- The constructor initialises `eoq_` after it has started the loader.  If the loader is quick (a file of at most 100
records), its announcement of the end is overwritten: the user who has taken all records waits for ever - no step but a
spurious wake-up is possible.  (Here even with both members initially 0.) -/
theorem C66_quick_loader_hangs (junk x : T) :
    ∃ s : Ipip T 1, Ipip.Reachable junk [x] false false false s ∧ s.results = [(0, some x)] ∧ s.consumers 0 = .waiting ∧
      ∀ b s', Ipip.Step junk b s s' → b = .spurious := by
  have r0 : Ipip.Run junk (fun _ => True) 0 (Ipip.init 1 [x] false false false) _ := .refl _
  have r1 := r0.step trivial (.lTestEof _ rfl)
  have r2 := r1.step trivial (.lLock _ rfl rfl)
  have r3 := r2.step trivial (.lTest _ rfl)
  have r4 := r3.step trivial (.lGoOn _ rfl rfl)
  have r5 := r4.step trivial (.lRead _ 0 rfl (by decide) rfl)
  have r6 := r5.step trivial (.lLoaded _ 1 rfl (by simp [readOne, Ipip.init]))
  have r7 := r6.step trivial (.lNotify _ rfl)
  have r8 := r7.step trivial (.lTestEof _ rfl)
  have r9 := r8.step trivial (.lLastLock _ rfl rfl)
  have r10 := r9.step trivial (.lSetEoq _ rfl)
  have r11 := r10.step trivial (.lLastNotify _ rfl)
  have r12 := r11.step trivial (.construct _ rfl)
  have r13 := r12.step trivial (.cCall _ 0 rfl rfl)
  have r14 := r13.step trivial (.cLock _ 0 rfl rfl)
  have r15 := r14.step trivial (.cTest _ 0 rfl)
  have r16 := r15.step trivial (.cTake _ 0 x [] rfl rfl)
  have r17 := r16.step trivial (.cCall _ 0 rfl rfl)
  have r18 := r17.step trivial (.cLock _ 0 rfl rfl)
  have r19 := r18.step trivial (.cTest _ 0 rfl)
  have r20 := r19.step trivial (.cSleep _ 0 rfl)
  refine ⟨_, ⟨_, r20⟩, rfl, rfl, ?_⟩
  have key : ∀ s : Ipip T 1, s.loader = .done → s.consumers 0 = .waiting → s.owner = .alive →
      ∀ b s', Ipip.Step junk b s s' → b = .spurious := by
    intro s hl hc ho b s' st
    have hc' : ∀ j, s.consumers j = .waiting := fun j => by rw [Subsingleton.elim j 0]; exact hc
    cases st with
    | lSpurious _ _ => rfl
    | cSpurious _ _ _ => rfl
    | cCall _ j hj => rw [hc' j] at hj; cases hj
    | cLock _ j hj => rw [hc' j] at hj; cases hj
    | cTest _ j hj => rw [hc' j] at hj; cases hj
    | cSleep _ j hj => rw [hc' j] at hj; cases hj
    | cFalse _ j hj => rw [hc' j] at hj; cases hj
    | cTake _ j _ _ hj => rw [hc' j] at hj; cases hj
    | dCall _ _ hp => have := hp 0; rw [hc] at this; cases this
    | _ => simp_all
  exact key _ rfl rfl rfl

end SpaceHub.Conc
