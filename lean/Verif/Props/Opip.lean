import Mathlib.Algebra.BigOperators.Fin
import Verif.Model.Opip
import Verif.Proof.ThreadPool

/-!
C65: an output pipe (`Opip`) writes every record put into it to the file, once and in order, before its destructor
returns, and the destructor returns.  Model: `Verif/Model/Opip.lean`.
-/

set_option autoImplicit false

namespace SpaceHub.Conc
namespace Opip
variable {T : Type} {m : Nat}

def wHolds : Writer T → Bool
  | .test | .sleep | .testStop | .pop => true
  | _ => false

def pHolds : Producer T → Bool
  | .push _ => true
  | _ => false

def oHolds : Owner → Bool
  | .setStop => true
  | _ => false

def Stopped : Owner → Bool
  | .notify | .join | .done => true
  | _ => false

/-- The record the writer has taken but not yet written. -/
def inHand : Writer T → List T
  | .write d => [d]
  | _ => []

/-- What the writer knows. -/
def WOk (queue : List T) (stop : Bool) : Writer T → Prop
  | .sleep => queue = [] ∧ stop = false
  | .testStop => stop = true ∨ queue ≠ []
  | .pop => queue ≠ []
  | .drain => stop = true
  | .done => stop = true ∧ queue = []
  | _ => True

structure Inv (s : Opip T m) : Prop where
  lockW : wHolds s.writer = true ↔ s.lock = some .writer
  lockP : ∀ j, pHolds (s.producers j) = true ↔ s.lock = some (.producer j)
  lockO : oHolds s.owner = true ↔ s.lock = some .owner
  stopO : s.stop = Stopped s.owner
  wOk : WOk s.queue s.stop s.writer
  quiet : s.owner ≠ .alive → ∀ j, s.producers j = .idle
  cons : s.file ++ inHand s.writer ++ s.queue = s.accepted
  wakeQ : s.writer = .waiting → s.queue ≠ [] → ∃ j, s.producers j = .notify
  wakeS : s.writer = .waiting → s.stop = true → s.owner = .notify
  joined : s.owner = .done → s.writer = .done

theorem inv_init : Inv (init T m false) := by
  constructor <;> simp [init, wHolds, pHolds, oHolds, Stopped, WOk, inHand]

theorem upd (ps : Fin m → Producer T) (j k : Fin m) (c : Producer T) :
    Function.update ps j c k = if k = j then c else ps k := by
  by_cases hk : k = j
  · subst hk; simp
  · simp [hk]

theorem inv_step {b : Kind} {s s' : Opip T m} (h : Inv s) (st : Step b s s') : Inv s' := by
  obtain ⟨lockW, lockP, lockO, stopO, wOk, quiet, cons, wakeQ, wakeS, joined⟩ := h
  cases st with
  | construct _ ho =>
    have hs : s.stop = false := by rw [stopO, ho]; rfl
    have hp := quiet (by rw [ho]; simp)
    refine ⟨lockW, lockP, ?_, rfl, by rw [← hs]; exact wOk, fun hx => absurd rfl hx, cons, wakeQ, fun _ hx => (by cases hx),
      fun hx => (by cases hx)⟩
    rw [ho] at lockO; exact lockO
  | wLock _ hw hl =>
    rw [hl] at lockW lockO
    refine ⟨?_, fun j => ?_, ?_, stopO, trivial, quiet, ?_, fun hx => (by cases hx), fun hx => (by cases hx),
      fun hx => (by rw [joined hx] at hw; cases hw)⟩
    · simp [wHolds]
    · rw [lockP j, hl]; simp
    · rw [lockO]; simp
    · rw [hw] at cons; exact cons
  | wTest _ hw =>
    rw [hw] at lockW wOk cons
    have key : inHand (if s.stop || !s.queue.isEmpty then .testStop else .sleep : Writer T) = [] := by split <;> rfl
    refine ⟨?_, lockP, lockO, stopO, ?_, quiet, ?_, fun hx => ?_, fun hx => ?_, fun hx => (by rw [joined hx] at hw; cases hw)⟩
    · rw [← lockW]; dsimp only; split <;> simp [wHolds]
    · dsimp only; split
      · rename_i h; simp only [Bool.or_eq_true, Bool.not_eq_true', List.isEmpty_eq_false_iff] at h; exact h
      · rename_i h; simp only [Bool.or_eq_true, Bool.not_eq_true', List.isEmpty_eq_false_iff, not_or, not_not] at h
        exact ⟨h.2, by simpa using h.1⟩
    · dsimp only; rw [key]; exact cons
    · dsimp only at hx; split at hx <;> cases hx
    · dsimp only at hx; split at hx <;> cases hx
  | wSleep _ hw =>
    have hl := lockW.mp (by rw [hw]; rfl)
    rw [hw] at wOk cons
    refine ⟨by simp [wHolds], fun j => ?_, ?_, stopO, trivial, quiet, cons, fun _ hq => absurd wOk.1 hq,
      fun _ hs => ?_, fun hx => (by rw [joined hx] at hw; cases hw)⟩
    · rw [lockP j, hl]; simp
    · rw [lockO, hl]; simp
    · have := wOk.2; simp only at hs; rw [hs] at this; cases this
  | wSpurious _ hw =>
    rw [hw] at lockW cons
    exact ⟨lockW, lockP, lockO, stopO, trivial, quiet, cons, fun hx => (by cases hx), fun hx => (by cases hx),
      fun hx => (by rw [joined hx] at hw; cases hw)⟩
  | wBreak _ hw hs =>
    have hl := lockW.mp (by rw [hw]; rfl)
    rw [hw] at cons
    refine ⟨by simp [wHolds], fun j => ?_, ?_, stopO, hs, quiet, cons, fun hx => (by cases hx), fun hx => (by cases hx),
      fun hx => (by rw [joined hx] at hw; cases hw)⟩
    · rw [lockP j, hl]; simp
    · rw [lockO, hl]; simp
  | wGoOn _ hw hs =>
    rw [hw] at lockW cons wOk
    refine ⟨lockW, lockP, lockO, stopO, ?_, quiet, cons, fun hx => (by cases hx), fun hx => (by cases hx),
      fun hx => (by rw [joined hx] at hw; cases hw)⟩
    rcases wOk with h | h
    · rw [hs] at h; cases h
    · exact h
  | wPop _ d q hw hq =>
    have hl := lockW.mp (by rw [hw]; rfl)
    rw [hw, hq] at cons
    refine ⟨by simp [wHolds], fun j => ?_, ?_, stopO, trivial, quiet, ?_, fun hx => (by cases hx), fun hx => (by cases hx),
      fun hx => (by rw [joined hx] at hw; cases hw)⟩
    · rw [lockP j, hl]; simp
    · rw [lockO, hl]; simp
    · rw [← cons]; simp [inHand]
  | wWrite _ d hw =>
    rw [hw] at lockW cons
    refine ⟨lockW, lockP, lockO, stopO, trivial, quiet, ?_, fun hx => (by cases hx), fun hx => (by cases hx),
      fun hx => (by rw [joined hx] at hw; cases hw)⟩
    rw [← cons]; simp [inHand]
  | wDrain _ d q hw hq =>
    rw [hw] at lockW cons wOk
    refine ⟨by rw [hw]; exact lockW, lockP, lockO, stopO, by rw [hw]; exact wOk, quiet, ?_,
      fun hx => (by rw [hw] at hx; cases hx), fun hx => (by rw [hw] at hx; cases hx), joined⟩
    rw [hq] at cons
    rw [← cons, hw]; simp [inHand]
  | wEnd _ hw hq =>
    rw [hw] at lockW cons wOk
    exact ⟨lockW, lockP, lockO, stopO, ⟨wOk, hq⟩, quiet, cons, fun hx => (by cases hx), fun hx => (by cases hx), fun _ => rfl⟩
  | pCall _ j d hj ho =>
    refine ⟨lockW, fun k => ?_, lockO, stopO, wOk, fun hx => absurd ho hx, cons, fun hx hq => ?_, wakeS, joined⟩
    · have := lockP k
      simp only [setP, upd]
      by_cases hk : k = j
      · subst hk; rw [if_pos rfl]; rw [hj] at this; exact this
      · rw [if_neg hk]; exact this
    · obtain ⟨k, hk⟩ := wakeQ hx hq
      refine ⟨k, ?_⟩
      simp only [setP, upd]
      rw [if_neg (by rintro rfl; rw [hj] at hk; cases hk)]; exact hk
  | pLock _ j d hj hl =>
    rw [hl] at lockW lockO
    refine ⟨by simp only [setP]; rw [lockW]; simp, fun k => ?_, ?_, stopO, wOk, fun hx => ?_, cons, fun hx hq => ?_,
      wakeS, joined⟩
    · have := lockP k
      simp only [setP, upd]
      by_cases hk : k = j
      · subst hk; simp [pHolds]
      · rw [if_neg hk, this, hl]; simp [Ne.symm hk]
    · simp only [setP]; rw [lockO]; simp
    · exact absurd hj (by rw [quiet hx j]; simp)
    · obtain ⟨k, hk⟩ := wakeQ hx hq
      refine ⟨k, ?_⟩
      simp only [setP, upd]
      rw [if_neg (by rintro rfl; rw [hj] at hk; cases hk)]; exact hk
  | pPush _ j d hj =>
    have hl := (lockP j).mp (by rw [hj]; rfl)
    have ho : s.owner = .alive := by
      by_contra hx; exact absurd hj (by rw [quiet hx j]; simp)
    have hs : s.stop = false := by rw [stopO, ho]; rfl
    rw [hl] at lockW lockO
    have hwf : wHolds s.writer = false := by
      by_contra hx; have := lockW.mp (by simpa using hx); cases this
    refine ⟨?_, fun k => ?_, ?_, stopO, ?_, fun hx => absurd ho hx, ?_, fun hx hq => ?_, wakeS, joined⟩
    · simp [setP, hwf]
    · have := lockP k
      simp only [setP, upd]
      by_cases hk : k = j
      · subst hk; simp [pHolds]
      · rw [if_neg hk, this, hl]; simp [Ne.symm hk]
    · simp only [setP]; rw [lockO]; simp
    · simp only [setP]
      cases hw : s.writer <;> rw [hw] at wOk hwf <;> simp_all [WOk, wHolds]
    · simp only [setP]; rw [← cons]; simp
    · exact ⟨j, by simp [setP]⟩
  | pNotify _ j hj =>
    have ho : s.owner = .alive := by
      by_contra hx; exact absurd hj (by rw [quiet hx j]; simp)
    have hs : s.stop = false := by rw [stopO, ho]; rfl
    have hwk : ∀ w : Writer T, wHolds w.woken = wHolds w ∧ inHand w.woken = inHand w ∧ w.woken ≠ .waiting := by
      intro w; cases w <;> simp [Writer.woken, wHolds, inHand]
    have hp : ∀ k, pHolds (Function.update s.producers j .idle k) = pHolds (s.producers k) := by
      intro k; rw [upd]
      by_cases hk : k = j
      · subst hk; rw [if_pos rfl, hj]; rfl
      · rw [if_neg hk]
    refine ⟨?_, fun k => ?_, lockO, stopO, ?_, fun hx => absurd ho hx, ?_, fun hx => absurd hx (hwk _).2.2,
      fun hx => absurd hx (hwk _).2.2, fun hx => ?_⟩
    · simp only [setP]; rw [(hwk _).1]; exact lockW
    · simp only [setP]; rw [hp]; exact lockP k
    · simp only [setP]
      cases hw : s.writer <;> rw [hw] at wOk <;> simp_all [WOk, Writer.woken]
    · simp only [setP]; rw [(hwk _).2.1]; exact cons
    · simp only [setP] at hx; rw [ho] at hx; cases hx
  | dCall _ ho hp =>
    refine ⟨lockW, lockP, ?_, ?_, wOk, fun _ => hp, cons, wakeQ, fun hx hs => ?_, fun hx => (by cases hx)⟩
    · rw [ho] at lockO; exact lockO
    · rw [ho] at stopO; exact stopO
    · have := wakeS hx hs; rw [ho] at this; cases this
  | dLock _ ho hl =>
    have hp := quiet (by rw [ho]; simp)
    rw [hl] at lockW
    refine ⟨?_, fun j => ?_, ?_, ?_, wOk, fun _ => hp, cons, wakeQ, fun hx hs => ?_, fun hx => (by cases hx)⟩
    · rw [lockW]; simp
    · rw [lockP j, hl]; simp
    · simp [oHolds]
    · rw [ho] at stopO; exact stopO
    · have := wakeS hx hs; rw [ho] at this; cases this
  | dStop _ ho =>
    have hp := quiet (by rw [ho]; simp)
    have hl := lockO.mp (by rw [ho]; rfl)
    have hs : s.stop = false := by rw [stopO, ho]; rfl
    rw [hl] at lockW
    have hwf : wHolds s.writer = false := by
      by_contra hx; have := lockW.mp (by simpa using hx); cases this
    refine ⟨?_, fun j => ?_, by simp [oHolds], rfl, ?_, fun _ => hp, cons, wakeQ, fun _ _ => rfl, fun hx => (by cases hx)⟩
    · simp [hwf]
    · rw [lockP j, hl]; simp
    · cases hw : s.writer <;> rw [hw] at wOk hwf <;> simp_all [WOk, wHolds]
  | dNotify _ ho =>
    have hp := quiet (by rw [ho]; simp)
    have hwk : ∀ w : Writer T, wHolds w.woken = wHolds w ∧ inHand w.woken = inHand w ∧ w.woken ≠ .waiting := by
      intro w; cases w <;> simp [Writer.woken, wHolds, inHand]
    refine ⟨?_, lockP, ?_, ?_, ?_, fun _ => hp, ?_, fun hx => absurd hx (hwk _).2.2, fun hx => absurd hx (hwk _).2.2,
      fun hx => (by cases hx)⟩
    · dsimp only; rw [(hwk _).1]; exact lockW
    · rw [ho] at lockO; exact lockO
    · rw [ho] at stopO; exact stopO
    · dsimp only
      cases hw : s.writer <;> rw [hw] at wOk <;> simp_all [WOk, Writer.woken]
    · dsimp only; rw [(hwk _).2.1]; exact cons
  | dJoin _ ho hw =>
    have hp := quiet (by rw [ho]; simp)
    refine ⟨lockW, lockP, ?_, ?_, wOk, fun _ => hp, cons, wakeQ, fun hx => (by rw [hw] at hx; cases hx), fun _ => hw⟩
    · rw [ho] at lockO; exact lockO
    · rw [ho] at stopO; exact stopO

theorem inv_run {kinds : Kind → Prop} {k : Nat} {s s' : Opip T m} (h : Inv s) (r : Run kinds k s s') : Inv s' := by
  induction r with
  | refl => exact h
  | step _ _ st ih => exact inv_step (ih h) st

theorem inv_reachable {s : Opip T m} (h : Reachable false s) : Inv s := by
  obtain ⟨k, r⟩ := h
  exact inv_run inv_init r

def wWeight : Writer T → Nat
  | .waiting => 0 | .done => 0 | .sleep => 1 | .drain => 1 | .pop => 1 | .testStop => 2 | .test => 3 | .acquire => 4
  | .write _ => 5

def pWeight : Producer T → Nat
  | .idle => 0 | .notify => 5 | .push _ => 11 | .acquire _ => 12

def oWeight : Owner → Nat
  | .done => 0 | .alive => 0 | .constructing => 1 | .join => 1 | .notify => 6 | .setStop => 7 | .acquire => 8

def weight (s : Opip T m) : Nat :=
  wWeight s.writer + (∑ j, pWeight (s.producers j)) + 5 * s.queue.length + oWeight s.owner

/-- Everything the object does by itself. -/
def Internal : Kind → Prop
  | .internal => True
  | _ => False

theorem weight_lt {b : Kind} {s s' : Opip T m} (hb : Internal b) (st : Step b s s') : weight s' < weight s := by
  have hwk : ∀ w : Writer T, wWeight w.woken ≤ wWeight w + 4 := by
    intro w; cases w <;> simp [Writer.woken, wWeight]
  cases st with
  | construct _ ho => simp only [weight, ho, oWeight]; omega
  | wLock _ hw hl => simp only [weight, hw, wWeight]; omega
  | wTest _ hw =>
    have : wWeight (if s.stop || !s.queue.isEmpty then .testStop else .sleep : Writer T) ≤ 2 := by
      split <;> simp [wWeight]
    have h3 : wWeight (.test : Writer T) = 3 := rfl
    simp only [weight, hw]; omega
  | wSleep _ hw => simp only [weight, hw, wWeight]; omega
  | wSpurious _ hw => exact hb.elim
  | wBreak _ hw hs => simp only [weight, hw, wWeight]; omega
  | wGoOn _ hw hs => simp only [weight, hw, wWeight]; omega
  | wPop _ d q hw hq => simp only [weight, hw, hq, wWeight, List.length_cons]; omega
  | wWrite _ d hw => simp only [weight, hw, wWeight]; omega
  | wDrain _ d q hw hq => simp only [weight, hw, hq, List.length_cons]; omega
  | wEnd _ hw hq => simp only [weight, hw, wWeight]; omega
  | pCall _ j d hj ho => exact hb.elim
  | pLock _ j d hj hl =>
    have := sum_update pWeight s.producers j (.push d)
    rw [hj] at this; simp only [weight, setP, pWeight] at this ⊢; omega
  | pPush _ j d hj =>
    have := sum_update pWeight s.producers j .notify
    rw [hj] at this
    simp only [weight, setP, pWeight, List.length_append, List.length_cons, List.length_nil] at this ⊢; omega
  | pNotify _ j hj =>
    have := sum_update pWeight s.producers j .idle
    have h2 := hwk s.writer
    rw [hj] at this; simp only [weight, setP, pWeight] at this ⊢; omega
  | dCall _ ho hp => exact hb.elim
  | dLock _ ho hl => simp only [weight, ho, oWeight]; omega
  | dStop _ ho => simp only [weight, ho, oWeight]; omega
  | dNotify _ ho =>
    have h2 := hwk s.writer
    simp only [weight, ho, oWeight]; omega
  | dJoin _ ho hw => simp only [weight, ho, oWeight]; omega

theorem run_le_weight {k : Nat} {s s' : Opip T m} (r : Run Internal k s s') : k + weight s' ≤ weight s := by
  induction r with
  | refl => omega
  | step _ hb st ih => have := weight_lt hb st; omega

end Opip

open Opip
variable {T : Type} {m : Nat}

/-- **C65, order.**  Under every schedule, at every moment the file contains a first part of the records put in, in the
order in which they were put in (provided the memory of `stop_` happened to be 0, see
`C65_uninitialised_stop_loses_records`). -/
theorem C65_in_order_partial (s : Opip T m) (h : Opip.Reachable false s) : s.file <+: s.accepted := by
  have := (Opip.inv_reachable h).cons
  exact ⟨inHand s.writer ++ s.queue, by rw [← this]; simp⟩

/-- **C65, complete.**  When the destructor has returned, the file contains exactly the records put in. -/
theorem C65_all_written_partial (s : Opip T m) (h : Opip.Reachable false s) (hd : s.owner = .done) :
    s.file = s.accepted := by
  have hinv := Opip.inv_reachable h
  have hw := hinv.joined hd
  have h1 := hinv.wOk
  rw [hw] at h1
  have := hinv.cons
  rw [hw, h1.2] at this
  simpa [inHand] using this

/-- **C65, progress.**  From every moment on, if the user calls nothing more, under every schedule the object comes to
rest after boundedly many steps; then all records put in are in the file, every `operator<<` has returned, and the
destructor, if it was called, has returned. -/
theorem C65_settles_partial (s : Opip T m) (h : Opip.Reachable false s) :
    (∃ bound, ∀ k s', Opip.Run Opip.Internal k s s' → k ≤ bound) ∧
    ∀ k s', Opip.Run Opip.Internal k s s' → (∀ s'', ¬ Opip.Step .internal s' s'') →
      s'.file = s'.accepted ∧ (∀ j, s'.producers j = .idle) ∧ (s'.owner = .alive ∨ s'.owner = .done) := by
  refine ⟨⟨weight s, fun k s' r => ?_⟩, fun k s' r hst => ?_⟩
  · have := Opip.run_le_weight r; omega
  · have hinv := Opip.inv_run (Opip.inv_reachable h) r
    -- the writer
    have hwr : s'.writer = .waiting ∨ s'.writer = .done ∨ (s'.writer = .acquire ∧ s'.lock ≠ none) := by
      cases hw : s'.writer with
      | acquire => exact Or.inr (Or.inr ⟨rfl, fun hl => hst _ (.wLock s' hw hl)⟩)
      | test => exact absurd (.wTest s' hw) (hst _)
      | sleep => exact absurd (.wSleep s' hw) (hst _)
      | waiting => exact Or.inl rfl
      | testStop =>
        cases hs : s'.stop with
        | true => exact absurd (.wBreak s' hw hs) (hst _)
        | false => exact absurd (.wGoOn s' hw hs) (hst _)
      | pop =>
        have := hinv.wOk; rw [hw] at this
        cases hq : s'.queue with
        | nil => exact absurd hq this
        | cons d q => exact absurd (.wPop s' d q hw hq) (hst _)
      | write d => exact absurd (.wWrite s' d hw) (hst _)
      | drain =>
        cases hq : s'.queue with
        | nil => exact absurd (.wEnd s' hw hq) (hst _)
        | cons d q => exact absurd (.wDrain s' d q hw hq) (hst _)
      | done => exact Or.inr (Or.inl rfl)
    have hpr : ∀ j, s'.producers j = .idle ∨ ((∃ d, s'.producers j = .acquire d) ∧ s'.lock ≠ none) := by
      intro j
      cases hj : s'.producers j with
      | idle => exact Or.inl rfl
      | acquire d => exact Or.inr ⟨⟨d, rfl⟩, fun hl => hst _ (.pLock s' j d hj hl)⟩
      | push d => exact absurd (.pPush s' j d hj) (hst _)
      | notify => exact absurd (.pNotify s' j hj) (hst _)
    have how : s'.owner ≠ .setStop := fun ho => hst _ (.dStop s' ho)
    have hl : s'.lock = none := by
      cases hl : s'.lock with
      | none => rfl
      | some x =>
        exfalso
        cases x with
        | writer =>
          have := hinv.lockW.mpr hl
          rcases hwr with h1 | h1 | ⟨h1, -⟩ <;> rw [h1] at this <;> cases this
        | producer j =>
          have := (hinv.lockP j).mpr hl
          rcases hpr j with h1 | ⟨⟨d, h1⟩, -⟩ <;> rw [h1] at this <;> cases this
        | owner =>
          have := hinv.lockO.mpr hl
          cases ho : s'.owner with
          | setStop => exact how ho
          | _ => rw [ho] at this; cases this
    have hidle : ∀ j, s'.producers j = .idle := fun j => (hpr j).resolve_right fun h => h.2 hl
    have hwd : s'.writer = .waiting ∨ s'.writer = .done := by
      rcases hwr with h1 | h1 | h1
      · exact Or.inl h1
      · exact Or.inr h1
      · exact absurd hl h1.2
    have hown : s'.owner = .alive ∨ s'.owner = .done := by
      cases ho : s'.owner with
      | constructing => exact absurd (.construct s' ho) (hst _)
      | alive => exact Or.inl rfl
      | acquire => exact absurd (.dLock s' ho hl) (hst _)
      | setStop => exact absurd ho how
      | notify => exact absurd (.dNotify s' ho) (hst _)
      | join =>
        exfalso
        rcases hwd with h1 | h1
        · have := hinv.wakeS h1 (by rw [hinv.stopO, ho]; rfl)
          rw [ho] at this; cases this
        · exact hst _ (.dJoin s' ho h1)
      | done => exact Or.inr rfl
    refine ⟨?_, hidle, hown⟩
    have hq : s'.queue = [] := by
      rcases hwd with h1 | h1
      · by_contra hq
        obtain ⟨j, hj⟩ := hinv.wakeQ h1 hq
        rw [hidle j] at hj; cases hj
      · have := hinv.wOk; rw [h1] at this; exact this.2
    have hh : inHand s'.writer = [] := by rcases hwd with h1 | h1 <;> rw [h1] <;> rfl
    have := hinv.cons
    rw [hq, hh] at this
    simpa using this

/-- The constructor starts the writer before it initialises `stop_`.  If the memory holds a non-zero value and the writer
is quick, it ends at once, and everything put in afterwards is lost, although the destructor returns normally. -/
theorem C65_uninitialised_stop_loses_records (T : Type) (d : T) :
    ∃ s : Opip T 1, Opip.Reachable true s ∧ s.owner = .done ∧ s.accepted = [d] ∧ s.file = [] := by
  have r0 : Opip.Run (fun _ => True) 0 (Opip.init T 1 true) _ := .refl _
  have r1 := r0.step trivial (.wLock _ rfl rfl)
  have r2 := r1.step trivial (.wTest _ rfl)
  have r3 := r2.step trivial (.wBreak _ rfl rfl)
  have r4 := r3.step trivial (.wEnd _ rfl rfl)
  have r5 := r4.step trivial (.construct _ rfl)
  have r6 := r5.step trivial (.pCall _ 0 d rfl rfl)
  have r7 := r6.step trivial (.pLock _ 0 d rfl rfl)
  have r8 := r7.step trivial (.pPush _ 0 d rfl)
  have r9 := r8.step trivial (.pNotify _ 0 rfl)
  have r10 := r9.step trivial (.dCall _ rfl (by intro i; rw [Subsingleton.elim i 0]; rfl))
  have r11 := r10.step trivial (.dLock _ rfl rfl)
  have r12 := r11.step trivial (.dStop _ rfl)
  have r13 := r12.step trivial (.dNotify _ rfl)
  have r14 := r13.step trivial (.dJoin _ rfl rfl)
  exact ⟨_, ⟨_, r14⟩, rfl, rfl, rfl⟩

/-- A state of the kind the theorems speak about: two records by two threads, one written, one in the writer's hand. -/
example : ∃ s : Opip String 2, Opip.Reachable false s ∧ s.accepted = ["a", "b"] ∧ s.file = ["a"] ∧ s.queue = [] := by
  have r0 : Opip.Run (fun _ => True) 0 (Opip.init String 2 false) _ := .refl _
  have r1 := r0.step trivial (.construct _ rfl)
  have r2 := r1.step trivial (.pCall _ 0 "a" rfl rfl)
  have r3 := r2.step trivial (.pCall _ 1 "b" rfl rfl)
  have r4 := r3.step trivial (.pLock _ 0 "a" rfl rfl)
  have r5 := r4.step trivial (.pPush _ 0 "a" rfl)
  have r6 := r5.step trivial (.wLock _ rfl rfl)
  have r7 := r6.step trivial (.wTest _ rfl)
  have r8 := r7.step trivial (.wGoOn _ rfl rfl)
  have r9 := r8.step trivial (.wPop _ "a" [] rfl rfl)
  have r10 := r9.step trivial (.pLock _ 1 "b" rfl rfl)
  have r11 := r10.step trivial (.pPush _ 1 "b" rfl)
  have r12 := r11.step trivial (.wWrite _ "a" rfl)
  have r13 := r12.step trivial (.wLock _ rfl rfl)
  have r14 := r13.step trivial (.wTest _ rfl)
  have r15 := r14.step trivial (.wGoOn _ rfl rfl)
  have r16 := r15.step trivial (.wPop _ "b" [] rfl rfl)
  exact ⟨_, ⟨_, r16⟩, rfl, rfl, rfl⟩

end SpaceHub.Conc
