import Mathlib.Algebra.BigOperators.Fin
import Mathlib.Algebra.BigOperators.Group.Finset.Basic
import Mathlib.Algebra.Order.BigOperators.Group.Finset
import Mathlib.Tactic.Ring
import Verif.Spec.ThreadPool

set_option autoImplicit false

namespace SpaceHub.Conc
open Finset

/-- Changing one entry of a family changes its sum by the difference of the entries. -/
theorem sum_update {α : Type} {n : Nat} (f : α → Nat) (w : Fin n → α) (i : Fin n) (v : α) :
    (∑ k, f (Function.update w i v k)) + f (w i) = (∑ k, f (w k)) + f v := by
  rw [← Finset.add_sum_erase Finset.univ _ (Finset.mem_univ i),
    ← Finset.add_sum_erase Finset.univ (fun k => f (w k)) (Finset.mem_univ i)]
  have : ∑ x ∈ Finset.univ.erase i, f (Function.update w i v x) = ∑ x ∈ Finset.univ.erase i, f (w x) := by
    refine Finset.sum_congr rfl fun x hx => ?_
    rw [Function.update_of_ne (Finset.ne_of_mem_erase hx)]
  rw [this]; simp only [Function.update_self]; omega

namespace Pool
variable {T : Type} {n m : Nat}

/-- The worker holds the mutex. -/
def wHolds : Worker T → Bool
  | .testStop | .testEmpty | .sleep | .testStop2 | .pop => true
  | _ => false

/-- The committer holds the mutex. -/
def cHolds : Committer T → Bool
  | .testStop _ | .push _ => true
  | _ => false

def LockOk (ws : Fin n → Worker T) (cs : Fin m → Committer T) (lock : Option (Fin n ⊕ Fin m)) : Prop :=
  (∀ i, wHolds (ws i) = true ↔ lock = some (.inl i)) ∧ (∀ j, cHolds (cs j) = true ↔ lock = some (.inr j))

section lock
variable {ws : Fin n → Worker T} {cs : Fin m → Committer T} {lock : Option (Fin n ⊕ Fin m)}

theorem LockOk.wSame (h : LockOk ws cs lock) (i : Fin n) (v : Worker T) (hv : wHolds v = wHolds (ws i)) :
    LockOk (Function.update ws i v) cs lock := by
  refine ⟨fun k => ?_, h.2⟩
  by_cases hk : k = i
  · subst hk; rw [Function.update_self, hv]; exact h.1 k
  · rw [Function.update_of_ne hk]; exact h.1 k

theorem LockOk.cSame (h : LockOk ws cs lock) (i : Fin m) (v : Committer T) (hv : cHolds v = cHolds (cs i)) :
    LockOk ws (Function.update cs i v) lock := by
  refine ⟨h.1, fun k => ?_⟩
  by_cases hk : k = i
  · subst hk; rw [Function.update_self, hv]; exact h.2 k
  · rw [Function.update_of_ne hk]; exact h.2 k

theorem LockOk.wTake (h : LockOk ws cs none) (i : Fin n) (v : Worker T) (hv : wHolds v = true) :
    LockOk (Function.update ws i v) cs (some (.inl i)) := by
  refine ⟨fun k => ?_, fun j => ?_⟩
  · by_cases hk : k = i
    · subst hk; simp [hv]
    · have := h.1 k
      simp only [Function.update_of_ne hk, this]; simp [Ne.symm hk]
  · have := h.2 j; simp [this]

theorem LockOk.cTake (h : LockOk ws cs none) (i : Fin m) (v : Committer T) (hv : cHolds v = true) :
    LockOk ws (Function.update cs i v) (some (.inr i)) := by
  refine ⟨fun j => ?_, fun k => ?_⟩
  · have := h.1 j; simp [this]
  · by_cases hk : k = i
    · subst hk; simp [hv]
    · have := h.2 k
      simp only [Function.update_of_ne hk, this]; simp [Ne.symm hk]

theorem LockOk.wDrop (h : LockOk ws cs lock) (i : Fin n) (v : Worker T) (hi : wHolds (ws i) = true)
    (hv : wHolds v = false) : LockOk (Function.update ws i v) cs none := by
  have e := (h.1 i).mp hi
  subst e
  refine ⟨fun k => ?_, fun j => ?_⟩
  · by_cases hk : k = i
    · subst hk; simp [hv]
    · have := h.1 k
      simp only [Function.update_of_ne hk, this]; simp [Ne.symm hk]
  · have := h.2 j; simp [this]

theorem LockOk.cDrop (h : LockOk ws cs lock) (i : Fin m) (v : Committer T) (hi : cHolds (cs i) = true)
    (hv : cHolds v = false) : LockOk ws (Function.update cs i v) none := by
  have e := (h.2 i).mp hi
  subst e
  refine ⟨fun j => ?_, fun k => ?_⟩
  · have := h.1 j; simp [this]
  · by_cases hk : k = i
    · subst hk; simp [hv]
    · have := h.2 k
      simp only [Function.update_of_ne hk, this]; simp [Ne.symm hk]

end lock

/-- What a worker knows. -/
def WOk (queue : List T) (stop : Bool) : Worker T → Prop
  | .pop => queue ≠ []
  | .testStop2 => stop = true ∨ queue ≠ []
  | .sleep => queue = []
  | .done => stop = true
  | _ => True

open Classical in
/-- 1 for a worker that runs the task, 0 for all others. -/
noncomputable def runs (t : T) (w : Worker T) : Nat := if w = .run t then 1 else 0

open Classical in
theorem runs_run (t t' : T) : runs t' (.run t : Worker T) = if t = t' then 1 else 0 := by simp [runs]

theorem runs_of_ne {t : T} {w : Worker T} (h : ∀ t, w ≠ .run t) : runs t w = 0 := by simp [runs, h t]

open Classical in
structure Inv (s : Pool T n m) : Prop where
  lockOk : LockOk s.workers s.committers s.lock
  wOk : ∀ i, WOk s.queue s.stop (s.workers i)
  stopD : s.stop = true ↔ s.destructor ≠ .alive
  noub : s.ub = false
  fifo : startedOf s.log ++ s.queue = acceptedOf s.log
  count : ∀ t, (startedOf s.log).count t = (finishedOf s.log).count t + ∑ i, runs t (s.workers i)
  wake : s.queue ≠ [] → (∀ i, s.workers i = .waiting) → n ≠ 0 → ∃ j, s.committers j = .notify

theorem inv_init : Inv (Pool.init T n m) := by
  constructor <;> simp [Pool.init, LockOk, wHolds, cHolds, startedOf, acceptedOf, finishedOf, WOk, runs]

theorem wOk_update {queue : List T} {stop : Bool} {ws : Fin n → Worker T} (h : ∀ i, WOk queue stop (ws i)) (i : Fin n)
    (v : Worker T) (hv : WOk queue stop v) : ∀ k, WOk queue stop (Function.update ws i v k) := by
  intro k
  by_cases hk : k = i
  · subst hk; rwa [Function.update_self]
  · rw [Function.update_of_ne hk]; exact h k

/-- Nobody but the holder of the mutex is at a place where the mutex is held. -/
theorem LockOk.others {ws : Fin n → Worker T} {cs : Fin m → Committer T} {lock : Option (Fin n ⊕ Fin m)}
    (h : LockOk ws cs lock) (i k : Fin n) (hi : wHolds (ws i) = true) (hk : k ≠ i) : wHolds (ws k) = false := by
  have e := (h.1 i).mp hi
  have := h.1 k
  rw [e] at this
  simp only [Option.some.injEq, Sum.inl.injEq] at this
  by_contra hc
  exact hk (this.mp (by simpa using hc)).symm

theorem LockOk.othersC {ws : Fin n → Worker T} {cs : Fin m → Committer T} {lock : Option (Fin n ⊕ Fin m)}
    (h : LockOk ws cs lock) (j : Fin m) (hj : cHolds (cs j) = true) (k : Fin n) : wHolds (ws k) = false := by
  have e := (h.2 j).mp hj
  have := h.1 k
  rw [e] at this
  by_contra hc
  have h2 := this.mp (by simpa using hc)
  simp at h2

theorem wOk_of_not_holds {queue queue' : List T} {stop : Bool} {w : Worker T} (h : WOk queue stop w)
    (hw : wHolds w = false) : WOk queue' stop w := by
  cases w <;> simp_all [WOk, wHolds]

theorem not_waiting_update {ws : Fin n → Worker T} (i : Fin n) (v : Worker T) (hv : v ≠ .waiting) :
    ¬ ∀ k, Function.update ws i v k = .waiting := by
  intro h
  have := h i
  rw [Function.update_self] at this
  exact hv this

theorem count_same {ws : Fin n → Worker T} (i : Fin n) (v : Worker T) (t : T) (h1 : ∀ t, ws i ≠ .run t)
    (h2 : ∀ t, v ≠ .run t) : (∑ k, runs t (Function.update ws i v k)) = ∑ k, runs t (ws k) := by
  have := sum_update (runs t) ws i v
  rwa [runs_of_ne h1, runs_of_ne h2] at this

@[simp] theorem startedOf_append (a b : List (Event T)) : startedOf (a ++ b) = startedOf a ++ startedOf b := by
  simp [startedOf]
@[simp] theorem acceptedOf_append (a b : List (Event T)) : acceptedOf (a ++ b) = acceptedOf a ++ acceptedOf b := by
  simp [acceptedOf]
@[simp] theorem finishedOf_append (a b : List (Event T)) : finishedOf (a ++ b) = finishedOf a ++ finishedOf b := by
  simp [finishedOf]

theorem inv_step {cap : Nat} {w : Who T n m} {s s' : Pool T n m} (h : Inv s) (st : Step cap w s s') : Inv s' := by
  classical
  obtain ⟨lockOk, wOk, stopD, noub, fifo, count, wake⟩ := h
  cases st with
  | wLock _ i hi hl =>
    rw [hl] at lockOk
    refine ⟨lockOk.wTake i _ rfl, wOk_update wOk i _ trivial, stopD, noub, fifo, fun t => ?_, fun _ h => ?_⟩
    · exact (count t).trans (by congr 1; exact (count_same i _ t (by simp [hi]) (by simp)).symm)
    · exact absurd h (not_waiting_update i _ (by simp))
  | wTestStop _ i hi =>
    refine ⟨lockOk.wSame i _ (by rw [hi]; split <;> rfl), wOk_update wOk i _ ?_, stopD, noub, fifo, fun t => ?_, fun _ h => ?_⟩
    · split
      · exact Or.inl (by assumption)
      · trivial
    · exact (count t).trans (by congr 1; exact (count_same i _ t (by simp [hi]) (by split <;> simp)).symm)
    · exact absurd h (not_waiting_update i _ (by split <;> simp))
  | wTestEmpty _ i hi =>
    refine ⟨lockOk.wSame i _ (by rw [hi]; split <;> rfl), wOk_update wOk i _ ?_, stopD, noub, fifo, fun t => ?_, fun _ h => ?_⟩
    · split
      · rename_i h; simpa [WOk] using h
      · rename_i h; right; simpa using h
    · exact (count t).trans (by congr 1; exact (count_same i _ t (by simp [hi]) (by split <;> simp)).symm)
    · exact absurd h (not_waiting_update i _ (by split <;> simp))
  | wSleep _ i hi =>
    refine ⟨lockOk.wDrop i _ (by rw [hi]; rfl) rfl, wOk_update wOk i _ trivial, stopD, noub, fifo, fun t => ?_, fun hq => ?_⟩
    · exact (count t).trans (by congr 1; exact (count_same i _ t (by simp [hi]) (by simp)).symm)
    · have := wOk i; rw [hi] at this; exact absurd this hq
  | wReturn _ i hi hs =>
    refine ⟨lockOk.wDrop i _ (by rw [hi]; rfl) rfl, wOk_update wOk i _ hs, stopD, noub, fifo, fun t => ?_, fun _ h => ?_⟩
    · exact (count t).trans (by congr 1; exact (count_same i _ t (by simp [hi]) (by simp)).symm)
    · exact absurd h (not_waiting_update i _ (by simp))
  | wGoOn _ i hi hs =>
    refine ⟨lockOk.wSame i _ (by rw [hi]; rfl), wOk_update wOk i _ ?_, stopD, noub, fifo, fun t => ?_, fun _ h => ?_⟩
    · have := wOk i; rw [hi] at this
      rcases this with h | h
      · rw [hs] at h; cases h
      · exact h
    · exact (count t).trans (by congr 1; exact (count_same i _ t (by simp [hi]) (by simp)).symm)
    · exact absurd h (not_waiting_update i _ (by simp))
  | wPop _ i t q hi hq =>
    refine ⟨lockOk.wDrop i _ (by rw [hi]; rfl) rfl, fun k => ?_, stopD, noub, ?_, fun t' => ?_, fun _ h => ?_⟩
    · dsimp only [setW]
      by_cases hk : k = i
      · subst hk; rw [Function.update_self]; trivial
      · rw [Function.update_of_ne hk]
        exact wOk_of_not_holds (wOk k) (lockOk.others i k (by rw [hi]; rfl) hk)
    · dsimp only [setW]; rw [hq] at fifo
      rw [startedOf_append, acceptedOf_append, ← fifo]; simp [startedOf, acceptedOf]
    · dsimp only [setW]
      rw [startedOf_append, finishedOf_append, List.count_append, List.count_append, count t']
      have := sum_update (runs t') s.workers i (.run t)
      rw [hi, runs_run, runs_of_ne (w := .pop) (by simp)] at this
      simp only [startedOf, finishedOf, List.filterMap_cons, List.filterMap_nil, List.count_cons, List.count_nil] at this ⊢
      by_cases htt : t = t'
      · subst htt; simp at this ⊢; omega
      · simp [htt] at this ⊢; omega
    · exact absurd h (not_waiting_update i _ (by simp))
  | wPopEmpty _ i hi hq =>
    exfalso
    have := wOk i; rw [hi] at this; exact this hq
  | wRun _ i t hi =>
    refine ⟨lockOk.wSame i _ (by rw [hi]; rfl), wOk_update wOk i _ trivial, stopD, noub, ?_, fun t' => ?_, fun _ h => ?_⟩
    · dsimp only [setW]
      rw [startedOf_append, acceptedOf_append, ← fifo]; simp [startedOf, acceptedOf]
    · dsimp only [setW]
      rw [startedOf_append, finishedOf_append, List.count_append, List.count_append, count t']
      have := sum_update (runs t') s.workers i .acquire
      rw [hi, runs_run, runs_of_ne (w := .acquire) (by simp)] at this
      simp only [startedOf, finishedOf, List.filterMap_cons, List.filterMap_nil, List.count_cons, List.count_nil] at this ⊢
      by_cases htt : t = t'
      · subst htt; simp at this ⊢; omega
      · simp [htt] at this ⊢; omega
    · exact absurd h (not_waiting_update i _ (by simp))
  | cBegin _ j t hj =>
    refine ⟨lockOk.cSame j _ (by rw [hj]; rfl), wOk, stopD, noub, fifo, count, fun hq h hn => ?_⟩
    obtain ⟨k, hk⟩ := wake hq h hn
    refine ⟨k, ?_⟩
    dsimp only [setC]
    rw [Function.update_of_ne (by rintro rfl; rw [hj] at hk; cases hk)]; exact hk
  | cLock _ j t hj hl =>
    rw [hl] at lockOk
    refine ⟨lockOk.cTake j _ rfl, wOk, stopD, noub, fifo, count, fun hq h hn => ?_⟩
    obtain ⟨k, hk⟩ := wake hq h hn
    refine ⟨k, ?_⟩
    dsimp only [setC]
    rw [Function.update_of_ne (by rintro rfl; rw [hj] at hk; cases hk)]; exact hk
  | cStopped _ j t hj hs =>
    refine ⟨lockOk.cDrop j _ (by rw [hj]; rfl) rfl, wOk, stopD, noub, ?_, fun t' => ?_, fun hq h hn => ?_⟩
    · dsimp only [setC]
      rw [startedOf_append, acceptedOf_append, ← fifo]; simp [startedOf, acceptedOf]
    · dsimp only [setC]
      rw [startedOf_append, finishedOf_append, List.count_append, List.count_append, count t']
      simp [startedOf, finishedOf]
    · obtain ⟨k, hk⟩ := wake hq h hn
      refine ⟨k, ?_⟩
      dsimp only [setC]
      rw [Function.update_of_ne (by rintro rfl; rw [hj] at hk; cases hk)]; exact hk
  | cGoOn _ j t hj hs =>
    refine ⟨lockOk.cSame j _ (by rw [hj]; rfl), wOk, stopD, noub, fifo, count, fun hq h hn => ?_⟩
    obtain ⟨k, hk⟩ := wake hq h hn
    refine ⟨k, ?_⟩
    dsimp only [setC]
    rw [Function.update_of_ne (by rintro rfl; rw [hj] at hk; cases hk)]; exact hk
  | cFull _ j t hj hs =>
    refine ⟨lockOk.cDrop j _ (by rw [hj]; rfl) rfl, wOk, stopD, noub, ?_, fun t' => ?_, fun hq h hn => ?_⟩
    · dsimp only [setC]
      rw [startedOf_append, acceptedOf_append, ← fifo]; simp [startedOf, acceptedOf]
    · dsimp only [setC]
      rw [startedOf_append, finishedOf_append, List.count_append, List.count_append, count t']
      simp [startedOf, finishedOf]
    · obtain ⟨k, hk⟩ := wake hq h hn
      refine ⟨k, ?_⟩
      dsimp only [setC]
      rw [Function.update_of_ne (by rintro rfl; rw [hj] at hk; cases hk)]; exact hk
  | cPush _ j t hj hs =>
    refine ⟨lockOk.cDrop j _ (by rw [hj]; rfl) rfl, fun k => ?_, stopD, noub, ?_, fun t' => ?_, fun hq h hn => ?_⟩
    · exact wOk_of_not_holds (wOk k) (lockOk.othersC j (by rw [hj]; rfl) k)
    · dsimp only [setC]
      rw [startedOf_append, acceptedOf_append, ← fifo]; simp [startedOf, acceptedOf]
    · dsimp only [setC]
      rw [startedOf_append, finishedOf_append, List.count_append, List.count_append, count t']
      simp [startedOf, finishedOf]
    · exact ⟨j, by dsimp only [setC]; rw [Function.update_self]⟩
  | cNotify _ j i hj hi =>
    refine ⟨(lockOk.cSame j .idle (by rw [hj]; rfl)).wSame i .acquire (by rw [hi]; rfl), wOk_update wOk i _ trivial, stopD,
      noub, fifo, fun t => ?_, fun _ h => ?_⟩
    · exact (count t).trans (by congr 1; exact (count_same i _ t (by simp [hi]) (by simp)).symm)
    · exact absurd h (not_waiting_update i _ (by simp))
  | cNotifyNobody _ j hj hi =>
    refine ⟨lockOk.cSame j _ (by rw [hj]; rfl), wOk, stopD, noub, fifo, count, fun hq h hn => ?_⟩
    exact absurd (h ⟨0, Nat.pos_of_ne_zero hn⟩) (hi _)
  | dStop _ hd =>
    refine ⟨lockOk, fun i => ?_, by simp, noub, ?_, fun t => ?_, wake⟩
    · have := wOk i
      dsimp only
      cases hw : s.workers i <;> rw [hw] at this <;> simp_all [WOk]
    · dsimp only
      rw [startedOf_append, acceptedOf_append, ← fifo]; simp [startedOf, acceptedOf]
    · dsimp only
      rw [startedOf_append, finishedOf_append, List.count_append, List.count_append, count t]
      simp [startedOf, finishedOf]
  | dNotify _ hd =>
    have key : ∀ i, (s.workers i).woken = if s.workers i = .waiting then .acquire else s.workers i := by
      intro i; cases s.workers i <;> simp [Worker.woken]
    refine ⟨⟨fun i => ?_, lockOk.2⟩, fun i => ?_, ?_, noub, fifo, fun t => ?_, fun _ h hn => ?_⟩
    · have := lockOk.1 i
      dsimp only; rw [key]
      split
      · rename_i hw; rw [hw] at this; exact this
      · exact this
    · have := wOk i
      dsimp only; rw [key]
      split
      · trivial
      · exact this
    · dsimp only; rw [stopD, hd]; simp
    · dsimp only; rw [count t]; congr 1
      refine Finset.sum_congr rfl fun i _ => ?_
      rw [key]
      by_cases hw : s.workers i = .waiting
      · rw [if_pos hw, hw, runs_of_ne (by simp), runs_of_ne (by simp)]
      · rw [if_neg hw]
    · have := h ⟨0, Nat.pos_of_ne_zero hn⟩
      dsimp only at this; rw [key] at this
      split at this
      · cases this
      · rename_i hw; exact absurd this hw
  | dJoin _ hd hj =>
    refine ⟨lockOk, wOk, ?_, noub, ?_, fun t => ?_, wake⟩
    · dsimp only; rw [stopD, hd]; simp
    · dsimp only
      rw [startedOf_append, acceptedOf_append, ← fifo]; simp [startedOf, acceptedOf]
    · dsimp only
      rw [startedOf_append, finishedOf_append, List.count_append, List.count_append, count t]
      simp [startedOf, finishedOf]
  | wSpurious _ i hi =>
    refine ⟨lockOk.wSame i _ (by rw [hi]; rfl), wOk_update wOk i _ trivial, stopD, noub, fifo, fun t => ?_, fun _ h => ?_⟩
    · exact (count t).trans (by congr 1; exact (count_same i _ t (by simp [hi]) (by simp)).symm)
    · exact absurd h (not_waiting_update i _ (by simp))

theorem inv_run {cap k : Nat} {who : Who T n m → Prop} {s s' : Pool T n m} (h : Inv s) (r : Run cap who k s s') : Inv s' := by
  induction r with
  | refl => exact h
  | step _ _ st ih => exact inv_step (ih h) st

theorem inv_reachable {cap : Nat} {s : Pool T n m} (h : Reachable cap s) : Inv s := by
  obtain ⟨k, r⟩ := h
  exact inv_run inv_init r

/-! ### Every run ends -/

/-- The steps a worker can still make without another task or notification. -/
def wWeight : Worker T → Nat
  | .waiting => 0 | .done => 0 | .sleep => 1 | .pop => 1 | .testStop2 => 2 | .testEmpty => 3 | .testStop => 4
  | .acquire => 5 | .run _ => 6

def cWeight : Committer T → Nat
  | .idle => 0 | .notify => 6 | .push _ => 13 | .testStop _ => 14 | .acquire _ => 15

def dWeight (n : Nat) : Destructor → Nat
  | .done => 0 | .join => 1 | .notify => 5 * n + 2 | .alive => 5 * n + 3

/-- An upper bound for the number of steps of a run without new commits and spurious wake-ups. -/
def weight (s : Pool T n m) : Nat :=
  (∑ i, wWeight (s.workers i)) + (∑ j, cWeight (s.committers j)) + 6 * s.queue.length + dWeight n s.destructor

/-- No new calls of `commit`, no spurious wake-ups. -/
def Settling : Who T n m → Prop
  | .begins _ _ | .spurious _ => False
  | _ => True

theorem weight_lt {cap : Nat} {w : Who T n m} {s s' : Pool T n m} (hw : Settling w) (st : Step cap w s s') :
    weight s' < weight s := by
  cases st with
  | wLock _ i hi hl =>
    have := sum_update wWeight s.workers i .testStop
    rw [hi] at this; simp only [weight, setW, wWeight] at this ⊢; omega
  | wTestStop _ i hi =>
    have := sum_update wWeight s.workers i (if s.stop then .testStop2 else .testEmpty)
    rw [hi] at this; simp only [weight, setW] at this ⊢
    have h2 : wWeight (if s.stop then .testStop2 else .testEmpty : Worker T) ≤ 3 := by split <;> simp [wWeight]
    have h3 : wWeight (.testStop : Worker T) = 4 := rfl
    omega
  | wTestEmpty _ i hi =>
    have := sum_update wWeight s.workers i (if s.queue.isEmpty then .sleep else .testStop2)
    rw [hi] at this; simp only [weight, setW] at this ⊢
    have h2 : wWeight (if s.queue.isEmpty then .sleep else .testStop2 : Worker T) ≤ 2 := by split <;> simp [wWeight]
    have h3 : wWeight (.testEmpty : Worker T) = 3 := rfl
    omega
  | wSleep _ i hi =>
    have := sum_update wWeight s.workers i .waiting
    rw [hi] at this; simp only [weight, setW, wWeight] at this ⊢; omega
  | wReturn _ i hi hs =>
    have := sum_update wWeight s.workers i .done
    rw [hi] at this; simp only [weight, setW, wWeight] at this ⊢; omega
  | wGoOn _ i hi hs =>
    have := sum_update wWeight s.workers i .pop
    rw [hi] at this; simp only [weight, setW, wWeight] at this ⊢; omega
  | wPop _ i t q hi hq =>
    have := sum_update wWeight s.workers i (.run t)
    rw [hi] at this; simp only [weight, setW, wWeight, hq, List.length_cons] at this ⊢; omega
  | wPopEmpty _ i hi hq =>
    have := sum_update wWeight s.workers i .done
    rw [hi] at this; simp only [weight, setW, wWeight] at this ⊢; omega
  | wRun _ i t hi =>
    have := sum_update wWeight s.workers i .acquire
    rw [hi] at this; simp only [weight, setW, wWeight] at this ⊢; omega
  | cBegin _ j t hj => exact hw.elim
  | cLock _ j t hj hl =>
    have := sum_update cWeight s.committers j (.testStop t)
    rw [hj] at this; simp only [weight, setC, cWeight] at this ⊢; omega
  | cStopped _ j t hj hs =>
    have := sum_update cWeight s.committers j .idle
    rw [hj] at this; simp only [weight, setC, cWeight] at this ⊢; omega
  | cGoOn _ j t hj hs =>
    have := sum_update cWeight s.committers j (.push t)
    rw [hj] at this; simp only [weight, setC, cWeight] at this ⊢; omega
  | cFull _ j t hj hs =>
    have := sum_update cWeight s.committers j .idle
    rw [hj] at this; simp only [weight, setC, cWeight] at this ⊢; omega
  | cPush _ j t hj hs =>
    have := sum_update cWeight s.committers j .notify
    rw [hj] at this
    simp only [weight, setC, cWeight, List.length_append, List.length_cons, List.length_nil] at this ⊢; omega
  | cNotify _ j i hj hi =>
    have h1 := sum_update cWeight s.committers j .idle
    have h2 := sum_update wWeight s.workers i .acquire
    rw [hj] at h1; rw [hi] at h2
    simp only [weight, setC, setW, cWeight, wWeight] at h1 h2 ⊢; omega
  | cNotifyNobody _ j hj hi =>
    have := sum_update cWeight s.committers j .idle
    rw [hj] at this; simp only [weight, setC, cWeight] at this ⊢; omega
  | dStop _ hd => simp only [weight, hd, dWeight]; omega
  | dNotify _ hd =>
    have h : ∑ i, wWeight (s.workers i).woken ≤ (∑ i, wWeight (s.workers i)) + 5 * n := by
      calc ∑ i, wWeight (s.workers i).woken ≤ ∑ i, (wWeight (s.workers i) + 5) :=
            Finset.sum_le_sum fun i _ => by cases s.workers i <;> simp [Worker.woken, wWeight]
        _ = (∑ i, wWeight (s.workers i)) + 5 * n := by
            rw [Finset.sum_add_distrib]; simp [Nat.mul_comm]
    simp only [weight, hd, dWeight]; omega
  | dJoin _ hd hj => simp only [weight, hd, dWeight]; omega
  | wSpurious _ i hi => exact hw.elim

theorem run_le_weight {cap k : Nat} {who : Who T n m → Prop} (hwho : ∀ w, who w → Settling w) {s s' : Pool T n m}
    (r : Run cap who k s s') : k + weight s' ≤ weight s := by
  induction r with
  | refl => omega
  | step _ hw st ih => have := weight_lt (hwho _ hw) st; omega

/-! ### What a state looks like in which nothing can happen any more -/

/-- No step is possible for the threads allowed by `who`. -/
def Stuck (cap : Nat) (who : Who T n m → Prop) (s : Pool T n m) : Prop := ∀ w s', who w → ¬ Step cap w s s'

theorem stuck_workers {cap : Nat} {who : Who T n m → Prop} {s : Pool T n m} (h : Stuck cap who s)
    (hw : ∀ i, who (.worker i)) (i : Fin n) :
    s.workers i = .waiting ∨ s.workers i = .done ∨ (s.workers i = .acquire ∧ s.lock ≠ none) := by
  cases hi : s.workers i with
  | acquire =>
    right; right; refine ⟨rfl, fun hl => h _ _ (hw i) (.wLock s i hi hl)⟩
  | testStop => exact absurd (.wTestStop s i hi) (h _ _ (hw i))
  | testEmpty => exact absurd (.wTestEmpty s i hi) (h _ _ (hw i))
  | sleep => exact absurd (.wSleep s i hi) (h _ _ (hw i))
  | waiting => left; rfl
  | testStop2 =>
    cases hs : s.stop with
    | true => exact absurd (.wReturn s i hi hs) (h _ _ (hw i))
    | false => exact absurd (.wGoOn s i hi hs) (h _ _ (hw i))
  | pop =>
    cases hq : s.queue with
    | nil => exact absurd (.wPopEmpty s i hi hq) (h _ _ (hw i))
    | cons t q => exact absurd (.wPop s i t q hi hq) (h _ _ (hw i))
  | run t => exact absurd (.wRun s i t hi) (h _ _ (hw i))
  | done => right; left; rfl

theorem stuck_committers {cap : Nat} {who : Who T n m → Prop} {s : Pool T n m} (h : Stuck cap who s)
    (hw : ∀ j, who (.committer j)) (j : Fin m) :
    s.committers j = .idle ∨ ((∃ t, s.committers j = .acquire t) ∧ s.lock ≠ none) := by
  cases hj : s.committers j with
  | idle => left; rfl
  | acquire t => right; exact ⟨⟨t, rfl⟩, fun hl => h _ _ (hw j) (.cLock s j t hj hl)⟩
  | testStop t =>
    cases hs : s.stop with
    | true => exact absurd (.cStopped s j t hj hs) (h _ _ (hw j))
    | false => exact absurd (.cGoOn s j t hj hs) (h _ _ (hw j))
  | push t =>
    by_cases hc : s.queue.length > cap
    · exact absurd (.cFull s j t hj hc) (h _ _ (hw j))
    · exact absurd (.cPush s j t hj hc) (h _ _ (hw j))
  | notify =>
    by_cases hc : ∃ i, s.workers i = .waiting
    · obtain ⟨i, hi⟩ := hc; exact absurd (.cNotify s j i hj hi) (h _ _ (hw j))
    · exact absurd (.cNotifyNobody s j hj (fun i hi => hc ⟨i, hi⟩)) (h _ _ (hw j))

/-- If neither workers nor committers can move, nobody holds the mutex, all workers are asleep or gone, and nobody is
inside `commit`. -/
theorem stuck_shape {cap : Nat} {who : Who T n m → Prop} {s : Pool T n m} (hinv : Inv s) (h : Stuck cap who s)
    (hw : ∀ i, who (.worker i)) (hc : ∀ j, who (.committer j)) :
    s.lock = none ∧ (∀ i, s.workers i = .waiting ∨ s.workers i = .done) ∧ ∀ j, s.committers j = .idle := by
  have hl : s.lock = none := by
    cases hl : s.lock with
    | none => rfl
    | some x =>
      exfalso
      cases x with
      | inl i =>
        have := (hinv.lockOk.1 i).mpr hl
        rcases stuck_workers h hw i with h1 | h1 | ⟨h1, -⟩ <;> rw [h1] at this <;> cases this
      | inr j =>
        have := (hinv.lockOk.2 j).mpr hl
        rcases stuck_committers h hc j with h1 | ⟨⟨t, h1⟩, -⟩ <;> rw [h1] at this <;> cases this
  refine ⟨hl, fun i => ?_, fun j => ?_⟩
  · rcases stuck_workers h hw i with h1 | h1 | ⟨-, h1⟩
    · exact Or.inl h1
    · exact Or.inr h1
    · exact absurd hl h1
  · rcases stuck_committers h hc j with h1 | ⟨-, h1⟩
    · exact h1
    · exact absurd hl h1

end Pool
end SpaceHub.Conc
