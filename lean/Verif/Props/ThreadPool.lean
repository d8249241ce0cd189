import Mathlib.Data.List.Count
import Mathlib.Data.List.Perm.Subperm
import Mathlib.Data.List.Perm.Basic
import Verif.Proof.ThreadPool

/-!
C37: the thread pool runs every accepted task exactly once.  Model: `Verif/Model/ThreadPool.lean`; the projections of the
log: `Verif/Spec/ThreadPool.lean`.

What holds, for every number of workers and committers, every capacity and every schedule: tasks start in the order of
acceptance, none twice, none that was not accepted; while the pool is not being destroyed, all accepted tasks are run.
What does not: the destructor can hang for ever, drops accepted tasks, and tasks can be accepted after it was entered.
-/

set_option autoImplicit false

namespace SpaceHub.Conc
open Pool
variable {T : Type} {n m : Nat}

/-- **C37, order and at most once.**  At every moment the tasks started are a prefix of the tasks accepted (so each is
started at most once, in the order of acceptance), the tasks finished are among the tasks started, with multiplicity,
and `front`/`pop` are never called on an empty queue. -/
theorem C37_in_order_at_most_once (cap : Nat) (s : Pool T n m) (h : Reachable cap s) :
    startedOf s.log <+: acceptedOf s.log ∧ List.Subperm (finishedOf s.log) (startedOf s.log) ∧ s.ub = false := by
  classical
  have hinv := inv_reachable h
  refine ⟨⟨s.queue, hinv.fifo⟩, ?_, hinv.noub⟩
  rw [List.subperm_ext_iff]
  intro t _
  have := hinv.count t
  omega

/-- Workers and threads inside `commit`: everybody but the destructor, without new calls of `commit` and without
spurious wake-ups. -/
def Working : Who T n m → Prop
  | .worker _ | .committer _ => True
  | _ => False

theorem log_mono {cap k : Nat} {who : Who T n m → Prop} {s s' : Pool T n m} (r : Run cap who k s s') :
    s.log <+: s'.log := by
  induction r with
  | refl => exact List.prefix_refl _
  | step _ _ st ih =>
    refine ih.trans ?_
    cases st <;> first
      | exact List.prefix_refl _
      | exact List.prefix_append _ _

theorem alive_run {cap k : Nat} {s s' : Pool T n m} (hd : s.destructor = .alive) (r : Run cap Working k s s') :
    s'.destructor = .alive := by
  induction r with
  | refl => exact hd
  | step _ hw st ih =>
    have ih := ih hd
    cases st <;> first
      | exact hw.elim
      | exact ih

/-- **C37, all accepted tasks are run.**  Take any moment before the destructor is called, with at least one worker.  If
no further `commit` is started, then under every schedule the pool comes to rest after boundedly many steps, and when it
is at rest every task accepted has been run exactly once. -/
theorem C37_all_run (cap : Nat) (hn : n ≠ 0) (s : Pool T n m) (h : Reachable cap s) (hd : s.destructor = .alive) :
    (∃ bound, ∀ k s', Run cap Working k s s' → k ≤ bound) ∧
    ∀ k s', Run cap Working k s s' → Stuck cap Working s' →
      acceptedOf s.log <+: acceptedOf s'.log ∧ (finishedOf s'.log).Perm (acceptedOf s'.log) := by
  classical
  refine ⟨⟨weight s, fun k s' r => ?_⟩, fun k s' r hstuck => ⟨?_, ?_⟩⟩
  · have := run_le_weight (who := Working) (fun w hw => by cases w <;> simp_all [Working, Settling]) r
    omega
  · exact (log_mono r).filterMap _
  · have hinv := inv_run (inv_reachable h) r
    have hd' : s'.destructor = .alive := by
      exact alive_run hd r
    have hstop : s'.stop = false := by
      cases hs : s'.stop with
      | false => rfl
      | true => exact absurd hd' (hinv.stopD.mp hs)
    obtain ⟨-, hw, hc⟩ := stuck_shape hinv hstuck (fun _ => trivial) (fun _ => trivial)
    have hwait : ∀ i, s'.workers i = .waiting := by
      intro i
      rcases hw i with h1 | h1
      · exact h1
      · have := hinv.wOk i
        rw [h1] at this
        exact absurd (show s'.stop = true from this) (by rw [hstop]; simp)
    have hq : s'.queue = [] := by
      by_contra hq
      obtain ⟨j, hj⟩ := hinv.wake hq hwait hn
      rw [hc j] at hj; cases hj
    have hf := hinv.fifo
    rw [hq, List.append_nil] at hf
    rw [← hf, List.perm_iff_count]
    intro t
    have := hinv.count t
    have h0 : ∑ i, runs t (s'.workers i) = 0 := by
      refine Finset.sum_eq_zero fun i _ => ?_
      rw [hwait i]; exact runs_of_ne (by simp)
    omega

theorem queue_run {cap k : Nat} {who : Who T n m → Prop} {s s' : Pool T n m} (h : s.queue.length ≤ cap + 1)
    (r : Run cap who k s s') : s'.queue.length ≤ cap + 1 := by
  induction r with
  | refl => exact h
  | step _ _ st ih =>
    have ih := ih h
    cases st with
    | wPop _ i t q hi hq => rw [hq] at ih; simp only [List.length_cons] at ih ⊢; omega
    | cPush _ j t hj hs => simp only [List.length_append, List.length_cons, List.length_nil]; omega
    | _ => exact ih

/-- **C37, capacity.**  At most `max_tasks + 1` accepted tasks wait; a task is refused only when more than `max_tasks`
wait or the destructor was entered, and is accepted only when at most `max_tasks` wait. -/
theorem C37_capacity (cap : Nat) (s : Pool T n m) (h : Reachable cap s) :
    (acceptedOf s.log).length ≤ (startedOf s.log).length + (cap + 1) ∧
    (∀ w s' t, Step cap w s s' → s'.log = s.log ++ [.refused t] →
      s.destructor ≠ .alive ∨ (acceptedOf s.log).length > (startedOf s.log).length + cap) ∧
    (∀ w s' t, Step cap w s s' → s'.log = s.log ++ [.accepted t] →
      (acceptedOf s.log).length ≤ (startedOf s.log).length + cap) := by
  have hinv := inv_reachable h
  have hlen : (acceptedOf s.log).length = (startedOf s.log).length + s.queue.length := by
    rw [← hinv.fifo, List.length_append]
  refine ⟨?_, ?_, ?_⟩
  · have hq : s.queue.length ≤ cap + 1 := by
      obtain ⟨k, r⟩ := h
      exact queue_run (by simp [Pool.init]) r
    omega
  · intro w s' t st hlog
    cases st <;> simp only [setW, setC, List.append_cancel_left_eq, List.cons.injEq, reduceCtorEq, and_true,
      List.self_eq_append_right, List.cons_ne_nil] at hlog
    · rename_i hs; exact Or.inl (hinv.stopD.mp hs)
    · rename_i hs; right; omega
  · intro w s' t st hlog
    cases st <;> simp only [setW, setC, List.append_cancel_left_eq, List.cons.injEq, reduceCtorEq, and_true,
      List.self_eq_append_right, List.cons_ne_nil] at hlog
    omega

/-- Anything but a spurious wake-up. -/
def NotSpurious : Who T n m → Prop
  | .spurious _ => False
  | _ => True

/-! ### The destructor -/

/-- `stop_` is set, nobody is about to go to sleep, and nobody sleeps once the destructor has notified. -/
def SafeStop (s : Pool T n m) : Prop :=
  s.stop = true ∧ (∀ i, s.workers i ≠ .testEmpty ∧ s.workers i ≠ .sleep) ∧
    (s.destructor = .notify ∨ ((s.destructor = .join ∨ s.destructor = .done) ∧ ∀ i, s.workers i ≠ .waiting))

theorem safeStop_setW {s s' : Pool T n m} (h : SafeStop s) (i : Fin n) (v : Worker T) (hv : v ≠ .testEmpty ∧ v ≠ .sleep)
    (hv2 : v ≠ .waiting) (h1 : s'.workers = Function.update s.workers i v) (h2 : s'.stop = s.stop)
    (h3 : s'.destructor = s.destructor) : SafeStop s' := by
  obtain ⟨a, b, c⟩ := h
  refine ⟨by rw [h2, a], fun k => ?_, ?_⟩
  · rw [h1]
    by_cases hk : k = i
    · subst hk; rw [Function.update_self]; exact hv
    · rw [Function.update_of_ne hk]; exact b k
  · rw [h1, h3]
    refine c.imp_right fun ⟨c1, c2⟩ => ⟨c1, fun k => ?_⟩
    by_cases hk : k = i
    · subst hk; rw [Function.update_self]; exact hv2
    · rw [Function.update_of_ne hk]; exact c2 k

theorem safeStop_step {cap : Nat} {w : Who T n m} {s s' : Pool T n m} (h : SafeStop s) (st : Step cap w s s') :
    SafeStop s' := by
  cases st with
  | wLock _ i hi hl => exact safeStop_setW h i .testStop (by simp) (by simp) rfl rfl rfl
  | wTestStop _ i hi =>
    exact safeStop_setW h i .testStop2 (by simp) (by simp) (by simp [setW, h.1]) rfl rfl
  | wTestEmpty _ i hi => exact absurd hi (h.2.1 i).1
  | wSleep _ i hi => exact absurd hi (h.2.1 i).2
  | wReturn _ i hi hs => exact safeStop_setW h i .done (by simp) (by simp) rfl rfl rfl
  | wGoOn _ i hi hs => exact safeStop_setW h i .pop (by simp) (by simp) rfl rfl rfl
  | wPop _ i t q hi hq => exact safeStop_setW h i (.run t) (by simp) (by simp) rfl rfl rfl
  | wPopEmpty _ i hi hq => exact safeStop_setW h i .done (by simp) (by simp) rfl rfl rfl
  | wRun _ i t hi => exact safeStop_setW h i .acquire (by simp) (by simp) rfl rfl rfl
  | wSpurious _ i hi => exact safeStop_setW h i .acquire (by simp) (by simp) rfl rfl rfl
  | cNotify _ j i hj hi => exact safeStop_setW h i .acquire (by simp) (by simp) rfl rfl rfl
  | dStop _ hd =>
    rcases h.2.2 with h1 | ⟨h1 | h1, -⟩ <;> rw [hd] at h1 <;> cases h1
  | dNotify _ hd =>
    refine ⟨h.1, fun i => ?_, Or.inr ⟨Or.inl rfl, fun i => ?_⟩⟩
    · have := h.2.1 i
      dsimp only
      cases hw : s.workers i <;> simp_all [Worker.woken]
    · dsimp only
      cases hw : s.workers i <;> simp [Worker.woken]
  | dJoin _ hd hj =>
    refine ⟨h.1, h.2.1, Or.inr ⟨Or.inr rfl, fun i => ?_⟩⟩
    dsimp only; rw [hj i]; simp
  | _ => exact h

theorem safeStop_run {cap k : Nat} {who : Who T n m → Prop} {s s' : Pool T n m} (h : SafeStop s)
    (r : Run cap who k s s') : SafeStop s' := by
  induction r with
  | refl => exact h
  | step _ _ st ih => exact safeStop_step (ih h) st

/-- **C37, the destructor returns** - when it is entered (`stop_` is set) at a moment at which no worker is between the
test of `stop_` and going to sleep: then after boundedly many steps the pool is at rest and the destructor has returned.
Missing: the other moments, at which it is false (`C37_destructor_hangs`). -/
theorem C37_destructor_returns_partial (cap : Nat) (s s₁ : Pool T n m) (h : Reachable cap s)
    (hst : Step cap .destructor s s₁) (hd : s.destructor = .alive)
    (hw : ∀ i, s.workers i ≠ .testEmpty ∧ s.workers i ≠ .sleep) :
    (∃ bound, ∀ k s', Run cap Settling k s₁ s' → k ≤ bound) ∧
    ∀ k s', Run cap Settling k s₁ s' → Stuck cap Settling s' → s'.destructor = .done := by
  have h1 : SafeStop s₁ := by
    cases hst with
    | dStop _ _ => exact ⟨rfl, hw, Or.inl rfl⟩
    | dNotify _ hx => rw [hd] at hx; cases hx
    | dJoin _ hx => rw [hd] at hx; cases hx
  have hinv1 : Inv s₁ := inv_step (inv_reachable h) hst
  refine ⟨⟨weight s₁, fun k s' r => ?_⟩, fun k s' r hstuck => ?_⟩
  · have := run_le_weight (fun w hw => hw) r
    omega
  · have hs' : SafeStop s' := safeStop_run h1 r
    obtain ⟨-, hws, -⟩ := stuck_shape (inv_run hinv1 r) hstuck (fun _ => trivial) (fun _ => trivial)
    rcases hs'.2.2 with hx | ⟨hx | hx, hx2⟩
    · exact absurd (.dNotify s' hx) (hstuck .destructor _ trivial)
    · refine absurd (.dJoin s' hx fun i => ?_) (hstuck .destructor _ trivial)
      exact (hws i).resolve_left (hx2 i)
    · exact hx

/-- A worker sleeps, the destructor has already notified and waits for it, and nobody inside `commit` will notify. -/
def Hanging (s : Pool T 1 m) : Prop :=
  s.workers 0 = .waiting ∧ s.destructor = .join ∧ s.stop = true ∧
    ∀ j, s.committers j = .idle ∨ ∃ t, s.committers j = .acquire t ∨ s.committers j = .testStop t

theorem hanging_setC {s s' : Pool T 1 m} (h : Hanging s) (j : Fin m) (v : Committer T)
    (hv : v = .idle ∨ ∃ t, v = .acquire t ∨ v = .testStop t) (h1 : s'.workers = s.workers)
    (h2 : s'.destructor = s.destructor) (h3 : s'.stop = s.stop) (h4 : s'.committers = Function.update s.committers j v) :
    Hanging s' := by
  refine ⟨by rw [h1]; exact h.1, by rw [h2]; exact h.2.1, by rw [h3]; exact h.2.2.1, fun k => ?_⟩
  rw [h4]
  by_cases hk : k = j
  · subst hk; rw [Function.update_self]; exact hv
  · rw [Function.update_of_ne hk]; exact h.2.2.2 k

theorem hanging_step {cap : Nat} {w : Who T 1 m} {s s' : Pool T 1 m} (h : Hanging s) (hw : NotSpurious w)
    (st : Step cap w s s') : Hanging s' := by
  have h0 : ∀ i : Fin 1, s.workers i = .waiting := fun i => by rw [Subsingleton.elim i 0]; exact h.1
  have hc := h.2.2.2
  cases st with
  | cBegin _ j t hj => exact hanging_setC h j (.acquire t) (Or.inr ⟨t, Or.inl rfl⟩) rfl rfl rfl rfl
  | cLock _ j t hj hl => exact hanging_setC h j (.testStop t) (Or.inr ⟨t, Or.inr rfl⟩) rfl rfl rfl rfl
  | cStopped _ j t hj hs => exact hanging_setC h j .idle (Or.inl rfl) rfl rfl rfl rfl
  | cGoOn _ j t hj hs => rw [h.2.2.1] at hs; cases hs
  | cFull _ j t hj hs => rcases hc j with h1 | ⟨t, h1 | h1⟩ <;> rw [hj] at h1 <;> cases h1
  | cPush _ j t hj hs => rcases hc j with h1 | ⟨t, h1 | h1⟩ <;> rw [hj] at h1 <;> cases h1
  | cNotify _ j i hj hi => rcases hc j with h1 | ⟨t, h1 | h1⟩ <;> rw [hj] at h1 <;> cases h1
  | cNotifyNobody _ j hj hi => exact absurd h.1 (hi 0)
  | dStop _ hd => rw [h.2.1] at hd; cases hd
  | dNotify _ hd => rw [h.2.1] at hd; cases hd
  | dJoin _ hd hj => have := hj 0; rw [h.1] at this; cases this
  | wSpurious _ i hi => exact hw.elim
  | wLock _ i hi => rw [h0 i] at hi; cases hi
  | wTestStop _ i hi => rw [h0 i] at hi; cases hi
  | wTestEmpty _ i hi => rw [h0 i] at hi; cases hi
  | wSleep _ i hi => rw [h0 i] at hi; cases hi
  | wReturn _ i hi => rw [h0 i] at hi; cases hi
  | wGoOn _ i hi => rw [h0 i] at hi; cases hi
  | wPop _ i t q hi => rw [h0 i] at hi; cases hi
  | wPopEmpty _ i hi => rw [h0 i] at hi; cases hi
  | wRun _ i t hi => rw [h0 i] at hi; cases hi

theorem hanging_run {cap k : Nat} {s s' : Pool T 1 m} (h : Hanging s) (r : Run cap NotSpurious k s s') : Hanging s' := by
  induction r with
  | refl => exact h
  | step _ hw st ih => exact hanging_step (ih h) hw st

/-- The destructor can hang for ever: with one worker, under the schedule "the worker finds `stop_` false and the queue
empty; the destructor sets `stop_` and notifies; the worker goes to sleep", a state is reached from which, short of a
spurious wake-up, the destructor never returns, whatever happens.  (`stop_` is set without holding the mutex.) -/
theorem C37_destructor_hangs (T : Type) (cap m : Nat) :
    ∃ s : Pool T 1 m, Reachable cap s ∧ .shutdown ∈ s.log ∧
      ∀ k s', Run cap NotSpurious k s s' → s'.destructor ≠ .done := by
  have r0 : Run cap (fun _ => True) 0 (Pool.init T 1 m) _ := .refl _
  have r1 := r0.step trivial (.wLock _ 0 rfl rfl)
  have r2 := r1.step trivial (.wTestStop _ 0 rfl)
  have r3 := r2.step trivial (.wTestEmpty _ 0 rfl)
  have r4 := r3.step trivial (.dStop _ rfl)
  have r5 := r4.step trivial (.dNotify _ rfl)
  have r6 := r5.step trivial (.wSleep _ 0 rfl)
  refine ⟨_, ⟨_, r6⟩, ?_, fun k s' r => ?_⟩
  · simp [setW, Pool.init]
  · have := hanging_run (s := _) ⟨rfl, rfl, rfl, fun j => Or.inl rfl⟩ r
    rw [this.2.1]; simp

/-- The destructor drops accepted tasks: there is a schedule in which it returns although an accepted task was never
started (and, all workers being gone, never will be). -/
theorem C37_drops_accepted_tasks (T : Type) (t : T) (cap : Nat) :
    ∃ s : Pool T 1 1, Reachable cap s ∧ .destroyed ∈ s.log ∧ acceptedOf s.log = [t] ∧ startedOf s.log = [] := by
  have r0 : Run cap (fun _ => True) 0 (Pool.init T 1 1) _ := .refl _
  have r1 := r0.step trivial (.cBegin _ 0 t rfl)
  have r2 := r1.step trivial (.cLock _ 0 t rfl rfl)
  have r3 := r2.step trivial (.cGoOn _ 0 t rfl rfl)
  have r4 := r3.step trivial (.cPush _ 0 t rfl (by simp [setC, Pool.init]))
  have r5 := r4.step trivial (.cNotifyNobody _ 0 rfl (by simp [setC, Pool.init]))
  have r6 := r5.step trivial (.dStop _ rfl)
  have r7 := r6.step trivial (.dNotify _ rfl)
  have r8 := r7.step trivial (.wLock _ 0 rfl rfl)
  have r9 := r8.step trivial (.wTestStop _ 0 rfl)
  have r10 := r9.step trivial (.wReturn _ 0 rfl rfl)
  have r11 := r10.step trivial (.dJoin _ rfl (by intro i; rw [Subsingleton.elim i 0]; rfl))
  exact ⟨_, ⟨_, r11⟩, by simp [setW, setC, Pool.init], rfl, rfl⟩

/-- A task can be accepted after the destructor was entered (`stop_` is set without holding the mutex). -/
theorem C37_accepts_after_shutdown (T : Type) (t : T) (cap : Nat) :
    ∃ s : Pool T 1 1, Reachable cap s ∧ s.log = [.shutdown, .accepted t] := by
  have r0 : Run cap (fun _ => True) 0 (Pool.init T 1 1) _ := .refl _
  have r1 := r0.step trivial (.cBegin _ 0 t rfl)
  have r2 := r1.step trivial (.cLock _ 0 t rfl rfl)
  have r3 := r2.step trivial (.cGoOn _ 0 t rfl rfl)
  have r4 := r3.step trivial (.dStop _ rfl)
  have r5 := r4.step trivial (.cPush _ 0 t rfl (by simp [setC, Pool.init]))
  exact ⟨_, ⟨_, r5⟩, rfl⟩

/-- Two tasks committed by two threads, run by two workers: a reachable state of the kind the theorems speak about. -/
example : ∃ s : Pool String 2 2, Reachable 1000 s ∧ s.destructor = .alive ∧ acceptedOf s.log = ["a", "b"] ∧
    startedOf s.log = ["a", "b"] ∧ finishedOf s.log = ["b"] := by
  have r0 : Run 1000 (fun _ => True) 0 (Pool.init String 2 2) _ := .refl _
  have r1 := r0.step trivial (.cBegin _ 0 "a" rfl)
  have r2 := r1.step trivial (.cBegin _ 1 "b" rfl)
  have r3 := r2.step trivial (.cLock _ 0 "a" rfl rfl)
  have r4 := r3.step trivial (.cGoOn _ 0 "a" rfl rfl)
  have r5 := r4.step trivial (.cPush _ 0 "a" rfl (by simp [setC, Pool.init]))
  have r6 := r5.step trivial (.cLock _ 1 "b" rfl rfl)
  have r7 := r6.step trivial (.cGoOn _ 1 "b" rfl rfl)
  have r8 := r7.step trivial (.cPush _ 1 "b" rfl (by simp [setC, Pool.init]))
  have r9 := r8.step trivial (.wLock _ 0 rfl rfl)
  have r10 := r9.step trivial (.wTestStop _ 0 rfl)
  have r11 := r10.step trivial (.wTestEmpty _ 0 rfl)
  have r12 := r11.step trivial (.wGoOn _ 0 rfl rfl)
  have r13 := r12.step trivial (.wPop _ 0 "a" ["b"] rfl rfl)
  have r14 := r13.step trivial (.wLock _ 1 rfl rfl)
  have r15 := r14.step trivial (.wTestStop _ 1 rfl)
  have r16 := r15.step trivial (.wTestEmpty _ 1 rfl)
  have r17 := r16.step trivial (.wGoOn _ 1 rfl rfl)
  have r18 := r17.step trivial (.wPop _ 1 "b" [] rfl rfl)
  have r19 := r18.step trivial (.wRun _ 1 "b" rfl)
  exact ⟨_, ⟨_, r19⟩, rfl, rfl, rfl, rfl⟩

end SpaceHub.Conc
