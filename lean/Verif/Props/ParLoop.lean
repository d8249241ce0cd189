import Mathlib.Tactic.Ring
import Mathlib.Tactic.Linarith
import Verif.Model.ParLoop

/-!
C36 (a parallel loop covers every index exactly once) and C64 (every spawned thread gets the callable and arguments
given).  Model: `Verif/Model/ParLoop.lean`.
-/

set_option autoImplicit false

namespace SpaceHub.Conc

/-- Thread number `th` of the call processes index `i`. -/
def Handles (ps : List (Nat × Nat)) (th i : Nat) : Prop := ∃ p, ps[th]? = some p ∧ p.1 ≤ i ∧ i < p.2

theorem interval_eq (total threads th : Nat) (hth : th < threads)
    (hbig : total + total / threads < 2 ^ 64) :
    interval total (total / threads) th =
      (th * (total / threads),
        if th + 1 = threads ∧ total % threads < total / threads then total else (th + 1) * (total / threads)) := by
  have hdm : threads * (total / threads) + total % threads = total := Nat.div_add_mod total threads
  have hmul : threads * (total / threads) ≤ total := Nat.mul_div_le total threads
  generalize total / threads = L at *
  generalize total % threads = r at *
  have h1 : th * L ≤ total := le_trans (Nat.mul_le_mul_right L (le_of_lt hth)) hmul
  have h2 : (th + 1) * L ≤ total := le_trans (Nat.mul_le_mul_right L hth) hmul
  have e2 : th * L + L = (th + 1) * L := by ring
  have w1 : wrap (th * L) = th * L := Nat.mod_eq_of_lt (by omega)
  have w2 : wrap (th * L + L) = (th + 1) * L := by rw [e2]; exact Nat.mod_eq_of_lt (by omega)
  have w3 : wrap ((th + 1) * L + L) = (th + 1) * L + L := Nat.mod_eq_of_lt (by omega)
  simp only [interval, w1, w2, w3]
  by_cases hlast : th + 1 = threads
  · have : ((th + 1) * L + L > total) ↔ (th + 1 = threads ∧ r < L) := by
      rw [hlast]; constructor
      · intro h; exact ⟨rfl, by omega⟩
      · rintro ⟨_, h⟩; omega
    by_cases hc : (th + 1) * L + L > total
    · rw [if_pos hc, if_pos (this.mp hc)]
    · rw [if_neg hc, if_neg (fun h => hc (this.mpr h))]
  · rw [if_neg (fun h : th + 1 = threads ∧ r < L => hlast h.1), if_neg]
    have : (th + 2) * L ≤ total := le_trans (Nat.mul_le_mul_right L (by omega)) hmul
    have e3 : (th + 2) * L = (th + 1) * L + L := by ring
    omega

theorem handles_iff (total threads th i : Nat) (ps : List (Nat × Nat))
    (hbig : total + total / threads < 2 ^ 64) (h : multiThreadsLoop total threads = Res.ok ps) :
    Handles ps th i ↔ th < threads ∧ th * (total / threads) ≤ i ∧
      i < (if th + 1 = threads ∧ total % threads < total / threads then total else (th + 1) * (total / threads)) := by
  unfold multiThreadsLoop at h
  split at h
  · cases h
  cases h
  unfold Handles
  constructor
  · rintro ⟨p, hp, h1, h2⟩
    simp only [List.getElem?_map, Option.map_eq_some_iff] at hp
    obtain ⟨a, ha, rfl⟩ := hp
    have hlt : th < threads := by
      by_contra hc
      rw [List.getElem?_eq_none (by simpa using Nat.le_of_not_lt hc)] at ha
      cases ha
    rw [List.getElem?_range hlt] at ha
    cases ha
    rw [interval_eq total threads th hlt hbig] at h1 h2
    exact ⟨hlt, h1, h2⟩
  · rintro ⟨hlt, h1, h2⟩
    refine ⟨interval total (total / threads) th, ?_, ?_⟩
    · simp [List.getElem?_range hlt]
    · rw [interval_eq total threads th hlt hbig]; exact ⟨h1, h2⟩

/-- **C36.**  The loop starts `threads` threads (0 threads: undefined behaviour).  If the length is a multiple of the
number of threads, or leaves a remainder smaller than the share of one thread, every index below `total` is handed to
exactly one thread and no thread is handed anything else.  (`total + total/threads` must fit in 64 bits.) -/
theorem C36_partial (total threads : Nat) (hn : 0 < threads) (hbig : total + total / threads < 2 ^ 64)
    (hrem : total % threads = 0 ∨ total % threads < total / threads) :
    ∃ ps, multiThreadsLoop total threads = Res.ok ps ∧ ps.length = threads ∧
      (∀ i, i < total → ∃! th, Handles ps th i) ∧ (∀ th i, Handles ps th i → i < total) := by
  have hex : multiThreadsLoop total threads = Res.ok ((List.range threads).map (interval total (total / threads))) := by
    unfold multiThreadsLoop; rw [if_neg (by omega)]
  refine ⟨_, hex, by simp, ?_, ?_⟩
  · intro i hi
    have hH := fun th => handles_iff total threads th i _ hbig hex
    have hdm : threads * (total / threads) + total % threads = total := Nat.div_add_mod total threads
    generalize total / threads = L at *
    generalize total % threads = r at *
    have hL : 0 < L := by
      rcases Nat.eq_zero_or_pos L with h0 | h0
      · subst h0; rcases hrem with h | h
        · simp [h] at hdm; omega
        · omega
      · exact h0
    have uniq : ∀ a b, Handles ((List.range threads).map (interval total L)) a i →
        Handles ((List.range threads).map (interval total L)) b i → a ≤ b := by
      intro a b ha hb
      rw [hH] at ha hb
      by_contra hab
      have hlt : b + 1 ≤ a := by omega
      have hbn : ¬ (b + 1 = threads ∧ r < L) := by omega
      rw [if_neg hbn] at hb
      have := Nat.mul_le_mul_right L hlt
      omega
    refine existsUnique_of_exists_of_unique ?_ (fun a b ha hb => le_antisymm (uniq a b ha hb) (uniq b a hb ha))
    by_cases hc : i < threads * L
    · refine ⟨i / L, (hH _).mpr ?_⟩
      have h1 : i / L < threads := Nat.div_lt_of_lt_mul (by rwa [Nat.mul_comm] at hc)
      have h2 : i / L * L ≤ i := Nat.div_mul_le_self i L
      have h3 : i < (i / L + 1) * L := by
        have := Nat.lt_mul_div_succ i hL
        rw [Nat.mul_comm]; exact this
      refine ⟨h1, h2, ?_⟩
      split <;> omega
    · refine ⟨threads - 1, (hH _).mpr ?_⟩
      have hr : r < L := by omega
      have e : threads - 1 + 1 = threads := by omega
      rw [if_pos ⟨e, hr⟩]
      refine ⟨by omega, ?_, hi⟩
      have := Nat.mul_le_mul_right L (Nat.sub_le threads 1)
      omega
  · intro th i h
    rw [handles_iff total threads th i _ hbig hex] at h
    obtain ⟨hlt, _, h2⟩ := h
    have hmul : threads * (total / threads) ≤ total := Nat.mul_div_le total threads
    have := Nat.mul_le_mul_right (total / threads) (show th + 1 ≤ threads from hlt)
    split at h2 <;> omega

/-- A sufficient condition free of divisions: at least `threads * threads` indices. -/
theorem C36_long_loops (total threads : Nat) (hn : 0 < threads) (hbig : 2 * total < 2 ^ 64)
    (hlong : threads * threads ≤ total) :
    ∃ ps, multiThreadsLoop total threads = Res.ok ps ∧ ps.length = threads ∧
      (∀ i, i < total → ∃! th, Handles ps th i) ∧ (∀ th i, Handles ps th i → i < total) := by
  refine C36_partial total threads hn ?_ (Or.inr ?_)
  · have := Nat.div_le_self total threads; omega
  · have h1 := Nat.mod_lt total hn
    have h2 : threads ≤ total / threads := (Nat.le_div_iff_mul_le hn).mpr hlong
    omega

/-- What the code does otherwise: the last `total % threads` indices are handed to no thread at all. -/
theorem C36_drops_the_remainder (total threads : Nat) (hn : 0 < threads) (hbig : total + total / threads < 2 ^ 64)
    (hrem : ¬ (total % threads = 0 ∨ total % threads < total / threads)) :
    ∃ ps, multiThreadsLoop total threads = Res.ok ps ∧ total - total % threads < total ∧
      ∀ i, total - total % threads ≤ i → ∀ th, ¬ Handles ps th i := by
  have hex : multiThreadsLoop total threads = Res.ok ((List.range threads).map (interval total (total / threads))) := by
    unfold multiThreadsLoop; rw [if_neg (by omega)]
  refine ⟨_, hex, ?_, ?_⟩
  · have := Nat.mod_le total threads; omega
  · intro i hi th h
    rw [handles_iff total threads th i _ hbig hex, if_neg (by omega)] at h
    have hdm : threads * (total / threads) + total % threads = total := Nat.div_add_mod total threads
    have := Nat.mul_le_mul_right (total / threads) (show th + 1 ≤ threads from h.1)
    omega

/-- In particular with fewer indices than threads nothing at all is processed. -/
theorem C36_short_loops_do_nothing (total threads : Nat) (hpos : 0 < total) (hlt : total < threads) (hbig : total < 2 ^ 64) :
    ∃ ps, multiThreadsLoop total threads = Res.ok ps ∧ ∀ i th, ¬ Handles ps th i := by
  have hd : total / threads = 0 := Nat.div_eq_of_lt hlt
  have hm : total % threads = total := Nat.mod_eq_of_lt hlt
  obtain ⟨ps, h1, -, h3⟩ := C36_drops_the_remainder total threads (by omega) (by omega) (by omega)
  exact ⟨ps, h1, fun i th => h3 i (by omega) th⟩

/-- 0 threads: division by zero. -/
theorem C36_no_threads (total : Nat) : multiThreadsLoop total 0 = Res.ub := rfl

/-- 1003 indices on 8 threads: all covered.  7 on 4 threads: 4, 5 and 6 are dropped.  3 on 8: all dropped. -/
example : multiThreadsLoop 1003 8 = Res.ok [(0, 125), (125, 250), (250, 375), (375, 500), (500, 625), (625, 750),
    (750, 875), (875, 1003)] := by decide
example : multiThreadsLoop 7 4 = Res.ok [(0, 1), (1, 2), (2, 3), (3, 4)] := by decide
example : multiThreadsLoop 3 4 = Res.ok [(0, 0), (0, 0), (0, 0), (0, 0)] := by decide
example : 0 < 8 ∧ 1003 + 1003 / 8 < 2 ^ 64 ∧ 1003 % 8 < 1003 / 8 := by decide
example : ¬ (7 % 4 = 0 ∨ 7 % 4 < 7 / 4) := by decide

/-! ### C64 -/

theorem spawnLoop_lvalue {α : Type} (v : α) (count first : Nat) :
    spawnLoop count first (.lvalue v) = (List.range' first count).map fun i => (i, v) := by
  induction count generalizing first with
  | zero => rfl
  | succ k ih => simp only [spawnLoop, Passed.forward, ih, List.range'_succ, List.map_cons]

theorem spawnLoop_moved {α : Type} (left : α) (count first : Nat) :
    spawnLoop count first (.rvalue left left) = (List.range' first count).map fun i => (i, left) := by
  induction count generalizing first with
  | zero => rfl
  | succ k ih => simp only [spawnLoop, Passed.forward, ih, List.range'_succ, List.map_cons]

/-- **C64.**  Arguments given as lvalues: exactly `threads` threads run the job with the value given, and the indexed
variant numbers them `0, …, threads - 1`. -/
theorem C64_lvalues_partial {α : Type} (threads : Nat) (v : α) :
    multiThread threads (.lvalue v) = List.replicate threads v ∧
      indexedMultiThread threads (.lvalue v) = (List.range threads).map fun i => (i, v) := by
  constructor
  · rw [multiThread, spawnLoop_lvalue, List.map_map]
    apply List.ext_getElem <;> simp
  · rw [indexedMultiThread, spawnLoop_lvalue, List.range_eq_range']

/-- The automatic variants use the hardware's number of threads, at least 1. -/
theorem C64_auto_partial {α : Type} (hardware : Nat) (v : α) :
    autoMultiThread hardware (.lvalue v) = List.replicate (max hardware 1) v ∧
      autoIndexedMultiThread hardware (.lvalue v) = (List.range (max hardware 1)).map fun i => (i, v) := by
  have h : machineThreadNum hardware = max hardware 1 := by
    unfold machineThreadNum; split <;> omega
  exact ⟨by rw [autoMultiThread, (C64_lvalues_partial _ v).1, h],
    by rw [autoIndexedMultiThread, (C64_lvalues_partial _ v).2, h]⟩

/-- Arguments given as rvalues: the first thread gets the value, all others what the move has left behind - for a
`std::string`, a `std::vector` or a smart pointer: nothing. -/
theorem C64_rvalues_moved_from {α : Type} (threads : Nat) (v left : α) :
    multiThread (threads + 1) (.rvalue v left) = v :: List.replicate threads left := by
  rw [multiThread, spawnLoop]
  simp only [Passed.forward, spawnLoop_moved, List.map_cons, List.map_map]
  congr 1
  apply List.ext_getElem <;> simp

example : multiThread 3 (.lvalue "run.dat") = ["run.dat", "run.dat", "run.dat"] := by decide
example : multiThread 3 (.rvalue "run.dat" "") = ["run.dat", "", ""] := by decide
example : indexedMultiThread 3 (.lvalue "x") = [(0, "x"), (1, "x"), (2, "x")] := by decide

end SpaceHub.Conc
