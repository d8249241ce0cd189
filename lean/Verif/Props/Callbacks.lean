import Verif.Model.Callbacks
import Verif.Proof.SysBase
import Mathlib.Tactic.Linarith
import Mathlib.Algebra.Order.Floor.Semiring
import Mathlib.Algebra.Order.Archimedean.Basic

/-
C24, C25, C26, C50, C55, C56: slices and writers.
-/

set_option autoImplicit false

namespace SpaceHub.Callbacks
open SpaceHub Sys

/-! ### StepSlice -/

namespace StepSlice
/-- `n` calls: the answers -/
def calls : Nat → StepSlice → Res (List Bool × StepSlice)
  | 0, s => .ok ([], s)
  | n + 1, s => do
    let r ← calls n s
    let q ← r.2.call
    .ok (r.1 ++ [q.1], q.2)

theorem calls_eq (k : Nat) (hk : 0 < k) (n : Nat) :
    calls n (init k) = .ok ((List.range n).map (fun i => decide (k ∣ i)), ⟨n, k⟩) := by
  induction n with
  | zero => rfl
  | succ n ih =>
    rw [calls, ih]
    change (call ⟨n, k⟩ >>= _) = _
    unfold call
    rw [if_neg hk.ne']
    change Res.ok _ = _
    simp only [List.range_succ, List.map_append, List.map_cons, List.map_nil]
    congr 4
    rw [Bool.eq_iff_iff]
    simp [Nat.dvd_iff_mod_eq_zero]
end StepSlice

/-- With interval `k > 0` the operation is run exactly on the calls number `0, k, 2k, ...` since construction. -/
theorem C24_step_slice (k : Nat) (hk : 0 < k) (n : Nat) :
    ∃ s, StepSlice.calls n (StepSlice.init k) = .ok ((List.range n).map (fun i => decide (k ∣ i)), s) :=
  ⟨_, StepSlice.calls_eq k hk n⟩

/-- ... hence `⌈n / k⌉` times in `n` calls. -/
theorem C24_count (k : Nat) (hk : 0 < k) (n : Nat) (l : List Bool) (s : StepSlice)
    (e : StepSlice.calls n (StepSlice.init k) = .ok (l, s)) : l.count true = (n + k - 1) / k := by
  rw [StepSlice.calls_eq k hk n] at e
  cases e
  have h1 : ((List.range n).map (fun i => decide (k ∣ i))).count true = (List.range n).countP (fun i => decide (k ∣ i)) := by
    rw [List.count, List.countP_map]; congr 1; funext i; simp
  rw [h1]
  induction n with
  | zero => simp; rw [Nat.div_eq_of_lt (by omega)]
  | succ n ih =>
    rw [List.range_succ, List.countP_append, ih (by
      rw [List.count, List.countP_map]; congr 1; funext i; simp)]
    simp only [List.countP_cons, List.countP_nil]
    by_cases h : k ∣ n
    · obtain ⟨q, rfl⟩ := h
      simp only [Nat.dvd_mul_right, decide_true, if_true]
      have e1 : (k * q + k - 1) / k = q := by
        rw [show k * q + k - 1 = k * q + (k - 1) by omega, Nat.mul_add_div hk, Nat.div_eq_of_lt (by omega)]; rfl
      have e2 : (k * q + 1 + k - 1) / k = q + 1 := by
        rw [show k * q + 1 + k - 1 = k * (q + 1) by rw [Nat.mul_add]; omega, Nat.mul_div_cancel_left _ hk]
      rw [e1, e2]
    · simp only [h, decide_false, Bool.false_eq_true, if_false]
      have hm : 0 < n % k := Nat.pos_of_ne_zero fun h0 => h (Nat.dvd_of_mod_eq_zero h0)
      have hlt : n % k < k := Nat.mod_lt _ hk
      have hn := Nat.div_add_mod n k
      generalize n / k = q at hn
      generalize n % k = r at hn hm hlt
      subst hn
      have e1 : (k * q + r + k - 1) / k = q + 1 := by
        rw [show k * q + r + k - 1 = k * (q + 1) + (r - 1) by rw [Nat.mul_add]; omega, Nat.mul_add_div hk,
          Nat.div_eq_of_lt (by omega)]
      have e2 : (k * q + r + 1 + k - 1) / k = q + 1 := by
        rw [show k * q + r + 1 + k - 1 = k * (q + 1) + r by rw [Nat.mul_add]; omega, Nat.mul_add_div hk,
          Nat.div_eq_of_lt hlt]
      rw [e1, e2]

/-- A reset starts the count anew; interval 0 is undefined behaviour at the first call. -/
theorem C24_reset (k : Nat) (s : StepSlice) : s.reset k = StepSlice.init k ∧ (StepSlice.init 0).call = .ub := ⟨rfl, rfl⟩

/-- The claim "a stop condition wrapped in a StepSlice is only consulted on every k-th check" is false: the simulator
calls a copy, so the wrapped condition is consulted on every check, exactly as if it were not wrapped. -/
theorem C56_step_slice_never_advances {W S : Type} (k : Nat) (hk : 0 < k) (cond : ℝ → S → Bool) (h : ℝ) (x : W × S)
    (cs : List (Simu.StopCond W S)) :
    Simu.checkStops h ((StepSlice.init k).asStopCond cond :: cs) x =
      if cond h x.2 then (true, x) else Simu.checkStops h cs x := by
  rw [Simu.checkStops]
  unfold StepSlice.asStopCond StepSlice.init StepSlice.call
  simp only [if_neg hk.ne', Nat.zero_mod, beq_self_eq_true, if_true]

/-- For any function object: a check of the stop conditions leaves the registered conditions as they were (the next
check calls the same members again), and what the first condition answers depends only on its members at registration,
the system and the step. -/
theorem C56_members_lost {W S : Type} (c : Simu.StopCond W S) (h : ℝ) (x : W × S) :
    Simu.checkStops h [c] x = ((c.call c.mem h x).1, (c.call c.mem h x).2.2) := by
  unfold Simu.checkStops
  dsimp only
  cases hc : (c.call c.mem h x).1 <;> simp [Simu.checkStops]

/-! ### TimeSlice -/

namespace TimeSlice
/-- the answers for a sequence of times -/
noncomputable def fires (s : TimeSlice) : List ℝ → List Bool × TimeSlice
  | [] => ([], s)
  | t :: ts =>
    let r := s.call t
    let q := fires r.2 ts
    (r.1 :: q.1, q.2)

theorem fires_concat (s : TimeSlice) (ts : List ℝ) (t : ℝ) :
    s.fires (ts ++ [t]) = ((s.fires ts).1 ++ [((s.fires ts).2.call t).1], ((s.fires ts).2.call t).2) := by
  induction ts generalizing s with
  | nil => rfl
  | cons a ts ih => simp only [List.cons_append, fires, ih]

theorem fires_state (start tEnd : ℝ) (num : Nat) (ts : List ℝ) :
    ((init start tEnd num).fires ts).2 =
      { optTime := start + ((init start tEnd num).fires ts).1.count true * ((tEnd - start) / num), endTime := tEnd,
        interval := (tEnd - start) / num } := by
  induction ts using List.reverseRecOn with
  | nil => simp [fires, init]
  | append_singleton ts t ih =>
    rw [fires_concat]
    dsimp only
    rw [List.count_append, ih]
    unfold call
    split_ifs
    · simp only [List.count_singleton_self]; congr 1; push_cast; ring
    · simp
end TimeSlice

/-- Whether a call at time `t` fires after the calls at the times `ts`: iff `t` lies between the grid point number `f` and
the end, `f` being the number of firings so far.  In particular it never fires outside `[start, end]`. -/
theorem C25_fires_iff (start tEnd : ℝ) (num : Nat) (ts : List ℝ) (t : ℝ) :
    ((TimeSlice.init start tEnd num).fires (ts ++ [t])).1 = ((TimeSlice.init start tEnd num).fires ts).1 ++
      [decide (start + ((TimeSlice.init start tEnd num).fires ts).1.count true * ((tEnd - start) / num) ≤ t ∧ t ≤ tEnd)] := by
  rw [TimeSlice.fires_concat]
  dsimp only
  congr 2
  rw [TimeSlice.fires_state]
  unfold TimeSlice.call
  simp only
  split_ifs with h
  · simpa using h
  · symm; rw [decide_eq_false_iff_not]; exact h

/-- At most `num + 1` firings. -/
theorem C25_at_most (start tEnd : ℝ) (num : Nat) (hn : 0 < num) (hlt : start < tEnd) (ts : List ℝ) :
    ((TimeSlice.init start tEnd num).fires ts).1.count true ≤ num + 1 := by
  induction ts using List.reverseRecOn with
  | nil => simp [TimeSlice.fires]
  | append_singleton ts t ih =>
    rw [C25_fires_iff, List.count_append]
    by_cases h : start + ((TimeSlice.init start tEnd num).fires ts).1.count true * ((tEnd - start) / num) ≤ t ∧ t ≤ tEnd
    · have hN : (0 : ℝ) < num := by exact_mod_cast hn
      have h1 : (((TimeSlice.init start tEnd num).fires ts).1.count true : ℝ) * ((tEnd - start) / num) ≤ tEnd - start := by
        linarith [h.1, h.2]
      have h2 : (((TimeSlice.init start tEnd num).fires ts).1.count true : ℝ) ≤ num := by
        rw [mul_div_assoc', div_le_iff₀ hN, mul_comm] at h1
        exact le_of_mul_le_mul_left h1 (by linarith)
      have h3 : ((TimeSlice.init start tEnd num).fires ts).1.count true ≤ num := by exact_mod_cast h2
      simp [h]; exact h3
    · simp only [h, decide_false]
      simpa using ih

/-- If the calls start not after the first slice and are spaced at most one slice apart, then after every call with time
`t` in `[start, end]` there were exactly `⌊(t - start)/width⌋ + 1` firings: one per slice passed. -/
theorem C25_one_per_slice (start tEnd : ℝ) (num : Nat) (hn : 0 < num) (hlt : start < tEnd) (t : Nat → ℝ)
    (h0 : t 0 ≤ start) (hmono : ∀ k, t k ≤ t (k + 1)) (hstep : ∀ k, t (k + 1) - t k ≤ (tEnd - start) / num) (k : Nat)
    (hs : start ≤ t k) (he : t k ≤ tEnd) :
    ((TimeSlice.init start tEnd num).fires ((List.range (k + 1)).map t)).1.count true =
      ⌊(t k - start) / ((tEnd - start) / num)⌋₊ + 1 := by
  have hN : (0 : ℝ) < num := by exact_mod_cast hn
  have hw : 0 < (tEnd - start) / num := div_pos (sub_pos.2 hlt) hN
  set w := (tEnd - start) / num with hwdef
  set F := fun j => ((TimeSlice.init start tEnd num).fires ((List.range j).map t)).1.count true with hF
  have hstepF : ∀ j, F (j + 1) = F j + if start + F j * w ≤ t j ∧ t j ≤ tEnd then 1 else 0 := by
    intro j
    simp only [hF, List.range_succ, List.map_append, List.map_cons, List.map_nil]
    rw [C25_fires_iff, List.count_append]
    by_cases h : start + ((TimeSlice.init start tEnd num).fires ((List.range j).map t)).1.count true * w ≤ t j ∧ t j ≤ tEnd
    · rw [if_pos h]; rw [hwdef] at h; simp [h]
    · rw [if_neg h]; rw [hwdef] at h; simp only [h, decide_false]; simp
  -- invariant after call j (with t j ≤ tEnd)
  have inv : ∀ j, t j ≤ tEnd → (t j < start ∧ F (j + 1) = 0) ∨
      (start ≤ t j ∧ start + ((F (j + 1) : ℝ) - 1) * w ≤ t j ∧ t j < start + F (j + 1) * w) := by
    intro j
    induction j with
    | zero =>
      intro he
      have F0 : F 0 = 0 := by simp [hF, TimeSlice.fires]
      rw [hstepF, F0]
      rcases h0.lt_or_eq with hl | he0
      · left
        refine ⟨hl, ?_⟩
        rw [if_neg]; push_cast; intro h; linarith [h.1]
      · right
        rw [if_pos ⟨by push_cast; linarith, he⟩]
        push_cast
        exact ⟨he0.ge, by linarith, by linarith⟩
    | succ j ih =>
      intro he
      have hj : t j ≤ tEnd := (hmono j).trans he
      have hd := hstep j
      have hm := hmono j
      rw [hstepF (j + 1)]
      rcases ih hj with ⟨h1, h2⟩ | ⟨h1, h2, h3⟩
      · rw [h2]
        push_cast
        by_cases hs : start ≤ t (j + 1)
        · right
          rw [if_pos ⟨by linarith, he⟩]
          refine ⟨hs, by linarith, by linarith⟩
        · left
          rw [if_neg (fun h => hs (by linarith [h.1]))]
          exact ⟨not_le.1 hs, rfl⟩
      · right
        refine ⟨h1.trans hm, ?_⟩
        by_cases hc : start + (F (j + 1) : ℝ) * w ≤ t (j + 1)
        · rw [if_pos ⟨hc, he⟩]
          push_cast
          constructor
          · linarith
          · have : t (j + 1) ≤ t j + w := by linarith
            linarith
        · rw [if_neg (fun h => hc h.1)]
          push_cast
          constructor <;> linarith
  rcases inv k he with ⟨h1, _⟩ | ⟨_, h2, h3⟩
  · exact absurd hs (not_le.2 h1)
  · change F (k + 1) = _
    have hpos : 0 < F (k + 1) := by
      by_contra h
      have : F (k + 1) = 0 := by omega
      rw [this] at h3; push_cast at h3; linarith
    have hfl : ⌊(t k - start) / w⌋₊ = F (k + 1) - 1 := by
      rw [Nat.floor_eq_iff (div_nonneg (by linarith) hw.le), le_div_iff₀ hw, div_lt_iff₀ hw]
      push_cast [Nat.cast_sub hpos]
      constructor <;> linarith
    omega

/-- If the calls are further apart than a slice, the slice falls behind and then fires on every call, off the grid: with
[0,10] in 10 slices and calls at 0, 5, 5.25, 5.5 all four fire. -/
theorem C25_catches_up : ((TimeSlice.init 0 10 10).fires [0, 5, 5.25, 5.5]).1 = [true, true, true, true] := by
  norm_num [TimeSlice.fires, TimeSlice.init, TimeSlice.call]

/-! ### LogTimeSlice -/

namespace LogTimeSlice
theorem next_ok (s : LogTimeSlice) (hI : 1 < s.interval) (t : ℝ) (o : ℝ) (ho : s.startTime < o) :
    ∃ j : Nat, ∀ fuel, j < fuel → s.next t fuel o = .ok (s.startTime + (o - s.startTime) * s.interval ^ (j + 1)) ∧
      t < s.startTime + (o - s.startTime) * s.interval ^ (j + 1) ∧
      ∀ i, 0 < i → i ≤ j → s.startTime + (o - s.startTime) * s.interval ^ i ≤ t := by
  have hex : ∃ j : Nat, t < s.startTime + (o - s.startTime) * s.interval ^ (j + 1) := by
    obtain ⟨n, hn⟩ := pow_unbounded_of_one_lt ((t - s.startTime) / (o - s.startTime)) hI
    refine ⟨n, ?_⟩
    have hpos : 0 < o - s.startTime := sub_pos.2 ho
    rw [div_lt_iff₀ hpos] at hn
    have h2 : s.interval ^ n ≤ s.interval ^ (n + 1) := pow_le_pow_right₀ hI.le (by omega)
    have := mul_le_mul_of_nonneg_left h2 hpos.le
    linarith
  classical
  have key : ∀ (d i : Nat), (∀ k, i < k → k < i + d + 1 → s.startTime + (o - s.startTime) * s.interval ^ k ≤ t) →
      t < s.startTime + (o - s.startTime) * s.interval ^ (i + d + 1) → ∀ fuel, d < fuel →
      s.next t fuel (s.startTime + (o - s.startTime) * s.interval ^ i) =
        .ok (s.startTime + (o - s.startTime) * s.interval ^ (i + d + 1)) := by
    intro d
    induction d with
    | zero =>
      intro i _ h2 fuel hf
      obtain ⟨fuel, rfl⟩ := Nat.exists_eq_add_of_lt hf
      rw [Nat.zero_add, next]
      have e : (s.startTime + (o - s.startTime) * s.interval ^ i - s.startTime) * s.interval + s.startTime =
          s.startTime + (o - s.startTime) * s.interval ^ (i + 0 + 1) := by rw [Nat.add_zero, pow_succ]; ring
      rw [e, if_neg (not_le.2 h2)]
    | succ d ih =>
      intro i h1 h2 fuel hf
      obtain ⟨fuel, rfl⟩ := Nat.exists_eq_add_of_lt (Nat.zero_lt_of_lt hf)
      rw [Nat.zero_add, next]
      have e : (s.startTime + (o - s.startTime) * s.interval ^ i - s.startTime) * s.interval + s.startTime =
          s.startTime + (o - s.startTime) * s.interval ^ (i + 1) := by rw [pow_succ]; ring
      rw [e, if_pos (h1 (i + 1) (by omega) (by omega))]
      have := ih (i + 1) (fun k hk1 hk2 => h1 k (by omega) (by omega))
        (by rw [show i + 1 + d + 1 = i + (d + 1) + 1 by omega]; exact h2) fuel (by omega)
      rw [this, show i + 1 + d + 1 = i + (d + 1) + 1 by omega]
  refine ⟨Nat.find hex, fun fuel hf => ⟨?_, Nat.find_spec hex, ?_⟩⟩
  · have := key (Nat.find hex) 0 (fun k hk1 hk2 => ?_) (by rw [Nat.zero_add]; exact Nat.find_spec hex) fuel hf
    · rw [Nat.zero_add, pow_zero, mul_one, add_sub_cancel] at this; exact this
    · obtain ⟨k, rfl⟩ := Nat.exists_eq_add_of_lt hk1
      rw [Nat.zero_add] at hk2 ⊢
      exact not_lt.1 (Nat.find_min hex (by omega : k < Nat.find hex))
  · intro i hi1 hi2
    obtain ⟨k, rfl⟩ := Nat.exists_eq_add_of_lt hi1
    rw [Nat.zero_add] at hi2 ⊢
    exact not_lt.1 (Nat.find_min hex (by omega : k < Nat.find hex))

/-- a sequence of calls that all return -/
inductive Calls : LogTimeSlice → List ℝ → List Bool → LogTimeSlice → Prop
  | nil (s : LogTimeSlice) : Calls s [] [] s
  | cons {s s1 s2 : LogTimeSlice} {t : ℝ} {b : Bool} {ts : List ℝ} {bs : List Bool} (fuel : Nat)
      (e : s.call fuel t = .ok (b, s1)) (r : Calls s1 ts bs s2) : Calls s (t :: ts) (b :: bs) s2

/-- the next output is due at grid point number `m` -/
def Due (start tEnd : ℝ) (num : Nat) (m : Nat) (s : LogTimeSlice) : Prop :=
  s.startTime = start ∧ s.endTime = tEnd ∧ s.interval = (tEnd - start) ^ (1 / (num : ℝ)) ∧
    s.optTime = start + ((tEnd - start) ^ (1 / (num : ℝ))) ^ m

theorem width_gt_one {start tEnd : ℝ} {num : Nat} (hn : 0 < num) (hL : 1 < tEnd - start) :
    1 < (tEnd - start) ^ (1 / (num : ℝ)) :=
  Real.one_lt_rpow hL (by positivity)

theorem width_pow {start tEnd : ℝ} {num : Nat} (hn : 0 < num) (hL : 1 < tEnd - start) :
    ((tEnd - start) ^ (1 / (num : ℝ))) ^ num = tEnd - start := by
  rw [← Real.rpow_natCast, ← Real.rpow_mul (by linarith)]
  have : (1 / (num : ℝ)) * num = 1 := by field_simp
  rw [this, Real.rpow_one]

theorem call_due {start tEnd : ℝ} {num m : Nat} (hn : 0 < num) (hL : 1 < tEnd - start) {s : LogTimeSlice}
    (hs : Due start tEnd num m s) (t : ℝ) :
    (¬ (start + ((tEnd - start) ^ (1 / (num : ℝ))) ^ m ≤ t ∧ t ≤ tEnd) ∧ ∀ fuel, s.call fuel t = .ok (false, s)) ∨
    ((start + ((tEnd - start) ^ (1 / (num : ℝ))) ^ m ≤ t ∧ t ≤ tEnd) ∧
      ∃ (f m' : Nat) (s' : LogTimeSlice), m < m' ∧ Due start tEnd num m' s' ∧ t < s'.optTime ∧
        start + ((tEnd - start) ^ (1 / (num : ℝ))) ^ (m' - 1) ≤ t ∧ ∀ fuel, f < fuel → s.call fuel t = .ok (true, s')) := by
  obtain ⟨h1, h2, h3, h4⟩ := hs
  have hI := width_gt_one hn hL
  set I := (tEnd - start) ^ (1 / (num : ℝ)) with hIdef
  by_cases hc : start + I ^ m ≤ t ∧ t ≤ tEnd
  · right
    refine ⟨hc, ?_⟩
    obtain ⟨j, hj⟩ := s.next_ok (by rw [h3]; exact hI) t s.optTime (by rw [h1, h4]; have := pow_pos (by linarith : 0 < I) m; linarith)
    have hpow : ∀ i : Nat, s.startTime + (s.optTime - s.startTime) * s.interval ^ i = start + I ^ (m + i) := by
      intro i; rw [h1, h4, h3, pow_add]; ring
    refine ⟨j, m + (j + 1), { s with optTime := start + I ^ (m + (j + 1)) }, by omega, ⟨h1, h2, h3, rfl⟩, ?_, ?_, ?_⟩
    · have := (hj (j + 1) (by omega)).2.1
      rw [hpow] at this; exact this
    · rw [show m + (j + 1) - 1 = m + j by omega]
      rcases Nat.eq_zero_or_pos j with rfl | hjp
      · exact hc.1
      · have := (hj (j + 1) (by omega)).2.2 j hjp le_rfl
        rw [hpow] at this; exact this
    · intro fuel hf
      unfold call
      rw [if_pos ⟨by rw [h4]; exact hc.1, by rw [h2]; exact hc.2⟩]
      have := (hj fuel hf).1
      rw [hpow] at this
      rw [this]
      rfl
  · left
    refine ⟨hc, fun fuel => ?_⟩
    unfold call
    rw [if_neg (fun h => hc ⟨by rw [← h4]; exact h.1, by rw [← h2]; exact h.2⟩)]

theorem init_due (start tEnd : ℝ) (num : Nat) : Due start tEnd num 1 (init start tEnd num) :=
  ⟨rfl, rfl, rfl, by simp [init]⟩

theorem calls_due {start tEnd : ℝ} {num : Nat} (hn : 0 < num) (hL : 1 < tEnd - start) (ts : List ℝ) :
    ∀ (m : Nat) (s : LogTimeSlice), m ≤ num + 1 → Due start tEnd num m s → ∃ bs s', Calls s ts bs s' ∧
      ∃ m', m + bs.count true ≤ m' ∧ m' ≤ num + 1 ∧ Due start tEnd num m' s' := by
  induction ts with
  | nil => intro m s hm hs; exact ⟨[], s, .nil s, m, by simp, hm, hs⟩
  | cons t ts ih =>
    intro m s hm hs
    rcases call_due hn hL hs t with ⟨_, hc⟩ | ⟨⟨hc1, hc2⟩, f, m', s', hlt, hs', _, hle, hc⟩
    · obtain ⟨bs, s2, hr, m2, h1, h2, h3⟩ := ih m s hm hs
      exact ⟨false :: bs, s2, .cons 0 (hc 0) hr, m2, by simpa using h1, h2, h3⟩
    · have hm' : m' ≤ num + 1 := by
        by_contra hgt
        have hI := width_gt_one hn hL
        have h5 : ((tEnd - start) ^ (1 / (num : ℝ))) ^ num < ((tEnd - start) ^ (1 / (num : ℝ))) ^ (m' - 1) :=
          pow_lt_pow_right₀ hI (by omega)
        rw [width_pow hn hL] at h5
        linarith
      obtain ⟨bs, s2, hr, m2, h1, h2, h3⟩ := ih m' s' hm' hs'
      refine ⟨true :: bs, s2, .cons (f + 1) (hc (f + 1) (by omega)) hr, m2, ?_, h2, h3⟩
      rw [List.count_cons_self]; omega
end LogTimeSlice

/-- A window longer than 1, at least one slice: every sequence of calls terminates, with at most `num` firings in all. -/
theorem C26_terminates (start tEnd : ℝ) (num : Nat) (hn : 0 < num) (hL : 1 < tEnd - start) (ts : List ℝ) :
    ∃ bs s', LogTimeSlice.Calls (LogTimeSlice.init start tEnd num) ts bs s' ∧ bs.count true ≤ num := by
  obtain ⟨bs, s', h, m', h1, h2, _⟩ := LogTimeSlice.calls_due hn hL ts 1 _ (by omega) (LogTimeSlice.init_due start tEnd num)
  exact ⟨bs, s', h, by omega⟩

/-- After any sequence of calls the next output is due at a grid point `start + q^m`, `q = (end-start)^(1/num)`; a call
at `t` fires iff `t` is at or after that point and not after the end, and then the next output is due at the first grid
point after `t`. -/
theorem C26_firing (start tEnd : ℝ) (num : Nat) (hn : 0 < num) (hL : 1 < tEnd - start) (ts : List ℝ) (bs : List Bool)
    (s : LogTimeSlice) (h : LogTimeSlice.Calls (LogTimeSlice.init start tEnd num) ts bs s) (t : ℝ) :
    ∃ m, s.optTime = start + ((tEnd - start) ^ (1 / (num : ℝ))) ^ m ∧
      ∃ f s', (∀ fuel, f < fuel → s.call fuel t = .ok (decide (s.optTime ≤ t ∧ t ≤ tEnd), s')) ∧
        (¬ (s.optTime ≤ t ∧ t ≤ tEnd) → s' = s) ∧
        (s.optTime ≤ t ∧ t ≤ tEnd → t < s'.optTime ∧ ∃ m', s'.optTime = start + ((tEnd - start) ^ (1 / (num : ℝ))) ^ m' ∧
          start + ((tEnd - start) ^ (1 / (num : ℝ))) ^ (m' - 1) ≤ t) := by
  have hdue : ∀ (ts : List ℝ) (bs : List Bool) (s0 s : LogTimeSlice), LogTimeSlice.Calls s0 ts bs s →
      (∃ m, LogTimeSlice.Due start tEnd num m s0) → ∃ m, LogTimeSlice.Due start tEnd num m s := by
    intro ts bs s0 s h
    induction h with
    | nil s => exact id
    | @cons sa sb sc t' b' ts' bs' fuel e r ih =>
      rintro ⟨m, hm⟩
      apply ih
      rcases LogTimeSlice.call_due hn hL hm _ with ⟨_, hc⟩ | ⟨_, f, m', s', _, hs', _, _, hc⟩
      · rw [hc] at e; cases e; exact ⟨m, hm⟩
      · refine ⟨m', ?_⟩
        have hmono : ∀ fuel fuel' o r, fuel ≤ fuel' → sa.next t' fuel o = .ok r → sa.next t' fuel' o = .ok r := by
          intro fuel
          induction fuel with
          | zero => intro fuel' o r _ hh; cases hh
          | succ n ihn =>
            intro fuel' o r hle hh
            obtain ⟨k, rfl⟩ := Nat.exists_eq_add_of_lt (Nat.lt_of_lt_of_le (Nat.succ_pos n) hle)
            rw [Nat.zero_add, LogTimeSlice.next] at *
            split_ifs at hh ⊢
            · exact ihn k _ _ (by omega) hh
            · exact hh
        have e2 : sa.call (max fuel (f + 1)) t' = .ok (b', sb) := by
          unfold LogTimeSlice.call at e ⊢
          split_ifs at e ⊢
          · obtain ⟨o, h1, h2⟩ := Res.bind_eq_ok.1 e
            exact Res.bind_eq_ok.2 ⟨o, hmono _ _ _ _ (le_max_left _ _) h1, h2⟩
          · exact e
        rw [hc _ (lt_of_lt_of_le (Nat.lt_succ_self f) (le_max_right _ _))] at e2
        cases e2
        exact hs'
  obtain ⟨m, hm⟩ := hdue ts bs _ s h ⟨1, LogTimeSlice.init_due start tEnd num⟩
  refine ⟨m, hm.2.2.2, ?_⟩
  rcases LogTimeSlice.call_due hn hL hm t with ⟨hn', hc⟩ | ⟨hy, f, m', s', _, hs', hlt, hle, hc⟩
  · rw [← hm.2.2.2] at hn'
    refine ⟨0, s, fun fuel _ => ?_, fun _ => rfl, fun h => absurd h hn'⟩
    rw [hc]; simp [hn']
  · rw [← hm.2.2.2] at hy
    refine ⟨f, s', fun fuel hf => ?_, fun h => absurd hy h, fun _ => ⟨hlt, m', hs'.2.2.2, hle⟩⟩
    rw [hc fuel hf]; simp [hy]

theorem LogTimeSlice.next_diverges (s : LogTimeSlice) (t : ℝ) (hI : s.interval ≤ 1) (hI0 : 0 ≤ s.interval) (fuel : Nat) :
    ∀ o, s.startTime ≤ o → o ≤ t → s.next t fuel o = .diverge := by
  induction fuel with
  | zero => intros; rfl
  | succ n ih =>
    intro o h1 h2
    rw [LogTimeSlice.next]
    have h3 : (o - s.startTime) * s.interval + s.startTime ≤ o := by nlinarith
    have h4 : s.startTime ≤ (o - s.startTime) * s.interval + s.startTime := by
      have := mul_nonneg (sub_nonneg.2 h1) hI0; linarith
    rw [if_pos (h3.trans h2)]
    exact ih _ h4 (h3.trans h2)

/-- "Every call terminates" is false of the code: for a window of length exactly 1 (any number of slices), and for any
shorter window with one slice, the call at the end time never returns. -/
theorem C26_hangs_on_short_window (start tEnd : ℝ) (num : Nat) (hL0 : 0 < tEnd - start)
    (h : tEnd - start = 1 ∨ (num = 1 ∧ tEnd - start ≤ 1)) (fuel : Nat) :
    (LogTimeSlice.init start tEnd num).call fuel tEnd = .diverge := by
  have hI : (tEnd - start) ^ (1 / (num : ℝ)) ≤ 1 ∧ start + (tEnd - start) ^ (1 / (num : ℝ)) = tEnd := by
    rcases h with h | ⟨rfl, h⟩
    · rw [h, Real.one_rpow]; exact ⟨le_rfl, by linarith⟩
    · simp only [Nat.cast_one, div_one, Real.rpow_one]; exact ⟨h, by ring⟩
  have hp : 0 ≤ (tEnd - start) ^ (1 / (num : ℝ)) := Real.rpow_nonneg hL0.le _
  unfold LogTimeSlice.call
  rw [if_pos ⟨show _ ≤ tEnd from hI.2.le, le_refl tEnd⟩]
  have hd : (LogTimeSlice.init start tEnd num).next tEnd fuel (LogTimeSlice.init start tEnd num).optTime = .diverge :=
    LogTimeSlice.next_diverges (LogTimeSlice.init start tEnd num) tEnd hI.1 hp fuel _
      (show start ≤ start + (tEnd - start) ^ (1 / (num : ℝ)) by linarith)
      (show start + (tEnd - start) ^ (1 / (num : ℝ)) ≤ tEnd from hI.2.le)
  rw [hd]; rfl

/-- ... and a window shorter than 1 with several slices never fires at all. -/
theorem C26_never_fires_on_short_window (start tEnd : ℝ) (num : Nat) (hL0 : 0 < tEnd - start) (hL : tEnd - start < 1)
    (hn : 1 < num) (fuel : Nat) (t : ℝ) :
    (LogTimeSlice.init start tEnd num).call fuel t = .ok (false, LogTimeSlice.init start tEnd num) := by
  have hN : (1 : ℝ) < num := by exact_mod_cast hn
  have h1 : tEnd - start < (tEnd - start) ^ (1 / (num : ℝ)) := by
    have := Real.rpow_lt_rpow_of_exponent_gt hL0 hL (y := 1) (z := 1 / (num : ℝ)) (by rw [div_lt_one (by linarith)]; exact hN)
    rwa [Real.rpow_one] at this
  unfold LogTimeSlice.call
  rw [if_neg]
  rintro ⟨h2, h3⟩
  simp only [LogTimeSlice.init, ge_iff_le] at h2 h3
  linarith

/-- Resetting a slice does not reset its origin: moved to an earlier window (first output before the old start), the next
call that is due never returns. -/
theorem C26_hangs_after_reset (s : LogTimeSlice) (start tEnd : ℝ) (num : Nat) (hn : 0 < num) (hL : 1 < tEnd - start)
    (hold : start + (tEnd - start) ^ (1 / (num : ℝ)) < s.startTime) (t : ℝ)
    (ht : start + (tEnd - start) ^ (1 / (num : ℝ)) ≤ t) (hte : t ≤ tEnd) (fuel : Nat) :
    (s.reset start tEnd num).call fuel t = .diverge := by
  have hI := LogTimeSlice.width_gt_one hn hL
  have key : ∀ (fuel : Nat) (o : ℝ), o < s.startTime → o ≤ t → (s.reset start tEnd num).next t fuel o = .diverge := by
    intro fuel
    induction fuel with
    | zero => intros; rfl
    | succ n ih =>
      intro o h1 h2
      rw [LogTimeSlice.next]
      have h3 : (o - s.startTime) * (tEnd - start) ^ (1 / (num : ℝ)) + s.startTime ≤ o := by nlinarith
      change (o - (s.reset start tEnd num).startTime) * (s.reset start tEnd num).interval +
        (s.reset start tEnd num).startTime ≤ o at h3
      rw [if_pos (h3.trans h2)]
      exact ih _ (lt_of_le_of_lt h3 h1) (h3.trans h2)
  unfold LogTimeSlice.call
  rw [if_pos ⟨ht, hte⟩]
  have := key fuel (s.reset start tEnd num).optTime hold ht
  rw [this]
  rfl

example (fuel : Nat) : ((LogTimeSlice.init 100 200 10).reset 0 16 4).call fuel 2 = .diverge := by
  have e : ((16 : ℝ) - 0) ^ (1 / ((4 : ℕ) : ℝ)) = 2 := by
    have : (16 : ℝ) - 0 = 2 ^ (4 : ℕ) := by norm_num
    rw [this, ← Real.rpow_natCast, ← Real.rpow_mul (by norm_num)]; norm_num
  refine C26_hangs_after_reset _ 0 16 4 (by norm_num) (by norm_num) ?_ 2 ?_ (by norm_num) fuel <;> rw [e] <;>
    norm_num [LogTimeSlice.init]

/-! ### writers -/

/-- what happens to an output file: copy number `i` of the writer is called on a state, or the user puts text -/
inductive Use (S : Type)
  | write (i : Nat) (s : S)
  | put (text : String)

/-- the file and the flags of the copies of a `DefaultWriter` after a sequence of uses, from an empty file -/
def useWriter {S : Type} (us : List (Use S)) : List (Entry S) × (Nat → Bool) :=
  us.foldl (fun x u => match u with
    | .write i s => let r := defaultWrite x.1 (x.2 i) s; (r.1, fun k => if k = i then r.2 else x.2 k)
    | .put text => (x.1 ++ [.raw text], x.2)) ([], fun _ => false)

/-- the entries without headers -/
def body {S : Type} (us : List (Use S)) : List (Entry S) :=
  us.map fun u => match u with | .write _ s => .row s | .put text => .raw text

/-- However many copies of the writer share the file and in whatever order they are called: the file consists of the rows
(and the text put) in call order, preceded by one header line iff the first thing that happened was a call of the writer. -/
theorem C50_header_once {S : Type} (us : List (Use S)) :
    (useWriter us).1 = match us with
      | .write _ _ :: _ => .header :: body us
      | _ => body us := by
  have key : ∀ (us : List (Use S)) (f : List (Entry S)) (g : Nat → Bool), f ≠ [] →
      (us.foldl (fun x u => match u with
        | .write i s => let r := defaultWrite x.1 (x.2 i) s; (r.1, fun k => if k = i then r.2 else x.2 k)
        | .put text => (x.1 ++ [.raw text], x.2)) (f, g)).1 = f ++ body us := by
    intro us
    induction us with
    | nil => intro f g _; simp [body]
    | cons u us ih =>
      intro f g hf
      cases u with
      | write i s =>
        simp only [List.foldl_cons]
        rw [ih]
        · unfold defaultWrite
          split_ifs <;> simp [body]
        · unfold defaultWrite
          split_ifs <;> simp
      | put text =>
        simp only [List.foldl_cons]
        rw [ih _ _ (by simp)]
        simp [body]
  cases us with
  | nil => rfl
  | cons u us =>
    cases u with
    | write i s =>
      unfold useWriter
      simp only [List.foldl_cons]
      rw [key _ _ _ (by simp [defaultWrite])]
      simp [defaultWrite, body]
    | put text =>
      unfold useWriter
      simp only [List.foldl_cons]
      rw [key _ _ _ (by simp)]
      simp [body]

/-- the values written by energy-error writers of one particle-system type, given the energies of the systems they were
called on (in program order, whichever writer or simulation) -/
noncomputable def energyColumn (Es : List ℝ) : List ℝ :=
  (Es.foldl (fun (x : Option ℝ × List ℝ) E => let r := energyWrite x.1 E; (r.1, x.2 ++ [r.2])) (none, [])).2

/-- Every value written in the whole program is relative to the energy of the very first call. -/
theorem C50_energy_reference (E0 : ℝ) (Es : List ℝ) : energyColumn (E0 :: Es) = (E0 :: Es).map (fun E => energyError E E0) := by
  have key : ∀ (Es : List ℝ) (l : List ℝ),
      (Es.foldl (fun (x : Option ℝ × List ℝ) E => let r := energyWrite x.1 E; (r.1, x.2 ++ [r.2])) (some E0, l)) =
        (some E0, l ++ Es.map (fun E => energyError E E0)) := by
    intro Es
    induction Es with
    | nil => intro l; simp
    | cons E Es ih => 
      intro l
      rw [List.foldl_cons]
      have : energyWrite (some E0) E = (some E0, energyError E E0) := rfl
      dsimp only
      rw [this]
      dsimp only
      rw [ih]; simp
  unfold energyColumn
  simp only [List.foldl_cons]
  have : energyWrite none E0 = (some E0, energyError E0 E0) := rfl
  rw [this]
  dsimp only
  rw [key]
  simp

/-- So the claim that an energy-error writer reports errors relative to the first energy of its own simulation is false:
a second simulation with constant energy 2 after a first one with constant energy 1 is reported with the error 1, not 0. -/
theorem C50_second_simulation_wrong : energyColumn [1, 1, 2, 2] = [0, 0, 1, 1] := by
  rw [C50_energy_reference]; norm_num [energyError]

/-- Correct for the first simulation of the program (`energyColumn` of its own energies). -/
theorem C50_first_simulation (E0 : ℝ) (Es later : List ℝ) :
    energyColumn ((E0 :: Es) ++ later) = (E0 :: Es).map (fun E => |(E - E0) / E0|) ++
      later.map (fun E => |(E - E0) / E0|) := by
  rw [List.cons_append, C50_energy_reference, ← List.cons_append, List.map_append]; rfl

/-! ### StickyCollision -/

theorem collideInner_iff (pos : Arr (V3 ℝ)) (r : Arr ℝ) (num i : Nat) (k j : Nat) (hk : num ≤ j + k) :
    collideInner pos r num i k j = true ↔ ∃ l, j ≤ l ∧ l < num ∧ Real.sqrt ((pos i - pos l).x * (pos i - pos l).x +
      (pos i - pos l).y * (pos i - pos l).y + (pos i - pos l).z * (pos i - pos l).z) ≤ r i + r l := by
  induction k generalizing j with
  | zero =>
    rw [collideInner]
    simp only [Bool.false_eq_true, false_iff]
    rintro ⟨l, h1, h2, _⟩
    omega
  | succ k ih =>
    rw [collideInner]
    by_cases hj : j < num
    · rw [if_pos hj]
      dsimp only
      split_ifs with hc
      · exact ⟨fun _ => ⟨j, le_rfl, hj, hc⟩, fun _ => rfl⟩
      · rw [ih (j + 1) (by omega)]
        constructor
        · rintro ⟨l, h1, h2, h3⟩; exact ⟨l, by omega, h2, h3⟩
        · rintro ⟨l, h1, h2, h3⟩
          refine ⟨l, ?_, h2, h3⟩
          rcases Nat.eq_or_lt_of_le h1 with rfl | h
          · exact absurd h3 hc
          · exact h
    · rw [if_neg hj]
      simp only [Bool.false_eq_true, false_iff]
      rintro ⟨l, h1, h2, _⟩
      omega

/-- A collision is reported iff two different particles are no further apart than the sum of their radii. -/
theorem C57_sticky_collision (pos : Arr (V3 ℝ)) (r : Arr ℝ) (num : Nat) :
    stickyCollision pos r num = true ↔ ∃ i j, i < num ∧ j < num ∧ i ≠ j ∧
      Real.sqrt (((pos i).x - (pos j).x) ^ 2 + ((pos i).y - (pos j).y) ^ 2 + ((pos i).z - (pos j).z) ^ 2) ≤ r i + r j := by
  have houter : ∀ k i, num ≤ i + k → (collideOuter pos r num k i = true ↔ ∃ a b, i ≤ a ∧ a < b ∧ b < num ∧
      Real.sqrt (((pos a).x - (pos b).x) ^ 2 + ((pos a).y - (pos b).y) ^ 2 + ((pos a).z - (pos b).z) ^ 2) ≤ r a + r b) := by
    intro k
    induction k with
    | zero =>
      intro i hk
      rw [collideOuter]
      simp only [Bool.false_eq_true, false_iff]
      rintro ⟨a, b, h1, h2, h3, _⟩
      omega
    | succ k ih =>
      intro i hk
      rw [collideOuter]
      by_cases hi : i < num
      · rw [if_pos hi]
        have hin := collideInner_iff pos r num i num (i + 1) (by omega)
        by_cases hc : collideInner pos r num i num (i + 1) = true
        · rw [if_pos hc]
          refine ⟨fun _ => ?_, fun _ => rfl⟩
          obtain ⟨l, h1, h2, h3⟩ := hin.1 hc
          exact ⟨i, l, le_rfl, by omega, h2, by simpa [sq] using h3⟩
        · rw [if_neg hc, ih (i + 1) (by omega)]
          constructor
          · rintro ⟨a, b, h1, h2⟩; exact ⟨a, b, by omega, h2⟩
          · rintro ⟨a, b, h1, h2, h3, h4⟩
            refine ⟨a, b, ?_, h2, h3, h4⟩
            rcases Nat.eq_or_lt_of_le h1 with rfl | h
            · exact absurd (hin.2 ⟨b, by omega, h3, by simpa [sq] using h4⟩) hc
            · exact h
      · rw [if_neg hi]
        simp only [Bool.false_eq_true, false_iff]
        rintro ⟨a, b, h1, h2, h3, _⟩
        omega
  unfold stickyCollision
  rw [houter num 0 (by omega)]
  constructor
  · rintro ⟨a, b, _, h2, h3, h4⟩; exact ⟨a, b, by omega, h3, by omega, h4⟩
  · rintro ⟨i, j, h1, h2, h3, h4⟩
    rcases Nat.lt_or_gt_of_ne h3 with h | h
    · exact ⟨i, j, by omega, h, h2, h4⟩
    · refine ⟨j, i, by omega, h, h1, ?_⟩
      rw [add_comm (r j)]
      convert h4 using 2
      ring

end SpaceHub.Callbacks
