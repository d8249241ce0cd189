import Verif.Proof.BSSystems
import Verif.Props.Systems
import Verif.Props.Time

/-
C27-C30: the Bulirsch-Stoer iterator.
-/

set_option autoImplicit false

namespace SpaceHub.BS
open SpaceHub SpaceHub.Sys V3 Force Core Integrator Spec

/-! ### C27: extrapolation -/

/-- The table while the results `y 0`, `y 1`, ... arrive: `y 0` is put in row 0; every later `y k` is put in row `k` and
`extrapolate(k)` is called (Bulirsch-Stoer.hpp:317-330).  `n` is the number of variables. -/
noncomputable def fillTable (D n : Nat) (y : Nat → Arr ℝ) : Nat → (Nat → Arr ℝ)
  | 0 => fun r => if r = 0 then y 0 else fun _ => 0
  | k + 1 => extrapolate D n (k + 1) (fun r => if r = k + 1 then y (k + 1) else fillTable D n y k r)

theorem fillTable_spec (D n : Nat) (y : Nat → Arr ℝ) (k : Nat) (hk : k ≤ D) (i : Nat) (hi : i < n) :
    ∀ r, r ≤ k → fillTable D n y k r i = zeroStep (hSeq D) (fun m => y m i) r k := by
  induction k with
  | zero =>
    intro r hr
    obtain rfl : r = 0 := by omega
    rw [zeroStep_self]; rfl
  | succ k ih =>
    refine extrapolate_spec hk hi (fun m => y m i) _ (by simp) (fun r hr => ?_)
    rw [if_neg (by omega), Nat.add_sub_cancel]
    exact ih (by omega) r (by omega)

/-- Row 0 of the table is the polynomial through all results so far, in the square of the sub-step length, evaluated at
0; row 1 is the same without the first result.  For every depth of the table, tabulated and arithmetic sequence. -/
theorem C27_extrapolation (D n : Nat) (y : Nat → Arr ℝ) (k : Nat) (hk : k ≤ D) (i : Nat) (hi : i < n) :
    fillTable D n y k 0 i = zeroStep (hSeq D) (fun m => y m i) 0 k ∧
      (1 ≤ k → fillTable D n y k 1 i = zeroStep (hSeq D) (fun m => y m i) 1 k) :=
  ⟨fillTable_spec D n y k hk i hi 0 (Nat.zero_le _), fun h => fillTable_spec D n y k hk i hi 1 h⟩

/-- If the result with `n_m` sub-steps is a polynomial of degree at most `k` in `(h / n_m)²`, the extrapolation of the
results number 0 to `k` is exactly its value at sub-step length 0. -/
theorem C27_exact (D n : Nat) (y : Nat → Arr ℝ) (k : Nat) (hk : k ≤ D) (i : Nat) (hi : i < n) (h : ℝ) (q : Polynomial ℝ)
    (hq : q.natDegree ≤ k) (hy : ∀ m, m ≤ k → y m i = q.eval ((h / hSeq D m) ^ 2)) :
    fillTable D n y k 0 i = q.eval 0 := by
  rw [(C27_extrapolation D n y k hk i hi).1]
  have h1 := zeroStep_poly hk (q.comp (Polynomial.C (h ^ 2) * Polynomial.X)) (by
    refine le_trans Polynomial.natDegree_comp_le ?_
    calc q.natDegree * (Polynomial.C (h ^ 2) * Polynomial.X).natDegree ≤ q.natDegree * 1 :=
          Nat.mul_le_mul_left _ (by compute_degree)
      _ ≤ k := by omega)
  rw [Polynomial.eval_comp] at h1
  simp only [Polynomial.eval_mul, Polynomial.eval_C, Polynomial.eval_X, mul_zero] at h1
  rw [← h1]
  refine zeroStep_congr (fun m _ hm => ?_)
  rw [hy m hm, Polynomial.eval_comp]
  simp only [Polynomial.eval_mul, Polynomial.eval_C, Polynomial.eval_X]
  congr 1
  rw [div_pow]; ring

/-- Concretely: with sub-steps 1, 2, 3 and results 5 + 2x - x² in x = (1/n)², the third column gives 5. -/
example : fillTable 7 1 (fun m _ => 5 + 2 * (1 / (hSeq 7 m : ℝ)) ^ 2 - (1 / (hSeq 7 m : ℝ)) ^ 4) 2 0 0 = 5 := by
  have h := C27_exact 7 1 (fun m _ => 5 + 2 * (1 / (hSeq 7 m : ℝ)) ^ 2 - (1 / (hSeq 7 m : ℝ)) ^ 4) 2 (by norm_num) 0
    (by norm_num) 1 (Polynomial.C 5 + Polynomial.C 2 * Polynomial.X + Polynomial.C (-1) * Polynomial.X ^ 2)
    (by compute_degree) (fun m _ => by
      simp only [Polynomial.eval_add, Polynomial.eval_mul, Polynomial.eval_C, Polynomial.eval_X, Polynomial.eval_pow]
      ring)
  rw [h]
  simp

/-! ### C28: the tables -/

section
variable {F : Type} [Arith F] {S : Type}

/-- Successive calls of `iterate`, each with its own step and on any system. -/
def calls (O : IterSys S F) (p : Params F) : List (F × S) → State F → Res (State F)
  | [], c => .ok c
  | hs :: l, c => do
    let r ← iterate O p hs.1 c hs.2
    calls O p l r.2.2

/-- The first call of a fresh iterator stays inside the tables, whatever the arithmetic, the errors and the steps; it
leaves a target order between 1 and `max_depth`. -/
theorem C28_first_call (O : IterSys S F) (p : Params F) (hD : 1 ≤ p.maxDepth) (hr : ∀ s y, O.read s y ≠ .ub)
    (hi : ∀ h n s, O.integrate h n s ≠ .ub) (h : F) (s : S) :
    iterate O p h (State.init p.maxDepth) s ≠ .ub ∧
      ∀ s' h' c', iterate O p h (State.init p.maxDepth) s = .ok (s', h', c') →
        c'.first = false ∧ 1 ≤ c'.rank ∧ c'.rank ≤ p.maxDepth := by
  have := attempts_first O p (O.write s) hr hi 100 h (State.init p.maxDepth) (O.collect true s) rfl
    (by show p.maxDepth - 1 + 1 ≤ p.maxDepth; omega)
  exact ⟨this.1, fun s' h' c' e => this.2 _ e⟩

/-- Every later call stays inside the tables and keeps the target order between 1 and `max_depth - 1` - provided it was
at most `max_depth - 1` after the first call.  Once the order is at least 2 it stays so.
Missing for the full C28: the first call may leave `max_depth` (see `C28_leaves_its_tables`). -/
theorem C28_later_calls_partial (O : IterSys S F) (p : Params F) (hD : 3 ≤ p.maxDepth) (hr : ∀ s y, O.read s y ≠ .ub)
    (hi : ∀ h n s, O.integrate h n s ≠ .ub) (c : State F) (hf : c.first = false) (h1 : 1 ≤ c.rank)
    (h2 : c.rank ≤ p.maxDepth - 1) (l : List (F × S)) :
    calls O p l c ≠ .ub ∧ ∀ c', calls O p l c = .ok c' →
      c'.first = false ∧ 1 ≤ c'.rank ∧ c'.rank ≤ p.maxDepth - 1 ∧ (2 ≤ c.rank → 2 ≤ c'.rank) := by
  suffices H : ∀ c : State F, Later p.maxDepth c → Safe (calls O p l c)
      (fun c' => Later p.maxDepth c' ∧ (2 ≤ c.rank → 2 ≤ c'.rank)) by
    obtain ⟨a, b⟩ := H c ⟨hf, h1, h2⟩
    exact ⟨a, fun c' e => ⟨(b c' e).1.1, (b c' e).1.2.1, (b c' e).1.2.2, (b c' e).2⟩⟩
  induction l with
  | nil => intro c hc; exact Safe.ok ⟨hc, id⟩
  | cons x l ih =>
    intro c hc
    unfold calls
    refine Safe.bind (attempts_later O p (O.write x.2) hD hr hi 100 x.1 c (O.collect true x.2) hc) (fun r h _ => ?_)
    exact Safe.mono (ih _ h.1) (fun c' h' => ⟨h'.1, fun h2 => h'.2 (h.2 h2)⟩)

/-- A whole history of a fresh iterator: no call leaves the tables if the first step was accepted before the last column. -/
theorem C28_history_partial (O : IterSys S F) (p : Params F) (hD : 3 ≤ p.maxDepth) (hr : ∀ s y, O.read s y ≠ .ub)
    (hi : ∀ h n s, O.integrate h n s ≠ .ub) (x : F × S) (l : List (F × S))
    (hfirst : ∀ r, iterate O p x.1 (State.init p.maxDepth) x.2 = .ok r → r.2.2.rank ≠ p.maxDepth) :
    calls O p (x :: l) (State.init p.maxDepth) ≠ .ub ∧
      ∀ c', calls O p (x :: l) (State.init p.maxDepth) = .ok c' → 1 ≤ c'.rank ∧ c'.rank ≤ p.maxDepth - 1 := by
  obtain ⟨a, b⟩ := C28_first_call O p (by omega) hr hi x.1 x.2
  have : Safe (calls O p (x :: l) (State.init p.maxDepth)) (fun c' => 1 ≤ c'.rank ∧ c'.rank ≤ p.maxDepth - 1) := by
    show Safe (iterate O p x.1 (State.init p.maxDepth) x.2 >>= fun r => calls O p l r.2.2) _
    refine Safe.bind (p := fun r => r.2.2.first = false ∧ 1 ≤ r.2.2.rank ∧ r.2.2.rank ≤ p.maxDepth)
      ⟨a, fun r e => b _ _ _ e⟩ (fun r hr' e => ?_)
    obtain ⟨c1, c2⟩ := C28_later_calls_partial O p hD hr hi r.2.2 hr'.1 hr'.2.1
      (by have := hfirst r e; omega) l
    exact ⟨c1, fun c' e' => ⟨(c2 c' e').2.1, (c2 c' e').2.2.1⟩⟩
  exact this
end

/-- The assumptions on the system hold for the plain system. -/
theorem C28_simple_system (I : Interactions) (kdk : Bool) :
    (∀ s y, (simpleSys I kdk).read s y ≠ .ub) ∧ ∀ h n s, (simpleSys I kdk).integrate h n s ≠ .ub := by
  constructor
  · intro s y
    show s.read I y ≠ .ub
    by_cases hy : y.length = s.variableNumber I
    · obtain ⟨t, ht, _⟩ := C13_simple_write_read I s y hy
      rw [ht]; exact fun h => by cases h
    · rw [C13_simple_abort I s y hy]; exact fun h => by cases h
  · intro h n s
    show (simpleOps I).run _ s ≠ .ub
    obtain ⟨t, ht, _⟩ := C17_simple_time I (if kdk then substepsKDK h n else substepsDKD h n) s
    rw [ht]; exact fun h => by cases h

/-- One variable with derivative such that `n` sub-steps over a step `h` give the increment `h (1 + 10^30 (h / n)^12)`
(the error of every method of even order is such a polynomial in `(h / n)²`, here of degree 6). -/
def toySys : IterSys (ℚ × ℚ) ℚ where
  write := fun s => [s.1]
  read := fun s y => match y with
    | [x] => .ok (x, s.2)
    | _ => .abort
  collect := fun _ s => s
  clear := fun s => (s.1, 0)
  inc := fun s _ => s.2
  integrate := fun h n s => .ok (s.1 + h * (1 + 10 ^ 30 * (h / n) ^ 12), s.2 + h * (1 + 10 ^ 30 * (h / n) ^ 12))

/-- Default depth 7; absolute tolerance `10^-6`; a controller that keeps the step. -/
def toyParams : Params ℚ where
  maxDepth := 7
  kdk := false
  err := fun _ y1 y0 => |y1 0 - y0 0| / 10⁻¹ ^ 6
  next := fun _ _ => 1
  limiter := fun _ _ => 1

def isUb {α : Type} : Res α → Bool
  | .ub => true
  | _ => false

theorem eq_ub {α : Type} {r : Res α} (h : isUb r = true) : r = .ub := by cases r <;> first | rfl | cases h

/-- The iterator does leave its tables: here the first step converges in the last column (7 = `max_depth`), the target
order becomes 7 and the second call, of the same step on the same system, reads the number of sub-steps of column 8. -/
theorem C28_leaves_its_tables :
    (∃ c, calls toySys toyParams [(1, (0, 0))] (State.init 7) = .ok c ∧ c.rank = 7) ∧
      calls toySys toyParams [(1, (0, 0)), (1, (0, 0))] (State.init 7) = .ub := by
  constructor
  · have h : (match calls toySys toyParams [(1, (0, 0))] (State.init 7) with
        | .ok c => c.rank == 7
        | _ => false) = true := by decide +kernel
    cases e : calls toySys toyParams [(1, (0, 0))] (State.init 7) with
    | ok c => rw [e] at h; exact ⟨c, rfl, by simpa using h⟩
    | ub => rw [e] at h; cases h
    | abort => rw [e] at h; cases h
    | nan => rw [e] at h; cases h
    | diverge => rw [e] at h; cases h
  · exact eq_ub (by decide +kernel)

/-! ### C29: accepted steps -/

theorem extrapolated_of_lawful {S : Type} {O : IterSys S ℝ} {s : S} {frame same : S → S → Prop} {sync : S → Bool}
    (L : Lawful O s frame same sync) (p : Params ℝ) (h : ℝ) (c c' : State ℝ) (s' : S) (h' : ℝ)
    (e : iterate O p h c s = .ok (s', h', c')) :
    ∃ hAcc, Retried p h hAcc ∧ ExtrapolatedStep (hSeq p.maxDepth) p.maxDepth O.write O.integrate same p.err hAcc s s' ∧
      frame s s' ∧ sync s' = false ∧ ∃ order ratio, h' = hAcc * p.limiter order ratio := by
  obtain ⟨hAcc, k, start, row, T0, T1, hret, hk1, hkD, hrow, hT, herr, hw, hf, hs, hl⟩ := iterate_lawful L p h c c' s' h' e
  refine ⟨hAcc, hret, ⟨k, start, row, T0, T1, hk1, hkD, fun m hm => ⟨(hrow m hm).1, (hrow m hm).2.2⟩, fun i hi => ⟨?_, ?_, ?_⟩,
    herr⟩, hf, hs, hl⟩
  · rw [hw i hi, (hT i hi).1]
  · rw [hw i hi]; ring
  · rw [← (hT i hi).2]; ring

/-- Plain system: a call that returns has replaced every variable by the extrapolated value of runs that all started
from the initial state, with an error estimate of at most 1.  `hAcc` is the accepted step: the given one times limiter
values, one for each rejection.  Number and masses of the particles are kept, the collection of increments is off. -/
theorem C29_simple (I : Interactions) (kdk : Bool) (p : Params ℝ) (h : ℝ) (c c' : State ℝ) (s s' : Simple) (h' : ℝ)
    (e : iterate (simpleSys I kdk) p h c s = .ok (s', h', c')) :
    ∃ hAcc, Retried p h hAcc ∧
      ExtrapolatedStep (hSeq p.maxDepth) p.maxDepth (Simple.write I)
        (fun h n => (simpleOps I).run (if kdk then substepsKDK h n else substepsDKD h n)) (SameSimple I) p.err hAcc s s' ∧
      (s'.P.num = s.P.num ∧ s'.P.mass = s.P.mass) ∧ s'.sync = false ∧ ∃ order ratio, h' = hAcc * p.limiter order ratio :=
  extrapolated_of_lawful (simple_lawful I kdk s) p h c c' s' h' e

/-- Regularised system. -/
theorem C29_regularized (G : ℝ) (type : ReguType) (I : Interactions) (kdk : Bool) (p : Params ℝ) (h : ℝ) (c c' : State ℝ)
    (s s' : ReguSys) (h' : ℝ) (e : iterate (reguSys G type I kdk) p h c s = .ok (s', h', c')) :
    ∃ hAcc, Retried p h hAcc ∧
      ExtrapolatedStep (hSeq p.maxDepth) p.maxDepth (ReguSys.write I)
        (fun h n => (reguOps G type I).run (if kdk then substepsKDK h n else substepsDKD h n)) (SameRegu I) p.err hAcc s s' ∧
      (s'.P.num = s.P.num ∧ s'.P.mass = s.P.mass) ∧ s'.sync = false ∧ ∃ order ratio, h' = hAcc * p.limiter order ratio :=
  extrapolated_of_lawful (regu_lawful G type I kdk s) p h c c' s' h' e

/-- Chain system, from a state in which Cartesian and chain coordinates belong together. -/
theorem C29_chain (I : ChainInteractions) (kdk : Bool) (p : Params ℝ) (h : ℝ) (c c' : State ℝ) (s s' : ChainSys) (h' : ℝ)
    (hc : ChainConsistent I.velDep s.P.num s.index s.cpos s.cvel s.caux s.P.pos s.P.vel s.aux)
    (e : iterate (chainSys I kdk) p h c s = .ok (s', h', c')) :
    ∃ hAcc, Retried p h hAcc ∧
      ExtrapolatedStep (hSeq p.maxDepth) p.maxDepth (ChainSys.write I)
        (fun h n => (chainOps I).run (if kdk then substepsKDK h n else substepsDKD h n)) (SameChain I) p.err hAcc s s' ∧
      (s'.P.num = s.P.num ∧ s'.P.mass = s.P.mass ∧ s'.index = s.index) ∧ s'.sync = false ∧
      ∃ order ratio, h' = hAcc * p.limiter order ratio :=
  extrapolated_of_lawful (chain_lawful I kdk s hc) p h c c' s' h' e

/-- AR-chain system, from a state in which Cartesian and chain coordinates belong together. -/
theorem C29_archain (G : ℝ) (type : ReguType) (I : ChainInteractions) (kdk : Bool) (p : Params ℝ) (h : ℝ) (c c' : State ℝ)
    (s s' : ARSys) (h' : ℝ)
    (hc : ChainConsistent I.velDep s.P.num s.index s.cpos s.cvel s.caux s.P.pos s.P.vel s.aux)
    (e : iterate (archainSys G type I kdk) p h c s = .ok (s', h', c')) :
    ∃ hAcc, Retried p h hAcc ∧
      ExtrapolatedStep (hSeq p.maxDepth) p.maxDepth (ARSys.write I)
        (fun h n => (arOps G type I).run (if kdk then substepsKDK h n else substepsDKD h n)) (SameAR I) p.err hAcc s s' ∧
      (s'.P.num = s.P.num ∧ s'.P.mass = s.P.mass ∧ s'.index = s.index) ∧ s'.sync = false ∧
      ∃ order ratio, h' = hAcc * p.limiter order ratio :=
  extrapolated_of_lawful (ar_lawful G type I kdk s hc) p h c c' s' h' e

theorem run_simple_ok (I : Interactions) (kdk : Bool) (h : ℝ) (n : Nat) (s : Simple) :
    ∃ s', (simpleSys I kdk).integrate h n s = .ok s' :=
  let ⟨t, ht, _⟩ := C17_simple_time I (if kdk then substepsKDK h n else substepsDKD h n) s
  ⟨t, ht⟩

theorem read_simple_ok (I : Interactions) (kdk : Bool) (s : Simple) (y : List ℝ) (hy : y.length = s.variableNumber I) :
    ∃ s', (simpleSys I kdk).read s y = .ok s' :=
  let ⟨t, ht, _⟩ := C13_simple_write_read I s y hy
  ⟨t, ht⟩

/-- The hypotheses of `C29_simple` are met: when the error estimate is never above 1, a fresh iterator returns. -/
theorem C29_returns (I : Interactions) (kdk : Bool) (p : Params ℝ) (hD : 1 ≤ p.maxDepth) (hp : ∀ a b c, p.err a b c ≤ 1)
    (h : ℝ) (s : Simple) : ∃ s' h' c', iterate (simpleSys I kdk) p h (State.init p.maxDepth) s = .ok (s', h', c') := by
  have hv : ∀ {x y : Simple}, Simple.Frame x y → (x.write I).length = y.variableNumber I := by
    intro x y f; rw [C13_simple_size]; unfold Simple.variableNumber; rw [f.1]
  set O := simpleSys I kdk with hO
  set s0 := O.clear (O.collect true s) with hs0
  obtain ⟨s1, e1⟩ := run_simple_ok I kdk h (hSeq p.maxDepth 0) s0
  have f1 : Simple.Frame s s1 := Simple.run_frame I _ s0 s1 e1
  obtain ⟨s2, e2⟩ := read_simple_ok I kdk s1 (s.write I) (hv f1)
  have f2 : Simple.Frame s s2 := f1.trans (Simple.read_frame I _ _ _ e2).1
  obtain ⟨s3, e3⟩ := run_simple_ok I kdk h (hSeq p.maxDepth 1) (O.clear s2)
  have f3 : Simple.Frame s s3 := f2.trans (Simple.run_frame I _ (O.clear s2) s3 e3)
  have hread : ∀ d : Arr ℝ, ∃ s4, O.read s3 (arrayAdvance (s.write I) d) = .ok s4 := fun d =>
    read_simple_ok I kdk s3 _ (by unfold arrayAdvance; rw [List.length_mapIdx]; exact hv f3)
  have hle : ∀ a b c, (Arith.le (p.err a b c) (Arith.ofRat 1 : ℝ)) = true := fun a b c => by
    show decide (p.err a b c ≤ ((1 : ℚ) : ℝ)) = true
    simpa using hp a b c
  have hset : ∀ c : State ℝ, c.first = true → ∃ r, setNextIteration p c 1 = .ok r := fun c hc => by
    unfold setNextIteration
    rw [if_neg (by rw [hc]; simp)]
    unfold chk
    rw [if_pos hD]
    exact ⟨_, rfl⟩
  unfold iterate
  rw [show (100 : Nat) = 99 + 1 from rfl, attempts]
  dsimp only
  rw [show O.integrate h (hSeq p.maxDepth 0) (O.clear (O.collect true s)) = .ok s1 from e1, Res.ok_bind]
  generalize hc1 : ({ (State.init p.maxDepth : State ℝ) with iterNum := _, rows := _ } : State ℝ) = c1
  have hfirst : c1.first = true := by rw [← hc1]; rfl
  generalize c1.rank = m
  rw [columns, show O.write s = s.write I from rfl, show O.read s1 (s.write I) = .ok s2 from e2, Res.ok_bind]
  have hck : chk p.maxDepth 1 = .ok () := by unfold chk; rw [if_pos hD]
  dsimp only
  rw [hck, Res.ok_bind, show O.integrate h (hSeq p.maxDepth 1) (O.clear s2) = .ok s3 from e3, Res.ok_bind]
  generalize hce : evalColumn p _ h _ 1 = ce
  have hcf : ce.1.first = true := by rw [← hce]; exact hfirst
  have hce2 : Arith.le ce.2 (Arith.ofRat 1 : ℝ) = true := by rw [← hce]; exact hle _ _ _
  rw [if_pos (by unfold inWindow; rw [hcf]; simp), if_pos hce2]
  obtain ⟨s4, e4⟩ := hread (ce.1.rows 0)
  obtain ⟨r, e5⟩ := hset { ce.1 with reject := false } hcf
  rw [e4, Res.ok_bind, e5]
  exact ⟨_, _, _, rfl⟩

section
variable {F : Type} [Arith F] {S : Type}

/-- returned, aborted or undefined: no other outcome -/
def NoNan {α : Type} (r : Res α) : Prop := r ≠ .nan ∧ r ≠ .diverge

theorem NoNan.bind {α β : Type} {r : Res α} {f : α → Res β} (h1 : NoNan r) (h2 : ∀ x, NoNan (f x)) : NoNan (r >>= f) := by
  cases r with
  | ok a => exact h2 a
  | ub => exact ⟨fun h => (by cases h), fun h => (by cases h)⟩
  | abort => exact ⟨fun h => (by cases h), fun h => (by cases h)⟩
  | nan => exact absurd rfl h1.1
  | diverge => exact absurd rfl h1.2

theorem NoNan.ok {α : Type} (a : α) : NoNan (Res.ok a) := ⟨fun h => (by cases h), fun h => (by cases h)⟩
theorem NoNan.abort {α : Type} : NoNan (Res.abort : Res α) := ⟨fun h => (by cases h), fun h => (by cases h)⟩
theorem NoNan.chk (D k : Nat) : NoNan (chk D k) := by unfold BS.chk; split_ifs <;> exact ⟨fun h => (by cases h), fun h => (by cases h)⟩

theorem nextStepLen_noNan (p : Params F) (c : State F) (a b : Nat) : NoNan (nextStepLen p c a b) := by
  unfold nextStepLen
  split_ifs
  · exact (NoNan.chk _ _).bind fun _ => NoNan.ok _
  · exact (NoNan.chk _ _).bind fun _ => (NoNan.chk _ _).bind fun _ => NoNan.ok _
  · exact NoNan.abort

theorem setNextIteration_noNan (p : Params F) (c : State F) (k : Nat) : NoNan (setNextIteration p c k) := by
  unfold setNextIteration
  by_cases h1 : (!c.first) = true
  · rw [if_pos h1]
    by_cases h2 : k + 1 = c.rank ∨ k = c.rank
    · rw [if_pos h2]
      refine (NoNan.chk _ _).bind fun _ => (NoNan.chk _ _).bind fun _ => ?_
      split_ifs <;> exact (nextStepLen_noNan _ _ _ _).bind fun _ => NoNan.ok _
    · rw [if_neg h2]
      by_cases h3 : k = c.rank + 1
      · rw [if_pos h3]
        exact (NoNan.chk _ _).bind fun _ => (NoNan.chk _ _).bind fun _ => (nextStepLen_noNan _ _ _ _).bind fun _ => NoNan.ok _
      · rw [if_neg h3]; exact NoNan.abort
  · rw [if_neg h1]
    exact (NoNan.chk _ _).bind fun _ => NoNan.ok _

theorem isDiverged_noNan (p : Params F) (c : State F) (e : F) (k : Nat) : NoNan (isDiverged p c e k) := by
  unfold isDiverged
  split_ifs
  · exact (NoNan.chk _ _).bind fun _ => (NoNan.chk _ _).bind fun _ => NoNan.ok _
  · exact (NoNan.chk _ _).bind fun _ => NoNan.ok _
  · exact NoNan.ok _
  · exact NoNan.ok _

theorem columns_noNan (O : IterSys S F) (p : Params F) (input : List F) (h : F) (hr : ∀ s y, NoNan (O.read s y))
    (hi : ∀ h n s, NoNan (O.integrate h n s)) (m : Nat) : ∀ k c s, NoNan (columns O p input h m k c s) := by
  induction m with
  | zero => intro k c s; exact NoNan.ok _
  | succ m ih =>
    intro k c s
    unfold columns
    refine (hr _ _).bind fun s => (NoNan.chk _ _).bind fun _ => (hi _ _ _).bind fun s => ?_
    dsimp only
    generalize evalColumn p input h _ k = ce
    by_cases h1 : inWindow ce.1 k = true
    · rw [if_pos h1]
      by_cases h2 : Arith.le ce.2 (Arith.ofRat 1) = true
      · rw [if_pos h2]
        exact (hr _ _).bind fun s => (setNextIteration_noNan _ _ _).bind fun _ => NoNan.ok _
      · rw [if_neg h2]
        refine (isDiverged_noNan _ _ _ _).bind fun d => ?_
        by_cases h3 : d = true
        · rw [if_pos h3]; exact (setNextIteration_noNan _ _ _).bind fun _ => NoNan.ok _
        · rw [if_neg h3]; exact ih _ _ _
    · rw [if_neg h1]; exact ih _ _ _

theorem attempts_noNan (O : IterSys S F) (p : Params F) (input : List F) (hr : ∀ s y, NoNan (O.read s y))
    (hi : ∀ h n s, NoNan (O.integrate h n s)) (tries : Nat) : ∀ h c s, NoNan (attempts O p input tries h c s) := by
  induction tries with
  | zero => intro h c s; exact NoNan.abort
  | succ tries ih =>
    intro h c s
    unfold attempts
    refine (hi _ _ _).bind fun s => (columns_noNan O p input h hr hi _ _ _ _).bind fun e => ?_
    cases e with
    | accept s h c => exact NoNan.ok _
    | reject s h c => exact (hr _ _).bind fun s => ih _ _ _
    | exhausted s c => exact (hr _ _).bind fun s => ih _ _ _
end

/-- A call on a plain system, by a fresh iterator or by one whose target order is between 1 and `max_depth - 1`, returns
(as in `C29_simple`) or aborts the program: nothing else can happen. -/
theorem C29_returns_or_aborts (I : Interactions) (kdk : Bool) (p : Params ℝ) (h : ℝ) (c : State ℝ) (s : Simple)
    (hD : 3 ≤ p.maxDepth)
    (hc : c = State.init p.maxDepth ∨ c.first = false ∧ 1 ≤ c.rank ∧ c.rank ≤ p.maxDepth - 1) :
    (∃ r, iterate (simpleSys I kdk) p h c s = .ok r) ∨ iterate (simpleSys I kdk) p h c s = .abort := by
  obtain ⟨hr, hi⟩ := C28_simple_system I kdk
  have hub : iterate (simpleSys I kdk) p h c s ≠ .ub := by
    rcases hc with rfl | ⟨h1, h2, h3⟩
    · exact (C28_first_call _ p (by omega) hr hi h s).1
    · exact (attempts_later _ p _ hD hr hi 100 h c _ ⟨h1, h2, h3⟩).1
  have hnn : NoNan (iterate (simpleSys I kdk) p h c s) := by
    refine attempts_noNan _ p _ (fun s y => ?_) (fun h n s => ?_) 100 h c _
    · by_cases hy : y.length = s.variableNumber I
      · obtain ⟨t, ht⟩ := read_simple_ok I kdk s y hy
        rw [ht]; exact NoNan.ok _
      · rw [show (simpleSys I kdk).read s y = .abort from C13_simple_abort I s y hy]; exact NoNan.abort
    · obtain ⟨t, ht⟩ := run_simple_ok I kdk h n s
      rw [ht]; exact NoNan.ok _
  generalize iterate (simpleSys I kdk) p h c s = r at hub hnn
  cases r with
  | ok r => exact .inl ⟨r, rfl⟩
  | abort => exact .inr rfl
  | ub => exact absurd rfl hub
  | nan => exact absurd rfl hnn.1
  | diverge => exact absurd rfl hnn.2

end SpaceHub.BS
