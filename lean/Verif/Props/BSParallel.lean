import Verif.Proof.BSForget
import Verif.Props.BSSmall
import Verif.Props.BSChain
import Verif.Props.Order

/-
C99: the parallel Bulirsch-Stoer iterator.
-/

set_option autoImplicit false
set_option linter.unusedSectionVars false

namespace SpaceHub.BS.Par
open SpaceHub SpaceHub.BS SpaceHub.Sys SpaceHub.Force SpaceHub.Integrator SpaceHub.Spec SpaceHub.Converge

variable {S F : Type} [Arith F]

/-! ### the two threads -/

theorem Thread.step_row {O : IterSys S F} {p : Params F} {v : View F} {rows rows' : Nat → Arr F} {t t' : Thread S}
    (e : t.step O p v rows = some (.ok (rows', t'))) : t'.row % 2 = t.row % 2 := by
  obtain ⟨y, row, pc⟩ := t
  unfold Thread.step at e
  cases pc with
  | done => simp at e
  | work =>
    dsimp only at e
    obtain ⟨z, _, e⟩ := Res.bind_eq_ok.1 (Option.some.inj e)
    obtain ⟨h', _, e⟩ := Res.bind_eq_ok.1 e
    obtain ⟨_, _, e⟩ := Res.bind_eq_ok.1 e
    obtain ⟨w, _, e⟩ := Res.bind_eq_ok.1 e
    obtain ⟨_, rfl⟩ := Prod.mk.inj (Res.ok.inj e)
    rfl
  | copy j =>
    dsimp only at e
    split_ifs at e with h1 h2
    all_goals
      obtain ⟨_, rfl⟩ := Prod.mk.inj (Res.ok.inj (Option.some.inj e))
      dsimp only
      try omega

theorem conf_parity {O : IterSys S F} {p : Params F} {v : View F} {rank : Nat} {rows : Nat → Arr F} {s : S} {c : Conf S F}
    (r : Relation.ReflTransGen (Conf.Step O p v) (Conf.start rank rows s) c) :
    c.worker.row % 2 = rank % 2 ∧ c.caller.row % 2 = (rank + 1) % 2 := by
  induction r with
  | refl => exact ⟨rfl, rfl⟩
  | tail _ st ih =>
    cases st with
    | worker rows t e => exact ⟨(Thread.step_row e).trans ih.1, ih.2⟩
    | caller rows t e => exact ⟨ih.1, (Thread.step_row e).trans ih.2⟩

/-- **C99.** No data race: in every configuration some schedule reaches, for every system, table and step, neither thread is about to write
what the other is about to read or write; and a step changes nothing of the table but what it is said to write. -/
theorem C99_race_free (O : IterSys S F) (p : Params F) (v : View F) (rank : Nat) (rows : Nat → Arr F) (s : S) (c : Conf S F)
    (r : Relation.ReflTransGen (Conf.Step O p v) (Conf.start rank rows s) c) :
    NoConflict v.input.length c.worker c.caller ∧
      ∀ (t : Thread S) (rows' : Nat → Arr F) (t' : Thread S), t.step O p v c.rows = some (.ok (rows', t')) → ∀ q j, Loc.entry q j ∉ t.writes v.input.length → rows' q j = c.rows q j := by
  obtain ⟨h1, h2⟩ := conf_parity r
  have apart : ∀ a b : Thread S, a.row ≠ b.row → Disjoint (a.writes v.input.length) (b.reads ∪ b.writes v.input.length) := by
    intro a b hab
    rw [Set.disjoint_left]
    rintro l ⟨j, _, _, rfl⟩ (⟨_, hl | hl⟩ | ⟨j', _, _, hl⟩)
    · cases hl
    · cases hl
    · exact hab (Loc.entry.inj hl).1
  refine ⟨⟨apart _ _ (fun e => by rw [e] at h1; omega), apart _ _ (fun e => by rw [e] at h2; omega)⟩, ?_⟩
  intro t rows' t' e q j hq
  obtain ⟨y, row, pc⟩ := t
  unfold Thread.step at e
  cases pc with
  | done => simp at e
  | work =>
    dsimp only at e
    obtain ⟨z, _, e⟩ := Res.bind_eq_ok.1 (Option.some.inj e)
    obtain ⟨h', _, e⟩ := Res.bind_eq_ok.1 e
    obtain ⟨_, _, e⟩ := Res.bind_eq_ok.1 e
    obtain ⟨w, _, e⟩ := Res.bind_eq_ok.1 e
    obtain ⟨rfl, _⟩ := Prod.mk.inj (Res.ok.inj e)
    rfl
  | copy i =>
    dsimp only at e
    split_ifs at e with h1 h2
    · obtain ⟨rfl, _⟩ := Prod.mk.inj (Res.ok.inj (Option.some.inj e))
      dsimp only
      by_cases hr : q = row
      · rw [if_pos hr, hr]
        by_cases hj : j = i
        · exact absurd ⟨i, rfl, h1, by rw [hr, hj]⟩ hq
        · exact Arr.set_other _ _ _ _ hj
      · rw [if_neg hr]
    all_goals
      obtain ⟨rfl, _⟩ := Prod.mk.inj (Res.ok.inj (Option.some.inj e))
      rfl

/-- **C99.** No schedule runs forever, and none gets stuck: while a thread is still in its loop, one of them can make a step (which may fail). -/
theorem C99_phase_ends (O : IterSys S F) (p : Params F) (v : View F) :
    (¬ ∃ f : Nat → Conf S F, ∀ i, Conf.Step O p v (f i) (f (i + 1))) ∧
      ∀ c : Conf S F, (c.worker.pc = .done ∧ c.caller.pc = .done) ∨ (∃ r : Res ((Nat → Arr F) × S), c.Fails O p v r) ∨ ∃ c', Conf.Step O p v c c' := by
  refine ⟨?_, fun c => c.progress O p v⟩
  rintro ⟨f, hf⟩
  have : ∀ i, (f i).todo v.input.length + i ≤ (f 0).todo v.input.length := by
    intro i
    induction i with
    | zero => exact le_rfl
    | succ i ih => have := Conf.step_todo (hf i); omega
  have := this ((f 0).todo v.input.length + 1)
  omega

/-! ### calls whose closure is their own -/

theorem Near.same {n : Nat} {c d : State F} (h : Near n c d) : SameMembers c d := by
  rw [h.1]; exact ⟨rfl, rfl, rfl, rfl, rfl, rfl, rfl⟩

theorem simple_same {I : Interactions} {s t : Simple} (h : s.clearInc I = t.clearInc I) : SameSystem s t := by
  obtain ⟨P, time, aux, inc, sync⟩ := s
  obtain ⟨P', time', aux', inc', sync'⟩ := t
  unfold Simple.clearInc at h
  obtain ⟨rfl, rfl, rfl, _, rfl⟩ := Simple.mk.inj h
  exact ⟨rfl, rfl, rfl, rfl⟩

theorem simple_total (I : Interactions) (kdk : Bool) (h : ℝ) (n : Nat) (s : Simple) : ∃ y, (simpleSys I kdk).integrate h n s = .ok y :=
  simple_run_ok I _ s

theorem both_then {α β γ : Type} {R : α → β → Prop} {x : Res α} {y : Res β} {r : Res γ} (b : Both R x y) {g : β → γ}
    (t : Then y r fun z => r = .ok (g z)) : Both (fun a c => ∃ z, R a z ∧ c = g z) x r := by
  cases b with
  | ok a b h => rw [show r = .ok (g b) from t]; exact .ok _ _ ⟨b, h, rfl⟩
  | abort => rw [show r = .abort from t]; exact .abort
  | ub => rw [show r = .ub from t]; exact .ub
  | nan => rw [show r = .nan from t]; exact .nan
  | diverge => rw [show r = .diverge from t]; exact .diverge

/-- For every system type and every schedule: a call whose closure is its own and that returns, returns what the serial call returns; stated for systems the
calls of the iterator leave no trace in (`Forgets`). -/
theorem C99_returns_partial (O : IterSys S F) (π : S → S) (K : S → Prop) (L : Forgets O π K) (p : Params F) (h : F) (c : State F) (s x0 : S)
    (hK : K (O.collect true s)) (h0 : K x0) (hx : reset O (O.collect true s) (O.write s) = .ok x0) (hs : π (O.clear (O.collect true s)) = π x0)
    (t : S) (h' : F) (c' : State F) (w : Captured F) (e : IterateP O p true h c .self s (.ok (t, h', c', w))) :
    ∃ s1 c1, iterate O p h c s = .ok (s1, h', c1) ∧ π (O.clear s1) = π (O.clear t) ∧ SameMembers c1 c' := by
  have k : Kin O π K (O.collect true s) (O.collect true s) := ⟨hK, fun _ => Eqv.refl _ _⟩
  obtain ⟨⟨s1, h1, c1⟩, e1, e2, e3, e4⟩ := Both.right (attempts_both L h0 hx 100 h c c.rows _ _ _ k k hs (fun _ _ _ => rfl) e (.inl ⟨_, rfl⟩)) rfl
  dsimp only at e2 e3 e4
  subst e3
  exact ⟨s1, c1, e1, e2, e4.same⟩

/-- the outcome of a call whose closure is its own, if no integration fails -/
theorem own_both {O : IterSys S ℝ} {π : S → S} {K : S → Prop} (L : Forgets O π K) {p : Params ℝ} {reuse : Bool} {P : Process ℝ} {o : Nat} {h : ℝ} {s x0 : S}
    (hK : K (O.collect true s)) (h0 : K x0) (hx : reset O (O.collect true s) (O.write s) = .ok x0) (hs : π (O.clear (O.collect true s)) = π x0)
    (hc : P.closure = none ∨ (P.closure = some o ∧ reuse = true)) (hr : (P.members o).rank < p.maxDepth)
    (tot : ∀ h q, q ≤ p.maxDepth → ∃ y, O.integrate h (hSeq p.maxDepth q) x0 = .ok y) {r : Res (S × ℝ × Process ℝ)} (call : Call O p reuse P o h s r) :
    Both (fun a b => π (O.clear a.1) = π (O.clear b.1) ∧ a.2.1 = b.2.1 ∧ SameMembers a.2.2 (b.2.2.members o) ∧ b.2.2.closure = some o ∧
        ∀ i, i ≠ o → b.2.2.members i = P.members i) (iterate O p h (P.members o) s) r := by
  have live : ∀ x, IterateP O p true h (P.members o) .self s x →
      Both (fun a b => π (O.clear a.1) = π (O.clear b.1) ∧ a.2.1 = b.2.1 ∧ SameMembers a.2.2 b.2.2.1) (iterate O p h (P.members o) s) x := fun x e => by
    have k : Kin O π K (O.collect true s) (O.collect true s) := ⟨hK, fun _ => Eqv.refl _ _⟩
    refine (attempts_both L h0 hx 100 h _ _ _ _ x k k hs (fun _ _ _ => rfl) e (.inr ⟨hr, tot⟩)).mono ?_
    rintro ⟨a, h1, c1⟩ ⟨b, h2, c2, w⟩ ⟨e1, e2, e3⟩
    exact ⟨e1, e2, e3.same⟩
  unfold Call at call
  rcases hc with hc | ⟨hc, rfl⟩
  · rw [hc] at call
    obtain ⟨x, e, t⟩ := call
    refine (both_then (live x e) (g := fun z => (z.1, z.2.1, _)) t).mono ?_
    rintro ⟨a, h1, c1⟩ b ⟨⟨b', h2, c2, w⟩, ⟨e1, e2, e3⟩, rfl⟩
    refine ⟨e1, e2, ?_, rfl, fun i hi => if_neg hi⟩
    show SameMembers c1 (if o = o then c2 else _)
    rw [if_pos rfl]; exact e3
  · rw [hc] at call
    dsimp only at call
    rw [if_pos rfl] at call
    obtain ⟨x, e, t⟩ := call
    refine (both_then (live x e) (g := fun z => (z.1, z.2.1, _)) t).mono ?_
    rintro ⟨a, h1, c1⟩ b ⟨⟨b', h2, c2, w⟩, ⟨e1, e2, e3⟩, rfl⟩
    refine ⟨e1, e2, ?_, rfl, fun i hi => if_neg hi⟩
    show SameMembers c1 (if o = o then c2 else _)
    rw [if_pos rfl]; exact e3

/-- **C99, partial: calls for which the closure refers to the calling object and to a living variable.**  The first call in a process, whatever the schedule
of the two threads, has the outcome of the serial iterator: same system, same proposed step, same members of the object, and the other objects as they were; it
fails exactly when, and how, the serial one fails.  So has every later call of the same object, if its variable happens to lie where that of the first call lay.
What is missing is true of no other call: C99_later_call_undefined, C99_second_object_stuck. -/
theorem C99_own_closure_partial (I : Interactions) (kdk : Bool) (p : Params ℝ) (reuse : Bool) (P : Process ℝ) (o : Nat) (h : ℝ) (s : Simple)
    (hc : P.closure = none ∨ (P.closure = some o ∧ reuse = true)) (hr : (P.members o).rank < p.maxDepth) (r : Res (Simple × ℝ × Process ℝ))
    (call : Call (simpleSys I kdk) p reuse P o h s r) :
    Both (fun a b => SameSystem a.1 b.1 ∧ a.2.1 = b.2.1 ∧ SameMembers a.2.2 (b.2.2.members o) ∧ b.2.2.closure = some o ∧
        ∀ i, i ≠ o → b.2.2.members i = P.members i) (iterate (simpleSys I kdk) p h (P.members o) s) r := by
  refine (own_both (simple_forgets I kdk) trivial trivial (Simple.restore I kdk s) rfl hc hr (fun h _ _ => simple_total I kdk h _ _) call).mono ?_
  rintro a b ⟨e1, e⟩
  exact ⟨simple_same e1, e⟩

theorem own_closure {O : IterSys S F} {p : Params F} {reuse : Bool} {P : Process F} {o : Nat} {h : F} {s : S}
    (hc : P.closure = none ∨ (P.closure = some o ∧ reuse = true)) {t : S} {h' : F} {P' : Process F} (call : Call O p reuse P o h s (.ok (t, h', P'))) :
    ∃ c' w, IterateP O p true h (P.members o) .self s (.ok (t, h', c', w)) ∧ P'.members o = c' ∧ P'.closure = some o ∧
      ∀ i, i ≠ o → P'.members i = P.members i := by
  unfold Call at call
  rcases hc with hc | ⟨hc, rfl⟩
  · rw [hc] at call
    obtain ⟨x, e, t⟩ := call
    obtain ⟨⟨s1, h1, c1, w⟩, rfl, t⟩ := t.ok_of
    cases Res.ok.inj t
    exact ⟨c1, w, e, if_pos rfl, rfl, fun i hi => if_neg hi⟩
  · rw [hc] at call
    dsimp only at call
    rw [if_pos rfl] at call
    obtain ⟨x, e, t⟩ := call
    obtain ⟨⟨s1, h1, c1, w⟩, rfl, t⟩ := t.ok_of
    cases Res.ok.inj t
    exact ⟨c1, w, e, if_pos rfl, rfl, fun i hi => if_neg hi⟩

/-- The same for regularised systems, as far as it concerns calls that return: every call whose closure is its own and that returns, whatever the schedule,
returns what the serial call returns. (Which call fails, and how, may depend on the schedule: a failing row is computed by one thread while the other one
is still working.) -/
theorem C99_regularized_partial (G : ℝ) (type : ReguType) (I : Interactions) (kdk : Bool) (p : Params ℝ) (reuse : Bool) (P : Process ℝ) (o : Nat) (h : ℝ) (s : ReguSys)
    (hc : P.closure = none ∨ (P.closure = some o ∧ reuse = true)) (t : ReguSys) (h' : ℝ) (P' : Process ℝ)
    (call : Call (reguSys G type I kdk) p reuse P o h s (.ok (t, h', P'))) :
    ∃ s1 c1, iterate (reguSys G type I kdk) p h (P.members o) s = .ok (s1, h', c1) ∧ SameSystemRegu s1 t ∧ SameMembers c1 (P'.members o) ∧
      P'.closure = some o ∧ ∀ i, i ≠ o → P'.members i = P.members i := by
  obtain ⟨c', w, e, hm, hcl, ho⟩ := own_closure hc call
  obtain ⟨s1, c1, e1, e2, e3⟩ := C99_returns_partial _ _ _ (regu_forgets G type I kdk) p h (P.members o) s _ trivial trivial
    (ReguSys.restore G type I kdk s) rfl t h' c' w e
  refine ⟨s1, c1, e1, ?_, by rw [hm]; exact e3, hcl, ho⟩
  obtain ⟨P1, time, aux, ⟨om, b, sc⟩, inc, sync⟩ := s1
  obtain ⟨P2, time', aux', ⟨om', b', sc'⟩, inc', sync'⟩ := t
  obtain ⟨rfl, rfl, rfl, hR, _, rfl⟩ := ReguSys.mk.inj e2
  obtain ⟨rfl, rfl, _⟩ := Regu.mk.inj hR
  exact ⟨rfl, rfl, rfl, rfl, rfl, rfl⟩

/-- The same for chain systems, of at least two particles, with the chain coordinates of the particles, and with forces that compute from the chain what they
compute from the particles (as those of the library do: C17): every call whose closure is its own has the outcome of the serial iterator. -/
theorem C99_chain_partial {IC : ChainInteractions} {I : Interactions} (A : AgreesI IC I) (kdk : Bool) (p : Params ℝ) (reuse : Bool) (P : Process ℝ) (o : Nat) (h : ℝ) (s : ChainSys)
    (h2 : 2 ≤ s.P.num) (hcons : ChainConsistent IC.velDep s.P.num s.index s.cpos s.cvel s.caux s.P.pos s.P.vel s.aux)
    (hc : P.closure = none ∨ (P.closure = some o ∧ reuse = true)) (hr : (P.members o).rank < p.maxDepth) (r : Res (ChainSys × ℝ × Process ℝ))
    (call : Call (chainSys IC kdk) p reuse P o h s r) :
    Both (fun a b => SameSystemChain a.1 b.1 ∧ a.2.1 = b.2.1 ∧ SameMembers a.2.2 (b.2.2.members o) ∧ b.2.2.closure = some o ∧
        ∀ i, i ≠ o → b.2.2.members i = P.members i) (iterate (chainSys IC kdk) p h (P.members o) s) r := by
  refine (own_both (chain_forgets IC kdk) (x0 := (s.collect true).clearInc IC) ⟨hcons.num, hcons.index⟩ ⟨hcons.num, hcons.index⟩ (ChainSys.restore IC kdk s hcons)
    rfl hc hr (fun h q _ => ?_) call).mono ?_
  · obtain ⟨s', t, e, _⟩ := chainOps_run A A.velDep_eq (if kdk then substepsKDK h (hSeq p.maxDepth q) else substepsDKD h (hSeq p.maxDepth q)) ((s.collect true).clearInc IC)
      ⟨h2, hcons⟩
    exact ⟨s', e⟩
  · rintro ⟨s1, h1, c1⟩ ⟨t, h2, c2⟩ ⟨e2, e⟩
    refine ⟨?_, e⟩
    obtain ⟨P1, time, cpos, cvel, index, aux, caux, inc, sync⟩ := s1
    obtain ⟨P2, time', cpos', cvel', index', aux', caux', inc', sync'⟩ := t
    obtain ⟨rfl, rfl, rfl, rfl, rfl, rfl, rfl, _, rfl⟩ := ChainSys.mk.inj e2
    exact ⟨rfl, rfl, rfl, rfl, rfl, rfl, rfl, rfl⟩

/-- The same for regularised chain systems. -/
theorem C99_regularized_chain_partial (G : ℝ) (type : ReguType) (I : ChainInteractions) (kdk : Bool) (p : Params ℝ) (reuse : Bool) (P : Process ℝ) (o : Nat) (h : ℝ) (s : ARSys)
    (hcons : ChainConsistent I.velDep s.P.num s.index s.cpos s.cvel s.caux s.P.pos s.P.vel s.aux)
    (hc : P.closure = none ∨ (P.closure = some o ∧ reuse = true)) (t : ARSys) (h' : ℝ) (P' : Process ℝ)
    (call : Call (archainSys G type I kdk) p reuse P o h s (.ok (t, h', P'))) :
    ∃ s1 c1, iterate (archainSys G type I kdk) p h (P.members o) s = .ok (s1, h', c1) ∧ SameSystemAR s1 t ∧ SameMembers c1 (P'.members o) ∧
      P'.closure = some o ∧ ∀ i, i ≠ o → P'.members i = P.members i := by
  obtain ⟨c', w, e, hm, hcl, ho⟩ := own_closure hc call
  obtain ⟨s1, c1, e1, e2, e3⟩ := C99_returns_partial _ _ _ (ar_forgets G type I kdk) p h (P.members o) s ((s.collect true).clearInc I) ⟨hcons.num, hcons.index⟩ ⟨hcons.num, hcons.index⟩
    (ARSys.restore G type I kdk s hcons) rfl t h' c' w e
  refine ⟨s1, c1, e1, ?_, by rw [hm]; exact e3, hcl, ho⟩
  obtain ⟨P1, time, cpos, cvel, index, aux, caux, ⟨om, b, sc⟩, inc, sync⟩ := s1
  obtain ⟨P2, time', cpos', cvel', index', aux', caux', ⟨om', b', sc'⟩, inc', sync'⟩ := t
  obtain ⟨rfl, rfl, rfl, rfl, rfl, rfl, rfl, hR, _, rfl⟩ := ARSys.mk.inj e2
  obtain ⟨rfl, rfl, _⟩ := Regu.mk.inj hR
  exact ⟨rfl, rfl, rfl, rfl, rfl, rfl, rfl, rfl, rfl, rfl⟩

/-- a first call whose tolerance is never exceeded returns -/
theorem first_call_returns {O : IterSys S ℝ} {π : S → S} {K : S → Prop} (L : Forgets O π K) {p : Params ℝ} (hD : 1 ≤ p.maxDepth) (hp : ∀ a b c, p.err a b c ≤ 1) {h : ℝ}
    {s x0 : S} (hK : K (O.collect true s)) (h0 : K x0) (hx : reset O (O.collect true s) (O.write s) = .ok x0)
    (tot : ∀ q, q ≤ p.maxDepth → ∃ y, O.integrate h (hSeq p.maxDepth q) x0 = .ok y)
    (rd : ∀ v, v.length = (O.write s).length → ∃ y, O.read (O.collect true s) v = .ok y) {r : Res (S × ℝ × State ℝ × Captured ℝ)}
    (e : IterateP O p true h (State.init p.maxDepth) .self s r) : ∃ a, r = .ok a := by
  obtain ⟨x, ph, th⟩ := e
  have hrk : (State.init p.maxDepth : State ℝ).rank = p.maxDepth - 1 := rfl
  obtain ⟨⟨rows, s1⟩, rfl⟩ := phase_total L h0 (v := ⟨O.write s, .ok h⟩) hx rfl hK (fun q hq => ⟨by omega, tot q (by omega)⟩) ph
  obtain ⟨k1, _, _⟩ := phase_ok L h0 (v := ⟨O.write s, .ok h⟩) hx rfl hK ph
  have th : Then (columnsP O p (O.write s) h ((State.init p.maxDepth : State ℝ).rank + 1) 1
    { (State.init p.maxDepth : State ℝ) with iterNum := (State.init p.maxDepth : State ℝ).iterNum + 1, rows := rows } s1) r _ := th
  generalize hc1 : ({ (State.init p.maxDepth : State ℝ) with iterNum := _, rows := rows } : State ℝ) = c1 at th
  have hf : c1.first = true := by rw [← hc1]; rfl
  unfold columnsP at th
  rw [chk, if_pos hD, Res.ok_bind] at th
  dsimp only at th
  generalize hce : evalColumn p (O.write s) h c1 1 = ce at th
  have hcf : ce.1.first = true := by rw [← hce]; exact hf
  have hle : Arith.le ce.2 (Arith.ofRat 1 : ℝ) = true := by
    rw [← hce]
    show decide (p.err _ _ _ ≤ ((1 : ℚ) : ℝ)) = true
    simpa using hp _ _ _
  rw [if_pos (by unfold inWindow; rw [hcf]; simp), if_pos hle] at th
  obtain ⟨y, ey⟩ := rd (arrayAdvance (O.write s) (ce.1.rows 0)) (by unfold arrayAdvance; rw [List.length_mapIdx])
  obtain ⟨z, ez, _⟩ := reset_ok k1 (reset_of ey)
  have hset : ∃ r, setNextIteration p { ce.1 with reject := false } 1 = .ok r := by
    unfold setNextIteration
    rw [if_neg (by rw [hcf]; simp)]
    unfold chk
    rw [if_pos hD]
    exact ⟨_, rfl⟩
  obtain ⟨q, eq⟩ := hset
  rw [ez, Res.ok_bind, eq, Res.ok_bind] at th
  exact ⟨_, th⟩

theorem call_returns {O : IterSys S ℝ} {p : Params ℝ} {reuse : Bool} {P : Process ℝ} {o : Nat} {h : ℝ} {s : S} {r : Res (S × ℝ × Process ℝ)} (hc : P.closure = none)
    (call : Call O p reuse P o h s r) (ret : ∀ x, IterateP O p true h (P.members o) .self s x → ∃ a, x = .ok a) : ∃ a, r = .ok a := by
  unfold Call at call
  rw [hc] at call
  obtain ⟨x, e, t⟩ := call
  obtain ⟨a, rfl⟩ := ret x e
  exact ⟨_, t⟩

/-- The hypotheses of C99_regularized_partial are met: two bodies on a circle, regularised with LogH; under every schedule the first call returns. -/
example (t0 : ℝ) : ∃ ρ : ℝ, 0 < ρ ∧ ∀ h, 0 ≤ h → h ≤ ρ → ∀ r, Call (reguSys 1 .logH gravity true) (easy true) false ⟨fun _ => State.init 7, fun _ => [], none⟩ 0 h
    (ReguSys.init 1 .logH t0 ⟨2, circlePos t0, circleVel t0, fun _ => 1 / 2⟩) r → ∃ s' h' P', r = .ok (s', h', P') := by
  obtain ⟨K, κ, ρ, _, hκ, hρ, H⟩ := C95_logH (by linarith : t0 ≤ t0 + 1) (by linarith : t0 + 1 < t0 + 2) (circle_motion t0 (t0 + 2)) le_rfl
    (fun _ _ => by norm_num) 7
  refine ⟨ρ, hρ, fun h hh hle r call => ?_⟩
  set P : Particles := ⟨2, circlePos t0, circleVel t0, fun _ => 1 / 2⟩ with hP
  have S : InState 2 (fun _ => 1 / 2) circlePos circleVel t0 P := ⟨rfl, fun _ _ => rfl, fun _ _ => rfl, fun _ _ => rfl⟩
  obtain ⟨_, _, _, H0⟩ := H P S true (easy true) rfl 0 (fun _ => ReguSys.init 1 .logH t0 P) (fun _ => State.init 7) (fun _ => h) (fun _ => h) rfl
    (fun i hi => absurd hi (by omega))
  obtain ⟨_, _, runs⟩ := H0 (fun i hi => absurd hi (by omega)) (fun _ _ => by show t0 ≤ t0 + 1; linarith)
  obtain ⟨s0, hs0⟩ : ∃ s0, s0 = ReguSys.init 1 .logH t0 P := ⟨_, rfl⟩
  rw [← hs0] at call runs
  have tot : ∀ q, q ≤ (easy true).maxDepth → ∃ y, (reguSys 1 .logH gravity true).integrate h (hSeq (easy true).maxDepth q) ((s0.collect true).clearInc gravity) = .ok y :=
    fun q hq => runs h hh hle q hq _ ⟨rfl, rfl, rfl, rfl, rfl, fun _ _ => ⟨rfl, rfl, fun _ => rfl⟩⟩
  have rd : ∀ v, v.length = ((reguSys 1 .logH gravity true).write s0).length → ∃ y, (reguSys 1 .logH gravity true).read (s0.collect true) v = .ok y := fun v hv => by
    have hl : v.length = (s0.collect true).variableNumber gravity := hv.trans (C13_regu_size gravity s0)
    obtain ⟨y, e1, _⟩ := C13_regu_write_read gravity (s0.collect true) v hl
    exact ⟨y, e1⟩
  have ret : ∀ x, IterateP (reguSys 1 .logH gravity true) (easy true) true h (State.init 7) .self s0 x → ∃ a, x = .ok a := fun x e =>
    first_call_returns (regu_forgets 1 .logH gravity true) (by show 1 ≤ 7; norm_num) (fun _ _ _ => zero_le_one) trivial trivial (ReguSys.restore 1 .logH gravity true s0) tot rd e
  obtain ⟨⟨s', h', P'⟩, e⟩ := call_returns rfl call ret
  exact ⟨s', h', P', e⟩

/-- The hypotheses of C99_chain_partial and C99_regularized_chain_partial are met. -/
example (t0 : ℝ) : ∃ ρ : ℝ, 0 < ρ ∧ ∃ idx s0, ARSys.init 1 .logH t0 ⟨2, circlePos t0, circleVel t0, fun _ => 1 / 2⟩ idx = .ok s0 ∧
    ChainConsistent chainGravity.velDep s0.P.num s0.index s0.cpos s0.cvel s0.caux s0.P.pos s0.P.vel s0.aux ∧ ∀ h, 0 ≤ h → h ≤ ρ →
    ∀ r, Call (archainSys 1 .logH chainGravity true) (easy true) false ⟨fun _ => State.init 7, fun _ => [], none⟩ 0 h s0 r → ∃ s' h' P', r = .ok (s', h', P') := by
  obtain ⟨K, κ, ρ, _, hκ, hρ, H⟩ := C95_archain (by linarith : t0 ≤ t0 + 1) (by linarith : t0 + 1 < t0 + 2) (circle_motion t0 (t0 + 2)) le_rfl
    (fun _ _ => by norm_num) 7
  set P : Particles := ⟨2, circlePos t0, circleVel t0, fun _ => 1 / 2⟩ with hP
  have S : InState 2 (fun _ => 1 / 2) circlePos circleVel t0 P := ⟨rfl, fun _ _ => rfl, fun _ _ => rfl, fun _ _ => rfl⟩
  obtain ⟨idx, hi⟩ := IndexOf.exists P le_rfl
  obtain ⟨s0, e0, g0, a0, _⟩ := ARSys.init_sim 1 .logH t0 P idx le_rfl hi.isIndex
  have gp : ARSys.Good chainGravity.velDep s0 := g0.weaken
  refine ⟨ρ, hρ, idx, s0, e0, gp.cons, fun h hh hle r call => ?_⟩
  obtain ⟨_, _, _, H0⟩ := H P S true (easy true) rfl idx hi 0 (fun _ => s0) (fun _ => State.init 7) (fun _ => h) (fun _ => h) e0 (fun i hi => absurd hi (by omega))
  have st : s0.time ≤ t0 + 1 := by
    have : s0.time = t0 := congrArg ReguSys.time a0
    linarith
  obtain ⟨_, _, runs⟩ := H0 (fun i hi => absurd hi (by omega)) (fun _ _ => st)
  have tot : ∀ q, q ≤ (easy true).maxDepth → ∃ y, (archainSys 1 .logH chainGravity true).integrate h (hSeq (easy true).maxDepth q) ((s0.collect true).clearInc chainGravity) = .ok y :=
    fun q hq => runs h hh hle q hq _ ⟨rfl, rfl, rfl, rfl, rfl, rfl, fun _ _ => ⟨rfl, rfl, fun _ => rfl⟩, fun _ _ => ⟨rfl, rfl, fun _ => rfl⟩⟩
  have rd : ∀ v, v.length = ((archainSys 1 .logH chainGravity true).write s0).length → ∃ y, (archainSys 1 .logH chainGravity true).read (s0.collect true) v = .ok y := fun v hv => by
    have hl : v.length = (s0.collect true).variableNumber chainGravity := hv.trans (C13_archain_size chainGravity s0)
    obtain ⟨y, e1, _⟩ := C13_archain_write_read chainGravity (s0.collect true) gp.cons.num gp.cons.index v hl
    exact ⟨y, e1⟩
  have ret : ∀ x, IterateP (archainSys 1 .logH chainGravity true) (easy true) true h (State.init 7) .self s0 x → ∃ a, x = .ok a := fun x e =>
    first_call_returns (ar_forgets 1 .logH chainGravity true) (x0 := (s0.collect true).clearInc chainGravity) (by show 1 ≤ 7; norm_num) (fun _ _ _ => zero_le_one)
      ⟨gp.cons.num, gp.cons.index⟩ ⟨gp.cons.num, gp.cons.index⟩ (ARSys.restore 1 .logH chainGravity true s0 gp.cons) tot rd e
  obtain ⟨⟨s', h', P'⟩, e⟩ := call_returns rfl call ret
  exact ⟨s', h', P', e⟩

/-! ### the other calls -/

theorem phase_dead {O : IterSys S F} {p : Params F} {v : View F} {rank : Nat} {rows : Nat → Arr F} {s y : S} (hv : v.step = .ub)
    (hy : O.read s v.input = .ok y) {x : Res ((Nat → Arr F) × S)} (ph : Phase O p v rank rows s x) : x = .ub := by
  have dead : ∀ row rows', (Thread.mk s row .work).step O p v rows' = some .ub := by
    intro row rows'
    unfold Thread.step
    dsimp only
    rw [hy, Res.ok_bind, hv]
    rfl
  obtain ⟨c, r, fin⟩ := ph
  have hc : c = Conf.start rank rows s := by
    cases r.cases_head with
    | inl e => exact e.symm
    | inr e =>
      obtain ⟨d, st, _⟩ := e
      generalize hs : Conf.start rank rows s = c0 at st
      cases st with
      | worker rows' t e => rw [← hs] at e; rw [show (Conf.start rank rows s).worker.step O p v (Conf.start rank rows s).rows = some .ub from dead _ _] at e; cases e
      | caller rows' t e => rw [← hs] at e; rw [show (Conf.start rank rows s).caller.step O p v (Conf.start rank rows s).rows = some .ub from dead _ _] at e; cases e
  subst hc
  rcases fin with ⟨d, _, _⟩ | ⟨x', hx', _, rfl⟩
  · cases d
  · rcases hx' with e | e
    · rw [show (Conf.start rank rows s).worker.step O p v (Conf.start rank rows s).rows = some .ub from dead _ _] at e
      rw [← Option.some.inj e]; rfl
    · rw [show (Conf.start rank rows s).caller.step O p v (Conf.start rank rows s).rows = some .ub from dead _ _] at e
      rw [← Option.some.inj e]; rfl

theorem then_ub {α β : Type} {x : Res α} {r : Res β} {k : α → Prop} (hx : x = .ub) (t : Then x r k) : r = .ub := by
  subst hx; exact t

/-- **C99 is false of the code, I.** Once a call has created the closure, every further call in the process -- of the same object or of another one, for every
system and step, under every schedule -- reads the variable `iter_h` of that first call, which no longer exists: undefined behaviour. -/
theorem C99_later_call_undefined (I : Interactions) (kdk : Bool) (p : Params ℝ) (P : Process ℝ) (o o' : Nat) (h : ℝ) (s : Simple)
    (hc : P.closure = some o') (hin : o' = o ∨ (P.input o').length = s.variableNumber I) (r : Res (Simple × ℝ × Process ℝ))
    (call : Call (simpleSys I kdk) p false P o h s r) : r = .ub := by
  unfold Call at call
  rw [hc] at call
  dsimp only at call
  have rd : ∀ y : List ℝ, y.length = s.variableNumber I → ∃ z, (simpleSys I kdk).read (s.collect true) y = .ok z := by
    intro y hy
    obtain ⟨z, hz, _⟩ := C13_simple_write_read I (s.collect true) y hy
    exact ⟨z, hz⟩
  by_cases ho : o' = o
  · rw [if_pos ho] at call
    obtain ⟨x, ⟨x1, ph, t1⟩, t⟩ := call
    obtain ⟨z, hz⟩ := rd (s.write I) (C13_simple_size I s)
    exact then_ub (then_ub (phase_dead rfl hz ph) t1) t
  · rw [if_neg ho] at call
    obtain ⟨x, ⟨x1, ph, t1⟩, t⟩ := call
    obtain ⟨z, hz⟩ := rd (P.input o') (hin.resolve_left ho)
    exact then_ub (then_ub (phase_dead rfl hz ph) t1) t

/-- An object whose table has never been filled: as constructed, or after calls of the kind of C99_second_object_stuck. -/
structure Empty (D : Nat) (c : State ℝ) : Prop where
  rows : ∀ q i, c.rows q i = 0
  rank : (c.first = true ∧ c.rank + 1 ≤ D) ∨ (c.first = false ∧ (c.rank = 1 ∨ c.rank = 2))

theorem extrapolateFrom_zero (D n k j : Nat) (T : Nat → Arr ℝ) (h : ∀ q i, T q i = 0) : ∀ q i, extrapolateFrom D n k j T q i = 0 := by
  induction j generalizing T with
  | zero => exact h
  | succ j ih =>
    unfold extrapolateFrom
    refine ih _ fun q i => ?_
    show (if q = j then _ else T q) i = 0
    by_cases hq : q = j
    · rw [if_pos hq]
      by_cases hi : i < n
      · rw [if_pos hi]
        show T (j + 1) i + (T (j + 1) i - T j i) * _ = 0
        rw [h, h]; ring
      · rw [if_neg hi, h]
    · rw [if_neg hq, h]

theorem setNext_one {p : Params ℝ} (hD : 3 ≤ p.maxDepth) {c : State ℝ} (he : Empty p.maxDepth c) (hj : c.reject = false) :
    ∃ x c', setNextIteration p c 1 = .ok (x, c') ∧ c'.rows = c.rows ∧ (c'.rank = 1 ∨ c'.rank = 2) := by
  have al : ∀ i, i ≤ 2 → allowed p.maxDepth i = 2 := by
    intro i hi
    unfold allowed
    dsimp only
    have : (if 2 > i then 2 else i) = 2 := by split_ifs <;> omega
    rw [this, if_neg (by omega)]
  have a0 := al 0 (by omega)
  have a1 := al 1 (by omega)
  have a2 := al 2 (by omega)
  have go : ∀ d : State ℝ, d.rows = c.rows → d.rank = 2 → ∃ x c', (do let h ← nextStepLen p d d.rank 1; Res.ok (h, d)) = .ok (x, c') ∧ c'.rows = c.rows ∧ (c'.rank = 1 ∨ c'.rank = 2) := by
    intro d hd h2
    rw [h2]
    unfold nextStepLen
    rw [if_neg (by omega), if_pos rfl, chk, if_pos (by omega), chk, if_pos (by omega)]
    exact ⟨_, d, rfl, hd, .inr h2⟩
  unfold setNextIteration
  rcases he.rank with ⟨hf, hr⟩ | ⟨hf, hr⟩
  · rw [hf, hj]
    simp only [Bool.not_true, Bool.false_eq_true, if_false, Bool.not_false, if_true]
    rw [chk, if_pos (by omega)]
    exact ⟨_, _, rfl, rfl, .inl rfl⟩
  · rw [hf]
    simp only [Bool.not_false, if_true]
    rw [if_pos (by omega), chk, if_pos (by omega), chk, if_pos (by omega), Res.ok_bind, Res.ok_bind]
    split_ifs
    · exact go { c with rank := allowed p.maxDepth (1 - 1), first := false } rfl a0
    · exact go { c with rank := allowed p.maxDepth (1 + 1), first := false } rfl a2
    · exact go { c with rank := allowed p.maxDepth 1, first := false } rfl a1

theorem advance_zero (y : List ℝ) (d : Arr ℝ) (hd : ∀ i, d i = 0) : arrayAdvance y d = y := by
  unfold arrayAdvance
  refine List.ext_getElem (by simp) fun i h1 h2 => ?_
  rw [List.getElem_mapIdx]
  show y[i] + d i = y[i]
  rw [hd, add_zero]

/-- what an attempt of an object makes of an empty table -/
theorem columnsP_empty {I : Interactions} {kdk : Bool} {p : Params ℝ} (hD : 3 ≤ p.maxDepth) {s : Simple} {h : ℝ} {c : State ℝ} (he : Empty p.maxDepth c)
    (herr : ∀ a b : Arr ℝ, (∀ i, a i = 0) → (∀ i, b i = 0) → p.err (s.write I) a b ≤ 1) {s1 : Simple} (m : Nat)
    (k : Kin (simpleSys I kdk) id (fun _ => True) (s.collect true) s1) :
    ∃ s' h' c', columnsP (simpleSys I kdk) p (s.write I) h (m + 1) 1 c s1 = .ok (.accept s' h' c') ∧ SameSystem s' (s.collect false) ∧ Empty p.maxDepth c' := by
  unfold columnsP
  rw [chk, if_pos (by omega), Res.ok_bind]
  dsimp only
  obtain ⟨d, hd⟩ : ∃ d, d = (evalColumn p (s.write I) h c 1).1 := ⟨_, rfl⟩
  have hz : ∀ q i, d.rows q i = 0 := by
    rw [hd]; exact extrapolateFrom_zero _ _ _ _ _ he.rows
  have ed : Empty p.maxDepth { d with reject := false } := by
    refine ⟨hz, ?_⟩
    rw [hd]; exact he.rank
  have hle : Arith.le (evalColumn p (s.write I) h c 1).2 (Arith.ofRat (1 : ℚ) : ℝ) = true := by
    have : (evalColumn p (s.write I) h c 1).2 ≤ 1 := herr _ _ (by have := hz 1; rw [hd] at this; exact this) (by have := hz 0; rw [hd] at this; exact this)
    show decide (_ ≤ ((1 : ℚ) : ℝ)) = true
    rw [decide_eq_true_eq, Rat.cast_one]
    exact this
  have hw : inWindow d 1 = true := by
    unfold inWindow
    rcases ed.rank with ⟨hf, _⟩ | ⟨_, hr⟩
    · rw [show d.first = true from hf]; simp
    · have hr : d.rank = 1 ∨ d.rank = 2 := hr
      rcases hr with hr | hr <;> rw [hr] <;> rfl
  rw [← hd, if_pos hw, if_pos hle]
  show ∃ s' h' c', ((simpleSys I kdk).read s1 (arrayAdvance (s.write I) (d.rows 0)) >>= _) = _ ∧ _
  rw [advance_zero _ _ (hz 0)]
  obtain ⟨z, ez, ec⟩ := reset_ok k (Simple.restore I kdk s)
  rw [ez, Res.ok_bind]
  obtain ⟨x, c', e, hr, hk⟩ := setNext_one hD ed rfl
  rw [e, Res.ok_bind]
  refine ⟨_, _, _, rfl, ?_, ⟨fun q i => ?_, .inr ⟨rfl, hk⟩⟩⟩
  · have := simple_same ec
    exact ⟨this.particles, this.time, this.aux, rfl⟩
  · show c'.rows q i = 0
    rw [hr]; exact hz q i

/-- **C99 is false of the code, II.** Suppose the variables happen to lie at the same place in every call (so that the calls mean something after all).  A second
iterator object fills the table of the first one, not its own: for every system, step, schedule, estimator and controller setting of the library, its calls return
normally and leave the system where it was -- no time passes -- and leave its table empty for the next call. -/
theorem C99_second_object_stuck (I : Interactions) (kdk : Bool) (p : Params ℝ) (hD : 3 ≤ p.maxDepth) (est : Estimator) {atol rtol : ℝ} (ha : 0 < atol) (hr : 0 ≤ rtol)
    (l : List Ctl.Setter) (lib : Library p est atol rtol l) (P : Process ℝ) (o o' : Nat) (hoo : o' ≠ o) (hc : P.closure = some o') (s : Simple)
    (hin : (P.input o').length = s.variableNumber I) (he : Empty p.maxDepth (P.members o)) (h : ℝ) (r : Res (Simple × ℝ × Process ℝ))
    (call : Call (simpleSys I kdk) p true P o h s r) :
    ∃ s' h' P', r = .ok (s', h', P') ∧ SameSystem s' (s.collect false) ∧ P'.closure = some o' ∧ P'.input o' = P.input o' ∧ Empty p.maxDepth (P'.members o) := by
  have L := simple_forgets I kdk
  unfold Call at call
  rw [hc] at call
  dsimp only at call
  rw [if_neg hoo] at call
  obtain ⟨x, ⟨x1, ph, t1⟩, t⟩ := call
  obtain ⟨z, hz, _⟩ := C13_simple_write_read I (s.collect true) (P.input o') hin
  have hx : reset (simpleSys I kdk) (s.collect true) (P.input o') = .ok (z.clearInc I) := by
    unfold reset
    rw [show (simpleSys I kdk).read (s.collect true) (P.input o') = .ok z from hz]; rfl
  have hrk : (P.members o).rank < p.maxDepth := by rcases he.rank with ⟨_, a⟩ | ⟨_, a | a⟩ <;> omega
  obtain ⟨⟨rows, s1⟩, rfl⟩ := phase_total L trivial (v := ⟨P.input o', .ok h⟩) hx rfl trivial (fun q hq => ⟨by omega, simple_total I kdk h _ _⟩) ph
  obtain ⟨k1, _, _⟩ := phase_ok L trivial (v := ⟨P.input o', .ok h⟩) hx rfl trivial ph
  have herr : ∀ a b : Arr ℝ, (∀ i, a i = 0) → (∀ i, b i = 0) → p.err (s.write I) a b ≤ 1 := by
    intro a b ha' hb
    have hl : 1 ≤ (s.write I).length := by rw [C13_simple_size]; unfold Simple.variableNumber; omega
    obtain ⟨x, _, e, hq⟩ := estimator_small est ha hr (s.write I).length hl (fun i => (s.write I).getD i 0) a b
    rw [lib.err _ _ _ hl] at e
    cases e
    refine hq 1 zero_le_one fun i _ => ?_
    rw [ha', hb, sub_zero, abs_zero, one_mul]; exact ha.le
  obtain ⟨s', h', c', e1, e2, e3⟩ := columnsP_empty (I := I) (kdk := kdk) (h := h) (c := { P.members o with iterNum := (P.members o).iterNum + 1 }) hD
    ⟨he.rows, he.rank⟩ herr (P.members o).rank k1
  have t1 : Then (columnsP (simpleSys I kdk) p (s.write I) h ((P.members o).rank + 1) 1 { P.members o with iterNum := (P.members o).iterNum + 1 } s1) x _ := t1
  rw [e1] at t1
  rw [show x = .ok (s', h', c', .other ⟨P.input o', rows⟩) from t1] at t
  refine ⟨s', h', _, t, e2, rfl, if_neg hoo, ?_⟩
  show Empty _ (if o = o then c' else _)
  rw [if_pos rfl]; exact e3

/-- So a simulation that uses a second object of the type never gets anywhere: after any number of its calls the particles and the time are what they were. -/
theorem C99_second_object_never_moves (I : Interactions) (kdk : Bool) (p : Params ℝ) (hD : 3 ≤ p.maxDepth) (est : Estimator) {atol rtol : ℝ} (ha : 0 < atol)
    (hr : 0 ≤ rtol) (l : List Ctl.Setter) (lib : Library p est atol rtol l) (P : Process ℝ) (o o' : Nat) (hoo : o' ≠ o) (hc : P.closure = some o') (s : Simple)
    (hin : (P.input o').length = s.variableNumber I) (hnew : P.members o = State.init p.maxDepth) (N : Nat) (P' : Process ℝ) (s' : Simple)
    (run : Repeats (simpleSys I kdk) p true o N P s P' s') : s'.P = s.P ∧ s'.time = s.time ∧ s'.aux = s.aux := by
  have he : Empty p.maxDepth (P.members o) := by
    rw [hnew]
    refine ⟨fun _ _ => ?_, .inl ⟨rfl, ?_⟩⟩
    · show ((0 : ℚ) : ℝ) = 0
      exact Rat.cast_zero
    · show p.maxDepth - 1 + 1 ≤ p.maxDepth; omega
  suffices H : (s'.P = s.P ∧ s'.time = s.time ∧ s'.aux = s.aux) ∧ P'.closure = some o' ∧ (P'.input o').length = s'.variableNumber I ∧ Empty p.maxDepth (P'.members o) from H.1
  clear hnew
  induction run with
  | zero => exact ⟨⟨rfl, rfl, rfl⟩, hc, hin, he⟩
  | succ N P P1 P2 s s1 s2 h h' _ call ih =>
    obtain ⟨⟨a1, a2, a3⟩, b, c, d⟩ := ih hc hin he
    obtain ⟨u, _, Q, e, ss, f1, f2, f3⟩ := C99_second_object_stuck I kdk p hD est ha hr l lib P1 o o' hoo b s1 c d h _ call
    cases e
    refine ⟨⟨ss.particles.trans a1, ss.time.trans a2, ss.aux.trans a3⟩, f1, ?_, f3⟩
    rw [f2, c]
    unfold Simple.variableNumber
    rw [ss.particles]; rfl

theorem attemptsP_other {O : IterSys S F} {p : Params F} {input : List F} {live : Bool} (tries : Nat) : ∀ (h : F) (c : State F) (d : Obj F) (s : S)
    (a : S × F × State F × Captured F), AttemptsP O p input live tries h c (.other d) s (.ok a) → ∃ d', a.2.2.2 = .other d' := by
  induction tries with
  | zero => intro h c d s a e; cases e
  | succ tries ih =>
    intro h c d s a e
    obtain ⟨x, _, t⟩ := e
    obtain ⟨⟨rows, s1⟩, _, t⟩ := t.ok_of
    obtain ⟨y, _, t⟩ := t.ok_of
    cases y with
    | accept s h c => cases Res.ok.inj t; exact ⟨_, rfl⟩
    | reject s h c => obtain ⟨s2, _, t⟩ := t.ok_of; exact ih _ _ _ _ _ t
    | exhausted s c => obtain ⟨s2, _, t⟩ := t.ok_of; exact ih _ _ _ _ _ t

/-- Non-vacuity of the theorems about calls: every call has an outcome, i.e. some schedule leads to one. -/
theorem C99_call_has_outcome (O : IterSys S F) (p : Params F) (reuse : Bool) (P : Process F) (h : F) (s : S) (o : Nat) : ∃ r, Call O p reuse P o h s r := by
  unfold Call
  have fails : ∀ (live : Bool) (w : Captured F) {k : Res (S × F × Process F) → S × F × State F × Captured F → Prop},
      (∀ a, IterateP O p live h (P.members o) w s (.ok a) → ∃ r, k r a) → ∃ r x, IterateP O p live h (P.members o) w s x ∧ Then x r (k r) := by
    intro live w k H
    obtain ⟨x, hx⟩ := attemptsP_exists O p (O.write s) live 100 h (P.members o) w (O.collect true s)
    cases x with
    | ok a => obtain ⟨r, hr⟩ := H a hx; exact ⟨r, _, hx, hr⟩
    | abort => exact ⟨.abort, _, hx, rfl⟩
    | ub => exact ⟨.ub, _, hx, rfl⟩
    | nan => exact ⟨.nan, _, hx, rfl⟩
    | diverge => exact ⟨.diverge, _, hx, rfl⟩
  cases hc : P.closure with
  | none => exact fails true .self (k := fun r z => r = .ok (z.1, z.2.1, _)) fun a _ => ⟨_, rfl⟩
  | some o' =>
    by_cases ho : o' = o
    · simp only [ho, if_true]
      exact fails reuse .self (k := fun r z => r = .ok (z.1, z.2.1, _)) fun a _ => ⟨_, rfl⟩
    · simp only [ho, if_false]
      refine fails reuse (.other ⟨P.input o', (P.members o').rows⟩) ?_
      rintro ⟨s1, h1, c1, w⟩ e
      obtain ⟨d, hd⟩ := attemptsP_other 100 _ _ _ _ _ e
      dsimp only at hd
      subst hd
      exact ⟨_, rfl⟩

/-- The hypotheses of C99_later_call_undefined and C99_second_object_stuck are met after the first call in a process, by every further call for a system of as
many particles. -/
theorem C99_after_the_first_call (I : Interactions) (kdk : Bool) (p : Params ℝ) (reuse : Bool) (P P' : Process ℝ) (o : Nat) (h h' : ℝ) (s s' : Simple)
    (hc : P.closure = none) (call : Call (simpleSys I kdk) p reuse P o h s (.ok (s', h', P'))) :
    P'.closure = some o ∧ (∀ t : Simple, t.P.num = s.P.num → (P'.input o).length = t.variableNumber I) ∧ ∀ i, i ≠ o → P'.members i = P.members i := by
  unfold Call at call
  rw [hc] at call
  obtain ⟨x, _, t⟩ := call
  obtain ⟨⟨s1, h1, c1, w⟩, _, t⟩ := t.ok_of
  cases Res.ok.inj t
  refine ⟨rfl, fun t ht => ?_, fun i hi => if_neg hi⟩
  show (if o = o then arrayAdvance (s.write I) _ else _).length = _
  rw [if_pos rfl]
  unfold arrayAdvance
  rw [List.length_mapIdx, C13_simple_size]
  unfold Simple.variableNumber
  rw [ht]

/-- Two bodies on a circle, the tolerances of the library, two iterator objects: the first call returns, under every schedule, with the time advanced by the step;
a call of the other object for the system so obtained is undefined, and if the variables lie at the same place it returns the system as it was. -/
example (t0 : ℝ) : ∃ (h : ℝ) (p : Params ℝ) (P : Process ℝ), 0 < h ∧
    (∀ r, Call (simpleSys gravity false) p true P 0 h (Simple.init t0 ⟨2, circlePos t0, circleVel t0, fun _ => 1 / 2⟩) r →
      ∃ s' h' P', r = .ok (s', h', P') ∧ s'.time = t0 + h ∧
        ∀ r', Call (simpleSys gravity false) p true P' 1 h' s' r' → ∃ s'' h'' P'', r' = .ok (s'', h'', P'') ∧ s''.time = t0 + h) := by
  obtain ⟨ρ, hρ, p, hp, lib, go⟩ := circle_small_step t0
  refine ⟨ρ, p, ⟨fun _ => State.init 7, fun _ => [], none⟩, hρ, fun r call => ?_⟩
  obtain ⟨s', h', c', e, et, _⟩ := go ρ hρ le_rfl
  have B := C99_own_closure_partial gravity false p true ⟨fun _ => State.init 7, fun _ => [], none⟩ 0 ρ _ (.inl rfl) (by rw [hp]; show 7 - 1 < 7; omega) r call
  rw [e] at B
  obtain ⟨⟨u, h2, Q⟩, rfl, same, rfl, _, hQ, hm⟩ := Both.left B rfl
  dsimp only at same hQ hm
  have time : u.time = t0 + ρ := same.time.symm.trans et
  refine ⟨u, _, Q, rfl, time, fun r' call' => ?_⟩
  obtain ⟨_, hl, _⟩ := C99_after_the_first_call gravity false p true _ Q 0 ρ _ _ u rfl call
  have hu : u.P.num = 2 := by
    obtain ⟨_, _, _, ⟨this, _⟩, _⟩ := C29_simple _ _ _ _ _ _ _ _ _ e
    rw [← same.particles]; exact this
  obtain ⟨v, h3, Q', rfl, sv, _⟩ := C99_second_object_stuck gravity false p (by omega) .rms (by positivity) (by positivity) _ lib Q 1 0 (by omega) hQ u
    (hl u hu) (by
      rw [hm 1 (by omega), hp]
      exact ⟨fun _ _ => Rat.cast_zero, .inl ⟨rfl, by show 7 - 1 + 1 ≤ 7; omega⟩⟩) _ r' call'
  exact ⟨v, h3, Q', rfl, sv.time.trans time⟩

end SpaceHub.BS.Par
