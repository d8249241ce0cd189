import Verif.Spec.BSParallel
import Verif.Proof.SysBase

/-
The two threads of the parallel Bulirsch-Stoer iterator: what every schedule leaves in the table, and the comparison with
the serial iterator.
-/

set_option autoImplicit false
set_option linter.unusedSectionVars false

namespace SpaceHub.BS.Par
open SpaceHub SpaceHub.BS SpaceHub.Sys

variable {S F : Type} [Arith F]

theorem Both.bind {α β γ δ : Type} {R : α → β → Prop} {Q : γ → δ → Prop} {x : Res α} {y : Res β} {f : α → Res γ} {g : β → Res δ}
    (h : Both R x y) (k : ∀ a b, R a b → Both Q (f a) (g b)) : Both Q (x >>= f) (y >>= g) := by
  cases h with
  | ok a b r => exact k a b r
  | abort => exact .abort
  | ub => exact .ub
  | nan => exact .nan
  | diverge => exact .diverge

theorem Both.mono {α β : Type} {R Q : α → β → Prop} {x : Res α} {y : Res β} (h : Both R x y) (k : ∀ a b, R a b → Q a b) : Both Q x y := by
  cases h with
  | ok a b r => exact .ok _ _ (k a b r)
  | abort => exact .abort
  | ub => exact .ub
  | nan => exact .nan
  | diverge => exact .diverge

theorem Both.left {α β : Type} {R : α → β → Prop} {x : Res α} {y : Res β} {a : α} (h : Both R x y) (e : x = .ok a) : ∃ b, y = .ok b ∧ R a b := by
  cases h with
  | ok a' b r => obtain rfl := Res.ok.inj e; exact ⟨b, rfl, r⟩
  | _ => cases e

theorem Both.right {α β : Type} {R : α → β → Prop} {x : Res α} {y : Res β} {b : β} (h : Both R x y) (e : y = .ok b) : ∃ a, x = .ok a ∧ R a b := by
  cases h with
  | ok a b' r => obtain rfl := Res.ok.inj e; exact ⟨a, rfl, r⟩
  | _ => cases e

/-- both normal with equal images, or the same failure -/
def Eqv {α β : Type} (π : α → β) (x y : Res α) : Prop := Both (fun a b => π a = π b) x y

theorem Eqv.refl {α β : Type} (π : α → β) (x : Res α) : Eqv π x x := by
  cases x with
  | ok a => exact .ok _ _ rfl
  | abort => exact .abort
  | ub => exact .ub
  | nan => exact .nan
  | diverge => exact .diverge

theorem Eqv.symm {α β : Type} {π : α → β} {x y : Res α} (h : Eqv π x y) : Eqv π y x := by
  cases h with
  | ok a b r => exact .ok _ _ r.symm
  | abort => exact .abort
  | ub => exact .ub
  | nan => exact .nan
  | diverge => exact .diverge

theorem Eqv.trans {α β : Type} {π : α → β} {x y z : Res α} (h : Eqv π x y) (k : Eqv π y z) : Eqv π x z := by
  cases h with
  | ok a b r =>
    obtain ⟨c, rfl, r'⟩ := Both.left k rfl
    exact .ok _ _ (r.trans r')
  | _ => exact k

/-- `read_from_scalar_array(v)`, `clear_increment()` -/
def reset (O : IterSys S F) (x : S) (v : List F) : Res S := (O.read x v).bind fun y => .ok (O.clear y)

/-- The calls the iterator makes leave no trace once the variables are read in again and the increments cleared.  `π` = the
part of a system that matters, `K` = the systems considered. -/
structure Forgets (O : IterSys S F) (π : S → S) (K : S → Prop) : Prop where
  det : ∀ x x' h n, K x → K x' → π x = π x' → Eqv π (O.integrate h n x) (O.integrate h n x')
  inc : ∀ x y, π x = π y → O.inc x = O.inc y
  int : ∀ x y h n, K x → O.integrate h n x = .ok y → K y ∧ ∀ v, Eqv π (reset O y v) (reset O x v)
  clr : ∀ x, K x → K (O.clear x) ∧ ∀ v, Eqv π (reset O (O.clear x) v) (reset O x v)
  rd : ∀ x y u, K x → O.read x u = .ok y → K y ∧ ∀ v, Eqv π (reset O y v) (reset O x v)
  col : ∀ b x y, π (O.clear x) = π (O.clear y) → π (O.clear (O.collect b x)) = π (O.clear (O.collect b y))

/-- a relative of `s`: a system that differs from it only by what reading in and clearing overwrites -/
def Kin (O : IterSys S F) (π : S → S) (K : S → Prop) (s x : S) : Prop := K x ∧ ∀ v, Eqv π (reset O x v) (reset O s v)

section
variable {O : IterSys S F} {π : S → S} {K : S → Prop} {s : S}

theorem Kin.int (L : Forgets O π K) {x y : S} {h : F} {n : Nat} (k : Kin O π K s x) (e : O.integrate h n x = .ok y) : Kin O π K s y :=
  ⟨(L.int _ _ _ _ k.1 e).1, fun v => ((L.int _ _ _ _ k.1 e).2 v).trans (k.2 v)⟩

theorem Kin.clr (L : Forgets O π K) {x : S} (k : Kin O π K s x) : Kin O π K s (O.clear x) :=
  ⟨(L.clr _ k.1).1, fun v => ((L.clr _ k.1).2 v).trans (k.2 v)⟩

theorem Kin.rd (L : Forgets O π K) {x y : S} {u : List F} (k : Kin O π K s x) (e : O.read x u = .ok y) : Kin O π K s y :=
  ⟨(L.rd _ _ _ k.1 e).1, fun v => ((L.rd _ _ _ k.1 e).2 v).trans (k.2 v)⟩

theorem reset_ok {x x0 : S} {v : List F} (k : Kin O π K s x) (e : reset O s v = .ok x0) : ∃ y, O.read x v = .ok y ∧ π (O.clear y) = π x0 := by
  obtain ⟨z, e1, e2⟩ := Both.right (k.2 v) e
  obtain ⟨y, e3, e4⟩ := Res.bind_eq_ok.1 e1
  exact ⟨y, e3, by rw [Res.ok.inj e4]; exact e2⟩

theorem reset_of {x y : S} {v : List F} (e : O.read x v = .ok y) : reset O x v = .ok (O.clear y) := by
  unfold reset; rw [e]; rfl

/-- a run from a system like `x0` is a run from `x0` -/
theorem run_from (L : Forgets O π K) {x x0 w : S} {h : F} {n : Nat} (hx : K x) (h0 : K x0) (e : π x = π x0) (r : O.integrate h n x = .ok w) :
    ∃ w0, O.integrate h n x0 = .ok w0 ∧ O.inc w0 = O.inc w := by
  obtain ⟨w0, a, b⟩ := Both.left (L.det x x0 h n hx h0 e) r
  exact ⟨w0, a, L.inc _ _ b.symm⟩
end

/-! ### the invariant of a thread -/

/-- row `q` of the table holds the increments of the run from `x0` with `q`'s number of substeps -/
def Filled (O : IterSys S F) (p : Params F) (n : Nat) (h : F) (x0 : S) (old rows : Nat → Arr F) (q : Nat) : Prop :=
  ∃ y, O.integrate h (hSeq p.maxDepth q) x0 = .ok y ∧ q ≤ p.maxDepth ∧ rows q = copyRow n (O.inc y) (old q)

/-- A thread that started at row `R`. -/
structure Inv (O : IterSys S F) (π : S → S) (K : S → Prop) (p : Params F) (n : Nat) (h : F) (s x0 : S) (old : Nat → Arr F) (R : Nat)
    (rows : Nat → Arr F) (t : Thread S) : Prop where
  kin : Kin O π K s t.sys
  le : t.row ≤ R
  par : t.row % 2 = R % 2
  above : ∀ q, q ≤ R → q % 2 = R % 2 → t.row < q → Filled O p n h x0 old rows q
  below : ∀ q, q % 2 = R % 2 → q < t.row → rows q = old q
  beyond : ∀ q, q % 2 = R % 2 → R < q → rows q = old q
  here : match t.pc with
    | .work => rows t.row = old t.row
    | .copy j => j ≤ n ∧ (∃ y, O.integrate h (hSeq p.maxDepth t.row) x0 = .ok y ∧ O.inc y = O.inc t.sys) ∧ t.row ≤ p.maxDepth ∧
        rows t.row = copyRow j (O.inc t.sys) (old t.row)
    | .done => t.row < 2 ∧ Filled O p n h x0 old rows t.row

section
variable {O : IterSys S F} {π : S → S} {K : S → Prop} {p : Params F} {n : Nat} {h : F} {s x0 : S} {old : Nat → Arr F} {R : Nat}

theorem Filled.congr {rows rows' : Nat → Arr F} {q : Nat} (f : Filled O p n h x0 old rows q) (e : rows' q = rows q) :
    Filled O p n h x0 old rows' q := by
  obtain ⟨y, a, b, c⟩ := f
  exact ⟨y, a, b, e.trans c⟩

/-- rows of the other thread do not matter -/
theorem Inv.congr {rows rows' : Nat → Arr F} {t : Thread S} (I : Inv O π K p n h s x0 old R rows t)
    (e : ∀ q, q % 2 = R % 2 → rows' q = rows q) : Inv O π K p n h s x0 old R rows' t := by
  refine ⟨I.kin, I.le, I.par, fun q a b c => (I.above q a b c).congr (e q b), fun q a b => (e q a).trans (I.below q a b),
    fun q a b => (e q a).trans (I.beyond q a b), ?_⟩
  have H := I.here
  have e' := e _ I.par
  cases hp : t.pc with
  | work => rw [hp] at H; exact e'.trans H
  | copy j => rw [hp] at H; exact ⟨H.1, H.2.1, H.2.2.1, e'.trans H.2.2.2⟩
  | done => rw [hp] at H; exact ⟨H.1, H.2.congr e'⟩

theorem Inv.start {rows : Nat → Arr F} (k : Kin O π K s s) : Inv O π K p n h s x0 rows R rows ⟨s, R, .work⟩ :=
  ⟨k, le_rfl, rfl, fun q a _ b => absurd b (by dsimp only; omega), fun _ _ _ => rfl, fun _ _ _ => rfl, rfl⟩

/-- a step of the thread keeps the invariant and touches only rows of its own parity -/
theorem Inv.step (L : Forgets O π K) (hK0 : K x0) {v : View F} (hx : reset O s v.input = .ok x0) (hn : v.input.length = n) (hv : v.step = .ok h)
    {rows rows' : Nat → Arr F} {t t' : Thread S} (I : Inv O π K p n h s x0 old R rows t)
    (e : t.step O p v rows = some (.ok (rows', t'))) :
    Inv O π K p n h s x0 old R rows' t' ∧ ∀ q, q % 2 ≠ R % 2 → rows' q = rows q := by
  obtain ⟨y, row, pc⟩ := t
  unfold Thread.step at e
  have H := I.here
  have hpar := I.par
  have hle := I.le
  cases pc with
  | done => simp at e
  | work =>
    dsimp only at e H hpar hle
    obtain ⟨z, ez, e⟩ := Res.bind_eq_ok.1 (Option.some.inj e)
    obtain ⟨z', ez', ec⟩ := reset_ok I.kin hx
    rw [show O.read y v.input = .ok z from ez] at ez'
    obtain rfl := Res.ok.inj ez'
    obtain ⟨h', eh, e⟩ := Res.bind_eq_ok.1 e
    rw [hv] at eh
    obtain rfl := Res.ok.inj eh
    obtain ⟨_, ek, e⟩ := Res.bind_eq_ok.1 e
    obtain ⟨w, ew, e⟩ := Res.bind_eq_ok.1 e
    have e := Res.ok.inj e
    obtain ⟨rfl, rfl⟩ := Prod.mk.inj e
    have hk : row ≤ p.maxDepth := by
      by_contra hc
      rw [chk, if_neg hc] at ek; cases ek
    have kx : Kin O π K s (O.clear z) := (I.kin.rd L ez).clr L
    refine ⟨⟨kx.int L ew, hle, hpar, I.above, I.below, I.beyond, ?_⟩, fun _ _ => rfl⟩
    refine ⟨Nat.zero_le _, run_from L kx.1 hK0 ec ew, hk, ?_⟩
    show rows row = _
    rw [H]; funext i; simp [copyRow]
  | copy j =>
    dsimp only at e H hpar hle
    obtain ⟨h1, h2, h3, h4⟩ := H
    by_cases hj : j < v.input.length
    · rw [if_pos hj] at e
      obtain ⟨rfl, rfl⟩ := Prod.mk.inj (Res.ok.inj (Option.some.inj e))
      have hne : ∀ q, q ≠ row → (fun r => if r = row then (rows r).set j (O.inc y j) else rows r) q = rows q := fun q hq => if_neg hq
      refine ⟨⟨I.kin, hle, hpar, fun q a b c => (I.above q a b c).congr (hne q (by dsimp only at c; omega)),
        fun q a b => (hne q (by dsimp only at b; omega)).trans (I.below q a b),
        fun q a b => (hne q (by omega)).trans (I.beyond q a b), ?_⟩, fun q hq => hne q (by rintro rfl; exact hq hpar)⟩
      refine ⟨by omega, h2, h3, ?_⟩
      show (if row = row then (rows row).set j (O.inc y j) else rows row) = _
      rw [if_pos rfl, h4]
      funext i
      unfold Arr.set copyRow
      by_cases hi : i = j
      · rw [if_pos hi, if_pos (by omega), hi]
      · rw [if_neg hi]
        by_cases hij : i < j
        · rw [if_pos hij, if_pos (by omega)]
        · rw [if_neg hij, if_neg (by omega)]
    · rw [if_neg hj] at e
      have hjn : j = n := by omega
      have hf : Filled O p n h x0 old rows row := h2.elim fun w hw => ⟨w, hw.1, h3, by rw [h4, hjn, hw.2]⟩
      by_cases h2r : 2 ≤ row
      · rw [if_pos h2r] at e
        obtain ⟨rfl, rfl⟩ := Prod.mk.inj (Res.ok.inj (Option.some.inj e))
        refine ⟨⟨I.kin, by dsimp only; omega, by dsimp only; omega, fun q a b c => ?_, fun q a b => ?_, I.beyond, ?_⟩, fun _ _ => rfl⟩
        · dsimp only at c
          by_cases hq : q = row
          · rw [hq]; exact hf
          · exact I.above q a b (by dsimp only; omega)
        · dsimp only at b; exact I.below q a (by dsimp only; omega)
        · exact I.below (row - 2) (by omega) (by dsimp only; omega)
      · rw [if_neg h2r] at e
        obtain ⟨rfl, rfl⟩ := Prod.mk.inj (Res.ok.inj (Option.some.inj e))
        exact ⟨⟨I.kin, hle, hpar, I.above, I.below, I.beyond, by show row < 2; omega, hf⟩, fun _ _ => rfl⟩

/-- all rows of the thread are filled when it is out of the loop -/
theorem Inv.filled {rows : Nat → Arr F} {t : Thread S} (I : Inv O π K p n h s x0 old R rows t) (hd : t.pc = .done) (q : Nat)
    (hq : q ≤ R) (hp : q % 2 = R % 2) : Filled O p n h x0 old rows q := by
  have H := I.here
  rw [hd] at H
  dsimp only at H
  have := I.par
  by_cases hc : t.row < q
  · exact I.above q hq hp hc
  · have : q = t.row := by omega
    rw [this]; exact H.2
end

/-! ### the phase -/

section
variable {O : IterSys S F} {π : S → S} {K : S → Prop} {p : Params F} {v : View F} {h : F} {s x0 : S} {rank : Nat} {old : Nat → Arr F}

theorem conf_inv (L : Forgets O π K) (hK0 : K x0) (hx : reset O s v.input = .ok x0) (hv : v.step = .ok h) (hK : K s) {c : Conf S F}
    (r : Relation.ReflTransGen (Conf.Step O p v) (Conf.start rank old s) c) :
    Inv O π K p v.input.length h s x0 old rank c.rows c.worker ∧ Inv O π K p v.input.length h s x0 old (rank + 1) c.rows c.caller := by
  induction r with
  | refl => exact ⟨Inv.start ⟨hK, fun _ => Eqv.refl _ _⟩, Inv.start ⟨hK, fun _ => Eqv.refl _ _⟩⟩
  | tail _ st ih =>
    cases st with
    | worker rows t e =>
      obtain ⟨a, b⟩ := ih.1.step L hK0 hx rfl hv e
      exact ⟨a, ih.2.congr fun q hq => b q (by omega)⟩
    | caller rows t e =>
      obtain ⟨a, b⟩ := ih.2.step L hK0 hx rfl hv e
      exact ⟨ih.1.congr fun q hq => b q (by omega), a⟩

/-- What a phase that ends normally leaves behind, whatever the schedule. -/
theorem phase_ok (L : Forgets O π K) (hK0 : K x0) (hx : reset O s v.input = .ok x0) (hv : v.step = .ok h) (hK : K s) {rows : Nat → Arr F} {s1 : S}
    (ph : Phase O p v rank old s (.ok (rows, s1))) :
    Kin O π K s s1 ∧ (∀ q, q ≤ rank + 1 → Filled O p v.input.length h x0 old rows q) ∧ ∀ q, rank + 1 < q → rows q = old q := by
  obtain ⟨c, r, fin | ⟨x, _, bad, hb⟩⟩ := ph
  · obtain ⟨d1, d2, e⟩ := fin
    obtain ⟨rfl, rfl⟩ := Prod.mk.inj (Res.ok.inj e)
    obtain ⟨i1, i2⟩ := conf_inv L hK0 hx hv hK r
    refine ⟨i2.kin, fun q hq => ?_, fun q hq => ?_⟩
    · by_cases hp : q % 2 = rank % 2
      · exact i1.filled d1 q (by omega) hp
      · exact i2.filled d2 q hq (by omega)
    · by_cases hp : q % 2 = rank % 2
      · exact i1.beyond q hp (by omega)
      · exact i2.beyond q (by omega) hq
  · exfalso
    cases x with
    | ok a => exact bad a rfl
    | _ => cases hb

/-- a thread that keeps the invariant can only fail if one of the runs does -/
theorem step_total (L : Forgets O π K) (hK0 : K x0) (hx : reset O s v.input = .ok x0) (hv : v.step = .ok h) {R : Nat} {n : Nat}
    (runs : ∀ q, q ≤ R → q ≤ p.maxDepth ∧ ∃ y, O.integrate h (hSeq p.maxDepth q) x0 = .ok y) {rows : Nat → Arr F} {t : Thread S}
    (I : Inv O π K p n h s x0 old R rows t) (x : Res ((Nat → Arr F) × Thread S)) (e : t.step O p v rows = some x) : ∃ y, x = .ok y := by
  obtain ⟨y, row, pc⟩ := t
  unfold Thread.step at e
  cases pc with
  | done => simp at e
  | work =>
    dsimp only at e
    obtain ⟨z, ez, ec⟩ := reset_ok I.kin hx
    dsimp only at ez
    obtain ⟨hk, w0, hw0⟩ := runs row I.le
    obtain ⟨w, hw, _⟩ := run_from L hK0 ((I.kin.rd L ez).clr L).1 ec.symm hw0
    rw [ez] at e
    have e := Option.some.inj e
    rw [Res.ok_bind] at e
    rw [hv, Res.ok_bind, chk, if_pos hk, Res.ok_bind, hw, Res.ok_bind] at e
    exact ⟨_, e.symm⟩
  | copy j =>
    dsimp only at e
    split_ifs at e
    all_goals exact ⟨_, (Option.some.inj e).symm⟩

/-- If every run of the attempt returns, every schedule ends normally. -/
theorem phase_total (L : Forgets O π K) (hK0 : K x0) (hx : reset O s v.input = .ok x0) (hv : v.step = .ok h) (hK : K s)
    (runs : ∀ q, q ≤ rank + 1 → q ≤ p.maxDepth ∧ ∃ y, O.integrate h (hSeq p.maxDepth q) x0 = .ok y)
    {x : Res ((Nat → Arr F) × S)} (ph : Phase O p v rank old s x) : ∃ y, x = .ok y := by
  obtain ⟨c, r, fin | ⟨x', hs, bad, _⟩⟩ := ph
  · exact ⟨_, fin.2.2⟩
  · exfalso
    obtain ⟨i1, i2⟩ := conf_inv L hK0 hx hv hK r
    rcases hs with hs | hs
    · obtain ⟨y, hy⟩ := step_total L hK0 hx hv (fun q hq => runs q (by omega)) i1 x' hs
      exact bad y hy
    · obtain ⟨y, hy⟩ := step_total L hK0 hx hv runs i2 x' hs
      exact bad y hy
end

/-! ### every schedule ends -/

/-- steps a thread has left, at most -/
def Thread.todo (n : Nat) (t : Thread S) : Nat :=
  match t.pc with
  | .work => t.row * (n + 3) + n + 2
  | .copy j => t.row * (n + 3) + (n - j) + 1
  | .done => 0

theorem Thread.step_todo {O : IterSys S F} {p : Params F} {v : View F} {rows rows' : Nat → Arr F} {t t' : Thread S}
    (e : t.step O p v rows = some (.ok (rows', t'))) : t'.todo v.input.length < t.todo v.input.length := by
  obtain ⟨y, row, pc⟩ := t
  unfold Thread.step at e
  cases pc with
  | done => simp at e
  | work =>
    dsimp only at e
    obtain ⟨z, _, e⟩ := Res.bind_eq_ok.1 (Option.some.inj e)
    obtain ⟨h', _, e⟩ := Res.bind_eq_ok.1 e
    obtain ⟨_, _, e⟩ := Res.bind_eq_ok.1 e
    obtain ⟨w, _, e⟩ := Res.bind_eq_ok.1 e
    obtain ⟨_, rfl⟩ := Prod.mk.inj (Res.ok.inj e)
    unfold Thread.todo
    dsimp only
    omega
  | copy j =>
    dsimp only at e
    split_ifs at e with h1 h2
    · obtain ⟨_, rfl⟩ := Prod.mk.inj (Res.ok.inj (Option.some.inj e))
      unfold Thread.todo
      dsimp only
      omega
    · obtain ⟨_, rfl⟩ := Prod.mk.inj (Res.ok.inj (Option.some.inj e))
      unfold Thread.todo
      dsimp only
      obtain ⟨r, rfl⟩ : ∃ r, row = r + 2 := ⟨row - 2, by omega⟩
      have : (r + 2) * (v.input.length + 3) = r * (v.input.length + 3) + 2 * (v.input.length + 3) := by ring
      rw [Nat.add_sub_cancel, this]
      omega
    · obtain ⟨_, rfl⟩ := Prod.mk.inj (Res.ok.inj (Option.some.inj e))
      unfold Thread.todo
      dsimp only
      omega

/-- steps both threads have left, at most -/
def Conf.todo (n : Nat) (c : Conf S F) : Nat := c.worker.todo n + c.caller.todo n

theorem Conf.step_todo {O : IterSys S F} {p : Params F} {v : View F} {c c' : Conf S F} (e : Conf.Step O p v c c') :
    c'.todo v.input.length < c.todo v.input.length := by
  cases e with
  | worker rows t e => have := Thread.step_todo e; unfold Conf.todo; dsimp only; omega
  | caller rows t e => have := Thread.step_todo e; unfold Conf.todo; dsimp only; omega

theorem Thread.step_none {O : IterSys S F} {p : Params F} {v : View F} {rows : Nat → Arr F} {t : Thread S} :
    t.step O p v rows = none ↔ t.pc = .done := by
  obtain ⟨y, row, pc⟩ := t
  unfold Thread.step
  cases pc with
  | done => simp
  | work => simp
  | copy j => dsimp only; split_ifs <;> simp

/-- nothing blocks: a configuration is final, or fails, or goes on -/
theorem Conf.progress (O : IterSys S F) (p : Params F) (v : View F) (c : Conf S F) :
    (c.worker.pc = .done ∧ c.caller.pc = .done) ∨ (∃ r : Res ((Nat → Arr F) × S), c.Fails O p v r) ∨ ∃ c', Conf.Step O p v c c' := by
  cases hw : c.worker.step O p v c.rows with
  | none =>
    cases hc : c.caller.step O p v c.rows with
    | none => exact .inl ⟨Thread.step_none.1 hw, Thread.step_none.1 hc⟩
    | some x =>
      by_cases hx : ∃ y, x = .ok y
      · obtain ⟨⟨rows, t⟩, rfl⟩ := hx
        exact .inr (.inr ⟨_, .caller c rows t hc⟩)
      · exact .inr (.inl ⟨_, x, .inr hc, fun y hy => hx ⟨y, hy⟩, rfl⟩)
  | some x =>
    by_cases hx : ∃ y, x = .ok y
    · obtain ⟨⟨rows, t⟩, rfl⟩ := hx
      exact .inr (.inr ⟨_, .worker c rows t hw⟩)
    · exact .inr (.inl ⟨_, x, .inl hw, fun y hy => hx ⟨y, hy⟩, rfl⟩)

theorem conf_exists (O : IterSys S F) (p : Params F) (v : View F) (k : Nat) (c : Conf S F) (hk : c.todo v.input.length ≤ k) :
    ∃ c' r, Relation.ReflTransGen (Conf.Step O p v) c c' ∧
      ((c'.worker.pc = .done ∧ c'.caller.pc = .done ∧ r = .ok (c'.rows, c'.caller.sys)) ∨ c'.Fails O p v r) := by
  induction k generalizing c with
  | zero =>
    rcases c.progress O p v with h | ⟨r, h⟩ | ⟨c', h⟩
    · exact ⟨c, _, .refl, .inl ⟨h.1, h.2, rfl⟩⟩
    · exact ⟨c, r, .refl, .inr h⟩
    · have := Conf.step_todo h; omega
  | succ k ih =>
    rcases c.progress O p v with h | ⟨r, h⟩ | ⟨c', h⟩
    · exact ⟨c, _, .refl, .inl ⟨h.1, h.2, rfl⟩⟩
    · exact ⟨c, r, .refl, .inr h⟩
    · obtain ⟨c'', r, e, f⟩ := ih c' (by have := Conf.step_todo h; omega)
      exact ⟨c'', r, .head h e, f⟩

theorem phase_exists (O : IterSys S F) (p : Params F) (v : View F) (rank : Nat) (rows : Nat → Arr F) (s : S) :
    ∃ r, Phase O p v rank rows s r := by
  obtain ⟨c, r, e, f⟩ := conf_exists O p v _ (Conf.start rank rows s) le_rfl
  exact ⟨r, c, e, f⟩

/-! ### comparison with the serial iterator -/

/-- Equal members except for the table; the table equal in the places `n` and above (which are never written). -/
def Near (n : Nat) (c c' : State F) : Prop := c' = { c with rows := c'.rows } ∧ ∀ r i, n ≤ i → c.rows r i = c'.rows r i

/-- the table of one and the other members of the other -/
def withRows (c : State F) (T : Nat → Arr F) : State F := { c with rows := T }

theorem nextStepLen_rows (p : Params F) (c : State F) (T : Nat → Arr F) (a k : Nat) :
    nextStepLen p (withRows c T) a k = nextStepLen p c a k := rfl

theorem isDiverged_rows (p : Params F) (c : State F) (T : Nat → Arr F) (e : F) (k : Nat) :
    isDiverged p (withRows c T) e k = isDiverged p c e k := rfl

theorem setNext_rows (p : Params F) (c : State F) (T : Nat → Arr F) (k : Nat) :
    Both (fun a b => b = (a.1, withRows a.2 T) ∧ a.2.rows = c.rows) (setNextIteration p c k) (setNextIteration p (withRows c T) k) := by
  have tail : ∀ (d : State F) (a : Nat), d.rows = c.rows → Both (fun a b => b = (a.1, withRows a.2 T) ∧ a.2.rows = c.rows)
      (do let h ← nextStepLen p d a k; Res.ok (h, d)) (do let h ← nextStepLen p (withRows d T) a k; Res.ok (h, withRows d T)) := by
    intro d a hd
    rw [nextStepLen_rows]
    cases nextStepLen p d a k with
    | ok h => exact .ok _ _ ⟨rfl, hd⟩
    | abort => exact .abort
    | ub => exact .ub
    | nan => exact .nan
    | diverge => exact .diverge
  have ck : ∀ j, Both (fun _ _ => True) (chk p.maxDepth j) (chk p.maxDepth j) := by
    intro j
    unfold chk
    split_ifs
    · exact .ok _ _ trivial
    · exact .ub
  unfold setNextIteration
  show Both _ _ (if !c.first then _ else _)
  by_cases h1 : (!c.first) = true
  · rw [if_pos h1, if_pos h1]
    show Both _ _ (if k + 1 = c.rank ∨ k = c.rank then _ else _)
    by_cases h2 : k + 1 = c.rank ∨ k = c.rank
    · rw [if_pos h2, if_pos h2]
      refine (ck _).bind fun _ _ _ => (ck _).bind fun _ _ _ => ?_
      show Both _ _ (if Arith.lt (c.cpl (k - 1)) (Arith.mul (Arith.ofRat (8 / 10)) (c.cpl k)) then _ else _)
      by_cases h3 : Arith.lt (c.cpl (k - 1)) (Arith.mul (Arith.ofRat (8 / 10)) (c.cpl k)) = true
      · rw [if_pos h3, if_pos h3]
        exact tail { c with rank := allowed p.maxDepth (k - 1) } _ rfl
      · rw [if_neg h3, if_neg h3]
        show Both _ _ (if Arith.lt (c.cpl k) (Arith.mul (Arith.ofRat (9 / 10)) (c.cpl (k - 1))) && !c.reject then _ else _)
        by_cases h4 : (Arith.lt (c.cpl k) (Arith.mul (Arith.ofRat (9 / 10)) (c.cpl (k - 1))) && !c.reject) = true
        · rw [if_pos h4, if_pos h4]
          exact tail { c with rank := allowed p.maxDepth (k + 1) } _ rfl
        · rw [if_neg h4, if_neg h4]
          exact tail { c with rank := allowed p.maxDepth k } _ rfl
    · rw [if_neg h2, if_neg h2]
      show Both _ _ (if k = c.rank + 1 then _ else _)
      by_cases h3 : k = c.rank + 1
      · rw [if_pos h3, if_pos h3]
        refine (ck _).bind fun _ _ _ => ?_
        have key : ∀ (d : State F), d.rows = c.rows → Both (fun a b => b = (a.1, withRows a.2 T) ∧ a.2.rows = c.rows)
            (do
              chk p.maxDepth d.rank
              let c := if Arith.lt (d.cpl k) (Arith.mul (Arith.ofRat (9 / 10)) (d.cpl d.rank)) && !d.reject
                then { d with rank := allowed p.maxDepth k } else d
              let h ← nextStepLen p c c.rank k
              .ok (h, c))
            (do
              chk p.maxDepth (withRows d T).rank
              let c := if Arith.lt ((withRows d T).cpl k) (Arith.mul (Arith.ofRat (9 / 10)) ((withRows d T).cpl (withRows d T).rank)) && !(withRows d T).reject
                then { (withRows d T) with rank := allowed p.maxDepth k } else (withRows d T)
              let h ← nextStepLen p c c.rank k
              .ok (h, c)) := by
          intro d hd
          refine (ck _).bind fun _ _ _ => ?_
          by_cases h4 : (Arith.lt (d.cpl k) (Arith.mul (Arith.ofRat (9 / 10)) (d.cpl d.rank)) && !d.reject) = true
          · have h4' : (Arith.lt ((withRows d T).cpl k) (Arith.mul (Arith.ofRat (9 / 10)) ((withRows d T).cpl (withRows d T).rank)) && !(withRows d T).reject) = true := h4
            rw [if_pos h4, if_pos h4']
            exact tail { d with rank := allowed p.maxDepth k } _ hd
          · have h4' : ¬ (Arith.lt ((withRows d T).cpl k) (Arith.mul (Arith.ofRat (9 / 10)) ((withRows d T).cpl (withRows d T).rank)) && !(withRows d T).reject) = true := h4
            rw [if_neg h4, if_neg h4']
            exact tail d _ hd
        by_cases h5 : Arith.lt (c.cpl (k - 2)) (Arith.mul (Arith.ofRat (8 / 10)) (c.cpl (k - 1))) = true
        · have h5' : Arith.lt ((withRows c T).cpl (k - 2)) (Arith.mul (Arith.ofRat (8 / 10)) ((withRows c T).cpl (k - 1))) = true := h5
          rw [if_pos h5, if_pos h5']
          exact key { c with rank := allowed p.maxDepth (k - 2) } rfl
        · have h5' : ¬ Arith.lt ((withRows c T).cpl (k - 2)) (Arith.mul (Arith.ofRat (8 / 10)) ((withRows c T).cpl (k - 1))) = true := h5
          rw [if_neg h5, if_neg h5']
          exact key c rfl
      · rw [if_neg h3, if_neg h3]
        exact .abort
  · rw [if_neg h1, if_neg h1]
    by_cases h6 : (!c.reject) = true
    · have h6' : (!(withRows c T).reject) = true := h6
      rw [if_pos h6, if_pos h6']
      exact (ck _).bind fun _ _ _ => .ok _ _ ⟨rfl, rfl⟩
    · have h6' : ¬ (!(withRows c T).reject) = true := h6
      rw [if_neg h6, if_neg h6']
      exact (ck _).bind fun _ _ _ => .ok _ _ ⟨rfl, rfl⟩

/-- rows above the extrapolated ones, and entries beyond the variables, are left alone -/
theorem extrapolateFrom_keep (D n k j : Nat) (T : Nat → Arr F) : (∀ r, j ≤ r → extrapolateFrom D n k j T r = T r) ∧
    ∀ r i, n ≤ i → extrapolateFrom D n k j T r i = T r i := by
  induction j generalizing T with
  | zero => exact ⟨fun _ _ => rfl, fun _ _ _ => rfl⟩
  | succ j ih =>
    unfold extrapolateFrom
    dsimp only
    refine ⟨fun r hr => ?_, fun r i hi => ?_⟩
    · rw [(ih _).1 r (by omega), if_neg (by omega)]
    · rw [(ih _).2 r i hi]
      by_cases hr : r = j
      · rw [if_pos hr, if_neg (by omega), hr]
      · rw [if_neg hr]

theorem extrapolateFrom_congr (D n k j : Nat) (T T' : Nat → Arr F) (e : ∀ r, r ≤ j → T r = T' r) :
    ∀ r, r ≤ j → extrapolateFrom D n k j T r = extrapolateFrom D n k j T' r := by
  induction j generalizing T T' with
  | zero => exact e
  | succ j ih =>
    unfold extrapolateFrom
    dsimp only
    intro r hr
    by_cases hj : r ≤ j
    · refine ih _ _ (fun q hq => ?_) r hj
      by_cases hq' : q = j
      · rw [if_pos hq', if_pos hq', e j (by omega), e (j + 1) (by omega)]
      · rw [if_neg hq', if_neg hq', e q (by omega)]
    · rw [(extrapolateFrom_keep D n k j _).1 r (by omega), (extrapolateFrom_keep D n k j _).1 r (by omega), if_neg (by omega), if_neg (by omega)]
      exact e r hr

/-- reading into two relatives -/
theorem read_both {O : IterSys S F} {π : S → S} {K : S → Prop} (L : Forgets O π K) {s0 s s' : S} (k : Kin O π K s0 s) (k' : Kin O π K s0 s') (v : List F) :
    Both (fun a b => π (O.clear a) = π (O.clear b) ∧ Kin O π K s0 a ∧ Kin O π K s0 b) (O.read s v) (O.read s' v) := by
  have e : Eqv π (reset O s v) (reset O s' v) := (k.2 v).trans (k'.2 v).symm
  have k1 : ∀ a, O.read s v = .ok a → Kin O π K s0 a := fun a h => k.rd L h
  have k2 : ∀ a, O.read s' v = .ok a → Kin O π K s0 a := fun a h => k'.rd L h
  unfold reset at e
  cases h1 : O.read s v with
  | ok a =>
    cases h2 : O.read s' v with
    | ok b =>
      rw [h1, h2] at e
      cases e with
      | ok _ _ r => exact .ok _ _ ⟨r, k1 a h1, k2 b h2⟩
    | _ => rw [h1, h2] at e; cases e
  | abort => cases h2 : O.read s' v with
    | abort => exact .abort
    | _ => rw [h1, h2] at e; cases e
  | ub => cases h2 : O.read s' v with
    | ub => exact .ub
    | _ => rw [h1, h2] at e; cases e
  | nan => cases h2 : O.read s' v with
    | nan => exact .nan
    | _ => rw [h1, h2] at e; cases e
  | diverge => cases h2 : O.read s' v with
    | diverge => exact .diverge
    | _ => rw [h1, h2] at e; cases e

/-- how the ends of the columns of the two variants are related -/
inductive ExitRel (O : IterSys S F) (π : S → S) (K : S → Prop) (s0 : S) (n : Nat) : Exit S F → Exit S F → Prop
  | accept (s s' : S) (h : F) (c c' : State F) (hs : π (O.clear s) = π (O.clear s')) (hc : Near n c c') :
      ExitRel O π K s0 n (.accept s h c) (.accept s' h c')
  | reject (s s' : S) (h : F) (c c' : State F) (hs : Kin O π K s0 s) (hs' : Kin O π K s0 s') (hc : Near n c c') :
      ExitRel O π K s0 n (.reject s h c) (.reject s' h c')
  | exhausted (s s' : S) (c c' : State F) (hs : Kin O π K s0 s) (hs' : Kin O π K s0 s') (hc : Near n c c') :
      ExitRel O π K s0 n (.exhausted s c) (.exhausted s' c')

theorem columns_both {O : IterSys S F} {π : S → S} {K : S → Prop} (L : Forgets O π K) {p : Params F} {s0 x0 : S} {input : List F} {h : F}
    (hK0 : K x0) (hx : reset O s0 input = .ok x0) (m : Nat) : ∀ (k : Nat) (c : State F) (T : Nat → Arr F) (s s' : S), 1 ≤ k →
    Kin O π K s0 s → Kin O π K s0 s' → (∀ r i, input.length ≤ i → c.rows r i = T r i) → (∀ r, r < k → c.rows r = T r) →
    (∀ q, k ≤ q → q < k + m → ∃ y, O.integrate h (hSeq p.maxDepth q) x0 = .ok y ∧ q ≤ p.maxDepth ∧ ∀ i, i < input.length → T q i = O.inc y i) →
    Both (ExitRel O π K s0 input.length) (columns O p input h m k c s) (columnsP O p input h m k (withRows c T) s') := by
  induction m with
  | zero =>
    intro k c T s s' _ hs hs' hT _ _
    exact .ok _ _ (.exhausted _ _ _ _ hs hs' ⟨rfl, hT⟩)
  | succ m ih =>
    intro k c T s s' hk1 hs hs' hT hlow fill
    obtain ⟨z, ez, ec⟩ := reset_ok hs hx
    obtain ⟨y0, ey0, hkD, hy0⟩ := fill k le_rfl (by omega)
    have kz : Kin O π K s0 (O.clear z) := (hs.rd L ez).clr L
    obtain ⟨y, ey, ei⟩ := run_from L hK0 kz.1 ec.symm ey0
    have ky : Kin O π K s0 y := kz.int L ey
    have hy : ∀ i, i < input.length → T k i = O.inc y i := fun i hi => by rw [hy0 i hi, ei]
    unfold columns columnsP
    rw [ez, Res.ok_bind, chk, if_pos hkD, Res.ok_bind, ey, Res.ok_bind, Res.ok_bind]
    dsimp only
    -- the two tables
    have hrow : ∀ r, r ≤ k → (if r = k then copyRow input.length (O.inc y) (c.rows k) else c.rows r) = T r := by
      intro r hr
      by_cases h1 : r = k
      · rw [if_pos h1, h1]
        funext i
        unfold copyRow
        by_cases hi : i < input.length
        · rw [if_pos hi, hy i hi]
        · rw [if_neg hi, hT k i (by omega)]
      · rw [if_neg h1]; exact hlow r (by omega)
    obtain ⟨U, hU⟩ : ∃ U : Nat → Arr F, U = fun r => if r = k then copyRow input.length (O.inc y) (c.rows k) else c.rows r := ⟨_, rfl⟩
    rw [← hU]
    have hUT : ∀ r, r ≤ k → U r = T r := fun r hr => by rw [hU]; exact hrow r hr
    have hUn : ∀ r i, input.length ≤ i → U r i = T r i := by
      intro r i hi
      by_cases h1 : r ≤ k
      · rw [hUT r h1]
      · rw [hU]; dsimp only; rw [if_neg (by omega)]; exact hT r i hi
    have E : ∀ r, r ≤ k → extrapolate p.maxDepth input.length k U r = extrapolate p.maxDepth input.length k T r :=
      extrapolateFrom_congr _ _ _ _ _ _ hUT
    obtain ⟨d, hd⟩ : ∃ d, d = (evalColumn p input h { c with rows := U } k).1 := ⟨_, rfl⟩
    obtain ⟨er, her⟩ : ∃ e, e = (evalColumn p input h { c with rows := U } k).2 := ⟨_, rfl⟩
    have hdr : d.rows = extrapolate p.maxDepth input.length k U := by rw [hd]; rfl
    have herP : (evalColumn p input h (withRows c T) k).2 = er := by
      rw [her]
      show p.err input (extrapolate p.maxDepth input.length k T 1) (extrapolate p.maxDepth input.length k T 0) = p.err input (extrapolate p.maxDepth input.length k U 1) (extrapolate p.maxDepth input.length k U 0)
      rw [E 1 hk1, E 0 (Nat.zero_le _)]
    have hdP : (evalColumn p input h (withRows c T) k).1 = withRows d (extrapolate p.maxDepth input.length k T) := by
      rw [hd]
      show ({ c with
        rows := extrapolate p.maxDepth input.length k T
        ideal := c.ideal.set k (Arith.mul h (p.next (2 * k + 1) (evalColumn p input h (withRows c T) k).2))
        cpl := c.cpl.set k (Arith.div (cost p.maxDepth p.kdk k) (c.ideal.set k (Arith.mul h (p.next (2 * k + 1) (evalColumn p input h (withRows c T) k).2)) k)) } : State F) = _
      rw [herP, her]
      rfl
    rw [hdP, herP, ← hd, ← her]
    obtain ⟨V, hV⟩ : ∃ V, V = extrapolate p.maxDepth input.length k T := ⟨_, rfl⟩
    rw [← hV]
    rw [← hV] at E
    have hdV : ∀ r i, input.length ≤ i → d.rows r i = V r i := by
      intro r i hi
      rw [hdr, hV]
      unfold extrapolate
      rw [(extrapolateFrom_keep _ _ _ _ _).2 r i hi, (extrapolateFrom_keep _ _ _ _ _).2 r i hi]
      exact hUn r i hi
    have next : Both (ExitRel O π K s0 input.length) (columns O p input h m (k + 1) d y) (columnsP O p input h m (k + 1) (withRows d V) s') := by
      refine ih (k + 1) d V y s' (by omega) ky hs' hdV (fun r hr => by rw [hdr]; exact E r (by omega)) fun q h1 h2 => ?_
      obtain ⟨w, a, b, e⟩ := fill q (by omega) (by omega)
      refine ⟨w, a, b, fun i hi => ?_⟩
      rw [hV]
      unfold extrapolate
      rw [(extrapolateFrom_keep _ _ _ _ _).1 q (by omega)]
      exact e i hi
    show Both _ _ (if inWindow d k then _ else _)
    by_cases hw : inWindow d k = true
    · rw [if_pos hw, if_pos hw]
      by_cases hle : Arith.le er (Arith.ofRat 1) = true
      · rw [if_pos hle, if_pos hle]
        show Both _ (O.read y (arrayAdvance input (d.rows 0)) >>= _) (O.read s' (arrayAdvance input (V 0)) >>= _)
        have e0 : d.rows 0 = V 0 := by rw [hdr]; exact E 0 (Nat.zero_le _)
        rw [e0]
        refine (read_both L ky hs' _).bind fun a b hab => ?_
        refine (setNext_rows p { d with reject := false } V k).bind fun r r' hr => ?_
        rw [hr.1]
        refine .ok _ _ (.accept _ _ _ _ _ ?_ ⟨rfl, ?_⟩)
        · exact L.col _ _ _ hab.1
        · intro q i hi
          show r.2.rows q i = V q i
          rw [hr.2]; exact hdV q i hi
      · rw [if_neg hle, if_neg hle, isDiverged_rows]
        cases isDiverged p d er k with
        | ok b =>
          rw [Res.ok_bind, Res.ok_bind]
          cases b with
          | false => exact next
          | true =>
            refine (setNext_rows p { d with reject := true, rejNum := d.rejNum + 1 } V k).bind fun r r' hr => ?_
            rw [hr.1]
            refine .ok _ _ (.reject _ _ _ _ _ ky hs' ⟨rfl, ?_⟩)
            intro q i hi
            show r.2.rows q i = V q i
            rw [hr.2]; exact hdV q i hi
        | abort => exact .abort
        | ub => exact .ub
        | nan => exact .nan
        | diverge => exact .diverge
    · rw [if_neg hw, if_neg hw]
      exact next

theorem allowed_lt {D i : Nat} (hD : 0 < D) : allowed D i < D := by
  unfold allowed
  dsimp only
  split_ifs <;> omega

/-- after a rejection the rank stays below the depth of the table -/
theorem setNext_rank {p : Params F} {c c' : State F} {k : Nat} {a : F} (hr : c.rank < p.maxDepth) (hj : c.reject = true)
    (e : setNextIteration p c k = .ok (a, c')) : c'.rank < p.maxDepth := by
  have hD : 0 < p.maxDepth := by omega
  unfold setNextIteration at e
  by_cases h1 : (!c.first) = true
  · rw [if_pos h1] at e
    by_cases h2 : k + 1 = c.rank ∨ k = c.rank
    · rw [if_pos h2] at e
      obtain ⟨_, _, e⟩ := Res.bind_eq_ok.1 e
      obtain ⟨_, _, e⟩ := Res.bind_eq_ok.1 e
      split_ifs at e
      all_goals
        obtain ⟨_, _, e⟩ := Res.bind_eq_ok.1 e
        obtain ⟨_, rfl⟩ := Prod.mk.inj (Res.ok.inj e)
        exact allowed_lt hD
    · rw [if_neg h2] at e
      by_cases h3 : k = c.rank + 1
      · rw [if_pos h3] at e
        obtain ⟨_, _, e⟩ := Res.bind_eq_ok.1 e
        dsimp only at e
        obtain ⟨_, _, e⟩ := Res.bind_eq_ok.1 e
        obtain ⟨_, _, e⟩ := Res.bind_eq_ok.1 e
        obtain ⟨_, rfl⟩ := Prod.mk.inj (Res.ok.inj e)
        split_ifs
        all_goals first | exact allowed_lt hD | exact hr
      · rw [if_neg h3] at e; cases e
  · rw [if_neg h1, hj] at e
    obtain ⟨_, _, e⟩ := Res.bind_eq_ok.1 e
    obtain ⟨_, rfl⟩ := Prod.mk.inj (Res.ok.inj e)
    exact hr

theorem columnsP_rank {O : IterSys S F} {p : Params F} {input : List F} {h : F} (m : Nat) : ∀ (k : Nat) (c : State F) (s : S) (x : Exit S F),
    c.rank < p.maxDepth → columnsP O p input h m k c s = .ok x →
    match x with
    | .accept _ _ _ => True
    | .reject _ _ c' => c'.rank < p.maxDepth
    | .exhausted _ c' => c'.rank < p.maxDepth := by
  induction m with
  | zero =>
    intro k c s x hr e
    obtain rfl := Res.ok.inj e
    exact hr
  | succ m ih =>
    intro k c s x hr e
    unfold columnsP at e
    obtain ⟨_, _, e⟩ := Res.bind_eq_ok.1 e
    dsimp only at e
    have hr' : (evalColumn p input h c k).1.rank < p.maxDepth := hr
    split_ifs at e
    · obtain ⟨_, _, e⟩ := Res.bind_eq_ok.1 e
      obtain ⟨_, _, e⟩ := Res.bind_eq_ok.1 e
      obtain rfl := Res.ok.inj e
      trivial
    · obtain ⟨b, _, e⟩ := Res.bind_eq_ok.1 e
      cases b with
      | false => exact ih _ _ _ _ hr' e
      | true =>
        obtain ⟨r, er, e⟩ := Res.bind_eq_ok.1 e
        obtain rfl := Res.ok.inj e
        exact setNext_rank (c := { (evalColumn p input h c k).1 with reject := true, rejNum := (evalColumn p input h c k).1.rejNum + 1 }) hr' rfl er
    · exact ih _ _ _ _ hr' e

/-- how the outcomes of the two variants are related -/
def FinRel (O : IterSys S F) (π : S → S) (n : Nat) (a : S × F × State F) (b : S × F × State F × Captured F) : Prop :=
  π (O.clear a.1) = π (O.clear b.1) ∧ a.2.1 = b.2.1 ∧ Near n a.2.2 b.2.2.1

theorem Then.ok_of {α β : Type} {x : Res α} {b : β} {k : α → Prop} (t : Then x (.ok b) k) : ∃ a, x = .ok a ∧ k a := by
  cases x with
  | ok a => exact ⟨a, rfl, t⟩
  | _ => cases t

theorem attempts_both {O : IterSys S F} {π : S → S} {K : S → Prop} (L : Forgets O π K) {p : Params F} {s0 x0 : S} {input : List F}
    (hK0 : K x0) (hx : reset O s0 input = .ok x0) (tries : Nat) : ∀ (h : F) (c : State F) (T : Nat → Arr F) (s s' : S)
    (r : Res (S × F × State F × Captured F)), Kin O π K s0 s → Kin O π K s0 s' → π (O.clear s) = π x0 →
    (∀ q i, input.length ≤ i → c.rows q i = T q i) → AttemptsP O p input true tries h (withRows c T) .self s' r →
    ((∃ b, r = .ok b) ∨ (c.rank < p.maxDepth ∧ ∀ h q, q ≤ p.maxDepth → ∃ y, O.integrate h (hSeq p.maxDepth q) x0 = .ok y)) →
    Both (FinRel O π input.length) (attempts O p input tries h c s) r := by
  induction tries with
  | zero =>
    intro h c T s s' r _ _ _ _ e _
    rw [show r = .abort from e]
    exact .abort
  | succ tries ih =>
    intro h c T s s' r ks ks' hc hT e good
    obtain ⟨x, ph, th⟩ := e
    obtain ⟨x1, hx', e1⟩ := Both.right (ks'.2 input) hx
    have hK1 : K x1 := by
      obtain ⟨z, ez, e2⟩ := Res.bind_eq_ok.1 hx'
      rw [← Res.ok.inj e2]; exact ((ks'.rd L ez).clr L).1
    -- the phase ends normally
    have hok : ∃ y, x = .ok y := by
      rcases good with ⟨b, rfl⟩ | ⟨hr, tot⟩
      · obtain ⟨a, ha, _⟩ := th.ok_of
        exact ⟨a, ha⟩
      · exact phase_total L hK1 (v := ⟨input, .ok h⟩) hx' rfl ks'.1 (fun q hq => ⟨by have : (withRows c T).rank = c.rank := rfl; omega,
          (tot h q (by have : (withRows c T).rank = c.rank := rfl; omega)).elim fun y hy => (run_from L hK0 hK1 e1.symm hy).elim fun w hw => ⟨w, hw.1⟩⟩) ph
    obtain ⟨⟨rows, s1⟩, rfl⟩ := hok
    obtain ⟨k1, fill, above⟩ := phase_ok L hK1 (v := ⟨input, .ok h⟩) hx' rfl ks'.1 ph
    have k1 : Kin O π K s0 s1 := ⟨k1.1, fun v => (k1.2 v).trans (ks'.2 v)⟩
    obtain ⟨y1, ey1, _, hy1⟩ := fill 0 (Nat.zero_le _)
    obtain ⟨y0, ey0, ei0⟩ := run_from L hK1 (ks.clr L).1 (e1.trans hc.symm) ey1
    have hy0 : rows 0 = copyRow input.length (O.inc y0) (T 0) := by rw [hy1, ei0]; rfl
    have th := th
    unfold Then at th
    dsimp only at th
    -- the serial attempt
    unfold attempts
    dsimp only
    rw [ey0, Res.ok_bind]
    obtain ⟨d, hd⟩ : ∃ d : State F, d = { c with iterNum := c.iterNum + 1, rows := fun q => if q = 0 then copyRow input.length (O.inc y0) (c.rows 0) else c.rows q } := ⟨_, rfl⟩
    have hdr : d.rank = c.rank := by rw [hd]
    have B : Both (ExitRel O π K s0 input.length) (columns O p input h (c.rank + 1) 1 d y0) (columnsP O p input h (c.rank + 1) 1 (withRows d rows) s1) := by
      have ky : Kin O π K s0 y0 := (ks.clr L).int L ey0
      refine columns_both L hK0 hx _ 1 d rows y0 s1 le_rfl ky k1 (fun q i hi => ?_) (fun q hq => ?_) (fun q h1 h2 => ?_)
      · have old : rows q i = T q i := by
          by_cases hq : q ≤ c.rank + 1
          · obtain ⟨y, _, _, e⟩ := fill q hq
            rw [e]; exact if_neg (by show ¬ i < input.length; omega)
          · rw [above q (by show c.rank + 1 < q; omega)]; rfl
        rw [old, hd]
        dsimp only
        by_cases hq : q = 0
        · rw [if_pos hq, hq]
          unfold copyRow
          rw [if_neg (by omega)]; exact hT 0 i hi
        · rw [if_neg hq]; exact hT q i hi
      · have hq0 : q = 0 := by omega
        rw [hq0, hy0, hd]
        dsimp only
        rw [if_pos rfl]
        funext i
        unfold copyRow
        by_cases hi : i < input.length
        · rw [if_pos hi, if_pos hi]
        · rw [if_neg hi, if_neg hi]; exact hT 0 i (by omega)
      · obtain ⟨y, a, b, e⟩ := fill q (by show q ≤ c.rank + 1; omega)
        obtain ⟨w, hw, ew⟩ := run_from L hK1 hK0 e1 a
        refine ⟨w, hw, b, fun i hi => ?_⟩
        rw [e, ew]; exact if_pos hi
    have hPar : columnsP O p input h ((withRows c T).rank + 1) 1 (Captured.put rows { (withRows c T) with iterNum := (withRows c T).iterNum + 1 } Captured.self).1 s1
        = columnsP O p input h (c.rank + 1) 1 (withRows d rows) s1 := by rw [hd]; rfl
    rw [hPar] at th
    have rk := columnsP_rank (O := O) (p := p) (input := input) (h := h) (c.rank + 1) 1 (withRows d rows) s1
    rw [← hd]
    generalize columns O p input h (c.rank + 1) 1 d y0 = X at B ⊢
    generalize columnsP O p input h (c.rank + 1) 1 (withRows d rows) s1 = Y at B th rk
    have again : ∀ (t t' : S) (h' : F) (e e' : State F), Kin O π K s0 t → Kin O π K s0 t' → Near input.length e e' →
        (c.rank < p.maxDepth → e'.rank < p.maxDepth) →
        Then (O.read t' input) r (fun s => AttemptsP O p input true tries h' e' .self s r) →
        Both (FinRel O π input.length) (O.read t input >>= fun s => attempts O p input tries h' e s) r := by
      intro t t' h' e e' kt kt' ne rk th
      have hT' := ne.2
      have ee : e' = withRows e e'.rows := ne.1
      have er : e'.rank = e.rank := by rw [ee]; rfl
      obtain ⟨z, ez, ec⟩ := reset_ok kt hx
      obtain ⟨z', ez', ec'⟩ := reset_ok kt' hx
      rw [ez, Res.ok_bind]
      rw [ez'] at th
      have th : AttemptsP O p input true tries h' e' .self z' r := th
      rw [ee] at th
      refine ih h' e e'.rows z z' r (kt.rd L ez) (kt'.rd L ez') ec hT' th ?_
      rcases good with g | ⟨g, tot⟩
      · exact .inl g
      · exact .inr ⟨by rw [← er]; exact rk g, tot⟩
    cases B with
    | ok a b R =>
      rw [Res.ok_bind]
      cases R with
      | accept t t' h' e e' hs hc' =>
        rw [show r = .ok (t', h', e', Captured.self) from th]
        exact .ok _ _ ⟨hs, rfl, hc'⟩
      | reject t t' h' e e' kt kt' ne => exact again t t' h' e e' kt kt' ne (fun g => rk _ (by show d.rank < _; rw [hdr]; exact g) rfl) th
      | exhausted t t' e e' kt kt' ne => exact again t t' h e e' kt kt' ne (fun g => rk _ (by show d.rank < _; rw [hdr]; exact g) rfl) th
    | abort => rw [show r = .abort from th]; exact .abort
    | ub => rw [show r = .ub from th]; exact .ub
    | nan => rw [show r = .nan from th]; exact .nan
    | diverge => rw [show r = .diverge from th]; exact .diverge

theorem attemptsP_exists (O : IterSys S F) (p : Params F) (input : List F) (live : Bool) (tries : Nat) : ∀ (h : F) (c : State F) (w : Captured F) (s : S),
    ∃ r, AttemptsP O p input live tries h c w s r := by
  induction tries with
  | zero => exact fun _ _ _ _ => ⟨.abort, rfl⟩
  | succ tries ih =>
    intro h c w s
    obtain ⟨x, ph⟩ := phase_exists O p ⟨w.input input, if live then .ok h else .ub⟩ c.rank (w.rows c.rows) s
    have fails : ∀ {α : Type} {x : Res α} {k : Res (S × F × State F × Captured F) → α → Prop}, (∀ a, x = .ok a → ∃ r, k r a) → ∃ r, Then x r (k r) := by
      intro α x k H
      cases x with
      | ok a => exact H a rfl
      | abort => exact ⟨.abort, rfl⟩
      | ub => exact ⟨.ub, rfl⟩
      | nan => exact ⟨.nan, rfl⟩
      | diverge => exact ⟨.diverge, rfl⟩
    suffices H : ∃ r, Then x r fun (rows, s1) =>
        let cw := w.put rows { c with iterNum := c.iterNum + 1 }
        Then (columnsP O p input h (c.rank + 1) 1 cw.1 s1) r fun
          | .accept s h c => r = .ok (s, h, c, cw.2)
          | .reject s h c => Then (O.read s input) r fun s => AttemptsP O p input live tries h c cw.2 s r
          | .exhausted s c => Then (O.read s input) r fun s => AttemptsP O p input live tries h c cw.2 s r by
      obtain ⟨r, hr⟩ := H
      exact ⟨r, x, ph, hr⟩
    refine fails fun a _ => fails fun b _ => ?_
    cases b with
    | accept s h c => exact ⟨_, rfl⟩
    | reject s h c => exact fails fun s _ => ih _ _ _ _
    | exhausted s c => exact fails fun s _ => ih _ _ _ _

end SpaceHub.BS.Par
