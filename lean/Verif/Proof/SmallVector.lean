import Verif.Model.SmallVector
import Mathlib.Tactic.SplitIfs
import Mathlib.Data.List.Basic
import Mathlib.Data.List.Induction

/-
The memory-level model of `SmallVector`: what its loops and operations leave behind.
-/

set_option autoImplicit false

namespace SpaceHub.SV

variable {T : Type} {pod : Bool}

/-! ### memory -/

@[simp] theorem Mem.set_same (m : Mem T) (b : Nat) (B : Option (Block T)) : (m.set b B).blocks b = B := if_pos rfl

theorem Mem.set_other (m : Mem T) {b c : Nat} (B : Option (Block T)) (h : c ≠ b) : (m.set b B).blocks c = m.blocks c := if_neg h

@[simp] theorem Mem.set_next (m : Mem T) (b : Nat) (B : Option (Block T)) : (m.set b B).next = m.next := rfl

theorem Mem.same {m m' : Mem T} (h1 : m.next = m'.next) (h2 : m.blocks = m'.blocks) : m = m' := by
  cases m; cases m'; cases h1; cases h2; rfl

@[simp] theorem Mem.set_set (m : Mem T) (b : Nat) (B C : Option (Block T)) : (m.set b B).set b C = m.set b C := by
  refine Mem.same rfl (funext fun c => ?_)
  simp only [Mem.set]
  split_ifs <;> rfl

theorem Mem.set_self (m : Mem T) {b : Nat} {B : Option (Block T)} (h : m.blocks b = B) : m.set b B = m := by
  refine Mem.same rfl (funext fun c => ?_)
  simp only [Mem.set]
  split_ifs with e
  · rw [e, h]
  · rfl

theorem Mem.set_comm (m : Mem T) {b c : Nat} (B C : Option (Block T)) (h : b ≠ c) : (m.set b B).set c C = (m.set c C).set b B := by
  refine Mem.same rfl (funext fun d => ?_)
  simp only [Mem.set]
  split_ifs with e1 e2 <;> first | rfl | exact absurd (e2.symm.trans e1) h

section
variable {m : Mem T} {b n i : Nat} {f : Nat → Cell T}

theorem get_ok (h : m.blocks b = some ⟨n, f⟩) (hi : i < n) : m.get b i = .ok (f i) := by
  unfold Mem.get; rw [h]; exact if_pos hi

theorem put_ok (h : m.blocks b = some ⟨n, f⟩) (hi : i < n) (c : Cell T) : m.put b i c = .ok (m.set b (some ⟨n, fun j => if j = i then c else f j⟩)) := by
  unfold Mem.put; rw [h]; exact if_pos hi

theorem read_ok (h : m.blocks b = some ⟨n, f⟩) (hi : i < n) {x : T} (hx : f i = .val x) : m.read b i = .ok x := by
  unfold Mem.read; rw [get_ok h hi, hx]; rfl

theorem raw_of {c : Cell T} (h : c = .raw) : c.isRaw = true := by rw [h]; rfl

theorem not_raw {c : Cell T} (h : c ≠ .raw) : c.isRaw = false := by cases c <;> first | rfl | exact absurd rfl h

theorem construct_ok (h : m.blocks b = some ⟨n, f⟩) (hi : i < n) (x : T) (hr : pod = false → f i = .raw) :
    construct pod m b i x = .ok (m.set b (some ⟨n, fun j => if j = i then .val x else f j⟩)) := by
  unfold construct
  rw [get_ok h hi]
  show (if _ then _ else _) = _
  rw [if_pos (by cases pod <;> simp [raw_of, hr]), put_ok h hi]

theorem assign_ok (h : m.blocks b = some ⟨n, f⟩) (hi : i < n) (x : T) (hr : pod = false → f i ≠ .raw) :
    assignAt pod m b i x = .ok (m.set b (some ⟨n, fun j => if j = i then .val x else f j⟩)) := by
  unfold assignAt
  rw [get_ok h hi]
  show (if _ then _ else _) = _
  rw [if_pos (by cases pod <;> simp [not_raw, hr]), put_ok h hi]

theorem destroyAt_ok (h : m.blocks b = some ⟨n, f⟩) (hi : i < n) (hr : pod = false → f i ≠ .raw) :
    destroyAt pod m b i = .ok (m.set b (some ⟨n, fun j => if j = i ∧ pod = false then .raw else f j⟩)) := by
  unfold destroyAt
  cases pod
  · rw [if_neg (by simp), get_ok h hi]
    show (if _ then _ else _) = _
    rw [not_raw (hr rfl), if_neg (by simp), put_ok h hi]
    simp
  · rw [if_pos rfl]
    simp only [Bool.true_eq_false, and_false, if_false]
    rw [Mem.set_self _ h]

theorem moveOut_ok (h : m.blocks b = some ⟨n, f⟩) (hi : i < n) {x : T} (hx : f i = .val x) :
    moveOut pod m b i = .ok (x, m.set b (some ⟨n, fun j => if j = i ∧ pod = false then .husk else f j⟩)) := by
  unfold moveOut
  rw [read_ok h hi hx]
  show (if _ then _ else _) = _
  cases pod
  · rw [if_neg (by simp), put_ok h hi]
    simp; rfl
  · rw [if_pos rfl]
    simp only [Bool.true_eq_false, and_false, if_false]
    rw [Mem.set_self _ h]

theorem free_ok (h : m.blocks b = some ⟨n, f⟩) (hr : pod = false → ∀ i, f i = .raw) : free pod m b = .ok (m.set b none) := by
  unfold free
  rw [h]
  show (if _ then _ else _) = _
  rw [if_pos]
  cases pod
  · simp only [Bool.false_or, List.all_eq_true]
    exact fun i _ => raw_of (hr rfl i)
  · rfl

end

/-! ### cells -/

/-- the elements of a list from `d` on -/
def lay (d : Nat) (xs : List T) (f : Nat → Cell T) : Nat → Cell T :=
  fun i => if d ≤ i ∧ i < d + xs.length then (match xs[i - d]? with | some x => .val x | none => .husk) else f i

/-- nothing in the cells from `s` on -/
def wipe (pod : Bool) (s n : Nat) (f : Nat → Cell T) : Nat → Cell T := fun i => if (s ≤ i ∧ i < s + n) ∧ pod = false then .raw else f i

/-- the cells from `s` on were moved from -/
def drain (pod : Bool) (s n : Nat) (f : Nat → Cell T) : Nat → Cell T := fun i => if (s ≤ i ∧ i < s + n) ∧ pod = false then .husk else f i

/-- the elements of a list are in the cells from `s` on -/
def Has (f : Nat → Cell T) (s : Nat) (xs : List T) : Prop := ∀ i x, xs[i]? = some x → f (s + i) = .val x

theorem Has.nil (f : Nat → Cell T) (s : Nat) : Has f s [] := fun i x h => by simp at h

theorem Has.cons {f : Nat → Cell T} {s : Nat} {x : T} {xs : List T} : Has f s (x :: xs) ↔ f s = .val x ∧ Has f (s + 1) xs := by
  constructor
  · intro h
    refine ⟨h 0 x rfl, fun i y hy => ?_⟩
    have := h (i + 1) y (by simpa using hy)
    rwa [show s + (i + 1) = s + 1 + i by omega] at this
  · intro ⟨h0, h⟩ i y hy
    cases i with
    | zero => simp at hy; rw [← hy]; exact h0
    | succ i =>
      rw [show s + (i + 1) = s + 1 + i by omega]
      exact h i y (by simpa using hy)

theorem Has.append {f : Nat → Cell T} {s : Nat} {xs ys : List T} : Has f s (xs ++ ys) ↔ Has f s xs ∧ Has f (s + xs.length) ys := by
  induction xs generalizing s with
  | nil => simp [Has.nil]
  | cons x xs ih =>
    rw [List.cons_append, Has.cons, Has.cons, ih, List.length_cons, show s + (xs.length + 1) = s + 1 + xs.length by omega]
    tauto

theorem Has.congr {f g : Nat → Cell T} {s : Nat} {xs : List T} (h : Has f s xs) (hg : ∀ i, s ≤ i → i < s + xs.length → g i = f i) : Has g s xs := fun i x hx => by
  have : i < xs.length := by
    by_contra hc
    rw [List.getElem?_eq_none (by omega)] at hx
    cases hx
  rw [hg _ (by omega) (by omega)]
  exact h i x hx

theorem Has.ne_raw {f : Nat → Cell T} {s : Nat} {xs : List T} (h : Has f s xs) (i : Nat) (h1 : s ≤ i) (h2 : i < s + xs.length) : f i ≠ .raw := by
  have := h (i - s) (xs[i - s]'(by omega)) (List.getElem?_eq_getElem _)
  rw [show s + (i - s) = i by omega] at this
  rw [this]; intro hh; cases hh

theorem has_lay (d : Nat) (xs : List T) (f : Nat → Cell T) : Has (lay d xs f) d xs := fun i x hx => by
  have : i < xs.length := by
    by_contra hc
    rw [List.getElem?_eq_none (by omega)] at hx
    cases hx
  unfold lay
  rw [if_pos (by omega), Nat.add_sub_cancel_left, hx]

theorem lay_out {d : Nat} {xs : List T} {f : Nat → Cell T} {i : Nat} (h : i < d ∨ d + xs.length ≤ i) : lay d xs f i = f i := by
  unfold lay; rw [if_neg (by omega)]

theorem lay_raw {d : Nat} {xs : List T} {f : Nat → Cell T} {i : Nat} (h : f i ≠ .raw) : lay d xs f i ≠ .raw := by
  by_cases hi : d ≤ i ∧ i < d + xs.length
  · exact (has_lay d xs f).ne_raw i hi.1 hi.2
  · rwa [lay_out (by omega)]

theorem drain_raw {s n : Nat} {f : Nat → Cell T} {i : Nat} (h : f i ≠ .raw) : drain pod s n f i ≠ .raw := by
  unfold drain
  split_ifs
  · intro hh; cases hh
  · exact h

theorem drain_out {s n : Nat} {f : Nat → Cell T} {i : Nat} (h : i < s ∨ s + n ≤ i) : drain pod s n f i = f i := if_neg (by omega)

theorem drain_in {s n : Nat} {f : Nat → Cell T} {i : Nat} (hp : pod = false) (h1 : s ≤ i) (h2 : i < s + n) : drain pod s n f i = .husk := if_pos ⟨⟨h1, h2⟩, hp⟩

theorem wipe_out {s n : Nat} {f : Nat → Cell T} {i : Nat} (h : i < s ∨ s + n ≤ i) : wipe pod s n f i = f i := if_neg (by omega)

theorem wipe_in {s n : Nat} {f : Nat → Cell T} {i : Nat} (hp : pod = false) (h1 : s ≤ i) (h2 : i < s + n) : wipe pod s n f i = .raw := if_pos ⟨⟨h1, h2⟩, hp⟩

theorem lay_nil (d : Nat) (f : Nat → Cell T) : lay d [] f = f := funext fun i => by
  unfold lay; rw [if_neg]; simp only [List.length_nil]; omega

theorem lay_cons (d : Nat) (x : T) (xs : List T) (f : Nat → Cell T) : lay (d + 1) xs (fun j => if j = d then .val x else f j) = lay d (x :: xs) f := by
  funext i
  unfold lay
  dsimp only
  by_cases h1 : i = d
  · subst h1
    rw [if_neg (by omega), if_pos rfl, if_pos (by simp), Nat.sub_self]
    rfl
  by_cases h2 : d + 1 ≤ i ∧ i < d + 1 + xs.length
  · rw [if_pos h2, if_pos (by rw [List.length_cons]; omega), show i - d = i - (d + 1) + 1 by omega, List.getElem?_cons_succ]
  · rw [if_neg h2, if_neg h1, if_neg (by rw [List.length_cons]; omega)]

theorem lay_append (d : Nat) (xs ys : List T) (f : Nat → Cell T) : lay d xs (lay (d + xs.length) ys f) = lay d (xs ++ ys) f := by
  induction xs generalizing d f with
  | nil => rw [lay_nil]; simp
  | cons x xs ih =>
    rw [List.cons_append, ← lay_cons, ← lay_cons, ← ih]
    congr 1
    funext i
    rw [List.length_cons, show d + (xs.length + 1) = d + 1 + xs.length by omega]
    by_cases h : i = d
    · subst h; rw [if_pos rfl, lay_out (by omega), if_pos rfl]
    · rw [if_neg h]
      by_cases h2 : d + 1 + xs.length ≤ i ∧ i < d + 1 + xs.length + ys.length
      · have e1 := has_lay (d + 1 + xs.length) ys f (i - (d + 1 + xs.length)) (ys[i - (d + 1 + xs.length)]'(by omega)) (List.getElem?_eq_getElem _)
        have e2 := has_lay (d + 1 + xs.length) ys (fun j => if j = d then .val x else f j) (i - (d + 1 + xs.length)) (ys[i - (d + 1 + xs.length)]'(by omega)) (List.getElem?_eq_getElem _)
        rw [show d + 1 + xs.length + (i - (d + 1 + xs.length)) = i by omega] at e1 e2
        exact e1.trans e2.symm
      · rw [lay_out (by omega), lay_out (by omega), if_neg h]

theorem drain_zero (s : Nat) (f : Nat → Cell T) : drain pod s 0 f = f := funext fun i => if_neg (by omega)

theorem wipe_zero (s : Nat) (f : Nat → Cell T) : wipe pod s 0 f = f := funext fun i => if_neg (by omega)

/-! ### loops -/

section
variable {m : Mem T} {b b' len len' : Nat} {f f' : Nat → Cell T}

theorem destroyRange_ok (s n : Nat) : ∀ {m : Mem T} {f : Nat → Cell T}, m.blocks b = some ⟨len, f⟩ → s + n ≤ len →
    (pod = false → ∀ i, s ≤ i → i < s + n → f i ≠ .raw) → destroyRange pod m b s n = .ok (m.set b (some ⟨len, wipe pod s n f⟩)) := by
  induction n with
  | zero => intro m f h _ _; rw [wipe_zero, Mem.set_self _ h]; rfl
  | succ n ih =>
    intro m f h hl hr
    unfold destroyRange
    rw [destroyAt_ok h (by omega) (fun hp => hr hp _ (by omega) (by omega))]
    show destroyRange pod _ b s n = _
    rw [ih (Mem.set_same _ _ _) (by omega) (fun hp i h1 h2 => by rw [if_neg (by omega)]; exact hr hp i h1 (by omega)), Mem.set_set]
    congr 4
    funext i
    unfold wipe
    dsimp only
    by_cases hp : pod = false
    · by_cases h1 : s ≤ i ∧ i < s + n
      · rw [if_pos ⟨h1, hp⟩, if_pos ⟨by omega, hp⟩]
      · rw [if_neg (fun h => by omega)]
        by_cases h2 : i = s + n
        · rw [if_pos ⟨h2, hp⟩, if_pos ⟨by omega, hp⟩]
        · rw [if_neg (fun h => by omega), if_neg (fun h => by omega)]
    · rw [if_neg (by tauto), if_neg (by tauto), if_neg (by tauto)]

theorem uninitList_ok (xs : List T) : ∀ {m : Mem T} {f : Nat → Cell T} (d : Nat), m.blocks b = some ⟨len, f⟩ → d + xs.length ≤ len →
    (pod = false → ∀ i, d ≤ i → i < d + xs.length → f i = .raw) → uninitList pod m b d xs = .ok (m.set b (some ⟨len, lay d xs f⟩)) := by
  induction xs with
  | nil => intro m f d h _ _; rw [lay_nil, Mem.set_self _ h]; rfl
  | cons x xs ih =>
    intro m f d h hl hr
    rw [List.length_cons] at hl hr
    unfold uninitList
    rw [construct_ok h (by omega) x (fun hp => hr hp _ (by omega) (by omega))]
    show uninitList pod _ b (d + 1) xs = _
    rw [ih (d + 1) (Mem.set_same _ _ _) (by omega) (fun hp i h1 h2 => by rw [if_neg (by omega)]; exact hr hp i (by omega) (by omega)), Mem.set_set, lay_cons]

theorem copyList_ok (xs : List T) : ∀ {m : Mem T} {f : Nat → Cell T} (d : Nat), m.blocks b = some ⟨len, f⟩ → d + xs.length ≤ len →
    (pod = false → ∀ i, d ≤ i → i < d + xs.length → f i ≠ .raw) → copyList pod m b d xs = .ok (m.set b (some ⟨len, lay d xs f⟩)) := by
  induction xs with
  | nil => intro m f d h _ _; rw [lay_nil, Mem.set_self _ h]; rfl
  | cons x xs ih =>
    intro m f d h hl hr
    rw [List.length_cons] at hl hr
    unfold copyList
    rw [assign_ok h (by omega) x (fun hp => hr hp _ (by omega) (by omega))]
    show copyList pod _ b (d + 1) xs = _
    rw [ih (d + 1) (Mem.set_same _ _ _) (by omega) (fun hp i h1 h2 => by rw [if_neg (by omega)]; exact hr hp i (by omega) (by omega)), Mem.set_set, lay_cons]

theorem uninitFill_eq (x : T) (n : Nat) : ∀ (m : Mem T) (b d : Nat), uninitFill pod m b d (.ext x) n = uninitList pod m b d (List.replicate n x) := by
  induction n with
  | zero => intro m b d; rfl
  | succ n ih =>
    intro m b d
    show (construct pod m b d x).bind _ = (construct pod m b d x).bind _
    congr 1
    funext m'
    exact ih m' b (d + 1)

theorem fill_eq (x : T) (n : Nat) : ∀ (m : Mem T) (b d : Nat), fill pod m b d (.ext x) n = copyList pod m b d (List.replicate n x) := by
  induction n with
  | zero => intro m b d; rfl
  | succ n ih =>
    intro m b d
    show (assignAt pod m b d x).bind _ = (assignAt pod m b d x).bind _
    congr 1
    funext m'
    exact ih m' b (d + 1)

theorem uninitCopy_ok (hb : b ≠ b') (ys : List T) : ∀ {m : Mem T} {f' : Nat → Cell T} (s d : Nat), m.blocks b = some ⟨len, f⟩ → m.blocks b' = some ⟨len', f'⟩ →
    Has f s ys → s + ys.length ≤ len → d + ys.length ≤ len' → (pod = false → ∀ i, d ≤ i → i < d + ys.length → f' i = .raw) →
    uninitCopy pod m b s b' d ys.length = .ok (m.set b' (some ⟨len', lay d ys f'⟩)) := by
  induction ys with
  | nil => intro m f' s d _ h' _ _ _ _; rw [lay_nil, Mem.set_self _ h']; rfl
  | cons x xs ih =>
    intro m f' s d h h' hh hs hd hr
    rw [Has.cons] at hh
    rw [List.length_cons] at hs hd hr ⊢
    unfold uninitCopy
    rw [read_ok h (by omega) hh.1]
    show (construct pod m b' d x).bind _ = _
    rw [construct_ok h' (by omega) x (fun hp => hr hp _ (by omega) (by omega))]
    show uninitCopy pod _ b (s + 1) b' (d + 1) xs.length = _
    rw [ih (s + 1) (d + 1) (by rw [Mem.set_other _ _ hb]; exact h) (Mem.set_same _ _ _) hh.2 (by omega) (by omega)
      (fun hp i h1 h2 => by rw [if_neg (by omega)]; exact hr hp i (by omega) (by omega)), Mem.set_set, lay_cons]

theorem copyRange_ok (hb : b ≠ b') (ys : List T) : ∀ {m : Mem T} {f' : Nat → Cell T} (s d : Nat), m.blocks b = some ⟨len, f⟩ → m.blocks b' = some ⟨len', f'⟩ →
    Has f s ys → s + ys.length ≤ len → d + ys.length ≤ len' → (pod = false → ∀ i, d ≤ i → i < d + ys.length → f' i ≠ .raw) →
    copyRange pod m b s b' d ys.length = .ok (m.set b' (some ⟨len', lay d ys f'⟩)) := by
  induction ys with
  | nil => intro m f' s d _ h' _ _ _ _; rw [lay_nil, Mem.set_self _ h']; rfl
  | cons x xs ih =>
    intro m f' s d h h' hh hs hd hr
    rw [Has.cons] at hh
    rw [List.length_cons] at hs hd hr ⊢
    unfold copyRange
    rw [read_ok h (by omega) hh.1]
    show (assignAt pod m b' d x).bind _ = _
    rw [assign_ok h' (by omega) x (fun hp => hr hp _ (by omega) (by omega))]
    show copyRange pod _ b (s + 1) b' (d + 1) xs.length = _
    rw [ih (s + 1) (d + 1) (by rw [Mem.set_other _ _ hb]; exact h) (Mem.set_same _ _ _) hh.2 (by omega) (by omega)
      (fun hp i h1 h2 => by rw [if_neg (by omega)]; exact hr hp i (by omega) (by omega)), Mem.set_set, lay_cons]

theorem drain_succ (s n : Nat) (f : Nat → Cell T) : drain pod (s + 1) n (fun j => if j = s ∧ pod = false then .husk else f j) = drain pod s (n + 1) f := by
  funext i
  unfold drain
  dsimp only
  by_cases hp : pod = false
  · by_cases h1 : s + 1 ≤ i ∧ i < s + 1 + n
    · rw [if_pos ⟨h1, hp⟩, if_pos ⟨by omega, hp⟩]
    · rw [if_neg (fun h => by omega)]
      by_cases h2 : i = s
      · rw [if_pos ⟨h2, hp⟩, if_pos ⟨by omega, hp⟩]
      · rw [if_neg (fun h => by omega), if_neg (fun h => by omega)]
  · rw [if_neg (by tauto), if_neg (by tauto), if_neg (by tauto)]

/-- moving to another block, into new elements -/
theorem uninitMove_ok (hb : b ≠ b') (ys : List T) : ∀ {m : Mem T} {f f' : Nat → Cell T} (s d : Nat), m.blocks b = some ⟨len, f⟩ → m.blocks b' = some ⟨len', f'⟩ →
    Has f s ys → s + ys.length ≤ len → d + ys.length ≤ len' → (pod = false → ∀ i, d ≤ i → i < d + ys.length → f' i = .raw) →
    uninitMove pod m b s b' d ys.length = .ok ((m.set b (some ⟨len, drain pod s ys.length f⟩)).set b' (some ⟨len', lay d ys f'⟩)) := by
  induction ys with
  | nil =>
    intro m f f' s d h h' _ _ _ _
    rw [lay_nil, List.length_nil, drain_zero, Mem.set_self _ h, Mem.set_self _ h']
    rfl
  | cons x xs ih =>
    intro m f f' s d h h' hh hs hd hr
    rw [Has.cons] at hh
    rw [List.length_cons] at hs hd hr ⊢
    unfold uninitMove
    rw [moveOut_ok h (by omega) hh.1]
    show (construct pod _ b' d x).bind _ = _
    rw [construct_ok (f := f') (by rw [Mem.set_other _ _ hb.symm]; exact h') (by omega) x (fun hp => hr hp _ (by omega) (by omega))]
    show uninitMove pod _ b (s + 1) b' (d + 1) xs.length = _
    rw [ih (s + 1) (d + 1) (by rw [Mem.set_other _ _ hb]; exact Mem.set_same _ _ _) (Mem.set_same _ _ _)
      (hh.2.congr fun i h1 h2 => if_neg (by omega)) (by omega) (by omega)
      (fun hp i h1 h2 => by rw [if_neg (by omega)]; exact hr hp i (by omega) (by omega)), lay_cons, drain_succ]
    rw [Mem.set_comm _ _ _ hb.symm, Mem.set_set, Mem.set_set]

/-- moving to another block, into existing elements -/
theorem moveRange_ok (hb : b ≠ b') (ys : List T) : ∀ {m : Mem T} {f f' : Nat → Cell T} (s d : Nat), m.blocks b = some ⟨len, f⟩ → m.blocks b' = some ⟨len', f'⟩ →
    Has f s ys → s + ys.length ≤ len → d + ys.length ≤ len' → (pod = false → ∀ i, d ≤ i → i < d + ys.length → f' i ≠ .raw) →
    moveRange pod m b s b' d ys.length = .ok ((m.set b (some ⟨len, drain pod s ys.length f⟩)).set b' (some ⟨len', lay d ys f'⟩)) := by
  induction ys with
  | nil =>
    intro m f f' s d h h' _ _ _ _
    rw [lay_nil, List.length_nil, drain_zero, Mem.set_self _ h, Mem.set_self _ h']
    rfl
  | cons x xs ih =>
    intro m f f' s d h h' hh hs hd hr
    rw [Has.cons] at hh
    rw [List.length_cons] at hs hd hr ⊢
    unfold moveRange
    rw [moveOut_ok h (by omega) hh.1]
    show (assignAt pod _ b' d x).bind _ = _
    rw [assign_ok (f := f') (by rw [Mem.set_other _ _ hb.symm]; exact h') (by omega) x (fun hp => hr hp _ (by omega) (by omega))]
    show moveRange pod _ b (s + 1) b' (d + 1) xs.length = _
    rw [ih (s + 1) (d + 1) (by rw [Mem.set_other _ _ hb]; exact Mem.set_same _ _ _) (Mem.set_same _ _ _)
      (hh.2.congr fun i h1 h2 => if_neg (by omega)) (by omega) (by omega)
      (fun hp i h1 h2 => by rw [if_neg (by omega)]; exact hr hp i (by omega) (by omega)), lay_cons, drain_succ]
    rw [Mem.set_comm _ _ _ hb.symm, Mem.set_set, Mem.set_set]

/-- moving within a block, into new elements behind the old ones -/
theorem uninitMove_in (ys : List T) : ∀ {m : Mem T} {f : Nat → Cell T} (s d : Nat), m.blocks b = some ⟨len, f⟩ → Has f s ys → s + ys.length ≤ d →
    d + ys.length ≤ len → (pod = false → ∀ i, d ≤ i → i < d + ys.length → f i = .raw) →
    uninitMove pod m b s b d ys.length = .ok (m.set b (some ⟨len, lay d ys (drain pod s ys.length f)⟩)) := by
  induction ys with
  | nil =>
    intro m f s d h _ _ _ _
    rw [lay_nil, List.length_nil, drain_zero, Mem.set_self _ h]
    rfl
  | cons x xs ih =>
    intro m f s d h hh hs hd hr
    rw [Has.cons] at hh
    rw [List.length_cons] at hs hd hr ⊢
    unfold uninitMove
    rw [moveOut_ok h (by omega) hh.1]
    show (construct pod _ b d x).bind _ = _
    rw [construct_ok (Mem.set_same _ _ _) (by omega) x (fun hp => by rw [if_neg (by omega)]; exact hr hp _ (by omega) (by omega)), Mem.set_set]
    show uninitMove pod _ b (s + 1) b (d + 1) xs.length = _
    rw [ih (s + 1) (d + 1) (Mem.set_same _ _ _)
      (hh.2.congr fun i h1 h2 => by rw [if_neg (by omega), if_neg (by omega)]) (by omega) (by omega)
      (fun hp i h1 h2 => by rw [if_neg (by omega), if_neg (by omega)]; exact hr hp i (by omega) (by omega)), Mem.set_set, ← lay_cons, ← drain_succ]
    congr 5
    funext i
    unfold drain
    dsimp only
    by_cases h1 : i = d
    · rw [if_pos h1, if_neg (by omega), if_pos h1]
    · rw [if_neg h1, if_neg h1]

/-- moving within a block to the front, first element first -/
theorem moveRange_in (ys : List T) : ∀ {m : Mem T} {f : Nat → Cell T} (s d : Nat), m.blocks b = some ⟨len, f⟩ → Has f s ys → d ≤ s →
    s + ys.length ≤ len → (pod = false → ∀ i, d ≤ i → i < d + ys.length → f i ≠ .raw) →
    moveRange pod m b s b d ys.length = .ok (m.set b (some ⟨len, lay d ys (drain pod s ys.length f)⟩)) := by
  induction ys with
  | nil =>
    intro m f s d h _ _ _ _
    rw [lay_nil, List.length_nil, drain_zero, Mem.set_self _ h]
    rfl
  | cons x xs ih =>
    intro m f s d h hh hs hd hr
    rw [Has.cons] at hh
    rw [List.length_cons] at hd hr ⊢
    unfold moveRange
    rw [moveOut_ok h (by omega) hh.1]
    show (assignAt pod _ b d x).bind _ = _
    rw [assign_ok (Mem.set_same _ _ _) (by omega) x (fun hp => by
      split_ifs
      · intro hh; cases hh
      · exact hr hp _ (by omega) (by omega)), Mem.set_set]
    show moveRange pod _ b (s + 1) b (d + 1) xs.length = _
    rw [ih (s + 1) (d + 1) (Mem.set_same _ _ _)
      (hh.2.congr fun i h1 h2 => by rw [if_neg (by omega), if_neg (by omega)]) (by omega) (by omega)
      (fun hp i h1 h2 => by
        rw [if_neg (by omega)]
        split_ifs
        · intro hh; cases hh
        · exact hr hp i (by omega) (by omega)), Mem.set_set, ← lay_cons, ← drain_succ]
    congr 5
    funext i
    unfold drain
    dsimp only
    by_cases h1 : i = d
    · rw [if_pos h1, if_neg (by omega), if_pos h1]
    · rw [if_neg h1, if_neg h1]

/-- moving within a block to the back, last element first -/
theorem moveBackward_ok (ys : List T) : ∀ {m : Mem T} {f : Nat → Cell T} (s d : Nat), m.blocks b = some ⟨len, f⟩ → Has f s ys → s ≤ d →
    d + ys.length ≤ len → (pod = false → ∀ i, d ≤ i → i < d + ys.length → f i ≠ .raw) →
    moveBackward pod m b s d ys.length = .ok (m.set b (some ⟨len, lay d ys (drain pod s ys.length f)⟩)) := by
  induction ys using List.reverseRecOn with
  | nil =>
    intro m f s d h _ _ _ _
    rw [lay_nil, List.length_nil, drain_zero, Mem.set_self _ h]
    rfl
  | append_singleton ys x ih =>
    intro m f s d h hh hs hd hr
    rw [Has.append, Has.cons] at hh
    rw [List.length_append, List.length_singleton] at hd hr ⊢
    unfold moveBackward
    rw [moveOut_ok h (by omega) hh.2.1]
    show (assignAt pod _ b (d + ys.length) x).bind _ = _
    rw [assign_ok (Mem.set_same _ _ _) (by omega) x (fun hp => by
      split_ifs
      · intro hh; cases hh
      · exact hr hp _ (by omega) (by omega)), Mem.set_set]
    show moveBackward pod _ b s d ys.length = _
    rw [ih s d (Mem.set_same _ _ _)
      (hh.1.congr fun i h1 h2 => by rw [if_neg (by omega), if_neg (by omega)]) (by omega) (by omega)
      (fun hp i h1 h2 => by
        rw [if_neg (by omega)]
        split_ifs
        · intro hh; cases hh
        · exact hr hp i (by omega) (by omega)), Mem.set_set, ← lay_append, ← lay_cons, lay_nil]
    congr 4
    funext i
    by_cases hi : d ≤ i ∧ i < d + ys.length
    · have e1 := has_lay d ys (drain pod s ys.length fun j => if j = d + ys.length then .val x else if j = s + ys.length ∧ pod = false then .husk else f j)
      have e2 := has_lay d ys (fun j => if j = d + ys.length then .val x else drain pod s (ys.length + 1) f j)
      have q1 := e1 (i - d) (ys[i - d]'(by omega)) (List.getElem?_eq_getElem _)
      have q2 := e2 (i - d) (ys[i - d]'(by omega)) (List.getElem?_eq_getElem _)
      rw [show d + (i - d) = i by omega] at q1 q2
      exact q1.trans q2.symm
    · rw [lay_out (by omega), lay_out (by omega)]
      unfold drain
      dsimp only
      by_cases h1 : i = d + ys.length
      · rw [if_pos h1, if_neg (by omega), if_pos h1]
      · rw [if_neg h1, if_neg h1]
        by_cases hp : pod = false
        · by_cases h2 : s ≤ i ∧ i < s + ys.length
          · rw [if_pos ⟨h2, hp⟩, if_pos ⟨by omega, hp⟩]
          · rw [if_neg (fun h => by omega)]
            by_cases h3 : i = s + ys.length
            · rw [if_pos ⟨h3, hp⟩, if_pos ⟨by omega, hp⟩]
            · rw [if_neg (fun h => by omega), if_neg (fun h => by omega)]
        · rw [if_neg (by tauto), if_neg (by tauto), if_neg (by tauto)]

/-- swapping element by element -/
theorem swapRange_ok (hb : b ≠ b') (ys : List T) : ∀ {m : Mem T} {f f' : Nat → Cell T} (zs : List T) (s : Nat), ys.length = zs.length → m.blocks b = some ⟨len, f⟩ →
    m.blocks b' = some ⟨len', f'⟩ → Has f s ys → Has f' s zs → s + ys.length ≤ len → s + ys.length ≤ len' →
    swapRange pod m b b' s ys.length = .ok ((m.set b (some ⟨len, lay s zs f⟩)).set b' (some ⟨len', lay s ys f'⟩)) := by
  induction ys with
  | nil =>
    intro m f f' zs s hz h h' _ _ _ _
    rw [List.length_nil] at hz
    rw [List.eq_nil_of_length_eq_zero hz.symm, lay_nil, lay_nil, List.length_nil, Mem.set_self _ h, Mem.set_self _ h']
    rfl
  | cons x xs ih =>
    intro m f f' zs s hz h h' hh hh' hs hs'
    cases zs with
    | nil => simp at hz
    | cons z zs =>
      rw [Has.cons] at hh hh'
      rw [List.length_cons] at hs hs' ⊢
      rw [List.length_cons, List.length_cons, Nat.add_right_cancel_iff] at hz
      unfold swapRange
      rw [moveOut_ok h (by omega) hh.1]
      show (moveOut pod _ b' s).bind _ = _
      rw [moveOut_ok (f := f') (x := z) (by rw [Mem.set_other _ _ hb.symm]; exact h') (by omega) hh'.1]
      show (assignAt pod _ b s z).bind _ = _
      rw [assign_ok (n := len) (f := fun j => if j = s ∧ pod = false then .husk else f j) (by rw [Mem.set_other _ _ hb]; exact Mem.set_same _ _ _) (by omega) z (fun hp => by
        rw [if_pos ⟨rfl, hp⟩]; intro hh; cases hh)]
      show (assignAt pod _ b' s x).bind _ = _
      rw [assign_ok (n := len') (f := fun j => if j = s ∧ pod = false then .husk else f' j) (by rw [Mem.set_other _ _ hb.symm]; exact Mem.set_same _ _ _) (by omega) x
        (fun hp => by rw [if_pos ⟨rfl, hp⟩]; intro hh; cases hh)]
      show swapRange pod _ b b' (s + 1) xs.length = _
      have c1 : (fun j => if j = s then Cell.val z else if j = s ∧ pod = false then .husk else f j) = fun j => if j = s then Cell.val z else f j := by
        funext j; split_ifs <;> first | rfl | omega
      have c2 : (fun j => if j = s then Cell.val x else if j = s ∧ pod = false then .husk else f' j) = fun j => if j = s then Cell.val x else f' j := by
        funext j; split_ifs <;> first | rfl | omega
      rw [c1, c2]
      rw [ih (f := fun j => if j = s then Cell.val z else f j) (f' := fun j => if j = s then Cell.val x else f' j) zs (s + 1) hz
        (by rw [Mem.set_other _ _ hb]; exact Mem.set_same _ _ _) (Mem.set_same _ _ _) (hh.2.congr fun i h1 h2 => if_neg (by omega))
        (hh'.2.congr fun i h1 h2 => if_neg (by omega)) (by omega) (by omega), lay_cons, lay_cons]
      congr 1
      refine Mem.same rfl (funext fun c => ?_)
      simp only [Mem.set]
      split_ifs <;> rfl

end
end SpaceHub.SV
