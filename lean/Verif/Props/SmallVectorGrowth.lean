import Verif.Props.SmallVector
import Mathlib.Data.Nat.Bitwise
import Mathlib.Data.Nat.Log

/-
C109: appending one element at a time does not reallocate for each of them.  `n` calls of `push_back` on a new vector allocate at most `log2 n + 1` blocks, the
capacity never exceeds the larger of the inline capacity and a fixed multiple of the number of elements, and a vector whose capacity was reserved allocates nothing.
-/

set_option autoImplicit false

namespace SpaceHub.SV

variable {T : Type} {pod : Bool}

/-! ### `NextPowerOf2` -/

/-- one step of the smearing: bits that were set in the `w` places above are set in the `2 w` places above -/
theorem smear {a x w : Nat} (h : ∀ i, x.testBit i = true ↔ ∃ j, j < w ∧ a.testBit (i + j) = true) (i : Nat) :
    (x ||| (x >>> w)).testBit i = true ↔ ∃ j, j < 2 * w ∧ a.testBit (i + j) = true := by
  rw [Nat.testBit_or, Nat.testBit_shiftRight, Bool.or_eq_true, h i, h (w + i)]
  constructor
  · rintro (⟨j, h1, h2⟩ | ⟨j, h1, h2⟩)
    · exact ⟨j, by omega, h2⟩
    · exact ⟨w + j, by omega, by rw [show i + (w + j) = w + i + j by omega]; exact h2⟩
  · rintro ⟨j, h1, h2⟩
    by_cases hj : j < w
    · exact .inl ⟨j, hj, h2⟩
    · exact .inr ⟨j - w, by omega, by rw [show w + i + (j - w) = i + j by omega]; exact h2⟩

/-- The next power of two, for every positive 64-bit number. -/
theorem nextPowerOf2_eq {a : Nat} (h0 : a ≠ 0) (h : a < 2 ^ 64) : nextPowerOf2 a = 2 ^ (Nat.log 2 a + 1) := by
  have e0 : ∀ i, a.testBit i = true ↔ ∃ j, j < 1 ∧ a.testBit (i + j) = true := fun i =>
    ⟨fun h => ⟨0, by omega, h⟩, fun ⟨j, h1, h2⟩ => by
      have : j = 0 := by omega
      rw [this] at h2; exact h2⟩
  have e1 := smear (smear (smear (smear (smear (smear e0)))))
  unfold nextPowerOf2
  have hlog : 2 ^ Nat.log 2 a ≤ a := Nat.pow_log_le_self 2 h0
  have hlog' : a < 2 ^ (Nat.log 2 a + 1) := Nat.lt_pow_succ_log_self (by omega) a
  have hk : Nat.log 2 a < 64 := by
    by_contra hc
    have : 2 ^ 64 ≤ 2 ^ Nat.log 2 a := Nat.pow_le_pow_right (by omega) (by omega)
    omega
  have htop : a.testBit (Nat.log 2 a) = true := by
    by_contra hc
    have : a < 2 ^ Nat.log 2 a := Nat.lt_pow_two_of_testBit a fun i hi => by
      by_cases hi' : i = Nat.log 2 a
      · rw [hi']; simpa using hc
      · exact Nat.testBit_lt_two_pow (Nat.lt_of_lt_of_le hlog' (Nat.pow_le_pow_right (by omega) (by omega)))
    omega
  have key : ∀ i, (2 ^ (Nat.log 2 a + 1) - 1).testBit i = true ↔ ∃ j, j < 64 ∧ a.testBit (i + j) = true := fun i => by
    rw [Nat.testBit_two_pow_sub_one, decide_eq_true_iff]
    constructor
    · intro hi
      exact ⟨Nat.log 2 a - i, by omega, by rw [show i + (Nat.log 2 a - i) = Nat.log 2 a by omega]; exact htop⟩
    · rintro ⟨j, _, h2⟩
      by_contra hc
      have : a.testBit (i + j) = false := Nat.testBit_lt_two_pow (Nat.lt_of_lt_of_le hlog' (Nat.pow_le_pow_right (by omega) (by omega)))
      rw [this] at h2; cases h2
  have hp : 0 < 2 ^ (Nat.log 2 a + 1) := Nat.pow_pos (by omega)
  have he : _ = 2 ^ (Nat.log 2 a + 1) - 1 := Nat.eq_of_testBit_eq fun i => Bool.eq_iff_iff.2 ((e1 i).trans (key i).symm)
  exact (congrArg (· + 1) he).trans (Nat.sub_add_cancel hp)

/-! ### what is allocated -/

theorem ok_bind {α β : Type} {r : Res α} {f : α → Res β} {y : β} (h : Res.bind r f = .ok y) : ∃ x, r = .ok x ∧ f x = .ok y := by
  cases r with
  | ok x => exact ⟨x, rfl, h⟩
  | _ => cases h

theorem put_next {m m' : Mem T} {b i : Nat} {c : Cell T} (h : m.put b i c = .ok m') : m'.next = m.next := by
  unfold Mem.put at h
  cases hb : m.blocks b with
  | none => rw [hb] at h; cases h
  | some B =>
    rw [hb] at h
    dsimp only at h
    by_cases hi : i < B.len
    · rw [if_pos hi] at h; cases h; rfl
    · rw [if_neg hi] at h; cases h

theorem construct_next {m m' : Mem T} {b i : Nat} {x : T} (h : construct pod m b i x = .ok m') : m'.next = m.next := by
  obtain ⟨c, _, h⟩ := ok_bind h
  by_cases hc : (pod || c.isRaw) = true
  · rw [if_pos hc] at h; exact put_next h
  · rw [if_neg hc] at h; cases h

theorem destroyAt_next {m m' : Mem T} {b i : Nat} (h : destroyAt pod m b i = .ok m') : m'.next = m.next := by
  unfold destroyAt at h
  by_cases hp : pod = true
  · rw [if_pos hp] at h; cases h; rfl
  · rw [if_neg hp] at h
    obtain ⟨c, _, h⟩ := ok_bind h
    by_cases hc : c.isRaw = true
    · rw [if_pos hc] at h; cases h
    · rw [if_neg hc] at h; exact put_next h

theorem moveOut_next {m : Mem T} {b i : Nat} {q : T × Mem T} (h : moveOut pod m b i = .ok q) : q.2.next = m.next := by
  obtain ⟨x, _, h⟩ := ok_bind h
  by_cases hp : pod = true
  · rw [if_pos hp] at h; cases h; rfl
  · rw [if_neg hp] at h
    obtain ⟨m', h', h⟩ := ok_bind h
    cases h
    exact put_next h'

theorem destroyRange_next {b s : Nat} (n : Nat) : ∀ {m m' : Mem T}, destroyRange pod m b s n = .ok m' → m'.next = m.next := by
  induction n with
  | zero => intro m m' h; cases h; rfl
  | succ n ih =>
    intro m m' h
    obtain ⟨m1, h1, h⟩ := ok_bind h
    rw [ih h, destroyAt_next h1]

theorem uninitMove_next {b b' : Nat} (n : Nat) : ∀ {m m' : Mem T} {s d : Nat}, uninitMove pod m b s b' d n = .ok m' → m'.next = m.next := by
  induction n with
  | zero => intro m m' s d h; cases h; rfl
  | succ n ih =>
    intro m m' s d h
    obtain ⟨q, h1, h⟩ := ok_bind h
    obtain ⟨m2, h2, h⟩ := ok_bind h
    rw [ih h, construct_next h2, moveOut_next h1]

theorem uninitCopy_next {b b' : Nat} (n : Nat) : ∀ {m m' : Mem T} {s d : Nat}, uninitCopy pod m b s b' d n = .ok m' → m'.next = m.next := by
  induction n with
  | zero => intro m m' s d h; cases h; rfl
  | succ n ih =>
    intro m m' s d h
    obtain ⟨q, h1, h⟩ := ok_bind h
    obtain ⟨m2, h2, h⟩ := ok_bind h
    rw [ih h, construct_next h2]

theorem free_next {m m' : Mem T} {b : Nat} (h : free pod m b = .ok m') : m'.next = m.next := by
  unfold free at h
  cases hb : m.blocks b with
  | none => rw [hb] at h; cases h
  | some B =>
    rw [hb] at h
    dsimp only at h
    by_cases hi : (pod || (List.range B.len).all fun i => (B.cells i).isRaw) = true
    · rw [if_pos hi] at h; cases h; rfl
    · rw [if_neg hi] at h; cases h

/-- the capacity after growing by one step -/
def grownCap (pod : Bool) (c : Nat) : Nat := if pod then 2 * c + 1 else nextPowerOf2 (c + 2)

theorem grow_counts {m m' : Mem T} {v v' : Vec} (h : grow pod m v 0 = .ok (m', v')) : m'.next = m.next + 1 ∧ v'.size = v.size ∧ v'.cap = grownCap pod v.cap := by
  unfold grow at h
  unfold grownCap
  by_cases hp : pod = true
  · rw [if_pos hp] at h ⊢
    dsimp only at h
    rw [if_neg (show ¬ 2 * v.cap + 1 < 0 by omega)] at h
    by_cases hs : v.isSmall = true
    · rw [if_pos hs] at h
      obtain ⟨m1, h1, h⟩ := ok_bind h
      cases h
      exact ⟨uninitCopy_next _ h1, rfl, rfl⟩
    · rw [if_neg hs] at h
      obtain ⟨a, h1, h⟩ := ok_bind h
      cases h
      refine ⟨?_, rfl, rfl⟩
      unfold realloc at h1
      cases hb : m.blocks v.beg with
      | none => rw [hb] at h1; cases h1
      | some B => rw [hb] at h1; cases h1; rfl
  · rw [if_neg hp] at h ⊢
    dsimp only at h
    rw [if_neg (Nat.not_lt_zero _)] at h
    obtain ⟨m1, h1, h⟩ := ok_bind h
    obtain ⟨m2, h2, h⟩ := ok_bind h
    obtain ⟨m3, h3, h⟩ := ok_bind h
    cases h
    refine ⟨?_, rfl, rfl⟩
    have e3 : m'.next = m2.next := by
      by_cases hs : v.isSmall = true
      · rw [if_pos hs] at h3; cases h3; rfl
      · rw [if_neg hs] at h3; exact free_next h3
    rw [e3, destroyRange_next _ h2, uninitMove_next _ h1]
    rfl

theorem pushBack_counts {m m' : Mem T} {v v' : Vec} {r : Ref T} (h : pushBack pod m v r = .ok (m', v')) :
    v'.size = v.size + 1 ∧ if v.cap ≤ v.size then m'.next = m.next + 1 ∧ v'.cap = grownCap pod v.cap else m'.next = m.next ∧ v'.cap = v.cap ∧ v'.beg = v.beg := by
  obtain ⟨g, h1, h⟩ := ok_bind h
  obtain ⟨x, _, h⟩ := ok_bind h
  obtain ⟨m2, h2, h⟩ := ok_bind h
  cases h
  have e2 := construct_next h2
  by_cases hc : v.cap ≤ v.size
  · rw [if_pos hc] at h1 ⊢
    obtain ⟨a, b, c⟩ := grow_counts (m' := g.1) (v' := g.2) h1
    exact ⟨by dsimp only; rw [b], by rw [e2, a], c⟩
  · rw [if_neg hc] at h1 ⊢
    cases h1
    exact ⟨rfl, e2, rfl, rfl⟩

/-- the state of a vector that was new with capacity `N`: `g` blocks allocated since, `n` elements, capacity `c` -/
def Grows (pod : Bool) (N g n c : Nat) : Prop :=
  (g = 0 → c = N) ∧ (g ≠ 0 → 2 ^ (g - 1) ≤ n ∧ if pod then 2 ^ g ≤ c + 1 else ∃ e, g ≤ e ∧ c = 2 ^ e) ∧ c ≤ max N (2 * n + 2)

theorem Grows.push {N g n c : Nat} (h : Grows pod N g n c) (hn : n < 2 ^ 63) (hc : n ≤ c) :
    if c ≤ n then Grows pod N (g + 1) (n + 1) (grownCap pod c) else Grows pod N g (n + 1) c := by
  obtain ⟨h0, h1, h2⟩ := h
  by_cases hcn : c ≤ n
  · rw [if_pos hcn]
    have hen : c = n := Nat.le_antisymm hcn hc
    subst hen
    have hpow : 2 ^ g ≤ c + 1 := by
      by_cases hg : g = 0
      · rw [hg]; omega
      · have := (h1 hg).2
        by_cases hp : pod = true
        · rw [if_pos hp] at this; exact this
        · rw [if_neg hp] at this
          obtain ⟨e, he, hce⟩ := this
          have := Nat.pow_le_pow_right (n := 2) (by omega) he
          omega
    unfold grownCap
    by_cases hp : pod = true
    · rw [if_pos hp]
      refine ⟨fun h => by omega, fun _ => ⟨hpow, ?_⟩, by omega⟩
      rw [if_pos hp, Nat.pow_succ]
      omega
    · rw [if_neg hp]
      have hnp := nextPowerOf2_eq (a := c + 2) (by omega) (by omega)
      rw [hnp]
      refine ⟨fun h => by omega, fun _ => ⟨hpow, ?_⟩, ?_⟩
      · rw [if_neg hp]
        refine ⟨_, ?_, rfl⟩
        have : g ≤ Nat.log 2 (c + 2) := Nat.le_log_of_pow_le (by omega) (by omega)
        omega
      · have := Nat.pow_log_le_self 2 (x := c + 2) (by omega)
        rw [Nat.pow_succ]
        omega
  · rw [if_neg hcn]
    exact ⟨h0, fun hg => ⟨by have := (h1 hg).1; omega, (h1 hg).2⟩, by omega⟩

/-- one element after the other -/
theorem pushes {N : Nat} {k : Nat} {x0 : Nat} (xs : List T) : ∀ {w : World T} {σ : Nat → Option (List T)} {L : List T} {v : Vec} {g : Nat}, Inv pod w σ → σ k = some L → w.vec k = some v →
    L.length + xs.length < 2 ^ 63 → w.mem.next = x0 + g → Grows pod N g L.length v.cap →
    ∃ w' v' g', run pod w (xs.map (.push k)) = .ok w' ∧ w'.vec k = some v' ∧ w'.mem.next = x0 + g' ∧ v'.size = L.length + xs.length ∧ Grows pod N g' (L.length + xs.length) v'.cap ∧
      (L.length + xs.length ≤ v.cap → g' = g ∧ v'.cap = v.cap ∧ v'.beg = v.beg) := by
  induction xs with
  | nil =>
    intro w σ L v g hi hL hv hn hnx hG
    obtain ⟨u, hu, hr⟩ := hi.some_iff hL
    rw [hv] at hu; cases hu
    exact ⟨w, v, g, rfl, hv, hnx, hr.size, hG, fun _ => ⟨rfl, rfl, rfl⟩⟩
  | cons x xs ih =>
    intro w σ L v g hi hL hv hn hnx hG
    rw [List.length_cons] at hn
    have ho : Spec.step σ (.push k x) = some (Spec.put σ k (some (L ++ [x]))) := by
      show Spec.on σ k _ = _
      unfold Spec.on
      rw [hL]; rfl
    obtain ⟨w1, e1, hi1⟩ := step_ok hi (.push k x) ho
    obtain ⟨u, hu, hr⟩ := hi.some_iff hL
    rw [hv] at hu; cases hu
    have e1' := e1
    obtain ⟨q, hq, e1'⟩ := ok_bind (show Res.bind (w.find k) _ = _ from e1')
    rw [find_some hv] at hq; cases hq
    obtain ⟨⟨m', v'⟩, hq, e1'⟩ := ok_bind e1'
    cases e1'
    obtain ⟨c1, c2⟩ := pushBack_counts hq
    have hsz := hr.size
    have hfit := hr.fits
    rw [hsz] at c2
    have hG1 := hG.push (by omega) (by omega)
    have hlen : (L ++ [x]).length = L.length + 1 := by simp
    have fin : ∀ g1, m'.next = x0 + g1 → Grows pod N g1 (L.length + 1) v'.cap → (L.length + (xs.length + 1) ≤ v.cap → g1 = g ∧ v'.cap = v.cap ∧ v'.beg = v.beg) →
        ∃ w' v' g', run pod w ((x :: xs).map (.push k)) = .ok w' ∧ w'.vec k = some v' ∧ w'.mem.next = x0 + g' ∧ v'.size = L.length + (x :: xs).length ∧
          Grows pod N g' (L.length + (x :: xs).length) v'.cap ∧ (L.length + (x :: xs).length ≤ v.cap → g' = g ∧ v'.cap = v.cap ∧ v'.beg = v.beg) := by
      intro g1 hx hG2 hk
      obtain ⟨w', v'', g', r1, r2, r3, r4, r5, r6⟩ := ih (w := w.put m' k (some v')) (L := L ++ [x]) (v := v') (g := g1) hi1 (by unfold Spec.put; rw [if_pos rfl]) (put_same _ _ _ _)
        (by rw [hlen]; omega) hx (by rw [hlen]; exact hG2)
      rw [hlen] at r4 r5 r6
      refine ⟨w', v'', g', ?_, r2, r3, by rw [r4, List.length_cons]; omega, ?_, ?_⟩
      · show Res.bind (step pod w (.push k x)) _ = _
        rw [e1]; exact r1
      · rw [List.length_cons, show L.length + (xs.length + 1) = L.length + 1 + xs.length by omega]; exact r5
      · intro h
        rw [List.length_cons] at h
        obtain ⟨a, b, c⟩ := hk h
        obtain ⟨a', b', c'⟩ := r6 (by omega)
        exact ⟨a'.trans a, b'.trans b, c'.trans c⟩
    by_cases hc : v.cap ≤ L.length
    · rw [if_pos hc] at c2 hG1
      rw [← c2.2] at hG1
      exact fin (g + 1) (by rw [c2.1, hnx]; omega) hG1 (fun h => by omega)
    · rw [if_neg hc] at c2 hG1
      rw [← c2.2.1] at hG1
      exact fin g (by rw [c2.1, hnx]) hG1 (fun _ => ⟨rfl, c2.2⟩)

/-- `n` calls of `push_back` on a new vector, after any program: at most `log2 n + 1` allocations besides the inline buffer (`mem.next` counts the blocks ever allocated), and the capacity is
the inline one or at most twice the number of elements and two. -/
theorem C109_push_back (pod : Bool) (ops : List (Op T)) (w : World T) (h : run pod World.empty ops = .ok w) (k N : Nat) (hk : w.vec k = none) (xs : List T) (hn : xs.length < 2 ^ 63) :
    ∃ (w' : World T) (v : Vec), run pod w (.create k N :: xs.map (.push k)) = .ok w' ∧ w'.vec k = some v ∧ v.size = xs.length ∧
      w'.mem.next ≤ w.mem.next + 1 + (Nat.log 2 xs.length + 1) ∧ (xs.length ≤ N → w'.mem.next = w.mem.next + 1) ∧ v.cap ≤ max N (2 * xs.length + 2) := by
  have := run_ok (pod := pod) ops (inv_empty (T := T))
  cases hs : Spec.run (fun _ => none) ops with
  | none => rw [hs, h] at this; cases this
  | some σ =>
    rw [hs] at this
    obtain ⟨w0, e, hi⟩ := this
    rw [h] at e; cases e
    have ho : Spec.step σ (.create k N) = some (Spec.put σ k (some [])) := by
      show Spec.new σ k [] = _
      unfold Spec.new
      rw [(hi.none_iff k).1 hk]
    obtain ⟨w1, e1, hi1⟩ := step_ok hi (.create k N) ho
    have e1' := e1
    unfold step World.new at e1'
    dsimp only at e1'
    rw [hk] at e1'
    cases e1'
    obtain ⟨w', v', g', r1, r2, r3, r4, r5, r6⟩ := pushes (pod := pod) (N := N) (k := k) (x0 := w.mem.next + 1) xs hi1 (L := []) (v := (create w.mem N).2) (g := 0)
      (by unfold Spec.put; rw [if_pos rfl]) (put_same _ _ _ _) (by simpa using hn) rfl ⟨fun _ => rfl, fun h => absurd rfl h, by show N ≤ _; omega⟩
    simp only [List.length_nil, Nat.zero_add] at r4 r5 r6
    refine ⟨w', v', ?_, r2, r4, ?_, ?_, r5.2.2⟩
    · show Res.bind (step pod w (.create k N)) _ = _
      rw [e1]; exact r1
    · rw [r3]
      by_cases hg : g' = 0
      · omega
      · have := (r5.2.1 hg).1
        have : g' - 1 ≤ Nat.log 2 xs.length := Nat.le_log_of_pow_le (by omega) this
        omega
    · intro hN
      rw [r3, (r6 hN).1]

/-- Within the capacity nothing is allocated and the elements stay where they are, whatever came before: in particular after `reserve`. -/
theorem C109_reserved (pod : Bool) (ops : List (Op T)) (w : World T) (h : run pod World.empty ops = .ok w) (k : Nat) (v : Vec) (hk : w.vec k = some v) (xs : List T)
    (hn : v.size + xs.length ≤ v.cap) (hn' : v.cap < 2 ^ 63) :
    ∃ (w' : World T) (v' : Vec), run pod w (xs.map (.push k)) = .ok w' ∧ w'.vec k = some v' ∧ v'.size = v.size + xs.length ∧ w'.mem.next = w.mem.next ∧ v'.cap = v.cap ∧ v'.beg = v.beg := by
  have := run_ok (pod := pod) ops (inv_empty (T := T))
  cases hs : Spec.run (fun _ => none) ops with
  | none => rw [hs, h] at this; cases this
  | some σ =>
    rw [hs] at this
    obtain ⟨w0, e, hi⟩ := this
    rw [h] at e; cases e
    cases hL : σ k with
    | none => rw [(hi.none_iff k).2 hL] at hk; cases hk
    | some L =>
      obtain ⟨u, hu, hr⟩ := hi.some_iff hL
      rw [hk] at hu; cases hu
      have hsz := hr.size
      obtain ⟨w', v', g', r1, r2, r3, r4, r5, r6⟩ := pushes (pod := pod) (N := v.cap) (k := k) (x0 := w.mem.next) xs hi hL hk (g := 0) (by omega) rfl
        ⟨fun _ => rfl, fun h => absurd rfl h, by omega⟩
      obtain ⟨a, b, c⟩ := r6 (by omega)
      exact ⟨w', v', r1, r2, by rw [r4, hsz], by rw [r3, a]; rfl, b, c⟩

/-- `reserve(n)` makes the capacity at least `n` and keeps the elements. -/
theorem C109_reserve (pod : Bool) (ops : List (Op T)) (σ : Spec.Lists T) (h : Spec.run (fun _ => none) ops = some σ) (k n : Nat) (L : List T) (hk : σ k = some L) :
    ∃ (w w' : World T) (v' : Vec), run pod World.empty ops = .ok w ∧ step pod w (.reserve k n) = .ok w' ∧ w'.vec k = some v' ∧ n ≤ v'.cap ∧ v'.size = L.length ∧
      ∀ i (hi : i < L.length), w'.mem.read v'.beg i = .ok L[i] := by
  have := run_ok (pod := pod) ops (inv_empty (T := T))
  rw [h] at this
  obtain ⟨w, e, hi⟩ := this
  obtain ⟨v, hv, hr⟩ := hi.some_iff hk
  obtain ⟨m', v', e', r, _, _, hn, _⟩ := reserve_ok (c := v.cap < n) hr hi.wf n (by omega)
  refine ⟨w, w.put m' k (some v'), v', e, ?_, put_same _ _ _ _, hn, r.size, r.read⟩
  show Res.bind (w.find k) _ = _
  rw [find_some hv]
  show Res.bind (reserve pod w.mem v n) _ = _
  unfold reserve
  rw [e']; rfl

/-- The hypotheses can be met: the first thousand numbers in a vector with room for four, after a program that used and destroyed another one. -/
example : ∃ (w w' : World Nat) (v : Vec), run false World.empty [.createFill 1 2 7 3, .destroy 1] = .ok w ∧
    run false w (.create 0 4 :: (List.range 1000).map (.push 0)) = .ok w' ∧ w'.vec 0 = some v ∧ v.size = 1000 ∧ w'.mem.next ≤ w.mem.next + 11 := by
  obtain ⟨w, e, hn, _⟩ := C107_history (T := Nat) false [.createFill 1 2 7 3, .destroy 1] (Spec.put (Spec.put (fun _ => none) 1 (some (List.replicate 7 3))) 1 none) rfl
  have hk : w.vec 0 = none := (hn 0).2 rfl
  obtain ⟨w', v, h1, h2, h3, h4, _⟩ := C109_push_back false _ w e 0 4 hk (List.range 1000) (by rw [List.length_range]; omega)
  rw [List.length_range] at h3 h4
  have hl : Nat.log 2 1000 = 9 := (Nat.log_eq_iff (.inl (by omega))).2 ⟨by omega, by omega⟩
  rw [hl] at h4
  exact ⟨w, w', v, e, h1, h2, h3, by omega⟩

end SpaceHub.SV
