import Verif.Model.Chain
import Mathlib.Data.List.Perm.Basic
import Mathlib.Data.List.Nodup
import Mathlib.Data.List.Range
import Mathlib.Data.List.Infix
import Mathlib.Tactic.Linarith
import Mathlib.Tactic.Ring
import Mathlib.Order.Defs.LinearOrder

set_option autoImplicit false

namespace SpaceHub.Chain
open SpaceHub

variable {R : Type}

theorem mem_createDistances {num : Nat} {r2 : Nat → Nat → R} {n : Node R} :
    n ∈ createDistances num r2 ↔ n.i < n.j ∧ n.j < num ∧ n.r = r2 n.i n.j ∧ n.avail = true := by
  unfold createDistances
  simp only [List.mem_flatMap, List.mem_range, List.mem_map, List.mem_range'_1]
  constructor
  · rintro ⟨i, hi, j, hj, rfl⟩
    refine ⟨?_, ?_, rfl, rfl⟩ <;> simp <;> omega
  · rintro ⟨h1, h2, h3, h4⟩
    refine ⟨n.i, by omega, n.j, by omega, ?_⟩
    rw [← h3, ← h4]

/-- The facts about the sorted distance array that the scan relies on. -/
structure DistOk (num : Nat) (d : List (Node R)) : Prop where
  lt : ∀ n ∈ d, n.i < n.j ∧ n.j < num
  all : ∀ i j, i < j → j < num → ∃ n ∈ d, n.i = i ∧ n.j = j

theorem distOk_of_sort [LT R] {num : Nat} {r2 : Nat → Nat → R} {s : List (Node R)}
    (h : IsSortOf (createDistances num r2) s) : DistOk num s where
  lt := fun n hn => by
    have := mem_createDistances.1 (h.1.mem_iff.1 hn); exact ⟨this.1, this.2.1⟩
  all := fun i j hij hj =>
    ⟨⟨r2 i j, i, j, true⟩, h.1.mem_iff.2 (mem_createDistances.2 ⟨hij, hj, rfl, rfl⟩), rfl, rfl⟩

/-- `m` is `n` up to the availability flag. -/
def SameNode (n m : Node R) : Prop := m.r = n.r ∧ m.i = n.i ∧ m.j = n.j

/-- Invariant of the scan. `d` is the sorted array before the scan. -/
structure Inv (num : Nat) (d : List (Node R)) (s : Scan R) : Prop where
  nodup : s.list.Nodup
  bound : ∀ v ∈ s.list, v < num
  head : s.list.head? = some s.head
  tail : s.list.getLast? = some s.tail
  len : s.list.length = s.chained + 1
  two : 1 ≤ s.chained
  same : List.Forall₂ SameNode d s.dist
  used : ∀ n ∈ s.dist, n.avail = false → n.i ∈ s.list ∧ n.j ∈ s.list
  zero : ∀ n, s.dist[0]? = some n → n.avail = false

/-- Node `n` touches one of the ends of the chain under construction. -/
def Touches (s : Scan R) (n : Node R) : Prop :=
  s.head = n.i ∨ s.head = n.j ∨ s.tail = n.i ∨ s.tail = n.j

theorem forall₂_same_modify {d e : List (Node R)} (h : List.Forall₂ SameNode d e) (k : Nat) :
    List.Forall₂ SameNode d (e.modify k fun n => { n with avail := false }) := by
  induction h generalizing k with
  | nil => cases k <;> exact List.Forall₂.nil
  | cons hab _ ih =>
    cases k with
    | zero => exact List.Forall₂.cons ⟨hab.1, hab.2.1, hab.2.2⟩ (by assumption)
    | succ k => exact List.Forall₂.cons hab (ih k)

theorem Inv.head_mem {num : Nat} {d : List (Node R)} {s : Scan R} (h : Inv num d s) : s.head ∈ s.list :=
  List.mem_of_mem_head? (by rw [h.head]; rfl)

theorem Inv.tail_mem {num : Nat} {d : List (Node R)} {s : Scan R} (h : Inv num d s) : s.tail ∈ s.list :=
  List.mem_of_getLast? h.tail

theorem Inv.head_ne_tail {num : Nat} {d : List (Node R)} {s : Scan R} (h : Inv num d s) : s.head ≠ s.tail := by
  intro e
  have h1 := h.head; have h2 := h.tail; have h3 := h.nodup; have h4 := h.len; have h5 := h.two
  match hl : s.list with
  | [] => rw [hl] at h4; simp at h4
  | [a] => rw [hl] at h4; simp at h4; omega
  | a :: b :: t =>
    rw [hl] at h1 h2 h3
    simp only [List.head?_cons, Option.some.injEq] at h1
    have : s.tail ∈ b :: t := by
      rw [List.getLast?_cons_cons] at h2
      exact List.mem_of_getLast? h2
    rw [List.nodup_cons] at h3
    apply h3.1
    rw [h1, e]; exact this

/-- Effect of marking position `k` used, on lookups. -/
theorem getElem?_mark (d : List (Node R)) (k p : Nat) :
    (d.modify k (fun n => { n with avail := false }))[p]? =
      (d[p]?).map (fun n => if k = p then { n with avail := false } else n) := by
  rw [List.getElem?_modify]
  by_cases h : k = p <;> simp [h]

theorem forall₂_mem_right {d e : List (Node R)} (h : List.Forall₂ SameNode d e) {n : Node R} (hn : n ∈ e) :
    ∃ m ∈ d, SameNode m n := by
  induction h with
  | nil => cases hn
  | cons hab _ ih =>
    rcases List.mem_cons.1 hn with rfl | h'
    · exact ⟨_, List.mem_cons_self, hab⟩
    · obtain ⟨m, hm, hs⟩ := ih h'
      exact ⟨m, List.mem_cons_of_mem _ hm, hs⟩

theorem forall₂_mem_left {d e : List (Node R)} (h : List.Forall₂ SameNode d e) {m : Node R} (hn : m ∈ d) :
    ∃ n ∈ e, SameNode m n := by
  induction h with
  | nil => cases hn
  | cons hab _ ih =>
    rcases List.mem_cons.1 hn with rfl | h'
    · exact ⟨_, List.mem_cons_self, hab⟩
    · obtain ⟨m, hm, hs⟩ := ih h'
      exact ⟨m, List.mem_cons_of_mem _ hm, hs⟩

theorem Inv.node {num : Nat} {d : List (Node R)} {s : Scan R} (hI : Inv num d s) (hd : DistOk num d)
    {n : Node R} (hn : n ∈ s.dist) : n.i < n.j ∧ n.j < num := by
  obtain ⟨m, hm, hs⟩ := forall₂_mem_right hI.same hn
  rw [hs.2.1, hs.2.2]; exact hd.lt m hm

theorem mark_used {d : List (Node R)} {k : Nat} {n m : Node R} (hk : d[k]? = some n)
    (hm : m ∈ d.modify k (fun n => { n with avail := false })) (ha : m.avail = false) :
    (m.i = n.i ∧ m.j = n.j) ∨ (m ∈ d) := by
  obtain ⟨p, hp⟩ := List.mem_iff_getElem?.1 hm
  rw [getElem?_mark] at hp
  obtain ⟨q, hq, rfl⟩ := Option.map_eq_some_iff.1 hp
  by_cases h : k = p
  · subst h
    rw [hk] at hq; cases hq
    left; simp
  · right; simp only [h, if_false]; exact List.mem_of_getElem? hq

theorem mark_zero {d : List (Node R)} {k : Nat}
    (h0 : ∀ n, d[0]? = some n → n.avail = false) :
    ∀ n, (d.modify k (fun n => { n with avail := false }))[0]? = some n → n.avail = false := by
  intro n hn
  rw [getElem?_mark] at hn
  obtain ⟨q, hq, rfl⟩ := Option.map_eq_some_iff.1 hn
  split
  · rfl
  · exact h0 q hq

/-- Pushing a fresh vertex in front keeps the invariant. -/
theorem inv_front {num : Nat} {d : List (Node R)} {s : Scan R} {k v : Nat} {n : Node R}
    (hI : Inv num d s) (hk : s.dist[k]? = some n) (hv : v ∉ s.list) (hvn : v < num)
    (hn : (n.i = s.head ∧ n.j = v) ∨ (n.j = s.head ∧ n.i = v)) :
    Inv num d { list := v :: s.list, head := v, tail := s.tail,
                dist := s.dist.modify k (fun n => { n with avail := false }), chained := s.chained + 1 } where
  nodup := List.nodup_cons.2 ⟨hv, hI.nodup⟩
  bound := by
    intro w hw
    rcases List.mem_cons.1 hw with rfl | h
    · exact hvn
    · exact hI.bound w h
  head := rfl
  tail := by
    have := hI.tail
    match hl : s.list with
    | [] => rw [hl] at this; simp at this
    | a :: t => rw [hl] at this; rw [List.getLast?_cons_cons]; exact this
  len := by simp [hI.len]
  two := by simp
  same := forall₂_same_modify hI.same k
  used := by
    intro m hm ha
    rcases mark_used hk hm ha with ⟨h1, h2⟩ | h
    · rw [h1, h2]
      have hh := hI.head_mem
      rcases hn with ⟨a, b⟩ | ⟨a, b⟩ <;> rw [a, b] <;> simp [hh]
    · have := hI.used m h ha
      exact ⟨List.mem_cons_of_mem _ this.1, List.mem_cons_of_mem _ this.2⟩
  zero := mark_zero hI.zero

/-- Pushing a fresh vertex at the back keeps the invariant. -/
theorem inv_back {num : Nat} {d : List (Node R)} {s : Scan R} {k v : Nat} {n : Node R}
    (hI : Inv num d s) (hk : s.dist[k]? = some n) (hv : v ∉ s.list) (hvn : v < num)
    (hn : (n.i = s.tail ∧ n.j = v) ∨ (n.j = s.tail ∧ n.i = v)) :
    Inv num d { list := s.list ++ [v], head := s.head, tail := v,
                dist := s.dist.modify k (fun n => { n with avail := false }), chained := s.chained + 1 } where
  nodup := by
    rw [List.nodup_append]
    refine ⟨hI.nodup, by simp, ?_⟩
    intro a ha b hb
    simp only [List.mem_singleton] at hb
    subst hb; rintro rfl; exact hv ha
  bound := by
    intro w hw
    rcases List.mem_append.1 hw with h | h
    · exact hI.bound w h
    · simp only [List.mem_singleton] at h; subst h; exact hvn
  head := by
    have := hI.head
    match hl : s.list with
    | [] => rw [hl] at this; simp at this
    | a :: t => rw [hl] at this; simpa using this
  tail := by simp
  len := by simp [hI.len]
  two := by simp
  same := forall₂_same_modify hI.same k
  used := by
    intro m hm ha
    rcases mark_used hk hm ha with ⟨h1, h2⟩ | h
    · rw [h1, h2]
      have hh := hI.tail_mem
      rcases hn with ⟨a, b⟩ | ⟨a, b⟩ <;> rw [a, b] <;> simp [hh]
    · have := hI.used m h ha
      exact ⟨List.mem_append_left _ this.1, List.mem_append_left _ this.2⟩
  zero := mark_zero hI.zero

/-- Marking a node whose two particles are already chained keeps the invariant. -/
theorem inv_mark {num : Nat} {d : List (Node R)} {s : Scan R} {k : Nat} {n : Node R}
    (hI : Inv num d s) (hk : s.dist[k]? = some n) (hn : n.i ∈ s.list ∧ n.j ∈ s.list) :
    Inv num d { s with dist := s.dist.modify k (fun n => { n with avail := false }) } where
  nodup := hI.nodup
  bound := hI.bound
  head := hI.head
  tail := hI.tail
  len := hI.len
  two := hI.two
  same := forall₂_same_modify hI.same k
  used := by
    intro m hm ha
    rcases mark_used hk hm ha with ⟨h1, h2⟩ | h
    · rw [h1, h2]; exact hn
    · exact hI.used m h ha
  zero := mark_zero hI.zero

/-- The link that a successful insertion creates: `e` is an end of `l`, `v` is new. -/
inductive Link (l : List Nat) (head tail : Nat) (n : Node R) : List Nat → Prop
  | front (v : Nat) (hv : v ∉ l) (h : (n.i = head ∧ n.j = v) ∨ (n.j = head ∧ n.i = v)) :
      Link l head tail n (v :: l)
  | back (v : Nat) (hv : v ∉ l) (h : (n.i = tail ∧ n.j = v) ∨ (n.j = tail ∧ n.i = v)) :
      Link l head tail n (l ++ [v])

/-- What one call of `try_add_to_chain` does. -/
theorem tryAdd_spec {num : Nat} {d : List (Node R)} {s : Scan R} {k : Nat} {n : Node R}
    (hI : Inv num d s) (hd : DistOk num d) (hk : s.dist[k]? = some n) :
    (∃ s', tryAdd s k n = (s', true) ∧ Inv num d { s' with chained := s'.chained + 1 } ∧
      s'.dist = s.dist.modify k (fun n => { n with avail := false }) ∧ s'.chained = s.chained ∧
      Link s.list s.head s.tail n s'.list) ∨
    (tryAdd s k n = ({ s with dist := s.dist.modify k (fun n => { n with avail := false }) }, false) ∧
      n.i ∈ s.list ∧ n.j ∈ s.list) ∨
    (tryAdd s k n = (s, false) ∧ ¬ Touches s n) := by
  have hlt := hI.node hd (List.mem_of_getElem? hk)
  unfold tryAdd
  by_cases h1 : s.head = n.i
  · simp only [h1, if_true]
    unfold tryInsertFront
    by_cases hv : n.j ∈ s.list
    · right; left
      simp only [hv, not_true_eq_false, if_false, and_true]
      rw [← h1]; exact ⟨rfl, hI.head_mem⟩
    · left
      simp only [hv, not_false_eq_true, if_true]
      refine ⟨_, rfl, inv_front hI hk hv hlt.2 (Or.inl ⟨h1.symm, rfl⟩), rfl, rfl, Link.front _ hv (Or.inl ⟨rfl, rfl⟩)⟩
  rw [if_neg h1]
  by_cases h2 : s.head = n.j
  · simp only [h2, if_true]
    unfold tryInsertFront
    by_cases hv : n.i ∈ s.list
    · right; left
      simp only [hv, not_true_eq_false, if_false, true_and]
      rw [← h2]; exact ⟨rfl, hI.head_mem⟩
    · left
      simp only [hv, not_false_eq_true, if_true]
      refine ⟨_, rfl, inv_front hI hk hv (by omega) (Or.inr ⟨h2.symm, rfl⟩), rfl, rfl, Link.front _ hv (Or.inr ⟨rfl, rfl⟩)⟩
  rw [if_neg h2]
  by_cases h3 : s.tail = n.i
  · simp only [h3, if_true]
    unfold tryInsertBack
    by_cases hv : n.j ∈ s.list
    · right; left
      simp only [hv, not_true_eq_false, if_false, and_true]
      rw [← h3]; exact ⟨rfl, hI.tail_mem⟩
    · left
      simp only [hv, not_false_eq_true, if_true]
      refine ⟨_, rfl, inv_back hI hk hv hlt.2 (Or.inl ⟨h3.symm, rfl⟩), rfl, rfl, Link.back _ hv (Or.inl ⟨rfl, rfl⟩)⟩
  rw [if_neg h3]
  by_cases h4 : s.tail = n.j
  · simp only [h4, if_true]
    unfold tryInsertBack
    by_cases hv : n.i ∈ s.list
    · right; left
      simp only [hv, not_true_eq_false, if_false, true_and]
      rw [← h4]; exact ⟨rfl, hI.tail_mem⟩
    · left
      simp only [hv, not_false_eq_true, if_true]
      refine ⟨_, rfl, inv_back hI hk hv (by omega) (Or.inr ⟨h4.symm, rfl⟩), rfl, rfl, Link.back _ hv (Or.inr ⟨rfl, rfl⟩)⟩
  rw [if_neg h4]
  right; right
  refine ⟨rfl, ?_⟩
  rintro (h | h | h | h)
  · exact h1 h
  · exact h2 h
  · exact h3 h
  · exact h4 h

/-- Everything scanned so far (from position 2 on, and from position 1 on during the first scan) is of no use for
the current ends. -/
def Scanned (s : Scan R) (k : Nat) : Prop :=
  ∀ p n, 1 ≤ p → (2 ≤ p ∨ s.chained = 1) → p < k → s.dist[p]? = some n → n.avail = true → ¬ Touches s n

/-- Number of pairs still marked available. -/
def availCount (d : List (Node R)) : Nat := d.countP (fun n => n.avail)

theorem availCount_mark_lt {d : List (Node R)} {k : Nat} {n : Node R} (hk : d[k]? = some n) (ha : n.avail = true) :
    availCount (d.modify k (fun n => { n with avail := false })) < availCount d := by
  unfold availCount
  induction d generalizing k with
  | nil => simp at hk
  | cons a t ih =>
    cases k with
    | zero =>
      simp at hk; subst hk
      simp [ha]
    | succ k =>
      simp at hk
      have := ih hk
      simp only [List.modify_succ_cons, List.countP_cons]
      omega

theorem availCount_mark_le {d : List (Node R)} {k : Nat} :
    availCount (d.modify k (fun n => { n with avail := false })) ≤ availCount d := by
  unfold availCount
  induction d generalizing k with
  | nil => simp
  | cons a t ih =>
    cases k with
    | zero => simp only [List.modify_zero_cons, List.countP_cons]; simp
    | succ k =>
      have := ih (k := k)
      simp only [List.modify_succ_cons, List.countP_cons]
      omega

/-- The final state of a scan that examined everything covers all particles. -/
theorem complete {num : Nat} {d : List (Node R)} {s : Scan R}
    (hI : Inv num d s) (hd : DistOk num d) (hS : Scanned s s.dist.length) :
    ∀ w < num, w ∈ s.list := by
  intro w hw
  by_contra hnot
  have hne := hI.head_ne_tail
  -- the node joining end `e` with `w`
  have key : ∀ e, e ∈ s.list → (s.head = e ∨ s.tail = e) →
      ∃ n, s.dist[1]? = some n ∧ ((n.i = e ∧ n.j = w) ∨ (n.i = w ∧ n.j = e)) := by
    intro e he hend
    have hew : e ≠ w := by rintro rfl; exact hnot he
    have hen := hI.bound e he
    obtain ⟨m, hm, hmm⟩ : ∃ m ∈ d, (m.i = e ∧ m.j = w) ∨ (m.i = w ∧ m.j = e) := by
      rcases Nat.lt_or_ge e w with h | h
      · obtain ⟨m, hm, h1, h2⟩ := hd.all e w h hw
        exact ⟨m, hm, Or.inl ⟨h1, h2⟩⟩
      · obtain ⟨m, hm, h1, h2⟩ := hd.all w e (by omega) hen
        exact ⟨m, hm, Or.inr ⟨h1, h2⟩⟩
    obtain ⟨n, hn, hs⟩ := forall₂_mem_left hI.same hm
    rw [← hs.2.1, ← hs.2.2] at hmm
    obtain ⟨p, hp⟩ := List.mem_iff_getElem?.1 hn
    have hplen : p < s.dist.length := by
      by_contra hc
      rw [List.getElem?_eq_none (by omega)] at hp; cases hp
    have hav : n.avail = true := by
      by_contra hc
      have := hI.used n hn (by simpa using hc)
      rcases hmm with ⟨a, b⟩ | ⟨a, b⟩
      · rw [b] at this; exact hnot this.2
      · rw [a] at this; exact hnot this.1
    have htouch : Touches s n := by
      unfold Touches
      rcases hmm with ⟨a, b⟩ | ⟨a, b⟩ <;> rcases hend with h | h <;> simp [a, b, h]
    have hp1 : p = 1 := by
      rcases Nat.lt_or_ge p 2 with h | h
      · rcases Nat.lt_or_ge p 1 with h0 | h0
        · have : p = 0 := by omega
          subst this
          have := hI.zero n hp
          rw [hav] at this; cases this
        · omega
      · exact absurd htouch (hS p n (by omega) (Or.inl h) hplen hp hav)
    subst hp1
    exact ⟨n, hp, hmm⟩
  obtain ⟨n1, h1, h1'⟩ := key s.head hI.head_mem (Or.inl rfl)
  obtain ⟨n2, h2, h2'⟩ := key s.tail hI.tail_mem (Or.inr rfl)
  rw [h1] at h2; cases h2
  have hh : s.head ≠ w := by rintro h; exact hnot (h ▸ hI.head_mem)
  have ht : s.tail ≠ w := by rintro h; exact hnot (h ▸ hI.tail_mem)
  rcases h1' with ⟨a, b⟩ | ⟨a, b⟩ <;> rcases h2' with ⟨c, e⟩ | ⟨c, e⟩ <;> omega

/-- A list without repetitions of particles `< num` has at most `num` entries. -/
theorem Inv.length_le {num : Nat} {d : List (Node R)} {s : Scan R} (hI : Inv num d s) : s.list.length ≤ num := by
  have : s.list.Subperm (List.range num) :=
    List.subperm_of_subset hI.nodup (fun v hv => List.mem_range.2 (hI.bound v hv))
  simpa using this.length_le

/-- The scan terminates, and its final state examined everything. `P` is any predicate on the list that
successful insertions preserve. -/
theorem scan_ok {num : Nat} {d : List (Node R)} (hd : DistOk num d) (P : Scan R → Prop)
    (hP : ∀ s k n s', Inv num d s → P s → Scanned s k → s.dist[k]? = some n → n.avail = true → 1 ≤ k →
        tryAdd s k n = (s', true) → Link s.list s.head s.tail n s'.list →
        P { s' with chained := s'.chained + 1 })
    (hP' : ∀ s k, P s → P { s with dist := s.dist.modify k (fun n => { n with avail := false }) }) :
    ∀ fuel (s : Scan R) k, Inv num d s → P s → 1 ≤ k → Scanned s k →
      availCount s.dist * (s.dist.length + 1) + (s.dist.length - k) + 1 ≤ fuel →
      ∃ s', scan num fuel s k = .ok s' ∧ Inv num d s' ∧ P s' ∧ Scanned s' s'.dist.length := by
  intro fuel
  induction fuel with
  | zero => intro s k _ _ _ _ h; omega
  | succ fuel ih =>
    intro s k hI hp hk1 hS hf
    unfold scan
    cases hk : s.dist[k]? with
    | none =>
      refine ⟨s, rfl, hI, hp, ?_⟩
      have : s.dist.length ≤ k := List.getElem?_eq_none_iff.1 hk
      intro p n h2 h2' hlt; exact hS p n h2 h2' (by omega)
    | some n =>
      have hklen : k < s.dist.length := by
        by_contra hc
        rw [List.getElem?_eq_none (by omega)] at hk; cases hk
      dsimp only
      by_cases hav : n.avail = true
      · rw [if_pos hav]
        rcases tryAdd_spec hI hd hk with ⟨s', he, hI', hdist, hch, hlink⟩ | ⟨he, hmem⟩ | ⟨he, hnt⟩
        · rw [he]
          dsimp only
          have hlen := hI'.length_le
          have hlen2 := hI'.len
          dsimp only at hlen hlen2
          rw [if_neg (by omega)]
          apply ih _ _ hI' (hP s k n s' hI hp hS hk hav hk1 he hlink) (by omega)
          · have := hI.two
            intro p n h2 h2' hlt; dsimp only at h2'; omega
          · dsimp only
            have h1 := availCount_mark_lt hk hav
            rw [← hdist] at h1
            have h2 : s'.dist.length = s.dist.length := by rw [hdist]; simp
            rw [h2]
            have : (availCount s'.dist + 1) * (s.dist.length + 1) ≤ availCount s.dist * (s.dist.length + 1) :=
              Nat.mul_le_mul_right _ h1
            have h3 : (availCount s'.dist + 1) * (s.dist.length + 1) =
              availCount s'.dist * (s.dist.length + 1) + (s.dist.length + 1) := by ring
            omega
        · rw [he]
          dsimp only
          apply ih _ _ (inv_mark hI hk hmem) (hP' _ _ hp) (by omega)
          · intro p m h2 h2' hlt hpm ham
            dsimp only at hpm
            rw [getElem?_mark] at hpm
            obtain ⟨q, hq, rfl⟩ := Option.map_eq_some_iff.1 hpm
            by_cases hkp : k = p
            · simp only [hkp, if_true] at ham; cases ham
            · simp only [hkp, if_false] at ham ⊢
              exact hS p q h2 h2' (by omega) hq ham
          · dsimp only
            have h1 : availCount (s.dist.modify k fun n => { n with avail := false }) ≤ availCount s.dist :=
              availCount_mark_le
            have := Nat.mul_le_mul_right (s.dist.length + 1) h1
            simp only [List.length_modify]
            omega
        · rw [he]
          dsimp only
          apply ih _ _ hI hp (by omega)
          · intro p m h2 h2' hlt hpm ham
            rcases Nat.lt_or_ge p k with h | h
            · exact hS p m h2 h2' h hpm ham
            · have : p = k := by omega
              subst this; rw [hk] at hpm; cases hpm; exact hnt
          · omega
      · rw [if_neg hav]
        apply ih _ _ hI hp (by omega)
        · intro p m h2 h2' hlt hpm ham
          rcases Nat.lt_or_ge p k with h | h
          · exact hS p m h2 h2' h hpm ham
          · have : p = k := by omega
            subst this; rw [hk] at hpm; cases hpm; exact absurd ham hav
        · omega

theorem forall₂_same_refl (d : List (Node R)) : List.Forall₂ SameNode d d := by
  induction d with
  | nil => exact .nil
  | cons a t ih => exact .cons ⟨rfl, rfl, rfl⟩ ih

/-- The state in which `create_index_from_dist_array` enters its loop. -/
def initScan (n : Node R) (rest : List (Node R)) : Scan R :=
  { list := [n.i, n.j], head := n.i, tail := n.j, dist := { n with avail := false } :: rest, chained := 1 }

theorem inv_init {num : Nat} {n : Node R} {rest : List (Node R)} (hd : DistOk num (n :: rest))
    (hav : ∀ m ∈ rest, m.avail = true) : Inv num (n :: rest) (initScan n rest) where
  nodup := by
    have := (hd.lt n List.mem_cons_self).1
    simp [initScan]; omega
  bound := by
    have := hd.lt n List.mem_cons_self
    intro v hv
    simp [initScan] at hv; omega
  head := rfl
  tail := rfl
  len := rfl
  two := le_refl _
  same := List.Forall₂.cons ⟨rfl, rfl, rfl⟩ (forall₂_same_refl rest)
  used := by
    intro m hm ha
    rcases List.mem_cons.1 hm with rfl | h
    · simp [initScan]
    · rw [hav m h] at ha; cases ha
  zero := by intro m hm; simp [initScan] at hm; subst hm; rfl

/-- Enough fuel for the scan. -/
def enoughFuel (L : Nat) : Nat := (L + 1) * (L + 1)

/-- The whole index construction, generic in a preserved predicate. -/
theorem createIndex_ok {num : Nat} {n : Node R} {rest : List (Node R)} (hd : DistOk num (n :: rest))
    (hav : ∀ m ∈ rest, m.avail = true) (P : Scan R → Prop) (h0 : P (initScan n rest))
    (hP : ∀ s k m s', Inv num (n :: rest) s → P s → Scanned s k → s.dist[k]? = some m → m.avail = true → 1 ≤ k →
        tryAdd s k m = (s', true) → Link s.list s.head s.tail m s'.list →
        P { s' with chained := s'.chained + 1 })
    (hP' : ∀ s k, P s → P { s with dist := s.dist.modify k (fun n => { n with avail := false }) })
    (fuel : Nat) (hf : enoughFuel (n :: rest).length ≤ fuel) :
    ∃ s, createIndex fuel num (n :: rest) = .ok s.list ∧ s.list.Perm (List.range num) ∧ P s := by
  have hI := inv_init hd hav
  obtain ⟨s', he, hI', hp, hS⟩ := scan_ok hd P hP hP' fuel (initScan n rest) 1 hI h0 (le_refl _)
    (by intro p m h1 h2 h3; omega) (by
      have h1 : availCount (initScan n rest).dist ≤ (initScan n rest).dist.length := List.countP_le_length
      have h2 : (initScan n rest).dist.length = (n :: rest).length := rfl
      have := Nat.mul_le_mul_right ((initScan n rest).dist.length + 1) h1
      rw [h2] at this ⊢
      unfold enoughFuel at hf
      have e : ((n :: rest).length + 1) * ((n :: rest).length + 1) =
        (n :: rest).length * ((n :: rest).length + 1) + ((n :: rest).length + 1) := by ring
      omega)
  refine ⟨s', ?_, ?_, hp⟩
  · unfold createIndex
    unfold initScan at he
    dsimp only
    rw [he]
  · have hc := complete hI' hd hS
    rw [List.perm_ext_iff_of_nodup hI'.nodup List.nodup_range]
    intro a
    rw [List.mem_range]
    exact ⟨hI'.bound a, hc a⟩

end SpaceHub.Chain
