import Verif.Proof.ChainIndex
import Verif.Spec.Chain
import Mathlib.Data.List.Pairwise

set_option autoImplicit false

namespace SpaceHub.Chain
open SpaceHub

variable {R : Type}

/-- Predicate carried along the scan for the greedy theorem: the list is greedy up to the pair stored in
position 1, the recorded values in `dist` are those of the sorted array. -/
theorem pair_of_sorted [LT R] {num : Nat} {r2 : Nat → Nat → R} {s : List (Node R)}
    (h : IsSortOf (createDistances num r2) s) {n : Node R} (hn : n ∈ s) :
    n.i < n.j ∧ n.j < num ∧ n.r = r2 n.i n.j ∧ n.avail = true :=
  mem_createDistances.1 (h.1.mem_iff.1 hn)

theorem forall₂_getElem? {d e : List (Node R)} (h : List.Forall₂ SameNode d e) (p : Nat) (n : Node R)
    (hp : e[p]? = some n) : ∃ m, d[p]? = some m ∧ SameNode m n := by
  induction h generalizing p with
  | nil => simp at hp
  | cons hab _ ih =>
    cases p with
    | zero => simp at hp; subst hp; exact ⟨_, by simp, hab⟩
    | succ p => simp at hp; simpa using ih p hp

theorem sorted_le [LinearOrder R] {d : List (Node R)} (h : d.Pairwise (fun a b => ¬ b.r < a.r)) {p q : Nat} {m n : Node R}
    (hpq : p ≤ q) (hp : d[p]? = some m) (hq : d[q]? = some n) : m.r ≤ n.r := by
  rcases Nat.lt_or_ge p q with hlt | hge
  · have hq' : q < d.length := by
      by_contra hc; rw [List.getElem?_eq_none (by omega)] at hq; cases hq
    have := List.pairwise_iff_getElem.1 h p q (by omega) hq' hlt
    rw [List.getElem?_eq_getElem (by omega)] at hp hq
    cases hp; cases hq
    exact not_lt.1 this
  · have : p = q := by omega
    subst this; rw [hp] at hq; cases hq; exact le_refl _

/-- Every insertion uses a shortest usable pair; pairs that are not `ok` do not count as usable. -/
theorem greedy_link [LinearOrder R] {num : Nat} {r2 : Nat → Nat → R} {d : List (Node R)} {ok : Nat → Nat → Prop}
    (hs : IsSortOf (createDistances num r2) d)
    {s : Scan R} {k : Nat} {n : Node R}
    (hI : Inv num d s) (hS : Scanned s k) (hk : s.dist[k]? = some n)
    (hok : ∀ m, s.dist[1]? = some m → s.chained ≠ 1 → ∀ e w, w ∉ s.list → ok e w →
       ((m.i = e ∧ m.j = w) ∨ (m.j = e ∧ m.i = w)) → False)
    {e w : Nat} (he : e = s.head ∨ e = s.tail) (hw : w < num) (hwl : w ∉ s.list) (how : ok e w) :
    n.r ≤ r2 (min e w) (max e w) := by
  have hd : DistOk num d := distOk_of_sort hs
  have hel : e ∈ s.list := by rcases he with rfl | rfl; exacts [hI.head_mem, hI.tail_mem]
  have hew : e ≠ w := by rintro rfl; exact hwl hel
  have hen := hI.bound e hel
  obtain ⟨m, hm, hmi, hmj⟩ := hd.all (min e w) (max e w) (by omega) (by omega)
  obtain ⟨m', hm', hsame⟩ := forall₂_mem_left hI.same hm
  obtain ⟨p, hp⟩ := List.mem_iff_getElem?.1 hm'
  have hav : m'.avail = true := by
    by_contra hc
    have := hI.used m' hm' (by simpa using hc)
    rw [hsame.2.1, hsame.2.2, hmi, hmj] at this
    rcases Nat.le_total e w with h | h
    · rw [max_eq_right h] at this; exact hwl this.2
    · rw [min_eq_right h] at this; exact hwl this.1
  have htouch : Touches s m' := by
    unfold Touches
    rw [hsame.2.1, hsame.2.2, hmi, hmj]
    rcases Nat.le_total e w with h | h
    · rw [min_eq_left h, max_eq_right h]; rcases he with rfl | rfl <;> simp
    · rw [min_eq_right h, max_eq_left h]; rcases he with rfl | rfl <;> simp
  have hkp : k ≤ p := by
    by_contra hc
    rcases Nat.lt_or_ge p 1 with h0 | h0
    · have : p = 0 := by omega
      subst this
      rw [hI.zero m' hp] at hav; cases hav
    · by_cases h2 : 2 ≤ p ∨ s.chained = 1
      · exact hS p m' h0 h2 (by omega) hp hav htouch
      · have : p = 1 := by omega
        subst this
        apply hok m' hp (by omega) e w hwl how
        rw [hsame.2.1, hsame.2.2, hmi, hmj]
        rcases Nat.le_total e w with h | h
        · left; omega
        · right; omega
  obtain ⟨a, ha, hsa⟩ := forall₂_getElem? hI.same k n hk
  obtain ⟨b, hb, hsb⟩ := forall₂_getElem? hI.same p m' hp
  have := sorted_le hs.2 hkp ha hb
  rw [hsa.1]
  refine le_trans this ?_
  rw [← hsb.1, hsame.1, (pair_of_sorted hs hm).2.2.1, hmi, hmj]

/-- Two pairs have a particle in common. -/
def Share (m n : Node R) : Prop := m.i = n.i ∨ m.i = n.j ∨ m.j = n.i ∨ m.j = n.j

/-- The greedy construction, generic in which pairs count as usable: either the second shortest pair shares a
particle with the shortest one, or it does not count. -/
theorem createIndex_greedy [LinearOrder R] {num : Nat} {r2 : Nat → Nat → R} {n : Node R} {rest : List (Node R)}
    {ok : Nat → Nat → Prop}
    (hs : IsSortOf (createDistances num r2) (n :: rest))
    (hok : ∀ m, rest[0]? = some m → Share m n ∨ ∀ e w, ok e w → ¬ ((m.i = e ∧ m.j = w) ∨ (m.j = e ∧ m.i = w)))
    (fuel : Nat) (hf : enoughFuel (n :: rest).length ≤ fuel) :
    ∃ l, createIndex fuel num (n :: rest) = .ok l ∧ Greedy num r2 ok l ∧ [n.i, n.j] <:+: l := by
  have hd : DistOk num (n :: rest) := distOk_of_sort hs
  have hav : ∀ m ∈ rest, m.avail = true := fun m hm =>
    (pair_of_sorted hs (List.mem_cons_of_mem _ hm)).2.2.2
  have hn := pair_of_sorted hs (List.mem_cons_self : n ∈ n :: rest)
  obtain ⟨s, he, _, hp⟩ := createIndex_ok hd hav
    (fun s => Greedy num r2 ok s.list ∧ [n.i, n.j] <:+: s.list ∧
      (s.chained = 1 → s.head = n.i ∧ s.tail = n.j) ∧
      (s.chained ≠ 1 → ∀ m, rest[0]? = some m → Share m n → m.i ∈ s.list ∧ m.j ∈ s.list))
    ⟨Greedy.start n.i n.j hn.1 hn.2.1 (by
        intro a b hab hb
        obtain ⟨m, hm, h1, h2⟩ := hd.all a b hab hb
        have hm' := pair_of_sorted hs hm
        obtain ⟨p, hp⟩ := List.mem_iff_getElem?.1 hm
        have := sorted_le hs.2 (Nat.zero_le p) (List.getElem?_cons_zero) hp
        rw [← hn.2.2.1, ← h1, ← h2, ← hm'.2.2.1]; exact this),
      List.infix_refl _, fun _ => ⟨rfl, rfl⟩, fun h => absurd rfl h⟩
    (by
      rintro s k m s' hI ⟨hg, hinf, hone, h1⟩ hS hk hmav hk1 hta hlink
      have hlen := hI.len
      have htwo := hI.two
      obtain ⟨a, l, hl⟩ : ∃ a l, s.list = a :: l := by
        match h : s.list with
        | [] => rw [h] at hlen; simp at hlen
        | a :: l => exact ⟨a, l, rfl⟩
      have hhead : s.head = a := by have := hI.head; rw [hl] at this; simpa using this.symm
      have hlk : ∀ e w, (e = s.head ∨ e = s.tail) → w < num → w ∉ s.list → ok e w →
          m.r ≤ r2 (min e w) (max e w) := by
        intro e w hew hw hwl how
        refine greedy_link hs hI hS hk ?_ hew hw hwl how
        intro m1 hm1 h1k e' w' hw' ho' hm1'
        obtain ⟨m0, hm0, hsm⟩ := forall₂_getElem? hI.same 1 m1 hm1
        have hr : rest[0]? = some m0 := by simpa using hm0
        rw [hsm.2.1, hsm.2.2] at hm1'
        rcases hok m0 hr with h | h
        · have := h1 h1k m0 hr h
          rcases hm1' with ⟨_, b⟩ | ⟨_, b⟩
          · rw [b] at this; exact hw' this.2
          · rw [b] at this; exact hw' this.1
        · exact h e' w' ho' hm1'
      have hmem : m ∈ s.dist := List.mem_of_getElem? hk
      have hmlt := hI.node hd hmem
      obtain ⟨m0, hm0, hsm⟩ := forall₂_mem_right hI.same hmem
      have hmr : m.r = r2 m.i m.j := by
        rw [hsm.1, hsm.2.1, hsm.2.2]; exact (pair_of_sorted hs hm0).2.2.1
      have hch : s'.chained = s.chained := by
        rcases tryAdd_spec hI hd hk with ⟨s'', he, _, _, hc, _⟩ | ⟨he, _⟩ | ⟨he, _⟩
        · rw [hta] at he; cases he; exact hc
        · rw [hta] at he; cases he
        · rw [hta] at he; cases he
      have hsub : ∀ x ∈ s.list, x ∈ s'.list := by
        generalize s'.list = L at hlink
        cases hlink with
        | front v hv h => intro x hx; exact List.mem_cons_of_mem _ hx
        | back v hv h => intro x hx; exact List.mem_append_left _ hx
      have hmnew : m.i ∈ s'.list ∧ m.j ∈ s'.list := by
        have hh := hsub _ hI.head_mem
        have ht := hsub _ hI.tail_mem
        generalize s'.list = L at hlink hh ht
        cases hlink with
        | front v hv h => rcases h with ⟨h1, h2⟩ | ⟨h1, h2⟩ <;> rw [h1, h2] <;> exact ⟨by simp [hh], by simp [hh]⟩
        | back v hv h => rcases h with ⟨h1, h2⟩ | ⟨h1, h2⟩ <;> rw [h1, h2] <;> exact ⟨by simp [ht], by simp [ht]⟩
      refine ⟨?_, ?_, ?_, ?_⟩
      · -- greedy
        dsimp only
        generalize s'.list = L at hlink
        cases hlink with
        | front v hv h =>
          have e : m.r = r2 (min s.head v) (max s.head v) := by
            rw [hmr]
            rcases h with ⟨h1, h2⟩ | ⟨h1, h2⟩
            · rw [← h1, ← h2, min_eq_left (by omega), max_eq_right (by omega)]
            · rw [← h1, ← h2, min_eq_right (by omega), max_eq_left (by omega)]
          have hvn : v < num := by rcases h with ⟨h1, h2⟩ | ⟨h1, h2⟩ <;> omega
          rw [hl] at hg hv ⊢
          refine Greedy.front a v l s.tail hg (hl ▸ hI.tail) hv hvn ?_
          intro e' w' h1 h2 h3 h4
          rw [← hhead, ← e]
          exact hlk e' w' (by rw [hhead]; exact h1) h2 (by rw [hl]; exact h3) h4
        | back v hv h =>
          have e : m.r = r2 (min s.tail v) (max s.tail v) := by
            rw [hmr]
            rcases h with ⟨h1, h2⟩ | ⟨h1, h2⟩
            · rw [← h1, ← h2, min_eq_left (by omega), max_eq_right (by omega)]
            · rw [← h1, ← h2, min_eq_right (by omega), max_eq_left (by omega)]
          have hvn : v < num := by rcases h with ⟨h1, h2⟩ | ⟨h1, h2⟩ <;> omega
          rw [hl] at hg hv ⊢
          refine Greedy.back a v l s.tail hg (hl ▸ hI.tail) hv hvn ?_
          intro e' w' h1 h2 h3 h4
          rw [← e]
          exact hlk e' w' (by rw [hhead]; exact h1) h2 (by rw [hl]; exact h3) h4
      · -- infix
        dsimp only
        generalize s'.list = L at hlink
        cases hlink with
        | front v hv h => exact hinf.trans (List.suffix_cons v s.list).isInfix
        | back v hv h => exact hinf.trans (List.prefix_append _ _).isInfix
      · intro h; dsimp only at h; omega
      · intro _ m1 hm1 hsh
        dsimp only
        by_cases hc : s.chained = 1
        · obtain ⟨hh, ht⟩ := hone hc
          -- the node in position 1 of the current array
          have hlen2 : (n :: rest).length = s.dist.length := hI.same.length_eq
          have h1len : 1 < s.dist.length := by
            rw [← hlen2]
            by_contra hcc
            have : rest = [] := by
              cases rest with
              | nil => rfl
              | cons a b => simp at hcc
            rw [this] at hm1; simp at hm1
          obtain ⟨m2, hm2, hsm2⟩ := forall₂_getElem? hI.same 1 _ (List.getElem?_eq_getElem h1len)
          have : m2 = m1 := by
            have h3 : (n :: rest)[1]? = some m1 := by simpa using hm1
            rw [h3] at hm2; cases hm2; rfl
          subst this
          have hd1 : s.dist[1]? = some s.dist[1] := List.getElem?_eq_getElem h1len
          by_cases hk' : k = 1
          · subst hk'
            rw [hd1] at hk; cases hk
            rw [hsm2.2.1, hsm2.2.2] at hmnew; exact hmnew
          · by_cases hav1 : s.dist[1].avail = true
            · exfalso
              refine hS 1 _ (le_refl _) (Or.inr hc) (by omega) hd1 hav1 ?_
              unfold Touches
              rw [hh, ht, hsm2.2.1, hsm2.2.2]
              unfold Share at hsh
              omega
            · have := hI.used _ (List.getElem_mem h1len) (by simpa using hav1)
              rw [hsm2.2.1, hsm2.2.2] at this
              exact ⟨hsub _ this.1, hsub _ this.2⟩
        · have := h1 hc m1 hm1 hsh
          exact ⟨hsub _ this.1, hsub _ this.2⟩)
    (by
      rintro s k ⟨a, b, c, d⟩
      exact ⟨a, b, c, d⟩) fuel hf
  exact ⟨s.list, he, hp.1, hp.2.1⟩

theorem greedy_inv {R : Type} [LE R] {num : Nat} {r2 : Nat → Nat → R} {ok : Nat → Nat → Prop} {L : List Nat}
    (h : Greedy num r2 ok L) :
    (∃ i j, L = [i, j] ∧ i < j) ∨
    (∃ a v l b, L = v :: a :: l ∧ Greedy num r2 ok (a :: l) ∧ (a :: l).getLast? = some b ∧ v ∉ a :: l ∧
      ∀ e w, (e = a ∨ e = b) → w < num → w ∉ a :: l → ok e w → r2 (min a v) (max a v) ≤ r2 (min e w) (max e w)) ∨
    (∃ a v l b, L = a :: l ++ [v] ∧ Greedy num r2 ok (a :: l) ∧ (a :: l).getLast? = some b ∧ v ∉ a :: l ∧
      ∀ e w, (e = a ∨ e = b) → w < num → w ∉ a :: l → ok e w → r2 (min b v) (max b v) ≤ r2 (min e w) (max e w)) := by
  cases h with
  | start i j hij hj h => exact Or.inl ⟨i, j, rfl, hij⟩
  | front a v l b hl hb hv hvn h => exact Or.inr (Or.inl ⟨a, v, l, b, rfl, hl, hb, hv, h⟩)
  | back a v l b hl hb hv hvn h => exact Or.inr (Or.inr ⟨a, v, l, b, rfl, hl, hb, hv, h⟩)

theorem greedy_two_le {R : Type} [LE R] {num : Nat} {r2 : Nat → Nat → R} {ok : Nat → Nat → Prop} {L : List Nat}
    (h : Greedy num r2 ok L) : 2 ≤ L.length := by
  induction h with
  | start => simp
  | front a v l b hl hb hv hvn h ih => simp at ih ⊢
  | back a v l b hl hb hv hvn h ih => simp at ih ⊢

theorem snoc_inj {a v : Nat} {l : List Nat} {L : List Nat} {w : Nat} (h : L ++ [w] = a :: l ++ [v]) :
    v = w ∧ a :: l = L := by
  have h1 := congrArg List.getLast? h
  have h2 := congrArg List.dropLast h
  rw [List.dropLast_concat, List.dropLast_concat] at h2
  simp only [List.getLast?_append, List.getLast?_singleton] at h1
  simp at h1
  exact ⟨h1.symm, h2.symm⟩

end SpaceHub.Chain
