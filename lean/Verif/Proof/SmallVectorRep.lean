import Verif.Proof.SmallVector

/-
`SmallVector`: which list a vector holds, which blocks are its own, and what the operations on one vector do to both.
-/

set_option autoImplicit false

namespace SpaceHub.SV

variable {T : Type} {pod : Bool}

/-- no block beyond the counter -/
def Wf (m : Mem T) : Prop := ∀ b, m.next ≤ b → m.blocks b = none

/-- the blocks of a vector -/
def Own (v : Vec) (b : Nat) : Prop := b = v.inl ∨ b = v.beg

/-- A vector holds a list: its elements are the constructed cells, the inline buffer is there, and empty when the elements are elsewhere. -/
structure Rep (pod : Bool) (m : Mem T) (v : Vec) (L : List T) : Prop where
  size : v.size = L.length
  fits : v.size ≤ v.cap
  body : ∃ n f, m.blocks v.beg = some ⟨n, f⟩ ∧ v.cap ≤ n ∧ Has f 0 L ∧ (pod = false → ∀ i, v.size ≤ i → f i = .raw)
  inline : ∃ n f, m.blocks v.inl = some ⟨n, f⟩ ∧ (v.beg ≠ v.inl → pod = false → ∀ i, f i = .raw)

theorem live_lt {m : Mem T} (h : Wf m) {b : Nat} {B : Block T} (hb : m.blocks b = some B) : b < m.next := by
  by_contra hc
  rw [h b (by omega)] at hb
  cases hb

theorem Rep.own_lt {m : Mem T} {v : Vec} {L : List T} (h : Rep pod m v L) (hw : Wf m) {b : Nat} (hb : Own v b) : b < m.next := by
  obtain ⟨n, f, h1, _⟩ := h.body
  obtain ⟨n', f', h2, _⟩ := h.inline
  rcases hb with rfl | rfl
  · exact live_lt hw h2
  · exact live_lt hw h1

/-- what a call may do to the memory: the blocks in `S` before it and `S'` after it are those of the vectors it is made on -/
structure Frame (m : Mem T) (S : Nat → Prop) (m' : Mem T) (S' : Nat → Prop) : Prop where
  out : ∀ b, ¬ S b → b < m.next → m'.blocks b = m.blocks b
  gone : ∀ b, S b ∨ m.next ≤ b → ¬ S' b → m'.blocks b = none
  sub : ∀ b, S' b → b < m.next → S b
  mono : m.next ≤ m'.next
  wf : Wf m'

theorem Frame.refl {m : Mem T} (S : Nat → Prop) (h : Wf m) : Frame m S m S where
  out _ _ _ := rfl
  gone b hb hn := h b (hb.resolve_left hn)
  sub _ h _ := h
  mono := Nat.le_refl _
  wf := h

theorem Frame.trans {m m1 m' : Mem T} {S S1 S' : Nat → Prop} (h : Frame m S m1 S1) (h' : Frame m1 S1 m' S') : Frame m S m' S' where
  out b hb hl := by
    have := h.mono
    rw [h'.out b (fun h1 => hb (h.sub b h1 hl)) (by omega), h.out b hb hl]
  gone b hb hn := by
    by_cases h1 : S1 b
    · exact h'.gone b (.inl h1) hn
    · by_cases h2 : b < m1.next
      · rw [h'.out b h1 h2, h.gone b hb h1]
      · exact h'.gone b (.inr (by omega)) hn
  sub b hb hl := h.sub b (h'.sub b hb (by have := h.mono; omega)) hl
  mono := Nat.le_trans h.mono h'.mono
  wf := h'.wf

/-- the same, with sets that have the same elements -/
theorem Frame.congr {m m' : Mem T} {S S' R R' : Nat → Prop} (h : Frame m S m' S') (h1 : ∀ b, S b ↔ R b) (h2 : ∀ b, S' b ↔ R' b) : Frame m R m' R' := by
  have e1 : S = R := funext fun b => propext (h1 b)
  have e2 : S' = R' := funext fun b => propext (h2 b)
  rw [← e1, ← e2]; exact h

/-- a call on part of the blocks -/
theorem Frame.add {m m' : Mem T} {S S' : Nat → Prop} (h : Frame m S m' S') (R : Nat → Prop) :
    Frame m (fun b => S b ∨ R b) m' (fun b => S' b ∨ R b) where
  out b hb hl := h.out b (fun hs => hb (.inl hs)) hl
  gone b hb hn := by
    rcases hb with (hb | hb) | hb
    · exact h.gone b (.inl hb) fun hs => hn (.inl hs)
    · exact absurd (.inr hb) hn
    · exact h.gone b (.inr hb) fun hs => hn (.inl hs)
  sub b hb hl := hb.elim (fun hs => .inl (h.sub b hs hl)) .inr
  mono := h.mono
  wf := h.wf

/-- changing the cells of one block -/
theorem Frame.edit {m : Mem T} (h : Wf m) {b : Nat} {S : Nat → Prop} (hb : S b) (hl : b < m.next) (B : Option (Block T)) : Frame m S (m.set b B) S where
  out c hc _ := Mem.set_other _ _ fun e => hc (e ▸ hb)
  gone c hc hn := by
    have e : c ≠ b := fun e => hn (by rw [e]; exact hb)
    rw [Mem.set_other _ _ e]
    exact h c (hc.resolve_left hn)
  sub _ hc _ := hc
  mono := Nat.le_refl _
  wf c hc := by
    rw [Mem.set_next] at hc
    rw [Mem.set_other _ _ (by omega)]
    exact h c hc

theorem Rep.frame {m m' : Mem T} {v : Vec} {L : List T} (h : Rep pod m v L) (hw : Wf m) {S S' : Nat → Prop} (hf : Frame m S m' S') (hd : ∀ b, Own v b → ¬ S b) :
    Rep pod m' v L := by
  have e : ∀ b, Own v b → m'.blocks b = m.blocks b := fun b hb => hf.out b (hd b hb) (h.own_lt hw hb)
  refine ⟨h.size, h.fits, ?_, ?_⟩
  · rw [e _ (.inr rfl)]; exact h.body
  · rw [e _ (.inl rfl)]; exact h.inline

/-- other cells in the block of the elements -/
theorem Rep.edit {m : Mem T} {v : Vec} {L L' : List T} (h : Rep pod m v L) {n : Nat} {g : Nat → Cell T} (hc : L'.length ≤ v.cap) (hn : v.cap ≤ n) (hh : Has g 0 L')
    (hr : pod = false → ∀ i, L'.length ≤ i → g i = .raw) : Rep pod (m.set v.beg (some ⟨n, g⟩)) { v with size := L'.length } L' := by
  refine ⟨rfl, hc, ⟨n, g, Mem.set_same _ _ _, hn, hh, hr⟩, ?_⟩
  by_cases e : v.beg = v.inl
  · exact ⟨n, g, by show (m.set v.beg _).blocks v.inl = _; rw [e]; exact Mem.set_same _ _ _, fun hne => absurd e hne⟩
  · obtain ⟨n', f', h1, h2⟩ := h.inline
    exact ⟨n', f', by show (m.set v.beg _).blocks v.inl = _; rw [Mem.set_other _ _ fun e' => e e'.symm]; exact h1, h2⟩

/-- the outcome of a call on one vector -/
def Good (pod : Bool) (m : Mem T) (v : Vec) (r : Res (Mem T × Vec)) (L : List T) : Prop :=
  ∃ m' v', r = .ok (m', v') ∧ Rep pod m' v' L ∧ Frame m (Own v) m' (Own v') ∧ v'.inl = v.inl

theorem Good.bind {m : Mem T} {v : Vec} {r : Res (Mem T × Vec)} {L L' : List T} (h : Good pod m v r L) {k : Mem T × Vec → Res (Mem T × Vec)}
    (hk : ∀ m' v', r = .ok (m', v') → Rep pod m' v' L → Wf m' → Good pod m' v' (k (m', v')) L') : Good pod m v (r.bind k) L' := by
  obtain ⟨m', v', hr, hp, hf, hi⟩ := h
  obtain ⟨m2, v2, hr2, hp2, hf2, hi2⟩ := hk m' v' hr hp hf.wf
  exact ⟨m2, v2, by rw [hr]; exact hr2, hp2, hf.trans hf2, hi2.trans hi⟩

theorem Good.self {m : Mem T} {v : Vec} {L : List T} (h : Rep pod m v L) (hw : Wf m) : Good pod m v (.ok (m, v)) L := ⟨m, v, rfl, h, Frame.refl _ hw, rfl⟩

/-- a call that only edits the cells of the elements -/
theorem Good.edit {m : Mem T} {v : Vec} {L L' : List T} (h : Rep pod m v L) (hw : Wf m) {n k : Nat} {g : Nat → Cell T} (hk : k = L'.length) (hc : L'.length ≤ v.cap)
    (hn : v.cap ≤ n) (hh : Has g 0 L') (hr : pod = false → ∀ i, L'.length ≤ i → g i = .raw) :
    Good pod m v (.ok (m.set v.beg (some ⟨n, g⟩), { v with size := k })) L' := by
  subst hk
  exact ⟨_, _, rfl, h.edit hc hn hh hr, Frame.edit hw (.inr rfl) (h.own_lt hw (.inr rfl)) _, rfl⟩

/-! ### growing -/

theorem le_nextPowerOf2 (a : Nat) : a < nextPowerOf2 a := by
  unfold nextPowerOf2
  have h : ∀ x y : Nat, x ≤ x ||| y := fun _ _ => Nat.left_le_or
  exact Nat.lt_succ_of_le (Nat.le_trans (h _ _) (Nat.le_trans (h _ _) (Nat.le_trans (h _ _) (Nat.le_trans (h _ _) (Nat.le_trans (h _ _) (h _ _))))))

theorem malloc_new (m : Mem T) (n : Nat) : (m.malloc n).1.blocks m.next = some ⟨n, fun _ => .raw⟩ := if_pos rfl

theorem malloc_old (m : Mem T) (n : Nat) {b : Nat} (h : b ≠ m.next) : (m.malloc n).1.blocks b = m.blocks b := if_neg h

theorem grown {m m' : Mem T} {v : Vec} {L : List T} (h : Rep pod m v L) (hw : Wf m) {C : Nat} {G : Nat → Cell T} (hnext : m'.next = m.next + 1)
    (hnew : m'.blocks m.next = some ⟨C, G⟩) (hG : Has G 0 L) (hGr : pod = false → ∀ i, v.size ≤ i → G i = .raw) (hC : v.size ≤ C)
    (hold : v.beg = v.inl → ∃ n g, m'.blocks v.beg = some ⟨n, g⟩ ∧ (pod = false → ∀ i, g i = .raw)) (hgone : v.beg ≠ v.inl → m'.blocks v.beg = none)
    (hout : ∀ b, b ≠ m.next → b ≠ v.beg → m'.blocks b = m.blocks b) :
    Rep pod m' { v with beg := m.next, cap := C } L ∧ Frame m (Own v) m' (Own { v with beg := m.next, cap := C }) := by
  obtain ⟨n, f, hb, hn, hh, hr⟩ := h.body
  obtain ⟨n', f', hi, hir⟩ := h.inline
  have hlt := live_lt hw hb
  have hlt' := live_lt hw hi
  refine ⟨⟨h.size, hC, ⟨C, G, hnew, Nat.le_refl _, hG, hGr⟩, ?_⟩, ?_, ?_, ?_, by omega, ?_⟩
  · by_cases e : v.beg = v.inl
    · obtain ⟨n2, g, h1, h2⟩ := hold e
      exact ⟨n2, g, by show m'.blocks v.inl = _; rw [← e]; exact h1, fun _ => h2⟩
    · exact ⟨n', f', by show m'.blocks v.inl = _; rw [hout _ (by omega) (fun e' => e e'.symm)]; exact hi, fun _ => hir e⟩
  · intro b hS hl
    exact hout b (by omega) fun e => hS (.inr e)
  · intro b hS hn'
    have n1 : b ≠ v.inl := fun e => hn' (.inl e)
    have n2 : b ≠ m.next := fun e => hn' (.inr e)
    by_cases e : b = v.beg
    · rw [e]; exact hgone fun e' => n1 (e.trans e')
    · rw [hout b n2 e]
      exact hw b (hS.resolve_left fun hS => hS.elim n1 e)
  · intro b hS hl
    exact hS.elim (fun e => .inl e) fun e => by
      have : b = m.next := e
      omega
  · intro b hb
    rw [hout b (by omega) (by omega)]
    exact hw b (by omega)

/-- `grow` keeps the elements, in a new block with more room; the old block is released. -/
theorem grow_ok {m : Mem T} {v : Vec} {L : List T} (h : Rep pod m v L) (hw : Wf m) (k : Nat) :
    ∃ m' v', grow pod m v k = .ok (m', v') ∧ Rep pod m' v' L ∧ Frame m (Own v) m' (Own v') ∧ v'.inl = v.inl ∧ v'.beg = m.next ∧ k ≤ v'.cap ∧ v.cap < v'.cap ∧
      v'.size = v.size := by
  obtain ⟨n, f, hb, hn, hh, hr⟩ := h.body
  have hlt := live_lt hw hb
  have hs := h.size
  have hc := h.fits
  cases hp : pod
  · subst hp
    obtain ⟨C, hC⟩ : ∃ C, (if nextPowerOf2 (v.cap + 2) < k then k else nextPowerOf2 (v.cap + 2)) = C := ⟨_, rfl⟩
    have hC1 : k ≤ C ∧ v.cap < C := by
      have := le_nextPowerOf2 (v.cap + 2)
      rw [← hC]; split_ifs <;> omega
    have hne : v.beg ≠ m.next := by omega
    have hb1 : (m.malloc C).1.blocks v.beg = some ⟨n, f⟩ := by rw [malloc_old _ _ hne]; exact hb
    have e1 := uninitMove_ok (pod := false) hne L 0 0 hb1 (malloc_new m C) hh (by omega) (by omega) (fun _ _ _ _ => rfl)
    have hb2 : (((m.malloc C).1.set v.beg (some ⟨n, drain false 0 L.length f⟩)).set m.next (some ⟨C, lay 0 L fun _ => .raw⟩)).blocks v.beg =
        some ⟨n, drain false 0 L.length f⟩ := by rw [Mem.set_other _ _ hne]; exact Mem.set_same _ _ _
    have e2 := destroyRange_ok (pod := false) 0 L.length hb2 (by omega) (fun _ i _ h2 => by
      rw [drain_in rfl (by omega) h2]; intro hh; cases hh)
    have hraw : ∀ i, wipe false 0 L.length (drain false 0 L.length f) i = .raw := fun i => by
      by_cases hi : i < L.length
      · exact wipe_in rfl (by omega) (by omega)
      · rw [wipe_out (by omega), drain_out (by omega)]
        exact hr rfl i (by omega)
    have hG : ∀ i, v.size ≤ i → lay 0 L (fun _ => (.raw : Cell T)) i = .raw := fun i hi => lay_out (by omega)
    by_cases e : v.beg = v.inl
    · have hsm : v.isSmall = true := by unfold Vec.isSmall; simpa using e
      obtain ⟨q1, q2⟩ := grown (m' := (((m.malloc C).1.set v.beg (some ⟨n, drain false 0 L.length f⟩)).set m.next (some ⟨C, lay 0 L fun _ => .raw⟩)).set v.beg
          (some ⟨n, wipe false 0 L.length (drain false 0 L.length f)⟩)) (C := C) (G := lay 0 L fun _ => .raw) h hw rfl
        (by rw [Mem.set_other _ _ hne.symm]; exact Mem.set_same _ _ _) (has_lay _ _ _) (fun _ => hG) (by omega)
        (fun _ => ⟨_, _, Mem.set_same _ _ _, fun _ => hraw⟩) (fun hne' => absurd e hne')
        (fun b h1 h2 => by rw [Mem.set_other _ _ h2, Mem.set_other _ _ h1, Mem.set_other _ _ h2, malloc_old _ _ h1])
      refine ⟨_, _, ?_, q1, q2, rfl, rfl, hC1.1, hC1.2, rfl⟩
      unfold grow
      rw [if_neg (by simp), hsm, hC]
      show ((uninitMove false (m.malloc C).1 v.beg 0 m.next 0 v.size).bind _) = _
      rw [hs, e1]
      show (destroyRange false _ v.beg 0 L.length).bind _ = _
      rw [e2]
      rfl
    · have hsm : v.isSmall = false := by unfold Vec.isSmall; simpa using e
      have hb3 : ((((m.malloc C).1.set v.beg (some ⟨n, drain false 0 L.length f⟩)).set m.next (some ⟨C, lay 0 L fun _ => .raw⟩)).set v.beg
          (some ⟨n, wipe false 0 L.length (drain false 0 L.length f)⟩)).blocks v.beg = some ⟨n, wipe false 0 L.length (drain false 0 L.length f)⟩ := Mem.set_same _ _ _
      have e3 := free_ok (pod := false) hb3 (fun _ => hraw)
      obtain ⟨q1, q2⟩ := grown (m' := ((((m.malloc C).1.set v.beg (some ⟨n, drain false 0 L.length f⟩)).set m.next (some ⟨C, lay 0 L fun _ => .raw⟩)).set v.beg
          (some ⟨n, wipe false 0 L.length (drain false 0 L.length f)⟩)).set v.beg none) (C := C) (G := lay 0 L fun _ => .raw) h hw rfl
        (by rw [Mem.set_set, Mem.set_other _ _ hne.symm]; exact Mem.set_same _ _ _) (has_lay _ _ _) (fun _ => hG) (by omega)
        (fun e' => absurd e' e) (fun _ => Mem.set_same _ _ _)
        (fun b h1 h2 => by rw [Mem.set_set, Mem.set_other _ _ h2, Mem.set_other _ _ h1, Mem.set_other _ _ h2, malloc_old _ _ h1])
      refine ⟨_, _, ?_, q1, q2, rfl, rfl, hC1.1, hC1.2, rfl⟩
      unfold grow
      rw [if_neg (by simp), hsm, hC]
      show ((uninitMove false (m.malloc C).1 v.beg 0 m.next 0 v.size).bind _) = _
      rw [hs, e1]
      show (destroyRange false _ v.beg 0 L.length).bind _ = _
      rw [e2]
      show (free false _ v.beg).bind _ = _
      rw [e3]
      rfl
  · subst hp
    obtain ⟨C, hC⟩ : ∃ C, (if 2 * v.cap + 1 < k then k else 2 * v.cap + 1) = C := ⟨_, rfl⟩
    have hC1 : k ≤ C ∧ v.cap < C := by rw [← hC]; split_ifs <;> omega
    have hne : v.beg ≠ m.next := by omega
    have hb1 : (m.malloc C).1.blocks v.beg = some ⟨n, f⟩ := by rw [malloc_old _ _ hne]; exact hb
    have hno : ∀ {p : Prop}, true = false → p := fun h => by cases h
    by_cases e : v.beg = v.inl
    · have hsm : v.isSmall = true := by unfold Vec.isSmall; simpa using e
      have e1 := uninitCopy_ok (pod := true) hne L 0 0 hb1 (malloc_new m C) hh (by omega) (by omega) (fun _ _ _ _ => rfl)
      obtain ⟨q1, q2⟩ := grown (m' := (m.malloc C).1.set m.next (some ⟨C, lay 0 L fun _ => .raw⟩)) (C := C) (G := lay 0 L fun _ => .raw) h hw rfl
        (Mem.set_same _ _ _) (has_lay _ _ _) (fun h => hno h) (by omega)
        (fun _ => ⟨n, f, by rw [Mem.set_other _ _ hne]; exact hb1, fun h => hno h⟩) (fun hne' => absurd e hne')
        (fun b h1 h2 => by rw [Mem.set_other _ _ h1, malloc_old _ _ h1])
      refine ⟨_, _, ?_, q1, q2, rfl, rfl, hC1.1, hC1.2, rfl⟩
      unfold grow
      rw [if_pos rfl, hC, if_pos hsm]
      show ((uninitCopy true (m.malloc C).1 v.beg 0 m.next 0 v.size).bind _) = _
      rw [hs, e1]
      rfl
    · have hsm : v.isSmall = false := by unfold Vec.isSmall; simpa using e
      have e1 : realloc m v.beg C = .ok ((⟨m.next + 1, fun c => if c = m.next then some ⟨C, fun i => if i < n then f i else .raw⟩ else (m.set v.beg none).blocks c⟩ : Mem T), m.next) := by
        unfold realloc; rw [hb]; rfl
      obtain ⟨q1, q2⟩ := grown
        (m' := (⟨m.next + 1, fun c => if c = m.next then some ⟨C, fun i => if i < n then f i else .raw⟩ else (m.set v.beg none).blocks c⟩ : Mem T)) (C := C)
        (G := fun i => if i < n then f i else .raw) h hw rfl (if_pos rfl) (hh.congr fun i _ h2 => if_pos (by omega)) (fun h => hno h) (by omega)
        (fun e' => absurd e' e) (fun _ => by show (if _ then _ else _) = _; rw [if_neg hne]; exact Mem.set_same _ _ _)
        (fun b h1 h2 => by show (if _ then _ else _) = _; rw [if_neg h1]; exact Mem.set_other _ _ h2)
      refine ⟨_, _, ?_, q1, q2, rfl, rfl, hC1.1, hC1.2, rfl⟩
      unfold grow
      rw [if_pos rfl, hC, if_neg (by rw [hsm]; simp), e1]
      rfl

/-- room for more elements -/
theorem reserve_ok {m : Mem T} {v : Vec} {L : List T} (h : Rep pod m v L) (hw : Wf m) (k : Nat) {c : Prop} [Decidable c] (hc : ¬ c → k ≤ v.cap) :
    ∃ m' v', (if c then grow pod m v k else .ok (m, v)) = .ok (m', v') ∧ Rep pod m' v' L ∧ Frame m (Own v) m' (Own v') ∧ v'.inl = v.inl ∧ k ≤ v'.cap ∧ v'.size = v.size := by
  by_cases hh : c
  · obtain ⟨m', v', h1, h2, h3, h4, _, h6, _, h8⟩ := grow_ok h hw k
    exact ⟨m', v', by rw [if_pos hh]; exact h1, h2, h3, h4, h6, h8⟩
  · exact ⟨m, v, by rw [if_neg hh], h, Frame.refl _ hw, rfl, hc hh, rfl⟩

end SpaceHub.SV
