import Verif.Props.SmallVector

/-
C108: calls whose argument is an element of the vector itself, and which references stay valid.
-/

set_option autoImplicit false

namespace SpaceHub.SV

variable {T : Type} {pod : Bool} {m : Mem T} {v : Vec} {L : List T}

theorem read_none {b i : Nat} (h : m.blocks b = none) : m.read b i = .ub := by
  unfold Mem.read Mem.get; rw [h]; rfl

theorem read_raw {b i n : Nat} {f : Nat → Cell T} (h : m.blocks b = some ⟨n, f⟩) (hf : f i = .raw) : m.read b i = .ub := by
  unfold Mem.read Mem.get; rw [h]
  by_cases hi : i < n
  · show Res.bind (if i < n then .ok (f i) else .ub) _ = _
    rw [if_pos hi, hf]; rfl
  · show Res.bind (if i < n then .ok (f i) else .ub) _ = _
    rw [if_neg hi]; rfl

/-- After a reallocation the elements are not where they were, except that `memcpy` leaves a copy behind in the inline buffer. -/
theorem moved_away (h : Rep pod m v L) (hw : Wf m) (k i : Nat) {m' : Mem T} {v' : Vec} (e : grow pod m v k = .ok (m', v')) (hg : pod = false ∨ v.beg ≠ v.inl) :
    m'.read v.beg i = .ub := by
  obtain ⟨m1, v1, e1, r, fr, h1, h2, _⟩ := grow_ok h hw k
  rw [e] at e1
  cases e1
  have hlt : v.beg < m.next := h.own_lt hw (.inr rfl)
  by_cases hb : v.beg = v.inl
  · obtain ⟨n, f, hi, hr⟩ := r.inline
    rw [h1, ← hb] at hi
    refine read_raw hi (hr ?_ (hg.resolve_right fun q => q hb) i)
    rw [h1, h2, ← hb]; omega
  · refine read_none (fr.gone v.beg (.inl (.inr rfl)) ?_)
    rintro (q | q)
    · rw [h1] at q; exact hb q
    · rw [h2] at q; omega

theorem left_behind (h : Rep true m v L) (hw : Wf m) (k : Nat) (hb : v.beg = v.inl) {m' : Mem T} {v' : Vec} (e : grow true m v k = .ok (m', v')) : m'.blocks v.beg = m.blocks v.beg := by
  obtain ⟨n, f, hb', hn, hh, _⟩ := h.body
  have hs := h.size
  have hc := h.fits
  have hlt : v.beg < m.next := h.own_lt hw (.inr rfl)
  have hne : v.beg ≠ m.next := by omega
  have hsm : v.isSmall = true := by unfold Vec.isSmall; simpa using hb
  obtain ⟨C, hC⟩ : ∃ C, (if 2 * v.cap + 1 < k then k else 2 * v.cap + 1) = C := ⟨_, rfl⟩
  have hC1 : k ≤ C ∧ v.cap < C := by rw [← hC]; split_ifs <;> omega
  have hb1 : (m.malloc C).1.blocks v.beg = some ⟨n, f⟩ := by rw [malloc_old _ _ hne]; exact hb'
  have e1 := uninitCopy_ok (pod := true) hne L 0 0 hb1 (malloc_new m C) hh (by omega) (by omega) (fun _ _ _ _ => rfl)
  have e2 : grow true m v k = .ok ((m.malloc C).1.set m.next (some ⟨C, lay 0 L fun _ => .raw⟩), { v with beg := m.next, cap := C }) := by
    unfold grow
    rw [if_pos rfl, hC, if_pos hsm]
    show ((uninitCopy true (m.malloc C).1 v.beg 0 m.next 0 v.size).bind _) = _
    rw [hs, e1]
    rfl
  rw [e] at e2
  cases e2
  rw [Mem.set_other _ _ hne, hb1, hb']

/-- `push_back` of the element at `i`, when it can still be read after making room -/
theorem push_own (h : Rep pod m v L) (hw : Wf m) (i : Nat) (hi : i < L.length) (hread : ∀ m' v', (if v.cap ≤ v.size then grow pod m v 0 else .ok (m, v)) = .ok (m', v') →
    m'.read v.beg i = .ok L[i]) : Good pod m v (pushBack pod m v (.at v.beg i)) (L ++ [L[i]]) := by
  obtain ⟨m', v', h1, h2, h3, h4, h5, h6⟩ := room_ok h hw
  have e := pushBack_ok h hw L[i]
  unfold pushBack at e ⊢
  rw [h1] at e ⊢
  show Good pod m v (Res.bind (m'.read v.beg i) _) _
  rw [hread m' v' h1]
  exact e

/-- **C108** (`push_back` of an element of the vector itself).  In a vector that some program has built up to the list `L`, `v.push_back(v[i])` appends `L[i]` if there is
room, or if the elements are trivially copyable and still in the inline buffer; in a full vector it reads memory that was given back or an element that was destroyed. -/
theorem C108_push_back (pod : Bool) (ops : List (Op T)) (σ : Spec.Lists T) (h : Spec.run (fun _ => none) ops = some σ) (k : Nat) (L : List T) (hk : σ k = some L) (i : Nat)
    (hi : i < L.length) : ∃ (w : World T) (v : Vec), run pod World.empty ops = .ok w ∧ w.vec k = some v ∧
      if v.size = v.cap ∧ (pod = false ∨ v.beg ≠ v.inl) then pushBack pod w.mem v (.at v.beg i) = .ub
      else ∃ m' v', pushBack pod w.mem v (.at v.beg i) = .ok (m', v') ∧ v'.size = L.length + 1 ∧ ∀ j (hj : j < (L ++ [L[i]]).length), m'.read v'.beg j = .ok (L ++ [L[i]])[j] := by
  have := run_ok (pod := pod) ops (inv_empty (T := T))
  rw [h] at this
  obtain ⟨w, e, hinv⟩ := this
  obtain ⟨v, hv, hr⟩ := hinv.some_iff hk
  refine ⟨w, v, e, hv, ?_⟩
  have hfit := hr.fits
  have hgood : (∀ m' v', (if v.cap ≤ v.size then grow pod w.mem v 0 else .ok (w.mem, v)) = .ok (m', v') → m'.read v.beg i = .ok L[i]) →
      ∃ m' v', pushBack pod w.mem v (.at v.beg i) = .ok (m', v') ∧ v'.size = L.length + 1 ∧ ∀ j (hj : j < (L ++ [L[i]]).length), m'.read v'.beg j = .ok (L ++ [L[i]])[j] := fun hread => by
    obtain ⟨m', v', e', r, _⟩ := push_own hr hinv.wf i hi hread
    exact ⟨m', v', e', by rw [r.size, List.length_append, List.length_singleton], r.read⟩
  by_cases hc : v.size = v.cap ∧ (pod = false ∨ v.beg ≠ v.inl)
  · rw [if_pos hc]
    obtain ⟨m', v', e', _⟩ := grow_ok hr hinv.wf 0
    unfold pushBack
    rw [if_pos (by omega), e']
    show Res.bind (m'.read v.beg i) _ = _
    rw [moved_away hr hinv.wf 0 i e' hc.2]
    rfl
  · rw [if_neg hc]
    refine hgood fun m' v' e' => ?_
    by_cases hfull : v.cap ≤ v.size
    · rw [if_pos hfull] at e'
      have hq : ¬ (pod = false ∨ v.beg ≠ v.inl) := fun q => hc ⟨by omega, q⟩
      have hp : pod = true := by
        cases pod
        · exact absurd (.inl rfl) hq
        · rfl
      have hb : v.beg = v.inl := by
        by_contra q
        exact hq (.inr q)
      subst hp
      obtain ⟨n, f, hb', hn, hh, _⟩ := hr.body
      have hs := hr.size
      have hx := hh i L[i] (List.getElem?_eq_getElem hi)
      rw [Nat.zero_add] at hx
      exact read_ok ((left_behind hr hinv.wf 0 hb e').trans hb') (by omega) hx
    · rw [if_neg hfull] at e'
      cases e'
      exact hr.read i hi

/-- **C108** (how it happens).  A vector whose inline elements are all in use, of elements that are not trivially copyable: `v.push_back(v[i])` is undefined behaviour. -/
theorem C108_push_back_full (xs : List T) (hx : xs ≠ []) (i : Nat) (hi : i < xs.length) :
    ∃ (w : World T) (v : Vec), run false World.empty [.createList 0 xs.length xs] = .ok w ∧ w.vec 0 = some v ∧ pushBack false w.mem v (.at v.beg i) = .ub := by
  obtain ⟨w, v, e, hv, h⟩ := C108_push_back false [.createList 0 xs.length xs] (Spec.put (fun _ => none) 0 (some xs)) rfl 0 xs (if_pos rfl) i hi
  refine ⟨w, v, e, hv, ?_⟩
  have hlen : 0 < xs.length := List.length_pos_of_ne_nil hx
  have e2 : run false (World.empty : World T) [.createList 0 xs.length xs] =
      .ok (World.empty.put (((create (⟨0, fun _ => none⟩ : Mem T) xs.length).1).set 0 (some ⟨xs.length, lay 0 xs fun _ => .raw⟩)) 0 (some ⟨0, 0, xs.length, xs.length⟩)) := by
    have hb : (create (⟨0, fun _ => none⟩ : Mem T) xs.length).1.blocks 0 = some ⟨xs.length, fun _ => .raw⟩ := by
      show some _ = _
      rw [if_neg (by omega)]
    have u := uninitList_ok (pod := false) xs 0 hb (by omega) (fun _ _ _ _ => rfl)
    show Res.bind (Res.bind (Res.bind (if xs.length - 0 < xs.length then _ else _) _) _) _ = _
    rw [if_neg (by omega)]
    show Res.bind (Res.bind (Res.bind (uninitList false (create (⟨0, fun _ => none⟩ : Mem T) xs.length).1 0 0 xs) _) _) _ = _
    rw [u]
    show Res.ok _ = _
    congr 3
    show (⟨0, 0, 0 + xs.length, xs.length⟩ : Vec) = _
    rw [Nat.zero_add]
  rw [e] at e2
  cases e2
  rw [put_same] at hv
  cases hv
  rw [if_pos ⟨rfl, .inl rfl⟩] at h
  exact h

/-- **C108** (`insert` of an element of the vector itself).  With room for one more, the element inserted is the one referred to, wherever it stands. -/
theorem C108_insert (pod : Bool) (ops : List (Op T)) (σ : Spec.Lists T) (h : Spec.run (fun _ => none) ops = some σ) (k : Nat) (L : List T) (hk : σ k = some L) (i j : Nat)
    (hi : i ≤ L.length) (hj : j < L.length) : ∃ (w : World T) (v : Vec), run pod World.empty ops = .ok w ∧ w.vec k = some v ∧
      (v.size < v.cap → ∃ m' v', insertAt pod w.mem v i (.at v.beg j) = .ok (m', v') ∧ insertAt pod w.mem v i (.ext L[j]) = .ok (m', v') ∧ v'.size = L.length + 1 ∧
        ∀ q (hq : q < (L.take i ++ [L[j]] ++ L.drop i).length), m'.read v'.beg q = .ok (L.take i ++ [L[j]] ++ L.drop i)[q]) := by
  have := run_ok (pod := pod) ops (inv_empty (T := T))
  rw [h] at this
  obtain ⟨w, e, hinv⟩ := this
  obtain ⟨v, hv, hr⟩ := hinv.some_iff hk
  refine ⟨w, v, e, hv, fun hroom => ?_⟩
  have hwf := hinv.wf
  generalize w.mem = m at hr hwf
  have hl : (L.take i ++ [L[j]] ++ L.drop i).length = L.length + 1 := by
    rw [List.length_append, List.length_append, List.length_take, List.length_drop, List.length_singleton]; omega
  obtain ⟨m', v', e', r, _⟩ := insertAt_ok hr hwf i L[j] hi
  rw [List.append_assoc, List.singleton_append] at hl ⊢
  refine ⟨m', v', ?_, e', by rw [r.size]; exact hl, r.read⟩
  rw [← e']
  have hs := hr.size
  unfold insertAt
  by_cases h0 : i = v.size
  · rw [if_pos h0, if_pos h0]
    unfold pushBack
    rw [if_neg (by omega)]
    show Res.bind (m.read v.beg j) _ = _
    rw [hr.read j hj]
    rfl
  rw [if_neg h0, if_neg h0, if_neg (by omega), if_neg (by omega), if_neg (by omega)]
  obtain ⟨n, f, hb, hn, hh, hraw⟩ := hr.body
  obtain ⟨mid, last, hml⟩ : ∃ mid last, L.drop i = mid ++ [last] := by
    have hne : L.drop i ≠ [] := fun e => by
      have := congrArg List.length e
      rw [List.length_drop, List.length_nil] at this
      omega
    exact ⟨(L.drop i).dropLast, (L.drop i).getLast hne, (List.dropLast_append_getLast hne).symm⟩
  have hlen : i + mid.length + 1 = L.length := by
    have := congrArg List.length hml
    rw [List.length_drop, List.length_append, List.length_singleton] at this
    omega
  have hD : Has f i (mid ++ [last]) := by have := hh.drop i; rwa [Nat.zero_add, hml] at this
  obtain ⟨hM, hE⟩ := Has.append.1 hD
  have hE := (Has.cons.1 hE).1
  have live : pod = false → ∀ j, j < v.size → (fun j => if j = v.size then Cell.val last else if j = v.size - 1 ∧ pod = false then .husk else f j) j ≠ .raw := fun _ j hj => by
    dsimp only
    rw [if_neg (by omega)]
    split_ifs
    · intro hh; cases hh
    · exact hh.ne_raw j (by omega) (by omega)
  show Res.bind (moveOut pod m v.beg (v.size - 1)) _ = Res.bind (moveOut pod m v.beg (v.size - 1)) _
  rw [moveOut_ok (x := last) hb (by omega) (by rw [show v.size - 1 = i + mid.length by omega]; exact hE)]
  show Res.bind (construct pod _ v.beg v.size last) _ = Res.bind (construct pod _ v.beg v.size last) _
  rw [construct_ok (Mem.set_same _ _ _) (by omega) last (fun hp => by rw [if_neg (by omega)]; exact hraw hp _ (Nat.le_refl _)), Mem.set_set]
  show Res.bind (moveBackward pod _ v.beg i (i + 1) (v.size - 1 - i)) _ = Res.bind (moveBackward pod _ v.beg i (i + 1) (v.size - 1 - i)) _
  rw [show v.size - 1 - i = mid.length by omega]
  rw [moveBackward_ok mid i (i + 1) (Mem.set_same _ _ _) (hM.congr fun j h1 h2 => by rw [if_neg (by omega), if_neg (by omega)]) (by omega) (by omega)
    (fun hp j h1 h2 => live hp j (by omega)), Mem.set_set]
  have hget : ∀ q, q < L.length → (hq : q < L.length) → f q = .val L[q] := fun q _ hq => by
    have := hh q L[q] (List.getElem?_eq_getElem hq)
    rwa [Nat.zero_add] at this
  show Res.bind (Ref.get (if v.beg = v.beg ∧ i ≤ j ∧ j < v.size + 1 then Ref.at v.beg (j + 1) else .at v.beg j) _) _ = _
  by_cases hij : i ≤ j
  · rw [if_pos ⟨rfl, hij, by omega⟩]
    show Res.bind (Mem.read _ v.beg (j + 1)) _ = _
    rw [read_ok (x := L[j]) (Mem.set_same _ _ _) (by omega)]
    · rfl
    · by_cases hlast : j = i + mid.length
      · rw [lay_out (by omega), drain_out (by omega), if_pos (by omega), ← hE, ← hlast]
        exact hget j hj hj
      · have hjm : j - i < mid.length := by omega
        have e1 := has_lay (i + 1) mid (drain pod i mid.length fun j => if j = v.size then Cell.val last else if j = v.size - 1 ∧ pod = false then .husk else f j) (j - i)
          mid[j - i] (List.getElem?_eq_getElem hjm)
        have e2 := hM (j - i) mid[j - i] (List.getElem?_eq_getElem hjm)
        rw [show i + 1 + (j - i) = j + 1 by omega] at e1
        rw [show i + (j - i) = j by omega] at e2
        rw [e1, ← e2]
        exact hget j hj hj
  · rw [if_neg (fun q => hij q.2.1)]
    show Res.bind (Mem.read _ v.beg j) _ = _
    rw [read_ok (x := L[j]) (Mem.set_same _ _ _) (by omega)]
    · rfl
    · rw [lay_out (by omega), drain_out (by omega), if_neg (by omega), if_neg (by omega)]
      exact hget j hj hj

theorem fill_own {n : Nat} (b : Nat) {len : Nat} (x : T) (q : Nat) : ∀ {m : Mem T} {f : Nat → Cell T} (d : Nat), m.blocks b = some ⟨len, f⟩ → d + n ≤ len → q < len → f q = .val x →
    fill true m b d (.at b q) n = .ok (m.set b (some ⟨len, lay d (List.replicate n x) f⟩)) := by
  induction n with
  | zero => intro m f d h _ _ _; rw [List.replicate_zero, lay_nil, Mem.set_self _ h]; rfl
  | succ n ih =>
    intro m f d h hd hq hf
    unfold fill
    show Res.bind (m.read b q) _ = _
    rw [read_ok h hq hf]
    show Res.bind (assignAt true m b d x) _ = _
    rw [assign_ok h (by omega) x (fun hp => by cases hp)]
    show fill true _ b (d + 1) (.at b q) n = _
    rw [ih (d + 1) (Mem.set_same _ _ _) (by omega) hq (by split_ifs <;> first | rfl | exact hf), Mem.set_set, List.replicate_succ, lay_cons]

/-- **C108** (`insert` of several copies of an element of the vector itself).  For trivially copyable elements and with room, an element at least `n` behind the place is
replaced by the one `n` before it: `v.insert(v.begin() + i, n, v[j])` with `j ≥ i + n` inserts copies of what was `v[j - n]`. -/
theorem C108_insert_copies (ops : List (Op T)) (σ : Spec.Lists T) (h : Spec.run (fun _ => none) ops = some σ) (k : Nat) (L : List T) (hk : σ k = some L) (i n j : Nat)
    (hij : i + n ≤ j) (hj : j < L.length) : ∃ (w : World T) (v : Vec), run true World.empty ops = .ok w ∧ w.vec k = some v ∧
      (L.length + n ≤ v.cap → ∃ m' v', insertFill true w.mem v i n (.at v.beg j) = .ok (m', v') ∧ v'.size = L.length + n ∧
        ∀ q (hq : q < (L.take i ++ List.replicate n (L[j - n]'(by omega)) ++ L.drop i).length),
          m'.read v'.beg q = .ok (L.take i ++ List.replicate n (L[j - n]'(by omega)) ++ L.drop i)[q]) := by
  have := run_ok (pod := true) ops (inv_empty (T := T))
  rw [h] at this
  obtain ⟨w, e, hinv⟩ := this
  obtain ⟨v, hv, hr⟩ := hinv.some_iff hk
  refine ⟨w, v, e, hv, fun hroom => ?_⟩
  have hwf := hinv.wf
  generalize w.mem = m at hr hwf
  have hs := hr.size
  have hl : (L.take i ++ List.replicate n (L[j - n]'(by omega)) ++ L.drop i).length = L.length + n := by
    rw [List.length_append, List.length_append, List.length_take, List.length_drop, List.length_replicate]; omega
  obtain ⟨m', v', e', r, _⟩ := insertList_ok hr hwf i (List.replicate n (L[j - n]'(by omega))) (by omega)
  refine ⟨m', v', ?_, by rw [r.size]; exact hl, r.read⟩
  rw [← e', ← insertFill_eq]
  unfold insertFill reserve
  rw [if_neg (by omega), if_neg (by omega), if_neg (by omega), if_neg (by omega), if_neg (by omega)]
  show (if n ≤ v.size - i then _ else _) = (if n ≤ v.size - i then _ else _)
  rw [if_pos (by omega), if_pos (by omega)]
  obtain ⟨len, f, hb, hn, hh, hraw⟩ := hr.body
  obtain ⟨mid, hmid⟩ : ∃ mid, (L.drop i).take (v.size - n - i) = mid := ⟨_, rfl⟩
  have hsplit : L.drop i = mid ++ L.drop (v.size - n) := by rw [← hmid]; exact take_drop_between L (by omega)
  have hml : mid.length = v.size - n - i := by rw [← hmid, List.length_take, List.length_drop]; omega
  have htl : (L.drop (v.size - n)).length = n := by rw [List.length_drop]; omega
  have hD : Has f i (L.drop i) := by have := hh.drop i; rwa [Nat.zero_add] at this
  have hD2 := hD
  rw [hsplit] at hD2
  obtain ⟨hM, hE⟩ := Has.append.1 hD2
  rw [show i + mid.length = v.size - n by omega] at hE
  have live : ∀ j, j < v.size → f j ≠ .raw := fun j hj => hh.ne_raw j (by omega) (by omega)
  have e1 := uninitMove_in (pod := true) (L.drop (v.size - n)) (v.size - n) v.size hb hE (by omega) (by omega) (fun hp j h1 _ => hraw hp j h1)
  rw [htl] at e1
  show Res.bind (uninitMove true m v.beg (v.size - n) v.beg v.size n) _ = Res.bind (uninitMove true m v.beg (v.size - n) v.beg v.size n) _
  rw [e1]
  show Res.bind (moveBackward true _ v.beg i (i + n) (v.size - n - i)) _ = Res.bind (moveBackward true _ v.beg i (i + n) (v.size - n - i)) _
  rw [← hml, moveBackward_ok mid i (i + n) (Mem.set_same _ _ _) (hM.congr fun j h1 h2 => by rw [lay_out (by omega), drain_out (by omega)]) (by omega) (by omega)
    (fun hp j h1 h2 => lay_raw (drain_raw (live j (by omega)))), Mem.set_set]
  show Res.bind (fill true _ v.beg i (.at v.beg j) n) _ = Res.bind (fill true _ v.beg i (.ext _) n) _
  have hjm : j - n - i < mid.length := by omega
  have q1 := has_lay (i + n) mid (drain true i mid.length (lay v.size (L.drop (v.size - n)) (drain true (v.size - n) n f))) (j - n - i) mid[j - n - i] (List.getElem?_eq_getElem hjm)
  have q2 := hM (j - n - i) mid[j - n - i] (List.getElem?_eq_getElem hjm)
  have q3 := hh (j - n) (L[j - n]'(by omega)) (List.getElem?_eq_getElem (by omega))
  rw [show i + n + (j - n - i) = j by omega] at q1
  rw [show i + (j - n - i) = 0 + (j - n) by omega, q3] at q2
  rw [← q2] at q1
  rw [fill_own v.beg (L[j - n]'(by omega)) j i (Mem.set_same _ _ _) (by omega) (by omega) q1, fill_eq, copyList_ok _ i (Mem.set_same _ _ _) (by rw [List.length_replicate]; omega)
    (fun hp => by cases hp)]

/-- **C108** (`assign` of copies of an element of the vector itself).  For elements that are not trivially copyable this is undefined behaviour. -/
theorem C108_assign (ops : List (Op T)) (σ : Spec.Lists T) (h : Spec.run (fun _ => none) ops = some σ) (k : Nat) (L : List T) (hk : σ k = some L) (i n : Nat)
    (hn : n ≠ 0) : ∃ (w : World T) (v : Vec), run false World.empty ops = .ok w ∧ w.vec k = some v ∧ assignFill false w.mem v n (.at v.beg i) = .ub := by
  have := run_ok (pod := false) ops (inv_empty (T := T))
  rw [h] at this
  obtain ⟨w, e, hinv⟩ := this
  obtain ⟨v, hv, hr⟩ := hinv.some_iff hk
  refine ⟨w, v, e, hv, ?_⟩
  obtain ⟨m1, e1, r1, f1⟩ := wipe_ok hr hinv.wf
  unfold assignFill clear
  rw [e1]
  show Res.bind (if v.cap < n then grow false m1 { v with size := 0 } n else .ok (m1, { v with size := 0 })) _ = _
  obtain ⟨n', rfl⟩ : ∃ n', n = n' + 1 := ⟨n - 1, by omega⟩
  by_cases hc : v.cap < n' + 1
  · obtain ⟨m2, v2, e2, _⟩ := grow_ok r1 f1.wf (n' + 1)
    rw [if_pos hc, e2]
    show Res.bind (Res.bind (m2.read v.beg i) _) _ = _
    have := moved_away r1 f1.wf (n' + 1) i e2 (.inl rfl)
    rw [show m2.read v.beg i = .ub from this]
    rfl
  · rw [if_neg hc]
    show Res.bind (Res.bind (m1.read v.beg i) _) _ = _
    obtain ⟨len, f, hb, _, _, hraw⟩ := r1.body
    have : m1.read v.beg i = .ub := read_raw hb (hraw rfl i (Nat.zero_le _))
    rw [this]
    rfl

/-- **C108** (`append` and `resize` with an element of the vector itself).  If the vector has to be reallocated and the elements are not trivially copyable or not in the
inline buffer, both are undefined behaviour. -/
theorem C108_append_resize (pod : Bool) (ops : List (Op T)) (σ : Spec.Lists T) (h : Spec.run (fun _ => none) ops = some σ) (k : Nat) (L : List T) (hk : σ k = some L) (i n : Nat)
    : ∃ (w : World T) (v : Vec), run pod World.empty ops = .ok w ∧ w.vec k = some v ∧ (v.cap < L.length + n → pod = false ∨ v.beg ≠ v.inl →
      appendFill pod w.mem v n (.at v.beg i) = .ub ∧ resize pod w.mem v (L.length + n) (.at v.beg i) = .ub) := by
  have := run_ok (pod := pod) ops (inv_empty (T := T))
  rw [h] at this
  obtain ⟨w, e, hinv⟩ := this
  obtain ⟨v, hv, hr⟩ := hinv.some_iff hk
  refine ⟨w, v, e, hv, fun hc hg => ?_⟩
  have hs := hr.size
  have hf := hr.fits
  obtain ⟨n', rfl⟩ : ∃ n', n = n' + 1 := ⟨n - 1, by omega⟩
  obtain ⟨m2, v2, e2, r2, _, _, _, _, _, s2⟩ := grow_ok hr hinv.wf (v.size + (n' + 1))
  have hub := moved_away hr hinv.wf (v.size + (n' + 1)) i e2 hg
  constructor
  · unfold appendFill
    rw [if_pos (by omega), e2]
    show Res.bind (Res.bind (m2.read v.beg i) _) _ = _
    rw [hub]; rfl
  · unfold resize
    rw [← hs, if_neg (by omega), if_pos (by omega), if_pos (by omega), e2]
    show Res.bind (uninitFill pod m2 v2.beg v2.size (.at v.beg i) (v.size + (n' + 1) - v2.size)) _ = _
    rw [s2, Nat.add_sub_cancel_left]
    show Res.bind (Res.bind (m2.read v.beg i) _) _ = _
    rw [hub]; rfl

/-! ### references -/

/-- **C107** (references).  `reserve` makes the room it is asked for, and while there is room no call that adds elements behind the others moves them: `push_back`,
`append` and `resize` leave the block and the capacity as they are. -/
theorem C107_references (pod : Bool) (ops : List (Op T)) (σ : Spec.Lists T) (h : Spec.run (fun _ => none) ops = some σ) (k : Nat) (L : List T) (hk : σ k = some L) :
    ∃ (w : World T) (v : Vec), run pod World.empty ops = .ok w ∧ w.vec k = some v ∧
      (∀ n, ∃ m' v', reserve pod w.mem v n = .ok (m', v') ∧ n ≤ v'.cap ∧ v.cap ≤ v'.cap) ∧
      (∀ x m' v', L.length + 1 ≤ v.cap → pushBack pod w.mem v (.ext x) = .ok (m', v') → v'.beg = v.beg ∧ v'.cap = v.cap) ∧
      (∀ xs m' v', L.length + xs.length ≤ v.cap → appendList pod w.mem v xs = .ok (m', v') → v'.beg = v.beg ∧ v'.cap = v.cap) ∧
      (∀ n x m' v', n ≤ v.cap → resize pod w.mem v n (.ext x) = .ok (m', v') → v'.beg = v.beg ∧ v'.cap = v.cap) := by
  have := run_ok (pod := pod) ops (inv_empty (T := T))
  rw [h] at this
  obtain ⟨w, e, hinv⟩ := this
  obtain ⟨v, hv, hr⟩ := hinv.some_iff hk
  have hs := hr.size
  have hf := hr.fits
  refine ⟨w, v, e, hv, fun n => ?_, fun x m' v' hc hp => ?_, fun xs m' v' hc hp => ?_, fun n x m' v' hc hp => ?_⟩
  · unfold reserve
    by_cases hn : v.cap < n
    · obtain ⟨m2, v2, e2, _, _, _, _, c2, c3, _⟩ := grow_ok hr hinv.wf n
      rw [if_pos hn]
      exact ⟨m2, v2, e2, c2, by omega⟩
    · rw [if_neg hn]
      exact ⟨w.mem, v, rfl, by omega, Nat.le_refl _⟩
  · unfold pushBack at hp
    rw [if_neg (by omega)] at hp
    change Res.bind (construct pod w.mem v.beg v.size x) _ = _ at hp
    cases hq : construct pod w.mem v.beg v.size x <;> rw [hq] at hp <;> cases hp
    exact ⟨rfl, rfl⟩
  · unfold appendList at hp
    rw [if_neg (by omega)] at hp
    change Res.bind (uninitList pod w.mem v.beg v.size xs) _ = _ at hp
    cases hq : uninitList pod w.mem v.beg v.size xs <;> rw [hq] at hp <;> cases hp
    exact ⟨rfl, rfl⟩
  · unfold resize at hp
    by_cases h1 : n < v.size
    · rw [if_pos h1] at hp
      change Res.bind (destroyRange pod w.mem v.beg n (v.size - n)) _ = _ at hp
      cases hq : destroyRange pod w.mem v.beg n (v.size - n) <;> rw [hq] at hp <;> cases hp
      exact ⟨rfl, rfl⟩
    · rw [if_neg h1] at hp
      by_cases h2 : v.size < n
      · rw [if_pos h2, if_neg (by omega)] at hp
        change Res.bind (uninitFill pod w.mem v.beg v.size (.ext x) (n - v.size)) _ = _ at hp
        cases hq : uninitFill pod w.mem v.beg v.size (.ext x) (n - v.size) <;> rw [hq] at hp <;> cases hp
        exact ⟨rfl, rfl⟩
      · rw [if_neg h2] at hp
        cases hp
        exact ⟨rfl, rfl⟩

/-- Three doubles with room for more, the last of them inserted twice in front: `[1, 2, 3]` becomes `[1, 1, 1, 2, 3]` although `v[2]` was 3. -/
example : ∃ (w : World Nat) (v : Vec), run true World.empty [.createList 0 16 [1, 2, 3]] = .ok w ∧ w.vec 0 = some v ∧
    ∃ m' v', insertFill true w.mem v 0 2 (.at v.beg 2) = .ok (m', v') ∧ m'.read v'.beg 0 = .ok 1 ∧ m'.read v'.beg 1 = .ok 1 := ⟨_, _, rfl, rfl, _, _, rfl, rfl, rfl⟩

end SpaceHub.SV
