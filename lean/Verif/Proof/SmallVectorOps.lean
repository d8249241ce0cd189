import Verif.Proof.SmallVectorRep

/-
`SmallVector`: the operations on one vector against lists.
-/

set_option autoImplicit false

namespace SpaceHub.SV

variable {T : Type} {pod : Bool}

/-! ### cells -/

theorem Has.take {f : Nat → Cell T} {s : Nat} {xs : List T} (h : Has f s xs) (n : Nat) : Has f s (xs.take n) := fun i x hx => by
  rw [List.getElem?_take] at hx
  split_ifs at hx
  exact h i x hx

theorem Has.drop {f : Nat → Cell T} {s : Nat} {xs : List T} (h : Has f s xs) (n : Nat) : Has f (s + n) (xs.drop n) := fun i x hx => by
  rw [List.getElem?_drop] at hx
  rw [Nat.add_assoc]
  exact h _ x hx

theorem Has.lay_after {f : Nat → Cell T} {xs ys : List T} (h : Has f 0 xs) {d : Nat} (hd : d = xs.length) : Has (lay d ys f) 0 (xs ++ ys) := by
  subst hd
  refine Has.append.2 ⟨h.congr fun i _ h2 => lay_out (by omega), ?_⟩
  rw [Nat.zero_add]; exact has_lay _ _ _

theorem take_drop_between (L : List T) {i j : Nat} (h : i ≤ j) : L.drop i = (L.drop i).take (j - i) ++ L.drop j := by
  have := (List.take_append_drop (j - i) (L.drop i)).symm
  rw [List.drop_drop, show i + (j - i) = j by omega] at this
  exact this

/-! ### from one call to the next -/

theorem Good.after {m m' : Mem T} {v v' : Vec} {r : Res (Mem T × Vec)} {L : List T} {k : Mem T × Vec → Res (Mem T × Vec)} (hr : r = .ok (m', v'))
    (hf : Frame m (Own v) m' (Own v')) (hi : v'.inl = v.inl) (hk : Good pod m' v' (k (m', v')) L) : Good pod m v (r.bind k) L := by
  obtain ⟨m2, v2, hr2, hp2, hf2, hi2⟩ := hk
  exact ⟨m2, v2, by rw [hr]; exact hr2, hp2, hf.trans hf2, hi2.trans hi⟩

/-- room for one more element -/
theorem room_ok {m : Mem T} {v : Vec} {L : List T} (h : Rep pod m v L) (hw : Wf m) :
    ∃ m' v', (if v.cap ≤ v.size then grow pod m v 0 else .ok (m, v)) = .ok (m', v') ∧ Rep pod m' v' L ∧ Frame m (Own v) m' (Own v') ∧ v'.inl = v.inl ∧
      v.size < v'.cap ∧ v'.size = v.size := by
  by_cases hh : v.cap ≤ v.size
  · obtain ⟨m', v', h1, h2, h3, h4, _, _, h7, h8⟩ := grow_ok h hw 0
    exact ⟨m', v', by rw [if_pos hh]; exact h1, h2, h3, h4, by have := h.fits; omega, h8⟩
  · exact ⟨m, v, by rw [if_neg hh], h, Frame.refl _ hw, rfl, by omega, rfl⟩

section
variable {m : Mem T} {v : Vec} {L : List T}

/-! ### operations -/

theorem pushBack_ok (h : Rep pod m v L) (hw : Wf m) (x : T) : Good pod m v (pushBack pod m v (.ext x)) (L ++ [x]) := by
  obtain ⟨m', v', h1, h2, h3, h4, h5, h6⟩ := room_ok h hw
  unfold pushBack
  refine Good.after h1 h3 h4 ?_
  obtain ⟨n, f, hb, hn, hh, hr⟩ := h2.body
  have hs := h2.size
  have e := construct_ok (pod := pod) (i := v'.size) hb (by omega) x (fun hp => hr hp _ (Nat.le_refl _))
  show Good pod m' v' ((construct pod m' v'.beg v'.size x).bind _) _
  rw [e]
  refine Good.edit h2 h3.wf (by rw [List.length_append]; simp [hs]) (by rw [List.length_append, List.length_singleton]; omega) hn ?_ ?_
  · refine Has.append.2 ⟨hh.congr fun i _ h2 => if_neg (by omega), Has.cons.2 ⟨if_pos (by omega), Has.nil _ _⟩⟩
  · intro hp i hi
    rw [List.length_append, List.length_singleton] at hi
    rw [if_neg (by omega)]
    exact hr hp i (by omega)

theorem popBack_ok (h : Rep pod m v L) (hw : Wf m) (hL : L ≠ []) : Good pod m v (popBack pod m v) L.dropLast := by
  obtain ⟨n, f, hb, hn, hh, hr⟩ := h.body
  have hs := h.size
  have hc := h.fits
  have hl : 0 < L.length := List.length_pos_of_ne_nil hL
  unfold popBack
  rw [if_neg (by omega)]
  show Good pod m v ((destroyAt pod m v.beg (v.size - 1)).bind _) _
  rw [destroyAt_ok hb (by omega) (fun _ => hh.ne_raw _ (by omega) (by omega))]
  refine Good.edit h hw (by rw [List.length_dropLast]; omega) (by rw [List.length_dropLast]; omega) hn ?_ ?_
  · rw [List.dropLast_eq_take]
    refine (hh.take _).congr fun i _ h2 => if_neg ?_
    rw [List.length_take] at h2
    omega
  · intro hp i hi
    rw [List.length_dropLast] at hi
    by_cases e : i = v.size - 1
    · exact if_pos ⟨e, hp⟩
    · rw [if_neg (by omega)]
      exact hr hp i (by omega)

theorem popBackVal_ok (h : Rep pod m v L) (hw : Wf m) (hL : L ≠ []) :
    ∃ m' v', popBackVal pod m v = .ok (L.getLast hL, m', v') ∧ Rep pod m' v' L.dropLast ∧ Frame m (Own v) m' (Own v') ∧ v'.inl = v.inl := by
  obtain ⟨n, f, hb, hn, hh, hr⟩ := h.body
  have hs := h.size
  have hc := h.fits
  have hl : 0 < L.length := List.length_pos_of_ne_nil hL
  have hlast : f (v.size - 1) = .val (L.getLast hL) := by
    have := hh (v.size - 1) (L.getLast hL) (by rw [hs, ← List.getLast?_eq_getElem?, List.getLast?_eq_getLast_of_ne_nil hL])
    rwa [Nat.zero_add] at this
  have e1 := moveOut_ok (pod := pod) (i := v.size - 1) hb (by omega) hlast
  have g : Good pod m v ((destroyAt pod (m.set v.beg (some ⟨n, fun j => if j = v.size - 1 ∧ pod = false then .husk else f j⟩)) v.beg (v.size - 1)).bind
      fun m => .ok (m, { v with size := v.size - 1 })) L.dropLast := by
    rw [destroyAt_ok (Mem.set_same _ _ _) (by omega) (fun hp => by rw [if_pos ⟨rfl, hp⟩]; intro hh; cases hh), Mem.set_set]
    refine Good.edit h hw (by rw [List.length_dropLast]; omega) (by rw [List.length_dropLast]; omega) hn ?_ ?_
    · rw [List.dropLast_eq_take]
      refine (hh.take _).congr fun i _ h2 => ?_
      rw [List.length_take] at h2
      rw [if_neg (by omega), if_neg (by omega)]
    · intro hp i hi
      rw [List.length_dropLast] at hi
      by_cases e : i = v.size - 1
      · exact if_pos ⟨e, hp⟩
      · rw [if_neg (by omega), if_neg (by omega)]
        exact hr hp i (by omega)
  obtain ⟨m', v', g1, g2, g3, g4⟩ := g
  refine ⟨m', v', ?_, g2, g3, g4⟩
  unfold popBackVal
  rw [if_neg (by omega), e1]
  show (popBack pod _ v).bind _ = _
  unfold popBack
  rw [if_neg (by omega)]
  show ((destroyAt pod _ v.beg (v.size - 1)).bind _).bind _ = _
  have : ∀ r : Res (Mem T × Vec), r = .ok (m', v') → r.bind (fun q => Res.ok (L.getLast hL, q.1, q.2)) = .ok (L.getLast hL, m', v') := fun r hr => by rw [hr]; rfl
  exact this _ g1

theorem clear_ok (h : Rep pod m v L) (hw : Wf m) : Good pod m v (clear pod m v) [] := by
  obtain ⟨n, f, hb, hn, hh, hr⟩ := h.body
  have hs := h.size
  have hc := h.fits
  unfold clear
  rw [destroyRange_ok 0 v.size hb (by omega) (fun _ i _ h2 => hh.ne_raw i (by omega) (by omega))]
  refine Good.edit (L' := []) h hw rfl (Nat.zero_le _) hn (Has.nil _ _) fun hp i _ => ?_
  by_cases hi : i < v.size
  · exact wipe_in hp (by omega) (by omega)
  · rw [wipe_out (by omega)]
    exact hr hp i (by omega)

theorem reserve_good (h : Rep pod m v L) (hw : Wf m) (k : Nat) : Good pod m v (reserve pod m v k) L := by
  obtain ⟨m', v', h1, h2, h3, h4, _, _⟩ := reserve_ok (c := v.cap < k) h hw k (by omega)
  exact ⟨m', v', h1, h2, h3, h4⟩

/-- new elements behind the old ones, where there is room -/
theorem uninitList_good (h : Rep pod m v L) (hw : Wf m) (xs : List T) (hx : v.size + xs.length ≤ v.cap) {k : Nat} (hk : k = v.size + xs.length) :
    Good pod m v ((uninitList pod m v.beg v.size xs).bind fun m => .ok (m, { v with size := k })) (L ++ xs) := by
  obtain ⟨n, f, hb, hn, hh, hr⟩ := h.body
  have hs := h.size
  rw [uninitList_ok xs v.size hb (by omega) (fun hp i h1 _ => hr hp i h1)]
  refine Good.edit h hw (by rw [List.length_append]; omega) (by rw [List.length_append]; omega) hn (hh.lay_after hs) fun hp i hi => ?_
  rw [List.length_append] at hi
  rw [lay_out (by omega)]
  exact hr hp i (by omega)

theorem appendList_ok (h : Rep pod m v L) (hw : Wf m) (xs : List T) : Good pod m v (appendList pod m v xs) (L ++ xs) := by
  have hc := h.fits
  obtain ⟨m', v', h1, h2, h3, h4, h5, h6⟩ := reserve_ok (c := v.cap - v.size < xs.length) h hw (v.size + xs.length) (by omega)
  unfold appendList
  refine Good.after h1 h3 h4 ?_
  exact uninitList_good h2 h3.wf xs (by omega) rfl

theorem appendFill_eq (m : Mem T) (v : Vec) (n : Nat) (x : T) : appendFill pod m v n (.ext x) = appendList pod m v (List.replicate n x) := by
  unfold appendFill appendList
  simp only [uninitFill_eq, List.length_replicate]

theorem assignList_ok (h : Rep pod m v L) (hw : Wf m) (xs : List T) : Good pod m v (assignList pod m v xs) xs := by
  unfold assignList
  refine (clear_ok h hw).bind fun m' v' _ h2 h3 => ?_
  exact appendList_ok h2 h3 xs

theorem assignFill_ok (h : Rep pod m v L) (hw : Wf m) (n : Nat) (x : T) : Good pod m v (assignFill pod m v n (.ext x)) (List.replicate n x) := by
  unfold assignFill
  refine (clear_ok h hw).bind fun m' v' _ h2 h3 => ?_
  obtain ⟨m2, v2, g1, g2, g3, g4, g5, g6⟩ := reserve_ok (c := v'.cap < n) h2 h3 n (by omega)
  refine Good.after g1 g3 g4 ?_
  have h0 : v2.size = 0 := g2.size
  have := uninitList_good g2 g3.wf (List.replicate n x) (by rw [h0, List.length_replicate]; omega) (k := n) (by rw [h0, List.length_replicate]; omega)
  rw [h0] at this
  show Good pod m2 v2 ((uninitFill pod m2 v2.beg 0 (.ext x) n).bind _) _
  rw [uninitFill_eq]
  exact this

theorem resize_ok (h : Rep pod m v L) (hw : Wf m) (n : Nat) (x : T) : Good pod m v (resize pod m v n (.ext x)) (L.take n ++ List.replicate (n - L.length) x) := by
  have hs := h.size
  have hc := h.fits
  unfold resize
  by_cases h1 : n < v.size
  · rw [if_pos h1, show n - L.length = 0 by omega, List.replicate_zero, List.append_nil]
    obtain ⟨l, f, hb, hn, hh, hr⟩ := h.body
    rw [destroyRange_ok n (v.size - n) hb (by omega) (fun _ i _ h2 => hh.ne_raw i (by omega) (by omega))]
    have hl : (L.take n).length = n := by rw [List.length_take]; omega
    refine Good.edit h hw hl.symm (by omega) hn ?_ fun hp i hi => ?_
    · refine (hh.take n).congr fun i _ h2 => wipe_out (by omega)
    · by_cases hi : i < v.size
      · exact wipe_in hp (by omega) (by omega)
      · rw [wipe_out (by omega)]
        exact hr hp i (by omega)
  · rw [if_neg h1, List.take_of_length_le (by omega)]
    by_cases h2 : v.size < n
    · rw [if_pos h2]
      obtain ⟨m', v', g1, g2, g3, g4, g5, g6⟩ := reserve_ok (c := v.cap < n) h hw n (by omega)
      refine Good.after g1 g3 g4 ?_
      show Good pod m' v' ((uninitFill pod m' v'.beg v'.size (.ext x) (n - v'.size)).bind _) _
      rw [uninitFill_eq, g6, hs]
      have := uninitList_good g2 g3.wf (List.replicate (n - L.length) x) (by rw [List.length_replicate]; omega) (k := n) (by rw [List.length_replicate]; omega)
      rw [g6, hs] at this
      exact this
    · rw [if_neg h2, show n - L.length = 0 by omega, List.replicate_zero, List.append_nil]
      exact Good.self h hw

theorem eraseAt_ok (h : Rep pod m v L) (hw : Wf m) (i : Nat) (hi : i < L.length) : Good pod m v (eraseAt pod m v i) (L.eraseIdx i) := by
  obtain ⟨n, f, hb, hn, hh, hr⟩ := h.body
  have hs := h.size
  have hc := h.fits
  have hd : (L.drop (i + 1)).length = L.length - (i + 1) := List.length_drop
  have hD : Has f (i + 1) (L.drop (i + 1)) := by have := hh.drop (i + 1); rwa [Nat.zero_add] at this
  unfold eraseAt
  rw [if_pos (by omega)]
  have e := moveRange_in (pod := pod) (L.drop (i + 1)) (i + 1) i hb hD (by omega) (by omega) (fun _ j h1 h2 => hh.ne_raw j (by omega) (by omega))
  show Good pod m v ((moveRange pod m v.beg (i + 1) v.beg i (v.size - (i + 1))).bind _) _
  rw [hs, ← hd, e]
  show Good pod m v (popBack pod _ v) _
  unfold popBack
  rw [if_neg (by omega)]
  show Good pod m v ((destroyAt pod _ v.beg (v.size - 1)).bind _) _
  rw [destroyAt_ok (Mem.set_same _ _ _) (by omega) (fun _ => lay_raw (drain_raw (hh.ne_raw _ (by omega) (by omega)))), Mem.set_set, List.eraseIdx_eq_take_drop_succ]
  have ht : (L.take i).length = i := by rw [List.length_take]; omega
  have hl : (L.take i ++ L.drop (i + 1)).length = L.length - 1 := by rw [List.length_append]; omega
  refine Good.edit h hw (by omega) (by omega) hn ?_ fun hp j hj => ?_
  · refine Has.append.2 ⟨(hh.take i).congr fun j _ h2 => ?_, ?_⟩
    · rw [if_neg (by omega), lay_out (by omega), drain_out (by omega)]
    · rw [ht, Nat.zero_add]
      exact (has_lay i (L.drop (i + 1)) _).congr fun j h1 h2 => if_neg (by omega)
  · by_cases e : j = v.size - 1
    · exact if_pos ⟨e, hp⟩
    · rw [if_neg (by omega), lay_out (by omega), drain_out (by omega)]
      exact hr hp j (by omega)

theorem eraseRange_ok (h : Rep pod m v L) (hw : Wf m) (i j : Nat) (hij : i ≤ j) (hj : j ≤ L.length) : Good pod m v (eraseRange pod m v i j) (L.take i ++ L.drop j) := by
  obtain ⟨n, f, hb, hn, hh, hr⟩ := h.body
  have hs := h.size
  have hc := h.fits
  have hd : (L.drop j).length = L.length - j := List.length_drop
  have hD : Has f j (L.drop j) := by have := hh.drop j; rwa [Nat.zero_add] at this
  unfold eraseRange
  rw [if_pos (by omega)]
  have e := moveRange_in (pod := pod) (L.drop j) j i hb hD (by omega) (by omega) (fun _ k h1 h2 => hh.ne_raw k (by omega) (by omega))
  show Good pod m v ((moveRange pod m v.beg j v.beg i (v.size - j)).bind _) _
  rw [hs, ← hd, e]
  show Good pod m v ((destroyRange pod _ v.beg (i + (L.drop j).length) (L.length - (i + (L.drop j).length))).bind _) _
  rw [destroyRange_ok _ _ (Mem.set_same _ _ _) (by omega) (fun _ k _ _ => lay_raw (drain_raw (hh.ne_raw _ (by omega) (by omega)))), Mem.set_set]
  have ht : (L.take i).length = i := by rw [List.length_take]; omega
  have hl : (L.take i ++ L.drop j).length = i + (L.drop j).length := by rw [List.length_append]; omega
  refine Good.edit h hw hl.symm (by omega) hn ?_ fun hp k hk => ?_
  · refine Has.append.2 ⟨(hh.take i).congr fun k _ h2 => ?_, ?_⟩
    · rw [wipe_out (by omega), lay_out (by omega), drain_out (by omega)]
    · rw [ht, Nat.zero_add]
      exact (has_lay i (L.drop j) _).congr fun k h1 h2 => wipe_out (by omega)
  · by_cases e : k < L.length
    · exact wipe_in hp (by omega) (by omega)
    · rw [wipe_out (by omega), lay_out (by omega), drain_out (by omega)]
      exact hr hp k (by omega)

theorem insertAt_ok (h : Rep pod m v L) (hw : Wf m) (i : Nat) (x : T) (hi : i ≤ L.length) : Good pod m v (insertAt pod m v i (.ext x)) (L.take i ++ x :: L.drop i) := by
  have hs0 := h.size
  unfold insertAt
  by_cases h0 : i = v.size
  · rw [if_pos h0, List.take_of_length_le (by omega), List.drop_eq_nil_of_le (by omega)]
    exact pushBack_ok h hw x
  rw [if_neg h0, if_neg (by omega)]
  obtain ⟨m', v', h1, h2, h3, h4, h5, h6⟩ := room_ok h hw
  refine Good.after h1 h3 h4 ?_
  clear h1
  have hw' := h3.wf
  clear h3
  obtain ⟨n, f, hb, hn, hh, hr⟩ := h2.body
  have hs := h2.size
  obtain ⟨mid, last, hml⟩ : ∃ mid last, L.drop i = mid ++ [last] := by
    have hne : L.drop i ≠ [] := fun e => by
      have := congrArg List.length e
      rw [List.length_drop, List.length_nil] at this
      omega
    exact ⟨(L.drop i).dropLast, (L.drop i).getLast hne, (List.dropLast_append_getLast hne).symm⟩
  have hlen : i + mid.length + 1 = L.length := by
    have := congrArg List.length hml
    rw [List.length_drop, List.length_append, List.length_singleton] at this
    omega
  have hD : Has f i (mid ++ [last]) := by have := hh.drop i; rwa [Nat.zero_add, hml] at this
  obtain ⟨hM, hE⟩ := Has.append.1 hD
  have hE := (Has.cons.1 hE).1
  show Good pod m' v' ((moveOut pod m' v'.beg (v'.size - 1)).bind _) _
  rw [moveOut_ok (x := last) hb (by omega) (by rw [show v'.size - 1 = i + mid.length by omega]; exact hE)]
  show Good pod m' v' ((construct pod _ v'.beg v'.size last).bind _) _
  rw [construct_ok (Mem.set_same _ _ _) (by omega) last (fun hp => by rw [if_neg (by omega)]; exact hr hp _ (Nat.le_refl _)), Mem.set_set]
  show Good pod m' v' ((moveBackward pod _ v'.beg i (i + 1) (v'.size - 1 - i)).bind _) _
  rw [show v'.size - 1 - i = mid.length by omega]
  have live : pod = false → ∀ j, j < v'.size → (fun j => if j = v'.size then Cell.val last else if j = v'.size - 1 ∧ pod = false then .husk else f j) j ≠ .raw := fun _ j hj => by
    dsimp only
    rw [if_neg (by omega)]
    split_ifs
    · intro hh; cases hh
    · exact hh.ne_raw j (by omega) (by omega)
  rw [moveBackward_ok mid i (i + 1) (Mem.set_same _ _ _) (hM.congr fun j h1 h2 => by rw [if_neg (by omega), if_neg (by omega)]) (by omega) (by omega)
    (fun hp j h1 h2 => live hp j (by omega)), Mem.set_set]
  show Good pod m' v' ((assignAt pod _ v'.beg i x).bind _) _
  rw [assign_ok (Mem.set_same _ _ _) (by omega) x (fun hp => lay_raw (drain_raw (live hp i (by omega)))), Mem.set_set]
  have ht : (L.take i).length = i := by rw [List.length_take]; omega
  have hl : (L.take i ++ x :: L.drop i).length = L.length + 1 := by rw [List.length_append, List.length_cons, List.length_drop]; omega
  refine Good.edit h2 hw' (by show v'.size + 1 = _; omega) (by omega) hn ?_ fun hp k hk => ?_
  · rw [hml]
    refine Has.append.2 ⟨(hh.take i).congr fun j _ h2 => ?_, Has.cons.2 ⟨?_, Has.append.2 ⟨?_, Has.cons.2 ⟨?_, Has.nil _ _⟩⟩⟩⟩
    · rw [if_neg (by omega), lay_out (by omega), drain_out (by omega), if_neg (by omega), if_neg (by omega)]
    · exact if_pos (by omega)
    · rw [ht, Nat.zero_add]
      exact (has_lay (i + 1) mid _).congr fun j h1 h2 => if_neg (by omega)
    · rw [if_neg (by omega), lay_out (by omega), drain_out (by omega), if_pos (by omega)]
  · rw [if_neg (by omega), lay_out (by omega), drain_out (by omega), if_neg (by omega), if_neg (by omega)]
    exact hr hp k (by omega)

theorem insertList_ok (h : Rep pod m v L) (hw : Wf m) (i : Nat) (xs : List T) (hi : i ≤ L.length) : Good pod m v (insertList pod m v i xs) (L.take i ++ xs ++ L.drop i) := by
  have hs0 := h.size
  unfold insertList
  by_cases h0 : i = v.size
  · rw [if_pos h0, List.take_of_length_le (by omega), List.drop_eq_nil_of_le (by omega), List.append_nil]
    exact appendList_ok h hw xs
  rw [if_neg h0, if_neg (by omega)]
  obtain ⟨m', v', h1, h2, h3, h4, h5, h6⟩ := reserve_ok (c := v.cap < v.size + xs.length) h hw (v.size + xs.length) (by omega)
  refine Good.after h1 h3 h4 ?_
  clear h1
  have hw' := h3.wf
  clear h3
  obtain ⟨n, f, hb, hn, hh, hr⟩ := h2.body
  have hs := h2.size
  have hD : Has f i (L.drop i) := by have := hh.drop i; rwa [Nat.zero_add] at this
  have ht : (L.take i).length = i := by rw [List.length_take]; omega
  have hl : (L.take i ++ xs ++ L.drop i).length = L.length + xs.length := by rw [List.length_append, List.length_append, List.length_drop]; omega
  have live : ∀ j, j < v'.size → f j ≠ .raw := fun j hj => hh.ne_raw j (by omega) (by omega)
  show Good pod m' v' (if xs.length ≤ v'.size - i then _ else _) _
  by_cases hc : xs.length ≤ v'.size - i
  · rw [if_pos hc]
    obtain ⟨mid, hmid⟩ : ∃ mid, (L.drop i).take (v'.size - xs.length - i) = mid := ⟨_, rfl⟩
    have hsplit : L.drop i = mid ++ L.drop (v'.size - xs.length) := by rw [← hmid]; exact take_drop_between L (by omega)
    have hml : mid.length = v'.size - xs.length - i := by rw [← hmid, List.length_take, List.length_drop]; omega
    have htl : (L.drop (v'.size - xs.length)).length = xs.length := by rw [List.length_drop]; omega
    have hD2 := hD
    rw [hsplit] at hD2
    obtain ⟨hM, hE⟩ := Has.append.1 hD2
    rw [show i + mid.length = v'.size - xs.length by omega] at hE
    have e1 := uninitMove_in (pod := pod) (L.drop (v'.size - xs.length)) (v'.size - xs.length) v'.size hb hE (by omega) (by omega) (fun hp j h1 _ => hr hp j h1)
    rw [htl] at e1
    show Good pod m' v' ((uninitMove pod m' v'.beg (v'.size - xs.length) v'.beg v'.size xs.length).bind _) _
    rw [e1]
    show Good pod m' v' ((moveBackward pod _ v'.beg i (i + xs.length) (v'.size - xs.length - i)).bind _) _
    rw [← hml, moveBackward_ok mid i (i + xs.length) (Mem.set_same _ _ _) (hM.congr fun j h1 h2 => by rw [lay_out (by omega), drain_out (by omega)]) (by omega) (by omega)
      (fun hp j h1 h2 => lay_raw (drain_raw (live j (by omega)))), Mem.set_set]
    show Good pod m' v' ((copyList pod _ v'.beg i xs).bind _) _
    rw [copyList_ok xs i (Mem.set_same _ _ _) (by omega) (fun hp j h1 h2 => lay_raw (drain_raw (lay_raw (drain_raw (live j (by omega)))))), Mem.set_set]
    refine Good.edit h2 hw' (by show v'.size + xs.length = _; omega) (by omega) hn ?_ fun hp k hk => ?_
    · rw [List.append_assoc]
      refine Has.append.2 ⟨(hh.take i).congr fun j _ h2 => ?_, ?_⟩
      · rw [lay_out (by omega), lay_out (by omega), drain_out (by omega), lay_out (by omega), drain_out (by omega)]
      rw [ht, Nat.zero_add]
      refine Has.append.2 ⟨has_lay _ _ _, ?_⟩
      rw [hsplit]
      refine Has.append.2 ⟨(has_lay (i + xs.length) mid _).congr fun j h1 h2 => lay_out (by omega), ?_⟩
      rw [show i + xs.length + mid.length = v'.size by omega]
      refine (has_lay v'.size (L.drop (v'.size - xs.length)) (drain pod (v'.size - xs.length) xs.length f)).congr fun j h1 h2 => ?_
      rw [lay_out (by omega), lay_out (by omega), drain_out (by omega)]
    · rw [lay_out (by omega), lay_out (by omega), drain_out (by omega), lay_out (by omega), drain_out (by omega)]
      exact hr hp k (by omega)
  · rw [if_neg hc]
    have hdl : (L.drop i).length = v'.size - i := by rw [List.length_drop]; omega
    have e1 := uninitMove_in (pod := pod) (L.drop i) i (v'.size + xs.length - (v'.size - i)) hb hD (by omega) (by omega) (fun hp j h1 _ => hr hp j (by omega))
    rw [hdl] at e1
    have htk : (xs.take (v'.size - i)).length = v'.size - i := by rw [List.length_take]; omega
    have hdk : (xs.drop (v'.size - i)).length = xs.length - (v'.size - i) := List.length_drop
    show Good pod m' v' ((uninitMove pod m' v'.beg i v'.beg (v'.size + xs.length - (v'.size - i)) (v'.size - i)).bind _) _
    rw [e1]
    show Good pod m' v' ((copyList pod _ v'.beg i (xs.take (v'.size - i))).bind _) _
    rw [copyList_ok (xs.take (v'.size - i)) i (Mem.set_same _ _ _) (by omega) (fun hp j h1 h2 => lay_raw (drain_raw (live j (by omega)))), Mem.set_set]
    show Good pod m' v' ((uninitList pod _ v'.beg v'.size (xs.drop (v'.size - i))).bind _) _
    rw [uninitList_ok (xs.drop (v'.size - i)) v'.size (Mem.set_same _ _ _) (by omega) (fun hp j h1 h2 => by
      rw [lay_out (by omega), lay_out (by omega), drain_out (by omega)]
      exact hr hp j (by omega)), Mem.set_set]
    refine Good.edit h2 hw' (by show v'.size + xs.length = _; omega) (by omega) hn ?_ fun hp k hk => ?_
    · rw [List.append_assoc]
      refine Has.append.2 ⟨(hh.take i).congr fun j _ h2 => ?_, ?_⟩
      · rw [lay_out (by omega), lay_out (by omega), lay_out (by omega), drain_out (by omega)]
      rw [ht, Nat.zero_add]
      refine Has.append.2 ⟨?_, ?_⟩
      · rw [← List.take_append_drop (v'.size - i) xs]
        refine Has.append.2 ⟨?_, ?_⟩
        · rw [List.take_append_drop]
          exact (has_lay i (xs.take (v'.size - i)) _).congr fun j h1 h2 => lay_out (by omega)
        · rw [List.take_append_drop, htk, show i + (v'.size - i) = v'.size by omega]
          exact has_lay _ _ _
      · refine (show Has _ (i + xs.length) (L.drop i) from ?_)
        have := has_lay (i + xs.length) (L.drop i) (drain pod i (v'.size - i) f)
        rw [show v'.size + xs.length - (v'.size - i) = i + xs.length by omega]
        exact this.congr fun j h1 h2 => by rw [lay_out (by omega), lay_out (by omega)]
    · rw [lay_out (by omega), lay_out (by omega), lay_out (by omega), drain_out (by omega)]
      exact hr hp k (by omega)

theorem insertFill_eq (m : Mem T) (v : Vec) (i n : Nat) (x : T) : insertFill pod m v i n (.ext x) = insertList pod m v i (List.replicate n x) := by
  unfold insertFill insertList
  rw [appendFill_eq, List.length_replicate]
  by_cases h0 : i = v.size
  · rw [if_pos h0, if_pos h0]
  rw [if_neg h0, if_neg h0]
  by_cases h1 : v.size < i
  · rw [if_pos h1, if_pos h1]
  rw [if_neg h1, if_neg h1]
  show (reserve pod m v (v.size + n)).bind _ = (reserve pod m v (v.size + n)).bind _
  congr 1
  funext g
  dsimp only
  by_cases hc : n ≤ g.2.size - i
  · rw [if_pos hc, if_pos hc]
    simp only [fill_eq]
  · rw [if_neg hc, if_neg hc]
    simp only [fill_eq, uninitFill_eq, List.take_replicate, List.drop_replicate]
    rw [Nat.min_eq_left (by omega)]

theorem destructor_ok (h : Rep pod m v L) (hw : Wf m) : ∃ m', destructor pod m v = .ok m' ∧ Frame m (Own v) m' (fun _ => False) := by
  obtain ⟨n, f, hb, hn, hh, hr⟩ := h.body
  obtain ⟨n', f', hi, hir⟩ := h.inline
  have hs := h.size
  have hc := h.fits
  have e1 := destroyRange_ok (pod := pod) 0 v.size hb (by omega) (fun _ i _ h2 => hh.ne_raw i (by omega) (by omega))
  have hraw : pod = false → ∀ i, wipe pod 0 v.size f i = .raw := fun hp i => by
    by_cases hi : i < v.size
    · exact wipe_in hp (by omega) (by omega)
    · rw [wipe_out (by omega)]
      exact hr hp i (by omega)
  unfold destructor
  rw [e1]
  by_cases e : v.beg = v.inl
  · have hsm : v.isSmall = true := by unfold Vec.isSmall; simpa using e
    have e2 := free_ok (pod := pod) (m := m.set v.beg (some ⟨n, wipe pod 0 v.size f⟩)) (b := v.inl) (by rw [← e]; exact Mem.set_same _ _ _) hraw
    refine ⟨(m.set v.beg (some ⟨n, wipe pod 0 v.size f⟩)).set v.inl none, by rw [hsm]; exact e2, ?_, ?_, fun _ h _ => h.elim, Nat.le_refl _, ?_⟩
    · intro b hS _
      rw [Mem.set_other _ _ fun e => hS (.inl e), Mem.set_other _ _ fun e => hS (.inr e)]
    · intro b hS _
      by_cases q : b = v.inl
      · rw [q]; exact Mem.set_same _ _ _
      · rw [Mem.set_other _ _ q, Mem.set_other _ _ (by rw [e]; exact q)]
        exact hw b (hS.resolve_left fun hS => hS.elim q fun q' => q (q'.trans e))
    · intro b hb'
      have := live_lt hw hb
      rw [Mem.set_next, Mem.set_next] at hb'
      rw [Mem.set_other _ _ (by omega), Mem.set_other _ _ (by omega)]
      exact hw b hb'
  · have hsm : v.isSmall = false := by unfold Vec.isSmall; simpa using e
    have e2 := free_ok (pod := pod) (m := m.set v.beg (some ⟨n, wipe pod 0 v.size f⟩)) (Mem.set_same _ _ _) hraw
    rw [Mem.set_set] at e2
    have e3 := free_ok (pod := pod) (m := m.set v.beg none) (b := v.inl) (n := n') (f := f') (by rw [Mem.set_other _ _ fun q => e q.symm]; exact hi) (hir e)
    refine ⟨(m.set v.beg none).set v.inl none, ?_, ?_, ?_, fun _ h _ => h.elim, Nat.le_refl _, ?_⟩
    · rw [hsm]
      show (free pod _ v.beg).bind _ = _
      rw [e2]
      exact e3
    · intro b hS _
      rw [Mem.set_other _ _ fun e => hS (.inl e), Mem.set_other _ _ fun e => hS (.inr e)]
    · intro b hS _
      by_cases q : b = v.inl
      · rw [q]; exact Mem.set_same _ _ _
      · rw [Mem.set_other _ _ q]
        by_cases q' : b = v.beg
        · rw [q']; exact Mem.set_same _ _ _
        · rw [Mem.set_other _ _ q']
          exact hw b (hS.resolve_left fun hS => hS.elim q q')
    · intro b hb'
      have := live_lt hw hb
      have := live_lt hw hi
      rw [Mem.set_next, Mem.set_next] at hb'
      rw [Mem.set_other _ _ (by omega), Mem.set_other _ _ (by omega)]
      exact hw b hb'

end
end SpaceHub.SV
