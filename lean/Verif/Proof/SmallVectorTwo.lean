import Verif.Proof.SmallVectorOps

/-
`SmallVector`: constructors, and the operations on two vectors.
-/

set_option autoImplicit false

namespace SpaceHub.SV

variable {T : Type} {pod : Bool}

/-- two vectors share no block -/
def Apart (v w : Vec) : Prop := ∀ b, Own v b → ¬ Own w b

theorem Apart.symm {v w : Vec} (h : Apart v w) : Apart w v := fun b hw hv => h b hv hw

theorem Apart.ne {v w : Vec} (h : Apart v w) : v.beg ≠ w.beg := fun e => h v.beg (.inr rfl) (.inr e)

/-- the blocks of two vectors -/
def Own2 (v w : Vec) (b : Nat) : Prop := Own v b ∨ Own w b

theorem Frame.left {m m' : Mem T} {v v' : Vec} (h : Frame m (Own v) m' (Own v')) (w : Vec) : Frame m (Own2 v w) m' (Own2 v' w) := h.add _

theorem Frame.right {m m' : Mem T} {w w' : Vec} (h : Frame m (Own w) m' (Own w')) (v : Vec) : Frame m (Own2 v w) m' (Own2 v w') :=
  (h.add (Own v)).congr (fun _ => or_comm) (fun _ => or_comm)

theorem Frame.flip {m m' : Mem T} {v w v' w' : Vec} (h : Frame m (Own2 v w) m' (Own2 v' w')) : Frame m (Own2 w v) m' (Own2 w' v') :=
  h.congr (fun _ => or_comm) (fun _ => or_comm)

theorem Apart.frame {m m' : Mem T} {v v' w : Vec} {K : List T} (h : Apart v w) (hw : Wf m) (hK : Rep pod m w K) (hf : Frame m (Own v) m' (Own v')) : Apart v' w :=
  fun b hb hb' => h b (hf.sub b hb (hK.own_lt hw hb')) hb'

theorem Rep.other {m m' : Mem T} {v v' w : Vec} {K : List T} (hK : Rep pod m w K) (hw : Wf m) (hf : Frame m (Own v) m' (Own v')) (h : Apart v w) : Rep pod m' w K :=
  hK.frame hw hf fun b hb hb' => h b hb' hb

/-- the outcome of a call on two vectors -/
def Good2 (pod : Bool) (m : Mem T) (v w : Vec) (r : Res (Mem T × Vec × Vec)) (L K : List T) : Prop :=
  ∃ m' v' w', r = .ok (m', v', w') ∧ Rep pod m' v' L ∧ Rep pod m' w' K ∧ Frame m (Own2 v w) m' (Own2 v' w') ∧ Apart v' w'

/-! ### pieces on one vector -/

section
variable {m : Mem T} {v : Vec} {L : List T}

/-- the elements from `k` on are destroyed -/
theorem cut_ok (h : Rep pod m v L) (hw : Wf m) {k j : Nat} (hk : k ≤ L.length) (hj : j = v.size - k) :
    ∃ m', destroyRange pod m v.beg k j = .ok m' ∧ Rep pod m' { v with size := k } (L.take k) ∧ Frame m (Own v) m' (Own v) := by
  obtain ⟨n, f, hb, hn, hh, hr⟩ := h.body
  have hs := h.size
  have hc := h.fits
  have hl : (L.take k).length = k := by rw [List.length_take]; omega
  subst hj
  have e := destroyRange_ok (pod := pod) k (v.size - k) hb (by omega) (fun _ i _ h2 => hh.ne_raw i (by omega) (by omega))
  have g : Good pod m v (.ok (m.set v.beg (some ⟨n, wipe pod k (v.size - k) f⟩), { v with size := k })) (L.take k) := by
    refine Good.edit h hw hl.symm (by omega) hn ?_ fun hp i hi => ?_
    · exact (hh.take k).congr fun i _ h2 => wipe_out (by omega)
    · by_cases hi : i < v.size
      · exact wipe_in hp (by omega) (by omega)
      · rw [wipe_out (by omega)]
        exact hr hp i (by omega)
  obtain ⟨m', v', g1, g2, g3, _⟩ := g
  cases g1
  exact ⟨_, e, g2, g3⟩

/-- all elements are destroyed -/
theorem wipe_ok (h : Rep pod m v L) (hw : Wf m) :
    ∃ m', destroyRange pod m v.beg 0 v.size = .ok m' ∧ Rep pod m' { v with size := 0 } ([] : List T) ∧ Frame m (Own v) m' (Own v) := by
  have := cut_ok h hw (k := 0) (j := v.size) (by omega) (by omega)
  rwa [List.take_zero] at this

/-- new elements copied from elsewhere -/
theorem uninitCopy_good (h : Rep pod m v L) (hw : Wf m) {b len s k : Nat} {f' : Nat → Cell T} {ys : List T} (hb' : m.blocks b = some ⟨len, f'⟩) (hy : Has f' s ys)
    (hl : s + ys.length ≤ len) (hne : b ≠ v.beg) (hx : v.size + ys.length ≤ v.cap) (hk : k = v.size + ys.length) :
    ∃ m', uninitCopy pod m b s v.beg v.size ys.length = .ok m' ∧ Rep pod m' { v with size := k } (L ++ ys) ∧ Frame m (Own v) m' (Own v) := by
  obtain ⟨n, f, hb, hn, hh, hr⟩ := h.body
  have hs := h.size
  have e := uninitCopy_ok (pod := pod) hne ys s v.size hb' hb hy hl (by omega) (fun hp i h1 _ => hr hp i h1)
  have g : Good pod m v (.ok (m.set v.beg (some ⟨n, lay v.size ys f⟩), { v with size := k })) (L ++ ys) := by
    refine Good.edit h hw (by rw [List.length_append]; omega) (by rw [List.length_append]; omega) hn (hh.lay_after hs) fun hp i hi => ?_
    rw [List.length_append] at hi
    rw [lay_out (by omega)]
    exact hr hp i (by omega)
  obtain ⟨m', v', g1, g2, g3, _⟩ := g
  cases g1
  exact ⟨_, e, g2, g3⟩

/-- the first elements get new values -/
theorem lay_rep (h : Rep pod m v L) (hw : Wf m) {ys : List T} (hy : ys.length ≤ L.length) {n : Nat} {f : Nat → Cell T} (hn : v.cap ≤ n)
    (hh : Has f 0 L) (hr : pod = false → ∀ i, v.size ≤ i → f i = .raw) :
    Rep pod (m.set v.beg (some ⟨n, lay 0 ys f⟩)) v (ys ++ L.drop ys.length) ∧ Frame m (Own v) (m.set v.beg (some ⟨n, lay 0 ys f⟩)) (Own v) := by
  have hs := h.size
  have hc := h.fits
  have hl : (ys ++ L.drop ys.length).length = L.length := by rw [List.length_append, List.length_drop]; omega
  have g : Good pod m v (.ok (m.set v.beg (some ⟨n, lay 0 ys f⟩), { v with size := L.length })) (ys ++ L.drop ys.length) := by
    refine Good.edit h hw hl.symm (by omega) hn ?_ fun hp i hi => ?_
    · refine Has.append.2 ⟨has_lay _ _ _, ?_⟩
      refine (hh.drop ys.length).congr fun i h1 h2 => lay_out (by omega)
    · rw [lay_out (by omega)]
      exact hr hp i (by omega)
  obtain ⟨m', v', g1, g2, g3, _⟩ := g
  cases g1
  have e : ({ v with size := L.length } : Vec) = v := by rw [← hs]
  rw [e] at g2
  exact ⟨g2, g3⟩

theorem copyRange_good (h : Rep pod m v L) (hw : Wf m) {b len s : Nat} {f' : Nat → Cell T} {ys : List T} (hb' : m.blocks b = some ⟨len, f'⟩) (hy : Has f' s ys)
    (hl : s + ys.length ≤ len) (hne : b ≠ v.beg) (hx : ys.length ≤ L.length) :
    ∃ m', (if ys.length ≠ 0 then copyRange pod m b s v.beg 0 ys.length else .ok m) = .ok m' ∧ Rep pod m' v (ys ++ L.drop ys.length) ∧ Frame m (Own v) m' (Own v) := by
  obtain ⟨n, f, hb, hn, hh, hr⟩ := h.body
  have hs := h.size
  have hc := h.fits
  have e := copyRange_ok (pod := pod) hne ys s 0 hb' hb hy hl (by omega) (fun hp i h1 h2 => hh.ne_raw i (by omega) (by omega))
  obtain ⟨g1, g2⟩ := lay_rep h hw hx hn hh hr
  refine ⟨_, ?_, g1, g2⟩
  by_cases h0 : ys.length ≠ 0
  · rw [if_pos h0]; exact e
  · rw [if_neg h0]
    rw [← e]
    rw [show ys.length = 0 by omega]
    rfl

end

/-! ### a vector that is being moved from -/

/-- the elements from `s` on are still there, those before were moved from -/
structure Part (pod : Bool) (m : Mem T) (w : Vec) (s : Nat) (ys : List T) : Prop where
  size : w.size = s + ys.length
  fits : w.size ≤ w.cap
  body : ∃ n f, m.blocks w.beg = some ⟨n, f⟩ ∧ w.cap ≤ n ∧ Has f s ys ∧ (pod = false → ∀ i, i < w.size → f i ≠ .raw) ∧ (pod = false → ∀ i, w.size ≤ i → f i = .raw)
  inline : ∃ n f, m.blocks w.inl = some ⟨n, f⟩ ∧ (w.beg ≠ w.inl → pod = false → ∀ i, f i = .raw)

theorem Rep.part {m : Mem T} {w : Vec} {K : List T} (h : Rep pod m w K) : Part pod m w 0 K := by
  obtain ⟨n, f, hb, hn, hh, hr⟩ := h.body
  have hs := h.size
  exact ⟨by omega, h.fits, ⟨n, f, hb, hn, hh, fun _ i hi => hh.ne_raw i (by omega) (by omega), hr⟩, h.inline⟩

theorem Part.own_lt {m : Mem T} {v : Vec} {s : Nat} {L : List T} (h : Part pod m v s L) (hw : Wf m) {b : Nat} (hb : Own v b) : b < m.next := by
  obtain ⟨n, f, h1, _⟩ := h.body
  obtain ⟨n', f', h2, _⟩ := h.inline
  rcases hb with rfl | rfl
  · exact live_lt hw h2
  · exact live_lt hw h1

theorem Part.other {m m' : Mem T} {v v' w : Vec} {s : Nat} {K : List T} (h : Part pod m w s K) (hw : Wf m) (hf : Frame m (Own v) m' (Own v')) (ha : Apart v w) : Part pod m' w s K := by
  have e : ∀ b, Own w b → m'.blocks b = m.blocks b := fun b hb => hf.out b (fun hv => ha b hv hb) (h.own_lt hw hb)
  refine ⟨h.size, h.fits, ?_, ?_⟩
  · rw [e _ (.inr rfl)]; exact h.body
  · rw [e _ (.inl rfl)]; exact h.inline

/-- some more elements are moved from -/
theorem Part.drain {m : Mem T} {w : Vec} {s n : Nat} {ys zs : List T} {f : Nat → Cell T} (h : Part pod m w s (ys ++ zs)) (hw : Wf m) (hb : m.blocks w.beg = some ⟨n, f⟩) :
    Part pod (m.set w.beg (some ⟨n, SV.drain pod s ys.length f⟩)) w (s + ys.length) zs ∧ Frame m (Own w) (m.set w.beg (some ⟨n, SV.drain pod s ys.length f⟩)) (Own w) := by
  obtain ⟨n', f', hb', hn, hh, hl, hr⟩ := h.body
  rw [hb] at hb'
  cases hb'
  have hs := h.size
  rw [List.length_append] at hs
  refine ⟨⟨by omega, h.fits, ⟨n, _, Mem.set_same _ _ _, hn, ?_, ?_, ?_⟩, ?_⟩, Frame.edit hw (.inr rfl) (live_lt hw hb) _⟩
  · exact (Has.append.1 hh).2.congr fun i h1 h2 => drain_out (by omega)
  · exact fun hp i hi => drain_raw (hl hp i hi)
  · intro hp i hi
    rw [drain_out (by omega)]
    exact hr hp i hi
  · by_cases e : w.beg = w.inl
    · exact ⟨n, SV.drain pod s ys.length f, by rw [← e]; exact Mem.set_same _ _ _, fun hne => absurd e hne⟩
    · obtain ⟨n', f', h1, h2⟩ := h.inline
      exact ⟨n', f', by rw [Mem.set_other _ _ fun e' => e e'.symm]; exact h1, h2⟩

/-- `clear` of what is left -/
theorem Part.clear {m : Mem T} {w : Vec} {s : Nat} {ys : List T} (h : Part pod m w s ys) (hw : Wf m) :
    ∃ m', SV.clear pod m w = .ok (m', { w with size := 0 }) ∧ Rep pod m' { w with size := 0 } ([] : List T) ∧ Frame m (Own w) m' (Own w) := by
  obtain ⟨n, f, hb, hn, hh, hl, hr⟩ := h.body
  have hc := h.fits
  have e := destroyRange_ok (pod := pod) 0 w.size hb (by omega) (fun hp i _ h2 => hl hp i (by omega))
  have hraw : pod = false → ∀ i, wipe pod 0 w.size f i = .raw := fun hp i => by
    by_cases hi : i < w.size
    · exact wipe_in hp (by omega) (by omega)
    · rw [wipe_out (by omega)]
      exact hr hp i (by omega)
  refine ⟨m.set w.beg (some ⟨n, wipe pod 0 w.size f⟩), ?_, ⟨rfl, Nat.zero_le _, ⟨n, _, Mem.set_same _ _ _, hn, Has.nil _ _, fun hp i _ => hraw hp i⟩, ?_⟩,
    Frame.edit hw (.inr rfl) (live_lt hw hb) _⟩
  · unfold SV.clear
    rw [e]; rfl
  · by_cases e : w.beg = w.inl
    · exact ⟨n, wipe pod 0 w.size f, by show (m.set w.beg _).blocks w.inl = _; rw [← e]; exact Mem.set_same _ _ _, fun _ => hraw⟩
    · obtain ⟨n', f', h1, h2⟩ := h.inline
      exact ⟨n', f', by show (m.set w.beg _).blocks w.inl = _; rw [Mem.set_other _ _ fun e' => e e'.symm]; exact h1, h2⟩

section
variable {m : Mem T} {v w : Vec} {L K : List T}

theorem moveRange_step (h : Rep pod m v L) (hw : Wf m) (ha : Apart v w) {s : Nat} {ys zs : List T} (hp : Part pod m w s (ys ++ zs)) (hx : ys.length ≤ L.length) :
    ∃ m', (if ys.length ≠ 0 then moveRange pod m w.beg s v.beg 0 ys.length else .ok m) = .ok m' ∧ Rep pod m' v (ys ++ L.drop ys.length) ∧ Part pod m' w (s + ys.length) zs ∧
      Frame m (Own2 v w) m' (Own2 v w) := by
  obtain ⟨n, f, hb, hn, hh, hr⟩ := h.body
  obtain ⟨n', f', hb', hn', hh', hl', hr'⟩ := hp.body
  have hs := h.size
  have hc := h.fits
  have hs' := hp.size
  have hc' := hp.fits
  rw [List.length_append] at hs'
  have hne : w.beg ≠ v.beg := ha.symm.ne
  have e := moveRange_ok (pod := pod) hne ys s 0 hb' hb (Has.append.1 hh').1 (by omega) (by omega) (fun hp i h1 h2 => hh.ne_raw i (by omega) (by omega))
  obtain ⟨p1, p2⟩ := hp.drain hw hb'
  have h1 := h.other hw p2 ha.symm
  have hb1 : (m.set w.beg (some ⟨n', drain pod s ys.length f'⟩)).blocks v.beg = some ⟨n, f⟩ := by rw [Mem.set_other _ _ hne.symm]; exact hb
  obtain ⟨g1, g2⟩ := lay_rep h1 p2.wf hx hn hh hr
  refine ⟨_, ?_, g1, p1.other p2.wf g2 ha, (p2.right v).trans (g2.left w)⟩
  by_cases h0 : ys.length ≠ 0
  · rw [if_pos h0]; exact e
  · rw [if_neg h0]
    rw [← e]
    rw [show ys.length = 0 by omega]
    rfl

theorem uninitMove_step (h : Rep pod m v L) (hw : Wf m) (ha : Apart v w) {s k : Nat} {ys : List T} (hp : Part pod m w s ys) (hx : v.size + ys.length ≤ v.cap)
    (hk : k = v.size + ys.length) :
    ∃ m', uninitMove pod m w.beg s v.beg v.size ys.length = .ok m' ∧ Rep pod m' { v with size := k } (L ++ ys) ∧ Part pod m' w (s + ys.length) ([] : List T) ∧
      Frame m (Own2 v w) m' (Own2 v w) := by
  obtain ⟨n, f, hb, hn, hh, hr⟩ := h.body
  obtain ⟨n', f', hb', hn', hh', hl', hr'⟩ := hp.body
  have hs := h.size
  have hc := h.fits
  have hs' := hp.size
  have hc' := hp.fits
  have hne : w.beg ≠ v.beg := ha.symm.ne
  have e := uninitMove_ok (pod := pod) hne ys s v.size hb' hb hh' (by omega) (by omega) (fun hp i h1 h2 => hr hp i h1)
  rw [← List.append_nil ys] at hp
  obtain ⟨p1, p2⟩ := hp.drain hw hb'
  have h1 := h.other hw p2 ha.symm
  have g : Good pod (m.set w.beg (some ⟨n', drain pod s ys.length f'⟩)) v
      (.ok ((m.set w.beg (some ⟨n', drain pod s ys.length f'⟩)).set v.beg (some ⟨n, lay v.size ys f⟩), { v with size := k })) (L ++ ys) := by
    refine Good.edit h1 p2.wf (by rw [List.length_append]; omega) (by rw [List.length_append]; omega) hn (hh.lay_after hs) fun hp i hi => ?_
    rw [List.length_append] at hi
    rw [lay_out (by omega)]
    exact hr hp i (by omega)
  obtain ⟨m', v', g1, g2, g3, _⟩ := g
  cases g1
  exact ⟨_, e, g2, p1.other p2.wf g3 ha, (p2.right v).trans (g3.left w)⟩

/-! ### assignments -/

theorem copyAssign_ok (h : Rep pod m v L) (hw : Wf m) (hK : Rep pod m w K) (ha : Apart v w) : Good pod m v (copyAssign pod m v w) K := by
  have hs := h.size
  have hc := h.fits
  have hs' := hK.size
  have hc' := hK.fits
  obtain ⟨n', f', hb', hn', hh', hr'⟩ := hK.body
  unfold copyAssign
  by_cases h1 : w.size ≤ v.size
  · rw [if_pos h1]
    obtain ⟨m1, e1, r1, f1⟩ := copyRange_good h hw hb' hh' (by omega) ha.symm.ne (by omega)
    rw [← hs'] at e1
    obtain ⟨m2, e2, r2, f2⟩ := cut_ok r1 f1.wf (k := w.size) (j := v.size - w.size) (by rw [List.length_append]; omega) rfl
    rw [List.take_left' hs'.symm] at r2
    refine ⟨m2, { v with size := w.size }, ?_, r2, f1.trans f2, rfl⟩
    show Res.bind (if w.size ≠ 0 then copyRange pod m w.beg 0 v.beg 0 w.size else .ok m) _ = _
    rw [e1]
    show Res.bind (destroyRange pod m1 v.beg w.size (v.size - w.size)) _ = _
    rw [e2]; rfl
  · rw [if_neg h1]
    by_cases h2 : v.cap < w.size
    · obtain ⟨m1, e1, r1, f1⟩ := wipe_ok h hw
      obtain ⟨m2, v2, e2, r2, f2, i2, b2, c2, _, s2⟩ := grow_ok r1 f1.wf w.size
      have fr := f1.trans f2
      have a2 : Apart v2 w := ha.frame hw hK fr
      have K2 := hK.other hw fr ha
      obtain ⟨n2, g2, hb2, hn2, hh2, _⟩ := K2.body
      have s2 : v2.size = 0 := s2
      obtain ⟨m3, e3, r3, f3⟩ := uninitCopy_good r2 f2.wf hb2 hh2 (by omega) a2.symm.ne (by omega) (k := w.size) (by omega)
      refine ⟨m3, { v2 with size := w.size }, ?_, by simpa using r3, fr.trans f3, i2⟩
      rw [s2, ← hs'] at e3
      have e4 : (if v.cap < w.size then (do
          let m ← destroyRange pod m v.beg 0 v.size
          let g ← grow pod m { v with size := 0 } w.size
          Res.ok (g.1, g.2, 0) : Res (Mem T × Vec × Nat))
        else (do
          let m ← (if v.size ≠ 0 then copyRange pod m w.beg 0 v.beg 0 v.size else .ok m)
          Res.ok (m, v, v.size))) = .ok (m2, v2, 0) := by
        rw [if_pos h2, e1]
        show Res.bind (grow pod m1 { v with size := 0 } w.size) _ = _
        rw [e2]; rfl
      show Res.bind _ _ = _
      rw [e4]
      show Res.bind (uninitCopy pod m2 w.beg 0 v2.beg 0 (w.size - 0)) _ = _
      rw [Nat.sub_zero, e3]; rfl
    · have hl : (K.take v.size).length = v.size := by rw [List.length_take]; omega
      obtain ⟨m1, e1, r1, f1⟩ := copyRange_good (ys := K.take v.size) h hw hb' (hh'.take _) (by omega) ha.symm.ne (by omega)
      rw [hl] at e1
      rw [hl, List.drop_eq_nil_of_le (by omega), List.append_nil] at r1
      have K1 := hK.other hw f1 ha
      obtain ⟨n2, g2, hb2, hn2, hh2, _⟩ := K1.body
      have hd : (K.drop v.size).length = w.size - v.size := by rw [List.length_drop]; omega
      obtain ⟨m3, e3, r3, f3⟩ := uninitCopy_good r1 f1.wf hb2 (hh2.drop v.size) (by omega) ha.symm.ne (by omega) (k := w.size) (by omega)
      rw [List.take_append_drop] at r3
      refine ⟨m3, { v with size := w.size }, ?_, r3, f1.trans f3, rfl⟩
      have e4 : (if v.cap < w.size then (do
          let m ← destroyRange pod m v.beg 0 v.size
          let g ← grow pod m { v with size := 0 } w.size
          Res.ok (g.1, g.2, 0) : Res (Mem T × Vec × Nat))
        else (do
          let m ← (if v.size ≠ 0 then copyRange pod m w.beg 0 v.beg 0 v.size else .ok m)
          Res.ok (m, v, v.size))) = .ok (m1, v, v.size) := by
        rw [if_neg h2]
        show Res.bind (if v.size ≠ 0 then copyRange pod m w.beg 0 v.beg 0 v.size else .ok m) _ = _
        rw [e1]; rfl
      show Res.bind _ _ = _
      rw [e4]
      show Res.bind (uninitCopy pod m1 w.beg v.size v.beg v.size (w.size - v.size)) _ = _
      rw [← hd, ← Nat.zero_add v.size] 
      rw [Nat.zero_add] at e3 ⊢
      rw [e3]; rfl

/-- the memory of a vector after its elements are gone: the block is released unless it is the inline buffer -/
theorem release_ok (h : Rep pod m v L) :
    ∃ m1 m2, destroyRange pod m v.beg 0 v.size = .ok m1 ∧ (if v.isSmall = true then .ok m1 else free pod m1 v.beg) = .ok m2 ∧
      (∃ n f, m2.blocks v.inl = some ⟨n, f⟩ ∧ (pod = false → ∀ i, f i = .raw)) ∧ (v.beg ≠ v.inl → m2.blocks v.beg = none) ∧
      (∀ b, ¬ Own v b → m2.blocks b = m.blocks b) ∧ m2.next = m.next := by
  obtain ⟨n, f, hb, hn, hh, hr⟩ := h.body
  obtain ⟨n', f', hi, hir⟩ := h.inline
  have hs := h.size
  have hc := h.fits
  have e1 := destroyRange_ok (pod := pod) 0 v.size hb (by omega) (fun _ i _ h2 => hh.ne_raw i (by omega) (by omega))
  have hraw : pod = false → ∀ i, wipe pod 0 v.size f i = .raw := fun hp i => by
    by_cases hi : i < v.size
    · exact wipe_in hp (by omega) (by omega)
    · rw [wipe_out (by omega)]
      exact hr hp i (by omega)
  by_cases e : v.beg = v.inl
  · have hsm : v.isSmall = true := by unfold Vec.isSmall; simpa using e
    refine ⟨_, _, e1, if_pos hsm, ⟨n, _, ?_, hraw⟩, fun hne => absurd e hne, fun b hb => Mem.set_other _ _ fun q => hb (.inr q), rfl⟩
    rw [← e]; exact Mem.set_same _ _ _
  · have hsm : v.isSmall = false := by unfold Vec.isSmall; simpa using e
    have e2 := free_ok (pod := pod) (m := m.set v.beg (some ⟨n, wipe pod 0 v.size f⟩)) (Mem.set_same _ _ _) hraw
    rw [Mem.set_set] at e2
    refine ⟨_, _, e1, by rw [hsm, if_neg (by simp)]; exact e2, ⟨n', f', ?_, hir e⟩, fun _ => Mem.set_same _ _ _, fun b hb => Mem.set_other _ _ fun q => hb (.inr q), rfl⟩
    rw [Mem.set_other _ _ fun q => e q.symm]; exact hi

theorem moveAssign_ok (h : Rep pod m v L) (hw : Wf m) (hK : Rep pod m w K) (ha : Apart v w) : Good2 pod m v w (moveAssign pod m v w) K [] := by
  have hs := h.size
  have hc := h.fits
  have hs' := hK.size
  have hc' := hK.fits
  obtain ⟨n', f', hb', hn', hh', hr'⟩ := hK.body
  unfold moveAssign
  by_cases hsm : w.isSmall = true
  · rw [hsm, if_neg (by simp)]
    by_cases h1 : w.size ≤ v.size
    · rw [if_pos h1]
      have hp : Part pod m w 0 (K ++ []) := by rw [List.append_nil]; exact hK.part
      obtain ⟨m1, e1, r1, p1, f1⟩ := moveRange_step h hw ha hp (by omega)
      obtain ⟨m2, e2, r2, f2⟩ := cut_ok r1 f1.wf (k := w.size) (j := v.size - w.size) (by rw [List.length_append]; omega) rfl
      rw [List.take_left' hs'.symm] at r2
      obtain ⟨m3, e3, r3, f3⟩ := (p1.other f1.wf f2 ha).clear f2.wf
      refine ⟨m3, { v with size := w.size }, { w with size := 0 }, ?_, r2.other f2.wf f3 ha.symm, r3, (f1.trans (f2.left w)).trans (f3.right v), ha⟩
      rw [← hs'] at e1
      show Res.bind (if w.size ≠ 0 then moveRange pod m w.beg 0 v.beg 0 w.size else .ok m) _ = _
      rw [e1]
      show Res.bind (destroyRange pod m1 v.beg w.size (v.size - w.size)) _ = _
      rw [e2]
      show Res.bind (SV.clear pod m2 w) _ = _
      rw [e3]; rfl
    · rw [if_neg h1]
      by_cases h2 : v.cap < w.size
      · obtain ⟨m1, e1, r1, f1⟩ := wipe_ok h hw
        obtain ⟨m2, v2, e2, r2, f2, i2, b2, c2, _, s2⟩ := grow_ok r1 f1.wf w.size
        have fr := f1.trans f2
        have a2 : Apart v2 w := ha.frame hw hK fr
        have K2 := hK.other hw fr ha
        have s2 : v2.size = 0 := s2
        obtain ⟨m3, e3, r3, p3, f3⟩ := uninitMove_step r2 f2.wf a2 K2.part (by omega) (k := w.size) (by omega)
        obtain ⟨m4, e4, r4, f4⟩ := p3.clear f3.wf
        refine ⟨m4, { v2 with size := w.size }, { w with size := 0 }, ?_, ?_, r4, ((fr.left w).trans f3).trans (f4.right v2), a2⟩
        · rw [s2, ← hs'] at e3
          have e5 : (if v.cap < w.size then (do
              let m ← destroyRange pod m v.beg 0 v.size
              let g ← grow pod m { v with size := 0 } w.size
              Res.ok (g.1, g.2, 0) : Res (Mem T × Vec × Nat))
            else (do
              let m ← (if v.size ≠ 0 then moveRange pod m w.beg 0 v.beg 0 v.size else .ok m)
              Res.ok (m, v, v.size))) = .ok (m2, v2, 0) := by
            rw [if_pos h2, e1]
            show Res.bind (grow pod m1 { v with size := 0 } w.size) _ = _
            rw [e2]; rfl
          show Res.bind _ _ = _
          rw [e5]
          show Res.bind (uninitMove pod m2 w.beg 0 v2.beg 0 (w.size - 0)) _ = _
          rw [Nat.sub_zero, e3]
          show Res.bind (SV.clear pod m3 w) _ = _
          rw [e4]; rfl
        · have := r3.other f3.wf f4 (Apart.symm a2)
          simpa using this
      · have hl : (K.take v.size).length = v.size := by rw [List.length_take]; omega
        have hd : (K.drop v.size).length = w.size - v.size := by rw [List.length_drop]; omega
        have hp : Part pod m w 0 (K.take v.size ++ K.drop v.size) := by rw [List.take_append_drop]; exact hK.part
        obtain ⟨m1, e1, r1, p1, f1⟩ := moveRange_step h hw ha hp (by omega)
        rw [hl] at e1 r1
        rw [List.drop_eq_nil_of_le (by omega), List.append_nil] at r1
        rw [hl, Nat.zero_add] at p1
        obtain ⟨m3, e3, r3, p3, f3⟩ := uninitMove_step r1 f1.wf ha p1 (by omega) (k := w.size) (by omega)
        rw [List.take_append_drop] at r3
        obtain ⟨m4, e4, r4, f4⟩ := p3.clear f3.wf
        refine ⟨m4, { v with size := w.size }, { w with size := 0 }, ?_, r3.other f3.wf f4 ha.symm, r4, (f1.trans f3).trans (f4.right v), ha⟩
        have e5 : (if v.cap < w.size then (do
            let m ← destroyRange pod m v.beg 0 v.size
            let g ← grow pod m { v with size := 0 } w.size
            Res.ok (g.1, g.2, 0) : Res (Mem T × Vec × Nat))
          else (do
            let m ← (if v.size ≠ 0 then moveRange pod m w.beg 0 v.beg 0 v.size else .ok m)
            Res.ok (m, v, v.size))) = .ok (m1, v, v.size) := by
          rw [if_neg h2]
          show Res.bind (if v.size ≠ 0 then moveRange pod m w.beg 0 v.beg 0 v.size else .ok m) _ = _
          rw [e1]; rfl
        show Res.bind _ _ = _
        rw [e5]
        show Res.bind (uninitMove pod m1 w.beg v.size v.beg v.size (w.size - v.size)) _ = _
        rw [← hd, e3]
        show Res.bind (SV.clear pod m3 w) _ = _
        rw [e4]; rfl
  · have hsm' : w.isSmall = false := by simpa using hsm
    have hbig : w.beg ≠ w.inl := by unfold Vec.isSmall at hsm; simpa using hsm
    rw [hsm', if_pos (by simp)]
    obtain ⟨m1, m2, e1, e2, ⟨ni, fi, hi, hri⟩, hgone, hout, hnext⟩ := release_ok h
    obtain ⟨nw, fw, hwi, hwr⟩ := hK.inline
    have nv : ∀ b, Own w b → ¬ Own v b := fun b h1 h2 => ha b h2 h1
    refine ⟨m2, { v with beg := w.beg, size := w.size, cap := w.cap }, w.resetToSmall, ?_, ⟨hs', hc', ⟨n', f', ?_, hn', hh', hr'⟩, ⟨ni, fi, hi, fun _ => hri⟩⟩,
      ⟨rfl, Nat.le_refl _, ⟨nw, fw, ?_, Nat.zero_le _, Has.nil _ _, fun hp i _ => hwr hbig hp i⟩, ⟨nw, fw, ?_, fun hne => absurd rfl hne⟩⟩, ⟨?_, ?_, ?_, Nat.le_of_eq hnext.symm, ?_⟩, ?_⟩
    · show Res.bind (destroyRange pod m v.beg 0 v.size) _ = _
      rw [e1]
      show Res.bind (if v.isSmall = true then .ok m1 else free pod m1 v.beg) _ = _
      rw [e2]; rfl
    · show m2.blocks w.beg = _
      rw [hout _ (nv _ (.inr rfl))]; exact hb'
    · show m2.blocks w.inl = _
      rw [hout _ (nv _ (.inl rfl))]; exact hwi
    · show m2.blocks w.inl = _
      rw [hout _ (nv _ (.inl rfl))]; exact hwi
    · exact fun b hb _ => hout b fun q => hb (.inl q)
    · intro b hb hn
      have n1 : b ≠ v.inl := fun q => hn (.inl (.inl q))
      have n2 : b ≠ w.beg := fun q => hn (.inl (.inr q))
      have n3 : b ≠ w.inl := fun q => hn (.inr (.inl q))
      by_cases q : b = v.beg
      · rw [q]; exact hgone fun q' => n1 (q.trans q')
      · rw [hout b fun o => o.elim n1 q]
        exact hw b (hb.resolve_left fun o => o.elim (fun o => o.elim n1 q) fun o => o.elim n3 n2)
    · intro b hb _
      rcases hb with (q | q) | (q | q)
      · exact .inl (.inl q)
      · exact .inr (.inr q)
      · exact .inr (.inl q)
      · exact .inr (.inl q)
    · intro b hb
      rw [hnext] at hb
      rw [hout b fun o => by have := h.own_lt hw o; omega]
      exact hw b hb
    · intro b o1 o2
      have o2 : b = w.inl := o2.elim id id
      rcases o1 with q | q
      · exact ha b (.inl q) (.inl o2)
      · exact hbig (q.symm.trans o2)

/-! ### swap -/

theorem swapRange_good (h : Rep pod m v L) (hw : Wf m) (hK : Rep pod m w K) (ha : Apart v w) {k : Nat} (h1 : k ≤ L.length) (h2 : k ≤ K.length) :
    ∃ m', swapRange pod m v.beg w.beg 0 k = .ok m' ∧ Rep pod m' v (K.take k ++ L.drop k) ∧ Rep pod m' w (L.take k ++ K.drop k) ∧ Frame m (Own2 v w) m' (Own2 v w) := by
  obtain ⟨n, f, hb, hn, hh, hr⟩ := h.body
  obtain ⟨n', f', hb', hn', hh', hr'⟩ := hK.body
  have hs := h.size
  have hc := h.fits
  have hs' := hK.size
  have hc' := hK.fits
  have t1 : (L.take k).length = k := by rw [List.length_take]; omega
  have t2 : (K.take k).length = k := by rw [List.length_take]; omega
  have e := swapRange_ok (pod := pod) ha.ne (L.take k) (K.take k) 0 (by omega) hb hb' (hh.take k) (hh'.take k) (by omega) (by omega)
  rw [t1] at e
  obtain ⟨g1, g2⟩ := lay_rep (ys := K.take k) h hw (by omega) hn hh hr
  have K1 := hK.other hw g2 ha
  have hb1 : (m.set v.beg (some ⟨n, lay 0 (K.take k) f⟩)).blocks w.beg = some ⟨n', f'⟩ := by rw [Mem.set_other _ _ ha.symm.ne]; exact hb'
  obtain ⟨g3, g4⟩ := lay_rep (ys := L.take k) K1 g2.wf (by omega) hn' hh' hr'
  rw [t2] at g1
  rw [t1] at g3
  exact ⟨_, e, g1.other g2.wf g4 ha.symm, g3, (g2.left w).trans (g4.right v)⟩

/-- the longer vector's tail goes over to the other one -/
theorem tail_over (h : Rep pod m v L) (hw : Wf m) (hK : Rep pod m w K) (ha : Apart v w) {k d j : Nat} (hk : K.length = k) (hd : L.length = k + d) (hroom : L.length ≤ w.cap) (hj : j = w.size + d) :
    ∃ m1 m2, uninitCopy pod m v.beg k w.beg w.size d = .ok m1 ∧ destroyRange pod m1 v.beg k (v.size - k) = .ok m2 ∧ Rep pod m2 { v with size := k } (L.take k) ∧
      Rep pod m2 { w with size := j } (K ++ L.drop k) ∧ Frame m (Own2 v w) m2 (Own2 v w) := by
  obtain ⟨n, f, hb, hn, hh, hr⟩ := h.body
  have hs := h.size
  have hc := h.fits
  have hs' := hK.size
  have hl : (L.drop k).length = d := by rw [List.length_drop]; omega
  have hD := hh.drop k
  rw [Nat.zero_add] at hD
  obtain ⟨m1, e1, r1, f1⟩ := uninitCopy_good hK hw hb hD (by omega) ha.ne (by omega) (k := j) (by omega)
  rw [hl] at e1
  obtain ⟨m2, e2, r2, f2⟩ := cut_ok (h.other hw f1 ha.symm) f1.wf (k := k) (by omega) rfl
  exact ⟨m1, m2, e1, e2, r2, r1.other f1.wf f2 ha, (f1.right v).trans (f2.left w)⟩

theorem swap_ok (h : Rep pod m v L) (hw : Wf m) (hK : Rep pod m w K) (ha : Apart v w) : Good2 pod m v w (swap pod m v w) K L := by
  unfold swap
  by_cases hbig : (!v.isSmall && !w.isSmall) = true
  · rw [if_pos hbig]
    have hb : v.beg ≠ v.inl ∧ w.beg ≠ w.inl := by
      unfold Vec.isSmall at hbig
      simpa using hbig
    obtain ⟨n, f, hi, hir⟩ := h.inline
    obtain ⟨n', f', hi', hir'⟩ := hK.inline
    refine ⟨_, _, _, rfl, ⟨hK.size, hK.fits, hK.body, ⟨n, f, hi, fun _ => hir hb.1⟩⟩, ⟨h.size, h.fits, h.body, ⟨n', f', hi', fun _ => hir' hb.2⟩⟩, ?_, ?_⟩
    · refine (Frame.refl (Own2 v w) hw).congr (fun _ => Iff.rfl) fun b => ?_
      show (b = v.inl ∨ b = v.beg) ∨ (b = w.inl ∨ b = w.beg) ↔ (b = v.inl ∨ b = w.beg) ∨ (b = w.inl ∨ b = v.beg)
      tauto
    · intro b o1 o2
      rcases o1 with q | q <;> rcases o2 with q' | q'
      · exact ha b (.inl q) (.inl q')
      · exact hb.1 (q'.symm.trans q)
      · exact hb.2 (q.symm.trans q')
      · exact ha b (.inr q') (.inr q)
  · rw [if_neg hbig]
    obtain ⟨m1, v1, e1, r1, f1, i1, c1, s1⟩ := reserve_ok (c := v.cap < w.size) h hw w.size (by omega)
    have a1 : Apart v1 w := ha.frame hw hK f1
    have K1 := hK.other hw f1 ha
    obtain ⟨m2, w2, e2, r2, f2, i2, c2, s2⟩ := reserve_ok (c := w.cap < v1.size) K1 f1.wf v1.size (by omega)
    have a2 : Apart v1 w2 := (a1.symm.frame f1.wf r1 f2).symm
    have L2 := r1.other f1.wf f2 a1.symm
    have fr : Frame m (Own2 v w) m2 (Own2 v1 w2) := (f1.left w).trans (f2.right v1)
    have hs1 := L2.size
    have hs2 := r2.size
    have hc1 := L2.fits
    obtain ⟨k, hk⟩ : ∃ k, (if w2.size < v1.size then w2.size else v1.size) = k := ⟨_, rfl⟩
    have hk1 : k ≤ L.length ∧ k ≤ K.length := by rw [← hk]; split_ifs <;> omega
    obtain ⟨m3, e3, r3, q3, f3⟩ := swapRange_good L2 f2.wf r2 a2 hk1.1 hk1.2
    show Good2 pod m v w (Res.bind (if v.cap < w.size then grow pod m v w.size else .ok (m, v)) _) K L
    rw [e1]
    show Good2 pod m v w (Res.bind (if w.cap < v1.size then grow pod m1 w v1.size else .ok (m1, w)) _) K L
    rw [e2]
    show Good2 pod m v w (Res.bind (swapRange pod m2 v1.beg w2.beg 0 (if w2.size < v1.size then w2.size else v1.size)) _) K L
    rw [hk, e3]
    show Good2 pod m v w (if w2.size < v1.size then _ else _) K L
    by_cases h1 : w2.size < v1.size
    · rw [if_pos h1] at hk ⊢
      have hkk : K.take k = K := List.take_of_length_le (by omega)
      have lt : (L.take k).length = k := by rw [List.length_take]; omega
      rw [List.drop_eq_nil_of_le (show K.length ≤ k by omega), List.append_nil] at q3
      rw [hkk] at r3
      obtain ⟨m4, m5, e4, e5, r5, q5, f5⟩ := tail_over r3 f3.wf q3 a2 (k := k) (d := v1.size - w2.size) (j := w2.size + (v1.size - w2.size)) lt
        (by rw [List.length_append, List.length_drop]; omega) (by rw [List.length_append, List.length_drop]; omega) rfl
      rw [List.take_left' (by omega)] at r5
      rw [List.drop_left' (by omega), List.take_append_drop] at q5
      refine ⟨m5, { v1 with size := k }, { w2 with size := w2.size + (v1.size - w2.size) }, ?_, r5, q5, (fr.trans f3).trans f5, a2⟩
      show Res.bind (uninitCopy pod m3 v1.beg k w2.beg w2.size (v1.size - w2.size)) _ = _
      rw [e4]
      show Res.bind (destroyRange pod m4 v1.beg k (v1.size - k)) _ = _
      rw [e5]; rfl
    · rw [if_neg h1] at hk ⊢
      by_cases h2 : v1.size < w2.size
      · rw [if_pos h2]
        have hkk : L.take k = L := List.take_of_length_le (by omega)
        have lt : (K.take k).length = k := by rw [List.length_take]; omega
        rw [List.drop_eq_nil_of_le (show L.length ≤ k by omega), List.append_nil] at r3
        rw [hkk] at q3
        obtain ⟨m4, m5, e4, e5, r5, q5, f5⟩ := tail_over q3 f3.wf r3 a2.symm (k := k) (d := w2.size - v1.size) (j := v1.size + (w2.size - v1.size)) lt
          (by rw [List.length_append, List.length_drop]; omega) (by rw [List.length_append, List.length_drop]; omega) rfl
        rw [List.take_left' (by omega)] at r5
        rw [List.drop_left' (by omega), List.take_append_drop] at q5
        refine ⟨m5, { v1 with size := v1.size + (w2.size - v1.size) }, { w2 with size := k }, ?_, q5, r5, (fr.trans f3).trans f5.flip, a2⟩
        show Res.bind (uninitCopy pod m3 w2.beg k v1.beg v1.size (w2.size - v1.size)) _ = _
        rw [e4]
        show Res.bind (destroyRange pod m4 w2.beg k (w2.size - k)) _ = _
        rw [e5]; rfl
      · rw [if_neg h2]
        rw [List.take_of_length_le (show K.length ≤ k by omega), List.drop_eq_nil_of_le (show L.length ≤ k by omega), List.append_nil] at r3
        rw [List.take_of_length_le (show L.length ≤ k by omega), List.drop_eq_nil_of_le (show K.length ≤ k by omega), List.append_nil] at q3
        exact ⟨m3, v1, w2, rfl, r3, q3, fr.trans f3, a2⟩

end

/-! ### constructors -/

theorem create_ok {m : Mem T} (hw : Wf m) (N : Nat) :
    Rep pod (create m N).1 (create m N).2 ([] : List T) ∧ Frame m (fun _ => False) (create m N).1 (Own (create m N).2) := by
  refine ⟨⟨rfl, Nat.zero_le _, ⟨_, _, malloc_new m _, ?_, Has.nil _ _, fun _ _ _ => rfl⟩, ⟨_, _, malloc_new m _, fun hne => absurd rfl hne⟩⟩, ?_, ?_, ?_, Nat.le_succ _, ?_⟩
  · show N ≤ if N = 0 then 1 else N
    split_ifs <;> omega
  · exact fun b _ hl => malloc_old _ _ (by omega)
  · intro b hb hn
    have q : b ≠ m.next := fun q => hn (.inl q)
    show (m.malloc _).1.blocks b = none
    rw [malloc_old _ _ q]
    exact hw b (hb.resolve_left id)
  · intro b hb hl
    have : b = m.next := hb.elim id id
    omega
  · intro b hb
    have hb : m.next + 1 ≤ b := hb
    show (m.malloc _).1.blocks b = none
    rw [malloc_old _ _ (by omega)]
    exact hw b (by omega)

end SpaceHub.SV
