import Verif.Proof.SmallVectorTwo

/-
`SmallVector`: any number of vectors in one memory.
-/

set_option autoImplicit false

namespace SpaceHub.SV

variable {T : Type} {pod : Bool}

/-- Each name stands for a vector that holds its list; no block has two owners, and none has no owner. -/
structure Inv (pod : Bool) (w : World T) (σ : Nat → Option (List T)) : Prop where
  wf : Wf w.mem
  none_iff : ∀ k, w.vec k = none ↔ σ k = none
  rep : ∀ k v L, w.vec k = some v → σ k = some L → Rep pod w.mem v L
  sep : ∀ k l v u, k ≠ l → w.vec k = some v → w.vec l = some u → Apart v u
  own : ∀ b, w.mem.blocks b ≠ none → ∃ k v, w.vec k = some v ∧ Own v b

theorem Inv.some_iff {w : World T} {σ : Nat → Option (List T)} (h : Inv pod w σ) {k : Nat} {L : List T} (hL : σ k = some L) : ∃ v, w.vec k = some v ∧ Rep pod w.mem v L := by
  cases hv : w.vec k with
  | none => rw [(h.none_iff k).1 hv] at hL; cases hL
  | some v => exact ⟨v, rfl, h.rep k v L hv hL⟩

/-- the blocks of the vectors with the given names -/
def OwnBy (w : World T) (P : Nat → Prop) (b : Nat) : Prop := ∃ k v, P k ∧ w.vec k = some v ∧ Own v b

/-- A call on the vectors with names in `P` leaves the others alone. -/
theorem Inv.step {w w' : World T} {σ σ' : Nat → Option (List T)} (h : Inv pod w σ) (P : Nat → Prop) (hf : Frame w.mem (OwnBy w P) w'.mem (OwnBy w' P))
    (hv : ∀ k, ¬ P k → w'.vec k = w.vec k ∧ σ' k = σ k) (hn : ∀ k, P k → (w'.vec k = none ↔ σ' k = none))
    (hr : ∀ k v L, P k → w'.vec k = some v → σ' k = some L → Rep pod w'.mem v L) (hs : ∀ k l v u, P k → P l → k ≠ l → w'.vec k = some v → w'.vec l = some u → Apart v u) :
    Inv pod w' σ' := by
  have off : ∀ k v b, ¬ P k → w.vec k = some v → Own v b → ¬ OwnBy w P b := fun k v b hk hkv hb ⟨l, u, hl, hlu, hbu⟩ =>
    h.sep k l v u (fun e => hk (e ▸ hl)) hkv hlu b hb hbu
  have liveL : ∀ k v, w.vec k = some v → ∃ L, Rep pod w.mem v L := fun k v hkv => by
    cases hL : σ k with
    | none => rw [(h.none_iff k).2 hL] at hkv; cases hkv
    | some L => exact ⟨L, h.rep k v L hkv hL⟩
  have cross : ∀ k l v u, ¬ P k → P l → w'.vec k = some v → w'.vec l = some u → Apart v u := fun k l v u hk hl hkv hlu b hb hbu => by
    rw [(hv k hk).1] at hkv
    obtain ⟨L, hL⟩ := liveL k v hkv
    exact off k v b hk hkv hb (hf.sub b ⟨l, u, hl, hlu, hbu⟩ (hL.own_lt h.wf hb))
  refine ⟨hf.wf, fun k => ?_, fun k v L h1 h2 => ?_, fun k l v u hkl h1 h2 => ?_, fun b hb => ?_⟩
  · by_cases hk : P k
    · exact hn k hk
    · rw [(hv k hk).1, (hv k hk).2]; exact h.none_iff k
  · by_cases hk : P k
    · exact hr k v L hk h1 h2
    · rw [(hv k hk).1] at h1
      rw [(hv k hk).2] at h2
      exact (h.rep k v L h1 h2).frame h.wf hf fun b hb => off k v b hk h1 hb
  · by_cases hk : P k <;> by_cases hl : P l
    · exact hs k l v u hk hl hkl h1 h2
    · exact (cross l k u v hl hk h2 h1).symm
    · exact cross k l v u hk hl h1 h2
    · rw [(hv k hk).1] at h1
      rw [(hv l hl).1] at h2
      exact h.sep k l v u hkl h1 h2
  · by_cases hS' : OwnBy w' P b
    · obtain ⟨k, v, _, h1, h2⟩ := hS'
      exact ⟨k, v, h1, h2⟩
    · by_cases hS : OwnBy w P b ∨ w.mem.next ≤ b
      · exact absurd (hf.gone b hS hS') hb
      · rw [hf.out b (fun q => hS (.inl q)) (by omega)] at hb
        obtain ⟨k, v, h1, h2⟩ := h.own b hb
        have hk : ¬ P k := fun q => hS (.inl ⟨k, v, q, h1, h2⟩)
        exact ⟨k, v, by rw [(hv k hk).1]; exact h1, h2⟩

theorem ownBy_one (w : World T) {k : Nat} {v : Vec} (h : w.vec k = some v) (b : Nat) : Own v b ↔ OwnBy w (fun j => j = k) b := by
  constructor
  · exact fun hb => ⟨k, v, rfl, h, hb⟩
  · rintro ⟨j, u, rfl, hu, hb⟩
    rw [h] at hu; cases hu; exact hb

theorem ownBy_none (w : World T) {k : Nat} (h : w.vec k = none) (b : Nat) : False ↔ OwnBy w (fun j => j = k) b := by
  constructor
  · exact False.elim
  · rintro ⟨j, u, rfl, hu, hb⟩
    rw [h] at hu; cases hu

theorem ownBy_two (w : World T) {k l : Nat} {v u : Vec} (h : w.vec k = some v) (h' : w.vec l = some u) (b : Nat) : Own2 v u b ↔ OwnBy w (fun j => j = k ∨ j = l) b := by
  constructor
  · exact fun hb => hb.elim (fun hb => ⟨k, v, .inl rfl, h, hb⟩) fun hb => ⟨l, u, .inr rfl, h', hb⟩
  · rintro ⟨j, x, rfl | rfl, hu, hb⟩
    · rw [h] at hu; cases hu; exact .inl hb
    · rw [h'] at hu; cases hu; exact .inr hb

theorem ownBy_two' (w : World T) {k l : Nat} {u : Vec} (h : w.vec k = none) (h' : w.vec l = some u) (b : Nat) : Own u b ↔ OwnBy w (fun j => j = k ∨ j = l) b := by
  constructor
  · exact fun hb => ⟨l, u, .inr rfl, h', hb⟩
  · rintro ⟨j, x, rfl | rfl, hu, hb⟩
    · rw [h] at hu; cases hu
    · rw [h'] at hu; cases hu; exact hb

/-- the assignment of lists to names, with another list under a name -/
def setL (σ : Nat → Option (List T)) (k : Nat) (L : Option (List T)) : Nat → Option (List T) := fun j => if j = k then L else σ j

theorem put_same (w : World T) (m : Mem T) (k : Nat) (v : Option Vec) : (w.put m k v).vec k = v := if_pos rfl

theorem put_other (w : World T) (m : Mem T) {k j : Nat} (v : Option Vec) (h : j ≠ k) : (w.put m k v).vec j = w.vec j := if_neg h

/-- a call on one vector -/
theorem Inv.on {w : World T} {σ : Nat → Option (List T)} (h : Inv pod w σ) {k : Nat} {L L' : List T} (hL : σ k = some L) (f : Mem T → Vec → Res (Mem T × Vec))
    (hf : ∀ m v, Rep pod m v L → Wf m → Good pod m v (f m v) L') : ∃ w', w.on k f = .ok w' ∧ Inv pod w' (setL σ k (some L')) := by
  obtain ⟨v, hv, hr⟩ := h.some_iff hL
  obtain ⟨m', v', e, r, fr, _⟩ := hf w.mem v hr h.wf
  refine ⟨w.put m' k (some v'), ?_, h.step (fun j => j = k) ?_ ?_ ?_ ?_ ?_⟩
  · unfold World.on World.find
    rw [hv]
    show Res.bind (f w.mem v) _ = _
    rw [e]; rfl
  · exact fr.congr (ownBy_one w hv) (ownBy_one (w.put m' k (some v')) (put_same _ _ _ _))
  · exact fun j hj => ⟨put_other _ _ _ hj, if_neg hj⟩
  · rintro j rfl
    rw [put_same, setL, if_pos rfl]
    simp
  · rintro j u K rfl hu hK
    rw [put_same] at hu
    rw [setL, if_pos rfl] at hK
    cases hu; cases hK
    exact r
  · rintro j l u x rfl rfl hne
    exact absurd rfl hne

/-- a constructor -/
theorem Inv.new {w : World T} {σ : Nat → Option (List T)} (h : Inv pod w σ) {k : Nat} {L' : List T} (hk : σ k = none) (f : Mem T → Res (Mem T × Vec))
    (hf : ∃ m' v', f w.mem = .ok (m', v') ∧ Rep pod m' v' L' ∧ Frame w.mem (fun _ => False) m' (Own v')) : ∃ w', w.new k f = .ok w' ∧ Inv pod w' (setL σ k (some L')) := by
  have hv := (h.none_iff k).2 hk
  obtain ⟨m', v', e, r, fr⟩ := hf
  refine ⟨w.put m' k (some v'), ?_, h.step (fun j => j = k) ?_ ?_ ?_ ?_ ?_⟩
  · unfold World.new
    rw [hv]
    show Res.bind (f w.mem) _ = _
    rw [e]; rfl
  · exact fr.congr (ownBy_none w hv) (ownBy_one (w.put m' k (some v')) (put_same _ _ _ _))
  · exact fun j hj => ⟨put_other _ _ _ hj, if_neg hj⟩
  · rintro j rfl
    rw [put_same, setL, if_pos rfl]
    simp
  · rintro j u K rfl hu hK
    rw [put_same] at hu
    rw [setL, if_pos rfl] at hK
    cases hu; cases hK
    exact r
  · rintro j l u x rfl rfl hne
    exact absurd rfl hne

/-- the destructor -/
theorem Inv.destroy {w : World T} {σ : Nat → Option (List T)} (h : Inv pod w σ) {k : Nat} {L : List T} (hL : σ k = some L) :
    ∃ w', SV.step pod w (.destroy k) = .ok w' ∧ Inv pod w' (setL σ k none) := by
  obtain ⟨v, hv, hr⟩ := h.some_iff hL
  obtain ⟨m', e, fr⟩ := destructor_ok hr h.wf
  refine ⟨w.put m' k none, ?_, h.step (fun j => j = k) ?_ ?_ ?_ ?_ ?_⟩
  · show Res.bind (w.find k) _ = _
    unfold World.find
    rw [hv]
    show Res.bind (destructor pod w.mem v) _ = _
    rw [e]; rfl
  · exact fr.congr (ownBy_one w hv) (ownBy_none (w.put m' k none) (put_same _ _ _ _))
  · exact fun j hj => ⟨put_other _ _ _ hj, if_neg hj⟩
  · rintro j rfl
    rw [put_same, setL, if_pos rfl]
    simp
  · rintro j u K rfl hu hK
    rw [put_same] at hu
    cases hu
  · rintro j l u x rfl rfl hne
    exact absurd rfl hne

/-- two vectors are replaced -/
theorem Inv.two {w : World T} {σ : Nat → Option (List T)} (h : Inv pod w σ) {k l : Nat} (hkl : k ≠ l) {S : Nat → Prop} {m' : Mem T} {v' u' : Vec} {L' K' : List T}
    (hS : ∀ b, S b ↔ OwnBy w (fun j => j = k ∨ j = l) b) (r1 : Rep pod m' v' L') (r2 : Rep pod m' u' K') (fr : Frame w.mem S m' (Own2 v' u')) (ha : Apart v' u') (w' : World T)
    (hm : w'.mem = m') (hk : w'.vec k = some v') (hl : w'.vec l = some u') (ho : ∀ j, j ≠ k → j ≠ l → w'.vec j = w.vec j) {σ' : Nat → Option (List T)}
    (sk : σ' k = some L') (sl : σ' l = some K') (so : ∀ j, j ≠ k → j ≠ l → σ' j = σ j) : Inv pod w' σ' := by
  subst hm
  refine h.step (fun j => j = k ∨ j = l) (fr.congr hS (ownBy_two w' hk hl)) ?_ ?_ ?_ ?_
  · exact fun j hj => ⟨ho j (fun q => hj (.inl q)) (fun q => hj (.inr q)), so j (fun q => hj (.inl q)) (fun q => hj (.inr q))⟩
  · rintro j (rfl | rfl)
    · rw [hk, sk]; simp
    · rw [hl, sl]; simp
  · rintro j x K (rfl | rfl) hx hK
    · rw [hk] at hx; rw [sk] at hK; cases hx; cases hK; exact r1
    · rw [hl] at hx; rw [sl] at hK; cases hx; cases hK; exact r2
  · rintro i j x y (rfl | rfl) (rfl | rfl) hne hx hy
    · exact absurd rfl hne
    · rw [hk] at hx; rw [hl] at hy; cases hx; cases hy; exact ha
    · rw [hl] at hx; rw [hk] at hy; cases hx; cases hy; exact ha.symm
    · exact absurd rfl hne

end SpaceHub.SV
