import Verif.Proof.SmallVectorWorld
import Verif.Spec.SmallVector

/-
C107: the container of SpaceHub (`llvm::SmallVector`, src/small-vector.hpp) behaves like lists, whatever program is run on however many of them: no call touches memory
that is not its own, reads an element that is not there, loses or destroys an element twice, and no memory is left behind.
-/

set_option autoImplicit false

namespace SpaceHub.SV

variable {T : Type} {pod : Bool}

theorem put_eq (σ : Spec.Lists T) (k : Nat) (L : Option (List T)) : Spec.put σ k L = setL σ k L := rfl

/-- a call on one vector that has a meaning -/
theorem on_step {w : World T} {σ σ' : Spec.Lists T} (h : Inv pod w σ) {k : Nat} {g : List T → Option (List T)} (hg : Spec.on σ k g = some σ') (f : Mem T → Vec → Res (Mem T × Vec))
    (hf : ∀ L L', g L = some L' → ∀ m v, Rep pod m v L → Wf m → Good pod m v (f m v) L') : ∃ w', w.on k f = .ok w' ∧ Inv pod w' σ' := by
  unfold Spec.on at hg
  cases hL : σ k with
  | none => rw [hL] at hg; cases hg
  | some L =>
    rw [hL] at hg
    dsimp only at hg
    cases hL' : g L with
    | none => rw [hL'] at hg; cases hg
    | some L' =>
      rw [hL'] at hg
      cases hg
      exact h.on hL f (hf L L' hL')

/-- a call on one vector that has none -/
theorem on_stop {w : World T} {σ : Spec.Lists T} (h : Inv pod w σ) {k : Nat} {g : List T → Option (List T)} (hg : Spec.on σ k g = none) (f : Mem T → Vec → Res (Mem T × Vec))
    (hf : ∀ L, g L = none → ∀ m v, Rep pod m v L → f m v = .ub) : w.on k f = .ub := by
  unfold Spec.on at hg
  unfold World.on World.find
  cases hL : σ k with
  | none => rw [(h.none_iff k).2 hL]; rfl
  | some L =>
    rw [hL] at hg
    dsimp only at hg
    obtain ⟨v, hv, hr⟩ := h.some_iff hL
    rw [hv]
    show Res.bind (f w.mem v) _ = _
    cases hL' : g L with
    | none => rw [hf L hL' w.mem v hr]; rfl
    | some L' => rw [hL'] at hg; cases hg

/-- a constructor that has a meaning -/
theorem new_step {w : World T} {σ σ' : Spec.Lists T} (h : Inv pod w σ) {k : Nat} {L : List T} (hg : Spec.new σ k L = some σ') (f : Mem T → Res (Mem T × Vec))
    (hf : ∃ m' v', f w.mem = .ok (m', v') ∧ Rep pod m' v' L ∧ Frame w.mem (fun _ => False) m' (Own v')) : ∃ w', w.new k f = .ok w' ∧ Inv pod w' σ' := by
  unfold Spec.new at hg
  cases hL : σ k with
  | some L => rw [hL] at hg; cases hg
  | none =>
    rw [hL] at hg
    cases hg
    exact h.new hL f hf

theorem new_stop {w : World T} {σ : Spec.Lists T} (h : Inv pod w σ) {k : Nat} {L : List T} (hg : Spec.new σ k L = none) (f : Mem T → Res (Mem T × Vec)) : w.new k f = .ub := by
  unfold Spec.new at hg
  unfold World.new
  cases hL : σ k with
  | none => rw [hL] at hg; cases hg
  | some L =>
    obtain ⟨v, hv, _⟩ := h.some_iff hL
    rw [hv]

theorem find_some {w : World T} {k : Nat} {v : Vec} (h : w.vec k = some v) : w.find k = .ok v := by unfold World.find; rw [h]

theorem find_none {w : World T} {k : Nat} (h : w.vec k = none) : w.find k = .ub := by unfold World.find; rw [h]

/-- a new vector to begin with -/
theorem create_then {m : Mem T} (hw : Wf m) (N : Nat) {L : List T} {f : Mem T → Vec → Res (Mem T × Vec)} (hf : ∀ m v, Rep pod m v ([] : List T) → Wf m → Good pod m v (f m v) L) :
    ∃ m' v', f (create m N).1 (create m N).2 = .ok (m', v') ∧ Rep pod m' v' L ∧ Frame m (fun _ => False) m' (Own v') := by
  obtain ⟨c1, c2⟩ := create_ok (pod := pod) hw N
  obtain ⟨m', v', e, r, fr, _⟩ := hf _ _ c1 c2.wf
  exact ⟨m', v', e, r, c2.trans fr⟩

/-- Every call that has a meaning runs, and does what it means. -/
theorem step_ok {w : World T} {σ σ' : Spec.Lists T} (h : Inv pod w σ) (o : Op T) (ho : Spec.step σ o = some σ') : ∃ w', step pod w o = .ok w' ∧ Inv pod w' σ' := by
  cases o with
  | create k N =>
    unfold step
    exact new_step h ho _ ⟨_, _, rfl, create_ok h.wf N⟩
  | createFill k N n x =>
    unfold step
    exact new_step h ho _ (create_then (f := fun m v => assignFill pod m v n (.ext x)) h.wf N fun m v hr hw => assignFill_ok hr hw n x)
  | createList k N xs =>
    unfold step
    exact new_step h ho _ (create_then (f := fun m v => assignList pod m v xs) h.wf N fun m v hr hw => assignList_ok hr hw xs)
  | createCopy k N l =>
    unfold Spec.step at ho
    dsimp only at ho
    cases hl : σ l with
    | none => rw [hl] at ho; cases ho
    | some K =>
      rw [hl] at ho
      obtain ⟨u, hu, hr⟩ := h.some_iff hl
      unfold step
      refine new_step h ho _ ?_
      show ∃ m' v', Res.bind (w.find l) (fun u => createCopy pod w.mem N u) = .ok (m', v') ∧ _
      rw [find_some hu]
      obtain ⟨c1, c2⟩ := create_ok (pod := pod) h.wf N
      by_cases h0 : u.size ≠ 0
      · have ha : Apart (create w.mem N).2 u := fun b o1 o2 => by
          have hlt := hr.own_lt h.wf o2
          exact c2.sub b o1 hlt
        obtain ⟨m', v', e, r, fr, _⟩ := copyAssign_ok c1 c2.wf (hr.frame h.wf c2 fun _ _ => id) ha
        exact ⟨m', v', (if_pos h0).trans e, r, c2.trans fr⟩
      · have : K = [] := List.eq_nil_of_length_eq_zero (by have := hr.size; omega)
        subst this
        exact ⟨_, _, if_neg h0, c1, c2⟩
  | createMove k N l =>
    unfold Spec.step at ho
    dsimp only at ho
    cases hk : σ k with
    | some L => rw [hk] at ho; cases ho
    | none =>
      cases hl : σ l with
      | none => rw [hk, hl] at ho; cases ho
      | some K =>
        rw [hk, hl] at ho
        cases ho
        obtain ⟨u, hu, hr⟩ := h.some_iff hl
        have hv := (h.none_iff k).2 hk
        have hkl : k ≠ l := fun e => by rw [e, hl] at hk; cases hk
        obtain ⟨c1, c2⟩ := create_ok (pod := pod) h.wf N
        have ha : Apart (create w.mem N).2 u := fun b o1 o2 => by
          have hlt := hr.own_lt h.wf o2
          exact c2.sub b o1 hlt
        have hr1 := hr.frame h.wf c2 fun _ _ => id
        have fr0 : Frame w.mem (Own u) (create w.mem N).1 (Own2 (create w.mem N).2 u) := (c2.add (Own u)).congr (fun b => by simp) (fun _ => Iff.rfl)
        obtain ⟨m', v', u', e, r1, r2, fr, ha'⟩ : ∃ m' v' u', createMove pod w.mem N u = .ok (m', v', u') ∧ Rep pod m' v' K ∧ Rep pod m' u' ([] : List T) ∧
            Frame w.mem (Own u) m' (Own2 v' u') ∧ Apart v' u' := by
          by_cases h0 : u.size ≠ 0
          · obtain ⟨m', v', u', e, r1, r2, fr, ha'⟩ := moveAssign_ok c1 c2.wf hr1 ha
            exact ⟨m', v', u', (if_pos h0).trans e, r1, r2, fr0.trans fr, ha'⟩
          · have : K = [] := List.eq_nil_of_length_eq_zero (by have := hr.size; omega)
            subst this
            exact ⟨_, _, _, if_neg h0, c1, hr1, fr0, ha⟩
        refine ⟨(w.put m' l (some u')).put m' k (some v'), ?_, ?_⟩
        · unfold step
          dsimp only
          rw [hv]
          show Res.bind (w.find l) _ = _
          rw [find_some hu]
          show Res.bind (createMove pod w.mem N u) _ = _
          rw [e]; rfl
        · refine h.two hkl (ownBy_two' w hv hu) r1 r2 fr ha' _ rfl (put_same _ _ _ _) ?_ ?_ (if_pos rfl) ?_ ?_
          · rw [put_other _ _ _ hkl.symm, put_same]
          · exact fun j h1 h2 => by rw [put_other _ _ _ h1, put_other _ _ _ h2]
          · unfold Spec.put; rw [if_neg hkl.symm, if_pos rfl]
          · exact fun j h1 h2 => by unfold Spec.put; rw [if_neg h1, if_neg h2]
  | destroy k =>
    unfold Spec.step at ho
    dsimp only at ho
    cases hk : σ k with
    | none => rw [hk] at ho; cases ho
    | some L => rw [hk] at ho; cases ho; exact h.destroy hk
  | push k x =>
    unfold step
    exact on_step h ho _ fun L L' hg m v hr hw => by cases hg; exact pushBack_ok hr hw x
  | pop k =>
    unfold step
    exact on_step h ho _ fun L L' hg m v hr hw => by
      by_cases h0 : L = []
      · rw [if_pos h0] at hg; cases hg
      · rw [if_neg h0] at hg; cases hg; exact popBack_ok hr hw h0
  | popVal k =>
    unfold step
    exact on_step h ho _ fun L L' hg m v hr hw => by
      by_cases h0 : L = []
      · rw [if_pos h0] at hg; cases hg
      · rw [if_neg h0] at hg; cases hg
        obtain ⟨m', v', e, r, fr, i⟩ := popBackVal_ok hr hw h0
        exact ⟨m', v', by rw [e]; rfl, r, fr, i⟩
  | clear k =>
    unfold step
    exact on_step h ho _ fun L L' hg m v hr hw => by cases hg; exact clear_ok hr hw
  | resize k n x =>
    unfold step
    exact on_step h ho _ fun L L' hg m v hr hw => by cases hg; exact resize_ok hr hw n x
  | reserve k n =>
    unfold step
    exact on_step h ho _ fun L L' hg m v hr hw => by cases hg; exact reserve_good hr hw n
  | appendList k xs =>
    unfold step
    exact on_step h ho _ fun L L' hg m v hr hw => by cases hg; exact appendList_ok hr hw xs
  | appendFill k n x =>
    unfold step
    exact on_step h ho _ fun L L' hg m v hr hw => by cases hg; rw [appendFill_eq]; exact appendList_ok hr hw _
  | assignFill k n x =>
    unfold step
    exact on_step h ho _ fun L L' hg m v hr hw => by cases hg; exact assignFill_ok hr hw n x
  | assignList k xs =>
    unfold step
    exact on_step h ho _ fun L L' hg m v hr hw => by cases hg; exact assignList_ok hr hw xs
  | erase k i =>
    unfold step
    exact on_step h ho _ fun L L' hg m v hr hw => by
      by_cases h0 : i < L.length
      · rw [if_pos h0] at hg; cases hg; exact eraseAt_ok hr hw i h0
      · rw [if_neg h0] at hg; cases hg
  | eraseRange k i j =>
    unfold step
    exact on_step h ho _ fun L L' hg m v hr hw => by
      by_cases h0 : i ≤ j ∧ j ≤ L.length
      · rw [if_pos h0] at hg; cases hg; exact eraseRange_ok hr hw i j h0.1 h0.2
      · rw [if_neg h0] at hg; cases hg
  | insert k i x =>
    unfold step
    exact on_step h ho _ fun L L' hg m v hr hw => by
      by_cases h0 : i ≤ L.length
      · rw [if_pos h0, List.append_assoc, List.singleton_append] at hg; cases hg; exact insertAt_ok hr hw i x h0
      · rw [if_neg h0] at hg; cases hg
  | insertFill k i n x =>
    unfold step
    exact on_step h ho _ fun L L' hg m v hr hw => by
      by_cases h0 : i ≤ L.length
      · rw [if_pos h0] at hg; cases hg; rw [insertFill_eq]; exact insertList_ok hr hw i _ h0
      · rw [if_neg h0] at hg; cases hg
  | insertList k i xs =>
    unfold step
    exact on_step h ho _ fun L L' hg m v hr hw => by
      by_cases h0 : i ≤ L.length
      · rw [if_pos h0] at hg; cases hg; exact insertList_ok hr hw i xs h0
      · rw [if_neg h0] at hg; cases hg
  | swap k l =>
    unfold Spec.step Spec.on2 at ho
    dsimp only at ho
    cases hk : σ k with
    | none => rw [hk] at ho; cases ho
    | some L =>
      cases hl : σ l with
      | none => rw [hk, hl] at ho; cases ho
      | some K =>
        rw [hk, hl] at ho
        cases ho
        obtain ⟨v, hv, hr⟩ := h.some_iff hk
        obtain ⟨u, hu, hr'⟩ := h.some_iff hl
        by_cases hkl : k = l
        · refine ⟨w, ?_, by rw [if_pos hkl]; exact h⟩
          show Res.bind (w.find k) _ = _
          rw [find_some hv]
          show Res.bind (w.find l) _ = _
          rw [find_some hu]
          exact if_pos hkl
        · rw [if_neg hkl]
          obtain ⟨m', v', u', e, r1, r2, fr, ha⟩ := swap_ok hr h.wf hr' (h.sep k l v u hkl hv hu)
          refine ⟨(w.put m' k (some v')).put m' l (some u'), ?_, ?_⟩
          · show Res.bind (w.find k) _ = _
            rw [find_some hv]
            show Res.bind (w.find l) _ = _
            rw [find_some hu]
            refine (if_neg hkl).trans ?_
            show Res.bind (swap pod w.mem v u) _ = _
            rw [e]; rfl
          · refine h.two hkl (ownBy_two w hv hu) r1 r2 fr ha _ rfl ?_ (put_same _ _ _ _) ?_ (if_pos rfl) ?_ ?_
            · rw [put_other _ _ _ hkl, put_same]
            · exact fun j h1 h2 => by rw [put_other _ _ _ h2, put_other _ _ _ h1]
            · unfold Spec.put; rw [if_neg (Ne.symm hkl), if_pos rfl]
            · exact fun j h1 h2 => by unfold Spec.put; rw [if_neg h1, if_neg h2]
  | copy k l =>
    unfold Spec.step Spec.on2 at ho
    dsimp only at ho
    cases hk : σ k with
    | none => rw [hk] at ho; cases ho
    | some L =>
      cases hl : σ l with
      | none => rw [hk, hl] at ho; cases ho
      | some K =>
        rw [hk, hl] at ho
        cases ho
        obtain ⟨v, hv, hr⟩ := h.some_iff hk
        obtain ⟨u, hu, hr'⟩ := h.some_iff hl
        by_cases hkl : k = l
        · refine ⟨w, ?_, by rw [if_pos hkl]; exact h⟩
          show Res.bind (w.find k) _ = _
          rw [find_some hv]
          show Res.bind (w.find l) _ = _
          rw [find_some hu]
          exact if_pos hkl
        · rw [if_neg hkl]
          have ha := h.sep k l v u hkl hv hu
          obtain ⟨m', v', e, r1, fr, _⟩ := copyAssign_ok hr h.wf hr' ha
          refine ⟨w.put m' k (some v'), ?_, ?_⟩
          · show Res.bind (w.find k) _ = _
            rw [find_some hv]
            show Res.bind (w.find l) _ = _
            rw [find_some hu]
            refine (if_neg hkl).trans ?_
            show Res.bind (copyAssign pod w.mem v u) _ = _
            rw [e]; rfl
          · refine h.two hkl (ownBy_two w hv hu) r1 (hr'.other h.wf fr ha) (fr.left u) (ha.frame h.wf hr' fr) _ rfl (put_same _ _ _ _) ?_ ?_ (if_pos rfl) ?_ ?_
            · rw [put_other _ _ _ (Ne.symm hkl)]; exact hu
            · exact fun j h1 h2 => put_other _ _ _ h1
            · unfold Spec.put; rw [if_neg (Ne.symm hkl), if_pos rfl]
            · exact fun j h1 h2 => by unfold Spec.put; rw [if_neg h1, if_neg h2]
  | move k l =>
    unfold Spec.step Spec.on2 at ho
    dsimp only at ho
    cases hk : σ k with
    | none => rw [hk] at ho; cases ho
    | some L =>
      cases hl : σ l with
      | none => rw [hk, hl] at ho; cases ho
      | some K =>
        rw [hk, hl] at ho
        cases ho
        obtain ⟨v, hv, hr⟩ := h.some_iff hk
        obtain ⟨u, hu, hr'⟩ := h.some_iff hl
        by_cases hkl : k = l
        · refine ⟨w, ?_, by rw [if_pos hkl]; exact h⟩
          show Res.bind (w.find k) _ = _
          rw [find_some hv]
          show Res.bind (w.find l) _ = _
          rw [find_some hu]
          exact if_pos hkl
        · rw [if_neg hkl]
          obtain ⟨m', v', u', e, r1, r2, fr, ha⟩ := moveAssign_ok hr h.wf hr' (h.sep k l v u hkl hv hu)
          refine ⟨(w.put m' l (some u')).put m' k (some v'), ?_, ?_⟩
          · show Res.bind (w.find k) _ = _
            rw [find_some hv]
            show Res.bind (w.find l) _ = _
            rw [find_some hu]
            refine (if_neg hkl).trans ?_
            show Res.bind (moveAssign pod w.mem v u) _ = _
            rw [e]; rfl
          · refine h.two hkl (ownBy_two w hv hu) r1 r2 fr ha _ rfl (put_same _ _ _ _) ?_ ?_ (if_pos rfl) ?_ ?_
            · rw [put_other _ _ _ (Ne.symm hkl), put_same]
            · exact fun j h1 h2 => by rw [put_other _ _ _ h1, put_other _ _ _ h2]
            · unfold Spec.put; rw [if_neg (Ne.symm hkl), if_pos rfl]
            · exact fun j h1 h2 => by unfold Spec.put; rw [if_neg h1, if_neg h2]

/-- Every call that has none is undefined behaviour. -/
theorem step_stop {w : World T} {σ : Spec.Lists T} (h : Inv pod w σ) (o : Op T) (ho : Spec.step σ o = none) : step pod w o = .ub := by
  have two : ∀ (k l : Nat) (g : List T → List T → List T × List T) (f : Vec → Vec → Res (World T)), Spec.on2 σ k l g = none →
      Res.bind (w.find k) (fun v => Res.bind (w.find l) fun u => f v u) = .ub := by
    intro k l g f hg
    unfold Spec.on2 at hg
    cases hk : σ k with
    | none => rw [find_none ((h.none_iff k).2 hk)]; rfl
    | some L =>
      obtain ⟨v, hv, _⟩ := h.some_iff hk
      rw [find_some hv]
      cases hl : σ l with
      | none =>
        show Res.bind (w.find l) _ = _
        rw [find_none ((h.none_iff l).2 hl)]; rfl
      | some K => rw [hk, hl] at hg; cases hg
  cases o with
  | create k N =>
    unfold step
    exact new_stop h ho _
  | createFill k N n x =>
    unfold step
    exact new_stop h ho _
  | createList k N xs =>
    unfold step
    exact new_stop h ho _
  | createCopy k N l =>
    unfold Spec.step at ho
    dsimp only at ho
    cases hl : σ l with
    | none =>
      cases hk : σ k with
      | some L =>
        unfold step
        exact new_stop (L := []) h (by unfold Spec.new; rw [hk]) _
      | none =>
        unfold step World.new
        dsimp only
        rw [(h.none_iff k).2 hk]
        show Res.bind (Res.bind (w.find l) _) _ = _
        rw [find_none ((h.none_iff l).2 hl)]; rfl
    | some K =>
      rw [hl] at ho
      unfold step
      exact new_stop h ho _
  | createMove k N l =>
    unfold Spec.step at ho
    dsimp only at ho
    unfold step
    dsimp only
    cases hk : σ k with
    | some L =>
      obtain ⟨v, hv, _⟩ := h.some_iff hk
      rw [hv]
    | none =>
      rw [(h.none_iff k).2 hk]
      cases hl : σ l with
      | none =>
        show Res.bind (w.find l) _ = _
        rw [find_none ((h.none_iff l).2 hl)]; rfl
      | some K => rw [hk, hl] at ho; cases ho
  | destroy k =>
    unfold Spec.step at ho
    dsimp only at ho
    cases hk : σ k with
    | some L => rw [hk] at ho; cases ho
    | none =>
      show Res.bind (w.find k) _ = _
      rw [find_none ((h.none_iff k).2 hk)]; rfl
  | push k x =>
    unfold step
    exact on_stop h ho _ fun L hg => by cases hg
  | pop k =>
    unfold step
    exact on_stop h ho _ fun L hg m v hr => by
      by_cases h0 : L = []
      · subst h0; unfold popBack; exact if_pos hr.size
      · rw [if_neg h0] at hg; cases hg
  | popVal k =>
    unfold step
    exact on_stop h ho _ fun L hg m v hr => by
      by_cases h0 : L = []
      · subst h0
        have : popBackVal pod m v = .ub := by unfold popBackVal; exact if_pos hr.size
        show Res.bind (popBackVal pod m v) _ = _
        rw [this]; rfl
      · rw [if_neg h0] at hg; cases hg
  | clear k =>
    unfold step
    exact on_stop h ho _ fun L hg => by cases hg
  | resize k n x =>
    unfold step
    exact on_stop h ho _ fun L hg => by cases hg
  | reserve k n =>
    unfold step
    exact on_stop h ho _ fun L hg => by cases hg
  | appendList k xs =>
    unfold step
    exact on_stop h ho _ fun L hg => by cases hg
  | appendFill k n x =>
    unfold step
    exact on_stop h ho _ fun L hg => by cases hg
  | assignFill k n x =>
    unfold step
    exact on_stop h ho _ fun L hg => by cases hg
  | assignList k xs =>
    unfold step
    exact on_stop h ho _ fun L hg => by cases hg
  | erase k i =>
    unfold step
    exact on_stop h ho _ fun L hg m v hr => by
      by_cases h0 : i < L.length
      · rw [if_pos h0] at hg; cases hg
      · unfold eraseAt; exact if_neg (by rw [hr.size]; exact h0)
  | eraseRange k i j =>
    unfold step
    exact on_stop h ho _ fun L hg m v hr => by
      by_cases h0 : i ≤ j ∧ j ≤ L.length
      · rw [if_pos h0] at hg; cases hg
      · unfold eraseRange; exact if_neg (by rw [hr.size]; exact h0)
  | insert k i x =>
    unfold step
    exact on_stop h ho _ fun L hg m v hr => by
      by_cases h0 : i ≤ L.length
      · rw [if_pos h0] at hg; cases hg
      · have := hr.size
        unfold insertAt; rw [if_neg (by omega), if_pos (by omega)]
  | insertFill k i n x =>
    unfold step
    exact on_stop h ho _ fun L hg m v hr => by
      by_cases h0 : i ≤ L.length
      · rw [if_pos h0] at hg; cases hg
      · have := hr.size
        unfold insertFill; rw [if_neg (by omega), if_pos (by omega)]
  | insertList k i xs =>
    unfold step
    exact on_stop h ho _ fun L hg m v hr => by
      by_cases h0 : i ≤ L.length
      · rw [if_pos h0] at hg; cases hg
      · have := hr.size
        unfold insertList; rw [if_neg (by omega), if_pos (by omega)]
  | swap k l => exact two k l _ _ ho
  | copy k l => exact two k l _ _ ho
  | move k l => exact two k l _ _ ho

theorem run_ok (ops : List (Op T)) : ∀ {w : World T} {σ : Spec.Lists T}, Inv pod w σ → match Spec.run σ ops with
    | some σ' => ∃ w', run pod w ops = .ok w' ∧ Inv pod w' σ'
    | none => run pod w ops = .ub := by
  induction ops with
  | nil => exact fun {w σ} h => ⟨w, rfl, h⟩
  | cons o os ih =>
    intro w σ h
    unfold Spec.run run
    cases ho : Spec.step σ o with
    | none =>
      show Res.bind (step pod w o) _ = _
      rw [step_stop h o ho]; rfl
    | some σ' =>
      obtain ⟨w', e, h'⟩ := step_ok h o ho
      have := ih h'
      dsimp only
      rw [e]
      exact this

theorem inv_empty : Inv pod (World.empty : World T) (fun _ => none) :=
  ⟨fun _ _ => rfl, fun _ => ⟨fun _ => rfl, fun _ => rfl⟩, fun _ _ _ h => (by cases h), fun _ _ _ _ _ h => (by cases h), fun _ h => absurd rfl h⟩

theorem Rep.read {m : Mem T} {v : Vec} {L : List T} (h : Rep pod m v L) (i : Nat) (hi : i < L.length) : m.read v.beg i = .ok L[i] := by
  obtain ⟨n, f, hb, hn, hh, _⟩ := h.body
  have hs := h.size
  have hc := h.fits
  have := hh i L[i] (List.getElem?_eq_getElem hi)
  rw [Nat.zero_add] at this
  exact read_ok hb (by omega) this

/-- **C107** (whatever the program).  A program that respects the interface (`Spec.run` gives it a meaning) runs without undefined behaviour — for trivially copyable
elements and for others, with any numbers of inline elements —, and afterwards every vector holds exactly the list it should: its size is the length of the list, and
reading each of its elements gives the element of the list. -/
theorem C107_history (pod : Bool) (ops : List (Op T)) (σ : Spec.Lists T) (h : Spec.run (fun _ => none) ops = some σ) :
    ∃ w : World T, run pod World.empty ops = .ok w ∧ (∀ k, w.vec k = none ↔ σ k = none) ∧
      ∀ k L, σ k = some L → ∃ v, w.vec k = some v ∧ v.size = L.length ∧ v.size ≤ v.cap ∧ ∀ i (hi : i < L.length), w.mem.read v.beg i = .ok L[i] := by
  have := run_ok (pod := pod) ops (inv_empty (T := T))
  rw [h] at this
  obtain ⟨w, e, hi⟩ := this
  refine ⟨w, e, hi.none_iff, fun k L hL => ?_⟩
  obtain ⟨v, hv, hr⟩ := hi.some_iff hL
  exact ⟨v, hv, hr.size, hr.fits, hr.read⟩

/-- **C107** (exactly then).  A program is undefined behaviour if it has no meaning as a program on lists: those are the only ways to go wrong. -/
theorem C107_undefined (pod : Bool) (ops : List (Op T)) : run pod (World.empty : World T) ops = .ub ↔ Spec.run (fun _ => none) ops = none := by
  have := run_ok (pod := pod) ops (inv_empty (T := T))
  cases h : Spec.run (fun _ => none) ops with
  | none => rw [h] at this; exact ⟨fun _ => rfl, fun _ => this⟩
  | some σ =>
    rw [h] at this
    obtain ⟨w, e, _⟩ := this
    rw [e]
    exact ⟨fun h => (by cases h), fun h => (by cases h)⟩

/-- **C107** (memory).  After any program each block in use belongs to exactly one living vector; when all vectors are destroyed, all memory has been given back. -/
theorem C107_memory (pod : Bool) (ops : List (Op T)) (w : World T) (h : run pod World.empty ops = .ok w) :
    (∀ b, w.mem.blocks b ≠ none → ∃ k v, w.vec k = some v ∧ (b = v.inl ∨ b = v.beg) ∧ ∀ l u, w.vec l = some u → (b = u.inl ∨ b = u.beg) → l = k) ∧
    ((∀ k, w.vec k = none) → ∀ b, w.mem.blocks b = none) := by
  have := run_ok (pod := pod) ops (inv_empty (T := T))
  cases hs : Spec.run (fun _ => none) ops with
  | none => rw [hs, h] at this; cases this
  | some σ =>
    rw [hs] at this
    obtain ⟨w', e, hi⟩ := this
    rw [h] at e
    cases e
    refine ⟨fun b hb => ?_, fun hn b => ?_⟩
    · obtain ⟨k, v, hv, ho⟩ := hi.own b hb
      refine ⟨k, v, hv, ho, fun l u hu ho' => ?_⟩
      by_contra hne
      exact hi.sep l k u v hne hu hv b ho' ho
    · by_contra hb
      obtain ⟨k, v, hv, _⟩ := hi.own b hb
      rw [hn k] at hv
      cases hv

theorem equalFrom_ok [DecidableEq T] {m : Mem T} {v u : Vec} {L K : List T} (hv : Rep pod m v L) (hu : Rep pod m u K) (n : Nat) : ∀ i, i + n = L.length → L.length = K.length →
    equalFrom m v u i n = .ok (decide (L.drop i = K.drop i)) := by
  induction n with
  | zero =>
    intro i h1 h2
    rw [List.drop_eq_nil_of_le (by omega), List.drop_eq_nil_of_le (by omega)]
    rfl
  | succ n ih =>
    intro i h1 h2
    unfold equalFrom
    rw [hv.read i (by omega)]
    show Res.bind (m.read u.beg i) _ = _
    rw [hu.read i (by omega)]
    show (if L[i] = K[i] then _ else _) = _
    have d1 : L.drop i = L[i] :: L.drop (i + 1) := List.drop_eq_getElem_cons (by omega)
    have d2 : K.drop i = K[i] :: K.drop (i + 1) := List.drop_eq_getElem_cons (by omega)
    rw [ih (i + 1) (by omega) h2, d1, d2]
    by_cases h : L[i]'(by omega) = K[i]'(by omega)
    · rw [if_pos h, h]
      simp only [List.cons.injEq, true_and]
    · rw [if_neg h]
      simp only [List.cons.injEq, h, false_and, decide_false]

/-- **C107** (comparing).  After any program `==` on two vectors tells whether their lists are the same. -/
theorem C107_equal [DecidableEq T] (pod : Bool) (ops : List (Op T)) (σ : Spec.Lists T) (h : Spec.run (fun _ => none) ops = some σ) (k l : Nat) (L K : List T)
    (hk : σ k = some L) (hl : σ l = some K) :
    ∃ (w : World T) (v u : Vec), run pod World.empty ops = .ok w ∧ w.vec k = some v ∧ w.vec l = some u ∧ equal w.mem v u = .ok (decide (L = K)) := by
  have := run_ok (pod := pod) ops (inv_empty (T := T))
  rw [h] at this
  obtain ⟨w, e, hi⟩ := this
  obtain ⟨v, hv, hr⟩ := hi.some_iff hk
  obtain ⟨u, hu, hr'⟩ := hi.some_iff hl
  refine ⟨w, v, u, e, hv, hu, ?_⟩
  unfold equal
  rw [hr.size, hr'.size]
  by_cases hs : L.length = K.length
  · rw [if_neg (by simpa using hs), equalFrom_ok hr hr' L.length 0 (by omega) hs]
    rfl
  · rw [if_pos hs]
    have : L ≠ K := fun q => hs (congrArg List.length q)
    simp [this]

/-- **C107** (`pop_back_val`).  After any program it returns the last element. -/
theorem C107_pop_back_val (pod : Bool) (ops : List (Op T)) (σ : Spec.Lists T) (h : Spec.run (fun _ => none) ops = some σ) (k : Nat) (L : List T) (hk : σ k = some L) (hL : L ≠ []) :
    ∃ (w : World T) (v v' : Vec) (m' : Mem T), run pod World.empty ops = .ok w ∧ w.vec k = some v ∧ popBackVal pod w.mem v = .ok (L.getLast hL, m', v') := by
  have := run_ok (pod := pod) ops (inv_empty (T := T))
  rw [h] at this
  obtain ⟨w, e, hi⟩ := this
  obtain ⟨v, hv, hr⟩ := hi.some_iff hk
  obtain ⟨m', v', e', _⟩ := popBackVal_ok hr hi.wf hL
  exact ⟨w, v, v', m', e, hv, e'⟩

/-- A program with a meaning, beyond the inline elements, with moves and destruction, on strings. -/
example : Spec.run (fun _ => none) [.createList 0 2 ["a", "b"], .push 0 "c", .create 1 4, .insert 0 1 "d", .move 1 0, .push 0 "e", .swap 0 1, .eraseRange 0 1 3, .destroy 1] =
    some (Spec.put (Spec.put (Spec.put (Spec.put (Spec.put (Spec.put (Spec.put (Spec.put (Spec.put (Spec.put (Spec.put (fun _ => none) 0 (some ["a", "b"])) 0 (some ["a", "b", "c"]))
      1 (some [])) 0 (some ["a", "d", "b", "c"])) 0 (some [])) 1 (some ["a", "d", "b", "c"])) 0 (some ["e"])) 1 (some ["e"])) 0 (some ["a", "d", "b", "c"])) 0 (some ["a", "c"])) 1 none) := rfl

end SpaceHub.SV
