import Verif.Proof.BSParallel
import Verif.Proof.BSSystems

/-
The particle systems of the library under the parallel Bulirsch-Stoer iterator: reading in the variables and clearing the
increments removes every trace of earlier substeps.
-/

set_option autoImplicit false

namespace SpaceHub.BS.Par
open SpaceHub SpaceHub.BS SpaceHub.Sys V3 Force Core Integrator

/-- equal from entry `n` on -/
def Tail {α : Type} (n : Nat) (a b : Arr α) : Prop := ∀ k, n ≤ k → b k = a k

theorem Tail.refl {α : Type} (n : Nat) (a : Arr α) : Tail n a a := fun _ _ => rfl
theorem Tail.trans {α : Type} {n : Nat} {a b c : Arr α} (x : Tail n a b) (y : Tail n b c) : Tail n a c := fun k h => (y k h).trans (x k h)

theorem tail_advance (n : Nat) (v inc : Arr (V3 ℝ)) (h : ℝ) : Tail n v (advance n v inc h) := fun k hk => by
  rw [advance_apply, if_neg (by omega)]

theorem tail_set {V : Nat} (a : Arr ℝ) (i : Nat) (x : ℝ) (hi : i < V) : Tail V a (a.set i x) := fun k hk => Arr.set_other _ _ _ _ (by omega)

theorem tail_scaled {V : Nat} (a : Arr ℝ) (off n : Nat) (v : Arr (V3 ℝ)) (h : ℝ) (ho : off + 3 * n ≤ V) : Tail V a (advanceScaledCoordsTo a off n v h) :=
  fun k hk => by rw [advanceScaled_apply, if_neg (by omega)]

/-- an array whose first `n` entries are loaded -/
theorem store_tail {n : Nat} {l : List (V3 ℝ)} {a b r : Arr (V3 ℝ)} (t : Tail n a b) (e : store n l a = .ok r) : store n l b = .ok r := by
  unfold store at e ⊢
  split_ifs at e with h
  rw [if_pos h]
  refine congrArg Res.ok ?_
  rw [← Res.ok.inj e]
  funext k
  by_cases hk : k < n
  · rw [if_pos hk, if_pos hk]
  · rw [if_neg hk, if_neg hk]; exact t k (by omega)

theorem store_keep {n : Nat} {l : List (V3 ℝ)} {a r : Arr (V3 ℝ)} (e : store n l a = .ok r) : Tail n a r := by
  unfold store at e
  split_ifs at e with h
  intro k hk
  rw [← Res.ok.inj e]; exact if_neg (by omega)

theorem store_eq {n : Nat} {l : List (V3 ℝ)} {a b : Arr (V3 ℝ)} (t : Tail n a b) : store n l b = store n l a := by
  unfold store
  split_ifs with h
  · refine congrArg Res.ok ?_
    funext k
    by_cases hk : k < n
    · rw [if_pos hk, if_pos hk]
    · rw [if_neg hk, if_neg hk]; exact t k (by omega)
  · rfl

theorem cart_eq {n : Nat} {idx : Arr Nat} (hn : n ≠ 0) (hi : IsIndex n idx) (chain : Arr (V3 ℝ)) {a b : Arr (V3 ℝ)} (t : Tail n a b) :
    Chain.toCartesian n chain b idx = Chain.toCartesian n chain a idx := by
  obtain ⟨c, e, hb⟩ := toCartesian_ok hn hi chain a
  rw [toCartesian_belongs hn hi chain c b hb, toCartesian_belongs hn hi chain c a hb]
  refine congrArg Res.ok ?_
  funext k
  by_cases hk : k < n
  · rw [if_pos hk, if_pos hk]
  · rw [if_neg hk, if_neg hk]; exact t k (by omega)

theorem cart_keep {n : Nat} {idx : Arr Nat} (hn : n ≠ 0) (hi : IsIndex n idx) {chain a r : Arr (V3 ℝ)} (e : Chain.toCartesian n chain a idx = .ok r) :
    Tail n a r := by
  obtain ⟨c, e', _, _, h⟩ := Chain.toCartesian_spec hn chain a idx hi
  rw [e] at e'
  rw [Res.ok.inj e']; exact h

theorem advance_keep {n : Nat} {idx : Arr Nat} (hn : n ≠ 0) (hi : IsIndex n idx) {var cvar cinc : Arr (V3 ℝ)} {h : ℝ} {r : Arr (V3 ℝ) × Arr (V3 ℝ)}
    (e : ChainSys.chainAdvance n idx var cvar cinc h = .ok r) : Tail n var r.1 ∧ Tail n cvar r.2 := by
  unfold ChainSys.chainAdvance at e
  obtain ⟨v, ev, e⟩ := Res.bind_eq_ok.1 e
  obtain rfl := Res.ok.inj e
  exact ⟨cart_keep hn hi ev, tail_advance _ _ _ _⟩

/-- increments cleared -/
theorem cleared_eq {V : Nat} {a b : Arr ℝ} (t : Tail V a b) : (fun k => if k < V then (0 : ℝ) else b k) = fun k => if k < V then 0 else a k := by
  funext k
  by_cases hk : k < V
  · rw [if_pos hk, if_pos hk]
  · rw [if_neg hk, if_neg hk]; exact t k (by omega)

/-- from the single calls to a run -/
theorem run_twin {S : Type} (o : Ops S) (R : S → S → Prop) (P : S → Prop) (refl : ∀ s, R s s) (trans : ∀ a b c, R a b → R b c → R a c) (keep : ∀ a b, P a → R a b → P b)
    (H : ∀ op s s', P s → o.apply op s = .ok s' → R s s') (ops : List Op) (s s' : S) (hs : P s) (e : o.run ops s = .ok s') : R s s' := by
  induction ops generalizing s with
  | nil => cases e; exact refl _
  | cons op ops ih =>
    obtain ⟨s1, e1, e2⟩ := Res.bind_eq_ok.1 e
    have r := H op s s1 hs e1
    exact trans _ _ _ r (ih s1 (keep _ _ hs r) e2)

/-- equivalent systems stay equivalent over a run -/
theorem run_eqv {S : Type} (o : Ops S) (π : S → S) (H : ∀ op s s', π s = π s' → Eqv π (o.apply op s) (o.apply op s')) (ops : List Op) (s s' : S)
    (hs : π s = π s') : Eqv π (o.run ops s) (o.run ops s') := by
  induction ops generalizing s s' with
  | nil => exact .ok _ _ hs
  | cons op ops ih =>
    have h := H op s s' hs
    show Eqv π (o.apply op s >>= _) (o.apply op s' >>= _)
    generalize o.apply op s = X at h ⊢
    generalize o.apply op s' = Y at h ⊢
    cases h with
    | ok a b r => exact ih a b r
    | abort => exact .abort
    | ub => exact .ub
    | nan => exact .nan
    | diverge => exact .diverge

/-! ### Simple -/

/-- `y` differs from `x` only in what reading in the variables and clearing the increments overwrites -/
structure SimpleTwin (I : Interactions) (x y : Simple) : Prop where
  num : y.P.num = x.P.num
  mass : y.P.mass = x.P.mass
  sync : y.sync = x.sync
  pos : Tail x.P.num x.P.pos y.P.pos
  vel : Tail x.P.num x.P.vel y.P.vel
  aux : if I.velDep then Tail x.P.num x.aux y.aux else y.aux = x.aux
  inc : Tail (x.variableNumber I) x.inc y.inc

theorem SimpleTwin.var {I : Interactions} {x y : Simple} (a : SimpleTwin I x y) : y.variableNumber I = x.variableNumber I := by
  unfold Simple.variableNumber; rw [a.num]

theorem SimpleTwin.refl (I : Interactions) (x : Simple) : SimpleTwin I x x :=
  ⟨rfl, rfl, rfl, Tail.refl _ _, Tail.refl _ _, by split_ifs; exacts [Tail.refl _ _, rfl], Tail.refl _ _⟩

theorem SimpleTwin.trans {I : Interactions} {x y z : Simple} (a : SimpleTwin I x y) (b : SimpleTwin I y z) : SimpleTwin I x z where
  num := b.num.trans a.num
  mass := b.mass.trans a.mass
  sync := b.sync.trans a.sync
  pos := a.pos.trans (a.num ▸ b.pos)
  vel := a.vel.trans (a.num ▸ b.vel)
  aux := by
    have h1 := a.aux
    have h2 := b.aux
    split_ifs at h1 h2 ⊢
    · exact h1.trans (a.num ▸ h2)
    · exact h2.trans h1
  inc := a.inc.trans (a.var ▸ b.inc)

theorem SimpleTwin.ofInc (I : Interactions) (x : Simple) (a : Arr ℝ) (h : Tail (x.variableNumber I) x.inc a) : SimpleTwin I x { x with inc := a } :=
  ⟨rfl, rfl, rfl, Tail.refl _ _, Tail.refl _ _, by split_ifs; exacts [Tail.refl _ _, rfl], h⟩
theorem SimpleTwin.ofTime (I : Interactions) (x : Simple) (t : ℝ) : SimpleTwin I x { x with time := t } :=
  ⟨rfl, rfl, rfl, Tail.refl _ _, Tail.refl _ _, by split_ifs; exacts [Tail.refl _ _, rfl], Tail.refl _ _⟩
theorem SimpleTwin.ofPos (I : Interactions) (x : Simple) (a : Arr (V3 ℝ)) (h : Tail x.P.num x.P.pos a) : SimpleTwin I x { x with P := { x.P with pos := a } } :=
  ⟨rfl, rfl, rfl, h, Tail.refl _ _, by split_ifs; exacts [Tail.refl _ _, rfl], Tail.refl _ _⟩
theorem SimpleTwin.ofVel (I : Interactions) (x : Simple) (a : Arr (V3 ℝ)) (h : Tail x.P.num x.P.vel a) : SimpleTwin I x { x with P := { x.P with vel := a } } :=
  ⟨rfl, rfl, rfl, Tail.refl _ _, h, by split_ifs; exacts [Tail.refl _ _, rfl], Tail.refl _ _⟩
theorem SimpleTwin.ofAux (I : Interactions) (x : Simple) (hd : I.velDep = true) (a : Arr (V3 ℝ)) (h : Tail x.P.num x.aux a) : SimpleTwin I x { x with aux := a } :=
  ⟨rfl, rfl, rfl, Tail.refl _ _, Tail.refl _ _, by rw [if_pos hd]; exact h, Tail.refl _ _⟩

theorem Simple.syncPos_twin (I : Interactions) (s : Simple) (v : Arr (V3 ℝ)) (h : ℝ) : SimpleTwin I s (s.syncPos v h) := by
  unfold Simple.syncPos
  split_ifs
  · refine SimpleTwin.ofInc I s _ (tail_scaled _ _ _ _ _ ?_)
    unfold Simple.variableNumber posOffset
    cases I.velDep <;> simp <;> omega
  · exact SimpleTwin.refl I s
theorem Simple.syncVel_twin (I : Interactions) (s : Simple) (v : Arr (V3 ℝ)) (h : ℝ) : SimpleTwin I s (s.syncVel v h) := by
  unfold Simple.syncVel
  split_ifs
  · refine SimpleTwin.ofInc I s _ (tail_scaled _ _ _ _ _ ?_)
    unfold Simple.variableNumber velOffset
    cases I.velDep <;> simp <;> omega
  · exact SimpleTwin.refl I s
theorem Simple.syncAux_twin (I : Interactions) (hd : I.velDep = true) (s : Simple) (v : Arr (V3 ℝ)) (h : ℝ) : SimpleTwin I s (s.syncAux v h) := by
  unfold Simple.syncAux
  split_ifs
  · refine SimpleTwin.ofInc I s _ (tail_scaled _ _ _ _ _ ?_)
    unfold Simple.variableNumber auxOffset
    rw [hd]; simp; omega
  · exact SimpleTwin.refl I s
theorem Simple.syncTime_twin (I : Interactions) (s : Simple) (h : ℝ) : SimpleTwin I s (s.syncTime h) := by
  unfold Simple.syncTime
  split_ifs
  · exact SimpleTwin.ofInc I s _ (tail_set _ _ _ (by unfold Simple.variableNumber; omega))
  · exact SimpleTwin.refl I s

theorem Simple.clear_twin (I : Interactions) (s : Simple) : SimpleTwin I s (s.clearInc I) :=
  SimpleTwin.ofInc I s _ fun k hk => if_neg (by omega)

theorem Simple.drift_twin (I : Interactions) (h : ℝ) (s : Simple) : SimpleTwin I s (s.drift h) :=
  (((SimpleTwin.ofTime I s _).trans (SimpleTwin.ofPos I _ _ (tail_advance _ _ _ _))).trans (Simple.syncTime_twin I _ h)).trans (Simple.syncPos_twin I _ _ h)

theorem Simple.kickReal_twin (I : Interactions) (a : Arr (V3 ℝ)) (h : ℝ) (s : Simple) : SimpleTwin I s (s.kickReal I a h) :=
  (SimpleTwin.ofVel I s _ (tail_advance _ _ _ _)).trans (Simple.syncVel_twin I _ _ h)

theorem Simple.kickPseu_twin (I : Interactions) (hd : I.velDep = true) (a : Arr (V3 ℝ)) (h : ℝ) (s : Simple) : SimpleTwin I s (s.kickPseu I a h) :=
  (SimpleTwin.ofAux I s hd _ (tail_advance _ _ _ _)).trans (Simple.syncAux_twin I hd _ _ h)

theorem Simple.kick_twin (I : Interactions) (h : ℝ) (s : Simple) : SimpleTwin I s (s.kick I h) := by
  unfold Simple.kick
  by_cases hd : I.velDep = true
  · rw [if_pos hd]
    exact ((Simple.kickReal_twin I _ _ _).trans (Simple.kickPseu_twin I hd _ _ _)).trans (Simple.kickReal_twin I _ _ _)
  · rw [if_neg hd]
    exact (SimpleTwin.ofVel I s _ (tail_advance _ _ _ _)).trans (Simple.syncVel_twin I _ _ h)

theorem Simple.read_twin (I : Interactions) (s s' : Simple) (y : List ℝ) (e : s.read I y = .ok s') : SimpleTwin I s s' := by
  unfold Simple.read at e
  split_ifs at e with h1 h2
  · obtain ⟨pos, e1, e⟩ := Res.bind_eq_ok.1 e
    obtain ⟨vel, e2, e⟩ := Res.bind_eq_ok.1 e
    obtain ⟨aux, e3, e⟩ := Res.bind_eq_ok.1 e
    obtain rfl := Res.ok.inj e
    exact ⟨rfl, rfl, rfl, store_keep e1, store_keep e2, by rw [if_pos h2]; exact store_keep e3, Tail.refl _ _⟩
  · obtain ⟨pos, e1, e⟩ := Res.bind_eq_ok.1 e
    obtain ⟨vel, e2, e⟩ := Res.bind_eq_ok.1 e
    obtain rfl := Res.ok.inj e
    exact ⟨rfl, rfl, rfl, store_keep e1, store_keep e2, by rw [if_neg h2], Tail.refl _ _⟩

theorem Simple.reset_twin (I : Interactions) (kdk : Bool) (x y : Simple) (t : SimpleTwin I x y) (v : List ℝ) :
    reset (simpleSys I kdk) y v = reset (simpleSys I kdk) x v := by
  obtain ⟨⟨n, pos, vel, mass⟩, time, aux, inc, sync⟩ := x
  obtain ⟨⟨n', pos', vel', mass'⟩, time', aux', inc', sync'⟩ := y
  obtain ⟨h1, h2, h3, h4, h5, h6, h7⟩ := t
  dsimp only at h1 h2 h3 h4 h5 h6 h7
  subst h1 h2 h3
  show (Simple.read I _ v).bind _ = (Simple.read I _ v).bind _
  unfold Simple.read
  by_cases hl : v.length = Simple.variableNumber I ⟨⟨n', pos, vel, mass'⟩, time, aux, inc, sync'⟩
  · rw [if_pos hl, if_pos (show v.length = Simple.variableNumber I ⟨⟨n', pos', vel', mass'⟩, time', aux', inc', sync'⟩ from hl)]
    dsimp only
    rw [store_eq h4, store_eq h5]
    by_cases hd : I.velDep = true
    · rw [if_pos hd] at h6
      simp only [hd, if_true]
      rw [store_eq h6]
      cases store n' (loadToCoords v posOffset (velOffset n')) pos with
      | ok a =>
        cases store n' (loadToCoords v (velOffset n') (auxOffset n')) vel with
        | ok b =>
          cases store n' (loadToCoords v (auxOffset n') v.length) aux with
          | ok c =>
            show Res.ok (Simple.clearInc I _) = Res.ok (Simple.clearInc I _)
            unfold Simple.clearInc
            exact congrArg (fun z => Res.ok (Simple.mk ⟨n', a, b, mass'⟩ (v.getD 0 0) c z sync')) (cleared_eq h7)
          | _ => rfl
        | _ => rfl
      | _ => rfl
    · rw [if_neg hd] at h6
      rw [Bool.not_eq_true] at hd
      simp only [hd, Bool.false_eq_true, if_false]
      subst h6
      cases store n' (loadToCoords v posOffset (velOffset n')) pos with
      | ok a =>
        cases store n' (loadToCoords v (velOffset n') (auxOffset n')) vel with
        | ok b =>
          show Res.ok (Simple.clearInc I _) = Res.ok (Simple.clearInc I _)
          unfold Simple.clearInc
          exact congrArg (fun z => Res.ok (Simple.mk ⟨n', a, b, mass'⟩ (v.getD 0 0) aux' z sync')) (cleared_eq h7)
        | _ => rfl
      | _ => rfl
  · rw [if_neg hl, if_neg (show ¬ v.length = Simple.variableNumber I ⟨⟨n', pos', vel', mass'⟩, time', aux', inc', sync'⟩ from hl)]

theorem eqv_of_eq {α β : Type} {π : α → β} {x y : Res α} (h : x = y) : Eqv π x y := h ▸ Eqv.refl π x

theorem simple_forgets (I : Interactions) (kdk : Bool) : Forgets (simpleSys I kdk) id (fun _ => True) where
  det x x' h n _ _ e := by rw [show x = x' from e]; exact Eqv.refl _ _
  inc x y e := by rw [show x = y from e]
  int x y h n _ e := ⟨trivial, fun v => eqv_of_eq (Simple.reset_twin I kdk x y (run_twin (simpleOps I) (SimpleTwin I) (fun _ => True) (SimpleTwin.refl I)
    (fun _ _ _ => SimpleTwin.trans) (fun _ _ _ _ => trivial) (fun op s s' _ e => by
      cases op with
      | drift h => cases e; exact Simple.drift_twin I h s
      | kick h => cases e; exact Simple.kick_twin I h s) _ x y trivial e) v)⟩
  clr x _ := ⟨trivial, fun v => eqv_of_eq (Simple.reset_twin I kdk x _ (Simple.clear_twin I x) v)⟩
  rd x y u _ e := ⟨trivial, fun v => eqv_of_eq (Simple.reset_twin I kdk x y (Simple.read_twin I x y u e) v)⟩
  col b x y e := by
    have : (simpleSys I kdk).clear x = (simpleSys I kdk).clear y := e
    show ({ (simpleSys I kdk).clear x with sync := b } : Simple) = { (simpleSys I kdk).clear y with sync := b }
    rw [this]

/-- what was written is read back -/
theorem Simple.restore (I : Interactions) (kdk : Bool) (s : Simple) :
    reset (simpleSys I kdk) (s.collect true) (s.write I) = .ok ((s.collect true).clearInc I) := by
  obtain ⟨t, ht, h1, h2, h3, h4, _⟩ := C13_simple_read_write I (s.collect true) s rfl
  have tw := Simple.read_twin I _ t _ ht
  unfold reset
  rw [show (simpleSys I kdk).read (s.collect true) (s.write I) = .ok t from ht]
  refine congrArg Res.ok ?_
  show Simple.clearInc I t = _
  have : t = { s.collect true with inc := t.inc } := by
    obtain ⟨⟨n, pos, vel, mass⟩, time, aux, inc, sync⟩ := s
    obtain ⟨⟨n', pos', vel', mass'⟩, time', aux', inc', sync'⟩ := t
    dsimp only [Simple.collect] at h1 h2 h3 h4 tw ⊢
    have a1 := tw.sync
    have a2 := tw.pos
    have a3 := tw.vel
    have a4 := tw.aux
    dsimp only at a1 a2 a3 a4
    subst h1 h3 h4 a1
    have b1 : pos' = pos := by funext k; by_cases hk : k < n'; exacts [(h2 k hk).1, a2 k (by omega)]
    have b2 : vel' = vel := by funext k; by_cases hk : k < n'; exacts [(h2 k hk).2.1, a3 k (by omega)]
    have b3 : aux' = aux := by
      by_cases hd : I.velDep = true
      · rw [if_pos hd] at a4
        funext k; by_cases hk : k < n'; exacts [(h2 k hk).2.2 hd, a4 k (by omega)]
      · rw [if_neg hd] at a4; exact a4
    rw [b1, b2, b3]
  rw [this]
  unfold Simple.clearInc
  exact congrArg (fun z => ({ s.collect true with inc := z } : Simple)) (cleared_eq tw.inc)

/-! ### ReguSys -/

/-- `y` differs from `x` only in what reading in the variables and clearing the increments overwrites -/
structure ReguSysTwin (I : Interactions) (x y : ReguSys) : Prop where
  num : y.P.num = x.P.num
  mass : y.P.mass = x.P.mass
  sync : y.sync = x.sync
  pos : Tail x.P.num x.P.pos y.P.pos
  vel : Tail x.P.num x.P.vel y.P.vel
  aux : if I.velDep then Tail x.P.num x.aux y.aux else y.aux = x.aux
  inc : Tail (x.variableNumber I) x.inc y.inc

theorem ReguSysTwin.var {I : Interactions} {x y : ReguSys} (a : ReguSysTwin I x y) : y.variableNumber I = x.variableNumber I := by
  unfold ReguSys.variableNumber; rw [a.num]

theorem ReguSysTwin.refl (I : Interactions) (x : ReguSys) : ReguSysTwin I x x :=
  ⟨rfl, rfl, rfl, Tail.refl _ _, Tail.refl _ _, by split_ifs; exacts [Tail.refl _ _, rfl], Tail.refl _ _⟩

theorem ReguSysTwin.trans {I : Interactions} {x y z : ReguSys} (a : ReguSysTwin I x y) (b : ReguSysTwin I y z) : ReguSysTwin I x z where
  num := b.num.trans a.num
  mass := b.mass.trans a.mass
  sync := b.sync.trans a.sync
  pos := a.pos.trans (a.num ▸ b.pos)
  vel := a.vel.trans (a.num ▸ b.vel)
  aux := by
    have h1 := a.aux
    have h2 := b.aux
    split_ifs at h1 h2 ⊢
    · exact h1.trans (a.num ▸ h2)
    · exact h2.trans h1
  inc := a.inc.trans (a.var ▸ b.inc)

theorem ReguSysTwin.ofInc (I : Interactions) (x : ReguSys) (a : Arr ℝ) (h : Tail (x.variableNumber I) x.inc a) : ReguSysTwin I x { x with inc := a } :=
  ⟨rfl, rfl, rfl, Tail.refl _ _, Tail.refl _ _, by split_ifs; exacts [Tail.refl _ _, rfl], h⟩
theorem ReguSysTwin.ofTime (I : Interactions) (x : ReguSys) (t : ℝ) : ReguSysTwin I x { x with time := t } :=
  ⟨rfl, rfl, rfl, Tail.refl _ _, Tail.refl _ _, by split_ifs; exacts [Tail.refl _ _, rfl], Tail.refl _ _⟩
theorem ReguSysTwin.ofRegu (I : Interactions) (x : ReguSys) (r : Regu) : ReguSysTwin I x { x with R := r } :=
  ⟨rfl, rfl, rfl, Tail.refl _ _, Tail.refl _ _, by split_ifs; exacts [Tail.refl _ _, rfl], Tail.refl _ _⟩
theorem ReguSysTwin.ofPos (I : Interactions) (x : ReguSys) (a : Arr (V3 ℝ)) (h : Tail x.P.num x.P.pos a) : ReguSysTwin I x { x with P := { x.P with pos := a } } :=
  ⟨rfl, rfl, rfl, h, Tail.refl _ _, by split_ifs; exacts [Tail.refl _ _, rfl], Tail.refl _ _⟩
theorem ReguSysTwin.ofVel (I : Interactions) (x : ReguSys) (a : Arr (V3 ℝ)) (h : Tail x.P.num x.P.vel a) : ReguSysTwin I x { x with P := { x.P with vel := a } } :=
  ⟨rfl, rfl, rfl, Tail.refl _ _, h, by split_ifs; exacts [Tail.refl _ _, rfl], Tail.refl _ _⟩
theorem ReguSysTwin.ofAux (I : Interactions) (x : ReguSys) (hd : I.velDep = true) (a : Arr (V3 ℝ)) (h : Tail x.P.num x.aux a) : ReguSysTwin I x { x with aux := a } :=
  ⟨rfl, rfl, rfl, Tail.refl _ _, Tail.refl _ _, by rw [if_pos hd]; exact h, Tail.refl _ _⟩

theorem ReguSys.syncPos_twin (I : Interactions) (s : ReguSys) (v : Arr (V3 ℝ)) (h : ℝ) : ReguSysTwin I s (s.syncPos v h) := by
  unfold ReguSys.syncPos
  split_ifs
  · refine ReguSysTwin.ofInc I s _ (tail_scaled _ _ _ _ _ ?_)
    unfold ReguSys.variableNumber posOffset
    cases I.velDep <;> simp <;> omega
  · exact ReguSysTwin.refl I s
theorem ReguSys.syncVel_twin (I : Interactions) (s : ReguSys) (v : Arr (V3 ℝ)) (h : ℝ) : ReguSysTwin I s (s.syncVel v h) := by
  unfold ReguSys.syncVel
  split_ifs
  · refine ReguSysTwin.ofInc I s _ (tail_scaled _ _ _ _ _ ?_)
    unfold ReguSys.variableNumber velOffset
    cases I.velDep <;> simp <;> omega
  · exact ReguSysTwin.refl I s
theorem ReguSys.syncAux_twin (I : Interactions) (hd : I.velDep = true) (s : ReguSys) (v : Arr (V3 ℝ)) (h : ℝ) : ReguSysTwin I s (s.syncAux v h) := by
  unfold ReguSys.syncAux
  split_ifs
  · refine ReguSysTwin.ofInc I s _ (tail_scaled _ _ _ _ _ ?_)
    unfold ReguSys.variableNumber auxOffset
    rw [hd]; simp; omega
  · exact ReguSysTwin.refl I s
theorem ReguSys.syncTime_twin (I : Interactions) (s : ReguSys) (h : ℝ) : ReguSysTwin I s (s.syncTime h) := by
  unfold ReguSys.syncTime
  split_ifs
  · exact ReguSysTwin.ofInc I s _ (tail_set _ _ _ (by unfold ReguSys.variableNumber; omega))
  · exact ReguSysTwin.refl I s
theorem ReguSys.advanceOmega_twin (type : ReguType) (I : Interactions) (v d : Arr (V3 ℝ)) (t : ℝ) (s : ReguSys) : ReguSysTwin I s (s.advanceOmega type I v d t) := by
  unfold ReguSys.advanceOmega ReguSys.syncOmega
  dsimp only
  split_ifs
  · have h : omegaOffset s.P.num I.velDep < s.variableNumber I := by unfold ReguSys.variableNumber omegaOffset; omega
    exact ⟨rfl, rfl, rfl, Tail.refl _ _, Tail.refl _ _, by split_ifs; exacts [Tail.refl _ _, rfl], tail_set _ _ _ h⟩
  · exact ReguSysTwin.ofRegu I s _
theorem ReguSys.advanceBindE_twin (type : ReguType) (I : Interactions) (v d : Arr (V3 ℝ)) (t : ℝ) (s : ReguSys) : ReguSysTwin I s (s.advanceBindE type I v d t) := by
  unfold ReguSys.advanceBindE ReguSys.syncBindE
  dsimp only
  split_ifs
  · have h : bindEOffset s.P.num I.velDep < s.variableNumber I := by unfold ReguSys.variableNumber bindEOffset; omega
    exact ⟨rfl, rfl, rfl, Tail.refl _ _, Tail.refl _ _, by split_ifs; exacts [Tail.refl _ _, rfl], tail_set _ _ _ h⟩
  · exact ReguSysTwin.ofRegu I s _
theorem ReguSys.advanceBindE_if_twin (type : ReguType) (I : Interactions) (v d : Arr (V3 ℝ)) (t : ℝ) (s : ReguSys) (b : Bool) :
    ReguSysTwin I s (if b then s.advanceBindE type I v d t else s) := by
  cases b
  · exact ReguSysTwin.refl I s
  · exact ReguSys.advanceBindE_twin type I v d t s

theorem ReguSys.clear_twin (I : Interactions) (s : ReguSys) : ReguSysTwin I s (s.clearInc I) :=
  ReguSysTwin.ofInc I s _ fun k hk => if_neg (by omega)

theorem ReguSys.drift_twin (type : ReguType) (I : Interactions) (h : ℝ) (s s' : ReguSys) (e : s.drift type h = .ok s') : ReguSysTwin I s s' := by
  unfold ReguSys.drift at e
  obtain ⟨rt, _, e⟩ := Res.bind_eq_ok.1 e
  obtain rfl := Res.ok.inj e
  exact ((((ReguSysTwin.ofRegu I s _).trans (ReguSysTwin.ofPos I _ _ (tail_advance _ _ _ _))).trans (ReguSysTwin.ofTime I _ _)).trans
    (ReguSys.syncTime_twin I _ _)).trans (ReguSys.syncPos_twin I _ _ _)

theorem ReguSys.kickReal_twin (I : Interactions) (a : Arr (V3 ℝ)) (h : ℝ) (s : ReguSys) : ReguSysTwin I s (s.kickReal I a h) :=
  (ReguSysTwin.ofVel I s _ (tail_advance _ _ _ _)).trans (ReguSys.syncVel_twin I _ _ h)

theorem ReguSys.kickPseu_twin (type : ReguType) (I : Interactions) (hd : I.velDep = true) (a b c : Arr (V3 ℝ)) (h : ℝ) (s : ReguSys) :
    ReguSysTwin I s (s.kickPseu type I a b c h) := by
  unfold ReguSys.kickPseu
  dsimp only
  have t := fun v => ((ReguSysTwin.ofAux I s hd (advance s.P.num s.aux (arrayAdd s.P.num c (I.velDepAcc s.P)) h) (tail_advance _ _ _ _)).trans
    (ReguSys.syncAux_twin I hd _ (arrayAdd s.P.num c (I.velDepAcc s.P)) h)).trans (ReguSys.advanceOmega_twin type I v a h _)
  split_ifs
  · exact (t _).trans (ReguSys.advanceBindE_twin type I _ _ _ _)
  · exact (t _).trans (ReguSys.advanceBindE_twin type I _ _ _ _)

theorem ReguSys.kick_twin (G : ℝ) (type : ReguType) (I : Interactions) (h : ℝ) (s s' : ReguSys) (e : s.kick G type I h = .ok s') : ReguSysTwin I s s' := by
  unfold ReguSys.kick at e
  obtain ⟨rt, _, e⟩ := Res.bind_eq_ok.1 e
  dsimp only at e
  have t0 := ReguSysTwin.ofRegu I s rt.1
  by_cases hd : I.velDep = true
  · rw [if_pos hd] at e
    obtain rfl := Res.ok.inj e
    exact ((t0.trans (ReguSys.kickReal_twin I _ _ _)).trans (ReguSys.kickPseu_twin type I hd _ _ _ _ _)).trans (ReguSys.kickReal_twin I _ _ _)
  · rw [if_neg hd] at e
    obtain rfl := Res.ok.inj e
    exact (((((t0.trans (ReguSys.advanceOmega_twin type I _ _ _ _)).trans (ReguSys.advanceBindE_if_twin type I _ _ _ _ I.velIndep)).trans
      (ReguSysTwin.ofVel I _ _ (tail_advance _ _ _ _))).trans (ReguSys.syncVel_twin I _ _ _)).trans
      (ReguSys.advanceBindE_if_twin type I _ _ _ _ I.velIndep)).trans (ReguSys.advanceOmega_twin type I _ _ _ _)

theorem ReguSys.read_twin (I : Interactions) (s s' : ReguSys) (y : List ℝ) (e : s.read I y = .ok s') : ReguSysTwin I s s' := by
  unfold ReguSys.read at e
  split_ifs at e with h1 h2
  · obtain ⟨pos, e1, e⟩ := Res.bind_eq_ok.1 e
    obtain ⟨vel, e2, e⟩ := Res.bind_eq_ok.1 e
    obtain ⟨aux, e3, e⟩ := Res.bind_eq_ok.1 e
    obtain rfl := Res.ok.inj e
    exact ⟨rfl, rfl, rfl, store_keep e1, store_keep e2, by rw [if_pos h2]; exact store_keep e3, Tail.refl _ _⟩
  · obtain ⟨pos, e1, e⟩ := Res.bind_eq_ok.1 e
    obtain ⟨vel, e2, e⟩ := Res.bind_eq_ok.1 e
    obtain rfl := Res.ok.inj e
    exact ⟨rfl, rfl, rfl, store_keep e1, store_keep e2, by rw [if_neg h2], Tail.refl _ _⟩

/-- all but `scale_`, which every substep sets before it is used (and `step_scale()` shows) -/
def noScale (s : ReguSys) : ReguSys := { s with R := { s.R with scale := 0 } }

theorem ReguSys.reset_twin (G : ℝ) (type : ReguType) (I : Interactions) (kdk : Bool) (x y : ReguSys) (t : ReguSysTwin I x y) (v : List ℝ) :
    Eqv noScale (reset (reguSys G type I kdk) y v) (reset (reguSys G type I kdk) x v) := by
  obtain ⟨⟨n, pos, vel, mass⟩, time, aux, R, inc, sync⟩ := x
  obtain ⟨⟨n', pos', vel', mass'⟩, time', aux', R', inc', sync'⟩ := y
  obtain ⟨h1, h2, h3, h4, h5, h6, h7⟩ := t
  dsimp only at h1 h2 h3 h4 h5 h6 h7
  subst h1 h2 h3
  show Eqv noScale ((ReguSys.read I _ v).bind _) ((ReguSys.read I _ v).bind _)
  unfold ReguSys.read
  by_cases hl : v.length = ReguSys.variableNumber I ⟨⟨n', pos, vel, mass'⟩, time, aux, R, inc, sync'⟩
  · rw [if_pos hl, if_pos (show v.length = ReguSys.variableNumber I ⟨⟨n', pos', vel', mass'⟩, time', aux', R', inc', sync'⟩ from hl)]
    dsimp only
    rw [store_eq h4, store_eq h5]
    by_cases hd : I.velDep = true
    · rw [if_pos hd] at h6
      simp only [hd, if_true]
      rw [store_eq h6]
      cases store n' (loadToCoords v posOffset (velOffset n')) pos with
      | ok a =>
        cases store n' (loadToCoords v (velOffset n') (auxOffset n')) vel with
        | ok b =>
          cases store n' (loadToCoords v (auxOffset n') v.length) aux with
          | ok c =>
            refine Both.ok _ _ ?_
            show noScale (ReguSys.clearInc I _) = noScale (ReguSys.clearInc I _)
            unfold ReguSys.clearInc noScale
            exact congrArg (fun z => ReguSys.mk ⟨n', a, b, mass'⟩ (v.getD 0 0) c ⟨_, _, 0⟩ z sync') (cleared_eq h7)
          | _ => exact Eqv.refl _ _
        | _ => exact Eqv.refl _ _
      | _ => exact Eqv.refl _ _
    · rw [if_neg hd] at h6
      rw [Bool.not_eq_true] at hd
      simp only [hd, Bool.false_eq_true, if_false]
      subst h6
      cases store n' (loadToCoords v posOffset (velOffset n')) pos with
      | ok a =>
        cases store n' (loadToCoords v (velOffset n') (auxOffset n')) vel with
        | ok b =>
          refine Both.ok _ _ ?_
          show noScale (ReguSys.clearInc I _) = noScale (ReguSys.clearInc I _)
          unfold ReguSys.clearInc noScale
          exact congrArg (fun z => ReguSys.mk ⟨n', a, b, mass'⟩ (v.getD 0 0) aux' ⟨_, _, 0⟩ z sync') (cleared_eq h7)
        | _ => exact Eqv.refl _ _
      | _ => exact Eqv.refl _ _
  · rw [if_neg hl, if_neg (show ¬ v.length = ReguSys.variableNumber I ⟨⟨n', pos', vel', mass'⟩, time', aux', R', inc', sync'⟩ from hl)]
    exact Eqv.refl _ _

/-- the system with another value of `scale_` -/
def withScale (c : ℝ) (s : ReguSys) : ReguSys := { s with R := { s.R with scale := c } }

theorem noScale_eq {s s' : ReguSys} (e : noScale s = noScale s') : s' = withScale s'.R.scale s := by
  obtain ⟨P, time, aux, ⟨o, b, c⟩, inc, sync⟩ := s
  obtain ⟨P', time', aux', ⟨o', b', c'⟩, inc', sync'⟩ := s'
  unfold noScale at e
  injection e with e1 e2 e3 e4 e5 e6
  injection e4 with e7 e8
  dsimp only at e7 e8
  subst e1 e2 e3 e5 e6 e7 e8
  rfl

theorem noScale_with (c : ℝ) (s : ReguSys) : noScale (withScale c s) = noScale s := rfl

section
variable (c : ℝ) (s : ReguSys)
theorem scale_syncPos (v : Arr (V3 ℝ)) (h : ℝ) : (withScale c s).syncPos v h = withScale c (s.syncPos v h) := by
  obtain ⟨P, time, aux, R, inc, sync⟩ := s; cases sync <;> rfl
theorem scale_syncVel (v : Arr (V3 ℝ)) (h : ℝ) : (withScale c s).syncVel v h = withScale c (s.syncVel v h) := by
  obtain ⟨P, time, aux, R, inc, sync⟩ := s; cases sync <;> rfl
theorem scale_syncAux (v : Arr (V3 ℝ)) (h : ℝ) : (withScale c s).syncAux v h = withScale c (s.syncAux v h) := by
  obtain ⟨P, time, aux, R, inc, sync⟩ := s; cases sync <;> rfl
theorem scale_syncTime (h : ℝ) : (withScale c s).syncTime h = withScale c (s.syncTime h) := by
  obtain ⟨P, time, aux, R, inc, sync⟩ := s; cases sync <;> rfl
theorem scale_omega (type : ReguType) (I : Interactions) (v d : Arr (V3 ℝ)) (h : ℝ) : (withScale c s).advanceOmega type I v d h = withScale c (s.advanceOmega type I v d h) := by
  obtain ⟨P, time, aux, R, inc, sync⟩ := s; cases sync <;> rfl
theorem scale_bindE (type : ReguType) (I : Interactions) (v d : Arr (V3 ℝ)) (h : ℝ) : (withScale c s).advanceBindE type I v d h = withScale c (s.advanceBindE type I v d h) := by
  obtain ⟨P, time, aux, R, inc, sync⟩ := s; cases sync <;> rfl
theorem scale_bindE_if (type : ReguType) (I : Interactions) (v d : Arr (V3 ℝ)) (h : ℝ) (b : Bool) :
    (if b then (withScale c s).advanceBindE type I v d h else withScale c s) = withScale c (if b then s.advanceBindE type I v d h else s) := by
  cases b
  · rfl
  · exact scale_bindE c s type I v d h
theorem scale_kickReal (I : Interactions) (a : Arr (V3 ℝ)) (h : ℝ) : (withScale c s).kickReal I a h = withScale c (s.kickReal I a h) := by
  obtain ⟨P, time, aux, R, inc, sync⟩ := s; cases sync <;> rfl
theorem scale_kickPseu (type : ReguType) (I : Interactions) (x y z : Arr (V3 ℝ)) (h : ℝ) : (withScale c s).kickPseu type I x y z h = withScale c (s.kickPseu type I x y z h) := by
  obtain ⟨P, time, aux, R, inc, sync⟩ := s
  unfold ReguSys.kickPseu
  cases hi : I.velIndep <;> cases sync <;> rfl
end

/-- the part of `kick` without velocity-dependent forces -/
noncomputable def plainKick (type : ReguType) (I : Interactions) (newt ext tot : Arr (V3 ℝ)) (half t : ℝ) (s : ReguSys) : ReguSys :=
  let s := s.advanceOmega type I s.P.vel newt half
  let s := if I.velIndep then s.advanceBindE type I s.P.vel ext half else s
  let s := { s with P := { s.P with vel := advance s.P.num s.P.vel tot t } }
  let s := s.syncVel tot t
  let s := if I.velIndep then s.advanceBindE type I s.P.vel ext half else s
  s.advanceOmega type I s.P.vel newt half

theorem scale_plainKick (c : ℝ) (type : ReguType) (I : Interactions) (newt ext tot : Arr (V3 ℝ)) (half t : ℝ) (s : ReguSys) :
    plainKick type I newt ext tot half t (withScale c s) = withScale c (plainKick type I newt ext tot half t s) := by
  have vel : ∀ u : ReguSys, (withScale c u).P = u.P := fun _ => rfl
  have upd : ∀ (u : ReguSys) (P : Particles), { withScale c u with P := P } = withScale c { u with P := P } := fun _ _ => rfl
  unfold plainKick
  dsimp only
  rw [vel, scale_omega, vel, scale_bindE_if, vel, upd, scale_syncVel, vel, scale_bindE_if, vel, scale_omega]

theorem ReguSys.drift_det (type : ReguType) (h c : ℝ) (s : ReguSys) : Eqv noScale ((withScale c s).drift type h) (s.drift type h) := by
  cases type with
  | logH => exact Eqv.refl _ _
  | ttl => exact Eqv.refl _ _
  | none =>
    obtain ⟨P, time, aux, R, inc, sync⟩ := s
    cases sync <;> exact Both.ok _ _ rfl

theorem ReguSys.kick_det (G : ℝ) (type : ReguType) (I : Interactions) (h c : ℝ) (s : ReguSys) : Eqv noScale ((withScale c s).kick G type I h) (s.kick G type I h) := by
  cases type with
  | logH => exact Eqv.refl _ _
  | ttl => exact Eqv.refl _ _
  | none =>
    unfold ReguSys.kick
    show Eqv noScale (if I.velDep then _ else _) (if I.velDep then _ else _)
    by_cases hd : I.velDep = true
    · rw [if_pos hd, if_pos hd]
      refine Both.ok _ _ ?_
      show noScale ((((withScale c s).kickReal I _ _).kickPseu .none I _ _ _ _).kickReal I _ _) = _
      rw [scale_kickReal, scale_kickPseu, scale_kickReal, noScale_with]
      rfl
    · rw [if_neg hd, if_neg hd]
      refine Both.ok _ _ ?_
      show noScale (plainKick .none I _ _ _ _ _ (withScale c s)) = noScale (plainKick .none I _ _ _ _ _ s)
      rw [scale_plainKick, noScale_with]
      rfl

theorem regu_forgets (G : ℝ) (type : ReguType) (I : Interactions) (kdk : Bool) : Forgets (reguSys G type I kdk) noScale (fun _ => True) where
  det x x' h n _ _ e := run_eqv (reguOps G type I) noScale (fun op s s' e => by
    rw [noScale_eq e]
    cases op with
    | drift h => exact (ReguSys.drift_det type h _ s).symm
    | kick h => exact (ReguSys.kick_det G type I h _ s).symm) _ x x' e
  inc x y e := by rw [noScale_eq e]; rfl
  int x y h n _ e := ⟨trivial, fun v => ReguSys.reset_twin G type I kdk x y (run_twin (reguOps G type I) (ReguSysTwin I) (fun _ => True) (ReguSysTwin.refl I)
    (fun _ _ _ => ReguSysTwin.trans) (fun _ _ _ _ => trivial) (fun op s s' _ e => by
      cases op with
      | drift h => exact ReguSys.drift_twin type I h s s' e
      | kick h => exact ReguSys.kick_twin G type I h s s' e) _ x y trivial e) v⟩
  clr x _ := ⟨trivial, fun v => ReguSys.reset_twin G type I kdk x _ (ReguSys.clear_twin I x) v⟩
  rd x y u _ e := ⟨trivial, fun v => ReguSys.reset_twin G type I kdk x y (ReguSys.read_twin I x y u e) v⟩
  col b x y e := by
    have : noScale ((reguSys G type I kdk).clear x) = noScale ((reguSys G type I kdk).clear y) := e
    show ({ noScale ((reguSys G type I kdk).clear x) with sync := b } : ReguSys) = { noScale ((reguSys G type I kdk).clear y) with sync := b }
    rw [this]

/-- what was written is read back -/
theorem ReguSys.restore (G : ℝ) (type : ReguType) (I : Interactions) (kdk : Bool) (s : ReguSys) :
    reset (reguSys G type I kdk) (s.collect true) (s.write I) = .ok ((s.collect true).clearInc I) := by
  obtain ⟨t, ht, h1, h2, h3, h4, h5, h6, _, _, h9, _⟩ := C13_regu_read_write I (s.collect true) s rfl
  have tw := ReguSys.read_twin I _ t _ ht
  unfold reset
  rw [show (reguSys G type I kdk).read (s.collect true) (s.write I) = .ok t from ht]
  refine congrArg Res.ok ?_
  show ReguSys.clearInc I t = _
  have : t = { s.collect true with inc := t.inc } := by
    obtain ⟨⟨n, pos, vel, mass⟩, time, aux, ⟨o, b, c⟩, inc, sync⟩ := s
    obtain ⟨⟨n', pos', vel', mass'⟩, time', aux', ⟨o', b', c'⟩, inc', sync'⟩ := t
    dsimp only [ReguSys.collect] at h1 h2 h3 h4 h5 h6 h9 tw ⊢
    have a1 := tw.sync
    have a2 := tw.pos
    have a3 := tw.vel
    have a4 := tw.aux
    dsimp only at a1 a2 a3 a4
    subst h1 h2 h3 h5 h6 h9 a1
    have b1 : pos' = pos := by funext k; by_cases hk : k < n'; exacts [(h4 k hk).1, a2 k (by omega)]
    have b2 : vel' = vel := by funext k; by_cases hk : k < n'; exacts [(h4 k hk).2.1, a3 k (by omega)]
    have b3 : aux' = aux := by
      by_cases hd : I.velDep = true
      · rw [if_pos hd] at a4
        funext k; by_cases hk : k < n'; exacts [(h4 k hk).2.2 hd, a4 k (by omega)]
      · rw [if_neg hd] at a4; exact a4
    rw [b1, b2, b3]
  rw [this]
  unfold ReguSys.clearInc
  exact congrArg (fun z => ({ s.collect true with inc := z } : ReguSys)) (cleared_eq tw.inc)

/-! ### ChainSys -/

/-- `y` differs from `x` only in what reading in the variables and clearing the increments overwrites -/
structure ChainSysTwin (I : ChainInteractions) (x y : ChainSys) : Prop where
  num : y.P.num = x.P.num
  mass : y.P.mass = x.P.mass
  sync : y.sync = x.sync
  pos : Tail x.P.num x.P.pos y.P.pos
  vel : Tail x.P.num x.P.vel y.P.vel
  aux : if I.velDep then Tail x.P.num x.aux y.aux else y.aux = x.aux
  inc : Tail (x.variableNumber I) x.inc y.inc
  index : y.index = x.index
  cpos : Tail x.P.num x.cpos y.cpos
  cvel : Tail x.P.num x.cvel y.cvel
  caux : if I.velDep then Tail x.P.num x.caux y.caux else y.caux = x.caux

theorem ChainSysTwin.var {I : ChainInteractions} {x y : ChainSys} (a : ChainSysTwin I x y) : y.variableNumber I = x.variableNumber I := by
  unfold ChainSys.variableNumber; rw [a.num]

theorem ChainSysTwin.refl (I : ChainInteractions) (x : ChainSys) : ChainSysTwin I x x :=
  ⟨rfl, rfl, rfl, Tail.refl _ _, Tail.refl _ _, by split_ifs; exacts [Tail.refl _ _, rfl], Tail.refl _ _, rfl, Tail.refl _ _, Tail.refl _ _, by split_ifs; exacts [Tail.refl _ _, rfl]⟩

theorem ChainSysTwin.trans {I : ChainInteractions} {x y z : ChainSys} (a : ChainSysTwin I x y) (b : ChainSysTwin I y z) : ChainSysTwin I x z where
  num := b.num.trans a.num
  mass := b.mass.trans a.mass
  sync := b.sync.trans a.sync
  pos := a.pos.trans (a.num ▸ b.pos)
  vel := a.vel.trans (a.num ▸ b.vel)
  aux := by
    have h1 := a.aux
    have h2 := b.aux
    split_ifs at h1 h2 ⊢
    · exact h1.trans (a.num ▸ h2)
    · exact h2.trans h1
  inc := a.inc.trans (a.var ▸ b.inc)
  index := b.index.trans a.index
  cpos := a.cpos.trans (a.num ▸ b.cpos)
  cvel := a.cvel.trans (a.num ▸ b.cvel)
  caux := by
    have h1 := a.caux
    have h2 := b.caux
    split_ifs at h1 h2 ⊢
    · exact h1.trans (a.num ▸ h2)
    · exact h2.trans h1

theorem ChainSysTwin.ofInc (I : ChainInteractions) (x : ChainSys) (a : Arr ℝ) (h : Tail (x.variableNumber I) x.inc a) : ChainSysTwin I x { x with inc := a } :=
  ⟨rfl, rfl, rfl, Tail.refl _ _, Tail.refl _ _, by split_ifs; exacts [Tail.refl _ _, rfl], h, rfl, Tail.refl _ _, Tail.refl _ _, by split_ifs; exacts [Tail.refl _ _, rfl]⟩
theorem ChainSysTwin.ofTime (I : ChainInteractions) (x : ChainSys) (t : ℝ) : ChainSysTwin I x { x with time := t } :=
  ⟨rfl, rfl, rfl, Tail.refl _ _, Tail.refl _ _, by split_ifs; exacts [Tail.refl _ _, rfl], Tail.refl _ _, rfl, Tail.refl _ _, Tail.refl _ _, by split_ifs; exacts [Tail.refl _ _, rfl]⟩
theorem ChainSysTwin.ofPos (I : ChainInteractions) (x : ChainSys) (r : Arr (V3 ℝ) × Arr (V3 ℝ)) (h : Tail x.P.num x.P.pos r.1 ∧ Tail x.P.num x.cpos r.2) :
    ChainSysTwin I x { x with P := { x.P with pos := r.1 }, cpos := r.2 } :=
  ⟨rfl, rfl, rfl, h.1, Tail.refl _ _, by split_ifs; exacts [Tail.refl _ _, rfl], Tail.refl _ _, rfl, h.2, Tail.refl _ _, by split_ifs; exacts [Tail.refl _ _, rfl]⟩
theorem ChainSysTwin.ofVel (I : ChainInteractions) (x : ChainSys) (r : Arr (V3 ℝ) × Arr (V3 ℝ)) (h : Tail x.P.num x.P.vel r.1 ∧ Tail x.P.num x.cvel r.2) :
    ChainSysTwin I x { x with P := { x.P with vel := r.1 }, cvel := r.2 } :=
  ⟨rfl, rfl, rfl, Tail.refl _ _, h.1, by split_ifs; exacts [Tail.refl _ _, rfl], Tail.refl _ _, rfl, Tail.refl _ _, h.2, by split_ifs; exacts [Tail.refl _ _, rfl]⟩
theorem ChainSysTwin.ofAux (I : ChainInteractions) (x : ChainSys) (hd : I.velDep = true) (r : Arr (V3 ℝ) × Arr (V3 ℝ)) (h : Tail x.P.num x.aux r.1 ∧ Tail x.P.num x.caux r.2) :
    ChainSysTwin I x { x with aux := r.1, caux := r.2 } :=
  ⟨rfl, rfl, rfl, Tail.refl _ _, Tail.refl _ _, by rw [if_pos hd]; exact h.1, Tail.refl _ _, rfl, Tail.refl _ _, Tail.refl _ _, by rw [if_pos hd]; exact h.2⟩

theorem ChainSys.syncPos_twin (I : ChainInteractions) (s : ChainSys) (v : Arr (V3 ℝ)) (h : ℝ) : ChainSysTwin I s (s.syncPos v h) := by
  unfold ChainSys.syncPos
  split_ifs
  · refine ChainSysTwin.ofInc I s _ (tail_scaled _ _ _ _ _ ?_)
    unfold ChainSys.variableNumber posOffset
    cases I.velDep <;> simp <;> omega
  · exact ChainSysTwin.refl I s
theorem ChainSys.syncVel_twin (I : ChainInteractions) (s : ChainSys) (v : Arr (V3 ℝ)) (h : ℝ) : ChainSysTwin I s (s.syncVel v h) := by
  unfold ChainSys.syncVel
  split_ifs
  · refine ChainSysTwin.ofInc I s _ (tail_scaled _ _ _ _ _ ?_)
    unfold ChainSys.variableNumber velOffset
    cases I.velDep <;> simp <;> omega
  · exact ChainSysTwin.refl I s
theorem ChainSys.syncAux_twin (I : ChainInteractions) (hd : I.velDep = true) (s : ChainSys) (v : Arr (V3 ℝ)) (h : ℝ) : ChainSysTwin I s (s.syncAux v h) := by
  unfold ChainSys.syncAux
  split_ifs
  · refine ChainSysTwin.ofInc I s _ (tail_scaled _ _ _ _ _ ?_)
    unfold ChainSys.variableNumber auxOffset
    rw [hd]; simp; omega
  · exact ChainSysTwin.refl I s
theorem ChainSys.syncTime_twin (I : ChainInteractions) (s : ChainSys) (h : ℝ) : ChainSysTwin I s (s.syncTime h) := by
  unfold ChainSys.syncTime
  split_ifs
  · exact ChainSysTwin.ofInc I s _ (tail_set _ _ _ (by unfold ChainSys.variableNumber; omega))
  · exact ChainSysTwin.refl I s

theorem ChainSys.clear_twin (I : ChainInteractions) (s : ChainSys) : ChainSysTwin I s (s.clearInc I) :=
  ChainSysTwin.ofInc I s _ fun k hk => if_neg (by omega)

/-- at least one particle, and a chain through all of them -/
def ChainSys.Linked (s : ChainSys) : Prop := s.P.num ≠ 0 ∧ IsIndex s.P.num s.index

theorem ChainSysTwin.linked {I : ChainInteractions} {x y : ChainSys} (t : ChainSysTwin I x y) (h : ChainSys.Linked x) : ChainSys.Linked y := by
  unfold ChainSys.Linked; rw [t.num, t.index]; exact h

theorem ChainSys.drift_twin (I : ChainInteractions) (h : ℝ) (s s' : ChainSys) (k : ChainSys.Linked s) (e : s.drift h = .ok s') : ChainSysTwin I s s' := by
  unfold ChainSys.drift at e
  obtain ⟨r, er, e⟩ := Res.bind_eq_ok.1 e
  obtain rfl := Res.ok.inj e
  have t1 := (ChainSysTwin.ofTime I s (s.time + h)).trans (ChainSysTwin.ofPos I { s with time := s.time + h } r (advance_keep k.1 k.2 er))
  have t2 := t1.trans (ChainSys.syncTime_twin I _ h)
  exact t2.trans (ChainSys.syncPos_twin I _ _ h)

theorem ChainSys.kickReal_twin (I : ChainInteractions) (a : Arr (V3 ℝ)) (h : ℝ) (s s' : ChainSys) (k : ChainSys.Linked s) (e : s.kickReal I a h = .ok s') : ChainSysTwin I s s' := by
  unfold ChainSys.kickReal at e
  obtain ⟨_, _, e⟩ := Res.bind_eq_ok.1 e
  obtain ⟨_, _, e⟩ := Res.bind_eq_ok.1 e
  obtain ⟨r, er, e⟩ := Res.bind_eq_ok.1 e
  obtain rfl := Res.ok.inj e
  exact (ChainSysTwin.ofVel I s r (advance_keep k.1 k.2 er)).trans (ChainSys.syncVel_twin I _ _ h)

theorem ChainSys.kickPseu_twin (I : ChainInteractions) (hd : I.velDep = true) (a : Arr (V3 ℝ)) (h : ℝ) (s s' : ChainSys) (k : ChainSys.Linked s) (e : s.kickPseu I a h = .ok s') :
    ChainSysTwin I s s' := by
  unfold ChainSys.kickPseu at e
  obtain ⟨_, _, e⟩ := Res.bind_eq_ok.1 e
  obtain ⟨_, _, e⟩ := Res.bind_eq_ok.1 e
  obtain ⟨r, er, e⟩ := Res.bind_eq_ok.1 e
  obtain rfl := Res.ok.inj e
  exact (ChainSysTwin.ofAux I s hd r (advance_keep k.1 k.2 er)).trans (ChainSys.syncAux_twin I hd _ _ h)

theorem ChainSys.kick_twin (I : ChainInteractions) (h : ℝ) (s s' : ChainSys) (k : ChainSys.Linked s) (e : s.kick I h = .ok s') : ChainSysTwin I s s' := by
  unfold ChainSys.kick at e
  by_cases hd : I.velDep = true
  · rw [if_pos hd] at e
    obtain ⟨_, _, e⟩ := Res.bind_eq_ok.1 e
    obtain ⟨s1, e1, e⟩ := Res.bind_eq_ok.1 e
    obtain ⟨s2, e2, e⟩ := Res.bind_eq_ok.1 e
    have t1 := ChainSys.kickReal_twin I _ _ _ _ k e1
    have t2 := ChainSys.kickPseu_twin I hd _ _ _ _ (t1.linked k) e2
    exact (t1.trans t2).trans (ChainSys.kickReal_twin I _ _ _ _ (t2.linked (t1.linked k)) e)
  · rw [if_neg hd] at e
    obtain ⟨_, _, e⟩ := Res.bind_eq_ok.1 e
    obtain ⟨_, _, e⟩ := Res.bind_eq_ok.1 e
    obtain ⟨r, er, e⟩ := Res.bind_eq_ok.1 e
    obtain rfl := Res.ok.inj e
    exact (ChainSysTwin.ofVel I s r (advance_keep k.1 k.2 er)).trans (ChainSys.syncVel_twin I _ _ h)

theorem ChainSys.read_twin (I : ChainInteractions) (s s' : ChainSys) (y : List ℝ) (k : ChainSys.Linked s) (e : s.read I y = .ok s') : ChainSysTwin I s s' := by
  unfold ChainSys.read at e
  by_cases h1 : y.length = s.variableNumber I
  swap
  · rw [if_neg h1] at e; cases e
  rw [if_pos h1] at e
  obtain ⟨cpos, e1, e⟩ := Res.bind_eq_ok.1 e
  obtain ⟨cvel, e2, e⟩ := Res.bind_eq_ok.1 e
  obtain ⟨pos, e3, e⟩ := Res.bind_eq_ok.1 e
  obtain ⟨vel, e4, e⟩ := Res.bind_eq_ok.1 e
  dsimp only at e
  split_ifs at e with hd
  · obtain ⟨caux, e5, e⟩ := Res.bind_eq_ok.1 e
    obtain ⟨aux, e6, e⟩ := Res.bind_eq_ok.1 e
    obtain rfl := Res.ok.inj e
    exact ⟨rfl, rfl, rfl, cart_keep k.1 k.2 e3, cart_keep k.1 k.2 e4, by rw [if_pos hd]; exact cart_keep k.1 k.2 e6, Tail.refl _ _, rfl, store_keep e1, store_keep e2, by rw [if_pos hd]; exact store_keep e5⟩
  · obtain rfl := Res.ok.inj e
    exact ⟨rfl, rfl, rfl, cart_keep k.1 k.2 e3, cart_keep k.1 k.2 e4, by rw [if_neg hd], Tail.refl _ _, rfl, store_keep e1, store_keep e2, by rw [if_neg hd]⟩

theorem ChainSys.reset_twin (I : ChainInteractions) (kdk : Bool) (x y : ChainSys) (kx : ChainSys.Linked x) (t : ChainSysTwin I x y) (v : List ℝ) :
    Eqv id (reset (chainSys I kdk) y v) (reset (chainSys I kdk) x v) := by
  obtain ⟨⟨n, pos, vel, mass⟩, time, cpos, cvel, index, aux, caux, inc, sync⟩ := x
  obtain ⟨⟨n', pos', vel', mass'⟩, time', cpos', cvel', index', aux', caux', inc', sync'⟩ := y
  obtain ⟨h1, h2, h3, h4, h5, h6, h7, h8, h9, h10, h11⟩ := t
  obtain ⟨kn, ki⟩ := kx
  dsimp only at h1 h2 h3 h4 h5 h6 h7 h8 h9 h10 h11 kn ki
  subst h1 h2 h3 h8
  show Eqv id ((ChainSys.read I _ v).bind _) ((ChainSys.read I _ v).bind _)
  unfold ChainSys.read
  by_cases hl : v.length = ChainSys.variableNumber I ⟨⟨n', pos, vel, mass'⟩, time, cpos, cvel, index', aux, caux, inc, sync'⟩
  · rw [if_pos hl, if_pos (show v.length = ChainSys.variableNumber I ⟨⟨n', pos', vel', mass'⟩, time', cpos', cvel', index', aux', caux', inc', sync'⟩ from hl)]
    dsimp only
    rw [store_eq h9, store_eq h10]
    cases store n' (loadToCoords v posOffset (velOffset n')) cpos with
    | ok a =>
      cases store n' (loadToCoords v (velOffset n') (auxOffset n')) cvel with
      | ok b =>
        show Eqv id ((Chain.toCartesian n' a pos' index' >>= _).bind _) ((Chain.toCartesian n' a pos index' >>= _).bind _)
        rw [cart_eq kn ki a h4]
        cases Chain.toCartesian n' a pos index' with
        | ok c =>
          show Eqv id ((Chain.toCartesian n' b vel' index' >>= _).bind _) ((Chain.toCartesian n' b vel index' >>= _).bind _)
          rw [cart_eq kn ki b h5]
          cases Chain.toCartesian n' b vel index' with
          | ok d =>
            by_cases hd : I.velDep = true
            · rw [if_pos hd] at h6 h11
              simp only [hd, if_true, Res.ok_bind]
              rw [store_eq h11]
              cases store n' (loadToCoords v (auxOffset n') v.length) caux with
              | ok f =>
                simp only [Res.ok_bind]
                rw [cart_eq kn ki f h6]
                cases Chain.toCartesian n' f aux index' with
                | ok g =>
                  refine Both.ok _ _ ?_
                  show id (ChainSys.clearInc I _) = id (ChainSys.clearInc I _)
                  unfold ChainSys.clearInc
                  exact congrArg (fun z => ChainSys.mk ⟨n', c, d, mass'⟩ (v.getD 0 0) a b index' g f z sync') (cleared_eq h7)
                | _ => exact Eqv.refl _ _
              | _ => exact Eqv.refl _ _
            · rw [if_neg hd] at h6 h11
              rw [Bool.not_eq_true] at hd
              simp only [hd, Bool.false_eq_true, if_false, Res.ok_bind]
              subst h6 h11
              refine Both.ok _ _ ?_
              show id (ChainSys.clearInc I _) = id (ChainSys.clearInc I _)
              unfold ChainSys.clearInc
              exact congrArg (fun z => ChainSys.mk ⟨n', c, d, mass'⟩ (v.getD 0 0) a b index' aux' caux' z sync') (cleared_eq h7)
          | _ => exact Eqv.refl _ _
        | _ => exact Eqv.refl _ _
      | _ => exact Eqv.refl _ _
    | _ => exact Eqv.refl _ _
  · rw [if_neg hl, if_neg (show ¬ v.length = ChainSys.variableNumber I ⟨⟨n', pos', vel', mass'⟩, time', cpos', cvel', index', aux', caux', inc', sync'⟩ from hl)]
    exact Eqv.refl _ _

theorem chain_forgets (I : ChainInteractions) (kdk : Bool) : Forgets (chainSys I kdk) id ChainSys.Linked where
  det x x' h n _ _ e := by rw [show x = x' from e]; exact Eqv.refl _ _
  inc x y e := by rw [show x = y from e]
  int x y h n k e := by
    have t := run_twin (chainOps I) (ChainSysTwin I) ChainSys.Linked (ChainSysTwin.refl I) (fun _ _ _ => ChainSysTwin.trans) (fun _ _ k t => t.linked k) (fun op s s' k e => by
      cases op with
      | drift h => exact ChainSys.drift_twin I h s s' k e
      | kick h => exact ChainSys.kick_twin I h s s' k e) _ x y k e
    exact ⟨t.linked k, fun v => ChainSys.reset_twin I kdk x y k t v⟩
  clr x k := ⟨(ChainSys.clear_twin I x).linked k, fun v => ChainSys.reset_twin I kdk x _ k (ChainSys.clear_twin I x) v⟩
  rd x y u k e := ⟨(ChainSys.read_twin I x y u k e).linked k, fun v => ChainSys.reset_twin I kdk x y k (ChainSys.read_twin I x y u k e) v⟩
  col b x y e := by
    have : id ((chainSys I kdk).clear x) = id ((chainSys I kdk).clear y) := e
    show ({ id ((chainSys I kdk).clear x) with sync := b } : ChainSys) = { id ((chainSys I kdk).clear y) with sync := b }
    rw [this]

/-- what a consistent system has written is read back -/
theorem ChainSys.restore (I : ChainInteractions) (kdk : Bool) (s : ChainSys)
    (hcons : ChainConsistent I.velDep s.P.num s.index s.cpos s.cvel s.caux s.P.pos s.P.vel s.aux) :
    reset (chainSys I kdk) (s.collect true) (s.write I) = .ok ((s.collect true).clearInc I) := by
  have k : ChainSys.Linked (s.collect true) := ⟨hcons.num, hcons.index⟩
  obtain ⟨t, ht, h1, hx, h2, hc, h3, h4, _⟩ := C13_chain_read_write I (s.collect true) s rfl rfl hcons
  have tw := ChainSys.read_twin I _ t _ k ht
  unfold reset
  rw [show (chainSys I kdk).read (s.collect true) (s.write I) = .ok t from ht]
  refine congrArg Res.ok ?_
  show ChainSys.clearInc I t = _
  have : t = { s.collect true with inc := t.inc } := by
    obtain ⟨⟨n, pos, vel, mass⟩, time, cpos, cvel, index, aux, caux, inc, sync⟩ := s
    obtain ⟨⟨n', pos', vel', mass'⟩, time', cpos', cvel', index', aux', caux', inc', sync'⟩ := t
    dsimp only [ChainSys.collect] at h1 hx h2 hc h3 h4 tw ⊢
    have a1 := tw.sync
    have a2 := tw.pos
    have a3 := tw.vel
    have a4 := tw.aux
    have a5 := tw.cpos
    have a6 := tw.cvel
    have a7 := tw.caux
    dsimp only at a1 a2 a3 a4 a5 a6 a7
    subst h1 h3 h4 a1 hx
    have b1 : pos' = pos := by funext k; by_cases hk : k < n'; exacts [(h2 k hk).1, a2 k (by omega)]
    have b2 : vel' = vel := by funext k; by_cases hk : k < n'; exacts [(h2 k hk).2.1, a3 k (by omega)]
    have b5 : cpos' = cpos := by funext k; by_cases hk : k < n'; exacts [(hc k hk).1, a5 k (by omega)]
    have b6 : cvel' = cvel := by funext k; by_cases hk : k < n'; exacts [(hc k hk).2.1, a6 k (by omega)]
    have b3 : aux' = aux := by
      by_cases hd : I.velDep = true
      · rw [if_pos hd] at a4
        funext k; by_cases hk : k < n'; exacts [(h2 k hk).2.2 hd, a4 k (by omega)]
      · rw [if_neg hd] at a4; exact a4
    have b7 : caux' = caux := by
      by_cases hd : I.velDep = true
      · rw [if_pos hd] at a7
        funext k; by_cases hk : k < n'; exacts [(hc k hk).2.2 hd, a7 k (by omega)]
      · rw [if_neg hd] at a7; exact a7
    rw [b1, b2, b3, b5, b6, b7]
  rw [this]
  unfold ChainSys.clearInc
  exact congrArg (fun z => ({ s.collect true with inc := z } : ChainSys)) (cleared_eq tw.inc)

/-! ### ARSys -/

/-- `y` differs from `x` only in what reading in the variables and clearing the increments overwrites -/
structure ARSysTwin (I : ChainInteractions) (x y : ARSys) : Prop where
  num : y.P.num = x.P.num
  mass : y.P.mass = x.P.mass
  sync : y.sync = x.sync
  pos : Tail x.P.num x.P.pos y.P.pos
  vel : Tail x.P.num x.P.vel y.P.vel
  aux : if I.velDep then Tail x.P.num x.aux y.aux else y.aux = x.aux
  inc : Tail (x.variableNumber I) x.inc y.inc
  index : y.index = x.index
  cpos : Tail x.P.num x.cpos y.cpos
  cvel : Tail x.P.num x.cvel y.cvel
  caux : if I.velDep then Tail x.P.num x.caux y.caux else y.caux = x.caux

theorem ARSysTwin.var {I : ChainInteractions} {x y : ARSys} (a : ARSysTwin I x y) : y.variableNumber I = x.variableNumber I := by
  unfold ARSys.variableNumber; rw [a.num]

theorem ARSysTwin.refl (I : ChainInteractions) (x : ARSys) : ARSysTwin I x x :=
  ⟨rfl, rfl, rfl, Tail.refl _ _, Tail.refl _ _, by split_ifs; exacts [Tail.refl _ _, rfl], Tail.refl _ _, rfl, Tail.refl _ _, Tail.refl _ _, by split_ifs; exacts [Tail.refl _ _, rfl]⟩

theorem ARSysTwin.trans {I : ChainInteractions} {x y z : ARSys} (a : ARSysTwin I x y) (b : ARSysTwin I y z) : ARSysTwin I x z where
  num := b.num.trans a.num
  mass := b.mass.trans a.mass
  sync := b.sync.trans a.sync
  pos := a.pos.trans (a.num ▸ b.pos)
  vel := a.vel.trans (a.num ▸ b.vel)
  aux := by
    have h1 := a.aux
    have h2 := b.aux
    split_ifs at h1 h2 ⊢
    · exact h1.trans (a.num ▸ h2)
    · exact h2.trans h1
  inc := a.inc.trans (a.var ▸ b.inc)
  index := b.index.trans a.index
  cpos := a.cpos.trans (a.num ▸ b.cpos)
  cvel := a.cvel.trans (a.num ▸ b.cvel)
  caux := by
    have h1 := a.caux
    have h2 := b.caux
    split_ifs at h1 h2 ⊢
    · exact h1.trans (a.num ▸ h2)
    · exact h2.trans h1

theorem ARSysTwin.ofInc (I : ChainInteractions) (x : ARSys) (a : Arr ℝ) (h : Tail (x.variableNumber I) x.inc a) : ARSysTwin I x { x with inc := a } :=
  ⟨rfl, rfl, rfl, Tail.refl _ _, Tail.refl _ _, by split_ifs; exacts [Tail.refl _ _, rfl], h, rfl, Tail.refl _ _, Tail.refl _ _, by split_ifs; exacts [Tail.refl _ _, rfl]⟩
theorem ARSysTwin.ofTime (I : ChainInteractions) (x : ARSys) (t : ℝ) : ARSysTwin I x { x with time := t } :=
  ⟨rfl, rfl, rfl, Tail.refl _ _, Tail.refl _ _, by split_ifs; exacts [Tail.refl _ _, rfl], Tail.refl _ _, rfl, Tail.refl _ _, Tail.refl _ _, by split_ifs; exacts [Tail.refl _ _, rfl]⟩
theorem ARSysTwin.ofRegu (I : ChainInteractions) (x : ARSys) (r : Regu) : ARSysTwin I x { x with R := r } :=
  ⟨rfl, rfl, rfl, Tail.refl _ _, Tail.refl _ _, by split_ifs; exacts [Tail.refl _ _, rfl], Tail.refl _ _, rfl, Tail.refl _ _, Tail.refl _ _, by split_ifs; exacts [Tail.refl _ _, rfl]⟩
theorem ARSysTwin.ofPos (I : ChainInteractions) (x : ARSys) (r : Arr (V3 ℝ) × Arr (V3 ℝ)) (h : Tail x.P.num x.P.pos r.1 ∧ Tail x.P.num x.cpos r.2) :
    ARSysTwin I x { x with P := { x.P with pos := r.1 }, cpos := r.2 } :=
  ⟨rfl, rfl, rfl, h.1, Tail.refl _ _, by split_ifs; exacts [Tail.refl _ _, rfl], Tail.refl _ _, rfl, h.2, Tail.refl _ _, by split_ifs; exacts [Tail.refl _ _, rfl]⟩
theorem ARSysTwin.ofVel (I : ChainInteractions) (x : ARSys) (r : Arr (V3 ℝ) × Arr (V3 ℝ)) (h : Tail x.P.num x.P.vel r.1 ∧ Tail x.P.num x.cvel r.2) :
    ARSysTwin I x { x with P := { x.P with vel := r.1 }, cvel := r.2 } :=
  ⟨rfl, rfl, rfl, Tail.refl _ _, h.1, by split_ifs; exacts [Tail.refl _ _, rfl], Tail.refl _ _, rfl, Tail.refl _ _, h.2, by split_ifs; exacts [Tail.refl _ _, rfl]⟩
theorem ARSysTwin.ofAux (I : ChainInteractions) (x : ARSys) (hd : I.velDep = true) (r : Arr (V3 ℝ) × Arr (V3 ℝ)) (h : Tail x.P.num x.aux r.1 ∧ Tail x.P.num x.caux r.2) :
    ARSysTwin I x { x with aux := r.1, caux := r.2 } :=
  ⟨rfl, rfl, rfl, Tail.refl _ _, Tail.refl _ _, by rw [if_pos hd]; exact h.1, Tail.refl _ _, rfl, Tail.refl _ _, Tail.refl _ _, by rw [if_pos hd]; exact h.2⟩

theorem ARSys.syncPos_twin (I : ChainInteractions) (s : ARSys) (v : Arr (V3 ℝ)) (h : ℝ) : ARSysTwin I s (s.syncPos v h) := by
  unfold ARSys.syncPos
  split_ifs
  · refine ARSysTwin.ofInc I s _ (tail_scaled _ _ _ _ _ ?_)
    unfold ARSys.variableNumber posOffset
    cases I.velDep <;> simp <;> omega
  · exact ARSysTwin.refl I s
theorem ARSys.syncVel_twin (I : ChainInteractions) (s : ARSys) (v : Arr (V3 ℝ)) (h : ℝ) : ARSysTwin I s (s.syncVel v h) := by
  unfold ARSys.syncVel
  split_ifs
  · refine ARSysTwin.ofInc I s _ (tail_scaled _ _ _ _ _ ?_)
    unfold ARSys.variableNumber velOffset
    cases I.velDep <;> simp <;> omega
  · exact ARSysTwin.refl I s
theorem ARSys.syncAux_twin (I : ChainInteractions) (hd : I.velDep = true) (s : ARSys) (v : Arr (V3 ℝ)) (h : ℝ) : ARSysTwin I s (s.syncAux v h) := by
  unfold ARSys.syncAux
  split_ifs
  · refine ARSysTwin.ofInc I s _ (tail_scaled _ _ _ _ _ ?_)
    unfold ARSys.variableNumber auxOffset
    rw [hd]; simp; omega
  · exact ARSysTwin.refl I s
theorem ARSys.syncTime_twin (I : ChainInteractions) (s : ARSys) (h : ℝ) : ARSysTwin I s (s.syncTime h) := by
  unfold ARSys.syncTime
  split_ifs
  · exact ARSysTwin.ofInc I s _ (tail_set _ _ _ (by unfold ARSys.variableNumber; omega))
  · exact ARSysTwin.refl I s
theorem ARSys.advanceOmega_twin (type : ReguType) (I : ChainInteractions) (v d : Arr (V3 ℝ)) (t : ℝ) (s : ARSys) : ARSysTwin I s (s.advanceOmega type I v d t) := by
  unfold ARSys.advanceOmega ARSys.syncOmega
  dsimp only
  split_ifs
  · have h : omegaOffset s.P.num I.velDep < s.variableNumber I := by unfold ARSys.variableNumber omegaOffset; omega
    exact ⟨rfl, rfl, rfl, Tail.refl _ _, Tail.refl _ _, by split_ifs; exacts [Tail.refl _ _, rfl], tail_set _ _ _ h, rfl, Tail.refl _ _, Tail.refl _ _, by split_ifs; exacts [Tail.refl _ _, rfl]⟩
  · exact ARSysTwin.ofRegu I s _
theorem ARSys.advanceBindE_twin (type : ReguType) (I : ChainInteractions) (v d : Arr (V3 ℝ)) (t : ℝ) (s : ARSys) : ARSysTwin I s (s.advanceBindE type I v d t) := by
  unfold ARSys.advanceBindE ARSys.syncBindE
  dsimp only
  split_ifs
  · have h : bindEOffset s.P.num I.velDep < s.variableNumber I := by unfold ARSys.variableNumber bindEOffset; omega
    exact ⟨rfl, rfl, rfl, Tail.refl _ _, Tail.refl _ _, by split_ifs; exacts [Tail.refl _ _, rfl], tail_set _ _ _ h, rfl, Tail.refl _ _, Tail.refl _ _, by split_ifs; exacts [Tail.refl _ _, rfl]⟩
  · exact ARSysTwin.ofRegu I s _
theorem ARSys.advanceBindE_if_twin (type : ReguType) (I : ChainInteractions) (v d : Arr (V3 ℝ)) (t : ℝ) (s : ARSys) (b : Bool) :
    ARSysTwin I s (if b then s.advanceBindE type I v d t else s) := by
  cases b
  · exact ARSysTwin.refl I s
  · exact ARSys.advanceBindE_twin type I v d t s

theorem ARSys.clear_twin (I : ChainInteractions) (s : ARSys) : ARSysTwin I s (s.clearInc I) :=
  ARSysTwin.ofInc I s _ fun k hk => if_neg (by omega)

/-- at least one particle, and a chain through all of them -/
def ARSys.Linked (s : ARSys) : Prop := s.P.num ≠ 0 ∧ IsIndex s.P.num s.index

theorem ARSysTwin.linked {I : ChainInteractions} {x y : ARSys} (t : ARSysTwin I x y) (h : ARSys.Linked x) : ARSys.Linked y := by
  unfold ARSys.Linked; rw [t.num, t.index]; exact h

theorem ARSys.drift_twin (type : ReguType) (I : ChainInteractions) (h : ℝ) (s s' : ARSys) (k : ARSys.Linked s) (e : s.drift type h = .ok s') : ARSysTwin I s s' := by
  unfold ARSys.drift at e
  obtain ⟨rt, _, e⟩ := Res.bind_eq_ok.1 e
  obtain ⟨r, er, e⟩ := Res.bind_eq_ok.1 e
  obtain rfl := Res.ok.inj e
  exact ((((ARSysTwin.ofRegu I s rt.1).trans (ARSysTwin.ofPos I _ r (advance_keep k.1 k.2 er))).trans (ARSysTwin.ofTime I _ _)).trans (ARSys.syncTime_twin I _ _)).trans
    (ARSys.syncPos_twin I _ _ _)

theorem ARSys.kickReal_twin (I : ChainInteractions) (a : Arr (V3 ℝ)) (h : ℝ) (s s' : ARSys) (k : ARSys.Linked s) (e : s.kickReal I a h = .ok s') : ARSysTwin I s s' := by
  unfold ARSys.kickReal at e
  obtain ⟨_, _, e⟩ := Res.bind_eq_ok.1 e
  obtain ⟨_, _, e⟩ := Res.bind_eq_ok.1 e
  obtain ⟨r, er, e⟩ := Res.bind_eq_ok.1 e
  obtain rfl := Res.ok.inj e
  exact (ARSysTwin.ofVel I s r (advance_keep k.1 k.2 er)).trans (ARSys.syncVel_twin I _ _ h)

theorem ARSys.kickPseu_twin (type : ReguType) (I : ChainInteractions) (hd : I.velDep = true) (a b c : Arr (V3 ℝ)) (h : ℝ) (s s' : ARSys) (k : ARSys.Linked s)
    (e : s.kickPseu type I a b c h = .ok s') : ARSysTwin I s s' := by
  unfold ARSys.kickPseu at e
  obtain ⟨_, _, e⟩ := Res.bind_eq_ok.1 e
  obtain ⟨ca, _, e⟩ := Res.bind_eq_ok.1 e
  obtain ⟨r, er, e⟩ := Res.bind_eq_ok.1 e
  dsimp only at e
  have t := fun v => (((ARSysTwin.ofAux I s hd r (advance_keep k.1 k.2 er)).trans (ARSys.syncAux_twin I hd _ ca h))).trans (ARSys.advanceOmega_twin type I v a h _)
  split_ifs at e
  · obtain rfl := Res.ok.inj e
    exact (t _).trans (ARSys.advanceBindE_twin type I _ _ _ _)
  · obtain rfl := Res.ok.inj e
    exact (t _).trans (ARSys.advanceBindE_twin type I _ _ _ _)

theorem ARSys.kick_twin (G : ℝ) (type : ReguType) (I : ChainInteractions) (h : ℝ) (s s' : ARSys) (k : ARSys.Linked s) (e : s.kick G type I h = .ok s') : ARSysTwin I s s' := by
  unfold ARSys.kick at e
  obtain ⟨_, _, e⟩ := Res.bind_eq_ok.1 e
  obtain ⟨rt, _, e⟩ := Res.bind_eq_ok.1 e
  obtain ⟨newt, _, e⟩ := Res.bind_eq_ok.1 e
  obtain ⟨ext, _, e⟩ := Res.bind_eq_ok.1 e
  dsimp only at e
  have t0 := ARSysTwin.ofRegu I s rt.1
  by_cases hd : I.velDep = true
  · rw [if_pos hd] at e
    obtain ⟨s1, e1, e⟩ := Res.bind_eq_ok.1 e
    obtain ⟨s2, e2, e⟩ := Res.bind_eq_ok.1 e
    have t1 := t0.trans (ARSys.kickReal_twin I _ _ _ _ k e1)
    have t2 := ARSys.kickPseu_twin type I hd _ _ _ _ _ _ (t1.linked k) e2
    exact (t1.trans t2).trans (ARSys.kickReal_twin I _ _ _ _ (t2.linked (t1.linked k)) e)
  · rw [if_neg hd] at e
    obtain ⟨ca, _, e⟩ := Res.bind_eq_ok.1 e
    obtain ⟨r, er, e⟩ := Res.bind_eq_ok.1 e
    obtain rfl := Res.ok.inj e
    have t1 := fun v d => (t0.trans (ARSys.advanceOmega_twin type I v newt (1 / 2 * rt.2) _)).trans (ARSys.advanceBindE_if_twin type I d ext (1 / 2 * rt.2) _ I.velIndep)
    have k1 := fun v d => (t1 v d).linked k
    have t2 := (t1 _ _).trans (ARSysTwin.ofVel I _ r (advance_keep (k1 _ _).1 (k1 _ _).2 er))
    exact ((t2.trans (ARSys.syncVel_twin I _ ca _)).trans (ARSys.advanceBindE_if_twin type I _ _ _ _ I.velIndep)).trans (ARSys.advanceOmega_twin type I _ _ _ _)

theorem ARSys.read_twin (I : ChainInteractions) (s s' : ARSys) (y : List ℝ) (k : ARSys.Linked s) (e : s.read I y = .ok s') : ARSysTwin I s s' := by
  unfold ARSys.read at e
  by_cases h1 : y.length = s.variableNumber I
  swap
  · rw [if_neg h1] at e; cases e
  rw [if_pos h1] at e
  obtain ⟨cpos, e1, e⟩ := Res.bind_eq_ok.1 e
  obtain ⟨cvel, e2, e⟩ := Res.bind_eq_ok.1 e
  obtain ⟨pos, e3, e⟩ := Res.bind_eq_ok.1 e
  obtain ⟨vel, e4, e⟩ := Res.bind_eq_ok.1 e
  dsimp only at e
  split_ifs at e with hd
  · obtain ⟨caux, e5, e⟩ := Res.bind_eq_ok.1 e
    obtain ⟨aux, e6, e⟩ := Res.bind_eq_ok.1 e
    obtain rfl := Res.ok.inj e
    exact ⟨rfl, rfl, rfl, cart_keep k.1 k.2 e3, cart_keep k.1 k.2 e4, by rw [if_pos hd]; exact cart_keep k.1 k.2 e6, Tail.refl _ _, rfl, store_keep e1, store_keep e2, by rw [if_pos hd]; exact store_keep e5⟩
  · obtain rfl := Res.ok.inj e
    exact ⟨rfl, rfl, rfl, cart_keep k.1 k.2 e3, cart_keep k.1 k.2 e4, by rw [if_neg hd], Tail.refl _ _, rfl, store_keep e1, store_keep e2, by rw [if_neg hd]⟩

/-- all but `scale_` -/
def noScaleAR (s : ARSys) : ARSys := { s with R := { s.R with scale := 0 } }

theorem ARSys.reset_twin (G : ℝ) (type : ReguType) (I : ChainInteractions) (kdk : Bool) (x y : ARSys) (kx : ARSys.Linked x) (t : ARSysTwin I x y) (v : List ℝ) :
    Eqv noScaleAR (reset (archainSys G type I kdk) y v) (reset (archainSys G type I kdk) x v) := by
  obtain ⟨⟨n, pos, vel, mass⟩, time, cpos, cvel, index, aux, caux, R, inc, sync⟩ := x
  obtain ⟨⟨n', pos', vel', mass'⟩, time', cpos', cvel', index', aux', caux', R', inc', sync'⟩ := y
  obtain ⟨h1, h2, h3, h4, h5, h6, h7, h8, h9, h10, h11⟩ := t
  obtain ⟨kn, ki⟩ := kx
  dsimp only at h1 h2 h3 h4 h5 h6 h7 h8 h9 h10 h11 kn ki
  subst h1 h2 h3 h8
  show Eqv noScaleAR ((ARSys.read I _ v).bind _) ((ARSys.read I _ v).bind _)
  unfold ARSys.read
  by_cases hl : v.length = ARSys.variableNumber I ⟨⟨n', pos, vel, mass'⟩, time, cpos, cvel, index', aux, caux, R, inc, sync'⟩
  · rw [if_pos hl, if_pos (show v.length = ARSys.variableNumber I ⟨⟨n', pos', vel', mass'⟩, time', cpos', cvel', index', aux', caux', R', inc', sync'⟩ from hl)]
    dsimp only
    rw [store_eq h9, store_eq h10]
    cases store n' (loadToCoords v posOffset (velOffset n')) cpos with
    | ok a =>
      cases store n' (loadToCoords v (velOffset n') (auxOffset n')) cvel with
      | ok b =>
        show Eqv noScaleAR ((Chain.toCartesian n' a pos' index' >>= _).bind _) ((Chain.toCartesian n' a pos index' >>= _).bind _)
        rw [cart_eq kn ki a h4]
        cases Chain.toCartesian n' a pos index' with
        | ok c =>
          show Eqv noScaleAR ((Chain.toCartesian n' b vel' index' >>= _).bind _) ((Chain.toCartesian n' b vel index' >>= _).bind _)
          rw [cart_eq kn ki b h5]
          cases Chain.toCartesian n' b vel index' with
          | ok d =>
            by_cases hd : I.velDep = true
            · rw [if_pos hd] at h6 h11
              simp only [hd, if_true, Res.ok_bind]
              rw [store_eq h11]
              cases store n' (loadToCoords v (auxOffset n') v.length) caux with
              | ok f =>
                simp only [Res.ok_bind]
                rw [cart_eq kn ki f h6]
                cases Chain.toCartesian n' f aux index' with
                | ok g =>
                  refine Both.ok _ _ ?_
                  show noScaleAR (ARSys.clearInc I _) = noScaleAR (ARSys.clearInc I _)
                  unfold ARSys.clearInc noScaleAR
                  exact congrArg (fun z => ARSys.mk ⟨n', c, d, mass'⟩ (v.getD 0 0) a b index' g f ⟨_, _, 0⟩ z sync') (cleared_eq h7)
                | _ => exact Eqv.refl _ _
              | _ => exact Eqv.refl _ _
            · rw [if_neg hd] at h6 h11
              rw [Bool.not_eq_true] at hd
              simp only [hd, Bool.false_eq_true, if_false, Res.ok_bind]
              subst h6 h11
              refine Both.ok _ _ ?_
              show noScaleAR (ARSys.clearInc I _) = noScaleAR (ARSys.clearInc I _)
              unfold ARSys.clearInc noScaleAR
              exact congrArg (fun z => ARSys.mk ⟨n', c, d, mass'⟩ (v.getD 0 0) a b index' aux' caux' ⟨_, _, 0⟩ z sync') (cleared_eq h7)
          | _ => exact Eqv.refl _ _
        | _ => exact Eqv.refl _ _
      | _ => exact Eqv.refl _ _
    | _ => exact Eqv.refl _ _
  · rw [if_neg hl, if_neg (show ¬ v.length = ARSys.variableNumber I ⟨⟨n', pos', vel', mass'⟩, time', cpos', cvel', index', aux', caux', R', inc', sync'⟩ from hl)]
    exact Eqv.refl _ _

/-- the system with another value of `scale_` -/
def withScaleAR (c : ℝ) (s : ARSys) : ARSys := { s with R := { s.R with scale := c } }

theorem noScaleAR_eq {s s' : ARSys} (e : noScaleAR s = noScaleAR s') : s' = withScaleAR s'.R.scale s := by
  obtain ⟨P, time, cpos, cvel, index, aux, caux, ⟨o, b, c⟩, inc, sync⟩ := s
  obtain ⟨P', time', cpos', cvel', index', aux', caux', ⟨o', b', c'⟩, inc', sync'⟩ := s'
  unfold noScaleAR at e
  injection e with e1 e2 e3 e4 e5 e6 e9 e10 e11 e12
  injection e10 with e7 e8
  dsimp only at e7 e8
  subst e1 e2 e3 e4 e5 e6 e7 e8 e9 e11 e12
  rfl

theorem noScaleAR_with (c : ℝ) (s : ARSys) : noScaleAR (withScaleAR c s) = noScaleAR s := rfl

section
variable (c : ℝ) (s : ARSys)
theorem scaleAR_syncPos (v : Arr (V3 ℝ)) (h : ℝ) : (withScaleAR c s).syncPos v h = withScaleAR c (s.syncPos v h) := by
  obtain ⟨P, time, cpos, cvel, index, aux, caux, R, inc, sync⟩ := s; cases sync <;> rfl
theorem scaleAR_syncVel (v : Arr (V3 ℝ)) (h : ℝ) : (withScaleAR c s).syncVel v h = withScaleAR c (s.syncVel v h) := by
  obtain ⟨P, time, cpos, cvel, index, aux, caux, R, inc, sync⟩ := s; cases sync <;> rfl
theorem scaleAR_syncAux (v : Arr (V3 ℝ)) (h : ℝ) : (withScaleAR c s).syncAux v h = withScaleAR c (s.syncAux v h) := by
  obtain ⟨P, time, cpos, cvel, index, aux, caux, R, inc, sync⟩ := s; cases sync <;> rfl
theorem scaleAR_syncTime (h : ℝ) : (withScaleAR c s).syncTime h = withScaleAR c (s.syncTime h) := by
  obtain ⟨P, time, cpos, cvel, index, aux, caux, R, inc, sync⟩ := s; cases sync <;> rfl
theorem scaleAR_omega (type : ReguType) (I : ChainInteractions) (v d : Arr (V3 ℝ)) (h : ℝ) :
    (withScaleAR c s).advanceOmega type I v d h = withScaleAR c (s.advanceOmega type I v d h) := by
  obtain ⟨P, time, cpos, cvel, index, aux, caux, R, inc, sync⟩ := s; cases sync <;> rfl
theorem scaleAR_bindE (type : ReguType) (I : ChainInteractions) (v d : Arr (V3 ℝ)) (h : ℝ) :
    (withScaleAR c s).advanceBindE type I v d h = withScaleAR c (s.advanceBindE type I v d h) := by
  obtain ⟨P, time, cpos, cvel, index, aux, caux, R, inc, sync⟩ := s; cases sync <;> rfl
theorem scaleAR_bindE_if (type : ReguType) (I : ChainInteractions) (v d : Arr (V3 ℝ)) (h : ℝ) (b : Bool) :
    (if b then (withScaleAR c s).advanceBindE type I v d h else withScaleAR c s) = withScaleAR c (if b then s.advanceBindE type I v d h else s) := by
  cases b
  · rfl
  · exact scaleAR_bindE c s type I v d h
end

/-- results that differ by the value of `scale_` only -/
def Scaled (c : ℝ) (x y : Res ARSys) : Prop := Both (fun a b => a = withScaleAR c b) x y

theorem bind_both {α : Type} {Q : ARSys → ARSys → Prop} (x : Res α) {f g : α → Res ARSys} (k : ∀ a, Both Q (f a) (g a)) : Both Q (x >>= f) (x >>= g) := by
  cases x with
  | ok a => exact k a
  | abort => exact .abort
  | ub => exact .ub
  | nan => exact .nan
  | diverge => exact .diverge

theorem scaled_kickReal (c : ℝ) (I : ChainInteractions) (a : Arr (V3 ℝ)) (h : ℝ) (s : ARSys) : Scaled c ((withScaleAR c s).kickReal I a h) (s.kickReal I a h) := by
  unfold ARSys.kickReal
  refine bind_both _ fun e => bind_both _ fun ca => bind_both _ fun r => Both.ok _ _ ?_
  exact scaleAR_syncVel c { s with P := { s.P with vel := r.1 }, cvel := r.2 } ca h

theorem scaled_kickPseu (c : ℝ) (type : ReguType) (I : ChainInteractions) (x y z : Arr (V3 ℝ)) (h : ℝ) (s : ARSys) :
    Scaled c ((withScaleAR c s).kickPseu type I x y z h) (s.kickPseu type I x y z h) := by
  unfold ARSys.kickPseu
  refine bind_both _ fun e => bind_both _ fun ca => bind_both _ fun r => ?_
  have vel : ∀ u : ARSys, (withScaleAR c u).P = u.P := fun _ => rfl
  have upd : ({ withScaleAR c s with aux := r.1, caux := r.2 } : ARSys) = withScaleAR c { s with aux := r.1, caux := r.2 } := rfl
  dsimp only
  rw [upd, scaleAR_syncAux, vel, scaleAR_omega, vel, scaleAR_bindE, scaleAR_bindE]
  split_ifs
  · exact Both.ok _ _ rfl
  · exact Both.ok _ _ rfl

/-- the part of `kick` without velocity-dependent forces -/
noncomputable def plainKickAR (type : ReguType) (I : ChainInteractions) (newt ext ca : Arr (V3 ℝ)) (half t : ℝ) (s : ARSys) : Res ARSys := do
  let s := s.advanceOmega type I s.P.vel newt half
  let s := if I.velIndep then s.advanceBindE type I s.P.vel ext half else s
  let r ← ChainSys.chainAdvance s.P.num s.index s.P.vel s.cvel ca t
  let s := { s with P := { s.P with vel := r.1 }, cvel := r.2 }
  let s := s.syncVel ca t
  let s := if I.velIndep then s.advanceBindE type I s.P.vel ext half else s
  .ok (s.advanceOmega type I s.P.vel newt half)

theorem scaled_plainKick (c : ℝ) (type : ReguType) (I : ChainInteractions) (newt ext ca : Arr (V3 ℝ)) (half t : ℝ) (s : ARSys) :
    Scaled c (plainKickAR type I newt ext ca half t (withScaleAR c s)) (plainKickAR type I newt ext ca half t s) := by
  have vel : ∀ u : ARSys, (withScaleAR c u).P = u.P := fun _ => rfl
  have idx : ∀ u : ARSys, (withScaleAR c u).index = u.index := fun _ => rfl
  have cv : ∀ u : ARSys, (withScaleAR c u).cvel = u.cvel := fun _ => rfl
  have upd : ∀ (u : ARSys) (P : Particles) (a : Arr (V3 ℝ)), { withScaleAR c u with P := P, cvel := a } = withScaleAR c { u with P := P, cvel := a } := fun _ _ _ => rfl
  unfold plainKickAR
  dsimp only
  rw [vel, scaleAR_omega, vel, scaleAR_bindE_if, vel, idx, cv]
  refine bind_both _ fun r => Both.ok _ _ ?_
  generalize (if I.velIndep then (s.advanceOmega type I s.P.vel newt half).advanceBindE type I (s.advanceOmega type I s.P.vel newt half).P.vel ext half
    else s.advanceOmega type I s.P.vel newt half) = u
  show (fun w : ARSys => (fun x : ARSys => x.advanceOmega type I x.P.vel newt half) (if I.velIndep then w.advanceBindE type I w.P.vel ext half else w))
    (ARSys.syncVel (withScaleAR c { u with P := { u.P with vel := r.1 }, cvel := r.2 }) ca t) = _
  rw [scaleAR_syncVel]
  dsimp only
  rw [vel, scaleAR_bindE_if, vel, scaleAR_omega]

theorem Scaled.eqv {c : ℝ} {x y : Res ARSys} (h : Scaled c x y) : Eqv noScaleAR x y := Both.mono h fun a b e => by rw [e, noScaleAR_with]

theorem ARSys.drift_det (type : ReguType) (h c : ℝ) (s : ARSys) : Eqv noScaleAR ((withScaleAR c s).drift type h) (s.drift type h) := by
  cases type with
  | logH => exact Eqv.refl _ _
  | ttl => exact Eqv.refl _ _
  | none =>
    refine Scaled.eqv (c := c) ?_
    unfold ARSys.drift
    show Scaled c (ChainSys.chainAdvance s.P.num s.index s.P.pos s.cpos s.cvel h >>= _) (ChainSys.chainAdvance s.P.num s.index s.P.pos s.cpos s.cvel h >>= _)
    refine bind_both _ fun r => Both.ok _ _ ?_
    obtain ⟨P, time, cpos, cvel, index, aux, caux, R, inc, sync⟩ := s
    cases sync <;> rfl

theorem ARSys.kick_det (G : ℝ) (type : ReguType) (I : ChainInteractions) (h c : ℝ) (s : ARSys) : Eqv noScaleAR ((withScaleAR c s).kick G type I h) (s.kick G type I h) := by
  cases type with
  | logH => exact Eqv.refl _ _
  | ttl => exact Eqv.refl _ _
  | none =>
    refine Scaled.eqv (c := c) ?_
    unfold ARSys.kick
    refine bind_both (potentialChain G s.P s.view) fun pot => ?_
    refine bind_both (I.newtonianAcc s.P s.view) fun newt => bind_both (I.velIndepAcc s.P s.view) fun ext => ?_
    show Scaled c (if I.velDep then _ else _) (if I.velDep then _ else _)
    by_cases hd : I.velDep = true
    · rw [if_pos hd, if_pos hd]
      refine Both.bind (scaled_kickReal c I _ _ s) fun a b e => ?_
      subst e
      refine Both.bind (scaled_kickPseu c .none I _ _ _ _ b) fun a' b' e => ?_
      subst e
      exact scaled_kickReal c I _ _ b'
    · rw [if_neg hd, if_neg hd]
      refine bind_both (Chain.toChain s.P.num _ (fun _ => 0) s.index) fun ca => ?_
      exact scaled_plainKick c .none I newt ext ca _ _ s

theorem ar_forgets (G : ℝ) (type : ReguType) (I : ChainInteractions) (kdk : Bool) : Forgets (archainSys G type I kdk) noScaleAR ARSys.Linked where
  det x x' h n _ _ e := run_eqv (arOps G type I) noScaleAR (fun op s s' e => by
    rw [noScaleAR_eq e]
    cases op with
    | drift h => exact (ARSys.drift_det type h _ s).symm
    | kick h => exact (ARSys.kick_det G type I h _ s).symm) _ x x' e
  inc x y e := by rw [noScaleAR_eq e]; rfl
  int x y h n k e := by
    have t := run_twin (arOps G type I) (ARSysTwin I) ARSys.Linked (ARSysTwin.refl I) (fun _ _ _ => ARSysTwin.trans) (fun _ _ k t => t.linked k) (fun op s s' k e => by
      cases op with
      | drift h => exact ARSys.drift_twin type I h s s' k e
      | kick h => exact ARSys.kick_twin G type I h s s' k e) _ x y k e
    exact ⟨t.linked k, fun v => ARSys.reset_twin G type I kdk x y k t v⟩
  clr x k := ⟨(ARSys.clear_twin I x).linked k, fun v => ARSys.reset_twin G type I kdk x _ k (ARSys.clear_twin I x) v⟩
  rd x y u k e := ⟨(ARSys.read_twin I x y u k e).linked k, fun v => ARSys.reset_twin G type I kdk x y k (ARSys.read_twin I x y u k e) v⟩
  col b x y e := by
    have : noScaleAR ((archainSys G type I kdk).clear x) = noScaleAR ((archainSys G type I kdk).clear y) := e
    show ({ noScaleAR ((archainSys G type I kdk).clear x) with sync := b } : ARSys) = { noScaleAR ((archainSys G type I kdk).clear y) with sync := b }
    rw [this]

/-- what a consistent system has written is read back -/
theorem ARSys.restore (G : ℝ) (type : ReguType) (I : ChainInteractions) (kdk : Bool) (s : ARSys)
    (hcons : ChainConsistent I.velDep s.P.num s.index s.cpos s.cvel s.caux s.P.pos s.P.vel s.aux) :
    reset (archainSys G type I kdk) (s.collect true) (s.write I) = .ok ((s.collect true).clearInc I) := by
  have k : ARSys.Linked (s.collect true) := ⟨hcons.num, hcons.index⟩
  obtain ⟨t, ht, h1, ho, hb, hx, h2, hc, h3, h4, _, _, hs, _⟩ := C13_archain_read_write I (s.collect true) s rfl rfl hcons
  have tw := ARSys.read_twin I _ t _ k ht
  unfold reset
  rw [show (archainSys G type I kdk).read (s.collect true) (s.write I) = .ok t from ht]
  refine congrArg Res.ok ?_
  show ARSys.clearInc I t = _
  have : t = { s.collect true with inc := t.inc } := by
    obtain ⟨⟨n, pos, vel, mass⟩, time, cpos, cvel, index, aux, caux, ⟨o, b, c⟩, inc, sync⟩ := s
    obtain ⟨⟨n', pos', vel', mass'⟩, time', cpos', cvel', index', aux', caux', ⟨o', b', c'⟩, inc', sync'⟩ := t
    dsimp only [ARSys.collect] at h1 hx h2 hc h3 h4 tw ho hb hs ⊢
    have a1 := tw.sync
    have a2 := tw.pos
    have a3 := tw.vel
    have a4 := tw.aux
    have a5 := tw.cpos
    have a6 := tw.cvel
    have a7 := tw.caux
    dsimp only at a1 a2 a3 a4 a5 a6 a7
    subst h1 h3 h4 a1 hx ho hb hs
    have b1 : pos' = pos := by funext k; by_cases hk : k < n'; exacts [(h2 k hk).1, a2 k (by omega)]
    have b2 : vel' = vel := by funext k; by_cases hk : k < n'; exacts [(h2 k hk).2.1, a3 k (by omega)]
    have b5 : cpos' = cpos := by funext k; by_cases hk : k < n'; exacts [(hc k hk).1, a5 k (by omega)]
    have b6 : cvel' = cvel := by funext k; by_cases hk : k < n'; exacts [(hc k hk).2.1, a6 k (by omega)]
    have b3 : aux' = aux := by
      by_cases hd : I.velDep = true
      · rw [if_pos hd] at a4
        funext k; by_cases hk : k < n'; exacts [(h2 k hk).2.2 hd, a4 k (by omega)]
      · rw [if_neg hd] at a4; exact a4
    have b7 : caux' = caux := by
      by_cases hd : I.velDep = true
      · rw [if_pos hd] at a7
        funext k; by_cases hk : k < n'; exacts [(hc k hk).2.2 hd, a7 k (by omega)]
      · rw [if_neg hd] at a7; exact a7
    rw [b1, b2, b3, b5, b6, b7]
  rw [this]
  unfold ARSys.clearInc
  exact congrArg (fun z => ({ s.collect true with inc := z } : ARSys)) (cleared_eq tw.inc)

end SpaceHub.BS.Par
