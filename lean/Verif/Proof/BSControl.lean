import Verif.Model.BulirschStoer
import Verif.Proof.SysBase

/-
Control flow of the Bulirsch-Stoer iterator, for arbitrary scalar arithmetic.
-/

set_option autoImplicit false

namespace SpaceHub.BS
open SpaceHub SpaceHub.Sys

/-- no undefined behaviour, and what holds if the call returns -/
def Safe {α : Type} (r : Res α) (post : α → Prop) : Prop := r ≠ .ub ∧ ∀ x, r = .ok x → post x

theorem Safe.ok {α : Type} {post : α → Prop} {a : α} (h : post a) : Safe (Res.ok a) post :=
  ⟨fun h => (by cases h), fun x hx => by cases hx; exact h⟩

theorem Safe.abort {α : Type} {post : α → Prop} : Safe (Res.abort : Res α) post :=
  ⟨fun h => (by cases h), fun x hx => by cases hx⟩

theorem Safe.bind {α β : Type} {r : Res α} {f : α → Res β} {p : α → Prop} {q : β → Prop} (h1 : Safe r p)
    (h2 : ∀ x, p x → r = .ok x → Safe (f x) q) : Safe (r >>= f) q := by
  cases r with
  | ok a => exact h2 a (h1.2 a rfl) rfl
  | ub => exact absurd rfl h1.1
  | abort => exact ⟨fun h => (by cases h), fun x hx => by cases hx⟩
  | nan => exact ⟨fun h => (by cases h), fun x hx => by cases hx⟩
  | diverge => exact ⟨fun h => (by cases h), fun x hx => by cases hx⟩

theorem Safe.of_ne {α : Type} {r : Res α} (h : r ≠ .ub) : Safe r (fun _ => True) := ⟨h, fun _ _ => trivial⟩

theorem Safe.mono {α : Type} {r : Res α} {p q : α → Prop} (h : Safe r p) (hpq : ∀ x, p x → q x) : Safe r q :=
  ⟨h.1, fun x hx => hpq x (h.2 x hx)⟩

theorem chk_safe {D k : Nat} (h : k ≤ D) : Safe (chk D k) (fun _ => True) := by
  unfold chk; rw [if_pos h]; exact Safe.ok trivial

theorem chk_ok {D k : Nat} {u : Unit} (h : chk D k = .ok u) : k ≤ D := by
  unfold chk at h; split_ifs at h with hh; exact hh

section
variable {F : Type} [Arith F] {S : Type}

theorem allowed_bounds {D : Nat} (hD : 3 ≤ D) (i : Nat) : 2 ≤ allowed D i ∧ allowed D i ≤ D - 1 := by
  unfold allowed; dsimp only; split_ifs <;> omega

theorem allowed_le {D : Nat} {i j : Nat} (hij : i ≤ j) (hj : 2 ≤ j) : allowed D i ≤ j := by
  unfold allowed; dsimp only; split_ifs <;> omega

theorem nextStepLen_safe (p : Params F) (c : State F) {kNew k : Nat} (h1 : kNew ≤ k + 1) (h2 : kNew ≤ p.maxDepth)
    (h3 : k ≤ p.maxDepth) : Safe (nextStepLen p c kNew k) (fun _ => True) := by
  unfold nextStepLen
  split_ifs with ha hb
  · exact Safe.bind (chk_safe h2) (fun _ _ _ => Safe.ok trivial)
  · exact Safe.bind (chk_safe h3) (fun _ _ _ => Safe.bind (chk_safe (by omega)) (fun _ _ _ => Safe.ok trivial))
  · omega

/-- After the first step the members allow the next column number to stay inside the tables. -/
def Later (D : Nat) (c : State F) : Prop := c.first = false ∧ 1 ≤ c.rank ∧ c.rank ≤ D - 1

theorem setNext_first (p : Params F) (c : State F) (hf : c.first = true) {k : Nat} (hk : k ≤ p.maxDepth) :
    Safe (setNextIteration p c k) (fun r => r.2.first = true ∧ (c.reject = false → r.2.rank = k)) := by
  unfold setNextIteration
  rw [hf]
  refine Safe.bind (chk_safe hk) (fun _ _ _ => Safe.ok ⟨?_, fun hr => ?_⟩)
  · dsimp only; split_ifs
    · rfl
    · exact hf
  · dsimp only; rw [hr]; rfl

theorem setNext_later (p : Params F) (c : State F) (hD : 3 ≤ p.maxDepth) (hc : Later p.maxDepth c) {k : Nat} (hk1 : 1 ≤ k)
    (hk : k + 1 = c.rank ∨ k = c.rank ∨ k = c.rank + 1) :
    Safe (setNextIteration p c k) (fun r => Later p.maxDepth r.2 ∧ (2 ≤ c.rank → 2 ≤ r.2.rank)) := by
  obtain ⟨hf, hr1, hr2⟩ := hc
  have key : ∀ i, i ≤ k + 1 → Safe (do
      let c : State F := { c with rank := allowed p.maxDepth i }
      let h ← nextStepLen p c c.rank k
      Res.ok (h, c)) (fun r => Later p.maxDepth r.2 ∧ (2 ≤ c.rank → 2 ≤ r.2.rank)) := by
    intro i hi
    have hb := allowed_bounds hD i
    refine Safe.bind (nextStepLen_safe p _ ?_ ?_ ?_) (fun h _ _ => Safe.ok ⟨⟨hf, ?_, ?_⟩, fun _ => ?_⟩)
    · exact allowed_le hi (by omega)
    · dsimp only; omega
    · omega
    · dsimp only; omega
    · dsimp only; omega
    · dsimp only; omega
  unfold setNextIteration
  rw [if_pos (show (!c.first) = true by rw [hf]; rfl)]
  by_cases h1 : k + 1 = c.rank ∨ k = c.rank
  · rw [if_pos h1]
    refine Safe.bind (chk_safe (by omega)) (fun _ _ _ => Safe.bind (chk_safe (by omega)) (fun _ _ _ => ?_))
    split_ifs
    · exact key (k - 1) (by omega)
    · exact key (k + 1) (by omega)
    · exact key k (by omega)
  · have h4 : k = c.rank + 1 := by omega
    rw [if_neg h1, if_pos h4]
    refine Safe.bind (chk_safe (by omega)) (fun _ _ _ => ?_)
    have hb2 := allowed_bounds hD (k - 2)
    have hbk := allowed_bounds hD k
    have hlek : allowed p.maxDepth k ≤ k := allowed_le le_rfl (by omega)
    have hle2 : allowed p.maxDepth (k - 2) ≤ k := allowed_le (by omega) (by omega)
    have fin : ∀ c1 : State F, c1.first = false → 1 ≤ c1.rank → c1.rank ≤ p.maxDepth - 1 → c1.rank ≤ k →
        (2 ≤ c.rank → 2 ≤ c1.rank) → Safe (do
          chk p.maxDepth c1.rank
          let c2 := if Arith.lt (c1.cpl k) (Arith.mul (Arith.ofRat (9 / 10)) (c1.cpl c1.rank)) && !c1.reject
            then { c1 with rank := allowed p.maxDepth k } else c1
          let h ← nextStepLen p c2 c2.rank k
          Res.ok (h, c2)) (fun r => Later p.maxDepth r.2 ∧ (2 ≤ c.rank → 2 ≤ r.2.rank)) := by
      intro c1 e1 e2 e3 e4 e5
      refine Safe.bind (chk_safe (by omega)) (fun _ _ _ => ?_)
      split_ifs
      · refine Safe.bind (nextStepLen_safe p _ ?_ ?_ ?_) (fun h _ _ => Safe.ok ⟨⟨e1, ?_, ?_⟩, fun _ => ?_⟩)
          <;> first | (dsimp only; omega) | omega
      · refine Safe.bind (nextStepLen_safe p _ ?_ ?_ ?_) (fun h _ _ => Safe.ok ⟨⟨e1, ?_, ?_⟩, fun h => ?_⟩)
        · omega
        · omega
        · omega
        · exact e2
        · exact e3
        · exact e5 h
    split_ifs
    · exact fin _ hf (by dsimp only; omega) (by dsimp only; omega) (by dsimp only; omega) (by dsimp only; omega)
    · exact fin _ hf hr1 hr2 (by omega) id

theorem isDiverged_safe_later (p : Params F) (c : State F) (hc : Later p.maxDepth c) (e : F) (k : Nat) :
    Safe (isDiverged p c e k) (fun _ => True) := by
  obtain ⟨hf, hr1, hr2⟩ := hc
  unfold isDiverged
  rw [hf]
  simp only [Bool.not_false, if_true]
  split_ifs
  · exact Safe.bind (chk_safe (by omega)) (fun _ _ _ => Safe.bind (chk_safe (by omega)) (fun _ _ _ => Safe.ok trivial))
  · exact Safe.bind (chk_safe (by omega)) (fun _ _ _ => Safe.ok trivial)
  · exact Safe.ok trivial

theorem isDiverged_first (p : Params F) (c : State F) (hf : c.first = true) (e : F) (k : Nat) :
    isDiverged p c e k = .ok false := by
  unfold isDiverged; rw [hf]; rfl

theorem evalColumn_rank (p : Params F) (input : List F) (h : F) (c : State F) (k : Nat) :
    (evalColumn p input h c k).1.rank = c.rank ∧ (evalColumn p input h c k).1.first = c.first ∧
      (evalColumn p input h c k).1.reject = c.reject := ⟨rfl, rfl, rfl⟩

/-- first call: column numbers stay inside the tables -/
theorem columns_first (O : IterSys S F) (p : Params F) (input : List F) (h : F)
    (hr : ∀ s y, O.read s y ≠ .ub) (hi : ∀ h n s, O.integrate h n s ≠ .ub) (m : Nat) :
    ∀ k c s, c.first = true → c.rank + 1 ≤ p.maxDepth → m + k = c.rank + 2 → 1 ≤ k →
      Safe (columns O p input h m k c s) (fun e => match e with
        | .accept _ _ c' => c'.first = false ∧ 1 ≤ c'.rank ∧ c'.rank ≤ p.maxDepth
        | .reject _ _ _ => False
        | .exhausted _ c' => c'.first = true ∧ c'.rank = c.rank) := by
  induction m with
  | zero => intro k c s hf _ _ _; exact Safe.ok ⟨hf, rfl⟩
  | succ m ih =>
    intro k c s hf hrank hmk hk1
    unfold columns
    refine Safe.bind (Safe.of_ne (hr _ _)) (fun s _ _ => Safe.bind (chk_safe (by omega)) (fun _ _ _ =>
      Safe.bind (Safe.of_ne (hi _ _ _)) (fun s _ _ => ?_)))
    dsimp only
    generalize hg : evalColumn p input h _ k = ce
    have hce : ce.1.rank = c.rank ∧ ce.1.first = c.first := by rw [← hg]; exact ⟨rfl, rfl⟩
    obtain ⟨e1, e2⟩ := hce
    have hw : inWindow ce.1 k = true := by unfold inWindow; rw [e2, hf]; simp
    rw [if_pos hw]
    split_ifs with hle
    · refine Safe.bind (Safe.of_ne (hr _ _)) (fun s _ _ => ?_)
      refine Safe.bind (setNext_first p _ (by exact e2.trans hf) (by omega)) (fun r hr' _ => Safe.ok ?_)
      exact ⟨rfl, by rw [hr'.2 rfl]; exact hk1, by rw [hr'.2 rfl]; omega⟩
    · rw [isDiverged_first p _ (e2.trans hf)]
      have := ih (k + 1) ce.1 s (e2.trans hf) (by rw [e1]; exact hrank) (by rw [e1]; omega) (by omega)
      refine Safe.mono this (fun x hx => ?_)
      cases x with
      | accept s h c' => exact hx
      | reject s h c' => exact hx
      | exhausted s c' => exact ⟨hx.1, hx.2.trans e1⟩

theorem columns_later (O : IterSys S F) (p : Params F) (input : List F) (h : F) (hD : 3 ≤ p.maxDepth)
    (hr : ∀ s y, O.read s y ≠ .ub) (hi : ∀ h n s, O.integrate h n s ≠ .ub) (m : Nat) :
    ∀ k c s, Later p.maxDepth c → m + k = c.rank + 2 → 1 ≤ k →
      Safe (columns O p input h m k c s) (fun e => match e with
        | .accept _ _ c' => Later p.maxDepth c' ∧ (2 ≤ c.rank → 2 ≤ c'.rank)
        | .reject _ _ c' => Later p.maxDepth c' ∧ (2 ≤ c.rank → 2 ≤ c'.rank)
        | .exhausted _ c' => Later p.maxDepth c' ∧ (2 ≤ c.rank → 2 ≤ c'.rank)) := by
  induction m with
  | zero => intro k c s hc _ _; exact Safe.ok ⟨hc, id⟩
  | succ m ih =>
    intro k c s hc hmk hk1
    have hc' := hc
    obtain ⟨hf, hr1, hr2⟩ := hc'
    unfold columns
    refine Safe.bind (Safe.of_ne (hr _ _)) (fun s _ _ => Safe.bind (chk_safe (by omega)) (fun _ _ _ =>
      Safe.bind (Safe.of_ne (hi _ _ _)) (fun s _ _ => ?_)))
    dsimp only
    generalize hg : evalColumn p input h _ k = ce
    have hce : ce.1.rank = c.rank ∧ ce.1.first = c.first := by rw [← hg]; exact ⟨rfl, rfl⟩
    obtain ⟨e1, e2⟩ := hce
    have hL : Later p.maxDepth ce.1 := ⟨e2.trans hf, by rw [e1]; exact hr1, by rw [e1]; exact hr2⟩
    have go : Safe (columns O p input h m (k + 1) ce.1 s) (fun e => match e with
        | .accept _ _ c' => Later p.maxDepth c' ∧ (2 ≤ c.rank → 2 ≤ c'.rank)
        | .reject _ _ c' => Later p.maxDepth c' ∧ (2 ≤ c.rank → 2 ≤ c'.rank)
        | .exhausted _ c' => Later p.maxDepth c' ∧ (2 ≤ c.rank → 2 ≤ c'.rank)) := by
      have := ih (k + 1) ce.1 s hL (by rw [e1]; omega) (by omega)
      rw [e1] at this
      exact this
    split_ifs with hw hle
    · have hk : k + 1 = c.rank ∨ k = c.rank ∨ k = c.rank + 1 := by
        unfold inWindow at hw
        rw [e1, e2, hf] at hw
        simpa [or_assoc] using hw
      refine Safe.bind (Safe.of_ne (hr _ _)) (fun s _ _ => ?_)
      refine Safe.bind (setNext_later p { ce.1 with reject := false } hD hL hk1 (by rw [← e1] at hk; exact hk))
        (fun r hr' _ => Safe.ok ?_)
      exact ⟨⟨rfl, hr'.1.2⟩, by rw [← e1]; exact hr'.2⟩
    · have hk : k + 1 = c.rank ∨ k = c.rank ∨ k = c.rank + 1 := by
        unfold inWindow at hw
        rw [e1, e2, hf] at hw
        simpa [or_assoc] using hw
      refine Safe.bind (isDiverged_safe_later p _ hL _ _) (fun d _ _ => ?_)
      split_ifs
      · refine Safe.bind (setNext_later p { ce.1 with reject := true, rejNum := ce.1.rejNum + 1 } hD hL hk1
          (by rw [← e1] at hk; exact hk)) (fun r hr' _ => Safe.ok ?_)
        exact ⟨hr'.1, by rw [← e1]; exact hr'.2⟩
      · exact go
    · exact go

theorem attempts_first (O : IterSys S F) (p : Params F) (input : List F)
    (hr : ∀ s y, O.read s y ≠ .ub) (hi : ∀ h n s, O.integrate h n s ≠ .ub) (tries : Nat) :
    ∀ h c s, c.first = true → c.rank + 1 ≤ p.maxDepth →
      Safe (attempts O p input tries h c s) (fun r => r.2.2.first = false ∧ 1 ≤ r.2.2.rank ∧ r.2.2.rank ≤ p.maxDepth) := by
  induction tries with
  | zero => intros; exact Safe.abort
  | succ tries ih =>
    intro h c s hf hrank
    unfold attempts
    refine Safe.bind (Safe.of_ne (hi _ _ _)) (fun s _ _ => ?_)
    dsimp only
    refine Safe.bind (columns_first O p input h hr hi _ 1 _ s hf hrank (by dsimp only) le_rfl) (fun e he _ => ?_)
    cases e with
    | accept s h c' => exact Safe.ok he
    | reject s h c' => exact absurd he id
    | exhausted s c' =>
      refine Safe.bind (Safe.of_ne (hr _ _)) (fun s _ _ => ih _ _ _ he.1 ?_)
      rw [he.2]; exact hrank

theorem attempts_later (O : IterSys S F) (p : Params F) (input : List F) (hD : 3 ≤ p.maxDepth)
    (hr : ∀ s y, O.read s y ≠ .ub) (hi : ∀ h n s, O.integrate h n s ≠ .ub) (tries : Nat) :
    ∀ h c s, Later p.maxDepth c →
      Safe (attempts O p input tries h c s) (fun r => Later p.maxDepth r.2.2 ∧ (2 ≤ c.rank → 2 ≤ r.2.2.rank)) := by
  induction tries with
  | zero => intros; exact Safe.abort
  | succ tries ih =>
    intro h c s hc
    unfold attempts
    refine Safe.bind (Safe.of_ne (hi _ _ _)) (fun s _ _ => ?_)
    dsimp only
    refine Safe.bind (columns_later O p input h hD hr hi _ 1 _ s (by exact hc) (by dsimp only) le_rfl) (fun e he _ => ?_)
    cases e with
    | accept s h c' => exact Safe.ok he
    | reject s h c' =>
      refine Safe.bind (Safe.of_ne (hr _ _)) (fun s _ _ => ?_)
      exact Safe.mono (ih _ _ _ he.1) (fun r hr => ⟨hr.1, fun h => hr.2 (he.2 h)⟩)
    | exhausted s c' =>
      refine Safe.bind (Safe.of_ne (hr _ _)) (fun s _ _ => ?_)
      exact Safe.mono (ih _ _ _ he.1) (fun r hr => ⟨hr.1, fun h => hr.2 (he.2 h)⟩)
end
end SpaceHub.BS
