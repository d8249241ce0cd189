import Verif.Model.StepControl
import Verif.Proof.BSSystems

/-
C32: the refining iterator.
-/

set_option autoImplicit false

namespace SpaceHub.Ctl
open SpaceHub SpaceHub.Sys Integrator

variable {S : Type}

/-- What the iterator relies on for the initial system `s`: `frame` = same fixed data, `same` = same state. -/
structure SeqLawful (O : SeqSys S) (s : S) (frame same : S → S → Prop) : Prop where
  refl : frame s s
  trans : ∀ x y z, frame x y → frame y z → frame x z
  step : ∀ h x y, O.step h x = .ok y → frame x y
  read : ∀ x y v, frame s x → O.read x v = .ok y → frame x y ∧ O.write y = v
  same_refl : same s s
  restore : ∀ x y, frame s x → O.read x (O.write s) = .ok y → same s y

/-- `y` are the variables after `n` equal steps that cover `H` in total, started in the state `s`. -/
def RunResult (O : SeqSys S) (same : S → S → Prop) (s : S) (H : ℝ) (n : Nat) (y : List ℝ) : Prop :=
  ∃ start final, same s start ∧ O.steps (H / n) n start = .ok final ∧ y = O.write final

theorem steps_frame {O : SeqSys S} {s : S} {frame same : S → S → Prop} (L : SeqLawful O s frame same) (h : ℝ) (n : Nat) :
    ∀ x y, frame s x → O.steps h n x = .ok y → frame s y := by
  induction n with
  | zero => intro x y hx e; cases e; exact hx
  | succ n ih =>
    intro x y hx e
    obtain ⟨z, e1, e2⟩ := Res.bind_eq_ok.1 e
    exact ih z y (L.trans _ _ _ hx (L.step _ _ _ e1)) e2

/-- the states in between -/
theorem steps_path (O : SeqSys S) (h : ℝ) (n : Nat) : ∀ x y, O.steps h n x = .ok y →
    ∃ z : Nat → S, z 0 = x ∧ z n = y ∧ ∀ i, i < n → O.step h (z i) = .ok (z (i + 1)) := by
  induction n with
  | zero => intro x y e; cases e; exact ⟨fun _ => x, rfl, rfl, fun i hi => by omega⟩
  | succ n ih =>
    intro x y e
    obtain ⟨w, e1, e2⟩ := Res.bind_eq_ok.1 e
    obtain ⟨z, h1, h2, h3⟩ := ih w y e2
    refine ⟨fun i => match i with | 0 => x | i + 1 => z i, rfl, h2, fun i hi => ?_⟩
    cases i with
    | zero => show O.step h x = .ok (z 0); rw [h1]; exact e1
    | succ i => exact h3 i (by omega)

/-- the error estimate that the refinement number `i` is judged by -/
noncomputable def estimate (order : Nat) (err : List ℝ → List ℝ → List ℝ → ℝ) (input : List ℝ) (y : Nat → List ℝ) (i : Nat) : ℝ :=
  errScale order i * err input (y (i - 1)) (y i)

theorem refine_spec {O : SeqSys S} {s : S} {frame same : S → S → Prop} (L : SeqLawful O s frame same) (order : Nat)
    (err : List ℝ → List ℝ → List ℝ → ℝ) (H : ℝ) (m : Nat) :
    ∀ (i : Nat) (x : S) (y : Nat → List ℝ) (dual : List ℝ) (e0 : ℝ) (r : S × List ℝ × ℝ), 1 ≤ i → frame s x →
      (∀ j, j < i → RunResult O same s H (ns j) (y j)) → (∀ j, 1 ≤ j → j < i → 1 < estimate order err (O.write s) y j) →
      (i ≠ 1 → dual = y (i - 2) ∧ e0 = estimate order err (O.write s) y (i - 1)) → (i = 1 → m ≠ 0) →
      refine O order err (O.write s) H m i x (y (i - 1)) dual e0 = .ok r →
      ∃ (k : Nat) (y' : Nat → List ℝ), 1 ≤ k ∧ k ≤ i + m - 1 ∧ frame s r.1 ∧ (∀ j, j ≤ k → RunResult O same s H (ns j) (y' j)) ∧
        (∀ j, 1 ≤ j → j < k → 1 < estimate order err (O.write s) y' j) ∧ r.2.2 = estimate order err (O.write s) y' k ∧
        ((r.2.2 ≤ 1 ∧ r.2.1 = y' k) ∨ (1 < r.2.2 ∧ k = i + m - 1 ∧ r.2.1 = y' (k - 1))) := by
  induction m with
  | zero =>
    intro i x y dual e0 r hi hx hy he hd hm e
    cases e
    obtain ⟨h1, h2⟩ := hd (fun h => hm h rfl)
    have hi2 : 2 ≤ i := by
      rcases Nat.lt_or_ge i 2 with h | h
      · exact absurd (show i = 1 by omega) (fun h => hm h rfl)
      · exact h
    refine ⟨i - 1, y, by omega, by omega, hx, fun j hj => hy j (by omega), fun j h1 h2 => he j h1 (by omega), h2, .inr ⟨?_, by omega, ?_⟩⟩
    · rw [h2]; exact he (i - 1) (by omega) (by omega)
    · exact h1
  | succ m ih =>
    intro i x y dual e0 r hi hx hy he hd _ e
    unfold refine at e
    obtain ⟨x1, r1, e⟩ := Res.bind_eq_ok.1 e
    obtain ⟨x2, r2, e⟩ := Res.bind_eq_ok.1 e
    have hx1 : frame s x1 := L.trans _ _ _ hx (L.read _ _ _ hx r1).1
    have hx2 : frame s x2 := steps_frame L _ _ _ _ hx1 r2
    set y' : Nat → List ℝ := fun j => if j = i then O.write x2 else y j with hy'
    have e1 : y' i = O.write x2 := by simp only [hy', if_true]
    have e2 : ∀ j, j < i → y' j = y j := fun j hj => by simp only [hy']; rw [if_neg (by omega)]
    have hres : ∀ j, j ≤ i → RunResult O same s H (ns j) (y' j) := by
      intro j hj
      rcases Nat.lt_or_eq_of_le hj with h | rfl
      · rw [e2 j h]; exact hy j h
      · exact ⟨x1, x2, L.restore _ _ hx r1, r2, e1⟩
    have hest : ∀ j, 1 ≤ j → j < i → estimate order err (O.write s) y' j = estimate order err (O.write s) y j := by
      intro j h1 h2; unfold estimate; rw [e2 j h2, e2 (j - 1) (by omega)]
    have hesti : estimate order err (O.write s) y' i = errScale order i * err (O.write s) (y (i - 1)) (O.write x2) := by
      unfold estimate; rw [e1, e2 (i - 1) (by omega)]
    dsimp only at e
    rw [← hesti] at e
    by_cases hc : estimate order err (O.write s) y' i ≤ 1
    · rw [if_pos hc] at e
      cases e
      exact ⟨i, y', hi, by omega, hx2, hres, fun j h1 h2 => by rw [hest j h1 h2]; exact he j h1 h2, rfl, .inl ⟨hc, e1.symm⟩⟩
    · rw [if_neg hc] at e
      have hb : ∀ j, 1 ≤ j → j < i + 1 → 1 < estimate order err (O.write s) y' j := by
        intro j h1 h2
        rcases Nat.lt_succ_iff_lt_or_eq.1 h2 with h | rfl
        · rw [hest j h1 h]; exact he j h1 h
        · exact not_le.1 hc
      obtain ⟨k, z, q⟩ := ih (i + 1) x2 y' (y (i - 1)) (estimate order err (O.write s) y' i) r (by omega) hx2
        (fun j hj => hres j (by omega)) hb (fun _ => ⟨by rw [show i + 1 - 2 = i - 1 by omega, e2 (i - 1) (by omega)], rfl⟩)
        (fun h => by omega) (by rw [Nat.add_sub_cancel, e1]; exact e)
      rw [show i + 1 + m - 1 = i + (m + 1) - 1 by omega] at q
      exact ⟨k, z, q⟩

/-- What a call of the refining iterator returns.  `y j` are the variables after `ns j` equal steps from the initial state
(1, 2, 4, 6, ..., 20), `k` is the last refinement.  Either the results number `k - 1` and `k` agree within tolerance and
the system holds the finer of them; or none of the ten estimates was within tolerance and the system holds result number 9.
The next step is the given one times the controller's answer to the last estimate. -/
theorem sequent_spec {O : SeqSys S} {s : S} {frame same : S → S → Prop} (L : SeqLawful O s frame same) (order : Nat)
    (err : List ℝ → List ℝ → List ℝ → ℝ) (ctrl : ℝ → Res ℝ) (H : ℝ) (s' : S) (h' : ℝ)
    (e : sequent O order err ctrl H s = .ok (s', h')) :
    ∃ (k : Nat) (y : Nat → List ℝ) (q : ℝ), 1 ≤ k ∧ k ≤ 10 ∧ (∀ j, j ≤ k → RunResult O same s H (ns j) (y j)) ∧
      (∀ j, 1 ≤ j → j < k → 1 < estimate order err (O.write s) y j) ∧
      (estimate order err (O.write s) y k ≤ 1 ∧ O.write s' = y k ∨
        1 < estimate order err (O.write s) y k ∧ k = 10 ∧ O.write s' = y 9) ∧
      ctrl (estimate order err (O.write s) y k) = .ok q ∧ h' = H * q ∧ frame s s' := by
  unfold sequent at e
  obtain ⟨s1, e1, e⟩ := Res.bind_eq_ok.1 e
  obtain ⟨r, e2, e⟩ := Res.bind_eq_ok.1 e
  obtain ⟨s2, e3, e⟩ := Res.bind_eq_ok.1 e
  obtain ⟨q, e4, e⟩ := Res.bind_eq_ok.1 e
  have hf1 : frame s s1 := L.trans _ _ _ L.refl (L.step _ _ _ e1)
  obtain ⟨k, y, h1, h2, h3, h4, h5, h6, h7⟩ := refine_spec L order err H 10 1 s1 (fun _ => O.write s1) [] 0 r le_rfl hf1
    (fun j hj => by
      obtain rfl : j = 0 := by omega
      refine ⟨s, s1, L.same_refl, ?_, rfl⟩
      show O.steps (H / ((1 : ℕ) : ℝ)) 1 s = _
      rw [Nat.cast_one, div_one]
      show O.step H s >>= _ = _
      rw [e1]; rfl)
    (fun j h1 h2 => by omega) (fun h => absurd rfl h) (fun _ => by norm_num) e2
  obtain ⟨hr1, hr2⟩ := L.read _ _ _ h3 e3
  rw [Res.ok.injEq, Prod.mk.injEq] at e
  obtain ⟨rfl, rfl⟩ := e
  refine ⟨k, y, q, h1, by omega, h4, h5, ?_, by rw [← h6]; exact e4, rfl, L.trans _ _ _ h3 hr1⟩
  rw [hr2, ← h6]
  rcases h7 with ⟨a, b⟩ | ⟨a, b, c⟩
  · exact .inl ⟨a, b⟩
  · refine .inr ⟨a, by omega, ?_⟩
    rw [c]; congr 1; omega

/-- A plain system with a fixed-step integrator given by its stages. -/
noncomputable def seqSimple (I : Interactions) (stages : List Stage) : SeqSys Simple where
  write := fun s => s.write I
  read := fun s y => s.read I y
  step := fun h s => integrate (simpleOps I) stages h s

/-- A regularised system with a fixed-step integrator given by its stages. -/
noncomputable def seqRegu (G : ℝ) (type : ReguType) (I : Interactions) (stages : List Stage) : SeqSys ReguSys where
  write := fun s => s.write I
  read := fun s y => s.read I y
  step := fun h s => integrate (reguOps G type I) stages h s

/-- A chain system with a fixed-step integrator given by its stages. -/
noncomputable def seqChain (I : ChainInteractions) (stages : List Stage) : SeqSys ChainSys where
  write := fun s => s.write I
  read := fun s y => s.read I y
  step := fun h s => integrate (chainOps I) stages h s

/-- A regularised chain system with a fixed-step integrator given by its stages. -/
noncomputable def seqAR (G : ℝ) (type : ReguType) (I : ChainInteractions) (stages : List Stage) : SeqSys ARSys where
  write := fun s => s.write I
  read := fun s y => s.read I y
  step := fun h s => integrate (arOps G type I) stages h s

open BS

theorem simple_seq (I : Interactions) (stages : List Stage) (s : Simple) :
    SeqLawful (seqSimple I stages) s Simple.Frame (SameSimple I) where
  refl := ⟨rfl, rfl⟩
  trans _ _ _ := Simple.Frame.trans
  step _ x y e := Simple.run_frame I _ x y e
  read x y v _ e := ⟨(Simple.read_frame I x y v e).1, (Simple.read_frame I x y v e).2.2⟩
  same_refl := ⟨rfl, rfl, rfl, fun _ _ => ⟨rfl, rfl, fun _ => rfl⟩⟩
  restore := (simple_lawful I true s).restore

theorem regu_seq (G : ℝ) (type : ReguType) (I : Interactions) (stages : List Stage) (s : ReguSys) :
    SeqLawful (seqRegu G type I stages) s ReguSys.Frame (SameRegu I) where
  refl := ⟨rfl, rfl⟩
  trans _ _ _ := ReguSys.Frame.trans
  step _ x y e := ReguSys.run_frame G type I _ x y e
  read x y v _ e := ⟨(ReguSys.read_frame I x y v e).1, (ReguSys.read_frame I x y v e).2.2⟩
  same_refl := ⟨rfl, rfl, rfl, rfl, rfl, fun _ _ => ⟨rfl, rfl, fun _ => rfl⟩⟩
  restore := (regu_lawful G type I true s).restore

theorem chain_seq (I : ChainInteractions) (stages : List Stage) (s : ChainSys)
    (hc : ChainConsistent I.velDep s.P.num s.index s.cpos s.cvel s.caux s.P.pos s.P.vel s.aux) :
    SeqLawful (seqChain I stages) s ChainSys.Frame (SameChain I) where
  refl := ⟨rfl, rfl, rfl⟩
  trans _ _ _ := ChainSys.Frame.trans
  step _ x y e := ChainSys.run_frame I _ x y e
  read x y v f e := by
    have h := (chain_lawful I true s hc).read x y v f e
    exact ⟨h.1, h.2.2⟩
  same_refl := ⟨rfl, rfl, rfl, rfl, fun _ _ => ⟨rfl, rfl, fun _ => rfl⟩, fun _ _ => ⟨rfl, rfl, fun _ => rfl⟩⟩
  restore := (chain_lawful I true s hc).restore

theorem ar_seq (G : ℝ) (type : ReguType) (I : ChainInteractions) (stages : List Stage) (s : ARSys)
    (hc : ChainConsistent I.velDep s.P.num s.index s.cpos s.cvel s.caux s.P.pos s.P.vel s.aux) :
    SeqLawful (seqAR G type I stages) s ARSys.Frame (SameAR I) where
  refl := ⟨rfl, rfl, rfl⟩
  trans _ _ _ := ARSys.Frame.trans
  step _ x y e := ARSys.run_frame G type I _ x y e
  read x y v f e := by
    have h := (ar_lawful G type I true s hc).read x y v f e
    exact ⟨h.1, h.2.2⟩
  same_refl := ⟨rfl, rfl, rfl, rfl, rfl, rfl, fun _ _ => ⟨rfl, rfl, fun _ => rfl⟩, fun _ _ => ⟨rfl, rfl, fun _ => rfl⟩⟩
  restore := (ar_lawful G type I true s hc).restore

/-- The numbers of equal steps tried one after the other. -/
def subSteps (j : Nat) : Nat := if j = 0 then 1 else 2 * j

theorem ns_eq (j : Nat) (hj : j ≤ 10) : ns j = subSteps j := by
  have : ∀ j, j < 11 → ns j = subSteps j := by decide
  exact this j (by omega)

/-- What a successful call of the refining iterator did: for some `1 ≤ k ≤ 10` it computed the results `y 0, ..., y k`
of crossing the whole step `H` from the initial state in 1, 2, 4, ..., 2k equal steps; all but the last successive pair
disagreed by more than the tolerance; EITHER the last pair agrees and the system holds the finest result `y k`, OR it
does not, ten refinements were made, and the system holds the second finest result `y 9`. The difference of the pair is
scaled by `1 / ((n_k / n_{k-1})^order - 1)` before it is compared. -/
def Refined (O : SeqSys S) (same frame : S → S → Prop) (order : Nat) (err : List ℝ → List ℝ → List ℝ → ℝ) (ctrl : ℝ → Res ℝ)
    (H : ℝ) (s s' : S) (h' : ℝ) : Prop :=
  ∃ (k : Nat) (y : Nat → List ℝ) (q : ℝ), 1 ≤ k ∧ k ≤ 10 ∧
    (∀ j, j ≤ k → ∃ x : Nat → S, same s (x 0) ∧ (∀ i, i < subSteps j → O.step (H / subSteps j) (x i) = .ok (x (i + 1))) ∧
      y j = O.write (x (subSteps j))) ∧
    (∀ j, 1 ≤ j → j < k →
      1 < 1 / (((subSteps j : ℝ) / subSteps (j - 1)) ^ order - 1) * err (O.write s) (y (j - 1)) (y j)) ∧
    (1 / (((subSteps k : ℝ) / subSteps (k - 1)) ^ order - 1) * err (O.write s) (y (k - 1)) (y k) ≤ 1 ∧ O.write s' = y k ∨
      1 < 1 / (((subSteps k : ℝ) / subSteps (k - 1)) ^ order - 1) * err (O.write s) (y (k - 1)) (y k) ∧ k = 10 ∧
        O.write s' = y 9) ∧
    ctrl (1 / (((subSteps k : ℝ) / subSteps (k - 1)) ^ order - 1) * err (O.write s) (y (k - 1)) (y k)) = .ok q ∧
    h' = H * q ∧ frame s s'

theorem refined {O : SeqSys S} {s : S} {frame same : S → S → Prop} (L : SeqLawful O s frame same) (order : Nat)
    (err : List ℝ → List ℝ → List ℝ → ℝ) (ctrl : ℝ → Res ℝ) (H : ℝ) (s' : S) (h' : ℝ)
    (e : sequent O order err ctrl H s = .ok (s', h')) : Refined O same frame order err ctrl H s s' h' := by
  obtain ⟨k, y, q, h1, h2, h3, h4, h5, h6, h7⟩ := sequent_spec L order err ctrl H s' h' e
  have hk : ∀ j, j ≤ k → estimate order err (O.write s) y j =
      1 / (((subSteps j : ℝ) / subSteps (j - 1)) ^ order - 1) * err (O.write s) (y (j - 1)) (y j) := by
    intro j hj
    unfold estimate errScale
    rw [ns_eq j (by omega), ns_eq (j - 1) (by omega)]
  refine ⟨k, y, q, h1, h2, ?_, ?_, ?_, ?_, h7⟩
  · intro j hj
    obtain ⟨a, z, g1, g2, g3⟩ := h3 j hj
    rw [ns_eq j (by omega)] at g2
    obtain ⟨x, g4, g5, g6⟩ := steps_path O _ _ _ _ g2
    exact ⟨x, by rw [g4]; exact g1, g6, by rw [g5]; exact g3⟩
  · intro j a b; rw [← hk j (by omega)]; exact h4 j a b
  · rw [← hk k le_rfl]; exact h5
  · rw [← hk k le_rfl]; exact h6

/-- C32, plain system, any fixed-step integrator given by its drift and kick stages.  Missing: the full property (only a
converged finest result is returned) is false, see `C32_unconverged_result_accepted`. -/
theorem C32_simple_partial (I : Interactions) (stages : List Stage) (order : Nat) (err : List ℝ → List ℝ → List ℝ → ℝ)
    (ctrl : ℝ → Res ℝ) (H : ℝ) (s s' : Simple) (h' : ℝ)
    (e : sequent (seqSimple I stages) order err ctrl H s = .ok (s', h')) :
    Refined (seqSimple I stages) (SameSimple I) Simple.Frame order err ctrl H s s' h' :=
  refined (simple_seq I stages s) order err ctrl H s' h' e

/-- C32, regularised system. -/
theorem C32_regularized_partial (G : ℝ) (type : ReguType) (I : Interactions) (stages : List Stage) (order : Nat)
    (err : List ℝ → List ℝ → List ℝ → ℝ) (ctrl : ℝ → Res ℝ) (H : ℝ) (s s' : ReguSys) (h' : ℝ)
    (e : sequent (seqRegu G type I stages) order err ctrl H s = .ok (s', h')) :
    Refined (seqRegu G type I stages) (SameRegu I) ReguSys.Frame order err ctrl H s s' h' :=
  refined (regu_seq G type I stages s) order err ctrl H s' h' e

/-- C32, chain system. -/
theorem C32_chain_partial (I : ChainInteractions) (stages : List Stage) (order : Nat) (err : List ℝ → List ℝ → List ℝ → ℝ)
    (ctrl : ℝ → Res ℝ) (H : ℝ) (s s' : ChainSys) (h' : ℝ)
    (hc : ChainConsistent I.velDep s.P.num s.index s.cpos s.cvel s.caux s.P.pos s.P.vel s.aux)
    (e : sequent (seqChain I stages) order err ctrl H s = .ok (s', h')) :
    Refined (seqChain I stages) (SameChain I) ChainSys.Frame order err ctrl H s s' h' :=
  refined (chain_seq I stages s hc) order err ctrl H s' h' e

/-- C32, regularised chain system. -/
theorem C32_archain_partial (G : ℝ) (type : ReguType) (I : ChainInteractions) (stages : List Stage) (order : Nat)
    (err : List ℝ → List ℝ → List ℝ → ℝ) (ctrl : ℝ → Res ℝ) (H : ℝ) (s s' : ARSys) (h' : ℝ)
    (hc : ChainConsistent I.velDep s.P.num s.index s.cpos s.cvel s.caux s.P.pos s.P.vel s.aux)
    (e : sequent (seqAR G type I stages) order err ctrl H s = .ok (s', h')) :
    Refined (seqAR G type I stages) (SameAR I) ARSys.Frame order err ctrl H s s' h' :=
  refined (ar_seq G type I stages s hc) order err ctrl H s' h' e

/-- A system with one variable that every step, of whatever length, increases by one. -/
def counter : SeqSys ℝ where
  write := fun s => [s]
  read := fun _ y => .ok (y.headD 0)
  step := fun _ s => .ok (s + 1)

theorem counter_steps (h : ℝ) (n : Nat) (s : ℝ) : counter.steps h n s = .ok (s + n) := by
  induction n generalizing s with
  | zero => show Res.ok s = _; rw [Nat.cast_zero, add_zero]
  | succ n ih =>
    show (Res.ok (s + 1) >>= fun s => counter.steps h n s) = _
    rw [Res.ok_bind, ih]; push_cast; congr 1; ring

theorem big (order i : Nat) (ho : 1 ≤ order) (h1 : 1 ≤ i) (h2 : i ≤ 10) : 1 < errScale order i * (2 * 2 ^ order) := by
  have hr : 1 < (ns i : ℝ) / ns (i - 1) ∧ (ns i : ℝ) / ns (i - 1) ≤ 2 := by
    have : i = 1 ∨ i = 2 ∨ i = 3 ∨ i = 4 ∨ i = 5 ∨ i = 6 ∨ i = 7 ∨ i = 8 ∨ i = 9 ∨ i = 10 := by omega
    rcases this with rfl | rfl | rfl | rfl | rfl | rfl | rfl | rfl | rfl | rfl <;> norm_num [ns]
  unfold errScale
  have hp : (1 : ℝ) < ((ns i : ℝ) / ns (i - 1)) ^ order := one_lt_pow₀ hr.1 (by omega)
  have hp2 : ((ns i : ℝ) / ns (i - 1)) ^ order ≤ 2 ^ order := pow_le_pow_left₀ (by linarith [hr.1]) hr.2 _
  rw [one_div, inv_mul_eq_div, lt_div_iff₀ (by linarith)]
  linarith

/-- The property fails: when no refinement agrees with the one before, the call still returns normally (no abort, no
smaller step tried), and the system holds the result of 18 sub-steps although the finest result computed was that of 20. -/
theorem C32_unconverged_result_accepted (ctrl : ℝ → Res ℝ) (q H s : ℝ) (order : Nat) (ho : 1 ≤ order)
    (hq : ctrl (1 / (((20 : ℝ) / 18) ^ order - 1) * (2 * 2 ^ order)) = .ok q) :
    sequent counter order (fun _ _ _ => 2 * 2 ^ order) ctrl H s = .ok (s + 18, H * q) := by
  have key : ∀ m i x (out dual : List ℝ) (e0 : ℝ), 1 ≤ i → i + m ≤ 11 → 
      refine counter order (fun _ _ _ => 2 * 2 ^ order) [s] H (m + 1) i x out dual e0 =
        if i + m ≤ 10 then (if m = 0 then .ok (s + ns i, out, errScale order i * (2 * 2 ^ order)) else
          .ok (s + ns (i + m), [s + ns (i + m - 1)], errScale order (i + m) * (2 * 2 ^ order)))
        else refine counter order (fun _ _ _ => 2 * 2 ^ order) [s] H (m + 1) i x out dual e0 := by
    intro m
    induction m with
    | zero =>
      intro i x out dual e0 h1 h2
      by_cases hi : i ≤ 10
      · rw [if_pos (by omega), if_pos rfl]
        have hbig : ¬ errScale order i * (2 * 2 ^ order) ≤ 1 := by
          refine not_le.2 (big order i ho h1 hi)
        show (Res.ok s >>= fun y => counter.steps (H / ns i) (ns i) y >>= fun y =>
          if errScale order i * (2 * 2 ^ order) ≤ 1 then _ else _) = _
        rw [Res.ok_bind, counter_steps, Res.ok_bind, if_neg hbig]
        rfl
      · rw [if_neg (by omega)]
    | succ m ih =>
      intro i x out dual e0 h1 h2
      by_cases hi : i + (m + 1) ≤ 10
      · rw [if_pos hi, if_neg (by omega)]
        have hbig : ¬ errScale order i * (2 * 2 ^ order) ≤ 1 := not_le.2 (big order i ho h1 (by omega))
        show (Res.ok s >>= fun y => counter.steps (H / ns i) (ns i) y >>= fun y =>
          if errScale order i * (2 * 2 ^ order) ≤ 1 then _ else refine counter order (fun _ _ _ => 2 * 2 ^ order) [s] H (m + 1) (i + 1) y [y] out _) = _
        rw [Res.ok_bind, counter_steps, Res.ok_bind, if_neg hbig, ih (i + 1) _ _ _ _ (by omega) (by omega), if_pos (by omega)]
        by_cases hm : m = 0
        · subst hm; rw [if_pos rfl]; rfl
        · rw [if_neg hm]
          rw [show i + 1 + m = i + (m + 1) by omega]
      · rw [if_neg hi]
  have h0 := key 9 1 (s + 1) [s + 1] [] 0 le_rfl (by omega)
  rw [if_pos (by omega), if_neg (by omega)] at h0
  show (Res.ok (s + 1) >>= fun y => refine counter order (fun _ _ _ => 2 * 2 ^ order) [s] H 10 1 y [y] [] 0 >>= fun r =>
    Res.ok (r.2.1.headD 0) >>= fun t => ctrl r.2.2 >>= fun q => Res.ok (t, H * q)) = _
  rw [Res.ok_bind, h0, Res.ok_bind, Res.ok_bind]
  have e1 : errScale order (1 + 9) = 1 / (((20 : ℝ) / 18) ^ order - 1) := by
    unfold errScale
    rw [show ns (1 + 9) = 20 from rfl, show ns (1 + 9 - 1) = 18 from rfl]; norm_num
  rw [e1]
  show (ctrl (1 / (((20 : ℝ) / 18) ^ order - 1) * (2 * 2 ^ order)) >>= _) = _
  rw [hq, Res.ok_bind]
  rw [show ns (1 + 9 - 1) = 18 from rfl]
  norm_num

/-- A converged case: one refinement is enough when the two results agree. -/
example (q H s : ℝ) (ctrl : ℝ → Res ℝ) (hq : ctrl (errScale 2 1 * 0) = .ok q) :
    sequent counter 2 (fun _ _ _ => 0) ctrl H s = .ok (s + 2, H * q) := by
  show (Res.ok (s + 1) >>= fun y => refine counter 2 (fun _ _ _ => 0) [s] H 10 1 y [y] [] 0 >>= fun r =>
    Res.ok (r.2.1.headD 0) >>= fun t => ctrl r.2.2 >>= fun q => Res.ok (t, H * q)) = _
  rw [Res.ok_bind]
  have : refine counter 2 (fun _ _ _ => 0) [s] H 10 1 (s + 1) [s + 1] [] 0 = .ok (s + 2, [s + 2], errScale 2 1 * 0) := by
    show (Res.ok s >>= fun y => counter.steps (H / ns 1) (ns 1) y >>= fun y =>
          if errScale 2 1 * 0 ≤ 1 then _ else _) = _
    rw [Res.ok_bind, counter_steps, Res.ok_bind, if_pos (by norm_num)]
    rfl
  rw [this, Res.ok_bind, Res.ok_bind]
  show (ctrl (errScale 2 1 * 0) >>= _) = _
  rw [hq]; rfl

end SpaceHub.Ctl
