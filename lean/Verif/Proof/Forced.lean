import Verif.Spec.Forced
import Verif.Proof.LetterOrder
import Verif.Proof.ConvergeOrder
import Verif.Props.Converge
import Verif.Props.Reverse
import Verif.Props.Core

/-
Plain systems with any forces as the composition of three straight motions.
-/

set_option autoImplicit false

namespace SpaceHub.Sys
open SpaceHub V3 Force Core Integrator Spec Props Finset Converge
open scoped ContDiff

/-- The forces `I` give `n` particles of masses `m` the accelerations `a`; every force adds to what the others gave; those that are declared independent of
the velocities are so. -/
structure Acts (I : Interactions) (n : Nat) (m : Nat → ℝ) (a : Field n) : Prop where
  honest : HonestForces I
  adds : ∀ f ∈ I.internal :: I.extra, ∀ P, ∃ g, Adds f P g
  acc : ∀ P : Particles, P.num = n → (∀ k, k < n → P.mass k = m k) → ∀ k : Fin n, I.acc P k = a (fun j => P.pos j) (fun j => P.vel j) k

theorem totAcc_split {I : Interactions} (hH : HonestForces I) (hA : ∀ f ∈ I.internal :: I.extra, ∀ P, ∃ g, Adds f P g) (hd : I.velDep = true) (P : Particles)
    (w : Arr (V3 ℝ)) (k : Nat) (hk : k < P.num) :
    Simple.totVelIndepAcc I P k + I.velDepAcc { P with vel := w } k = I.acc { P with vel := w } k := by
  classical
  rw [← hH.totVelIndepAcc_eq P w]
  generalize hQ : ({ P with vel := w } : Particles) = Q
  have hkQ : k < Q.num := by rw [← hQ]; exact hk
  let g : ForceClass Particles → Nat → V3 ℝ := fun f => if h : f ∈ I.internal :: I.extra then Classical.choose (hA f h Q) else fun _ => 0
  have hg : ∀ f ∈ I.internal :: I.extra, Adds f Q (g f) := fun f hf => by
    simp only [g, dif_pos hf]; exact Classical.choose_spec (hA f hf Q)
  obtain ⟨h1, h2, h3, h4, _, h6⟩ := C11_force_splitting Particles.num I.internal I.extra Q g (hg _ List.mem_cons_self)
    (fun f hf => hg f (List.mem_cons_of_mem _ hf)) (fun _ => 0) k hkQ
  have e1 : I.newtonianAcc Q k = g I.internal k := h1
  have e2 : I.acc Q k = _ := h2
  have e3 : I.velDepAcc Q k = _ := h3 hd
  rw [e2, h6, e3]
  unfold Simple.totVelIndepAcc
  by_cases hi : I.velIndep = true
  · have e4 : I.velIndepAcc Q k = _ := h4 hi
    simp only [hi, if_true]
    rw [arrayAdd_apply, if_pos hkQ, e1, e4]
    abel
  · simp only [hi, if_false, Bool.false_eq_true]
    rw [e1]
    have : I.extra.filter (fun f => !f.velDep) = [] := by
      rw [List.filter_eq_nil_iff]
      intro f hf h
      exact hi (List.any_eq_true.2 ⟨f, hf, h⟩)
    rw [this]
    simp

/-- the accelerations on configurations -/
def fieldOf {n : Nat} (a : Field n) (x v : Conf n) : Conf n := inNumbers a (x, v)

theorem field_conf {I : Interactions} {n : Nat} {m : Nat → ℝ} {a : Field n} (A : Acts I n m a) (P : Particles) (hn : P.num = n)
    (hm : ∀ k, k < n → P.mass k = m k) : conf n (I.acc P) = fieldOf a (conf n P.pos) (conf n P.vel) := by
  funext k
  show co (I.acc P k) = _
  rw [A.acc P hn hm k]
  rfl

/-! ### velocity-dependent forces -/

/-- positions, velocities, second velocities -/
abbrev Ext (n : Nat) := Conf n × Conf n × Conf n

/-- the three moves -/
def moveF {n : Nat} (a : Field n) : Move → Ext n → Ext n
  | .drift, z => (z.2.1, 0, 0)
  | .real, z => (0, fieldOf a z.1 z.2.2, 0)
  | .pseudo, z => (0, 0, fieldOf a z.1 z.2.1)

theorem move_straight {n : Nat} (a : Field n) (X : Move) : Letters.Straight (moveF a X) := by
  intro y s
  cases X <;> simp [moveF]

/-- second velocities are made equal -/
def equalize {n : Nat} (z : Ext n) : Ext n := (z.1, z.2.1, z.2.1)

theorem equalize_norm {n : Nat} (z z' : Ext n) : ‖equalize z - equalize z'‖ ≤ ‖z - z'‖ := by
  have h1 := norm_fst_le (z - z')
  have h2 := (norm_fst_le (z - z').2).trans (norm_snd_le (z - z'))
  exact norm_prod_le_iff.2 ⟨h1, norm_prod_le_iff.2 ⟨h2, h2⟩⟩

def extOf (n : Nat) (s : Simple) : Ext n := (conf n s.P.pos, conf n s.P.vel, conf n s.aux)

/-- `tot` are the accelerations by the forces that do not depend on the velocities, at the positions `x`. -/
def RestAt (I : Interactions) (n : Nat) (a : Field n) (M : Arr ℝ) (x tot : Arr (V3 ℝ)) : Prop :=
  ∀ w : Arr (V3 ℝ), conf n (arrayAdd n tot (I.velDepAcc ⟨n, x, w, M⟩)) = fieldOf a (conf n x) (conf n w)

theorem rest_at {I : Interactions} {n : Nat} {m : Nat → ℝ} {a : Field n} (A : Acts I n m a) (hd : I.velDep = true) (P : Particles) (hn : P.num = n)
    (hm : ∀ k, k < n → P.mass k = m k) : RestAt I n a P.mass P.pos (Simple.totVelIndepAcc I P) := by
  intro w
  obtain ⟨N, x, v, M⟩ := P
  have hn' : n = N := hn.symm
  subst hn'
  have := field_conf A ⟨n, x, w, M⟩ rfl hm
  rw [show conf n x = conf n (⟨n, x, w, M⟩ : Particles).pos from rfl, show conf n w = conf n (⟨n, x, w, M⟩ : Particles).vel from rfl, ← this]
  funext k
  show co (arrayAdd n _ _ (k : Nat)) = co _
  rw [arrayAdd_apply, if_pos k.2]
  exact congrArg co (totAcc_split A.honest A.adds hd ⟨n, x, v, M⟩ w k k.2)

theorem real_link {I : Interactions} {n : Nat} {a : Field n} {tot : Arr (V3 ℝ)} (s : Simple) (hn : s.P.num = n) (T : RestAt I n a s.P.mass s.P.pos tot) (h : ℝ) :
    (s.kickReal I tot h).P.num = n ∧ (s.kickReal I tot h).P.mass = s.P.mass ∧ (s.kickReal I tot h).P.pos = s.P.pos ∧
      extOf n (s.kickReal I tot h) = extOf n s + h • moveF a .real (extOf n s) := by
  obtain ⟨⟨N, x, v, M⟩, t, w, inc, sy⟩ := s
  have hn' : n = N := hn.symm
  subst hn'
  obtain ⟨i, hi⟩ := Simple.kickReal_fields I tot h ⟨⟨n, x, v, M⟩, t, w, inc, sy⟩
  rw [hi]
  refine ⟨rfl, rfl, rfl, ?_⟩
  simp only [extOf, conf_advance, moveF]
  rw [T w]
  ext1
  · simp
  · ext1 <;> simp

theorem pseudo_link {I : Interactions} {n : Nat} {a : Field n} {tot : Arr (V3 ℝ)} (s : Simple) (hn : s.P.num = n) (T : RestAt I n a s.P.mass s.P.pos tot) (h : ℝ) :
    (s.kickPseu I tot h).P = s.P ∧ extOf n (s.kickPseu I tot h) = extOf n s + h • moveF a .pseudo (extOf n s) := by
  obtain ⟨⟨N, x, v, M⟩, t, w, inc, sy⟩ := s
  have hn' : n = N := hn.symm
  subst hn'
  obtain ⟨i, hi⟩ := Simple.kickPseu_fields I tot h ⟨⟨n, x, v, M⟩, t, w, inc, sy⟩
  rw [hi]
  refine ⟨rfl, ?_⟩
  simp only [extOf, conf_advance, moveF]
  rw [T v]
  ext1
  · simp
  · ext1 <;> simp

theorem kick_link {I : Interactions} {n : Nat} {m : Nat → ℝ} {a : Field n} (A : Acts I n m a) (hd : I.velDep = true) (s : Simple) (hn : s.P.num = n)
    (hm : ∀ k, k < n → s.P.mass k = m k) (c : ℚ) (h : ℝ) :
    (s.kick I (c * h)).P.num = n ∧ (∀ k, k < n → (s.kick I (c * h)).P.mass k = m k) ∧
      extOf n (s.kick I (c * h)) = Letters.wstep (moveF a) (split (.kick c)) h (extOf n s) := by
  have fr := Simple.kick_frame I s (c * h)
  refine ⟨fr.1.trans hn, fun k hk => by rw [fr.2.1]; exact hm k hk, ?_⟩
  have T := rest_at A hd s.P hn hm
  unfold Simple.kick
  rw [if_pos hd]
  simp only
  generalize Simple.totVelIndepAcc I s.P = tot at T ⊢
  obtain ⟨a1, a2, a3, a4⟩ := real_link s hn T (1 / 2 * (c * h))
  generalize s.kickReal I tot (1 / 2 * (c * h)) = s1 at *
  rw [← a2, ← a3] at T
  obtain ⟨b1, b2⟩ := pseudo_link s1 a1 T (c * h)
  generalize s1.kickPseu I tot (c * h) = s2 at *
  rw [← b1] at T
  obtain ⟨_, _, _, c4⟩ := real_link s2 (by rw [b1]; exact a1) T (1 / 2 * (c * h))
  rw [c4, b2, a4]
  have e1 : (1 / 2 * (c * h) : ℝ) = h * ((c / 2 : ℚ) : ℝ) := by push_cast; ring
  have e2 : (c * h : ℝ) = h * (c : ℝ) := by ring
  rw [e1, e2]
  rfl

theorem stages_link3 {I : Interactions} {n : Nat} {m : Nat → ℝ} {a : Field n} (A : Acts I n m a) (hd : I.velDep = true) (h : ℝ) (stages : List Stage) :
    ∀ s : Simple, s.P.num = n → (∀ k, k < n → s.P.mass k = m k) →
    ∃ s', (simpleOps I).run (stages.map (Stage.op h)) s = .ok s' ∧ s'.P.num = n ∧ (∀ k, k < n → s'.P.mass k = m k) ∧
      extOf n s' = Letters.wstep (moveF a) (stages.flatMap split) h (extOf n s) := by
  induction stages with
  | nil => exact fun s hn hm => ⟨s, rfl, hn, hm, rfl⟩
  | cons st l ih =>
    intro s hn hm
    cases st with
    | drift c =>
      obtain ⟨s', e, a1, a2, a3⟩ := ih (s.drift (c * h)) (by rw [simple_drift_P]; exact hn) (by rw [simple_drift_P]; exact hm)
      refine ⟨s', e, a1, a2, a3.trans ?_⟩
      rw [List.flatMap_cons]
      show Letters.wstep (moveF a) (l.flatMap split) h _ = Letters.wstep (moveF a) (l.flatMap split) h (Letters.flow (moveF a) (.drift, c) h (extOf n s))
      congr 1
      obtain ⟨i, hi⟩ := s.drift_fields (c * h)
      rw [hi]
      simp only [extOf, Letters.flow, moveF]
      rw [hn, conf_advance]
      ext1
      · simp only [Prod.fst_add, Prod.smul_fst, mul_comm]
      · ext1 <;> simp
    | kick c =>
      obtain ⟨k1, k2, k3⟩ := kick_link A hd s hn hm c h
      obtain ⟨s', e, a1, a2, a3⟩ := ih (s.kick I (c * h)) k1 k2
      refine ⟨s', e, a1, a2, a3.trans ?_⟩
      rw [k3]
      rfl

theorem steps_link3 {I : Interactions} {n : Nat} {m : Nat → ℝ} {a : Field n} (A : Acts I n m a) (hd : I.velDep = true) (stages : List Stage) (hs : List ℝ) :
    ∀ s : Simple, s.P.num = n → (∀ k, k < n → s.P.mass k = m k) →
    ∃ s', steps (simpleStep I) (hs.map fun h => stages.map (Stage.op h)) s = .ok s' ∧ s'.P.num = n ∧ (∀ k, k < n → s'.P.mass k = m k) ∧
      extOf n s' = iter (fun h z => Letters.wstep (moveF a) (stages.flatMap split) h (equalize z)) hs (extOf n s) := by
  induction hs with
  | nil => exact fun s hn hm => ⟨s, rfl, hn, hm, rfl⟩
  | cons h l ih =>
    intro s hn hm
    have hp : s.preIter I = { s with aux := s.P.vel } := by unfold Simple.preIter; rw [if_pos hd]
    obtain ⟨s1, e1, a1, a2, a3⟩ := stages_link3 A hd h stages { s with aux := s.P.vel } hn hm
    obtain ⟨s2, e2, b1, b2, b3⟩ := ih s1 a1 a2
    refine ⟨s2, ?_, b1, b2, ?_⟩
    · have : simpleStep I (stages.map (Stage.op h)) s = .ok s1 := by unfold simpleStep; rw [hp]; exact e1
      rw [List.map_cons, steps, this]
      exact e2
    · rw [b3, a3]; rfl

theorem steps_timeI (I : Interactions) (stages : List Stage) (hs : List ℝ) : ∀ s s' : Simple,
    steps (simpleStep I) (hs.map fun h => stages.map (Stage.op h)) s = .ok s' → s'.time = s.time + driftSum stages * hs.sum := by
  induction hs with
  | nil => intro s s' e; cases e; simp
  | cons h l ih =>
    intro s s' e
    obtain ⟨s1, e1, e2⟩ := Res.bind_eq_ok.1 e
    obtain ⟨s1', f1, f2⟩ := C17_simple_time I (stages.map (Stage.op h)) (s.preIter I)
    have : simpleStep I (stages.map (Stage.op h)) s = .ok s1' := f1
    rw [this] at e1
    cases e1
    have ht : (s.preIter I).time = s.time := by unfold Simple.preIter; split <;> rfl
    rw [ih _ _ e2, f2, driftTime_stages, List.sum_cons, ht]
    ring

/-! ### forces that do not depend on the velocities -/

/-- the two moves -/
def restF {n : Nat} (a : Field n) : Bool → Conf n × Conf n → Conf n × Conf n
  | true, z => (z.2, 0)
  | false, z => (0, fieldOf a z.1 z.2)

theorem field_rest {I : Interactions} {n : Nat} {m : Nat → ℝ} {a : Field n} (A : Acts I n m a) (hd : I.velDep = false) (x v w : Conf n) :
    fieldOf a x v = fieldOf a x w := by
  let f : Conf n → Arr (V3 ℝ) := fun x k => if h : k < n then ve (x ⟨k, h⟩) else 0
  have hf : ∀ x : Conf n, conf n (f x) = x := fun x => funext fun k => by
    show co (f x k) = _
    simp only [f, dif_pos k.2, Fin.eta, co_ve]
  have h1 := field_conf A ⟨n, f x, f v, m⟩ rfl (fun _ _ => rfl)
  have h2 := field_conf A ⟨n, f x, f w, m⟩ rfl (fun _ _ => rfl)
  have h3 : I.acc ⟨n, f x, f v, m⟩ = I.acc ⟨n, f x, f w, m⟩ := A.honest.acc_eq ⟨n, f x, f w, m⟩ (f v) hd
  rw [h3, h2] at h1
  simp only [hf] at h1
  exact h1.symm

theorem rest_straight {I : Interactions} {n : Nat} {m : Nat → ℝ} {a : Field n} (A : Acts I n m a) (hd : I.velDep = false) (X : Bool) : Straight (restF a X) := by
  intro y s
  cases X
  · simp only [restF]
    refine Prod.ext rfl ?_
    show fieldOf a (y.1 + s • 0) _ = _
    rw [smul_zero, add_zero]
    exact field_rest A hd _ _ _
  · simp [restF]

theorem stages_link2 {I : Interactions} {n : Nat} {m : Nat → ℝ} {a : Field n} (A : Acts I n m a) (hd : I.velDep = false) (h : ℝ) (stages : List Stage) :
    ∀ s : Simple, s.P.num = n → (∀ k, k < n → s.P.mass k = m k) →
    ∃ s', (simpleOps I).run (stages.map (Stage.op h)) s = .ok s' ∧ s'.P.num = n ∧ (∀ k, k < n → s'.P.mass k = m k) ∧
      (conf n s'.P.pos, conf n s'.P.vel) = wstep (restF a) stages h (conf n s.P.pos, conf n s.P.vel) := by
  induction stages with
  | nil => exact fun s hn hm => ⟨s, rfl, hn, hm, rfl⟩
  | cons st l ih =>
    intro s hn hm
    cases st with
    | drift c =>
      obtain ⟨s', e, a1, a2, a3⟩ := ih (s.drift (c * h)) (by rw [simple_drift_P]; exact hn) (by rw [simple_drift_P]; exact hm)
      refine ⟨s', e, a1, a2, a3.trans ?_⟩
      rw [simple_drift_P, wstep_cons]
      congr 1
      rw [hn]
      simp only [conf_advance, flow, restF, letter, coef]
      ext1
      · simp only [Prod.fst_add, Prod.smul_fst, mul_comm]
      · simp
    | kick c =>
      have hk : (s.kick I (c * h)).P = { s.P with vel := advance s.P.num s.P.vel (I.acc s.P) (c * h) } := by
        unfold Simple.kick
        rw [if_neg (by rw [hd]; simp)]
        simp only
        obtain ⟨i, hi⟩ := Simple.syncVel_fields { s with P := { s.P with vel := advance s.P.num s.P.vel (I.acc s.P) (c * h) } } (I.acc s.P) (c * h)
        rw [hi]
      obtain ⟨s', e, a1, a2, a3⟩ := ih (s.kick I (c * h)) (by rw [hk]; exact hn) (by rw [hk]; exact hm)
      refine ⟨s', e, a1, a2, a3.trans ?_⟩
      rw [hk, wstep_cons]
      congr 1
      simp only
      rw [hn, conf_advance, field_conf A s.P hn hm]
      simp only [flow, restF, letter, coef]
      ext1
      · simp
      · simp only [Prod.snd_add, Prod.smul_snd, mul_comm]

theorem steps_link2 {I : Interactions} {n : Nat} {m : Nat → ℝ} {a : Field n} (A : Acts I n m a) (hd : I.velDep = false) (stages : List Stage) (hs : List ℝ) :
    ∀ s : Simple, s.P.num = n → (∀ k, k < n → s.P.mass k = m k) →
    ∃ s', steps (simpleStep I) (hs.map fun h => stages.map (Stage.op h)) s = .ok s' ∧ s'.P.num = n ∧ (∀ k, k < n → s'.P.mass k = m k) ∧
      (conf n s'.P.pos, conf n s'.P.vel) = iter (wstep (restF a) stages) hs (conf n s.P.pos, conf n s.P.vel) := by
  induction hs with
  | nil => exact fun s hn hm => ⟨s, rfl, hn, hm, rfl⟩
  | cons h l ih =>
    intro s hn hm
    have hp : s.preIter I = s := by unfold Simple.preIter; rw [if_neg (by rw [hd]; simp)]
    obtain ⟨s1, e1, a1, a2, a3⟩ := stages_link2 A hd h stages s hn hm
    obtain ⟨s2, e2, b1, b2, b3⟩ := ih s1 a1 a2
    refine ⟨s2, ?_, b1, b2, ?_⟩
    · have : simpleStep I (stages.map (Stage.op h)) s = .ok s1 := by unfold simpleStep; rw [hp]; exact e1
      rw [List.map_cons, steps, this]
      exact e2
    · rw [b3, a3]; rfl

end SpaceHub.Sys
