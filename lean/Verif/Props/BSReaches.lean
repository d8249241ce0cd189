import Verif.Props.BSRuns

/-
C106: simulations with Bulirsch-Stoer whose steps are taken from the proposals and capped come through, with an error of the fourth power of the cap.
-/

set_option autoImplicit false

namespace SpaceHub.Sys
open SpaceHub V3 Force Core Integrator Spec Props Finset Converge BS BS.Spec
open scoped ContDiff

/-- calls that return and advance the time, with steps that are picked from the proposals within `[η, δ]`, pass any time -/
theorem drive {S C : Type} (call : ℝ → C → S → S → ℝ → C → Prop) (time : S → ℝ) (s0 : S) (c0 : C) {κ η δ t0 t2 h0 : ℝ} (hκ : 0 < κ) (hη : 0 < η)
    (h0η : η ≤ h0) (h0δ : h0 ≤ δ) (pick : Nat → ℝ → ℝ) (hp : ∀ i y, η ≤ pick i y ∧ pick i y ≤ δ) (ht : time s0 ≤ t2)
    (H : ∀ (N : Nat) (s : Nat → S) (c : Nat → C) (h h' : Nat → ℝ), s 0 = s0 → c 0 = c0 → (∀ i, i < N → call (h i) (c i) (s i) (s (i + 1)) (h' i) (c (i + 1))) →
      (∀ i, i < N → 0 < h i ∧ h i ≤ δ) → (∀ i, i < N → time (s i) ≤ t2) →
      (time (s N) ≤ t2 → t0 + κ * ∑ i ∈ range N, h i ≤ time (s N)) ∧
      (time (s N) ≤ t2 → ∀ y, 0 < y → y ≤ δ → ∃ s' y' c', call y (c N) (s N) s' y' c')) :
    ∃ (N : Nat) (s : Nat → S) (c : Nat → C) (h h' : Nat → ℝ), s 0 = s0 ∧ c 0 = c0 ∧ h 0 = h0 ∧
      (∀ i, i ≤ N → call (h i) (c i) (s i) (s (i + 1)) (h' i) (c (i + 1)) ∧ h (i + 1) = pick i (h' i) ∧ (0 < h i ∧ h i ≤ δ) ∧ time (s i) ≤ t2) ∧
      t2 < time (s (N + 1)) := by
  have key : ∀ N : Nat, (∃ (N : Nat) (s : Nat → S) (c : Nat → C) (h h' : Nat → ℝ), s 0 = s0 ∧ c 0 = c0 ∧ h 0 = h0 ∧
      (∀ i, i ≤ N → call (h i) (c i) (s i) (s (i + 1)) (h' i) (c (i + 1)) ∧ h (i + 1) = pick i (h' i) ∧ (0 < h i ∧ h i ≤ δ) ∧ time (s i) ≤ t2) ∧
      t2 < time (s (N + 1))) ∨
      ∃ (s : Nat → S) (c : Nat → C) (h h' : Nat → ℝ), s 0 = s0 ∧ c 0 = c0 ∧ h 0 = h0 ∧
        (∀ i, i < N → call (h i) (c i) (s i) (s (i + 1)) (h' i) (c (i + 1)) ∧ h (i + 1) = pick i (h' i)) ∧ ∀ i, i ≤ N → (η ≤ h i ∧ h i ≤ δ) ∧ time (s i) ≤ t2 := by
    intro N
    induction N with
    | zero =>
      refine .inr ⟨fun _ => s0, fun _ => c0, fun _ => h0, fun _ => 0, rfl, rfl, rfl, fun i hi => absurd hi (by omega), fun i _ => ⟨⟨h0η, h0δ⟩, ht⟩⟩
    | succ N ih =>
      rcases ih with done | ⟨s, c, h, h', a1, a2, a3, a4, a5⟩
      · exact .inl done
      obtain ⟨_, q⟩ := H N s c h h' a1 a2 (fun i hi => (a4 i hi).1) (fun i hi => ⟨hη.trans_le (a5 i hi.le).1.1, (a5 i hi.le).1.2⟩) (fun i hi => (a5 i hi.le).2)
      obtain ⟨s', y', c', e⟩ := q (a5 N le_rfl).2 (h N) (hη.trans_le (a5 N le_rfl).1.1) (a5 N le_rfl).1.2
      have sq : ∀ {α : Type} (f : Nat → α) (x : α) (i : Nat), i ≤ N → (fun i => if i ≤ N then f i else x) i = f i := fun f x i hi => if_pos hi
      have sn : ∀ {α : Type} (f : Nat → α) (x : α), (fun i => if i ≤ N then f i else x) (N + 1) = x := fun f x => if_neg (by omega)
      have all : ∀ i, i ≤ N → call ((fun i => if i ≤ N then h i else pick N y') i) ((fun i => if i ≤ N then c i else c') i) ((fun i => if i ≤ N then s i else s') i)
          ((fun i => if i ≤ N then s i else s') (i + 1)) ((fun i => if i < N then h' i else y') i) ((fun i => if i ≤ N then c i else c') (i + 1)) ∧
          (fun i => if i ≤ N then h i else pick N y') (i + 1) = pick i ((fun i => if i < N then h' i else y') i) := by
        intro i hi
        rcases Nat.lt_or_ge i N with hl | hl
        · rw [sq _ _ i hi, sq _ _ i hi, sq _ _ i hi, sq _ _ (i + 1) hl, sq _ _ (i + 1) hl, sq _ _ (i + 1) hl]
          simp only [if_pos hl]
          exact a4 i hl
        · obtain rfl : i = N := by omega
          rw [sq _ _ i hi, sq _ _ i hi, sq _ _ i hi, sn, sn, sn]
          simp only [lt_irrefl, if_false]
          exact ⟨e, trivial⟩
      rcases le_or_gt (time s') t2 with hs' | hs'
      · refine .inr ⟨fun i => if i ≤ N then s i else s', fun i => if i ≤ N then c i else c', fun i => if i ≤ N then h i else pick N y', fun i => if i < N then h' i else y',
          (sq _ _ 0 (by omega)).trans a1, (sq _ _ 0 (by omega)).trans a2, (sq _ _ 0 (by omega)).trans a3, fun i hi => all i (by omega), fun i hi => ?_⟩
        rcases Nat.lt_or_ge i (N + 1) with hl | hl
        · rw [sq _ _ i (by omega), sq _ _ i (by omega)]
          exact a5 i (by omega)
        · obtain rfl : i = N + 1 := by omega
          rw [sn, sn]
          exact ⟨hp _ _, hs'⟩
      · refine .inl ⟨N, fun i => if i ≤ N then s i else s', fun i => if i ≤ N then c i else c', fun i => if i ≤ N then h i else pick N y', fun i => if i < N then h' i else y',
          (sq _ _ 0 (by omega)).trans a1, (sq _ _ 0 (by omega)).trans a2, (sq _ _ 0 (by omega)).trans a3, fun i hi => ?_, by rw [sn]; exact hs'⟩
        refine ⟨(all i hi).1, (all i hi).2, ?_⟩
        rw [sq _ _ i hi, sq _ _ i hi]
        exact ⟨⟨hη.trans_le (a5 i hi).1.1, (a5 i hi).1.2⟩, (a5 i hi).2⟩
  obtain ⟨N, hN⟩ := exists_nat_gt ((t2 - t0) / (κ * η))
  rcases key N with done | ⟨s, c, h, h', a1, a2, a3, a4, a5⟩
  · exact done
  exfalso
  obtain ⟨q, _⟩ := H N s c h h' a1 a2 (fun i hi => (a4 i hi).1) (fun i hi => ⟨hη.trans_le (a5 i hi.le).1.1, (a5 i hi.le).1.2⟩) (fun i hi => (a5 i hi.le).2)
  have b1 := (q (a5 N le_rfl).2).trans (a5 N le_rfl).2
  have b2 : N • η ≤ ∑ i ∈ range N, h i := by
    have := card_nsmul_le_sum (range N) h η fun i hi => (a5 i (mem_range.1 hi).le).1.1
    rwa [card_range] at this
  rw [nsmul_eq_mul] at b2
  have b3 := mul_le_mul_of_nonneg_left b2 hκ.le
  rw [div_lt_iff₀ (by positivity)] at hN
  linarith [show κ * (N * η) = N * (κ * η) by ring]

/-- powers of short steps -/
theorem sum_power {N : Nat} {h : Nat → ℝ} {k : Nat → Nat} {δ T : ℝ} (hδ : δ ≤ 1) (hh : ∀ i, i < N → 0 < h i ∧ h i ≤ δ) (hk : ∀ i, i < N → 1 ≤ k i)
    (hT : ∑ i ∈ range N, h i ≤ T) : ∑ i ∈ range N, h i ^ (2 * k i + 3) ≤ δ ^ 4 * T := by
  have u : ∑ i ∈ range N, h i ^ (2 * k i + 3) ≤ ∑ i ∈ range N, δ ^ 4 * h i := by
    refine sum_le_sum fun i hi => ?_
    obtain ⟨q1, q2⟩ := hh i (mem_range.1 hi)
    have := hk i (mem_range.1 hi)
    calc h i ^ (2 * k i + 3) ≤ h i ^ 5 := pow_le_pow_of_le_one q1.le (q2.trans hδ) (by omega)
      _ = h i ^ 4 * h i := by ring
      _ ≤ δ ^ 4 * h i := mul_le_mul_of_nonneg_right (pow_le_pow_left₀ q1.le q2 4) q1.le
  rw [← mul_sum] at u
  exact u.trans (mul_le_mul_of_nonneg_left hT (by positivity))

/-- **C106, whole simulations of regularised systems.** There are `K` and `ρ` such that, for every cap `δ ≤ ρ` and every rule that picks the next step from the proposal
within `[η, δ]`: a simulation that begins with a new iterator passes `t2` after finitely many calls, none of which fails, and at all steps before that all positions and
velocities are within `K δ ^ 4` of the true ones at the system's own time. -/
theorem C106_regularised_reaches {ex : List (ForceClass Particles)} {n : Nat} {m : Nat → ℝ} {a : Field n} (A : Acts (withGravity ex) n m a)
    {x v : ℝ → Nat → V3 ℝ} {t0 t1 t2 : ℝ} (h02 : t0 ≤ t2) (h21 : t2 < t1) (M : ForcedMotion n a x v t0 t1) (hS : SmoothAlong a x v t0 t1)
    (apart : ∀ t ∈ Set.Icc t0 t1, ∀ i j, i < n → j < n → i ≠ j → x t i ≠ x t j) (hn : 2 ≤ n) (hmass : ∀ k, k < n → 0 < m k) (type : ReguType)
    {D : Nat} (hD : 3 ≤ D) (hD' : D ≤ 24) (est : Estimator) {atol rtol : ℝ} (ha : 0 < atol) (hr : 0 ≤ rtol) (l : List Ctl.Setter)
    (g1 : 0 < (Ctl.configured l).s1) (g2 : 0 < (Ctl.configured l).s2) :
    ∃ K ρ : ℝ, 0 < ρ ∧ ∀ P, InState n m x v t0 P → ∀ (p : Params ℝ), p.maxDepth = D → Library p est atol rtol l →
      ∀ (η δ h0 : ℝ) (pick : Nat → ℝ → ℝ), 0 < η → η ≤ h0 → h0 ≤ δ → δ ≤ ρ → (∀ i y, η ≤ pick i y ∧ pick i y ≤ δ) →
      ∃ (N : Nat) (s : Nat → ReguSys) (c : Nat → State ℝ) (h h' : Nat → ℝ), s 0 = ReguSys.init 1 type t0 P ∧ c 0 = State.init D ∧ h 0 = h0 ∧
        (∀ i, i ≤ N →
          iterate (reguSys 1 type (withGravity ex) false) p (h i) (c i) ((s i).preIter (withGravity ex)) = .ok (s (i + 1), h' i, c (i + 1)) ∧
          h (i + 1) = pick i (h' i) ∧ (s i).time ≤ t2 ∧ WithinOf n m x v (s i).time (K * δ ^ 4) (s i).P) ∧
        t2 < (s (N + 1)).time := by
  obtain ⟨K, κ, ρ, hK, hκ, hρ, H⟩ := C106_regularised A h02 h21 M hS apart hn hmass type hD hD' est ha hr l g1 g2
  refine ⟨K * ((t2 - t0) / κ), min ρ 1, lt_min hρ one_pos, fun P S p hp HL η δ h0 pick hη h0η h0δ hδ hpick => ?_⟩
  have δρ := hδ.trans (min_le_left _ _)
  have δ1 := hδ.trans (min_le_right _ _)
  obtain ⟨N, s, c, h, h', e1, e2, e3, e4, e5⟩ := drive (fun y c s s' y' c' => iterate (reguSys 1 type (withGravity ex) false) p y c (s.preIter (withGravity ex)) = .ok (s', y', c'))
    ReguSys.time (ReguSys.init 1 type t0 P) (State.init D) (t0 := t0) (t2 := t2) hκ hη h0η h0δ pick hpick h02 (fun N s c h h' b1 b2 b3 b4 b5 => by
      obtain ⟨⟨k, _, q⟩, nx⟩ := H P S p hp HL N s c h h' b1 b2 b3 (fun i hi => ⟨(b4 i hi).1, (b4 i hi).2.trans δρ⟩) b5
      refine ⟨fun ht => (q ht).1, fun _ y y0 yδ => ?_⟩
      obtain ⟨s', y', c', e, _⟩ := nx y y0 (yδ.trans δρ)
      exact ⟨s', y', c', e⟩)
  refine ⟨N, s, c, h, h', e1, e2, e3, fun i hi => ⟨(e4 i hi).1, (e4 i hi).2.1, (e4 i hi).2.2.2, ?_⟩, e5⟩
  have sh : ∀ j, j < i → 0 < h j ∧ h j ≤ δ := fun j hj => (e4 j (by omega)).2.2.1
  obtain ⟨⟨k, hk, q⟩, _⟩ := H P S p hp HL i s c h h' e1 e2 (fun j hj => (e4 j (by omega)).1) (fun j hj => ⟨(sh j hj).1, (sh j hj).2.trans δρ⟩)
    (fun j hj => (e4 j (by omega)).2.2.2)
  obtain ⟨q1, W⟩ := q (e4 i hi).2.2.2
  have T : ∑ j ∈ range i, h j ≤ (t2 - t0) / κ := by
    rw [le_div_iff₀ hκ]
    linarith [q1.trans (e4 i hi).2.2.2]
  have B : K * ∑ j ∈ range i, h j ^ (2 * k j + 3) ≤ K * ((t2 - t0) / κ) * δ ^ 4 :=
    (mul_le_mul_of_nonneg_left (sum_power δ1 sh (fun j hj => (hk j hj).1) T) hK).trans (by linarith [show K * (δ ^ 4 * ((t2 - t0) / κ)) = K * ((t2 - t0) / κ) * δ ^ 4 by ring])
  exact ⟨W.num, W.mass, fun k hk => (W.pos k hk).trans B, fun k hk => (W.vel k hk).trans B⟩

/-- **C106, whole simulations of AR-chain systems**, as for regularised systems. -/
theorem C106_archain_reaches {IC : ChainInteractions} {ex : List (ForceClass Particles)} (AI : AgreesI IC (withGravity ex)) {n : Nat} {m : Nat → ℝ} {a : Field n}
    (A : Acts (withGravity ex) n m a) {x v : ℝ → Nat → V3 ℝ} {t0 t1 t2 : ℝ} (h02 : t0 ≤ t2) (h21 : t2 < t1) (M : ForcedMotion n a x v t0 t1)
    (hS : SmoothAlong a x v t0 t1) (apart : ∀ t ∈ Set.Icc t0 t1, ∀ i j, i < n → j < n → i ≠ j → x t i ≠ x t j) (hn : 2 ≤ n)
    (hmass : ∀ k, k < n → 0 < m k) (type : ReguType) {D : Nat} (hD : 3 ≤ D) (hD' : D ≤ 24) (est : Estimator) {atol rtol : ℝ} (ha : 0 < atol) (hr : 0 ≤ rtol)
    (l : List Ctl.Setter) (g1 : 0 < (Ctl.configured l).s1) (g2 : 0 < (Ctl.configured l).s2) :
    ∃ K ρ : ℝ, 0 < ρ ∧ ∀ P, InState n m x v t0 P → ∀ (p : Params ℝ), p.maxDepth = D → Library p est atol rtol l → ∀ idx, IndexOf P idx →
      ∀ (η δ h0 : ℝ) (pick : Nat → ℝ → ℝ), 0 < η → η ≤ h0 → h0 ≤ δ → δ ≤ ρ → (∀ i y, η ≤ pick i y ∧ pick i y ≤ δ) →
      ∃ (N : Nat) (s : Nat → ARSys) (c : Nat → State ℝ) (h h' : Nat → ℝ), ARSys.init 1 type t0 P idx = .ok (s 0) ∧ c 0 = State.init D ∧ h 0 = h0 ∧
        (∀ i, i ≤ N → ARMacro 1 type IC false p (h i) (c i) (s i) (s (i + 1)) (h' i) (c (i + 1)) ∧
          h (i + 1) = pick i (h' i) ∧ (s i).time ≤ t2 ∧ WithinOf n m x v (s i).time (K * δ ^ 4) (s i).P) ∧
        t2 < (s (N + 1)).time := by
  obtain ⟨K, κ, ρ, hK, hκ, hρ, H⟩ := C106_archain AI A h02 h21 M hS apart hn hmass type hD hD' est ha hr l g1 g2
  refine ⟨K * ((t2 - t0) / κ), min ρ 1, lt_min hρ one_pos, fun P S p hp HL idx hidx η δ h0 pick hη h0η h0δ hδ hpick => ?_⟩
  have δρ := hδ.trans (min_le_left _ _)
  have δ1 := hδ.trans (min_le_right _ _)
  obtain ⟨s0, es, ts⟩ : ∃ s0, ARSys.init 1 type t0 P idx = .ok s0 ∧ s0.time = t0 := by
    obtain ⟨s0, e0, _, a, _⟩ := ARSys.init_sim 1 type t0 P idx hidx.two_le hidx.isIndex
    exact ⟨s0, e0, congrArg ReguSys.time a⟩
  obtain ⟨N, s, c, h, h', e1, e2, e3, e4, e5⟩ := drive (ARMacro 1 type IC false p) ARSys.time s0 (State.init D) (t0 := t0) (t2 := t2) hκ hη h0η h0δ pick hpick (ts.trans_le h02)
    (fun N s c h h' b1 b2 b3 b4 b5 => by
      obtain ⟨⟨k, _, q⟩, nx⟩ := H P S p hp HL idx hidx N s c h h' (b1 ▸ es) b2 (fun i hi => b3 i hi) (fun i hi => ⟨(b4 i hi).1, (b4 i hi).2.trans δρ⟩) b5
      refine ⟨fun ht => (q ht).1, fun _ y y0 yδ => ?_⟩
      obtain ⟨u, y', c', e, _, ⟨z, hz⟩, po⟩ := nx y y0 (yδ.trans δρ)
      obtain ⟨s', e'⟩ := po z hz
      exact ⟨s', y', c', u, z, e, hz, e'⟩)
  refine ⟨N, s, c, h, h', e1 ▸ es, e2, e3, fun i hi => ⟨(e4 i hi).1, (e4 i hi).2.1, (e4 i hi).2.2.2, ?_⟩, e5⟩
  have sh : ∀ j, j < i → 0 < h j ∧ h j ≤ δ := fun j hj => (e4 j (by omega)).2.2.1
  obtain ⟨⟨k, hk, q⟩, _⟩ := H P S p hp HL idx hidx i s c h h' (e1 ▸ es) e2 (fun j hj => (e4 j (by omega)).1) (fun j hj => ⟨(sh j hj).1, (sh j hj).2.trans δρ⟩)
    (fun j hj => (e4 j (by omega)).2.2.2)
  obtain ⟨q1, W⟩ := q (e4 i hi).2.2.2
  have T : ∑ j ∈ range i, h j ≤ (t2 - t0) / κ := by
    rw [le_div_iff₀ hκ]
    linarith [q1.trans (e4 i hi).2.2.2]
  have B : K * ∑ j ∈ range i, h j ^ (2 * k j + 3) ≤ K * ((t2 - t0) / κ) * δ ^ 4 :=
    (mul_le_mul_of_nonneg_left (sum_power δ1 sh (fun j hj => (hk j hj).1) T) hK).trans (by linarith [show K * (δ ^ 4 * ((t2 - t0) / κ)) = K * ((t2 - t0) / κ) * δ ^ 4 by ring])
  exact ⟨W.num, W.mass, fun k hk => (W.pos k hk).trans B, fun k hk => (W.vel k hk).trans B⟩

/-- **C106, whole simulations of plain systems**, with `LeapFrogDKD`, or with either leap-frog if no force depends on the velocities. -/
theorem C106_simple_reaches {I : Interactions} {n : Nat} {m : Nat → ℝ} {a : Field n} (A : Acts I n m a) {x v : ℝ → Nat → V3 ℝ} {t0 t1 t2 : ℝ} (h02 : t0 ≤ t2)
    (h21 : t2 < t1) (M : ForcedMotion n a x v t0 t1) (hS : SmoothAlong a x v t0 t1)
    {D : Nat} (hD : 3 ≤ D) (hD' : D ≤ 24) (est : Estimator) {atol rtol : ℝ} (ha : 0 < atol) (hr : 0 ≤ rtol) (l : List Ctl.Setter)
    (g1 : 0 < (Ctl.configured l).s1) (g2 : 0 < (Ctl.configured l).s2) :
    ∃ K ρ : ℝ, 0 < ρ ∧ ∀ P, InState n m x v t0 P → ∀ (kdk : Bool) (p : Params ℝ), (I.velDep = true → kdk = false) → p.maxDepth = D → Library p est atol rtol l →
      ∀ (η δ h0 : ℝ) (pick : Nat → ℝ → ℝ), 0 < η → η ≤ h0 → h0 ≤ δ → δ ≤ ρ → (∀ i y, η ≤ pick i y ∧ pick i y ≤ δ) →
      ∃ (N : Nat) (s : Nat → Simple) (c : Nat → State ℝ) (h h' : Nat → ℝ), s 0 = Simple.init t0 P ∧ c 0 = State.init D ∧ h 0 = h0 ∧
        (∀ i, i ≤ N → iterate (simpleSys I kdk) p (h i) (c i) ((s i).preIter I) = .ok (s (i + 1), h' i, c (i + 1)) ∧
          h (i + 1) = pick i (h' i) ∧ (s i).time ≤ t2 ∧ WithinOf n m x v (s i).time (K * δ ^ 4) (s i).P) ∧
        t2 < (s (N + 1)).time := by
  obtain ⟨K, ρ, hK, hρ, H⟩ := C106_simple A (h02.trans h21.le) M hS hD hD' est ha hr l g1 g2
  refine ⟨K * (t2 - t0), min (min ρ 1) (t1 - t2), lt_min (lt_min hρ one_pos) (by linarith), fun P S kdk p hkdk hp HL η δ h0 pick hη h0η h0δ hδ hpick => ?_⟩
  have δρ := hδ.trans ((min_le_left _ _).trans (min_le_left _ _))
  have δ1 := hδ.trans ((min_le_left _ _).trans (min_le_right _ _))
  have δt := hδ.trans (min_le_right _ _)
  have whole : ∀ (N : Nat) (s : Nat → Simple) (c : Nat → State ℝ) (h h' : Nat → ℝ), s 0 = Simple.init t0 P → c 0 = State.init D →
      (∀ i, i < N → iterate (simpleSys I kdk) p (h i) (c i) ((s i).preIter I) = .ok (s (i + 1), h' i, c (i + 1))) →
      (∀ i, i < N → 0 < h i ∧ h i ≤ δ) → (∀ i, i < N → (s i).time ≤ t2) → ∀ i, i ≤ N → t0 + ∑ j ∈ range i, h j ≤ t1 := by
    intro N s c h h' b1 b2 b3 b4 b5 i
    induction i with
    | zero => intro _; rw [range_zero, sum_empty, add_zero]; linarith
    | succ i ih =>
      intro hi
      have T := (H P S kdk p hkdk hp HL i s c h h' b1 b2 (fun j hj => b3 j (by omega)) (fun j hj => ⟨(b4 j (by omega)).1, (b4 j (by omega)).2.trans δρ⟩) (ih (by omega))).1
      rw [sum_range_succ]
      linarith [b5 i (by omega), (b4 i (by omega)).2]
  obtain ⟨N, s, c, h, h', e1, e2, e3, e4, e5⟩ := drive (fun y c s s' y' c' => iterate (simpleSys I kdk) p y c (s.preIter I) = .ok (s', y', c'))
    Simple.time (Simple.init t0 P) (State.init D) (t0 := t0) (t2 := t2) one_pos hη h0η h0δ pick hpick h02 (fun N s c h h' b1 b2 b3 b4 b5 => by
      obtain ⟨T, _, nx⟩ := H P S kdk p hkdk hp HL N s c h h' b1 b2 b3 (fun i hi => ⟨(b4 i hi).1, (b4 i hi).2.trans δρ⟩) (whole N s c h h' b1 b2 b3 b4 b5 N le_rfl)
      refine ⟨fun _ => by rw [one_mul]; exact T.ge, fun _ y y0 yδ => ?_⟩
      obtain ⟨s', y', c', e, _⟩ := nx y y0 (yδ.trans δρ)
      exact ⟨s', y', c', e⟩)
  refine ⟨N, s, c, h, h', e1, e2, e3, fun i hi => ⟨(e4 i hi).1, (e4 i hi).2.1, (e4 i hi).2.2.2, ?_⟩, e5⟩
  have sh : ∀ j, j < i → 0 < h j ∧ h j ≤ δ := fun j hj => (e4 j (by omega)).2.2.1
  obtain ⟨q1, ⟨k, hk, W⟩, _⟩ := H P S kdk p hkdk hp HL i s c h h' e1 e2 (fun j hj => (e4 j (by omega)).1) (fun j hj => ⟨(sh j hj).1, (sh j hj).2.trans δρ⟩)
    (whole i s c h h' e1 e2 (fun j hj => (e4 j (by omega)).1) sh (fun j hj => (e4 j (by omega)).2.2.2) i le_rfl)
  have T : ∑ j ∈ range i, h j ≤ t2 - t0 := by linarith [(e4 i hi).2.2.2]
  have B : K * ∑ j ∈ range i, h j ^ (2 * k j + 3) ≤ K * (t2 - t0) * δ ^ 4 :=
    (mul_le_mul_of_nonneg_left (sum_power δ1 sh (fun j hj => (hk j hj).1) T) hK).trans (by linarith [show K * (δ ^ 4 * (t2 - t0)) = K * (t2 - t0) * δ ^ 4 by ring])
  exact ⟨W.num, W.mass, fun k hk => (W.pos k hk).trans B, fun k hk => (W.vel k hk).trans B⟩

/-- **C106, whole simulations of chain systems**, as for plain systems. -/
theorem C106_chain_reaches {IC : ChainInteractions} {I : Interactions} (AI : AgreesI IC I) {n : Nat} {m : Nat → ℝ} {a : Field n} (A : Acts I n m a)
    {x v : ℝ → Nat → V3 ℝ} {t0 t1 t2 : ℝ} (h02 : t0 ≤ t2) (h21 : t2 < t1) (M : ForcedMotion n a x v t0 t1) (hS : SmoothAlong a x v t0 t1)
    {D : Nat} (hD : 3 ≤ D) (hD' : D ≤ 24) (est : Estimator) {atol rtol : ℝ} (ha : 0 < atol) (hr : 0 ≤ rtol) (l : List Ctl.Setter)
    (g1 : 0 < (Ctl.configured l).s1) (g2 : 0 < (Ctl.configured l).s2) :
    ∃ K ρ : ℝ, 0 < ρ ∧ ∀ P, InState n m x v t0 P → ∀ (kdk : Bool) (p : Params ℝ), (I.velDep = true → kdk = false) → p.maxDepth = D → Library p est atol rtol l →
      ∀ idx, IndexOf P idx → ∀ (η δ h0 : ℝ) (pick : Nat → ℝ → ℝ), 0 < η → η ≤ h0 → h0 ≤ δ → δ ≤ ρ → (∀ i y, η ≤ pick i y ∧ pick i y ≤ δ) →
      ∃ (N : Nat) (s : Nat → ChainSys) (c : Nat → State ℝ) (h h' : Nat → ℝ), ChainSys.init t0 P idx = .ok (s 0) ∧ c 0 = State.init D ∧ h 0 = h0 ∧
        (∀ i, i ≤ N → ChainMacro IC kdk p (h i) (c i) (s i) (s (i + 1)) (h' i) (c (i + 1)) ∧
          h (i + 1) = pick i (h' i) ∧ (s i).time ≤ t2 ∧ WithinOf n m x v (s i).time (K * δ ^ 4) (s i).P) ∧
        t2 < (s (N + 1)).time := by
  obtain ⟨K, ρ, hK, hρ, H⟩ := C106_chain AI A (h02.trans h21.le) M hS hD hD' est ha hr l g1 g2
  refine ⟨K * (t2 - t0), min (min ρ 1) (t1 - t2), lt_min (lt_min hρ one_pos) (by linarith), fun P S kdk p hkdk hp HL idx hidx η δ h0 pick hη h0η h0δ hδ hpick => ?_⟩
  have δρ := hδ.trans ((min_le_left _ _).trans (min_le_left _ _))
  have δ1 := hδ.trans ((min_le_left _ _).trans (min_le_right _ _))
  have δt := hδ.trans (min_le_right _ _)
  obtain ⟨s0, es, ts⟩ : ∃ s0, ChainSys.init t0 P idx = .ok s0 ∧ s0.time = t0 := by
    obtain ⟨s0, e0, _, a, _⟩ := ChainSys.init_sim t0 P idx hidx.two_le hidx.isIndex
    exact ⟨s0, e0, congrArg Simple.time a⟩
  have whole : ∀ (N : Nat) (s : Nat → ChainSys) (c : Nat → State ℝ) (h h' : Nat → ℝ), s 0 = s0 → c 0 = State.init D →
      (∀ i, i < N → ChainMacro IC kdk p (h i) (c i) (s i) (s (i + 1)) (h' i) (c (i + 1))) →
      (∀ i, i < N → 0 < h i ∧ h i ≤ δ) → (∀ i, i < N → (s i).time ≤ t2) → ∀ i, i ≤ N → t0 + ∑ j ∈ range i, h j ≤ t1 := by
    intro N s c h h' b1 b2 b3 b4 b5 i
    induction i with
    | zero => intro _; rw [range_zero, sum_empty, add_zero]; linarith
    | succ i ih =>
      intro hi
      have T := (H P S kdk p hkdk hp HL idx hidx i s c h h' (b1 ▸ es) b2 (fun j hj => b3 j (by omega)) (fun j hj => ⟨(b4 j (by omega)).1, (b4 j (by omega)).2.trans δρ⟩)
        (ih (by omega))).1
      rw [sum_range_succ]
      linarith [b5 i (by omega), (b4 i (by omega)).2]
  obtain ⟨N, s, c, h, h', e1, e2, e3, e4, e5⟩ := drive (ChainMacro IC kdk p) ChainSys.time s0 (State.init D) (t0 := t0) (t2 := t2) one_pos hη h0η h0δ pick hpick (ts.trans_le h02)
    (fun N s c h h' b1 b2 b3 b4 b5 => by
      obtain ⟨T, _, nx⟩ := H P S kdk p hkdk hp HL idx hidx N s c h h' (b1 ▸ es) b2 b3 (fun i hi => ⟨(b4 i hi).1, (b4 i hi).2.trans δρ⟩)
        (whole N s c h h' b1 b2 b3 b4 b5 N le_rfl)
      refine ⟨fun _ => by rw [one_mul]; exact T.ge, fun _ y y0 yδ => ?_⟩
      obtain ⟨u, y', c', e, _, ⟨z, hz⟩, po⟩ := nx y y0 (yδ.trans δρ)
      obtain ⟨s', e'⟩ := po z hz
      exact ⟨s', y', c', u, z, e, hz, e'⟩)
  refine ⟨N, s, c, h, h', e1 ▸ es, e2, e3, fun i hi => ⟨(e4 i hi).1, (e4 i hi).2.1, (e4 i hi).2.2.2, ?_⟩, e5⟩
  have sh : ∀ j, j < i → 0 < h j ∧ h j ≤ δ := fun j hj => (e4 j (by omega)).2.2.1
  obtain ⟨q1, ⟨k, hk, W⟩, _⟩ := H P S kdk p hkdk hp HL idx hidx i s c h h' (e1 ▸ es) e2 (fun j hj => (e4 j (by omega)).1) (fun j hj => ⟨(sh j hj).1, (sh j hj).2.trans δρ⟩)
    (whole i s c h h' e1 e2 (fun j hj => (e4 j (by omega)).1) sh (fun j hj => (e4 j (by omega)).2.2.2) i le_rfl)
  have T : ∑ j ∈ range i, h j ≤ t2 - t0 := by linarith [(e4 i hi).2.2.2]
  have B : K * ∑ j ∈ range i, h j ^ (2 * k j + 3) ≤ K * (t2 - t0) * δ ^ 4 :=
    (mul_le_mul_of_nonneg_left (sum_power δ1 sh (fun j hj => (hk j hj).1) T) hK).trans (by linarith [show K * (δ ^ 4 * (t2 - t0)) = K * (t2 - t0) * δ ^ 4 by ring])
  exact ⟨W.num, W.mass, fun k hk => (W.pos k hk).trans B, fun k hk => (W.vel k hk).trans B⟩

/-- **C106, the forces of the library**: gravity with any list of post-Newtonian corrections (orders 1 and 2.5), tides and drag, on regularised and AR-chain systems. -/
theorem C106_library (G c : ℝ) {n : Nat} {m : Nat → ℝ} {fs : List Extra} {x v : ℝ → Nat → V3 ℝ} {t0 t1 t2 : ℝ} (h02 : t0 ≤ t2) (h21 : t2 < t1)
    (M : ForcedMotion n (withExtras G c n m fs) x v t0 t1) (apart : ∀ t ∈ Set.Icc t0 t1, ∀ i j, i < n → j < n → i ≠ j → x t i ≠ x t j)
    (away : ∀ e ∈ fs, e.Away n v t0 t1) (hn : 2 ≤ n) (hmass : ∀ k, k < n → 0 < m k) (type : ReguType)
    {D : Nat} (hD : 3 ≤ D) (hD' : D ≤ 24) (est : Estimator) {atol rtol : ℝ} (ha : 0 < atol) (hr : 0 ≤ rtol) (l : List Ctl.Setter)
    (g1 : 0 < (Ctl.configured l).s1) (g2 : 0 < (Ctl.configured l).s2) :
    ∃ K ρ : ℝ, 0 < ρ ∧ ∀ P, InState n m x v t0 P → ∀ (p : Params ℝ), p.maxDepth = D → Library p est atol rtol l →
      ∀ (η δ h0 : ℝ) (pick : Nat → ℝ → ℝ), 0 < η → η ≤ h0 → h0 ≤ δ → δ ≤ ρ → (∀ i y, η ≤ pick i y ∧ pick i y ≤ δ) →
      (∃ (N : Nat) (s : Nat → ReguSys) (c' : Nat → State ℝ) (h h' : Nat → ℝ), s 0 = ReguSys.init 1 type t0 P ∧ c' 0 = State.init D ∧ h 0 = h0 ∧
        (∀ i, i ≤ N →
          iterate (reguSys 1 type ⟨Lib.newton, fs.map (libOf G c)⟩ false) p (h i) (c' i) ((s i).preIter ⟨Lib.newton, fs.map (libOf G c)⟩) =
            .ok (s (i + 1), h' i, c' (i + 1)) ∧
          h (i + 1) = pick i (h' i) ∧ (s i).time ≤ t2 ∧ WithinOf n m x v (s i).time (K * δ ^ 4) (s i).P) ∧
        t2 < (s (N + 1)).time) ∧
      ∀ idx, IndexOf P idx →
        ∃ (N : Nat) (s : Nat → ARSys) (c' : Nat → State ℝ) (h h' : Nat → ℝ), ARSys.init 1 type t0 P idx = .ok (s 0) ∧ c' 0 = State.init D ∧ h 0 = h0 ∧
        (∀ i, i ≤ N → ARMacro 1 type ⟨Lib.newtonC, fs.map (libChainOf G c)⟩ false p (h i) (c' i) (s i) (s (i + 1)) (h' i) (c' (i + 1)) ∧
          h (i + 1) = pick i (h' i) ∧ (s i).time ≤ t2 ∧ WithinOf n m x v (s i).time (K * δ ^ 4) (s i).P) ∧
        t2 < (s (N + 1)).time := by
  obtain ⟨A, AI, hS⟩ := C100_library G c n m fs
  have A' : Acts (withGravity (fs.map (libOf G c))) n m (withExtras G c n m fs) := A
  have AI' : AgreesI ⟨Lib.newtonC, fs.map (libChainOf G c)⟩ (withGravity (fs.map (libOf G c))) := AI
  obtain ⟨K, ρ, hρ, H⟩ := C106_regularised_reaches A' h02 h21 M (hS x v t0 t1 apart away) apart hn hmass type hD hD' est ha hr l g1 g2
  obtain ⟨K', ρ', hρ', H'⟩ := C106_archain_reaches AI' A' h02 h21 M (hS x v t0 t1 apart away) apart hn hmass type hD hD' est ha hr l g1 g2
  refine ⟨max K K', min ρ ρ', lt_min hρ hρ', fun P S p hp HL η δ h0 pick hη h0η h0δ hδ hpick => ⟨?_, fun idx hidx => ?_⟩⟩
  · obtain ⟨N, s, c', h, h', e1, e2, e3, e4, e5⟩ := H P S p hp HL η δ h0 pick hη h0η h0δ (hδ.trans (min_le_left _ _)) hpick
    refine ⟨N, s, c', h, h', e1, e2, e3, fun i hi => ?_, e5⟩
    obtain ⟨q1, q2, q3, W⟩ := e4 i hi
    have B : K * δ ^ 4 ≤ max K K' * δ ^ 4 := mul_le_mul_of_nonneg_right (le_max_left _ _) (by positivity)
    exact ⟨q1, q2, q3, W.num, W.mass, fun k hk => (W.pos k hk).trans B, fun k hk => (W.vel k hk).trans B⟩
  · obtain ⟨N, s, c', h, h', e1, e2, e3, e4, e5⟩ := H' P S p hp HL idx hidx η δ h0 pick hη h0η h0δ (hδ.trans (min_le_right _ _)) hpick
    refine ⟨N, s, c', h, h', e1, e2, e3, fun i hi => ?_, e5⟩
    obtain ⟨q1, q2, q3, W⟩ := e4 i hi
    have B : K' * δ ^ 4 ≤ max K K' * δ ^ 4 := mul_le_mul_of_nonneg_right (le_max_right _ _) (by positivity)
    exact ⟨q1, q2, q3, W.num, W.mass, fun k hk => (W.pos k hk).trans B, fun k hk => (W.vel k hk).trans B⟩

/-! ### examples -/

/-- Non-vacuity: two bodies on a circle around each other with the first post-Newtonian correction, the logarithmic Hamiltonian, the default depth, tolerances and
settings, all calls given the same step. -/
example (t0 t2 : ℝ) (ht : t0 ≤ t2) : ∃ K ρ : ℝ, 0 < ρ ∧ ∃ p : Params ℝ, p.maxDepth = 7 ∧ Library p .rms (1 / 10 ^ 13) (1 / 10 ^ 13) [.guards (72 / 100) (95 / 100)] ∧
    ∀ δ, 0 < δ → δ ≤ ρ → ∃ (N : Nat) (s : Nat → ReguSys) (c' : Nat → State ℝ) (h' : Nat → ℝ),
      s 0 = ReguSys.init 1 .logH t0 ⟨2, circlePos t0, circleVel t0, fun _ => 1⟩ ∧ c' 0 = State.init 7 ∧
      (∀ i, i ≤ N →
        iterate (reguSys 1 .logH ⟨Lib.newton, [libOf 1 (Real.sqrt (29 / 2)) .pn1]⟩ false) p δ (c' i) ((s i).preIter ⟨Lib.newton, [libOf 1 (Real.sqrt (29 / 2)) .pn1]⟩) =
          .ok (s (i + 1), h' i, c' (i + 1)) ∧
        (s i).time ≤ t2 ∧ WithinOf 2 (fun _ => 1) circlePos circleVel (s i).time (K * δ ^ 4) (s i).P) ∧
      t2 < (s (N + 1)).time := by
  have g1 : (Ctl.configured [.guards (72 / 100) (95 / 100)]).s1 = 72 / 100 := rfl
  have g2 : (Ctl.configured [.guards (72 / 100) (95 / 100)]).s2 = 95 / 100 := rfl
  obtain ⟨p, hp, _, HL⟩ := library_exists 7 false .rms (atol := 1 / 10 ^ 13) (rtol := 1 / 10 ^ 13) (by positivity) (by positivity) [.guards (72 / 100) (95 / 100)]
    (by rw [g2]; norm_num)
  obtain ⟨K, ρ, hρ, H⟩ := C106_library 1 (Real.sqrt (29 / 2)) (fs := [.pn1]) ht (lt_add_one t2) (circle_pn1 t0 (t2 + 1)) (circle_motion t0 (t2 + 1)).apart
    (by simp [Extra.Away]) le_rfl (fun _ _ => one_pos) .logH (D := 7) (by norm_num) (by norm_num) .rms (atol := 1 / 10 ^ 13)
    (rtol := 1 / 10 ^ 13) (by positivity) (by positivity) [.guards (72 / 100) (95 / 100)] (by rw [g1]; norm_num) (by rw [g2]; norm_num)
  refine ⟨K, ρ, hρ, p, hp, HL, fun δ hδ hle => ?_⟩
  obtain ⟨N, s, c', h, h', e1, e2, e3, e4, e5⟩ := (H ⟨2, circlePos t0, circleVel t0, fun _ => 1⟩ ⟨rfl, fun _ _ => rfl, fun _ _ => rfl, fun _ _ => rfl⟩ p hp HL δ δ δ (fun _ _ => δ) hδ le_rfl le_rfl hle
    (fun _ _ => ⟨le_rfl, le_rfl⟩)).1
  have eh : ∀ i, i ≤ N → h i = δ := fun i hi => by
    cases i with
    | zero => exact e3
    | succ i => exact (e4 i (by omega)).2.1
  refine ⟨N, s, c', h', e1, e2, fun i hi => ?_, e5⟩
  obtain ⟨q1, _, q3, q4⟩ := e4 i hi
  rw [eh i hi] at q1
  exact ⟨q1, q3, q4⟩

end SpaceHub.Sys
