import Verif.Props.ForcedReguBS

/-
C106: calls of Bulirsch-Stoer with short steps return, on systems with additional forces.
-/

set_option autoImplicit false

namespace SpaceHub.Sys
open SpaceHub V3 Force Core Integrator Spec Props Finset Converge BS BS.Spec
open scoped ContDiff

/-- variables close to each other, entry by entry -/
theorem flat_close {f g : Flat} {dep : Bool} {B : ℝ} (hB : 0 ≤ B) (hn : g.n = f.n) (ht : |g.time - f.time| ≤ B) (ho : |g.om - f.om| ≤ B) (hb : |g.be - f.be| ≤ B)
    (hx : ∀ k, k < f.n → ‖co (g.x k) - co (f.x k)‖ ≤ B) (hv : ∀ k, k < f.n → ‖co (g.v k) - co (f.v k)‖ ≤ B)
    (ha : dep = true → ∀ k, k < f.n → ‖co (g.a k) - co (f.a k)‖ ≤ B) (i : Nat) : |g.val dep i - f.val dep i| ≤ B := by
  have comps : ∀ (u w : V3 ℝ), ‖co u - co w‖ ≤ B → ∀ c, |SpaceHub.Sys.comp u c - SpaceHub.Sys.comp w c| ≤ B := by
    intro u w huw c
    have a1 := (norm_fst_le _).trans huw
    have a2 := (norm_fst_le _).trans ((norm_snd_le _).trans huw)
    have a3 := (norm_snd_le _).trans ((norm_snd_le _).trans huw)
    unfold SpaceHub.Sys.comp
    by_cases c0 : c = 0
    · rw [if_pos c0, if_pos c0]; exact a1
    rw [if_neg c0, if_neg c0]
    by_cases c1 : c = 1
    · rw [if_pos c1, if_pos c1]; exact a2
    · rw [if_neg c1, if_neg c1]; exact a3
  unfold Flat.val
  rw [hn]
  by_cases c0 : i = 0
  · rw [if_pos c0, if_pos c0]; exact ht
  rw [if_neg c0, if_neg c0]
  by_cases c1 : i < 1 + 3 * f.n
  · rw [if_pos c1, if_pos c1]
    exact comps _ _ (hx _ (by omega)) _
  rw [if_neg c1, if_neg c1]
  by_cases c2 : i < 1 + 6 * f.n
  · rw [if_pos c2, if_pos c2]
    exact comps _ _ (hv _ (by omega)) _
  rw [if_neg c2, if_neg c2]
  by_cases c3 : dep = true ∧ i < 1 + 9 * f.n
  · rw [if_pos c3, if_pos c3]
    exact comps _ _ (ha c3.1 _ (by omega)) _
  rw [if_neg c3, if_neg c3]
  by_cases c4 : i = omegaOffset f.n dep
  · rw [if_pos c4, if_pos c4]; exact ho
  rw [if_neg c4, if_neg c4]
  by_cases c5 : i = bindEOffset f.n dep
  · rw [if_pos c5, if_pos c5]; exact hb
  rw [if_neg c5, if_neg c5]
  simpa using hB

/-- the particles of systems whose variables are close -/
theorem wide_close {n : Nat} {dep : Bool} {r s : ReguSys} {B : ℝ} (h : ‖wideOf n dep r - wideOf n dep s‖ ≤ B) :
    |r.time - s.time| ≤ B ∧ |r.R.omega - s.R.omega| ≤ B ∧ |r.R.bindE - s.R.bindE| ≤ B ∧ (∀ k, k < n → ‖co (r.P.pos k) - co (s.P.pos k)‖ ≤ B) ∧
      (∀ k, k < n → ‖co (r.P.vel k) - co (s.P.vel k)‖ ≤ B) ∧ (dep = true → ∀ k, k < n → ‖co (r.aux k) - co (s.aux k)‖ ≤ B) := by
  have h1 := (norm_fst_le _).trans h
  have h2 := (norm_snd_le _).trans h
  have h3 := (norm_fst_le _).trans h2
  have h4 := (norm_snd_le _).trans h2
  have h5 := (norm_fst_le _).trans h3
  have h6 := (norm_snd_le _).trans h3
  have h7 := (norm_fst_le _).trans h6
  have h8 := (norm_snd_le _).trans h6
  have at' : ∀ {u w : Conf n}, ‖u - w‖ ≤ B → ∀ k (hk : k < n), ‖u ⟨k, hk⟩ - w ⟨k, hk⟩‖ ≤ B := fun {u w} hu k hk =>
    (norm_le_pi_norm (u - w) ⟨k, hk⟩).trans hu
  refine ⟨h1, (norm_fst_le _).trans h4, (norm_snd_le _).trans h4, at' h5, at' h7, fun hd => ?_⟩
  subst hd
  exact at' h8

/-- the links of a chain are as close as the particles, twice -/
theorem links_close {n : Nat} {idx : Arr Nat} {c c' p p' : Arr (V3 ℝ)} {B : ℝ} (hi : IsIndex n idx) (h : BelongsTo n idx c p) (h' : BelongsTo n idx c' p')
    (hB : 0 ≤ B) (hp : ∀ k, k < n → ‖co (p' k) - co (p k)‖ ≤ B) (k : Nat) (hk : k < n) : ‖co (c' k) - co (c k)‖ ≤ 2 * B := by
  rcases Nat.lt_or_ge (k + 1) n with h1 | h1
  · rw [h.link k h1, h'.link k h1, co_sub, co_sub]
    have a := hp _ (hi.lt (k + 1) h1)
    have b := hp _ (hi.lt k hk)
    rw [show co (p' (idx (k + 1))) - co (p' (idx k)) - (co (p (idx (k + 1))) - co (p (idx k))) =
      (co (p' (idx (k + 1))) - co (p (idx (k + 1)))) - (co (p' (idx k)) - co (p (idx k))) by abel]
    exact (norm_sub_le _ _).trans (by linarith)
  · obtain rfl : k = n - 1 := by omega
    rw [h.base, h'.base]
    have a := hp _ (hi.lt 0 (by omega))
    linarith

/-- **C106, regularised systems.** Bulirsch-Stoer with `LeapFrogDKD`, the error estimators and the step controller of the library with any positive absolute tolerance,
on a regularised system with gravity and additional forces.  There are `K`, `κ` and `ρ` such that, in a simulation that begins with a new iterator and in which
no call is given a step longer than `ρ`: as long as the time has not passed `t2`, every accepted step is the given one, all positions and velocities are within
`K Σ h i ^ (2 k i + 3)` of the true ones, the time advances by at least `κ` times each step, and the next call with a step of at most `ρ` returns and proposes a step that is
not shorter. -/
theorem C106_regularised {ex : List (ForceClass Particles)} {n : Nat} {m : Nat → ℝ} {a : Field n} (A : Acts (withGravity ex) n m a)
    {x v : ℝ → Nat → V3 ℝ} {t0 t1 t2 : ℝ} (h02 : t0 ≤ t2) (h21 : t2 < t1) (M : ForcedMotion n a x v t0 t1) (hS : SmoothAlong a x v t0 t1)
    (apart : ∀ t ∈ Set.Icc t0 t1, ∀ i j, i < n → j < n → i ≠ j → x t i ≠ x t j) (hn : 2 ≤ n) (hmass : ∀ k, k < n → 0 < m k) (type : ReguType)
    {D : Nat} (hD : 3 ≤ D) (hD' : D ≤ 24) (est : Estimator) {atol rtol : ℝ} (ha : 0 < atol) (hr : 0 ≤ rtol) (l : List Ctl.Setter)
    (g1 : 0 < (Ctl.configured l).s1) (g2 : 0 < (Ctl.configured l).s2) :
    ∃ K κ ρ : ℝ, 0 ≤ K ∧ 0 < κ ∧ 0 < ρ ∧ ∀ P, InState n m x v t0 P → ∀ (p : Params ℝ), p.maxDepth = D → Library p est atol rtol l →
      ∀ (N : Nat) (s : Nat → ReguSys) (c : Nat → State ℝ) (h h' : Nat → ℝ), s 0 = ReguSys.init 1 type t0 P → c 0 = State.init D →
      (∀ i, i < N → iterate (reguSys 1 type (withGravity ex) false) p (h i) (c i) ((s i).preIter (withGravity ex)) = .ok (s (i + 1), h' i, c (i + 1))) →
      (∀ i, i < N → 0 < h i ∧ h i ≤ ρ) → (∀ i, i < N → (s i).time ≤ t2) →
      (∃ k : Nat → Nat, (∀ i, i < N → 1 ≤ k i ∧ k i ≤ D) ∧ ((s N).time ≤ t2 →
        t0 + κ * ∑ i ∈ range N, h i ≤ (s N).time ∧ WithinOf n m x v (s N).time (K * ∑ i ∈ range N, h i ^ (2 * k i + 3)) (s N).P)) ∧
      ∀ y, 0 < y → y ≤ ρ → ∃ s' y' c', iterate (reguSys 1 type (withGravity ex) false) p y (c N) ((s N).preIter (withGravity ex)) = .ok (s', y', c') ∧ y ≤ y' := by
  obtain ⟨K, κ, ρ, C, hK, hκ, hρ, hρ1, hC, H⟩ := regu_forced_core A h02 h21 M hS apart hn hmass type D
  obtain ⟨W, hW0, hW⟩ := weights_bounded D
  obtain ⟨e0, he0⟩ : ∃ e0, e0 = min 1 ((Ctl.configured l).s2 * (min 1 (Ctl.configured l).s1) ^ 50) := ⟨_, rfl⟩
  have e00 : 0 < e0 := he0 ▸ lt_min one_pos (mul_pos g2 (pow_pos (lt_min one_pos g1) 50))
  refine ⟨K, κ, min ρ (e0 * atol / (2 * W * C + 1)), hK, hκ, lt_min hρ (by positivity), fun P S p hp HL N s c h h' hs0 hc0 hit hh htm => ?_⟩
  subst hp
  have T : Tame p atol e0 (1 / 200) := he0 ▸ library_tame HL ha hr g1 g2 hD'
  -- one more call
  have next : ∀ (i : Nat) (k : Nat → Nat), i ≤ N → (Unused p.maxDepth (c i) ∨ Used p.maxDepth (c i)) →
      (∀ j, j < i → ReguForcedAt type (withGravity ex) p.maxDepth p.err (h j) ((s j).preIter (withGravity ex)) (s (j + 1)) (k j) ∧ (s (j + 1)).P.num = (s j).P.num ∧
        (s (j + 1)).P.mass = (s j).P.mass) → ∀ y, 0 < y → y ≤ min ρ (e0 * atol / (2 * W * C + 1)) →
      ∃ s' y' c' k', iterate (reguSys 1 type (withGravity ex) false) p y (c i) ((s i).preIter (withGravity ex)) = .ok (s', y', c') ∧
        ReguForcedAt type (withGravity ex) p.maxDepth p.err y ((s i).preIter (withGravity ex)) s' k' ∧ s'.P.num = (s i).P.num ∧ s'.P.mass = (s i).P.mass ∧ y ≤ y' ∧
        Used p.maxDepth c' := by
    intro i k hi hu hk y hy0 hy
    obtain ⟨_, runs⟩ := H P S p.err i s h k hs0 hk (fun j hj => ⟨(hh j (by omega)).1.le, (hh j (by omega)).2.trans (min_le_left _ _)⟩) (fun j hj => htm j (by omega))
    have frame0 : ((s i).preIter (withGravity ex)).P = (s i).P := (preIter_wide (I := withGravity ex) (n := n) (s i)).2
    have L := regu_lawful 1 type (withGravity ex) false ((s i).preIter (withGravity ex))
    have hy2 := hy.trans (min_le_right _ _)
    rw [le_div_iff₀ (by positivity)] at hy2
    have numi : (s i).P.num = n := by
      have : ∀ j, j ≤ i → (s j).P.num = n := by
        intro j
        induction j with
        | zero => intro _; rw [hs0]; exact S.num
        | succ j ih => intro hj; rw [(hk j (by omega)).2.1]; exact ih (by omega)
      exact this i le_rfl
    obtain ⟨s', y', c', k', e, X, f, r1, r2⟩ := lawful_small L T hD hW (B := C * y) (by positivity) (by
        have : 0 ≤ y := hy0.le
        linarith [show y * (2 * W * C + 1) = 2 * (W * (C * y)) + y by ring]) (by
        show 1 ≤ (((s i).preIter (withGravity ex)).write (withGravity ex)).length
        rw [C13_regu_size]; unfold ReguSys.variableNumber; omega) hy0 (fun x j hx hj => by
        obtain ⟨r', e, F', w⟩ := runs y hy0.le (hy.trans (min_le_left _ _)) j hj x hx.2.2.2.1
        refine ⟨r', e, fun q hq => ?_⟩
        show |(r'.write (withGravity ex)).getD q 0 - (((s i).preIter (withGravity ex)).write (withGravity ex)).getD q 0| ≤ _
        rw [ReguSys.write_getD, ReguSys.write_getD]
        obtain ⟨b1, b2, b3, b4, b5, b6⟩ := wide_close w
        have en : ((s i).preIter (withGravity ex)).flat.n = n := by
          show ((s i).preIter (withGravity ex)).P.num = n
          rw [frame0]; exact numi
        refine flat_close (by positivity) (F'.1.trans en.symm) b1 b2 b3 ?_ ?_ ?_ q
        · rw [en]; exact b4
        · rw [en]; exact b5
        · rw [en]; exact b6) (fun x v f hv => by
        obtain ⟨t, e, _⟩ := C13_regu_write_read (withGravity ex) x v (by
          rw [hv, show (reguSys 1 type (withGravity ex) false).write ((s i).preIter (withGravity ex)) =
            ((s i).preIter (withGravity ex)).write (withGravity ex) from rfl, C13_regu_size]
          unfold ReguSys.variableNumber; rw [f.1])
        exact ⟨t, e⟩) hu
    exact ⟨s', y', c', k', e, X, by rw [f.1, frame0], by rw [f.2, frame0], r1, r2⟩
  have all : ∀ i, i ≤ N → (Unused p.maxDepth (c i) ∨ Used p.maxDepth (c i)) ∧ ∃ k : Nat → Nat, ∀ j, j < i →
      ReguForcedAt type (withGravity ex) p.maxDepth p.err (h j) ((s j).preIter (withGravity ex)) (s (j + 1)) (k j) ∧ (s (j + 1)).P.num = (s j).P.num ∧
        (s (j + 1)).P.mass = (s j).P.mass := by
    intro i
    induction i with
    | zero =>
      intro _
      refine ⟨.inl ?_, fun _ => 0, fun j hj => absurd hj (by omega)⟩
      rw [hc0]
      exact ⟨rfl, by show p.maxDepth - 1 + 1 ≤ p.maxDepth; omega⟩
    | succ i ih =>
      intro hi
      obtain ⟨hu, k, hk⟩ := ih (by omega)
      obtain ⟨s', y', c', k', e, X, q1, q2, _, q3⟩ := next i k (by omega) hu hk (h i) (hh i (by omega)).1 (hh i (by omega)).2
      rw [hit i (by omega)] at e
      have e' := Res.ok.inj e
      simp only [Prod.mk.injEq] at e'
      obtain ⟨rfl, _, rfl⟩ := e'
      refine ⟨.inr q3, fun j => if j = i then k' else k j, fun j hj => ?_⟩
      by_cases hji : j = i
      · subst hji
        simp only [if_true]
        exact ⟨X, q1, q2⟩
      · simp only [if_neg hji]
        exact hk j (by omega)
  obtain ⟨hu, k, hk⟩ := all N le_rfl
  obtain ⟨fin, _⟩ := H P S p.err N s h k hs0 hk (fun j hj => ⟨(hh j hj).1.le, (hh j hj).2.trans (min_le_left _ _)⟩) htm
  refine ⟨⟨k, fun i hi => ?_, fin⟩, fun y hy0 hy => ?_⟩
  · obtain ⟨⟨_, _, _, _, h1, h2, _⟩, _⟩ := hk i hi
    exact ⟨h1, h2⟩
  · obtain ⟨s', y', c', _, e, _, _, _, q, _⟩ := next N k le_rfl hu hk y hy0 hy
    exact ⟨s', y', c', e, q⟩

/-- **C106, AR-chain systems**, as for regularised systems; the chain is updated after each call, which does not fail either. -/
theorem C106_archain {IC : ChainInteractions} {ex : List (ForceClass Particles)} (AI : AgreesI IC (withGravity ex)) {n : Nat} {m : Nat → ℝ} {a : Field n}
    (A : Acts (withGravity ex) n m a) {x v : ℝ → Nat → V3 ℝ} {t0 t1 t2 : ℝ} (h02 : t0 ≤ t2) (h21 : t2 < t1) (M : ForcedMotion n a x v t0 t1)
    (hS : SmoothAlong a x v t0 t1) (apart : ∀ t ∈ Set.Icc t0 t1, ∀ i j, i < n → j < n → i ≠ j → x t i ≠ x t j) (hn : 2 ≤ n)
    (hmass : ∀ k, k < n → 0 < m k) (type : ReguType) {D : Nat} (hD : 3 ≤ D) (hD' : D ≤ 24) (est : Estimator) {atol rtol : ℝ} (ha : 0 < atol) (hr : 0 ≤ rtol)
    (l : List Ctl.Setter) (g1 : 0 < (Ctl.configured l).s1) (g2 : 0 < (Ctl.configured l).s2) :
    ∃ K κ ρ : ℝ, 0 ≤ K ∧ 0 < κ ∧ 0 < ρ ∧ ∀ P, InState n m x v t0 P → ∀ (p : Params ℝ), p.maxDepth = D → Library p est atol rtol l → ∀ idx, IndexOf P idx →
      ∀ (N : Nat) (s : Nat → ARSys) (c : Nat → State ℝ) (h h' : Nat → ℝ), ARSys.init 1 type t0 P idx = .ok (s 0) → c 0 = State.init D →
      (∀ i, i < N → ARMacro 1 type IC false p (h i) (c i) (s i) (s (i + 1)) (h' i) (c (i + 1))) →
      (∀ i, i < N → 0 < h i ∧ h i ≤ ρ) → (∀ i, i < N → (s i).time ≤ t2) →
      (∃ k : Nat → Nat, (∀ i, i < N → 1 ≤ k i ∧ k i ≤ D) ∧ ((s N).time ≤ t2 →
        t0 + κ * ∑ i ∈ range N, h i ≤ (s N).time ∧ WithinOf n m x v (s N).time (K * ∑ i ∈ range N, h i ^ (2 * k i + 3)) (s N).P)) ∧
      ∀ y, 0 < y → y ≤ ρ → ∃ u y' c', iterate (archainSys 1 type IC false) p y (c N) ((s N).preIter IC) = .ok (u, y', c') ∧ y ≤ y' ∧
        (∃ idx, IndexOf u.P idx) ∧ ∀ idx, IndexOf u.P idx → ∃ s', u.postIter idx = .ok s' := by
  obtain ⟨K, κ, ρ, C, hK, hκ, hρ, hρ1, hC, H⟩ := regu_forced_core A h02 h21 M hS apart hn hmass type D
  obtain ⟨W, hW0, hW⟩ := weights_bounded D
  obtain ⟨e0, he0⟩ : ∃ e0, e0 = min 1 ((Ctl.configured l).s2 * (min 1 (Ctl.configured l).s1) ^ 50) := ⟨_, rfl⟩
  have e00 : 0 < e0 := he0 ▸ lt_min one_pos (mul_pos g2 (pow_pos (lt_min one_pos g1) 50))
  refine ⟨K, κ, min ρ (e0 * atol / (2 * W * (2 * C) + 1)), hK, hκ, lt_min hρ (by positivity), fun P S p hp HL idx hidx N s c h h' h0 hc0 hc hh htm => ?_⟩
  subst hp
  have T : Tame p atol e0 (1 / 200) := he0 ▸ library_tame HL ha hr g1 g2 hD'
  obtain ⟨a0, good⟩ := ar_calls_good AI hidx h0 hc
  have next : ∀ (i : Nat) (k : Nat → Nat), i ≤ N → (Unused p.maxDepth (c i) ∨ Used p.maxDepth (c i)) →
      (∀ j, j < i → ReguForcedAt type (withGravity ex) p.maxDepth (fun _ _ _ => 0) (h j) ((s j).abs.preIter (withGravity ex)) (s (j + 1)).abs (k j) ∧
        (s (j + 1)).abs.P.num = (s j).abs.P.num ∧ (s (j + 1)).abs.P.mass = (s j).abs.P.mass) → ∀ y, 0 < y → y ≤ min ρ (e0 * atol / (2 * W * (2 * C) + 1)) →
      ∃ u y' c' k', iterate (archainSys 1 type IC false) p y (c i) ((s i).preIter IC) = .ok (u, y', c') ∧ ARSys.Good false u ∧
        ReguForcedAt type (withGravity ex) p.maxDepth (fun _ _ _ => 0) y ((s i).abs.preIter (withGravity ex)) u.abs k' ∧ u.P.num = (s i).P.num ∧ u.P.mass = (s i).P.mass ∧
        y ≤ y' ∧ Used p.maxDepth c' := by
    intro i k hi hu hk y hy0 hy
    obtain ⟨_, runs⟩ := H P S (fun _ _ _ => 0) i (fun i => (s i).abs) h k a0 hk (fun j hj => ⟨(hh j (by omega)).1.le, (hh j (by omega)).2.trans (min_le_left _ _)⟩)
      (fun j hj => htm j (by omega))
    obtain ⟨gp, ap⟩ := ARSys.preIter_sim AI (good i hi)
    rw [← AI.velDep_eq] at gp
    have frame0 : ((s i).preIter IC).P = (s i).P := by unfold ARSys.preIter; split_ifs <;> rfl
    have L := ar_lawful 1 type IC false ((s i).preIter IC) gp.cons
    have hy2 := hy.trans (min_le_right _ _)
    rw [le_div_iff₀ (by positivity)] at hy2
    have numi : (s i).P.num = n := by
      have : ∀ j, j ≤ i → (s j).abs.P.num = n := by
        intro j
        induction j with
        | zero => intro _; rw [a0]; exact S.num
        | succ j ih => intro hj; rw [(hk j (by omega)).2.1]; exact ih (by omega)
      exact this i le_rfl
    obtain ⟨u, y', c', k', e, X, f, r1, r2⟩ := lawful_small L T hD hW (B := 2 * (C * y)) (by positivity) (by
        have : 0 ≤ y := hy0.le
        linarith [show y * (2 * W * (2 * C) + 1) = 2 * (W * (2 * (C * y))) + y by ring]) (by
        show 1 ≤ (((s i).preIter IC).write IC).length
        rw [C13_archain_size]; unfold ARSys.variableNumber; omega) hy0 (fun x j hx hj => by
        have hsame := hx.2.2.2.1
        have gx : ARSys.Good IC.velDep x := same_good_ar gp hsame
        obtain ⟨q1, q2, q3, q4, q5, q6, q7, q8⟩ := hsame
        obtain ⟨r', e, F', w⟩ := runs y hy0.le (hy.trans (min_le_left _ _)) j hj x.abs (by
          rw [← ap]
          exact ⟨q1, q2, q3, q5, q6, fun l hl => ⟨(q7 l hl).1, (q7 l hl).2.1, fun hd => (q7 l hl).2.2 (by rw [AI.velDep_eq]; exact hd)⟩⟩)
        rcases arOps_run AI 1 type AI.velDep_eq (substepsDKD y (hSeq p.maxDepth j)) x gx with ⟨x', e1, e2, g'⟩ | ⟨_, e2⟩
        swap
        · rw [e] at e2; cases e2
        rw [e] at e2; cases e2
        have e1' : (archainSys 1 type IC false).integrate y (hSeq p.maxDepth j) x = .ok x' := e1
        have fr := L.trans _ _ _ hx.1 (L.run _ _ _ _ hx.2.1 e1').2.1
        refine ⟨x', e1', fun q hq => ?_⟩
        show |(x'.write IC).getD q 0 - (((s i).preIter IC).write IC).getD q 0| ≤ _
        rw [ARSys.write_getD, ARSys.write_getD]
        rw [← ap] at w
        obtain ⟨b1, b2, b3, b4, b5, b6⟩ := wide_close w
        have en : ((s i).preIter IC).P.num = n := by rw [frame0]; exact numi
        have en' : x'.P.num = n := F'.1
        have cons := gp.cons
        have cons' := g'.cons
        rw [en, ← fr.2.2] at cons
        rw [en'] at cons'
        have b0 : 0 ≤ C * y := by positivity
        refine flat_close (by positivity) (en'.trans en.symm) (b1.trans (by linarith)) (b2.trans (by linarith)) (b3.trans (by linarith)) ?_ ?_ ?_ q
        · show ∀ k, k < ((s i).preIter IC).P.num → _
          rw [en]
          exact links_close cons.index cons.pos cons'.pos b0 b4
        · show ∀ k, k < ((s i).preIter IC).P.num → _
          rw [en]
          exact links_close cons.index cons.vel cons'.vel b0 b5
        · intro hd
          show ∀ k, k < ((s i).preIter IC).P.num → _
          rw [en]
          exact links_close cons.index (cons.aux hd) (cons'.aux hd) b0 (b6 (by rw [← AI.velDep_eq]; exact hd))) (fun x v f hv => by
        obtain ⟨t, e, _⟩ := C13_archain_write_read IC x (by rw [f.1]; exact gp.cons.num) (by rw [f.1, f.2.2]; exact gp.cons.index) v (by
          rw [hv, show (archainSys 1 type IC false).write ((s i).preIter IC) = ((s i).preIter IC).write IC from rfl, C13_archain_size]
          unfold ARSys.variableNumber; rw [f.1])
        exact ⟨t, e⟩) hu
    have gu := ar_good gp e
    refine ⟨u, y', c', k', e, gu.weaken, ?_, by rw [f.1, frame0], by rw [f.2.1, frame0], r1, r2⟩
    rw [← ap]
    exact ar_extrap AI (kdk := false) gp gu f.1 f.2.2 X
  have all : ∀ i, i ≤ N → (Unused p.maxDepth (c i) ∨ Used p.maxDepth (c i)) ∧ ∃ k : Nat → Nat, ∀ j, j < i →
      ReguForcedAt type (withGravity ex) p.maxDepth (fun _ _ _ => 0) (h j) ((s j).abs.preIter (withGravity ex)) (s (j + 1)).abs (k j) ∧
        (s (j + 1)).abs.P.num = (s j).abs.P.num ∧ (s (j + 1)).abs.P.mass = (s j).abs.P.mass := by
    intro i
    induction i with
    | zero =>
      intro _
      refine ⟨.inl ?_, fun _ => 0, fun j hj => absurd hj (by omega)⟩
      rw [hc0]
      exact ⟨rfl, by show p.maxDepth - 1 + 1 ≤ p.maxDepth; omega⟩
    | succ i ih =>
      intro hi
      obtain ⟨hu, k, hk⟩ := ih (by omega)
      obtain ⟨u, y', c', k', e, gu, X, q1, q2, _, q3⟩ := next i k (by omega) hu hk (h i) (hh i (by omega)).1 (hh i (by omega)).2
      obtain ⟨u', z, e2, hz, e3⟩ := hc i (by omega)
      rw [e2] at e
      have e' := Res.ok.inj e
      simp only [Prod.mk.injEq] at e'
      obtain ⟨rfl, _, rfl⟩ := e'
      obtain ⟨s', e4, _, a3, _⟩ := ARSys.postIter_sim gu z hz.isIndex
      rw [e3] at e4; cases e4
      have e5 : (s (i + 1)).abs.P = u'.abs.P := congrArg ReguSys.P a3
      refine ⟨.inr q3, fun j => if j = i then k' else k j, fun j hj => ?_⟩
      by_cases hji : j = i
      · subst hji
        simp only [if_true]
        refine ⟨?_, (congrArg Particles.num e5).trans q1, (congrArg Particles.mass e5).trans q2⟩
        rw [a3]; exact X
      · simp only [if_neg hji]
        exact hk j (by omega)
  obtain ⟨hu, k, hk⟩ := all N le_rfl
  obtain ⟨fin, _⟩ := H P S (fun _ _ _ => 0) N (fun i => (s i).abs) h k a0 hk (fun j hj => ⟨(hh j hj).1.le, (hh j hj).2.trans (min_le_left _ _)⟩) htm
  refine ⟨⟨k, fun i hi => ?_, fin⟩, fun y hy0 hy => ?_⟩
  · obtain ⟨⟨_, _, _, _, h1, h2, _⟩, _⟩ := hk i hi
    exact ⟨h1, h2⟩
  · obtain ⟨u, y', c', _, e, gu, _, _, _, q, _⟩ := next N k le_rfl hu hk y hy0 hy
    refine ⟨u, y', c', e, q, IndexOf.exists u.P gu.two, fun z hz => ?_⟩
    obtain ⟨s', e3, _⟩ := ARSys.postIter_sim gu z hz.isIndex
    exact ⟨s', e3⟩

/-! ### plain systems and chain systems -/

/-- a short step from a state near the motion changes the variables by little -/
theorem forced_move {I : Interactions} {n : Nat} {m : Nat → ℝ} {a : Field n} (A : Acts I n m a) {x v : ℝ → Nat → V3 ℝ} {t0 t1 : ℝ}
    (M : ForcedMotion n a x v t0 t1) (hS : SmoothAlong a x v t0 t1) (D : Nat) :
    ∃ ε C ρ : ℝ, 0 < ε ∧ 0 ≤ C ∧ 0 < ρ ∧ ∀ (s : Simple) (t : ℝ), t ∈ Set.Icc t0 t1 → WithinOf n m x v t ε s.P → ∀ (kdk : Bool) (y : ℝ), 0 ≤ y → y ≤ ρ →
      ∀ j, j ≤ D → ∀ r, SameSimple I (s.preIter I) r → ∃ r', (simpleOps I).run (if kdk then substepsKDK y (hSeq D j) else substepsDKD y (hSeq D j)) r = .ok r' ∧
        r'.P.num = n ∧ |r'.time - (s.preIter I).time| ≤ C * y ∧ (∀ k, k < n → ‖co (r'.P.pos k) - co ((s.preIter I).P.pos k)‖ ≤ C * y) ∧
        (∀ k, k < n → ‖co (r'.P.vel k) - co ((s.preIter I).P.vel k)‖ ≤ C * y) ∧
        (I.velDep = true → ∀ k, k < n → ‖co (r'.aux k) - co ((s.preIter I).aux k)‖ ≤ C * y) := by
  obtain ⟨U, hU, hsm, hin⟩ := hS
  have time : ∀ (kdk : Bool) (y : ℝ) (j : Nat) (s r r' : Simple), 0 ≤ y → j ≤ D → SameSimple I s r →
      (simpleOps I).run (if kdk then substepsKDK y (hSeq D j) else substepsDKD y (hSeq D j)) r = .ok r' → |r'.time - s.time| ≤ y := by
    intro kdk y j s r r' hy hj hr e
    obtain ⟨u1, u2⟩ := driftTime_substeps y (hSeq D j) (hSeq_pos hj)
    obtain ⟨t, ht, htt⟩ := C17_simple_time I (if kdk then substepsKDK y (hSeq D j) else substepsDKD y (hSeq D j)) r
    rw [e] at ht
    cases ht
    rw [htt, hr.1]
    have : driftTime (if kdk then substepsKDK y (hSeq D j) else substepsDKD y (hSeq D j)) = y := by cases kdk; exacts [u1, u2]
    rw [this, add_sub_cancel_left, abs_of_nonneg hy]
  have near : ∀ {ε t : ℝ} {P : Particles}, 0 ≤ ε → WithinOf n m x v t ε P → ‖conf n P.pos - conf n (x t)‖ ≤ ε ∧ ‖conf n P.vel - conf n (v t)‖ ≤ ε := by
    intro ε t P hε W
    refine ⟨(pi_norm_le_iff_of_nonneg hε).2 fun k => ?_, (pi_norm_le_iff_of_nonneg hε).2 fun k => ?_⟩
    · have := (norm_le_len _).trans (W.pos k k.2)
      rw [co_sub] at this
      exact this
    · have := (norm_le_len _).trans (W.vel k k.2)
      rw [co_sub] at this
      exact this
  have shift : ∀ t ∈ Set.Icc t0 t1, t - t0 ∈ Set.Icc 0 (t1 - t0) ∧ t0 + (t - t0) = t := fun t ht => ⟨⟨by linarith [ht.1], by linarith [ht.2]⟩, by ring⟩
  have at' : ∀ {B : ℝ} {u w : Conf n}, ‖u - w‖ ≤ B → ∀ k (hk : k < n), ‖u ⟨k, hk⟩ - w ⟨k, hk⟩‖ ≤ B := fun {B u w} hu k hk =>
    (norm_le_pi_norm (u - w) ⟨k, hk⟩).trans hu
  cases hd : I.velDep with
  | true =>
    have cx : Continuous (fun z : Ext n => (z.1, z.2.1)) := by fun_prop
    have cw : Continuous (fun z : Ext n => (z.1, z.2.2)) := by fun_prop
    obtain ⟨NN, W, hB⟩ := Letters.move_bounded D
    have hV : IsOpen ((fun z : Ext n => (z.1, z.2.1)) ⁻¹' U ∩ (fun z : Ext n => (z.1, z.2.2)) ⁻¹' U) := (hU.preimage cx).inter (hU.preimage cw)
    obtain ⟨y, hy⟩ : ∃ y : ℝ → Ext n, y = fun t => (conf n (x (t0 + t)), conf n (v (t0 + t)), conf n (v (t0 + t))) := ⟨_, rfl⟩
    have hKc : IsCompact (y '' Set.Icc 0 (t1 - t0)) := by
      refine isCompact_Icc.image_of_continuousOn fun t ht => ?_
      rw [hy]
      obtain ⟨d1, d2⟩ := forced_curve M ht
      exact (d1.prodMk (d2.prodMk d2)).continuousWithinAt
    obtain ⟨ε, hε, hεU⟩ := hKc.exists_cthickening_subset_open hV (by
      rintro _ ⟨t, ht, rfl⟩
      rw [hy]
      have := hin (t0 + t) ⟨by linarith [ht.1], by linarith [ht.2]⟩
      exact ⟨this, this⟩)
    obtain ⟨C, ρ, hC, hρ, mv⟩ := Letters.words_move (f := moveF a) hV (by
        intro X
        cases X with
        | drift => exact (contDiff_snd.fst.prodMk contDiff_const).contDiffOn
        | real =>
          refine contDiffOn_const.prodMk (ContDiffOn.prodMk ?_ contDiffOn_const)
          exact hsm.comp (f := fun z : Ext n => (z.1, z.2.2)) (contDiff_fst.prodMk contDiff_snd.snd).contDiffOn fun z hz => hz.2
        | pseudo =>
          refine contDiffOn_const.prodMk (ContDiffOn.prodMk contDiffOn_const ?_)
          exact hsm.comp (f := fun z : Ext n => (z.1, z.2.1)) (contDiff_fst.prodMk contDiff_snd.fst).contDiffOn fun z hz => hz.1) hKc.cthickening hεU NN
    refine ⟨ε, C + 1, ρ, hε, by linarith, hρ, fun s t ht Wi kdk h h0 hle j hj r hr => ?_⟩
    obtain ⟨n1, n2⟩ := near hε.le Wi
    obtain ⟨m1, m2⟩ := shift t ht
    have pP := (preIter_same I s).1
    have hx : (s.preIter I).aux = s.P.vel := by unfold Simple.preIter; rw [if_pos hd]
    have hr' := hr
    obtain ⟨b0, b1, b2, b3⟩ := hr
    rw [pP] at b1 b2
    rw [pP, Wi.num] at b3
    obtain ⟨r', e, q1, _, q3⟩ := stages_link3 A hd h (subStages kdk (hSeq D j)) r (b1.trans Wi.num) (fun i hi => by rw [b2]; exact Wi.mass i hi)
    rw [subStages_calls kdk h _ (hSeq_pos hj)] at e
    have c1 : conf n r.P.pos = conf n s.P.pos := funext fun i => congrArg co (b3 i i.2).1
    have c2 : conf n r.P.vel = conf n s.P.vel := funext fun i => congrArg co (b3 i i.2).2.1
    have c3 : conf n r.aux = conf n s.P.vel := funext fun i => congrArg co (((b3 i i.2).2.2 hd).trans (congrFun hx i))
    have q := hB kdk D le_rfl
    have hj' : j ∈ (Letters.moveMix D kdk D).s := mem_Icc.2 ⟨Nat.zero_le _, hj⟩
    have key := mv (conf n s.P.pos, conf n s.P.vel, conf n s.P.vel) (Metric.mem_cthickening_of_dist_le _ (y (t - t0)) _ _ ⟨_, m1, rfl⟩ (by
      rw [dist_eq_norm, hy]
      dsimp only
      rw [m2]
      exact norm_prod_le_iff.2 ⟨n1, norm_prod_le_iff.2 ⟨n2, n2⟩⟩)) _ (q.len j hj') (q.coef j hj') h h0 hle
    have q3' : extOf n r' = Letters.wstep (moveF a) ((Letters.moveMix D kdk D).l j) h (conf n s.P.pos, conf n s.P.vel, conf n s.P.vel) := by
      rw [q3, extOf, c1, c2, c3]; rfl
    rw [← q3'] at key
    have key' := key.trans (show C * h ≤ (C + 1) * h by linarith)
    have k1 := (norm_fst_le _).trans key'
    have k2 := (norm_fst_le _).trans ((norm_snd_le _).trans key')
    have k3 := (norm_snd_le _).trans ((norm_snd_le _).trans key')
    rw [pP, hx]
    refine ⟨r', e, q1, ?_, at' k1, at' k2, fun _ => at' k3⟩
    have := time kdk h j _ r r' h0 hj hr' e
    have : 0 ≤ C * h := by positivity
    linarith
  | false =>
    obtain ⟨NN, W, hB⟩ := extrap_bounded D
    obtain ⟨y, hy⟩ : ∃ y : ℝ → Conf n × Conf n, y = fun t => (conf n (x (t0 + t)), conf n (v (t0 + t))) := ⟨_, rfl⟩
    have hKc : IsCompact (y '' Set.Icc 0 (t1 - t0)) := by
      refine isCompact_Icc.image_of_continuousOn fun t ht => ?_
      rw [hy]
      obtain ⟨d1, d2⟩ := forced_curve M ht
      exact (d1.prodMk d2).continuousWithinAt
    obtain ⟨ε, hε, hεU⟩ := hKc.exists_cthickening_subset_open hU (by
      rintro _ ⟨t, ht, rfl⟩
      rw [hy]
      exact hin (t0 + t) ⟨by linarith [ht.1], by linarith [ht.2]⟩)
    obtain ⟨C, ρ, hC, hρ, mv⟩ := Converge.words_move (f := restF a) hU (by
        intro X
        cases X
        · exact contDiffOn_const.prodMk hsm
        · exact (contDiff_snd.prodMk contDiff_const).contDiffOn) hKc.cthickening hεU NN
    refine ⟨ε, C + 1, ρ, hε, by linarith, hρ, fun s t ht Wi kdk h h0 hle j hj r hr => ?_⟩
    obtain ⟨n1, n2⟩ := near hε.le Wi
    obtain ⟨m1, m2⟩ := shift t ht
    have hp : s.preIter I = s := by unfold Simple.preIter; rw [if_neg (by rw [hd]; simp)]
    rw [hp] at hr ⊢
    have hr' := hr
    obtain ⟨b0, b1, b2, b3⟩ := hr
    rw [Wi.num] at b3
    obtain ⟨r', e, q1, _, q3⟩ := stages_link2 A hd h (subStages kdk (hSeq D j)) r (b1.trans Wi.num) (fun i hi => by rw [b2]; exact Wi.mass i hi)
    rw [subStages_calls kdk h _ (hSeq_pos hj)] at e
    have c1 : conf n r.P.pos = conf n s.P.pos := funext fun i => congrArg co (b3 i i.2).1
    have c2 : conf n r.P.vel = conf n s.P.vel := funext fun i => congrArg co (b3 i i.2).2.1
    have q := hB kdk 0 D le_rfl
    have hj' : j ∈ (extrapMix D kdk 0 D).s := mem_Icc.2 ⟨Nat.zero_le _, hj⟩
    have key := mv (conf n s.P.pos, conf n s.P.vel) (Metric.mem_cthickening_of_dist_le _ (y (t - t0)) _ _ ⟨_, m1, rfl⟩ (by
      rw [dist_eq_norm, hy]
      dsimp only
      rw [m2]
      exact norm_prod_le_iff.2 ⟨n1, n2⟩)) _ (q.len j hj') (q.coef j hj') h h0 hle
    have q3' : (conf n r'.P.pos, conf n r'.P.vel) = wstep (restF a) ((extrapMix D kdk 0 D).l j) h (conf n s.P.pos, conf n s.P.vel) := by
      rw [q3, c1, c2]; rfl
    rw [← q3'] at key
    have key' := key.trans (show C * h ≤ (C + 1) * h by linarith)
    refine ⟨r', e, q1, ?_, at' ((norm_fst_le _).trans key'), at' ((norm_snd_le _).trans key'), fun hf => by simp at hf⟩
    have := time kdk h j _ r r' h0 hj hr' e
    have : 0 ≤ C * h := by positivity
    linarith

/-- the same after any sequence of extrapolated steps -/
theorem forced_runs {I : Interactions} {n : Nat} {m : Nat → ℝ} {a : Field n} (A : Acts I n m a) {x v : ℝ → Nat → V3 ℝ} {t0 t1 : ℝ} (ht : t0 ≤ t1)
    (M : ForcedMotion n a x v t0 t1) (hS : SmoothAlong a x v t0 t1) (D : Nat) :
    ∃ K ρ C : ℝ, 0 ≤ K ∧ 0 < ρ ∧ 0 ≤ C ∧ ∀ P, InState n m x v t0 P → ∀ (kdk : Bool), (I.velDep = true → kdk = false) →
      ∀ (err : List ℝ → (Nat → ℝ) → (Nat → ℝ) → ℝ) (N : Nat) (s : Nat → Simple) (h : Nat → ℝ) (k : Nat → Nat), s 0 = Simple.init t0 P →
      (∀ i, i < N → ForcedAt I kdk D err (h i) ((s i).preIter I) (s (i + 1)) (k i) ∧ (s (i + 1)).P.num = (s i).P.num ∧ (s (i + 1)).P.mass = (s i).P.mass) →
      (∀ i, i < N → 0 < h i ∧ h i ≤ ρ) → t0 + ∑ i ∈ range N, h i ≤ t1 →
      ((s N).time = t0 + ∑ i ∈ range N, h i ∧ WithinOf n m x v (s N).time (K * ∑ i ∈ range N, h i ^ (2 * k i + 3)) (s N).P) ∧
      ∀ y, 0 ≤ y → y ≤ ρ → ∀ j, j ≤ D → ∀ r, SameSimple I ((s N).preIter I) r →
        ∃ r', (simpleOps I).run (if kdk then substepsKDK y (hSeq D j) else substepsDKD y (hSeq D j)) r = .ok r' ∧
        r'.P.num = n ∧ |r'.time - ((s N).preIter I).time| ≤ C * y ∧ (∀ k, k < n → ‖co (r'.P.pos k) - co (((s N).preIter I).P.pos k)‖ ≤ C * y) ∧
        (∀ k, k < n → ‖co (r'.P.vel k) - co (((s N).preIter I).P.vel k)‖ ≤ C * y) ∧
        (I.velDep = true → ∀ k, k < n → ‖co (r'.aux k) - co (((s N).preIter I).aux k)‖ ≤ C * y) := by
  obtain ⟨K, ρ, hK, hρ, H⟩ := forced_core A ht M hS D
  obtain ⟨ε, C, ρ', hε, hC, hρ', mv⟩ := forced_move A M hS D
  obtain ⟨η, hη⟩ : ∃ η, η = min (min ρ ρ') (min 1 (ε / (K * (t1 - t0) + 1))) := ⟨_, rfl⟩
  have den : 0 < K * (t1 - t0) + 1 := by
    have : 0 ≤ t1 - t0 := by linarith
    positivity
  refine ⟨K, η, C, hK, hη ▸ lt_min (lt_min hρ hρ') (lt_min one_pos (by positivity)), hC, fun P S kdk hkdk err N s h k hs0 hk hh hend => ?_⟩
  have η1 : η ≤ ρ := hη ▸ (min_le_left _ _).trans (min_le_left _ _)
  have η2 : η ≤ ρ' := hη ▸ (min_le_left _ _).trans (min_le_right _ _)
  have η3 : η ≤ 1 := hη ▸ (min_le_right _ _).trans (min_le_left _ _)
  have η4 : η * (K * (t1 - t0) + 1) ≤ ε := (le_div_iff₀ den).1 (hη ▸ (min_le_right _ _).trans (min_le_right _ _))
  have dt : ∀ i, i < N → (s (i + 1)).time - (s i).time = h i := by
    intro i hi
    obtain ⟨X, e1, _⟩ := hk i hi
    obtain ⟨pP, pt⟩ := preIter_same I (s i)
    have := (forced_vars X (by rw [pP]; exact e1)).1
    rw [pt] at this
    linarith
  have tm : ∀ i, i ≤ N → (s i).time = t0 + ∑ j ∈ range i, h j := by
    intro i
    induction i with
    | zero => intro _; rw [hs0]; simp [Simple.init]
    | succ i ih =>
      intro hi
      rw [sum_range_succ]
      have := ih (by omega)
      have := dt i (by omega)
      linarith
  have Wi := H P S kdk hkdk err N s k hs0 (fun i hi => by rw [dt i hi]; exact hk i hi) (fun i hi => by
    have := dt i hi
    have := hh i hi
    exact ⟨by linarith, by linarith⟩) (by rw [tm N le_rfl]; exact hend)
  rw [show ∑ i ∈ range N, ((s (i + 1)).time - (s i).time) ^ (2 * k i + 3) = ∑ i ∈ range N, h i ^ (2 * k i + 3) from
    sum_congr rfl fun i hi => by rw [dt i (mem_range.1 hi)]] at Wi
  have s0 : 0 ≤ ∑ i ∈ range N, h i := sum_nonneg fun i hi => (hh i (mem_range.1 hi)).1.le
  have small : K * ∑ i ∈ range N, h i ^ (2 * k i + 3) ≤ ε := by
    have u1 : ∑ i ∈ range N, h i ^ (2 * k i + 3) ≤ η * ∑ i ∈ range N, h i := by
      rw [mul_sum]
      refine sum_le_sum fun i hi => ?_
      obtain ⟨q1, q2⟩ := hh i (mem_range.1 hi)
      calc h i ^ (2 * k i + 3) ≤ h i ^ 2 := pow_le_pow_of_le_one q1.le (by linarith) (by omega)
        _ = h i * h i := sq _
        _ ≤ η * h i := mul_le_mul_of_nonneg_right q2 q1.le
    have u2 := mul_le_mul_of_nonneg_left u1 hK
    have η0 : 0 ≤ η := hη ▸ (lt_min (lt_min hρ hρ') (lt_min one_pos (by positivity))).le
    have u3 : K * (η * ∑ i ∈ range N, h i) ≤ K * (η * (t1 - t0)) :=
      mul_le_mul_of_nonneg_left (mul_le_mul_of_nonneg_left (by linarith) η0) hK
    linarith [show η * (K * (t1 - t0) + 1) = K * (η * (t1 - t0)) + η by ring]
  refine ⟨⟨tm N le_rfl, Wi⟩, fun y hy0 hy j hj r hr => ?_⟩
  exact mv (s N) (s N).time ⟨by rw [tm N le_rfl]; linarith, by rw [tm N le_rfl]; exact hend⟩
    ⟨Wi.num, Wi.mass, fun k hk => (Wi.pos k hk).trans small, fun k hk => (Wi.vel k hk).trans small⟩ kdk y hy0 (hy.trans η2) j hj r hr

/-- **C106, plain systems**, with `LeapFrogDKD`, or with either leap-frog if no force depends on the velocities. -/
theorem C106_simple {I : Interactions} {n : Nat} {m : Nat → ℝ} {a : Field n} (A : Acts I n m a) {x v : ℝ → Nat → V3 ℝ} {t0 t1 : ℝ} (ht : t0 ≤ t1)
    (M : ForcedMotion n a x v t0 t1) (hS : SmoothAlong a x v t0 t1)
    {D : Nat} (hD : 3 ≤ D) (hD' : D ≤ 24) (est : Estimator) {atol rtol : ℝ} (ha : 0 < atol) (hr : 0 ≤ rtol) (l : List Ctl.Setter)
    (g1 : 0 < (Ctl.configured l).s1) (g2 : 0 < (Ctl.configured l).s2) :
    ∃ K ρ : ℝ, 0 ≤ K ∧ 0 < ρ ∧ ∀ P, InState n m x v t0 P → ∀ (kdk : Bool) (p : Params ℝ), (I.velDep = true → kdk = false) → p.maxDepth = D → Library p est atol rtol l →
      ∀ (N : Nat) (s : Nat → Simple) (c : Nat → State ℝ) (h h' : Nat → ℝ), s 0 = Simple.init t0 P → c 0 = State.init D →
      (∀ i, i < N → iterate (simpleSys I kdk) p (h i) (c i) ((s i).preIter I) = .ok (s (i + 1), h' i, c (i + 1))) →
      (∀ i, i < N → 0 < h i ∧ h i ≤ ρ) → t0 + ∑ i ∈ range N, h i ≤ t1 →
      (s N).time = t0 + ∑ i ∈ range N, h i ∧
      (∃ k : Nat → Nat, (∀ i, i < N → 1 ≤ k i ∧ k i ≤ D) ∧ WithinOf n m x v (s N).time (K * ∑ i ∈ range N, h i ^ (2 * k i + 3)) (s N).P) ∧
      ∀ y, 0 < y → y ≤ ρ → ∃ s' y' c', iterate (simpleSys I kdk) p y (c N) ((s N).preIter I) = .ok (s', y', c') ∧ y ≤ y' := by
  obtain ⟨K, ρ, C, hK, hρ, hC, H⟩ := forced_runs A ht M hS D
  obtain ⟨W, hW0, hW⟩ := weights_bounded D
  obtain ⟨e0, he0⟩ : ∃ e0, e0 = min 1 ((Ctl.configured l).s2 * (min 1 (Ctl.configured l).s1) ^ 50) := ⟨_, rfl⟩
  have e00 : 0 < e0 := he0 ▸ lt_min one_pos (mul_pos g2 (pow_pos (lt_min one_pos g1) 50))
  refine ⟨K, min ρ (e0 * atol / (2 * W * C + 1)), hK, lt_min hρ (by positivity), fun P S kdk p hkdk hp HL N s c h h' hs0 hc0 hit hh hend => ?_⟩
  subst hp
  have T : Tame p atol e0 (1 / 200) := he0 ▸ library_tame HL ha hr g1 g2 hD'
  have less : ∀ i, i ≤ N → t0 + ∑ j ∈ range i, h j ≤ t1 := fun i hi => by
    have : ∑ j ∈ range i, h j ≤ ∑ j ∈ range N, h j := sum_le_sum_of_subset_of_nonneg (range_subset_range.2 hi) fun j hj _ => (hh j (mem_range.1 hj)).1.le
    linarith
  have next : ∀ (i : Nat) (k : Nat → Nat), i ≤ N → (Unused p.maxDepth (c i) ∨ Used p.maxDepth (c i)) →
      (∀ j, j < i → ForcedAt I kdk p.maxDepth p.err (h j) ((s j).preIter I) (s (j + 1)) (k j) ∧ (s (j + 1)).P.num = (s j).P.num ∧
        (s (j + 1)).P.mass = (s j).P.mass) → ∀ y, 0 < y → y ≤ min ρ (e0 * atol / (2 * W * C + 1)) →
      ∃ s' y' c' k', iterate (simpleSys I kdk) p y (c i) ((s i).preIter I) = .ok (s', y', c') ∧
        ForcedAt I kdk p.maxDepth p.err y ((s i).preIter I) s' k' ∧ s'.P.num = (s i).P.num ∧ s'.P.mass = (s i).P.mass ∧ y ≤ y' ∧ Used p.maxDepth c' := by
    intro i k hi hu hk y hy0 hy
    obtain ⟨⟨_, Wi⟩, runs⟩ := H P S kdk hkdk p.err i s h k hs0 hk (fun j hj => ⟨(hh j (by omega)).1, (hh j (by omega)).2.trans (min_le_left _ _)⟩) (less i hi)
    have frame0 : ((s i).preIter I).P = (s i).P := (preIter_same I (s i)).1
    have L := simple_lawful I kdk ((s i).preIter I)
    have hy2 := hy.trans (min_le_right _ _)
    rw [le_div_iff₀ (by positivity)] at hy2
    obtain ⟨s', y', c', k', e, X, f, r1, r2⟩ := lawful_small L T hD hW (B := C * y) (by positivity) (by
        have : 0 ≤ y := hy0.le
        linarith [show y * (2 * W * C + 1) = 2 * (W * (C * y)) + y by ring]) (by
        show 1 ≤ (((s i).preIter I).write I).length
        rw [C13_simple_size]; unfold Simple.variableNumber; omega) hy0 (fun x j hx hj => by
        obtain ⟨r', e, q1, b1, b4, b5, b6⟩ := runs y hy0.le (hy.trans (min_le_left _ _)) j hj x hx.2.2.2.1
        refine ⟨r', e, fun q hq => ?_⟩
        show |(r'.write I).getD q 0 - (((s i).preIter I).write I).getD q 0| ≤ _
        rw [Simple.write_getD, Simple.write_getD]
        have en : ((s i).preIter I).flat.n = n := by
          show ((s i).preIter I).P.num = n
          rw [frame0]; exact Wi.num
        have z : |(0 : ℝ) - 0| ≤ C * y := by rw [sub_zero, abs_zero]; positivity
        refine flat_close (by positivity) (q1.trans en.symm) b1 z z ?_ ?_ ?_ q
        · rw [en]; exact b4
        · rw [en]; exact b5
        · rw [en]; exact b6) (fun x v f hv => by
        obtain ⟨t, e, _⟩ := C13_simple_write_read I x v (by
          rw [hv, show (simpleSys I kdk).write ((s i).preIter I) = ((s i).preIter I).write I from rfl, C13_simple_size]
          unfold Simple.variableNumber; rw [f.1])
        exact ⟨t, e⟩) hu
    exact ⟨s', y', c', k', e, X, by rw [f.1, frame0], by rw [f.2, frame0], r1, r2⟩
  have all : ∀ i, i ≤ N → (Unused p.maxDepth (c i) ∨ Used p.maxDepth (c i)) ∧ ∃ k : Nat → Nat, ∀ j, j < i →
      ForcedAt I kdk p.maxDepth p.err (h j) ((s j).preIter I) (s (j + 1)) (k j) ∧ (s (j + 1)).P.num = (s j).P.num ∧ (s (j + 1)).P.mass = (s j).P.mass := by
    intro i
    induction i with
    | zero =>
      intro _
      refine ⟨.inl ?_, fun _ => 0, fun j hj => absurd hj (by omega)⟩
      rw [hc0]
      exact ⟨rfl, by show p.maxDepth - 1 + 1 ≤ p.maxDepth; omega⟩
    | succ i ih =>
      intro hi
      obtain ⟨hu, k, hk⟩ := ih (by omega)
      obtain ⟨s', y', c', k', e, X, q1, q2, _, q3⟩ := next i k (by omega) hu hk (h i) (hh i (by omega)).1 (hh i (by omega)).2
      rw [hit i (by omega)] at e
      have e' := Res.ok.inj e
      simp only [Prod.mk.injEq] at e'
      obtain ⟨rfl, _, rfl⟩ := e'
      refine ⟨.inr q3, fun j => if j = i then k' else k j, fun j hj => ?_⟩
      by_cases hji : j = i
      · subst hji
        simp only [if_true]
        exact ⟨X, q1, q2⟩
      · simp only [if_neg hji]
        exact hk j (by omega)
  obtain ⟨hu, k, hk⟩ := all N le_rfl
  obtain ⟨⟨tm, fin⟩, _⟩ := H P S kdk hkdk p.err N s h k hs0 hk (fun j hj => ⟨(hh j hj).1, (hh j hj).2.trans (min_le_left _ _)⟩) hend
  refine ⟨tm, ⟨k, fun i hi => ?_, fin⟩, fun y hy0 hy => ?_⟩
  · obtain ⟨⟨_, _, _, _, h1, h2, _⟩, _⟩ := hk i hi
    exact ⟨h1, h2⟩
  · obtain ⟨s', y', c', _, e, _, _, _, q, _⟩ := next N k le_rfl hu hk y hy0 hy
    exact ⟨s', y', c', e, q⟩

/-- **C106, chain systems**, as for plain systems; the chain is updated after each call, which does not fail either. -/
theorem C106_chain {IC : ChainInteractions} {I : Interactions} (AI : AgreesI IC I) {n : Nat} {m : Nat → ℝ} {a : Field n} (A : Acts I n m a)
    {x v : ℝ → Nat → V3 ℝ} {t0 t1 : ℝ} (ht : t0 ≤ t1) (M : ForcedMotion n a x v t0 t1) (hS : SmoothAlong a x v t0 t1)
    {D : Nat} (hD : 3 ≤ D) (hD' : D ≤ 24) (est : Estimator) {atol rtol : ℝ} (ha : 0 < atol) (hr : 0 ≤ rtol) (l : List Ctl.Setter)
    (g1 : 0 < (Ctl.configured l).s1) (g2 : 0 < (Ctl.configured l).s2) :
    ∃ K ρ : ℝ, 0 ≤ K ∧ 0 < ρ ∧ ∀ P, InState n m x v t0 P → ∀ (kdk : Bool) (p : Params ℝ), (I.velDep = true → kdk = false) → p.maxDepth = D → Library p est atol rtol l →
      ∀ idx, IndexOf P idx → ∀ (N : Nat) (s : Nat → ChainSys) (c : Nat → State ℝ) (h h' : Nat → ℝ), ChainSys.init t0 P idx = .ok (s 0) → c 0 = State.init D →
      (∀ i, i < N → ChainMacro IC kdk p (h i) (c i) (s i) (s (i + 1)) (h' i) (c (i + 1))) →
      (∀ i, i < N → 0 < h i ∧ h i ≤ ρ) → t0 + ∑ i ∈ range N, h i ≤ t1 →
      (s N).time = t0 + ∑ i ∈ range N, h i ∧
      (∃ k : Nat → Nat, (∀ i, i < N → 1 ≤ k i ∧ k i ≤ D) ∧ WithinOf n m x v (s N).time (K * ∑ i ∈ range N, h i ^ (2 * k i + 3)) (s N).P) ∧
      ∀ y, 0 < y → y ≤ ρ → ∃ u y' c', iterate (chainSys IC kdk) p y (c N) ((s N).preIter IC) = .ok (u, y', c') ∧ y ≤ y' ∧
        (∃ idx, IndexOf u.P idx) ∧ ∀ idx, IndexOf u.P idx → ∃ s', u.postIter idx = .ok s' := by
  obtain ⟨K, ρ, C, hK, hρ, hC, H⟩ := forced_runs A ht M hS D
  obtain ⟨W, hW0, hW⟩ := weights_bounded D
  obtain ⟨e0, he0⟩ : ∃ e0, e0 = min 1 ((Ctl.configured l).s2 * (min 1 (Ctl.configured l).s1) ^ 50) := ⟨_, rfl⟩
  have e00 : 0 < e0 := he0 ▸ lt_min one_pos (mul_pos g2 (pow_pos (lt_min one_pos g1) 50))
  refine ⟨K, min ρ (e0 * atol / (2 * W * (2 * C) + 1)), hK, lt_min hρ (by positivity), fun P S kdk p hkdk hp HL idx hidx N s c h h' h0 hc0 hc hh hend => ?_⟩
  subst hp
  have T : Tame p atol e0 (1 / 200) := he0 ▸ library_tame HL ha hr g1 g2 hD'
  obtain ⟨a0, good⟩ := chain_calls_good AI hidx h0 hc
  have less : ∀ i, i ≤ N → t0 + ∑ j ∈ range i, h j ≤ t1 := fun i hi => by
    have : ∑ j ∈ range i, h j ≤ ∑ j ∈ range N, h j := sum_le_sum_of_subset_of_nonneg (range_subset_range.2 hi) fun j hj _ => (hh j (mem_range.1 hj)).1.le
    linarith
  have next : ∀ (i : Nat) (k : Nat → Nat), i ≤ N → (Unused p.maxDepth (c i) ∨ Used p.maxDepth (c i)) →
      (∀ j, j < i → ForcedAt I kdk p.maxDepth (fun _ _ _ => 0) (h j) ((s j).abs.preIter I) (s (j + 1)).abs (k j) ∧
        (s (j + 1)).abs.P.num = (s j).abs.P.num ∧ (s (j + 1)).abs.P.mass = (s j).abs.P.mass) → ∀ y, 0 < y → y ≤ min ρ (e0 * atol / (2 * W * (2 * C) + 1)) →
      ∃ u y' c' k', iterate (chainSys IC kdk) p y (c i) ((s i).preIter IC) = .ok (u, y', c') ∧ ChainSys.Good false u ∧
        ForcedAt I kdk p.maxDepth (fun _ _ _ => 0) y ((s i).abs.preIter I) u.abs k' ∧ u.P.num = (s i).P.num ∧ u.P.mass = (s i).P.mass ∧
        y ≤ y' ∧ Used p.maxDepth c' := by
    intro i k hi hu hk y hy0 hy
    obtain ⟨⟨_, Wi⟩, runs⟩ := H P S kdk hkdk (fun _ _ _ => 0) i (fun i => (s i).abs) h k a0 hk
      (fun j hj => ⟨(hh j (by omega)).1, (hh j (by omega)).2.trans (min_le_left _ _)⟩) (less i hi)
    obtain ⟨gp, ap⟩ := ChainSys.preIter_sim AI (good i hi)
    rw [← AI.velDep_eq] at gp
    have frame0 : ((s i).preIter IC).P = (s i).P := by unfold ChainSys.preIter; split_ifs <;> rfl
    have L := chain_lawful IC kdk ((s i).preIter IC) gp.cons
    have hy2 := hy.trans (min_le_right _ _)
    rw [le_div_iff₀ (by positivity)] at hy2
    obtain ⟨u, y', c', k', e, X, f, r1, r2⟩ := lawful_small L T hD hW (B := 2 * (C * y)) (by positivity) (by
        have : 0 ≤ y := hy0.le
        linarith [show y * (2 * W * (2 * C) + 1) = 2 * (W * (2 * (C * y))) + y by ring]) (by
        show 1 ≤ (((s i).preIter IC).write IC).length
        rw [C13_chain_size]; unfold ChainSys.variableNumber; omega) hy0 (fun x j hx hj => by
        have hsame := hx.2.2.2.1
        have gx : ChainSys.Good IC.velDep x := same_good gp hsame
        obtain ⟨q1, q2, q3, q4, q7, q8⟩ := hsame
        obtain ⟨r', e, F', b1, b4, b5, b6⟩ := runs y hy0.le (hy.trans (min_le_left _ _)) j hj x.abs (by
          rw [← ap]
          exact ⟨q1, q2, q3, fun l hl => ⟨(q7 l hl).1, (q7 l hl).2.1, fun hd => (q7 l hl).2.2 (by rw [AI.velDep_eq]; exact hd)⟩⟩)
        obtain ⟨x', t, e1, e2, g', e3⟩ := chainOps_run AI AI.velDep_eq (if kdk then substepsKDK y (hSeq p.maxDepth j) else substepsDKD y (hSeq p.maxDepth j)) x gx
        rw [e] at e2; cases e2
        have e1' : (chainSys IC kdk).integrate y (hSeq p.maxDepth j) x = .ok x' := e1
        have fr := L.trans _ _ _ hx.1 (L.run _ _ _ _ hx.2.1 e1').2.1
        refine ⟨x', e1', fun q hq => ?_⟩
        show |(x'.write IC).getD q 0 - (((s i).preIter IC).write IC).getD q 0| ≤ _
        rw [ChainSys.write_getD, ChainSys.write_getD]
        rw [← e3] at F' b1 b4 b5 b6
        rw [← ap] at b1 b4 b5 b6
        have en : ((s i).preIter IC).P.num = n := by rw [frame0]; exact Wi.num
        have en' : x'.P.num = n := F'
        have cons := gp.cons
        have cons' := g'.cons
        rw [en, ← fr.2.2] at cons
        rw [en'] at cons'
        have b0 : 0 ≤ C * y := by positivity
        have z : |(0 : ℝ) - 0| ≤ 2 * (C * y) := by rw [sub_zero, abs_zero]; positivity
        refine flat_close (by positivity) (en'.trans en.symm) (b1.trans (by linarith)) z z ?_ ?_ ?_ q
        · show ∀ k, k < ((s i).preIter IC).P.num → _
          rw [en]
          exact links_close cons.index cons.pos cons'.pos b0 b4
        · show ∀ k, k < ((s i).preIter IC).P.num → _
          rw [en]
          exact links_close cons.index cons.vel cons'.vel b0 b5
        · intro hd
          show ∀ k, k < ((s i).preIter IC).P.num → _
          rw [en]
          exact links_close cons.index (cons.aux hd) (cons'.aux hd) b0 (b6 (by rw [← AI.velDep_eq]; exact hd))) (fun x v f hv => by
        obtain ⟨t, e, _⟩ := C13_chain_write_read IC x (by rw [f.1]; exact gp.cons.num) (by rw [f.1, f.2.2]; exact gp.cons.index) v (by
          rw [hv, show (chainSys IC kdk).write ((s i).preIter IC) = ((s i).preIter IC).write IC from rfl, C13_chain_size]
          unfold ChainSys.variableNumber; rw [f.1])
        exact ⟨t, e⟩) hu
    have gu := chain_good gp e
    refine ⟨u, y', c', k', e, gu.weaken, ?_, by rw [f.1, frame0], by rw [f.2.1, frame0], r1, r2⟩
    rw [← ap]
    exact chain_extrap AI (kdk := kdk) gp gu f.1 f.2.2 X
  have all : ∀ i, i ≤ N → (Unused p.maxDepth (c i) ∨ Used p.maxDepth (c i)) ∧ ∃ k : Nat → Nat, ∀ j, j < i →
      ForcedAt I kdk p.maxDepth (fun _ _ _ => 0) (h j) ((s j).abs.preIter I) (s (j + 1)).abs (k j) ∧
        (s (j + 1)).abs.P.num = (s j).abs.P.num ∧ (s (j + 1)).abs.P.mass = (s j).abs.P.mass := by
    intro i
    induction i with
    | zero =>
      intro _
      refine ⟨.inl ?_, fun _ => 0, fun j hj => absurd hj (by omega)⟩
      rw [hc0]
      exact ⟨rfl, by show p.maxDepth - 1 + 1 ≤ p.maxDepth; omega⟩
    | succ i ih =>
      intro hi
      obtain ⟨hu, k, hk⟩ := ih (by omega)
      obtain ⟨u, y', c', k', e, gu, X, q1, q2, _, q3⟩ := next i k (by omega) hu hk (h i) (hh i (by omega)).1 (hh i (by omega)).2
      obtain ⟨u', z, e2, hz, e3⟩ := hc i (by omega)
      rw [e2] at e
      have e' := Res.ok.inj e
      simp only [Prod.mk.injEq] at e'
      obtain ⟨rfl, _, rfl⟩ := e'
      obtain ⟨s', e4, _, a3, _⟩ := ChainSys.postIter_sim gu z hz.isIndex
      rw [e3] at e4; cases e4
      have e5 : (s (i + 1)).abs.P = u'.abs.P := congrArg Simple.P a3
      refine ⟨.inr q3, fun j => if j = i then k' else k j, fun j hj => ?_⟩
      by_cases hji : j = i
      · subst hji
        simp only [if_true]
        refine ⟨?_, (congrArg Particles.num e5).trans q1, (congrArg Particles.mass e5).trans q2⟩
        rw [a3]; exact X
      · simp only [if_neg hji]
        exact hk j (by omega)
  obtain ⟨hu, k, hk⟩ := all N le_rfl
  obtain ⟨⟨tm, fin⟩, _⟩ := H P S kdk hkdk (fun _ _ _ => 0) N (fun i => (s i).abs) h k a0 hk
    (fun j hj => ⟨(hh j hj).1, (hh j hj).2.trans (min_le_left _ _)⟩) hend
  refine ⟨tm, ⟨k, fun i hi => ?_, fin⟩, fun y hy0 hy => ?_⟩
  · obtain ⟨⟨_, _, _, _, h1, h2, _⟩, _⟩ := hk i hi
    exact ⟨h1, h2⟩
  · obtain ⟨u, y', c', _, e, gu, _, _, _, q, _⟩ := next N k le_rfl hu hk y hy0 hy
    refine ⟨u, y', c', e, q, IndexOf.exists u.P gu.two, fun z hz => ?_⟩
    obtain ⟨s', e3, _⟩ := ChainSys.postIter_sim gu z hz.isIndex
    exact ⟨s', e3⟩

end SpaceHub.Sys
