import Verif.Props.ForcedRegu
import Verif.Props.ForcedBS
import Verif.Proof.BSGoes

/-
C105: the order of Bulirsch-Stoer on regularised systems and AR-chain systems with additional forces.
-/

set_option autoImplicit false

namespace SpaceHub.Sys
open SpaceHub V3 Force Core Integrator Spec Props Finset Converge BS BS.Spec
open scoped ContDiff

/-- the runs of a Bulirsch-Stoer step with `LeapFrogDKD` on a regularised system with any forces -/
abbrev ReguForcedAt (type : ReguType) (I : Interactions) (D : Nat) (err : List ℝ → (Nat → ℝ) → (Nat → ℝ) → ℝ) : ℝ → ReguSys → ReguSys → Nat → Prop :=
  ExtrapolatedAt (hSeq D) D (ReguSys.write I) (fun h n => (reguOps 1 type I).run (substepsDKD h n)) (SameRegu I) err

theorem wide_same {n : Nat} {m : Nat → ℝ} {I : Interactions} {s r : ReguSys} (F : FrameR n m s) (h : SameRegu I s r) :
    FrameR n m r ∧ wideOf n I.velDep r = wideOf n I.velDep s := by
  obtain ⟨b0, b1, b2, b3, b4, b5⟩ := h
  refine ⟨⟨b1.trans F.1, fun i hi => by rw [b2]; exact F.2 i hi⟩, ?_⟩
  have c1 : conf n r.P.pos = conf n s.P.pos := funext fun i => congrArg co (b5 i (by rw [F.1]; exact i.2)).1
  have c2 : conf n r.P.vel = conf n s.P.vel := funext fun i => congrArg co (b5 i (by rw [F.1]; exact i.2)).2.1
  unfold wideOf
  rw [b0, b3, b4, c1, c2]
  cases hd : I.velDep with
  | false => rfl
  | true =>
    have c3 : conf n r.aux = conf n s.aux := funext fun i => congrArg co ((b5 i (by rw [F.1]; exact i.2)).2.2 hd)
    rw [c3]

section
variable {ex : List (ForceClass Particles)} {n : Nat} {m : Nat → ℝ} {a : Field n}

/-- a run of sub-steps of the model is a run of the abstract integrator -/
theorem wide_run (A : Acts (withGravity ex) n m a) {type : ReguType} {h : ℝ} {s r : ReguSys} {N : Nat} (hN : 0 < N) (F : FrameR n m s) (same : SameRegu (withGravity ex) s r)
    (safe : ∀ pre suf, subStages false N = pre ++ suf →
      gapP n m type (narrow (Letters.wstep (wideF (withGravity ex).velDep m type a) (pre.flatMap split) h (wideOf n (withGravity ex).velDep s))) ≠ 0 ∧
      gapQ n m type (Letters.wstep (wideF (withGravity ex).velDep m type a) (pre.flatMap split) h (wideOf n (withGravity ex).velDep s)).2.1.1 ≠ 0) :
    ∃ r', (reguOps 1 type (withGravity ex)).run (substepsDKD h N) r = .ok r' ∧ FrameR n m r' ∧
      wideOf n (withGravity ex).velDep r' =
        Letters.wstep (wideF (withGravity ex).velDep m type a) ((subStages false N).flatMap split) h (wideOf n (withGravity ex).velDep s) := by
  obtain ⟨Fr, e⟩ := wide_same F same
  rw [← e] at safe ⊢
  have := stages_wide A (type := type) h (subStages false N) r Fr safe
  rw [subStages_calls false h _ hN] at this
  exact this

/-- one macro step of the model is one step of the abstract extrapolation -/
theorem wide_extrap (A : Acts (withGravity ex) n m a) {type : ReguType} {D : Nat} {err : List ℝ → (Nat → ℝ) → (Nat → ℝ) → ℝ} {h : ℝ} {s s' : ReguSys} {k : Nat}
    (X : ReguForcedAt type (withGravity ex) D err h s s' k) (F : FrameR n m s) (hn' : s'.P.num = s.P.num) (hm' : s'.P.mass = s.P.mass)
    (safe : ∀ j, j ≤ k → ∀ pre suf, subStages false (hSeq D j) = pre ++ suf →
      gapP n m type (narrow (Letters.wstep (wideF (withGravity ex).velDep m type a) (pre.flatMap split) h (wideOf n (withGravity ex).velDep s))) ≠ 0 ∧
      gapQ n m type (Letters.wstep (wideF (withGravity ex).velDep m type a) (pre.flatMap split) h (wideOf n (withGravity ex).velDep s)).2.1.1 ≠ 0) :
    FrameR n m s' ∧ wideOf n (withGravity ex).velDep s' =
      (Letters.moveMix D false k).step (wideF (withGravity ex).velDep m type a) h (wideOf n (withGravity ex).velDep s) := by
  obtain ⟨start, row, T0, T1, hk1, hkD, hrow, hT, _⟩ := X
  have er : ∀ j, j ≤ k → FrameR n m (row j) ∧ wideOf n (withGravity ex).velDep (row j) =
      Letters.wstep (wideF (withGravity ex).velDep m type a) ((subStages false (hSeq D j)).flatMap split) h (wideOf n (withGravity ex).velDep s) := by
    intro j hj
    obtain ⟨hs, hr⟩ := hrow j hj
    obtain ⟨r', e, F', w⟩ := wide_run A (hSeq_pos (by omega)) F hs (safe j hj)
    dsimp only at hr
    rw [e] at hr
    rw [← Res.ok.inj hr]
    exact ⟨F', w⟩
  obtain ⟨dep, hdep⟩ : ∃ dep, dep = (withGravity ex).velDep := ⟨_, rfl⟩
  have hlen : (s.write (withGravity ex)).length = s.variableNumber (withGravity ex) := C13_regu_size _ s
  have hns : s'.P.num = n := hn'.trans F.1
  have hval : ∀ i, i < n * 3 * (2 + dep.toNat) + 3 → s'.flat.val dep i = zeroStep (hSeq D) (fun m => (row m).flat.val dep i) 0 k := by
    intro i hi
    have := (hT i (by rw [hlen]; show i < s.P.num * 3 * (2 + (withGravity ex).velDep.toNat) + 3; rw [F.1, ← hdep]; exact hi)).1
    simp only [ReguSys.write_getD] at this
    rw [hdep]
    exact this
  have hnum : ∀ m, m ≤ k → (row m).flat.n = s'.flat.n := fun m hm => (er m hm).1.1.trans hns.symm
  have E : ExtraF D k dep s'.flat (fun m => (row m).flat) := extraF_of hnum fun i hi => hval i (by
    change i < s'.P.num * 3 * (2 + dep.toNat) + 1 at hi
    rw [hns] at hi
    omega)
  have hf : s'.flat.n = n := hns
  have ex' := conf_extrap (D := D) (k := k) (n := n) s'.P.pos (fun m => (row m).P.pos) (hf ▸ E.x)
  have ev := conf_extrap (D := D) (k := k) (n := n) s'.P.vel (fun m => (row m).P.vel) (hf ▸ E.v)
  have et : s'.time = ∑ j ∈ Icc 0 k, weight D 0 k j * (row j).time := by
    rw [← zeroStep_weight]; exact E.time
  have eo : s'.R.omega = ∑ j ∈ Icc 0 k, weight D 0 k j * (row j).R.omega := by
    have h0 := hval (omegaOffset n dep) (by unfold omegaOffset; cases dep <;> simp)
    have e1 := omEntry dep s'.flat
    rw [hf] at e1
    rw [e1] at h0
    rw [← zeroStep_weight]
    refine h0.trans (zeroStep_congr fun j _ hj => ?_)
    have e2 := omEntry dep (row j).flat
    rw [show (row j).flat.n = n from (er j hj).1.1] at e2
    exact e2
  have eb : s'.R.bindE = ∑ j ∈ Icc 0 k, weight D 0 k j * (row j).R.bindE := by
    have h0 := hval (bindEOffset n dep) (by unfold bindEOffset; cases dep <;> simp)
    have e1 := beEntry' dep s'.flat
    rw [hf] at e1
    rw [e1] at h0
    rw [← zeroStep_weight]
    refine h0.trans (zeroStep_congr fun j _ hj => ?_)
    have e2 := beEntry' dep (row j).flat
    rw [show (row j).flat.n = n from (er j hj).1.1] at e2
    exact e2
  have ea : (if dep then conf n s'.aux else 0) = ∑ j ∈ Icc 0 k, weight D 0 k j • (if dep then conf n (row j).aux else 0) := by
    cases hd : dep with
    | false => simp
    | true =>
      simp only [if_true]
      exact conf_extrap (D := D) (k := k) (n := n) s'.aux (fun m => (row m).aux) (hf ▸ E.a hd)
  refine ⟨⟨hns, fun i hi => by rw [hm']; exact F.2 i hi⟩, ?_⟩
  show _ = ∑ j ∈ Icc 0 k, weight D 0 k j • Letters.wstep (wideF (withGravity ex).velDep m type a) ((subStages false (hSeq D j)).flatMap split) h
    (wideOf n (withGravity ex).velDep s)
  rw [sum_congr rfl fun j hj => by rw [← (er j (mem_Icc.1 hj).2).2], ← hdep]
  refine Prod.ext ?_ (Prod.ext (Prod.ext ?_ (Prod.ext ?_ ?_)) (Prod.ext ?_ ?_))
  · rw [Prod.fst_sum]; exact et
  · rw [Prod.snd_sum, Prod.fst_sum, Prod.fst_sum]; exact ex'
  · rw [Prod.snd_sum, Prod.fst_sum, Prod.snd_sum, Prod.fst_sum]; exact ev
  · rw [Prod.snd_sum, Prod.fst_sum, Prod.snd_sum, Prod.snd_sum]; exact ea
  · rw [Prod.snd_sum, Prod.snd_sum, Prod.fst_sum]; exact eo
  · rw [Prod.snd_sum, Prod.snd_sum, Prod.snd_sum]; exact eb

end

theorem preIter_wide {I : Interactions} {n : Nat} (s : ReguSys) : wideOf n I.velDep (s.preIter I) = level I.velDep (wideOf n I.velDep s) ∧
    (s.preIter I).P = s.P := by
  unfold ReguSys.preIter level
  cases I.velDep <;> exact ⟨rfl, rfl⟩

theorem init_wide {n : Nat} {m : Nat → ℝ} {x v : ℝ → Nat → V3 ℝ} {t0 : ℝ} {P : Particles} (S : InState n m x v t0 P) (type : ReguType) (dep : Bool) :
    FrameR n m (ReguSys.init 1 type t0 P) ∧ wideOf n dep (ReguSys.init 1 type t0 P) = wideAt n dep m type x v t0 t0 := by
  have e0 := start_conf S
  have e1 : conf n P.pos = conf n (x t0) := congrArg Prod.fst e0
  have e2 : conf n P.vel = conf n (v t0) := congrArg Prod.snd e0
  refine ⟨⟨S.num, S.mass⟩, ?_⟩
  have o1 : (ReguSys.init 1 type t0 P).R.omega = potC n m (conf n (x t0)) := by
    show -potentialDirect 1 P = _
    rw [potentialDirect_eq, potC_conf S.num S.mass, e1, neg_neg]
  have o2 : (ReguSys.init 1 type t0 P).R.bindE = potC n m (conf n (x t0)) - kinC n m (conf n (v t0)) := by
    show -totalEnergy 1 P = _
    rw [totalEnergy, potentialDirect_eq, potC_conf S.num S.mass, kinC_conf S.num S.mass, e1, e2]
    ring
  unfold wideOf wideAt
  rw [o1, o2]
  simp only [ite_self, ReguSys.init, e1, e2]

/-- C105 for any sequence of extrapolated steps of a regularised system -/
theorem regu_forced_core {ex : List (ForceClass Particles)} {n : Nat} {m : Nat → ℝ} {a : Field n} (A : Acts (withGravity ex) n m a)
    {x v : ℝ → Nat → V3 ℝ} {t0 t1 t2 : ℝ} (h02 : t0 ≤ t2) (h21 : t2 < t1) (M : ForcedMotion n a x v t0 t1) (hS : SmoothAlong a x v t0 t1)
    (apart : ∀ t ∈ Set.Icc t0 t1, ∀ i j, i < n → j < n → i ≠ j → x t i ≠ x t j) (hn : 2 ≤ n) (hmass : ∀ k, k < n → 0 < m k) (type : ReguType) (D : Nat) :
    ∃ K κ ρ C : ℝ, 0 ≤ K ∧ 0 < κ ∧ 0 < ρ ∧ ρ ≤ 1 ∧ 0 ≤ C ∧ ∀ P, InState n m x v t0 P → ∀ err : List ℝ → (Nat → ℝ) → (Nat → ℝ) → ℝ,
      ∀ (N : Nat) (s : Nat → ReguSys) (b : Nat → ℝ) (k : Nat → Nat), s 0 = ReguSys.init 1 type t0 P →
      (∀ i, i < N → ReguForcedAt type (withGravity ex) D err (b i) ((s i).preIter (withGravity ex)) (s (i + 1)) (k i) ∧ (s (i + 1)).P.num = (s i).P.num ∧
        (s (i + 1)).P.mass = (s i).P.mass) →
      (∀ i, i < N → 0 ≤ b i ∧ b i ≤ ρ) → (∀ i, i < N → (s i).time ≤ t2) →
        ((s N).time ≤ t2 →
          t0 + κ * ∑ i ∈ range N, b i ≤ (s N).time ∧ WithinOf n m x v (s N).time (K * ∑ i ∈ range N, b i ^ (2 * k i + 3)) (s N).P) ∧
          ∀ c, 0 ≤ c → c ≤ ρ → ∀ j, j ≤ D → ∀ r, SameRegu (withGravity ex) ((s N).preIter (withGravity ex)) r →
            ∃ r', (reguOps 1 type (withGravity ex)).run (substepsDKD c (hSeq D j)) r = .ok r' ∧ FrameR n m r' ∧
              ‖wideOf n (withGravity ex).velDep r' - wideOf n (withGravity ex).velDep ((s N).preIter (withGravity ex))‖ ≤ C * c := by
  have ht : t0 ≤ t1 := by linarith
  obtain ⟨U, hU, hsm, hin⟩ := hS
  have mem : ∀ t ∈ Set.Icc 0 (t1 - t0), t0 + t ∈ Set.Icc t0 t1 := fun t ht => ⟨by linarith [ht.1], by linarith [ht.2]⟩
  obtain ⟨V, hV, lip⟩ := forced_lip M hsm hin
  obtain ⟨dep, hdep⟩ : ∃ dep, dep = (withGravity ex).velDep := ⟨_, rfl⟩
  obtain ⟨τ1, κ, F, θ, hτ1, hκ, hF, θ0, θ1, θin, θlip, hsafe, dy⟩ := wide_motion ht M hin apart hn hmass type dep
  set y : ℝ → Wide n := fun τ => wideAt n dep m type x v t0 (t0 + θ τ) with hy
  obtain ⟨NN, W, hBd⟩ := Letters.move_bounded D
  have cy : ContinuousOn y (Set.Icc 0 τ1) := fun t ht => (dy t ht).continuousWithinAt
  have hKc : IsCompact (y '' Set.Icc 0 τ1) := isCompact_Icc.image_of_continuousOn cy
  obtain ⟨rr, hrr, hrU⟩ := hKc.exists_cthickening_subset_open (wide_open dep m type hU) (by rintro _ ⟨t, ht, rfl⟩; exact hsafe t ht)
  obtain ⟨C, ρC, hC, hρC, mv⟩ := Letters.words_move (wide_open dep m type hU) (wide_smooth dep type hsm hn hmass) hKc.cthickening hrU NN
  obtain ⟨K, ρ, hK, hρ, hρ1, hsml', key⟩ := Letters.mix_global (wide_open dep m type hU) (wide_smooth dep type hsm hn hmass)
    (fun X => by rw [hdep]; exact wide_straight A type X) hτ1 dy hsafe (2 * D + 2) NN 1 W (π := level dep) (level_norm dep) (fun t _ => by cases dep <;> rfl)
    (ε := min rr (min ((t1 - t2) / 2) (κ / 2))) (lt_min hrr (lt_min (by linarith) (by linarith)))
  have hsml := hsml'.trans (min_le_right _ _)
  refine ⟨2 * (K * (1 + V)), κ / 2, min (min ρ ρC) ((t1 - t2) / (2 * F)), C, by positivity, by positivity,
    lt_min (lt_min hρ hρC) (div_pos (by linarith) (by linarith)), ((min_le_left _ _).trans (min_le_left _ _)).trans hρ1, hC, fun P S err N s b k hs0 hk hb htm => ?_⟩
  have hητ : τ1 * (K * ρ) ≤ (t1 - t2) / 2 := by
    have := hsml.trans (min_le_left _ _)
    have : 0 ≤ K * ρ := by positivity
    linarith [show (τ1 + 1) * (K * ρ) = τ1 * (K * ρ) + K * ρ by ring]
  have hηκ : K * ρ ≤ κ / 2 := by
    have := hsml.trans (min_le_right _ _)
    have : 0 ≤ τ1 * (K * ρ) := by positivity
    linarith [show (τ1 + 1) * (K * ρ) = τ1 * (K * ρ) + K * ρ by ring]
  have hρF : min (min ρ ρC) ((t1 - t2) / (2 * F)) * F ≤ (t1 - t2) / 2 := by
    have := (le_div_iff₀ (by positivity)).1 (min_le_right (min ρ ρC) ((t1 - t2) / (2 * F)))
    linarith
  obtain ⟨step, hstep⟩ : ∃ step : Nat → Letters.MStep Move, ∀ j, step j = ⟨Letters.moveMix D false (k j), 2 * k j + 2, b j⟩ := ⟨_, fun _ => rfl⟩
  obtain ⟨l, hl⟩ : ∃ l : Nat → List (Letters.MStep Move), ∀ i, l i = (List.range i).map step := ⟨_, fun _ => rfl⟩
  have lh : ∀ i, ((l i).map Letters.MStep.h).sum = ∑ j ∈ range i, b j := fun i => by
    rw [hl, List.map_map, ← List.sum_toFinset _ List.nodup_range, List.toFinset_range]
    exact sum_congr rfl fun j _ => by simp only [Function.comp, hstep]
  have le : ∀ i, ((l i).map fun q => q.h ^ (q.p + 1)).sum = ∑ j ∈ range i, b j ^ (2 * k j + 3) := fun i => by
    rw [hl, List.map_map, ← List.sum_toFinset _ List.nodup_range, List.toFinset_range]
    exact sum_congr rfl fun j _ => by simp only [Function.comp, hstep]
  have lok : ∀ i, i ≤ N → ∀ q ∈ l i, q.X.Bounded NN 1 W ∧ q.X.Order q.p ∧ 1 ≤ q.p ∧ q.p ≤ 2 * D + 2 ∧ 0 ≤ q.h ∧ q.h ≤ ρ := by
    intro i hi q hq
    rw [hl] at hq
    obtain ⟨j, hj, rfl⟩ := List.mem_map.1 hq
    have hj' := List.mem_range.1 hj
    obtain ⟨⟨_, _, _, _, hk1, hkD, _⟩, _⟩ := hk j (by omega)
    obtain ⟨q1, q2⟩ := hb j (by omega)
    rw [hstep]
    exact ⟨hBd false (k j) hkD, Letters.move_order hkD, by simp, by simp only; omega, q1, q2.trans ((min_le_left _ _).trans (min_le_left _ _))⟩
  have s0 : ∀ i, i ≤ N → 0 ≤ ∑ j ∈ range i, b j := fun i hi => sum_nonneg fun j hj => (hb j (by have := mem_range.1 hj; omega)).1
  have small : ∀ i, i ≤ N → ∑ j ∈ range i, b j ^ (2 * k j + 3) ≤ ρ * ∑ j ∈ range i, b j := by
    intro i hi
    rw [mul_sum]
    refine sum_le_sum fun j hj => ?_
    obtain ⟨q1, q2⟩ := hb j (by have := mem_range.1 hj; omega)
    have q3 := q2.trans ((min_le_left _ _).trans (min_le_left _ _))
    calc b j ^ (2 * k j + 3) ≤ b j ^ 2 := pow_le_pow_of_le_one q1 (by linarith) (by omega)
      _ = b j * b j := sq _
      _ ≤ ρ * b j := mul_le_mul_of_nonneg_right q3 q1
  have near : ∀ i, i ≤ N → ∑ j ∈ range i, b j ≤ τ1 → wideOf n dep (s i) = Letters.mrun (wideF dep m type a) (level dep) (l i) (y 0) →
      |(s i).time - (t0 + θ (∑ j ∈ range i, b j))| ≤ K * ∑ j ∈ range i, b j ^ (2 * k j + 3) ∧
        ‖(conf n (s i).P.pos, conf n (s i).P.vel) - (conf n (x (t0 + θ (∑ j ∈ range i, b j))), conf n (v (t0 + θ (∑ j ∈ range i, b j))))‖ ≤
          K * ∑ j ∈ range i, b j ^ (2 * k j + 3) := by
    intro i hi hle hz
    have g := (key (l i) (lok i hi) (by rw [lh]; exact hle)).1
    rw [lh, le, ← hz] at g
    have g2 := (norm_fst_le (wideOf n dep (s i) - y (∑ j ∈ range i, b j)).2).trans ((norm_snd_le (wideOf n dep (s i) - y (∑ j ∈ range i, b j))).trans g)
    have g3 := (norm_fst_le (wideOf n dep (s i) - y (∑ j ∈ range i, b j)).2.1).trans g2
    have g4 := (norm_fst_le (wideOf n dep (s i) - y (∑ j ∈ range i, b j)).2.1.2).trans ((norm_snd_le (wideOf n dep (s i) - y (∑ j ∈ range i, b j)).2.1).trans g2)
    exact ⟨(norm_fst_le _).trans g, norm_prod_le_iff.2 ⟨g3, g4⟩⟩
  have clear : ∀ i, i ≤ N → ∑ j ∈ range i, b j ≤ τ1 → wideOf n dep (s i) = Letters.mrun (wideF dep m type a) (level dep) (l i) (y 0) →
      ∀ c, 0 ≤ c → c ≤ ρ → ∀ j, j ≤ D → ∀ pre suf, subStages false (hSeq D j) = pre ++ suf →
        gapP n m type (narrow (Letters.wstep (wideF dep m type a) (pre.flatMap split) c (level dep (wideOf n dep (s i))))) ≠ 0 ∧
        gapQ n m type (Letters.wstep (wideF dep m type a) (pre.flatMap split) c (level dep (wideOf n dep (s i)))).2.1.1 ≠ 0 := by
    intro i hi hle hz c hc0 hc j hj pre suf ep
    have g := (key (l i) (lok i hi) (by rw [lh]; exact hle)).2 (Letters.moveMix D false D) j (pre.flatMap split) (suf.flatMap split) c (hBd false D le_rfl)
      (mem_Icc.2 ⟨Nat.zero_le _, hj⟩) (by show (subStages false (hSeq D j)).flatMap split = _; rw [ep, List.flatMap_append]) hc0 hc
    rw [← hz] at g
    exact ⟨g.1.1, (gapQ_pos type hn hmass g.1.2.1).ne'⟩
  have main : ∀ i, i ≤ N → ∑ j ∈ range i, b j ≤ τ1 ∧ FrameR n m (s i) ∧ wideOf n dep (s i) = Letters.mrun (wideF dep m type a) (level dep) (l i) (y 0) := by
    intro i
    induction i with
    | zero =>
      intro _
      obtain ⟨f, e⟩ := init_wide S type dep
      rw [hs0]
      refine ⟨by simpa using hτ1, f, ?_⟩
      rw [e, hl]
      show _ = y 0
      simp only [hy, θ0, add_zero]
    | succ i ih =>
      intro hi
      obtain ⟨hle, R, hz⟩ := ih (by omega)
      obtain ⟨q1, q2⟩ := hb i (by omega)
      have h00 := s0 i (by omega)
      have g1 := (near i (by omega) hle hz).1
      have g2 : K * ∑ j ∈ range i, b j ^ (2 * k j + 3) ≤ (t1 - t2) / 2 := by
        have u1 := mul_le_mul_of_nonneg_left (small i (by omega)) hK
        have u2 := mul_le_mul_of_nonneg_left hle (by positivity : 0 ≤ K * ρ)
        linarith [show K * (ρ * ∑ j ∈ range i, b j) = K * ρ * ∑ j ∈ range i, b j by ring, show K * ρ * τ1 = τ1 * (K * ρ) by ring]
      have hs2 := htm i (by omega)
      obtain ⟨_, bb⟩ := θlip _ ⟨h00, hle⟩ τ1 ⟨hτ1, le_rfl⟩ hle
      rw [θ1] at bb
      have hab := abs_le.1 g1
      have hlow : (t1 - t2) / 2 ≤ F * (τ1 - ∑ j ∈ range i, b j) := by linarith
      have u3 : F * b i ≤ F * (τ1 - ∑ j ∈ range i, b j) := by
        have := mul_le_mul_of_nonneg_right q2 hF.le
        linarith [mul_comm F (b i)]
      have u4 := le_of_mul_le_mul_left u3 hF
      obtain ⟨X, e1, e2⟩ := hk i (by omega)
      have hkD : k i ≤ D := by obtain ⟨_, _, _, _, _, hkD, _⟩ := X; exact hkD
      obtain ⟨w, pP⟩ := preIter_wide (I := withGravity ex) (n := n) (s i)
      have c := clear i (by omega) hle hz (b i) q1 (q2.trans ((min_le_left _ _).trans (min_le_left _ _)))
      subst hdep
      rw [← w] at c
      obtain ⟨F', e3⟩ := wide_extrap A X ⟨by rw [pP]; exact R.1, by rw [pP]; exact R.2⟩ (by rw [pP]; exact e1) (by rw [pP]; exact e2)
        (fun j hj => c j (by omega))
      refine ⟨by rw [sum_range_succ]; linarith, F', ?_⟩
      have e5 : ∀ l q z, Letters.mrun (wideF (withGravity ex).velDep m type a) (level (withGravity ex).velDep) (l ++ [q]) z =
          q.X.step (wideF (withGravity ex).velDep m type a) q.h (level (withGravity ex).velDep
            (Letters.mrun (wideF (withGravity ex).velDep m type a) (level (withGravity ex).velDep) l z)) := fun l q z => by
        rw [Letters.mrun, List.foldl_append]; rfl
      rw [hl, List.range_succ, List.map_append, List.map_cons, List.map_nil, e5, ← hl, ← hz, ← w, e3, hstep]
  obtain ⟨hle, R, hz⟩ := main N le_rfl
  have h00 := s0 N le_rfl
  refine ⟨fun h2 => ?_, fun c hc0 hc j hj r hr => ?_⟩
  · obtain ⟨g1, g2⟩ := near N le_rfl hle hz
    obtain ⟨σ, hσ⟩ : ∃ σ, σ = ∑ j ∈ range N, b j := ⟨_, rfl⟩
    obtain ⟨E, hE⟩ : ∃ E, E = ∑ j ∈ range N, b j ^ (2 * k j + 3) := ⟨_, rfl⟩
    have sm := small N le_rfl
    rw [← hσ] at hle h00 g1 g2 sm ⊢
    rw [← hE] at g1 g2 sm ⊢
    have hE0 : 0 ≤ E := hE ▸ sum_nonneg fun j hj => pow_nonneg (hb j (by have := mem_range.1 hj; omega)).1 _
    obtain ⟨bb, _⟩ := θlip 0 ⟨le_rfl, hτ1⟩ σ ⟨h00, hle⟩ h00
    rw [θ0, sub_zero, sub_zero] at bb
    have hab := abs_le.1 g1
    have hrate : t0 + κ / 2 * σ ≤ (s N).time := by
      have u1 := mul_le_mul_of_nonneg_left sm hK
      have u2 := mul_le_mul_of_nonneg_right hηκ h00
      linarith [show K * (ρ * σ) = K * ρ * σ by ring]
    have hκ0 : 0 ≤ κ / 2 * σ := by positivity
    refine ⟨hrate, ?_⟩
    have li := lip (t0 + θ σ) (mem _ (θin σ ⟨h00, hle⟩)) (s N).time ⟨by linarith, by linarith⟩
    rw [abs_sub_comm] at li
    have li' := li.trans (mul_le_mul_of_nonneg_left g1 hV)
    have tri := norm_add_le ((conf n (s N).P.pos, conf n (s N).P.vel) - (conf n (x (t0 + θ σ)), conf n (v (t0 + θ σ))))
      ((conf n (x (t0 + θ σ)), conf n (v (t0 + θ σ))) - (conf n (x (s N).time), conf n (v (s N).time)))
    rw [sub_add_sub_cancel] at tri
    rw [show 2 * (K * (1 + V)) * E = 2 * (K * E + V * (K * E)) by ring]
    exact within_of R.1 R.2 (by linarith)
  · obtain ⟨w, pP⟩ := preIter_wide (I := withGravity ex) (n := n) (s N)
    have cl := clear N le_rfl hle hz c hc0 (hc.trans ((min_le_left _ _).trans (min_le_left _ _))) j hj
    subst hdep
    rw [← w] at cl
    obtain ⟨r', e, Fr, ew⟩ := wide_run A (hSeq_pos hj) (s := (s N).preIter (withGravity ex)) ⟨by rw [pP]; exact R.1, by rw [pP]; exact R.2⟩ hr cl
    refine ⟨r', e, Fr, ?_⟩
    rw [ew, w]
    have q := hBd false D le_rfl
    have hj' : j ∈ (Letters.moveMix D false D).s := mem_Icc.2 ⟨Nat.zero_le _, hj⟩
    refine mv _ ?_ _ (q.len j hj') (q.coef j hj') c hc0 (hc.trans ((min_le_left _ _).trans (min_le_right _ _)))
    refine Metric.mem_cthickening_of_dist_le _ (y (∑ i ∈ range N, b i)) _ _ ⟨_, ⟨h00, hle⟩, rfl⟩ ?_
    have g := (key (l N) (lok N le_rfl) (by rw [lh]; exact hle)).1
    rw [lh, le, ← hz] at g
    have fix : level (withGravity ex).velDep (y (∑ i ∈ range N, b i)) = y (∑ i ∈ range N, b i) := by
      simp only [hy]
      cases (withGravity ex).velDep <;> rfl
    rw [dist_eq_norm, ← fix]
    refine (level_norm _ _ _).trans (g.trans ?_)
    have u1 := mul_le_mul_of_nonneg_left (small N le_rfl) hK
    have u2 := mul_le_mul_of_nonneg_left hle (by positivity : 0 ≤ K * ρ)
    have u3 := hsml'.trans (min_le_left _ _)
    have u4 : 0 ≤ K * ρ := by positivity
    linarith [show K * (ρ * ∑ j ∈ range N, b j) = K * ρ * ∑ j ∈ range N, b j by ring, show K * ρ * τ1 + K * ρ = (τ1 + 1) * (K * ρ) by ring]

/-- **C105, regularised systems.** Bulirsch-Stoer with `LeapFrogDKD` on a regularised system with gravity and additional forces, any of the three kinds of regularisation.
There are `K`, `κ` and `ρ` such that, whatever the tolerance: as long as the accepted steps `b i` (each the step given to the call times limiter values) are at most `ρ`
and the time has not passed `t2`, the time advances by at least `κ` times each step, and all positions and velocities are within `K Σ b i ^ (2 k i + 3)` of the true ones at
the system's own time, where `k i ≥ 1` is the number of the column at which the step was accepted.  None of the runs of a further call with a step of at most `ρ` fails. -/
theorem C105_regularised {ex : List (ForceClass Particles)} {n : Nat} {m : Nat → ℝ} {a : Field n} (A : Acts (withGravity ex) n m a)
    {x v : ℝ → Nat → V3 ℝ} {t0 t1 t2 : ℝ} (h02 : t0 ≤ t2) (h21 : t2 < t1) (M : ForcedMotion n a x v t0 t1) (hS : SmoothAlong a x v t0 t1)
    (apart : ∀ t ∈ Set.Icc t0 t1, ∀ i j, i < n → j < n → i ≠ j → x t i ≠ x t j) (hn : 2 ≤ n) (hmass : ∀ k, k < n → 0 < m k) (type : ReguType) (D : Nat) :
    ∃ K κ ρ : ℝ, 0 ≤ K ∧ 0 < κ ∧ 0 < ρ ∧ ∀ P, InState n m x v t0 P → ∀ (p : Params ℝ), p.maxDepth = D →
      ∀ (N : Nat) (s : Nat → ReguSys) (c : Nat → State ℝ) (h h' : Nat → ℝ), s 0 = ReguSys.init 1 type t0 P →
      (∀ i, i < N → iterate (reguSys 1 type (withGravity ex) false) p (h i) (c i) ((s i).preIter (withGravity ex)) = .ok (s (i + 1), h' i, c (i + 1))) →
      ∃ (b : Nat → ℝ) (k : Nat → Nat), (∀ i, i < N → Retried p (h i) (b i) ∧ 1 ≤ k i ∧ k i ≤ D) ∧
        ((∀ i, i < N → 0 ≤ b i ∧ b i ≤ ρ) → (∀ i, i < N → (s i).time ≤ t2) →
          ((s N).time ≤ t2 →
            t0 + κ * ∑ i ∈ range N, b i ≤ (s N).time ∧ WithinOf n m x v (s N).time (K * ∑ i ∈ range N, b i ^ (2 * k i + 3)) (s N).P) ∧
          ∀ y, 0 ≤ y → y ≤ ρ → ∀ j, j ≤ D → ∀ r, SameRegu (withGravity ex) ((s N).preIter (withGravity ex)) r →
            ∃ r', (reguOps 1 type (withGravity ex)).run (substepsDKD y (hSeq D j)) r = .ok r') := by
  obtain ⟨K, κ, ρ, _, hK, hκ, hρ, _, _, H⟩ := regu_forced_core A h02 h21 M hS apart hn hmass type D
  refine ⟨K, κ, ρ, hK, hκ, hρ, fun P S p hD N s c h h' hs0 hit => ?_⟩
  subst hD
  have each : ∀ i, ∃ b k, i < N → Retried p (h i) b ∧ ReguForcedAt type (withGravity ex) p.maxDepth p.err b ((s i).preIter (withGravity ex)) (s (i + 1)) k ∧
      (s (i + 1)).P.num = (s i).P.num ∧ (s (i + 1)).P.mass = (s i).P.mass := by
    intro i
    rcases Nat.lt_or_ge i N with hi | hi
    · obtain ⟨b, R, ⟨k, X⟩, ⟨hn, hm⟩, _⟩ := C29_regularized 1 type (withGravity ex) false p (h i) (c i) (c (i + 1)) _ (s (i + 1)) (h' i) (hit i hi)
      have pP := (preIter_wide (I := withGravity ex) (n := n) (s i)).2
      rw [pP] at hn hm
      exact ⟨b, k, fun _ => ⟨R, X, hn, hm⟩⟩
    · exact ⟨0, 0, fun h => absurd h (by omega)⟩
  choose b k hk using each
  refine ⟨b, k, fun i hi => ?_, fun hb htm => ?_⟩
  swap
  · obtain ⟨q1, q2⟩ := H P S p.err N s b k hs0 (fun i hi => (hk i hi).2) hb htm
    refine ⟨q1, fun y hy0 hy j hj r hr => ?_⟩
    obtain ⟨r', e, _⟩ := q2 y hy0 hy j hj r hr
    exact ⟨r', e⟩
  obtain ⟨R, ⟨_, _, _, _, h1, h2, _⟩, _⟩ := hk i hi
  exact ⟨R, h1, h2⟩

/-- **C105, AR-chain systems**, as for regularised systems. -/
theorem C105_archain {IC : ChainInteractions} {ex : List (ForceClass Particles)} (AI : AgreesI IC (withGravity ex)) {n : Nat} {m : Nat → ℝ} {a : Field n}
    (A : Acts (withGravity ex) n m a) {x v : ℝ → Nat → V3 ℝ} {t0 t1 t2 : ℝ} (h02 : t0 ≤ t2) (h21 : t2 < t1) (M : ForcedMotion n a x v t0 t1)
    (hS : SmoothAlong a x v t0 t1) (apart : ∀ t ∈ Set.Icc t0 t1, ∀ i j, i < n → j < n → i ≠ j → x t i ≠ x t j) (hn : 2 ≤ n)
    (hmass : ∀ k, k < n → 0 < m k) (type : ReguType) (D : Nat) :
    ∃ K κ ρ : ℝ, 0 ≤ K ∧ 0 < κ ∧ 0 < ρ ∧ ∀ P, InState n m x v t0 P → ∀ (p : Params ℝ), p.maxDepth = D → ∀ idx, IndexOf P idx →
      ∀ (N : Nat) (s : Nat → ARSys) (c : Nat → State ℝ) (h h' : Nat → ℝ), ARSys.init 1 type t0 P idx = .ok (s 0) →
      (∀ i, i < N → ARMacro 1 type IC false p (h i) (c i) (s i) (s (i + 1)) (h' i) (c (i + 1))) →
      ∃ (b : Nat → ℝ) (k : Nat → Nat), (∀ i, i < N → Retried p (h i) (b i) ∧ 1 ≤ k i ∧ k i ≤ D) ∧
        ((∀ i, i < N → 0 ≤ b i ∧ b i ≤ ρ) → (∀ i, i < N → (s i).time ≤ t2) →
          ((s N).time ≤ t2 →
            t0 + κ * ∑ i ∈ range N, b i ≤ (s N).time ∧ WithinOf n m x v (s N).time (K * ∑ i ∈ range N, b i ^ (2 * k i + 3)) (s N).P) ∧
          ∀ y, 0 ≤ y → y ≤ ρ → ∀ j, j ≤ D → ∀ r, SameAR IC ((s N).preIter IC) r →
            ∃ r', (arOps 1 type IC).run (substepsDKD y (hSeq D j)) r = .ok r') := by
  obtain ⟨K, κ, ρ, _, hK, hκ, hρ, _, _, H⟩ := regu_forced_core A h02 h21 M hS apart hn hmass type D
  refine ⟨K, κ, ρ, hK, hκ, hρ, fun P S p hD idx hidx N s c h h' h0 hc => ?_⟩
  subst hD
  obtain ⟨a0, good⟩ := ar_calls_good AI hidx h0 hc
  have each : ∀ i, ∃ b k, i < N → Retried p (h i) b ∧
      ReguForcedAt type (withGravity ex) p.maxDepth (fun _ _ _ => 0) b ((s i).abs.preIter (withGravity ex)) (s (i + 1)).abs k ∧
      (s (i + 1)).P.num = (s i).P.num ∧ (s (i + 1)).P.mass = (s i).P.mass := by
    intro i
    rcases Nat.lt_or_ge i N with hi | hi
    · obtain ⟨u, y, e, hy, e2⟩ := hc i hi
      obtain ⟨gu, b, k, R, X, hn, hm⟩ := ar_step AI (good i (by omega)) e
      obtain ⟨s', e3, _, a3, _⟩ := ARSys.postIter_sim gu y hy.isIndex
      rw [e2] at e3; cases e3
      have e4 : (s (i + 1)).abs.P = u.abs.P := congrArg ReguSys.P a3
      refine ⟨b, k, fun _ => ⟨R, ?_, (congrArg Particles.num e4).trans hn, (congrArg Particles.mass e4).trans hm⟩⟩
      rw [a3]; exact X
    · exact ⟨0, 0, fun h => absurd h (by omega)⟩
  choose b k hk using each
  refine ⟨b, k, fun i hi => ?_, fun hb htm => ?_⟩
  · obtain ⟨R, ⟨_, _, _, _, h1, h2, _⟩, _⟩ := hk i hi
    exact ⟨R, h1, h2⟩
  · obtain ⟨r1, r2⟩ := H P S (fun _ _ _ => 0) N (fun i => (s i).abs) b k a0 (fun i hi => (hk i hi).2) hb htm
    refine ⟨r1, fun y hy0 hy j hj r hr => ?_⟩
    obtain ⟨gp, ap⟩ := ARSys.preIter_sim AI (good N le_rfl)
    have gr : ARSys.Good IC.velDep r := same_good_ar (by rw [AI.velDep_eq]; exact gp) hr
    obtain ⟨q1, q2, q3, q4, q5, q6, q7, q8⟩ := hr
    obtain ⟨r', e, _⟩ := r2 y hy0 hy j hj r.abs (by
      rw [← ap]
      exact ⟨q1, q2, q3, q5, q6, fun l hl => ⟨(q7 l hl).1, (q7 l hl).2.1, fun hd => (q7 l hl).2.2 (by rw [AI.velDep_eq]; exact hd)⟩⟩)
    rcases arOps_run AI 1 type AI.velDep_eq (substepsDKD y (hSeq p.maxDepth j)) r gr with ⟨s', e1, _, _⟩ | ⟨_, e2⟩
    · exact ⟨s', e1⟩
    · rw [e] at e2; cases e2

/-- **C105, the forces of the library**: gravity with any list of post-Newtonian corrections (orders 1 and 2.5), tides and drag. -/
theorem C105_library (G c : ℝ) {n : Nat} {m : Nat → ℝ} {fs : List Extra} {x v : ℝ → Nat → V3 ℝ} {t0 t1 t2 : ℝ} (h02 : t0 ≤ t2) (h21 : t2 < t1)
    (M : ForcedMotion n (withExtras G c n m fs) x v t0 t1) (apart : ∀ t ∈ Set.Icc t0 t1, ∀ i j, i < n → j < n → i ≠ j → x t i ≠ x t j)
    (away : ∀ e ∈ fs, e.Away n v t0 t1) (hn : 2 ≤ n) (hmass : ∀ k, k < n → 0 < m k) (type : ReguType) (D : Nat) :
    ∃ K κ ρ : ℝ, 0 < κ ∧ 0 < ρ ∧ ∀ P, InState n m x v t0 P → ∀ (p : Params ℝ), p.maxDepth = D →
      ∀ (N : Nat) (st : Nat → State ℝ) (h h' : Nat → ℝ),
      (∀ (s : Nat → ReguSys), s 0 = ReguSys.init 1 type t0 P →
        (∀ i, i < N → iterate (reguSys 1 type ⟨Lib.newton, fs.map (libOf G c)⟩ false) p (h i) (st i) ((s i).preIter ⟨Lib.newton, fs.map (libOf G c)⟩) =
          .ok (s (i + 1), h' i, st (i + 1))) →
        ∃ (b : Nat → ℝ) (k : Nat → Nat), (∀ i, i < N → Retried p (h i) (b i) ∧ 1 ≤ k i ∧ k i ≤ D) ∧
          ((∀ i, i < N → 0 ≤ b i ∧ b i ≤ ρ) → (∀ i, i ≤ N → (s i).time ≤ t2) →
            t0 + κ * ∑ i ∈ range N, b i ≤ (s N).time ∧ WithinOf n m x v (s N).time (K * ∑ i ∈ range N, b i ^ (2 * k i + 3)) (s N).P)) ∧
      ∀ (s : Nat → ARSys) idx, IndexOf P idx → ARSys.init 1 type t0 P idx = .ok (s 0) →
        (∀ i, i < N → ARMacro 1 type ⟨Lib.newtonC, fs.map (libChainOf G c)⟩ false p (h i) (st i) (s i) (s (i + 1)) (h' i) (st (i + 1))) →
        ∃ (b : Nat → ℝ) (k : Nat → Nat), (∀ i, i < N → Retried p (h i) (b i) ∧ 1 ≤ k i ∧ k i ≤ D) ∧
          ((∀ i, i < N → 0 ≤ b i ∧ b i ≤ ρ) → (∀ i, i ≤ N → (s i).time ≤ t2) →
            t0 + κ * ∑ i ∈ range N, b i ≤ (s N).time ∧ WithinOf n m x v (s N).time (K * ∑ i ∈ range N, b i ^ (2 * k i + 3)) (s N).P) := by
  obtain ⟨A, AI, hS⟩ := C100_library G c n m fs
  have A' : Acts (withGravity (fs.map (libOf G c))) n m (withExtras G c n m fs) := A
  have AI' : AgreesI ⟨Lib.newtonC, fs.map (libChainOf G c)⟩ (withGravity (fs.map (libOf G c))) := AI
  obtain ⟨K, κ, ρ, hK, hκ, hρ, H⟩ := C105_regularised A' h02 h21 M (hS x v t0 t1 apart away) apart hn hmass type D
  obtain ⟨K', κ', ρ', hK', hκ', hρ', H'⟩ := C105_archain AI' A' h02 h21 M (hS x v t0 t1 apart away) apart hn hmass type D
  refine ⟨max K K', min κ κ', min ρ ρ', lt_min hκ hκ', lt_min hρ hρ', fun P S p hD N st h h' => ⟨fun s h0 hit => ?_, fun s idx hidx h0 hit => ?_⟩⟩
  · obtain ⟨b, k, hb, q⟩ := H P S p hD N s st h h' h0 hit
    refine ⟨b, k, hb, fun hb' ht => ?_⟩
    obtain ⟨q1, W⟩ := (q (fun i hi => ⟨(hb' i hi).1, (hb' i hi).2.trans (min_le_left _ _)⟩) (fun i hi => ht i hi.le)).1 (ht N le_rfl)
    have s0 : 0 ≤ ∑ i ∈ range N, b i := sum_nonneg fun i hi => (hb' i (mem_range.1 hi)).1
    have s1 : 0 ≤ ∑ i ∈ range N, b i ^ (2 * k i + 3) := sum_nonneg fun i hi => pow_nonneg (hb' i (mem_range.1 hi)).1 _
    have B := mul_le_mul_of_nonneg_right (le_max_left K K') s1
    exact ⟨by linarith [mul_le_mul_of_nonneg_right (min_le_left κ κ') s0], W.num, W.mass, fun k hk => (W.pos k hk).trans B, fun k hk => (W.vel k hk).trans B⟩
  · obtain ⟨b, k, hb, q⟩ := H' P S p hD idx hidx N s st h h' h0 hit
    refine ⟨b, k, hb, fun hb' ht => ?_⟩
    obtain ⟨q1, W⟩ := (q (fun i hi => ⟨(hb' i hi).1, (hb' i hi).2.trans (min_le_right _ _)⟩) (fun i hi => ht i hi.le)).1 (ht N le_rfl)
    have s0 : 0 ≤ ∑ i ∈ range N, b i := sum_nonneg fun i hi => (hb' i (mem_range.1 hi)).1
    have s1 : 0 ≤ ∑ i ∈ range N, b i ^ (2 * k i + 3) := sum_nonneg fun i hi => pow_nonneg (hb' i (mem_range.1 hi)).1 _
    have B := mul_le_mul_of_nonneg_right (le_max_right K K') s1
    exact ⟨by linarith [mul_le_mul_of_nonneg_right (min_le_right κ κ') s0], W.num, W.mass, fun k hk => (W.pos k hk).trans B, fun k hk => (W.vel k hk).trans B⟩

/-- Non-vacuity: two bodies on a circle around each other with the first post-Newtonian correction meet the hypotheses, over any stretch of time.  Whole simulations of
this system that meet the conditions on the calls are the example in `Props/BSReaches`. -/
example (t0 t2 : ℝ) (ht : t0 ≤ t2) : ∃ K κ ρ : ℝ, 0 < κ ∧ 0 < ρ ∧ ∀ (p : Params ℝ), p.maxDepth = 7 →
      ∀ (N : Nat) (st : Nat → State ℝ) (h h' : Nat → ℝ) (s : Nat → ReguSys), s 0 = ReguSys.init 1 .logH t0 ⟨2, circlePos t0, circleVel t0, fun _ => 1⟩ →
        (∀ i, i < N → iterate (reguSys 1 .logH ⟨Lib.newton, [libOf 1 (Real.sqrt (29 / 2)) .pn1]⟩ false) p (h i) (st i)
          ((s i).preIter ⟨Lib.newton, [libOf 1 (Real.sqrt (29 / 2)) .pn1]⟩) = .ok (s (i + 1), h' i, st (i + 1))) →
        ∃ (b : Nat → ℝ) (k : Nat → Nat), (∀ i, i < N → Retried p (h i) (b i) ∧ 1 ≤ k i ∧ k i ≤ 7) ∧
          ((∀ i, i < N → 0 ≤ b i ∧ b i ≤ ρ) → (∀ i, i ≤ N → (s i).time ≤ t2) → t0 + κ * ∑ i ∈ range N, b i ≤ (s N).time ∧
            WithinOf 2 (fun _ => 1) circlePos circleVel (s N).time (K * ∑ i ∈ range N, b i ^ (2 * k i + 3)) (s N).P) := by
  obtain ⟨K, κ, ρ, hκ, hρ, H⟩ := C105_library 1 (Real.sqrt (29 / 2)) (fs := [.pn1]) ht (lt_add_one t2) (circle_pn1 t0 (t2 + 1)) (circle_motion t0 (t2 + 1)).apart
    (by simp [Extra.Away]) le_rfl (fun _ _ => one_pos) .logH 7
  exact ⟨K, κ, ρ, hκ, hρ, fun p hp N st h h' s h0 hit =>
    (H ⟨2, circlePos t0, circleVel t0, fun _ => 1⟩ ⟨rfl, fun _ _ => rfl, fun _ _ => rfl, fun _ _ => rfl⟩ p hp N st h h').1 s h0 hit⟩

end SpaceHub.Sys
