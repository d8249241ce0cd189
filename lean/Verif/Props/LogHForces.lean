import Verif.Props.IAS15RunsAR
import Verif.Props.IAS15Small
import Verif.Props.BSSmall
import Verif.Spec.Misled

/-
C110: IAS15 with the logarithmic Hamiltonian and additional forces.
-/

set_option autoImplicit false

namespace SpaceHub.Sys
open SpaceHub V3 Force Core Integrator Spec Props Finset Converge Radau BS
open scoped ContDiff

theorem bond_potC {n : Nat} (m : Nat → ℝ) (x : Nat → V3 ℝ) : bond m (fun j : Fin n => x j) = potC n m (conf n x) := by
  unfold potC bond
  rw [potential, sum_filter, sum_product, ← sum_neg_distrib, sum_range]
  refine sum_congr rfl fun i _ => ?_
  rw [← sum_neg_distrib, sum_range]
  refine sum_congr rfl fun j _ => ?_
  rw [ext_conf n _ i.2, ext_conf n _ j.2]
  by_cases h : i < j
  · rw [if_pos h, if_pos (show (i : Nat) < j from h), neg_neg, one_mul]
  · rw [if_neg h, if_neg (show ¬ (i : Nat) < j from h), neg_zero]

theorem bondRate_powC {n : Nat} (m : Nat → ℝ) (x v : Nat → V3 ℝ) :
    bondRate m (fun j : Fin n => x j) (fun j : Fin n => v j) = powC n m (conf n v) (grav n m (conf n x)) := by
  unfold powC bondRate
  rw [sum_range]
  refine sum_congr rfl fun k _ => ?_
  rw [ext_conf n _ k.2, Converge.ext, dif_pos k.2]
  congr 2
  have e := grav_conf n m ⟨n, x, v, m⟩ rfl (fun _ _ => rfl) k
  have e2 : grav n m (conf n x) ⟨k, k.2⟩ = co (gravity.acc ⟨n, x, v, m⟩ k) := e
  rw [e2, ve_co, (gravity_acc ⟨n, x, v, m⟩ k k.2).2]
  exact (sum_fin (fun j => newton (m j) (x k) (x j)) k).symm

theorem triple_smul (c : ℝ) (d : V3 ℝ) : triple (c • d) = c • triple d := by
  simp only [triple, smul_x, smul_y, smul_z, Prod.smul_mk, smul_eq_mul, mul_comm]

/-- the accelerations in numbers -/
theorem misled_field {n : Nat} (m : Nat → ℝ) (a : Field n) (x0 x v : Nat → V3 ℝ) :
    fieldOf (misled m a fun j => x0 j) (conf n x) (conf n v) = (potC n m (conf n x0) / potC n m (conf n x)) • fieldOf a (conf n x) (conf n v) := by
  rw [← bond_potC, ← bond_potC]
  exact funext fun k => triple_smul _ _

section
variable {ex : List (ForceClass Particles)} {n : Nat} {m : Nat → ℝ} {a : Field n}

/-- with additional forces and the logarithmic Hamiltonian the clock runs at a constant rate -/
theorem led_misled (hex : ex ≠ []) {x v : ℝ → Nat → V3 ℝ} {t0 t1 : ℝ} (h01 : t0 ≤ t1) (M : ForcedMotion n (misled m a fun j => x t0 j) x v t0 t1)
    (apart : ∀ t ∈ Set.Icc t0 t1, ∀ i j, i < n → j < n → i ≠ j → x t i ≠ x t j) (hn : 2 ≤ n) (hm : ∀ k, k < n → 0 < m k) :
    Led m .logH a (ex ≠ []) x v t0 t1 := by
  refine ⟨_, M, fun t ht => ?_⟩
  have key : gapP n m .logH (fullAt n m .logH (ex ≠ []) x v t0 t) = potC n m (conf n (x t0)) := by
    show (fullAt n m .logH (ex ≠ []) x v t0 t).2.2.2 + kinC n m (conf n (v t)) = _
    rw [(fullAt_bind n m .logH (ex ≠ []) x v t0 t).2.1 ⟨rfl, hex⟩, sub_add_cancel]
  have hfree : conf n (x t0) ∈ free n := fun i j hij h => apart t0 ⟨le_rfl, h01⟩ i j i.2 j.2 (fun e => hij (Fin.ext e)) (congrArg ve h)
  rw [key]
  exact ⟨potC_pos hn hm hfree, misled_field m a (x t0) (x t) (v t)⟩

variable (A : Acts (withGravity ex) n m a)
include A

/-- **C110, regularised systems.** With the logarithmic Hamiltonian and a list of additional forces that is not empty, IAS15 does not compute the motion with the
accelerations `a` (gravity and the additional forces), but the one with the accelerations `misled m a x0`: when a simulation with steps of at most `h ≤ h0` has
begun in a state of such a motion, all its states are those of the motion up to `K (h² + 10⁻²⁶ h)`. -/
theorem C110_regularised_misled (hex : ex ≠ []) {x v : ℝ → Nat → V3 ℝ} {t0 t1 t2 : ℝ} (h02 : t0 ≤ t2) (h21 : t2 < t1)
    (M : ForcedMotion n (misled m a fun j => x t0 j) x v t0 t1) (hS : SmoothAlong a x v t0 t1)
    (apart : ∀ t ∈ Set.Icc t0 t1, ∀ i j, i < n → j < n → i ≠ j → x t i ≠ x t j) (hn : 2 ≤ n) (hm : ∀ k, k < n → 0 < m k) :
    ∃ K κ h0 : ℝ, 0 ≤ K ∧ 0 < κ ∧ 0 < h0 ∧ ∀ P, InState n m x v t0 P →
      ∀ (N : Nat) (s : Nat → ReguSys) (it : Nat → IAS) (big h : ℝ) (fuel : Nat → Nat) (H h' : Nat → ℝ), s 0 = ReguSys.init 1 .logH t0 P → it 0 = IAS.new big →
      0 ≤ h → h ≤ h0 →
      (∀ i, i < N → 0 ≤ H i ∧ H i ≤ h ∧
        Radau.iterate code (radauRegu 1 .logH (withGravity ex)) big (fuel i) 0 (H i) (it i) ((s i).preIter (withGravity ex)) = .ok (s (i + 1), it (i + 1), h' i)) →
      (∀ i, i < N → (s i).time ≤ t2) →
      (s N).time ≤ t1 ∧ t0 + κ * ∑ i ∈ range N, h' i ≤ (s N).time ∧ WithinOf n m x v (s N).time (K * (h ^ 2 + h / 10 ^ 26)) (s N).P :=
  regu_second A h02 h21 hS apart hn hm .logH (led_misled hex (h02.trans h21.le) M apart hn hm)

/-- **C110, AR-chain systems.** The same on an AR-chain system. -/
theorem C110_archain_misled {IC : ChainInteractions} (AI : AgreesI IC (withGravity ex)) (hex : ex ≠ []) {x v : ℝ → Nat → V3 ℝ} {t0 t1 t2 : ℝ} (h02 : t0 ≤ t2)
    (h21 : t2 < t1) (M : ForcedMotion n (misled m a fun j => x t0 j) x v t0 t1) (hS : SmoothAlong a x v t0 t1)
    (apart : ∀ t ∈ Set.Icc t0 t1, ∀ i j, i < n → j < n → i ≠ j → x t i ≠ x t j) (hn : 2 ≤ n) (hm : ∀ k, k < n → 0 < m k) :
    ∃ K κ h0 : ℝ, 0 ≤ K ∧ 0 < κ ∧ 0 < h0 ∧ ∀ P, InState n m x v t0 P → ∀ idx, IndexOf P idx →
      ∀ (N : Nat) (s u : Nat → ARSys) (it : Nat → IAS) (big h : ℝ) (fuel : Nat → Nat) (H h' : Nat → ℝ), ARSys.init 1 .logH t0 P idx = .ok (s 0) →
      it 0 = IAS.new big → 0 ≤ h → h ≤ h0 →
      (∀ i, i < N → 0 ≤ H i ∧ H i ≤ h ∧ Radau.ARMacro code 1 .logH IC big (fuel i) (H i) (it i) (s i) (u i) (s (i + 1)) (it (i + 1)) (h' i)) →
      (∀ i, i < N → (s i).time ≤ t2) →
      (s N).time ≤ t1 ∧ t0 + κ * ∑ i ∈ range N, h' i ≤ (s N).time ∧ WithinOf n m x v (s N).time (K * (h ^ 2 + h / 10 ^ 26)) (s N).P :=
  ar_second AI A h02 h21 hS apart hn hm .logH (led_misled hex (h02.trans h21.le) M apart hn hm)

/-- **C110, where it is right.** As long as the potential energy does not change, the motion computed is the true one. -/
theorem C110_unchanged {x v : ℝ → Nat → V3 ℝ} {t0 t1 t2 : ℝ} (h02 : t0 ≤ t2) (h21 : t2 < t1) (M : ForcedMotion n a x v t0 t1) (hS : SmoothAlong a x v t0 t1)
    (apart : ∀ t ∈ Set.Icc t0 t1, ∀ i j, i < n → j < n → i ≠ j → x t i ≠ x t j) (hn : 2 ≤ n) (hm : ∀ k, k < n → 0 < m k)
    (hc : ∀ t ∈ Set.Icc t0 t1, bond m (fun j : Fin n => x t j) = bond m fun j : Fin n => x t0 j) :
    ∃ K h0 : ℝ, 0 ≤ K ∧ 0 < h0 ∧ ∀ P, InState n m x v t0 P → ∀ (big h : ℝ), 0 < h → h ≤ h0 →
      ∃ (N : Nat) (s : Nat → ReguSys) (it : Nat → IAS) (h' : Nat → ℝ), s 0 = ReguSys.init 1 .logH t0 P ∧ it 0 = IAS.new big ∧
        (∀ i, i < N → (s i).time ≤ t2 ∧ ∀ fuel, Radau.iterate code (radauRegu 1 .logH (withGravity ex)) big (fuel + 1) 0 h (it i)
          ((s i).preIter (withGravity ex)) = .ok (s (i + 1), it (i + 1), h' i)) ∧ t2 < (s N).time ∧ (s N).time ≤ t1 ∧
        ∀ i, i ≤ N → WithinOf n m x v (s i).time (K * (h ^ 2 + h / 10 ^ 26)) (s i).P := by
  by_cases hex : ex = []
  · exact regu_reach A h02 h21 hS apart hn hm .logH (led_of A M apart hn hm fun _ => hex)
  have h01 : t0 ≤ t1 := h02.trans h21.le
  have hpos : bond m (fun j : Fin n => x t0 j) ≠ 0 := by
    rw [bond_potC]
    have hfree : conf n (x t0) ∈ free n := fun i j hij h => apart t0 ⟨le_rfl, h01⟩ i j i.2 j.2 (fun e => hij (Fin.ext e)) (congrArg ve h)
    exact (potC_pos hn hm hfree).ne'
  have M' : ForcedMotion n (misled m a fun j => x t0 j) x v t0 t1 := ⟨M.pos, fun t ht k => by
    have := M.vel t ht k
    have e : misled m a (fun j => x t0 j) (fun j => x t j) (fun j => v t j) k = a (fun j => x t j) (fun j => v t j) k := by
      unfold misled
      rw [hc t ht, div_self hpos]
      ext <;> simp
    rw [e]; exact this⟩
  exact regu_reach A h02 h21 hS apart hn hm .logH (led_misled hex h01 M' apart hn hm)

end

/-! ### the two motions -/

/-- Particles move with given smooth accelerations for some time. -/
theorem forced_exists {n : Nat} {m : Nat → ℝ} {a : Field n} {P : Particles} (hP : P.num = n) (hPm : ∀ k, k < n → P.mass k = m k) {U : Set (Conf n × Conf n)} (hU : IsOpen U)
    (hsm : ContDiffOn ℝ ∞ (inNumbers a) U) (hin : (conf n P.pos, conf n P.vel) ∈ U) (t0 : ℝ) :
    ∃ (x v : ℝ → Nat → V3 ℝ) (t1 : ℝ), t0 < t1 ∧ ForcedMotion n a x v t0 t1 ∧ InState n m x v t0 P ∧ ∀ t ∈ Set.Icc t0 t1, (conf n (x t), conf n (v t)) ∈ U := by
  have hF : ContDiffOn ℝ ∞ (forcedF a) U := contDiffOn_snd.prodMk hsm
  have hc : ContDiffAt ℝ 1 (forcedF a) (conf n P.pos, conf n P.vel) := (hF.contDiffAt (hU.mem_nhds hin)).of_le (by norm_num)
  obtain ⟨α, h0, ε, hε, hα⟩ := hc.exists_forall_mem_closedBall_exists_eq_forall_mem_Ioo_hasDerivAt₀ t0
  have hcont : ContinuousAt α t0 := (hα t0 ⟨by linarith, by linarith⟩).continuousAt
  have hev : ∀ᶠ t in nhds t0, α t ∈ U := hcont (hU.mem_nhds (by rw [h0]; exact hin))
  obtain ⟨δ, hδ, hball⟩ := Metric.eventually_nhds_iff.1 hev
  have hm : 0 < min (ε / 2) (δ / 2) := lt_min (by linarith) (by linarith)
  have hin : ∀ t ∈ Set.Icc t0 (t0 + min (ε / 2) (δ / 2)), HasDerivAt α (forcedF a (α t)) t ∧ α t ∈ U := fun t ht => by
    have a1 := min_le_left (ε / 2) (δ / 2)
    have a2 := min_le_right (ε / 2) (δ / 2)
    refine ⟨hα t ⟨by linarith [ht.1], by linarith [ht.2]⟩, hball (y := t) ?_⟩
    rw [Real.dist_eq, abs_of_nonneg (by linarith [ht.1])]
    linarith [ht.2]
  refine ⟨fun t => part (α t).1, fun t => part (α t).2, t0 + min (ε / 2) (δ / 2), by linarith, ⟨fun t ht k hk => ?_, fun t ht k => ?_⟩,
    ⟨hP, hPm, fun k hk => ?_, fun k hk => ?_⟩, fun t ht => ?_⟩
  · have := part_rate ((hin t ht).1.fst) k hk
    unfold part at this ⊢
    rw [dif_pos hk]
    exact this
  · have := part_rate ((hin t ht).1.snd) k k.2
    have e : ve ((forcedF a (α t)).2 ⟨k, k.2⟩) = a (fun j => part (α t).1 j) (fun j => part (α t).2 j) k := by
      show ve (fieldOf a (α t).1 (α t).2 k) = _
      rw [← conf_part (α t).1, ← conf_part (α t).2, conf_part, conf_part]
      have e1 : ∀ q : Conf n, (fun j : Fin n => part q j) = fun j => ve (q j) := fun q => funext fun j => by unfold part; rw [dif_pos j.2]
      rw [e1, e1]
      rfl
    rw [e] at this
    exact this
  · show P.pos k = part (α t0).1 k
    unfold part
    rw [dif_pos hk, h0]; rfl
  · show P.vel k = part (α t0).2 k
    unfold part
    rw [dif_pos hk, h0]; rfl
  · rw [conf_part, conf_part]; exact (hin t ht).2

theorem misled_smooth {n : Nat} {m : Nat → ℝ} {a : Field n} {U : Set (Conf n × Conf n)} (hsm : ContDiffOn ℝ ∞ (inNumbers a) U) (hn : 2 ≤ n) (hm : ∀ k, k < n → 0 < m k)
    (x0 : Fin n → V3 ℝ) : ContDiffOn ℝ ∞ (inNumbers (misled m a x0)) (U ∩ Prod.fst ⁻¹' free n) := by
  have h1 : ContDiffOn ℝ ∞ (fun z : Conf n × Conf n => bond m x0 / potC n m z.1) (U ∩ Prod.fst ⁻¹' free n) := fun z hz => by
    have h2 : ContDiffWithinAt ℝ ∞ (fun z : Conf n × Conf n => potC n m z.1) (U ∩ Prod.fst ⁻¹' free n) z :=
      (potC_smooth n m).comp contDiff_fst.contDiffOn (fun z hz => hz.2) z hz
    exact contDiffWithinAt_const.div h2 (potC_pos hn hm hz.2).ne'
  refine (h1.smul (hsm.mono Set.inter_subset_left)).congr fun z _ => ?_
  have e := bond_potC (n := n) m (part z.1)
  rw [conf_part] at e
  have e1 : (fun j : Fin n => part z.1 j) = fun j => ve (z.1 j) := funext fun j => by unfold part; rw [dif_pos j.2]
  rw [e1] at e
  show inNumbers (misled m a x0) z = (bond m x0 / potC n m z.1) • inNumbers a z
  rw [← e]
  exact funext fun k => triple_smul _ _

/-- A motion on a part of the time. -/
theorem shorter {n : Nat} {a : Field n} {x v : ℝ → Nat → V3 ℝ} {t0 t1 t1' : ℝ} (M : ForcedMotion n a x v t0 t1) (h : t1' ≤ t1) : ForcedMotion n a x v t0 t1' :=
  ⟨fun t ht => M.pos t ⟨ht.1, ht.2.trans h⟩, fun t ht => M.vel t ⟨ht.1, ht.2.trans h⟩⟩

/-- The true motion and the computed one part, if the potential energy changes and some particle is accelerated. -/
theorem motions_part {n : Nat} {m : Nat → ℝ} {a : Field n} {P : Particles} (hP : P.num = n) (hPm : ∀ k, k < n → P.mass k = m k) (hsn : SmoothNear a P)
    (hap : ∀ i j, i < n → j < n → i ≠ j → P.pos i ≠ P.pos j) (hn : 2 ≤ n) (hm : ∀ k, k < n → 0 < m k)
    (hrate : bondRate m (fun j : Fin n => P.pos j) (fun j => P.vel j) ≠ 0) (hacc : ∃ k, a (fun j => P.pos j) (fun j => P.vel j) k ≠ 0) (t0 : ℝ) :
    ∃ (x v y w : ℝ → Nat → V3 ℝ) (t1 t2 D : ℝ), t0 < t2 ∧ t2 < t1 ∧ 0 < D ∧ ForcedMotion n a x v t0 t1 ∧ InState n m x v t0 P ∧
      (∀ t ∈ Set.Icc t0 t1, ∀ i j, i < n → j < n → i ≠ j → x t i ≠ x t j) ∧
      ForcedMotion n (misled m a fun j => y t0 j) y w t0 t1 ∧ InState n m y w t0 P ∧ (∀ t ∈ Set.Icc t0 t1, ∀ i j, i < n → j < n → i ≠ j → y t i ≠ y t j) ∧
      SmoothAlong a y w t0 t1 ∧ ∀ t ∈ Set.Icc t2 t1, D ≤ ‖(conf n (y t), conf n (w t)) - (conf n (x t), conf n (v t))‖ := by
  obtain ⟨U, hU, hsm, hin⟩ := hsn
  have hin0 : (conf n P.pos, conf n P.vel) ∈ U := hin 0 ⟨le_rfl, le_rfl⟩
  have hfr : conf n P.pos ∈ free n := fun i j hij h => hap i j i.2 j.2 (fun e => hij (Fin.ext e)) (congrArg ve h)
  have ho : IsOpen (Prod.fst ⁻¹' free n : Set (Conf n × Conf n)) := (free_open _).preimage continuous_fst
  have hV : IsOpen (U ∩ Prod.fst ⁻¹' free n) := hU.inter ho
  obtain ⟨x, v, t1, h01, M, S, hx⟩ := forced_exists (m := m) hP hPm hV (hsm.mono Set.inter_subset_left) ⟨hin0, hfr⟩ t0
  obtain ⟨y, w, t1', h01', M', S', hy⟩ := forced_exists (m := m) hP hPm hV (misled_smooth (m := m) hsm hn hm fun j => P.pos j) ⟨hin0, hfr⟩ t0
  obtain ⟨T, hT⟩ : ∃ T, T = min t1 t1' := ⟨_, rfl⟩
  have hT0 : t0 < T := by rw [hT]; exact lt_min h01 h01'
  have hT1 : T ≤ t1 := by rw [hT]; exact min_le_left _ _
  have hT2 : T ≤ t1' := by rw [hT]; exact min_le_right _ _
  have ey : (fun j : Fin n => y t0 j) = fun j : Fin n => P.pos j := funext fun j => (S'.pos j j.2).symm
  have MT := shorter M hT1
  have MT' := shorter M' hT2
  -- states at the time `t0 + t`
  have e0 := start_conf S
  have e0' := start_conf S'
  have cx : ContinuousOn (fun t => (conf n (x (t0 + t)), conf n (v (t0 + t)))) (Set.Icc 0 (T - t0)) := fun t ht =>
    ((forced_curve MT ht).1.continuousWithinAt).prodMk (forced_curve MT ht).2.continuousWithinAt
  have cy : ContinuousOn (fun t => (conf n (y (t0 + t)), conf n (w (t0 + t)))) (Set.Icc 0 (T - t0)) := fun t ht =>
    ((forced_curve MT' ht).1.continuousWithinAt).prodMk (forced_curve MT' ht).2.continuousWithinAt
  have mem : ∀ t ∈ Set.Icc 0 (T - t0), t0 + t ∈ Set.Icc t0 T := fun t ht => ⟨by linarith [ht.1], by linarith [ht.2]⟩
  have hxU : ∀ t ∈ Set.Icc t0 T, (conf n (x t), conf n (v t)) ∈ U ∩ Prod.fst ⁻¹' free n := fun t ht => hx t ⟨ht.1, ht.2.trans hT1⟩
  have hyU : ∀ t ∈ Set.Icc t0 T, (conf n (y t), conf n (w t)) ∈ U ∩ Prod.fst ⁻¹' free n := fun t ht => hy t ⟨ht.1, ht.2.trans hT2⟩
  have apart : ∀ t ∈ Set.Icc t0 T, ∀ i j, i < n → j < n → i ≠ j → x t i ≠ x t j := fun t ht i j hi hj hij he =>
    (hxU t ht).2 ⟨i, hi⟩ ⟨j, hj⟩ (fun h => hij (Fin.mk.inj h)) (congrArg co he)
  have apart' : ∀ t ∈ Set.Icc t0 T, ∀ i j, i < n → j < n → i ≠ j → y t i ≠ y t j := fun t ht i j hi hj hij he =>
    (hyU t ht).2 ⟨i, hi⟩ ⟨j, hj⟩ (fun h => hij (Fin.mk.inj h)) (congrArg co he)
  obtain ⟨L, hL⟩ : ∃ L, L = T - t0 := ⟨_, rfl⟩
  have hL0 : 0 < L := by rw [hL]; linarith
  rw [← hL] at cx cy mem
  have differ : ∃ t, 0 < t ∧ t < L ∧ (conf n (y (t0 + t)), conf n (w (t0 + t))) ≠ (conf n (x (t0 + t)), conf n (v (t0 + t))) := by
    by_contra hno
    have same : ∀ t, 0 < t → t < L → (conf n (y (t0 + t)), conf n (w (t0 + t))) = (conf n (x (t0 + t)), conf n (v (t0 + t))) := fun t h1 h2 =>
      not_not.1 fun h => hno ⟨t, h1, h2, h⟩
    -- the accelerations agree
    have key : ∀ t, 0 < t → t < L → (potC n m (conf n P.pos) / potC n m (conf n (x (t0 + t)))) • fieldOf a (conf n (x (t0 + t))) (conf n (v (t0 + t))) =
        fieldOf a (conf n (x (t0 + t))) (conf n (v (t0 + t))) := fun t h1 h2 => by
      have d1 := (forced_curve MT (t := t) ⟨h1.le, by rw [← hL]; exact h2.le⟩).2.hasDerivAt (Icc_mem_nhds h1 (by rw [← hL]; exact h2))
      have d2 := (forced_curve MT' (t := t) ⟨h1.le, by rw [← hL]; exact h2.le⟩).2.hasDerivAt (Icc_mem_nhds h1 (by rw [← hL]; exact h2))
      have ev : (fun e => conf n (w (t0 + e))) =ᶠ[nhds t] fun e => conf n (v (t0 + e)) := by
        filter_upwards [Ioo_mem_nhds h1 h2] with e he
        exact congrArg Prod.snd (same e he.1 he.2)
      have := (d2.congr_of_eventuallyEq ev.symm).unique d1
      have q := misled_field m a P.pos (y (t0 + t)) (w (t0 + t))
      rw [q] at this
      have c1 : conf n (y (t0 + t)) = conf n (x (t0 + t)) := congrArg Prod.fst (same t h1 h2)
      have c2 : conf n (w (t0 + t)) = conf n (v (t0 + t)) := congrArg Prod.snd (same t h1 h2)
      rw [c1, c2] at this
      exact this
    -- some particle is accelerated for some time
    obtain ⟨k, hk⟩ := hacc
    have ca : ContinuousOn (fun t => fieldOf a (conf n (x (t0 + t))) (conf n (v (t0 + t)))) (Set.Icc 0 L) :=
      hsm.continuousOn.comp cx fun t ht => (hxU _ (mem t ht)).1
    have a0 : fieldOf a (conf n (x (t0 + 0))) (conf n (v (t0 + 0))) ≠ 0 := by
      rw [add_zero, ← show conf n P.pos = conf n (x t0) from congrArg Prod.fst e0, ← show conf n P.vel = conf n (v t0) from congrArg Prod.snd e0]
      intro h
      exact hk (congrArg ve (congrFun h k))
    have ev := (ca 0 ⟨le_rfl, hL0.le⟩).eventually_ne a0
    have ev2 : ∀ᶠ t in nhdsWithin 0 (Set.Ioi 0), potC n m (conf n (x (t0 + t))) = potC n m (conf n P.pos) := by
      have : nhdsWithin (0 : ℝ) (Set.Ioo 0 L) ≤ nhdsWithin 0 (Set.Icc 0 L) := nhdsWithin_mono _ Set.Ioo_subset_Icc_self
      rw [← nhdsWithin_Ioo_eq_nhdsGT hL0]
      filter_upwards [this ev, self_mem_nhdsWithin] with t h1 h2
      have q := key t h2.1 h2.2
      have hp := potC_pos hn hm (hxU (t0 + t) (mem t ⟨h2.1.le, h2.2.le⟩)).2
      by_contra hne
      have : (potC n m (conf n P.pos) / potC n m (conf n (x (t0 + t))) - 1) • fieldOf a (conf n (x (t0 + t))) (conf n (v (t0 + t))) = 0 := by
        rw [sub_smul, one_smul, q, sub_self]
      rcases smul_eq_zero.1 this with h | h
      · rw [sub_eq_zero, div_eq_one_iff_eq hp.ne'] at h
        exact hne h.symm
      · exact h1 h
    -- so that the potential energy does not change
    have d := potC_rate (m := m) MT apart (t := 0) ⟨le_rfl, by rw [← hL]; exact hL0.le⟩
    rw [← hL] at d
    have d' : HasDerivWithinAt (fun e => potC n m (conf n (x (t0 + e)))) (powC n m (conf n (v (t0 + 0))) (grav n m (conf n (x (t0 + 0))))) (Set.Ioi 0) 0 :=
      (hasDerivWithinAt_Ioi_iff_Ici.2 ((hasDerivWithinAt_inter (Iic_mem_nhds hL0)).1 (by rwa [Set.Ici_inter_Iic])))
    have dc : HasDerivWithinAt (fun e => potC n m (conf n (x (t0 + e)))) 0 (Set.Ioi 0) 0 :=
      (hasDerivWithinAt_const (0 : ℝ) (Set.Ioi 0) (potC n m (conf n P.pos))).congr_of_eventuallyEq ev2 (by
        rw [add_zero, ← show conf n P.pos = conf n (x t0) from congrArg Prod.fst e0])
    have := (uniqueDiffWithinAt_Ioi (0 : ℝ)).eq_deriv _ d' dc
    rw [add_zero, ← show conf n P.pos = conf n (x t0) from congrArg Prod.fst e0, ← show conf n P.vel = conf n (v t0) from congrArg Prod.snd e0,
      ← bondRate_powC] at this
    exact hrate this
  obtain ⟨t, ht0, htL, hne⟩ := differ
  obtain ⟨D, hD⟩ : ∃ D, D = ‖(conf n (y (t0 + t)), conf n (w (t0 + t))) - (conf n (x (t0 + t)), conf n (v (t0 + t)))‖ := ⟨_, rfl⟩
  have hD0 : 0 < D := by rw [hD]; exact norm_pos_iff.2 (sub_ne_zero.2 hne)
  have cd : ContinuousAt (fun t => ‖(conf n (y (t0 + t)), conf n (w (t0 + t))) - (conf n (x (t0 + t)), conf n (v (t0 + t)))‖) t :=
    ((cy.sub cx).norm).continuousAt (Icc_mem_nhds ht0 htL)
  have ev := cd.eventually (lt_mem_nhds (show D / 2 < ‖(conf n (y (t0 + t)), conf n (w (t0 + t))) - (conf n (x (t0 + t)), conf n (v (t0 + t)))‖ by rw [← hD]; linarith))
  obtain ⟨η, hη, hball⟩ := Metric.eventually_nhds_iff.1 ev
  have hη2 : 0 < min (η / 2) (L - t) := lt_min (by linarith) (by linarith)
  have hle : t0 + t + min (η / 2) (L - t) ≤ T := by have := min_le_right (η / 2) (L - t); linarith
  have sub : ∀ s ∈ Set.Icc t0 (t0 + t + min (η / 2) (L - t)), s ∈ Set.Icc t0 T := fun s hs => ⟨hs.1, hs.2.trans hle⟩
  refine ⟨x, v, y, w, t0 + t + min (η / 2) (L - t), t0 + t, D / 2, by linarith, by linarith, by linarith, shorter MT hle, S, fun s hs => apart s (sub s hs), ?_, S',
    fun s hs => apart' s (sub s hs), ⟨U, hU, hsm, fun s hs => (hyU s (sub s hs)).1⟩, fun s hs => ?_⟩
  · rw [ey]; exact shorter MT' hle
  · have h1 := min_le_left (η / 2) (L - t)
    have := hball (y := s - t0) (by rw [Real.dist_eq, abs_of_nonneg (by linarith [hs.1])]; linarith [hs.2])
    rw [show t0 + (s - t0) = s by ring] at this
    exact this.le

/-- near the one motion is far from the other -/
theorem far_from {n : Nat} {m : Nat → ℝ} {x v y w : ℝ → Nat → V3 ℝ} {t D ε : ℝ} {P : Particles} (h1 : D ≤ ‖(conf n (y t), conf n (w t)) - (conf n (x t), conf n (v t))‖)
    (h2 : WithinOf n m y w t ε P) (hε : ε ≤ D / 4) (hD : 0 < D) : FarFrom n x v t (D / 4) P := by
  by_contra hno
  have lt : ∀ k, k < n → len (P.pos k - x t k) < D / 4 ∧ len (P.vel k - v t k) < D / 4 := fun k hk =>
    ⟨not_le.1 fun h => hno ⟨k, hk, .inl h⟩, not_le.1 fun h => hno ⟨k, hk, .inr h⟩⟩
  have one : ∀ (p q r : Nat → V3 ℝ), (∀ k, k < n → len (p k - q k) ≤ D / 4) → (∀ k, k < n → len (p k - r k) ≤ D / 4) → ‖conf n q - conf n r‖ ≤ D / 2 := by
    intro p q r ha hb
    refine (pi_norm_le_iff_of_nonneg (by linarith)).2 fun k => ?_
    have g1 : ‖co (p k) - co (q k)‖ ≤ D / 4 := (norm_le_len _).trans (ha k k.2)
    have g2 : ‖co (p k) - co (r k)‖ ≤ D / 4 := (norm_le_len _).trans (hb k k.2)
    have g3 := norm_sub_le (co (p k) - co (r k)) (co (p k) - co (q k))
    rw [sub_sub_sub_cancel_left] at g3
    show ‖co (q k) - co (r k)‖ ≤ _
    linarith
  have b1 := one P.pos (y t) (x t) (fun k hk => (h2.pos k hk).trans hε) fun k hk => (lt k hk).1.le
  have b2 := one P.vel (w t) (v t) (fun k hk => (h2.vel k hk).trans hε) fun k hk => (lt k hk).2.le
  have : ‖(conf n (y t), conf n (w t)) - (conf n (x t), conf n (v t))‖ ≤ D / 2 := norm_prod_le_iff.2 ⟨b1, b2⟩
  linarith

section
variable {ex : List (ForceClass Particles)} {n : Nat} {m : Nat → ℝ} {a : Field n} (A : Acts (withGravity ex) n m a)
include A

/-- **C110 is false, regularised systems.** From every state in which the potential energy changes and some particle is accelerated, IAS15 with the logarithmic
Hamiltonian and a list of additional forces that is not empty (they may do nothing) converges to a wrong result: there are a true motion `x`, `v` from that state, a
time `t2` and a distance `δ` such that, however small the steps `h` are, all calls return until the clock passes `t2`, and the particles are then off the true ones
by `δ` or more. -/
theorem C110_regularised_wrong (hex : ex ≠ []) {P : Particles} (hP : P.num = n) (hPm : ∀ k, k < n → P.mass k = m k) (hsn : SmoothNear a P)
    (hap : ∀ i j, i < n → j < n → i ≠ j → P.pos i ≠ P.pos j) (hn : 2 ≤ n) (hm : ∀ k, k < n → 0 < m k)
    (hrate : bondRate m (fun j : Fin n => P.pos j) (fun j => P.vel j) ≠ 0) (hacc : ∃ k, a (fun j => P.pos j) (fun j => P.vel j) k ≠ 0) (t0 : ℝ) :
    ∃ (x v : ℝ → Nat → V3 ℝ) (t1 t2 δ h0 : ℝ), t0 < t2 ∧ t2 < t1 ∧ 0 < δ ∧ 0 < h0 ∧ ForcedMotion n a x v t0 t1 ∧ InState n m x v t0 P ∧
      (∀ t ∈ Set.Icc t0 t1, ∀ i j, i < n → j < n → i ≠ j → x t i ≠ x t j) ∧ ∀ (big h : ℝ), 0 < h → h ≤ h0 →
      ∃ (N : Nat) (s : Nat → ReguSys) (it : Nat → IAS) (h' : Nat → ℝ), s 0 = ReguSys.init 1 .logH t0 P ∧ it 0 = IAS.new big ∧
        (∀ i, i < N → (s i).time ≤ t2 ∧ ∀ fuel, Radau.iterate code (radauRegu 1 .logH (withGravity ex)) big (fuel + 1) 0 h (it i)
          ((s i).preIter (withGravity ex)) = .ok (s (i + 1), it (i + 1), h' i)) ∧ t2 < (s N).time ∧ (s N).time ≤ t1 ∧
        FarFrom n x v (s N).time δ (s N).P := by
  obtain ⟨x, v, y, w, t1, t2, D, h02, h21, hD, M, S, apart, M', S', apart', hS, far⟩ := motions_part hP hPm hsn hap hn hm hrate hacc t0
  obtain ⟨K, h0, hK, hh0, key⟩ := regu_reach A h02.le h21 hS apart' hn hm .logH (led_misled hex (h02.trans h21).le M' apart' hn hm)
  obtain ⟨h1, hh1, hh1', hs1⟩ := small_enough (c := K * 2) (by positivity) (r := D / 4) (by linarith)
  refine ⟨x, v, t1, t2, D / 4, min h0 h1, h02, h21, by linarith, lt_min hh0 hh1, M, S, apart, fun big h hh hle => ?_⟩
  obtain ⟨N, s, it, h', a1, a2, a3, a4, a5, a6⟩ := key P S' big h hh (hle.trans (min_le_left _ _))
  refine ⟨N, s, it, h', a1, a2, a3, a4, a5, far_from (far _ ⟨a4.le, a5⟩) (a6 N le_rfl) ?_ hD⟩
  have hl := hle.trans (min_le_right _ _)
  have := hs1 h hl
  have q1 : h ^ 2 ≤ h := by nlinarith
  have q2 : h / 10 ^ 26 ≤ h := div_le_self hh.le (by norm_num)
  have := mul_le_mul_of_nonneg_left (add_le_add q1 q2) hK
  linarith

/-- **C110 is false, AR-chain systems.** The same, whatever chains (`idx`, `pick`) the chain construction chooses. -/
theorem C110_archain_wrong {IC : ChainInteractions} (AI : AgreesI IC (withGravity ex)) (hex : ex ≠ []) {P : Particles} (hP : P.num = n)
    (hPm : ∀ k, k < n → P.mass k = m k) (hsn : SmoothNear a P)
    (hap : ∀ i j, i < n → j < n → i ≠ j → P.pos i ≠ P.pos j) (hn : 2 ≤ n) (hm : ∀ k, k < n → 0 < m k)
    (hrate : bondRate m (fun j : Fin n => P.pos j) (fun j => P.vel j) ≠ 0) (hacc : ∃ k, a (fun j => P.pos j) (fun j => P.vel j) k ≠ 0) (t0 : ℝ) :
    ∃ (x v : ℝ → Nat → V3 ℝ) (t1 t2 δ h0 : ℝ), t0 < t2 ∧ t2 < t1 ∧ 0 < δ ∧ 0 < h0 ∧ ForcedMotion n a x v t0 t1 ∧ InState n m x v t0 P ∧
      (∀ t ∈ Set.Icc t0 t1, ∀ i j, i < n → j < n → i ≠ j → x t i ≠ x t j) ∧ ∀ idx, IndexOf P idx →
      ∀ pick : Nat → Particles → Arr Nat, (∀ i Q, 2 ≤ Q.num → IndexOf Q (pick i Q)) → ∀ (big h : ℝ), 0 < h → h ≤ h0 →
      ∃ (N : Nat) (s u : Nat → ARSys) (it : Nat → IAS) (h' : Nat → ℝ), ARSys.init 1 .logH t0 P idx = .ok (s 0) ∧ it 0 = IAS.new big ∧
        (∀ i, i < N → (s i).time ≤ t2 ∧
          (∀ fuel, Radau.iterate code (radauAR 1 .logH IC) big (fuel + 1) 0 h (it i) ((s i).preIter IC) = .ok (u i, it (i + 1), h' i)) ∧
          (u i).postIter (pick i (u i).P) = .ok (s (i + 1))) ∧ t2 < (s N).time ∧ (s N).time ≤ t1 ∧ FarFrom n x v (s N).time δ (s N).P := by
  obtain ⟨x, v, y, w, t1, t2, D, h02, h21, hD, M, S, apart, M', S', apart', hS, far⟩ := motions_part hP hPm hsn hap hn hm hrate hacc t0
  obtain ⟨K, h0, hK, hh0, key⟩ := ar_reach AI A h02.le h21 hS apart' hn hm .logH (led_misled hex (h02.trans h21).le M' apart' hn hm)
  obtain ⟨h1, hh1, hh1', hs1⟩ := small_enough (c := K * 2) (by positivity) (r := D / 4) (by linarith)
  refine ⟨x, v, t1, t2, D / 4, min h0 h1, h02, h21, by linarith, lt_min hh0 hh1, M, S, apart, fun idx hidx pick hpick big h hh hle => ?_⟩
  obtain ⟨N, s, u, it, h', a1, a2, a3, a4, a5, a6⟩ := key P S' idx hidx pick hpick big h hh (hle.trans (min_le_left _ _))
  refine ⟨N, s, u, it, h', a1, a2, a3, a4, a5, far_from (far _ ⟨a4.le, a5⟩) (a6 N le_rfl) ?_ hD⟩
  have hl := hle.trans (min_le_right _ _)
  have := hs1 h hl
  have q1 : h ^ 2 ≤ h := by nlinarith
  have q2 : h / 10 ^ 26 ≤ h := div_le_self hh.le (by norm_num)
  have := mul_le_mul_of_nonneg_left (add_le_add q1 q2) hK
  linarith

end

/-- **C110 is false, the forces of the library**: post-Newtonian corrections, tides and drag. -/
theorem C110_library_wrong (G c : ℝ) {n : Nat} {m : Nat → ℝ} {fs : List Extra} (hfs : fs ≠ []) {P : Particles} (hP : P.num = n) (hPm : ∀ k, k < n → P.mass k = m k)
    (hap : ∀ i j, i < n → j < n → i ≠ j → P.pos i ≠ P.pos j) (away : ∀ e ∈ fs, e.Away n (fun _ => P.vel) 0 0) (hn : 2 ≤ n) (hm : ∀ k, k < n → 0 < m k)
    (hrate : bondRate m (fun j : Fin n => P.pos j) (fun j => P.vel j) ≠ 0)
    (hacc : ∃ k, withExtras G c n m fs (fun j => P.pos j) (fun j => P.vel j) k ≠ 0) (t0 : ℝ) :
    ∃ (x v : ℝ → Nat → V3 ℝ) (t1 t2 δ h0 : ℝ), t0 < t2 ∧ t2 < t1 ∧ 0 < δ ∧ 0 < h0 ∧ ForcedMotion n (withExtras G c n m fs) x v t0 t1 ∧ InState n m x v t0 P ∧
      (∀ t ∈ Set.Icc t0 t1, ∀ i j, i < n → j < n → i ≠ j → x t i ≠ x t j) ∧ ∀ (big h : ℝ), 0 < h → h ≤ h0 →
      ∃ (N : Nat) (s : Nat → ReguSys) (it : Nat → IAS) (h' : Nat → ℝ), s 0 = ReguSys.init 1 .logH t0 P ∧ it 0 = IAS.new big ∧
        (∀ i, i < N → (s i).time ≤ t2 ∧ ∀ fuel, Radau.iterate code (radauRegu 1 .logH ⟨Lib.newton, fs.map (libOf G c)⟩) big (fuel + 1) 0 h (it i)
          ((s i).preIter ⟨Lib.newton, fs.map (libOf G c)⟩) = .ok (s (i + 1), it (i + 1), h' i)) ∧ t2 < (s N).time ∧ (s N).time ≤ t1 ∧
        FarFrom n x v (s N).time δ (s N).P := by
  obtain ⟨A, _, hS⟩ := C100_library G c n m fs
  have A' : Acts (withGravity (fs.map (libOf G c))) n m (withExtras G c n m fs) := A
  exact C110_regularised_wrong A' (by simpa using hfs) hP hPm (hS _ _ _ _ (fun _ _ => hap) away) hap hn hm hrate hacc t0

/-! ### examples -/

/-- two bodies of mass 1 at distance 1, moving apart at the speed 2 -/
noncomputable def parting : Particles := ⟨2, fun k => if k = 0 then ⟨0, 0, 0⟩ else ⟨1, 0, 0⟩, fun k => if k = 0 then ⟨-1, 0, 0⟩ else ⟨1, 0, 0⟩, fun _ => 1⟩

/-- tides of no strength at all -/
noncomputable def noTides : Extra := .tides (fun _ => 0) (fun _ => 0) fun _ => 0

/-- the tides do nothing -/
theorem noTides_field (x v : Fin 2 → V3 ℝ) (k : Fin 2) : noTides.field 1 1 2 (fun _ => 1) x v k = 0 := by
  refine sum_eq_zero fun j _ => ?_
  unfold tidal
  ext <;> simp

theorem one_newton (d : ℝ) (hd : d = 1 ∨ d = -1) : Spec.newton 1 ⟨0, 0, 0⟩ ⟨d, 0, 0⟩ = ⟨d, 0, 0⟩ := by
  have h : len ((⟨d, 0, 0⟩ : V3 ℝ) - ⟨0, 0, 0⟩) = 1 := by
    unfold len dot
    rcases hd with rfl | rfl <;> simp
  unfold Spec.newton
  rw [h]
  ext <;> simp

/-- they fulfil the hypotheses of `C110_library_wrong` -/
example : parting.num = 2 ∧ (∀ i j, i < 2 → j < 2 → i ≠ j → parting.pos i ≠ parting.pos j) ∧ (∀ e ∈ [noTides], e.Away 2 (fun _ => parting.vel) 0 0) ∧
    bondRate (fun _ => 1) (fun j : Fin 2 => parting.pos j) (fun j => parting.vel j) ≠ 0 ∧
    ∃ k, withExtras 1 1 2 (fun _ => 1) [noTides] (fun j => parting.pos j) (fun j => parting.vel j) k ≠ 0 := by
  have e0 : (Finset.univ : Finset (Fin 2)).erase 0 = {1} := by decide
  have e1 : (Finset.univ : Finset (Fin 2)).erase 1 = {0} := by decide
  have n0 : Spec.newton 1 (parting.pos (0 : Fin 2)) (parting.pos (1 : Fin 2)) = ⟨1, 0, 0⟩ := one_newton 1 (.inl rfl)
  have n1 : Spec.newton 1 (parting.pos (1 : Fin 2)) (parting.pos (0 : Fin 2)) = ⟨-1, 0, 0⟩ := by
    have : Spec.newton 1 (parting.pos (1 : Fin 2)) (parting.pos (0 : Fin 2)) = Spec.newton 1 ⟨0, 0, 0⟩ ⟨-1, 0, 0⟩ := by
      unfold Spec.newton
      have : parting.pos (0 : Fin 2) - parting.pos (1 : Fin 2) = (⟨-1, 0, 0⟩ : V3 ℝ) - ⟨0, 0, 0⟩ := by
        ext <;> simp [parting]
      rw [this]
    rw [this]
    exact one_newton (-1) (.inr rfl)
  refine ⟨rfl, ?_, by simp [noTides, Extra.Away], ?_, 0, ?_⟩
  · intro i j hi hj hij h
    have := congrArg V3.x h
    interval_cases i <;> interval_cases j <;> simp_all [parting]
  · unfold bondRate
    rw [Fin.sum_univ_two, e0, e1, sum_singleton, sum_singleton, n0, n1]
    norm_num [parting, dot]
  · unfold withExtras
    rw [e0, sum_singleton, n0]
    simp only [List.map_cons, List.map_nil, List.sum_cons, List.sum_nil, noTides_field]
    intro h
    have := congrArg V3.x h
    simp at this

/-- the two bodies on a circle with the first post-Newtonian correction of `C100` are a case of `C110_unchanged` -/
example (t0 t1 : ℝ) : ForcedMotion 2 (withExtras 1 (Real.sqrt (29 / 2)) 2 (fun _ => 1) [.pn1]) circlePos circleVel t0 t1 ∧
    ∀ t ∈ Set.Icc t0 t1, bond (fun _ => 1) (fun j : Fin 2 => circlePos t j) = bond (fun _ => 1) fun j : Fin 2 => circlePos t0 j := by
  have h : ∀ t, bond (fun _ => 1) (fun j : Fin 2 => circlePos t j) = 1 := fun t => by
    have hl : len (circlePos t 0 - circlePos t 1) = 1 := by
      have e : circlePos t 0 - circlePos t 1 = ⟨Real.cos t, Real.sin t, 0⟩ := by
        ext <;> simp [circlePos]
      rw [e, len, dot]
      have : Real.cos t * Real.cos t + Real.sin t * Real.sin t + (0 : ℝ) * 0 = 1 := by nlinarith [Real.sin_sq_add_cos_sq t]
      rw [this, Real.sqrt_one]
    unfold bond
    rw [Fin.sum_univ_two, Fin.sum_univ_two, Fin.sum_univ_two]
    have hl' : len (circlePos t (0 : Fin 2) - circlePos t (1 : Fin 2)) = 1 := hl
    rw [hl']
    simp
  exact ⟨circle_pn1 t0 t1, fun t _ => by rw [h t, h t0]⟩

end SpaceHub.Sys
