import Verif.Model.IAS15Macro
import Verif.Props.ConvergeIAS15
import Verif.Props.Forced
import Verif.Props.BSChain
import Verif.Props.ChainDerivative
import Verif.Props.IAS15Small

/-
C103: the order of IAS15 with additional forces, and on the other systems.
-/

set_option autoImplicit false

namespace SpaceHub.Sys
open SpaceHub V3 Force Core Integrator Spec Props Finset Converge Radau BS
open scoped ContDiff

/-- What a call did: it made at least `k` corrections in the attempt that it accepted (see C33). -/
def CorrectedOn {S : Type} (O : RSys S) (frame same : S → S → Prop) (k : Nat) (big H : ℝ) (it : IAS) (s s' : S) (it' : IAS) (h' : ℝ) : Prop :=
  ∃ m h q n g y E se, k ≤ n m + 1 ∧ AcceptedBy code O big frame same H it s s' it' h' m h q n g y E se

/-- A clock that runs with rate 1 advances by the length of the accepted attempt. -/
theorem clock_on {S : Type} {O : RSys S} {frame same : S → S → Prop} {ok : S → Prop} {k : Nat} {big H h' : ℝ} {it it' : IAS} {s s' : S} {time : S → ℝ}
    (hsf : ∀ x, same s x → ok x) (hrd : ∀ x y v, ok x → O.read x v = .ok y → ok y ∧ O.write y = v) (hdv : ∀ x d, ok x → O.deriv x = .ok d → ok d.2)
    (hR : ∀ x d, ok x → O.deriv x = .ok d → timeL (GR.toArr d.1) = 1) (hlen : 0 < (O.write s).length) (htime : ∀ x, timeL (GR.toArr (O.write x)) = time x)
    (hf : FlatFor timeL it.gr) (c : CorrectedOn O frame same k big H it s s' it' h') :
    FlatFor timeL it'.gr ∧ StepBy code O big frame same k H (time s' - time s) it s s' it' h' := by
  obtain ⟨m, h, q, n, g, y, E, se, hk, a⟩ := c
  obtain ⟨f1, f2⟩ := flat_by hsf hrd hdv (L := timeL) (κ := 1) hR (fun f g h => h 0 hlen) hf a
  rw [htime, htime, one_mul] at f2
  exact ⟨f1, m, h, q, n, g, y, E, se, hk, by linarith, a⟩

/-- What loading and the derivative keep, a call keeps. -/
theorem iterate_keep {S : Type} {T : Tab} {O : RSys S} {ok : S → Prop} (hrd : ∀ x y v, ok x → O.read x v = .ok y → ok y) (hdv : ∀ x d, ok x → O.deriv x = .ok d → ok d.2)
    (big : ℝ) (fuel : Nat) : ∀ (k : Nat) (h : ℝ) (it : IAS) (s s' : S) (it' : IAS) (h' : ℝ), ok s →
    Radau.iterate T O big fuel k h it s = .ok (s', it', h') → ok s' := by
  have hcor : ∀ {H : ℝ} {r r' : GR} {x x' : S}, ok x → correct T O H r x = .ok (x', r') → ok x' := by
    intro H r r' x x' hx e
    obtain ⟨d, R, st, X, D, hd, p, h0, h7, _⟩ := correct_path e
    have : ∀ i, i ≤ 7 → ok (st i) := by
      intro i
      induction i with
      | zero => intro _; rw [h0]; exact hdv _ _ hx hd
      | succ i ih =>
        intro hi
        exact hrd _ _ _ (hdv _ _ (hrd _ _ _ (ih (by omega)) (p.read i (Nat.zero_le _) (by omega))) (p.deriv i (Nat.zero_le _) (by omega)))
          (p.back i (Nat.zero_le _) (by omega))
    rw [← h7]; exact this 7 le_rfl
  induction fuel with
  | zero => intro k h it s s' it' h' _ e; cases e
  | succ fuel ih =>
    intro k h it s s' it' h' hs e
    unfold Radau.iterate at e
    by_cases hk : k < 30
    swap
    · rw [if_neg hk] at e; cases e
    rw [if_pos hk] at e
    obtain ⟨c, e1, e⟩ := Res.bind_eq_ok.1 e
    obtain ⟨pe, e2, e⟩ := Res.bind_eq_ok.1 e
    dsimp only at e
    have hc := hcor hs e1
    by_cases hconv : pe < 1 ∨ pe ≥ it.last
    · rw [if_pos hconv] at e
      obtain ⟨se, e3, e⟩ := Res.bind_eq_ok.1 e
      obtain ⟨q, e4, e⟩ := Res.bind_eq_ok.1 e
      by_cases hacc : q > Ctl.PID.limMin ctrl 0
      · rw [if_pos hacc] at e
        obtain ⟨z, e5, e⟩ := Res.bind_eq_ok.1 e
        rw [Res.ok.injEq, Prod.mk.injEq, Prod.mk.injEq] at e
        obtain ⟨Y, r1, _⟩ := C47_evaluate O h c.2 c.1 z e5
        rw [← e.1]
        exact hrd _ _ _ hc r1
      · rw [if_neg hacc] at e
        exact ih _ _ _ _ _ _ _ hc e
    · rw [if_neg hconv] at e
      exact ih _ _ _ _ _ _ _ hc e

/-- the field of the motion -/
def forcedF {n : Nat} (a : Field n) (z : Conf n × Conf n) : Conf n × Conf n := (z.2, fieldOf a z.1 z.2)

/-- The error of a course of calls of a system whose clock has rate 1. -/
theorem forced_course {S : Type} {n : Nat} {a : Field n} {x v : ℝ → Nat → V3 ℝ} {t0 t1 : ℝ} (ht : t0 ≤ t1) (M : ForcedMotion n a x v t0 t1) (hS : SmoothAlong a x v t0 t1)
    (k : Nat) (hk : 1 ≤ k) (hk14 : k ≤ 14) :
    ∃ K h0 : ℝ, 0 ≤ K ∧ 0 < h0 ∧ ∀ {O : RSys S} {nv : ℕ} {A : ℕ → (ℕ → ℝ) →ₗ[ℝ] Conf n × Conf n} {big h : ℝ} {frame same : S → S → Prop} {H h' time : ℕ → ℝ}
      {it : ℕ → IAS} {s s' : ℕ → S}, 0 ≤ h → h ≤ h0 → it 0 = IAS.new big → A 0 (GR.toArr (O.write (s 0))) = (conf n (x t0), conf n (v t0)) → time 0 = t0 →
      ∀ N, (∀ i, i < N → 0 ≤ H i ∧ H i ≤ h ∧ (∃ ok, Shadow O ok nv (A i) (forcedF a) Set.univ ∧ ∀ x, same (s i) x → ok x) ∧ (O.write (s i)).length = nv ∧
          StepBy code O big frame same k (H i) (time (i + 1) - time i) (it i) (s i) (s' i) (it (i + 1)) (h' i) ∧
          A (i + 1) (GR.toArr (O.write (s (i + 1)))) = A i (GR.toArr (O.write (s' i))) ∧ ∀ w, ‖A (i + 1) w‖ = ‖A i w‖) →
        time N ≤ t1 → t0 ≤ time N ∧
          ‖A N (GR.toArr (O.write (s N))) - (conf n (x (time N)), conf n (v (time N)))‖ ≤ K * (h ^ (k + 1) + h / 10 ^ 26) := by
  obtain ⟨U, hU, hsm, hin⟩ := hS
  have mem : ∀ t ∈ Set.Icc 0 (t1 - t0), t0 + t ∈ Set.Icc t0 t1 := fun t ht => ⟨by linarith [ht.1], by linarith [ht.2]⟩
  have hF : ContDiffOn ℝ ∞ (forcedF a) U := contDiffOn_snd.prodMk hsm
  obtain ⟨_, K, h0, _, _, hK, hh0, _, _, _, _, key⟩ := course_vary (S := S) code_near code_nodes code_quad (by norm_num) code_small hU hF
    (y := fun t => (conf n (x (t0 + t)), conf n (v (t0 + t)))) (L := t1 - t0) (by linarith)
    (fun t ht => (forced_curve M ht).1.prodMk (forced_curve M ht).2) (fun t ht => hin _ (mem t ht)) k hk hk14
  refine ⟨K, h0, hK, hh0, fun {O nv A big h frame same H h' time it s s'} a1 a2 a3 a4 a5 N a6 a7 => ?_⟩
  have hsum : ∑ i ∈ range N, (time (i + 1) - time i) = time N - t0 := by rw [Finset.sum_range_sub, a5]
  obtain ⟨b1, b2, _⟩ := key (O := O) (nv := nv) (A := A) (big := big) (h := h) (frame := frame) (same := same) (H := H) (τ := fun i => time (i + 1) - time i)
    (h' := h') (it := it) (s := s) (s' := s') a1 a2 a3 (by rw [a4, add_zero]) N (fun i hi => by
      obtain ⟨c1, c2, ⟨ok, c3, c4⟩, c5⟩ := a6 i hi
      exact ⟨c1, c2, ⟨ok, c3.mono (Set.subset_univ _), c4⟩, c5⟩) (by rw [hsum]; linarith)
  rw [hsum] at b1 b2
  refine ⟨by linarith, ?_⟩
  rw [show t0 + (time N - t0) = time N by ring, show 1 / 10 ^ 26 * h = h / 10 ^ 26 by ring] at b2
  exact b2

/-! ### plain systems -/

theorem plain_written {I : Interactions} {n : Nat} {m : Nat → ℝ} {s : Simple} (h : FrameOf n m s) :
    readL n (GR.toArr ((radauSimple I).write s)) = (conf n s.P.pos, conf n s.P.vel) := by
  obtain ⟨rfl, _⟩ := h
  exact readL_flat I.velDep s.flat _ (Simple.write_getD I s)

theorem plain_shadow {I : Interactions} {n : Nat} {m : Nat → ℝ} {a : Field n} (A : Acts I n m a) :
    Shadow (radauSimple I) (FrameOf n m) (n * 3 * (2 + I.velDep.toNat) + 1) (readL n) (forcedF a) Set.univ where
  loc := readL_local n _ (length_bound n I)
  read x y v hx e := ⟨hx.of (Simple.read_frame I x y v e).1, (Simple.read_frame I x y v e).2.2⟩
  keep x d hx e := by rw [← Res.ok.inj e]; exact hx
  field x d hx _ e := by
    rw [plain_written hx, ← Res.ok.inj e]
    have h := readL_flat I.velDep (Simple.slopeOf I x).flat (GR.toArr (x.derivative I)) (Simple.derivative_getD I x)
    have hn : (Simple.slopeOf I x).flat.n = n := hx.1
    rw [hn] at h
    show readL n (GR.toArr (x.derivative I)) = _
    rw [h]
    exact Prod.ext rfl (field_conf A x.P hx.1 hx.2)

theorem plain_length {I : Interactions} {n : Nat} {m : Nat → ℝ} {s : Simple} (h : FrameOf n m s) :
    ((radauSimple I).write s).length = n * 3 * (2 + I.velDep.toNat) + 1 := by
  have : ((radauSimple I).write s).length = s.variableNumber I := C13_simple_size I s
  rw [this, ← h.1]; rfl

theorem plain_clock {I : Interactions} {k : Nat} {big H h' : ℝ} {it it' : IAS} {s s' : Simple} (hf : FlatFor timeL it.gr)
    (c : CorrectedOn (radauSimple I) Simple.Frame (SameSimple I) k big H it s s' it' h') :
    FlatFor timeL it'.gr ∧ StepBy code (radauSimple I) big Simple.Frame (SameSimple I) k H (s'.time - s.time) it s s' it' h' := by
  refine clock_on (ok := Simple.Frame s) (time := Simple.time) (fun x hx => ⟨hx.2.1, hx.2.2.1⟩)
    (fun x y v hx e => ⟨hx.trans (Simple.read_frame I x y v e).1, (Simple.read_frame I x y v e).2.2⟩)
    (fun x d hx e => by rw [← Res.ok.inj e]; exact hx) (fun x d _ e => by
      rw [← Res.ok.inj e]
      exact timeL_flat I.velDep (Simple.slopeOf I x).flat _ (Simple.derivative_getD I x)) ?_
    (fun x => timeL_flat I.velDep x.flat _ (Simple.write_getD I x)) hf c
  show _ < (s.write I).length
  rw [C13_simple_size]; unfold Simple.variableNumber; omega

/-- **C103, additional forces.** `n` particles of masses `m` move from `t0` to `t1` with the accelerations that the forces `I` give them, gravity and any
additional forces; the accelerations are smooth along the motion.  A plain system is integrated by IAS15 (with the tables of the program), call after call,
from the exact state at `t0`.  For every `k` from 1 to 14 there are constants such that, if the steps asked for are at most `h ≤ h0` and every call makes at
least `k` corrections in the attempt it accepts, then as long as the clock has not passed `t1` the particles are off the true ones by at most
`K (h ^ (k + 1) + 10⁻²⁶ h)`. -/
theorem C103_forced {I : Interactions} {n : Nat} {m : Nat → ℝ} {a : Field n} (A : Acts I n m a) {x v : ℝ → Nat → V3 ℝ} {t0 t1 : ℝ} (ht : t0 ≤ t1)
    (M : ForcedMotion n a x v t0 t1) (hS : SmoothAlong a x v t0 t1) (k : Nat) (hk : 1 ≤ k) (hk14 : k ≤ 14) :
    ∃ K h0 : ℝ, 0 ≤ K ∧ 0 < h0 ∧ ∀ P, InState n m x v t0 P →
      ∀ (N : Nat) (s : Nat → Simple) (it : Nat → IAS) (big h : ℝ) (fuel : Nat → Nat) (H h' : Nat → ℝ), s 0 = Simple.init t0 P → it 0 = IAS.new big → 0 ≤ h → h ≤ h0 →
      (∀ i, i < N → 0 ≤ H i ∧ H i ≤ h ∧
        Radau.iterate code (radauSimple I) big (fuel i) 0 (H i) (it i) ((s i).preIter I) = .ok (s (i + 1), it (i + 1), h' i) ∧
        CorrectedOn (radauSimple I) Simple.Frame (SameSimple I) k big (H i) (it i) ((s i).preIter I) (s (i + 1)) (it (i + 1)) (h' i)) →
      (s N).time ≤ t1 → t0 ≤ (s N).time ∧ WithinOf n m x v (s N).time (K * (h ^ (k + 1) + h / 10 ^ 26)) (s N).P := by
  obtain ⟨K, h0, hK, hh0, key⟩ := forced_course (S := Simple) ht M hS k hk hk14
  refine ⟨2 * K, h0, by positivity, hh0, fun P S N s it big h fuel H h' hs0 hit0 hh hhle hst hend => ?_⟩
  have ep : ∀ s : Simple, (s.preIter I).P = s.P := fun s => by unfold Simple.preIter; split_ifs <;> rfl
  have et : ∀ s : Simple, (s.preIter I).time = s.time := fun s => by unfold Simple.preIter; split_ifs <;> rfl
  have fp : ∀ s : Simple, FrameOf n m s → FrameOf n m (s.preIter I) := fun s h => by unfold FrameOf; rw [ep]; exact h
  have frame : ∀ i, i ≤ N → FrameOf n m (s i) ∧ FlatFor timeL (it i).gr := by
    intro i
    induction i with
    | zero => intro _; rw [hs0, hit0]; exact ⟨⟨S.num, S.mass⟩, flat_new _⟩
    | succ i ih =>
      intro hi
      obtain ⟨f1, f2⟩ := ih (by omega)
      obtain ⟨_, _, _, c⟩ := hst i (by omega)
      obtain ⟨g1, _⟩ := plain_clock f2 c
      obtain ⟨_, _, _, _, _, _, _, _, _, a⟩ := c
      exact ⟨(fp _ f1).of a.2.2.2.2.2.2.2.2.2.2.1, g1⟩
  have start : readL n (GR.toArr ((radauSimple I).write ((s 0).preIter I))) = (conf n (x t0), conf n (v t0)) := by
    rw [plain_written (fp _ (frame 0 (Nat.zero_le _)).1), ep, hs0]
    exact start_conf S
  obtain ⟨u, w⟩ := key (O := radauSimple I) (nv := n * 3 * (2 + I.velDep.toNat) + 1) (A := fun _ => readL n) (big := big) (frame := Simple.Frame)
    (same := SameSimple I) (H := H) (time := fun i => (s i).time) (h' := h') (it := it) (s := fun i => (s i).preIter I) (s' := fun i => s (i + 1))
    hh hhle hit0 start (by rw [hs0]; rfl) N (fun i hi => by
      obtain ⟨a1, a2, _, c⟩ := hst i hi
      obtain ⟨f1, f2⟩ := frame i (by omega)
      obtain ⟨g1, g2⟩ := plain_clock f2 c
      rw [et] at g2
      refine ⟨a1, a2, ⟨_, plain_shadow A, fun y hy => (fp _ f1).of ⟨hy.2.1, hy.2.2.1⟩⟩, plain_length (fp _ f1), g2, ?_, fun _ => rfl⟩
      have f' := (frame (i + 1) (by omega)).1
      rw [plain_written (fp _ f'), plain_written f', ep]) hend
  obtain ⟨fN, _⟩ := frame N le_rfl
  refine ⟨u, ?_⟩
  rw [mul_assoc]
  refine within_of fN.1 fN.2 ?_
  rw [plain_written (fp _ fN), ep] at w
  exact w

/-! ### chain systems -/

/-- the coordinates of the `i`-th member of the chain -/
noncomputable def member {n : Nat} (i : Fin n) : Conf n →ₗ[ℝ] ℝ × ℝ × ℝ where
  toFun := fun c => ∑ j : Fin n, if (j : Nat) + 1 = n ∨ j < i then c j else 0
  map_add' c d := by
    rw [← sum_add_distrib]
    refine sum_congr rfl fun j _ => ?_
    by_cases h : (j : Nat) + 1 = n ∨ j < i
    · rw [if_pos h, if_pos h, if_pos h]; rfl
    · rw [if_neg h, if_neg h, if_neg h, add_zero]
  map_smul' r c := by
    rw [RingHom.id_apply, smul_sum]
    refine sum_congr rfl fun j _ => ?_
    by_cases h : (j : Nat) + 1 = n ∨ j < i
    · rw [if_pos h, if_pos h]; rfl
    · rw [if_neg h, if_neg h, smul_zero]

/-- from chain to Cartesian coordinates -/
noncomputable def unchain {n : Nat} (σ : Fin n ≃ Fin n) : Conf n →ₗ[ℝ] Conf n := LinearMap.pi fun k => member (σ.symm k)

theorem unchain_norm {n : Nat} (σ τ : Fin n ≃ Fin n) (c : Conf n) : ‖unchain σ c‖ = ‖unchain τ c‖ := by
  have key : ∀ σ τ : Fin n ≃ Fin n, ‖unchain σ c‖ ≤ ‖unchain τ c‖ := fun σ τ => by
    refine (pi_norm_le_iff_of_nonneg (norm_nonneg _)).2 fun k => ?_
    have := norm_le_pi_norm (unchain τ c) (τ (σ.symm k))
    unfold unchain at this ⊢
    rw [LinearMap.pi_apply, Equiv.symm_apply_apply] at this
    exact this
  exact le_antisymm (key σ τ) (key τ σ)

/-- the chain as a permutation -/
noncomputable def permOf {n : Nat} {idx : Arr Nat} (h : IsIndex n idx) : Fin n ≃ Fin n :=
  Equiv.ofBijective (fun i : Fin n => (⟨idx i, h.lt i i.2⟩ : Fin n))
    (Finite.injective_iff_bijective.1 fun i j e => Fin.ext (h.inj i j i.2 j.2 (congrArg Fin.val e)))

theorem permOf_val {n : Nat} {idx : Arr Nat} (h : IsIndex n idx) (i : Fin n) : (permOf h i : Nat) = idx i := rfl

theorem member_conf {n : Nat} {idx : Arr Nat} {c x : Arr (V3 ℝ)} (hb : BelongsTo n idx c x) : ∀ i (hi : i < n), member ⟨i, hi⟩ (conf n c) = co (x (idx i)) := by
  intro i
  induction i with
  | zero =>
    intro hi
    show ∑ j : Fin n, (if (j : Nat) + 1 = n ∨ j < ⟨0, hi⟩ then conf n c j else 0) = _
    rw [sum_eq_single (⟨n - 1, by omega⟩ : Fin n)]
    · rw [if_pos (.inl (by show n - 1 + 1 = n; omega))]
      show co (c (n - 1)) = _
      rw [hb.base]
    · intro j _ hj
      refine if_neg ?_
      rintro (h | h)
      · exact hj (Fin.ext (by show (j : Nat) = n - 1; omega))
      · exact absurd (show (j : Nat) < 0 from h) (Nat.not_lt_zero _)
    · exact fun h => absurd (mem_univ _) h
  | succ i ih =>
    intro hi
    have h := ih (by omega)
    have e : member ⟨i + 1, hi⟩ (conf n c) = member ⟨i, by omega⟩ (conf n c) + conf n c ⟨i, by omega⟩ := by
      show ∑ j : Fin n, (if (j : Nat) + 1 = n ∨ j < ⟨i + 1, hi⟩ then conf n c j else 0) =
        ∑ j : Fin n, (if (j : Nat) + 1 = n ∨ j < ⟨i, by omega⟩ then conf n c j else 0) + _
      rw [← sum_ite_eq_of_mem' univ (⟨i, by omega⟩ : Fin n) (fun j => conf n c j) (mem_univ _), ← sum_add_distrib]
      refine sum_congr rfl fun j _ => ?_
      by_cases h1 : j = (⟨i, by omega⟩ : Fin n)
      · subst h1
        rw [if_pos (.inr (Nat.lt_succ_self i)), if_neg, if_pos rfl, zero_add]
        rintro (h | h)
        · exact absurd (show i + 1 = n from h) (by omega)
        · exact lt_irrefl _ h
      · have h2 : (j : Nat) ≠ i := fun h => h1 (Fin.ext h)
        rw [if_neg h1, add_zero]
        refine if_congr (or_congr Iff.rfl ⟨fun h => ?_, fun h => ?_⟩) rfl rfl
        · show (j : Nat) < i
          have : (j : Nat) < i + 1 := h
          omega
        · show (j : Nat) < i + 1
          have : (j : Nat) < i := h
          omega
    rw [e, h]
    show co (x (idx i)) + co (c i) = _
    rw [hb.link i hi]
    simp only [co, Prod.mk_add_mk, sub_x, sub_y, sub_z]
    ext <;> simp

theorem unchain_conf {n : Nat} {σ : Fin n ≃ Fin n} {idx : Arr Nat} (hσ : ∀ i : Fin n, (σ i : Nat) = idx i) {c x : Arr (V3 ℝ)} (hb : BelongsTo n idx c x) :
    unchain σ (conf n c) = conf n x := by
  funext k
  show member (σ.symm k) (conf n c) = co (x k)
  rw [member_conf hb (σ.symm k) (σ.symm k).2, ← hσ, Equiv.apply_symm_apply]

/-- positions and velocities from the array of chain variables -/
noncomputable def chainL {n : Nat} (σ : Fin n ≃ Fin n) : (Nat → ℝ) →ₗ[ℝ] Conf n × Conf n := ((unchain σ).prodMap (unchain σ)).comp (readL n)

theorem chainL_norm {n : Nat} (σ τ : Fin n ≃ Fin n) (w : Nat → ℝ) : ‖chainL σ w‖ = ‖chainL τ w‖ := by
  show max ‖unchain σ (readL n w).1‖ ‖unchain σ (readL n w).2‖ = max ‖unchain τ (readL n w).1‖ ‖unchain τ (readL n w).2‖
  rw [unchain_norm σ τ, unchain_norm σ τ]

theorem chainL_flat {n : Nat} {σ : Fin n ≃ Fin n} {idx : Arr Nat} (hσ : ∀ i : Fin n, (σ i : Nat) = idx i) (dep : Bool) (f : Flat) (hn : f.n = n) (A : Nat → ℝ)
    (hA : ∀ v, A v = f.val dep v) {x v : Arr (V3 ℝ)} (hx : BelongsTo n idx f.x x) (hv : BelongsTo n idx f.v v) :
    chainL σ A = (conf n x, conf n v) := by
  have h := readL_flat dep f A hA
  rw [hn] at h
  show (unchain σ (readL n A).1, unchain σ (readL n A).2) = _
  rw [h, unchain_conf hσ hx, unchain_conf hσ hv]

/-- `n` particles with masses `m` in the chain `σ`, described by their chain coordinates -/
structure ChainOf (dep : Bool) {n : Nat} (m : Nat → ℝ) (σ : Fin n ≃ Fin n) (s : ChainSys) : Prop where
  num : s.P.num = n
  mass : ∀ k, k < n → s.P.mass k = m k
  index : ∀ i : Fin n, (σ i : Nat) = s.index i
  good : ChainSys.Good dep s

theorem chain_written {IC : ChainInteractions} {b : Bool} {n : Nat} {m : Nat → ℝ} {σ : Fin n ≃ Fin n} {s : ChainSys} (h : ChainOf b m σ s) :
    chainL σ (GR.toArr ((radauChain IC).write s)) = (conf n s.P.pos, conf n s.P.vel) := by
  obtain ⟨h1, _, h3, h4⟩ := h
  have := h4.cons
  rw [h1] at this
  exact chainL_flat h3 IC.velDep s.flat h1 _ (ChainSys.write_getD IC s) this.pos this.vel

theorem ChainOf.of {b c : Bool} {n : Nat} {m : Nat → ℝ} {σ : Fin n ≃ Fin n} {s s' : ChainSys} (h : ChainOf b m σ s) (f : ChainSys.Frame s s') (g : ChainSys.Good c s') :
    ChainOf c m σ s' :=
  ⟨f.1.trans h.num, fun k hk => by rw [f.2.1]; exact h.mass k hk, fun i => by rw [f.2.2]; exact h.index i, g⟩

theorem chain_read {IC : ChainInteractions} {b : Bool} {n : Nat} {m : Nat → ℝ} {σ : Fin n ≃ Fin n} {x y : ChainSys} {v : List ℝ} (h : ChainOf b m σ x)
    (e : x.read IC v = .ok y) : ChainOf IC.velDep m σ y ∧ y.write IC = v := by
  have hl : v.length = x.variableNumber IC := by
    by_contra hne
    rw [C13_chain_abort IC x v hne] at e; cases e
  have g := h.good
  obtain ⟨y', e1, _, hc⟩ := C13_chain_write_read IC x g.cons.num g.cons.index v hl
  rw [e] at e1; cases e1
  obtain ⟨f, _, w⟩ := ChainSys.read_frame IC x y v g.cons.num g.cons.index e
  rw [← f.1, ← f.2.2] at hc
  exact ⟨h.of f ⟨by rw [f.1]; exact g.two, hc⟩, w⟩

section
variable {IC : ChainInteractions} {I : Interactions} (AI : AgreesI IC I)
include AI

/-- the derivative of a chain system -/
theorem chain_deriv {b : Bool} {x : ChainSys} {d : List ℝ × ChainSys} (g : ChainSys.Good b x) (e : (radauChain IC).deriv x = .ok d) :
    d.2 = x ∧ ∃ c, BelongsTo x.P.num x.index c (I.acc x.P) ∧ d.1 = ({ x with time := 1, cpos := x.cvel, cvel := c, caux := c } : ChainSys).write IC := by
  obtain ⟨c, e1, hc⟩ := toChain_ok (n := x.P.num) (by have := g.two; omega) x.index (I.acc x.P) (fun _ => 0)
  have h : x.derivative IC = .ok (({ x with time := 1, cpos := x.cvel, cvel := c, caux := c } : ChainSys).write IC) := by
    unfold ChainSys.derivative
    rw [AI.acc_eq g.two g.consistent, Res.ok_bind, e1, Res.ok_bind]
    rfl
  have e' : (do let d ← x.derivative IC; .ok (d, x) : Res _) = .ok d := e
  rw [h, Res.ok_bind] at e'
  rw [← Res.ok.inj e']
  exact ⟨rfl, c, hc, rfl⟩

theorem chain_shadow {n : Nat} {m : Nat → ℝ} {a : Field n} (A : Acts I n m a) (σ : Fin n ≃ Fin n) :
    Shadow (radauChain IC) (ChainOf IC.velDep m σ) (n * 3 * (2 + I.velDep.toNat) + 1) (chainL σ) (forcedF a) Set.univ where
  loc := fun f g h => by
    show (unchain σ (readL n f).1, unchain σ (readL n f).2) = (unchain σ (readL n g).1, unchain σ (readL n g).2)
    rw [readL_local n _ (length_bound n I) f g h]
  read x y v hx e := chain_read hx e
  keep x d hx e := by rw [(chain_deriv AI hx.good e).1]; exact hx
  field x d hx _ e := by
    obtain ⟨_, c, hc, e1⟩ := chain_deriv AI hx.good e
    rw [chain_written hx, e1]
    obtain ⟨h1, h2, h3, h4⟩ := hx
    have := h4.cons
    rw [h1] at this hc
    refine (chainL_flat h3 IC.velDep ({ x with time := 1, cpos := x.cvel, cvel := c, caux := c } : ChainSys).flat h1 _ (ChainSys.write_getD IC _) this.vel hc).trans ?_
    exact Prod.ext rfl (field_conf A x.P h1 h2)

theorem chain_length {b : Bool} {n : Nat} {m : Nat → ℝ} {σ : Fin n ≃ Fin n} {s : ChainSys} (h : ChainOf b m σ s) :
    ((radauChain IC).write s).length = n * 3 * (2 + I.velDep.toNat) + 1 := by
  have : ((radauChain IC).write s).length = s.variableNumber IC := C13_chain_size IC s
  rw [this, ← h.num, ← AI.velDep_eq]; rfl

theorem chain_clock {k : Nat} {big H h' : ℝ} {it it' : IAS} {s s' : ChainSys} {n : Nat} {m : Nat → ℝ} {σ : Fin n ≃ Fin n} (hs : ChainOf IC.velDep m σ s)
    (hf : FlatFor timeL it.gr) (c : CorrectedOn (radauChain IC) ChainSys.Frame (SameChain IC) k big H it s s' it' h') :
    FlatFor timeL it'.gr ∧ StepBy code (radauChain IC) big ChainSys.Frame (SameChain IC) k H (s'.time - s.time) it s s' it' h' := by
  refine clock_on (ok := ChainOf IC.velDep m σ) (time := ChainSys.time) (fun x hx => hs.of ⟨hx.2.1, hx.2.2.1, hx.2.2.2.1⟩ (same_good hs.good hx))
    (fun x y v hx e => chain_read hx e)
    (fun x d hx e => by rw [(chain_deriv AI hx.good e).1]; exact hx) (fun x d hx e => by
      obtain ⟨_, c, _, e1⟩ := chain_deriv AI hx.good e
      rw [e1]
      exact timeL_flat IC.velDep ({ x with time := 1, cpos := x.cvel, cvel := c, caux := c } : ChainSys).flat _ (ChainSys.write_getD IC _)) ?_
    (fun x => timeL_flat IC.velDep x.flat _ (ChainSys.write_getD IC x)) hf c
  rw [chain_length AI hs]; omega

/-- a macro step of a chain system with IAS15 -/
theorem chain_macro {n : Nat} {m : Nat → ℝ} {σ : Fin n ≃ Fin n} {big H h' : ℝ} {fuel : Nat} {it it' : IAS} {s u s' : ChainSys} (hs : ChainOf false m σ s)
    (e : Radau.ChainMacro code IC big fuel H it s u s' it' h') :
    ChainOf IC.velDep m σ (s.preIter IC) ∧ ChainOf IC.velDep m σ u ∧ ChainSys.Good false s' ∧ s'.abs = u.abs := by
  obtain ⟨e1, idx, hi, e2⟩ := e
  have fp : ChainSys.Frame s (s.preIter IC) := by unfold ChainSys.preIter; split_ifs <;> exact ⟨rfl, rfl, rfl⟩
  obtain ⟨gp, _⟩ := ChainSys.preIter_sim AI hs.good
  rw [← AI.velDep_eq] at gp
  have hp := hs.of fp gp
  have hu : ChainOf IC.velDep m σ u := iterate_keep (ok := ChainOf IC.velDep m σ) (fun x y v hx e => (chain_read hx e).1)
    (fun x d hx e => by rw [(chain_deriv AI hx.good e).1]; exact hx) big fuel 0 H it _ u it' h' hp e1
  obtain ⟨s'', e3, g3, a3, _⟩ := ChainSys.postIter_sim hu.good.weaken idx hi.isIndex
  rw [e2] at e3; cases e3
  exact ⟨hp, hu, g3, a3⟩

/-- **C103, chain systems.** As `C103_forced` for a simulation of a chain system: each macro step is `pre_iter_process`, a call of the iterator, and
`post_iter_process`, which may change the chain. -/
theorem C103_chain {n : Nat} {m : Nat → ℝ} {a : Field n} (A : Acts I n m a) {x v : ℝ → Nat → V3 ℝ} {t0 t1 : ℝ} (ht : t0 ≤ t1)
    (M : ForcedMotion n a x v t0 t1) (hS : SmoothAlong a x v t0 t1) (k : Nat) (hk : 1 ≤ k) (hk14 : k ≤ 14) :
    ∃ K h0 : ℝ, 0 ≤ K ∧ 0 < h0 ∧ ∀ P, InState n m x v t0 P → ∀ idx, IndexOf P idx →
      ∀ (N : Nat) (s u : Nat → ChainSys) (it : Nat → IAS) (big h : ℝ) (fuel : Nat → Nat) (H h' : Nat → ℝ), ChainSys.init t0 P idx = .ok (s 0) → it 0 = IAS.new big →
      0 ≤ h → h ≤ h0 →
      (∀ i, i < N → 0 ≤ H i ∧ H i ≤ h ∧ Radau.ChainMacro code IC big (fuel i) (H i) (it i) (s i) (u i) (s (i + 1)) (it (i + 1)) (h' i) ∧
        CorrectedOn (radauChain IC) ChainSys.Frame (SameChain IC) k big (H i) (it i) ((s i).preIter IC) (u i) (it (i + 1)) (h' i)) →
      (s N).time ≤ t1 → t0 ≤ (s N).time ∧ WithinOf n m x v (s N).time (K * (h ^ (k + 1) + h / 10 ^ 26)) (s N).P := by
  classical
  obtain ⟨K, h0, hK, hh0, key⟩ := forced_course (S := ChainSys) ht M hS k hk hk14
  refine ⟨2 * K, h0, by positivity, hh0, fun P S idx hidx N s u it big h fuel H h' hs0 hit0 hh hhle hst hend => ?_⟩
  have ep : ∀ s : ChainSys, (s.preIter IC).P = s.P := fun s => by unfold ChainSys.preIter; split_ifs <;> rfl
  have et : ∀ s : ChainSys, (s.preIter IC).time = s.time := fun s => by unfold ChainSys.preIter; split_ifs <;> rfl
  obtain ⟨σ, hσ⟩ : ∃ σ : Nat → Fin n ≃ Fin n, ∀ i, IsIndex n (s i).index → ∀ j : Fin n, (σ i j : Nat) = (s i).index j :=
    ⟨fun i => if h : IsIndex n (s i).index then permOf h else Equiv.refl _, fun i h j => by dsimp only; rw [dif_pos h]; rfl⟩
  obtain ⟨s0, e0, g0, a0, _⟩ := ChainSys.init_sim t0 P idx hidx.two_le hidx.isIndex
  rw [hs0] at e0; cases e0
  have P0 : (s 0).P = P := congrArg Simple.P a0
  have T0 : (s 0).time = t0 := congrArg Simple.time a0
  have frame : ∀ i, i ≤ N → ChainOf false m (σ i) (s i) ∧ FlatFor timeL (it i).gr := by
    intro i
    induction i with
    | zero =>
      intro _
      have hn : (s 0).P.num = n := by rw [P0]; exact S.num
      refine ⟨⟨hn, by rw [P0]; exact S.mass, hσ 0 ?_, g0.weaken⟩, by rw [hit0]; exact flat_new _⟩
      have := g0.cons.index
      rwa [hn] at this
    | succ i ih =>
      intro hi
      obtain ⟨f1, f2⟩ := ih (by omega)
      obtain ⟨_, _, c0, c⟩ := hst i (by omega)
      obtain ⟨m1, m2, m3, m4⟩ := chain_macro AI f1 c0
      have hP : (s (i + 1)).P = (u i).P := congrArg Simple.P m4
      have hn : (s (i + 1)).P.num = n := by rw [hP]; exact m2.num
      refine ⟨⟨hn, by rw [hP]; exact m2.mass, hσ _ ?_, m3⟩, (chain_clock AI m1 f2 c).1⟩
      have := m3.cons.index
      rwa [hn] at this
  have pre : ∀ i, i ≤ N → ChainOf IC.velDep m (σ i) ((s i).preIter IC) := fun i hi => by
    obtain ⟨f1, _⟩ := frame i hi
    obtain ⟨gp, _⟩ := ChainSys.preIter_sim AI f1.good
    rw [← AI.velDep_eq] at gp
    refine f1.of ?_ gp
    unfold ChainSys.preIter; split_ifs <;> exact ⟨rfl, rfl, rfl⟩
  have start : chainL (σ 0) (GR.toArr ((radauChain IC).write ((s 0).preIter IC))) = (conf n (x t0), conf n (v t0)) := by
    rw [chain_written (pre 0 (Nat.zero_le _)), ep, P0]
    exact start_conf S
  obtain ⟨w1, w2⟩ := key (O := radauChain IC) (nv := n * 3 * (2 + I.velDep.toNat) + 1) (A := fun i => chainL (σ i)) (big := big) (frame := ChainSys.Frame)
    (same := SameChain IC) (H := H) (time := fun i => (s i).time) (h' := h') (it := it) (s := fun i => (s i).preIter IC) (s' := u)
    hh hhle hit0 start T0 N (fun i hi => by
      obtain ⟨a1, a2, c0, c⟩ := hst i hi
      obtain ⟨f1, f2⟩ := frame i (by omega)
      obtain ⟨m1, m2, _, m4⟩ := chain_macro AI f1 c0
      obtain ⟨g1, g2⟩ := chain_clock AI m1 f2 c
      have tm : (s (i + 1)).time = (u i).time := congrArg Simple.time m4
      have hP : (s (i + 1)).P = (u i).P := congrArg Simple.P m4
      rw [et, ← tm] at g2
      refine ⟨a1, a2, ⟨_, chain_shadow AI A (σ i), fun y hy => m1.of ⟨hy.2.1, hy.2.2.1, hy.2.2.2.1⟩ (same_good m1.good hy)⟩, chain_length AI m1, g2, ?_,
        chainL_norm _ _⟩
      rw [chain_written (pre (i + 1) (by omega)), chain_written m2, ep, hP]) hend
  obtain ⟨fN, _⟩ := frame N le_rfl
  refine ⟨w1, ?_⟩
  rw [mul_assoc]
  refine within_of fN.num fN.mass ?_
  rw [chain_written (pre N le_rfl), ep] at w2
  exact w2

/-- Whatever the calls do, the error is of second order. -/
theorem C103_chain_second {n : Nat} {m : Nat → ℝ} {a : Field n} (A : Acts I n m a) {x v : ℝ → Nat → V3 ℝ} {t0 t1 : ℝ} (ht : t0 ≤ t1)
    (M : ForcedMotion n a x v t0 t1) (hS : SmoothAlong a x v t0 t1) :
    ∃ K h0 : ℝ, 0 ≤ K ∧ 0 < h0 ∧ ∀ P, InState n m x v t0 P → ∀ idx, IndexOf P idx →
      ∀ (N : Nat) (s u : Nat → ChainSys) (it : Nat → IAS) (big h : ℝ) (fuel : Nat → Nat) (H h' : Nat → ℝ), ChainSys.init t0 P idx = .ok (s 0) → it 0 = IAS.new big →
      0 ≤ h → h ≤ h0 →
      (∀ i, i < N → 0 ≤ H i ∧ H i ≤ h ∧ Radau.ChainMacro code IC big (fuel i) (H i) (it i) (s i) (u i) (s (i + 1)) (it (i + 1)) (h' i)) →
      (s N).time ≤ t1 → t0 ≤ (s N).time ∧ WithinOf n m x v (s N).time (K * (h ^ 2 + h / 10 ^ 26)) (s N).P := by
  obtain ⟨K, h0, hK, hh0, key⟩ := C103_chain AI A ht M hS 1 le_rfl (by norm_num)
  refine ⟨K, h0, hK, hh0, fun P S idx hidx N s u it big h fuel H h' hs0 hit0 hh hhle hst hend => ?_⟩
  obtain ⟨s0, e0, g0, a0, _⟩ := ChainSys.init_sim t0 P idx hidx.two_le hidx.isIndex
  rw [hs0] at e0; cases e0
  have good : ∀ i, i ≤ N → ChainSys.Good false (s i) := by
    intro i
    induction i with
    | zero => exact fun _ => g0.weaken
    | succ i ih =>
      intro hi
      have g := ih (by omega)
      exact (chain_macro AI (n := (s i).P.num) (m := (s i).P.mass) (σ := permOf g.cons.index) ⟨rfl, fun _ _ => rfl, fun _ => rfl, g⟩ (hst i (by omega)).2.2).2.2.1
  refine key P S idx hidx N s u it big h fuel H h' hs0 hit0 hh hhle (fun i hi => ?_) hend
  obtain ⟨a1, a2, a3⟩ := hst i hi
  refine ⟨a1, a2, a3, ?_⟩
  have hl : (it i).last = big := by
    rcases Nat.eq_zero_or_pos i with rfl | h0
    · rw [hit0]; rfl
    · obtain ⟨j, rfl⟩ : ∃ j, i = j + 1 := ⟨i - 1, by omega⟩
      exact iterate_last _ _ big _ _ _ _ _ _ _ _ (hst j (by omega)).2.2.1
  obtain ⟨gp, _⟩ := ChainSys.preIter_sim AI (good i (by omega))
  rw [← AI.velDep_eq] at gp
  obtain ⟨mm, hl, q, nn, g, y, E, se, a⟩ := accepted (chain_radau IC _ gp.cons) big (fuel i) (H i) (it i) (it (i + 1)) (u i) (h' i) hl a3.1
  exact ⟨mm, hl, q, nn, g, y, E, se, by omega, a⟩

end

/-- **C103, additional forces, second order.** Whatever the calls do, the error is of second order. -/
theorem C103_forced_second {I : Interactions} {n : Nat} {m : Nat → ℝ} {a : Field n} (A : Acts I n m a) {x v : ℝ → Nat → V3 ℝ} {t0 t1 : ℝ} (ht : t0 ≤ t1)
    (M : ForcedMotion n a x v t0 t1) (hS : SmoothAlong a x v t0 t1) :
    ∃ K h0 : ℝ, 0 ≤ K ∧ 0 < h0 ∧ ∀ P, InState n m x v t0 P →
      ∀ (N : Nat) (s : Nat → Simple) (it : Nat → IAS) (big h : ℝ) (fuel : Nat → Nat) (H h' : Nat → ℝ), s 0 = Simple.init t0 P → it 0 = IAS.new big → 0 ≤ h → h ≤ h0 →
      (∀ i, i < N → 0 ≤ H i ∧ H i ≤ h ∧
        Radau.iterate code (radauSimple I) big (fuel i) 0 (H i) (it i) ((s i).preIter I) = .ok (s (i + 1), it (i + 1), h' i)) →
      (s N).time ≤ t1 → t0 ≤ (s N).time ∧ WithinOf n m x v (s N).time (K * (h ^ 2 + h / 10 ^ 26)) (s N).P := by
  obtain ⟨K, h0, hK, hh0, key⟩ := C103_forced A ht M hS 1 le_rfl (by norm_num)
  refine ⟨K, h0, hK, hh0, fun P S N s it big h fuel H h' hs0 hit0 hh hhle hst hend => ?_⟩
  refine key P S N s it big h fuel H h' hs0 hit0 hh hhle (fun i hi => ?_) hend
  obtain ⟨a1, a2, a3⟩ := hst i hi
  refine ⟨a1, a2, a3, ?_⟩
  have hl : (it i).last = big := by
    rcases Nat.eq_zero_or_pos i with rfl | h0
    · rw [hit0]; rfl
    · obtain ⟨j, rfl⟩ : ∃ j, i = j + 1 := ⟨i - 1, by omega⟩
      exact iterate_last _ _ big _ _ _ _ _ _ _ _ (hst j (by omega)).2.2
  obtain ⟨mm, hl, q, nn, g, y, E, se, a⟩ := accepted (simple_radau I ((s i).preIter I)) big (fuel i) (H i) (it i) (it (i + 1)) (s (i + 1)) (h' i) hl a3
  exact ⟨mm, hl, q, nn, g, y, E, se, by omega, a⟩

/-- **C103, the forces of the library**: gravity with post-Newtonian corrections, tides and drag, on plain systems and on chain systems. -/
theorem C103_library (G c : ℝ) {n : Nat} {m : Nat → ℝ} {fs : List Extra} {x v : ℝ → Nat → V3 ℝ} {t0 t1 : ℝ} (ht : t0 ≤ t1)
    (M : ForcedMotion n (withExtras G c n m fs) x v t0 t1) (apart : ∀ t ∈ Set.Icc t0 t1, ∀ i j, i < n → j < n → i ≠ j → x t i ≠ x t j)
    (away : ∀ e ∈ fs, e.Away n v t0 t1) :
    ∃ K h0 : ℝ, 0 ≤ K ∧ 0 < h0 ∧ ∀ P, InState n m x v t0 P → ∀ (N : Nat) (it : Nat → IAS) (big h : ℝ) (fuel : Nat → Nat) (H h' : Nat → ℝ), it 0 = IAS.new big →
      0 ≤ h → h ≤ h0 → (∀ i, i < N → 0 ≤ H i ∧ H i ≤ h) →
      (∀ s : Nat → Simple, s 0 = Simple.init t0 P →
        (∀ i, i < N → Radau.iterate code (radauSimple ⟨Lib.newton, fs.map (libOf G c)⟩) big (fuel i) 0 (H i) (it i)
          ((s i).preIter ⟨Lib.newton, fs.map (libOf G c)⟩) = .ok (s (i + 1), it (i + 1), h' i)) →
        (s N).time ≤ t1 → t0 ≤ (s N).time ∧ WithinOf n m x v (s N).time (K * (h ^ 2 + h / 10 ^ 26)) (s N).P) ∧
      ∀ idx, IndexOf P idx → ∀ s u : Nat → ChainSys, ChainSys.init t0 P idx = .ok (s 0) →
        (∀ i, i < N → Radau.ChainMacro code ⟨Lib.newtonC, fs.map (libChainOf G c)⟩ big (fuel i) (H i) (it i) (s i) (u i) (s (i + 1)) (it (i + 1)) (h' i)) →
        (s N).time ≤ t1 → t0 ≤ (s N).time ∧ WithinOf n m x v (s N).time (K * (h ^ 2 + h / 10 ^ 26)) (s N).P := by
  obtain ⟨A, AI, hS⟩ := C100_library G c n m fs
  obtain ⟨K, h0, hK, hh0, key⟩ := C103_forced_second A ht M (hS x v t0 t1 apart away)
  obtain ⟨K', h0', hK', hh0', key'⟩ := C103_chain_second AI A ht M (hS x v t0 t1 apart away)
  refine ⟨max K K', min h0 h0', le_max_of_le_left hK, lt_min hh0 hh0', fun P S N it big h fuel H h' hit hh hle hH => ⟨fun s hs hst hend => ?_, fun idx hidx s u hs hst hend => ?_⟩⟩
  · obtain ⟨a, b⟩ := key P S N s it big h fuel H h' hs hit hh (hle.trans (min_le_left _ _)) (fun i hi => ⟨(hH i hi).1, (hH i hi).2, hst i hi⟩) hend
    exact ⟨a, within_mono b (mul_le_mul_of_nonneg_right (le_max_left _ _) (by positivity))⟩
  · obtain ⟨a, b⟩ := key' P S idx hidx N s u it big h fuel H h' hs hit hh (hle.trans (min_le_right _ _)) (fun i hi => ⟨(hH i hi).1, (hH i hi).2, hst i hi⟩) hend
    exact ⟨a, within_mono b (mul_le_mul_of_nonneg_right (le_max_right _ _) (by positivity))⟩

/-! ### examples -/

/-- two bodies on a circle around each other, with the first post-Newtonian correction: the hypotheses on the motion hold -/
example (t0 t1 : ℝ) : ForcedMotion 2 (withExtras 1 (Real.sqrt (29 / 2)) 2 (fun _ => 1) [.pn1]) circlePos circleVel t0 t1 ∧
    (∀ t ∈ Set.Icc t0 t1, ∀ i j, i < 2 → j < 2 → i ≠ j → circlePos t i ≠ circlePos t j) ∧ ∀ e ∈ [Extra.pn1], e.Away 2 circleVel t0 t1 :=
  ⟨circle_pn1 t0 t1, (circle_motion t0 t1).apart, by simp [Extra.Away]⟩

/-- two bodies on a circle, with gravity alone: calls that return -/
example (t0 : ℝ) : ∃ K h0 : ℝ, 0 < h0 ∧ ∀ h, 0 ≤ h → h ≤ h0 → ∃ (s : Simple) (it : IAS) (h' : ℝ),
    Radau.iterate code (radauSimple gravity) 1000 1 0 h (IAS.new 1000) (Simple.init t0 ⟨2, circlePos t0, circleVel t0, fun _ => 1 / 2⟩) = .ok (s, it, h') ∧
    s.time = t0 + h ∧ WithinOf 2 (fun _ => 1 / 2) circlePos circleVel s.time (K * (h ^ 2 + h / 10 ^ 26)) s.P := by
  obtain ⟨A, _, hS⟩ := C100_library 1 1 2 (fun _ => 1 / 2) []
  have M := circle_motion t0 (t0 + 1)
  have S : InState 2 (fun _ => 1 / 2) circlePos circleVel t0 ⟨2, circlePos t0, circleVel t0, fun _ => 1 / 2⟩ := ⟨rfl, fun _ _ => rfl, fun _ _ => rfl, fun _ _ => rfl⟩
  have F : ForcedMotion 2 (withExtras 1 1 2 (fun _ => 1 / 2) []) circlePos circleVel t0 (t0 + 1) := by
    refine ⟨M.pos, fun t ht k => ?_⟩
    have := M.vel t ht k k.2
    rw [sum_fin (fun j => newton (1 / 2) (circlePos t k) (circlePos t j)) k] at this
    simpa [withExtras] using this
  obtain ⟨K, h0, _, hh0, key⟩ := C103_forced_second (I := gravity) A (by linarith) F (hS _ _ _ _ M.apart (by simp))
  obtain ⟨_, h1, _, hh1, key1⟩ := C98_runs (by linarith : t0 ≤ t0 + 1) M (fun t _ k hk h => by
    have h0 := h.1
    have h1 := Real.sin_sq_add_cos_sq t
    have hx := congrArg V3.x h0
    have hy := congrArg V3.y h0
    interval_cases k <;> simp [circlePos] at hx hy <;> rw [hx, hy] at h1 <;> norm_num at h1)
  refine ⟨K, min 1 (min h0 h1), lt_min one_pos (lt_min hh0 hh1), fun h hh hle => ?_⟩
  have le1 : h ≤ 1 := hle.trans (min_le_left _ _)
  have le2 : h ≤ h0 := hle.trans ((min_le_right _ _).trans (min_le_left _ _))
  have le3 : h ≤ h1 := hle.trans ((min_le_right _ _).trans (min_le_right _ _))
  obtain ⟨s, it, h', a1, a2, a3, a4, _⟩ := key1 _ S 1 1000 h (fun _ => h) hh le3 (fun _ _ => ⟨hh, le_rfl⟩) (by simpa using le1)
  obtain ⟨b1, b2, _⟩ := a3 0 one_pos
  have e := b1 0
  rw [a1, a2] at e
  refine ⟨s 1, it 1, h' 0, e, by rw [b2, a1]; rfl, ?_⟩
  refine (key _ S 1 s it 1000 h (fun _ => 1) (fun _ => h) h' a1 a2 hh le2 (fun i hi => ?_) (by rw [b2, a1]; show t0 + h ≤ t0 + 1; linarith)).2
  obtain rfl : i = 0 := by omega
  exact ⟨hh, le_rfl, b1 0⟩

/-! ### free flight on a chain -/

/-- no forces, on chain systems -/
def noForcesC : ChainInteractions := ⟨⟨false, fun _ _ a => .ok a⟩, []⟩

theorem agrees_free : AgreesI noForcesC noForces := ⟨⟨rfl, fun _ _ _ _ _ => rfl⟩, .nil⟩

theorem free_acts (n : Nat) (m : Nat → ℝ) : Acts noForces n m (fun _ _ _ => 0) := by
  refine ⟨⟨fun _ _ _ => rfl, fun f hf => by cases hf⟩, fun f hf P => ?_, fun P _ _ k => ?_⟩
  · rcases List.mem_cons.1 hf with rfl | hf
    · exact ⟨fun _ => 0, fun a k => by show a k = a k + 0; rw [add_zero]⟩
    · cases hf
  · rw [noForces_acc]

/-- a call with free particles on a chain returns -/
theorem chain_free {n : Nat} {m : Nat → ℝ} {σ : Fin n ≃ Fin n} {s : ChainSys} (hs : ChainOf false m σ s) (T : Tab) (big H : ℝ) (fuel : Nat) :
    ∃ u it' h', Radau.iterate T (radauChain noForcesC) big (fuel + 1) 0 H (IAS.new big) s = .ok (u, it', h') := by
  have hd : noForcesC.velDep = false := rfl
  set f : Flat := ⟨n, 1, s.cvel, fun _ => 0, fun _ => 0, 0, 0, fun _ => 0⟩ with hf
  have comp0 : ∀ c, comp (0 : V3 ℝ) c = 0 := fun c => by unfold comp; split_ifs <;> rfl
  have L : Straight (radauChain noForcesC) (s.write noForcesC) (f.val false)
      (fun x => ChainOf false m σ x ∧ ∀ k, k < n → x.cvel k = s.cvel k) := by
    refine ⟨fun x c ⟨hx, hv⟩ => ?_, fun x ⟨hx, hv⟩ => ?_⟩
    · have g := hx.good
      have len1 : (s.write noForcesC).length = x.variableNumber noForcesC := by
        rw [C13_chain_size]; unfold ChainSys.variableNumber; rw [hs.num, hx.num]
      obtain ⟨y, e, w, _⟩ := C13_chain_write_read noForcesC x g.cons.num g.cons.index (along (s.write noForcesC) (f.val false) c) (by
        unfold along; rw [List.length_map, List.length_range, len1])
      obtain ⟨hy, _⟩ := chain_read hx e
      refine ⟨y, e, hy, fun k hk => ?_⟩
      have ent : ∀ j, j < 3 → comp (y.cvel k) j = comp (s.cvel k) j := fun j hj => by
        have e1 := velEntry false y.flat k j (by show k < y.P.num; rw [hy.num]; exact hk) hj
        have e2 := velEntry false s.flat k j (by show k < s.P.num; rw [hs.num]; exact hk) hj
        have e3 := velEntry false f k j hk hj
        have hn1 : y.flat.n = n := hy.num
        have hn2 : s.flat.n = n := hs.num
        have hn3 : f.n = n := rfl
        rw [hn1] at e1
        rw [hn2] at e2
        rw [hn3] at e3
        have w1 := ChainSys.write_getD noForcesC y (1 + 3 * n + (3 * k + j))
        have w2 := ChainSys.write_getD noForcesC s (1 + 3 * n + (3 * k + j))
        rw [hd, e1] at w1
        rw [hd, e2] at w2
        have p : 1 + 3 * n + (3 * k + j) < (s.write noForcesC).length := by
          rw [C13_chain_size]; unfold ChainSys.variableNumber; rw [hs.num, hd]; show _ < n * 3 * (2 + 0) + 1; omega
        rw [w] at w1
        have w3 : (along (s.write noForcesC) (f.val false) c).getD (1 + 3 * n + (3 * k + j)) 0 =
            (s.write noForcesC).getD (1 + 3 * n + (3 * k + j)) 0 + c * f.val false (1 + 3 * n + (3 * k + j)) := by
          rw [List.getD_eq_getElem _ _ (by unfold along; rw [List.length_map, List.length_range]; exact p)]
          simp [along]
        rw [w3, w2, e3] at w1
        have : comp (f.v k) j = 0 := comp0 j
        rw [this, mul_zero, add_zero] at w1
        exact w1.symm
      have ex := ent 0 (by norm_num)
      have ey := ent 1 (by norm_num)
      have ez := ent 2 (by norm_num)
      exact V3.ext ex ey ez
    · obtain ⟨c, e1, hc⟩ := toChain_ok (n := x.P.num) (by have := hx.good.two; omega) x.index (noForces.acc x.P) (fun _ => 0)
      have h : x.derivative noForcesC = .ok (({ x with time := 1, cpos := x.cvel, cvel := c, caux := c } : ChainSys).write noForcesC) := by
        unfold ChainSys.derivative
        rw [agrees_free.acc_eq hx.good.two hx.good.consistent, Res.ok_bind, e1, Res.ok_bind]
        rfl
      refine ⟨_, by show (do let d ← x.derivative noForcesC; .ok (d, x) : Res _) = _; rw [h, Res.ok_bind], ?_, hx, hv⟩
      rw [noForces_acc, hx.num] at hc
      have c0 : ∀ k, k < n → c k = 0 := fun k hk => by
        by_cases hk' : k + 1 < n
        · rw [hc.link k hk', sub_self]
        · rw [show k = n - 1 by omega, hc.base]
      funext k
      refine (ChainSys.write_getD noForcesC _ k).trans ?_
      show Flat.val false ⟨x.P.num, 1, x.cvel, c, c, 0, 0, x.inc⟩ k = f.val false k
      rw [hx.num]
      unfold Flat.val
      simp only [hf]
      by_cases h0 : k = 0
      · rw [if_pos h0, if_pos h0]
      rw [if_neg h0, if_neg h0]
      by_cases h1 : k < 1 + 3 * n
      · rw [if_pos h1, if_pos h1, hv _ (by omega)]
      rw [if_neg h1, if_neg h1]
      by_cases h2 : k < 1 + 6 * n
      · rw [if_pos h2, if_pos h2, c0 _ (by omega)]
      rw [if_neg h2, if_neg h2]
      simp only [Bool.false_eq_true, false_and, if_false]
  obtain ⟨_, u, it', h', _, _, _, e⟩ := iterate_straight (T := T) L big H (IAS.new big) s ⟨hs, fun _ _ => rfl⟩ rfl blank_new
    ⟨0, by rw [C13_chain_size]; unfold ChainSys.variableNumber; omega, by show (1 : ℝ) ≠ 0; norm_num⟩ fuel
  exact ⟨u, it', h', e⟩

/-- Free particles on a chain: the hypotheses of `C103_chain_second` are met, by a step of any length. -/
example (t0 h : ℝ) (P : Particles) (hP : 2 ≤ P.num) :
    ForcedMotion P.num (fun _ _ _ => 0) (fun t k => P.pos k + (t - t0) • P.vel k) (fun _ => P.vel) t0 (t0 + h) ∧
    SmoothAlong (n := P.num) (fun _ _ _ => 0) (fun t k => P.pos k + (t - t0) • P.vel k) (fun _ => P.vel) t0 (t0 + h) ∧
    InState P.num P.mass (fun t k => P.pos k + (t - t0) • P.vel k) (fun _ => P.vel) t0 P ∧
    ∃ idx s u s' it' h', IndexOf P idx ∧ ChainSys.init t0 P idx = .ok s ∧ Radau.ChainMacro code noForcesC 1000 1 h (IAS.new 1000) s u s' it' h' := by
  have hz : ∀ (c : ℝ) t, HasDerivAt (fun _ : ℝ => c) 0 t := fun c t => hasDerivAt_const t c
  have hl : ∀ (a b t : ℝ), HasDerivAt (fun e : ℝ => a + b * (e - t0)) b t := fun a b t => by
    have := (((hasDerivAt_id t).sub_const t0).const_mul b).const_add a
    rwa [mul_one] at this
  refine ⟨⟨fun t _ k _ => ⟨hl (P.pos k).x (P.vel k).x t, hl (P.pos k).y (P.vel k).y t, hl (P.pos k).z (P.vel k).z t⟩, fun t _ k => ⟨hz _ t, hz _ t, hz _ t⟩⟩, ⟨Set.univ, isOpen_univ, contDiffOn_const, fun _ _ => Set.mem_univ _⟩,
    ⟨rfl, fun _ _ => rfl, fun k _ => by simp, fun _ _ => rfl⟩, ?_⟩
  obtain ⟨idx, hi⟩ := IndexOf.exists P hP
  obtain ⟨s, e0, g0, a0, _⟩ := ChainSys.init_sim t0 P idx hP hi.isIndex
  have g := g0.weaken
  have hs : ChainOf false s.P.mass (permOf g.cons.index) s := ⟨rfl, fun _ _ => rfl, fun _ => rfl, g⟩
  obtain ⟨u, it', h', e⟩ := chain_free hs code 1000 h 0
  have hu : ChainOf false s.P.mass (permOf g.cons.index) u := iterate_keep (T := code) (O := radauChain noForcesC) (ok := ChainOf false s.P.mass (permOf g.cons.index))
    (fun x y v hx e => (chain_read hx e).1)
    (fun x d hx e => by rw [(chain_deriv agrees_free hx.good e).1]; exact hx) 1000 1 0 h _ _ u it' h' hs e
  obtain ⟨idx', hi'⟩ := IndexOf.exists u.P hu.good.two
  obtain ⟨s', e2, _⟩ := ChainSys.postIter_sim hu.good idx' hi'.isIndex
  exact ⟨idx, s, u, s', it', h', hi, e0, e, idx', hi', e2⟩

end SpaceHub.Sys
