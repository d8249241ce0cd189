import Verif.Proof.Conserve
import Verif.Props.Time
import Mathlib.Analysis.Complex.Exponential
import Mathlib.Analysis.Complex.Trigonometric
import Mathlib.Tactic.IntervalCases

/-
C54: order of the symplectic integrators, measured on harmonic oscillators.
-/

set_option autoImplicit false

namespace SpaceHub.Sys
open SpaceHub V3 Force Core Integrator

/-! ### polynomials in the step size -/

abbrev Poly := List ℚ

namespace Poly
noncomputable def ev (h : ℝ) : Poly → ℝ
  | [] => 0
  | a :: l => a + h * ev h l

def add : Poly → Poly → Poly
  | [], q => q
  | p, [] => p
  | a :: p, b :: q => (a + b) :: add p q

def scale (c : ℚ) (p : Poly) : Poly := p.map (c * ·)

theorem ev_add (h : ℝ) (p q : Poly) : ev h (add p q) = ev h p + ev h q := by
  induction p generalizing q with
  | nil => simp [add, ev]
  | cons a p ih =>
    cases q with
    | nil => simp [add, ev]
    | cons b q => simp only [add, ev, ih]; push_cast; ring

theorem ev_scale (h : ℝ) (c : ℚ) (p : Poly) : ev h (scale c p) = c * ev h p := by
  induction p with
  | nil => simp [scale, ev]
  | cons a p ih =>
    have : scale c (a :: p) = (c * a) :: scale c p := rfl
    rw [this, ev, ih, ev]; push_cast; ring

/-- sum of the absolute values of the coefficients -/
def norm1 : Poly → ℚ
  | [] => 0
  | a :: l => |a| + norm1 l

theorem ev_le_norm1 (h : ℝ) (hh : |h| ≤ 1) (p : Poly) : |ev h p| ≤ norm1 p := by
  induction p with
  | nil => simp [ev, norm1]
  | cons a p ih =>
    have h0 : (0 : ℝ) ≤ norm1 p := (abs_nonneg _).trans ih
    calc |ev h (a :: p)| ≤ |(a : ℝ)| + |h * ev h p| := abs_add_le _ _
      _ ≤ |(a : ℝ)| + 1 * norm1 p := by
          rw [abs_mul]; gcongr
      _ = norm1 (a :: p) := by simp [norm1]

theorem ev_split (h : ℝ) (p : Poly) (n : Nat) : ev h p = ev h (p.take n) + h ^ n * ev h (p.drop n) := by
  induction n generalizing p with
  | zero => simp [ev]
  | succ n ih =>
    cases p with
    | nil => simp [ev]
    | cons a p => simp only [List.take_succ_cons, List.drop_succ_cons, ev]; rw [ih p]; ring

/-- small low-order coefficients and bounded rest -/
theorem ev_bound (h : ℝ) (hh : |h| ≤ 1) (p : Poly) (n : Nat) (ε K : ℚ) (h0 : p.getD 0 0 = 0)
    (h1 : norm1 (p.take n) ≤ ε) (h2 : norm1 (p.drop n) ≤ K) : |ev h p| ≤ ε * |h| + K * |h| ^ n := by
  rw [ev_split h p n]
  have e1 : |ev h (p.take n)| ≤ ε * |h| := by
    cases p with
    | nil =>
      have : (0 : ℚ) ≤ ε := by simpa [norm1] using h1
      have : (0 : ℝ) ≤ ε := by exact_mod_cast this
      simp [ev]; positivity
    | cons a p =>
      cases n with
      | zero =>
        have : (0 : ℚ) ≤ ε := by simpa [norm1] using h1
        have : (0 : ℝ) ≤ ε := by exact_mod_cast this
        simp [ev]; positivity
      | succ n =>
        have ha : a = 0 := h0
        subst ha
        simp only [List.take_succ_cons, ev, Rat.cast_zero, zero_add, abs_mul]
        have := ev_le_norm1 h hh (p.take n)
        simp only [List.take_succ_cons, norm1, abs_zero, zero_add] at h1
        have h1' : ((norm1 (p.take n) : ℚ) : ℝ) ≤ ε := by exact_mod_cast h1
        rw [mul_comm]
        exact mul_le_mul_of_nonneg_right (this.trans h1') (abs_nonneg _)
  have e2 : |h ^ n * ev h (p.drop n)| ≤ K * |h| ^ n := by
    rw [abs_mul, abs_pow, mul_comm]
    have := ev_le_norm1 h hh (p.drop n)
    have h2' : ((norm1 (p.drop n) : ℚ) : ℝ) ≤ K := by exact_mod_cast h2
    exact mul_le_mul_of_nonneg_right (this.trans h2') (by positivity)
  exact (abs_add_le _ _).trans (add_le_add e1 e2)
end Poly

/-- the linear map of position and velocity made by a sequence of stages on an oscillator of unit frequency -/
structure Mat where
  A : Poly
  B : Poly
  C : Poly
  D : Poly
  deriving DecidableEq

namespace Mat
def one : Mat := ⟨[1], [], [], [1]⟩
def stage (M : Mat) : Stage → Mat
  | .drift c => ⟨Poly.add M.A (0 :: Poly.scale c M.C), Poly.add M.B (0 :: Poly.scale c M.D), M.C, M.D⟩
  | .kick c => ⟨M.A, M.B, Poly.add M.C (0 :: Poly.scale (-c) M.A), Poly.add M.D (0 :: Poly.scale (-c) M.B)⟩
def of (l : List Stage) : Mat := l.foldl stage one
end Mat

/-- first coefficients of cosine and sine -/
def cosT : Poly := [1, 0, -1/2, 0, 1/24, 0, -1/720, 0, 1/40320]
def sinT : Poly := [0, 1, 0, -1/6, 0, 1/120, 0, -1/5040, 0]

open Complex in
theorem trig_bound (h : ℝ) (hh : |h| ≤ 1) :
    |Real.cos h - Poly.ev h cosT| ≤ |h| ^ 9 ∧ |Real.sin h - Poly.ev h sinT| ≤ |h| ^ 9 := by
  have hn : ‖(h : ℂ) * I‖ = |h| := by simp
  have hb := Complex.exp_bound (x := (h : ℂ) * I) (by rw [hn]; exact hh) (n := 9) (by norm_num)
  rw [hn] at hb
  have hc : (|h| ^ 9 * ((Nat.succ 9 : ℕ) * ((Nat.factorial 9 : ℕ) * (9 : ℕ) : ℝ)⁻¹) : ℝ) ≤ |h| ^ 9 := by
    have : ((Nat.succ 9 : ℕ) * ((Nat.factorial 9 : ℕ) * (9 : ℕ) : ℝ)⁻¹ : ℝ) ≤ 1 := by norm_num [Nat.factorial]
    exact mul_le_of_le_one_right (by positivity) this
  have hb := hb.trans hc
  have e : Complex.exp ((h : ℂ) * I) - ∑ m ∈ Finset.range 9, ((h : ℂ) * I) ^ m / (m.factorial : ℂ) =
      ((Real.cos h - Poly.ev h cosT : ℝ) : ℂ) + ((Real.sin h - Poly.ev h sinT : ℝ) : ℂ) * I := by
    rw [Complex.exp_mul_I, ← Complex.ofReal_cos, ← Complex.ofReal_sin]
    simp only [Finset.sum_range_succ, Finset.sum_range_zero, Poly.ev, cosT, sinT]
    have i2 : I ^ 2 = -1 := I_sq
    have i3 : I ^ 3 = -I := by rw [pow_succ, i2]; ring
    have i4 : I ^ 4 = 1 := by rw [pow_succ, i3]; ring_nf; rw [i2]; ring
    have i5 : I ^ 5 = I := by rw [pow_succ, i4]; ring
    have i6 : I ^ 6 = -1 := by rw [pow_succ, i5]; ring_nf; exact i2
    have i7 : I ^ 7 = -I := by rw [pow_succ, i6]; ring
    have i8 : I ^ 8 = 1 := by rw [pow_succ, i7]; ring_nf; rw [i2]; ring
    simp only [mul_pow, i2, i3, i4, i5, i6, i7, i8, Nat.factorial]
    push_cast
    ring
  rw [e] at hb
  have hre := Complex.abs_re_le_norm (((Real.cos h - Poly.ev h cosT : ℝ) : ℂ) + ((Real.sin h - Poly.ev h sinT : ℝ) : ℂ) * I)
  have him := Complex.abs_im_le_norm (((Real.cos h - Poly.ev h cosT : ℝ) : ℂ) + ((Real.sin h - Poly.ev h sinT : ℝ) : ℂ) * I)
  simp only [add_re, ofReal_re, mul_re, I_re, mul_zero, ofReal_im, I_im, mul_one, sub_self, add_zero, add_im, mul_im,
    zero_add] at hre him
  exact ⟨hre.trans hb, him.trans hb⟩


/-! ### the oscillator -/

/-- every particle is pulled to the origin with the acceleration `-w² x` -/
noncomputable def springForce (w : ℝ) : ForceClass Particles :=
  ⟨false, fun P acc k => if k < P.num then acc k + (-(w ^ 2)) • P.pos k else acc k⟩

/-- a plain system of independent oscillators of angular frequency `w` -/
noncomputable def spring (w : ℝ) : Interactions := ⟨springForce w, []⟩

theorem spring_acc (w : ℝ) (P : Particles) (k : Nat) (hk : k < P.num) : (spring w).acc P k = (-(w ^ 2)) • P.pos k := by
  unfold Interactions.acc evalAcc spring springForce
  simp [setZero, hk]

/-- the state is the image of `(x, v)` under the linear map -/
def Image (w θ : ℝ) (M : Mat) (s0 s : Simple) : Prop :=
  s.P.num = s0.P.num ∧ ∀ k, k < s0.P.num →
    s.P.pos k = Poly.ev θ M.A • s0.P.pos k + (Poly.ev θ M.B / w) • s0.P.vel k ∧
    s.P.vel k = (w * Poly.ev θ M.C) • s0.P.pos k + Poly.ev θ M.D • s0.P.vel k

theorem image_stage {w h : ℝ} (hw : w ≠ 0) (M : Mat) (s0 s s' : Simple) (st : Stage) (H : Image w (w * h) M s0 s)
    (e : (simpleOps (spring w)).apply (st.op h) s = .ok s') : Image w (w * h) (M.stage st) s0 s' := by
  obtain ⟨hn, H⟩ := H
  cases st with
  | drift c =>
    cases e
    obtain ⟨i, hi⟩ := s.drift_fields (c * h)
    rw [hi]
    refine ⟨hn, fun k hk => ?_⟩
    obtain ⟨h1, h2⟩ := H k hk
    simp only [advance_apply, hn, hk, if_true, h1, h2, Mat.stage, Poly.ev_add, Poly.ev_scale, Poly.ev, Rat.cast_zero, zero_add]
    refine ⟨?_, trivial⟩
    ext <;> simp only [V3.add_x, V3.add_y, V3.add_z, V3.smul_x, V3.smul_y, V3.smul_z] <;> field_simp <;> ring
  | kick c =>
    cases e
    have e0 : (s.kick (spring w) (c * h)).P = { s.P with vel := advance s.P.num s.P.vel ((spring w).acc s.P) (c * h) } := by
      unfold Simple.kick
      have : (spring w).velDep = false := rfl
      rw [this]
      simp only [Bool.false_eq_true, if_false]
      obtain ⟨i, hi⟩ := Simple.syncVel_fields { s with
        P := { s.P with vel := advance s.P.num s.P.vel ((spring w).acc s.P) (c * h) } } ((spring w).acc s.P) (c * h)
      rw [hi]
    unfold Image
    rw [e0]
    refine ⟨hn, fun k hk => ?_⟩
    obtain ⟨h1, h2⟩ := H k hk
    simp only [advance_apply, hn, hk, if_true, spring_acc w s.P k (hn ▸ hk), h1, h2, Mat.stage, Poly.ev_add, Poly.ev_scale,
      Poly.ev, Rat.cast_zero, zero_add, Rat.cast_neg]
    refine ⟨trivial, ?_⟩
    ext <;> simp only [V3.add_x, V3.add_y, V3.add_z, V3.smul_x, V3.smul_y, V3.smul_z] <;> field_simp <;> ring

theorem image_run {w h : ℝ} (hw : w ≠ 0) (l : List Stage) (M : Mat) (s0 s s' : Simple) (H : Image w (w * h) M s0 s)
    (e : integrate (simpleOps (spring w)) l h s = .ok s') : Image w (w * h) (l.foldl Mat.stage M) s0 s' := by
  induction l generalizing M s with
  | nil => cases e; exact H
  | cons st l ih =>
    obtain ⟨s1, e1, e2⟩ := Res.bind_eq_ok.1 e
    exact ih _ s1 (image_stage hw M s0 s s1 st H e1) e2

/-- One step of an integrator on oscillators is within `ε |θ| + K |θ|^(p+1)` of the exact solution, `θ` being the phase
advanced in the step. -/
def OscillatorOrder (stages : List Stage) (p : Nat) (ε K : ℝ) : Prop :=
  ∀ (w h : ℝ), w ≠ 0 → |w * h| ≤ 1 → ∀ s s' : Simple, integrate (simpleOps (spring w)) stages h s = .ok s' →
    ∃ a b c d : ℝ, |a| ≤ ε * |w * h| + K * |w * h| ^ (p + 1) ∧ |b| ≤ ε * |w * h| + K * |w * h| ^ (p + 1) ∧
      |c| ≤ ε * |w * h| + K * |w * h| ^ (p + 1) ∧ |d| ≤ ε * |w * h| + K * |w * h| ^ (p + 1) ∧
      s'.P.num = s.P.num ∧ ∀ k, k < s.P.num →
        s'.P.pos k = (Real.cos (w * h) + a) • s.P.pos k + ((Real.sin (w * h) + b) / w) • s.P.vel k ∧
        s'.P.vel k = (w * (- Real.sin (w * h) + c)) • s.P.pos k + (Real.cos (w * h) + d) • s.P.vel k

/-- the decidable order condition -/
def Close (p : Nat) (ε K : ℚ) (e : Poly) : Prop :=
  e.getD 0 0 = 0 ∧ Poly.norm1 (e.take (p + 1)) ≤ ε ∧ Poly.norm1 (e.drop (p + 1)) ≤ K
instance (p : Nat) (ε K : ℚ) (e : Poly) : Decidable (Close p ε K e) := by unfold Close; infer_instance

def Meets (p : Nat) (ε K : ℚ) (M : Mat) : Prop :=
  Close p ε K (Poly.add M.A (Poly.scale (-1) cosT)) ∧ Close p ε K (Poly.add M.B (Poly.scale (-1) sinT)) ∧
  Close p ε K (Poly.add M.C sinT) ∧ Close p ε K (Poly.add M.D (Poly.scale (-1) cosT))
instance (p : Nat) (ε K : ℚ) (M : Mat) : Decidable (Meets p ε K M) := by unfold Meets; infer_instance

theorem order_of {l : List Stage} {p : Nat} {ε K : ℚ} (hp : p ≤ 8) (H : Meets p ε K (Mat.of l)) :
    OscillatorOrder l p ε (K + 1) := by
  obtain ⟨hA, hB, hC, hD⟩ := H
  intro w h hw hθ s s' e
  have I0 : Image w (w * h) Mat.one s s := by
    refine ⟨rfl, fun k _ => ?_⟩
    simp [Mat.one, Poly.ev]
  obtain ⟨hn, hI⟩ := image_run hw l Mat.one s s s' I0 e
  obtain ⟨tc, ts⟩ := trig_bound (w * h) hθ
  have h9 : |w * h| ^ 9 ≤ |w * h| ^ (p + 1) := pow_le_pow_of_le_one (abs_nonneg _) hθ (by omega)
  have key : ∀ (q t : Poly) (r : ℝ), Close p ε K (Poly.add q (Poly.scale (-1) t)) → |r - Poly.ev (w * h) t| ≤ |w * h| ^ 9 →
      |Poly.ev (w * h) q - r| ≤ ε * |w * h| + (K + 1) * |w * h| ^ (p + 1) := by
    intro q t r hc ht
    have b := Poly.ev_bound (w * h) hθ _ (p + 1) ε K hc.1 hc.2.1 hc.2.2
    rw [Poly.ev_add, Poly.ev_scale] at b
    push_cast at b
    have b' : |Poly.ev (w * h) q - Poly.ev (w * h) t| ≤ ε * |w * h| + K * |w * h| ^ (p + 1) := by
      convert b using 2; ring
    have t2 : |Poly.ev (w * h) q - r| ≤ |Poly.ev (w * h) q - Poly.ev (w * h) t| + |Poly.ev (w * h) t - r| := abs_sub_le _ _ _
    rw [abs_sub_comm (Poly.ev (w * h) t)] at t2
    linarith
  have key2 : |Poly.ev (w * h) (Mat.of l).C - (- Real.sin (w * h))| ≤ ε * |w * h| + (K + 1) * |w * h| ^ (p + 1) := by
    have b := Poly.ev_bound (w * h) hθ _ (p + 1) ε K hC.1 hC.2.1 hC.2.2
    rw [Poly.ev_add] at b
    rw [abs_le] at b ts ⊢
    constructor <;> linarith [b.1, b.2, ts.1, ts.2]
  refine ⟨Poly.ev (w * h) (Mat.of l).A - Real.cos (w * h), Poly.ev (w * h) (Mat.of l).B - Real.sin (w * h),
    Poly.ev (w * h) (Mat.of l).C - (- Real.sin (w * h)), Poly.ev (w * h) (Mat.of l).D - Real.cos (w * h),
    key _ _ _ hA tc, key _ _ _ hB ts, key2, key _ _ _ hD tc, hn, fun k hk => ?_⟩
  obtain ⟨h1, h2⟩ := hI k hk
  rw [h1, h2]
  constructor
  · rw [add_sub_cancel, add_sub_cancel]; rfl
  · rw [add_sub_cancel, add_sub_cancel]; rfl

theorem C54_leapfrog_dkd : OscillatorOrder symplectic2nd 2 0 2 := by
  have := order_of (l := symplectic2nd) (p := 2) (ε := 0) (K := 1) (by norm_num) (by decide +kernel)
  convert this using 1 <;> norm_num

theorem C54_leapfrog_kdk : OscillatorOrder leapFrogKDK 2 0 2 := by
  have := order_of (l := leapFrogKDK) (p := 2) (ε := 0) (K := 1) (by norm_num) (by decide +kernel)
  convert this using 1 <;> norm_num

theorem C54_4th : OscillatorOrder symplectic4th 4 1e-14 2 := by
  have := order_of (l := symplectic4th) (p := 4) (ε := 1e-14) (K := 1) (by norm_num) (by decide +kernel)
  convert this using 1 <;> norm_num

theorem C54_6th : OscillatorOrder symplectic6th 6 1e-14 2 := by
  have := order_of (l := symplectic6th) (p := 6) (ε := 1e-14) (K := 1) (by norm_num) (by decide +kernel)
  convert this using 1 <;> norm_num

theorem C54_8th : OscillatorOrder symplectic8th 8 1e-12 401 := by
  have := order_of (l := symplectic8th) (p := 8) (ε := 1e-12) (K := 400) (by norm_num) (by decide +kernel)
  convert this using 1 <;> norm_num

theorem C54_10th_is_4th_order : OscillatorOrder symplectic10th 4 1e-14 2 := by
  have := order_of (l := symplectic10th) (p := 4) (ε := 1e-14) (K := 1) (by norm_num) (by decide +kernel)
  convert this using 1 <;> norm_num

/-! ### the tenth-order scheme -/

/-- evaluation at a rational point -/
def Poly.evQ (h : ℚ) : Poly → ℚ
  | [] => 0
  | a :: l => a + h * evQ h l

theorem Poly.ev_cast (h : ℚ) (p : Poly) : Poly.ev (h : ℝ) p = (Poly.evQ h p : ℚ) := by
  induction p with
  | nil => simp [Poly.ev, Poly.evQ]
  | cons a p ih => simp only [Poly.ev, Poly.evQ, ih]; push_cast; ring

theorem simple_run_ok (I : Interactions) (ops : List Op) (s : Simple) : ∃ s', (simpleOps I).run ops s = .ok s' := by
  induction ops generalizing s with
  | nil => exact ⟨s, rfl⟩
  | cons op ops ih =>
    cases op with
    | drift h => exact ih _
    | kick h => exact ih _

/-- one particle at the origin with unit velocity -/
noncomputable def kicked : Simple :=
  Simple.init 0 { num := 1, pos := fun _ => 0, vel := fun _ => ⟨1, 0, 0⟩, mass := fun _ => 1 }

/-- the error of the step is visible at the phase 1/100 -/
theorem not_order {l : List Stage} {p : Nat} {ε K c : ℚ}
    (hc : c ≤ |Poly.evQ (1 / 100) (Poly.add (Mat.of l).B (Poly.scale (-1) sinT))|)
    (hb : ε * (1 / 100) + K * (1 / 100) ^ (p + 1) + (1 / 100) ^ 9 < c) : ¬ OscillatorOrder l p ε K := by
  intro H
  obtain ⟨s', e⟩ := simple_run_ok (spring 1) (l.map (Stage.op (1 / 100))) kicked
  have I0 : Image 1 (1 * (1 / 100)) Mat.one kicked kicked := by
    refine ⟨rfl, fun k _ => ?_⟩
    simp [Mat.one, Poly.ev]
  obtain ⟨_, hI⟩ := image_run one_ne_zero l Mat.one kicked kicked s' I0 e
  obtain ⟨a, b, _, _, _, hbb, _, _, _, hpos⟩ := H 1 (1 / 100) one_ne_zero (by norm_num [abs_of_nonneg]) kicked s' e
  have h1 := (hI 0 (by norm_num [kicked, Simple.init])).1
  have h2 := (hpos 0 (by norm_num [kicked, Simple.init])).1
  rw [h1] at h2
  have h3 := congrArg V3.x h2
  simp only [kicked, Simple.init, V3.add_x, V3.smul_x, V3.zero_x, zero_mul, zero_add, div_one, one_mul] at h3
  change Poly.ev (1 / 100) (Mat.of l).B = _ at h3
  have ts := (trig_bound (1 / 100) (by norm_num [abs_of_nonneg])).2
  have hc' : (c : ℝ) ≤ |Poly.ev (1 / 100) (Poly.add (Mat.of l).B (Poly.scale (-1) sinT))| := by
    have := Poly.ev_cast (1 / 100) (Poly.add (Mat.of l).B (Poly.scale (-1) sinT))
    push_cast at this
    rw [this]
    exact_mod_cast hc
  rw [Poly.ev_add, Poly.ev_scale, h3] at hc'
  push_cast at hc'
  have hb' : (ε : ℝ) * (1 / 100) + K * (1 / 100) ^ (p + 1) + (1 / 100) ^ 9 < c := by
    have := (Rat.cast_lt (K := ℝ)).2 hb
    push_cast at this
    exact this
  rw [one_mul, abs_of_nonneg (by norm_num : (0 : ℝ) ≤ 1 / 100)] at hbb
  rw [abs_of_nonneg (by norm_num : (0 : ℝ) ≤ 1 / 100)] at ts
  have : |Real.sin (1 / 100) + b + -1 * Poly.ev (1 / 100) sinT| ≤ |b| + |Real.sin (1 / 100) - Poly.ev (1 / 100) sinT| := by
    have e3 : Real.sin (1 / 100) + b + -1 * Poly.ev (1 / 100) sinT =
        b + (Real.sin (1 / 100) - Poly.ev (1 / 100) sinT) := by ring
    rw [e3]
    exact abs_add_le b _
  linarith

/-- `Symplectic10th` is not of tenth order: no error constant up to 10^10 (and low-order remainder up to 10^-10) works. -/
theorem C54_not_10th : ¬ OscillatorOrder symplectic10th 10 1e-10 1e10 := by
  have := not_order (l := symplectic10th) (p := 10) (ε := 1e-10) (K := 1e10) (c := 1e-11) (by decide +kernel) (by norm_num)
  convert this using 2 <;> norm_num

/-- It is not even of sixth order (error constants up to 100; the sixth-order scheme has a constant below 2). -/
theorem C54_10th_not_6th : ¬ OscillatorOrder symplectic10th 6 1e-10 100 := by
  have := not_order (l := symplectic10th) (p := 6) (ε := 1e-10) (K := 100) (c := 1e-11) (by decide +kernel) (by norm_num)
  convert this using 2 <;> norm_num

/-- the orders of the leap-frog schemes are not exceeded: neither is of fourth order -/
theorem C54_leapfrog_not_4th : ¬ OscillatorOrder symplectic2nd 4 1e-10 100 ∧ ¬ OscillatorOrder leapFrogKDK 4 1e-10 100 := by
  constructor
  · have := not_order (l := symplectic2nd) (p := 4) (ε := 1e-10) (K := 100) (c := 5e-8) (by decide +kernel) (by norm_num)
    convert this using 2 <;> norm_num
  · have := not_order (l := leapFrogKDK) (p := 4) (ε := 1e-10) (K := 100) (c := 5e-8) (by decide +kernel) (by norm_num)
    convert this using 2 <;> norm_num

end SpaceHub.Sys
