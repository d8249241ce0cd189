import Verif.Spec.Symplectic
import Verif.Proof.Core
import Verif.Props.Force
import Mathlib.Analysis.SpecialFunctions.Sqrt
import Mathlib.Analysis.Calculus.Deriv.Add
import Mathlib.Analysis.Calculus.Deriv.Inv

/-
Rates of change of gravity and of the energies.
-/

set_option autoImplicit false

namespace SpaceHub.Spec
open SpaceHub V3 Force Core Finset Topology

theorem Rate.add {f g : ℝ → V3 ℝ} {a b : V3 ℝ} {t : ℝ} (hf : Rate f a t) (hg : Rate g b t) : Rate (fun e => f e + g e) (a + b) t :=
  ⟨hf.1.fun_add hg.1, hf.2.1.fun_add hg.2.1, hf.2.2.fun_add hg.2.2⟩

theorem Rate.sub {f g : ℝ → V3 ℝ} {a b : V3 ℝ} {t : ℝ} (hf : Rate f a t) (hg : Rate g b t) : Rate (fun e => f e - g e) (a - b) t :=
  ⟨hf.1.fun_sub hg.1, hf.2.1.fun_sub hg.2.1, hf.2.2.fun_sub hg.2.2⟩

theorem Rate.smul {f : ℝ → V3 ℝ} {a : V3 ℝ} {c : ℝ → ℝ} {d t : ℝ} (hf : Rate f a t) (hc : HasDerivAt c d t) :
    Rate (fun e => c e • f e) (c t • a + d • f t) t :=
  ⟨(hf.1.fun_mul hc).congr_deriv (by simp), (hf.2.1.fun_mul hc).congr_deriv (by simp), (hf.2.2.fun_mul hc).congr_deriv (by simp)⟩

theorem Rate.const_smul {f : ℝ → V3 ℝ} {a : V3 ℝ} {t : ℝ} (hf : Rate f a t) (c : ℝ) : Rate (fun e => c • f e) (c • a) t :=
  ⟨hf.1.mul_const c, hf.2.1.mul_const c, hf.2.2.mul_const c⟩

theorem Rate.dot {f g : ℝ → V3 ℝ} {a b : V3 ℝ} {t : ℝ} (hf : Rate f a t) (hg : Rate g b t) :
    HasDerivAt (fun e => V3.dot (f e) (g e)) (V3.dot a (g t) + V3.dot (f t) b) t := by
  unfold V3.dot
  refine (((hf.1.fun_mul hg.1).fun_add (hf.2.1.fun_mul hg.2.1)).fun_add (hf.2.2.fun_mul hg.2.2)).congr_deriv ?_
  ring

theorem Rate.congr {f g : ℝ → V3 ℝ} {a : V3 ℝ} {t : ℝ} (hf : Rate f a t) (h : ∀ᶠ e in 𝓝 t, g e = f e) : Rate g a t :=
  ⟨hf.1.congr_of_eventuallyEq (h.mono fun _ e => by simp only [e]), hf.2.1.congr_of_eventuallyEq (h.mono fun _ e => by simp only [e]),
    hf.2.2.congr_of_eventuallyEq (h.mono fun _ e => by simp only [e])⟩

theorem Rate.unique {f : ℝ → V3 ℝ} {a b : V3 ℝ} {t : ℝ} (hf : Rate f a t) (hg : Rate f b t) : a = b := by
  ext
  · exact hf.1.unique hg.1
  · exact hf.2.1.unique hg.2.1
  · exact hf.2.2.unique hg.2.2

theorem sum_xyz {ι : Type} (s : Finset ι) (f : ι → V3 ℝ) :
    (∑ i ∈ s, f i).x = ∑ i ∈ s, (f i).x ∧ (∑ i ∈ s, f i).y = ∑ i ∈ s, (f i).y ∧ (∑ i ∈ s, f i).z = ∑ i ∈ s, (f i).z := by
  classical
  induction s using Finset.induction_on with
  | empty => simp
  | insert a s ha ih => rw [sum_insert ha, sum_insert ha, sum_insert ha, sum_insert ha, ← ih.1, ← ih.2.1, ← ih.2.2]; exact ⟨rfl, rfl, rfl⟩

theorem Rate.sum {ι : Type} (s : Finset ι) {f : ι → ℝ → V3 ℝ} {a : ι → V3 ℝ} {t : ℝ} (h : ∀ i ∈ s, Rate (f i) (a i) t) :
    Rate (fun e => ∑ i ∈ s, f i e) (∑ i ∈ s, a i) t := by
  refine ⟨?_, ?_, ?_⟩
  · simp only [(sum_xyz s _).1]; exact HasDerivAt.fun_sum fun i hi => (h i hi).1
  · simp only [(sum_xyz s _).2.1]; exact HasDerivAt.fun_sum fun i hi => (h i hi).2.1
  · simp only [(sum_xyz s _).2.2]; exact HasDerivAt.fun_sum fun i hi => (h i hi).2.2

theorem dot_comm' (a b : V3 ℝ) : dot a b = dot b a := by unfold dot; ring

theorem dot_self_pos {a : V3 ℝ} (h : a ≠ 0) : 0 < dot a a := by
  unfold dot
  by_contra hc
  apply h
  have h1 := mul_self_nonneg a.x
  have h2 := mul_self_nonneg a.y
  have h3 := mul_self_nonneg a.z
  ext
  · exact mul_self_eq_zero.1 (by nlinarith)
  · exact mul_self_eq_zero.1 (by nlinarith)
  · exact mul_self_eq_zero.1 (by nlinarith)

theorem len_pos_of {a : V3 ℝ} (h : a ≠ 0) : 0 < len a := Real.sqrt_pos.2 (dot_self_pos h)

theorem len_mul_self (a : V3 ℝ) : len a * len a = dot a a :=
  Real.mul_self_sqrt (by unfold dot; nlinarith [mul_self_nonneg a.x, mul_self_nonneg a.y, mul_self_nonneg a.z])

theorem Rate.len {f : ℝ → V3 ℝ} {a : V3 ℝ} {t : ℝ} (hf : Rate f a t) (h : f t ≠ 0) :
    HasDerivAt (fun e => Spec.len (f e)) (V3.dot (f t) a / Spec.len (f t)) t := by
  have := (hf.dot hf).sqrt (dot_self_pos h).ne'
  refine this.congr_deriv ?_
  have e : V3.dot a (f t) + V3.dot (f t) a = 2 * V3.dot (f t) a := by unfold V3.dot; ring
  rw [e]
  unfold Spec.len
  rw [mul_div_mul_left _ _ two_ne_zero]

/-- Change of the pull of a mass `m` at relative position `ρ` when the latter changes by `d`: the tidal tensor. -/
noncomputable def tide (m : ℝ) (ρ d : V3 ℝ) : V3 ℝ := (m / len ρ ^ 3) • d - (3 * m * dot ρ d / len ρ ^ 5) • ρ

theorem rate_newton {f g : ℝ → V3 ℝ} {a b : V3 ℝ} {t : ℝ} (m : ℝ) (hf : Rate f a t) (hg : Rate g b t) (h : f t ≠ g t) :
    Rate (fun e => newton m (f e) (g e)) (tide m (g t - f t) (b - a)) t := by
  have hd := hg.sub hf
  have hz : g t - f t ≠ 0 := fun hz => h (sub_eq_zero.1 hz).symm
  have hl := len_pos_of hz
  have d1 := (hd.len hz).fun_pow 3
  have d2 : HasDerivAt (fun e => m / Spec.len (g e - f e) ^ 3) (-(3 * m * V3.dot (g t - f t) (b - a) / Spec.len (g t - f t) ^ 5)) t := by
    refine ((hasDerivAt_const t m).fun_div d1 (by positivity)).congr_deriv ?_
    simp only [Nat.cast_ofNat, Nat.add_one_sub_one]
    field_simp
    ring
  have := hd.smul d2
  unfold newton
  refine ⟨this.1.congr_deriv ?_, this.2.1.congr_deriv ?_, this.2.2.congr_deriv ?_⟩ <;> unfold tide <;> simp <;> ring

/-- Acceleration of particle `k` by gravity. -/
noncomputable def pull (P : Particles) (k : Nat) : V3 ℝ := ∑ j ∈ (range P.num).erase k, newton (P.mass j) (P.pos k) (P.pos j)

/-- Its change when the positions change by `ξ`. -/
noncomputable def dpull (P : Particles) (ξ : Nat → V3 ℝ) (k : Nat) : V3 ℝ :=
  ∑ j ∈ (range P.num).erase k, tide (P.mass j) (P.pos j - P.pos k) (ξ j - ξ k)

theorem newtonianAcc_pull (P : Particles) (k : Nat) (hk : k < P.num) (acc : Arr (V3 ℝ)) (h : acc k = 0) : newtonDirect P acc k = pull P k := by
  rw [(Props.C06_newton_direct P acc).1 k hk, h, zero_add]; rfl

theorem Variation.pull {γ : ℝ → Particles} {t : ℝ} {P : Particles} {ξ η : Nat → V3 ℝ} (V : Variation γ t P ξ η) (A : Apart P) (k : Nat) (hk : k < P.num) :
    Rate (fun e => Spec.pull (γ e) k) (dpull P ξ k) t := by
  have : ∀ᶠ e in 𝓝 t, Spec.pull (γ e) k = ∑ j ∈ (range P.num).erase k, newton (P.mass j) ((γ e).pos k) ((γ e).pos j) := by
    filter_upwards [V.num, V.mass] with e h1 h2
    unfold Spec.pull; rw [h1, h2]
  refine Rate.congr ?_ this
  unfold dpull
  refine Rate.sum _ fun j hj => ?_
  rw [mem_erase, mem_range] at hj
  have := rate_newton (P.mass j) (V.pos k hk) (V.pos j hj.2) (by rw [V.here]; exact A k j hk hj.2 (Ne.symm hj.1))
  rw [V.here] at this
  exact this

theorem sum_dot_right {ι : Type} (s : Finset ι) (a : V3 ℝ) (f : ι → V3 ℝ) : dot a (∑ i ∈ s, f i) = ∑ i ∈ s, dot a (f i) := by
  unfold dot
  rw [(sum_xyz s f).1, (sum_xyz s f).2.1, (sum_xyz s f).2.2, mul_sum, mul_sum, mul_sum, ← sum_add_distrib, ← sum_add_distrib]

/-- A sum over ordered pairs does not change when the members are exchanged. -/
theorem sum_swap (n : Nat) (g : Nat → Nat → ℝ) :
    ∑ i ∈ range n, ∑ j ∈ (range n).erase i, g i j = ∑ i ∈ range n, ∑ j ∈ (range n).erase i, g j i := by
  rw [← sum_pairs_symm, ← sum_pairs_symm]
  exact sum_congr rfl fun i _ => sum_congr rfl fun j _ => add_comm _ _

/-- The tidal tensor of the whole system is symmetric. -/
theorem dpull_symm (P : Particles) (ξ ζ : Nat → V3 ℝ) :
    ∑ k ∈ range P.num, P.mass k * dot (ξ k) (dpull P ζ k) = ∑ k ∈ range P.num, P.mass k * dot (ζ k) (dpull P ξ k) := by
  have e : ∀ ξ ζ : Nat → V3 ℝ, ∑ k ∈ range P.num, P.mass k * dot (ξ k) (dpull P ζ k) =
      ∑ k ∈ range P.num, ∑ j ∈ (range P.num).erase k, P.mass k * dot (ξ k) (tide (P.mass j) (P.pos j - P.pos k) (ζ j - ζ k)) := fun ξ ζ =>
    sum_congr rfl fun k _ => by rw [dpull, sum_dot_right, mul_sum]
  rw [e, e, ← sub_eq_zero, ← sum_sub_distrib]
  simp only [← sum_sub_distrib]
  have : ∀ x : ℝ, x = -x → x = 0 := fun x h => by linarith
  apply this
  refine (sum_swap _ _).trans ?_
  rw [← sum_neg_distrib]
  refine sum_congr rfl fun k _ => ?_
  rw [← sum_neg_distrib]
  refine sum_congr rfl fun j _ => ?_
  have hl : len (P.pos k - P.pos j) = len (P.pos j - P.pos k) := len_sub_comm _ _
  unfold tide
  rw [hl]
  simp only [dot, sub_x, sub_y, sub_z, smul_x, smul_y, smul_z]
  ring

/-- The potential energy changes by minus the work of gravity. -/
theorem Variation.potential {γ : ℝ → Particles} {t : ℝ} {P : Particles} {ξ η : Nat → V3 ℝ} (V : Variation γ t P ξ η) (A : Apart P) (G : ℝ) :
    HasDerivAt (fun e => Spec.potential G (γ e).num (γ e).mass (γ e).pos) (-(G * ∑ k ∈ range P.num, P.mass k * dot (Spec.pull P k) (ξ k))) t := by
  have e : ∀ Q : Particles, Spec.potential G Q.num Q.mass Q.pos =
      ∑ i ∈ range Q.num, ∑ j ∈ (range Q.num).erase i, -(1 / 2 * G * Q.mass i * Q.mass j) / len (Q.pos j - Q.pos i) := by
    intro Q
    rw [potential_eq, ← sum_pairs_symm]
    refine sum_congr rfl fun i _ => sum_congr rfl fun j _ => ?_
    rw [len_sub_comm (Q.pos i) (Q.pos j)]
    ring
  have e' : (fun e => Spec.potential G (γ e).num (γ e).mass (γ e).pos) =ᶠ[𝓝 t] fun e => ∑ i ∈ range P.num, ∑ j ∈ (range P.num).erase i,
      -(1 / 2 * G * P.mass i * P.mass j) / len ((γ e).pos j - (γ e).pos i) := by
    filter_upwards [V.num, V.mass] with q h1 h2
    rw [e, h1, h2]
  refine HasDerivAt.congr_of_eventuallyEq ?_ e'
  have d : ∀ i ∈ range P.num, ∀ j ∈ (range P.num).erase i,
      HasDerivAt (fun e => -(1 / 2 * G * P.mass i * P.mass j) / len ((γ e).pos j - (γ e).pos i))
        (1 / 2 * G * P.mass i * P.mass j * dot (P.pos j - P.pos i) (ξ j - ξ i) / len (P.pos j - P.pos i) ^ 3) t := by
    intro i hi j hj
    rw [mem_erase, mem_range] at hj
    rw [mem_range] at hi
    have hz : (γ t).pos j - (γ t).pos i ≠ 0 := by
      rw [V.here]; exact fun hz => A j i hj.2 hi hj.1 (sub_eq_zero.1 hz)
    have hl := len_pos_of hz
    have := (hasDerivAt_const t (-(1 / 2 * G * P.mass i * P.mass j))).fun_div (((V.pos j hj.2).sub (V.pos i hi)).len hz) hl.ne'
    refine this.congr_deriv ?_
    rw [V.here] at hl ⊢
    field_simp
    ring
  refine (HasDerivAt.fun_sum fun i hi => HasDerivAt.fun_sum fun j hj => d i hi j hj).congr_deriv ?_
  have s1 : -(G * ∑ k ∈ range P.num, P.mass k * dot (Spec.pull P k) (ξ k)) =
      ∑ k ∈ range P.num, ∑ j ∈ (range P.num).erase k, -(G * P.mass k * P.mass j * dot (P.pos j - P.pos k) (ξ k) / len (P.pos j - P.pos k) ^ 3) := by
    rw [mul_sum, ← sum_neg_distrib]
    refine sum_congr rfl fun k _ => ?_
    rw [dot_comm', Spec.pull, sum_dot_right, mul_sum, mul_sum, ← sum_neg_distrib]
    refine sum_congr rfl fun j _ => ?_
    unfold newton
    simp only [dot, sub_x, sub_y, sub_z, smul_x, smul_y, smul_z]
    ring
  have s2 : ∀ k j, 1 / 2 * G * P.mass k * P.mass j * dot (P.pos j - P.pos k) (ξ j - ξ k) / len (P.pos j - P.pos k) ^ 3 =
      -(1 / 2 * G * P.mass k * P.mass j * dot (P.pos j - P.pos k) (ξ k) / len (P.pos j - P.pos k) ^ 3) +
      (1 / 2 * G * P.mass k * P.mass j * dot (P.pos j - P.pos k) (ξ j) / len (P.pos j - P.pos k) ^ 3) := by
    intro k j
    simp only [dot, sub_x, sub_y, sub_z]
    ring
  simp only [s2, sum_add_distrib]
  rw [sum_swap P.num (fun k j => 1 / 2 * G * P.mass k * P.mass j * dot (P.pos j - P.pos k) (ξ j) / len (P.pos j - P.pos k) ^ 3), ← sum_add_distrib, s1]
  refine sum_congr rfl fun k _ => ?_
  rw [← sum_add_distrib]
  refine sum_congr rfl fun j _ => ?_
  rw [len_sub_comm (P.pos k) (P.pos j)]
  simp only [dot, sub_x, sub_y, sub_z]
  ring

theorem Variation.kinetic {γ : ℝ → Particles} {t : ℝ} {P : Particles} {ξ η : Nat → V3 ℝ} (V : Variation γ t P ξ η) :
    HasDerivAt (fun e => Core.kinetic (γ e)) (∑ k ∈ range P.num, P.mass k * dot (P.vel k) (η k)) t := by
  have e' : (fun e => Core.kinetic (γ e)) =ᶠ[𝓝 t] fun e => ∑ i ∈ range P.num, 1 / 2 * P.mass i * dot ((γ e).vel i) ((γ e).vel i) := by
    filter_upwards [V.num, V.mass] with q h1 h2
    rw [kinetic_eq, h1, h2]
  refine HasDerivAt.congr_of_eventuallyEq ?_ e'
  refine HasDerivAt.fun_sum fun k hk => ?_
  refine (((V.vel k (mem_range.1 hk)).dot (V.vel k (mem_range.1 hk))).const_mul (1 / 2 * P.mass k)).congr_deriv ?_
  rw [V.here, dot_comm' (η k)]
  ring

end SpaceHub.Spec
