import Verif.Spec.Digits
import Verif.Model.RoundedCore
import Verif.Proof.Basic
import Mathlib.Algebra.BigOperators.Intervals

/-
Products of rounding errors.
-/

set_option autoImplicit false

namespace SpaceHub.Rounded
open SpaceHub V3 Force

variable {u : ℝ} {A : Arith}

/-- a product of `k` factors that differ from 1 by at most `u`, or of their inverses -/
def Fac (u : ℝ) (k : Nat) (θ : ℝ) : Prop := (1 - u) ^ k ≤ θ ∧ θ * (1 - u) ^ k ≤ 1

theorem Fac.pos (h1 : u < 1) {k : Nat} {θ : ℝ} (h : Fac u k θ) : 0 < θ := (pow_pos (by linarith) k).trans_le h.1

theorem Fac.one (h0 : 0 ≤ u) (h1 : u < 1) (k : Nat) : Fac u k 1 := by
  have := pow_le_one₀ (n := k) (show 0 ≤ 1 - u by linarith) (by linarith)
  exact ⟨this, by rwa [one_mul]⟩

theorem Fac.mono (h0 : 0 ≤ u) (h1 : u < 1) {j k : Nat} (hjk : j ≤ k) {θ : ℝ} (h : Fac u j θ) : Fac u k θ := by
  have e : (1 - u) ^ k ≤ (1 - u) ^ j := pow_le_pow_of_le_one (by linarith) (by linarith) hjk
  exact ⟨e.trans h.1, (mul_le_mul_of_nonneg_left e (h.pos h1).le).trans h.2⟩

theorem Fac.mul (h1 : u < 1) {j k : Nat} {θ η : ℝ} (h : Fac u j θ) (h' : Fac u k η) : Fac u (j + k) (θ * η) := by
  have p := h.pos h1
  have p' := h'.pos h1
  have q : 0 < 1 - u := by linarith
  rw [Fac, pow_add]
  refine ⟨mul_le_mul h.1 h'.1 (by positivity) p.le, ?_⟩
  calc θ * η * ((1 - u) ^ j * (1 - u) ^ k) = θ * (1 - u) ^ j * (η * (1 - u) ^ k) := by ring
    _ ≤ 1 * 1 := mul_le_mul h.2 h'.2 (by positivity) zero_le_one
    _ = 1 := one_mul 1

theorem Fac.inv (h1 : u < 1) {k : Nat} {θ : ℝ} (h : Fac u k θ) : Fac u k θ⁻¹ := by
  have p := h.pos h1
  constructor
  · rw [le_inv_comm₀ (pow_pos (by linarith) k) p, le_inv_comm₀ p (by positivity), ← one_div, le_div_iff₀ p]
    rw [mul_comm]; exact h.2
  · rw [inv_mul_le_iff₀ p, mul_one]; exact h.1

theorem Fac.sqrt (h0 : 0 ≤ u) (h1 : u < 1) {k : Nat} {θ : ℝ} (h : Fac u k θ) : Fac u k (Real.sqrt θ) := by
  have q : 0 < (1 - u) ^ k := pow_pos (by linarith) k
  have q1 : (1 - u) ^ k ≤ 1 := pow_le_one₀ (by linarith) (by linarith)
  constructor
  · refine Real.le_sqrt_of_sq_le (le_trans ?_ h.1)
    nlinarith
  · rw [← abs_of_pos q, ← Real.sqrt_sq_eq_abs, ← Real.sqrt_mul (h.pos h1).le]
    refine Real.sqrt_le_one.2 (le_trans ?_ h.2)
    exact mul_le_mul_of_nonneg_left (by nlinarith) (h.pos h1).le

/-- averages -/
theorem Fac.avg {k : Nat} {θ η : ℝ} (h : Fac u k θ) (h' : Fac u k η) {a b : ℝ} (ha : 0 ≤ a) (hb : 0 ≤ b) : ∃ ζ, Fac u k ζ ∧ a * θ + b * η = (a + b) * ζ := by
  rcases (add_nonneg ha hb).eq_or_lt with e | e
  · have : a = 0 := by linarith
    have : b = 0 := by linarith
    subst_vars
    exact ⟨θ, h, by ring⟩
  · refine ⟨(a * θ + b * η) / (a + b), ⟨?_, ?_⟩, by field_simp⟩
    · rw [le_div_iff₀ e]
      nlinarith [mul_le_mul_of_nonneg_left h.1 ha, mul_le_mul_of_nonneg_left h'.1 hb]
    · rw [div_mul_eq_mul_div, div_le_one e]
      nlinarith [mul_le_mul_of_nonneg_left h.2 ha, mul_le_mul_of_nonneg_left h'.2 hb]

theorem Fac.bound (h0 : 0 ≤ u) {k : Nat} (hk : k * u < 1) (h1 : u < 1) {θ : ℝ} (h : Fac u k θ) : |θ - 1| ≤ gam u k := by
  have b : 1 - k * u ≤ (1 - u) ^ k := by
    have := one_add_mul_le_pow (show (-2 : ℝ) ≤ -u by linarith) k
    rw [← sub_eq_add_neg] at this
    linarith
  have d : 0 < 1 - k * u := by linarith
  have ku : 0 ≤ k * u := by positivity
  have g : k * u ≤ gam u k := by
    rw [gam, le_div_iff₀ d]
    nlinarith
  rw [abs_le]
  constructor
  · linarith [h.1]
  · rw [gam, le_div_iff₀ d]
    have := (mul_le_mul_of_nonneg_left b (h.pos h1).le).trans h.2
    linarith

/-- `b` is computed instead of `a`, with `k` roundings in a row -/
def Rel (u : ℝ) (k : Nat) (a b : ℝ) : Prop := ∃ θ, Fac u k θ ∧ b = a * θ

theorem Rel.round (h0 : 0 ≤ u) (h1 : u < 1) {a b : ℝ} (h : |b - a| ≤ u * |a|) : Rel u 1 a b := by
  by_cases ha : a = 0
  · subst ha
    rw [abs_zero, mul_zero, sub_zero] at h
    exact ⟨1, .one h0 h1 1, by rw [abs_nonpos_iff.1 h, zero_mul]⟩
  · have q : |b / a - 1| ≤ u := by
      rw [div_sub_one ha, abs_div, div_le_iff₀ (abs_pos.2 ha)]
      exact h
    rw [abs_le] at q
    refine ⟨b / a, ⟨?_, ?_⟩, by field_simp⟩
    · rw [pow_one]; linarith
    · rw [pow_one]; nlinarith

theorem Rel.refl (h0 : 0 ≤ u) (h1 : u < 1) (k : Nat) (a : ℝ) : Rel u k a a := ⟨1, .one h0 h1 k, (mul_one a).symm⟩

theorem Rel.mono (h0 : 0 ≤ u) (h1 : u < 1) {j k : Nat} (hjk : j ≤ k) {a b : ℝ} (h : Rel u j a b) : Rel u k a b := by
  obtain ⟨θ, f, e⟩ := h
  exact ⟨θ, f.mono h0 h1 hjk, e⟩

theorem Rel.trans (h1 : u < 1) {j k : Nat} {a b c : ℝ} (h : Rel u j a b) (h' : Rel u k b c) : Rel u (j + k) a c := by
  obtain ⟨θ, f, rfl⟩ := h
  obtain ⟨η, g, rfl⟩ := h'
  exact ⟨θ * η, f.mul h1 g, by ring⟩

theorem Rel.nonneg (h1 : u < 1) {k : Nat} {a b : ℝ} (h : Rel u k a b) (ha : 0 ≤ a) : 0 ≤ b := by
  obtain ⟨θ, f, rfl⟩ := h
  exact mul_nonneg ha (f.pos h1).le

theorem Rel.ne (h1 : u < 1) {k : Nat} {a b : ℝ} (h : Rel u k a b) (ha : a ≠ 0) : b ≠ 0 := by
  obtain ⟨θ, f, rfl⟩ := h
  exact mul_ne_zero ha (f.pos h1).ne'

theorem Rel.mul (hA : Accurate A u) (h0 : 0 ≤ u) (h1 : u < 1) {j k : Nat} {a a' b b' : ℝ} (h : Rel u j a a') (h' : Rel u k b b') :
    Rel u (j + k + 1) (a * b) (A.mul a' b') := by
  obtain ⟨θ, f, rfl⟩ := h
  obtain ⟨η, g, rfl⟩ := h'
  exact Rel.trans h1 ⟨θ * η, f.mul h1 g, by ring⟩ (Rel.round h0 h1 (hA.mul _ _))

theorem Rel.div (hA : Accurate A u) (h0 : 0 ≤ u) (h1 : u < 1) {j k : Nat} {a a' b b' : ℝ} (h : Rel u j a a') (h' : Rel u k b b') (hb : b ≠ 0) :
    Rel u (j + k + 1) (a / b) (A.div a' b') := by
  have hb' := h'.ne h1 hb
  obtain ⟨θ, f, rfl⟩ := h
  obtain ⟨η, g, rfl⟩ := h'
  exact Rel.trans h1 ⟨θ * η⁻¹, f.mul h1 (g.inv h1), by rw [div_eq_mul_inv, mul_inv]; ring⟩ (Rel.round h0 h1 (hA.div _ _ hb'))

theorem Rel.sqrt (hA : Accurate A u) (h0 : 0 ≤ u) (h1 : u < 1) {k : Nat} {a a' : ℝ} (h : Rel u k a a') (ha : 0 ≤ a) : Rel u (k + 1) (Real.sqrt a) (A.sqrt a') := by
  have hn := h.nonneg h1 ha
  obtain ⟨θ, f, rfl⟩ := h
  refine Rel.trans h1 ⟨Real.sqrt θ, f.sqrt h0 h1, Real.sqrt_mul ha θ⟩ (Rel.round h0 h1 ?_)
  rw [abs_of_nonneg (Real.sqrt_nonneg _)]
  exact hA.sqrt _ hn

theorem Rel.add (hA : Accurate A u) (h0 : 0 ≤ u) (h1 : u < 1) {k : Nat} {a a' b b' : ℝ} (h : Rel u k a a') (h' : Rel u k b b') (ha : 0 ≤ a) (hb : 0 ≤ b) :
    Rel u (k + 1) (a + b) (A.add a' b') := by
  obtain ⟨θ, f, rfl⟩ := h
  obtain ⟨η, g, rfl⟩ := h'
  obtain ⟨ζ, z, e⟩ := f.avg g ha hb
  exact Rel.trans h1 ⟨ζ, z, e⟩ (Rel.round h0 h1 (hA.add _ _))

theorem Rel.bound (h0 : 0 ≤ u) (h1 : u < 1) {k : Nat} (hk : k * u < 1) {a b : ℝ} (h : Rel u k a b) : |b - a| ≤ gam u k * |a| := by
  obtain ⟨θ, f, rfl⟩ := h
  rw [show a * θ - a = (θ - 1) * a by ring, abs_mul]
  exact mul_le_mul_of_nonneg_right (f.bound h0 hk h1) (abs_nonneg _)

/-- The same for a sum `a` of terms of both signs, `m` the sum of their sizes. -/
def Wide (u : ℝ) (k : Nat) (a m b : ℝ) : Prop :=
  ∃ p q θ η : ℝ, 0 ≤ p ∧ 0 ≤ q ∧ Fac u k θ ∧ Fac u k η ∧ a = p - q ∧ m = p + q ∧ b = p * θ - q * η

theorem Wide.zero (h0 : 0 ≤ u) (h1 : u < 1) (k : Nat) : Wide u k 0 0 0 :=
  ⟨0, 0, 1, 1, le_rfl, le_rfl, .one h0 h1 k, .one h0 h1 k, by ring, by ring, by ring⟩

theorem Rel.wide {k : Nat} {a b : ℝ} (h : Rel u k a b) : Wide u k a |a| b := by
  obtain ⟨θ, f, rfl⟩ := h
  rcases le_total 0 a with ha | ha
  · exact ⟨a, 0, θ, θ, ha, le_rfl, f, f, by ring, by rw [abs_of_nonneg ha]; ring, by ring⟩
  · exact ⟨0, -a, θ, θ, le_rfl, by linarith, f, f, by ring, by rw [abs_of_nonpos ha]; ring, by ring⟩

theorem Wide.mono (h0 : 0 ≤ u) (h1 : u < 1) {j k : Nat} (hjk : j ≤ k) {a m b : ℝ} (h : Wide u j a m b) : Wide u k a m b := by
  obtain ⟨p, q, θ, η, hp, hq, f, g, e⟩ := h
  exact ⟨p, q, θ, η, hp, hq, f.mono h0 h1 hjk, g.mono h0 h1 hjk, e⟩

theorem Wide.neg {k : Nat} {a m b : ℝ} (h : Wide u k a m b) : Wide u k (-a) m (-b) := by
  obtain ⟨p, q, θ, η, hp, hq, f, g, rfl, rfl, rfl⟩ := h
  exact ⟨q, p, η, θ, hq, hp, g, f, by ring, by ring, by ring⟩

theorem Wide.plus {k : Nat} {a m b a' m' b' : ℝ} (h : Wide u k a m b) (h' : Wide u k a' m' b') : Wide u k (a + a') (m + m') (b + b') := by
  obtain ⟨p, q, θ, η, hp, hq, f, g, rfl, rfl, rfl⟩ := h
  obtain ⟨p', q', θ', η', hp', hq', f', g', rfl, rfl, rfl⟩ := h'
  obtain ⟨α, fα, eα⟩ := f.avg f' hp hp'
  obtain ⟨β, fβ, eβ⟩ := g.avg g' hq hq'
  exact ⟨p + p', q + q', α, β, by positivity, by positivity, fα, fβ, by ring, by ring, by linarith⟩

theorem Wide.rel (h1 : u < 1) {j k : Nat} {a m b c : ℝ} (h : Wide u j a m b) (h' : Rel u k b c) : Wide u (j + k) a m c := by
  obtain ⟨p, q, θ, η, hp, hq, f, g, rfl, rfl, rfl⟩ := h
  obtain ⟨ζ, z, rfl⟩ := h'
  exact ⟨p, q, θ * ζ, η * ζ, hp, hq, f.mul h1 z, g.mul h1 z, rfl, rfl, by ring⟩

theorem Wide.add (hA : Accurate A u) (h0 : 0 ≤ u) (h1 : u < 1) {k : Nat} {a m b a' m' b' : ℝ} (h : Wide u k a m b) (h' : Wide u k a' m' b') :
    Wide u (k + 1) (a + a') (m + m') (A.add b b') := (h.plus h').rel h1 (Rel.round h0 h1 (hA.add _ _))

theorem Wide.sub (hA : Accurate A u) (h0 : 0 ≤ u) (h1 : u < 1) {k : Nat} {a m b a' m' b' : ℝ} (h : Wide u k a m b) (h' : Wide u k a' m' b') :
    Wide u (k + 1) (a - a') (m + m') (A.sub b b') := by
  have e := (h.plus h'.neg).rel h1 (Rel.round h0 h1 (b := A.sub b b') (by rw [← sub_eq_add_neg]; exact hA.sub _ _))
  rwa [← sub_eq_add_neg] at e

theorem Wide.times {j k : Nat} (h1 : u < 1) {a m b c c' : ℝ} (h : Wide u j a m b) (h' : Rel u k c c') : Wide u (j + k) (a * c) (m * |c|) (b * c') := by
  have key : ∀ {c c' : ℝ}, 0 ≤ c → Rel u k c c' → Wide u (j + k) (a * c) (m * c) (b * c') := by
    intro c c' hc h'
    obtain ⟨p, q, θ, η, hp, hq, f, g, rfl, rfl, rfl⟩ := h
    obtain ⟨ζ, z, rfl⟩ := h'
    exact ⟨p * c, q * c, θ * ζ, η * ζ, by positivity, by positivity, f.mul h1 z, g.mul h1 z, by ring, by ring, by ring⟩
  rcases le_total 0 c with hc | hc
  · rw [abs_of_nonneg hc]; exact key hc h'
  · have hn : Rel u k (-c) (-c') := by
      obtain ⟨ζ, z, rfl⟩ := h'
      exact ⟨ζ, z, by ring⟩
    have := (key (by linarith) hn).neg
    rw [abs_of_nonpos hc]
    simpa using this

theorem Wide.mul (hA : Accurate A u) (h0 : 0 ≤ u) (h1 : u < 1) {j k : Nat} {a m b c c' : ℝ} (h : Wide u j a m b) (h' : Rel u k c c') :
    Wide u (j + k + 1) (a * c) (m * |c|) (A.mul b c') := (h.times h1 h').rel h1 (Rel.round h0 h1 (hA.mul _ _))

theorem Wide.div (hA : Accurate A u) (h0 : 0 ≤ u) (h1 : u < 1) {j k : Nat} {a m b c c' : ℝ} (h : Wide u j a m b) (h' : Rel u k c c') (hc : c ≠ 0) :
    Wide u (j + k + 1) (a / c) (m / |c|) (A.div b c') := by
  have hi : Rel u k c⁻¹ c'⁻¹ := by
    obtain ⟨ζ, z, rfl⟩ := h'
    exact ⟨ζ⁻¹, z.inv h1, mul_inv _ _⟩
  have e := (h.times h1 hi).rel h1 (Rel.round h0 h1 (b := A.div b c') (by rw [← div_eq_mul_inv]; exact hA.div _ _ (h'.ne h1 hc)))
  rwa [abs_inv, ← div_eq_mul_inv, ← div_eq_mul_inv] at e

theorem Wide.bound (h0 : 0 ≤ u) (h1 : u < 1) {k : Nat} (hk : k * u < 1) {a m b : ℝ} (h : Wide u k a m b) : |b - a| ≤ gam u k * m := by
  obtain ⟨p, q, θ, η, hp, hq, f, g, rfl, rfl, rfl⟩ := h
  have bf := f.bound h0 hk h1
  have bg := g.bound h0 hk h1
  rw [show p * θ - q * η - (p - q) = (θ - 1) * p - (η - 1) * q by ring]
  refine (abs_sub _ _).trans ?_
  rw [abs_mul, abs_mul, abs_of_nonneg hp, abs_of_nonneg hq, mul_add]
  exact add_le_add (mul_le_mul_of_nonneg_right bf hp) (mul_le_mul_of_nonneg_right bg hq)

theorem Wide.mul' (hA : Accurate A u) (h0 : 0 ≤ u) (h1 : u < 1) {j k : Nat} {a m b c c' : ℝ} (h : Wide u j a m b) (h' : Rel u k c c') :
    Wide u (j + k + 1) (c * a) (|c| * m) (A.mul c' b) := by
  have e := (h.times h1 h').rel h1 (Rel.round h0 h1 (b := A.mul c' b) (by rw [mul_comm b]; exact hA.mul _ _))
  rwa [mul_comm a, mul_comm m] at e

/-- a sum of terms of one sign -/
theorem Wide.toRel {k : Nat} {a b : ℝ} (h : Wide u k a a b) : Rel u k a b := by
  obtain ⟨p, q, θ, η, hp, hq, f, g, e1, e2, rfl⟩ := h
  obtain rfl : q = 0 := by linarith
  exact ⟨θ, f, by rw [e1]; ring⟩

theorem forLoop_map {α β : Type} (c : α → β) (F : Nat → α → α) (G : Nat → β → β) (h : ∀ i s, c (F i s) = G i (c s)) (lo hi : Nat) (s : α) :
    c (forLoop lo hi F s) = forLoop lo hi G (c s) := by
  induction hi with
  | zero => rw [forLoop_self _ _ (Nat.zero_le _), forLoop_self _ _ (Nat.zero_le _)]
  | succ hi ih =>
    by_cases hl : lo ≤ hi
    · rw [forLoop_succ _ _ hl, forLoop_succ _ _ hl, h, ih]
    · rw [forLoop_self _ _ (by omega), forLoop_self _ _ (by omega)]

/-- a loop that changes a sum: the number of roundings grows by `d i` in round `i` -/
theorem Wide.sum (d : Nat → Nat) {t M : Nat → ℝ} {F : Nat → ℝ → ℝ} {K : Nat} (lo hi : Nat)
    (h : ∀ i, lo ≤ i → i < hi → ∀ c a m b, K ≤ c → Wide u c a m b → Wide u (c + d i) (a + t i) (m + M i) (F i b)) {c : Nat} (hc : K ≤ c) {a m b : ℝ}
    (hs : Wide u c a m b) :
    Wide u (c + ∑ i ∈ Finset.Ico lo hi, d i) (a + ∑ i ∈ Finset.Ico lo hi, t i) (m + ∑ i ∈ Finset.Ico lo hi, M i) (forLoop lo hi F b) := by
  induction hi with
  | zero =>
    rw [forLoop_self _ _ (Nat.zero_le _), Finset.Ico_eq_empty (by omega)]
    simpa using hs
  | succ hi ih =>
    by_cases hl : lo ≤ hi
    · have e := h hi hl (by omega) _ _ _ _ (hc.trans (Nat.le_add_right _ _)) (ih fun i h1 h2 => h i h1 (by omega))
      rw [forLoop_succ _ _ hl, Finset.sum_Ico_succ_top hl, Finset.sum_Ico_succ_top hl, Finset.sum_Ico_succ_top hl, ← add_assoc, ← add_assoc, ← add_assoc]
      exact e
    · rw [forLoop_self _ _ (by omega), Finset.Ico_eq_empty (by omega)]
      simpa using hs

theorem Wide.loop (hA : Accurate A u) (h0 : 0 ≤ u) (h1 : u < 1) (K lo hi : Nat) {t M t' : Nat → ℝ} (h : ∀ i, lo ≤ i → i < hi → Wide u K (t i) (M i) (t' i))
    {c : Nat} (hc : K ≤ c) {a m b : ℝ} (hs : Wide u c a m b) :
    Wide u (c + (hi - lo)) (a + ∑ i ∈ Finset.Ico lo hi, t i) (m + ∑ i ∈ Finset.Ico lo hi, M i) (forLoop lo hi (fun i s => A.add s (t' i)) b) := by
  have e := Wide.sum (fun _ => 1) (t := t) (M := M) (F := fun i s => A.add s (t' i)) lo hi
    (fun i h2 h3 c a m b hc hw => hw.add hA h0 h1 ((h i h2 h3).mono h0 h1 hc)) hc hs
  simpa using e

theorem Wide.loop_sub (hA : Accurate A u) (h0 : 0 ≤ u) (h1 : u < 1) (K lo hi : Nat) {t M t' : Nat → ℝ} (h : ∀ i, lo ≤ i → i < hi → Wide u K (t i) (M i) (t' i))
    {c : Nat} (hc : K ≤ c) {a m b : ℝ} (hs : Wide u c a m b) :
    Wide u (c + (hi - lo)) (a + ∑ i ∈ Finset.Ico lo hi, -t i) (m + ∑ i ∈ Finset.Ico lo hi, M i) (forLoop lo hi (fun i s => A.sub s (t' i)) b) := by
  have e := Wide.sum (fun _ => 1) (t := fun i => -t i) (M := M) (F := fun i s => A.sub s (t' i)) lo hi
    (fun i h2 h3 c a m b hc hw => by rw [← sub_eq_add_neg]; exact hw.sub hA h0 h1 ((h i h2 h3).mono h0 h1 hc)) hc hs
  simpa using e

/-! ### pair loops -/

variable {α : Type}

theorem inner_entry (f g : Nat → Nat → α → α) (i k : Nat) (a : Arr α) (hi : Nat) :
    forLoop (i + 1) hi (fun j (a : Arr α) => (a.set i (f i j (a i))).set j (g i j ((a.set i (f i j (a i))) j))) a k =
      if k = i then forLoop (i + 1) hi (fun j x => f i j x) (a k) else if i < k ∧ k < hi then g i k (a k) else a k := by
  induction hi with
  | zero =>
    rw [forLoop_self _ _ (Nat.zero_le _), forLoop_self _ _ (Nat.zero_le _), if_neg (by omega : ¬ (i < k ∧ k < 0))]
    simp
  | succ hi ih =>
    by_cases hl : i + 1 ≤ hi
    · rw [forLoop_succ _ _ hl, forLoop_succ _ _ hl]
      set b := forLoop (i + 1) hi (fun j (a : Arr α) => (a.set i (f i j (a i))).set j (g i j ((a.set i (f i j (a i))) j))) a
      by_cases h1 : k = i
      · rw [if_pos h1] at ih ⊢
        subst h1
        rw [← ih, Arr.set, if_neg (by omega), Arr.set, if_pos rfl]
      · rw [if_neg h1] at ih ⊢
        by_cases h2 : k = hi
        · subst h2
          rw [if_neg (by omega)] at ih
          rw [if_pos (by omega), Arr.set, if_pos rfl, Arr.set, if_neg h1, ih]
        · rw [Arr.set, if_neg h2, Arr.set, if_neg h1, ih]
          by_cases h3 : i < k ∧ k < hi
          · rw [if_pos h3, if_pos (by omega)]
          · rw [if_neg h3, if_neg (by omega)]
    · rw [forLoop_self _ _ (by omega), forLoop_self _ _ (by omega), if_neg (by omega : ¬ (i < k ∧ k < hi + 1))]
      simp

/-- what pair loops do to one entry -/
theorem pair_entry (f g : Nat → Nat → α → α) (n k : Nat) (a : Arr α) (hk : k < n) :
    forLoop 0 n (fun i a => forLoop (i + 1) n (fun j (a : Arr α) => (a.set i (f i j (a i))).set j (g i j ((a.set i (f i j (a i))) j))) a) a k =
      forLoop (k + 1) n (fun j x => f k j x) (forLoop 0 k (fun i x => g i k x) (a k)) := by
  have key : ∀ N, N ≤ n → forLoop 0 N (fun i a => forLoop (i + 1) n (fun j (a : Arr α) => (a.set i (f i j (a i))).set j (g i j ((a.set i (f i j (a i))) j))) a) a k =
      if N ≤ k then forLoop 0 N (fun i x => g i k x) (a k) else forLoop (k + 1) n (fun j x => f k j x) (forLoop 0 k (fun i x => g i k x) (a k)) := by
    intro N
    induction N with
    | zero => intro _; rw [if_pos (Nat.zero_le _)]; rfl
    | succ N ih =>
      intro hN
      have ih := ih (by omega)
      rw [forLoop_succ 0 N (Nat.zero_le _), inner_entry, ih]
      by_cases h1 : k = N
      · subst h1
        rw [if_pos rfl, if_pos le_rfl, if_neg (by omega)]
      · rw [if_neg h1]
        by_cases h2 : N + 1 ≤ k
        · rw [if_pos (by omega), if_pos (by omega), if_pos h2, forLoop_succ 0 N (Nat.zero_le _)]
        · rw [if_neg (by omega), if_neg (by omega), if_neg h2]
  rw [key n le_rfl, if_neg (by omega)]

end SpaceHub.Rounded
