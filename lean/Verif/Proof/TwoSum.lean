import Verif.Spec.Rounding
import Mathlib.Tactic.Linarith
import Mathlib.Tactic.Ring
import Mathlib.Tactic.FieldSimp
import Mathlib.Tactic.Push
import Mathlib.Tactic.Positivity
import Mathlib.Tactic.NormNum
import Mathlib.Data.Int.Log
import Mathlib.Algebra.Order.Archimedean.Real.Basic
import Mathlib.Algebra.Order.Round

/-
Rounding to nearest: existence, exactness on floating-point numbers, and the error-free transformation behind the
compensated sums.
-/

set_option autoImplicit false

namespace SpaceHub.Spec

variable {p : Nat}

theorem IsFloat.neg {x : ℝ} (h : IsFloat p x) : IsFloat p (-x) := by
  obtain ⟨m, e, hm, rfl⟩ := h
  exact ⟨-m, e, by simpa using hm, by push_cast; ring⟩

theorem IsFloat.zero : IsFloat p 0 := ⟨0, 0, by simp, by simp⟩

/-- A number `m·2^e` whose significand is at most `2^p`. -/
theorem IsFloat.of_le (hp : 1 ≤ p) {m e : ℤ} (h : |m| ≤ 2 ^ p) : IsFloat p ((m : ℝ) * (2 : ℝ) ^ e) := by
  rcases lt_or_eq_of_le h with h | h
  · exact ⟨m, e, h, rfl⟩
  · obtain ⟨q, rfl⟩ : ∃ q, p = q + 1 := ⟨p - 1, by omega⟩
    have h2 : (2 : ℤ) ∣ m := by
      rw [← dvd_abs, h]; exact dvd_pow_self 2 (by omega)
    obtain ⟨k, rfl⟩ := h2
    refine ⟨k, e + 1, ?_, ?_⟩
    · rw [abs_mul, pow_succ] at h
      have : |k| = 2 ^ q := by
        have : |(2:ℤ)| = 2 := by norm_num
        rw [this] at h; linarith
      rw [this, pow_succ]
      have : (0:ℤ) < 2 ^ q := by positivity
      linarith
    · rw [zpow_add₀ (by norm_num)]; push_cast; ring

theorem IsFloat.pow (hp : 1 ≤ p) (e : ℤ) : IsFloat p ((2 : ℝ) ^ e) := by
  have := IsFloat.of_le hp (m := 1) (e := e) (by
    have : (1:ℤ) ≤ 2 ^ p := by exact_mod_cast Nat.one_le_two_pow
    simpa using this)
  simpa using this

/-- Rewriting with a smaller exponent. -/
theorem shift (m : ℤ) {e e' : ℤ} (h : e ≤ e') :
    (m : ℝ) * (2 : ℝ) ^ e' = ((m * 2 ^ (e' - e).toNat : ℤ) : ℝ) * (2 : ℝ) ^ e := by
  have : (2 : ℝ) ^ e' = (2 : ℝ) ^ (e' - e).toNat * (2 : ℝ) ^ e := by
    rw [← zpow_natCast, Int.toNat_of_nonneg (by omega), ← zpow_add₀ (by norm_num)]
    congr 1; ring
  rw [this]; push_cast; ring

namespace Nearest
variable {rnd : ℝ → ℝ}

theorem exact (N : Nearest p rnd) {x : ℝ} (h : IsFloat p x) : rnd x = x := by
  have := N.nearest x x h
  simp at this
  linarith [sub_eq_zero.1 this]

/-- The rounded value of a number of size at least `2^e` has at least that size. -/
theorem abs_ge (N : Nearest p rnd) (hp : 1 ≤ p) {x : ℝ} {e : ℤ} (h : (2 : ℝ) ^ e ≤ |x|) : (2 : ℝ) ^ e ≤ |rnd x| := by
  by_contra hc
  push Not at hc
  have hpos : (0:ℝ) < (2:ℝ) ^ e := by positivity
  rcases le_total 0 x with hx | hx
  · rw [abs_of_nonneg hx] at h
    have h1 := N.nearest x _ (IsFloat.pow hp e)
    rw [abs_sub_comm, abs_sub_comm (2 ^ e : ℝ)] at h1
    have h2 := abs_lt.1 hc
    rw [abs_of_pos (by linarith), abs_of_nonneg (by linarith)] at h1
    linarith
  · rw [abs_of_nonpos hx] at h
    have h1 := N.nearest x _ (IsFloat.pow hp e).neg
    have h2 := abs_lt.1 hc
    rw [abs_of_pos (by linarith), abs_of_nonneg (by linarith)] at h1
    linarith

/-- The rounded value of a large number is a multiple of a power of two. -/
theorem multiple_of_le (N : Nearest p rnd) (hp : 1 ≤ p) {x : ℝ} {e : ℤ} (h : (2 : ℝ) ^ ((p : ℤ) + e) ≤ |x|) :
    ∃ m : ℤ, rnd x = (m : ℝ) * 2 ^ (e + 1) := by
  have h1 := N.abs_ge hp h
  obtain ⟨m, e', hm, hr⟩ := N.float x
  have he : e + 1 ≤ e' := by
    by_contra hc
    have hc : e' ≤ e := by omega
    rw [hr, abs_mul, abs_of_pos (by positivity : (0:ℝ) < 2 ^ e')] at h1
    have : |(m : ℝ)| * 2 ^ e' < 2 ^ p * 2 ^ e' := by
      refine mul_lt_mul_of_pos_right ?_ (by positivity)
      exact_mod_cast hm
    have h2 : (2:ℝ) ^ p * 2 ^ e' ≤ 2 ^ ((p:ℤ) + e) := by
      rw [← zpow_natCast, ← zpow_add₀ (by norm_num)]
      exact zpow_le_zpow_right₀ (by norm_num) (by omega)
    linarith
  exact ⟨_, by rw [hr, shift m he]⟩

/-- Rounding keeps multiples of a power of two: a number that is not representable is rounded to a multiple of the next
power. -/
theorem multiple (N : Nearest p rnd) (hp : 1 ≤ p) (k e : ℤ) (h : ¬ |k| < 2 ^ p) :
    ∃ m : ℤ, rnd ((k : ℝ) * 2 ^ e) = (m : ℝ) * 2 ^ (e + 1) := by
  push Not at h
  refine N.multiple_of_le hp ?_
  rw [zpow_add₀ (by norm_num), abs_mul, abs_of_pos (by positivity : (0:ℝ) < 2 ^ e)]
  refine mul_le_mul_of_nonneg_right ?_ (by positivity)
  rw [zpow_natCast]
  exact_mod_cast h

/-- Two floating-point numbers, the smaller one with the smaller exponent. -/
theorem align {a b : ℝ} (ha : IsFloat p a) (hb : IsFloat p b) (h : |b| ≤ |a|) :
    ∃ A B e f : ℤ, |A| < 2 ^ p ∧ |B| < 2 ^ p ∧ f ≤ e ∧ a = A * (2:ℝ) ^ e ∧ b = B * (2:ℝ) ^ f := by
  obtain ⟨A, e, hA, rfl⟩ := ha
  obtain ⟨B, f, hB, rfl⟩ := hb
  by_cases hf : f ≤ e
  · exact ⟨A, B, e, f, hA, hB, hf, rfl, rfl⟩
  · have hs := shift B (show e ≤ f by omega)
    refine ⟨A, B * 2 ^ (f - e).toNat, e, e, hA, ?_, le_refl _, rfl, hs⟩
    rw [hs, abs_mul, abs_mul, mul_le_mul_iff_left₀ (by positivity)] at h
    have : |B * 2 ^ (f - e).toNat| ≤ |A| := by exact_mod_cast h
    omega

/-- The error of a rounded sum is a floating-point number, and so is the difference of the rounded sum and the larger
summand. -/
theorem fast (N : Nearest p rnd) (hp : 1 ≤ p) {a b : ℝ} (ha : IsFloat p a) (hb : IsFloat p b) (h : |b| ≤ |a|) :
    IsFloat p (rnd (a + b) - a) ∧ IsFloat p (a + b - rnd (a + b)) := by
  have hna := N.nearest (a + b) a ha
  have hnb := N.nearest (a + b) b hb
  obtain ⟨A, B, e, f, hA, hB, hf, rfl, rfl⟩ := align ha hb h
  set K : ℤ := A * 2 ^ (e - f).toNat + B with hK
  have hsum : (A:ℝ) * 2 ^ e + B * 2 ^ f = (K : ℝ) * 2 ^ f := by
    rw [shift A hf, hK]; push_cast; ring
  have hpf : (0:ℝ) < 2 ^ f := by positivity
  by_cases hk : |K| < 2 ^ p
  · have hx := N.exact (x := (K:ℝ) * 2 ^ f) ⟨K, f, hk, rfl⟩
    rw [hsum, hx, ← hsum]
    exact ⟨by simpa using hb, by simpa using IsFloat.zero⟩
  · obtain ⟨m, hm⟩ := N.multiple hp K f hk
    rw [hsum, hm] at hna
    rw [hsum, hm]
    have hm' : (m:ℝ) * 2 ^ (f + 1) = ((2 * m : ℤ) : ℝ) * 2 ^ f := by
      rw [zpow_add₀ (by norm_num)]; push_cast; ring
    have herr : |(2 * m - K : ℤ)| ≤ |B| := by
      have h1 : |(m:ℝ) * 2 ^ (f + 1) - K * 2 ^ f| ≤ |(B:ℝ) * 2 ^ f| := by
        refine hna.trans (le_of_eq ?_)
        rw [← hsum, abs_sub_comm]; congr 1; ring
      rw [hm', ← sub_mul, abs_mul, abs_mul, mul_le_mul_iff_left₀ (by positivity)] at h1
      exact_mod_cast h1
    constructor
    · by_cases hef : f = e
      · subst hef
        have hz : (m:ℝ) * 2 ^ (f + 1) - A * 2 ^ f = ((2 * m - A : ℤ) : ℝ) * 2 ^ f := by
          rw [hm']; push_cast; ring
        rw [hz]
        refine IsFloat.of_le hp ?_
        have hKe : K = A + B := by simp [hK]
        have hKl : |K| < 2 * 2 ^ p := by
          have := abs_add_le A B
          rw [hKe]; linarith
        have h1 : |2 * m - K| ≤ 1 := by
          -- the even neighbour of `K` is a floating-point number
          have hfl : ∀ q : ℤ, |2 * q| ≤ |K| → |(2 * m - K : ℤ)| ≤ |2 * q - K| := by
            intro q hq
            have hy : IsFloat p ((q:ℝ) * 2 ^ (f + 1)) := by
              refine ⟨q, f + 1, ?_, rfl⟩
              rw [abs_mul] at hq
              have : |(2:ℤ)| = 2 := by norm_num
              rw [this] at hq
              linarith
            have h2 := N.nearest ((K:ℝ) * 2 ^ f) _ hy
            have hq' : (q:ℝ) * 2 ^ (f + 1) = ((2 * q : ℤ) : ℝ) * 2 ^ f := by
              rw [zpow_add₀ (by norm_num)]; push_cast; ring
            rw [hm, hm', hq', ← sub_mul, ← sub_mul, abs_mul, abs_mul, mul_le_mul_iff_left₀ (by positivity)] at h2
            exact_mod_cast h2
          rcases le_total 0 K with hs | hs
          · have := hfl (K / 2) (by rw [abs_of_nonneg hs, abs_of_nonneg (by omega)]; omega)
            refine this.trans ?_
            rw [abs_le]; constructor <;> omega
          · have := hfl (-((-K) / 2)) (by rw [abs_of_nonpos hs, abs_of_nonpos (by omega)]; omega)
            refine this.trans ?_
            rw [abs_le]; constructor <;> omega
        have h3 : 2 * m - A = (2 * m - K) + B := by rw [hKe]; ring
        rw [h3]
        have := abs_add_le (2 * m - K) B
        omega
      · have hle : f + 1 ≤ e := by omega
        have hz : (m:ℝ) * 2 ^ (f + 1) - A * 2 ^ e = ((m - A * 2 ^ (e - (f + 1)).toNat : ℤ) : ℝ) * 2 ^ (f + 1) := by
          rw [shift A hle]; push_cast; ring
        rw [hz]
        refine IsFloat.of_le hp ?_
        set z : ℤ := m - A * 2 ^ (e - (f + 1)).toNat with hzd
        have h2 : 2 * z = (2 * m - K) + B := by
          have : (2:ℤ) ^ (e - f).toNat = 2 * 2 ^ (e - (f + 1)).toNat := by
            have : (e - f).toNat = (e - (f + 1)).toNat + 1 := by omega
            rw [this, pow_succ]; ring
          rw [hzd, hK, this]; ring
        have h3 := abs_add_le (2 * m - K) B
        rw [← h2, abs_mul] at h3
        have : |(2:ℤ)| = 2 := by norm_num
        rw [this] at h3
        omega
    · have hz : (K:ℝ) * 2 ^ f - m * 2 ^ (f + 1) = ((K - 2 * m : ℤ) : ℝ) * 2 ^ f := by
        rw [hm']; push_cast; ring
      rw [hz]
      refine ⟨_, _, ?_, rfl⟩
      rw [abs_sub_comm]; omega

/-- Relative error of rounding, against the number and against the rounded number. -/
theorem rel_both (N : Nearest p rnd) (hp : 1 ≤ p) (x : ℝ) : |rnd x - x| ≤ |x| / 2 ^ p ∧ |rnd x - x| ≤ |rnd x| / 2 ^ p := by
  by_cases hx : x = 0
  · subst hx; rw [N.exact IsFloat.zero]; simp
  have hpos : 0 < |x| := abs_pos.2 hx
  set l := Int.log 2 |x| with hl
  have h1 : (2:ℝ) ^ l ≤ |x| := by simpa using Int.zpow_log_le_self (b := 2) (by norm_num) hpos
  have h2 : |x| < (2:ℝ) ^ (l + 1) := by simpa using Int.lt_zpow_succ_log_self (b := 2) (by norm_num) |x|
  set e : ℤ := l + 1 - p with he
  have hpe : (0:ℝ) < 2 ^ e := by positivity
  set k := round (x / 2 ^ e) with hk
  have hle : |k| ≤ 2 ^ p := by
    have hxe : |x / 2 ^ e| < 2 ^ p := by
      rw [abs_div, abs_of_pos hpe, div_lt_iff₀ hpe]
      have : (2:ℝ) ^ p * 2 ^ e = 2 ^ (l + 1) := by
        rw [← zpow_natCast, ← zpow_add₀ (by norm_num)]; congr 1; omega
      rw [this]; exact h2
    have hr := abs_sub_round (x / 2 ^ e)
    rw [← hk] at hr
    have h3 : |(k:ℝ)| < 2 ^ p + 1 := by
      have : (k:ℝ) = x / 2 ^ e - (x / 2 ^ e - k) := by ring
      rw [this]
      have := abs_sub (x / 2 ^ e) (x / 2 ^ e - k)
      linarith
    have : |k| < 2 ^ p + 1 := by exact_mod_cast h3
    omega
  have hy := N.nearest x _ (IsFloat.of_le hp (m := k) (e := e) hle)
  have h5 := N.abs_ge hp h1
  suffices hs : |rnd x - x| * 2 ^ p ≤ 2 ^ l by
    rw [le_div_iff₀ (by positivity), le_div_iff₀ (by positivity)]
    exact ⟨hs.trans h1, hs.trans h5⟩
  refine (mul_le_mul_of_nonneg_right hy (by positivity)).trans ?_
  have hxx : (k:ℝ) * 2 ^ e - x = -(x / 2 ^ e - k) * 2 ^ e := by field_simp; ring
  rw [hxx, abs_mul, abs_neg, abs_of_pos hpe]
  have hr := abs_sub_round (x / 2 ^ e)
  rw [← hk] at hr
  have h4 : (2:ℝ) ^ e * 2 ^ p = 2 * 2 ^ l := by
    rw [← zpow_natCast, ← zpow_add₀ (by norm_num), ← zpow_one_add₀ (by norm_num)]; congr 1; omega
  rw [mul_assoc, h4]
  have := mul_le_mul_of_nonneg_right hr (by positivity : (0:ℝ) ≤ 2 * 2 ^ l)
  linarith

theorem rel (N : Nearest p rnd) (hp : 1 ≤ p) (x : ℝ) : |rnd x - x| ≤ |x| / 2 ^ p := (N.rel_both hp x).1

theorem rel' (N : Nearest p rnd) (hp : 1 ≤ p) (x : ℝ) : |rnd x - x| ≤ |rnd x| / 2 ^ p := (N.rel_both hp x).2

/-- Rounding does not leave an interval with floating-point ends. -/
theorem abs_le_float (N : Nearest p rnd) {x y : ℝ} (hy : IsFloat p y) (h : |x| ≤ |y|) : |rnd x| ≤ |y| := by
  have h1 : IsFloat p |y| := by
    rcases le_total 0 y with hs | hs
    · rwa [abs_of_nonneg hs]
    · rw [abs_of_nonpos hs]; exact hy.neg
  have h2 := N.nearest x _ h1
  have h3 := N.nearest x _ h1.neg
  have h4 := abs_le.1 h
  rw [abs_of_nonneg (a := |y| - x) (by linarith)] at h2
  rw [abs_of_nonpos (a := -|y| - x) (by linarith)] at h3
  have h5 := abs_le.1 h2
  have h6 := abs_le.1 h3
  rw [abs_le]; constructor <;> linarith

end Nearest

/-- Scale, round to an integer by `r`, scale back. -/
noncomputable def roundWith (r : ℝ → ℤ) (p : Nat) (x : ℝ) : ℝ :=
  (r (x / 2 ^ (Int.log 2 |x| + 1 - (p : ℤ))) : ℝ) * 2 ^ (Int.log 2 |x| + 1 - (p : ℤ))

/-- The rounding of the examples: ties upwards. -/
noncomputable def roundTo (p : Nat) : ℝ → ℝ := roundWith round p

/-- Rounding to nearest exists for every precision and every rule for ties. -/
theorem roundWith_nearest {r : ℝ → ℤ} (hr : ∀ x, |x - r x| ≤ 1 / 2) (hp : 1 ≤ p) : Nearest p (roundWith r p) := by
  have hle : ∀ (x : ℝ) (q : ℤ), |x - r x| ≤ |x - q| := by
    intro x q
    by_cases h : r x = q
    · rw [h]
    · have h1 : (1:ℝ) ≤ |(q:ℝ) - r x| := by
        have : (1:ℤ) ≤ |q - r x| := Int.one_le_abs (sub_ne_zero.2 fun e => h e.symm)
        exact_mod_cast this
      have h2 := abs_sub_le (q:ℝ) x (r x)
      rw [abs_sub_comm (q:ℝ) x] at h2
      linarith [hr x]
  have hz : r 0 = 0 := by
    have h := hr 0
    rw [zero_sub, abs_neg] at h
    by_contra hc
    have : (1:ℤ) ≤ |r 0| := Int.one_le_abs hc
    have : (1:ℝ) ≤ |(r 0 : ℝ)| := by exact_mod_cast this
    linarith
  have key : ∀ x : ℝ, x ≠ 0 → (2:ℝ) ^ Int.log 2 |x| ≤ |x| ∧ |x| < (2:ℝ) ^ (Int.log 2 |x| + 1) := fun x hx =>
    ⟨by simpa using Int.zpow_log_le_self (b := 2) (by norm_num) (abs_pos.2 hx),
     by simpa using Int.lt_zpow_succ_log_self (b := 2) (by norm_num) |x|⟩
  constructor
  · intro x
    by_cases hx : x = 0
    · subst hx; simpa [roundWith, hz] using IsFloat.zero
    obtain ⟨h1, h2⟩ := key x hx
    unfold roundWith
    set e : ℤ := Int.log 2 |x| + 1 - p with he
    have hpe : (0:ℝ) < 2 ^ e := by positivity
    refine IsFloat.of_le hp ?_
    have hxe : |x / 2 ^ e| < 2 ^ p := by
      rw [abs_div, abs_of_pos hpe, div_lt_iff₀ hpe]
      have : (2:ℝ) ^ p * 2 ^ e = 2 ^ (Int.log 2 |x| + 1) := by
        rw [← zpow_natCast, ← zpow_add₀ (by norm_num)]; congr 1; omega
      rw [this]; exact h2
    have hr := hr (x / 2 ^ e)
    set k := r (x / 2 ^ e) with hk
    have h3 : |(k:ℝ)| < 2 ^ p + 1 := by
      have : (k:ℝ) = x / 2 ^ e - (x / 2 ^ e - k) := by ring
      rw [this]
      have := abs_sub (x / 2 ^ e) (x / 2 ^ e - k)
      linarith
    have : |k| < 2 ^ p + 1 := by exact_mod_cast h3
    omega
  · rintro x y ⟨m, f, hm, rfl⟩
    by_cases hx : x = 0
    · subst hx
      simp only [roundWith, zero_div, hz, Int.cast_zero, zero_mul, sub_zero, abs_zero]
      exact abs_nonneg _
    obtain ⟨h1, h2⟩ := key x hx
    unfold roundWith
    set e : ℤ := Int.log 2 |x| + 1 - p with he
    have hpe : (0:ℝ) < 2 ^ e := by positivity
    -- nearest among the multiples of `2^e`
    have hmul : ∀ q : ℤ, |(r (x / 2 ^ e) : ℝ) * 2 ^ e - x| ≤ |(q:ℝ) * 2 ^ e - x| := by
      intro q
      have h3 := hle (x / 2 ^ e) q
      have h4 : ∀ z : ℝ, |z * 2 ^ e - x| = |x / 2 ^ e - z| * 2 ^ e := by
        intro z
        have : z * 2 ^ e - x = -(x / 2 ^ e - z) * 2 ^ e := by field_simp; ring
        rw [this, abs_mul, abs_neg, abs_of_pos hpe]
      rw [h4, h4]
      exact mul_le_mul_of_nonneg_right h3 hpe.le
    by_cases hf : e ≤ f
    · rw [shift m hf]; exact hmul _
    · -- the number is smaller than a multiple of `2^e` of the size of `x`
      have hpw : (2:ℝ) ^ Int.log 2 |x| = ((2 ^ (p - 1) : ℤ) : ℝ) * 2 ^ e := by
        push_cast
        rw [← zpow_natCast, ← zpow_add₀ (by norm_num)]; congr 1; push_cast [Nat.cast_sub hp]; omega
      have hsmall : |(m:ℝ) * 2 ^ f| < 2 ^ Int.log 2 |x| := by
        rw [abs_mul, abs_of_pos (by positivity : (0:ℝ) < 2 ^ f)]
        have hmr : |(m:ℝ)| < 2 ^ p := by exact_mod_cast hm
        calc |(m:ℝ)| * 2 ^ f < 2 ^ p * 2 ^ f := mul_lt_mul_of_pos_right hmr (by positivity)
          _ = 2 ^ ((p:ℤ) + f) := by rw [zpow_add₀ (by norm_num), zpow_natCast]
          _ ≤ _ := zpow_le_zpow_right₀ (by norm_num) (by omega)
      have hab := abs_lt.1 hsmall
      rcases le_total 0 x with hs | hs
      · refine (hmul (2 ^ (p - 1))).trans ?_
        rw [← hpw]
        rw [abs_of_nonneg hs] at h1 hab ⊢
        rw [abs_of_nonpos (by linarith), abs_of_nonpos (by linarith)]
        linarith
      · refine (hmul (-2 ^ (p - 1))).trans ?_
        have hpw' : (((-2 ^ (p - 1) : ℤ)) : ℝ) * 2 ^ e = -(2:ℝ) ^ Int.log 2 |x| := by
          rw [hpw]; push_cast; ring
        rw [hpw']
        rw [abs_of_nonpos hs] at h1 hab ⊢
        rw [abs_of_nonneg (by linarith), abs_of_nonneg (by linarith)]
        linarith

theorem roundTo_nearest (hp : 1 ≤ p) : Nearest p (roundTo p) := roundWith_nearest abs_sub_round hp

/-- Integers: ties to even. -/
noncomputable def roundEven (x : ℝ) : ℤ := if Int.fract x = 1 / 2 ∧ Even ⌊x⌋ then ⌊x⌋ else round x

theorem roundEven_near (x : ℝ) : |x - roundEven x| ≤ 1 / 2 := by
  unfold roundEven
  split_ifs with h
  · have : x - ⌊x⌋ = Int.fract x := rfl
    rw [this, h.1]; norm_num
  · exact abs_sub_round x

/-- The default rounding of IEEE arithmetic. -/
theorem roundEven_nearest (hp : 1 ≤ p) : Nearest p (roundWith roundEven p) := roundWith_nearest roundEven_near hp

theorem roundEven_tiesEven (hp : 1 ≤ p) : TiesEven p (roundWith roundEven p) := by
  intro m e h1 h2
  have hm : (0:ℝ) < m := by
    have : (0:ℤ) < m := lt_of_lt_of_le (by positivity) h1
    exact_mod_cast this
  have hx : (0:ℝ) < ((m:ℝ) + 1 / 2) * 2 ^ e := by positivity
  have hlog : Int.log 2 |((m:ℝ) + 1 / 2) * 2 ^ e| + 1 - p = e := by
    have : Int.log 2 |((m:ℝ) + 1 / 2) * 2 ^ e| = (p:ℤ) - 1 + e := by
      have hp1 : ((p - 1 : ℕ) : ℤ) = (p:ℤ) - 1 := by push_cast [Nat.cast_sub hp]; ring
      have hm1 : ((2:ℝ)) ^ (p - 1) ≤ m := by exact_mod_cast h1
      have hm2 : (m:ℝ) + 1 ≤ (2:ℝ) ^ p := by exact_mod_cast h2
      have g1 : (2:ℝ) ^ ((p:ℤ) - 1 + e) ≤ |((m:ℝ) + 1 / 2) * 2 ^ e| := by
        rw [abs_of_pos hx, zpow_add₀ (by norm_num), ← hp1, zpow_natCast]
        exact mul_le_mul_of_nonneg_right (by linarith) (by positivity)
      have g2 : |((m:ℝ) + 1 / 2) * 2 ^ e| < (2:ℝ) ^ ((p:ℤ) - 1 + e + 1) := by
        have : (p:ℤ) - 1 + e + 1 = p + e := by ring
        rw [abs_of_pos hx, this, zpow_add₀ (by norm_num), zpow_natCast]
        exact mul_lt_mul_of_pos_right (by linarith) (by positivity)
      have a1 := Int.zpow_log_le_self (b := 2) (r := |((m:ℝ) + 1 / 2) * 2 ^ e|) (by norm_num) (by rwa [abs_of_pos hx])
      have a2 := Int.lt_zpow_succ_log_self (b := 2) (by norm_num) |((m:ℝ) + 1 / 2) * 2 ^ e|
      push_cast at a1 a2
      have b1 := (zpow_lt_zpow_iff_right₀ (by norm_num : (1:ℝ) < 2)).1 (lt_of_le_of_lt g1 a2)
      have b2 := (zpow_lt_zpow_iff_right₀ (by norm_num : (1:ℝ) < 2)).1 (lt_of_le_of_lt a1 g2)
      omega
    omega
  unfold roundWith
  rw [hlog, mul_div_cancel_right₀ _ (by positivity : (2:ℝ) ^ e ≠ 0)]
  have hfl : ⌊(m:ℝ) + 1 / 2⌋ = m := by rw [Int.floor_eq_iff]; constructor <;> linarith
  have hfr : Int.fract ((m:ℝ) + 1 / 2) = 1 / 2 := by unfold Int.fract; rw [hfl]; ring
  have hro : round ((m:ℝ) + 1 / 2) = m + 1 := by
    rw [round_eq, Int.floor_eq_iff]; push_cast; constructor <;> linarith
  unfold roundEven
  rw [hfl, hfr, hro]
  by_cases he : Even m <;> simp [he]

end SpaceHub.Spec
