import Verif.Model.Clock
import Verif.Proof.TwoSum
import Verif.Proof.SysBase
import Verif.Props.Time

/-
Lemmas for C91: rounding errors of the clock.
-/

set_option autoImplicit false

namespace SpaceHub.Clock
open SpaceHub SpaceHub.Comp SpaceHub.Spec

variable {p : Nat} {rnd : ℝ → ℝ}

/-- sum of the coefficients -/
def csum (cs : List ℚ) : ℝ := (cs.map fun c => (c : ℝ)).sum

/-- sum of the sizes of the coefficients -/
def cabs (cs : List ℚ) : ℝ := (cs.map fun c => |(c : ℝ)|).sum

theorem cabs_nonneg (cs : List ℚ) : 0 ≤ cabs cs := List.sum_nonneg (by simp)

theorem csum_cons (c : ℚ) (cs : List ℚ) : csum (c :: cs) = c + csum cs := by simp [csum]

theorem cabs_cons (c : ℚ) (cs : List ℚ) : cabs (c :: cs) = |(c : ℝ)| + cabs cs := by simp [cabs]

theorem unit_le (hp : 1 ≤ p) : (1:ℝ) / 2 ^ p ≤ 1 / 2 := by
  refine one_div_le_one_div_of_le (by norm_num) ?_
  simpa using pow_le_pow_right₀ (by norm_num : (1:ℝ) ≤ 2) hp

/-- relative error with a factor -/
theorem relU (N : Nearest p rnd) (hp : 1 ≤ p) (x : ℝ) : |rnd x - x| ≤ 1 / 2 ^ p * |x| := by
  have := N.rel hp x
  rwa [div_eq_mul_one_div, mul_comm] at this

theorem relU' (N : Nearest p rnd) (hp : 1 ≤ p) (x : ℝ) : |rnd x - x| ≤ 1 / 2 ^ p * |rnd x| := by
  have := N.rel' hp x
  rwa [div_eq_mul_one_div, mul_comm] at this

/-- the sub-step of a coefficient -/
theorem substep_error (N : Nearest p rnd) (hp : 1 ≤ p) (h : ℝ) (c : ℚ) :
    |substep rnd h c - c * h| ≤ 3 * (1 / 2 ^ p) * |(c : ℝ) * h| := by
  have hu := unit_le hp
  have hu0 : (0:ℝ) ≤ 1 / 2 ^ p := by positivity
  set u : ℝ := 1 / 2 ^ p
  have h1 : |rnd c - c| ≤ u * |(c : ℝ)| := relU N hp c
  have h2 : |rnd (rnd c * h) - rnd c * h| ≤ u * |rnd c * h| := relU N hp (rnd c * h)
  have h3 : |rnd c * h - c * h| ≤ u * |(c : ℝ) * h| := by
    rw [← sub_mul, abs_mul, abs_mul, ← mul_assoc]
    exact mul_le_mul_of_nonneg_right h1 (abs_nonneg h)
  have h4 : |rnd c * h| ≤ (1 + u) * |(c : ℝ) * h| := by
    have := abs_sub_abs_le_abs_sub (rnd c * h) (c * h)
    linarith
  have h5 : |substep rnd h c - c * h| ≤ |rnd (rnd c * h) - rnd c * h| + |rnd c * h - c * h| := abs_sub_le _ _ _
  have h6 : u * |rnd c * h| ≤ u * ((1 + u) * |(c : ℝ) * h|) := mul_le_mul_of_nonneg_left h4 hu0
  have h7 : u * u * |(c : ℝ) * h| ≤ u * |(c : ℝ) * h| := by
    refine mul_le_mul_of_nonneg_right ?_ (abs_nonneg _)
    nlinarith
  nlinarith

theorem advance_error_aux (N : Nearest p rnd) (hp : 1 ≤ p) (h B : ℝ) (cs : List ℚ) : ∀ (i : Nat) (t e : ℝ),
    |e| + cabs cs * |h| ≤ B → |t - e| ≤ 8 * i * (1 / 2 ^ p) * B → 8 * ((i : ℝ) + cs.length) * (1 / 2 ^ p) ≤ 1 →
    |advance rnd (plain rnd) cs h t - (e + csum cs * h)| ≤ 8 * ((i : ℝ) + cs.length) * (1 / 2 ^ p) * B := by
  induction cs with
  | nil => intro i t e _ h2 _; simpa [advance, csum] using h2
  | cons c cs ih =>
    intro i t e h1 h2 h3
    have hu0 : (0:ℝ) < 1 / 2 ^ p := by positivity
    have hsub := substep_error N hp h c
    have hnn := cabs_nonneg cs
    set u : ℝ := 1 / 2 ^ p
    set d := substep rnd h c
    rw [cabs_cons] at h1
    have hch : |(c : ℝ) * h| = |(c : ℝ)| * |h| := abs_mul _ _
    have hcs : 0 ≤ cabs cs * |h| := by positivity
    have he0 := abs_nonneg e
    have hchB : |e| + |(c : ℝ) * h| ≤ B := by rw [hch]; nlinarith
    have hB : 0 ≤ B := by linarith [abs_nonneg ((c : ℝ) * h)]
    have hlen : ((cs.length : ℕ) : ℝ) ≥ 0 := Nat.cast_nonneg _
    simp only [List.length_cons, Nat.cast_add, Nat.cast_one] at h3 ⊢
    have h3' : 8 * ((i : ℝ) + 1) * u ≤ 1 := by nlinarith
    have hx : |t + d - (e + c * h)| ≤ (8 * i + 3) * u * B := by
      have : t + d - (e + c * h) = (t - e) + (d - c * h) := by ring
      rw [this]
      have h4 : 3 * u * |(c : ℝ) * h| ≤ 3 * u * B :=
        mul_le_mul_of_nonneg_left (by linarith) (by positivity)
      have := abs_add_le (t - e) (d - c * h)
      nlinarith
    have hy : |t + d| ≤ 2 * B := by
      have h5 := abs_sub_abs_le_abs_sub (t + d) (e + c * h)
      have h6 := abs_add_le e (c * h)
      have h7 : (8 * (i : ℝ) + 3) * u * B ≤ 1 * B := by
        refine mul_le_mul_of_nonneg_right ?_ hB
        nlinarith
      linarith
    have hz : |rnd (t + d) - (e + c * h)| ≤ 8 * ((i + 1 : ℕ) : ℝ) * u * B := by
      have h8 := relU N hp (t + d)
      have h9 : u * |t + d| ≤ u * (2 * B) := mul_le_mul_of_nonneg_left hy hu0.le
      have h10 := abs_sub_le (rnd (t + d)) (t + d) (e + c * h)
      have h11 : (0:ℝ) ≤ u * B := by positivity
      push_cast
      nlinarith
    have := ih (i + 1) (rnd (t + d)) (e + c * h) (by
      have h6 := abs_add_le e (c * h)
      rw [hch] at h6
      nlinarith) hz (by push_cast; linarith)
    have ha : advance rnd (plain rnd) (c :: cs) h t = advance rnd (plain rnd) cs h (rnd (t + d)) := rfl
    rw [ha, csum_cons]
    have e1 : e + (c + csum cs) * h = e + c * h + csum cs * h := by ring
    rw [e1]
    push_cast at this
    have e2 : (i : ℝ) + (cs.length + 1) = i + 1 + cs.length := by ring
    rw [e2]; exact this

/-- The computed time after a step differs little from the exact one. -/
theorem advance_error (N : Nearest p rnd) (hp : 1 ≤ p) (h t B : ℝ) (cs : List ℚ) (hB : |t| + cabs cs * |h| ≤ B)
    (hn : 8 * (cs.length : ℝ) * (1 / 2 ^ p) ≤ 1) :
    |advance rnd (plain rnd) cs h t - (t + csum cs * h)| ≤ 8 * (cs.length : ℝ) * (1 / 2 ^ p) * B := by
  have := advance_error_aux N hp h B cs 0 t t hB (by simp) (by simpa using hn)
  simpa using this

/-! ### the test for the end -/

theorem rnd_nonneg (N : Nearest p rnd) {x : ℝ} (hx : 0 ≤ x) : 0 ≤ rnd x := by
  have h := N.nearest x 0 IsFloat.zero
  rw [zero_sub, abs_neg, abs_of_nonneg hx] at h
  linarith [(abs_le.1 h).1]

theorem quotient_error (N : Nearest p rnd) (hp : 1 ≤ p) {t T : ℝ} (hT : 0 < T) :
    |t - T| ≤ (1 + 1 / 2 ^ p) ^ 2 * (|rnd (rnd (t - T) / T)| * T) ∧
    |rnd (rnd (t - T) / T)| * T ≤ (1 + 1 / 2 ^ p) ^ 2 * |t - T| := by
  have h1 := relU' N hp (t - T)
  have h2 := relU' N hp (rnd (t - T) / T)
  have h1' := relU N hp (t - T)
  have h2' := relU N hp (rnd (t - T) / T)
  have hu0 : (0:ℝ) < 1 / 2 ^ p := by positivity
  set u : ℝ := 1 / 2 ^ p
  set a := rnd (t - T)
  set b := rnd (a / T)
  have e : |a / T| * T = |a| := by rw [abs_div, abs_of_pos hT, div_mul_cancel₀ _ hT.ne']
  have g1 : |t - T| ≤ (1 + u) * |a| := by
    have := abs_sub_abs_le_abs_sub (t - T) a
    rw [abs_sub_comm (t - T) a] at this
    linarith
  have g2 : |a / T| ≤ (1 + u) * |b| := by
    have := abs_sub_abs_le_abs_sub (a / T) b
    rw [abs_sub_comm (a / T) b] at this
    linarith
  have g3 : |a| ≤ (1 + u) * |t - T| := by
    have := abs_sub_abs_le_abs_sub a (t - T)
    linarith
  have g4 : |b| ≤ (1 + u) * |a / T| := by
    have := abs_sub_abs_le_abs_sub b (a / T)
    linarith
  constructor
  · have : |a| ≤ (1 + u) * |b| * T := by rw [← e]; exact mul_le_mul_of_nonneg_right g2 hT.le
    have := mul_le_mul_of_nonneg_left this (by linarith : (0:ℝ) ≤ 1 + u)
    calc _ ≤ _ := g1
      _ ≤ _ := this
      _ = _ := by ring
  · have h3 : |b| * T ≤ (1 + u) * |a| := by
      have := mul_le_mul_of_nonneg_right g4 hT.le
      rwa [mul_assoc, e] at this
    have := mul_le_mul_of_nonneg_left g3 (by linarith : (0:ℝ) ≤ 1 + u)
    calc _ ≤ _ := h3
      _ ≤ _ := this
      _ = _ := by ring

theorem notAtEnd_eq {t T rtol : ℝ} (hT : 0 < T) :
    notAtEnd rnd t T rtol = true ↔ rtol < |rnd (rnd (t - T) / T)| := by
  unfold notAtEnd
  rw [if_neg hT.ne']
  simp

theorem atEnd_of_close (N : Nearest p rnd) (hp : 1 ≤ p) {t T rtol ε : ℝ} (hT : 0 < T) (h : |t - T| ≤ ε * T)
    (hr : 4 * ε ≤ rtol) : notAtEnd rnd t T rtol = false := by
  rw [← Bool.not_eq_true, notAtEnd_eq hT, not_lt]
  have h1 := (quotient_error N hp (t := t) hT).2
  have hu := unit_le hp
  have hu0 : (0:ℝ) ≤ 1 / 2 ^ p := by positivity
  set u : ℝ := 1 / 2 ^ p
  have h2 : (1 + u) ^ 2 ≤ 4 := by nlinarith
  have h3 : (1 + u) ^ 2 * |t - T| ≤ 4 * (ε * T) :=
    mul_le_mul h2 h (abs_nonneg _) (by norm_num)
  have h4 : |rnd (rnd (t - T) / T)| * T ≤ rtol * T := by nlinarith
  exact le_of_mul_le_mul_right h4 hT

theorem close_of_atEnd (N : Nearest p rnd) (hp : 1 ≤ p) {t T rtol : ℝ} (hT : 0 < T) (h : notAtEnd rnd t T rtol = false) :
    |t - T| ≤ (1 + 1 / 2 ^ p) ^ 2 * (rtol * T) := by
  rw [← Bool.not_eq_true, notAtEnd_eq hT, not_lt] at h
  refine (quotient_error N hp (t := t) hT).1.trans ?_
  exact mul_le_mul_of_nonneg_left (mul_le_mul_of_nonneg_right h hT.le) (by positivity)

/-! ### the compensated clock -/

theorem rnd_bounds (N : Nearest p rnd) {x y : ℝ} (fy : IsFloat p y) : (y ≤ x → y ≤ rnd x) ∧ (x ≤ y → rnd x ≤ y) := by
  have := N.nearest x y fy
  constructor
  · intro h
    rw [abs_of_nonpos (a := y - x) (by linarith)] at this
    linarith [(abs_le.1 this).1]
  · intro h
    rw [abs_of_nonneg (a := y - x) (by linarith)] at this
    linarith [(abs_le.1 this).2]

/-- one addition to a compensated number that is not smaller than the operand -/
theorem kahan_step (N : Nearest p rnd) (hp : 4 ≤ p) {k : Num} {d : ℝ} (fk : IsFloat p k.real) (h0 : 0 ≤ k.real)
    (he : |k.err| ≤ 1 / 2 ^ p * k.real) (hd : 0 ≤ d) (hle : 2 * d ≤ k.real) :
    IsFloat p (Kahan.add rnd k d).real ∧ 2 * d ≤ (Kahan.add rnd k d).real ∧
    |(Kahan.add rnd k d).err| ≤ 1 / 2 ^ p * (Kahan.add rnd k d).real ∧
    |(Kahan.add rnd k d).real - (Kahan.add rnd k d).err - (k.real - k.err + d)| ≤ 1 / 2 ^ p * (d + 1 / 2 ^ p * k.real) := by
  have hu : (1:ℝ) / 2 ^ p ≤ 1 / 16 := by
    refine one_div_le_one_div_of_le (by norm_num) ?_
    calc (16:ℝ) = 2 ^ 4 := by norm_num
      _ ≤ 2 ^ p := pow_le_pow_right₀ (by norm_num) hp
  have hu0 : (0:ℝ) < 1 / 2 ^ p := by positivity
  have hp1 : 1 ≤ p := by omega
  have hx := relU N hp1 (d - k.err)
  have hfx := N.float (d - k.err)
  have hre : (Kahan.add rnd k d).real = rnd (k.real + rnd (d - k.err)) := rfl
  have her0 : (Kahan.add rnd k d).err = rnd (rnd (rnd (k.real + rnd (d - k.err)) - k.real) - rnd (d - k.err)) := rfl
  have hde : |d - k.err| ≤ d + 1 / 2 ^ p * k.real := by
    have := abs_sub d k.err
    rw [abs_of_nonneg hd] at this
    linarith
  have huk : 1 / 2 ^ p * k.real ≤ 1 / 16 * k.real := mul_le_mul_of_nonneg_right hu h0
  have hle2 : |rnd (d - k.err)| ≤ |k.real| := by
    refine N.abs_le_float fk (hde.trans ?_)
    rw [abs_of_nonneg h0]
    linarith
  obtain ⟨f1, f2⟩ := N.fast hp1 fk hfx hle2
  have her : (Kahan.add rnd k d).err = rnd (k.real + rnd (d - k.err)) - (k.real + rnd (d - k.err)) := by
    rw [her0, N.exact f1]
    have : rnd (k.real + rnd (d - k.err)) - k.real - rnd (d - k.err) =
        -(k.real + rnd (d - k.err) - rnd (k.real + rnd (d - k.err))) := by ring
    rw [this, N.exact f2.neg]; ring
  have hy := relU' N hp1 (k.real + rnd (d - k.err))
  have hy' := relU N hp1 (k.real + rnd (d - k.err))
  have hpos : 0 ≤ rnd (k.real + rnd (d - k.err)) := by
    refine rnd_nonneg N ?_
    have := (abs_le.1 hle2).1
    rw [abs_of_nonneg h0] at this
    linarith
  rw [hre, her]
  set u : ℝ := 1 / 2 ^ p
  set x := rnd (d - k.err)
  set r := rnd (k.real + x)
  refine ⟨N.float _, ?_, ?_, ?_⟩
  · by_cases hc : k.err ≤ d
    · have hx0 : 0 ≤ x := rnd_nonneg N (by linarith)
      have : k.real ≤ r := (rnd_bounds N fk).1 (by linarith)
      linarith
    · push Not at hc
      have h1 : d ≤ u * k.real := by linarith [(abs_le.1 he).2]
      have h2 : |d - k.err| ≤ u * k.real := by
        rw [abs_of_nonpos (by linarith)]
        linarith [(abs_le.1 he).2]
      have h3 : |x| ≤ 2 * (u * k.real) := by
        have h4 := abs_sub_abs_le_abs_sub x (d - k.err)
        have h5 : u * |d - k.err| ≤ 1 * |d - k.err| := mul_le_mul_of_nonneg_right (by linarith) (abs_nonneg _)
        linarith
      have h6 : k.real + x ≥ 3 / 4 * k.real := by
        have := (abs_le.1 h3).1
        linarith
      have h7 : |k.real + x| = k.real + x := abs_of_nonneg (by linarith)
      rw [h7] at hy'
      have h8 : u * (k.real + x) ≤ 1 / 16 * (k.real + x) := mul_le_mul_of_nonneg_right hu (by linarith)
      have := (abs_le.1 hy').1
      linarith
  · rwa [abs_of_nonneg hpos] at hy
  · have e1 : r - (r - (k.real + x)) - (k.real - k.err + d) = x - (d - k.err) := by ring
    rw [e1]
    exact hx.trans (mul_le_mul_of_nonneg_left hde hu0.le)

/-- two additions -/
theorem kahan_pair (N : Nearest p rnd) (hp : 4 ≤ p) {k : Num} {d : ℝ} (fk : IsFloat p k.real) (h0 : 0 ≤ k.real)
    (he : |k.err| ≤ 1 / 2 ^ p * k.real) (hd : 0 ≤ d) (hle : 2 * d ≤ k.real) :
    IsFloat p (Kahan.add rnd (Kahan.add rnd k d) d).real ∧ 2 * d ≤ (Kahan.add rnd (Kahan.add rnd k d) d).real ∧
    |(Kahan.add rnd (Kahan.add rnd k d) d).err| ≤ 1 / 2 ^ p * (Kahan.add rnd (Kahan.add rnd k d) d).real ∧
    |(Kahan.add rnd (Kahan.add rnd k d) d).real - (Kahan.add rnd (Kahan.add rnd k d) d).err - (k.real - k.err + 2 * d)| ≤
      1 / 2 ^ p * (2 * d + 4 * (1 / 2 ^ p * k.real)) := by
  have hu : (1:ℝ) / 2 ^ p ≤ 1 / 16 := by
    refine one_div_le_one_div_of_le (by norm_num) ?_
    calc (16:ℝ) = 2 ^ 4 := by norm_num
      _ ≤ 2 ^ p := pow_le_pow_right₀ (by norm_num) hp
  have hu0 : (0:ℝ) < 1 / 2 ^ p := by positivity
  obtain ⟨a1, a2, a3, a4⟩ := kahan_step N hp fk h0 he hd hle
  have a0 : 0 ≤ (Kahan.add rnd k d).real := by linarith
  obtain ⟨b1, b2, b3, b4⟩ := kahan_step N hp a1 a0 a3 hd a2
  refine ⟨b1, b2, b3, ?_⟩
  set k1 := Kahan.add rnd k d
  set k2 := Kahan.add rnd k1 d
  set u : ℝ := 1 / 2 ^ p
  have c1 : u * k1.real ≤ 1 / 16 * k1.real := mul_le_mul_of_nonneg_right hu a0
  have c2 : u * k.real ≤ 1 / 16 * k.real := mul_le_mul_of_nonneg_right hu h0
  have c3 : u * (d + u * k.real) ≤ 1 / 16 * (d + u * k.real) := mul_le_mul_of_nonneg_right hu (by positivity)
  have hk1 : k1.real ≤ 2 * k.real := by
    have := (abs_le.1 a4).2
    have := (abs_le.1 a3).2
    have := (abs_le.1 he).1
    linarith
  have e : k2.real - k2.err - (k.real - k.err + 2 * d) =
      (k2.real - k2.err - (k1.real - k1.err + d)) + (k1.real - k1.err - (k.real - k.err + d)) := by ring
  rw [e]
  refine (abs_add_le _ _).trans ((add_le_add b4 a4).trans ?_)
  rw [← mul_add]
  refine mul_le_mul_of_nonneg_left ?_ hu0.le
  have : u * k1.real ≤ u * (2 * k.real) := mul_le_mul_of_nonneg_left hk1 hu0.le
  have : 0 ≤ u * k.real := by positivity
  linarith

/-- from 0 the additions are exact -/
theorem kahan_zero (N : Nearest p rnd) {d : ℝ} (fd : IsFloat p d) (f2 : IsFloat p (2 * d)) :
    Kahan.add rnd (Kahan.add rnd (Num.of 0) d) d = Num.of (2 * d) := by
  have h1 : Kahan.add rnd (Num.of 0) d = Num.of d := by
    simp only [Kahan.add, Num.of, sub_zero, zero_add, N.exact fd, sub_self, N.exact IsFloat.zero]
  rw [h1]
  have e : d + d = 2 * d := by ring
  simp only [Kahan.add, Num.of, sub_zero, N.exact fd, e, N.exact f2]
  have e2 : 2 * d - d = d := by ring
  rw [e2, N.exact fd, sub_self, N.exact IsFloat.zero]

theorem IsFloat.scale {x : ℝ} (h : IsFloat p x) (n : ℤ) : IsFloat p (x * 2 ^ n) := by
  obtain ⟨m, e, hm, rfl⟩ := h
  exact ⟨m, e + n, hm, by rw [zpow_add₀ (by norm_num)]; ring⟩

theorem IsFloat.halve {x : ℝ} (h : IsFloat p x) : IsFloat p (x / 2) := by
  have := IsFloat.scale h (-1)
  rwa [zpow_neg_one] at this

/-- a step of the leap-frog with the compensated clock -/
theorem leap_comp (N : Nearest p rnd) (hp : 1 ≤ p) {h : ℝ} (fh : IsFloat p h) (k : Num) :
    advance rnd (compensated rnd) (drifts Integrator.symplectic2nd) h k = Kahan.add rnd (Kahan.add rnd k (h / 2)) (h / 2) := by
  have e1 : rnd (((1 / 2 : ℚ) : ℚ) : ℝ) = 1 / 2 := by
    have := N.exact (IsFloat.halve (by simpa using IsFloat.pow hp 0 : IsFloat p (1:ℝ)))
    push_cast
    exact this
  have e2 : substep rnd h (1 / 2) = h / 2 := by
    unfold substep
    rw [e1, show (1:ℝ) / 2 * h = h / 2 by ring]
    exact N.exact (IsFloat.halve fh)
  have e3 : drifts Integrator.symplectic2nd = [1 / 2, 1 / 2] := by norm_num [drifts, Integrator.symplectic2nd]
  rw [e3]
  change Kahan.add rnd (Kahan.add rnd k (substep rnd h (1 / 2))) (substep rnd h (1 / 2)) = _
  rw [e2]

end SpaceHub.Clock
