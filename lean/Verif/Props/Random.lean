import Verif.Model.Random
import Verif.Proof.SysBase
import Mathlib.Analysis.SpecialFunctions.Pow.Real

/-
C46: truncated draws.  C78: draws by a law.
-/

set_option autoImplicit false

namespace SpaceHub.Props
open SpaceHub Orbit Random

/-- A number (not NaN) in the closed interval. -/
def InBounds (low high : ℝ) (x : Draw) : Prop := ∃ r, x = some r ∧ low ≤ r ∧ r ≤ high

/-- `x` is the first value of the stream `f`, from place `n` on, that satisfies `P`, and `m` is its place. -/
def FirstWith (P : Draw → Prop) (f : Nat → Draw) (n m : Nat) (x : Draw) : Prop :=
  n ≤ m ∧ f m = x ∧ P x ∧ ∀ j, n ≤ j → j < m → ¬ P (f j)

theorem within_iff {low high : ℝ} {x : Draw} : within low high x = true ↔ InBounds low high x := by
  cases x <;> simp [within, InBounds]

theorem firstWith_step {P : Draw → Prop} {f : Nat → Draw} {n m : Nat} {x : Draw} (h : ¬ P (f n)) :
    FirstWith P f (n + 1) m x ↔ FirstWith P f n m x := by
  constructor
  · rintro ⟨h1, h2, h3, h4⟩
    refine ⟨by omega, h2, h3, fun j hj hjm => ?_⟩
    by_cases e : j = n
    · rw [e]; exact h
    · exact h4 j (by omega) hjm
  · rintro ⟨h1, h2, h3, h4⟩
    have : n ≠ m := fun e => h (by rw [e, h2]; exact h3)
    exact ⟨by omega, h2, h3, fun j hj hjm => h4 j (by omega) hjm⟩

theorem firstWith_here {P : Draw → Prop} {f : Nat → Draw} {n m : Nat} {x : Draw} (h : P (f n)) :
    FirstWith P f n m x ↔ m = n ∧ x = f n := by
  constructor
  · rintro ⟨h1, h2, h3, h4⟩
    have : m = n := by
      by_contra hc
      exact h4 n le_rfl (by omega) h
    exact ⟨this, by rw [← h2, this]⟩
  · rintro ⟨rfl, rfl⟩
    exact ⟨le_rfl, rfl, h, fun j h1 h2 => absurd h1 (by omega)⟩

/-- A loop that looks at one value after the other of a stream, `d` places per value. -/
theorem search {P : Draw → Prop} [DecidablePred P] (f : Nat → Draw) (step : Nat → Nat) (loop : Nat → Nat → Res (Draw × Nat))
    (h0 : ∀ n, loop 0 n = .diverge)
    (h1 : ∀ fuel n, loop (fuel + 1) n = if P (f n) then .ok (f n, step n) else loop fuel (n + 1)) (n : Nat) :
    (∀ x p, (∃ fuel, loop fuel n = .ok (x, p)) ↔ ∃ m, FirstWith P f n m x ∧ p = step m) ∧
    ((∀ m, n ≤ m → ¬ P (f m)) → ∀ fuel, loop fuel n = .diverge) := by
  constructor
  · intro x p
    constructor
    · rintro ⟨fuel, h⟩
      induction fuel generalizing n with
      | zero => rw [h0] at h; cases h
      | succ fuel ih =>
        rw [h1] at h
        by_cases hc : P (f n)
        · rw [if_pos hc] at h
          cases h
          exact ⟨n, (firstWith_here hc).2 ⟨rfl, rfl⟩, rfl⟩
        · rw [if_neg hc] at h
          obtain ⟨m, h3, h4⟩ := ih (n + 1) h
          exact ⟨m, (firstWith_step hc).1 h3, h4⟩
    · rintro ⟨m, h, rfl⟩
      obtain ⟨d, rfl⟩ := Nat.exists_eq_add_of_le h.1
      refine ⟨d + 1, ?_⟩
      induction d generalizing n with
      | zero =>
        obtain ⟨-, h2, h3, -⟩ := h
        rw [h1, if_pos (by rw [add_zero] at h2; rw [h2]; exact h3)]
        rw [add_zero] at h2 ⊢
        rw [h2]
      | succ d ih =>
        have hn : ¬ P (f n) := h.2.2.2 n le_rfl (by omega)
        rw [h1, if_neg hn]
        have := ih (n + 1) ((firstWith_step hn).2 (by rwa [show n + 1 + d = n + (d + 1) by omega]))
        rwa [show n + 1 + d = n + (d + 1) by omega] at this
  · intro hall fuel
    induction fuel generalizing n with
    | zero => exact h0 n
    | succ fuel ih =>
      rw [h1, if_neg (hall n le_rfl)]
      exact ih (n + 1) fun m hm => hall m (by omega)

/-! ### C46 -/

/-- `TruncatedNormal` returns the first number of the stream that lies within the bounds and has consumed the stream up to it; it returns
nothing if there is none. -/
theorem C46_truncated_normal (low high : ℝ) (s : Nat → Draw) (n : Nat) :
    (∀ x p, (∃ fuel, truncatedNormal low high s fuel n = .ok (x, p)) ↔ ∃ m, FirstWith (InBounds low high) s n m x ∧ p = m + 1) ∧
    ((∀ m, n ≤ m → ¬ InBounds low high (s m)) → ∀ fuel, truncatedNormal low high s fuel n = .diverge) := by
  classical
  apply search s (fun n => n + 1) (truncatedNormal low high s) (fun _ => rfl)
  intro fuel n
  simp only [truncatedNormal, within_iff]

/-- Likewise `TruncatedMaxwellian`, whose numbers are the lengths of successive triples of the stream. -/
theorem C46_truncated_maxwellian (low high : ℝ) (s : Nat → Draw) :
    (∀ x p, (∃ fuel, truncatedMaxwellian low high s fuel 0 = .ok (x, p)) ↔
      ∃ m, FirstWith (InBounds low high) (fun i => (maxwellian s (3 * i)).1) 0 m x ∧ p = 3 * m + 3) ∧
    ((∀ m, ¬ InBounds low high (maxwellian s (3 * m)).1) → ∀ fuel, truncatedMaxwellian low high s fuel 0 = .diverge) := by
  classical
  have := search (P := InBounds low high) (fun i => (maxwellian s (3 * i)).1) (fun i => 3 * i + 3)
    (fun fuel i => truncatedMaxwellian low high s fuel (3 * i)) (fun _ => rfl) (fun fuel i => by
      simp only [truncatedMaxwellian, within_iff, maxwellian]
      rfl) 0
  exact ⟨this.1, fun h => this.2 fun m _ => h m⟩

theorem outside_iff {low high : ℝ} {x : Draw} : ¬ outside low high x = true ↔ x = none ∨ InBounds low high x := by
  cases x <;> simp [outside, InBounds]

/-- `Parameter::draw` returns the first value of the distribution that lies within the bounds set, or is NaN: a NaN passes the bounds. -/
theorem C46_parameter (p : Param) (s : Nat → Draw) (n : Nat) :
    (∀ x q, (∃ fuel, p.draw s fuel n = .ok (x, q)) ↔ ∃ m, FirstWith (fun d => d = none ∨ InBounds p.min p.max d) s n m x ∧ q = m + 1) ∧
    ((∀ m, n ≤ m → s m ≠ none ∧ ¬ InBounds p.min p.max (s m)) → ∀ fuel, p.draw s fuel n = .diverge) := by
  classical
  have := search (P := fun d => d = none ∨ InBounds p.min p.max d) s (fun n => n + 1) (fun fuel n => p.draw s fuel n) (fun _ => rfl)
    (fun fuel n => by
      simp only [Param.draw]
      by_cases h : outside p.min p.max (s n) = true
      · rw [if_pos h, if_neg fun hc => outside_iff.2 hc h]
      · rw [if_neg h, if_pos (outside_iff.1 h)]) n
  exact ⟨this.1, fun h => this.2 fun m hm hc => by
    rcases hc with hc | hc
    · exact (h m hm).1 hc
    · exact (h m hm).2 hc⟩

/-- With its default bounds a `Parameter` never returns zero or a negative number: the lower bound is the smallest positive normal number. -/
theorem C46_default_positive (s : Nat → Draw) (fuel n q : Nat) (r : ℝ) (h : Param.new.draw s fuel n = .ok (some r, q)) :
    1 / 2 ^ 1022 ≤ r := by
  obtain ⟨m, hf, -⟩ := ((C46_parameter Param.new s n).1 (some r) q).1 ⟨fuel, h⟩
  rcases hf.2.2.1 with h | ⟨r', h, h1, -⟩
  · cases h
  · cases h; exact h1

/-- So a distribution without positive values (a fixed zero, an angle in `[-π, 0]`) is drawn from for ever. -/
theorem C46_default_hangs (s : Nat → Draw) (n : Nat) (h : ∀ m, n ≤ m → ∃ r, s m = some r ∧ r ≤ 0) : ∀ fuel, Param.new.draw s fuel n = .diverge := by
  refine (C46_parameter Param.new s n).2 fun m hm => ?_
  obtain ⟨r, h1, h2⟩ := h m hm
  refine ⟨by rw [h1]; simp, ?_⟩
  rintro ⟨r', h3, h4, -⟩
  rw [h1] at h3
  cases h3
  have : (0:ℝ) < dblMin := by unfold dblMin; positivity
  have h5 : Param.new.min = dblMin := rfl
  rw [h5] at h4
  linarith

/-- Setting the bounds helps, and keeps every number within them. -/
theorem C46_set_boundary (p : Param) (x y : ℝ) :
    p.setBoundary x y = (p.setMin x).setMax y ∧ (p.setBoundary x y).min = x ∧ (p.setBoundary x y).max = y ∧
    ∀ s fuel n q r, (p.setBoundary x y).draw s fuel n = .ok (some r, q) → x ≤ r ∧ r ≤ y := by
  refine ⟨rfl, rfl, rfl, fun s fuel n q r h => ?_⟩
  obtain ⟨m, hf, -⟩ := ((C46_parameter _ s n).1 (some r) q).1 ⟨fuel, h⟩
  rcases hf.2.2.1 with h | ⟨r', h, h1⟩
  · cases h
  · cases h; exact h1

/-- A stream with a number out of bounds first; a fixed zero. -/
example : (∃ fuel, truncatedNormal (-1) 1 (fun i => some ((3:ℝ) - i)) fuel 0 = .ok (some 1, 3)) ∧
    ∀ fuel, Param.new.draw (fun _ => some 0) fuel 0 = .diverge := by
  constructor
  · apply ((C46_truncated_normal (-1) 1 (fun i => some ((3:ℝ) - i)) 0).1 (some 1) 3).2
    refine ⟨2, ⟨by norm_num, by norm_num, ⟨1, rfl, by norm_num, by norm_num⟩, ?_⟩, rfl⟩
    rintro j - hj ⟨r, h1, -, h2⟩
    have hr : (3:ℝ) - j = r := Option.some.inj h1
    have : (j:ℝ) ≤ 1 := by exact_mod_cast (show j ≤ 1 by omega)
    linarith
  · exact C46_default_hangs _ 0 fun m _ => ⟨0, rfl, le_rfl⟩

/-! ### C78 -/

/-- `Logarithm`: a number within the limits; it is at most `y` exactly when the uniform number is at most the share of the logarithmic
interval below `y`. -/
theorem C78_logarithm (low high t : ℝ) (h1 : 0 < low) (h2 : low < high) (ht0 : 0 ≤ t) (ht1 : t ≤ 1) :
    ∃ x, logarithm low high t = .ok x ∧ low ≤ x ∧ x ≤ high ∧
      ∀ y, 0 < y → (x ≤ y ↔ t ≤ Real.log (y / low) / Real.log (high / low)) := by
  have h10 : (1:ℝ) < 10 := by norm_num
  have hh : 0 < high := h1.trans h2
  have hlog : 0 < Real.log 10 := Real.log_pos h10
  have hab : Real.logb 10 low < Real.logb 10 high := Real.logb_lt_logb h10 h1 h2
  set a := Real.logb 10 low with ha
  set b := Real.logb 10 high with hb
  have ea : (10:ℝ) ^ a = low := Real.rpow_logb (by norm_num) (by norm_num) h1
  have eb : (10:ℝ) ^ b = high := Real.rpow_logb (by norm_num) (by norm_num) hh
  refine ⟨(10:ℝ) ^ (a + t * (b - a)), ?_, ?_, ?_, ?_⟩
  · unfold logarithm uniform
    rw [if_neg (not_or.2 ⟨not_le.2 h1, not_le.2 hh⟩), if_pos hab.le]
    rfl
  · rw [← ea, Real.rpow_le_rpow_left_iff h10]
    nlinarith
  · rw [← eb, Real.rpow_le_rpow_left_iff h10]
    nlinarith
  · intro y hy
    have ey : (10:ℝ) ^ (Real.logb 10 y) = y := Real.rpow_logb (by norm_num) (by norm_num) hy
    rw [← ey, Real.rpow_le_rpow_left_iff h10, ey]
    have hden : Real.log (high / low) = (b - a) * Real.log 10 := by
      rw [Real.log_div hh.ne' h1.ne', hb, ha, Real.logb, Real.logb]; field_simp
    have hnum : Real.log (y / low) = (Real.logb 10 y - a) * Real.log 10 := by
      rw [Real.log_div hy.ne' h1.ne', ha, Real.logb, Real.logb]; field_simp
    rw [hden, hnum, mul_div_mul_right _ _ hlog.ne', le_div_iff₀ (by linarith)]
    constructor <;> intro h <;> linarith

/-- `PowerLaw` with a power above -1: a number within the limits, distributed by the power law. -/
theorem C78_power_law (eps power low high t : ℝ) (hne : eps ≤ |power + 1|) (hp : -1 < power) (h1 : 0 ≤ low) (h2 : low < high)
    (ht0 : 0 ≤ t) (ht1 : t ≤ 1) :
    ∃ x, powerLaw eps power low high t = .ok x ∧ low ≤ x ∧ x ≤ high ∧
      ∀ y, 0 ≤ y → (x ≤ y ↔ t ≤ (y ^ (power + 1) - low ^ (power + 1)) / (high ^ (power + 1) - low ^ (power + 1))) := by
  set β := power + 1 with hβ
  have hβ0 : 0 < β := by linarith
  have hh : 0 < high := h1.trans_lt h2
  have hlt : low ^ β < high ^ β := Real.rpow_lt_rpow h1 h2 hβ0
  have hl0 : 0 ≤ low ^ β := Real.rpow_nonneg h1 β
  have hx0 : 0 ≤ low ^ β + t * (high ^ β - low ^ β) := by nlinarith
  have hinv : ∀ z, 0 ≤ z → ((low ^ β + t * (high ^ β - low ^ β)) ^ (1 / β) ≤ z ↔ low ^ β + t * (high ^ β - low ^ β) ≤ z ^ β) := by
    intro z hz
    rw [one_div]
    exact Real.rpow_inv_le_iff_of_pos hx0 hz hβ0
  refine ⟨(low ^ β + t * (high ^ β - low ^ β)) ^ (1 / β), ?_, ?_, ?_, ?_⟩
  · unfold powerLaw uniform
    have hi : iseq eps power (-1) = false := by
      simp only [iseq, decide_eq_false_iff_not, not_lt, sub_neg_eq_add]
      exact hne
    rw [hi]
    simp only [Bool.false_eq_true, if_false, ← hβ]
    rw [if_neg (by push Not; exact ⟨h1, hh.le, fun _ => hβ0.le⟩), if_pos hlt.le]
    rfl
  · rw [one_div, Real.le_rpow_inv_iff_of_pos h1 hx0 hβ0]
    nlinarith
  · rw [hinv high hh.le]
    nlinarith
  · intro y hy
    rw [hinv y hy, le_div_iff₀ (by linarith)]
    constructor <;> intro h <;> linarith

/-- `PowerLaw` with a power of -1 is `Logarithm`. -/
theorem C78_power_law_minus_one (eps low high t : ℝ) (h0 : 0 < eps) : powerLaw eps (-1) low high t = logarithm low high t := by
  unfold powerLaw iseq
  rw [if_pos (by simpa using h0)]

/-- `PowerLaw` with a power below -1 (an initial mass function) hands the limits to the uniform distribution in the wrong order, which is
undefined behaviour. -/
theorem C78_power_law_steep (eps power low high t : ℝ) (hne : eps ≤ |power + 1|) (hp : power < -1) (h1 : 0 < low) (h2 : low < high) :
    powerLaw eps power low high t = .ub := by
  set β := power + 1 with hβ
  have hβ0 : β < 0 := by linarith
  have hh : 0 < high := h1.trans h2
  have hlt : high ^ β < low ^ β := Real.rpow_lt_rpow_of_neg h1 h2 hβ0
  unfold powerLaw uniform
  have hi : iseq eps power (-1) = false := by
    simp only [iseq, decide_eq_false_iff_not, not_lt, sub_neg_eq_add]
    exact hne
  rw [hi]
  simp only [Bool.false_eq_true, if_false, ← hβ]
  rw [if_neg (by push Not; exact ⟨h1.le, hh.le, fun h => by rcases h with h | h <;> linarith⟩), if_neg (not_le.2 hlt)]
  rfl

/-- The Salpeter mass function from 0.08 to 100. -/
example : powerLaw (1 / 1000) (-2.35) 0.08 100 0.5 = .ub :=
  C78_power_law_steep _ _ _ _ _ (by norm_num [abs_of_neg]) (by norm_num) (by norm_num) (by norm_num)
example : ∃ x, powerLaw (1 / 1000) 2 1 5 (1 / 3) = .ok x := by
  obtain ⟨x, h, -⟩ := C78_power_law (1 / 1000) 2 1 5 (1 / 3) (by norm_num [abs_of_pos]) (by norm_num) (by norm_num) (by norm_num) (by norm_num) (by norm_num)
  exact ⟨x, h⟩

/-- `Normal2` returns the pair made from the first point inside the unit disc and outside the circle of radius `minR`: the radius `√(-2 ln r²)`
of the pair is at most `2 √(-ln minR)`.  For `minR ≥ 1` it never returns. -/
theorem C78_normal2 (minR : ℝ) (s : Nat → ℝ) (fuel n : Nat) :
    (∀ X Y m, normal2 minR s fuel n = .ok ((X, Y), m) → ∃ j, n ≤ j ∧ m = j + 2 ∧
      minR ^ 2 < s j ^ 2 + s (j + 1) ^ 2 ∧ s j ^ 2 + s (j + 1) ^ 2 < 1 ∧ X ^ 2 + Y ^ 2 = -2 * Real.log (s j ^ 2 + s (j + 1) ^ 2) ∧
      X * s (j + 1) = Y * s j ∧ (0 < minR → X ^ 2 + Y ^ 2 ≤ 4 * -Real.log minR)) ∧
    (1 ≤ minR → normal2 minR s fuel n = .diverge) := by
  induction fuel generalizing n with
  | zero => exact ⟨fun X Y m h => by simp [normal2] at h, fun _ => rfl⟩
  | succ fuel ih =>
    unfold normal2
    simp only
    by_cases hc : s n * s n + s (n + 1) * s (n + 1) < 1 ∧ s n * s n + s (n + 1) * s (n + 1) > minR * minR
    · rw [if_pos hc]
      set r2 := s n * s n + s (n + 1) * s (n + 1) with hr2
      have hpos : 0 < r2 := lt_of_le_of_lt (mul_self_nonneg _) hc.2
      have hlog : Real.log r2 < 0 := Real.log_neg hpos hc.1
      have hq : 0 < -2 * Real.log r2 / r2 := div_pos (by linarith) hpos
      have hr2' : s n ^ 2 + s (n + 1) ^ 2 = r2 := by rw [hr2]; ring
      constructor
      · intro X Y m h
        simp only [fdiv, hpos.ne', if_false, fsqrt, not_lt.2 hq.le, Sys.Res.ok_bind] at h
        cases h
        have hsq := Real.sq_sqrt hq.le
        have hX : (s n * Real.sqrt (-2 * Real.log r2 / r2)) ^ 2 + (s (n + 1) * Real.sqrt (-2 * Real.log r2 / r2)) ^ 2 = -2 * Real.log r2 := by
          rw [mul_pow, mul_pow, hsq, ← add_mul, hr2']
          field_simp
        refine ⟨n, le_rfl, rfl, by rw [hr2']; nlinarith [hc.2], by rw [hr2']; exact hc.1, by rw [hr2', hX], by ring, ?_⟩
        intro hmr
        rw [hX]
        have h3 : Real.log (minR * minR) ≤ Real.log r2 := Real.log_le_log (by positivity) hc.2.le
        rw [Real.log_mul hmr.ne' hmr.ne'] at h3
        linarith
      · intro hmr
        exfalso
        nlinarith [hc.1, hc.2]
    · rw [if_neg hc]
      obtain ⟨i1, i2⟩ := ih (n + 2)
      refine ⟨fun X Y m h => ?_, i2⟩
      obtain ⟨j, h1, h2⟩ := i1 X Y m h
      exact ⟨j, by omega, h2⟩

end SpaceHub.Props
