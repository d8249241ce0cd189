import Verif.Proof.RoundedStep
import Verif.Model.RoundedKahan

/-
What rounding does to compensated sums: the value that the sum and its stored error stand for is off only by the unit times the increment and the square of
the unit.
-/

set_option autoImplicit false

namespace SpaceHub.Rounded
open SpaceHub V3 Force Core Integrator Sys

/-! ### one addition -/

theorem kadd_bounds {A : Arith} {u : ℝ} (hA : Accurate A u) (h0 : 0 ≤ u) (h1 : u ≤ 1) (k : Comp.Num) (x : ℝ) :
    |(kadd A k x).err| ≤ u * (12 * (|x| + |k.err|) + 4 * |k.real|) ∧
    |((kadd A k x).real - (kadd A k x).err) - (k.real - k.err + x)| ≤ 11 * u * (|x| + |k.err|) + 3 * u ^ 2 * |k.real| := by
  obtain ⟨a, e⟩ := k
  show |A.sub (A.sub (A.add a (A.sub x e)) a) (A.sub x e)| ≤ u * (12 * (|x| + |e|) + 4 * |a|) ∧
    |(A.add a (A.sub x e) - A.sub (A.sub (A.add a (A.sub x e)) a) (A.sub x e)) - (a - e + x)| ≤ 11 * u * (|x| + |e|) + 3 * u ^ 2 * |a|
  have r1 := hA.sub x e
  set d := A.sub x e
  have r2 := hA.add a d
  set s := A.add a d
  have r3 := hA.sub s a
  set w := A.sub s a
  have r4 := hA.sub w d
  set f := A.sub w d
  set q := |x| + |e| with hq
  have q0 : 0 ≤ q := by positivity
  have a0 := abs_nonneg a
  have t1 : |x - e| ≤ q := abs_sub x e
  have s1 : u * |x - e| ≤ u * q := mul_le_mul_of_nonneg_left t1 h0
  have uq : u * q ≤ q := by nlinarith
  have t2 : |d| ≤ 2 * q := by
    have := abs_add_le (d - (x - e)) (x - e)
    rw [sub_add_cancel] at this
    linarith
  have t3 : |a + d| ≤ |a| + 2 * q := (abs_add_le _ _).trans (by linarith)
  have s3 : u * |a + d| ≤ u * |a| + 2 * q := by
    have := mul_le_mul_of_nonneg_left t3 h0
    linarith [show u * (|a| + 2 * q) = u * |a| + 2 * (u * q) by ring]
  have s3' : u * |a + d| ≤ u * |a| + 2 * (u * q) := by
    have := mul_le_mul_of_nonneg_left t3 h0
    linarith [show u * (|a| + 2 * q) = u * |a| + 2 * (u * q) by ring]
  have t4 : |s - a| ≤ 4 * q + u * |a| := by
    have := abs_add_le (s - (a + d)) d
    rw [show s - (a + d) + d = s - a by ring] at this
    linarith
  have s4 : u * |s - a| ≤ 4 * (u * q) + u * (u * |a|) := by
    have := mul_le_mul_of_nonneg_left t4 h0
    linarith [show u * (4 * q + u * |a|) = 4 * (u * q) + u * (u * |a|) by ring]
  have ua : u * (u * |a|) ≤ u * |a| := mul_le_mul_of_nonneg_left (by nlinarith) h0
  have t5 : |w - d| ≤ 6 * (u * q) + 2 * (u * |a|) := by
    have := abs_add_le (w - (s - a)) (s - (a + d))
    rw [show w - (s - a) + (s - (a + d)) = w - d by ring] at this
    linarith
  have s5 : u * |w - d| ≤ 6 * (u * (u * q)) + 2 * (u * (u * |a|)) := by
    have := mul_le_mul_of_nonneg_left t5 h0
    linarith [show u * (6 * (u * q) + 2 * (u * |a|)) = 6 * (u * (u * q)) + 2 * (u * (u * |a|)) by ring]
  have uuq : u * (u * q) ≤ u * q := mul_le_mul_of_nonneg_left uq h0
  constructor
  · have := abs_add_le (f - (w - d)) (w - d)
    rw [sub_add_cancel] at this
    linarith [show u * (12 * q + 4 * |a|) = 12 * (u * q) + 4 * (u * |a|) by ring]
  · have e1 : s - f - (a - e + x) = -(w - (s - a)) + (-(f - (w - d)) + (d - (x - e))) := by ring
    rw [e1]
    have b1 := abs_add_le (-(w - (s - a))) (-(f - (w - d)) + (d - (x - e)))
    have b2 := abs_add_le (-(f - (w - d))) (d - (x - e))
    rw [abs_neg] at b1 b2
    linarith [show 11 * u * q + 3 * u ^ 2 * |a| = 11 * (u * q) + 3 * (u * (u * |a|)) by ring]

/-! ### the calculus -/

variable {Z : Type} {V : ℝ → Z → Prop} {S : Set Z} {E R : ℝ} {h : Z → ℝ}

/-- `F` computes `F0`, which is of the size of `h`, up to a constant times the unit and `h`. -/
def Scaled (V : ℝ → Z → Prop) (S : Set Z) (h : Z → ℝ) (F : Arith → Z → ℝ) (F0 : Z → ℝ) : Prop :=
  ∃ B C u0 : ℝ, 0 ≤ B ∧ 0 ≤ C ∧ 0 < u0 ∧ u0 ≤ 1 ∧ (∀ z ∈ S, |F0 z| ≤ B * h z) ∧
    ∀ A u, Accurate A u → 0 ≤ u → u ≤ u0 → ∀ z ∈ S, V u z → |F A z - F0 z| ≤ C * u * h z

theorem Scaled.self (hh : ∀ z ∈ S, 0 ≤ h z) : Scaled V S h (fun _ => h) h := by
  refine ⟨1, 0, 1, zero_le_one, le_rfl, one_pos, le_rfl, fun z hz => ?_, fun A u _ _ _ z _ _ => ?_⟩
  · rw [abs_of_nonneg (hh z hz), one_mul]
  · simp

theorem Scaled.mul (hh : ∀ z ∈ S, 0 ≤ h z) {F G : Arith → Z → ℝ} {F0 G0 : Z → ℝ} (hF : Near V S F F0) (hG : Scaled V S h G G0) :
    Scaled V S h (fun A z => A.mul (F A z) (G A z)) (fun z => F0 z * G0 z) := by
  obtain ⟨B1, C1, u1, hB1, hC1, p1, q1, b1, c1⟩ := hF
  obtain ⟨B2, C2, u2, hB2, hC2, p2, q2, b2, c2⟩ := hG
  refine ⟨B1 * B2, (B1 + C1) * (B2 + C2) + (C1 * (B2 + C2) + B1 * C2), min u1 u2, by positivity, by positivity, lt_min p1 p2, (min_le_left _ _).trans q1,
    fun z hz => ?_, fun A u hA hu hu0 z hz hv => ?_⟩
  · rw [abs_mul, mul_assoc]
    exact mul_le_mul (b1 z hz) (b2 z hz) (abs_nonneg _) hB1
  · have h1 := c1 A u hA hu (hu0.trans (min_le_left _ _)) z hz hv
    have h2 := c2 A u hA hu (hu0.trans (min_le_right _ _)) z hz hv
    have hu1 : u ≤ 1 := hu0.trans ((min_le_left _ _).trans q1)
    have s1 := size_le (b1 z hz) h1 hC1 hu1
    have hz0 := hh z hz
    have s2 : |G A z| ≤ (B2 + C2) * h z := by
      have := abs_add_le (G0 z) (G A z - G0 z)
      rw [add_sub_cancel] at this
      have h3 : C2 * u * h z ≤ C2 * h z := mul_le_mul_of_nonneg_right (by nlinarith) hz0
      have := b2 z hz
      linarith
    have r := hA.mul (F A z) (G A z)
    have r' : u * |F A z * G A z| ≤ u * ((B1 + C1) * ((B2 + C2) * h z)) := by
      rw [abs_mul]
      exact mul_le_mul_of_nonneg_left (mul_le_mul s1 s2 (abs_nonneg _) (by positivity)) hu
    have r1 : |(F A z - F0 z) * G A z| ≤ C1 * u * ((B2 + C2) * h z) := by
      rw [abs_mul]
      exact mul_le_mul h1 s2 (abs_nonneg _) (by positivity)
    have r2 : |F0 z * (G A z - G0 z)| ≤ B1 * (C2 * u * h z) := by
      rw [abs_mul]
      exact mul_le_mul (b1 z hz) h2 (abs_nonneg _) hB1
    have e : A.mul (F A z) (G A z) - F0 z * G0 z = (A.mul (F A z) (G A z) - F A z * G A z) + ((F A z - F0 z) * G A z + F0 z * (G A z - G0 z)) := by ring
    rw [e]
    have t1 := abs_add_le (A.mul (F A z) (G A z) - F A z * G A z) ((F A z - F0 z) * G A z + F0 z * (G A z - G0 z))
    have t2 := abs_add_le ((F A z - F0 z) * G A z) (F0 z * (G A z - G0 z))
    linarith only [t1, t2, r, r', r1, r2]

/-- The compensated number `F` stands for `F0` up to a constant times the unit times `h` plus the square of the unit; its stored error is at most `E` units. -/
def Tight (E : ℝ) (V : ℝ → Z → Prop) (S : Set Z) (h : Z → ℝ) (F : Arith → Z → Comp.Num) (F0 : Z → ℝ) : Prop :=
  ∃ C u0 : ℝ, 0 ≤ C ∧ 0 < u0 ∧ u0 ≤ 1 ∧ ∀ A u, Accurate A u → 0 ≤ u → u ≤ u0 → ∀ z ∈ S, V u z →
    |(F A z).real - (F A z).err - F0 z| ≤ C * (u * h z + u ^ 2) ∧ |(F A z).err| ≤ E * u

variable {F : Arith → Z → Comp.Num} {F0 : Z → ℝ}

theorem Tight.near (hh : ∀ z ∈ S, 0 ≤ h z ∧ h z ≤ 1) (hE : 0 ≤ E) (hF : Tight E V S h F F0) (hR : ∀ z ∈ S, |F0 z| ≤ R) : Near V S (fun A z => (F A z).real) F0 := by
  obtain ⟨C, u0, hC, p, q, c⟩ := hF
  refine ⟨max R 0, 2 * C + E, u0, le_max_right _ _, by positivity, p, q, fun z hz => (hR z hz).trans (le_max_left _ _), fun A u hA hu hu0 z hz hv => ?_⟩
  obtain ⟨c1, c2⟩ := c A u hA hu hu0 z hz hv
  obtain ⟨a, b⟩ := hh z hz
  have hu1 := hu0.trans q
  have w : C * (u * h z + u ^ 2) ≤ C * (2 * u) := mul_le_mul_of_nonneg_left (by nlinarith) hC
  have := abs_add_le ((F A z).real - (F A z).err - F0 z) (F A z).err
  rw [show (F A z).real - (F A z).err - F0 z + (F A z).err = (F A z).real - F0 z by ring] at this
  linarith

theorem Tight.add (hh : ∀ z ∈ S, 0 ≤ h z ∧ h z ≤ 1) (hR0 : 0 ≤ R) (hE : 28 * R + 32 ≤ E) (hF : Tight E V S h F F0) {X : Arith → Z → ℝ} {X0 : Z → ℝ}
    (hX : Scaled V S h X X0) (b0 : ∀ z ∈ S, |F0 z| ≤ R) (b1 : ∀ z ∈ S, |F0 z + X0 z| ≤ R) :
    Tight E V S h (fun A z => kadd A (F A z) (X A z)) (fun z => F0 z + X0 z) := by
  obtain ⟨C, u0, hC, p, q, c⟩ := hF
  obtain ⟨B, D, u1, hB, hD, p1, q1, bX, cX⟩ := hX
  have hE0 : 0 < E := by linarith
  refine ⟨C + D + 11 * (B + D) + (11 * E + 3 * (R + 2)), min (min u0 u1) (1 / (2 * C + D + E + 1)), by positivity, lt_min (lt_min p p1) (by positivity),
    (min_le_left _ _).trans ((min_le_left _ _).trans q), fun A u hA hu hu0 z hz hv => ?_⟩
  have hu0' := hu0.trans (min_le_left _ _)
  obtain ⟨c1, c2⟩ := c A u hA hu (hu0'.trans (min_le_left _ _)) z hz hv
  have cx := cX A u hA hu (hu0'.trans (min_le_right _ _)) z hz hv
  obtain ⟨h0, h1⟩ := hh z hz
  have hu1 : u ≤ 1 := hu0'.trans ((min_le_left _ _).trans q)
  have us := hu0.trans (min_le_right _ _)
  rw [le_div_iff₀ (by positivity)] at us
  have u1 : C * u ≥ 0 := by positivity
  have u2 : D * u ≥ 0 := by positivity
  have u3 : E * u ≥ 0 := by positivity
  have us' : 2 * (C * u) + D * u + E * u ≤ 1 := by linarith [show u * (2 * C + D + E + 1) = 2 * (C * u) + D * u + E * u + u by ring]
  have f0 := b0 z hz
  have f1 := b1 z hz
  have fX : |X0 z| ≤ 2 * R := by
    have := abs_sub (F0 z + X0 z) (F0 z)
    rw [add_sub_cancel_left] at this
    linarith
  have duh : D * u * h z ≤ D * u := by nlinarith
  have x1 : |X A z| ≤ 2 * R + 1 := by
    have := abs_add_le (X0 z) (X A z - X0 z)
    rw [add_sub_cancel] at this
    linarith
  have x2 : |X A z| ≤ (B + D) * h z := by
    have := abs_add_le (X0 z) (X A z - X0 z)
    rw [add_sub_cancel] at this
    have h3 : D * u * h z ≤ D * h z := mul_le_mul_of_nonneg_right (by nlinarith) h0
    have := bX z hz
    linarith
  have w : C * (u * h z + u ^ 2) ≤ 2 * (C * u) := by
    have := mul_le_mul_of_nonneg_left (show u * h z + u ^ 2 ≤ 2 * u by nlinarith) hC
    linarith
  have a1 : |(F A z).real| ≤ R + 2 := by
    have t1 := abs_add_le ((F A z).real - (F A z).err - F0 z) (F A z).err
    rw [show (F A z).real - (F A z).err - F0 z + (F A z).err = (F A z).real - F0 z by ring] at t1
    have t2 := abs_add_le ((F A z).real - F0 z) (F0 z)
    rw [sub_add_cancel] at t2
    linarith
  obtain ⟨k1, k2⟩ := kadd_bounds hA hu hu1 (F A z) (X A z)
  constructor
  · have e : (kadd A (F A z) (X A z)).real - (kadd A (F A z) (X A z)).err - (F0 z + X0 z) =
      ((kadd A (F A z) (X A z)).real - (kadd A (F A z) (X A z)).err - ((F A z).real - (F A z).err + X A z)) + (((F A z).real - (F A z).err - F0 z) + (X A z - X0 z)) := by
        ring
    rw [e]
    have t1 := abs_add_le ((kadd A (F A z) (X A z)).real - (kadd A (F A z) (X A z)).err - ((F A z).real - (F A z).err + X A z))
      (((F A z).real - (F A z).err - F0 z) + (X A z - X0 z))
    have t2 := abs_add_le ((F A z).real - (F A z).err - F0 z) (X A z - X0 z)
    have m1 : 11 * u * (|X A z| + |(F A z).err|) ≤ 11 * u * ((B + D) * h z + E * u) := mul_le_mul_of_nonneg_left (by linarith) (by positivity)
    have m2 : 3 * u ^ 2 * |(F A z).real| ≤ 3 * u ^ 2 * (R + 2) := mul_le_mul_of_nonneg_left a1 (by positivity)
    have n1 : 0 ≤ (D + 11 * (B + D)) * u ^ 2 := by positivity
    have n2 : 0 ≤ (11 * E + 3 * (R + 2)) * (u * h z) := mul_nonneg (by positivity) (mul_nonneg hu h0)
    linarith only [t1, t2, m1, m2, n1, n2, k2, c1, cx, show (C + D + 11 * (B + D) + (11 * E + 3 * (R + 2))) * (u * h z + u ^ 2) =
      C * (u * h z + u ^ 2) + D * u * h z + 11 * u * ((B + D) * h z + E * u) + 3 * u ^ 2 * (R + 2) + (D + 11 * (B + D)) * u ^ 2 +
        (11 * E + 3 * (R + 2)) * (u * h z) by ring]
  · refine k1.trans ?_
    rw [mul_comm E]
    refine mul_le_mul_of_nonneg_left ?_ hu
    linarith

theorem Tight.congr {F' : Arith → Z → Comp.Num} {F0' : Z → ℝ} (hF : Tight E V S h F F0) (e : ∀ A, ∀ z ∈ S, F' A z = F A z) (e0 : ∀ z ∈ S, F0' z = F0 z) :
    Tight E V S h F' F0' := by
  obtain ⟨C, u0, hC, p, q, c⟩ := hF
  refine ⟨C, u0, hC, p, q, fun A u hA hu hu0 z hz hv => ?_⟩
  rw [e _ z hz, e0 z hz]
  exact c A u hA hu hu0 z hz hv

/-- the same for vectors -/
def TightV (E : ℝ) (V : ℝ → Z → Prop) (S : Set Z) (h : Z → ℝ) (F : Arith → Z → V3 Comp.Num) (F0 : Z → V3 ℝ) : Prop :=
  Tight E V S h (fun A z => (F A z).x) (fun z => (F0 z).x) ∧ Tight E V S h (fun A z => (F A z).y) (fun z => (F0 z).y) ∧
    Tight E V S h (fun A z => (F A z).z) (fun z => (F0 z).z)

/-- all coordinates of at most the size `R` -/
def Within (R : ℝ) (a : V3 ℝ) : Prop := |a.x| ≤ R ∧ |a.y| ≤ R ∧ |a.z| ≤ R

theorem TightV.near (hh : ∀ z ∈ S, 0 ≤ h z ∧ h z ≤ 1) (hE : 0 ≤ E) {F : Arith → Z → V3 Comp.Num} {F0 : Z → V3 ℝ} (hF : TightV E V S h F F0)
    (hR : ∀ z ∈ S, Within R (F0 z)) : NearV V S (fun A z => realV (F A z)) F0 :=
  ⟨hF.1.near hh hE fun z hz => (hR z hz).1, hF.2.1.near hh hE fun z hz => (hR z hz).2.1, hF.2.2.near hh hE fun z hz => (hR z hz).2.2⟩

theorem forLoop_set_any {α : Type} (n : Nat) (f : Nat → α → α) (v : Arr α) (k : Nat) :
    forLoop 0 n (fun i w => w.set i (f i (w i))) v k = if k < n then f k (v k) else v k := by
  induction n with
  | zero => rfl
  | succ n ih =>
    rw [forLoop_succ 0 n (Nat.zero_le n), Arr.set]
    by_cases h : k = n
    · subst h
      simp [ih]
    · rw [if_neg h, ih]
      by_cases h2 : k < n
      · rw [if_pos h2, if_pos (by omega)]
      · rw [if_neg h2, if_neg (by omega)]

theorem kadvance_apply (A : Arith) (n : Nat) (var : Arr (V3 Comp.Num)) (inc : Arr (V3 ℝ)) (d : ℝ) (k : Nat) :
    kadvance A n var inc d k = if k < n then kaddV A (var k) (mulV A (inc k) d) else var k := by
  unfold kadvance
  exact forLoop_set_any n (fun i x => kaddV A x (mulV A (inc i) d)) var k

theorem advance_exact_apply (n : Nat) (var inc : Arr (V3 ℝ)) (d : ℝ) (k : Nat) :
    Rounded.advance Arith.exact n var inc d k = if k < n then addV .exact (var k) (mulV .exact (inc k) d) else var k := by
  unfold advance
  exact forLoop_set_any n (fun i x => addV .exact x (mulV .exact (inc i) d)) var k

theorem tight_advance (hh : ∀ z ∈ S, 0 ≤ h z ∧ h z ≤ 1) (hR0 : 0 ≤ R) (hE : 28 * R + 32 ≤ E) {n k : Nat} (hk : k < n) {var : Arith → Z → Arr (V3 Comp.Num)}
    {var0 : Z → Arr (V3 ℝ)} {inc : Arith → Z → Arr (V3 ℝ)} {inc0 : Z → Arr (V3 ℝ)} {d : Arith → Z → ℝ} {d0 : Z → ℝ}
    (hv : TightV E V S h (fun A z => var A z k) (fun z => var0 z k)) (hi : NearV V S (fun A z => inc A z k) (fun z => inc0 z k)) (hd : Scaled V S h d d0)
    (b0 : ∀ z ∈ S, Within R (var0 z k)) (b1 : ∀ z ∈ S, Within R (Rounded.advance Arith.exact n (var0 z) (inc0 z) (d0 z) k)) :
    TightV E V S h (fun A z => kadvance A n (var A z) (inc A z) (d A z) k) (fun z => Rounded.advance Arith.exact n (var0 z) (inc0 z) (d0 z) k) := by
  have h0 : ∀ z ∈ S, 0 ≤ h z := fun z hz => (hh z hz).1
  have e : ∀ A, ∀ z ∈ S, kadvance A n (var A z) (inc A z) (d A z) k = kaddV A (var A z k) (mulV A (inc A z k) (d A z)) := fun A z _ => by
    rw [kadvance_apply, if_pos hk]
  have e0 : ∀ z ∈ S, Rounded.advance Arith.exact n (var0 z) (inc0 z) (d0 z) k = addV .exact (var0 z k) (mulV .exact (inc0 z k) (d0 z)) := fun z _ => by
    rw [advance_exact_apply, if_pos hk]
  have b1' : ∀ z ∈ S, Within R (addV .exact (var0 z k) (mulV .exact (inc0 z k) (d0 z))) := fun z hz => by rw [← e0 z hz]; exact b1 z hz
  exact ⟨(hv.1.add hh hR0 hE (Scaled.mul h0 hi.1 hd) (fun z hz => (b0 z hz).1) fun z hz => (b1' z hz).1).congr (fun A z hz => congrArg V3.x (e A z hz)) fun z hz => congrArg V3.x (e0 z hz),
    (hv.2.1.add hh hR0 hE (Scaled.mul h0 hi.2.1 hd) (fun z hz => (b0 z hz).2.1) fun z hz => (b1' z hz).2.1).congr (fun A z hz => congrArg V3.y (e A z hz)) fun z hz => congrArg V3.y (e0 z hz),
    (hv.2.2.add hh hR0 hE (Scaled.mul h0 hi.2.2 hd) (fun z hz => (b0 z hz).2.2) fun z hz => (b1' z hz).2.2).congr (fun A z hz => congrArg V3.z (e A z hz)) fun z hz => congrArg V3.z (e0 z hz)⟩

/-- what rounding does to the state of a system with compensated types -/
structure TightS (n : Nat) (E : ℝ) (V : ℝ → Z → Prop) (S : Set Z) (h : Z → ℝ) (F : Arith → Z → KSimple) (F0 : Z → Simple) : Prop where
  num : ∀ A, ∀ z ∈ S, (F A z).num = n
  num0 : ∀ z ∈ S, (F0 z).P.num = n
  mass : ∀ k, k < n → Near V S (fun A z => (F A z).mass k) (fun z => (F0 z).P.mass k)
  pos : ∀ k, k < n → TightV E V S h (fun A z => (F A z).pos k) (fun z => (F0 z).P.pos k)
  vel : ∀ k, k < n → TightV E V S h (fun A z => (F A z).vel k) (fun z => (F0 z).P.vel k)
  time : Tight E V S h (fun A z => (F A z).time) (fun z => (F0 z).time)

/-- all positions, velocities and the time of at most the size `R` -/
def Sized (n : Nat) (R : ℝ) (s : Simple) : Prop := (∀ k, k < n → Within R (s.P.pos k) ∧ Within R (s.P.vel k)) ∧ |s.time| ≤ R

variable {n : Nat} {K : Arith → Z → KSimple} {K0 : Z → Simple}

theorem TightS.near (hh : ∀ z ∈ S, 0 ≤ h z ∧ h z ≤ 1) (hE : 0 ≤ E) (H : TightS n E V S h K K0) (hR : ∀ z ∈ S, Sized n R (K0 z)) :
    NearP n V S (fun A z => (K A z).shown) (fun z => (K0 z).P) where
  num := H.num
  num0 := H.num0
  mass := H.mass
  pos := fun k hk => (H.pos k hk).near hh hE fun z hz => ((hR z hz).1 k hk).1
  vel := fun k hk => (H.vel k hk).near hh hE fun z hz => ((hR z hz).1 k hk).2

theorem TightS.drift (hh : ∀ z ∈ S, 0 ≤ h z ∧ h z ≤ 1) (hR0 : 0 ≤ R) (hE : 28 * R + 32 ≤ E) (H : TightS n E V S h K K0) {d : Arith → Z → ℝ} {d0 : Z → ℝ}
    (hd : Scaled V S h d d0) (b0 : ∀ z ∈ S, Sized n R (K0 z)) (b1 : ∀ z ∈ S, Sized n R (Rounded.drift Arith.exact (d0 z) (K0 z))) :
    TightS n E V S h (fun A z => kdrift A (d A z) (K A z)) (fun z => Rounded.drift Arith.exact (d0 z) (K0 z)) where
  num := H.num
  num0 := H.num0
  mass := H.mass
  vel := H.vel
  time := H.time.add hh hR0 hE hd (fun z hz => (b0 z hz).2) fun z hz => (b1 z hz).2
  pos := fun k hk => by
    have N := H.near hh (by linarith) b0
    have e0 : ∀ z ∈ S, (Rounded.drift Arith.exact (d0 z) (K0 z)).P.pos = Rounded.advance Arith.exact n (K0 z).P.pos (K0 z).P.vel (d0 z) := fun z hz => by
      show Rounded.advance Arith.exact (K0 z).P.num _ _ _ = _
      rw [H.num0 z hz]
    have key := tight_advance hh hR0 hE hk (H.pos k hk) (N.vel k hk) hd (fun z hz => ((b0 z hz).1 k hk).1) fun z hz => by
      rw [← e0 z hz]; exact ((b1 z hz).1 k hk).1
    have e : ∀ A, ∀ z ∈ S, (kdrift A (d A z) (K A z)).pos = kadvance A n (K A z).pos (K A z).shown.vel (d A z) := fun A z hz => by
      show kadvance A (K A z).num _ _ _ = _
      rw [H.num A z hz]
    exact ⟨key.1.congr (fun A z hz => congrArg V3.x (congrFun (e A z hz) k)) fun z hz => congrArg V3.x (congrFun (e0 z hz) k), key.2.1.congr (fun A z hz => congrArg V3.y (congrFun (e A z hz) k)) fun z hz => congrArg V3.y (congrFun (e0 z hz) k),
      key.2.2.congr (fun A z hz => congrArg V3.z (congrFun (e A z hz) k)) fun z hz => congrArg V3.z (congrFun (e0 z hz) k)⟩

theorem TightS.kick (hh : ∀ z ∈ S, 0 ≤ h z ∧ h z ≤ 1) (hR0 : 0 ≤ R) (hE : 28 * R + 32 ≤ E) (H : TightS n E V S h K K0) (hap : Apart n S (fun z => (K0 z).P))
    {d : Arith → Z → ℝ} {d0 : Z → ℝ} (hd : Scaled V S h d d0) (b0 : ∀ z ∈ S, Sized n R (K0 z)) (b1 : ∀ z ∈ S, Sized n R (Rounded.kick Arith.exact (d0 z) (K0 z))) :
    TightS n E V S h (fun A z => kkick A (d A z) (K A z)) (fun z => Rounded.kick Arith.exact (d0 z) (K0 z)) where
  num := H.num
  num0 := H.num0
  mass := H.mass
  pos := H.pos
  time := H.time
  vel := fun k hk => by
    have N := (H.near hh (by linarith) b0).acc hap
    have e0 : ∀ z ∈ S, (Rounded.kick Arith.exact (d0 z) (K0 z)).P.vel = Rounded.advance Arith.exact n (K0 z).P.vel (Rounded.acc Arith.exact (K0 z).P) (d0 z) := fun z hz => by
      show Rounded.advance Arith.exact (K0 z).P.num _ _ _ = _
      rw [H.num0 z hz]
    have key := tight_advance hh hR0 hE hk (H.vel k hk) (N k hk) hd (fun z hz => ((b0 z hz).1 k hk).2) fun z hz => by
      rw [← e0 z hz]; exact ((b1 z hz).1 k hk).2
    have e : ∀ A, ∀ z ∈ S, (kkick A (d A z) (K A z)).vel = kadvance A n (K A z).vel (Rounded.acc A (K A z).shown) (d A z) := fun A z hz => by
      show kadvance A (K A z).num _ _ _ = _
      rw [H.num A z hz]
    exact ⟨key.1.congr (fun A z hz => congrArg V3.x (congrFun (e A z hz) k)) fun z hz => congrArg V3.x (congrFun (e0 z hz) k), key.2.1.congr (fun A z hz => congrArg V3.y (congrFun (e A z hz) k)) fun z hz => congrArg V3.y (congrFun (e0 z hz) k),
      key.2.2.congr (fun A z hz => congrArg V3.z (congrFun (e A z hz) k)) fun z hz => congrArg V3.z (congrFun (e0 z hz) k)⟩

theorem TightS.step (hh : ∀ z ∈ S, 0 ≤ h z ∧ h z ≤ 1) (hR0 : 0 ≤ R) (hE : 28 * R + 32 ≤ E) (stages : List Stage) :
    ∀ (K : Arith → Z → KSimple) (K0 : Z → Simple), TightS n E V S h K K0 →
    (∀ pre suf, stages = pre ++ suf → Apart n S (fun z => (Rounded.step Arith.exact pre (h z) (K0 z)).P) ∧ ∀ z ∈ S, Sized n R (Rounded.step Arith.exact pre (h z) (K0 z))) →
      TightS n E V S h (fun A z => kstep A stages (h z) (K A z)) (fun z => Rounded.step Arith.exact stages (h z) (K0 z)) := by
  induction stages with
  | nil => exact fun K K0 H _ => H
  | cons c l ih =>
    intro K K0 H hap
    have hd : ∀ c : ℚ, Scaled V S h (fun A z => A.mul (A.lit c) (h z)) (fun z => (c : ℝ) * h z) := fun c =>
      Scaled.mul (fun z hz => (hh z hz).1) (Near.lit c) (Scaled.self fun z hz => (hh z hz).1)
    have h1 : TightS n E V S h (fun A z => kstage A (h z) c (K A z)) (fun z => Rounded.stage Arith.exact (h z) c (K0 z)) := by
      cases c with
      | drift c => exact H.drift hh hR0 hE (hd c) (hap [] (.drift c :: l) rfl).2 (hap [.drift c] l rfl).2
      | kick c => exact H.kick hh hR0 hE (hap [] (.kick c :: l) rfl).1 (hd c) (hap [] (.kick c :: l) rfl).2 (hap [.kick c] l rfl).2
    exact ih _ _ h1 fun pre suf e => hap (c :: pre) suf (by rw [e]; rfl)

/-! ### uniformity -/

/-- what `Tight` says of one number -/
def Fits (E C u h : ℝ) (a : Comp.Num) (x : ℝ) : Prop := |a.real - a.err - x| ≤ C * (u * h + u ^ 2) ∧ |a.err| ≤ E * u

def FitsV (E C u h : ℝ) (a : V3 Comp.Num) (x : V3 ℝ) : Prop := Fits E C u h a.x x.x ∧ Fits E C u h a.y x.y ∧ Fits E C u h a.z x.z

theorem Fits.mono {E C C' u h : ℝ} {a : Comp.Num} {x : ℝ} (H : Fits E C u h a x) (hC : C ≤ C') (hu : 0 ≤ u) (hh : 0 ≤ h) : Fits E C' u h a x :=
  ⟨H.1.trans (mul_le_mul_of_nonneg_right hC (by positivity)), H.2⟩

theorem FitsV.mono {E C C' u h : ℝ} {a : V3 Comp.Num} {x : V3 ℝ} (H : FitsV E C u h a x) (hC : C ≤ C') (hu : 0 ≤ u) (hh : 0 ≤ h) : FitsV E C' u h a x :=
  ⟨H.1.mono hC hu hh, H.2.1.mono hC hu hh, H.2.2.mono hC hu hh⟩

/-- one constant for all entries -/
theorem tight_uniform (hh : ∀ z ∈ S, 0 ≤ h z) {G : Arith → Z → Arr (V3 Comp.Num)} {G0 : Z → Arr (V3 ℝ)} :
    ∀ n, (∀ k, k < n → TightV E V S h (fun A z => G A z k) (fun z => G0 z k)) → ∃ C u0 : ℝ, 0 ≤ C ∧ 0 < u0 ∧
    ∀ A u, Accurate A u → 0 ≤ u → u ≤ u0 → ∀ z ∈ S, V u z → ∀ k, k < n → FitsV E C u (h z) (G A z k) (G0 z k) := by
  intro n
  induction n with
  | zero => intro _; exact ⟨0, 1, le_rfl, one_pos, fun _ _ _ _ _ _ _ _ k hk => absurd hk (by omega)⟩
  | succ n ih =>
    intro H
    obtain ⟨C, u0, hC, hu, key⟩ := ih fun k hk => H k (by omega)
    obtain ⟨⟨C1, u1, hC1, p1, _, c1⟩, ⟨C2, u2, hC2, p2, _, c2⟩, ⟨C3, u3, hC3, p3, _, c3⟩⟩ := H n (by omega)
    refine ⟨C + (C1 + (C2 + C3)), min u0 (min u1 (min u2 u3)), by positivity, lt_min hu (lt_min p1 (lt_min p2 p3)), fun A u hA h0 hle z hz hv k hk => ?_⟩
    have l0 := hle.trans (min_le_left _ _)
    have l1 := (hle.trans (min_le_right _ _)).trans (min_le_left _ _)
    have l2 := ((hle.trans (min_le_right _ _)).trans (min_le_right _ _)).trans (min_le_left _ _)
    have l3 := ((hle.trans (min_le_right _ _)).trans (min_le_right _ _)).trans (min_le_right _ _)
    by_cases hk' : k < n
    · exact (key A u hA h0 l0 z hz hv k hk').mono (by linarith) h0 (hh z hz)
    · obtain rfl : k = n := by omega
      exact ⟨Fits.mono (c1 A u hA h0 l1 z hz hv) (by linarith) h0 (hh z hz), Fits.mono (c2 A u hA h0 l2 z hz hv) (by linarith) h0 (hh z hz),
        Fits.mono (c3 A u hA h0 l3 z hz hv) (by linarith) h0 (hh z hz)⟩

end SpaceHub.Rounded
