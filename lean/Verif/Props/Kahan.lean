import Verif.Model.Kahan
import Verif.Proof.TwoSum
import Mathlib.Algebra.BigOperators.Group.Finset.Basic
import Mathlib.Algebra.BigOperators.Ring.Finset
import Mathlib.Algebra.Order.BigOperators.Group.Finset

/-
C34: the compensated numbers.
-/

set_option autoImplicit false

namespace SpaceHub.Props
open SpaceHub Comp Spec

/-! ### histories -/

/-- `k += x` or `k -= x`. -/
inductive Op where
  | add (x : ℝ)
  | sub (x : ℝ)

/-- The number added by an operation. -/
def Op.val : Op → ℝ
  | .add x => x
  | .sub x => -x

section
variable (rnd : ℝ → ℝ)

def kahanOp (k : Num) : Op → Num
  | .add x => Kahan.add rnd k x
  | .sub x => Kahan.sub rnd k x

noncomputable def neumaierOp (k : Num) : Op → Num
  | .add x => Neumaier.add rnd k x
  | .sub x => Neumaier.sub rnd k x

noncomputable def kleinOp (k : Num3) : Op → Num3
  | .add x => Klein.add rnd k x
  | .sub x => Klein.sub rnd k x

/-- A number constructed from `x` after a sequence of operations. -/
def kahan (x : ℝ) (ops : List Op) : Num := ops.foldl (kahanOp rnd) (Num.of x)

noncomputable def neumaier (x : ℝ) (ops : List Op) : Num := ops.foldl (neumaierOp rnd) (Num.of x)

noncomputable def klein (x : ℝ) (ops : List Op) : Num3 := ops.foldl (kleinOp rnd) (Num3.of x)
end

/-- The exact sum. -/
def total (x : ℝ) (ops : List Op) : ℝ := x + (ops.map Op.val).sum

/-- Every operand is a floating-point number. -/
def Floats (p : Nat) (x : ℝ) (ops : List Op) : Prop := IsFloat p x ∧ ∀ o ∈ ops, IsFloat p o.val

/-- The sum of the sizes of the operands. -/
def sizes (ops : List Op) : ℝ := (ops.map fun o => |o.val|).sum

/-- The sum of the sizes of the values that a number shows before each operation. -/
def shown (value : List Op → ℝ) (ops : List Op) : ℝ := ∑ i ∈ Finset.range ops.length, |value (ops.take i)|

theorem shown_snoc (value : List Op → ℝ) (ops : List Op) (o : Op) :
    shown value (ops ++ [o]) = shown value ops + |value ops| := by
  unfold shown
  rw [List.length_append, List.length_singleton, Finset.sum_range_succ]
  congr 1
  · refine Finset.sum_congr rfl fun i hi => ?_
    rw [Finset.mem_range] at hi
    rw [List.take_append_of_le_length hi.le]
  · rw [List.take_append_of_le_length (le_refl _), List.take_length]

theorem sizes_snoc (ops : List Op) (o : Op) : sizes (ops ++ [o]) = sizes ops + |o.val| := by simp [sizes]

theorem total_snoc (x : ℝ) (ops : List Op) (o : Op) : total x (ops ++ [o]) = total x ops + o.val := by
  simp [total, add_assoc]

theorem Floats.snoc {p : Nat} {x : ℝ} {ops : List Op} {o : Op} (h : Floats p x (ops ++ [o])) : Floats p x ops ∧ IsFloat p o.val :=
  ⟨⟨h.1, fun q hq => h.2 q (by simp [hq])⟩, h.2 o (by simp)⟩

theorem abs_eq (x : ℝ) : Comp.abs x = |x| := by
  unfold Comp.abs
  split_ifs with h
  · rw [abs_of_nonneg h]
  · rw [abs_of_neg (by linarith)]

/-! ### exact arithmetic -/

theorem kahanOp_val (rnd : ℝ → ℝ) (k : Num) (o : Op) : kahanOp rnd k o = Kahan.add rnd k o.val := by
  cases o <;> rfl

theorem neumaierOp_val (rnd : ℝ → ℝ) (k : Num) (o : Op) : neumaierOp rnd k o = Neumaier.add rnd k o.val := by
  cases o <;> rfl

theorem kleinOp_val (rnd : ℝ → ℝ) (k : Num3) (o : Op) : kleinOp rnd k o = Klein.add rnd k o.val := by
  cases o with
  | add x => rfl
  | sub x =>
    simp only [kleinOp, Klein.sub, Klein.add, Op.val, abs_eq, abs_neg, sub_eq_add_neg]

/-- In exact arithmetic the three numbers show the exact sum and carry no error. -/
theorem C34_exact_arithmetic (x : ℝ) (ops : List Op) :
    kahan id x ops = { real := total x ops, err := 0 } ∧
    neumaier id x ops = { real := total x ops, err := 0 } ∧
    klein id x ops = { real := total x ops, err := 0, err2 := 0 } := by
  induction ops using List.reverseRecOn with
  | nil => simp [kahan, neumaier, klein, total, Num.of, Num3.of]
  | append_singleton ops o ih =>
    obtain ⟨h1, h2, h3⟩ := ih
    unfold kahan neumaier klein at *
    rw [List.foldl_append, List.foldl_append, List.foldl_append, h1, h2, h3, total_snoc]
    simp only [List.foldl_cons, List.foldl_nil, kahanOp_val, neumaierOp_val, kleinOp_val, Kahan.add, Neumaier.add, Klein.add, id]
    refine ⟨?_, ?_, ?_⟩
    · congr 1 <;> ring
    · congr 1
      · ring
      · split_ifs <;> ring
    · congr 1
      · ring
      · split_ifs <;> ring
      · split_ifs <;> ring

/-! ### rounded arithmetic -/

section
variable {p : Nat} {rnd : ℝ → ℝ}

/-- The error-free transformation shared by `Neumaier` and `Klein`. -/
theorem twoSum (N : Nearest p rnd) (hp : 1 ≤ p) {a b : ℝ} (ha : IsFloat p a) (hb : IsFloat p b) :
    (if Comp.abs b < Comp.abs a then rnd (rnd (a - rnd (a + b)) + b) else rnd (rnd (b - rnd (a + b)) + a)) =
      a + b - rnd (a + b) ∧ IsFloat p (a + b - rnd (a + b)) := by
  rw [abs_eq, abs_eq]
  have key : ∀ a b : ℝ, IsFloat p a → IsFloat p b → |b| ≤ |a| →
      rnd (rnd (a - rnd (a + b)) + b) = a + b - rnd (a + b) ∧ IsFloat p (a + b - rnd (a + b)) := by
    intro a b ha hb h
    obtain ⟨h1, h2⟩ := N.fast hp ha hb h
    have h3 : rnd (a - rnd (a + b)) = a - rnd (a + b) := by
      refine N.exact ?_
      have := h1.neg
      rwa [neg_sub] at this
    refine ⟨?_, h2⟩
    rw [h3]
    have : a - rnd (a + b) + b = a + b - rnd (a + b) := by ring
    rw [this, N.exact h2]
  split_ifs with h
  · exact key a b ha hb h.le
  · have := key b a hb ha (not_lt.1 h)
    rwa [add_comm b a] at this

/-- One operation of a `Neumaier` number. -/
theorem neumaier_step (N : Nearest p rnd) (hp : 1 ≤ p) {k : Num} (x : ℝ) (hk : IsFloat p k.real) :
    (Neumaier.add rnd k x).real + (Neumaier.add rnd k x).err = k.real + rnd (x + k.err) ∧
    IsFloat p (Neumaier.add rnd k x).real ∧ IsFloat p (Neumaier.add rnd k x).err ∧
    |(Neumaier.add rnd k x).err| ≤ |(Neumaier.add rnd k x).real| / 2 ^ p := by
  obtain ⟨h1, h2⟩ := twoSum N hp hk (N.float (x + k.err))
  simp only [Neumaier.add]
  rw [h1]
  refine ⟨by ring, N.float _, h2, ?_⟩
  rw [abs_sub_comm]
  exact N.rel' hp _

/-- What a `Neumaier` number represents after any sequence of operations: the sum of the shown value and of the carried
error differs from the exact sum by the roundings of the corrected operands only; the shown value differs from it by that
and by one rounding of its own size. -/
theorem C34_neumaier (N : Nearest p rnd) (hp : 1 ≤ p) (x : ℝ) (ops : List Op) (h : Floats p x ops) :
    |(neumaier rnd x ops).real + (neumaier rnd x ops).err - total x ops| ≤
      sizes ops / 2 ^ p + shown (fun l => (neumaier rnd x l).real) ops / 2 ^ p / 2 ^ p ∧
    |(neumaier rnd x ops).err| ≤ |(neumaier rnd x ops).real| / 2 ^ p ∧
    |(neumaier rnd x ops).real - total x ops| ≤ |(neumaier rnd x ops).real| / 2 ^ p +
      (sizes ops / 2 ^ p + shown (fun l => (neumaier rnd x l).real) ops / 2 ^ p / 2 ^ p) := by
  have key : |(neumaier rnd x ops).real + (neumaier rnd x ops).err - total x ops| ≤
      sizes ops / 2 ^ p + shown (fun l => (neumaier rnd x l).real) ops / 2 ^ p / 2 ^ p ∧
    |(neumaier rnd x ops).err| ≤ |(neumaier rnd x ops).real| / 2 ^ p ∧ IsFloat p (neumaier rnd x ops).real := by
    induction ops using List.reverseRecOn with
    | nil =>
      refine ⟨?_, ?_, h.1⟩
      · simp [neumaier, total, Num.of, sizes, shown]
      · simp only [neumaier, List.foldl_nil, Num.of, abs_zero]; positivity
    | append_singleton ops o ih =>
      obtain ⟨i1, i2, i3⟩ := ih h.snoc.1
      have hs : neumaier rnd x (ops ++ [o]) = Neumaier.add rnd (neumaier rnd x ops) o.val := by
        simp [neumaier, neumaierOp_val]
      obtain ⟨s1, s2, s3, s4⟩ := neumaier_step N hp o.val i3
      rw [hs]
      refine ⟨?_, s4, s2⟩
      rw [s1, total_snoc, sizes_snoc, shown_snoc]
      set k := neumaier rnd x ops
      have hr := N.rel hp (o.val + k.err)
      have ht : |o.val + k.err| / 2 ^ p ≤ |o.val| / 2 ^ p + |k.real| / 2 ^ p / 2 ^ p := by
        rw [← add_div]
        refine div_le_div_of_nonneg_right ?_ (by positivity)
        linarith [abs_add_le o.val k.err]
      have he : k.real + rnd (o.val + k.err) - (total x ops + o.val) =
          (k.real + k.err - total x ops) + (rnd (o.val + k.err) - (o.val + k.err)) := by ring
      rw [he]
      have hd : ∀ a b : ℝ, (a + b) / 2 ^ p / 2 ^ p = a / 2 ^ p / 2 ^ p + b / 2 ^ p / 2 ^ p := fun a b => by
        rw [add_div, add_div]
      rw [hd, add_div]
      linarith [abs_add_le (k.real + k.err - total x ops) (rnd (o.val + k.err) - (o.val + k.err))]
  refine ⟨key.1, key.2.1, ?_⟩
  set k := neumaier rnd x ops
  have he : k.real - total x ops = (k.real + k.err - total x ops) - k.err := by ring
  rw [he]
  linarith [abs_sub (k.real + k.err - total x ops) k.err, key.1, key.2.1]

/-- One operation of a `Klein` number. -/
theorem klein_step (N : Nearest p rnd) (hp : 1 ≤ p) {k : Num3} {x : ℝ} (hk : IsFloat p k.real) (hx : IsFloat p x) :
    let n := Klein.add rnd k x
    n.real + n.err + n.err2 = k.real + x + rnd (k.err + k.err2) ∧ IsFloat p n.real ∧
    |n.err| ≤ |n.real| / 2 ^ p ∧ |n.err2| ≤ ((1 + 1 / 2 ^ p) * |n.real| + |k.real|) / 2 ^ p := by
  obtain ⟨h1, _⟩ := twoSum N hp hx (N.float (k.err + k.err2))
  obtain ⟨h3, _⟩ := twoSum N hp hk (N.float (x + rnd (k.err + k.err2)))
  have hrl : |(Klein.add rnd k x).real - (k.real + rnd (x + rnd (k.err + k.err2)))| ≤ |(Klein.add rnd k x).real| / 2 ^ p :=
    N.rel' hp _
  have hr2 := N.rel' hp (x + rnd (k.err + k.err2))
  intro n
  have e1 : n.real = rnd (k.real + rnd (x + rnd (k.err + k.err2))) := rfl
  have e2 : n.err = k.real + rnd (x + rnd (k.err + k.err2)) - n.real := h3
  have e3 : n.err2 = x + rnd (k.err + k.err2) - rnd (x + rnd (k.err + k.err2)) := h1
  change |n.real - _| ≤ |n.real| / 2 ^ p at hrl
  set s := rnd (x + rnd (k.err + k.err2))
  refine ⟨by rw [e2, e3]; ring, by rw [e1]; exact N.float _, by rw [e2, abs_sub_comm]; exact hrl, ?_⟩
  rw [e3, abs_sub_comm]
  refine hr2.trans ?_
  refine div_le_div_of_nonneg_right ?_ (by positivity)
  have : s = n.real - (n.real - (k.real + s)) - k.real := by ring
  have hc : (1 + 1 / 2 ^ p) * |n.real| = |n.real| + |n.real| / 2 ^ p := by ring
  rw [hc]
  calc |s| = |n.real - (n.real - (k.real + s)) - k.real| := by rw [← this]
    _ ≤ |n.real - (n.real - (k.real + s))| + |k.real| := abs_sub _ _
    _ ≤ |n.real| + |n.real - (k.real + s)| + |k.real| := by linarith [abs_sub n.real (n.real - (k.real + s))]
    _ ≤ _ := by linarith

/-- The value shown before the last operation (0 before any). -/
def lastShown (value : List Op → ℝ) (ops : List Op) : ℝ := if ops = [] then 0 else |value ops.dropLast|

/-- What a `Klein` number represents after any sequence of operations: the shown value and the two carried errors together
differ from the exact sum only in second order of the rounding unit. -/
theorem C34_klein (N : Nearest p rnd) (hp : 1 ≤ p) (x : ℝ) (ops : List Op) (h : Floats p x ops) :
    |(klein rnd x ops).real + (klein rnd x ops).err + (klein rnd x ops).err2 - total x ops| ≤
      (3 + 1 / 2 ^ p) * shown (fun l => (klein rnd x l).real) ops / 2 ^ p / 2 ^ p ∧
    |(klein rnd x ops).real - total x ops| ≤
      ((2 + 1 / 2 ^ p) * |(klein rnd x ops).real| + lastShown (fun l => (klein rnd x l).real) ops) / 2 ^ p +
      (3 + 1 / 2 ^ p) * shown (fun l => (klein rnd x l).real) ops / 2 ^ p / 2 ^ p := by
  set V := fun l => (klein rnd x l).real with hV
  set u : ℝ := 1 / 2 ^ p with hu
  have hu0 : 0 ≤ u := by positivity
  have hdiv : ∀ a : ℝ, a / 2 ^ p = a * u := fun a => by rw [hu]; ring
  simp only [hdiv]
  have key : |(klein rnd x ops).real + (klein rnd x ops).err + (klein rnd x ops).err2 - total x ops| + u * u * lastShown V ops ≤
      (3 + u) * shown V ops * u * u ∧ IsFloat p (klein rnd x ops).real ∧
      |(klein rnd x ops).err| ≤ |(klein rnd x ops).real| * u ∧
      |(klein rnd x ops).err2| ≤ ((1 + u) * |(klein rnd x ops).real| + lastShown V ops) * u := by
    induction ops using List.reverseRecOn with
    | nil =>
      refine ⟨?_, h.1, ?_, ?_⟩
      · simp [klein, total, Num3.of, lastShown, shown]
      · simp only [klein, List.foldl_nil, Num3.of, abs_zero]; positivity
      · simp only [klein, List.foldl_nil, Num3.of, abs_zero, lastShown, if_pos]; positivity
    | append_singleton ops o ih =>
      obtain ⟨i1, i2, i3, i4⟩ := ih h.snoc.1
      have hs : klein rnd x (ops ++ [o]) = Klein.add rnd (klein rnd x ops) o.val := by
        simp [klein, kleinOp_val]
      obtain ⟨s1, s2, s3, s4⟩ := klein_step N hp i2 h.snoc.2
      have hl : lastShown V (ops ++ [o]) = |V ops| := by simp [lastShown]
      rw [hdiv] at s3 s4
      rw [← hu] at s4
      rw [hs]
      refine ⟨?_, s2, s3, ?_⟩
      · rw [s1, total_snoc, shown_snoc, hl]
        set k := klein rnd x ops with hk
        have hVk : V ops = k.real := rfl
        rw [hVk]
        have hr := N.rel hp (k.err + k.err2)
        rw [hdiv] at hr
        have he : k.real + o.val + rnd (k.err + k.err2) - (total x ops + o.val) =
          (k.real + k.err + k.err2 - total x ops) + (rnd (k.err + k.err2) - (k.err + k.err2)) := by ring
        rw [he]
        have h1 := abs_add_le (k.real + k.err + k.err2 - total x ops) (rnd (k.err + k.err2) - (k.err + k.err2))
        have h2 : |k.err + k.err2| ≤ |k.real| * u + ((1 + u) * |k.real| + lastShown V ops) * u :=
          (abs_add_le _ _).trans (by linarith)
        have h3 := mul_le_mul_of_nonneg_right h2 hu0
        nlinarith
      · rw [hl]; exact s4
  have hls : 0 ≤ lastShown V ops := by unfold lastShown; split_ifs <;> positivity
  have h0 : 0 ≤ u * u * lastShown V ops := by positivity
  refine ⟨by linarith [key.1], ?_⟩
  obtain ⟨k1, _, k3, k4⟩ := key
  set k := klein rnd x ops
  have he : k.real - total x ops = (k.real + k.err + k.err2 - total x ops) - (k.err + k.err2) := by ring
  rw [he]
  nlinarith [abs_sub (k.real + k.err + k.err2 - total x ops) (k.err + k.err2), abs_add_le k.err k.err2]

/-- Each operand is smaller than the value shown before it (by one rounding unit), or that value is 0. -/
def Small (p : Nat) (value : List Op → ℝ) (ops : List Op) : Prop :=
  ∀ i o, ops[i]? = some o → value (ops.take i) = 0 ∨ |o.val| ≤ (1 - 1 / 2 ^ p) * |value (ops.take i)|

theorem Small.snoc {value : List Op → ℝ} {ops : List Op} {o : Op} (h : Small p value (ops ++ [o])) :
    Small p value ops ∧ (value ops = 0 ∨ |o.val| ≤ (1 - 1 / 2 ^ p) * |value ops|) := by
  constructor
  · intro i q hq
    have hi := (List.getElem?_eq_some_iff.1 hq).1
    have := h i q (by rw [List.getElem?_append_left hi]; exact hq)
    rwa [List.take_append_of_le_length hi.le] at this
  · have := h ops.length o (by simp)
    rwa [List.take_append_of_le_length (le_refl _), List.take_length] at this

/-- What a `Kahan` number (its error is subtracted) represents when every operand is smaller than the value it is added
to.  Without that condition see `C34_kahan_loses`. -/
theorem C34_kahan_partial (N : Nearest p rnd) (hp : 1 ≤ p) (x : ℝ) (ops : List Op) (h : Floats p x ops)
    (hsm : Small p (fun l => (kahan rnd x l).real) ops) :
    |(kahan rnd x ops).real - (kahan rnd x ops).err - total x ops| ≤
      sizes ops / 2 ^ p + shown (fun l => (kahan rnd x l).real) ops / 2 ^ p / 2 ^ p ∧
    |(kahan rnd x ops).err| ≤ |(kahan rnd x ops).real| / 2 ^ p ∧
    |(kahan rnd x ops).real - total x ops| ≤ |(kahan rnd x ops).real| / 2 ^ p +
      (sizes ops / 2 ^ p + shown (fun l => (kahan rnd x l).real) ops / 2 ^ p / 2 ^ p) := by
  have key : |(kahan rnd x ops).real - (kahan rnd x ops).err - total x ops| ≤
      sizes ops / 2 ^ p + shown (fun l => (kahan rnd x l).real) ops / 2 ^ p / 2 ^ p ∧
    |(kahan rnd x ops).err| ≤ |(kahan rnd x ops).real| / 2 ^ p ∧ IsFloat p (kahan rnd x ops).real := by
    induction ops using List.reverseRecOn with
    | nil =>
      refine ⟨?_, ?_, h.1⟩
      · simp [kahan, total, Num.of, sizes, shown]
      · simp only [kahan, List.foldl_nil, Num.of, abs_zero]; positivity
    | append_singleton ops o ih =>
      obtain ⟨i1, i2, i3⟩ := ih h.snoc.1 hsm.snoc.1
      have hs : kahan rnd x (ops ++ [o]) = Kahan.add rnd (kahan rnd x ops) o.val := by
        simp [kahan, kahanOp_val]
      have hso := hsm.snoc.2
      rw [hs]
      set k := kahan rnd x ops with hk
      have hle : |rnd (o.val - k.err)| ≤ |k.real| ∨ k.real = 0 ∧ k.err = 0 := by
        rcases hso with h0 | h0
        · change k.real = 0 at h0
          right
          refine ⟨h0, ?_⟩
          rw [h0] at i2
          simpa using i2
        · left
          change |o.val| ≤ (1 - 1 / 2 ^ p) * |k.real| at h0
          refine N.abs_le_float i3 ?_
          have h1 := abs_sub o.val k.err
          have h2 : (1 - 1 / 2 ^ p) * |k.real| = |k.real| - |k.real| / 2 ^ p := by ring
          linarith
      have hfl : (Kahan.add rnd k o.val).err = rnd (k.real + rnd (o.val - k.err)) - (k.real + rnd (o.val - k.err)) := by
        change rnd (rnd (rnd (k.real + rnd (o.val - k.err)) - k.real) - rnd (o.val - k.err)) = _
        rcases hle with hle | ⟨h0, h00⟩
        · obtain ⟨f1, f2⟩ := N.fast hp i3 (N.float (o.val - k.err)) hle
          rw [N.exact f1]
          have : rnd (k.real + rnd (o.val - k.err)) - k.real - rnd (o.val - k.err) =
              -(k.real + rnd (o.val - k.err) - rnd (k.real + rnd (o.val - k.err))) := by ring
          rw [this, N.exact f2.neg]; ring
        · rw [h0, h00]
          simp only [sub_zero, zero_add]
          have h1 := N.exact h.snoc.2
          rw [h1, h1, h1, sub_self, N.exact IsFloat.zero]
      have hre : (Kahan.add rnd k o.val).real = rnd (k.real + rnd (o.val - k.err)) := rfl
      refine ⟨?_, ?_, ?_⟩
      · rw [hfl, hre, total_snoc, sizes_snoc, shown_snoc]
        have hr := N.rel hp (o.val - k.err)
        have ht : |o.val - k.err| / 2 ^ p ≤ |o.val| / 2 ^ p + |k.real| / 2 ^ p / 2 ^ p := by
          rw [← add_div]
          refine div_le_div_of_nonneg_right ?_ (by positivity)
          linarith [abs_sub o.val k.err]
        have he : rnd (k.real + rnd (o.val - k.err)) - (rnd (k.real + rnd (o.val - k.err)) - (k.real + rnd (o.val - k.err))) -
            (total x ops + o.val) = (k.real - k.err - total x ops) + (rnd (o.val - k.err) - (o.val - k.err)) := by ring
        rw [he]
        have hd : ∀ a b : ℝ, (a + b) / 2 ^ p / 2 ^ p = a / 2 ^ p / 2 ^ p + b / 2 ^ p / 2 ^ p := fun a b => by
          rw [add_div, add_div]
        rw [hd, add_div]
        linarith [abs_add_le (k.real - k.err - total x ops) (rnd (o.val - k.err) - (o.val - k.err))]
      · rw [hfl, hre]; exact N.rel' hp _
      · rw [hre]; exact N.float _
  refine ⟨key.1, key.2.1, ?_⟩
  set k := kahan rnd x ops
  have he : k.real - total x ops = (k.real - k.err - total x ops) + k.err := by ring
  rw [he]
  linarith [abs_add_le (k.real - k.err - total x ops) k.err, key.1, key.2.1]

/-! ### what is lost -/

/-- A large number next to which 1 is rounded away. -/
theorem big_sub (N : Nearest p rnd) (hp : 1 ≤ p) : rnd ((2:ℝ) ^ (p + 2) - 1) = 2 ^ (p + 2) ∧
    rnd ((2:ℝ) ^ (p + 2) + 1) = 2 ^ (p + 2) ∧ rnd (-(2:ℝ) ^ (p + 2) + 1) = -2 ^ (p + 2) := by
  have hf : IsFloat p ((2:ℝ) ^ (p + 2)) := by
    rw [← zpow_natCast]; exact IsFloat.pow hp _
  obtain ⟨q, rfl⟩ : ∃ q, p = q + 1 := ⟨p - 1, by omega⟩
  have hz : (2:ℝ) ^ (((q + 1 : ℕ) : ℤ) + 1) = 2 ^ (q + 2) := by
    rw [← zpow_natCast]; congr 1
  have hB : (2:ℝ) ^ (q + 1 + 2) = 4 * 2 ^ (q + 1) := by rw [pow_add]; norm_num; ring
  have hC : (2:ℝ) ^ (q + 2) = 2 * 2 ^ (q + 1) := by rw [pow_succ]; ring
  have h1 : (1:ℝ) ≤ 2 ^ (q + 1) := one_le_pow₀ (by norm_num)
  have key : ∀ y : ℝ, 2 ^ (q + 1 + 2) - 1 ≤ |y| → ∃ m : ℤ, rnd y = 4 * (m:ℝ) := by
    intro y hy
    obtain ⟨m, hm⟩ := N.multiple_of_le hp (x := y) (e := 1) (by rw [hz]; linarith)
    exact ⟨m, by rw [hm]; norm_num; ring⟩
  have fin : ∀ (m : ℤ) (s t : ℝ), |4 * (m:ℝ) - (4 * t + s)| ≤ |4 * t - (4 * t + s)| → |s| = 1 → (∃ n : ℤ, t = n) → 4 * (m:ℝ) = 4 * t := by
    rintro m s t h hs ⟨n, rfl⟩
    have h0 : (4 * (n:ℝ) - (4 * n + s)) = -s := by ring
    rw [h0, abs_neg, hs] at h
    have h1 := abs_le.1 h
    have h2 := abs_le.1 hs.le
    have h3 : (m:ℝ) - n < 1 := by linarith
    have h4 : -1 < (m:ℝ) - n := by linarith
    have h5 : m - n < 1 := by exact_mod_cast h3
    have h6 : -1 < m - n := by exact_mod_cast h4
    have : m = n := by omega
    rw [this]
  have hcast : ∃ n : ℤ, (2:ℝ) ^ (q + 1) = n := ⟨2 ^ (q + 1), by push_cast; rfl⟩
  refine ⟨?_, ?_, ?_⟩
  · obtain ⟨m, hm⟩ := key (2 ^ (q + 1 + 2) - 1) (by rw [abs_of_nonneg (by linarith)])
    have h2 := N.nearest (2 ^ (q + 1 + 2) - 1) _ hf
    rw [hm, hB] at h2 ⊢
    exact fin m (-1) _ (by simpa only [sub_eq_add_neg] using h2) (by norm_num) hcast
  · obtain ⟨m, hm⟩ := key (2 ^ (q + 1 + 2) + 1) (by rw [abs_of_nonneg (by positivity)]; linarith)
    have h2 := N.nearest (2 ^ (q + 1 + 2) + 1) _ hf
    rw [hm, hB] at h2 ⊢
    exact fin m 1 _ h2 (by norm_num) hcast
  · obtain ⟨m, hm⟩ := key (-2 ^ (q + 1 + 2) + 1) (by rw [abs_of_nonpos (by linarith)]; linarith)
    have h2 := N.nearest (-2 ^ (q + 1 + 2) + 1) _ hf.neg
    have e : -(2:ℝ) ^ (q + 1 + 2) = 4 * -2 ^ (q + 1) := by rw [hB]; ring
    rw [hm, e] at h2
    rw [hm, e]
    exact fin m 1 _ h2 (by norm_num) (by obtain ⟨n, hn⟩ := hcast; exact ⟨-n, by rw [hn]; push_cast; ring⟩)

theorem IsFloat.one (hp : 1 ≤ p) : IsFloat p 1 := by simpa using IsFloat.pow hp 0

theorem IsFloat.big (hp : 1 ≤ p) : IsFloat p ((2:ℝ) ^ (p + 2)) := by
    rw [← zpow_natCast]; exact IsFloat.pow hp _

theorem one_lt_big (p : Nat) : (1:ℝ) < 2 ^ (p + 2) := one_lt_pow₀ (by norm_num) (by omega)

/-- `1 + B - B` with a large `B`: the `Kahan` and the `Neumaier` number show 0 and carry no error - the 1 is lost; the
`Klein` number still carries it. -/
theorem C34_kahan_loses (N : Nearest p rnd) (hp : 1 ≤ p) :
    let ops := [Op.add (2 ^ (p + 2)), Op.sub (2 ^ (p + 2))]
    Floats p 1 ops ∧ total 1 ops = 1 ∧
    kahan rnd 1 ops = { real := 0, err := 0 } ∧
    neumaier rnd 1 ops = { real := 0, err := 0 } ∧
    klein rnd 1 ops = { real := 0, err := 0, err2 := 1 } := by
  obtain ⟨b1, b2, b3⟩ := big_sub N hp
  have f1 := N.exact (IsFloat.one hp)
  have fB := N.exact (IsFloat.big hp)
  have fB' := N.exact (IsFloat.big hp).neg
  have f0 := N.exact (IsFloat.zero (p := p))
  have hlt := one_lt_big p
  have hpos : (0:ℝ) < 2 ^ (p + 2) := by positivity
  have c1 : ¬ Comp.abs (2 ^ (p + 2)) < Comp.abs (1:ℝ) := by
    rw [abs_eq, abs_eq, abs_of_pos hpos, abs_one]; linarith
  have c2 : ¬ Comp.abs (-2 ^ (p + 2)) < Comp.abs ((2:ℝ) ^ (p + 2)) := by
    rw [abs_eq, abs_eq, abs_neg]; linarith
  have c3 : Comp.abs (0:ℝ) < Comp.abs ((2:ℝ) ^ (p + 2)) := by
    rw [abs_eq, abs_eq, abs_of_pos hpos, abs_zero]; linarith
  have c4 : Comp.abs (1:ℝ) < Comp.abs ((2:ℝ) ^ (p + 2)) := by
    rw [abs_eq, abs_eq, abs_of_pos hpos, abs_one]; linarith
  intro ops
  refine ⟨⟨IsFloat.one hp, ?_⟩, ?_, ?_, ?_, ?_⟩
  · intro o ho
    simp only [ops, List.mem_cons, List.not_mem_nil, or_false] at ho
    rcases ho with rfl | rfl
    · exact IsFloat.big hp
    · exact (IsFloat.big hp).neg
  · simp [ops, total, Op.val]
  · simp only [ops, kahan, List.foldl_cons, List.foldl_nil, kahanOp, Kahan.add, Kahan.sub, Num.of, sub_zero, fB, b1, b2, fB',
      add_comm (1:ℝ), sub_self, f0, add_neg_cancel, zero_sub]
  · simp only [ops, neumaier, List.foldl_cons, List.foldl_nil, neumaierOp, Neumaier.add, Neumaier.sub, Num.of, add_zero, fB, b2, b3,
      add_comm (1:ℝ), sub_self, f0, add_neg_cancel, c1, c2, if_false, sub_zero, fB', neg_add_cancel, zero_add, f1]
  · simp only [ops, klein, List.foldl_cons, List.foldl_nil, kleinOp, Klein.add, Klein.sub, Num3.of, add_zero, f0, fB, b2, b3, f1,
      add_comm (1:ℝ), sub_self, add_neg_cancel, c1, c2, c3, c4, if_false, if_true, sub_zero, fB', neg_add_cancel, zero_add]

/-- `k /= c` leaves the carried error unscaled: `(B + 1) / B + 0` shows 2 instead of `1 + 1/B`. -/
theorem C34_scaling_wrong (N : Nearest p rnd) (hp : 1 ≤ p) :
    (Kahan.add rnd (Num.div rnd (Kahan.add rnd (Num.of (2 ^ (p + 2))) 1) (2 ^ (p + 2))) 0).real = 2 ∧
    (Neumaier.add rnd (Num.div rnd (Neumaier.add rnd (Num.of (2 ^ (p + 2))) 1) (2 ^ (p + 2))) 0).real = 2 := by
  obtain ⟨b1, b2, b3⟩ := big_sub N hp
  have f1 := N.exact (IsFloat.one hp)
  have f1' := N.exact (IsFloat.one hp).neg
  have f2 : rnd 2 = 2 := N.exact (by simpa using IsFloat.pow hp 1)
  have f0 := N.exact (IsFloat.zero (p := p))
  have hpos : (0:ℝ) < 2 ^ (p + 2) := by positivity
  have hd : (2:ℝ) ^ (p + 2) / 2 ^ (p + 2) = 1 := div_self hpos.ne'
  have c4 : Comp.abs (1:ℝ) < Comp.abs ((2:ℝ) ^ (p + 2)) := by
    rw [abs_eq, abs_eq, abs_of_pos hpos, abs_one]; exact one_lt_big p
  have h2 : (1:ℝ) + 1 = 2 := by norm_num
  constructor
  · simp only [Kahan.add, Num.div, Num.of, sub_zero, f1, b2, sub_self, f0, zero_sub, f1', hd, sub_neg_eq_add, zero_add, h2, f2]
  · simp only [Neumaier.add, Num.div, Num.of, add_zero, f1, b2, sub_self, f0, zero_add, hd, c4, if_true, h2, f2]

/-- `-k` forgets the carried error: with `k = B + 1`, `-k + B` shows 0 instead of -1, and no error is carried. -/
theorem C34_negation_wrong (N : Nearest p rnd) (hp : 1 ≤ p) :
    Kahan.add rnd (Kahan.add rnd (Num.of (2 ^ (p + 2))) 1).neg (2 ^ (p + 2)) = { real := 0, err := 0 } ∧
    Neumaier.add rnd (Neumaier.add rnd (Num.of (2 ^ (p + 2))) 1).neg (2 ^ (p + 2)) = { real := 0, err := 0 } := by
  obtain ⟨b1, b2, b3⟩ := big_sub N hp
  have f1 := N.exact (IsFloat.one hp)
  have fB := N.exact (IsFloat.big hp)
  have f0 := N.exact (IsFloat.zero (p := p))
  have hpos : (0:ℝ) < 2 ^ (p + 2) := by positivity
  constructor
  · simp only [Kahan.add, Num.neg, Num.of, sub_zero, f1, b2, sub_self, f0, fB, neg_add_cancel, zero_sub, neg_neg]
  · simp only [Neumaier.add, Num.neg, Num.of, add_zero, f1, b2, f0, fB, neg_add_cancel, sub_zero, add_neg_cancel]
    simp only [N.exact (IsFloat.big hp).neg, neg_add_cancel, f0, ite_self]

/-- Reading a number into a `Klein` number that carries a second error: reading 4 and adding 0 shows 5. -/
theorem C34_klein_read_wrong (N : Nearest p rnd) (hp : 3 ≤ p) :
    (Klein.add rnd ((klein rnd 1 [Op.add (2 ^ (p + 2)), Op.sub (2 ^ (p + 2))]).read 4) 0).real = 5 := by
  have hp1 : 1 ≤ p := by omega
  rw [(C34_kahan_loses N hp1).2.2.2.2]
  have f1 := N.exact (IsFloat.one hp1)
  have f5 : rnd 5 = 5 := by
    refine N.exact ⟨5, 0, ?_, by norm_num⟩
    have : (2:ℤ) ^ 3 ≤ 2 ^ p := pow_le_pow_right₀ (by norm_num) hp
    norm_num at this ⊢
    linarith
  have h : (4:ℝ) + 1 = 5 := by norm_num
  simp only [Klein.add, Num3.read, zero_add, f1, h, f5]

/-- The hypotheses are met: `double` numbers (53 bits), `1 + 1/2 - 1/4`. -/
example : Nearest 53 (roundTo 53) ∧ Floats 53 1 [.add (1 / 2), .sub (1 / 4)] :=
  ⟨roundTo_nearest (by norm_num), ⟨1, 0, by norm_num, by norm_num⟩, by
    intro o ho
    simp only [List.mem_cons, List.not_mem_nil, or_false] at ho
    rcases ho with rfl | rfl
    · exact ⟨1, -1, by norm_num, by norm_num [Op.val]⟩
    · exact ⟨-1, -2, by norm_num, by norm_num [Op.val]⟩⟩

/-- The condition of `C34_kahan_partial` is met, with a rounding of `1 + 1/2`. -/
example (hp : 1 ≤ p) : Small p (fun l => (kahan rnd 1 l).real) [.add (1 / 2)] := by
  intro i o h
  have hi : i = 0 := by
    have := (List.getElem?_eq_some_iff.1 h).1
    simpa using this
  subst hi
  simp only [List.getElem?_cons_zero, Option.some.injEq] at h
  subst h
  right
  have : (2:ℝ) ^ 1 ≤ 2 ^ p := pow_le_pow_right₀ (by norm_num) hp
  have h2 : 1 / (2:ℝ) ^ p ≤ 1 / 2 := by
    refine one_div_le_one_div_of_le (by norm_num) (by simpa using this)
  simp only [Op.val, List.take_zero, kahan, List.foldl_nil, Num.of, abs_one, mul_one]
  rw [abs_of_pos (by norm_num)]
  linarith
end

end SpaceHub.Props
